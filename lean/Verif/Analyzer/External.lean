import Verif.Ir.Resolve

/-!
# Whether a path stands for an item of another crate

Models `is_external_crate_item` and the collection of imports that it uses
(`crates/analyzer/src/resolution.rs:76-229,292-411`). Paths are lists of names as in
`Verif.Ir.Resolve`; hash sets and maps are lists, in the order in which they happen to be visited.
-/

namespace Verif.Analyzer.External

open Verif.Ir.Resolve

/-- Imported paths, and aliases with their paths (the pair returned by
`external_crate_uses_and_aliases_in_scope`, `crates/analyzer/src/resolution.rs:307-310`). -/
structure Scope where
  uses : List Path
  aliases : List (String × Path)
deriving DecidableEq, Repr

/-- Nothing. As used in `crates/analyzer/src/resolution.rs:307-351`. -/
def Scope.empty : Scope := ⟨[], []⟩

/-- `HashMap::insert`. As used in `crates/analyzer/src/resolution.rs:307-351`. -/
def put (l : List (String × Path)) (e : String × Path) : List (String × Path) :=
  e :: l.filter fun x => x.1 != e.1

/-- `HashMap::extend`. As used in `crates/analyzer/src/resolution.rs:307-351`. -/
def putAll (l es : List (String × Path)) : List (String × Path) := es.foldl put l

/-- Both `extend`s of `crates/analyzer/src/resolution.rs:323-324,381-382,403-404`, for all results. -/
def join (s : Scope) (rs : List Scope) : Scope :=
  ⟨s.uses ++ rs.flatMap Scope.uses, rs.foldl (fun a r => putAll a r.aliases) s.aliases⟩

/-- `simple_use_paths_and_aliases_in_scope`, `crates/ir/src/tree/ast_ext.rs:265-306`, for a module. -/
def scopeOf (root : Mod) (m : List Nat) : Scope :=
  ⟨((usesAt root m).filter fun u => u.alias_.isNone).map (·.path),
    putAll [] ((usesAt root m).filterMap fun u => u.alias_.map fun a => (a, u.path))⟩

/-- `is_crate_item_path`, `crates/analyzer/src/resolution.rs:300-304`. -/
def crateItem (crates : List String) (p : Path) : Bool := p.segs.head?.any (crates.contains ·)

/-- All results, if every call finishes. As used in `crates/analyzer/src/resolution.rs:314-336`. -/
def collect (f : α → Option β) : List α → Option (List β)
  | [] => some []
  | x :: xs =>
    match f x with
    | none => none
    | some y => (collect f xs).map (y :: ·)

/-- The path put in place of that of an alias, `crates/analyzer/src/resolution.rs:337-346`. -/
def resolved (e : String × Path) (r : Scope) : Option (String × Path) :=
  (r.uses.head?.or (e.2.segs.getLast?.bind fun n =>
    (r.aliases.find? fun x => x.1 == n).map (·.2))).map fun p => (e.1, p)

/-- The body of the second loop, `crates/analyzer/src/resolution.rs:327-348`. -/
def aliasStep (crates : List String) (rec : Path → Option Scope) (e : String × Path) :
    Option (Option (String × Path)) :=
  if crateItem crates e.2 then some (some e) else (rec e.2).map (resolved e)

/-- `external_crate_uses_and_aliases_in_scope`, `crates/analyzer/src/resolution.rs:307-351`, where `rec`
is `match_path_to_external_crate_in_scope`. The loops visit each path that is not of one of the crates
once, since all that is added is of one of them. -/
def finish (crates : List String) (rec : Path → Option Scope) (s : Scope) : Option Scope :=
  match collect rec (s.uses.filter fun p => !crateItem crates p) with
  | none => none
  | some rs =>
    let t := join ⟨s.uses.filter (crateItem crates), s.aliases⟩ rs
    match collect (aliasStep crates rec) t.aliases with
    | none => none
    | some es => some ⟨t.uses, es.filterMap id⟩

/-- The body of the loop over resolved paths, `crates/analyzer/src/resolution.rs:384-406`. -/
def matchStep (crates : List String) (name : String) (path : Path) (rec : Path → Option Scope)
    (p : Path) : Option Scope :=
  if crateItem crates p then
    some (if p.segs.getLast? = some name then ⟨[p], []⟩ else ⟨[], [(name, p)]⟩)
  else if p ≠ path then rec p
  else some .empty

mutual

/-- `external_crate_uses_and_aliases_in_scope`, `crates/analyzer/src/resolution.rs:307-351`, with fuel:
`none` when it runs out. -/
def external (root : Mod) (crates : List String) : Nat → List Nat → Option Scope
  | 0, _ => none
  | fuel + 1, m => finish crates (fun p => matchPath root crates fuel p m) (scopeOf root m)

/-- `match_path_to_external_crate_in_scope`, `crates/analyzer/src/resolution.rs:354-411`, with fuel. -/
def matchPath (root : Mod) (crates : List String) : Nat → Path → List Nat → Option Scope
  | 0, _, _ => none
  | fuel + 1, path, m =>
    match path.segs.getLast? with
    | none => some .empty
    | some name =>
      if path.segs.dropLast = [] then some .empty
      else
        match resolveQualifier root fuel ⟨path.leading, path.segs.dropLast⟩ m with
        | none => none
        | some none => some .empty
        | some (some m') =>
          if name = "*" then external root crates fuel m'
          else
            (collect (matchStep crates name path fun p => matchPath root crates fuel p m')
              (candidates name (usesAt root m'))).map (join .empty)

end

/-- `path_has_qualifier`, `crates/analyzer/src/resolution.rs:87-96`, for one qualifier. -/
def hasQualifier (path : Path) (q : List String) (strict : Bool) : Bool :=
  path.segs.dropLast != [] && path.segs.dropLast == q && (!strict || !path.leading)

/-- `is_item_in_scope`, `crates/analyzer/src/resolution.rs:122-127`, for one qualifier. -/
def inScope (s : Scope) (x : String) (q : List String) : Bool :=
  s.uses.any fun p => p.segs == q ++ [x] || p.segs == q ++ ["*"]

/-- `item_aliases!`, `crates/analyzer/src/resolution.rs:129-137`, for one qualifier. -/
def aliasesOf (s : Scope) (x : String) (q : List String) : List String :=
  (s.aliases.filter fun e => e.2.segs == q ++ [x] || e.2.segs == q ++ ["*"]).map (·.1)

/-- The aliases of a crate, `crates/analyzer/src/resolution.rs:183-189`. -/
def crateAliases (s : Scope) (x : String) : List String :=
  (s.aliases.filter fun e => e.2.segs == [x]).map (·.1)

/-- One step of `sub_qualifier_or_alias_in_scope`, `crates/analyzer/src/resolution.rs:146-207`: the
qualifier is split at `anchor`. -/
def subAt (s : Scope) (path : Path) (pre : List String) (anchor : String) (post : List String) :
    Bool :=
  (hasQualifier path (anchor :: post) (pre != []) && (pre == [] || inScope s anchor pre)) ||
    (if pre = [] then crateAliases s anchor else aliasesOf s anchor pre).any
      fun a => hasQualifier path (a :: post) (pre != [])

/-- `sub_qualifier_or_alias_in_scope`, for one qualifier; `pre` is what comes before.
As used in `crates/analyzer/src/resolution.rs:139-207`. -/
def subAny (s : Scope) (path : Path) : List String → List String → Bool
  | _, [] => false
  | pre, x :: xs => subAt s path pre x xs || subAny s path (pre ++ [x]) xs

/-- Everything but the last test of `is_external_crate_item`,
`crates/analyzer/src/resolution.rs:139-207,224-226`, given the imports. -/
def isHere (s : Scope) (name : String) (path : Path) (quals : List (List String)) : Bool :=
  (path.segs.getLast? == some name &&
    ((path.segs.dropLast == [] && quals.any (inScope s name)) ||
      quals.any (subAny s path []))) ||
  (path.segs.dropLast == [] &&
    quals.any fun q => (aliasesOf s name q).any fun a => path.segs.getLast? == some a)

/-- The first test of `is_external_crate_item`, `crates/analyzer/src/resolution.rs:99`. -/
def isDirect (name : String) (path : Path) (quals : List (List String)) : Bool :=
  path.segs.getLast? == some name && quals.any fun q => hasQualifier path q false

/-- The first names of the qualifiers, `crates/analyzer/src/resolution.rs:101-104`. -/
def cratesOf (quals : List (List String)) : List String := quals.filterMap List.head?

/-- A module as the reference node of a resolution.
As used in `crates/analyzer/src/resolution.rs:292-304`. -/
def refOf (root : Mod) (m : List Nat) : Ref :=
  ⟨m, if m = [] then none else some (m.dropLast, usesAt root m)⟩

/-- `is_external_crate_item`, `crates/analyzer/src/resolution.rs:76-229`, with fuel. The items of `root`
are its type aliases, and `ty` gives the path of the type of each (if it is a path). `m` is the module of
the reference node. -/
def isExternal (root : Mod) (ty : List Nat → String → Option Path) (name : String)
    (quals : List (List String)) : Nat → Path → List Nat → Option Bool
  | 0, _, _ => none
  | fuel + 1, path, m =>
    if isDirect name path quals then some true
    else
      match external root (cratesOf quals) fuel m with
      | none => none
      | some s =>
        if isHere s name path quals then some true
        else
          match resolveItem root fuel path (refOf root m) with
          | none => none
          | some none => some false
          | some (some (m', x)) =>
            match ty m' x with
            | none => some false
            | some p => isExternal root ty name quals fuel p m'

end Verif.Analyzer.External
