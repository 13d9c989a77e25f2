import Verif.Analyzer.Hints
import Verif.Ir.MetaProps
import Verif.Ir.TreeProps

/-!
# C52: inlay hints
-/

namespace Verif.Analyzer
open Verif.Ir

/-! ## Specification -/

/-- An argument of the attribute, or nested (at any depth) in one. -/
inductive ArgIn (attr : InkAttr) : Arg → Prop
  | top (a : Arg) : a ∈ attr.args → ArgIn attr a
  | nested (a b : Arg) : ArgIn attr a → a.nested = some b → ArgIn attr b

/-- The type of the value of an argument, as documented for ink! (4 and 5). -/
def documentedType (v : Version) (onConstructor : Bool) : ArgKind → Option String
  | .additionalContracts => some "&str"
  | .backend => some "node | runtime_only"
  | .derive => some "bool"
  | .env => some "impl Environment"
  | .environment => some "impl Environment"
  | .extension => match v with
    | .v4 => some "u32"
    | .v5 => some "u16"
  | .function => some "u16"
  | .handleStatus => some "bool"
  | .keepAttr => some "&str"
  | .namespace => some "&str"
  | .sandbox => some "impl drink::Sandbox"
  | .selector => match v, onConstructor with
    | .v5, false => some "u32 | _ | @"
    | _, _ => some "u32 | _"
  | .signatureTopic => some "&str"
  | .url => some "&str"
  | _ => none

/-- What is said about the value of an argument besides its type. -/
def documentedDetail : ArgKind → Option String
  | .additionalContracts => some "A space separated list."
  | .backend => some "node | runtime_only"
  | .env => some "A `ink::env::Environment` implementation."
  | .environment => some "A `ink::env::Environment` implementation."
  | .keepAttr => some "A comma separated list."
  | .namespace => some "A valid Rust identifier."
  | .sandbox => some "A `drink::Sandbox` implementation."
  | .signatureTopic => some "A 32 byte hex string."
  | .url => some "A URL."
  | _ => none

/-- The argument lies in the requested range. -/
def InRange (range : Option (Nat × Nat)) (a : Arg) : Prop :=
  ∀ r, range = some r → ∃ t, a.item.textRange = some t ∧ r.1 ≤ t.1 ∧ t.2 ≤ r.2

/-- The hint for an argument: the type of its value, right after its name. -/
def HintFor (v : Version) (attr : InkAttr) (a : Arg) (h : Hint) : Prop :=
  ∃ name : Placed, a.item.name = .ok name ∧
    documentedType v (attr.kind = .arg .constructor) a.kind = some h.label ∧
    h.position = name.stop ∧ h.range = (name.start, name.stop) ∧
    h.detail = documentedDetail a.kind

/-! ## Lemmas -/

theorem display_documented (v : Version) (c : Bool) (k : ArgKind) :
    documentedType v c k =
      if (hintValueKind v c k).display = "" then none else some (hintValueKind v c k).display := by
  cases k <;> cases v <;> cases c <;> decide

theorem detail_documented (v : Version) (c : Bool) (k : ArgKind) :
    (if valueDetail (hintValueKind v c k) != "" then some (valueDetail (hintValueKind v c k))
      else none) = documentedDetail k := by
  cases k <;> cases v <;> cases c <;> decide

theorem appendAll_some {f : α → Option (List β)} {l : List α} {r : List β}
    (h : appendAll f l = some r) :
    (∀ x ∈ l, ∃ hs, f x = some hs) ∧ ∀ y, y ∈ r ↔ ∃ x ∈ l, ∃ hs, f x = some hs ∧ y ∈ hs := by
  induction l generalizing r with
  | nil =>
    obtain rfl := Option.some.inj h
    simp
  | cons x l ih =>
    rw [appendAll, Option.bind_eq_some_iff] at h
    obtain ⟨hs, hx, h⟩ := h
    rw [Option.map_eq_some_iff] at h
    obtain ⟨r', hr', rfl⟩ := h
    obtain ⟨i1, i2⟩ := ih hr'
    refine ⟨?_, fun y => ?_⟩
    · intro z hz
      rcases List.mem_cons.1 hz with rfl | hz
      · exact ⟨hs, hx⟩
      · exact i1 z hz
    · rw [List.mem_append, i2 y]
      constructor
      · rintro (h | ⟨z, hz, hs', h1, h2⟩)
        · exact ⟨x, by simp, hs, hx, h⟩
        · exact ⟨z, by simp [hz], hs', h1, h2⟩
      · rintro ⟨z, hz, hs', h1, h2⟩
        rcases List.mem_cons.1 hz with rfl | hz
        · rw [hx] at h1
          obtain rfl := Option.some.inj h1
          exact .inl h2
        · exact .inr ⟨z, hz, hs', h1, h2⟩

theorem appendAll_isSome {f : α → Option (List β)} {l : List α}
    (h : ∀ x ∈ l, (f x).isSome = true) : (appendAll f l).isSome = true := by
  induction l with
  | nil => rfl
  | cons x l ih =>
    rw [appendAll]
    obtain ⟨hs, hx⟩ := Option.isSome_iff_exists.1 (h x (by simp))
    rw [hx, Option.bind_some, Option.isSome_map]
    exact ih fun y hy => h y (by simp [hy])

/-- A kind other than `unknown` comes from a valid name. -/
theorem name_of_kind (m : Meta) (h : (Arg.ofMeta m).kind ≠ .unknown) :
    ∃ p, m.name = .ok p := by
  unfold Arg.ofMeta at h
  cases hn : m.name with
  | ok p => exact ⟨p, rfl⟩
  | err _ => rw [hn] at h; exact absurd rfl h
  | none => rw [hn] at h; exact absurd rfl h

/-- Arguments made by the parser. -/
def Made (a : Arg) : Prop := a = Arg.ofMeta a.item

theorem typed_known (v : Version) (c : Bool) (k : ArgKind)
    (h : (hintValueKind v c k).display ≠ "") : k ≠ .unknown := by
  rintro rfl
  revert h
  cases v <;> cases c <;> decide

theorem hintInRange_some {range : Option (Nat × Nat)} {a : Arg} {b : Bool}
    (h : hintInRange range a = some b) : b = true ↔ InRange range a := by
  unfold hintInRange at h
  unfold InRange
  cases range with
  | none =>
    obtain rfl := Option.some.inj h
    simp
  | some r =>
    rw [Option.map_eq_some_iff] at h
    obtain ⟨t, ht, rfl⟩ := h
    simp only [decide_eq_true_eq, Option.some.injEq, forall_eq']
    constructor
    · exact fun hh => ⟨t, ht, hh⟩
    · rintro ⟨t', ht', hh⟩
      rw [ht] at ht'
      obtain rfl := Option.some.inj ht'
      exact hh

theorem mem_processHint {v : Version} {range : Option (Nat × Nat)} {attr : InkAttr} {a : Arg}
    {hs : List Hint} (hm : Made a)
    (h : processHint v range (attr.kind = .arg .constructor) a = some hs) :
    (∀ x ∈ hs, InRange range a ∧ HintFor v attr a x) ∧
    (InRange range a → ∀ ty, documentedType v (attr.kind = .arg .constructor) a.kind = some ty →
      ∃ x, hs = [x] ∧ HintFor v attr a x) := by
  unfold processHint at h
  rw [Option.bind_eq_some_iff] at h
  obtain ⟨inside, hin, h⟩ := h
  simp only at h
  have hiff := hintInRange_some hin
  have hdoc := display_documented v (attr.kind = .arg .constructor) a.kind
  split at h
  · rename_i hc
    simp only [Bool.and_eq_true, bne_iff_ne] at hc
    obtain ⟨p, hp⟩ := name_of_kind a.item (by rw [← hm]; exact typed_known _ _ _ hc.2)
    rw [if_neg hc.2] at hdoc
    have hanchor : hintAnchor a = some (p.start, p.stop) := by
      unfold hintAnchor argName
      rw [hp]
    rw [hanchor] at h
    obtain rfl := Option.some.inj h
    have hf : HintFor v attr a
        { label := (hintValueKind v (decide (attr.kind = .arg .constructor)) a.kind).display
          position := p.stop
          range := (p.start, p.stop)
          detail := if valueDetail (hintValueKind v (decide (attr.kind = .arg .constructor))
              a.kind) != "" then some (valueDetail (hintValueKind v
                (decide (attr.kind = .arg .constructor)) a.kind)) else none } :=
      ⟨p, hp, hdoc, rfl, rfl, detail_documented _ _ _⟩
    refine ⟨?_, fun _ ty _ => ⟨_, rfl, hf⟩⟩
    intro x hx
    obtain rfl := List.mem_singleton.1 hx
    exact ⟨hiff.1 hc.1, hf⟩
  · rename_i hc
    obtain rfl := Option.some.inj h
    refine ⟨fun x hx => (nomatch hx), fun hr ty hty => ?_⟩
    exfalso
    apply hc
    rw [Bool.and_eq_true, bne_iff_ne]
    refine ⟨hiff.2 hr, fun he => ?_⟩
    rw [he, if_pos rfl] at hdoc
    rw [hdoc] at hty
    cases hty

/-- The chain of nested meta items. -/
def levels : Meta → List Meta
  | .mk _ _ _ none _ _ => []
  | .mk _ _ _ (some m) _ _ => m :: levels m

/-- The arguments of the file in source order, each followed by its nested arguments. -/
def occurrences (attrs : List InkAttr) : List (InkAttr × Arg) :=
  attrs.flatMap fun attr => attr.args.flatMap fun a =>
    (a :: (levels a.item).map Arg.ofMeta).map fun b => (attr, b)

theorem nested_levels (m n : Meta) (h : m.nested = some n) : levels m = n :: levels n := by
  cases m with
  | mk _ _ _ nn _ _ =>
    obtain rfl : nn = some n := h
    rfl

theorem mem_levels (attr : InkAttr) : (m : Meta) → (a : Arg) → a.item = m → ArgIn attr a →
    ∀ n ∈ levels m, ArgIn attr (Arg.ofMeta n)
  | .mk _ _ _ none _ _, _, _, _, n, hn => (nomatch hn)
  | .mk _ _ _ (some m) _ _, a, hm, ha, n, hn => by
    have hstep : ArgIn attr (Arg.ofMeta m) :=
      .nested a _ ha (by unfold Arg.nested; rw [hm]; rfl)
    rcases List.mem_cons.1 hn with rfl | hn
    · exact hstep
    · exact mem_levels attr m (Arg.ofMeta m) rfl hstep n hn

theorem levels_closed : (m n k : Meta) → n ∈ levels m → n.nested = some k → k ∈ levels m
  | .mk _ _ _ none _ _, n, k, hn, _ => (nomatch hn)
  | .mk _ _ _ (some m) _ _, n, k, hn, hk => by
    rcases List.mem_cons.1 hn with rfl | hn
    · refine List.mem_cons_of_mem _ ?_
      rw [nested_levels n k hk]
      simp
    · exact List.mem_cons_of_mem _ (levels_closed m n k hn hk)

theorem argIn_iff (attr : InkAttr) (b : Arg) :
    ArgIn attr b ↔ ∃ a ∈ attr.args, b ∈ a :: (levels a.item).map Arg.ofMeta := by
  constructor
  · intro h
    induction h with
    | top a ha => exact ⟨a, ha, by simp⟩
    | nested a b _ hb ih =>
      obtain ⟨c, hc, h⟩ := ih
      refine ⟨c, hc, ?_⟩
      unfold Arg.nested at hb
      rw [Option.map_eq_some_iff] at hb
      obtain ⟨k, hk, rfl⟩ := hb
      refine List.mem_cons_of_mem _ (List.mem_map_of_mem ?_)
      rcases List.mem_cons.1 h with rfl | h
      · rw [nested_levels _ k hk]
        simp
      · obtain ⟨n, hn, rfl⟩ := List.mem_map.1 h
        exact levels_closed _ n k hn hk
  · rintro ⟨a, ha, h⟩
    rcases List.mem_cons.1 h with rfl | h
    · exact .top _ ha
    · obtain ⟨n, hn, rfl⟩ := List.mem_map.1 h
      exact mem_levels attr _ a rfl (.top _ ha) n hn

theorem mem_occurrences (attrs : List InkAttr) (attr : InkAttr) (b : Arg) :
    (attr, b) ∈ occurrences attrs ↔ attr ∈ attrs ∧ ArgIn attr b := by
  unfold occurrences
  rw [argIn_iff]
  simp only [List.mem_flatMap, List.mem_map, Prod.mk.injEq]
  constructor
  · rintro ⟨x, hx, a, ha, y, hy, rfl, rfl⟩
    exact ⟨hx, a, ha, hy⟩
  · rintro ⟨hx, a, ha, hy⟩
    exact ⟨attr, hx, a, ha, b, hy, rfl, rfl⟩

/-- The hints are computed one occurrence after the other. -/
def occHint (v : Version) (range : Option (Nat × Nat)) (o : InkAttr × Arg) : Option (List Hint) :=
  processHint v range (o.1.kind = .arg .constructor) o.2

theorem appendAll_append (f : α → Option (List β)) (a b : List α) :
    appendAll f (a ++ b) = (appendAll f a).bind fun x => (appendAll f b).map (x ++ ·) := by
  induction a with
  | nil => cases h : appendAll f b <;> simp [appendAll, h]
  | cons x a ih =>
    rw [List.cons_append, appendAll, ih, appendAll]
    cases f x with
    | none => rfl
    | some h1 =>
      cases appendAll f a with
      | none => rfl
      | some h2 =>
        cases appendAll f b with
        | none => rfl
        | some h3 => simp

theorem appendAll_flatMap (f : β → Option (List γ)) (g : α → List β) (l : List α) :
    appendAll f (l.flatMap g) = appendAll (fun x => appendAll f (g x)) l := by
  induction l with
  | nil => rfl
  | cons x l ih => rw [List.flatMap_cons, appendAll_append, ih, appendAll]

theorem appendAll_map (f : β → Option (List γ)) (g : α → β) (l : List α) :
    appendAll f (l.map g) = appendAll (fun x => f (g x)) l := by
  induction l with
  | nil => rfl
  | cons x l ih => rw [List.map_cons, appendAll, ih, appendAll]

theorem nestedHints_eq (v : Version) (range : Option (Nat × Nat)) (c : Bool) : (m : Meta) →
    nestedHints v range c m = appendAll (processHint v range c) ((levels m).map Arg.ofMeta)
  | .mk _ _ _ none _ _ => rfl
  | .mk _ _ _ (some m) _ _ => by
    rw [nestedHints, nestedHints_eq v range c m]
    rfl

theorem inlayHints_eq (file : Node InkAttr κ) (range : Option (Nat × Nat)) (v : Version) :
    inlayHints file range v = appendAll (occHint v range) (occurrences file.inkInScope) := by
  have harg : ∀ c : Bool, argHints v range c = fun a =>
      appendAll (processHint v range c) (a :: (levels a.item).map Arg.ofMeta) := by
    intro c
    funext a
    rw [argHints, nestedHints_eq]
    rfl
  unfold inlayHints occurrences
  rw [appendAll_flatMap]
  congr 1
  funext attr
  unfold attrHints
  rw [appendAll_flatMap, harg]
  congr 1
  funext a
  rw [appendAll_map]
  rfl

theorem made_occurrence (attrs : List InkAttr) (hm : ∀ attr ∈ attrs, ∀ a ∈ attr.args, Made a)
    (o : InkAttr × Arg) (ho : o ∈ occurrences attrs) : Made o.2 := by
  obtain ⟨attr, b⟩ := o
  obtain ⟨h1, h2⟩ := (mem_occurrences attrs attr b).1 ho
  obtain ⟨a, ha, h⟩ := (argIn_iff attr b).1 h2
  rcases List.mem_cons.1 h with rfl | h
  · exact hm attr h1 _ ha
  · obtain ⟨n, _, rfl⟩ := List.mem_map.1 h
    rfl

/-- The attributes were built by the argument parser. -/
def Parsed (file : Node InkAttr κ) : Prop :=
  ∀ p attr, file.InkAt p attr → ∃ pe a, castAttr pe a = some (some attr)

theorem cast_made (pe : ExprParser) (s : AttrSyntax) (attr : InkAttr)
    (h : castAttr pe s = some (some attr)) : ∀ a ∈ attr.args, Made a := by
  unfold castAttr at h
  split at h
  · rw [Option.map_eq_some_iff] at h
    obtain ⟨args, h1, h2⟩ := h
    obtain rfl := Option.some.inj h2
    intro a ha
    simp only at ha
    unfold parseInkArgs at h1
    split at h1
    · rw [Option.map_eq_some_iff] at h1
      obtain ⟨ms, _, rfl⟩ := h1
      obtain ⟨m, _, rfl⟩ := List.mem_map.1 ha
      rfl
    · obtain rfl := Option.some.inj h1
      cases ha
  · cases h

theorem mem_inScope (file : Node InkAttr κ) (attr : InkAttr) :
    attr ∈ file.inkInScope ↔ ∃ i c p, file.children[i]? = some c ∧
      file.InkAt (i :: p) attr ∧ (p = [] ∨ ∀ x cs, c ≠ .attr x cs) := by
  unfold Node.inkInScope
  rw [List.mem_append, Node.C23_descendants]
  unfold Node.inkAttrs
  rw [List.mem_filterMap]
  constructor
  · rintro (⟨c, hc, h⟩ | ⟨i, c, p, hc, ha, h⟩)
    · obtain ⟨i, hi⟩ := List.getElem?_of_mem hc
      refine ⟨i, c, [], hi, ?_, .inl rfl⟩
      cases c with
      | attr a cs =>
        obtain rfl : a = some attr := h
        exact ⟨cs, by rw [Node.at?_cons, hi]; rfl⟩
      | tok _ => cases h
      | node _ _ => cases h
    · exact ⟨i, c, p, hc, h, .inr ha⟩
  · rintro ⟨i, c, p, hc, h, rfl | ha⟩
    · left
      obtain ⟨cs, h⟩ := h
      rw [Node.at?_cons, hc] at h
      obtain rfl : c = .attr (some attr) cs := Option.some.inj h
      exact ⟨_, List.mem_of_getElem? hc, rfl⟩
    · exact .inr ⟨i, c, p, hc, ha, h⟩

theorem made_file (file : Node InkAttr κ) (hp : Parsed file) :
    ∀ attr ∈ file.inkInScope, ∀ a ∈ attr.args, Made a := by
  intro attr ha
  obtain ⟨i, _, p, _, h, _⟩ := (mem_inScope file attr).1 ha
  obtain ⟨pe, s, hs⟩ := hp _ _ h
  exact cast_made pe s attr hs

/-! ## Theorems -/

/-- Every hint belongs to an argument (or nested argument) of an ink! attribute of the file that is
in the requested range and has a type; it shows this type right after the argument's name. -/
theorem C52_sound (file : Node InkAttr κ) (hp : Parsed file) (range : Option (Nat × Nat))
    (v : Version) (hs : List Hint) (h : inlayHints file range v = some hs) :
    ∀ x ∈ hs, ∃ p attr a, file.InkAt p attr ∧ ArgIn attr a ∧ InRange range a ∧
      HintFor v attr a x := by
  rw [inlayHints_eq] at h
  intro x hx
  obtain ⟨o, ho, l, hl, hxl⟩ := ((appendAll_some h).2 x).1 hx
  obtain ⟨p1, _⟩ := mem_processHint (made_occurrence _ (made_file file hp) o ho) hl
  obtain ⟨h1, h2⟩ := (mem_occurrences _ o.1 o.2).1 ho
  obtain ⟨i, _, p, _, h, _⟩ := (mem_inScope file o.1).1 h1
  exact ⟨_, o.1, o.2, h, h2, p1 x hxl⟩

/-- Every argument (or nested argument) in the requested range with a type gets a hint, for all
ink! attributes of the file. (`i` is a child of the file's root: an item, or an attribute of the
file itself.) -/
theorem C52_complete (file : Node InkAttr κ) (hp : Parsed file) (range : Option (Nat × Nat))
    (v : Version) (hs : List Hint) (h : inlayHints file range v = some hs)
    (i : Nat) (c : Node InkAttr κ) (p : List Nat) (attr : InkAttr)
    (hc : file.children[i]? = some c) (hattr : file.InkAt (i :: p) attr)
    (hitem : p = [] ∨ ∀ x cs, c ≠ .attr x cs)
    (a : Arg) (ha : ArgIn attr a) (hr : InRange range a)
    (ht : (documentedType v (attr.kind = .arg .constructor) a.kind).isSome = true) :
    ∃ x ∈ hs, HintFor v attr a x := by
  rw [inlayHints_eq] at h
  obtain ⟨ty, hty⟩ := Option.isSome_iff_exists.1 ht
  have ho : (attr, a) ∈ occurrences file.inkInScope :=
    (mem_occurrences _ attr a).2 ⟨(mem_inScope file attr).2 ⟨i, c, p, hc, hattr, hitem⟩, ha⟩
  obtain ⟨l, hl⟩ := (appendAll_some h).1 _ ho
  obtain ⟨_, p2⟩ := mem_processHint (made_occurrence _ (made_file file hp) _ ho) hl
  obtain ⟨x, hx, hf⟩ := p2 hr ty hty
  exact ⟨x, ((appendAll_some h).2 x).2 ⟨_, ho, l, hl, by rw [hx]; simp⟩, hf⟩

theorem process_length {v : Version} {range : Option (Nat × Nat)} {attr : InkAttr} {a : Arg}
    {hs : List Hint} (hm : Made a)
    (h : processHint v range (attr.kind = .arg .constructor) a = some hs) :
    hs = [] ∨ ∃ x, hs = [x] ∧ HintFor v attr a x := by
  obtain ⟨p1, _⟩ := mem_processHint hm h
  unfold processHint at h
  rw [Option.bind_eq_some_iff] at h
  obtain ⟨inside, hin, h⟩ := h
  simp only at h
  split at h
  · rw [Option.map_eq_some_iff] at h
    obtain ⟨r, _, rfl⟩ := h
    exact .inr ⟨_, rfl, (p1 _ (by simp)).2⟩
  · exact .inl (Option.some.inj h).symm

/-- There is at most one hint for each argument, and the hints come in the order of the
arguments. -/
theorem C52_once (file : Node InkAttr κ) (hp : Parsed file) (range : Option (Nat × Nat))
    (v : Version) (hs : List Hint) (h : inlayHints file range v = some hs) :
    ∃ l : List (InkAttr × Arg), l.Sublist (occurrences file.inkInScope) ∧
      l.length = hs.length ∧ ∀ (i : Nat) (o : InkAttr × Arg) (x : Hint),
        l[i]? = some o → hs[i]? = some x → HintFor v o.1 o.2 x := by
  rw [inlayHints_eq] at h
  have hmade := made_occurrence _ (made_file file hp)
  generalize occurrences file.inkInScope = occ at h hmade
  induction occ generalizing hs with
  | nil =>
    obtain rfl := Option.some.inj h
    exact ⟨[], .slnil, rfl, fun i o x hi => by simp at hi⟩
  | cons o occ ih =>
    rw [appendAll, Option.bind_eq_some_iff] at h
    obtain ⟨h1, hx, h⟩ := h
    rw [Option.map_eq_some_iff] at h
    obtain ⟨h2, hr, rfl⟩ := h
    obtain ⟨l, i1, i2, i3⟩ := ih h2 hr fun o' ho' => hmade o' (by simp [ho'])
    rcases process_length (hmade o (by simp)) hx with rfl | ⟨x, rfl, hf⟩
    · exact ⟨l, i1.cons o, by simpa using i2, by simpa using i3⟩
    · refine ⟨o :: l, i1.cons_cons o, by simp [i2], ?_⟩
      intro i o' x' ho' hx'
      cases i with
      | zero =>
        obtain rfl : o = o' := by simpa using ho'
        obtain rfl : x = x' := by simpa using hx'
        exact hf
      | succ i => exact i3 i o' x' (by simpa using ho') (by simpa using hx')

/-- Hints for the whole file are always computed; hints for a range are computed if the range of
every argument can be computed (which `C20_range_partial` settles). -/
theorem C52_total (file : Node InkAttr κ) (hp : Parsed file) (range : Option (Nat × Nat))
    (v : Version)
    (h : range = none ∨ ∀ p attr a, file.InkAt p attr → ArgIn attr a →
      (a.item.textRange).isSome = true) :
    (inlayHints file range v).isSome = true := by
  rw [inlayHints_eq]
  apply appendAll_isSome
  intro o ho
  have hm := made_occurrence _ (made_file file hp) o ho
  unfold occHint processHint
  have hin : (hintInRange range o.2).isSome = true := by
    unfold hintInRange
    rcases h with rfl | h
    · rfl
    · cases range with
      | none => rfl
      | some r =>
        rw [Option.isSome_map]
        obtain ⟨h1, h2⟩ := (mem_occurrences _ o.1 o.2).1 ho
        obtain ⟨i, _, p, _, h3, _⟩ := (mem_inScope file o.1).1 h1
        exact h _ _ _ h3 h2
  obtain ⟨b, hb⟩ := Option.isSome_iff_exists.1 hin
  rw [hb, Option.bind_some]
  simp only
  split
  · rename_i hc
    rw [Bool.and_eq_true, bne_iff_ne] at hc
    obtain ⟨p, hp⟩ := name_of_kind o.2.item (by rw [← hm]; exact typed_known _ _ _ hc.2)
    unfold hintAnchor argName
    rw [hp]
    rfl
  · rfl

/-! Non-vacuity: a file with `#[ink(message, selector = 1, backend(node(url = "x")),)]`, offset 5. -/

/-- The attribute, as cast. -/
def sampleHintAttr : Option (Option InkAttr) :=
  castAttr (fun s => some (.intNumber, s)) ⟨["ink"], some (parenthesised sampleMid, 5)⟩

/-- The file: an item with the attribute. -/
def sampleHintFile : Node InkAttr Unit :=
  .node () [.node () [.attr ((sampleHintAttr.getD none)) [.tok 60], .tok 10]]

example : Parsed sampleHintFile := by
  rintro p attr ⟨cs, h⟩
  refine ⟨fun s => some (.intNumber, s), ⟨["ink"], some (parenthesised sampleMid, 5)⟩, ?_⟩
  have hs : ∃ a, sampleHintAttr = some (some a) := ⟨_, rfl⟩
  obtain ⟨a, ha⟩ := hs
  unfold sampleHintFile at h
  rw [ha] at h
  rcases p with _ | ⟨_ | _, _ | ⟨_ | _ | _, _ | ⟨_ | _, _ | _⟩⟩⟩ <;>
    simp [Node.at?, Node.children] at h
  obtain ⟨rfl, _⟩ := h
  exact ha

example : (inlayHints sampleHintFile none .v5).map (·.map fun h => (h.label, h.position)) =
    some [("u32 | _ | @", 23), ("node | runtime_only", 35), ("&str", 44)] := by decide +kernel

example : (inlayHints sampleHintFile (some (20, 50)) .v4).map (·.map fun h => (h.label, h.position)) =
    some [("node | runtime_only", 35), ("&str", 44)] := by decide +kernel

end Verif.Analyzer
