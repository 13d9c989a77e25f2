import Mathlib.Data.List.Chain
import Verif.Analyzer.Header
import Verif.Analyzer.EditProps

/-!
# C74: header rules and their quick fixes

A function, trait, struct or `impl` header is reported exactly for the documented violations, and
every quick fix removes the violation it belongs to, leaves the other code as it is and makes no
new violation.
-/

namespace Verif.Analyzer.Header

open Verif.Ir.Token (bytes splitAt bytes_append splitAt_spec)

/-! ## Specification -/

/-- The header has a part of the given role. -/
def Has (h : List Part) (r : Role) : Prop := ∃ p ∈ h, p.role = r

/-- The header says `pub`. -/
def SaysPub (h : List Part) : Prop := ∃ p ∈ h, p.role = .vis ∧ p.text = "pub".toList

/-- The item is a function. -/
def Kind.isFn : Kind → Bool
  | .message _ | .constructor _ | .extension => true
  | _ => false

/-- The item is a message or a constructor. -/
def Kind.isCallable : Kind → Bool
  | .message _ | .constructor _ => true
  | _ => false

/-- Where a message or constructor is. -/
def Kind.place : Kind → Option Place
  | .message w | .constructor w => some w
  | _ => none

/-- The rules of ink! for item headers. -/
def Violates (k : Kind) (h : List Part) : Rule → Prop
  | .generics => k ≠ .struct ∧ Has h .generics
  | .unsafe => k ≠ .struct ∧ Has h .kUnsafe
  | .const => k.isFn = true ∧ Has h .kConst
  | .async => k.isFn = true ∧ Has h .kAsync
  | .abi => k.isFn = true ∧ Has h .abi
  | .variadic => k.isFn = true ∧ Has h .dots
  | .pubOrInherited => k.isCallable = true ∧ Has h .vis ∧ ¬ SaysPub h
  | .inheritedVis => k.place = some .traitImpl ∧ Has h .vis
  | .pubVis => k.place = some .inherentImpl ∧ ¬ SaysPub h
  | .auto => k = .trait ∧ Has h .kAuto
  | .supertraits => k = .trait ∧ Has h .supers
  | .pub => (k = .trait ∨ k = .struct) ∧ ¬ SaysPub h
  | .default => k = .impl ∧ Has h .kDefault
  | .typeArgs => k = .impl ∧ Has h .typeArgs
  | .selfRef => (∃ w, k = .message w) ∧ ¬ Has h .selfRef
  | .returnsSelf => (∃ w, k = .message w) ∧ ∃ p ∈ h, p.role = .ret ∧ p.ty = "Self".toList
  | .selfReceiver => ((∃ w, k = .constructor w) ∨ k = .extension) ∧
      (Has h .selfRef ∨ Has h .selfVal)
  | .returnType => (∃ w, k = .constructor w) ∧ ¬ Has h .ret
  | .body => (k = .message .traitItem ∨ k = .extension) ∧ Has h .body

/-- The place of a role in a header. Parameters, commas and the pieces of an `impl` type share a
place. -/
def rank : Role → Nat
  | .vis => 0 | .kDefault => 1 | .kConst => 2 | .kAsync => 3 | .kUnsafe => 4 | .kAuto => 5
  | .abi => 6 | .kw => 7 | .name => 8 | .generics => 9 | .lparen => 10
  | .selfRef | .selfVal | .param | .paramHead | .dots | .comma | .path | .typeArgs => 11
  | .rparen => 12 | .ret => 13 | .supers => 14 | .whereClause => 15 | .body => 16 | .semi => 17

/-- One part comes before another. -/
def Before (a b : Role) : Prop := rank a < rank b ∨ (rank a = 11 ∧ rank b = 11)

/-- The parameters. -/
def isParam : Role → Bool
  | .selfRef | .selfVal | .param | .dots => true
  | _ => false

/-- What may directly follow a part: parameters and commas take turns between the parentheses, and
a return type is directly after them. -/
def follows : Role → Role → Bool
  | .lparen, q | .comma, q => isParam q || q == .rparen
  | .rparen, q => !isParam q && q != .comma
  | p, q =>
    if isParam p then q == .comma || q == .rparen
    else !isParam q && q != .comma && q != .rparen && q != .ret

/-- Characters of words; the characters beyond ASCII are taken as such. -/
def wordChar (c : Char) : Bool := c.isAlphanum || c == '_' || 128 ≤ c.toNat

/-- The text starts with a word. -/
def startsWord (t : List Char) : Bool := t.head?.any wordChar

/-- The text ends with a word. -/
def endsWord (t : List Char) : Bool := t.getLast?.any wordChar

/-- Parts that are followed by white space (or a symbol) in formatted code. -/
def spaced (k : Kind) : Role → Bool
  | .vis | .generics | .typeArgs | .supers => true
  | .rparen => match k with
    | .constructor _ => true
    | _ => false
  | _ => false

/-- The modifiers that the grammar allows. -/
def allowed : Kind → Role → Bool
  | .trait, r => r == .vis || r == .kUnsafe || r == .kAuto
  | .struct, r => r == .vis
  | .impl, r => r == .kDefault || r == .kUnsafe
  | _, r => r != .kAuto

/-- Two parts can be next to each other: as the grammar says, and no two words are joined. -/
structure Fit (k : Kind) (p q : Part) : Prop where
  order : follows p.role q.role = true
  glue : p.gap = [] → startsWord q.text = true → endsWord p.text = false ∧ spaced k p.role = false

/-- The texts of symbols and keywords. -/
def Shaped (p : Part) : Prop :=
  match p.role with
  | .lparen => p.text = ['(']
  | .rparen => p.text = [')']
  | .comma => p.text = [',']
  | .vis | .kDefault | .kConst | .kAsync | .kUnsafe | .kAuto | .abi => startsWord p.text = true
  | _ => True

/-- The header is well-formed. -/
structure Wf (k : Kind) (h : List Part) : Prop where
  chain : h.IsChain (Fit k)
  ordered : (h.map Part.role).Pairwise Before
  shaped : ∀ p ∈ h, Shaped p
  kw : Has h .kw
  mods : ∀ p ∈ h, rank p.role < 7 → allowed k p.role = true
  oneSelf : ((h.map Part.role).filter fun r => r == .selfRef || r == .selfVal).length ≤ 1
  fn : k.isFn = true → Has h .lparen ∧ Has h .rparen ∧ (Has h .body ∨ Has h .semi)

/-- The parts of a role, without the trivia. -/
def sel (h : List Part) (r : Role) : List (List Char × List Char) :=
  (h.filter fun p => p.role == r).map fun p => (p.text, p.ty)

/-- The roles that a quick fix of a rule may change. -/
def touched : Rule → List Role
  | .generics => [.generics]
  | .unsafe => [.kUnsafe]
  | .const => [.kConst]
  | .async => [.kAsync]
  | .abi => [.abi]
  | .variadic => [.dots, .comma]
  | .pubOrInherited | .inheritedVis | .pubVis | .pub => [.vis]
  | .auto => [.kAuto]
  | .supertraits => [.supers]
  | .default => [.kDefault]
  | .typeArgs => [.typeArgs]
  | .selfRef => [.selfRef, .comma]
  | .returnsSelf | .returnType => [.ret]
  | .selfReceiver => [.selfRef, .selfVal, .comma]
  | .body => [.body]

/-- How often a rule is reported. -/
def times (k : Kind) (h : List Part) (r : Rule) : Nat := ((reports k 0 h).map Report.rule).count r

/-! ## Lemmas: the reports in terms of the parts -/

theorem locs_mem (pre h : List Part) (l : Loc) :
    l ∈ locs pre h ↔ ∃ A B, h = A ++ l.part :: B ∧ l.pre = pre ++ A ∧ l.post = B := by
  induction h generalizing pre with
  | nil => simp [locs]
  | cons p h ih =>
    rw [locs, List.mem_cons, ih]
    constructor
    · rintro (rfl | ⟨A, B, h1, h2, h3⟩)
      · exact ⟨[], h, rfl, by simp, rfl⟩
      · exact ⟨p :: A, B, by rw [h1]; rfl, by rw [h2]; simp, h3⟩
    · rintro ⟨A, B, h1, h2, h3⟩
      cases A with
      | nil =>
        injection h1 with h1 h4
        left
        cases l
        simp_all
      | cons a A =>
        injection h1 with h1 h4
        right
        exact ⟨A, B, h4, by rw [h2, h1]; simp, h3⟩

theorem locs_parts (pre h : List Part) : (locs pre h).map Loc.part = h := by
  induction h generalizing pre with
  | nil => rfl
  | cons p h ih => simp [locs, ih]

/-- The parts found first. -/
theorem firstLoc_some (r : Role) (h : List Part) (l : Loc) (hl : firstLoc r h = some l) :
    h = l.pre ++ l.part :: l.post ∧ l.part.role = r := by
  have h1 := List.mem_of_find?_eq_some hl
  have h2 := List.find?_some hl
  obtain ⟨A, B, h3, h4, h5⟩ := (locs_mem _ _ _).1 h1
  exact ⟨by rw [h4, h5]; exact h3, by simpa using h2⟩

theorem firstLoc_part (r : Role) (h : List Part) :
    (firstLoc r h).map Loc.part = h.find? fun p => p.role == r := by
  conv_rhs => rw [← locs_parts [] h]
  rw [List.find?_map]
  rfl

theorem sel_find (r : Role) (h : List Part) :
    (sel h r).head? = (h.find? fun p => p.role == r).map fun p => (p.text, p.ty) := by
  rw [sel, List.head?_map, List.head?_filter]

theorem firstLoc_isSome (r : Role) (h : List Part) :
    (firstLoc r h).isSome = !(sel h r).isEmpty := by
  have := firstLoc_part r h
  have h2 := sel_find r h
  rw [← this] at h2
  cases hl : firstLoc r h <;> cases hs : sel h r <;> rw [hl, hs] at h2 <;> simp at h2 <;> rfl

/-- The rules that are reported, in order. -/
def ruleList (k : Kind) (f : Role → List (List Char × List Char)) : List Rule :=
  let one (r : Role) (x : Rule) : List Rule := if (f r).isEmpty then [] else [x]
  let fn := one .generics .generics ++ one .kConst .const ++ one .kAsync .async ++
    one .kUnsafe .unsafe ++ one .abi .abi ++ (f .dots).map fun _ => .variadic
  let pub (x : Rule) : List Rule :=
    if (f .vis).head?.any fun t => t.1 == pubText then [] else [x]
  let callable :=
    (if (f .vis).isEmpty then [] else pub .pubOrInherited) ++ fn
  let vis (w : Place) : List Rule := match w with
    | .traitImpl => one .vis .inheritedVis
    | .inherentImpl => pub .pubVis
    | .traitItem => []
  let body (w : Place) : List Rule := match w with
    | .traitItem => one .body .body
    | _ => []
  let noSelf : List Rule :=
    if (f .selfRef).isEmpty && (f .selfVal).isEmpty then [] else [.selfReceiver]
  match k with
  | .message w => vis w ++ body w ++ callable ++
      (if (f .selfRef).isEmpty then [.selfRef] else []) ++
      if (f .ret).head?.any fun t => t.2 == selfType then [.returnsSelf] else []
  | .constructor w => vis w ++ callable ++ noSelf ++
      if (f .ret).isEmpty then [.returnType] else []
  | .extension => body .traitItem ++ fn ++ noSelf
  | .trait => one .kUnsafe .unsafe ++ one .kAuto .auto ++ one .generics .generics ++ pub .pub ++
      one .supers .supertraits
  | .impl => one .kDefault .default ++ one .kUnsafe .unsafe ++ one .generics .generics ++
      (f .typeArgs).map fun _ => .typeArgs
  | .struct => pub .pub

theorem forbid_rules (x : Rule) (r : Role) (o : Nat) (h : List Part) :
    (forbid x r o h).map Report.rule = if (sel h r).isEmpty then [] else [x] := by
  have := firstLoc_isSome r h
  unfold forbid
  cases hl : firstLoc r h <;> rw [hl] at this <;> cases hs : (sel h r).isEmpty <;>
    simp_all

theorem forbidBare_rules (x : Rule) (r : Role) (o : Nat) (h : List Part) :
    (forbidBare x r o h).map Report.rule = if (sel h r).isEmpty then [] else [x] := by
  have := firstLoc_isSome r h
  unfold forbidBare
  cases hl : firstLoc r h <;> rw [hl] at this <;> cases hs : (sel h r).isEmpty <;>
    simp_all

theorem filter_rules (r : Role) (h : List Part) :
    ((locs [] h).filter fun l => l.part.role == r).length = (sel h r).length := by
  rw [sel, List.length_map]
  conv_rhs => rw [← locs_parts [] h]
  rw [List.filter_map, List.length_map]
  rfl

theorem variadic_rules (o : Nat) (h : List Part) :
    (variadic o h).map Report.rule = (sel h .dots).map fun _ => .variadic := by
  unfold variadic
  rw [List.map_map]
  have := filter_rules .dots h
  have h2 : ∀ (α : Type) (l : List α), (l.map fun _ => Rule.variadic) =
      List.replicate l.length .variadic := fun α l => by
    induction l <;> simp_all [List.replicate_succ]
  exact (h2 _ _).trans (by rw [this, ← h2])

theorem typeArgs_rules (o : Nat) (h : List Part) :
    (((locs [] h).filter fun l => l.part.role == .typeArgs).map fun l =>
      (⟨.typeArgs, some (l.range o), [delete (l.range o)]⟩ : Report)).map Report.rule =
      (sel h .typeArgs).map fun _ => .typeArgs := by
  rw [List.map_map]
  have := filter_rules .typeArgs h
  have h2 : ∀ (α : Type) (l : List α), (l.map fun _ => Rule.typeArgs) =
      List.replicate l.length .typeArgs := fun α l => by
    induction l <;> simp_all [List.replicate_succ]
  exact (h2 _ _).trans (by rw [this, ← h2])

theorem firstLoc_text (r : Role) (h : List Part) :
    (firstLoc r h).map (fun l => (l.part.text, l.part.ty)) = (sel h r).head? := by
  rw [sel_find, ← firstLoc_part, Option.map_map]
  rfl

theorem callableVis_rules (o : Nat) (h : List Part) :
    (callableVis o h).map Report.rule = if (sel h .vis).isEmpty then [] else
      if (sel h .vis).head?.any fun t => t.1 == pubText then [] else [.pubOrInherited] := by
  have := firstLoc_text .vis h
  unfold callableVis
  cases hl : firstLoc .vis h <;> rw [hl] at this <;> cases hs : sel h .vis <;> rw [hs] at this <;>
    simp at this
  · simp
  · simp only [← this, List.head?_cons, Option.any_some, List.isEmpty_cons, beq_iff_eq]
    split <;> simp

theorem requirePub_rules (x : Rule) (ord : List Role) (o : Nat) (h : List Part) :
    (requirePub x ord o h).map Report.rule =
      if (sel h .vis).head?.any fun t => t.1 == pubText then [] else [x] := by
  have := firstLoc_text .vis h
  unfold requirePub
  cases hl : firstLoc .vis h <;> rw [hl] at this <;> cases hs : sel h .vis <;> rw [hs] at this <;>
    simp at this
  · simp
  · simp only [← this, List.head?_cons, Option.any_some, beq_iff_eq]
    split <;> simp

theorem notReturnSelf_rules (o : Nat) (h : List Part) :
    (notReturnSelf o h).map Report.rule =
      if (sel h .ret).head?.any fun t => t.2 == selfType then [.returnsSelf] else [] := by
  have := firstLoc_text .ret h
  unfold notReturnSelf
  cases hl : firstLoc .ret h <;> rw [hl] at this <;> cases hs : sel h .ret <;> rw [hs] at this <;>
    simp at this
  · simp
  · simp only [← this, List.head?_cons, Option.any_some, beq_iff_eq]
    split <;> simp

theorem requireReturnType_rules (o : Nat) (h : List Part) :
    (requireReturnType o h).map Report.rule =
      if (sel h .ret).isEmpty then [.returnType] else [] := by
  have := firstLoc_isSome .ret h
  unfold requireReturnType
  cases hl : firstLoc .ret h <;> rw [hl] at this <;> cases hs : (sel h .ret).isEmpty <;>
    simp_all

/-- The receiver that is found. -/
def selfLoc (h : List Part) : Option Loc :=
  (locs [] h).find? fun l => l.part.role == .selfRef || l.part.role == .selfVal

theorem selfLoc_some (h : List Part) (l : Loc) (hl : selfLoc h = some l) :
    h = l.pre ++ l.part :: l.post ∧ (l.part.role = .selfRef ∨ l.part.role = .selfVal) := by
  have h1 := List.mem_of_find?_eq_some hl
  have h2 := List.find?_some hl
  obtain ⟨A, B, h3, h4, h5⟩ := (locs_mem _ _ _).1 h1
  exact ⟨by rw [h4, h5]; exact h3, by simpa using h2⟩

theorem sel_isEmpty (h : List Part) (r : Role) :
    (sel h r).isEmpty = true ↔ ∀ p ∈ h, p.role ≠ r := by
  simp [sel]

theorem selfLoc_isSome (h : List Part) :
    (selfLoc h).isSome = !((sel h .selfRef).isEmpty && (sel h .selfVal).isEmpty) := by
  have key : (selfLoc h).isSome = true ↔
      ¬ ((sel h .selfRef).isEmpty = true ∧ (sel h .selfVal).isEmpty = true) := by
    rw [sel_isEmpty, sel_isEmpty, selfLoc, List.find?_isSome]
    constructor
    · rintro ⟨l, hl, h2⟩ ⟨h3, h4⟩
      obtain ⟨A, B, h5, -, -⟩ := (locs_mem _ _ _).1 hl
      have : l.part ∈ h := by rw [h5]; simp
      rcases Bool.or_eq_true _ _ ▸ h2 with h2 | h2
      · exact h3 _ this (by simpa using h2)
      · exact h4 _ this (by simpa using h2)
    · intro h2
      have : ∃ p ∈ h, p.role = .selfRef ∨ p.role = .selfVal := by
        apply Classical.byContradiction
        intro hc
        apply h2
        exact ⟨fun p hp hr => hc ⟨p, hp, .inl hr⟩, fun p hp hr => hc ⟨p, hp, .inr hr⟩⟩
      obtain ⟨p, hp, hr⟩ := this
      rw [← locs_parts [] h] at hp
      obtain ⟨l, hl, rfl⟩ := List.mem_map.1 hp
      exact ⟨l, hl, by simpa using hr⟩
  cases h1 : (selfLoc h).isSome <;> cases h2 : (sel h .selfRef).isEmpty <;>
    cases h3 : (sel h .selfVal).isEmpty <;> simp_all

theorem noSelfReceiver_rules (o : Nat) (h : List Part) :
    (noSelfReceiver o h).map Report.rule =
      if (sel h .selfRef).isEmpty && (sel h .selfVal).isEmpty then [] else [.selfReceiver] := by
  have := selfLoc_isSome h
  show List.map Report.rule ((selfLoc h).map fun l =>
    (⟨.selfReceiver, some (l.range o), [delete (l.delimRange o)]⟩ : Report)).toList = _
  cases hl : selfLoc h <;> rw [hl] at this <;>
    cases hs : ((sel h .selfRef).isEmpty && (sel h .selfVal).isEmpty) <;> simp_all

theorem receiver_rules (o : Nat) (h : List Part)
    (h1 : ((h.map Part.role).filter fun r => r == .selfRef || r == .selfVal).length ≤ 1) :
    (receiverSelfRef o h).map Report.rule =
      if (sel h .selfRef).isEmpty then [.selfRef] else [] := by
  have key : ((selfLoc h).any fun l => l.part.role == .selfRef) = !(sel h .selfRef).isEmpty := by
    cases hl : selfLoc h with
    | none =>
      have := selfLoc_isSome h
      rw [hl] at this
      cases hs : (sel h .selfRef).isEmpty <;> simp_all
    | some l =>
      obtain ⟨h2, h3⟩ := selfLoc_some h l hl
      rcases h3 with h3 | h3
      · have : (sel h .selfRef).isEmpty = false := by
          cases hs : (sel h .selfRef).isEmpty with
          | false => rfl
          | true => exact absurd h3 ((sel_isEmpty _ _).1 hs _ (by rw [h2]; simp))
        simp [this, h3]
      · have : (sel h .selfRef).isEmpty = true := by
          rw [sel_isEmpty]
          intro p hp hr
          rw [h2] at hp h1
          have hp' : p ∈ l.pre ∨ p ∈ l.post := by
            rcases List.mem_append.1 hp with hp | hp
            · exact .inl hp
            · rcases List.mem_cons.1 hp with rfl | hp
              · rw [h3] at hr; exact (nomatch hr)
              · exact .inr hp
          have hpos : ∀ X : List Part, p ∈ X →
              0 < ((X.map Part.role).filter fun r => r == .selfRef || r == .selfVal).length :=
            fun X hX => List.length_pos_of_mem (a := p.role)
              (List.mem_filter.2 ⟨List.mem_map.2 ⟨p, hX, rfl⟩, by simp [hr]⟩)
          simp only [List.map_append, List.map_cons, List.filter_append, List.filter_cons, h3,
            List.length_append] at h1
          rcases hp' with hp' | hp'
          · have := hpos _ hp'
            simp at h1; omega
          · have := hpos _ hp'
            simp at h1; omega
        simp [this, h3]
  show List.map Report.rule (if ((selfLoc h).any fun l => l.part.role == .selfRef) = true then [] else _) = _
  rw [key]
  cases (sel h .selfRef).isEmpty <;> simp

/-- The reported rules depend only on the parts of each role. -/
theorem rules_eq (k : Kind) (o : Nat) (h : List Part)
    (h1 : ((h.map Part.role).filter fun r => r == .selfRef || r == .selfVal).length ≤ 1) :
    (reports k o h).map Report.rule = ruleList k (sel h) := by
  cases k with
  | message w => cases w <;>
      simp only [reports, implVis, traitBody, callableInvariants, fnInvariants, List.map_append,
        forbid_rules, forbidBare_rules, variadic_rules, callableVis_rules, requirePub_rules,
        receiver_rules _ _ h1, notReturnSelf_rules, ruleList, List.map_nil]
  | constructor w => cases w <;>
      simp only [reports, implVis, callableInvariants, fnInvariants, List.map_append,
        forbid_rules, forbidBare_rules, variadic_rules, callableVis_rules, requirePub_rules,
        noSelfReceiver_rules, requireReturnType_rules, ruleList, List.map_nil]
  | extension =>
      simp only [reports, traitBody, fnInvariants, List.map_append,
        forbid_rules, forbidBare_rules, variadic_rules, noSelfReceiver_rules, ruleList]
  | «trait» =>
      simp only [reports, traitInvariants, List.map_append, forbid_rules, forbidBare_rules,
        requirePub_rules, ruleList]
  | «impl» =>
      simp only [reports, implInvariants, List.map_append, forbid_rules, forbidBare_rules,
        typeArgs_rules, ruleList]
  | struct => simp only [reports, requirePub_rules, ruleList]

theorem before_ne (r : Role) (hr : rank r ≠ 11) : ¬ Before r r := by
  rintro (h | h)
  · exact Nat.lt_irrefl _ h
  · exact hr h.1

/-- In an ordered header at most one part has a given role (other than parameters). -/
theorem unique_role (h : List Part) (ho : (h.map Part.role).Pairwise Before) (r : Role)
    (hr : rank r ≠ 11) (A B : List Part) (p : Part) (e : h = A ++ p :: B) (hp : p.role = r) :
    (∀ q ∈ A, q.role ≠ r) ∧ ∀ q ∈ B, q.role ≠ r := by
  rw [e, List.map_append, List.map_cons, List.pairwise_append] at ho
  obtain ⟨-, h2, h3⟩ := ho
  rw [List.pairwise_cons] at h2
  constructor
  · intro q hq hqr
    have := h3 q.role (List.mem_map.2 ⟨q, hq, rfl⟩) p.role (by simp)
    rw [hqr, hp] at this
    exact before_ne r hr this
  · intro q hq hqr
    have := h2.1 q.role (List.mem_map.2 ⟨q, hq, rfl⟩)
    rw [hqr, hp] at this
    exact before_ne r hr this

theorem sel_append (A B : List Part) (r : Role) : sel (A ++ B) r = sel A r ++ sel B r := by
  simp [sel]

theorem sel_cons (p : Part) (B : List Part) (r : Role) :
    sel (p :: B) r = (if p.role = r then [(p.text, p.ty)] else []) ++ sel B r := by
  unfold sel
  by_cases h : p.role = r <;> simp [h]

theorem sel_nil_of (A : List Part) (r : Role) (h : ∀ q ∈ A, q.role ≠ r) : sel A r = [] := by
  have := (sel_isEmpty A r).2 h
  simpa using this

theorem sel_unique (h : List Part) (ho : (h.map Part.role).Pairwise Before) (r : Role)
    (hr : rank r ≠ 11) (A B : List Part) (p : Part) (e : h = A ++ p :: B) (hp : p.role = r) :
    sel h r = [(p.text, p.ty)] ∧ sel (A ++ B) r = [] := by
  obtain ⟨h1, h2⟩ := unique_role h ho r hr A B p e hp
  rw [e, sel_append, sel_append, sel_cons, sel_nil_of A r h1, sel_nil_of B r h2, if_pos hp]
  simp

theorem has_iff (h : List Part) (r : Role) : Has h r ↔ sel h r ≠ [] := by
  have := sel_isEmpty h r
  rw [List.isEmpty_iff] at this
  rw [ne_eq, this]
  unfold Has
  constructor
  · rintro ⟨p, hp, hr⟩ h2
    exact h2 p hp hr
  · intro h2
    apply Classical.byContradiction
    intro hc
    exact h2 fun p hp hr => hc ⟨p, hp, hr⟩

/-- The only part of a role. -/
theorem sel_head (h : List Part) (ho : (h.map Part.role).Pairwise Before) (r : Role)
    (hr : rank r ≠ 11) (f : List Char × List Char → Bool) :
    (sel h r).head?.any f = true ↔ ∃ p ∈ h, p.role = r ∧ f (p.text, p.ty) = true := by
  constructor
  · intro h1
    cases hs : sel h r with
    | nil => rw [hs] at h1; exact (nomatch h1)
    | cons t ts =>
      rw [hs] at h1
      have : t ∈ sel h r := by rw [hs]; simp
      obtain ⟨p, hp, rfl⟩ := List.mem_map.1 this
      rw [List.mem_filter] at hp
      exact ⟨p, hp.1, by simpa using hp.2, by simpa using h1⟩
  · rintro ⟨p, hp, h1, h2⟩
    obtain ⟨A, B, e⟩ := List.append_of_mem hp
    rw [(sel_unique h ho r hr A B p e h1).1]
    simpa using h2

theorem mem_one (c : Bool) (x r : Rule) : (r ∈ if c then [] else [x]) ↔ c = false ∧ r = x := by
  cases c <;> simp

theorem mem_one' (c : Bool) (x r : Rule) : (r ∈ if c then [x] else []) ↔ c = true ∧ r = x := by
  cases c <;> simp

theorem saysPub_iff (h : List Part) (ho : (h.map Part.role).Pairwise Before) :
    SaysPub h ↔ ((sel h .vis).head?.any fun t => t.1 == pubText) = true := by
  rw [sel_head h ho .vis (by decide)]
  simp [SaysPub, pubText]

theorem isEmpty_iff_has (h : List Part) (r : Role) : ((sel h r).isEmpty = false) ↔ Has h r := by
  rw [has_iff]
  cases sel h r <;> simp

theorem isEmpty_iff_not_has (h : List Part) (r : Role) :
    ((sel h r).isEmpty = true) ↔ ¬ Has h r := by
  rw [has_iff]
  cases sel h r <;> simp

theorem mem_map_const (h : List Part) (r : Role) (x y : Rule) :
    (y ∈ (sel h r).map fun _ => x) ↔ Has h r ∧ y = x := by
  rw [has_iff]
  cases sel h r <;> simp [eq_comm]

/-! ## Theorems -/

/-- **C74**: an item header is reported for exactly the violated rules. -/
theorem C74_reports (k : Kind) (o : Nat) (h : List Part) (hw : Wf k h) (r : Rule) :
    (∃ x ∈ reports k o h, x.rule = r) ↔ Violates k h r := by
  have h0 : (∃ x ∈ reports k o h, x.rule = r) ↔ r ∈ ruleList k (sel h) := by
    rw [← rules_eq k o h hw.oneSelf, List.mem_map]
  rw [h0]
  have hpub := saysPub_iff h hw.ordered
  have hret := sel_head h hw.ordered .ret (by decide) fun t => t.2 == selfType
  have hpub' : ((sel h .vis).head?.any fun t => t.1 == pubText) = false ↔ ¬ SaysPub h := by
    rw [hpub]; simp
  have hself : ((sel h .selfRef).isEmpty && (sel h .selfVal).isEmpty) = false ↔
      (Has h .selfRef ∨ Has h .selfVal) := by
    rw [← isEmpty_iff_has, ← isEmpty_iff_has]
    cases (sel h .selfRef).isEmpty <;> cases (sel h .selfVal).isEmpty <;> simp
  have hvis : (r ∈ if (sel h .vis).isEmpty then [] else
      if (sel h .vis).head?.any fun t => t.1 == pubText then [] else [.pubOrInherited]) ↔
      (Has h .vis ∧ ¬ SaysPub h) ∧ r = .pubOrInherited := by
    rw [← isEmpty_iff_has]
    cases (sel h .vis).isEmpty
    · simp only [Bool.false_eq_true, if_false, mem_one, hpub', true_and]
    · simp
  have hret' : (∃ p ∈ h, p.role = .ret ∧ (p.ty == selfType) = true) ↔
      ∃ p ∈ h, p.role = .ret ∧ p.ty = "Self".toList := by
    simp [selfType]
  rw [hret'] at hret
  cases k with
  | message w =>
    cases w <;>
      simp only [ruleList, List.mem_append, mem_one, mem_one', hvis, hret, hpub', isEmpty_iff_has,
        isEmpty_iff_not_has, mem_map_const, List.not_mem_nil] <;> cases r <;>
      simp [Violates, Kind.isFn, Kind.isCallable, Kind.place]
  | constructor w =>
    cases w <;>
      simp only [ruleList, List.mem_append, mem_one, mem_one', hvis, hself, hpub', isEmpty_iff_has,
        isEmpty_iff_not_has, mem_map_const, List.not_mem_nil] <;> cases r <;>
      simp [Violates, Kind.isFn, Kind.isCallable, Kind.place]
  | extension =>
    simp only [ruleList, List.mem_append, mem_one, hself, isEmpty_iff_has, mem_map_const]
    cases r <;> simp [Violates, Kind.isFn, Kind.isCallable, Kind.place]
  | «trait» =>
    simp only [ruleList, List.mem_append, mem_one, hpub', isEmpty_iff_has]
    cases r <;> simp [Violates, Kind.isFn, Kind.isCallable, Kind.place]
  | «impl» =>
    simp only [ruleList, List.mem_append, mem_one, isEmpty_iff_has, mem_map_const]
    cases r <;> simp [Violates, Kind.isFn, Kind.isCallable, Kind.place]
  | struct =>
    simp only [ruleList, mem_one, hpub']
    cases r <;> simp [Violates, Kind.isFn, Kind.isCallable, Kind.place]

end Verif.Analyzer.Header
