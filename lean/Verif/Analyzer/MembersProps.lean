import Verif.Analyzer.Members
import Verif.Analyzer.HeaderFixProps
import Verif.Analyzer.SuggestIdProps

/-!
# C78: the members of ink! traits follow the rules and the quick fixes repair them
-/

namespace Verif.Analyzer.Members

open Verif.Ir
open Verif.Ir.Token (bytes splitAt bytes_append splitAt_spec)

/-! ## Specification -/

/-- The order in which the parts of a type alias are written. -/
def Role.rank : Role → Nat
  | .kw => 0 | .name => 1 | .generics => 2 | .bounds => 3 | .cond => 4 | .eq => 5 | .ty => 6
  | .semi => 7

/-- Whether an alias has a part. -/
def Has (r : Role) (a : List Piece) : Prop := ∃ p ∈ a, p.role = r

instance (r : Role) (a : List Piece) : Decidable (Has r a) :=
  inferInstanceAs (Decidable (∃ p ∈ a, p.role = r))

/-- The shape in which the Rust parser reads a type alias: `type`, then at most one part of each
kind in order, and a type only after `=`. -/
structure WfAlias (a : List Piece) : Prop where
  order : (a.map fun p => p.role.rank).Pairwise (· < ·)
  start : a.head?.map (·.role) = some .kw
  ty : Has .ty a → Has .eq a
  eq : ∀ p ∈ a, p.role = .eq → p.text = ['=']
  semi : ∀ p ∈ a, p.role = .semi → p.text = [';']

/-- The alias is called `ErrorCode`. -/
def IsErrorCode (a : List Piece) : Prop :=
  ∃ p ∈ a, p.role = .name ∧ p.text = "ErrorCode".toList

instance (a : List Piece) : Decidable (IsErrorCode a) :=
  inferInstanceAs (Decidable (∃ p ∈ a, p.role = .name ∧ p.text = "ErrorCode".toList))

/-- The attribute that makes a function of a chain extension known to ink!. -/
def idKind : Version → ArgKind
  | .v4 => .extension
  | .v5 => .function

/-- A function has an ink! attribute of a kind. -/
def Annotated (k : ArgKind) (f : FnMember) : Prop := ∃ a ∈ f.attrs, a.ink = some (.arg k)

instance (k : ArgKind) (f : FnMember) : Decidable (Annotated k f) :=
  inferInstanceAs (Decidable (∃ a ∈ f.attrs, a.ink = some (.arg k)))

/-- What ink! forbids for a member of a chain extension, with one entry per violation: constants and
macros, default implementations, functions without their attribute (in ink! 5, the old `extension`
attribute is reported as deprecated instead), associated types not named `ErrorCode`, with generic
parameters, with bounds or without a type. -/
def chainRules (v : Version) : Member → List Rule
  | .const _ => [.const]
  | .macro _ => [.macro]
  | .alias a =>
    (if IsErrorCode a then [] else [.named]) ++ (if Has .generics a then [.generics] else []) ++
    (if Has .bounds a then [.bounds] else []) ++ (if Has .ty a then [] else [.default])
  | .fn f =>
    (if f.body = none then [] else [.body]) ++
    (if Annotated (idKind v) f ∨ Annotated .extension f then [] else [.annotation])

/-- What ink! forbids for a member of a trait definition: constants, macros, associated types,
default implementations, functions that are no messages, and wildcards. -/
def traitRules : Member → List Rule
  | .const _ => [.const]
  | .macro _ => [.macro]
  | .alias _ => [.assocType]
  | .fn f =>
    (if f.body = none then [] else [.body]) ++
    (if Annotated .message f then [] else [.annotation]) ++
    (f.attrs.flatMap fun a => if a.ink = none then [] else a.wildcards.map fun _ => .wildcard)

/-- The number of `ErrorCode` types. -/
def errorCodeCount (b : Body) : Nat :=
  b.countP fun x => match x.1 with
    | .alias a => decide (IsErrorCode a)
    | _ => false

/-- The types of a body have the shape of type aliases. -/
def WfBody (b : Body) : Prop := ∀ x ∈ b, ∀ a, x.1 = .alias a → WfAlias a

/-- The parts of an alias without the trivia. -/
def core (a : List Piece) : List (Role × List Char) := a.map fun p => (p.role, p.text)

/-- The attributes of a function without the trivia. -/
def attrCore (l : List FnAttr) : List (Option AttrKind × List Char) := l.map fun a => (a.ink, a.text)

/-- `Fixed keep new rule m m'`: the member `m'` (nothing, if the member is removed) is `m` with the
violation of `rule` repaired and nothing else changed apart from trivia. The attribute for a function
is `new`; it is put before the other ink! attributes, of which those with kinds in `keep` are kept. -/
inductive Fixed (keep : List ArgKind) (new : ArgKind × List Char) :
    Rule → Member → Option Member → Prop
  | const (t) : Fixed keep new .const (.const t) none
  | macro (t) : Fixed keep new .macro (.macro t) none
  | assocType (a) : Fixed keep new .assocType (.alias a) none
  | named (a a') : core a' = (core a).map (fun x =>
      if x.1 = .name then (x.1, "ErrorCode".toList) else x) → Fixed keep new .named (.alias a)
        (some (.alias a'))
  | generics (a a') : core a' = (core a).filter (·.1 ≠ .generics) →
      Fixed keep new .generics (.alias a) (some (.alias a'))
  | bounds (a a') : core a' = (core a).filter (·.1 ≠ .bounds) →
      Fixed keep new .bounds (.alias a) (some (.alias a'))
  | default (a a') : core a' = (core a).filter (fun x => x.1 ≠ .eq ∧ x.1 ≠ .semi) ++
      [(.eq, "=".toList), (.ty, "()".toList), (.semi, ";".toList)] →
      Fixed keep new .default (.alias a) (some (.alias a'))
  | body (f) : Fixed keep new .body (.fn f) (some (.fn { f with body := none }))
  | annotation (f f' : FnMember) : attrCore f'.attrs =
        attrCore (f.attrs.takeWhile (·.ink = none)) ++ [(some (.arg new.1), new.2)] ++
        attrCore ((f.attrs.dropWhile (·.ink = none)).filter fun a =>
          a.ink = none ∨ ∃ k ∈ keep, a.ink = some (.arg k)) →
      f'.docs = f.docs → f'.decl = f.decl → f'.body = f.body →
      Fixed keep new .annotation (.fn f) (some (.fn f'))

/-- Applies the edits of a quick fix, the last one first, so that the offsets of the earlier ones
stay valid. -/
def applyAll (doc : List Char) (es : List Edit) : Option (List Char) :=
  es.foldr (fun e d => d.bind fun d => applyEdit d e) (some doc)

/-- The edits of a quick fix are in source order and do not overlap. -/
def InOrder (es : List Edit) : Prop := es.Pairwise fun a b => a.stop ≤ b.start

/-- The text of a member that may have been removed. -/
def optRender (m : Option Member) : List Char := (m.map Member.render).getD []

/-! ## Parts of aliases -/

theorem findPiece_some (r : Role) (a : List Piece) (x : List Piece × Piece × List Piece)
    (h : findPiece r a = some x) :
    a = x.1 ++ x.2.1 :: x.2.2 ∧ x.2.1.role = r ∧ ∀ q ∈ x.1, q.role ≠ r := by
  induction a generalizing x with
  | nil => cases h
  | cons p ps ih =>
    unfold findPiece at h
    split at h
    · cases h; simp_all
    · obtain ⟨y, hy, rfl⟩ := Option.map_eq_some_iff.1 h
      obtain ⟨h1, h2, h3⟩ := ih y hy
      refine ⟨by simp [← h1], h2, ?_⟩
      intro q hq
      rcases List.mem_cons.1 hq with rfl | hq
      · assumption
      · exact h3 q hq

theorem findPiece_none (r : Role) (a : List Piece) : findPiece r a = none ↔ ¬ Has r a := by
  induction a with
  | nil => simp [findPiece, Has]
  | cons p ps ih =>
    unfold findPiece
    split
    · simp [Has, *]
    · simp only [Option.map_eq_none_iff, ih, Has]
      simp [*]

theorem findPiece_isNone (r : Role) (a : List Piece) :
    (findPiece r a).isNone = true ↔ ¬ Has r a := by
  rw [Option.isNone_iff_eq_none, findPiece_none]

theorem order_split {A B : List Piece} {p : Piece}
    (h : ((A ++ p :: B).map fun p => p.role.rank).Pairwise (· < ·)) :
    (∀ q ∈ A, q.role.rank < p.role.rank) ∧ (∀ q ∈ B, p.role.rank < q.role.rank) ∧
      (A.map fun p => p.role.rank).Pairwise (· < ·) ∧
      (B.map fun p => p.role.rank).Pairwise (· < ·) ∧
      ∀ q ∈ A, ∀ s ∈ B, q.role.rank < s.role.rank := by
  simp only [List.map_append, List.map_cons, List.pairwise_append, List.pairwise_cons,
    List.mem_map, List.mem_cons, forall_exists_index, and_imp, forall_apply_eq_imp_iff₂] at h
  obtain ⟨h1, ⟨h2, h3⟩, h4⟩ := h
  exact ⟨fun q hq => h4 q hq _ (Or.inl rfl), h2, h1, h3,
    fun q hq s hs => h4 q hq _ (Or.inr ⟨s, hs, rfl⟩)⟩

theorem rank_inj {r s : Role} (h : r.rank = s.rank) : r = s := by
  cases r <;> cases s <;> first | rfl | (simp [Role.rank] at h)

theorem others {A B : List Piece} {p : Piece}
    (h : ((A ++ p :: B).map fun p => p.role.rank).Pairwise (· < ·)) :
    (∀ q ∈ A, q.role ≠ p.role) ∧ ∀ q ∈ B, q.role ≠ p.role := by
  obtain ⟨h1, h2, -⟩ := order_split h
  exact ⟨fun q hq e => by have := h1 q hq; rw [e] at this; omega,
    fun q hq e => by have := h2 q hq; rw [e] at this; omega⟩

theorem core_append (a b : List Piece) : core (a ++ b) = core a ++ core b := by simp [core]

theorem core_cons (p : Piece) (b : List Piece) : core (p :: b) = (p.role, p.text) :: core b := rfl

theorem renderPieces_append (a b : List Piece) :
    renderPieces (a ++ b) = renderPieces a ++ renderPieces b := by simp [renderPieces]

theorem renderPieces_cons (p : Piece) (b : List Piece) :
    renderPieces (p :: b) = p.text ++ p.gap ++ renderPieces b := by simp [renderPieces]

theorem has_core (r : Role) (a : List Piece) : Has r a ↔ ∃ x ∈ core a, x.1 = r := by
  simp [Has, core]

theorem isErrorCode_core (a : List Piece) :
    IsErrorCode a ↔ (Role.name, "ErrorCode".toList) ∈ core a := by
  simp [IsErrorCode, core]

theorem ranks_core (a : List Piece) :
    (a.map fun p => p.role.rank) = (core a).map fun x => x.1.rank := by
  simp [core]

/-- The shape of an alias does not depend on its trivia. -/
theorem wf_core (a : List Piece) : WfAlias a ↔
    ((core a).map fun x => x.1.rank).Pairwise (· < ·) ∧
    (core a).head?.map (·.1) = some .kw ∧
    ((∃ x ∈ core a, x.1 = .ty) → ∃ x ∈ core a, x.1 = .eq) ∧
    (∀ x ∈ core a, x.1 = .eq → x.2 = ['=']) ∧ ∀ x ∈ core a, x.1 = .semi → x.2 = [';'] := by
  constructor
  · rintro ⟨h1, h2, h3, h4, h5⟩
    refine ⟨by rw [← ranks_core]; exact h1, ?_, by simpa only [has_core] using h3, ?_, ?_⟩
    · cases a <;> simp_all [core]
    · simpa [core] using h4
    · simpa [core] using h5
  · rintro ⟨h1, h2, h3, h4, h5⟩
    refine ⟨by rw [ranks_core]; exact h1, ?_, by simpa only [has_core] using h3, ?_, ?_⟩
    · cases a <;> simp_all [core]
    · simpa [core] using h4
    · simpa [core] using h5

/-! ## Applying edits -/

theorem applyAll_cons (d : List Char) (e : Edit) (es : List Edit) :
    applyAll d (e :: es) = (applyAll d es).bind fun d => applyEdit d e := rfl

theorem applyAll_one (d : List Char) (e : Edit) : applyAll d [e] = applyEdit d e := by
  simp [applyAll]

theorem apply_at (P m S : List Char) (A t B n : List Char) (sn : Option (List Char))
    (hm : m = A ++ t ++ B) :
    applyAll (P ++ m ++ S) [⟨n, bytes P + bytes A, bytes P + bytes A + bytes t, sn⟩] =
      some (P ++ (A ++ n ++ B) ++ S) := by
  rw [applyAll_one, hm]
  have := Header.apply_cut (P ++ A) t (B ++ S)
    ⟨n, bytes P + bytes A, bytes P + bytes A + bytes t, sn⟩ (by simp [bytes_append])
    (by simp [bytes_append])
  simpa [List.append_assoc] using this

/-- An alias with a part removed; the trivia after it stays. -/
theorem remove_piece (P S : List Char) (a A B : List Piece) (p : Piece) (h : a = A ++ p :: B)
    (hA : A ≠ []) :
    ∃ a', core a' = core A ++ core B ∧
      applyAll (P ++ renderPieces a ++ S) [⟨[], bytes P + bytes (renderPieces A),
        bytes P + bytes (renderPieces A) + bytes p.text, none⟩] =
      some (P ++ renderPieces a' ++ S) := by
  obtain ⟨A0, q, rfl⟩ : ∃ A0 q, A = A0 ++ [q] :=
    ⟨A.dropLast, A.getLast hA, (List.dropLast_append_getLast hA).symm⟩
  refine ⟨A0 ++ { q with gap := q.gap ++ p.gap } :: B, by simp [core], ?_⟩
  rw [apply_at P _ S (renderPieces (A0 ++ [q])) p.text (p.gap ++ renderPieces B) [] none
    (by rw [h]; simp [renderPieces])]
  simp [renderPieces]

theorem head_ne {a A B : List Piece} {p : Piece} (hw : WfAlias a) (h : a = A ++ p :: B)
    (hp : p.role ≠ .kw) : A ≠ [] := by
  rintro rfl
  have := hw.start
  rw [h] at this
  simp at this
  exact hp this

theorem filter_core {A B : List Piece} {p : Piece} {r : Role}
    (h : ((A ++ p :: B).map fun p => p.role.rank).Pairwise (· < ·)) (hr : p.role = r) :
    (core (A ++ p :: B)).filter (fun x => decide (x.1 ≠ r)) = core A ++ core B := by
  obtain ⟨h1, h2⟩ := others h
  rw [core_append, core_cons, List.filter_append, List.filter_cons]
  simp only [hr, ne_eq, not_true_eq_false, decide_false, Bool.false_eq_true, if_false]
  congr 1
  · rw [List.filter_eq_self]
    intro x hx
    obtain ⟨q, hq, rfl⟩ := List.mem_map.1 hx
    simpa [hr] using h1 q hq
  · rw [List.filter_eq_self]
    intro x hx
    obtain ⟨q, hq, rfl⟩ := List.mem_map.1 hx
    simpa [hr] using h2 q hq

/-- Removing a part keeps the shape. -/
theorem wf_filter {a a' : List Piece} {r : Role} (hw : WfAlias a) (h1 : r ≠ .kw) (h2 : r ≠ .eq)
    (hc : core a' = (core a).filter (fun x => decide (x.1 ≠ r))) : WfAlias a' := by
  rw [wf_core] at hw ⊢
  obtain ⟨w1, w2, w3, w4, w5⟩ := hw
  rw [hc]
  refine ⟨?_, ?_, ?_, ?_, ?_⟩
  · exact List.Pairwise.sublist (List.Sublist.map _ List.filter_sublist) w1
  · cases hca : core a with
    | nil => simp [hca] at w2
    | cons x xs =>
      rw [hca] at w2
      simp only [List.head?_cons, Option.map_some, Option.some.injEq] at w2
      rw [List.filter_cons, if_pos (by simp [w2, Ne.symm h1])]
      simp [w2]
  · rintro ⟨x, hx, hr⟩
    obtain ⟨y, hy, he⟩ := w3 ⟨x, (List.mem_filter.1 hx).1, hr⟩
    exact ⟨y, List.mem_filter.2 ⟨hy, by simp [he, Ne.symm h2]⟩, he⟩
  · exact fun x hx => w4 x (List.mem_filter.1 hx).1
  · exact fun x hx => w5 x (List.mem_filter.1 hx).1

/-- What renaming does to the parts. -/
def renamePart (x : Role × List Char) : Role × List Char :=
  if x.1 = .name then (x.1, "ErrorCode".toList) else x

theorem renamePart_role (x : Role × List Char) : (renamePart x).1 = x.1 := by
  unfold renamePart; split <;> rfl

theorem renamePart_text (x : Role × List Char) (h : x.1 ≠ .name) : renamePart x = x := by
  unfold renamePart; rw [if_neg h]

theorem map_core_other (l : List Piece) (h : ∀ q ∈ l, q.role ≠ .name) :
    (core l).map (fun x => if x.1 = .name then (x.1, "ErrorCode".toList) else x) = core l := by
  rw [List.map_congr_left (g := id), List.map_id]
  intro x hx
  obtain ⟨q, hq, rfl⟩ := List.mem_map.1 hx
  exact renamePart_text _ (h q hq)

/-- Renaming keeps the shape. -/
theorem wf_rename {a a' : List Piece} (hw : WfAlias a)
    (hc : core a' = (core a).map (fun x =>
      if x.1 = .name then (x.1, "ErrorCode".toList) else x)) : WfAlias a' := by
  have hc : core a' = (core a).map renamePart := hc
  rw [wf_core] at hw ⊢
  obtain ⟨w1, w2, w3, w4, w5⟩ := hw
  rw [hc]
  simp only [List.map_map, List.mem_map, List.head?_map, Option.map_map,
    exists_exists_and_eq_and, forall_exists_index, and_imp, forall_apply_eq_imp_iff₂,
    renamePart_role, Function.comp_def]
  refine ⟨w1, w2, fun x hx hr => w3 ⟨x, hx, hr⟩, ?_, ?_⟩
  · intro x hx hr
    rw [renamePart_text x (by simp [hr])]
    exact w4 x hx hr
  · intro x hx hr
    rw [renamePart_text x (by simp [hr])]
    exact w5 x hx hr

theorem rank_lt_eq {q : Piece} (h : q.role.rank < 5) : q.role ≠ .eq ∧ q.role ≠ .ty ∧
    q.role ≠ .semi := by
  refine ⟨?_, ?_, ?_⟩ <;> intro e <;> rw [e] at h <;> simp [Role.rank] at h

theorem filter_early (A : List Piece) (h : ∀ q ∈ A, q.role.rank < 5) :
    (core A).filter (fun x => decide (x.1 ≠ .eq ∧ x.1 ≠ .semi)) = core A := by
  rw [List.filter_eq_self]
  intro x hx
  obtain ⟨q, hq, rfl⟩ := List.mem_map.1 hx
  have := rank_lt_eq (h q hq)
  simp [this.1, this.2.2]

/-- An alias with a default type has the right shape. -/
theorem wf_default {a' A : List Piece} (h0 : (A.map fun p => p.role.rank).Pairwise (· < ·))
    (h1 : ∀ q ∈ A, q.role.rank < 5) (h2 : A.head?.map (·.role) = some .kw)
    (hc : core a' = core A ++ [(.eq, ['=']), (.ty, ['(', ')']), (.semi, [';'])]) : WfAlias a' := by
  rw [wf_core, hc]
  have hm : ∀ x ∈ core A, x.1.rank < 5 := by
    intro x hx
    obtain ⟨q, hq, rfl⟩ := List.mem_map.1 hx
    exact h1 q hq
  refine ⟨?_, ?_, fun _ => ⟨(.eq, ['=']), by simp, rfl⟩, ?_, ?_⟩
  · rw [List.map_append, List.pairwise_append]
    refine ⟨by rw [← ranks_core]; exact h0, by simp [Role.rank], ?_⟩
    intro i hi j hj
    obtain ⟨x, hx, rfl⟩ := List.mem_map.1 hi
    have := hm x hx
    simp [Role.rank] at hj
    omega
  · cases A <;> simp_all [core]
  · intro x hx hr
    rcases List.mem_append.1 hx with hx | hx
    · have := hm x hx
      rw [hr] at this
      simp [Role.rank] at this
    · simp at hx
      rcases hx with rfl | rfl | rfl <;> simp_all
  · intro x hx hr
    rcases List.mem_append.1 hx with hx | hx
    · have := hm x hx
      rw [hr] at this
      simp [Role.rank] at this
    · simp at hx
      rcases hx with rfl | rfl | rfl <;> simp_all

theorem head_of_append {a A B : List Piece} (hw : WfAlias a) (h : a = A ++ B) (hA : A ≠ []) :
    A.head?.map (·.role) = some .kw := by
  have := hw.start
  cases A with
  | nil => exact absurd rfl hA
  | cons p A => rw [h] at this; simpa using this

/-- Only a semicolon follows the `=` of an alias without type. -/
theorem after_eq {B : List Piece} {n : Nat} (h : ∀ q ∈ B, n < q.role.rank) (hn : 5 ≤ n)
    (ho : (B.map fun p => p.role.rank).Pairwise (· < ·)) (ht : ¬ Has .ty B) :
    B = [] ∨ ∃ s, B = [s] ∧ s.role = .semi := by
  cases B with
  | nil => exact Or.inl rfl
  | cons s B =>
    right
    have hs : ∀ q ∈ s :: B, q.role = .semi := by
      intro q hq
      have h1 := h q hq
      have h2 : q.role ≠ .ty := fun e => ht ⟨q, hq, e⟩
      cases hr : q.role <;> simp [hr, Role.rank] at h1 h2 ⊢ <;> omega
    refine ⟨s, ?_, hs s (by simp)⟩
    cases B with
    | nil => rfl
    | cons t B =>
      simp [hs s (by simp), hs t (by simp)] at ho

theorem errorCode_eq : errorCode = "ErrorCode".toList := by decide

/-- What the quick fixes do to an alias. -/
theorem alias_fix (keep : List ArgKind) (new : ArgKind × List Char) (P S : List Char)
    (a : List Piece) (hw : WfAlias a) (x : Report) (hx : x ∈ aliasReports (bytes P) a)
    (es : List Edit) (he : x.fix = some es) (hd : x.rule = .default → Has .eq a ∨ Has .semi a) :
    ∃ a', WfAlias a' ∧ Fixed keep new x.rule (.alias a) (some (.alias a')) ∧
      applyAll (P ++ renderPieces a ++ S) es = some (P ++ renderPieces a' ++ S) := by
  unfold aliasReports at hx
  simp only [List.mem_append] at hx
  rcases hx with ((hx | hx) | hx) | hx
  · unfold namedReports at hx
    split at hx
    · rename_i y hy
      obtain ⟨h1, h2, h3⟩ := findPiece_some _ _ _ hy
      obtain ⟨A, p, B⟩ := y
      simp only at h1 h2 h3 hx
      split at hx
      · cases hx
      · cases List.mem_singleton.1 hx
        cases he
        have ho := others (h1 ▸ hw.order)
        have hc : core (A ++ { p with text := errorCode } :: B) = (core a).map (fun x =>
            if x.1 = .name then (x.1, "ErrorCode".toList) else x) := by
          rw [h1, core_append, core_append, core_cons, core_cons, List.map_append, List.map_cons]
          simp only [h2, if_true, errorCode_eq]
          rw [map_core_other A (fun q hq => h2 ▸ ho.1 q hq), map_core_other B (fun q hq => h2 ▸ ho.2 q hq)]
        refine ⟨A ++ { p with text := errorCode } :: B, wf_rename hw hc, .named _ _ hc, ?_⟩
        · simp only [pieceRange]
          rw [apply_at P _ S (renderPieces A) p.text (p.gap ++ renderPieces B) errorCode none
            (by rw [h1]; simp [renderPieces])]
          simp [renderPieces]
    · cases List.mem_singleton.1 hx
      cases he
  · unfold forbidPiece at hx
    split at hx
    · rename_i y hy
      obtain ⟨h1, h2, h3⟩ := findPiece_some _ _ _ hy
      obtain ⟨A, p, B⟩ := y
      cases List.mem_singleton.1 hx
      cases he
      simp only at h1 h2 h3
      obtain ⟨a', hc, ht⟩ := remove_piece P S a A B p h1 (head_ne hw h1 (by simp [h2]))
      have hc' : core a' = (core a).filter (fun x => decide (x.1 ≠ .generics)) := by
        rw [h1, filter_core (h1 ▸ hw.order) h2, hc]
      exact ⟨a', wf_filter hw (by decide) (by decide) hc', .generics _ _ hc', ht⟩
    · cases hx
  · unfold forbidPiece at hx
    split at hx
    · rename_i y hy
      obtain ⟨h1, h2, h3⟩ := findPiece_some _ _ _ hy
      obtain ⟨A, p, B⟩ := y
      cases List.mem_singleton.1 hx
      cases he
      simp only at h1 h2 h3
      obtain ⟨a', hc, ht⟩ := remove_piece P S a A B p h1 (head_ne hw h1 (by simp [h2]))
      have hc' : core a' = (core a).filter (fun x => decide (x.1 ≠ .bounds)) := by
        rw [h1, filter_core (h1 ▸ hw.order) h2, hc]
      exact ⟨a', wf_filter hw (by decide) (by decide) hc', .bounds _ _ hc', ht⟩
    · cases hx
  · unfold defaultReports at hx
    split at hx
    case isFalse => cases hx
    rename_i hty
    rw [findPiece_isNone] at hty
    cases List.mem_singleton.1 hx
    cases he
    have hd := hd rfl
    simp only
    unfold defaultOffset defaultAffixes
    cases hf : findPiece .eq a with
    | some y =>
      obtain ⟨h1, h2, h3⟩ := findPiece_some _ _ _ hf
      obtain ⟨A, e, B⟩ := y
      simp only at h1 h2 h3
      obtain ⟨o1, o2, o3, o4, -⟩ := order_split (h1 ▸ hw.order)
      have hA := head_ne hw h1 (by simp [h2])
      have o1 : ∀ q ∈ A, q.role.rank < 5 := by simpa [h2, Role.rank] using o1
      have hkw := head_of_append hw h1 hA
      have heq : e.text = ['='] := hw.eq e (by rw [h1]; simp) h2
      have hB := after_eq o2 (by simp [h2, Role.rank]) o4 (fun ⟨q, hq, e⟩ => hty ⟨q, by
        rw [h1]; simp [hq], e⟩)
      rcases hB with rfl | ⟨s, rfl, hs⟩
      · have hsemi : ¬ Has .semi a := by
          rintro ⟨q, hq, hr⟩
          rw [h1] at hq
          rcases List.mem_append.1 hq with hq | hq
          · exact (rank_lt_eq (o1 q hq)).2.2 hr
          · cases List.mem_singleton.1 hq
            rw [h2] at hr
            cases hr
        have hc : core (A ++ [{ e with gap := [] }, ⟨.ty, ['(', ')'], []⟩, ⟨.semi, [';'], e.gap⟩]) =
            core A ++ [(.eq, ['=']), (.ty, ['(', ')']), (.semi, [';'])] := by
          simp [core, h2, heq]
        refine ⟨_, wf_default o3 o1 hkw hc, .default _ _ ?_, ?_⟩
        · rw [hc, h1, core_append, List.filter_append, filter_early A o1]
          simp [core, h2]
        · rw [(findPiece_none .semi a).2 hsemi]
          have := apply_at P (renderPieces a) S (renderPieces A ++ e.text) [] e.gap
            (['(', ')'] ++ [';']) (some (['$', '{', '1', ':', '(', ')', '}'] ++ [';']))
            (by rw [h1]; simp [renderPieces])
          simp only [bytes_append, pieceRange, Nat.add_assoc] at this ⊢
          simpa [bytes, renderPieces] using this
      · have hsemi : Has .semi a := ⟨s, by rw [h1]; simp, hs⟩
        have hst : s.text = [';'] := hw.semi s (by rw [h1]; simp) hs
        have hc : core (A ++ [{ e with gap := [] }, ⟨.ty, ['(', ')'], e.gap⟩, s]) =
            core A ++ [(.eq, ['=']), (.ty, ['(', ')']), (.semi, [';'])] := by
          simp [core, h2, heq, hs, hst]
        refine ⟨_, wf_default o3 o1 hkw hc, .default _ _ ?_, ?_⟩
        · rw [hc, h1, core_append, List.filter_append, filter_early A o1]
          simp [core, h2, hs]
        · have hn : (findPiece .semi a).isNone = false := by
            rw [Bool.eq_false_iff]
            exact fun h => (findPiece_isNone .semi a).1 h hsemi
          have := apply_at P (renderPieces a) S (renderPieces A ++ e.text) []
            (e.gap ++ renderPieces [s]) ['(', ')'] (some ['$', '{', '1', ':', '(', ')', '}'])
            (by rw [h1]; simp [renderPieces])
          simp only [bytes_append, pieceRange, Nat.add_assoc, hn] at this ⊢
          simpa [bytes, renderPieces] using this
    | none =>
      have hne := (findPiece_none _ _).1 hf
      have hsemi : Has .semi a := hd.resolve_left hne
      cases hs : findPiece .semi a with
      | none => exact absurd hsemi ((findPiece_none _ _).1 hs)
      | some y =>
        obtain ⟨h1, h2, h3⟩ := findPiece_some _ _ _ hs
        obtain ⟨A, s, B⟩ := y
        simp only at h1 h2 h3
        obtain ⟨o1, o2, o3, o4, -⟩ := order_split (h1 ▸ hw.order)
        have hA := head_ne hw h1 (by simp [h2])
        have hkw := head_of_append hw h1 hA
        have hst : s.text = [';'] := hw.semi s (by rw [h1]; simp) h2
        have hB : B = [] := by
          cases B with
          | nil => rfl
          | cons q B =>
            have := o2 q (by simp)
            rw [h2] at this
            cases hq : q.role <;> simp [hq, Role.rank] at this
        subst hB
        have o1 : ∀ q ∈ A, q.role.rank < 5 := by
          intro q hq
          have hm : q ∈ a := by rw [h1]; simp [hq]
          have h4 := o1 q hq
          have h5 : q.role ≠ .eq := fun e => hne ⟨q, hm, e⟩
          have h6 : q.role ≠ .ty := fun e => hty ⟨q, hm, e⟩
          rw [h2] at h4
          cases hr : q.role <;> simp [hr, Role.rank] at h4 h5 h6 ⊢
        obtain ⟨A0, q, rfl⟩ : ∃ A0 q, A = A0 ++ [q] :=
          ⟨A.dropLast, A.getLast hA, (List.dropLast_append_getLast hA).symm⟩
        have hc : core (A0 ++ [{ q with gap := q.gap ++ [' '] }, ⟨.eq, ['='], [' ']⟩,
            ⟨.ty, ['(', ')'], []⟩, s]) =
            core (A0 ++ [q]) ++ [(.eq, ['=']), (.ty, ['(', ')']), (.semi, [';'])] := by
          simp [core, h2, hst]
        refine ⟨_, wf_default o3 o1 hkw hc, .default _ _ ?_, ?_⟩
        · rw [hc, h1, core_append (A0 ++ [q]) [s], List.filter_append, filter_early _ o1]
          simp [core, h2]
        · have := apply_at P (renderPieces a) S (renderPieces (A0 ++ [q])) []
            (renderPieces [s]) ([' ', '=', ' '] ++ ['(', ')'])
            (some ([' ', '=', ' '] ++ ['$', '{', '1', ':', '(', ')', '}']))
            (by rw [h1]; simp [renderPieces])
          simp only [pieceRange] at this ⊢
          simpa [bytes, renderPieces] using this

/-! ## Attributes -/

theorem renderAttrs_append (a b : List FnAttr) :
    renderAttrs (a ++ b) = renderAttrs a ++ renderAttrs b := by simp [renderAttrs]

/-- The attributes that are deleted. -/
def Deleted (keep : AttrKind → Bool) (a : FnAttr) : Bool :=
  match a.ink with
  | some k => !keep k
  | none => false

/-- The text of attributes when some are deleted. -/
def stripped (keep : AttrKind → Bool) (l : List FnAttr) : List Char :=
  l.flatMap fun a => if Deleted keep a then a.gap else a.text ++ a.gap

/-- The deletions. -/
def deletions (keep : AttrKind → Bool) (o : Nat) (l : List FnAttr) : List Edit :=
  (((placeAttrs o l).filterMap fun x => x.1.ink.map fun k => (k, x.2)).filter
    fun x => !keep x.1).map fun x => ⟨[], x.2.1, x.2.2, none⟩

theorem deletions_cons (keep : AttrKind → Bool) (o : Nat) (a : FnAttr) (l : List FnAttr) :
    deletions keep o (a :: l) =
      (if Deleted keep a then [⟨[], o, o + bytes a.text, none⟩] else []) ++
        deletions keep (o + bytes a.text + bytes a.gap) l := by
  obtain ⟨ink, text, gap, w⟩ := a
  cases ink with
  | none => simp [deletions, placeAttrs, Deleted]
  | some k => cases hk : keep k <;> simp [deletions, placeAttrs, Deleted, hk]

theorem apply_deletions (keep : AttrKind → Bool) (l : List FnAttr) (P S : List Char) :
    applyAll (P ++ renderAttrs l ++ S) (deletions keep (bytes P) l) =
      some (P ++ stripped keep l ++ S) := by
  induction l generalizing P with
  | nil => simp [deletions, placeAttrs, applyAll, renderAttrs, stripped]
  | cons a l ih =>
    have := ih (P ++ a.text ++ a.gap)
    rw [bytes_append, bytes_append] at this
    rw [deletions_cons]
    have e1 : P ++ renderAttrs (a :: l) ++ S = P ++ a.text ++ a.gap ++ renderAttrs l ++ S := by
      simp [renderAttrs]
    rw [e1]
    by_cases hd : Deleted keep a = true
    · rw [if_pos hd]
      rw [List.singleton_append, applyAll_cons, this, Option.bind_some]
      have := apply_at P (a.text ++ a.gap ++ stripped keep l) S [] a.text
        (a.gap ++ stripped keep l) [] none (by simp)
      rw [applyAll_one] at this
      simp only [bytes, Nat.add_zero, List.nil_append] at this
      simpa [stripped, hd, List.append_assoc] using this
    · rw [if_neg hd, List.nil_append, this]
      simp [stripped, hd]

theorem stripped_append (keep : AttrKind → Bool) (a b : List FnAttr) :
    stripped keep (a ++ b) = stripped keep a ++ stripped keep b := by simp [stripped]

theorem stripped_other (keep : AttrKind → Bool) (l : List FnAttr) (h : ∀ a ∈ l, a.ink = none) :
    stripped keep l = renderAttrs l := by
  unfold stripped renderAttrs
  induction l with
  | nil => rfl
  | cons a l ih =>
    rw [List.flatMap_cons, List.flatMap_cons, ih (fun b hb => h b (by simp [hb]))]
    simp [Deleted, h a (by simp)]

/-- An attribute that takes the trivia of the deleted attributes after it, and the other
attributes. -/
def absorb (keep : AttrKind → Bool) : FnAttr → List FnAttr → List FnAttr
  | a, [] => [a]
  | a, b :: l =>
    if Deleted keep b then absorb keep { a with gap := a.gap ++ b.gap } l
    else a :: absorb keep b l

theorem absorb_render (keep : AttrKind → Bool) (l : List FnAttr) (a : FnAttr) :
    renderAttrs (absorb keep a l) = a.text ++ a.gap ++ stripped keep l := by
  induction l generalizing a with
  | nil => simp [absorb, renderAttrs, stripped]
  | cons b l ih =>
    unfold absorb
    split
    · rw [ih]; simp [stripped, *]
    · have := ih b
      simp only [renderAttrs, List.flatMap_cons] at this ⊢
      rw [this]; simp [stripped, *]

theorem absorb_core (keep : AttrKind → Bool) (l : List FnAttr) (a : FnAttr) :
    attrCore (absorb keep a l) =
      (a.ink, a.text) :: attrCore (l.filter fun b => !Deleted keep b) := by
  induction l generalizing a with
  | nil => simp [absorb, attrCore]
  | cons b l ih =>
    unfold absorb
    split
    · rw [ih]; simp [*]
    · have := ih b
      simp only [attrCore, List.map_cons] at this ⊢
      rw [this]; simp [*]

theorem takeWhile_other (l : List FnAttr) :
    ∀ a ∈ l.takeWhile (·.ink = none), a.ink = none := by
  induction l with
  | nil => simp
  | cons b l ih =>
    intro a ha
    rw [List.takeWhile_cons] at ha
    split at ha
    · rcases List.mem_cons.1 ha with rfl | ha
      · simpa using ‹decide _ = true›
      · exact ih a ha
    · cases ha

theorem placeInk_offset (o : Nat) (l : List FnAttr) :
    (match (placeAttrs o l).filterMap fun x => x.1.ink.map fun k => (k, x.2) with
      | x :: _ => x.2.1
      | [] => o + bytes (renderAttrs l)) = o + bytes (renderAttrs (l.takeWhile (·.ink = none))) := by
  induction l generalizing o with
  | nil => rfl
  | cons a l ih =>
    obtain ⟨ink, text, gap, w⟩ := a
    cases ink with
    | none =>
      have := ih (o + bytes text + bytes gap)
      simp only [placeAttrs, List.filterMap_cons, Option.map_none, List.takeWhile_cons,
        decide_true, if_true, renderAttrs, List.flatMap_cons, bytes_append] at this ⊢
      rw [← Nat.add_assoc, ← Nat.add_assoc, ← Nat.add_assoc, ← Nat.add_assoc]
      exact this
    | some k =>
      simp [placeAttrs, renderAttrs, bytes]

theorem attrOffset_eq (o : Nat) (f : FnMember) : attrOffset o f =
    o + bytes f.docs + bytes (renderAttrs (f.attrs.takeWhile (·.ink = none))) :=
  placeInk_offset _ _

/-- What adding an attribute does to a function. -/
theorem annotate_fix (P S : List Char) (f : FnMember) (text snippet : List Char) (sn : Bool)
    (keep : AttrKind → Bool) (k : ArgKind) :
    ∃ f' : FnMember, f'.docs = f.docs ∧ f'.decl = f.decl ∧ f'.body = f.body ∧
      attrCore f'.attrs = attrCore (f.attrs.takeWhile (·.ink = none)) ++
        [(some (.arg k), text)] ++
        attrCore ((f.attrs.dropWhile (·.ink = none)).filter fun b => !Deleted keep b) ∧
      applyAll (P ++ f.render ++ S) (annotate text snippet sn keep (bytes P) f) =
        some (P ++ f'.render ++ S) := by
  obtain ⟨docs, attrs, decl, body⟩ := f
  let A := attrs.takeWhile (·.ink = none)
  let B := attrs.dropWhile (·.ink = none)
  have hAB : attrs = A ++ B := (List.takeWhile_append_dropWhile).symm
  refine ⟨⟨docs, A ++ absorb keep ⟨some (.arg k), text, [], []⟩ B, decl, body⟩, rfl, rfl, rfl, ?_, ?_⟩
  · have := absorb_core keep B ⟨some (.arg k), text, [], []⟩
    simp only [attrCore, List.map_append, List.append_assoc, List.singleton_append] at this ⊢
    rw [this]
  · unfold annotate
    rw [applyAll_cons, attrOffset_eq]
    have h1 := apply_deletions keep attrs (P ++ docs) (decl ++ body.getD [] ++ S)
    rw [bytes_append] at h1
    have h2 : P ++ FnMember.render ⟨docs, attrs, decl, body⟩ ++ S =
        P ++ docs ++ renderAttrs attrs ++ (decl ++ body.getD [] ++ S) := by
      simp [FnMember.render]
    rw [h2]
    show (applyAll _ (deletions keep (bytes P + bytes docs) attrs)).bind _ = _
    rw [h1, Option.bind_some]
    have h3 : stripped keep attrs = renderAttrs A ++ stripped keep B := by
      conv_lhs => rw [hAB]
      rw [stripped_append, stripped_other keep A (takeWhile_other attrs)]
    have h4 := apply_at (P ++ docs) (renderAttrs A ++ stripped keep B) (decl ++ body.getD [] ++ S)
      (renderAttrs A) [] (stripped keep B) text (if sn then some snippet else none) (by simp)
    rw [applyAll_one] at h4
    simp only [bytes_append, bytes, Nat.add_zero] at h4
    rw [h3, h4]
    simp [FnMember.render, renderAttrs_append, absorb_render]

theorem annotate_inOrder_aux (keep : AttrKind → Bool) (l : List FnAttr) (o : Nat) :
    (∀ e ∈ deletions keep o l, o ≤ e.start) ∧ InOrder (deletions keep o l) := by
  induction l generalizing o with
  | nil => simp [deletions, placeAttrs, InOrder]
  | cons a l ih =>
    obtain ⟨h1, h2⟩ := ih (o + bytes a.text + bytes a.gap)
    rw [deletions_cons]
    split
    · refine ⟨?_, ?_⟩
      · intro e he
        rcases List.mem_cons.1 he with rfl | he
        · exact Nat.le_refl _
        · have := h1 e he; omega
      · refine List.pairwise_cons.2 ⟨?_, h2⟩
        intro e he
        have := h1 e he
        simp only
        omega
    · refine ⟨?_, h2⟩
      intro e he
      have := h1 e he; omega

theorem deletions_takeWhile (keep : AttrKind → Bool) (l : List FnAttr) (o : Nat) :
    deletions keep o l = deletions keep (o + bytes (renderAttrs (l.takeWhile (·.ink = none))))
      (l.dropWhile (·.ink = none)) := by
  induction l generalizing o with
  | nil => rfl
  | cons a l ih =>
    by_cases h : a.ink = none
    · have hd : Deleted keep a = false := by simp [Deleted, h]
      rw [deletions_cons, hd, ih, List.takeWhile_cons, List.dropWhile_cons]
      simp [h, renderAttrs, bytes_append, Nat.add_assoc]
    · rw [List.takeWhile_cons, List.dropWhile_cons, if_neg (by simp [h]), if_neg (by simp [h])]
      simp [renderAttrs, bytes]

theorem annotate_inOrder (f : FnMember) (text snippet : List Char) (sn : Bool)
    (keep : AttrKind → Bool) (o : Nat) : InOrder (annotate text snippet sn keep o f) := by
  unfold annotate
  refine List.pairwise_cons.2 ⟨?_, (annotate_inOrder_aux keep f.attrs _).2⟩
  intro e he
  rw [attrOffset_eq]
  have he : e ∈ deletions keep (o + bytes f.docs) f.attrs := he
  rw [deletions_takeWhile] at he
  exact (annotate_inOrder_aux keep _ _).1 e he

/-! ## Members -/

/-- The reports on one member of a chain extension, and the ids taken afterwards. -/
def chainMember (v : Version) (o : Nat) (m : Member) (used : List Nat) : List Report × List Nat :=
  match m with
  | .const _ => ([removal .const (memberRange o m)], used)
  | .macro _ => ([removal .macro (memberRange o m)], used)
  | .alias a => (aliasReports o a, used)
  | .fn f => (bodyReports o f ++ (chainFnReports v o f used).1, (chainFnReports v o f used).2)

theorem chainMembers_cons (v : Version) (o : Nat) (m : Member) (g : List Char) (b : Body)
    (used : List Nat) : chainMembers v o ((m, g) :: b) used =
      (chainMember v o m used).1 ++
        chainMembers v (o + bytes m.render + bytes g) b (chainMember v o m used).2 := by
  cases m <;> simp [chainMembers, chainMember]

theorem idKind_eq (v : Version) : idArgKind v = idKind v := by cases v <;> rfl

theorem hasKind_iff (k : ArgKind) (f : FnMember) : hasKind k f = true ↔ Annotated k f := by
  simp [hasKind, Annotated]

theorem namedReports_rules (o : Nat) (a : List Piece) (hw : WfAlias a) :
    (namedReports o a).map (·.rule) = if IsErrorCode a then [] else [.named] := by
  unfold namedReports
  cases hf : findPiece .name a with
  | none =>
    have := (findPiece_none _ _).1 hf
    rw [if_neg]
    · rfl
    · rintro ⟨p, hp, hr, -⟩
      exact this ⟨p, hp, hr⟩
  | some y =>
    obtain ⟨A, p, B⟩ := y
    obtain ⟨h1, h2, h3⟩ := findPiece_some _ _ _ hf
    simp only at h1 h2 h3 ⊢
    have ho := others (h1 ▸ hw.order)
    have : IsErrorCode a ↔ p.text = errorCode := by
      rw [errorCode_eq]
      constructor
      · rintro ⟨q, hq, hr, ht⟩
        rw [h1] at hq
        rcases List.mem_append.1 hq with hq | hq
        · exact absurd hr (h3 q hq)
        · rcases List.mem_cons.1 hq with rfl | hq
          · exact ht
          · exact absurd hr (h2 ▸ ho.2 q hq)
      · exact fun ht => ⟨p, by rw [h1]; simp, h2, ht⟩
    split
    · rw [if_pos (this.2 ‹_›)]; rfl
    · rw [if_neg (fun h => ‹¬ _› (this.1 h))]; rfl

theorem forbidPiece_rules (rule : Rule) (r : Role) (o : Nat) (a : List Piece) :
    (forbidPiece rule r o a).map (·.rule) = if Has r a then [rule] else [] := by
  unfold forbidPiece
  cases hf : findPiece r a with
  | none => rw [if_neg ((findPiece_none _ _).1 hf)]; rfl
  | some y =>
    obtain ⟨h1, h2, h3⟩ := findPiece_some _ _ _ hf
    rw [if_pos ⟨y.2.1, by rw [h1]; simp, h2⟩]; rfl

theorem defaultReports_rules (o : Nat) (a : List Piece) :
    (defaultReports o a).map (·.rule) = if Has .ty a then [] else [.default] := by
  unfold defaultReports
  by_cases h : Has .ty a
  · rw [if_pos h, if_neg (fun h' => (findPiece_isNone _ _).1 h' h)]; rfl
  · rw [if_neg h, if_pos ((findPiece_isNone _ _).2 h)]; rfl

theorem chainMember_rules (v : Version) (o : Nat) (m : Member) (used : List Nat)
    (hw : ∀ a, m = .alias a → WfAlias a) :
    ((chainMember v o m used).1).map (·.rule) = chainRules v m := by
  cases m with
  | const t => rfl
  | «macro» t => rfl
  | «alias» a =>
    simp only [chainMember, aliasReports, chainRules, List.map_append,
      namedReports_rules o a (hw a rfl), forbidPiece_rules, defaultReports_rules]
  | fn f =>
    simp only [chainMember, chainRules, List.map_append]
    congr 1
    · unfold bodyReports
      cases f.body <;> rfl
    · unfold chainFnReports
      rw [idKind_eq]
      by_cases h : Annotated (idKind v) f
      · rw [if_pos ((hasKind_iff _ _).2 h), if_pos (Or.inl h)]; rfl
      · rw [if_neg (fun h' => h ((hasKind_iff _ _).1 h'))]
        by_cases h2 : Annotated .extension f
        · rw [if_pos (Or.inr h2)]
          cases v with
          | v4 => exact absurd h2 h
          | v5 =>
            rw [if_pos ⟨rfl, (hasKind_iff _ _).2 h2⟩]; rfl
        · rw [if_neg (fun h' => h2 ((hasKind_iff _ _).1 h'.2)), if_neg (not_or.2 ⟨h, h2⟩)]
          rfl

/-- The violations in the body of a chain extension are reported exactly, member by member. -/
theorem C78_chain_reports (v : Version) (o : Nat) (b : Body) (ids : List Nat) (hw : WfBody b) :
    (chainMembers v o b ids).map (·.rule) = b.flatMap fun x => chainRules v x.1 := by
  induction b generalizing o ids with
  | nil => rfl
  | cons x b ih =>
    obtain ⟨m, g⟩ := x
    rw [chainMembers_cons, List.map_append, List.flatMap_cons,
      chainMember_rules v o m ids (fun a h => hw (m, g) (by simp) a h),
      ih _ _ (fun y hy => hw y (by simp [hy]))]

/-- The reports on one member of a trait definition. -/
def traitMember (o : Nat) (m : Member) : List Report :=
  match m with
  | .const _ => [removal .const (memberRange o m)]
  | .macro _ => [removal .macro (memberRange o m)]
  | .alias _ => [removal .assocType (memberRange o m)]
  | .fn f => bodyReports o f ++ traitFnReports o f

theorem traitMembers_cons (o : Nat) (m : Member) (g : List Char) (b : Body) :
    traitMembers o ((m, g) :: b) =
      traitMember o m ++ traitMembers (o + bytes m.render + bytes g) b := by
  cases m <;> simp [traitMembers, traitMember]

theorem traitMember_rules (o : Nat) (m : Member) :
    (traitMember o m).map (·.rule) = traitRules m := by
  cases m with
  | const t => rfl
  | «macro» t => rfl
  | «alias» a => rfl
  | fn f =>
    simp only [traitMember, traitFnReports, traitRules, List.map_append, ← List.append_assoc]
    congr 1
    · congr 1
      · unfold bodyReports
        cases f.body <;> rfl
      · by_cases h : Annotated .message f
        · rw [if_pos h, if_pos ((hasKind_iff _ _).2 h)]; rfl
        · rw [if_neg h, if_neg (fun h' => h ((hasKind_iff _ _).1 h'))]; rfl
    · induction f.attrs with
      | nil => rfl
      | cons a l ih =>
        rw [List.flatMap_cons, ← ih, List.filter_cons]
        cases h : a.ink with
        | none => simp
        | some k => simp [Function.comp_def]

/-- The violations in the body of a trait definition are reported exactly, member by member. -/
theorem C78_trait_reports (o : Nat) (b : Body) :
    (traitMembers o b).map (·.rule) = b.flatMap fun x => traitRules x.1 := by
  induction b generalizing o with
  | nil => rfl
  | cons x b ih =>
    obtain ⟨m, g⟩ := x
    rw [traitMembers_cons, List.map_append, List.flatMap_cons, traitMember_rules, ih]

theorem not_deleted (keep : List ArgKind) (test : AttrKind → Bool)
    (h : ∀ k, test k = true ↔ ∃ i ∈ keep, k = .arg i) (l : List FnAttr) :
    (l.filter fun b => !Deleted test b) = l.filter fun a =>
      decide (a.ink = none ∨ ∃ k ∈ keep, a.ink = some (.arg k)) := by
  congr 1
  funext a
  unfold Deleted
  cases hi : a.ink with
  | none => simp
  | some k =>
    have := h k
    cases ht : test k with
    | true =>
      obtain ⟨i, hk, rfl⟩ := this.1 ht
      simp [ht, hk]
    | false =>
      rw [ht] at this
      simp only [Bool.false_eq_true, false_iff] at this
      have hn : ¬ (some k = none ∨ ∃ i ∈ keep, some k = some (AttrKind.arg i)) := by
        rintro (h | ⟨i, hi, h⟩)
        · cases h
        · exact this ⟨i, hi, Option.some.inj h⟩
      rw [decide_eq_false hn]
      simp [ht]

/-- Removing a part removes one violation. -/
theorem rules_filter (v : Version) (a a' : List Piece) (hw : WfAlias a) (r : Role)
    (hr : r = .generics ∨ r = .bounds) (hh : Has r a)
    (hc : core a' = (core a).filter fun x => decide (x.1 ≠ r)) :
    chainRules v (.alias a') =
      (chainRules v (.alias a)).erase (if r = .generics then .generics else .bounds) := by
  have h1 : ∀ s, s ≠ r → (Has s a' ↔ Has s a) := by
    intro s hs
    rw [has_core, has_core, hc]
    constructor
    · rintro ⟨x, hx, e⟩
      exact ⟨x, (List.mem_filter.1 hx).1, e⟩
    · rintro ⟨x, hx, e⟩
      exact ⟨x, List.mem_filter.2 ⟨hx, by simp [e, hs]⟩, e⟩
  have h2 : ¬ Has r a' := by
    rw [has_core, hc]
    rintro ⟨x, hx, e⟩
    simpa [e] using (List.mem_filter.1 hx).2
  have h3 : IsErrorCode a' ↔ IsErrorCode a := by
    rw [isErrorCode_core, isErrorCode_core, hc, List.mem_filter]
    rcases hr with rfl | rfl <;> simp
  unfold chainRules
  simp only [h3]
  rcases hr with rfl | rfl
  · simp only [h1 .bounds (by decide), h1 .ty (by decide), if_neg h2, if_pos hh]
    split <;> split <;> split <;> simp [List.erase_cons]
  · simp only [h1 .generics (by decide), h1 .ty (by decide), if_neg h2, if_pos hh]
    split <;> split <;> split <;> simp [List.erase_cons]

theorem alias_rules (v : Version) (keep : List ArgKind) (new : ArgKind × List Char)
    (a a' : List Piece) (hw : WfAlias a) (r : Rule) (hr : r ∈ chainRules v (.alias a))
    (hn : r = .named → Has .name a)
    (h : Fixed keep new r (.alias a) (some (.alias a'))) :
    chainRules v (.alias a') = (chainRules v (.alias a)).erase r := by
  cases h with
  | named _ _ hc =>
    have h1 : ∀ s, Has s a' ↔ Has s a := by
      intro s
      have hc : core a' = (core a).map renamePart := hc
      rw [has_core, has_core, hc]
      constructor
      · rintro ⟨x, hx, e⟩
        obtain ⟨y, hy, rfl⟩ := List.mem_map.1 hx
        exact ⟨y, hy, renamePart_role y ▸ e⟩
      · rintro ⟨y, hy, e⟩
        exact ⟨_, List.mem_map_of_mem hy, (renamePart_role y).trans e⟩
    have h2 : IsErrorCode a' := by
      obtain ⟨p, hp, hr⟩ := hn rfl
      rw [isErrorCode_core, hc, List.mem_map]
      exact ⟨(p.role, p.text), List.mem_map.2 ⟨p, hp, rfl⟩, by simp [hr]⟩
    have h3 : ¬ IsErrorCode a := by
      intro h
      simp only [chainRules, if_pos h] at hr
      simp only [List.mem_append] at hr
      rcases hr with ((hr | hr) | hr) | hr
      · cases hr
      all_goals (split at hr <;> simp at hr)
    unfold chainRules
    simp only [h1, if_pos h2, if_neg h3]
    simp
  | generics _ _ hc =>
    refine rules_filter v a a' hw .generics (Or.inl rfl) ?_ hc
    by_contra h
    simp only [chainRules, if_neg h, List.mem_append] at hr
    rcases hr with ((hr | hr) | hr) | hr
    · split at hr <;> simp at hr
    · cases hr
    all_goals (split at hr <;> simp at hr)
  | bounds _ _ hc =>
    refine rules_filter v a a' hw .bounds (Or.inr rfl) ?_ hc
    by_contra h
    simp only [chainRules, if_neg h, List.mem_append] at hr
    rcases hr with ((hr | hr) | hr) | hr
    · split at hr <;> simp at hr
    · split at hr <;> simp at hr
    · cases hr
    · split at hr <;> simp at hr
  | default _ _ hc =>
    have h0 : ¬ Has .ty a := by
      intro h
      simp only [chainRules, if_pos h, List.mem_append] at hr
      rcases hr with ((hr | hr) | hr) | hr
      · split at hr <;> simp at hr
      · split at hr <;> simp at hr
      · split at hr <;> simp at hr
      · cases hr
    have h1 : Has .ty a' := by
      rw [has_core, hc]
      exact ⟨(.ty, "()".toList), by simp, rfl⟩
    have h2 : ∀ s, s ≠ .eq → s ≠ .ty → s ≠ .semi → (Has s a' ↔ Has s a) := by
      intro s n1 n2 n3
      rw [has_core, has_core, hc]
      constructor
      · rintro ⟨x, hx, e⟩
        rcases List.mem_append.1 hx with hx | hx
        · exact ⟨x, (List.mem_filter.1 hx).1, e⟩
        · simp only [List.mem_cons, List.not_mem_nil, or_false] at hx
          rcases hx with rfl | rfl | rfl
          · exact absurd e.symm n1
          · exact absurd e.symm n2
          · exact absurd e.symm n3
      · rintro ⟨x, hx, e⟩
        exact ⟨x, List.mem_append_left _ (List.mem_filter.2 ⟨hx, by simp [e, n1, n3]⟩), e⟩
    have h3 : IsErrorCode a' ↔ IsErrorCode a := by
      rw [isErrorCode_core, isErrorCode_core, hc, List.mem_append, List.mem_filter]
      simp
    unfold chainRules
    simp only [h3, h2 .generics (by decide) (by decide) (by decide),
      h2 .bounds (by decide) (by decide) (by decide), if_pos h1, if_neg h0]
    split <;> split <;> split <;> simp [List.erase_cons]

theorem alias_single (o : Nat) (a : List Piece) (x : Report) (hx : x ∈ aliasReports o a)
    (es : List Edit) (he : x.fix = some es) :
    (∃ e, es = [e]) ∧ (x.rule = .named → Has .name a) := by
  unfold aliasReports at hx
  simp only [List.mem_append] at hx
  rcases hx with ((hx | hx) | hx) | hx
  · unfold namedReports at hx
    split at hx
    · rename_i y hy
      obtain ⟨h1, h2, h3⟩ := findPiece_some _ _ _ hy
      split at hx
      · cases hx
      · cases List.mem_singleton.1 hx
        cases he
        exact ⟨⟨_, rfl⟩, fun _ => ⟨y.2.1, by rw [h1]; simp, h2⟩⟩
    · cases List.mem_singleton.1 hx
      cases he
  · unfold forbidPiece at hx
    split at hx
    · cases List.mem_singleton.1 hx
      cases he
      exact ⟨⟨_, rfl⟩, fun h => by cases h⟩
    · cases hx
  · unfold forbidPiece at hx
    split at hx
    · cases List.mem_singleton.1 hx
      cases he
      exact ⟨⟨_, rfl⟩, fun h => by cases h⟩
    · cases hx
  · unfold defaultReports at hx
    split at hx
    · cases List.mem_singleton.1 hx
      cases he
      exact ⟨⟨_, rfl⟩, fun h => by cases h⟩
    · cases hx

theorem apply_body (P S : List Char) (f : FnMember) (b : List Char) (hb : f.body = some b) :
    applyAll (P ++ f.render ++ S) [⟨[], bytes P + bytes (f.docs ++ renderAttrs f.attrs ++ f.decl),
      bytes P + bytes (f.docs ++ renderAttrs f.attrs ++ f.decl) + bytes b, none⟩] =
      some (P ++ FnMember.render { f with body := none } ++ S) := by
  rw [apply_at P f.render S (f.docs ++ renderAttrs f.attrs ++ f.decl) b [] [] none
    (by simp [FnMember.render, hb])]
  simp [FnMember.render]

/-- What the quick fixes do to a member of a chain extension. -/
theorem chainMember_fix (v : Version) (P S : List Char) (m : Member) (used : List Nat)
    (hw : ∀ a, m = .alias a → WfAlias a) (x : Report)
    (hx : x ∈ (chainMember v (bytes P) m used).1) (es : List Edit) (he : x.fix = some es)
    (hd : x.rule = .default → ∀ a, m = .alias a → Has .eq a ∨ Has .semi a) :
    ∃ (m' : Option Member) (id : Nat), InOrder es ∧
      Fixed [idKind v, .handleStatus] (idKind v, idAttrText (idKind v) id.repr.toList) x.rule m m' ∧
      applyAll (P ++ m.render ++ S) es = some (P ++ optRender m' ++ S) ∧
      ∀ n, m' = some n → (∀ a, n = .alias a → WfAlias a) ∧
        chainRules v n = (chainRules v m).erase x.rule := by
  have hr : x.rule ∈ chainRules v m := by
    rw [← chainMember_rules v (bytes P) m used hw]
    exact List.mem_map_of_mem hx
  have hone : ∀ e : Edit, InOrder [e] := fun e => by simp [InOrder]
  have hdel : ∀ t : List Char, applyAll (P ++ t ++ S) [⟨[], bytes P, bytes P + bytes t, none⟩] =
      some (P ++ optRender none ++ S) := by
    intro t
    have := apply_at P t S [] t [] [] none (by simp)
    simpa [bytes, optRender] using this
  cases m with
  | const t =>
    cases List.mem_singleton.1 hx
    cases he
    exact ⟨none, 0, hone _, .const t, hdel t, fun n h => by cases h⟩
  | «macro» t =>
    cases List.mem_singleton.1 hx
    cases he
    exact ⟨none, 0, hone _, .macro t, hdel t, fun n h => by cases h⟩
  | «alias» a =>
    obtain ⟨a', h1, h2, h3⟩ := alias_fix [idKind v, .handleStatus]
      (idKind v, idAttrText (idKind v) (0 : Nat).repr.toList) P S a (hw a rfl) x hx es he
      (fun h => hd h a rfl)
    refine ⟨some (.alias a'), 0, ?_, h2, by simpa [optRender, Member.render] using h3, ?_⟩
    · obtain ⟨e, rfl⟩ := (alias_single _ a x hx es he).1
      exact hone e
    · rintro n hn
      cases hn
      refine ⟨fun b hb => by cases hb; exact h1, ?_⟩
      exact alias_rules v _ _ a a' (hw a rfl) x.rule hr (alias_single _ a x hx es he).2 h2
  | fn f =>
    simp only [chainMember, List.mem_append] at hx
    rcases hx with hx | hx
    · unfold bodyReports at hx
      split at hx
      · rename_i b hb
        cases List.mem_singleton.1 hx
        cases he
        refine ⟨some (.fn { f with body := none }), 0, hone _, .body f, ?_, ?_⟩
        · simpa [optRender, Member.render] using apply_body P S f b hb
        · rintro n hn
          cases hn
          refine ⟨fun b hb => (by cases hb), ?_⟩
          have h1 : chainRules v (.fn f) = .body :: chainRules v (.fn { f with body := none }) := by
            have hb' : f.body ≠ none := by simp [hb]
            show (if f.body = none then [] else [Rule.body]) ++ _ = _
            rw [if_neg hb']
            rfl
          rw [h1]
          exact (List.erase_cons_head ..).symm
      · cases hx
    · unfold chainFnReports at hx
      split at hx
      · cases hx
      · simp only at hx
        split at hx
        · cases hx
        · rename_i hk hs
          cases List.mem_singleton.1 hx
          cases he
          rw [idKind_eq] at *
          obtain ⟨f', h1, h2, h3, h4, h5⟩ := annotate_fix P S f
            (idAttrText (idKind v) ((takeId (maxId v) used).1.getD 1).repr.toList)
            (idAttrText (idKind v) (['$', '{', '1', ':'] ++
              ((takeId (maxId v) used).1.getD 1).repr.toList ++ ['}'])) true
            (keepForChain (idKind v)) (idKind v)
          refine ⟨some (.fn f'), (takeId (maxId v) used).1.getD 1, annotate_inOrder _ _ _ _ _ _, ?_, ?_, ?_⟩
          · refine .annotation f f' ?_ h1 h2 h3
            rw [h4, not_deleted [idKind v, .handleStatus]]
            intro k
            simp [keepForChain]
          · simpa [optRender, Member.render] using h5
          · rintro n hn
            cases hn
            refine ⟨fun b hb => (by cases hb), ?_⟩
            have ha : Annotated (idKind v) f' := by
              have : (some (AttrKind.arg (idKind v)),
                  idAttrText (idKind v) ((takeId (maxId v) used).1.getD 1).repr.toList) ∈
                  attrCore f'.attrs := by rw [h4]; simp
              obtain ⟨a, ha, he⟩ := List.mem_map.1 this
              exact ⟨a, ha, (Prod.mk.inj he).1⟩
            have hn : ¬ (Annotated (idKind v) f ∨ Annotated .extension f) := by
              intro h
              simp only [chainRules, if_pos h, List.append_nil] at hr
              split at hr <;> simp at hr
            unfold chainRules
            simp only [h3, if_pos (show Annotated (idKind v) f' ∨ Annotated .extension f' from Or.inl ha),
              if_neg hn]
            split <;> simp [List.erase_cons]

theorem renderBody_append (a b : Body) : renderBody (a ++ b) = renderBody a ++ renderBody b := by
  simp [renderBody]

theorem chainMembers_split (v : Version) (o : Nat) (b : Body) (ids : List Nat) (x : Report)
    (hx : x ∈ chainMembers v o b ids) : ∃ pre m g post used, b = pre ++ (m, g) :: post ∧
      x ∈ (chainMember v (o + bytes (renderBody pre)) m used).1 := by
  induction b generalizing o ids with
  | nil => cases hx
  | cons y b ih =>
    obtain ⟨m, g⟩ := y
    rw [chainMembers_cons, List.mem_append] at hx
    rcases hx with hx | hx
    · exact ⟨[], m, g, b, ids, rfl, by simpa [renderBody, bytes] using hx⟩
    · obtain ⟨pre, m', g', post, used, h1, h2⟩ := ih _ _ hx
      refine ⟨(m, g) :: pre, m', g', post, used, by rw [h1]; rfl, ?_⟩
      simpa [renderBody, bytes_append, Nat.add_assoc] using h2

/-- The quick fix of a report on a member of a chain extension repairs that violation of that member
and changes nothing else: the file is the old one with the member replaced by a member that violates
the same rules except the reported one, or removed. The edits do not overlap. A function gets the
attribute with an id. Partial: not for the default type of a type with neither `=` nor `;`, see
`C78_negation_default`; that a renamed type is the only `ErrorCode` type is not guaranteed, see
`C78_negation_rename`; a function whose default implementation was removed has no semicolon, see
`C74_negation_body`. -/
theorem C78_chain_fix_partial (v : Version) (before after : List Char) (b : Body) (ids : List Nat)
    (hw : WfBody b) (x : Report) (hx : x ∈ chainMembers v (bytes before) b ids) (es : List Edit)
    (he : x.fix = some es)
    (hd : x.rule = .default → ∀ y ∈ b, ∀ a, y.1 = .alias a → Has .eq a ∨ Has .semi a) :
    ∃ (pre : Body) (m : Member) (g : List Char) (post : Body) (m' : Option Member) (id : Nat),
      b = pre ++ (m, g) :: post ∧ InOrder es ∧
      applyAll (before ++ renderBody b ++ after) es =
        some (before ++ renderBody pre ++ optRender m' ++ g ++ renderBody post ++ after) ∧
      Fixed [idKind v, .handleStatus] (idKind v, "#[ink(".toList ++ (idKind v).name.toList ++
        " = ".toList ++ id.repr.toList ++ ")]".toList) x.rule m m' ∧
      ∀ n, m' = some n → (∀ a, n = .alias a → WfAlias a) ∧
        chainRules v n = (chainRules v m).erase x.rule := by
  obtain ⟨pre, m, g, post, used, h1, h2⟩ := chainMembers_split v _ b ids x hx
  rw [← bytes_append] at h2
  have hm : (m, g) ∈ b := by rw [h1]; simp
  obtain ⟨m', id, i1, i2, i3, i4⟩ := chainMember_fix v (before ++ renderBody pre)
    (g ++ renderBody post ++ after) m used (fun a ha => hw _ hm a ha) x h2 es he
    (fun h a ha => hd h _ hm a ha)
  refine ⟨pre, m, g, post, m', id, h1, i1, ?_, ?_, i4⟩
  · have e : before ++ renderBody b ++ after =
        before ++ renderBody pre ++ m.render ++ (g ++ renderBody post ++ after) := by
      rw [h1]; simp [renderBody]
    rw [e, i3]
    simp
  · have : idAttrText (idKind v) id.repr.toList = "#[ink(".toList ++ (idKind v).name.toList ++
        " = ".toList ++ id.repr.toList ++ ")]".toList := by
      unfold idAttrText
      rfl
    rw [← this]
    exact i2

/-- Every report on a member has a quick fix, except for a type without a name. -/
theorem C78_chain_fixable (v : Version) (o : Nat) (b : Body) (ids : List Nat) (x : Report)
    (hx : x ∈ chainMembers v o b ids) : x.fix ≠ none ∨
      x.rule = .named ∧ ∃ y ∈ b, ∃ a, y.1 = .alias a ∧ ¬ Has .name a := by
  obtain ⟨pre, m, g, post, used, h1, h2⟩ := chainMembers_split v _ b ids x hx
  have hm : (m, g) ∈ b := by rw [h1]; simp
  cases m with
  | const t => left; cases List.mem_singleton.1 h2; simp [removal]
  | «macro» t => left; cases List.mem_singleton.1 h2; simp [removal]
  | «alias» a =>
    simp only [chainMember, aliasReports, List.mem_append] at h2
    rcases h2 with ((h | h) | h) | h
    · unfold namedReports at h
      split at h
      · left
        split at h
        · cases h
        · cases List.mem_singleton.1 h; simp
      · right
        rename_i hf
        cases List.mem_singleton.1 h
        exact ⟨rfl, _, hm, a, rfl, (findPiece_none _ _).1 hf⟩
    · left; unfold forbidPiece at h
      split at h
      · cases List.mem_singleton.1 h; simp [removal]
      · cases h
    · left; unfold forbidPiece at h
      split at h
      · cases List.mem_singleton.1 h; simp [removal]
      · cases h
    · left; unfold defaultReports at h
      split at h
      · cases List.mem_singleton.1 h; simp
      · cases h
  | fn f =>
    left
    simp only [chainMember, List.mem_append] at h2
    rcases h2 with h | h
    · unfold bodyReports at h
      split at h
      · cases List.mem_singleton.1 h; simp [removal]
      · cases h
    · unfold chainFnReports at h
      split at h
      · cases h
      · simp only at h
        split at h
        · cases h
        · cases List.mem_singleton.1 h; simp

/-! ## Trait definitions -/

theorem traitMembers_split (o : Nat) (b : Body) (x : Report)
    (hx : x ∈ traitMembers o b) : ∃ pre m g post, b = pre ++ (m, g) :: post ∧
      x ∈ traitMember (o + bytes (renderBody pre)) m := by
  induction b generalizing o with
  | nil => cases hx
  | cons y b ih =>
    obtain ⟨m, g⟩ := y
    rw [traitMembers_cons, List.mem_append] at hx
    rcases hx with hx | hx
    · exact ⟨[], m, g, b, rfl, by simpa [renderBody, bytes] using hx⟩
    · obtain ⟨pre, m', g', post, h1, h2⟩ := ih _ hx
      refine ⟨(m, g) :: pre, m', g', post, by rw [h1]; rfl, ?_⟩
      simpa [renderBody, bytes_append, Nat.add_assoc] using h2

/-- What the quick fixes do to a member of a trait definition. -/
theorem traitMember_fix (P S : List Char) (m : Member) (x : Report)
    (hx : x ∈ traitMember (bytes P) m) (es : List Edit) (he : x.fix = some es) :
    ∃ m' : Option Member, InOrder es ∧
      Fixed [.message, .default, .payable, .selector] (.message, "#[ink(message)]".toList)
        x.rule m m' ∧
      applyAll (P ++ m.render ++ S) es = some (P ++ optRender m' ++ S) ∧
      ∀ n, m' = some n → x.rule ∉ traitRules n := by
  have hone : ∀ e : Edit, InOrder [e] := fun e => by simp [InOrder]
  have hdel : ∀ t : List Char, applyAll (P ++ t ++ S) [⟨[], bytes P, bytes P + bytes t, none⟩] =
      some (P ++ optRender none ++ S) := by
    intro t
    have := apply_at P t S [] t [] [] none (by simp)
    simpa [bytes, optRender] using this
  cases m with
  | const t =>
    cases List.mem_singleton.1 hx
    cases he
    exact ⟨none, hone _, .const t, hdel t, fun n h => by cases h⟩
  | «macro» t =>
    cases List.mem_singleton.1 hx
    cases he
    exact ⟨none, hone _, .macro t, hdel t, fun n h => by cases h⟩
  | «alias» a =>
    cases List.mem_singleton.1 hx
    cases he
    exact ⟨none, hone _, .assocType a, hdel _, fun n h => by cases h⟩
  | fn f =>
    simp only [traitMember, List.mem_append] at hx
    rcases hx with hx | hx
    · unfold bodyReports at hx
      split at hx
      · rename_i b hb
        cases List.mem_singleton.1 hx
        cases he
        refine ⟨some (.fn { f with body := none }), hone _, .body f, ?_, ?_⟩
        · simpa [optRender, Member.render] using apply_body P S f b hb
        · rintro n hn
          cases hn
          simp only [traitRules, removal, List.mem_append]
          rintro ((h | h) | h)
          · simp at h
          · split at h <;> simp at h
          · obtain ⟨a, -, h⟩ := List.mem_flatMap.1 h
            split at h <;> simp at h
      · cases hx
    · unfold traitFnReports at hx
      rcases List.mem_append.1 hx with hx | hx
      · split at hx
        · cases hx
        · cases List.mem_singleton.1 hx
          cases he
          obtain ⟨f', h1, h2, h3, h4, h5⟩ := annotate_fix P S f
            (chars! "#[ink(message)]") [] false keepForTrait .message
          refine ⟨some (.fn f'), annotate_inOrder _ _ _ _ _ _, ?_, ?_, ?_⟩
          · refine .annotation f f' ?_ h1 h2 h3
            rw [h4, not_deleted [.message, .default, .payable, .selector]]
            · rfl
            · intro k
              simp [keepForTrait, or_assoc]
          · simpa [optRender, Member.render] using h5
          · rintro n hn
            cases hn
            have ha : Annotated .message f' := by
              have : (some (AttrKind.arg .message), chars! "#[ink(message)]") ∈
                  attrCore f'.attrs := by rw [h4]; simp
              obtain ⟨a, ha, he⟩ := List.mem_map.1 this
              exact ⟨a, ha, (Prod.mk.inj he).1⟩
            simp only [traitRules, if_pos ha, List.mem_append]
            rintro ((h | h) | h)
            · split at h <;> simp at h
            · simp at h
            · obtain ⟨a, -, h⟩ := List.mem_flatMap.1 h
              split at h <;> simp at h
      · obtain ⟨a, -, hx⟩ := List.mem_flatMap.1 hx
        obtain ⟨w, -, rfl⟩ := List.mem_map.1 hx
        cases he

/-- The quick fix of a report on a member of a trait definition repairs that violation of that member
and changes nothing else: a constant, macro or associated type is removed; a function becomes an
ink! message, keeping only the ink! attributes that go with messages. -/
theorem C78_trait_fix (before after : List Char) (b : Body) (x : Report)
    (hx : x ∈ traitMembers (bytes before) b) (es : List Edit) (he : x.fix = some es) :
    ∃ (pre : Body) (m : Member) (g : List Char) (post : Body) (m' : Option Member),
      b = pre ++ (m, g) :: post ∧ InOrder es ∧
      applyAll (before ++ renderBody b ++ after) es =
        some (before ++ renderBody pre ++ optRender m' ++ g ++ renderBody post ++ after) ∧
      Fixed [.message, .default, .payable, .selector] (.message, "#[ink(message)]".toList)
        x.rule m m' ∧
      ∀ n, m' = some n → x.rule ∉ traitRules n := by
  obtain ⟨pre, m, g, post, h1, h2⟩ := traitMembers_split _ b x hx
  rw [← bytes_append] at h2
  obtain ⟨m', i1, i2, i3, i4⟩ := traitMember_fix (before ++ renderBody pre)
    (g ++ renderBody post ++ after) m x h2 es he
  refine ⟨pre, m, g, post, m', h1, i1, ?_, i2, i4⟩
  have e : before ++ renderBody b ++ after =
      before ++ renderBody pre ++ m.render ++ (g ++ renderBody post ++ after) := by
    rw [h1]; simp [renderBody]
  rw [e, i3]
  simp

/-! ## Ids -/

theorem takeId_free (max : Nat) (hm : 1 ≤ max) (used : List Nat) (h : used.length < max) :
    ∃ i, takeId max used = (some i, i :: used) ∧ i ∉ used ∧ 1 ≤ i ∧ i ≤ max := by
  unfold takeId suggestIdMut
  cases hs : suggestId max none used with
  | none =>
    exfalso
    have h1 := (C30_exhausted max none used hm).1 hs
    have h2 : ∀ j ∈ List.range' 1 max, j ∈ used := by
      intro j hj
      rw [List.mem_range'_1] at hj
      exact h1 j hj.1 (by omega)
    have h3 := nodup_subset_length _ _ (List.nodup_range' (s := 1) (n := max)) h2
    rw [List.length_range'] at h3
    omega
  | some i =>
    obtain ⟨h1, h2, h3, -⟩ := C30_fresh max none used i hm hs
    exact ⟨i, rfl, h1, h3, h2⟩

/-- The first edit of each quick fix that adds an attribute. -/
def addedAttrs (l : List Report) : List (Option (List Char)) :=
  (l.filter fun x => x.rule = .annotation).map fun x => (x.fix.bind List.head?).map Edit.text

theorem addedAttrs_append (a b : List Report) :
    addedAttrs (a ++ b) = addedAttrs a ++ addedAttrs b := by simp [addedAttrs]

theorem addedAttrs_none (l : List Report) (h : ∀ x ∈ l, x.rule ≠ .annotation) :
    addedAttrs l = [] := by
  unfold addedAttrs
  rw [List.filter_eq_nil_iff.2 (by simpa using h)]
  rfl

theorem removal_rule (r : Rule) (a : Nat × Nat) : (removal r a).rule = r := rfl

theorem bodyReports_rule (o : Nat) (f : FnMember) : ∀ x ∈ bodyReports o f, x.rule ≠ .annotation := by
  intro x hx
  unfold bodyReports at hx
  split at hx
  · cases List.mem_singleton.1 hx; simp [removal]
  · cases hx

theorem aliasReports_rule (o : Nat) (a : List Piece) :
    ∀ x ∈ aliasReports o a, x.rule ≠ .annotation := by
  intro x hx
  unfold aliasReports at hx
  simp only [List.mem_append] at hx
  rcases hx with ((h | h) | h) | h
  · unfold namedReports at h
    split at h
    · split at h
      · cases h
      · cases List.mem_singleton.1 h; simp
    · cases List.mem_singleton.1 h; simp
  · unfold forbidPiece at h
    split at h
    · cases List.mem_singleton.1 h; simp [removal]
    · cases h
  · unfold forbidPiece at h
    split at h
    · cases List.mem_singleton.1 h; simp [removal]
    · cases h
  · unfold defaultReports at h
    split at h
    · cases List.mem_singleton.1 h; simp
    · cases h

theorem chainMember_ids (v : Version) (o : Nat) (m : Member) (used : List Nat)
    (h : used.length < maxId v) :
    (addedAttrs (chainMember v o m used).1 = [] ∧ ((chainMember v o m used).2 = used ∨
      ∃ i, i ∉ used ∧ (chainMember v o m used).2 = i :: used)) ∨
    ∃ i, addedAttrs (chainMember v o m used).1 =
        [some (idAttrText (idKind v) i.repr.toList)] ∧
      (chainMember v o m used).2 = i :: used ∧ i ∉ used ∧ 1 ≤ i ∧ i ≤ maxId v := by
  have hm : 1 ≤ maxId v := by cases v <;> decide
  obtain ⟨i, h1, h2, h3, h4⟩ := takeId_free (maxId v) hm used h
  cases m with
  | const t => left; exact ⟨rfl, Or.inl rfl⟩
  | «macro» t => left; exact ⟨rfl, Or.inl rfl⟩
  | «alias» a => left; exact ⟨addedAttrs_none _ (aliasReports_rule o a), Or.inl rfl⟩
  | fn f =>
    simp only [chainMember, addedAttrs_append, addedAttrs_none _ (bodyReports_rule o f),
      List.nil_append]
    unfold chainFnReports
    split
    · left; exact ⟨rfl, Or.inl rfl⟩
    · simp only [h1]
      split
      · left; exact ⟨rfl, Or.inr ⟨i, h2, rfl⟩⟩
      · right
        rw [idKind_eq]
        exact ⟨i, rfl, rfl, h2, h3, h4⟩

/-- The functions of a chain extension that are not yet known to ink! get distinct ids in the range of
ids that no function has. Partial: only while there are enough ids, see
`C39_negation_exhausted`. -/
theorem C78_ids_partial (v : Version) (o : Nat) (b : Body) (ids : List Nat)
    (h : ids.length + b.length ≤ maxId v) :
    ∃ new : List Nat, new.Nodup ∧ (∀ i ∈ new, i ∉ ids ∧ 1 ≤ i ∧ i ≤ maxId v) ∧
      addedAttrs (chainMembers v o b ids) = new.map fun i => some ("#[ink(".toList ++
        (idKind v).name.toList ++ " = ".toList ++ i.repr.toList ++ ")]".toList) := by
  induction b generalizing o ids with
  | nil => exact ⟨[], by simp, by simp, rfl⟩
  | cons y b ih =>
    obtain ⟨m, g⟩ := y
    rw [List.length_cons] at h
    rw [chainMembers_cons, addedAttrs_append]
    rcases chainMember_ids v o m ids (by omega) with ⟨h1, h2⟩ | ⟨i, h1, h2, h3, h4, h5⟩
    · rw [h1, List.nil_append]
      rcases h2 with h2 | ⟨i, hi, h2⟩
      · rw [h2]
        exact ih _ ids (by omega)
      · rw [h2]
        obtain ⟨new, n1, n2, n3⟩ := ih (o + bytes m.render + bytes g) (i :: ids)
          (by rw [List.length_cons]; omega)
        exact ⟨new, n1, fun j hj => ⟨fun hc => (n2 j hj).1 (List.mem_cons_of_mem _ hc), (n2 j hj).2⟩, n3⟩
    · rw [h1, h2]
      obtain ⟨new, n1, n2, n3⟩ := ih (o + bytes m.render + bytes g) (i :: ids)
        (by rw [List.length_cons]; omega)
      refine ⟨i :: new, List.nodup_cons.2 ⟨fun hi => (n2 i hi).1 (by simp), n1⟩, ?_, ?_⟩
      · intro j hj
        rcases List.mem_cons.1 hj with rfl | hj
        · exact ⟨h3, h4, h5⟩
        · exact ⟨fun hc => (n2 j hj).1 (List.mem_cons_of_mem _ hc), (n2 j hj).2⟩
      · rw [n3]
        rfl

/-! ## Exactly one `ErrorCode` type -/

/-- The test of the code for the name of a type. -/
theorem named_iff (a : List Piece) (hw : WfAlias a) :
    (∃ x, findPiece .name a = some x ∧ x.2.1.text = errorCode) ↔ IsErrorCode a := by
  have := namedReports_rules 0 a hw
  unfold namedReports at this
  constructor
  · rintro ⟨x, hx, ht⟩
    obtain ⟨h1, h2, -⟩ := findPiece_some _ _ _ hx
    exact ⟨x.2.1, by rw [h1]; simp, h2, by rw [ht, errorCode_eq]⟩
  · intro h
    rw [if_pos h] at this
    cases hf : findPiece .name a with
    | none => rw [hf] at this; simp at this
    | some x =>
      rw [hf] at this
      refine ⟨x, rfl, ?_⟩
      by_contra hc
      simp [hc] at this

/-- Whether a member is an `ErrorCode` type. -/
def isErrorCodeMember (m : Member) : Bool :=
  match m with
  | .alias a => decide (IsErrorCode a)
  | _ => false

theorem errorCodes_cons (o : Nat) (m : Member) (g : List Char) (b : Body)
    (hw : ∀ a, m = .alias a → WfAlias a) : errorCodes o ((m, g) :: b) =
      (if isErrorCodeMember m then [memberRange o m] else []) ++
        errorCodes (o + bytes m.render + bytes g) b := by
  cases m with
  | const t => rfl
  | «macro» t => rfl
  | fn f => rfl
  | «alias» a =>
    have := named_iff a (hw a rfl)
    simp only [errorCodes, isErrorCodeMember]
    congr 1
    by_cases h : IsErrorCode a
    · obtain ⟨x, hx, ht⟩ := this.2 h
      simp [h, hx, ht]
    · cases hf : findPiece .name a with
      | none => simp [h]
      | some x =>
        have : x.2.1.text ≠ errorCode := fun ht => h (this.1 ⟨x, hf, ht⟩)
        simp [h, this]

theorem errorCodes_length (o : Nat) (b : Body) (hw : WfBody b) :
    (errorCodes o b).length = errorCodeCount b := by
  induction b generalizing o with
  | nil => rfl
  | cons y b ih =>
    obtain ⟨m, g⟩ := y
    rw [errorCodes_cons o m g b (fun a h => hw (m, g) (by simp) a h), List.length_append,
      ih _ (fun y hy => hw y (by simp [hy]))]
    unfold errorCodeCount
    rw [List.countP_cons]
    show (if isErrorCodeMember m = true then [memberRange o m] else []).length + _ =
      _ + if isErrorCodeMember m = true then 1 else 0
    split <;> simp <;> omega

/-- A missing `ErrorCode` type is reported, and each further one is. -/
theorem C78_quantity (indent : List Char) (lo o : Nat) (b : Body) (hw : WfBody b) :
    (quantityReports indent lo o b).map (·.rule) =
      if errorCodeCount b = 0 then [.missing]
      else List.replicate (errorCodeCount b - 1) .duplicate := by
  rw [← errorCodes_length o b hw]
  unfold quantityReports
  cases errorCodes o b with
  | nil => rfl
  | cons r rs =>
    simp only [List.map_map, List.length_cons, Nat.add_one_sub_one]
    rw [if_neg (by omega)]
    induction rs with
    | nil => rfl
    | cons s rs ih => rw [List.map_cons, ih]; rfl

theorem errorCodes_mem (o : Nat) (b : Body) (hw : WfBody b) (l : List (Nat × Nat)) (r : Nat × Nat)
    (l' : List (Nat × Nat)) (h : errorCodes o b = l ++ r :: l') :
    ∃ pre a g post, b = pre ++ (.alias a, g) :: post ∧ IsErrorCode a ∧
      errorCodeCount pre = l.length ∧ r = memberRange (o + bytes (renderBody pre)) (.alias a) := by
  induction b generalizing o l with
  | nil => simp [errorCodes] at h
  | cons y b ih =>
    obtain ⟨m, g⟩ := y
    rw [errorCodes_cons o m g b (fun a h => hw (m, g) (by simp) a h)] at h
    have hw' : WfBody b := fun y hy => hw y (by simp [hy])
    have step : ∀ l0, errorCodes (o + bytes m.render + bytes g) b = l0 ++ r :: l' →
        ∃ pre a g' post, (m, g) :: b = pre ++ (.alias a, g') :: post ∧ IsErrorCode a ∧
          errorCodeCount pre = l0.length + (if isErrorCodeMember m = true then 1 else 0) ∧
          r = memberRange (o + bytes (renderBody pre)) (.alias a) := by
      intro l0 h0
      obtain ⟨pre, a, g', post, h1, h2, h3, h4⟩ := ih _ hw' l0 h0
      refine ⟨(m, g) :: pre, a, g', post, by rw [h1]; rfl, h2, ?_, ?_⟩
      · rw [← h3]
        exact List.countP_cons
      · simpa [renderBody, bytes_append, Nat.add_assoc] using h4
    by_cases hm : isErrorCodeMember m = true
    · rw [if_pos hm] at h
      cases l with
      | nil =>
        cases m with
        | «alias» a =>
          refine ⟨[], a, g, b, rfl, by simpa [isErrorCodeMember] using hm, rfl, ?_⟩
          have := (List.cons.inj h).1
          simpa [renderBody, bytes] using this.symm
        | const t => cases hm
        | «macro» t => cases hm
        | fn f => cases hm
      | cons r0 l =>
        obtain ⟨pre, a, g', post, h1, h2, h3, h4⟩ := step l (List.cons.inj h).2
        exact ⟨pre, a, g', post, h1, h2, by rw [h3, if_pos hm]; rfl, h4⟩
    · rw [if_neg hm, List.nil_append] at h
      obtain ⟨pre, a, g', post, h1, h2, h3, h4⟩ := step l h
      exact ⟨pre, a, g', post, h1, h2, by rw [h3, if_neg hm]; rfl, h4⟩

/-- The quick fix for a further `ErrorCode` type removes one that has another before it, and nothing
else. -/
theorem C78_duplicate_fix (indent before after : List Char) (lo : Nat) (b : Body) (hw : WfBody b)
    (x : Report) (hx : x ∈ quantityReports indent lo (bytes before) b) (hr : x.rule = .duplicate) :
    ∃ es pre a g post, x.fix = some es ∧ b = pre ++ (.alias a, g) :: post ∧ IsErrorCode a ∧
      0 < errorCodeCount pre ∧
      applyAll (before ++ renderBody b ++ after) es =
        some (before ++ renderBody pre ++ g ++ renderBody post ++ after) := by
  unfold quantityReports at hx
  split at hx
  · cases List.mem_singleton.1 hx
    cases hr
  · rename_i r0 rest hc
    obtain ⟨r, hm, rfl⟩ := List.mem_map.1 hx
    obtain ⟨l, l', rfl⟩ := List.append_of_mem hm
    obtain ⟨pre, a, g, post, h1, h2, h3, h4⟩ := errorCodes_mem _ b hw (r0 :: l) r l' hc
    refine ⟨_, pre, a, g, post, rfl, h1, h2, by rw [h3]; simp, ?_⟩
    rw [h4]
    have := apply_at (before ++ renderBody pre) (renderPieces a) (g ++ renderBody post ++ after) []
      (renderPieces a) [] [] none (by simp)
    simp only [bytes_append, bytes, Nat.add_zero] at this
    have e : before ++ renderBody b ++ after =
        before ++ renderBody pre ++ renderPieces a ++ (g ++ renderBody post ++ after) := by
      rw [h1]; simp [renderBody, Member.render]
    rw [e]
    simp only [memberRange, Member.render]
    rw [this]
    simp

theorem indent_errorCode (indent : List Char) :
    applyIndenting errorCodePlain indent = indent ++ errorCodePlain := by
  unfold applyIndenting
  have : lines errorCodePlain = [errorCodePlain] := by decide +kernel
  split
  · rename_i h
    rw [List.isEmpty_iff.1 h]; rfl
  · rw [this]
    show (if errorCodePlain.isEmpty = true then [] else indent ++ errorCodePlain) = _
    rw [if_neg (by decide)]

/-- The type that is inserted. -/
def newErrorCode : List Piece :=
  [⟨.kw, ['t', 'y', 'p', 'e'], [' ']⟩, ⟨.name, "ErrorCode".toList, [' ']⟩, ⟨.eq, ['='], [' ']⟩,
    ⟨.ty, ['(', ')'], []⟩, ⟨.semi, [';'], []⟩]

/-- The quick fix for a missing `ErrorCode` type inserts, at the beginning of the body of the trait, an
`ErrorCode` type that violates no rule. The text between the opening brace and the first member is
`lead`. -/
theorem C78_missing_fix (v : Version) (indent before lead after : List Char) (b : Body) (x : Report)
    (hx : x ∈ quantityReports indent (bytes before) (bytes (before ++ lead)) b)
    (hr : x.rule = .missing) :
    ∃ es a, x.fix = some es ∧ WfAlias a ∧ IsErrorCode a ∧ chainRules v (.alias a) = [] ∧
      applyAll (before ++ lead ++ renderBody b ++ after) es =
        some (before ++ indent ++ renderBody ((.alias a, lead) :: b) ++ after) := by
  unfold quantityReports at hx
  split at hx
  · cases List.mem_singleton.1 hx
    refine ⟨_, newErrorCode, rfl, ?_, by decide, by cases v <;> decide, ?_⟩
    · exact ⟨by decide, by decide, by decide, by decide, by decide⟩
    · have := apply_at before (lead ++ renderBody b) after [] [] (lead ++ renderBody b)
        (applyIndenting errorCodePlain indent) (some (applyIndenting errorCodeSnippet indent))
        (by simp)
      simp only [bytes, Nat.add_zero] at this
      rw [List.append_assoc before lead, this, indent_errorCode]
      have : errorCodePlain = renderPieces newErrorCode := by decide +kernel
      rw [this]
      simp [renderBody, Member.render]
  · obtain ⟨r, -, rfl⟩ := List.mem_map.1 hx
    cases hr

/-! ## Inline modules -/

/-- A contract module without inline content is reported, and no other. The quick fix replaces the
semicolon by an empty body and changes nothing else. Partial: not for a module with neither, see
`C78_negation_inline`. -/
theorem C78_inline_partial (before after : List Char) (m : ModItem) :
    (inlineModule (bytes before) m = none ↔ m.items ≠ none) ∧
    ∀ e, inlineModule (bytes before) m = some e → m.semi = true →
      ∃ m' : ModItem, m'.decl = m.decl ∧ m'.items = some "{}".toList ∧ m'.semi = false ∧
        applyEdit (before ++ m.render ++ after) e = some (before ++ m'.render ++ after) := by
  obtain ⟨decl, gap, items, semi⟩ := m
  unfold inlineModule
  cases items with
  | some t => simp
  | none =>
    refine ⟨by simp, ?_⟩
    rintro e he rfl
    simp only [Option.isNone_none, if_true, Option.some.injEq] at he
    subst he
    refine ⟨⟨decl, gap ++ [' '], some "{}".toList, false⟩, rfl, rfl, rfl, ?_⟩
    have := apply_at before (decl ++ gap ++ [';']) after (decl ++ gap) [';'] [] [' ', '{', '}'] none
      (by simp)
    rw [applyAll_one] at this
    have h1 : bytes [';'] = 1 := by decide
    rw [h1] at this
    simpa [ModItem.render] using this

/-! ## Examples -/

/-- `type Err<T>: Debug;` -/
def errAlias : List Piece :=
  [⟨.kw, "type".toList, [' ']⟩, ⟨.name, "Err".toList, []⟩, ⟨.generics, "<T>".toList, []⟩,
    ⟨.bounds, ": Debug".toList, []⟩, ⟨.semi, [';'], []⟩]

/-- `/// Doc. #[cfg(test)] #[ink(message)] #[ink(handle_status = false)] fn f() {}`, on several lines. -/
def docFn : FnMember :=
  { docs := "/// Doc.\n".toList
    attrs := [⟨none, "#[cfg(test)]".toList, ['\n'], []⟩,
      ⟨some (.arg .message), "#[ink(message)]".toList, ['\n'], []⟩,
      ⟨some (.arg .handleStatus), "#[ink(handle_status = false)]".toList, ['\n'], []⟩]
    decl := "fn f() ".toList
    body := some "{}".toList }

/-- A body with these and a constant. -/
def mixedBody : Body :=
  [(.const "const C: u8 = 1;".toList, ['\n']), (.alias errAlias, ['\n']), (.fn docFn, ['\n'])]

theorem wf_errAlias : WfAlias errAlias := by
  refine ⟨?_, ?_, ?_, ?_, ?_⟩ <;> decide +kernel

theorem wf_mixedBody : WfBody mixedBody := by
  intro y hy a ha
  simp only [mixedBody, List.mem_cons, List.not_mem_nil, or_false] at hy
  rcases hy with rfl | rfl | rfl
  · cases ha
  · cases ha; exact wf_errAlias
  · cases ha

example : (chainMembers .v5 0 mixedBody [1]).map (·.rule) =
    [.const, .named, .generics, .bounds, .default, .body, .annotation] := by
  rw [C78_chain_reports _ _ _ _ wf_mixedBody]
  decide +kernel

example : (traitMembers 0 mixedBody).map (·.rule) = [.const, .assocType, .body] := by
  rw [C78_trait_reports]
  decide +kernel

/-- The quick fixes for the type, one by one. -/
example : (aliasReports 0 errAlias).map (fun x => x.fix.bind (applyAll (renderPieces errAlias))) =
    [some "type ErrorCode<T>: Debug;".toList, some "type Err: Debug;".toList,
      some "type Err<T>;".toList, some "type Err<T>: Debug = ();".toList] := by decide +kernel

/-- The quick fix for the function. -/
example : applyAll docFn.render
    (annotate (idAttrText .extension ['1']) [] false (keepForChain .extension) 0 docFn) =
    some "/// Doc.\n#[cfg(test)]\n#[ink(extension = 1)]\n#[ink(handle_status = false)]\n\
      fn f() {}".toList := by decide +kernel

example : (quantityReports [] 0 0 mixedBody).map (·.rule) = [.missing] := by
  rw [C78_quantity _ _ _ _ wf_mixedBody]
  decide +kernel

/-! ## Where the rules and quick fixes fall short -/

/-- `type ErrorCode` without `=` and semicolon. -/
def bareAlias : List Piece := [⟨.kw, "type".toList, [' ']⟩, ⟨.name, "ErrorCode".toList, []⟩]

/-- The default type for a type with neither `=` nor semicolon is inserted in front of it. -/
theorem C78_negation_default : WfAlias bareAlias ∧
    (aliasReports 0 bareAlias).map (fun x => (x.rule, x.fix.bind (applyAll (renderPieces bareAlias)))) =
      [(.default, some " = ();type ErrorCode".toList)] := by
  refine ⟨⟨?_, ?_, ?_, ?_, ?_⟩, ?_⟩ <;> decide +kernel

/-- `type Other = ();` -/
def otherAlias : List Piece :=
  [⟨.kw, "type".toList, [' ']⟩, ⟨.name, "Other".toList, [' ']⟩, ⟨.eq, ['='], [' ']⟩,
    ⟨.ty, ['(', ')'], []⟩, ⟨.semi, [';'], []⟩]

theorem wf_otherAlias : WfAlias otherAlias := by
  refine ⟨?_, ?_, ?_, ?_, ?_⟩ <;> decide +kernel

/-- A type with another name next to the `ErrorCode` type gets the same quick fix as the only
type: renaming it gives two `ErrorCode` types, where there was no report on their number. -/
theorem C78_negation_rename :
    ∃ b : Body, b = [(.alias otherAlias, ['\n']), (.alias newErrorCode, [])] ∧
      (chainReports .v4 [] [] 0 0 b).map (fun x => (x.rule, x.fix.bind (applyAll (renderBody b)))) =
        [(.named, some "type ErrorCode = ();\ntype ErrorCode = ();".toList)] :=
  ⟨_, rfl, by decide +kernel⟩

/-- What a report on a member marks: a text of the member, or else (`none`) the declaration of a function, or
an alias that has no name. -/
inductive Marks : Rule → Member → Option (List Char) → Prop
  | const (t) : Marks .const (.const t) (some t)
  | macro (t) : Marks .macro (.macro t) (some t)
  | assocType (a) : Marks .assocType (.alias a) (some (renderPieces a))
  | body (f b) : f.body = some b → Marks .body (.fn f) (some b)
  | named (a p) : p ∈ a → p.role = .name → Marks .named (.alias a) (some p.text)
  | nameless (a) : ¬ Has .name a → Marks .named (.alias a) none
  | generics (a p) : p ∈ a → p.role = .generics → Marks .generics (.alias a) (some p.text)
  | bounds (a p) : p ∈ a → p.role = .bounds → Marks .bounds (.alias a) (some p.text)
  | default (a) : Marks .default (.alias a) (some (renderPieces a))
  | annotation (f) : Marks .annotation (.fn f) none
  | wildcard (f) : Marks .wildcard (.fn f) none

/-- The report marks the text `what` of the member, which starts behind `before` in the file. -/
def MarksAt (before : List Char) (m : Member) (x : Report) : Option (List Char) → Prop
  | none => x.range = none
  | some what => ∃ l r, m.render = l ++ what ++ r ∧
      x.range = some (bytes (before ++ l), bytes (before ++ l ++ what))

theorem bodyReports_marks (P : List Char) (f : FnMember) (x : Report) (hx : x ∈ bodyReports (bytes P) f) :
    ∃ what, Marks x.rule (.fn f) what ∧ MarksAt P (.fn f) x what := by
  unfold bodyReports at hx
  split at hx
  · rename_i b hb
    cases List.mem_singleton.1 hx
    refine ⟨some b, .body f b hb, f.docs ++ renderAttrs f.attrs ++ f.decl, [], ?_, ?_⟩
    · simp [Member.render, FnMember.render, hb]
    · simp [removal, bytes_append]
      omega
  · cases hx

theorem piece_marks (P : List Char) (a : List Piece) (y : List Piece × Piece × List Piece) (x : Report)
    (h : a = y.1 ++ y.2.1 :: y.2.2) (hx : x.range = some (pieceRange (bytes P) y)) :
    MarksAt P (.alias a) x (some y.2.1.text) := by
  refine ⟨renderPieces y.1, y.2.1.gap ++ renderPieces y.2.2, ?_, ?_⟩
  · rw [h]
    simp [Member.render, renderPieces]
  · rw [hx]
    simp [pieceRange, bytes_append, Nat.add_assoc]

theorem aliasReports_marks (P : List Char) (a : List Piece) (x : Report)
    (hx : x ∈ aliasReports (bytes P) a) :
    ∃ what, Marks x.rule (.alias a) what ∧ MarksAt P (.alias a) x what := by
  unfold aliasReports at hx
  simp only [List.mem_append] at hx
  rcases hx with ((hx | hx) | hx) | hx
  · unfold namedReports at hx
    split at hx
    · rename_i y hy
      obtain ⟨h1, h2, -⟩ := findPiece_some _ _ _ hy
      split at hx
      · cases hx
      · cases List.mem_singleton.1 hx
        exact ⟨_, .named a y.2.1 (by rw [h1]; simp) h2, piece_marks P a y _ h1 rfl⟩
    · rename_i hf
      cases List.mem_singleton.1 hx
      exact ⟨none, .nameless a ((findPiece_none _ _).1 hf), rfl⟩
  · unfold forbidPiece at hx
    split at hx
    · rename_i y hy
      obtain ⟨h1, h2, -⟩ := findPiece_some _ _ _ hy
      cases List.mem_singleton.1 hx
      exact ⟨_, .generics a y.2.1 (by rw [h1]; simp) h2, piece_marks P a y _ h1 rfl⟩
    · cases hx
  · unfold forbidPiece at hx
    split at hx
    · rename_i y hy
      obtain ⟨h1, h2, -⟩ := findPiece_some _ _ _ hy
      cases List.mem_singleton.1 hx
      exact ⟨_, .bounds a y.2.1 (by rw [h1]; simp) h2, piece_marks P a y _ h1 rfl⟩
    · cases hx
  · unfold defaultReports at hx
    split at hx
    · cases List.mem_singleton.1 hx
      exact ⟨_, .default a, [], [], by simp [Member.render], by simp [bytes_append]⟩
    · cases hx

/-- C78. Every report on a member of a chain extension marks the offending text in the file: the whole item, the
body of a function, or the name, generic parameters or bounds of a type. -/
theorem C78_chain_places (v : Version) (before : List Char) (b : Body) (ids : List Nat) (x : Report)
    (hx : x ∈ chainMembers v (bytes before) b ids) :
    ∃ pre m g post what, b = pre ++ (m, g) :: post ∧ Marks x.rule m what ∧
      MarksAt (before ++ renderBody pre) m x what := by
  obtain ⟨pre, m, g, post, used, h1, h2⟩ := chainMembers_split v _ b ids x hx
  rw [← bytes_append] at h2
  suffices h : ∃ what, Marks x.rule m what ∧ MarksAt (before ++ renderBody pre) m x what by
    obtain ⟨what, h3, h4⟩ := h
    exact ⟨pre, m, g, post, what, h1, h3, h4⟩
  cases m with
  | const t =>
    cases List.mem_singleton.1 h2
    exact ⟨_, .const t, [], [], by simp [Member.render],
      by simp [removal, memberRange, Member.render, bytes_append, Nat.add_assoc]⟩
  | «macro» t =>
    cases List.mem_singleton.1 h2
    exact ⟨_, .macro t, [], [], by simp [Member.render],
      by simp [removal, memberRange, Member.render, bytes_append, Nat.add_assoc]⟩
  | «alias» a => exact aliasReports_marks _ a x h2
  | fn f =>
    rcases List.mem_append.1 h2 with h2 | h2
    · exact bodyReports_marks _ f x h2
    · unfold chainFnReports at h2
      split at h2
      · cases h2
      · simp only at h2
        split at h2
        · cases h2
        · cases List.mem_singleton.1 h2
          exact ⟨none, .annotation f, rfl⟩

/-- C78. The same for the members of a trait definition. -/
theorem C78_trait_places (before : List Char) (b : Body) (x : Report)
    (hx : x ∈ traitMembers (bytes before) b) :
    ∃ pre m g post what, b = pre ++ (m, g) :: post ∧ Marks x.rule m what ∧
      MarksAt (before ++ renderBody pre) m x what := by
  obtain ⟨pre, m, g, post, h1, h2⟩ := traitMembers_split _ b x hx
  rw [← bytes_append] at h2
  suffices h : ∃ what, Marks x.rule m what ∧ MarksAt (before ++ renderBody pre) m x what by
    obtain ⟨what, h3, h4⟩ := h
    exact ⟨pre, m, g, post, what, h1, h3, h4⟩
  cases m with
  | const t =>
    cases List.mem_singleton.1 h2
    exact ⟨_, .const t, [], [], by simp [Member.render],
      by simp [removal, memberRange, Member.render, bytes_append, Nat.add_assoc]⟩
  | «macro» t =>
    cases List.mem_singleton.1 h2
    exact ⟨_, .macro t, [], [], by simp [Member.render],
      by simp [removal, memberRange, Member.render, bytes_append, Nat.add_assoc]⟩
  | «alias» a =>
    cases List.mem_singleton.1 h2
    exact ⟨_, .assocType a, [], [], by simp [Member.render],
      by simp [removal, memberRange, Member.render, bytes_append, Nat.add_assoc]⟩
  | fn f =>
    rcases List.mem_append.1 h2 with h2 | h2
    · exact bodyReports_marks _ f x h2
    · unfold traitFnReports at h2
      rcases List.mem_append.1 h2 with h2 | h2
      · split at h2
        · cases h2
        · cases List.mem_singleton.1 h2
          exact ⟨none, .annotation f, rfl⟩
      · obtain ⟨a, -, h2⟩ := List.mem_flatMap.1 h2
        obtain ⟨k, -, rfl⟩ := List.mem_map.1 h2
        exact ⟨none, .wildcard f, rfl⟩

/-- `C78_chain_places` applies to `type Other = ();` behind `const X: u8;`: its name is marked. -/
example : (chainMembers .v4 1 [(.const "const X: u8;".toList, [' ']), (.alias otherAlias, [])] []).map
    (fun x => (x.rule, x.range)) = [(.const, some (1, 13)), (.named, some (19, 24))] := by decide +kernel

/-- C78. All reports on a chain extension: those on its members one after the other, and then those on the
number of `ErrorCode` types. -/
theorem C78_chain_all (v : Version) (indent : List Char) (ids : List Nat) (lo o : Nat) (b : Body)
    (hw : WfBody b) :
    (chainReports v indent ids lo o b).map (·.rule) = b.flatMap (fun x => chainRules v x.1) ++
      (if errorCodeCount b = 0 then [.missing] else List.replicate (errorCodeCount b - 1) .duplicate) := by
  unfold chainReports
  rw [List.map_append, C78_chain_reports v o b ids hw, C78_quantity indent lo o b hw]

/-- C78. A chain extension gets no reports exactly if each of its members keeps the rules and there is exactly
one `ErrorCode` type. -/
theorem C78_chain_clean (v : Version) (indent : List Char) (ids : List Nat) (lo o : Nat) (b : Body)
    (hw : WfBody b) :
    chainReports v indent ids lo o b = [] ↔
      (∀ x ∈ b, chainRules v x.1 = []) ∧ errorCodeCount b = 1 := by
  rw [← List.map_eq_nil_iff (f := (·.rule)), C78_chain_all v indent ids lo o b hw,
    List.append_eq_nil_iff, List.flatMap_eq_nil_iff]
  constructor
  · rintro ⟨h1, h2⟩
    refine ⟨h1, ?_⟩
    split at h2
    · cases h2
    · rw [List.replicate_eq_nil_iff] at h2
      omega
  · rintro ⟨h1, h2⟩
    refine ⟨h1, ?_⟩
    rw [h2]
    rfl

example : WfBody [(.alias newErrorCode, ['\n'])] ∧ errorCodeCount [(.alias newErrorCode, ['\n'])] = 1 ∧
    chainRules .v5 (.alias newErrorCode) = [] := by
  refine ⟨?_, by decide, by decide⟩
  intro x hx a ha
  cases List.mem_singleton.1 hx
  cases ha
  exact ⟨by decide, by decide, by decide, by decide, by decide⟩

/-- A single type with another name gets two reports whose quick fixes, applied together, give two
`ErrorCode` types. -/
theorem C78_negation_both :
    ∃ b : Body, b = [(.alias otherAlias, [])] ∧
      (chainReports .v4 [] [] 0 0 b).map (·.rule) = [.named, .missing] ∧
      applyAll (renderBody b) (((chainReports .v4 [] [] 0 0 b).filterMap (·.fix)).reverse.flatten) =
        some "type ErrorCode = ();type ErrorCode = ();".toList :=
  ⟨_, rfl, by decide +kernel, by decide +kernel⟩

/-- A wildcard of any argument is reported as a wildcard selector. -/
theorem C78_negation_wildcard :
    (traitMembers 0 [(.fn ⟨[], [⟨some (.arg .message), "#[ink(message, payable = _)]".toList, [],
      [.payable]⟩], "fn f(&self);".toList, none⟩, [])]).map (·.rule) = [.wildcard] := by
  decide +kernel

/-- The quick fix for a contract module with neither a body nor a semicolon deletes the contract. -/
theorem C78_negation_inline :
    ∃ m : ModItem, m = ⟨"#[ink::contract]\nmod flipper".toList, [], none, false⟩ ∧
      (inlineModule 0 m).bind (applyEdit m.render) = some "{}".toList :=
  ⟨_, rfl, by decide +kernel⟩

example : (inlineModule 0 ⟨"#[ink::contract]\nmod flipper".toList, [], none, true⟩).bind
    (applyEdit "#[ink::contract]\nmod flipper;".toList) =
      some "#[ink::contract]\nmod flipper {}".toList := by decide +kernel

end Verif.Analyzer.Members
