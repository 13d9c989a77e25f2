import Verif.Analyzer.Entity

/-!
# C37: repeated attributes and arguments are flagged exactly
-/

namespace Verif.Analyzer

open Verif.Ir

theorem dupArgs_seen (i : Nat) (seen l : List ArgKind) (n : Nat) (k : ArgKind) :
    k ∈ (dupArgs i seen (l.zipIdx n)).2 ↔ k ∈ seen ∨ k ∈ l := by
  induction l generalizing seen n with
  | nil => simp [dupArgs]
  | cons x xs ih =>
    simp only [List.zipIdx_cons, dupArgs, ih, List.mem_cons]
    constructor
    · rintro ((h | h) | h)
      · exact .inr (.inl h)
      · exact .inl h
      · exact .inr (.inr h)
    · rintro (h | h | h)
      · exact .inl (.inr h)
      · exact .inl (.inl h)
      · exact .inr h

theorem mem_dupArgs (i : Nat) (seen l : List ArgKind) (n : Nat) (d : DupDiag) :
    d ∈ (dupArgs i seen (l.zipIdx n)).1 ↔
      ∃ m k, d = .arg (i, n + m) ∧ l[m]? = some k ∧ k ≠ .unknown ∧ (k ∈ seen ∨ k ∈ l.take m) := by
  induction l generalizing seen n with
  | nil => simp [dupArgs]
  | cons x xs ih =>
    simp only [List.zipIdx_cons, dupArgs, List.mem_append, ih]
    constructor
    · rintro (h | ⟨m, k, hd, hk, hu, hs⟩)
      · split at h
        · rename_i hc
          exact ⟨0, x, by simpa using h, by simp, hc.1, .inl hc.2⟩
        · exact absurd h (by simp)
      · refine ⟨m + 1, k, by rw [hd]; congr 2; omega, by simpa using hk, hu, ?_⟩
        rcases hs with hs | hs
        · rcases List.mem_cons.1 hs with rfl | hs
          · exact .inr (by simp)
          · exact .inl hs
        · exact .inr (by simp [hs])
    · rintro ⟨m, k, hd, hk, hu, hs⟩
      cases m with
      | zero =>
        left
        have hk : x = k := by simpa using hk
        subst hk
        have hs : x ∈ seen := by simpa using hs
        rw [if_pos ⟨hu, hs⟩]
        simpa using hd
      | succ m =>
        right
        refine ⟨m, k, by rw [hd]; congr 2; omega, by simpa using hk, hu, ?_⟩
        rcases hs with hs | hs
        · exact .inl (List.mem_cons_of_mem _ hs)
        · rw [List.take_succ_cons] at hs
          rcases List.mem_cons.1 hs with rfl | hs
          · exact .inl (by simp)
          · exact .inr hs

theorem mem_dupMacro (seen : List MacroKind) (i : Nat) (k : AttrKind) (d : DupDiag) :
    d ∈ (dupMacro seen i k).1 ↔
      d = .macro i ∧ ∃ m, k = .macro m ∧ m ≠ .unknown ∧ m ∈ seen := by
  cases k with
  | «macro» m =>
    simp only [dupMacro]
    split
    · rename_i h
      simp only [List.mem_singleton, AttrKind.macro.injEq]
      exact ⟨fun e => ⟨e, m, rfl, h⟩, fun e => e.1⟩
    · rename_i h
      simp only [List.not_mem_nil, AttrKind.macro.injEq, false_iff]
      rintro ⟨-, m', rfl, h'⟩
      exact h h'
  | arg a => simp [dupMacro]

theorem mem_dupMacro_seen (seen : List MacroKind) (i : Nat) (k : AttrKind) (m : MacroKind) :
    m ∈ (dupMacro seen i k).2 ↔ m ∈ seen ∨ k = .macro m := by
  cases k with
  | «macro» m' =>
    simp only [dupMacro, List.mem_cons, AttrKind.macro.injEq]
    exact ⟨fun h => h.elim (fun e => .inr e.symm) .inl,
      fun h => h.elim .inr (fun e => .inl e.symm)⟩
  | arg a => simp [dupMacro]

theorem mem_dupLoop (seenM : List MacroKind) (seenA : List ArgKind) (l : List AttrV) (n : Nat)
    (d : DupDiag) :
    d ∈ dupLoop seenM seenA (l.zipIdx n) ↔
      (∃ i a m, d = .macro (n + i) ∧ l[i]? = some a ∧ a.kind = .macro m ∧ m ≠ .unknown ∧
        (m ∈ seenM ∨ ∃ b ∈ l.take i, b.kind = .macro m)) ∨
      (∃ i a j k, d = .arg (n + i, j) ∧ l[i]? = some a ∧ a.args[j]? = some k ∧ k ≠ .unknown ∧
        (k ∈ seenA ∨ (∃ b ∈ l.take i, k ∈ b.args) ∨ k ∈ a.args.take j)) := by
  induction l generalizing seenM seenA n with
  | nil => simp [dupLoop]
  | cons x xs ih =>
    simp only [List.zipIdx_cons, dupLoop, List.mem_append, ih, mem_dupMacro, mem_dupArgs]
    constructor
    · rintro ((⟨hd, m, hm, hu, hs⟩ | ⟨j, k, hd, hk, hu, hs⟩) |
        ⟨i, a, m, hd, ha, hm, hu, hs⟩ | ⟨i, a, j, k, hd, ha, hk, hu, hs⟩)
      · exact .inl ⟨0, x, m, hd, rfl, hm, hu, .inl hs⟩
      · refine .inr ⟨0, x, j, k, by simpa using hd, rfl, hk, hu, ?_⟩
        rcases hs with hs | hs
        · exact .inl hs
        · exact .inr (.inr hs)
      · refine .inl ⟨i + 1, a, m, by rw [hd]; congr 1; omega, by simpa using ha, hm, hu, ?_⟩
        rcases hs with hs | ⟨b, hb, hbm⟩
        · rcases (mem_dupMacro_seen _ _ _ _).1 hs with hs | hs
          · exact .inl hs
          · exact .inr ⟨x, by simp, hs⟩
        · exact .inr ⟨b, by simp [hb], hbm⟩
      · refine .inr ⟨i + 1, a, j, k, by rw [hd]; congr 2; omega, by simpa using ha, hk, hu, ?_⟩
        rcases hs with hs | ⟨b, hb, hbm⟩ | hs
        · rcases (dupArgs_seen _ _ _ _ _).1 hs with hs | hs
          · exact .inl hs
          · exact .inr (.inl ⟨x, by simp, hs⟩)
        · exact .inr (.inl ⟨b, by simp [hb], hbm⟩)
        · exact .inr (.inr hs)
    · rintro (⟨i, a, m, hd, ha, hm, hu, hs⟩ | ⟨i, a, j, k, hd, ha, hk, hu, hs⟩)
      · cases i with
        | zero =>
          have ha : x = a := by simpa using ha
          subst ha
          refine .inl (.inl ⟨hd, m, hm, hu, ?_⟩)
          simpa using hs
        | succ i =>
          refine .inr (.inl ⟨i, a, m, by rw [hd]; congr 1; omega, by simpa using ha, hm, hu, ?_⟩)
          rcases hs with hs | ⟨b, hb, hbm⟩
          · exact .inl ((mem_dupMacro_seen _ _ _ _).2 (.inl hs))
          · rw [List.take_succ_cons] at hb
            rcases List.mem_cons.1 hb with rfl | hb
            · exact .inl ((mem_dupMacro_seen _ _ _ _).2 (.inr hbm))
            · exact .inr ⟨b, hb, hbm⟩
      · cases i with
        | zero =>
          have ha : x = a := by simpa using ha
          subst ha
          refine .inl (.inr ⟨j, k, by simpa using hd, hk, hu, ?_⟩)
          simpa using hs
        | succ i =>
          refine .inr (.inr ⟨i, a, j, k, by rw [hd]; congr 2; omega, by simpa using ha, hk, hu, ?_⟩)
          rcases hs with hs | ⟨b, hb, hbm⟩ | hs
          · exact .inl ((dupArgs_seen _ _ _ _ _).2 (.inl hs))
          · rw [List.take_succ_cons] at hb
            rcases List.mem_cons.1 hb with rfl | hb
            · exact .inl ((dupArgs_seen _ _ _ _ _).2 (.inr hbm))
            · exact .inr (.inl ⟨b, hb, hbm⟩)
          · exact .inr (.inr hs)

/-- Argument `j` of attribute `i` exists and has kind `k`. -/
def ArgAt (attrs : List AttrV) (i j : Nat) (k : ArgKind) : Prop :=
  ∃ a, attrs[i]? = some a ∧ a.args[j]? = some k

/-- Attribute `i` is the macro `m`. -/
def MacroAt (attrs : List AttrV) (i : Nat) (m : MacroKind) : Prop :=
  ∃ a, attrs[i]? = some a ∧ a.kind = .macro m

/-- A macro attribute is reported as a duplicate iff it is known and an earlier attribute of
the item is the same macro. -/
theorem C37_macros (attrs : List AttrV) (i : Nat) :
    DupDiag.macro i ∈ duplicates attrs ↔
      ∃ m, MacroAt attrs i m ∧ m ≠ .unknown ∧ ∃ i' < i, MacroAt attrs i' m := by
  unfold duplicates
  rw [mem_dupLoop]
  constructor
  · rintro (⟨i', a, m, hd, ha, hm, hu, hs⟩ | ⟨i, a, j, k, hd, -⟩)
    · have : i = i' := by simpa using hd
      subst this
      rcases hs with hs | ⟨b, hb, hbm⟩
      · exact absurd hs (by simp)
      · obtain ⟨q, hq, rfl⟩ := List.mem_take_iff_getElem.1 hb
        refine ⟨m, ⟨a, ha, hm⟩, hu, q, by omega, _, ?_, hbm⟩
        simp
    · exact absurd hd (by simp)
  · rintro ⟨m, ⟨a, ha, hm⟩, hu, i', hlt, b, hb, hbm⟩
    refine .inl ⟨i, a, m, by simp, ha, hm, hu, .inr ⟨b, ?_, hbm⟩⟩
    obtain ⟨hl, rfl⟩ := List.getElem?_eq_some_iff.1 hb
    exact List.mem_take_iff_getElem.2 ⟨i', by omega, rfl⟩

/-- An argument is reported as a duplicate iff it is known and an argument of the same kind
comes earlier on the item, in the same attribute or in an earlier one. -/
theorem C37_args (attrs : List AttrV) (i j : Nat) :
    DupDiag.arg (i, j) ∈ duplicates attrs ↔
      ∃ k, ArgAt attrs i j k ∧ k ≠ .unknown ∧
        ∃ i' j', (i' < i ∨ (i' = i ∧ j' < j)) ∧ ArgAt attrs i' j' k := by
  unfold duplicates
  rw [mem_dupLoop]
  constructor
  · rintro (⟨i', a, m, hd, -⟩ | ⟨i', a, j', k, hd, ha, hk, hu, hs⟩)
    · exact absurd hd (by simp)
    · have : i = i' ∧ j = j' := by simpa using hd
      obtain ⟨rfl, rfl⟩ := this
      refine ⟨k, ⟨a, ha, hk⟩, hu, ?_⟩
      rcases hs with hs | ⟨b, hb, hbm⟩ | hs
      · exact absurd hs (by simp)
      · obtain ⟨q, hq, rfl⟩ := List.mem_take_iff_getElem.1 hb
        obtain ⟨r, hr, hrk⟩ := List.mem_iff_getElem.1 hbm
        exact ⟨q, r, .inl (by omega), _, by simp,
          List.getElem?_eq_some_iff.2 ⟨hr, hrk⟩⟩
      · obtain ⟨q, hq, hqk⟩ := List.mem_take_iff_getElem.1 hs
        exact ⟨i, q, .inr ⟨rfl, by omega⟩, a, ha, List.getElem?_eq_some_iff.2 ⟨by omega, hqk⟩⟩
  · rintro ⟨k, ⟨a, ha, hk⟩, hu, i', j', hlt, b, hb, hbk⟩
    refine .inr ⟨i, a, j, k, by simp, ha, hk, hu, .inr ?_⟩
    rcases hlt with hlt | ⟨rfl, hlt⟩
    · left
      obtain ⟨hl, rfl⟩ := List.getElem?_eq_some_iff.1 hb
      obtain ⟨hl', rfl⟩ := List.getElem?_eq_some_iff.1 hbk
      exact ⟨_, List.mem_take_iff_getElem.2 ⟨i', by
        have := (List.getElem?_eq_some_iff.1 ha).1; omega, rfl⟩, List.getElem_mem hl'⟩
    · right
      rw [ha] at hb
      obtain rfl := Option.some.inj hb
      obtain ⟨hl', rfl⟩ := List.getElem?_eq_some_iff.1 hbk
      exact List.mem_take_iff_getElem.2 ⟨j', by
        have := (List.getElem?_eq_some_iff.1 hk).1; omega, rfl⟩

/-- An item is free of duplicate reports iff its known macros and its known arguments are
pairwise different. -/
theorem C37_clean (attrs : List AttrV) :
    duplicates attrs = [] ↔
      (∀ i i' m, i' < i → MacroAt attrs i m → MacroAt attrs i' m → m = .unknown) ∧
      (∀ i j i' j' k, (i' < i ∨ (i' = i ∧ j' < j)) → ArgAt attrs i j k → ArgAt attrs i' j' k →
        k = .unknown) := by
  constructor
  · intro h
    refine ⟨fun i i' m hlt h1 h2 => ?_, fun i j i' j' k hlt h1 h2 => ?_⟩
    · refine Classical.byContradiction fun hu => ?_
      have := (C37_macros attrs i).2 ⟨m, h1, hu, i', hlt, h2⟩
      rw [h] at this
      exact absurd this (by simp)
    · refine Classical.byContradiction fun hu => ?_
      have := (C37_args attrs i j).2 ⟨k, h1, hu, i', j', hlt, h2⟩
      rw [h] at this
      exact absurd this (by simp)
  · rintro ⟨h1, h2⟩
    apply List.eq_nil_iff_forall_not_mem.2
    intro d hd
    cases d with
    | «macro» i =>
      obtain ⟨m, hm, hu, i', hlt, hm'⟩ := (C37_macros attrs i).1 hd
      exact hu (h1 i i' m hlt hm hm')
    | arg p =>
      obtain ⟨k, hk, hu, i', j', hlt, hk'⟩ := (C37_args attrs p.1 p.2).1 hd
      exact hu (h2 _ _ i' j' k hlt hk hk')

/-- `#[ink(event)] #[ink(xyz, event)] #[ink(xyz)]`: the second `event` is reported, the unknown
argument is not. -/
example : duplicates
    [⟨.arg .event, [.event]⟩, ⟨.arg .event, [.unknown, .event]⟩, ⟨.arg .unknown, [.unknown]⟩] =
    [.arg (1, 1)] := by decide

/-- A repeated macro. -/
example : duplicates [⟨.macro .contract, []⟩, ⟨.macro .contract, [.env]⟩] = [.macro 1] := by
  decide

end Verif.Analyzer
