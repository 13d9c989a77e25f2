import Verif.Analyzer.Reserved
import Verif.Analyzer.SnippetLemmas

/-!
# C46, C47: reserved identifiers and item paths
-/

namespace Verif.Analyzer

/-! ## Specification -/

/-- A name starts with `__ink_`. -/
def Reserved (name : List Char) : Prop := ∃ rest, name = "__ink_".toList ++ rest

/-- A text contains `__ink_`. -/
def ContainsInk (t : List Char) : Prop := ∃ a b, t = a ++ "__ink_".toList ++ b

/-- The path of an item, given its enclosing modules from the outermost to the innermost. -/
def properPath (modules : List String) (name : String) : String :=
  "::".intercalate (["crate"] ++ modules ++ [name])

/-! ## C46 -/

theorem isReserved_iff (name : List Char) : isReserved name = true ↔ Reserved name := by
  unfold isReserved Reserved
  rw [List.isPrefixOf_iff_prefix]
  exact ⟨fun ⟨r, h⟩ => ⟨r, h.symm⟩, fun ⟨r, h⟩ => ⟨r, h.symm⟩⟩

theorem findPat_none_of (pat t : List Char) (h : ¬ ∃ a b, t = a ++ pat ++ b) :
    findPat pat t = none := by
  cases hf : findPat pat t with
  | none => rfl
  | some r =>
    by_cases hp : pat = []
    · subst hp
      exact absurd ⟨[], t, rfl⟩ h
    · have := (findPat_some pat [] t r.1 r.2 hp hf).1
      exact absurd ⟨r.1, r.2, by rw [List.append_assoc]; exact this⟩ h

theorem findPat_first (pat t b a : List Char) (h : findPat pat t = some (b, a)) :
    ∀ x y, t = x ++ pat ++ y → b.length ≤ x.length := by
  induction t generalizing b with
  | nil => simp [findPat] at h
  | cons c cs ih =>
    unfold findPat at h
    cases hq : pat.isPrefixOf (c :: cs) with
    | true =>
      rw [hq] at h
      simp only [if_true, Option.some.injEq, Prod.mk.injEq] at h
      obtain ⟨rfl, _⟩ := h
      simp
    | false =>
      rw [hq] at h
      simp only [Bool.false_eq_true, if_false, Option.map_eq_some_iff] at h
      obtain ⟨⟨b', a'⟩, h1, h2⟩ := h
      simp only [Prod.mk.injEq] at h2
      obtain ⟨rfl, rfl⟩ := h2
      intro x y hxy
      cases x with
      | nil =>
        have : pat.isPrefixOf (c :: cs) = true :=
          List.isPrefixOf_iff_prefix.2 ⟨y, by simpa using hxy.symm⟩
        rw [this] at hq
        cases hq
      | cons d x =>
        have := ih b' h1 x y (by
          simp only [List.cons_append, List.cons.injEq] at hxy
          exact hxy.2)
        simp only [List.length_cons]
        omega

/-- Exactly the identifiers that start with `__ink_` are reported, each once and in order; a
rename is offered unless nothing is left of the name. -/
theorem C46_reported (toks : List IdentTok) :
    ((reservedIdents toks).map (·.1)).Pairwise (· < ·) ∧
    ∀ i r, (i, r) ∈ reservedIdents toks ↔ ∃ t, toks[i]? = some t ∧ t.isIdent = true ∧
      Reserved t.text ∧
      r = if renameSuggestion t.text = [] then none else some (renameSuggestion t.text) := by
  refine ⟨?_, fun i r => ?_⟩
  · have hgen : ∀ (l : List IdentTok) (k : Nat),
        (∀ x ∈ (l.zipIdx k).filterMap reservedIdent, k ≤ x.1) ∧
        (((l.zipIdx k).filterMap reservedIdent).map (·.1)).Pairwise (· < ·) := by
      intro l
      induction l with
      | nil => intro k; simp
      | cons t l ih =>
        intro k
        rw [List.zipIdx_cons]
        obtain ⟨h1, h2⟩ := ih (k + 1)
        by_cases hc : (t.isIdent && isReserved t.text) = true
        · have hs : reservedIdent (t, k) = some (k, reservedFix t.text) := by
            unfold reservedIdent
            rw [if_pos hc]
          rw [List.filterMap_cons_some hs]
          refine ⟨?_, ?_⟩
          · intro x hx
            rcases List.mem_cons.1 hx with rfl | hx
            · exact Nat.le_refl _
            · have := h1 x hx; omega
          · rw [List.map_cons, List.pairwise_cons]
            refine ⟨fun y hy => ?_, h2⟩
            obtain ⟨x, hx, rfl⟩ := List.mem_map.1 hy
            exact h1 x hx
        · have hs : reservedIdent (t, k) = none := by
            unfold reservedIdent
            rw [if_neg hc]
          rw [List.filterMap_cons_none hs]
          exact ⟨fun x hx => by have := h1 x hx; omega, h2⟩
    exact (hgen toks 0).2
  · unfold reservedIdents
    simp only [List.mem_filterMap, Prod.exists, List.mem_zipIdx_iff_getElem?]
    unfold reservedIdent reservedFix
    constructor
    · rintro ⟨t, j, hj, h⟩
      by_cases hc : (t.isIdent && isReserved t.text) = true
      · rw [if_pos hc] at h
        simp only [Option.some.injEq, Prod.mk.injEq] at h
        obtain ⟨rfl, rfl⟩ := h
        rw [Bool.and_eq_true, isReserved_iff] at hc
        exact ⟨t, hj, hc.1, hc.2, by simp only [List.isEmpty_iff]⟩
      · rw [if_neg hc] at h
        cases h
    · rintro ⟨t, hj, h1, h2, rfl⟩
      refine ⟨t, i, hj, ?_⟩
      rw [if_pos (by rw [Bool.and_eq_true, isReserved_iff]; exact ⟨h1, h2⟩)]
      simp only [List.isEmpty_iff]

/-- The rename is not reported again, if `__ink_` occurs only at the start of the name: it is
then the name without the prefix.

Missing for the full claim: removing a second occurrence may produce the prefix again
(`C46_negation`). -/
theorem C46_renamed_partial (rest : List Char) (h : ¬ ContainsInk rest) :
    renameSuggestion ("__ink_".toList ++ rest) = rest ∧ ¬ Reserved rest := by
  refine ⟨?_, ?_⟩
  · unfold renameSuggestion
    rw [show "__ink_".toList = inkPrefix from rfl, replaceAll_match _ _ _ (by decide),
      findPat_none inkPrefix [] rest (findPat_none_of _ _ h)]
    rfl
  · rintro ⟨r, rfl⟩
    exact h ⟨[], r, rfl⟩

/-- Nor is it reported if the next occurrence of `__ink_` is at least six characters after the
first. -/
theorem C46_renamed_long_partial (gap rest : List Char)
    (hfirst : ∀ a b, gap ++ "__ink_".toList ++ rest = a ++ "__ink_".toList ++ b →
      gap.length ≤ a.length)
    (hlen : 6 ≤ gap.length) :
    ¬ Reserved (renameSuggestion ("__ink_".toList ++ (gap ++ "__ink_".toList ++ rest))) := by
  have hsub : ∃ r, renameSuggestion ("__ink_".toList ++ (gap ++ "__ink_".toList ++ rest)) =
      gap ++ r := by
    unfold renameSuggestion
    rw [show "__ink_".toList = inkPrefix from rfl, replaceAll_match _ _ _ (by decide)]
    cases hf : findPat inkPrefix (gap ++ inkPrefix ++ rest) with
    | none =>
      exact ⟨_, by rw [findPat_none _ _ _ hf, List.nil_append, List.append_assoc]⟩
    | some q =>
      obtain ⟨b, a⟩ := q
      obtain ⟨h1, h2⟩ := findPat_some inkPrefix [] _ b a (by decide) hf
      have hle : gap.length ≤ b.length := hfirst b a (by
        rw [List.append_assoc b]; exact h1)
      have hge := findPat_first _ _ b a hf gap rest rfl
      have hb : gap = b := by
        have := h1
        rw [List.append_assoc] at this
        exact (List.append_inj this (by omega)).1
      rw [h2, hb]
      exact ⟨_, rfl⟩
  obtain ⟨r, hr⟩ := hsub
  rw [hr]
  rintro ⟨s, hs⟩
  have hp : "__ink_".toList <+: gap := by
    rw [List.prefix_iff_eq_take]
    have h1 : (gap ++ r).take 6 = gap.take 6 := by
      rw [List.take_append]
      simp [Nat.sub_eq_zero_of_le hlen]
    have h2 : ("__ink_".toList ++ s).take 6 = "__ink_".toList := rfl
    rw [← h2, ← hs, h1]
    simp [List.length_take, Nat.min_eq_left hlen]
  obtain ⟨g, rfl⟩ := hp
  have := hfirst [] (g ++ "__ink_".toList ++ rest) (by simp)
  rw [List.length_nil] at this
  omega

/-- The full claim fails: the rename of `__ink___in__ink_k_x` is `__ink_x`, which is reported, and
the rename of `__ink_1` is `1`, which is no identifier. -/
theorem C46_negation :
    renameSuggestion "__ink___in__ink_k_x".toList = "__ink_x".toList ∧
    Reserved "__ink___in__ink_k_x".toList ∧ Reserved "__ink_x".toList ∧
    Reserved "__ink_1".toList ∧ renameSuggestion "__ink_1".toList = ['1'] := by
  refine ⟨by decide, ⟨"__in__ink_k_x".toList, by decide⟩, ⟨['x'], by decide⟩, ⟨['1'], by decide⟩,
    by decide⟩

/-! Non-vacuity. -/

example : reservedIdents [⟨true, "__ink_dispatch".toList⟩, ⟨false, "__ink_".toList⟩,
    ⟨true, "ink__ink_".toList⟩, ⟨true, "__ink_".toList⟩] =
    [(0, some "dispatch".toList), (3, none)] := by decide

/-! ## C47 -/

theorem intercalate_inj_chars (as bs : List (List Char)) (ha : ∀ a ∈ as, ':' ∉ a)
    (hb : ∀ b ∈ bs, ':' ∉ b) (hla : as ≠ []) (hlb : bs ≠ [])
    (h : [':', ':'].intercalate as = [':', ':'].intercalate bs) : as = bs := by
  have hcut : ∀ (x y r s : List Char), ':' ∉ x → ':' ∉ y → x ++ ':' :: r = y ++ ':' :: s →
      x = y ∧ r = s := by
    intro x
    induction x with
    | nil =>
      intro y r s _ hy h
      cases y with
      | nil => simpa using h
      | cons c y =>
        simp only [List.nil_append, List.cons_append, List.cons.injEq] at h
        simp [← h.1] at hy
    | cons c x ih =>
      intro y r s hx hy h
      cases y with
      | nil =>
        simp only [List.nil_append, List.cons_append, List.cons.injEq] at h
        simp [h.1] at hx
      | cons d y =>
        simp only [List.cons_append, List.cons.injEq] at h
        obtain ⟨rfl, h⟩ := h
        simp only [List.mem_cons, not_or] at hx hy
        obtain ⟨rfl, rfl⟩ := ih y r s hx.2 hy.2 h
        exact ⟨rfl, rfl⟩
  have hcons : ∀ (a : List Char) (b : List Char) (t : List (List Char)),
      [':', ':'].intercalate (a :: b :: t) = a ++ ':' :: ':' :: [':', ':'].intercalate (b :: t) := by
    intro a b t
    simp [List.intercalate, List.intersperse]
  have hone : ∀ a : List Char, [':', ':'].intercalate [a] = a := by
    intro a
    simp [List.intercalate, List.intersperse]
  induction as generalizing bs with
  | nil => exact absurd rfl hla
  | cons a as ih =>
    cases bs with
    | nil => exact absurd rfl hlb
    | cons b bs =>
      have ha1 := ha a (by simp)
      have hb1 := hb b (by simp)
      cases as with
      | nil =>
        cases bs with
        | nil => rw [hone, hone] at h; rw [h]
        | cons b2 bs =>
          rw [hone, hcons] at h
          rw [h] at ha1
          simp at ha1
      | cons a2 as =>
        cases bs with
        | nil =>
          rw [hone, hcons] at h
          rw [← h] at hb1
          simp at hb1
        | cons b2 bs =>
          rw [hcons, hcons] at h
          obtain ⟨rfl, h'⟩ := hcut _ _ _ _ ha1 hb1 h
          have h := (List.cons.inj h').2
          rw [ih (b2 :: bs) (fun x hx => ha x (by simp [hx])) (fun x hx => hb x (by simp [hx]))
            (by simp) (by simp) h]

theorem intercalate_colon_snoc (l : List (List Char)) (x : List Char) (hl : l ≠ []) :
    [':', ':'].intercalate (l ++ [x]) = [':', ':'].intercalate l ++ [':', ':'] ++ x := by
  induction l with
  | nil => exact absurd rfl hl
  | cons a l ih =>
    cases l with
    | nil => simp [List.intercalate, List.intersperse]
    | cons b l =>
      have := ih (by simp)
      have hc : ∀ (a b : List Char) (t : List (List Char)),
          [':', ':'].intercalate (a :: b :: t) =
            a ++ [':', ':'] ++ [':', ':'].intercalate (b :: t) := by
        intro a b t
        simp [List.intercalate, List.intersperse]
      rw [List.cons_append, List.cons_append, hc, hc, ← List.cons_append, this]
      simp only [List.append_assoc]

/-- The suggested path is right iff the enclosing modules read the same in both directions (in
particular for at most one enclosing module).

Missing for the full claim: otherwise the modules are named from the innermost to the outermost
(`C47_negation`). -/
theorem C47_path_partial (modules : List String) (name : String)
    (hm : ∀ m ∈ modules, ':' ∉ m.toList) :
    itemPath (none :: modules.reverse.map some) name = properPath modules name ↔
      modules.reverse = modules := by
  unfold itemPath properPath
  have hmods : (none :: modules.reverse.map some).filterMap id = modules.reverse := by
    simp [List.filterMap_map]
  rw [hmods]
  constructor
  · intro h
    have := congrArg String.toList h
    simp only [String.toList_intercalate, List.map_append, List.map_cons, List.map_nil] at this
    simp only [show "::".toList = [':', ':'] from rfl] at this
    rw [intercalate_colon_snoc _ _ (by simp), intercalate_colon_snoc _ _ (by simp)] at this
    have h3 := List.append_cancel_right (List.append_cancel_right this)
    have h4 := intercalate_inj_chars _ _ (by
      intro a ha
      simp only [List.singleton_append, List.mem_cons, List.mem_map] at ha
      rcases ha with rfl | ⟨m, hm', rfl⟩
      · decide
      · exact hm m (by simpa using hm')) (by
      intro a ha
      simp only [List.singleton_append, List.mem_cons, List.mem_map] at ha
      rcases ha with rfl | ⟨m, hm', rfl⟩
      · decide
      · exact hm m hm') (by simp) (by simp) h3
    simp only [List.singleton_append, List.cons.injEq, true_and] at h4
    exact List.map_inj_right (fun a b h => String.toList_inj.1 h) |>.1 h4
  · intro h
    rw [h]

/-- With at most one enclosing module the path is right. -/
theorem C47_single_partial (modules : List String) (name : String) (h : modules.length ≤ 1) :
    itemPath (none :: modules.reverse.map some) name = properPath modules name := by
  unfold itemPath properPath
  match modules, h with
  | [], _ => rfl
  | [m], _ => rfl

/-- The full claim fails: for an item `T` in `mod a { mod b { … } }` the path is `crate::b::a::T`. -/
theorem C47_negation :
    itemPath (none :: ["a", "b"].reverse.map some) "T" = "crate::b::a::T" ∧
    properPath ["a", "b"] "T" = "crate::a::b::T" := by decide

/-! Non-vacuity. -/

example : (∀ m ∈ ["a"], ':' ∉ m.toList) ∧ ["a"].length ≤ 1 ∧
    itemPath [none, none, some "a", none] "T" = "crate::a::T" := by decide

end Verif.Analyzer
