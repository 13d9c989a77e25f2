import Verif.Analyzer.Dedup
import Verif.Analyzer.EditProps

/-!
# C35: diagnostic deduplication loses nothing but repeats
# C36: code actions are distinct, complete and ordered by kind
-/

namespace Verif.Analyzer

open Verif.Util

/-! ## C35 -/

/-- The edits a diagnostic offers; `none` if it has no quickfixes at all. -/
def Diag.offers (d : Diag) : Option (List Edit) :=
  d.quickfixes.map fun fixes => (fixes.map (·.edits)).flatten

/-- Two diagnostics a user cannot tell apart but for their message. -/
def SameReport (a b : Diag) : Prop :=
  a.range = b.range ∧ a.severity = b.severity ∧ a.offers = b.offers

theorem key_iff (a b : Diag) : a.key = b.key ↔ SameReport a b := by
  have h : ∀ d : Diag, d.offers = d.quickfixes.map fun fixes => fixes.flatMap (·.edits) := by
    intro d
    unfold Diag.offers
    congr 1
  unfold Diag.key SameReport
  rw [h, h]
  simp only [Prod.mk.injEq]

theorem pairwise_key_inj {α κ : Type} (key : α → κ) :
    ∀ l : List α, l.Pairwise (fun a b => key a ≠ key b) →
      ∀ {a b : α}, a ∈ l → b ∈ l → key a = key b → a = b
  | [], _, _, _, ha, _, _ => by simp at ha
  | x :: l, hp, a, b, ha, hb, he => by
    rw [List.pairwise_cons] at hp
    rcases List.mem_cons.1 ha with ha' | ha' <;> rcases List.mem_cons.1 hb with hb' | hb'
    · exact ha'.trans hb'.symm
    · exact absurd (ha' ▸ he) (hp.1 b hb')
    · exact absurd (hb' ▸ he).symm (hp.1 a ha')
    · exact pairwise_key_inj key l hp.2 ha' hb' he

/-- Reported are the raw diagnostics (with their edits formatted) that have no earlier
equivalent: a subsequence without two equivalent members, in which every raw diagnostic has
exactly one equivalent, the first such in the raw list.

Missing for the full claim: formatting the edits afterwards can make two reported diagnostics
equivalent, see `C35_negation`. -/
theorem C35_dedup_partial (fmt : Edit → Edit) (raw : List Diag) :
    ∃ kept : List Diag, diagnostics fmt raw = kept.map (Diag.format fmt) ∧
      kept.Sublist raw ∧ kept.Pairwise (fun a b => ¬ SameReport a b) ∧
      (∀ d ∈ raw, ∃ k ∈ kept, SameReport k d ∧ ∀ k' ∈ kept, SameReport k' d → k' = k) ∧
      (∀ pre d post, raw = pre ++ d :: post → (∀ x ∈ pre, ¬ SameReport x d) → d ∈ kept) := by
  refine ⟨uniqueBy Diag.key raw, rfl, uniqueByFrom_sublist _ _ _, ?_, ?_, ?_⟩
  · exact (uniqueByFrom_pairwise Diag.key [] raw).imp fun h h' => h ((key_iff _ _).2 h')
  · intro d hd
    obtain ⟨k, hk, he⟩ := uniqueByFrom_complete Diag.key [] raw d hd (by simp)
    refine ⟨k, hk, (key_iff _ _).1 he, fun k' hk' he' => ?_⟩
    have he' := (key_iff _ _).2 he'
    exact pairwise_key_inj Diag.key _ (uniqueByFrom_pairwise Diag.key [] raw) hk' hk
      (he'.trans he.symm)
  · rintro pre d post rfl hpre
    unfold uniqueBy
    rw [mem_uniqueByFrom_split, if_neg]
    · simp
    · simp only [List.not_mem_nil, false_or, List.mem_map, not_exists, not_and]
      exact fun x hx he => hpre x hx ((key_iff _ _).1 he)

/-- Formatting changes neither message, range nor severity, nor the number, labels, kinds and
ranges of the quickfixes. -/
theorem C35_format (fmt : Edit → Edit) (d : Diag) :
    (d.format fmt).message = d.message ∧ (d.format fmt).range = d.range ∧
    (d.format fmt).severity = d.severity ∧
    (d.format fmt).quickfixes.map (fun l => l.map fun a => (a.label, a.kind, a.range)) =
      d.quickfixes.map (fun l => l.map fun a => (a.label, a.kind, a.range)) ∧
    (d.format fmt).offers = d.offers.map (·.map fmt) := by
  refine ⟨rfl, rfl, rfl, ?_, ?_⟩
  · unfold Diag.format
    cases d.quickfixes <;> simp [Action.format, Function.comp_def]
  · unfold Diag.format Diag.offers
    cases d.quickfixes with
    | none => rfl
    | some l => simp [Action.format, Function.comp_def, List.map_flatten]

/-- Two diagnostics whose edits differ in whitespace only can both be reported although they
offer the same edits after formatting. -/
theorem C35_negation :
    ∃ (file : List FTok) (raw : List Diag) (a b : Diag),
      diagnostics (fun e => (formatEdit file (fun _ => some none) e).getD e) raw = [a, b] ∧
      SameReport a b := by
  refine ⟨[⟨.lCurly, ['{']⟩],
    [⟨"m", (0, 1), .error, some [⟨"l", .quickFix, (0, 1), [⟨['a'], 1, 1, none⟩]⟩]⟩,
     ⟨"m", (0, 1), .error,
       some [⟨"l", .quickFix, (0, 1), [⟨"\n    a".toList, 1, 1, none⟩]⟩]⟩],
    ⟨"m", (0, 1), .error,
       some [⟨"l", .quickFix, (0, 1), [⟨"\n    a".toList, 1, 1, none⟩]⟩]⟩,
    ⟨"m", (0, 1), .error,
       some [⟨"l", .quickFix, (0, 1), [⟨"\n    a".toList, 1, 1, none⟩]⟩]⟩, by decide, rfl, rfl, rfl⟩

/-! ## C36 -/

/-- A quickfix is relevant for a range if one of the two contains the other. -/
def Relevant (range : Nat × Nat) (a : Action) : Prop :=
  (range.1 ≤ a.range.1 ∧ a.range.2 ≤ range.2) ∨ (a.range.1 ≤ range.1 ∧ range.2 ≤ a.range.2)

theorem mem_quickfixesFor (diags : List Diag) (range : Nat × Nat) (a : Action) :
    a ∈ quickfixesFor diags range ↔
      Relevant range a ∧ ∃ d ∈ diags, ∃ l, d.quickfixes = some l ∧ a ∈ l := by
  unfold quickfixesFor containsRange Relevant
  simp only [List.mem_filter, List.mem_flatten, List.mem_filterMap, Bool.or_eq_true,
    Bool.and_eq_true, decide_eq_true_eq]
  constructor
  · rintro ⟨⟨l, ⟨d, hd, hl⟩, ha⟩, hr⟩
    exact ⟨hr, d, hd, l, hl, ha⟩
  · rintro ⟨hr, d, hd, l, hl, ha⟩
    exact ⟨⟨l, ⟨d, hd, hl⟩, ha⟩, hr⟩

/-- No two offered actions have the same edits. -/
theorem C36_distinct (fmt : Edit → Edit) (diags : List Diag) (acts : List Action)
    (range : Nat × Nat) :
    (actions fmt diags acts range).Pairwise fun a b => a.edits ≠ b.edits := by
  unfold actions
  refine (sortBy_perm _ _).symm.pairwise ?_ (fun h e => h e.symm)
  exact uniqueByFrom_pairwise _ _ _

/-- Everything offered is a relevant quickfix of a reported diagnostic or an action computed
for the range. -/
theorem C36_sound (fmt : Edit → Edit) (diags : List Diag) (acts : List Action)
    (range : Nat × Nat) (a : Action) (h : a ∈ actions fmt diags acts range) :
    (Relevant range a ∧ ∃ d ∈ diagnostics fmt diags, ∃ l, d.quickfixes = some l ∧ a ∈ l) ∨
    ∃ r ∈ acts, a = r.format fmt := by
  unfold actions at h
  rw [mem_sortBy] at h
  have := (uniqueByFrom_sublist _ _ _).subset h
  rcases List.mem_append.1 this with h | h
  · exact .inl ((mem_quickfixesFor _ _ _).1 h)
  · right
    unfold fileActions at h
    obtain ⟨r, hr, rfl⟩ := List.mem_map.1 h
    exact ⟨r, (uniqueByFrom_sublist _ _ _).subset hr, rfl⟩

/-- Every relevant quickfix of a reported diagnostic and every action computed for the range
is represented by an offered action with the same edits. -/
theorem C36_complete (fmt : Edit → Edit) (diags : List Diag) (acts : List Action)
    (range : Nat × Nat) :
    (∀ d ∈ diagnostics fmt diags, ∀ l, d.quickfixes = some l → ∀ q ∈ l, Relevant range q →
      ∃ a ∈ actions fmt diags acts range, a.edits = q.edits) ∧
    (∀ r ∈ acts, ∃ a ∈ actions fmt diags acts range, a.edits = r.edits.map fmt) := by
  constructor
  · intro d hd l hl q hq hr
    obtain ⟨a, ha, he⟩ := uniqueByFrom_complete (fun a : Action => a.edits) []
      (quickfixesFor (diagnostics fmt diags) range ++ fileActions fmt acts) q
      (List.mem_append_left _ ((mem_quickfixesFor _ _ _).2 ⟨hr, d, hd, l, hl, hq⟩)) (by simp)
    exact ⟨a, mem_sortBy.2 ha, he⟩
  · intro r hr
    obtain ⟨r', hr', he'⟩ := uniqueByFrom_complete (fun a : Action => a.edits) [] acts r hr
      (by simp)
    obtain ⟨a, ha, he⟩ := uniqueByFrom_complete (fun a : Action => a.edits) []
      (quickfixesFor (diagnostics fmt diags) range ++ fileActions fmt acts) (r'.format fmt)
      (List.mem_append_right _ (List.mem_map.2 ⟨r', hr', rfl⟩)) (by simp)
    refine ⟨a, mem_sortBy.2 ha, ?_⟩
    rw [he, ← he']
    rfl

/-- Actions come in the order migrate, quickfix, refactor, extract. -/
theorem C36_ordered (fmt : Edit → Edit) (diags : List Diag) (acts : List Action)
    (range : Nat × Nat) :
    (actions fmt diags acts range).map (·.kind) =
      ((actions fmt diags acts range).map (·.kind)).filter (· == .migrate) ++
      (((actions fmt diags acts range).map (·.kind)).filter (· == .quickFix) ++
      (((actions fmt diags acts range).map (·.kind)).filter (· == .refactor) ++
      ((actions fmt diags acts range).map (·.kind)).filter (· == .extract))) := by
  have hs : ((actions fmt diags acts range).map (·.kind)).Pairwise
      fun a b => a.order ≤ b.order := by
    rw [List.pairwise_map]
    exact sortBy_sorted _ _
  revert hs
  generalize (actions fmt diags acts range).map (·.kind) = l
  intro hs
  induction l with
  | nil => rfl
  | cons k l ih =>
    rw [List.pairwise_cons] at hs
    have ih := ih hs.2
    have hf : ∀ k', k'.order < k.order → l.filter (· == k') = [] := by
      intro k' hlt
      rw [List.filter_eq_nil_iff]
      intro x hx he
      have := hs.1 x hx
      have : x = k' := by simpa using he
      subst this
      omega
    cases k with
    | migrate =>
      simp only [List.filter_cons, beq_self_eq_true, if_true, List.cons_append]
      simpa using ih
    | quickFix =>
      have h1 := hf .migrate (by decide)
      simp only [h1, List.nil_append] at ih
      simpa [List.filter_cons, h1] using ih
    | refactor =>
      have h1 := hf .migrate (by decide)
      have h2 := hf .quickFix (by decide)
      simp only [h1, h2, List.nil_append] at ih
      simpa [List.filter_cons, h1, h2] using ih
    | extract =>
      have h1 := hf .migrate (by decide)
      have h2 := hf .quickFix (by decide)
      have h3 := hf .refactor (by decide)
      simp only [h1, h2, h3, List.nil_append] at ih
      simpa [List.filter_cons, h1, h2, h3] using ih

/-- Within a kind, actions keep the order in which they were computed: quickfixes (in the
order of their diagnostics) before the other actions. -/
theorem C36_stable (fmt : Edit → Edit) (diags : List Diag) (acts : List Action)
    (range : Nat × Nat) (k : ActionKind) :
    ((actions fmt diags acts range).filter (·.kind == k)).Sublist
      (quickfixesFor (diagnostics fmt diags) range ++ acts.map (Action.format fmt)) := by
  have hk : ∀ a : Action, (a.kind == k) = decide (a.kind.order = k.order) := by
    intro a
    cases a.kind <;> cases k <;> decide
  unfold actions
  simp only [hk]
  have := sortBy_stable (fun a : Action => a.kind.order) (uniqueBy (·.edits)
    (quickfixesFor (diagnostics fmt diags) range ++ fileActions fmt acts)) k.order
  have e : ∀ l : List Action, l.filter (fun a => decide (a.kind.order = k.order)) =
      l.filter (fun a => a.kind.order == k.order) := by
    intro l
    congr 1
  rw [e]
  rw [this]
  refine List.filter_sublist.trans ((uniqueByFrom_sublist _ _ _).trans ?_)
  apply List.Sublist.append_left
  unfold fileActions
  exact (uniqueByFrom_sublist _ _ _).map _

/-- Among actions with equal edits the first computed is offered, so that quickfixes take
priority. -/
theorem C36_priority (fmt : Edit → Edit) (diags : List Diag) (acts : List Action)
    (range : Nat × Nat) (pre post : List Action) (a : Action)
    (h : quickfixesFor (diagnostics fmt diags) range = pre ++ a :: post)
    (hn : ∀ x ∈ pre, x.edits ≠ a.edits) : a ∈ actions fmt diags acts range := by
  unfold actions
  rw [mem_sortBy, h, List.append_assoc, List.cons_append]
  unfold uniqueBy
  rw [mem_uniqueByFrom_split, if_neg]
  · simp
  · simp only [List.not_mem_nil, false_or, List.mem_map, not_exists, not_and]
    exact hn

example : (actions id
      [⟨"m", (3, 9), .error, some [⟨"q", .quickFix, (3, 9), [⟨['a'], 3, 3, none⟩]⟩]⟩]
      [⟨"r", .refactor, (0, 9), [⟨['a'], 3, 3, none⟩]⟩, ⟨"e", .extract, (0, 9), []⟩,
       ⟨"s", .refactor, (0, 9), [⟨['b'], 3, 3, none⟩]⟩] (4, 4)).map (·.label) =
    ["q", "s", "e"] := by decide

end Verif.Analyzer
