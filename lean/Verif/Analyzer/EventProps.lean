import Verif.Analyzer.Event
import Verif.Analyzer.MembersProps
import Verif.Migrate.ImportsProps

/-!
# C95: the rules for events and topics
-/

namespace Verif.Analyzer.Event

open Verif.Ir (AttrKind ArgKind MacroKind)
open Verif.Ir.Token (bytes bytes_append)
open Verif.Analyzer.Members (applyAll apply_at)

/-! ## Specification -/

/-- The part of the field `f`, with the text before the field, and before the part. -/
structure Found (e : Event) (f : Field) (p : Piece) (upToField upToPiece : List Char) : Prop where
  found : ∃ fs gs ps qs, e.fields = fs ++ f :: gs ∧ f.pieces = ps ++ p :: qs ∧
    upToField = e.head ++ renderFields fs ∧ upToPiece = upToField ++ renderPieces ps

/-- The range of the text `t` in a file after the text `u`, for an event at `off`. -/
def spanAfter (off : Nat) (u t : List Char) : Nat × Nat := (off + bytes u, off + bytes u + bytes t)

/-- The part has an ink! attribute of a kind. -/
def IsInk (p : Piece) (k : AttrKind) : Prop := ∃ path t, p = .attr path (some k) t

/-- The part is an attribute with the path `cfg`. -/
def IsCfg (p : Piece) : Prop := ∃ k t, p = .attr (some (chars! "cfg")) k t

/-- The event without its generic parameters. -/
def Event.withoutGenerics (e : Event) : Event := { e with generics := none }

/-- `e'` is `e` without one attribute of one field. -/
def OneAttrLess (e e' : Event) (p : Piece) : Prop :=
  ∃ fs gs ps qs after, e.fields = fs ++ ⟨ps ++ p :: qs, after⟩ :: gs ∧
    e' = { e with fields := fs ++ ⟨ps ++ qs, after⟩ :: gs }

/-- The part is at fault by a rule. -/
def AtFault (p : Piece) : Rule → Prop
  | .generics => False
  | .notTopic => ∃ k, IsInk p k ∧ k ≠ .arg .topic
  | .notField => IsInk p (.arg .topic)
  | .cfg => IsCfg p

/-- What ink! asks of an event as far as these rules go. -/
structure Proper (e : Event) : Prop where
  generics : e.generics = none
  topics : ∀ f ∈ e.fields, ∀ p ∈ f.pieces, ∀ k, IsInk p k → k = .arg .topic
  cfg : ∀ f ∈ e.fields, ∀ p ∈ f.pieces, ¬ IsCfg p

/-! ## Lemmas -/

theorem mem_placePieces (off : Nat) (l : List Piece) (p : Piece) (o : Nat) :
    (p, o) ∈ placePieces off l ↔ ∃ ps qs, l = ps ++ p :: qs ∧ o = off + bytes (renderPieces ps) := by
  induction l generalizing off with
  | nil => simp [placePieces]
  | cons x l ih =>
    simp only [placePieces, List.mem_cons, ih, Prod.mk.injEq]
    constructor
    · rintro (⟨rfl, rfl⟩ | ⟨ps, qs, rfl, rfl⟩)
      · exact ⟨[], l, rfl, rfl⟩
      · refine ⟨x :: ps, qs, rfl, ?_⟩
        simp [renderPieces, bytes_append]; omega
    · rintro ⟨ps, qs, h, rfl⟩
      cases ps with
      | nil => simp at h; exact Or.inl ⟨h.1.symm, rfl⟩
      | cons y ps =>
        simp at h
        refine Or.inr ⟨ps, qs, h.2, ?_⟩
        rw [h.1]; simp [renderPieces, bytes_append]; omega

theorem mem_placeFields (off : Nat) (l : List Field) (f : Field) (o : Nat) :
    (f, o) ∈ placeFields off l ↔ ∃ fs gs, l = fs ++ f :: gs ∧ o = off + bytes (renderFields fs) := by
  induction l generalizing off with
  | nil => simp [placeFields]
  | cons x l ih =>
    simp only [placeFields, List.mem_cons, ih, Prod.mk.injEq]
    constructor
    · rintro (⟨rfl, rfl⟩ | ⟨ps, qs, rfl, rfl⟩)
      · exact ⟨[], l, rfl, rfl⟩
      · refine ⟨x :: ps, qs, rfl, ?_⟩
        simp [renderFields, bytes_append]; omega
    · rintro ⟨ps, qs, h, rfl⟩
      cases ps with
      | nil => simp at h; exact Or.inl ⟨h.1.symm, rfl⟩
      | cons y ps =>
        simp at h
        refine Or.inr ⟨ps, qs, h.2, ?_⟩
        rw [h.1]; simp [renderFields, bytes_append]; omega

/-- The placed parts of an event. -/
theorem mem_placed (off : Nat) (e : Event) (test : Field → Nat → Piece × Nat → Option Report) (r : Report) :
    (r ∈ (placeFields (off + bytes e.head) e.fields).flatMap fun f =>
      (placePieces f.2 f.1.pieces).filterMap (test f.1 f.2)) ↔
    ∃ f p u v, Found e f p u v ∧ test f (off + bytes u) (p, off + bytes v) = some r := by
  simp only [List.mem_flatMap, List.mem_filterMap, Prod.exists, mem_placeFields, mem_placePieces]
  constructor
  · rintro ⟨f, o, ⟨fs, gs, hf, rfl⟩, p, o', ⟨ps, qs, hp, rfl⟩, ht⟩
    refine ⟨f, p, e.head ++ renderFields fs, e.head ++ renderFields fs ++ renderPieces ps,
      ⟨fs, gs, ps, qs, hf, hp, rfl, rfl⟩, ?_⟩
    simpa only [bytes_append, Nat.add_assoc] using ht
  · rintro ⟨f, p, u, v, ⟨fs, gs, ps, qs, hf, hp, rfl, rfl⟩, ht⟩
    refine ⟨f, _, ⟨fs, gs, hf, rfl⟩, p, _, ⟨ps, qs, hp, rfl⟩, ?_⟩
    simpa only [bytes_append, Nat.add_assoc] using ht

theorem notTopic_iff (p : Piece) (o : Nat) (r : Report) :
    notTopic (p, o) = some r ↔ ∃ k, IsInk p k ∧ k ≠ .arg .topic ∧
      r = ⟨.notTopic, (o, o + bytes p.text), (o, o + bytes p.text)⟩ := by
  cases p with
  | other t => simp [notTopic, IsInk]
  | attr path ink t =>
    cases ink with
    | none => simp [notTopic, IsInk]
    | some k =>
      simp only [notTopic, IsInk, Piece.attr.injEq, Option.some.injEq, Piece.text]
      by_cases hk : k = .arg .topic
      · subst hk
        simp
      · simp only [ne_eq, hk, not_false_eq_true, if_true, Option.some.injEq]
        constructor
        · rintro rfl; exact ⟨k, ⟨path, t, rfl, rfl, rfl⟩, hk, rfl⟩
        · rintro ⟨_, ⟨_, _, _, _, _⟩, _, h⟩; exact h.symm

theorem notField_iff (record : Bool) (fr : Nat × Nat) (p : Piece) (o : Nat) (r : Report) :
    notField record fr (p, o) = some r ↔ IsInk p (.arg .topic) ∧ record = false ∧
      r = ⟨.notField, fr, (o, o + bytes p.text)⟩ := by
  cases p with
  | other t => simp [notField, IsInk]
  | attr path ink t =>
    cases ink with
    | none => simp [notField, IsInk]
    | some k =>
      simp only [notField, IsInk, Piece.attr.injEq, Option.some.injEq, Piece.text]
      by_cases hk : k = .arg .topic
      · subst hk
        cases record
        · simp [eq_comm]
        · simp
      · simp [hk]

theorem cfgAttr_iff (p : Piece) (o : Nat) (r : Report) :
    cfgAttr (p, o) = some r ↔ IsCfg p ∧ r = ⟨.cfg, (o, o + bytes p.text), (o, o + bytes p.text)⟩ := by
  cases p with
  | other t => simp [cfgAttr, IsCfg]
  | attr path ink t =>
    cases path with
    | none => simp [cfgAttr, IsCfg]
    | some k =>
      simp only [cfgAttr, IsCfg, Piece.attr.injEq, Option.some.injEq, Piece.text]
      by_cases hk : k = chars! "cfg"
      · subst hk
        simp [eq_comm]
      · simp only [if_neg hk]
        simp [hk]

theorem mem_generics (off : Nat) (e : Event) (r : Report) :
    r ∈ genericsRule off e ↔ ∃ g, e.generics = some g ∧
      r = ⟨.generics, spanAfter off e.before g, spanAfter off e.before g⟩ := by
  unfold genericsRule
  cases e.generics with
  | none => simp
  | some g => simp [spanAfter]

theorem mem_notTopic (off : Nat) (e : Event) (r : Report) :
    r ∈ notTopicRule off e ↔ ∃ f p u v k, Found e f p u v ∧ IsInk p k ∧ k ≠ .arg .topic ∧
      r = ⟨.notTopic, spanAfter off v p.text, spanAfter off v p.text⟩ := by
  refine (mem_placed off e (fun _ _ => notTopic) r).trans ?_
  simp only [notTopic_iff]
  constructor
  · rintro ⟨f, p, u, v, h, k, hk⟩; exact ⟨f, p, u, v, k, h, hk⟩
  · rintro ⟨f, p, u, v, k, h, hk⟩; exact ⟨f, p, u, v, h, k, hk⟩

theorem mem_notField (off : Nat) (e : Event) (r : Report) :
    r ∈ notFieldRule off e ↔ ∃ f p u v, Found e f p u v ∧ IsInk p (.arg .topic) ∧ e.record = false ∧
      r = ⟨.notField, spanAfter off u (renderPieces f.pieces), spanAfter off v p.text⟩ := by
  refine (mem_placed off e (fun f o => notField e.record (o, o + bytes (renderPieces f.pieces))) r).trans ?_
  simp only [notField_iff]
  rfl

theorem mem_cfg (off : Nat) (e : Event) (r : Report) :
    r ∈ cfgRule off e ↔ ∃ f p u v, Found e f p u v ∧ e.record = true ∧ IsCfg p ∧
      r = ⟨.cfg, spanAfter off v p.text, spanAfter off v p.text⟩ := by
  unfold cfgRule
  cases h : e.record with
  | false => simp
  | true =>
    rw [if_pos rfl]
    refine (mem_placed off e (fun _ _ => cfgAttr) r).trans ?_
    simp only [cfgAttr_iff, true_and]
    rfl

theorem mem_reports (off : Nat) (e : Event) (r : Report) :
    r ∈ reports off e ↔ r ∈ genericsRule off e ∨ r ∈ notTopicRule off e ∨ r ∈ notFieldRule off e ∨
      r ∈ cfgRule off e := by
  simp [reports, List.mem_append, or_assoc]

/-- How many parts pass a test. -/
def hits (test : Piece → Bool) (fs : List Field) : Nat := (fs.flatMap Field.pieces).countP test

theorem length_placed (test : Piece → Bool) (out : Field → Nat → Piece × Nat → Option Report)
    (h : ∀ f o p o', (out f o (p, o')).isSome = test p) (off : Nat) (fs : List Field) :
    ((placeFields off fs).flatMap fun f => (placePieces f.2 f.1.pieces).filterMap (out f.1 f.2)).length =
      hits test fs := by
  have piece : ∀ (f : Field) (o : Nat) (l : List Piece) (q : Nat),
      ((placePieces q l).filterMap (out f o)).length = l.countP test := by
    intro f o l
    induction l with
    | nil => intro q; rfl
    | cons p l ih =>
      intro q
      have hp := h f o p q
      rw [placePieces, List.filterMap_cons, List.countP_cons]
      cases ho : out f o (p, q) with
      | none =>
        rw [ho] at hp
        simp [ih, ← hp]
      | some x =>
        rw [ho] at hp
        simp [ih, ← hp]
  induction fs generalizing off with
  | nil => rfl
  | cons f fs ih =>
    simp only [placeFields, List.flatMap_cons, List.length_append, piece, ih, hits, List.countP_append]

/-- The tests of the rules. -/
def topicTest : Piece → Bool
  | .attr _ (some k) _ => k ≠ .arg .topic
  | _ => false

def fieldTest (record : Bool) : Piece → Bool
  | .attr _ (some k) _ => k = .arg .topic && !record
  | _ => false

def cfgTest : Piece → Bool
  | .attr (some path) _ _ => path = chars! "cfg"
  | _ => false

theorem topicTest_some (p : Piece) (o : Nat) : (notTopic (p, o)).isSome = topicTest p := by
  rcases p with ⟨path, _ | k, t⟩ | t <;> try rfl
  simp only [notTopic, topicTest]
  split <;> simp_all

theorem fieldTest_some (record : Bool) (fr : Nat × Nat) (p : Piece) (o : Nat) :
    (notField record fr (p, o)).isSome = fieldTest record p := by
  rcases p with ⟨path, _ | k, t⟩ | t <;> try rfl
  simp only [notField, fieldTest]
  split <;> simp_all

theorem cfgTest_some (p : Piece) (o : Nat) : (cfgAttr (p, o)).isSome = cfgTest p := by
  rcases p with ⟨_ | path, k, t⟩ | t <;> try rfl
  simp only [cfgAttr, cfgTest]
  split <;> simp_all

theorem length_reports (off : Nat) (e : Event) : (reports off e).length =
    e.generics.toList.length + hits topicTest e.fields + hits (fieldTest e.record) e.fields +
      (if e.record then hits cfgTest e.fields else 0) := by
  unfold reports
  simp only [List.length_append]
  have h1 : (genericsRule off e).length = e.generics.toList.length := by
    unfold genericsRule; cases e.generics <;> rfl
  have h2 : (notTopicRule off e).length = hits topicTest e.fields :=
    length_placed topicTest (fun _ _ => notTopic) (fun _ _ p o => topicTest_some p o) _ _
  have h3 : (notFieldRule off e).length = hits (fieldTest e.record) e.fields :=
    length_placed (fieldTest e.record)
      (fun f o => notField e.record (o, o + bytes (renderPieces f.pieces)))
      (fun _ _ p o => fieldTest_some _ _ p o) _ _
  have h4 : (cfgRule off e).length = if e.record then hits cfgTest e.fields else 0 := by
    unfold cfgRule
    split
    · exact length_placed cfgTest (fun _ _ => cfgAttr) (fun _ _ p o => cfgTest_some p o) _ _
    · rfl
  rw [h1, h2, h3, h4]

theorem hits_less (test : Piece → Bool) (fs gs : List Field) (ps qs : List Piece) (p : Piece)
    (after : List Char) : hits test (fs ++ ⟨ps ++ p :: qs, after⟩ :: gs) =
      hits test (fs ++ ⟨ps ++ qs, after⟩ :: gs) + if test p then 1 else 0 := by
  simp [hits, List.countP_append, List.countP_cons]
  omega

theorem IsInk.topicTest {p : Piece} {k : AttrKind} (h : IsInk p k) (hk : k ≠ .arg .topic) :
    Event.topicTest p = true := by
  obtain ⟨path, t, rfl⟩ := h
  simp [Event.topicTest, hk]

theorem IsInk.fieldTest {p : Piece} (h : IsInk p (.arg .topic)) : Event.fieldTest false p = true := by
  obtain ⟨path, t, rfl⟩ := h
  rfl

theorem IsCfg.cfgTest {p : Piece} (h : IsCfg p) : Event.cfgTest p = true := by
  obtain ⟨path, t, rfl⟩ := h
  rfl

/-- Deleting the text of a part. -/
theorem delete_piece (P S : List Char) (e : Event) (f : Field) (p : Piece) (u v : List Char)
    (h : Found e f p u v) : ∃ e', OneAttrLess e e' p ∧
      applyAll (P ++ e.render ++ S) [Verif.Migrate.Imports.delete (spanAfter (bytes P) v p.text)] =
        some (P ++ e'.render ++ S) := by
  obtain ⟨fs, gs, ps, qs, hf, hp, rfl, rfl⟩ := h
  obtain ⟨pieces, after⟩ := f
  simp only at hp
  subst hp
  refine ⟨{ e with fields := fs ++ ⟨ps ++ qs, after⟩ :: gs }, ⟨fs, gs, ps, qs, after, hf, rfl⟩, ?_⟩
  have hr : e.render = (e.head ++ renderFields fs ++ renderPieces ps) ++ p.text ++
      (renderPieces qs ++ after ++ renderFields gs ++ e.after) := by
    unfold Event.render
    rw [hf]
    simp [renderFields, renderPieces, Field.render]
  rw [hr, Verif.Migrate.Imports.apply_delete P _ p.text _ S _ rfl rfl]
  simp [Event.render, Event.head, renderFields, renderPieces, Field.render]

/-! ## Theorems -/

/-- Generic parameters are reported where they stand, and nothing else is by that rule. -/
theorem C95_generics (off : Nat) (e : Event) (range : Nat × Nat) :
    (∃ fix, ⟨.generics, range, fix⟩ ∈ reports off e) ↔
      ∃ g, e.generics = some g ∧ range = spanAfter off e.before g := by
  simp only [mem_reports, mem_generics, mem_notTopic, mem_notField, mem_cfg, Report.mk.injEq]
  constructor
  · rintro ⟨fix, ⟨g, h⟩ | ⟨f, p, u, v, k, h⟩ | ⟨f, p, u, v, h⟩ | ⟨f, p, u, v, h⟩⟩
    · exact ⟨g, h.1, h.2.2.1⟩
    · simp at h
    · simp at h
    · simp at h
  · rintro ⟨g, h, rfl⟩
    exact ⟨_, Or.inl ⟨g, h, trivial, rfl, rfl⟩⟩

/-- The ink! attributes that are reported as out of place in an event are all those on its fields that
are not topics, each where it stands. -/
theorem C95_others (off : Nat) (e : Event) (range : Nat × Nat) :
    (∃ fix, ⟨.notTopic, range, fix⟩ ∈ reports off e) ↔
      ∃ f p u v k, Found e f p u v ∧ IsInk p k ∧ k ≠ .arg .topic ∧ range = spanAfter off v p.text := by
  simp only [mem_reports, mem_generics, mem_notTopic, mem_notField, mem_cfg, Report.mk.injEq]
  constructor
  · rintro ⟨fix, ⟨g, h⟩ | ⟨f, p, u, v, k, h⟩ | ⟨f, p, u, v, h⟩ | ⟨f, p, u, v, h⟩⟩
    · simp at h
    · exact ⟨f, p, u, v, k, h.1, h.2.1, h.2.2.1, h.2.2.2.2.1⟩
    · simp at h
    · simp at h
  · rintro ⟨f, p, u, v, k, h1, h2, h3, rfl⟩
    exact ⟨_, Or.inr (Or.inl ⟨f, p, u, v, k, h1, h2, h3, trivial, rfl, rfl⟩)⟩

/-- Topics of an event with fields in braces are not reported. Missing: fields in parentheses
(`C95_negation_topic`). -/
theorem C95_topics_partial (off : Nat) (e : Event) (h : e.record = true) (range fix : Nat × Nat) :
    ⟨.notField, range, fix⟩ ∉ reports off e := by
  simp only [mem_reports, mem_generics, mem_notTopic, mem_notField, mem_cfg, Report.mk.injEq]
  rintro (⟨g, h'⟩ | ⟨f, p, u, v, k, h'⟩ | ⟨f, p, u, v, h'⟩ | ⟨f, p, u, v, h'⟩) <;> simp [h] at h'

/-- The `cfg` attributes that are reported are all those on the fields, each where it stands. Missing:
fields in parentheses (`C95_negation_cfg`). -/
theorem C95_cfg_partial (off : Nat) (e : Event) (h : e.record = true) (range : Nat × Nat) :
    (∃ fix, ⟨.cfg, range, fix⟩ ∈ reports off e) ↔
      ∃ f p u v, Found e f p u v ∧ IsCfg p ∧ range = spanAfter off v p.text := by
  simp only [mem_reports, mem_generics, mem_notTopic, mem_notField, mem_cfg, Report.mk.injEq]
  constructor
  · rintro ⟨fix, ⟨g, h⟩ | ⟨f, p, u, v, k, h⟩ | ⟨f, p, u, v, h⟩ | ⟨f, p, u, v, h⟩⟩
    · simp at h
    · simp at h
    · simp at h
    · exact ⟨f, p, u, v, h.1, h.2.2.1, h.2.2.2.2.1⟩
  · rintro ⟨f, p, u, v, h1, h2, rfl⟩
    exact ⟨_, Or.inr (Or.inr (Or.inr ⟨f, p, u, v, h1, h, h2, trivial, rfl, rfl⟩))⟩

/-- The quickfix of every report removes the generic parameters or an attribute at fault and leaves every
other character as it is, and fewer reports remain. -/
theorem C95_fixed (P S : List Char) (e : Event) (r : Report) (hr : r ∈ reports (bytes P) e) :
    ∃ e', applyAll (P ++ e.render ++ S) [r.edit] = some (P ++ e'.render ++ S) ∧
      (r.rule = .generics ∧ e' = e.withoutGenerics ∨ ∃ p, AtFault p r.rule ∧ OneAttrLess e e' p) ∧
      (reports (bytes P) e').length < (reports (bytes P) e).length := by
  rw [mem_reports] at hr
  rcases hr with hr | hr | hr | hr
  · obtain ⟨g, hg, rfl⟩ := (mem_generics _ _ _).mp hr
    refine ⟨e.withoutGenerics, ?_, Or.inl ⟨rfl, rfl⟩, ?_⟩
    · have he : e.render = e.before ++ g ++ (e.middle ++ renderFields e.fields ++ e.after) := by
        simp [Event.render, Event.head, hg]
      unfold Report.edit
      rw [he, Verif.Migrate.Imports.apply_delete P e.before g _ S _ rfl rfl]
      simp [Event.render, Event.head, Event.withoutGenerics]
    · rw [length_reports, length_reports, hg]
      cases hrec : e.record <;> simp [Event.withoutGenerics, hrec] <;> omega
  · obtain ⟨f, p, u, v, k, h, hk, hk', rfl⟩ := (mem_notTopic _ _ _).mp hr
    obtain ⟨e', h', ha⟩ := delete_piece P S e f p u v h
    refine ⟨e', ha, Or.inr ⟨p, ⟨k, hk, hk'⟩, h'⟩, ?_⟩
    obtain ⟨fs, gs, ps, qs, after, hf, rfl⟩ := h'
    rw [length_reports, length_reports, hf]
    simp only [hits_less _ fs gs ps qs p, hk.topicTest hk', if_true]
    split <;> omega
  · obtain ⟨f, p, u, v, h, hk, hrec, rfl⟩ := (mem_notField _ _ _).mp hr
    obtain ⟨e', h', ha⟩ := delete_piece P S e f p u v h
    refine ⟨e', ha, Or.inr ⟨p, hk, h'⟩, ?_⟩
    obtain ⟨fs, gs, ps, qs, after, hf, rfl⟩ := h'
    rw [length_reports, length_reports, hf]
    simp only [hits_less _ fs gs ps qs p, hrec, hk.fieldTest, if_true, Bool.false_eq_true, if_false]
    omega
  · obtain ⟨f, p, u, v, h, hrec, hk, rfl⟩ := (mem_cfg _ _ _).mp hr
    obtain ⟨e', h', ha⟩ := delete_piece P S e f p u v h
    refine ⟨e', ha, Or.inr ⟨p, hk, h'⟩, ?_⟩
    obtain ⟨fs, gs, ps, qs, after, hf, rfl⟩ := h'
    rw [length_reports, length_reports, hf]
    simp only [hits_less _ fs gs ps qs p, hrec, hk.cfgTest, if_true]
    omega

theorem found_of_mem (e : Event) (f : Field) (p : Piece) (hf : f ∈ e.fields) (hp : p ∈ f.pieces) :
    ∃ u v, Found e f p u v := by
  obtain ⟨fs, gs, h1⟩ := List.append_of_mem hf
  obtain ⟨ps, qs, h2⟩ := List.append_of_mem hp
  exact ⟨_, _, fs, gs, ps, qs, h1, h2, rfl, rfl⟩

theorem Found.mem {e : Event} {f : Field} {p : Piece} {u v : List Char} (h : Found e f p u v) :
    f ∈ e.fields ∧ p ∈ f.pieces := by
  obtain ⟨fs, gs, ps, qs, h1, h2, _⟩ := h
  rw [h1, h2]
  simp

/-- An event with fields in braces is free of reports by these rules iff it is as ink! asks. Missing:
fields in parentheses (`C95_negation_topic`, `C95_negation_cfg`). -/
theorem C95_proper_partial (off : Nat) (e : Event) (h : e.record = true) :
    reports off e = [] ↔ Proper e := by
  constructor
  · intro h0
    refine ⟨?_, ?_, ?_⟩
    · cases hg : e.generics with
      | none => rfl
      | some g =>
        have := (C95_generics off e _).mpr ⟨g, hg, rfl⟩
        simp [h0] at this
    · intro f hf p hp k hk
      apply Classical.byContradiction
      intro hne
      obtain ⟨u, v, hfo⟩ := found_of_mem e f p hf hp
      have := (C95_others off e _).mpr ⟨f, p, u, v, k, hfo, hk, hne, rfl⟩
      simp [h0] at this
    · intro f hf p hp hc
      obtain ⟨u, v, hfo⟩ := found_of_mem e f p hf hp
      have := (C95_cfg_partial off e h _).mpr ⟨f, p, u, v, hfo, hc, rfl⟩
      simp [h0] at this
  · rintro ⟨hg, ht, hc⟩
    rw [List.eq_nil_iff_forall_not_mem]
    intro r hr
    rw [mem_reports] at hr
    rcases hr with hr | hr | hr | hr
    · obtain ⟨g, hg', _⟩ := (mem_generics _ _ _).mp hr
      rw [hg] at hg'; cases hg'
    · obtain ⟨f, p, u, v, k, h', hk, hk', _⟩ := (mem_notTopic _ _ _).mp hr
      exact hk' (ht f h'.mem.1 p h'.mem.2 k hk)
    · obtain ⟨f, p, u, v, h', hk, hrec, _⟩ := (mem_notField _ _ _).mp hr
      rw [h] at hrec; cases hrec
    · obtain ⟨f, p, u, v, h', hrec, hk, _⟩ := (mem_cfg _ _ _).mp hr
      exact hc f h'.mem.1 p h'.mem.2 hk

/-- `struct E<T> { #[ink(topic)] #[cfg(a)] x: T, #[ink(message)] y: u8 }`. -/
def eventExample : Event where
  before := chars! "struct E"
  generics := some (chars! "<T>")
  middle := chars! " { "
  record := true
  fields :=
    [⟨[.attr (some (chars! "ink")) (some (.arg .topic)) (chars! "#[ink(topic)]"), .other (chars! " "),
      .attr (some (chars! "cfg")) none (chars! "#[cfg(a)]"), .other (chars! " x: T")], chars! ", "⟩,
     ⟨[.attr (some (chars! "ink")) (some (.arg .message)) (chars! "#[ink(message)]"),
      .other (chars! " y: u8")], chars! " "⟩]
  after := chars! "}"

example : reports 10 eventExample =
    [⟨.generics, (18, 21), (18, 21)⟩, ⟨.notTopic, (54, 69), (54, 69)⟩, ⟨.cfg, (38, 47), (38, 47)⟩] := by
  decide

example : reports 0 { eventExample with
    generics := none
    fields := [⟨[.attr (some (chars! "ink")) (some (.arg .topic)) (chars! "#[ink(topic)]"),
      .other (chars! " x: u8")], []⟩] } = [] := by
  decide

/-- `struct E(#[ink(topic)] u8)`: the topic is a field of a struct, but is reported as being none. -/
theorem C95_negation_topic : ∃ (e : Event) (r : Report), Proper e ∧ r ∈ reports 0 e ∧
    r.rule = .notField := by
  let e : Event := ⟨chars! "struct E", none, chars! "(", false,
    [⟨[.attr (some (chars! "ink")) (some (.arg .topic)) (chars! "#[ink(topic)]"), .other (chars! " u8")],
      []⟩], chars! ")"⟩
  refine ⟨e, ⟨.notField, (9, 25), (9, 22)⟩, ⟨rfl, ?_, ?_⟩, by decide, rfl⟩
  · rintro f hf p hp k ⟨path, t, rfl⟩
    simp only [e, List.mem_singleton] at hf
    subst hf
    simp at hp
    exact hp.2.1
  · rintro f hf p hp ⟨k, t, rfl⟩
    simp only [e, List.mem_singleton] at hf
    subst hf
    revert hp
    simp

/-- `struct E(#[cfg(a)] u8)`: the `cfg` attribute of a field in parentheses is not reported. -/
theorem C95_negation_cfg : ∃ (e : Event), reports 0 e = [] ∧ ∃ f ∈ e.fields, ∃ p ∈ f.pieces, IsCfg p := by
  let p : Piece := .attr (some (chars! "cfg")) none (chars! "#[cfg(a)]")
  exact ⟨⟨chars! "struct E", none, chars! "(", false, [⟨[p, .other (chars! " u8")], []⟩], chars! ")"⟩,
    by decide, _, List.mem_singleton.mpr rfl, p, by simp, none, _, rfl⟩

end Verif.Analyzer.Event
