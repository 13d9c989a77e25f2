import Verif.Ir.Entities

/-!
# C62: the callables of a contract
-/

namespace Verif.Ir.Node

variable {α κ : Type}

/-! ## Specification -/

/-- The node at path `p` carries an ink! attribute of kind `k`. -/
def Carries (kind : α → AttrKind) (k : AttrKind) (n : Node α κ) (p : List Nat) : Prop :=
  ∃ i a, n.InkAt (p ++ [i]) a ∧ kind a = k

/-- No annotated node strictly between `q` and `p`. -/
def NoneBetween (n : Node α κ) (q p : List Nat) : Prop :=
  ∀ r, q <+: r → r ≠ q → r <+: p → r ≠ p → ¬ n.Annotated r

/-- The node at path `q` is an ink! impl, or an `impl` item with an ink! namespace or an
unknown ink! attribute. -/
def LooksLikeImpl (kind : α → AttrKind) (isImpl : κ → Bool) (n : Node α κ) (q : List Nat) : Prop :=
  n.Carries kind (.arg .impl) q ∨
    ((n.Carries kind (.arg .namespace) q ∨ n.Carries kind (.macro .unknown) q ∨
      n.Carries kind (.arg .unknown) q) ∧ ∃ k cs, n.at? q = some (.node k cs) ∧ isImpl k = true)

/-! ## Lemmas -/

theorem isClosest_concat (n : Node α κ) (p : List Nat) (i : Nat) (a : α) :
    n.IsClosest (p ++ [i]) a ↔ p ≠ [] ∧ n.InkAt (p ++ [i]) a ∧ n.NoneBetween [] p := by
  unfold IsClosest NoneBetween
  constructor
  · rintro ⟨h, o, k, he, ho, hq⟩
    obtain ⟨rfl, _⟩ := List.append_inj' he rfl
    exact ⟨ho, h, fun r _ h1 h2 h3 => hq r h1 h2 h3⟩
  · rintro ⟨hp, h, hq⟩
    exact ⟨h, p, i, rfl, hp, fun q h1 h2 h3 => hq q List.nil_prefix h1 h2 h3⟩

theorem closest_form (n : Node α κ) (p : List Nat) (a : α) (h : n.IsClosest p a) :
    ∃ o i, p = o ++ [i] := by
  obtain ⟨_, o, i, he, _⟩ := h
  exact ⟨o, i, he⟩

theorem mem_entities (kind : α → AttrKind) (k : AttrKind) (n : Node α κ) (p : List Nat) :
    p ∈ n.entities kind k ↔ p ≠ [] ∧ n.Carries kind k p ∧ n.NoneBetween [] p := by
  unfold entities Carries
  simp only [List.mem_map, List.mem_filter, beq_iff_eq, Prod.exists]
  constructor
  · rintro ⟨q, a, ⟨h, hk⟩, hq⟩
    rw [mem_closestIdx] at h
    obtain ⟨o, i, rfl⟩ := closest_form n q a h
    rw [List.dropLast_concat] at hq
    subst hq
    obtain ⟨h1, h2, h3⟩ := (isClosest_concat n o i a).1 h
    exact ⟨h1, ⟨i, a, h2, hk⟩, h3⟩
  · rintro ⟨h1, ⟨i, a, h2, hk⟩, h3⟩
    exact ⟨p ++ [i], a, ⟨(mem_closestIdx n _ a).2 ((isClosest_concat n p i a).2 ⟨h1, h2, h3⟩), hk⟩,
      List.dropLast_concat⟩

theorem annotated_append (n m : Node α κ) (q p : List Nat) (h : n.at? q = some m) :
    n.Annotated (q ++ p) ↔ m.Annotated p := by
  unfold Annotated
  simp only [List.append_assoc, at?_append, h, Option.bind_some]

theorem carries_append (kind : α → AttrKind) (k : AttrKind) (n m : Node α κ) (q p : List Nat)
    (h : n.at? q = some m) : n.Carries kind k (q ++ p) ↔ m.Carries kind k p := by
  unfold Carries InkAt
  simp only [List.append_assoc, at?_append, h, Option.bind_some]

theorem noneBetween_append (n m : Node α κ) (q p : List Nat) (h : n.at? q = some m) :
    n.NoneBetween q (q ++ p) ↔ m.NoneBetween [] p := by
  unfold NoneBetween
  constructor
  · intro hn r _ h1 h2 h3
    rw [← annotated_append n m q r h]
    refine hn _ (List.prefix_append _ _) ?_ ?_ ?_
    · intro he; exact h1 (by simpa using he)
    · exact (List.prefix_append_right_inj q).2 h2
    · intro he; exact h3 (List.append_cancel_left he)
  · rintro hn r ⟨r', rfl⟩ h1 h2 h3
    rw [annotated_append n m q r' h]
    refine hn r' List.nil_prefix ?_ ?_ ?_
    · rintro rfl; exact h1 (by simp)
    · exact (List.prefix_append_right_inj q).1 h2
    · rintro rfl; exact h3 rfl

theorem at?_prefix (n m : Node α κ) (q p : List Nat) (h : n.at? (q ++ p) = some m) :
    ∃ c, n.at? q = some c := by
  rw [at?_append] at h
  cases hq : n.at? q with
  | none => rw [hq] at h; simp at h
  | some c => exact ⟨c, rfl⟩

theorem carries_annotated (kind : α → AttrKind) (k : AttrKind) (n : Node α κ) (p : List Nat)
    (h : n.Carries kind k p) : n.Annotated p := by
  obtain ⟨i, a, ⟨cs, h⟩, _⟩ := h
  exact ⟨i, a, cs, h⟩

theorem implAt_iff (isImpl : κ → Bool) (n : Node α κ) (q : List Nat) :
    implAt isImpl n q = true ↔ ∃ k cs, n.at? q = some (.node k cs) ∧ isImpl k = true := by
  unfold implAt
  cases n.at? q with
  | none => simp
  | some c => cases c <;> simp

theorem isUnknown_iff (k : AttrKind) : k.isUnknown = true ↔ k = .macro .unknown ∨ k = .arg .unknown := by
  cases k with
  | «macro» m => cases m <;> simp [AttrKind.isUnknown]
  | arg a => cases a <;> simp [AttrKind.isUnknown]

theorem looksLikeImpl_iff (kind : α → AttrKind) (isImpl : κ → Bool) (n : Node α κ) (q : List Nat) :
    n.LooksLikeImpl kind isImpl q ↔
      ∃ i a, n.InkAt (q ++ [i]) a ∧ peekable kind isImpl n (q ++ [i]) a = true := by
  unfold LooksLikeImpl Carries peekable
  simp only [List.dropLast_concat, Bool.or_eq_true, Bool.and_eq_true, beq_iff_eq, isUnknown_iff,
    ← implAt_iff]
  constructor
  · rintro (⟨i, a, h, hk⟩ | ⟨⟨i, a, h, hk⟩ | ⟨i, a, h, hk⟩ | ⟨i, a, h, hk⟩, hi⟩)
    · exact ⟨i, a, h, .inl hk⟩
    · exact ⟨i, a, h, .inr ⟨.inl hk, hi⟩⟩
    · exact ⟨i, a, h, .inr ⟨.inr (.inl hk), hi⟩⟩
    · exact ⟨i, a, h, .inr ⟨.inr (.inr hk), hi⟩⟩
  · rintro ⟨i, a, h, hk | ⟨hk | hk | hk, hi⟩⟩
    · exact .inl ⟨i, a, h, hk⟩
    · exact .inr ⟨.inl ⟨i, a, h, hk⟩, hi⟩
    · exact .inr ⟨.inr (.inl ⟨i, a, h, hk⟩), hi⟩
    · exact .inr ⟨.inr (.inr ⟨i, a, h, hk⟩), hi⟩

theorem mem_uniqueBy_id {β : Type} [DecidableEq β] (l : List β) (x : β) :
    x ∈ Util.uniqueBy id l ↔ x ∈ l := by
  unfold Util.uniqueBy
  constructor
  · exact fun h => (Util.uniqueByFrom_sublist id [] l).subset h
  · intro h
    obtain ⟨y, hy, he⟩ := Util.uniqueByFrom_complete id [] l x h (by simp)
    have he' : y = x := he
    exact he' ▸ hy

/-! ## C62 -/

/-- The constructors (or messages) of a contract are exactly the nodes below it annotated as
such, with no annotated node in between or with exactly one, which looks like an impl. Each is
listed once. -/
theorem C62_callables (kind : α → AttrKind) (isImpl : κ → Bool) (k : AttrKind) (n : Node α κ)
    (hk : k = .arg .constructor ∨ k = .arg .message) :
    (n.callables kind isImpl k).Nodup ∧ ∀ p, p ∈ n.callables kind isImpl k ↔
      p ≠ [] ∧ n.Carries kind k p ∧ (n.NoneBetween [] p ∨
        ∃ q, q ≠ [] ∧ q <+: p ∧ q ≠ p ∧ n.LooksLikeImpl kind isImpl q ∧ n.NoneBetween [] q ∧
          n.NoneBetween q p) := by
  refine ⟨?_, fun p => ?_⟩
  · have := Util.uniqueByFrom_pairwise id [] ((closestIdx n).flatMap (callableStep kind isImpl k n))
    exact this
  unfold callables
  rw [mem_uniqueBy_id, List.mem_flatMap]
  constructor
  · rintro ⟨⟨e, a⟩, he, hp⟩
    rw [mem_closestIdx] at he
    obtain ⟨o, i, rfl⟩ := closest_form n e a he
    obtain ⟨h1, h2, h3⟩ := (isClosest_concat n o i a).1 he
    unfold callableStep at hp
    by_cases hka : kind a = k
    · rw [if_pos (by simpa using hka)] at hp
      simp only [List.dropLast_concat, List.mem_singleton] at hp
      subst hp
      exact ⟨h1, ⟨i, a, h2, hka⟩, .inl h3⟩
    · rw [if_neg (by simpa using hka)] at hp
      by_cases hpk : peekable kind isImpl n (o ++ [i]) a = true
      · rw [if_pos hpk] at hp
        simp only [List.dropLast_concat] at hp
        cases hm : n.at? o with
        | none => rw [hm] at hp; simp at hp
        | some m =>
          rw [hm] at hp
          simp only [List.mem_map] at hp
          obtain ⟨r, hr, rfl⟩ := hp
          obtain ⟨hr1, hr2, hr3⟩ := (mem_entities kind k m r).1 hr
          refine ⟨by simp [h1], (carries_append kind k n m o r hm).2 hr2, .inr ⟨o, h1,
            List.prefix_append _ _, ?_, ?_, h3, (noneBetween_append n m o r hm).2 hr3⟩⟩
          · intro he
            exact hr1 (by simpa using he.symm)
          · exact (looksLikeImpl_iff kind isImpl n o).2 ⟨i, a, h2, hpk⟩
      · rw [if_neg hpk] at hp
        simp at hp
  · rintro ⟨hne, hc, hd | ⟨q, hq, ⟨r, rfl⟩, hqp, himpl, h1, h2⟩⟩
    · obtain ⟨i, a, hi, ha⟩ := hc
      refine ⟨(p ++ [i], a), (mem_closestIdx n _ a).2 ((isClosest_concat n p i a).2 ⟨hne, hi, hd⟩),
        ?_⟩
      unfold callableStep
      rw [if_pos (by simpa using ha)]
      simp
    · obtain ⟨i, a, hi, ha⟩ := (looksLikeImpl_iff kind isImpl n q).1 himpl
      have hne' : kind a ≠ k := by
        intro he
        unfold peekable at ha
        rw [he] at ha
        rcases hk with rfl | rfl <;> simp [AttrKind.isUnknown] at ha
      refine ⟨(q ++ [i], a), (mem_closestIdx n _ a).2 ((isClosest_concat n q i a).2 ⟨hq, hi, h1⟩),
        ?_⟩
      unfold callableStep
      rw [if_neg (by simpa using hne'), if_pos ha]
      simp only [List.dropLast_concat]
      obtain ⟨cs, hcs⟩ := hi
      obtain ⟨m, hm⟩ := at?_prefix n _ q [i] hcs
      rw [hm]
      simp only [List.mem_map]
      refine ⟨r, (mem_entities kind k m r).2 ⟨?_, (carries_append kind k n m q r hm).1 hc,
        (noneBetween_append n m q r hm).1 h2⟩, rfl⟩
      rintro rfl
      simp at hqp

/-- An entity of any other kind is found iff no annotated node lies in between. -/
theorem C62_entities (kind : α → AttrKind) (k : AttrKind) (n : Node α κ) (p : List Nat) :
    p ∈ n.entities kind k ↔ p ≠ [] ∧ n.Carries kind k p ∧ n.NoneBetween [] p :=
  mem_entities kind k n p

/-- A contract for examples: a storage struct, a plain impl with a constructor, an impl with an
ink! namespace given in two attributes with a message, and a message nested too deep.
The node kind says whether it is an `impl`. -/
def sampleContract : Node AttrKind Bool :=
  .node false [
    .attr (some (.macro .contract)) [.tok 3],
    .node false [
      .node false [.attr (some (.arg .storage)) [.tok 3], .tok 2],
      .node true [.node false [.attr (some (.arg .constructor)) [.tok 3], .tok 2]],
      .node true [.attr (some (.arg .impl)) [.tok 3], .attr (some (.arg .namespace)) [.tok 3],
        .node false [.attr (some (.arg .message)) [.tok 3]],
        .node false [.attr (some (.arg .event)) [.tok 3],
          .node false [.attr (some (.arg .message)) [.tok 3]]]]]]

/-! Non-vacuity: the message under two ink! attributes of one impl is listed once, the one under
an event is not. -/

example : sampleContract.callables id id (.arg .message) = [[1, 2, 2]] ∧
    sampleContract.callables id id (.arg .constructor) = [[1, 1, 0]] ∧
    sampleContract.entities id (.arg .storage) = [[1, 0]] ∧
    sampleContract.Carries id (.arg .message) [1, 2, 3, 1] := by
  refine ⟨by decide, by decide, by decide, 0, _, ⟨_, rfl⟩, rfl⟩

end Verif.Ir.Node
