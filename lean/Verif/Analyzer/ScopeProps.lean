import Verif.Analyzer.Scope
import Verif.Ir.EntitiesProps

/-!
# C57, C58: quantities and scopes
-/

namespace Verif.Analyzer

open Verif.Ir

variable {α κ : Type}

/-! ## Specification -/

/-- No node carries two ink! attributes of kind `k`. -/
def Once (kind : α → AttrKind) (k : AttrKind) (n : Node α κ) : Prop :=
  ∀ p i j a b, n.InkAt (p ++ [i]) a → n.InkAt (p ++ [j]) b → kind a = k → kind b = k → i = j

/-- The node at `p` is an entity of kind `k` that belongs to the scope `n`. -/
def Belongs (kind : α → AttrKind) (k : AttrKind) (n : Node α κ) (p : List Nat) : Prop :=
  p ≠ [] ∧ n.Carries kind k p ∧ n.NoneBetween [] p

/-- The node at `p` is a callable of kind `k` of the contract `n` (see `C62_callables`). -/
def BelongsCallable (kind : α → AttrKind) (isImpl : κ → Bool) (k : AttrKind) (n : Node α κ)
    (p : List Nat) : Prop :=
  p ≠ [] ∧ n.Carries kind k p ∧ (n.NoneBetween [] p ∨
    ∃ q, q ≠ [] ∧ q <+: p ∧ q ≠ p ∧ n.LooksLikeImpl kind isImpl q ∧ n.NoneBetween [] q ∧
      n.NoneBetween q p)

/-! ## Lemmas -/

theorem atMostOne_eq {β : Type} (l : List β) : atMostOne l = l.tail := by
  unfold atMostOne
  match l with
  | [] => rfl
  | [a] => rfl
  | a :: b :: t => simp

/-- The attributes of an entity kind in scope order. -/
def located (kind : α → AttrKind) (k : AttrKind) (n : Node α κ) : List (List Nat × α) :=
  (Node.closestIdx n).filter fun e => kind e.2 == k

theorem located_sorted (kind : α → AttrKind) (k : AttrKind) (n : Node α κ) :
    (located kind k n).Pairwise fun a b => a.1 < b.1 := by
  have h := Node.closestIdx_sorted n
  rw [List.pairwise_map] at h
  exact h.filter _

theorem tail_sorted {β : Type} (f : β → List Nat) (l : List β)
    (h : l.Pairwise fun a b => f a < f b) (x : β) :
    x ∈ l.tail ↔ x ∈ l ∧ ∃ y ∈ l, f y < f x := by
  cases l with
  | nil => simp
  | cons y ys =>
    rw [List.pairwise_cons] at h
    simp only [List.tail_cons, List.mem_cons]
    constructor
    · intro hx
      exact ⟨.inr hx, y, .inl rfl, h.1 x hx⟩
    · rintro ⟨rfl | hx, z, rfl | hz, hlt⟩
      · exact absurd hlt (List.lt_irrefl _)
      · exact absurd (List.lt_trans hlt (h.1 z hz)) (List.lt_irrefl _)
      · exact hx
      · exact hx

theorem mem_located (kind : α → AttrKind) (k : AttrKind) (n : Node α κ) (p : List Nat) (a : α) :
    (p, a) ∈ located kind k n ↔ n.IsClosest p a ∧ kind a = k := by
  unfold located
  rw [List.mem_filter, Node.mem_closestIdx]
  simp

theorem unique_iff {β γ : Type} (f : β → γ) (l : List β) (hinj : ∀ x ∈ l, ∀ y ∈ l, f x = f y → x = y)
    (hnd : l.Nodup) :
    (∃ x, l = [x]) ↔ ∃ c, (∃ x ∈ l, f x = c) ∧ ∀ d, (∃ x ∈ l, f x = d) → d = c := by
  constructor
  · rintro ⟨x, rfl⟩
    exact ⟨f x, ⟨x, by simp, rfl⟩, by rintro d ⟨y, hy, rfl⟩; simp at hy; rw [hy]⟩
  · rintro ⟨c, ⟨x, hx, rfl⟩, h⟩
    have hall : ∀ y ∈ l, y = x := fun y hy => hinj y hy x hx (h _ ⟨y, hy, rfl⟩)
    match l, hnd with
    | [], _ => simp at hx
    | [a], _ => exact ⟨a, rfl⟩
    | a :: b :: t, hnd =>
      have h1 := hall a (by simp)
      have h2 := hall b (by simp)
      rw [List.nodup_cons] at hnd
      exact absurd (by simp [h1, h2]) hnd.1

/-! ## C57 -/

/-- A missing storage is reported iff the contract has none. -/
theorem C57_missing (kind : α → AttrKind) (n : Node α κ) :
    .missingStorage ∈ storageQuantity kind n ↔ ¬ ∃ p, Belongs kind (.arg .storage) n p := by
  unfold storageQuantity
  have key : (n.entities kind (.arg .storage)).isEmpty = false ↔
      ∃ p, Belongs kind (.arg .storage) n p := by
    rw [List.isEmpty_eq_false_iff_exists_mem]
    exact exists_congr fun p => Node.mem_entities kind _ n p
  rw [← key]
  cases (n.entities kind (.arg .storage)).isEmpty <;> simp

/-- A storage is reported as extra iff it is given by an attribute with an earlier storage
attribute in the contract. -/
theorem C57_extra (kind : α → AttrKind) (n : Node α κ) (p : List Nat) :
    .extraStorage p ∈ storageQuantity kind n ↔
      ∃ i a, n.IsClosest (p ++ [i]) a ∧ kind a = .arg .storage ∧
        ∃ q b, q < p ++ [i] ∧ n.IsClosest q b ∧ kind b = .arg .storage := by
  have key : .extraStorage p ∈ storageQuantity kind n ↔
      p ∈ (n.entities kind (.arg .storage)).tail := by
    unfold storageQuantity
    rw [atMostOne_eq]
    cases n.entities kind (.arg .storage) <;> simp
  rw [key]
  unfold Node.entities
  rw [← List.map_tail, List.mem_map]
  have ht := tail_sorted (fun e : List Nat × α => e.1) _ (located_sorted kind (.arg .storage) n)
  constructor
  · rintro ⟨⟨q, a⟩, hq, rfl⟩
    obtain ⟨h1, ⟨r, b⟩, h2, hlt⟩ := (ht _).1 hq
    rw [mem_located] at h1 h2
    obtain ⟨o, i, rfl⟩ := Node.closest_form n q a h1.1
    rw [List.dropLast_concat]
    exact ⟨i, a, h1.1, h1.2, r, b, hlt, h2.1, h2.2⟩
  · rintro ⟨i, a, h1, h2, r, b, hlt, h3, h4⟩
    exact ⟨(p ++ [i], a), (ht _).2 ⟨(mem_located _ _ _ _ _).2 ⟨h1, h2⟩, (r, b),
      (mem_located _ _ _ _ _).2 ⟨h3, h4⟩, hlt⟩, List.dropLast_concat⟩

/-- The number of extra storage reports. -/
theorem C57_extra_count (kind : α → AttrKind) (n : Node α κ)
    (h : ∃ p, Belongs kind (.arg .storage) n p) :
    (storageQuantity kind n).length + 1 = (n.entities kind (.arg .storage)).length := by
  obtain ⟨p, hp⟩ := h
  have hm := (Node.mem_entities kind (.arg .storage) n p).2 hp
  unfold storageQuantity
  rw [atMostOne_eq]
  cases he : n.entities kind (.arg .storage) with
  | nil => rw [he] at hm; simp at hm
  | cons a t => simp

/-- Nothing is reported about storage iff the contract has exactly one storage, when no item is
annotated as storage twice.

Missing for the full claim: one struct with two storage attributes is reported (`C57_negation`). -/
theorem C57_storage_partial (kind : α → AttrKind) (n : Node α κ)
    (hone : Once kind (.arg .storage) n) :
    storageQuantity kind n = [] ↔
      ∃ p, Belongs kind (.arg .storage) n p ∧ ∀ q, Belongs kind (.arg .storage) n q → q = p := by
  have hb : ∀ p, Belongs kind (.arg .storage) n p ↔
      ∃ e ∈ located kind (.arg .storage) n, e.1.dropLast = p := by
    intro p
    refine (Node.mem_entities kind (.arg .storage) n p).symm.trans ?_
    unfold Node.entities
    rw [List.mem_map]
    rfl
  have hinj : ∀ x ∈ located kind (.arg .storage) n, ∀ y ∈ located kind (.arg .storage) n,
      x.1.dropLast = y.1.dropLast → x = y := by
    rintro ⟨p, a⟩ hx ⟨q, b⟩ hy he
    rw [mem_located] at hx hy
    obtain ⟨o, i, rfl⟩ := Node.closest_form n p a hx.1
    obtain ⟨o', j, rfl⟩ := Node.closest_form n q b hy.1
    simp only [List.dropLast_concat] at he
    subst he
    have hij := hone o i j a b hx.1.1 hy.1.1 hx.2 hy.2
    subst hij
    obtain ⟨cs, h1⟩ := hx.1.1
    obtain ⟨cs', h2⟩ := hy.1.1
    rw [h1] at h2
    cases h2
    rfl
  have hnd : (located kind (.arg .storage) n).Nodup := by
    refine (located_sorted kind (.arg .storage) n).imp ?_
    rintro a b h rfl
    exact List.lt_irrefl _ h
  have := unique_iff (fun e : List Nat × α => e.1.dropLast) _ hinj hnd
  simp only [hb]
  rw [← this]
  unfold storageQuantity
  rw [atMostOne_eq]
  have hent : n.entities kind (.arg .storage) =
      (located kind (.arg .storage) n).map fun e => e.1.dropLast := rfl
  rw [hent]
  match located kind (.arg .storage) n with
  | [] => simp
  | [a] => simp
  | a :: b :: t => simp

/-- A missing constructor is reported iff the contract has none. -/
theorem C57_constructor (kind : α → AttrKind) (isImpl : κ → Bool) (n : Node α κ) :
    constructorQuantity kind isImpl n = [] ↔
      ∃ p, BelongsCallable kind isImpl (.arg .constructor) n p := by
  have hc := (Node.C62_callables kind isImpl (.arg .constructor) n (.inl rfl)).2
  unfold constructorQuantity BelongsCallable
  simp only [← hc]
  rw [← List.isEmpty_eq_false_iff_exists_mem]
  cases (n.callables kind isImpl (.arg .constructor)).isEmpty <;> simp

/-- A missing message is reported iff the contract has none. -/
theorem C57_message (kind : α → AttrKind) (isImpl : κ → Bool) (n : Node α κ) :
    messageQuantity kind isImpl n = [] ↔
      ∃ p, BelongsCallable kind isImpl (.arg .message) n p := by
  have hc := (Node.C62_callables kind isImpl (.arg .message) n (.inr rfl)).2
  unfold messageQuantity BelongsCallable
  simp only [← hc]
  rw [← List.isEmpty_eq_false_iff_exists_mem]
  cases (n.callables kind isImpl (.arg .message)).isEmpty <;> simp

/-- A contract is free of quantity reports iff it has exactly one storage, a constructor and a
message, when no item is annotated as storage twice (see `C57_storage_partial`). -/
theorem C57_contract_partial (kind : α → AttrKind) (isImpl : κ → Bool) (n : Node α κ)
    (hone : Once kind (.arg .storage) n) :
    contractQuantity kind isImpl n = [] ↔
      (∃ p, Belongs kind (.arg .storage) n p ∧ ∀ q, Belongs kind (.arg .storage) n q → q = p) ∧
      (∃ p, BelongsCallable kind isImpl (.arg .constructor) n p) ∧
      ∃ p, BelongsCallable kind isImpl (.arg .message) n p := by
  unfold contractQuantity
  rw [List.append_eq_nil_iff, List.append_eq_nil_iff, C57_storage_partial kind n hone,
    C57_constructor, C57_message, and_assoc]

/-- A contract in a file is reported as extra iff it is given by an attribute with an earlier
contract attribute in the file. -/
theorem C57_contracts (kind : α → AttrKind) (n : Node α κ) (p : List Nat) :
    .extraContract p ∈ fileQuantity kind n ↔
      ∃ i a, n.IsClosest (p ++ [i]) a ∧ kind a = .macro .contract ∧
        ∃ q b, q < p ++ [i] ∧ n.IsClosest q b ∧ kind b = .macro .contract := by
  have key : .extraContract p ∈ fileQuantity kind n ↔
      p ∈ (n.entities kind (.macro .contract)).tail := by
    unfold fileQuantity
    rw [atMostOne_eq, List.mem_map]
    simp
  rw [key]
  unfold Node.entities
  rw [← List.map_tail, List.mem_map]
  have ht := tail_sorted (fun e : List Nat × α => e.1) _ (located_sorted kind (.macro .contract) n)
  constructor
  · rintro ⟨⟨q, a⟩, hq, rfl⟩
    obtain ⟨h1, ⟨r, b⟩, h2, hlt⟩ := (ht _).1 hq
    rw [mem_located] at h1 h2
    obtain ⟨o, i, rfl⟩ := Node.closest_form n q a h1.1
    rw [List.dropLast_concat]
    exact ⟨i, a, h1.1, h1.2, r, b, hlt, h2.1, h2.2⟩
  · rintro ⟨i, a, h1, h2, r, b, hlt, h3, h4⟩
    exact ⟨(p ++ [i], a), (ht _).2 ⟨(mem_located _ _ _ _ _).2 ⟨h1, h2⟩, (r, b),
      (mem_located _ _ _ _ _).2 ⟨h3, h4⟩, hlt⟩, List.dropLast_concat⟩

/-- A contract whose only storage struct is annotated twice, for `C57_negation`. -/
def doubleStorage : Node AttrKind Bool :=
  .node false [
    .attr (some (.macro .contract)) [.tok 3],
    .node false [
      .node false [.attr (some (.arg .storage)) [.tok 3], .attr (some (.arg .storage)) [.tok 3],
        .tok 2]]]

/-- The full claim fails: a contract with exactly one storage struct, annotated twice, is reported
to have an extra storage: that very struct. -/
theorem C57_negation :
    (∃ p, Belongs id (.arg .storage) doubleStorage p ∧
      ∀ q, Belongs id (.arg .storage) doubleStorage q → q = p) ∧
    storageQuantity id doubleStorage = [.extraStorage [1, 0]] := by
  refine ⟨⟨[1, 0], (Node.mem_entities _ _ _ _).1 (by decide), fun q hq => ?_⟩, by decide⟩
  have := (Node.mem_entities _ _ _ _).2 hq
  have he : doubleStorage.entities id (.arg .storage) = [[1, 0], [1, 0]] := by decide
  rw [he] at this
  simpa using this

/-! Non-vacuity. -/

example : contractQuantity id id Node.sampleContract = [] ∧
    contractQuantity id id (.node false [] : Node AttrKind Bool) =
      [.missingStorage, .missingConstructor, .missingMessage] := by decide

/-! ## C58 -/

/-- `k` is in the lists of kinds allowed in the scope. -/
def Allowed (scope : AttrKind) (v : Version) : AttrKind → Prop
  | .macro m => m ∈ validDescendantMacros scope v
  | .arg a => a ∈ validDescendantArgs scope v

/-- The attribute at path `o ++ [i]` comes first in its item: no other attribute of the item has
a higher rank (macros before arguments, then by priority), and none before it the same rank. -/
def Leads (kind : α → AttrKind) (n : Node α κ) (o : List Nat) (i : Nat) (a : α) : Prop :=
  ∀ j b, n.InkAt (o ++ [j]) b →
    (kind a).rank ≤ (kind b).rank ∧ (j < i → (kind a).rank < (kind b).rank)

theorem mem_allowedKinds (scope : AttrKind) (v : Version) (k : AttrKind) :
    k ∈ allowedKinds scope v ↔ Allowed scope v k := by
  unfold allowedKinds Allowed
  cases k <;> simp

theorem mem_attrsAt (n : Node α κ) (o p : List Nat) (a : α) :
    (p, a) ∈ attrsAt n o ↔ ∃ i, p = o ++ [i] ∧ n.InkAt p a := by
  unfold attrsAt
  cases h : n.at? o with
  | none =>
    simp only [List.not_mem_nil, false_iff]
    rintro ⟨i, rfl, cs, hi⟩
    obtain ⟨c, hc⟩ := Node.at?_prefix n _ o [i] hi
    rw [h] at hc
    cases hc
  | some c =>
    simp only [List.mem_map, Prod.exists, Prod.mk.injEq]
    constructor
    · rintro ⟨q, b, hq, rfl, rfl⟩
      obtain ⟨j, sub, rfl, hj⟩ := (Node.mem_inkIdx _ _ _ _).1 hq
      refine ⟨0 + j, rfl, sub, ?_⟩
      rw [Node.at?_append, h]
      simp [hj, Node.at?]
    · rintro ⟨i, rfl, cs, hi⟩
      refine ⟨[i], a, (Node.mem_inkIdx _ _ _ _).2 ⟨i, cs, by simp, ?_⟩, rfl, rfl⟩
      rw [Node.at?_append, h] at hi
      simp only [Option.bind_some, Node.at?_cons] at hi
      obtain ⟨d, hd, he⟩ := Option.bind_eq_some_iff.1 hi
      simp only [Node.at?, Option.some.injEq] at he
      rw [hd, he]

theorem attrsAt_sorted (n : Node α κ) (o : List Nat) :
    (attrsAt n o).Pairwise fun a b => a.1 < b.1 := by
  unfold attrsAt
  cases n.at? o with
  | none => exact .nil
  | some c =>
    rw [List.pairwise_map]
    have h := Node.inkIdx_sorted c.children 0
    rw [List.pairwise_map] at h
    refine h.imp ?_
    intro a b hab
    exact List.append_left_lt hab

theorem concat_lt (o : List Nat) (i j : Nat) : o ++ [j] < o ++ [i] ↔ j < i := by
  induction o with
  | nil =>
    constructor
    · intro h
      cases h with
      | rel h => exact h
      | cons h => cases h
    · exact fun h => List.Lex.rel h
  | cons x o ih => simpa using ih

theorem inkAt_unique (n : Node α κ) (p : List Nat) (a b : α) (h : n.InkAt p a) (h' : n.InkAt p b) :
    a = b := by
  obtain ⟨cs, h⟩ := h
  obtain ⟨cs', h'⟩ := h'
  rw [h] at h'
  cases h'
  rfl

theorem isPrimary_iff (kind : α → AttrKind) (n : Node α κ) (o : List Nat) (i : Nat) (a : α)
    (h : n.InkAt (o ++ [i]) a) :
    isPrimary kind n (o ++ [i]) = true ↔ Leads kind n o i a := by
  unfold isPrimary Leads
  rw [List.dropLast_concat]
  have hmem : (o ++ [i], a) ∈ attrsAt n o := (mem_attrsAt n o _ a).2 ⟨i, rfl, h⟩
  have hsorted := attrsAt_sorted n o
  cases hh : (Util.sortBy (fun e : List Nat × α => (kind e.2).rank) (attrsAt n o)).head? with
  | none =>
    rw [List.head?_eq_none_iff] at hh
    have := Util.mem_sortBy (key := fun e : List Nat × α => (kind e.2).rank).2 hmem
    rw [hh] at this
    simp at this
  | some e =>
    obtain ⟨A, B, hL, hA, hB⟩ := Util.sortBy_head _ _ _ hh
    rw [hL] at hmem hsorted
    rw [List.pairwise_append] at hsorted
    obtain ⟨_, hs2, hs3⟩ := hsorted
    rw [List.pairwise_cons] at hs2
    have he : e ∈ attrsAt n o := by rw [hL]; simp
    obtain ⟨ep, ea⟩ := e
    obtain ⟨j0, hj0, hink⟩ := (mem_attrsAt n o ep ea).1 he
    simp only [Option.any_some, beq_iff_eq]
    constructor
    · rintro rfl
      have := inkAt_unique n _ _ _ h hink
      subst this
      intro j b hb
      have hbm : (o ++ [j], b) ∈ attrsAt n o := (mem_attrsAt n o _ b).2 ⟨j, rfl, hb⟩
      rw [hL] at hbm
      rcases List.mem_append.1 hbm with hbm | hbm
      · exact ⟨Nat.le_of_lt (hA _ hbm), fun _ => hA _ hbm⟩
      rcases List.mem_cons.1 hbm with heq | hbm
      · simp only [Prod.mk.injEq, List.append_cancel_left_eq, List.cons.injEq, and_true] at heq
        rw [heq.2]
        exact ⟨Nat.le_refl _, fun hlt => by omega⟩
      · refine ⟨hB _ hbm, fun hlt => ?_⟩
        have := (concat_lt o j i).1 (hs2.1 _ hbm)
        omega
    · intro hl
      subst hj0
      rcases List.mem_append.1 hmem with hm | hm
      · have h1 := hA _ hm
        have h2 := (hl j0 ea hink).1
        simp only at h1
        omega
      rcases List.mem_cons.1 hm with heq | hm
      · simp only [Prod.mk.injEq] at heq
        exact heq.1.symm
      · have h1 := hB _ hm
        have h2 := (hl j0 ea hink).2 ((concat_lt o i j0).1 (hs2.1 _ hm))
        simp only at h1
        omega

/-- In a scope that allows something besides `scale_derive`: the leading attribute of each item
that belongs to the scope is reported iff its kind is known and not allowed there (an `extension`
in an ink! 5 chain extension excepted, it is reported as deprecated elsewhere).

Missing for the full claim: attributes that do not lead their item are not reported here, nor is
the excepted one (`C58_negation`). -/
theorem C58_reported_partial (kind : α → AttrKind) (scope : AttrKind) (v : Version) (n : Node α κ)
    (hs : ∃ k, k ≠ .macro .scaleDerive ∧ Allowed scope v k) :
    ∃ found : List (List Nat × α), scopeCheck kind scope v n = found.map (·.2) ∧
      ∀ o i a, (o ++ [i], a) ∈ found ↔
        (o ≠ [] ∧ n.InkAt (o ++ [i]) a ∧ n.NoneBetween [] o) ∧ Leads kind n o i a ∧
        (kind a).isUnknown = false ∧ ¬ Allowed scope v (kind a) ∧
        ¬ (v = .v5 ∧ scope = .macro .chainExtension ∧ kind a = .arg .extension) := by
  obtain ⟨k, hk, hal⟩ := hs
  rw [← mem_allowedKinds] at hal
  refine ⟨invalidDescendants kind (validDescendant scope v) n, ?_, fun o i a => ?_⟩
  · unfold scopeCheck
    rw [if_neg]
    have h1 : (allowedKinds scope v).isEmpty = false := by
      cases h : allowedKinds scope v with
      | nil => rw [h] at hal; simp at hal
      | cons _ _ => rfl
    have h2 : ((allowedKinds scope v).any fun k => k != .macro .scaleDerive) = true :=
      List.any_eq_true.2 ⟨k, hal, by simpa using hk⟩
    simp [h1, h2]
  · unfold invalidDescendants
    rw [List.mem_filter, Node.mem_closestIdx, Node.isClosest_concat]
    constructor
    · rintro ⟨h1, h2⟩
      simp only [Bool.and_eq_true, Bool.not_eq_true'] at h2
      rw [isPrimary_iff kind n o i a h1.2.1] at h2
      refine ⟨h1, h2.2.1, h2.1, ?_, ?_⟩
      · intro hA
        rw [← mem_allowedKinds] at hA
        have := h2.2.2
        unfold validDescendant at this
        simp [hA] at this
      · rintro ⟨rfl, rfl, hx⟩
        have := h2.2.2
        unfold validDescendant at this
        simp [hx] at this
    · rintro ⟨h1, h2, h3, h4, h5⟩
      refine ⟨h1, ?_⟩
      simp only [Bool.and_eq_true, Bool.not_eq_true']
      refine ⟨h3, (isPrimary_iff kind n o i a h1.2.1).2 h2, ?_⟩
      unfold validDescendant
      rw [← mem_allowedKinds] at h4
      cases v <;> simp_all

/-- In a scope that allows nothing, or only `scale_derive`: an ink! attribute is reported iff it
lies anywhere below the item, its kind is known and not allowed. -/
theorem C58_closed (kind : α → AttrKind) (scope : AttrKind) (v : Version) (n : Node α κ)
    (hs : ∀ k, Allowed scope v k → k = .macro .scaleDerive) (a : α) :
    a ∈ scopeCheck kind scope v n ↔
      (∃ i c p, n.children[i]? = some c ∧ (∀ x cs, c ≠ .attr x cs) ∧ n.InkAt (i :: p) a) ∧
      (kind a).isUnknown = false ∧ ¬ Allowed scope v (kind a) := by
  have hall : ((allowedKinds scope v).any fun k => k != .macro .scaleDerive) = false := by
    rw [List.any_eq_false]
    intro k hk
    rw [hs k ((mem_allowedKinds scope v k).1 hk)]
    simp
  unfold scopeCheck anyDescendants
  rw [if_pos (by simp [hall]), List.mem_filter, Node.C23_descendants]
  refine and_congr_right fun _ => ?_
  simp only [Bool.and_eq_true, Bool.not_eq_true', Bool.or_eq_true, bne_iff_ne, ne_eq,
    Bool.not_eq_false']
  refine and_congr_right fun _ => ?_
  rw [← mem_allowedKinds]
  constructor
  · rintro (h | h) hm
    · rw [List.isEmpty_iff] at h
      rw [h] at hm
      simp at hm
    · exact h (hs _ ((mem_allowedKinds _ _ _).1 hm))
  · intro hm
    by_cases he : (allowedKinds scope v).isEmpty = true
    · exact .inl he
    · refine .inr fun hk => hm ?_
      rw [hk]
      cases hl : allowedKinds scope v with
      | nil => rw [hl] at he; simp at he
      | cons x xs =>
        have := hs x ((mem_allowedKinds _ _ _).1 (by rw [hl]; simp))
        rw [this]
        simp

/-- The file level: the leading attribute of each item outside all ink! items is reported iff it is
known and is not an ink! macro (in ink! 4: one of the six that exist there). -/
theorem C58_file (kind : α → AttrKind) (v : Version) (n : Node α κ) (o : List Nat) (i : Nat) (a : α) :
    (o ++ [i], a) ∈ fileScopeCheck kind v n ↔
      (o ≠ [] ∧ n.InkAt (o ++ [i]) a ∧ n.NoneBetween [] o) ∧ Leads kind n o i a ∧
      (kind a).isUnknown = false ∧
      ((∃ k, kind a = .arg k) ∨
        (v = .v4 ∧ (kind a = .macro .event ∨ kind a = .macro .scaleDerive))) := by
  unfold fileScopeCheck invalidDescendants
  rw [List.mem_filter, Node.mem_closestIdx, Node.isClosest_concat]
  refine and_congr_right fun h1 => ?_
  simp only [Bool.and_eq_true, Bool.not_eq_true']
  rw [isPrimary_iff kind n o i a h1.2.1]
  have hv : (kind a).isUnknown = false → (validInFile v (kind a) = false ↔
      (∃ k, kind a = .arg k) ∨
        (v = .v4 ∧ (kind a = .macro .event ∨ kind a = .macro .scaleDerive))) := by
    intro hu
    cases hk : kind a with
    | arg k => cases v <;> simp [validInFile]
    | «macro» m =>
      rw [hk] at hu
      cases m <;> cases v <;> simp_all [validInFile, AttrKind.isUnknown]
  constructor
  · rintro ⟨h2, h3, h4⟩
    exact ⟨h3, h2, (hv h2).1 h4⟩
  · rintro ⟨h3, h2, h4⟩
    exact ⟨h2, h3, (hv h2).2 h4⟩

/-- A trait definition with a method annotated `#[ink(message)]` and `#[ink(storage)]`, and a chain
extension with a function annotated `extension`. -/
def twoKinds : Node AttrKind Unit :=
  .node () [.node () [.attr (some (.arg .message)) [.tok 1], .attr (some (.arg .storage)) [.tok 1]]]

/-- See `C58_negation`. -/
def oldExtension : Node AttrKind Unit :=
  .node () [.node () [.attr (some (.arg .extension)) [.tok 1]]]

/-- See `C58_negation`. -/
def hiddenTopic : Node AttrKind Unit :=
  .node () [.node () [.attr (some (.macro .unknown)) [.tok 1], .attr (some (.arg .topic)) [.tok 1]]]

/-- The full claim fails: kinds not allowed in the scope are not reported when another attribute
leads the item (even an unknown one), nor is `extension` in an ink! 5 chain extension. -/
theorem C58_negation :
    (Node.IsClosest twoKinds [0, 1] (.arg .storage) ∧
      ¬ Allowed (.macro .traitDefinition) .v4 (.arg .storage) ∧
      scopeCheck id (.macro .traitDefinition) .v4 twoKinds = []) ∧
    (Node.IsClosest hiddenTopic [0, 1] (.arg .topic) ∧
      ¬ Allowed (.macro .traitDefinition) .v4 (.arg .topic) ∧
      scopeCheck id (.macro .traitDefinition) .v4 hiddenTopic = []) ∧
    (Node.IsClosest oldExtension [0, 0] (.arg .extension) ∧
      ¬ Allowed (.macro .chainExtension) .v5 (.arg .extension) ∧
      scopeCheck id (.macro .chainExtension) .v5 oldExtension = []) := by
  refine ⟨⟨?_, ?_, by decide⟩, ⟨?_, ?_, by decide⟩, ?_, ?_, by decide⟩
  · rw [← Node.mem_closestIdx]; decide
  · rw [← mem_allowedKinds]; decide
  · rw [← Node.mem_closestIdx]; decide
  · rw [← mem_allowedKinds]; decide
  · rw [← Node.mem_closestIdx]; decide
  · rw [← mem_allowedKinds]; decide

/-! Non-vacuity: a storage in a trait definition is reported; a storage in an event too, at any
depth. -/

example : (∃ k, k ≠ .macro .scaleDerive ∧ Allowed (.macro .traitDefinition) .v5 k) ∧
    scopeCheck id (.macro .traitDefinition) .v5
      (.node () [.node () [.attr (some (.arg .storage)) [.tok 1]]] : Node AttrKind Unit) =
      [.arg .storage] := by
  refine ⟨⟨.arg .message, by decide, ?_⟩, by decide⟩
  rw [← mem_allowedKinds]; decide

example : (∀ k, Allowed (.arg .message) .v5 k → k = .macro .scaleDerive) ∧
    scopeCheck id (.arg .message) .v5
      (.node () [.node () [.attr (some (.macro .scaleDerive)) [.tok 1],
        .node () [.attr (some (.arg .storage)) [.tok 1]]]] : Node AttrKind Unit) =
      [.arg .storage] := by
  refine ⟨fun k hk => ?_, by decide⟩
  rw [← mem_allowedKinds] at hk
  revert hk
  have : ∀ k ∈ allowedKinds (.arg .message) .v5, k = .macro .scaleDerive := by decide
  exact this k

end Verif.Analyzer
