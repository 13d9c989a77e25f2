import Verif.Analyzer.Root
import Verif.Analyzer.MoveProps
import Verif.Analyzer.WalkProps

/-!
# C127: the checks of a contract report exactly its misplaced items

An item is *directly in* the closest item around it (`DirectlyIn`, as in C87).
-/

namespace Verif.Analyzer.Root

open Verif.Ir Verif.Ir.Token Verif.Analyzer.Move

/-! ## Specification -/

/-- The node at `p` carries an ink! attribute of kind `k`. -/
def Marked (root : Src) (k : AttrKind) (p : List Nat) : Prop :=
  ∃ i, Move.kindAt root (p ++ [i]) = some (.attr (some k))

/-- The node at `p` lies in the one at `q`, and no node strictly in between carries an ink! attribute. -/
def Under (root : Src) (q p : List Nat) : Prop :=
  q <+: p ∧ q ≠ p ∧ ∀ r, q <+: r → r ≠ q → r <+: p → r ≠ p → ∀ k, ¬ Marked root k r

/-- The node at `q` is annotated as an ink! impl, or it is an `impl` block with a namespace or with an ink!
attribute that is not known. -/
def ImplLike (root : Src) (q : List Nat) : Prop :=
  Marked root (.arg .impl) q ∨
    ((Marked root (.arg .namespace) q ∨ Marked root (.macro .unknown) q ∨ Marked root (.arg .unknown) q) ∧
      IsImpl root q)

/-- The node at `f` is a constructor or a message. -/
def IsCallable (root : Src) (f : List Nat) : Prop :=
  Marked root (.arg .constructor) f ∨ Marked root (.arg .message) f

/-- The function at `f` belongs to the contract at `c`: it is in the contract, or in something like an ink!
impl in the contract. -/
def CallableOf (root : Src) (c f : List Nat) : Prop :=
  IsCallable root f ∧ (Under root c f ∨ ∃ q, Under root c q ∧ ImplLike root q ∧ Under root q f)

/-- The item at `p` is an ink! impl of the contract at `c`. -/
def ImplIn (implements : List Nat → Bool) (root : Src) (c p : List Nat) : Prop :=
  ((IsImpl root p ∧ ∃ i, p = c ++ [i]) ∨
    (Under root c p ∧ ImplLike root p ∧ IsItem root p) ∨
    (IsImpl root p ∧ ∃ f, Under root c f ∧ IsCallable root f ∧ Move.kindAt root f = some (.item .fn) ∧
      DirectlyIn root f p)) ∧
  (Marked root (.arg .impl) p ∨
    (IsImpl root p ∧ ((∃ f, Under root p f ∧ IsCallable root f) ∨ implements p = true)))

/-! ## Lemmas -/

theorem toNodes_get (cs : List Src) (i : Nat) : (toNodes cs)[i]? = (cs[i]?).map toNode := by
  induction cs generalizing i with
  | nil => simp [toNodes]
  | cons c cs ih => cases i <;> simp [toNodes, ih]

theorem toNode_children (n : Src) : (toNode n).children = toNodes n.children := by
  cases n with
  | tok w t => simp [toNode, Node.children, Src.children, toNodes]
  | node k cs => cases k <;> simp [toNode, Node.children, Src.children]

theorem toNode_at (n : Src) (p : List Nat) : (toNode n).at? p = (n.at? p).map toNode := by
  induction p generalizing n with
  | nil => rfl
  | cons i p ih =>
    simp only [Node.at?, Src.at?, toNode_children, toNodes_get]
    cases n.children[i]? with
    | none => rfl
    | some c => simpa using ih c

theorem inkAt_iff (root : Src) (p : List Nat) (a : AttrKind) :
    (toNode root).InkAt p a ↔ Move.kindAt root p = some (.attr (some a)) := by
  unfold Node.InkAt Move.kindAt
  rw [toNode_at]
  cases root.at? p with
  | none => simp
  | some n =>
    cases n with
    | tok w t => simp [toNode, Src.kind?]
    | node k cs => cases k <;> simp [toNode, Src.kind?]

theorem carries_iff (root : Src) (k : AttrKind) (p : List Nat) :
    (toNode root).Carries id k p ↔ Marked root k p := by
  unfold Node.Carries Marked
  simp only [inkAt_iff, id]
  exact ⟨fun ⟨i, a, h, e⟩ => ⟨i, e ▸ h⟩, fun ⟨i, h⟩ => ⟨i, k, h, rfl⟩⟩

theorem annotated_marked (root : Src) (p : List Nat) :
    (toNode root).Annotated p ↔ ∃ k, Marked root k p := by
  have : (toNode root).Annotated p ↔ ∃ i a, (toNode root).InkAt (p ++ [i]) a := Iff.rfl
  rw [this]
  simp only [inkAt_iff, Marked]
  exact ⟨fun ⟨i, a, h⟩ => ⟨a, i, h⟩, fun ⟨a, i, h⟩ => ⟨i, a, h⟩⟩

theorem inside_iff (root : Src) (q p : List Nat) :
    Walk.Inside (toNode root) q p ↔ Under root q p := by
  unfold Walk.Inside Under Node.NoneBetween
  simp only [annotated_marked, not_exists]

theorem kindIs_iff (test : NKind → Bool) (root : Src) (p : List Nat)
    (ht : ∀ a, test (.attr a) = false) :
    Walk.KindIs test (toNode root) p ↔ ∃ k, Move.kindAt root p = some k ∧ test k = true := by
  unfold Walk.KindIs Move.kindAt
  rw [toNode_at]
  cases root.at? p with
  | none => simp
  | some n =>
    cases n with
    | tok w t => simp [toNode, Src.kind?]
    | node k cs => cases k <;> simp [toNode, Src.kind?, ht]

theorem kindIs_impl (root : Src) (p : List Nat) :
    Walk.KindIs shape.isImpl (toNode root) p ↔ IsImpl root p := by
  rw [kindIs_iff _ _ _ (fun _ => rfl)]
  unfold IsImpl
  constructor
  · rintro ⟨k, hk, h⟩
    cases k with
    | item i => cases i <;> first | exact ⟨_, hk⟩ | simp [shape, Move.isImpl] at h
    | _ => simp [shape, Move.isImpl] at h
  · rintro ⟨t, h⟩
    exact ⟨_, h, rfl⟩

theorem kindIs_item (root : Src) (p : List Nat) :
    Walk.KindIs shape.isItem (toNode root) p ↔ IsItem root p := by
  rw [kindIs_iff _ _ _ (fun _ => rfl)]
  unfold IsItem
  constructor
  · rintro ⟨k, hk, h⟩
    cases k with
    | item i => exact ⟨i, hk⟩
    | _ => simp [shape, Move.isItem] at h
  · rintro ⟨t, h⟩
    exact ⟨_, h, rfl⟩

theorem kindIs_fn (root : Src) (p : List Nat) :
    Walk.KindIs shape.isFn (toNode root) p ↔ Move.kindAt root p = some (.item .fn) := by
  rw [kindIs_iff _ _ _ (fun _ => rfl)]
  constructor
  · rintro ⟨k, hk, h⟩
    rw [hk, show k = .item .fn from by simpa [shape] using h]
  · intro h
    exact ⟨_, h, rfl⟩

theorem looksLike_iff (root : Src) (q : List Nat) :
    (toNode root).LooksLikeImpl id shape.isImpl q ↔ ImplLike root q := by
  unfold Node.LooksLikeImpl ImplLike
  simp only [carries_iff]
  rw [← kindIs_impl]
  rfl

theorem around_iff (root : Src) (f p : List Nat) :
    Walk.ItemAround shape (toNode root) f p ↔ DirectlyIn root f p := by
  unfold Walk.ItemAround
  simp only [kindIs_item]
  constructor
  · rintro ⟨h1, h2, h3, h4⟩
    refine ⟨⟨h1, h2⟩, h3, fun r hr hne hl => h4 r ?_ ?_ hr hne⟩
    · exact List.prefix_of_prefix_length_le h1 hr (Nat.le_of_lt hl)
    · rintro rfl
      exact Nat.lt_irrefl _ hl
  · rintro ⟨⟨h1, h2⟩, h3, h4⟩
    refine ⟨h1, h2, h3, fun r hpr hne hr hf => h4 r hr hf ?_⟩
    rcases Nat.lt_or_ge p.length r.length with h | h
    · exact h
    · exact absurd (hpr.eq_of_length (Nat.le_antisymm hpr.length_le h)).symm hne

theorem mem_below_iff (root : Src) (k : AttrKind) (q p : List Nat) :
    p ∈ Walk.below id k (toNode root) q ↔ Under root q p ∧ Marked root k p := by
  rw [Walk.mem_below, inside_iff, carries_iff]

theorem mem_callables_iff (root : Src) (k : AttrKind) (hk : k = .arg .constructor ∨ k = .arg .message)
    (c p : List Nat) :
    p ∈ Walk.callablesBelow id shape k (toNode root) c ↔ Marked root k p ∧ (Under root c p ∨
      ∃ q, Under root c q ∧ ImplLike root q ∧ Under root q p) := by
  rw [Walk.mem_callablesBelow _ _ _ _ hk, carries_iff]
  simp only [inside_iff, looksLike_iff]

theorem at_of_contract (root : Src) (c : List Nat) (hc : HasContract root c) :
    ∃ n, (toNode root).at? c = some n := by
  obtain ⟨i, hi⟩ := hc
  rw [toNode_at]
  cases h : root.at? c with
  | none => simp [Move.kindAt, at_append, h] at hi
  | some n => exact ⟨_, rfl⟩

theorem mem_impls_iff (implements : List Nat → Bool) (root : Src) (c p : List Nat)
    (hc : HasContract root c) :
    p ∈ Walk.implsBelow id shape implements (toNode root) c ↔ ImplIn implements root c p := by
  rw [Walk.mem_implsBelow _ _ _ _ _ _ (at_of_contract root c hc)]
  unfold Walk.ImplOf Walk.IsInkImpl Walk.Callable ImplIn IsCallable
  simp only [inside_iff, looksLike_iff, carries_iff, kindIs_impl, kindIs_item, kindIs_fn, around_iff]

theorem mem_reports {β : Type} (f : List Nat → Option β) (l : List (List Nat)) (p : List Nat) (r : β) :
    (p, r) ∈ l.filterMap (fun p => (f p).map (p, ·)) ↔ p ∈ l ∧ f p = some r := by
  simp only [List.mem_filterMap, Option.map_eq_some_iff, Prod.mk.injEq]
  constructor
  · rintro ⟨q, hq, s, hs, rfl, rfl⟩
    exact ⟨hq, hs⟩
  · rintro ⟨h1, h2⟩
    exact ⟨p, h1, r, h2, rfl, rfl⟩

theorem root_iff (root : Src) (s : Scope) (c p : List Nat) (hc : HasContract root c) :
    (∃ r, parentContract root s c p = some r) ↔ ¬ DirectlyIn root p c := by
  rw [← Option.isSome_iff_exists, C87_root_reported]
  exact ⟨fun h hd => h ⟨hd, hc⟩, fun h hd => h hd.1⟩

/-! ## Theorems -/

/-- C127. In a contract, exactly the storage definitions, events and ink! impls of the contract that are not
directly in it are reported. -/
theorem C127_root (implements : List Nat → Bool) (root : Src) (c p : List Nat)
    (hc : HasContract root c) :
    (∃ r, (p, r) ∈ rootItems implements root c) ↔
      (((Marked root (.arg .storage) p ∨ Marked root (.arg .event) p) ∧ Under root c p) ∨
        ImplIn implements root c p) ∧ ¬ DirectlyIn root p c := by
  unfold rootItems
  simp only [List.mem_append, mem_reports, mem_below_iff, mem_impls_iff _ _ _ _ hc]
  constructor
  · rintro ⟨r, ⟨⟨h1, h2⟩, h⟩ | ⟨⟨h1, h2⟩, h⟩ | ⟨h1, h⟩⟩
    · exact ⟨.inl ⟨.inl h2, h1⟩, (root_iff root _ c p hc).1 ⟨r, h⟩⟩
    · exact ⟨.inl ⟨.inr h2, h1⟩, (root_iff root _ c p hc).1 ⟨r, h⟩⟩
    · exact ⟨.inr h1, (root_iff root _ c p hc).1 ⟨r, h⟩⟩
  · rintro ⟨⟨h1 | h1, h2⟩ | h1, hd⟩
    · obtain ⟨r, h⟩ := (root_iff root .storage c p hc).2 hd
      exact ⟨r, .inl ⟨⟨h2, h1⟩, h⟩⟩
    · obtain ⟨r, h⟩ := (root_iff root .event c p hc).2 hd
      exact ⟨r, .inr (.inl ⟨⟨h2, h1⟩, h⟩)⟩
    · obtain ⟨r, h⟩ := (root_iff root .impl c p hc).2 hd
      exact ⟨r, .inr (.inr ⟨h1, h⟩)⟩

/-- C127. Nothing is reported of a contract exactly if all its storage definitions, events and ink! impls are
directly in it. -/
theorem C127_clean (implements : List Nat → Bool) (root : Src) (c : List Nat) (hc : HasContract root c) :
    rootItems implements root c = [] ↔
      ∀ p, ((Marked root (.arg .storage) p ∨ Marked root (.arg .event) p) ∧ Under root c p) ∨
        ImplIn implements root c p → DirectlyIn root p c := by
  rw [List.eq_nil_iff_forall_not_mem]
  constructor
  · intro h p hp
    refine Classical.byContradiction fun hd => ?_
    obtain ⟨r, hr⟩ := (C127_root implements root c p hc).2 ⟨hp, hd⟩
    exact h _ hr
  · rintro h ⟨p, r⟩ hr
    have := (C127_root implements root c p hc).1 ⟨r, hr⟩
    exact this.2 (h p this.1)

/-- C127. Of the constructors and messages of a contract exactly those are reported that are no functions
directly in an `impl` block. -/
theorem C127_callables (known : List Nat → Known) (root : Src) (c p : List Nat) :
    (∃ r, (p, r) ∈ callableParents known root c) ↔
      CallableOf root c p ∧ ¬ (Move.kindAt root p = some (.item .fn) ∧
        ∃ q, DirectlyIn root p q ∧ IsImpl root q) := by
  have hrep : (∃ r, implParent known root p = some r) ↔ ¬ (Move.kindAt root p = some (.item .fn) ∧
        ∃ q, DirectlyIn root p q ∧ IsImpl root q) := by
    rw [← Option.isSome_iff_exists]
    by_cases hf : Move.kindAt root p = some (.item .fn)
    · rw [C87_impl_reported known root p hf]
      simp [hf]
    · have : parentImplItem root p = none := by
        unfold parentImplItem
        rw [if_neg (by simpa using hf)]
      simp [implParent, this, hf]
  unfold callableParents CallableOf IsCallable
  rw [← hrep]
  simp only [List.mem_append, mem_reports, mem_callables_iff _ _ (.inl rfl),
    mem_callables_iff _ _ (.inr rfl)]
  constructor
  · rintro ⟨r, ⟨⟨h1, h2⟩, h⟩ | ⟨⟨h1, h2⟩, h⟩⟩
    · exact ⟨⟨.inl h1, h2⟩, r, h⟩
    · exact ⟨⟨.inr h1, h2⟩, r, h⟩
  · rintro ⟨⟨h1 | h1, h2⟩, r, h⟩
    · exact ⟨r, .inl ⟨⟨h1, h2⟩, h⟩⟩
    · exact ⟨r, .inr ⟨⟨h1, h2⟩, h⟩⟩

/-- C127. Of the constructors and messages in an `impl` block exactly those are reported that are no functions
directly in this block. -/
theorem C127_impl (root : Src) (i p : List Nat) (hi : IsImpl root i) :
    (∃ r, (p, r) ∈ rootCallables root i) ↔
      (IsCallable root p ∧ Under root i p) ∧
        ¬ (Move.kindAt root p = some (.item .fn) ∧ DirectlyIn root p i) := by
  have hrep : (∃ r, parentImpl root i p = some r) ↔
      ¬ (Move.kindAt root p = some (.item .fn) ∧ DirectlyIn root p i) := by
    rw [← Option.isSome_iff_exists]
    by_cases hf : Move.kindAt root p = some (.item .fn)
    · rw [C87_own_impl_reported root i p hf]
      simp [hf, hi]
    · have : parentImplItem root p = none := by
        unfold parentImplItem
        rw [if_neg (by simpa using hf)]
      simp [parentImpl, this, hf]
  unfold rootCallables IsCallable
  rw [← hrep]
  simp only [List.mem_append, mem_reports, mem_below_iff]
  constructor
  · rintro ⟨r, ⟨⟨h1, h2⟩, h⟩ | ⟨⟨h1, h2⟩, h⟩⟩
    · exact ⟨⟨.inl h2, h1⟩, r, h⟩
    · exact ⟨⟨.inr h2, h1⟩, r, h⟩
  · rintro ⟨⟨h1 | h1, h2⟩, r, h⟩
    · exact ⟨r, .inl ⟨⟨h2, h1⟩, h⟩⟩
    · exact ⟨r, .inr ⟨⟨h2, h1⟩, h⟩⟩

/-- The item at `p` belongs to the contract as a storage definition, an event or an ink! impl. -/
def BelongsAs (implements : List Nat → Bool) (root : Src) (c p : List Nat) : Scope → Prop
  | .storage => Marked root (.arg .storage) p ∧ Under root c p
  | .event => Marked root (.arg .event) p ∧ Under root c p
  | .impl => ImplIn implements root c p

/-- C127. The move offered for a reported item puts it to the place in the contract for what it is, where it is
not reported any more.
Missing for the full claim: that the new text is parsed to the tree `moved` (see C87). -/
theorem C127_fixed_partial (implements : List Nat → Bool) (root : Src) (c p : List Nat) (x : Src)
    (r : Report) (e : Edit × Edit) (hb : Bracketed root) (hx : root.at? p = some x)
    (hi : IsItem root p) (hin : c <+: p ∧ c ≠ p) (hc : HasContract root c)
    (hr : (p, r) ∈ rootItems implements root c) (he : r.fix = some e) :
    ∃ s j cs k, BelongsAs implements root c p s ∧ ModuleList root c j ∧
      root.at? (c ++ [j]) = some (.node .list cs) ∧ Slot s cs k ∧ Moves root e p (c ++ [j]) k x ∧
      (moved root p (c ++ [j]) k x).at? (c ++ [j] ++ [k]) = some x ∧
      ∀ implements' r', (c ++ [j] ++ [k], r') ∉ rootItems implements' (moved root p (c ++ [j]) k x) c := by
  have key : ∀ s, BelongsAs implements root c p s → parentContract root s c p = some r →
      ∃ s j cs k, BelongsAs implements root c p s ∧ ModuleList root c j ∧
      root.at? (c ++ [j]) = some (.node .list cs) ∧ Slot s cs k ∧ Moves root e p (c ++ [j]) k x ∧
      (moved root p (c ++ [j]) k x).at? (c ++ [j] ++ [k]) = some x ∧
      ∀ implements' r', (c ++ [j] ++ [k], r') ∉ rootItems implements' (moved root p (c ++ [j]) k x) c := by
    intro s hbel hs
    obtain ⟨-, h⟩ := C87_root_fix_partial root s c p x r hb hx hi hin hc hs
    obtain ⟨j, cs, k, h1, h2, h3, h4, h5, h6⟩ := h e he
    refine ⟨s, j, cs, k, hbel, h1, h2, h3, h4, h5, fun im r' hr' => ?_⟩
    have hd : DirectlyIn (moved root p (c ++ [j]) k x) (c ++ [j] ++ [k]) c ∧
        HasContract (moved root p (c ++ [j]) k x) c := by
      refine Classical.byContradiction fun hn => ?_
      have := (C87_root_reported (moved root p (c ++ [j]) k x) s c (c ++ [j] ++ [k])).2 hn
      rw [h6] at this
      cases this
    exact ((C127_root im _ c _ hd.2).1 ⟨r', hr'⟩).2 hd.1
  unfold rootItems at hr
  simp only [List.mem_append, mem_reports, mem_below_iff, mem_impls_iff _ _ _ _ hc] at hr
  rcases hr with ⟨⟨h1, h2⟩, h⟩ | ⟨⟨h1, h2⟩, h⟩ | ⟨h1, h⟩
  · exact key .storage ⟨h2, h1⟩ h
  · exact key .event ⟨h2, h1⟩ h
  · exact key .impl h1 h

/-- A marked item. -/
def exItem (k : IKind) (ms : List ArgKind) (body : List Src) : Src :=
  .node (.item k) (ms.map (fun m => .node (.attr (some (.arg m))) [.tok false "#[ink(m)]".toList]) ++ body)

/-- A contract with a storage definition in a module of its own, a message in an `impl` block, and a storage
definition in this message. -/
def exDeep : Src :=
  exContract [exItem .module [] [.node .list [.tok false ['{'], exItem .struct [.storage] [],
      .tok false ['}']]],
    exImpl false [exItem .fn [.message] [.tok false ['{'], exItem .struct [.storage] [], .tok false ['}']]]]

/-- A contract with a message directly in it, and a storage definition with two attributes in it. -/
def exTwice : Src :=
  exContract [exItem .fn [.message] [.tok false ['{'], .tok false ['}']],
    exItem .module [] [.node .list [.tok false ['{'], exItem .struct [.storage, .storage] [],
      .tok false ['}']]]]

example : HasContract exDeep [0] ∧
    (rootItems (fun _ => false) exDeep [0]).map (·.1) = [[0, 3, 4, 0, 1]] ∧
    (callableParents exKnown exDeep [0]).map (·.1) = [] ∧
    (callableParents exKnown exTwice [0]).map (·.1) = [[0, 3, 4]] ∧
    IsImpl exDeep [0, 3, 5] ∧ (rootCallables exDeep [0, 3, 5]).map (·.1) = [] :=
  ⟨⟨0, by decide +kernel⟩, by decide +kernel, by decide +kernel, by decide +kernel, ⟨false, by decide +kernel⟩,
    by decide +kernel⟩

/-- A storage definition in a message is not directly in the contract, but not reported by these checks. -/
theorem C127_negation_deep : ∃ (root : Src) (c p : List Nat), HasContract root c ∧ c <+: p ∧
    Marked root (.arg .storage) p ∧ ¬ DirectlyIn root p c ∧
    ∀ r, (p, r) ∉ rootItems (fun _ => false) root c := by
  refine ⟨exDeep, [0], [0, 3, 5, 1, 1, 2], ⟨0, by decide +kernel⟩, by decide, ⟨0, by decide +kernel⟩, ?_, ?_⟩
  · intro h
    exact h.first [0, 3, 5] (by decide) (by decide) (by decide) ⟨.impl false, by decide +kernel⟩
  · intro r hr
    have : [0, 3, 5, 1, 1, 2] ∈ (rootItems (fun _ => false) exDeep [0]).map (·.1) :=
      List.mem_map.2 ⟨_, hr, rfl⟩
    revert this
    decide +kernel

/-- A storage definition with two storage attributes is reported twice. -/
theorem C127_negation_twice : ∃ (root : Src) (c p : List Nat) (r : Report), HasContract root c ∧
    rootItems (fun _ => false) root c = [(p, r), (p, r)] := by
  refine ⟨exTwice, [0], [0, 3, 5, 0, 1], (parentContract exTwice .storage [0] [0, 3, 5, 0, 1]).get
    (by decide +kernel), ⟨0, by decide +kernel⟩, by decide +kernel⟩

end Verif.Analyzer.Root
