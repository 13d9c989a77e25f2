import Verif.Analyzer.Cast

/-!
# C108: an entity is the same from its item and from its attribute
-/

namespace Verif.Analyzer.Cast

open Verif.Ir Verif.Analyzer.Walk

variable {α κ φ : Type}

/-! ## Specification -/

/-- The node at `p` is an attribute (of any sort). -/
def IsAttr (file : Node α κ) (p : List Nat) : Prop := ∃ a cs, file.at? p = some (.attr a cs)

/-- As in every file that is parsed: attributes are on something, which is no attribute. -/
def OnItems (file : Node α κ) : Prop :=
  ∀ p, IsAttr file p → ∃ q i, p = q ++ [i] ∧ ¬ IsAttr file q

/-- The attribute at `q` is the first of its kind on the node at `p`. -/
def IsFirst (kind : α → AttrKind) (k : AttrKind) (file : Node α κ) (p q : List Nat) (a : α) : Prop :=
  ∃ i, q = p ++ [i] ∧ file.InkAt q a ∧ kind a = k ∧
    ∀ j < i, ∀ b, file.InkAt (p ++ [j]) b → kind b ≠ k

/-- How many ink! attributes of a kind the node at `p` has. -/
def howMany (kind : α → AttrKind) (k : AttrKind) (file : Node α κ) (p : List Nat) : Nat :=
  match file.at? p with
  | some n => (n.children.filter fun c =>
      match c with
      | .attr (some a) _ => kind a == k
      | _ => false).length
  | none => 0

/-! ## Lemmas -/

theorem isAttrAt_iff (file : Node α κ) (p : List Nat) : file.isAttrAt p = true ↔ IsAttr file p := by
  unfold Node.isAttrAt IsAttr
  cases file.at? p with
  | none => simp
  | some c => cases c <;> simp [Node.isAttr]

theorem inkAt_isAttr (file : Node α κ) (p : List Nat) (a : α) (h : file.InkAt p a) :
    IsAttr file p := by
  obtain ⟨cs, h⟩ := h
  exact ⟨_, _, h⟩

theorem asAttr_iff (file : Node α κ) (p : List Nat) (e : List Nat × α) :
    asAttr file p = some e ↔ e.1 = p ∧ file.InkAt p e.2 := by
  obtain ⟨q, a⟩ := e
  unfold asAttr Node.InkAt
  cases file.at? p with
  | none => simp
  | some c =>
    cases c with
    | tok => simp [Node.ink?]
    | node => simp [Node.ink?]
    | attr x cs => cases x <;> simp [Node.ink?, eq_comm]

theorem mem_attrsOf (file : Node α κ) (p : List Nat) (e : List Nat × α) :
    e ∈ attrsOf file p ↔ ∃ i, e.1 = p ++ [i] ∧ file.InkAt e.1 e.2 := by
  obtain ⟨q, a⟩ := e
  unfold attrsOf Node.InkAt
  cases hn : file.at? p with
  | none =>
    constructor
    · intro h; simp at h
    · rintro ⟨i, rfl, cs, h⟩
      simp only [] at h
      rw [Node.at?_append, hn] at h
      simp at h
  | some n =>
    simp only [List.mem_map, Prod.mk.injEq, Prod.exists]
    constructor
    · rintro ⟨r, b, h, rfl, rfl⟩
      obtain ⟨j, sub, rfl, hj⟩ := (Node.mem_inkIdx _ _ _ _).1 h
      refine ⟨0 + j, rfl, sub, ?_⟩
      rw [Node.at?_append, hn, Nat.zero_add]
      simp only [Option.bind_some]
      rw [Node.at?_cons, hj]
      rfl
    · rintro ⟨i, rfl, cs, h⟩
      refine ⟨[i], a, (Node.mem_inkIdx _ _ _ _).2 ⟨i, cs, by simp, ?_⟩, rfl, rfl⟩
      rw [Node.at?_append, hn] at h
      simp only [Option.bind_some] at h
      rw [Node.at?_cons, Option.bind_eq_some_iff] at h
      obtain ⟨c, hc, h⟩ := h
      rw [hc]
      simpa [Node.at?] using h

theorem any_attrsOf (kind : α → AttrKind) (k : AttrKind) (file : Node α κ) (p : List Nat) :
    ((attrsOf file p).any fun e => kind e.2 == k) = true ↔ file.Carries kind k p := by
  rw [List.any_eq_true]
  constructor
  · rintro ⟨e, he, hk⟩
    obtain ⟨i, hi, ha⟩ := (mem_attrsOf _ _ _).1 he
    exact ⟨i, e.2, hi ▸ ha, by simpa using hk⟩
  · rintro ⟨i, a, h, hk⟩
    exact ⟨(p ++ [i], a), (mem_attrsOf _ _ _).2 ⟨i, rfl, h⟩, by simpa using hk⟩

theorem find_inkIdx (kind : α → AttrKind) (k : AttrKind) (cs : List (Node α κ)) (s : Nat)
    (e : List Nat × α) (h : (Node.inkIdx cs s).find? (fun e => kind e.2 == k) = some e) :
    ∃ i sub, e.1 = [s + i] ∧ cs[i]? = some (.attr (some e.2) sub) ∧ kind e.2 = k ∧
      ∀ j < i, ∀ b sub', cs[j]? = some (.attr (some b) sub') → kind b ≠ k := by
  induction cs generalizing s with
  | nil => simp [Node.inkIdx] at h
  | cons c cs ih =>
    unfold Node.inkIdx at h
    have hstep (hc : ∀ b sub', c = .attr (some b) sub' → kind b ≠ k)
        (h : (Node.inkIdx cs (s + 1)).find? (fun e => kind e.2 == k) = some e) :
        ∃ i sub, e.1 = [s + i] ∧ (c :: cs)[i]? = some (.attr (some e.2) sub) ∧ kind e.2 = k ∧
          ∀ j < i, ∀ b sub', (c :: cs)[j]? = some (.attr (some b) sub') → kind b ≠ k := by
      obtain ⟨i, sub, h1, h2, h3, h4⟩ := ih (s + 1) h
      refine ⟨i + 1, sub, by rw [h1]; congr 1; omega, by simpa using h2, h3, ?_⟩
      intro j hj b sub' hb
      cases j with
      | zero => exact hc b sub' (by simpa using hb)
      | succ j => exact h4 j (by omega) b sub' (by simpa using hb)
    cases hink : c.ink? with
    | none =>
      rw [hink] at h
      refine hstep ?_ (by simpa using h)
      rintro b sub' rfl
      simp [Node.ink?] at hink
    | some a =>
      rw [hink] at h
      simp only [List.singleton_append, List.find?_cons] at h
      have hc : ∃ sub, c = .attr (some a) sub := by
        cases c with
        | tok => simp [Node.ink?] at hink
        | node => simp [Node.ink?] at hink
        | attr x sub => simp only [Node.ink?] at hink; exact ⟨sub, by rw [hink]⟩
      obtain ⟨sub, rfl⟩ := hc
      cases hk : kind a == k with
      | true =>
        simp only [hk, Option.some.injEq] at h
        subst h
        exact ⟨0, sub, by simp, by simp, by simpa using hk, fun j hj => absurd hj (by omega)⟩
      | false =>
        simp only [hk] at h
        refine hstep ?_ h
        rintro b sub' hb
        cases hb
        simpa using hk

theorem find_attrsOf (kind : α → AttrKind) (k : AttrKind) (file : Node α κ) (p : List Nat)
    (e : List Nat × α) (h : (attrsOf file p).find? (fun e => kind e.2 == k) = some e) :
    IsFirst kind k file p e.1 e.2 := by
  unfold attrsOf at h
  cases hn : file.at? p with
  | none => rw [hn] at h; simp at h
  | some n =>
    rw [hn] at h
    simp only [List.find?_map, Option.map_eq_some_iff, Function.comp_def] at h
    obtain ⟨e', h, rfl⟩ := h
    obtain ⟨i, sub, h1, h2, h3, h4⟩ := find_inkIdx kind k n.children 0 e' h
    rw [Nat.zero_add] at h1
    have hat (j : Nat) : file.at? (p ++ [j]) = n.children[j]? := by
      rw [Node.at?_append, hn]
      simp only [Option.bind_some]
      rw [Node.at?_cons]
      cases n.children[j]? <;> simp [Node.at?]
    refine ⟨i, by simp [h1], ⟨sub, ?_⟩, h3, ?_⟩
    · rw [h1, hat, h2]
    · rintro j hj b ⟨sub', hb⟩
      exact h4 j hj b sub' (hat j ▸ hb)

theorem canCast_kind (kind : α → AttrKind) (isAst : κ → Bool) (k : AttrKind) (file : Node α κ)
    (p : List Nat) :
    canCast kind isAst (.kind k) file p = true ↔
      (¬ IsAttr file p ∧ file.Carries kind k p) ∨ (∃ a, file.InkAt p a ∧ kind a = k) := by
  unfold canCast
  by_cases h : file.isAttrAt p = true
  · simp only [if_pos h]
    rw [isAttrAt_iff] at h
    constructor
    · intro hh
      cases ha : asAttr file p with
      | none => rw [ha] at hh; simp at hh
      | some e =>
        rw [ha] at hh
        exact .inr ⟨e.2, ((asAttr_iff _ _ _).1 ha).2, by simpa using hh⟩
    · rintro (⟨h', _⟩ | ⟨a, ha, hk⟩)
      · exact absurd h h'
      · rw [(asAttr_iff file p (p, a)).2 ⟨rfl, ha⟩]
        simpa using hk
  · simp only [if_neg h]
    rw [any_attrsOf]
    rw [isAttrAt_iff] at h
    constructor
    · exact fun hh => .inl ⟨h, hh⟩
    · rintro (⟨_, hh⟩ | ⟨a, ha, _⟩)
      · exact hh
      · exact absurd (inkAt_isAttr _ _ _ ha) h

theorem cast_kind (kind : α → AttrKind) (isAst : κ → Bool) (init : List Nat → φ) (k : AttrKind)
    (file : Node α κ) (p : List Nat) :
    cast kind isAst init (.kind k) file p = if canCast kind isAst (.kind k) file p then
      some (selfDef kind isAst init (.kind k) file (rootNode file p)) else none := rfl

theorem rootNode_attr (file : Node α κ) (q : List Nat) (i : Nat) (h : IsAttr file (q ++ [i])) :
    rootNode file (q ++ [i]) = q := by
  unfold rootNode
  rw [if_pos ((isAttrAt_iff _ _).2 h), if_neg (by simp), List.dropLast_concat]

theorem rootNode_other (file : Node α κ) (p : List Nat) (h : ¬ IsAttr file p) :
    rootNode file p = p := by
  unfold rootNode
  rw [if_neg (fun hh => h ((isAttrAt_iff _ _).1 hh))]

/-! ## C108 -/

/-- `cast` gives an entity exactly if `can_cast` says so, for every way to define an entity. (The
code relies on this: it calls `expect` on the result of `cast` behind `can_cast`.) -/
theorem C108_agree (kind : α → AttrKind) (isAst : κ → Bool) (init : List Nat → φ) (cfg : Config)
    (file : Node α κ) (p : List Nat) :
    (cast kind isAst init cfg file p).isSome = canCast kind isAst cfg file p := by
  have h (b : Bool) (x : Entity α φ) : (if b = true then some x else none).isSome = b := by
    cases b <;> rfl
  cases cfg <;> exact h _ _

/-- From which nodes an entity of a kind is derived, and what its node is: from an item with such an
attribute, then it is the item; and from each such attribute, then it is what the attribute is on. -/
theorem C108_derived (kind : α → AttrKind) (isAst : κ → Bool) (init : List Nat → φ) (k : AttrKind)
    (file : Node α κ) (hf : OnItems file) (p q : List Nat) :
    (∃ e, cast kind isAst init (.kind k) file p = some e ∧ e.node = q) ↔
      (q = p ∧ ¬ IsAttr file p ∧ file.Carries kind k p) ∨
      (∃ i a, p = q ++ [i] ∧ file.InkAt p a ∧ kind a = k) := by
  rw [cast_kind]
  constructor
  · rintro ⟨e, he, rfl⟩
    split at he
    · rename_i hc
      cases he
      rcases (canCast_kind kind isAst k file p).1 hc with ⟨h1, h2⟩ | ⟨a, ha, hk⟩
      · exact .inl ⟨rootNode_other file p h1, h1, h2⟩
      · obtain ⟨q, i, rfl, _⟩ := hf p (inkAt_isAttr _ _ _ ha)
        refine .inr ⟨i, a, ?_, ha, hk⟩
        show _ = rootNode file (q ++ [i]) ++ [i]
        rw [rootNode_attr file q i (inkAt_isAttr _ _ _ ha)]
    · simp at he
  · rintro (⟨rfl, h1, h2⟩ | ⟨i, a, rfl, ha, hk⟩)
    · rw [if_pos ((canCast_kind kind isAst k file q).2 (.inl ⟨h1, h2⟩))]
      exact ⟨_, rfl, rootNode_other file q h1⟩
    · rw [if_pos ((canCast_kind kind isAst k file _).2 (.inr ⟨a, ha, hk⟩))]
      exact ⟨_, rfl, rootNode_attr file q i (inkAt_isAttr _ _ _ ha)⟩

/-- The same entity, with all its fields, is derived from an item and from each of its attributes of
the kind. -/
theorem C108_same (kind : α → AttrKind) (isAst : κ → Bool) (init : List Nat → φ) (k : AttrKind)
    (file : Node α κ) (hf : OnItems file) (q : List Nat) (i : Nat) (a : α)
    (ha : file.InkAt (q ++ [i]) a) (hk : kind a = k) :
    ∃ e, cast kind isAst init (.kind k) file (q ++ [i]) = some e ∧
      cast kind isAst init (.kind k) file q = some e := by
  have hq : ¬ IsAttr file q := by
    obtain ⟨q', i', he, h⟩ := hf _ (inkAt_isAttr _ _ _ ha)
    obtain ⟨rfl, _⟩ := List.append_inj' he rfl
    exact h
  rw [cast_kind, cast_kind, if_pos ((canCast_kind kind isAst k file _).2 (.inr ⟨a, ha, hk⟩)),
    if_pos ((canCast_kind kind isAst k file q).2 (.inl ⟨hq, i, a, ha, hk⟩)),
    rootNode_attr file q i (inkAt_isAttr _ _ _ ha), rootNode_other file q hq]
  exact ⟨_, rfl, rfl⟩

/-- What an entity of a kind says: its attribute is the first of that kind on its node, it has the
`ast` iff its node is of the expected type, its other fields are read from its node, and the same
entity is derived again from its node. -/
theorem C108_entity (kind : α → AttrKind) (isAst : κ → Bool) (init : List Nat → φ) (k : AttrKind)
    (file : Node α κ) (hf : OnItems file) (p : List Nat) (e : Entity α φ)
    (h : cast kind isAst init (.kind k) file p = some e) :
    (∃ q a, e.inkAttr = some (q, a) ∧ IsFirst kind k file e.node q a) ∧
      (e.ast = true ↔ KindIs isAst file e.node) ∧ e.fields = init e.node ∧
      cast kind isAst init (.kind k) file e.node = some e := by
  obtain ⟨q, hq, hc, he⟩ : ∃ q, ¬ IsAttr file q ∧ file.Carries kind k q ∧
      e = selfDef kind isAst init (.kind k) file q := by
    rw [cast_kind] at h
    split at h
    · rename_i hc
      cases h
      rcases (canCast_kind kind isAst k file p).1 hc with ⟨h1, h2⟩ | ⟨a, ha, hk⟩
      · exact ⟨p, h1, h2, by rw [rootNode_other file p h1]⟩
      · obtain ⟨q, i, rfl, hq⟩ := hf p (inkAt_isAttr _ _ _ ha)
        exact ⟨q, hq, ⟨i, a, ha, hk⟩, by rw [rootNode_attr file q i (inkAt_isAttr _ _ _ ha)]⟩
    · simp at h
  subst he
  refine ⟨?_, kindAt_iff _ _ _, rfl, ?_⟩
  · show ∃ q' a, attrInit kind (.kind k) file q = some (q', a) ∧ IsFirst kind k file q q' a
    unfold attrInit
    simp only [if_neg (fun hh => hq ((isAttrAt_iff _ _).1 hh))]
    cases hfd : (attrsOf file q).find? (fun e => kind e.2 == k) with
    | none =>
      rw [List.find?_eq_none] at hfd
      obtain ⟨x, hx, hxk⟩ := List.any_eq_true.1 ((any_attrsOf kind k file q).2 hc)
      exact absurd hxk (hfd x hx)
    | some x => exact ⟨x.1, x.2, rfl, find_attrsOf kind k file q x hfd⟩
  · show cast kind isAst init (.kind k) file q = _
    rw [cast_kind, if_pos ((canCast_kind kind isAst k file q).2 (.inl ⟨hq, hc⟩)),
      rootNode_other file q hq]

theorem entityOf_iff (kind : α → AttrKind) (isAst : κ → Bool) (init : List Nat → φ) (k : AttrKind)
    (file : Node α κ) (hf : OnItems file) (e : Entity α φ) (q : List Nat) :
    (attrsOf file q).findSome? (fun x => cast kind isAst init (.kind k) file x.1) = some e ↔
      file.Carries kind k q ∧ cast kind isAst init (.kind k) file q = some e := by
  have hx (x : List Nat × α) (hx : x ∈ attrsOf file q) (y : Entity α φ)
      (hy : cast kind isAst init (.kind k) file x.1 = some y) :
      file.Carries kind k q ∧ cast kind isAst init (.kind k) file q = some y := by
    obtain ⟨i, hi, ha⟩ := (mem_attrsOf _ _ _).1 hx
    have hk : kind x.2 = k := by
      rcases (C108_derived kind isAst init k file hf x.1 y.node).1 ⟨y, hy, rfl⟩ with
        ⟨_, h, _⟩ | ⟨j, b, _, hb, hk⟩
      · exact absurd (inkAt_isAttr _ _ _ ha) h
      · obtain ⟨cs, h1⟩ := ha
        obtain ⟨cs', h2⟩ := hb
        rw [h1] at h2
        cases h2
        exact hk
    rw [hi] at ha hy
    obtain ⟨e', h1, h2⟩ := C108_same kind isAst init k file hf q i x.2 ha hk
    rw [h1] at hy
    cases hy
    exact ⟨⟨i, x.2, ha, hk⟩, h2⟩
  constructor
  · intro h
    obtain ⟨x, hxm, hy⟩ := List.exists_of_findSome?_eq_some h
    exact hx x hxm e hy
  · rintro ⟨⟨i, a, ha, hk⟩, hc⟩
    obtain ⟨e', h1, h2⟩ := C108_same kind isAst init k file hf q i a ha hk
    rw [hc] at h2
    cases h2
    cases hfs : (attrsOf file q).findSome? (fun x => cast kind isAst init (.kind k) file x.1) with
    | none =>
      rw [List.findSome?_eq_none_iff] at hfs
      have := hfs (q ++ [i], a) ((mem_attrsOf _ _ _).2 ⟨i, rfl, ha⟩)
      rw [h1] at this
      simp at this
    | some y =>
      obtain ⟨x, hxm, hy⟩ := List.exists_of_findSome?_eq_some hfs
      have := (hx x hxm y hy).2
      rw [hc] at this
      rw [this]

/-- The parent entity of a node that is no attribute: it is there iff the closest item around the node
carries an attribute of the kind, and then it is that item's. -/
theorem C108_parent (kind : α → AttrKind) (sh : Shape κ) (isAst : κ → Bool) (init : List Nat → φ)
    (k : AttrKind) (file : Node α κ) (hf : OnItems file) (p : List Nat) (hp : ¬ IsAttr file p)
    (e : Entity α φ) :
    inkParent kind sh isAst init (.kind k) file p = some e ↔
      ∃ q, ItemAround sh file p q ∧ file.Carries kind k q ∧
        cast kind isAst init (.kind k) file q = some e := by
  have hpi (q : List Nat) : parentItem sh file p = some q ↔ ItemAround sh file p q := by
    unfold parentItem
    rw [Option.filter_eq_some_iff, closestItem_iff, List.reverse_reverse]
    have : file.isAttrAt p = false := by
      cases h : file.isAttrAt p with
      | false => rfl
      | true => exact absurd ((isAttrAt_iff _ _).1 h) hp
    simp [this]
  unfold inkParent
  rw [Option.bind_eq_some_iff]
  constructor
  · rintro ⟨q, hq, he⟩
    have hq' := (hpi q).1 hq
    exact ⟨q, hq', (entityOf_iff kind isAst init k file hf e q).1 he⟩
  · rintro ⟨q, hq, he⟩
    exact ⟨q, (hpi q).2 hq, (entityOf_iff kind isAst init k file hf e q).2 he⟩

/-- The parent entity of an attribute: it is there iff what the attribute is on is an item that carries an
attribute of the kind, and then it is that item's. -/
theorem C108_own (kind : α → AttrKind) (sh : Shape κ) (isAst : κ → Bool) (init : List Nat → φ)
    (k : AttrKind) (file : Node α κ) (hf : OnItems file) (q : List Nat) (i : Nat)
    (hp : IsAttr file (q ++ [i])) (e : Entity α φ) :
    inkParent kind sh isAst init (.kind k) file (q ++ [i]) = some e ↔
      KindIs sh.isItem file q ∧ file.Carries kind k q ∧
        cast kind isAst init (.kind k) file q = some e := by
  have hpi (r : List Nat) : parentItem sh file (q ++ [i]) = some r ↔ r = q ∧ KindIs sh.isItem file q := by
    unfold parentItem
    rw [Option.filter_eq_some_iff, (isAttrAt_iff _ _).2 hp, closestItem_iff, List.reverse_reverse,
      List.dropLast_concat]
    simp only [Bool.not_true, Bool.false_or, beq_iff_eq]
    constructor
    · rintro ⟨h, rfl⟩
      exact ⟨rfl, h.2.2.1⟩
    · rintro ⟨rfl, h⟩
      refine ⟨⟨⟨[i], rfl⟩, by simp, h, ?_⟩, rfl⟩
      rintro s ⟨t, rfl⟩ h1 ⟨u, h2⟩ h3
      exfalso
      have := congrArg List.length h2
      simp only [List.length_append, List.length_singleton] at this
      cases t with
      | nil => exact h1 (by simp)
      | cons x t =>
        cases u with
        | nil => exact h3 (by simpa using h2)
        | cons y u => simp only [List.length_cons] at this; omega
  unfold inkParent
  rw [Option.bind_eq_some_iff]
  constructor
  · rintro ⟨r, hr, he⟩
    obtain ⟨rfl, hr⟩ := (hpi r).1 hr
    exact ⟨hr, (entityOf_iff kind isAst init k file hf e r).1 he⟩
  · rintro ⟨hr, he⟩
    exact ⟨q, (hpi q).2 ⟨rfl, hr⟩, (entityOf_iff kind isAst init k file hf e q).2 he⟩

theorem filterMap_idx (kind : α → AttrKind) (isAst : κ → Bool) (init : List Nat → φ) (k : AttrKind)
    (file n : Node α κ) (hf : OnItems file) (c : List Nat) (hn : file.at? c = some n) :
    (closestOf kind isAst init (.kind k) file c).map (·.node) = below kind k file c := by
  unfold closestOf below Node.entities
  rw [hn]
  simp only [List.map_filterMap, List.map_map]
  have hmem : ∀ e ∈ Node.closestIdx n, ∃ o i, e.1 = o ++ [i] ∧ file.InkAt (c ++ e.1) e.2 := by
    intro e he
    have h := (Node.mem_closestIdx n e.1 e.2).1 he
    obtain ⟨o, i, ho⟩ := Node.closest_form n e.1 e.2 h
    obtain ⟨cs, hcs⟩ := h.1
    refine ⟨o, i, ho, cs, ?_⟩
    rw [Node.at?_append, hn]
    exact hcs
  generalize Node.closestIdx n = l at hmem
  induction l with
  | nil => rfl
  | cons x xs ih =>
    obtain ⟨o, i, ho, hink⟩ := hmem x (by simp)
    have ih' := ih fun e he => hmem e (by simp [he])
    rw [List.filterMap_cons, List.filter_cons]
    by_cases hk : kind x.2 = k
    · rw [ho, ← List.append_assoc] at hink ⊢
      obtain ⟨e, h1, _⟩ := C108_same kind isAst init k file hf (c ++ o) i x.2 hink hk
      obtain ⟨e', h1', h2'⟩ := (C108_derived kind isAst init k file hf (c ++ o ++ [i]) (c ++ o)).2
        (.inr ⟨i, x.2, rfl, hink, hk⟩)
      rw [h1'] 
      rw [if_pos (by simpa using hk), List.map_cons]
      simp only [Option.map_some, h2', Function.comp_def, ho, List.dropLast_concat]
      rw [ih']
      rfl
    · have hnone : cast kind isAst init (.kind k) file (c ++ x.1) = none := by
        rw [cast_kind, if_neg]
        rw [canCast_kind]
        rintro (⟨h, _⟩ | ⟨a, ha, hka⟩)
        · exact h (inkAt_isAttr _ _ _ hink)
        · obtain ⟨_, h1⟩ := ha
          obtain ⟨_, h2⟩ := hink
          rw [h1] at h2
          cases h2
          exact hk hka
      rw [hnone, if_neg (by simpa using hk)]
      exact ih'

/-- How many attributes a list of nodes has of a kind. -/
def attrsIn (kind : α → AttrKind) (k : AttrKind) (cs : List (Node α κ)) : Nat :=
  (cs.filter fun c =>
      match c with
      | .attr (some a) _ => kind a == k
      | _ => false).length

theorem inkIdx_path (cs : List (Node α κ)) (s : Nat) (e : List Nat × α) (h : e ∈ Node.inkIdx cs s) :
    ∃ j, e.1 = [j] := by
  obtain ⟨j, _, h, _⟩ := (Node.mem_inkIdx cs s e.1 e.2).1 h
  exact ⟨_, h⟩

theorem closestIdx_path (n : Node α κ) (e : List Nat × α) (h : e ∈ Node.closestIdx n) :
    ∃ o i, e.1 = o ++ [i] ∧ o ≠ [] := by
  obtain ⟨_, o, i, he, ho, _⟩ := (Node.mem_closestIdx n e.1 e.2).1 h
  exact ⟨o, i, he, ho⟩

/-- The predicate that is counted: an attribute of the kind on the node `p`. -/
def countedAt (kind : α → AttrKind) (k : AttrKind) (p : List Nat) (e : List Nat × α) : Bool :=
  kind e.2 == k && e.1.dropLast == p

theorem count_inkIdx (kind : α → AttrKind) (k : AttrKind) (cs : List (Node α κ)) (s : Nat) :
    (Node.inkIdx cs s).countP (countedAt kind k []) = attrsIn kind k cs := by
  induction cs generalizing s with
  | nil => rfl
  | cons c cs ih =>
    unfold Node.inkIdx attrsIn
    rw [List.countP_append, ih, List.filter_cons]
    unfold attrsIn
    cases c with
    | tok => simp [Node.ink?]
    | node => simp [Node.ink?]
    | attr x sub =>
      cases x with
      | none => simp [Node.ink?]
      | some a =>
        simp only [Node.ink?, List.countP_cons, List.countP_nil, countedAt, List.dropLast_singleton,
          beq_self_eq_true, Bool.and_true]
        split <;> simp <;> omega

theorem count_list (kind : α → AttrKind) (k : AttrKind) (cs : List (Node α κ)) (s j : Nat)
    (p : List Nat) (c : Node α κ) (hc : cs[j]? = some c) :
    (Node.closestIdxList cs s).countP (countedAt kind k ((s + j) :: p)) =
      (if !c.inkAttrs.isEmpty then Node.inkIdx c.children 0 else Node.closestIdx c).countP
        (countedAt kind k p) := by
  have hne (x : Node α κ) (e : List Nat × α)
      (he : e ∈ if !x.inkAttrs.isEmpty then Node.inkIdx x.children 0 else Node.closestIdx x) :
      ∃ a l, e.1 = a :: l := by
    split at he
    · obtain ⟨j, h⟩ := inkIdx_path _ _ _ he
      exact ⟨j, [], h⟩
    · obtain ⟨o, i, h, _⟩ := closestIdx_path _ _ he
      cases o with
      | nil => exact ⟨i, [], h⟩
      | cons a o => exact ⟨a, o ++ [i], h⟩
  have hhead (x : Node α κ) (s t : Nat) :
      ((if !x.inkAttrs.isEmpty then Node.inkIdx x.children 0 else Node.closestIdx x).map
        fun e : List Nat × α => (s :: e.1, e.2)).countP (countedAt kind k (t :: p)) =
      if s = t then (if !x.inkAttrs.isEmpty then Node.inkIdx x.children 0 else
        Node.closestIdx x).countP (countedAt kind k p) else 0 := by
    rw [List.countP_map]
    by_cases hst : s = t
    · rw [if_pos hst]
      apply List.countP_congr
      intro e he
      obtain ⟨a, l, hl⟩ := hne x e he
      simp [countedAt, hl, hst]
    · rw [if_neg hst, List.countP_eq_zero]
      intro e he
      obtain ⟨a, l, hl⟩ := hne x e he
      simp [countedAt, hl, hst]
  have hlater (cs : List (Node α κ)) (s t : Nat) (hst : t < s) :
      (Node.closestIdxList cs s).countP (countedAt kind k (t :: p)) = 0 := by
    induction cs generalizing s with
    | nil => rfl
    | cons x cs ih =>
      rw [Node.closestIdxList, List.countP_append, hhead, if_neg (by omega), ih (s + 1) (by omega)]
  induction cs generalizing s j with
  | nil => simp at hc
  | cons x cs ih =>
    rw [Node.closestIdxList, List.countP_append, hhead]
    cases j with
    | zero =>
      simp only [List.getElem?_cons_zero, Option.some.injEq] at hc
      subst hc
      rw [if_pos (by omega), hlater _ _ _ (by omega)]
      omega
    | succ j =>
      rw [if_neg (by omega), show s + (j + 1) = s + 1 + j by omega, ih (s + 1) j (by simpa using hc)]
      omega

theorem count_idx (kind : α → AttrKind) (k : AttrKind) (p : List Nat) (n m : Node α κ) (hp : p ≠ [])
    (hm : n.at? p = some m) (hno : n.NoneBetween [] p) :
    (Node.closestIdx n).countP (countedAt kind k p) = attrsIn kind k m.children := by
  induction p generalizing n with
  | nil => exact absurd rfl hp
  | cons j p ih =>
    rw [Node.at?_cons, Option.bind_eq_some_iff] at hm
    obtain ⟨c, hc, hm⟩ := hm
    have hun : Node.closestIdx n = Node.closestIdxList n.children 0 := by
      cases n with
      | tok => simp [Node.closestIdx, Node.children, Node.closestIdxList]
      | attr => simp [Node.closestIdx, Node.children]
      | node => simp [Node.closestIdx, Node.children]
    have := count_list kind k n.children 0 j p c hc
    rw [Nat.zero_add] at this
    rw [hun, this]
    by_cases hpn : p = []
    · subst hpn
      simp only [Node.at?, Option.some.injEq] at hm
      subst hm
      split
      · exact count_inkIdx kind k c.children 0
      · rename_i hempty
        have he : c.inkAttrs = [] := by simpa using hempty
        rw [List.countP_eq_zero.2]
        · unfold attrsIn
          rw [eq_comm, List.length_eq_zero_iff, List.filter_eq_nil_iff]
          intro x hx
          unfold Node.inkAttrs at he
          rw [List.filterMap_eq_nil_iff] at he
          have := he x hx
          cases x with
          | tok => simp
          | node => simp
          | attr a sub => simp only [Node.ink?] at this; subst this; simp
        · intro e he'
          obtain ⟨o, i, h, ho⟩ := closestIdx_path _ _ he'
          simp [countedAt, h, ho]
    · have hann : ¬ n.Annotated [j] :=
        hno [j] (List.nil_prefix) (by simp) (by simp) (by simpa using hpn)
      have hcn : c.inkAttrs = [] := by
        apply Classical.byContradiction
        intro hne
        refine hann ?_
        have hat : n.at? [j] = some c := by rw [Node.at?_cons, hc]; simp [Node.at?]
        have := (Node.annotated_append n c [j] [] hat).2 ((Node.annotated_nil_iff c).2 hne)
        simpa using this
      rw [if_neg (by simp [hcn])]
      refine ih c hpn hm ?_
      have hat : n.at? [j] = some c := by rw [Node.at?_cons, hc]; simp [Node.at?]
      intro r h1 h2 h3 h4 h5
      refine hno (j :: r) List.nil_prefix (by simp) ?_ (by simpa using h4) ?_
      · simpa using h3
      · exact (Node.annotated_append n c [j] r hat).2 h5

/-- The entities of a kind found below a node (storage, events, topics, contracts, tests): exactly
those that carry the attribute with no annotated node in between, and each as often as it carries the
attribute. -/
theorem C108_listed (kind : α → AttrKind) (isAst : κ → Bool) (init : List Nat → φ) (k : AttrKind)
    (file : Node α κ) (hf : OnItems file) (c : List Nat) (hc : ∃ n, file.at? c = some n)
    (p : List Nat) :
    (p ∈ (closestOf kind isAst init (.kind k) file c).map (·.node) ↔
      Inside file c p ∧ file.Carries kind k p) ∧
    (Inside file c p →
      ((closestOf kind isAst init (.kind k) file c).map (·.node)).count p =
        howMany kind k file p) := by
  obtain ⟨n, hn⟩ := hc
  rw [filterMap_idx kind isAst init k file n hf c hn]
  refine ⟨mem_below kind k file c p, ?_⟩
  rintro ⟨⟨r, rfl⟩, hne, hno⟩
  have hr : r ≠ [] := by rintro rfl; simp at hne
  have hno' := (Node.noneBetween_append file n c r hn).1 hno
  have hcount : (below kind k file c).count (c ++ r) =
      (Node.closestIdx n).countP (countedAt kind k r) := by
    unfold below Node.entities
    rw [hn]
    simp only [List.count, List.countP_map, List.countP_filter]
    apply List.countP_congr
    intro e _
    simp [countedAt, and_comm]
  rw [hcount]
  unfold howMany
  rw [Node.at?_append, hn]
  simp only [Option.bind_some]
  cases hm : n.at? r with
  | none =>
    rw [List.countP_eq_zero]
    intro e he
    simp only [countedAt, Bool.and_eq_true, beq_iff_eq, not_and]
    intro _ hd
    obtain ⟨cs, hcs⟩ := ((Node.mem_closestIdx n e.1 e.2).1 he).1
    obtain ⟨o, i, ho, _⟩ := closestIdx_path n e he
    rw [ho, List.dropLast_concat] at hd
    subst hd
    rw [ho, Node.at?_append, hm] at hcs
    simp at hcs
  | some m => exact count_idx kind k r n m hr hm hno'

/-- An ink! impl is derived from its item only, never from an attribute: none is ever found by going
through ink! attributes. -/
theorem C108_impl (kind : α → AttrKind) (sh : Shape κ) (implements : List Nat → Bool)
    (isAst : κ → Bool) (init : List Nat → φ) (file : Node α κ) (hf : OnItems file) :
    (∀ p, (∃ e, cast kind isAst init (implConfig kind sh implements file) file p = some e) ↔
      IsInkImpl kind sh implements file p) ∧
    (∀ p, IsAttr file p →
      cast kind isAst init (implConfig kind sh implements file) file p = none) ∧
    (∀ attrs, (∀ p ∈ attrs, IsAttr file p) →
      entitiesOf kind isAst init (implConfig kind sh implements file) file attrs = []) := by
  have h1 (p : List Nat) :
      (∃ e, cast kind isAst init (implConfig kind sh implements file) file p = some e) ↔
        IsInkImpl kind sh implements file p := by
    rw [← Option.isSome_iff_exists, C108_agree]
    exact canCastImpl_iff kind sh implements file p
  have h2 (p : List Nat) (hp : IsAttr file p) :
      cast kind isAst init (implConfig kind sh implements file) file p = none := by
    cases hc : cast kind isAst init (implConfig kind sh implements file) file p with
    | none => rfl
    | some e =>
      rcases (h1 p).1 ⟨e, hc⟩ with ⟨i, a, ha, _⟩ | ⟨⟨k', cs', hk, _⟩, _⟩
      · obtain ⟨q', i', he, h⟩ := hf _ (inkAt_isAttr _ _ _ ha)
        obtain ⟨rfl, _⟩ := List.append_inj' he rfl
        exact absurd hp h
      · obtain ⟨a, cs, ha⟩ := hp
        rw [ha] at hk
        cases hk
  refine ⟨h1, h2, fun attrs hattrs => ?_⟩
  unfold entitiesOf
  rw [List.filterMap_eq_nil_iff]
  exact fun p hp => h2 p (hattrs p hp)

/-- A file is derived from the node of the file alone. -/
theorem C108_file (kind : α → AttrKind) (isAst : κ → Bool) (init : List Nat → φ) (file : Node α κ)
    (p : List Nat) (e : Entity α φ) :
    cast kind isAst init .ast file p = some e ↔
      KindIs isAst file p ∧ e = ⟨p, true, none, init p⟩ := by
  have hc : cast kind isAst init .ast file p = if kindAt isAst file p = true then
      some (selfDef kind isAst init .ast file (rootNode file p)) else none := rfl
  rw [hc]
  by_cases h : kindAt isAst file p = true
  · have hp : ¬ IsAttr file p := by
      rintro ⟨a, cs, ha⟩
      obtain ⟨k', cs', hk, _⟩ := (kindAt_iff _ _ _).1 h
      rw [ha] at hk
      cases hk
    rw [if_pos h, rootNode_other file p hp]
    simp only [selfDef, h, attrInit, ← kindAt_iff, true_and, Option.some.injEq]
    exact eq_comm
  · rw [if_neg h, ← kindAt_iff]
    simp [h]

/-! ## Examples and findings -/

/-- `#[ink::contract] mod c { #[ink(event)] #[ink(event)] #[ink(anonymous)] struct E;
#[ink(impl)] impl C {} }`. -/
def sampleFile : Node AttrKind Syn :=
  .node .file [.node .mod [.attr (some (.macro .contract)) [], .node .list [
    .node .strukt [.attr none [], .attr (some (.arg .event)) [], .attr (some (.arg .event)) [],
      .attr (some (.arg .anonymous)) []],
    .node .impl [.attr (some (.arg .impl)) [], .node .list []]]]]

mutual

/-- No attribute is a child of an attribute. -/
def plain : Node α κ → Bool
  | .tok _ => true
  | .attr _ cs => cs.all (fun c => !c.isAttr) && plainAll cs
  | .node _ cs => plainAll cs

/-- The same for each of a list of nodes. -/
def plainAll : List (Node α κ) → Bool
  | [] => true
  | c :: cs => plain c && plainAll cs

end

theorem plain_of_mem (cs : List (Node α κ)) (h : plainAll cs = true) (c : Node α κ) (hc : c ∈ cs) :
    plain c = true := by
  induction cs with
  | nil => simp at hc
  | cons x cs ih =>
    simp only [plainAll, Bool.and_eq_true] at h
    rcases List.mem_cons.1 hc with rfl | hc
    · exact h.1
    · exact ih h.2 hc

theorem plain_child (n c : Node α κ) (i : Nat) (h : plain n = true) (hc : n.children[i]? = some c) :
    plain c = true ∧ (n.isAttr = true → c.isAttr = false) := by
  have hm := List.mem_of_getElem? hc
  cases n with
  | tok => simp [Node.children] at hc
  | node k cs => exact ⟨plain_of_mem cs h c hm, by simp [Node.isAttr]⟩
  | attr a cs =>
    simp only [plain, Bool.and_eq_true] at h
    exact ⟨plain_of_mem cs h.2 c hm, fun _ => by simpa using List.all_eq_true.1 h.1 c hm⟩

theorem plain_at (n m : Node α κ) (p : List Nat) (h : plain n = true) (hm : n.at? p = some m) :
    plain m = true := by
  induction p generalizing n with
  | nil => simp only [Node.at?, Option.some.injEq] at hm; exact hm ▸ h
  | cons i p ih =>
    rw [Node.at?_cons, Option.bind_eq_some_iff] at hm
    obtain ⟨c, hc, hm⟩ := hm
    exact ih c (plain_child n c i h hc).1 hm

theorem onItems_of (file : Node α κ) (h1 : file.isAttr = false) (h2 : plain file = true) :
    OnItems file := by
  rintro p ⟨a, cs, hp⟩
  rcases List.eq_nil_or_concat p with rfl | ⟨q, i, rfl⟩
  · simp only [Node.at?, Option.some.injEq] at hp
    subst hp
    simp [Node.isAttr] at h1
  · refine ⟨q, i, by simp, ?_⟩
    rintro ⟨b, cs', hq⟩
    rw [List.concat_eq_append, Node.at?_append, hq] at hp
    simp only [Option.bind_some] at hp
    rw [Node.at?_cons, Option.bind_eq_some_iff] at hp
    obtain ⟨c, hc, hp⟩ := hp
    simp only [Node.at?, Option.some.injEq] at hp
    have := (plain_child _ c i (plain_at file _ q h2 hq) hc).2 rfl
    rw [hp] at this
    simp [Node.isAttr] at this

example : OnItems sampleFile := onItems_of _ (by decide) (by decide)

example : sampleFile.Carries id (.arg .event) [0, 1, 0] ∧
    (cast id (· == .strukt) (fun _ => ()) (.kind (.arg .event)) sampleFile [0, 1, 0, 2]).map
      (fun e => (e.node, e.ast, e.inkAttr)) =
        some ([0, 1, 0], true, some ([0, 1, 0, 1], .arg .event)) :=
  ⟨⟨1, _, ⟨_, rfl⟩, rfl⟩, by decide⟩

example : (inkParent id syn (· == .mod) (fun _ => ()) (.kind (.macro .contract)) sampleFile
    [0, 1, 0]).map (·.node) = some [0] := by decide

/-- From the attribute `#[ink(anonymous)]` to its event, and not to the contract around it. -/
example : IsAttr sampleFile ([0, 1, 0] ++ [3]) ∧
    (inkParent id syn (· == .strukt) (fun _ => ()) (.kind (.arg .event)) sampleFile
      [0, 1, 0, 3]).map (·.node) = some [0, 1, 0] ∧
    inkParent id syn (· == .mod) (fun _ => ()) (.kind (.macro .contract)) sampleFile
      [0, 1, 0, 3] = none :=
  ⟨⟨_, _, rfl⟩, by decide, by decide⟩

example : (cast id (· == .file) (fun _ => ()) .ast sampleFile []).map (·.node) = some [] := by decide

/-- Finding: what the documentation of the entities says of `cast`, that the node can be an attribute
or an item, does not hold of ink! impls. The impl is there, but not from its own attribute. -/
theorem C108_negation_impl : ∃ (file : Node AttrKind Syn) (p : List Nat) (i : Nat),
    OnItems file ∧ file.InkAt (p ++ [i]) (.arg .impl) ∧
      (cast id (· == .impl) (fun _ => ()) (implConfig id syn (fun _ => false) file) file p).isSome ∧
      (cast id (· == .impl) (fun _ => ()) (implConfig id syn (fun _ => false) file) file
        (p ++ [i])).isNone ∧
      inkParent id syn (· == .impl) (fun _ => ()) (implConfig id syn (fun _ => false) file) file
        (p ++ [1]) = none :=
  ⟨sampleFile, [0, 1, 1], 0, onItems_of _ (by decide) (by decide), ⟨_, rfl⟩, by decide, by decide,
    rfl⟩

/-- Finding: an item with the same attribute twice is listed twice among the entities of a contract,
and so the rules for it are run twice, and whatever they report is reported twice. -/
theorem C108_negation_twice : ∃ (file : Node AttrKind Syn) (c p : List Nat),
    OnItems file ∧
      (closestOf id (· == .strukt) (fun _ => ()) (.kind (.arg .event)) file c).map (·.node) =
        [p, p] ∧
      (visits id syn (fun _ => false) .v5 file).count (.arg .event, p) = 2 :=
  ⟨sampleFile, [0], [0, 1, 0], onItems_of _ (by decide) (by decide), by decide, by decide⟩

end Verif.Analyzer.Cast
