import Verif.Analyzer.Walk
import Verif.Analyzer.ScopeProps

/-!
# C84: every ink! item is checked by its rules or reported as misplaced
-/

namespace Verif.Analyzer.Walk

open Verif.Ir

variable {α κ : Type}

/-! ## Specification -/

/-- `p` lies below `q` with no annotated node strictly in between. -/
def Inside (file : Node α κ) (q p : List Nat) : Prop := q <+: p ∧ q ≠ p ∧ file.NoneBetween q p

/-- The node at `p` has a kind with the property. -/
def KindIs (test : κ → Bool) (file : Node α κ) (p : List Nat) : Prop :=
  ∃ k cs, file.at? p = some (.node k cs) ∧ test k = true

/-- `p` is a function of the trait at `t`: a child of its (first) list of members. -/
def Member (sh : Shape κ) (file : Node α κ) (t p : List Nat) : Prop :=
  ∃ i j, p = t ++ [i, j] ∧ KindIs sh.isTrait file t ∧ KindIs sh.isList file (t ++ [i]) ∧
    (∀ i' < i, ¬ KindIs sh.isList file (t ++ [i'])) ∧ KindIs sh.isFn file p

/-- The item at `p` carries an attribute of kind `k` and stands where ink! expects such an entity:
macros at the top or in a contract, parts of a contract in a contract, constructors and messages in
a contract or in an ink! impl of a contract, topics in events, messages in trait definitions,
functions in chain extensions. -/
inductive Placed (kind : α → AttrKind) (sh : Shape κ) (v : Version) (file : Node α κ) :
    AttrKind → List Nat → Prop
  | top (k p) : k ∈ [.macro .contract, .macro .event, .macro .traitDefinition,
      .macro .chainExtension, .macro .storageItem, .macro .test, .macro .e2eTest] →
      Inside file [] p → file.Carries kind k p → Placed kind sh v file k p
  | contract (c k p) : Placed kind sh v file (.macro .contract) c → Inside file c p →
      k ∈ [.arg .storage, .arg .event, .arg .constructor, .arg .message, .macro .event,
        .macro .traitDefinition, .macro .chainExtension, .macro .storageItem, .macro .test,
        .macro .e2eTest] → file.Carries kind k p → Placed kind sh v file k p
  | annotated (c p) : Placed kind sh v file (.macro .contract) c → Inside file c p →
      file.Carries kind (.arg .impl) p → KindIs sh.isItem file p →
      Placed kind sh v file (.arg .impl) p
  | impl (c q k p) : Placed kind sh v file (.macro .contract) c → Inside file c q →
      file.LooksLikeImpl kind sh.isImpl q → Inside file q p →
      k ∈ [.arg .constructor, .arg .message] → file.Carries kind k p → Placed kind sh v file k p
  | topic (k e p) : k ∈ [.arg .event, .macro .event] → Placed kind sh v file k e →
      Inside file e p → file.Carries kind (.arg .topic) p → Placed kind sh v file (.arg .topic) p
  | trait (t p) : Placed kind sh v file (.macro .traitDefinition) t →
      Inside file t p ∨ Member sh file t p → file.Carries kind (.arg .message) p →
      Placed kind sh v file (.arg .message) p
  | extension (t p) : Placed kind sh v file (.macro .chainExtension) t → Inside file t p →
      file.Carries kind (.arg .extension) p → Placed kind sh v file (.arg .extension) p
  | member (t k p) : Placed kind sh v file (.macro .chainExtension) t → Member sh file t p →
      (v = .v4 ∧ k = .arg .extension) ∨ (v = .v5 ∧ k = .arg .function) →
      file.Carries kind k p → Placed kind sh v file k p

/-- `p` is the closest item around `f`. -/
def ItemAround (sh : Shape κ) (file : Node α κ) (f p : List Nat) : Prop :=
  p <+: f ∧ p ≠ f ∧ KindIs sh.isItem file p ∧
    ∀ r, p <+: r → r ≠ p → r <+: f → r ≠ f → ¬ KindIs sh.isItem file r

/-- The node at `f` carries a constructor or message attribute. -/
def Callable (kind : α → AttrKind) (file : Node α κ) (f : List Nat) : Prop :=
  file.Carries kind (.arg .constructor) f ∨ file.Carries kind (.arg .message) f

/-- The item at `p` is found as an ink! impl of the contract at `c`: it is an `impl` directly below
the node of the contract, an item annotated like an impl in the contract, or the `impl` around a
constructor or message function of the contract. -/
def ImplOf (kind : α → AttrKind) (sh : Shape κ) (file : Node α κ) (c p : List Nat) : Prop :=
  (KindIs sh.isImpl file p ∧ ∃ i, p = c ++ [i]) ∨
  (Inside file c p ∧ file.LooksLikeImpl kind sh.isImpl p ∧ KindIs sh.isItem file p) ∨
  (KindIs sh.isImpl file p ∧ ∃ f, Inside file c f ∧ Callable kind file f ∧
    KindIs sh.isFn file f ∧ ItemAround sh file f p)

/-- The item at `p` is an ink! impl: it is annotated so, or it is an `impl` item with an ink!
constructor or message, or one that implements an ink! trait definition. -/
def IsInkImpl (kind : α → AttrKind) (sh : Shape κ) (implements : List Nat → Bool) (file : Node α κ)
    (p : List Nat) : Prop :=
  file.Carries kind (.arg .impl) p ∨
    (KindIs sh.isImpl file p ∧
      ((∃ f, Inside file p f ∧ Callable kind file f) ∨ implements p = true))

/-- The kinds of attributes whose items have rules of their own. -/
def defining : List AttrKind :=
  [.macro .contract, .macro .event, .macro .traitDefinition, .macro .chainExtension,
   .macro .storageItem, .macro .test, .macro .e2eTest, .arg .storage, .arg .event, .arg .impl,
   .arg .constructor, .arg .message, .arg .topic, .arg .extension, .arg .function]

/-- The leading attribute `a` of the item at `o`. -/
def LeadBy (kind : α → AttrKind) (file : Node α κ) (o : List Nat) (a : α) : Prop :=
  ∃ i, file.InkAt (o ++ [i]) a ∧ Leads kind file o i a

/-- The leading attribute of the annotated node at `o` has rules of its own; an ink! impl is an item
and a `function` is a function of the enclosing ink! trait. -/
def Regular (kind : α → AttrKind) (sh : Shape κ) (file : Node α κ) (o : List Nat) : Prop :=
  ∃ a, LeadBy kind file o a ∧ kind a ∈ defining ∧
    (kind a = .arg .impl → KindIs sh.isItem file o) ∧
    (kind a = .arg .function → ∀ t, t ≠ [] → file.Annotated t → Inside file t o →
      Member sh file t o)

/-! ## Lemmas -/

theorem kindAt_iff (test : κ → Bool) (file : Node α κ) (p : List Nat) :
    kindAt test file p = true ↔ KindIs test file p := by
  unfold kindAt KindIs
  cases file.at? p with
  | none => simp
  | some c => cases c <;> simp

theorem kindIs_append (test : κ → Bool) (file n : Node α κ) (c p : List Nat)
    (h : file.at? c = some n) : KindIs test file (c ++ p) ↔ KindIs test n p := by
  unfold KindIs
  simp only [Node.at?_append, h, Option.bind_some]

theorem carries_at (kind : α → AttrKind) (k : AttrKind) (file : Node α κ) (q r : List Nat)
    (h : file.Carries kind k (q ++ r)) : ∃ n, file.at? q = some n := by
  obtain ⟨i, a, ⟨cs, h⟩, _⟩ := h
  rw [List.append_assoc] at h
  exact Node.at?_prefix file _ q _ h

theorem inside_append (file n : Node α κ) (q r : List Nat) (h : file.at? q = some n) :
    Inside file q (q ++ r) ↔ r ≠ [] ∧ n.NoneBetween [] r := by
  unfold Inside
  rw [Node.noneBetween_append file n q r h]
  constructor
  · rintro ⟨_, h1, h2⟩
    exact ⟨by rintro rfl; simp at h1, h2⟩
  · rintro ⟨h1, h2⟩
    exact ⟨List.prefix_append _ _, fun he => h1 (by simpa using he.symm), h2⟩

theorem inside_nil (file : Node α κ) (p : List Nat) :
    Inside file [] p ↔ p ≠ [] ∧ file.NoneBetween [] p := by
  unfold Inside
  constructor
  · rintro ⟨_, h1, h2⟩
    exact ⟨fun he => h1 he.symm, h2⟩
  · rintro ⟨h1, h2⟩
    exact ⟨List.nil_prefix, fun he => h1 he.symm, h2⟩

theorem mem_file (kind : α → AttrKind) (k : AttrKind) (file : Node α κ) (p : List Nat) :
    p ∈ file.entities kind k ↔ Inside file [] p ∧ file.Carries kind k p := by
  rw [Node.mem_entities, inside_nil]
  exact ⟨fun h => ⟨⟨h.1, h.2.2⟩, h.2.1⟩, fun h => ⟨h.1.1, h.2, h.1.2⟩⟩

theorem mem_below (kind : α → AttrKind) (k : AttrKind) (file : Node α κ) (q p : List Nat) :
    p ∈ below kind k file q ↔ Inside file q p ∧ file.Carries kind k p := by
  unfold below
  constructor
  · intro h
    cases hq : file.at? q with
    | none => rw [hq] at h; simp at h
    | some n =>
      rw [hq] at h
      obtain ⟨r, hr, rfl⟩ := List.mem_map.1 h
      obtain ⟨h1, h2, h3⟩ := (Node.mem_entities kind k n r).1 hr
      exact ⟨(inside_append file n q r hq).2 ⟨h1, h3⟩, (Node.carries_append kind k file n q r hq).2 h2⟩
  · rintro ⟨hi, hc⟩
    obtain ⟨r, rfl⟩ := hi.1
    obtain ⟨n, hq⟩ := carries_at kind k file q r hc
    rw [hq]
    obtain ⟨h1, h3⟩ := (inside_append file n q r hq).1 hi
    exact List.mem_map.2 ⟨r, (Node.mem_entities kind k n r).2
      ⟨h1, (Node.carries_append kind k file n q r hq).1 hc, h3⟩, rfl⟩

theorem looks_append (kind : α → AttrKind) (isImpl : κ → Bool) (file n : Node α κ) (c q : List Nat)
    (h : file.at? c = some n) :
    file.LooksLikeImpl kind isImpl (c ++ q) ↔ n.LooksLikeImpl kind isImpl q := by
  unfold Node.LooksLikeImpl
  simp only [Node.carries_append kind _ file n c q h, Node.at?_append, h, Option.bind_some]

theorem mem_callablesBelow (kind : α → AttrKind) (sh : Shape κ) (k : AttrKind) (file : Node α κ)
    (hk : k = .arg .constructor ∨ k = .arg .message) (c p : List Nat) :
    p ∈ callablesBelow kind sh k file c ↔ file.Carries kind k p ∧ (Inside file c p ∨
      ∃ q, Inside file c q ∧ file.LooksLikeImpl kind sh.isImpl q ∧ Inside file q p) := by
  unfold callablesBelow
  constructor
  · intro h
    cases hc : file.at? c with
    | none => rw [hc] at h; simp at h
    | some n =>
      rw [hc] at h
      obtain ⟨r, hr, rfl⟩ := List.mem_map.1 h
      obtain ⟨h1, h2, h3⟩ := ((Node.C62_callables kind sh.isImpl k n hk).2 r).1 hr
      refine ⟨(Node.carries_append kind k file n c r hc).2 h2, ?_⟩
      rcases h3 with h3 | ⟨q, hq, ⟨s, rfl⟩, hqp, hl, hn, hn2⟩
      · exact .inl ((inside_append file n c r hc).2 ⟨h1, h3⟩)
      · refine .inr ⟨c ++ q, (inside_append file n c q hc).2 ⟨hq, hn⟩,
          (looks_append kind sh.isImpl file n c q hc).2 hl, ?_⟩
        obtain ⟨m, hm⟩ := carries_at kind k n q s h2
        have hm' : file.at? (c ++ q) = some m := by rw [Node.at?_append, hc]; exact hm
        rw [← List.append_assoc, inside_append file m (c ++ q) s hm']
        refine ⟨?_, (Node.noneBetween_append n m q s hm).1 hn2⟩
        rintro rfl
        simp at hqp
  · rintro ⟨hcar, h⟩
    have hpre : c <+: p := by
      rcases h with h | ⟨q, h1, _, h2⟩
      · exact h.1
      · exact h1.1.trans h2.1
    obtain ⟨r, rfl⟩ := hpre
    obtain ⟨n, hc⟩ := carries_at kind k file c r hcar
    rw [hc]
    refine List.mem_map.2 ⟨r, ((Node.C62_callables kind sh.isImpl k n hk).2 r).2 ?_, rfl⟩
    have hcar' := (Node.carries_append kind k file n c r hc).1 hcar
    rcases h with h | ⟨q, h1, hl, h2⟩
    · obtain ⟨ha, hb⟩ := (inside_append file n c r hc).1 h
      exact ⟨ha, hcar', .inl hb⟩
    · obtain ⟨q, rfl⟩ := h1.1
      obtain ⟨ha, hb⟩ := (inside_append file n c q hc).1 h1
      obtain ⟨s, hs⟩ := h2.1
      rw [List.append_assoc] at hs
      have hs := List.append_cancel_left hs
      subst hs
      obtain ⟨m, hm⟩ := carries_at kind k n q s hcar'
      have hm' : file.at? (c ++ q) = some m := by rw [Node.at?_append, hc]; exact hm
      rw [← List.append_assoc, inside_append file m (c ++ q) s hm'] at h2
      refine ⟨by simp [ha], hcar', .inr ⟨q, ha, List.prefix_append _ _, ?_,
        (looks_append kind sh.isImpl file n c q hc).1 hl, hb,
        (Node.noneBetween_append n m q s hm).2 h2.2⟩⟩
      intro he
      exact h2.1 (by simpa using he.symm)

theorem mem_peeked (kind : α → AttrKind) (k : AttrKind) (file : Node α κ)
    (hk : k ≠ .macro .contract) (p : List Nat) :
    p ∈ peeked kind k file ↔ file.Carries kind k p ∧ (Inside file [] p ∨
      ∃ c, Inside file [] c ∧ file.Carries kind (.macro .contract) c ∧ Inside file c p) := by
  unfold peeked
  rw [Node.mem_uniqueBy_id, List.mem_flatMap]
  constructor
  · rintro ⟨⟨e, a⟩, he, hp⟩
    rw [Node.mem_closestIdx] at he
    obtain ⟨o, i, rfl⟩ := Node.closest_form file e a he
    obtain ⟨h1, h2, h3⟩ := (Node.isClosest_concat file o i a).1 he
    unfold peekStep at hp
    by_cases hka : kind a = k
    · rw [if_pos (by simpa using hka)] at hp
      simp only [List.dropLast_concat, List.mem_singleton] at hp
      subst hp
      exact ⟨⟨i, a, h2, hka⟩, .inl ((inside_nil file p).2 ⟨h1, h3⟩)⟩
    · rw [if_neg (by simpa using hka)] at hp
      by_cases hc : kind a = .macro .contract
      · rw [if_pos (by simpa using hc)] at hp
        simp only [List.dropLast_concat] at hp
        obtain ⟨h4, h5⟩ := (mem_below kind k file o p).1 hp
        exact ⟨h5, .inr ⟨o, (inside_nil file o).2 ⟨h1, h3⟩, ⟨i, a, h2, hc⟩, h4⟩⟩
      · rw [if_neg (by simpa using hc)] at hp
        simp at hp
  · rintro ⟨hcar, h | ⟨c, hc, ⟨i, a, hi, ha⟩, hp⟩⟩
    · obtain ⟨h1, h3⟩ := (inside_nil file p).1 h
      obtain ⟨i, a, hi, ha⟩ := hcar
      refine ⟨(p ++ [i], a), (Node.mem_closestIdx file _ a).2
        ((Node.isClosest_concat file p i a).2 ⟨h1, hi, h3⟩), ?_⟩
      unfold peekStep
      rw [if_pos (by simpa using ha)]
      simp
    · obtain ⟨h1, h3⟩ := (inside_nil file c).1 hc
      refine ⟨(c ++ [i], a), (Node.mem_closestIdx file _ a).2
        ((Node.isClosest_concat file c i a).2 ⟨h1, hi, h3⟩), ?_⟩
      unfold peekStep
      have hne : kind a ≠ k := by rw [ha]; exact fun h => hk h.symm
      rw [if_neg (by simpa using hne), if_pos (by simpa using ha)]
      simp only [List.dropLast_concat]
      exact (mem_below kind k file c p).2 ⟨hp, hcar⟩

theorem any_attrsAt (kind : α → AttrKind) (k : AttrKind) (file : Node α κ) (p : List Nat) :
    ((file.inkAttrsAt p).any fun a => kind a == k) = true ↔ file.Carries kind k p := by
  unfold Node.inkAttrsAt Node.Carries Node.InkAt
  rw [List.any_eq_true]
  constructor
  · rintro ⟨a, ha, hk⟩
    cases hp : file.at? p with
    | none => rw [hp] at ha; simp at ha
    | some n =>
      rw [hp] at ha
      obtain ⟨c, hc, hca⟩ := List.mem_filterMap.1 ha
      obtain ⟨i, hi⟩ := List.getElem?_of_mem hc
      cases c with
      | tok => simp [Node.ink?] at hca
      | node => simp [Node.ink?] at hca
      | attr b cs =>
        simp only [Node.ink?] at hca
        subst hca
        refine ⟨i, a, ⟨cs, ?_⟩, by simpa using hk⟩
        rw [Node.at?_append, hp, Option.bind_some, Node.at?_cons, hi]
        rfl
  · rintro ⟨i, a, ⟨cs, h⟩, hk⟩
    obtain ⟨n, hp⟩ := Node.at?_prefix file _ p [i] h
    rw [Node.at?_append, hp, Option.bind_some, Node.at?_cons] at h
    rw [hp]
    cases hi : n.children[i]? with
    | none => rw [hi] at h; simp at h
    | some c =>
      rw [hi] at h
      have hc : c = .attr (some a) cs := by simpa [Node.at?] using h
      exact ⟨a, List.mem_filterMap.2 ⟨c, List.mem_of_getElem? hi, by rw [hc]; rfl⟩, by simpa using hk⟩

theorem kindIs_lt (test : κ → Bool) (file n : Node α κ) (p : List Nat) (i : Nat)
    (hp : file.at? p = some n) (h : KindIs test file (p ++ [i])) : i < n.children.length := by
  obtain ⟨k, cs, h, _⟩ := h
  rw [Node.at?_append, hp, Option.bind_some, Node.at?_cons] at h
  cases hi : n.children[i]? with
  | none => rw [hi] at h; simp at h
  | some c => exact (List.getElem?_eq_some_iff.1 hi).1

theorem kindIs_at (test : κ → Bool) (file : Node α κ) (p r : List Nat)
    (h : KindIs test file (p ++ r)) : ∃ n, file.at? p = some n := by
  obtain ⟨k, cs, h, _⟩ := h
  exact Node.at?_prefix file _ p r h

theorem mem_members (kind : α → AttrKind) (sh : Shape κ) (k : AttrKind) (file : Node α κ)
    (t p : List Nat) :
    p ∈ members kind sh k file t ↔ Member sh file t p ∧ file.Carries kind k p := by
  unfold members
  by_cases ht : kindAt sh.isTrait file t = true
  · rw [if_pos ht]
    rw [kindAt_iff] at ht
    obtain ⟨n, hn⟩ := kindIs_at sh.isTrait file t [] (by simpa using ht)
    unfold assocList
    rw [hn]
    constructor
    · intro h
      simp only at h
      split at h
      · rename_i i hi
        split at h
        · rename_i l hl
          obtain ⟨j, hj, rfl⟩ := List.mem_map.1 h
          obtain ⟨_, hj⟩ := List.mem_filter.1 hj
          rw [Bool.and_eq_true, kindAt_iff, any_attrsAt] at hj
          refine ⟨⟨i, j, rfl, ht, ?_, ?_, hj.1⟩, hj.2⟩
          · have := List.find?_some hi
            exact (kindAt_iff _ _ _).1 this
          · intro i' hlt hk
            obtain ⟨_, as, bs, hsp, hno⟩ := List.find?_eq_some_iff_append.1 hi
            have hlen : as.length = i := by
              have := congrArg (fun l => l[as.length]?) hsp
              simp only [List.getElem?_append_right (Nat.le_refl _), Nat.sub_self,
                List.getElem?_cons_zero] at this
              have h2 := List.getElem?_eq_some_iff.1 this
              obtain ⟨h2, h3⟩ := h2
              simpa using h3
            have hmem : i' ∈ as := by
              have hi' : i' < n.children.length := kindIs_lt _ file n t i' hn hk
              have h1 : (List.range n.children.length)[i']? = some i' := by simp [hi']
              rw [hsp, List.getElem?_append_left (by omega)] at h1
              exact List.mem_of_getElem? h1
            have := hno i' hmem
            rw [(kindAt_iff sh.isList file (t ++ [i'])).2 hk] at this
            simp at this
        · simp at h
      · simp at h
    · rintro ⟨⟨i, j, rfl, _, hl, hno, hf⟩, hc⟩
      have hfind : (List.range n.children.length).find? (fun i => kindAt sh.isList file (t ++ [i])) =
          some i := by
        have hlt := kindIs_lt _ file n t i hn hl
        rw [List.find?_eq_some_iff_append]
        refine ⟨(kindAt_iff _ _ _).2 hl, List.range i, (List.range (n.children.length - i - 1)).map
          (· + (i + 1)), ?_, ?_⟩
        · have : n.children.length = i + (1 + (n.children.length - i - 1)) := by omega
          calc List.range n.children.length
              = List.range (i + (1 + (n.children.length - i - 1))) := by rw [← this]
            _ = _ := by
              rw [List.range_add, List.range_add, List.map_append]
              simp [Nat.add_comm, Nat.add_left_comm]
        · intro x hx
          rw [List.mem_range] at hx
          have := hno x hx
          rw [← kindAt_iff] at this
          simpa using this
      simp only [hfind]
      obtain ⟨l, hl'⟩ := kindIs_at sh.isList file (t ++ [i]) [] (by simpa using hl)
      rw [hl']
      refine List.mem_map.2 ⟨j, List.mem_filter.2 ⟨?_, ?_⟩, rfl⟩
      · rw [List.mem_range]
        have : KindIs sh.isFn file ((t ++ [i]) ++ [j]) := by simpa using hf
        exact kindIs_lt _ file l _ j hl' this
      · rw [Bool.and_eq_true, kindAt_iff, any_attrsAt]
        exact ⟨hf, hc⟩
  · rw [if_neg ht]
    constructor
    · intro h; simp at h
    · rintro ⟨⟨_, _, _, h, _⟩, _⟩
      exact absurd ((kindAt_iff _ _ _).2 h) ht


theorem closestItem_iff (sh : Shape κ) (file : Node α κ) (rf p : List Nat) :
    closestItem sh file rf = some p ↔ ItemAround sh file rf.reverse p := by
  induction rf with
  | nil =>
    unfold closestItem ItemAround
    constructor
    · intro h; simp at h
    · rintro ⟨h1, h2, _⟩
      exact absurd (List.prefix_nil.1 h1) h2
  | cons x rf ih =>
    unfold closestItem
    have hlast : ∀ r, r <+: (x :: rf).reverse → r ≠ (x :: rf).reverse → r <+: rf.reverse := by
      intro r h1 h2
      rw [List.reverse_cons] at h1 h2
      rcases List.prefix_concat_iff.1 h1 with h | h
      · exact absurd h h2
      · exact h
    by_cases hk : kindAt sh.isItem file rf.reverse = true
    · rw [if_pos hk]
      rw [kindAt_iff] at hk
      have hne : rf.reverse ≠ (x :: rf).reverse := by
        intro h
        have := congrArg List.length h
        simp at this
      have hpre : rf.reverse <+: (x :: rf).reverse := by
        rw [List.reverse_cons]; exact List.prefix_append _ _
      constructor
      · intro h
        cases h
        refine ⟨hpre, hne, hk, fun r h1 h2 h3 h4 => ?_⟩
        have := hlast r h3 h4
        exact absurd (List.IsPrefix.eq_of_length h1 (Nat.le_antisymm h1.length_le this.length_le)).symm h2
      · rintro ⟨h1, h2, h3, h4⟩
        by_cases he : p = rf.reverse
        · rw [he]
        · exact absurd hk (h4 rf.reverse (hlast p h1 h2) (fun h => he h.symm) hpre hne)
    · rw [if_neg hk, ih]
      rw [kindAt_iff] at hk
      constructor
      · rintro ⟨h1, h2, h3, h4⟩
        refine ⟨h1.trans (by rw [List.reverse_cons]; exact List.prefix_append _ _), ?_, h3, ?_⟩
        · intro he
          have := h1.length_le
          rw [he] at this
          simp at this
          omega
        · intro r h5 h6 h7 h8
          by_cases he : r = rf.reverse
          · rw [he]; exact hk
          · exact h4 r h5 h6 (hlast r h7 h8) he
      · rintro ⟨h1, h2, h3, h4⟩
        have hp := hlast p h1 h2
        refine ⟨hp, ?_, h3, ?_⟩
        · intro he
          exact hk (he ▸ h3)
        · intro r h5 h6 h7 h8
          refine h4 r h5 h6 (h7.trans (by rw [List.reverse_cons]; exact List.prefix_append _ _)) ?_
          intro he
          have := h7.length_le
          rw [he] at this
          simp at this
          omega

theorem parentImpl_iff (sh : Shape κ) (file : Node α κ) (f p : List Nat) :
    parentImpl sh file f = some p ↔
      KindIs sh.isFn file f ∧ ItemAround sh file f p ∧ KindIs sh.isImpl file p := by
  unfold parentImpl
  by_cases hf : kindAt sh.isFn file f = true
  · rw [if_pos hf, Option.filter_eq_some_iff, closestItem_iff, List.reverse_reverse, kindAt_iff]
    rw [kindAt_iff] at hf
    exact ⟨fun h => ⟨hf, h⟩, fun h => h.2⟩
  · rw [if_neg hf]
    rw [kindAt_iff] at hf
    exact ⟨fun h => (by simp at h), fun h => absurd h.1 hf⟩

theorem canCastImpl_iff (kind : α → AttrKind) (sh : Shape κ) (implements : List Nat → Bool)
    (file : Node α κ) (p : List Nat) :
    canCastImpl kind sh implements file p = true ↔ IsInkImpl kind sh implements file p := by
  unfold canCastImpl IsInkImpl
  rw [Bool.or_eq_true, any_attrsAt, Bool.and_eq_true, kindAt_iff, Bool.or_eq_true]
  refine or_congr_right (and_congr_right fun hk => or_congr_left ?_)
  obtain ⟨n, hn⟩ := kindIs_at sh.isImpl file p [] (by simpa using hk)
  rw [hn]
  obtain ⟨found, hf, hm, _⟩ := Node.C23_closest n
  simp only [hf, List.any_map, List.any_eq_true, Function.comp, Bool.or_eq_true, beq_iff_eq]
  constructor
  · rintro ⟨⟨q, a⟩, hq, ha⟩
    have hq := (hm q a).1 hq
    obtain ⟨o, i, rfl⟩ := Node.closest_form n q a hq
    obtain ⟨h1, h2, h3⟩ := (Node.isClosest_concat n o i a).1 hq
    refine ⟨p ++ o, (inside_append file n p o hn).2 ⟨h1, h3⟩, ?_⟩
    unfold Callable
    rw [Node.carries_append kind _ file n p o hn, Node.carries_append kind _ file n p o hn]
    exact ha.imp (fun h => ⟨i, a, h2, h⟩) (fun h => ⟨i, a, h2, h⟩)
  · rintro ⟨f, hi, hc⟩
    obtain ⟨o, rfl⟩ := hi.1
    obtain ⟨h1, h3⟩ := (inside_append file n p o hn).1 hi
    unfold Callable at hc
    rw [Node.carries_append kind _ file n p o hn, Node.carries_append kind _ file n p o hn] at hc
    rcases hc with ⟨i, a, h2, ha⟩ | ⟨i, a, h2, ha⟩
    · exact ⟨(o ++ [i], a), (hm _ _).2 ((Node.isClosest_concat n o i a).2 ⟨h1, h2, h3⟩), .inl ha⟩
    · exact ⟨(o ++ [i], a), (hm _ _).2 ((Node.isClosest_concat n o i a).2 ⟨h1, h2, h3⟩), .inr ha⟩

theorem implStep_iff (kind : α → AttrKind) (sh : Shape κ) (file n : Node α κ) (c p : List Nat)
    (hn : file.at? c = some n) :
    (∃ e ∈ Node.closestIdx n, implStep kind sh file n c e = some p) ↔
      (Inside file c p ∧ file.LooksLikeImpl kind sh.isImpl p ∧ KindIs sh.isItem file p) ∨
      (KindIs sh.isImpl file p ∧ ∃ f, Inside file c f ∧ Callable kind file f ∧
        KindIs sh.isFn file f ∧ ItemAround sh file f p) := by
  constructor
  · rintro ⟨⟨q, a⟩, hq, hs⟩
    rw [Node.mem_closestIdx] at hq
    obtain ⟨o, i, rfl⟩ := Node.closest_form n q a hq
    obtain ⟨h1, h2, h3⟩ := (Node.isClosest_concat n o i a).1 hq
    have hin := (inside_append file n c o hn).2 ⟨h1, h3⟩
    unfold implStep at hs
    simp only [List.dropLast_concat] at hs
    split at hs
    · rename_i hpk
      unfold ownItem at hs
      split at hs
      · rename_i hk
        cases hs
        rw [kindAt_iff] at hk
        exact .inl ⟨hin, (looks_append kind sh.isImpl file n c o hn).2
          ((Node.looksLikeImpl_iff kind sh.isImpl n o).2 ⟨i, a, h2, hpk⟩), hk⟩
      · simp at hs
    · split at hs
      · rename_i hk
        obtain ⟨h4, h5, h6⟩ := (parentImpl_iff sh file (c ++ o) p).1 hs
        exact .inr ⟨h6, c ++ o, hin, .inl ((Node.carries_append kind _ file n c o hn).2
          ⟨i, a, h2, by simpa using hk⟩), h4, h5⟩
      · split at hs
        · rename_i hk
          obtain ⟨h4, h5, h6⟩ := (parentImpl_iff sh file (c ++ o) p).1 hs
          exact .inr ⟨h6, c ++ o, hin, .inr ((Node.carries_append kind _ file n c o hn).2
            ⟨i, a, h2, by simpa using hk⟩), h4, h5⟩
        · simp at hs
  · rintro (⟨hin, hl, hk⟩ | ⟨himpl, f, hin, hc, hf, hitem⟩)
    · obtain ⟨o, rfl⟩ := hin.1
      obtain ⟨h1, h3⟩ := (inside_append file n c o hn).1 hin
      obtain ⟨i, a, h2, hpk⟩ := (Node.looksLikeImpl_iff kind sh.isImpl n o).1
        ((looks_append kind sh.isImpl file n c o hn).1 hl)
      refine ⟨(o ++ [i], a), (Node.mem_closestIdx n _ a).2
        ((Node.isClosest_concat n o i a).2 ⟨h1, h2, h3⟩), ?_⟩
      unfold implStep
      rw [if_pos hpk]
      simp only [List.dropLast_concat]
      unfold ownItem
      rw [if_pos ((kindAt_iff _ _ _).2 hk)]
    · obtain ⟨o, rfl⟩ := hin.1
      obtain ⟨h1, h3⟩ := (inside_append file n c o hn).1 hin
      have hpar := (parentImpl_iff sh file (c ++ o) p).2 ⟨hf, hitem, himpl⟩
      have key : ∀ k, k = AttrKind.arg .constructor ∨ k = AttrKind.arg .message →
          file.Carries kind k (c ++ o) →
          ∃ e ∈ Node.closestIdx n, implStep kind sh file n c e = some p := by
        intro k hk hcar
        rw [Node.carries_append kind _ file n c o hn] at hcar
        obtain ⟨i, a, h2, ha⟩ := hcar
        refine ⟨(o ++ [i], a), (Node.mem_closestIdx n _ a).2
          ((Node.isClosest_concat n o i a).2 ⟨h1, h2, h3⟩), ?_⟩
        unfold implStep Node.peekable
        simp only [List.dropLast_concat]
        rcases hk with rfl | rfl <;> simp [ha, AttrKind.isUnknown, hpar]
      rcases hc with hc | hc
      · exact key _ (.inl rfl) hc
      · exact key _ (.inr rfl) hc

theorem mem_implChildren (sh : Shape κ) (file n : Node α κ) (c p : List Nat)
    (hn : file.at? c = some n) :
    p ∈ implChildren sh n c ↔ KindIs sh.isImpl file p ∧ ∃ i, p = c ++ [i] := by
  unfold implChildren
  rw [List.mem_map]
  constructor
  · rintro ⟨i, hi, rfl⟩
    obtain ⟨_, hi⟩ := List.mem_filter.1 hi
    rw [kindAt_iff] at hi
    exact ⟨(kindIs_append sh.isImpl file n c [i] hn).2 hi, i, rfl⟩
  · rintro ⟨hk, i, rfl⟩
    refine ⟨i, List.mem_filter.2 ⟨List.mem_range.2 (kindIs_lt _ file n c i hn hk), ?_⟩, rfl⟩
    exact (kindAt_iff _ _ _).2 ((kindIs_append sh.isImpl file n c [i] hn).1 hk)

theorem mem_implsBelow (kind : α → AttrKind) (sh : Shape κ) (implements : List Nat → Bool)
    (file : Node α κ) (c p : List Nat) (hc : ∃ n, file.at? c = some n) :
    p ∈ implsBelow kind sh implements file c ↔
      ImplOf kind sh file c p ∧ IsInkImpl kind sh implements file p := by
  obtain ⟨n, hn⟩ := hc
  unfold implsBelow
  rw [hn]
  simp only
  rw [Node.mem_uniqueBy_id, List.mem_filter, canCastImpl_iff, List.mem_append, List.mem_filterMap,
    mem_implChildren sh file n c p hn, implStep_iff kind sh file n c p hn]
  rfl

theorem placed_contract (kind : α → AttrKind) (sh : Shape κ) (v : Version) (file : Node α κ)
    (c : List Nat) : Placed kind sh v file (.macro .contract) c ↔
      Inside file [] c ∧ file.Carries kind (.macro .contract) c := by
  constructor
  · intro h
    cases h with
    | top _ _ _ h1 h2 => exact ⟨h1, h2⟩
    | contract _ _ _ _ _ h _ => simp at h
    | impl _ _ _ _ _ _ _ _ h _ => simp at h
    | member _ _ _ _ _ h _ => simp at h
  · rintro ⟨h1, h2⟩
    exact .top _ _ (by simp) h1 h2

theorem mem_contracts (kind : α → AttrKind) (sh : Shape κ) (v : Version) (file : Node α κ)
    (c : List Nat) :
    c ∈ file.entities kind (.macro .contract) ↔ Placed kind sh v file (.macro .contract) c := by
  rw [mem_file, placed_contract]

/-- The macros found at the top and in contracts. -/
theorem mem_peeked_placed (kind : α → AttrKind) (sh : Shape κ) (v : Version) (file : Node α κ)
    (k : AttrKind) (hk : k ∈ [AttrKind.macro .event, .macro .traitDefinition,
      .macro .chainExtension, .macro .storageItem]) (p : List Nat) :
    p ∈ peeked kind k file ↔ Placed kind sh v file k p := by
  rw [mem_peeked kind k file (by rintro rfl; simp at hk)]
  constructor
  · rintro ⟨h1, h | ⟨c, hc, hc2, hp⟩⟩
    · exact .top _ _ (by simp at hk ⊢; rcases hk with rfl | rfl | rfl | rfl <;> simp) h h1
    · exact .contract c _ _ ((placed_contract kind sh v file c).2 ⟨hc, hc2⟩) hp
        (by simp at hk ⊢; rcases hk with rfl | rfl | rfl | rfl <;> simp) h1
  · intro h
    cases h with
    | top _ _ _ h1 h2 => exact ⟨h2, .inl h1⟩
    | contract c _ _ hc h1 _ h2 =>
      obtain ⟨hc1, hc2⟩ := (placed_contract kind sh v file c).1 hc
      exact ⟨h2, .inr ⟨c, hc1, hc2, h1⟩⟩
    | impl _ _ _ _ _ _ _ _ h _ => simp at h; rcases h with rfl | rfl <;> simp at hk
    | annotated => simp at hk
    | topic => simp at hk
    | «trait» => simp at hk
    | extension => simp at hk
    | member _ _ _ _ _ h _ => rcases h with ⟨_, rfl⟩ | ⟨_, rfl⟩ <;> simp at hk

theorem mem_eventVisits (kind : α → AttrKind) (file : Node α κ) (k : AttrKind) (e : List Nat)
    (x : Visit) : x ∈ eventVisits kind file k e ↔
      x = (k, e) ∨ (x.1 = .arg .topic ∧ Inside file e x.2 ∧ file.Carries kind (.arg .topic) x.2) := by
  unfold eventVisits
  rw [List.mem_cons, List.mem_map]
  obtain ⟨k', p⟩ := x
  refine or_congr_right ⟨?_, ?_⟩
  · rintro ⟨q, hq, he⟩
    cases he
    exact ⟨rfl, (mem_below _ _ _ _ _).1 hq⟩
  · rintro ⟨h1, h2⟩
    simp only at h1
    subst h1
    exact ⟨p, (mem_below _ _ _ _ _).2 h2, rfl⟩

theorem mem_tagged (k : AttrKind) (l : List (List Nat)) (x : Visit) :
    (x ∈ l.map fun p => (k, p)) ↔ x.1 = k ∧ x.2 ∈ l := by
  obtain ⟨k', p⟩ := x
  simp only [List.mem_map, Prod.mk.injEq]
  constructor
  · rintro ⟨q, hq, rfl, rfl⟩; exact ⟨rfl, hq⟩
  · rintro ⟨rfl, h⟩; exact ⟨p, h, rfl, rfl⟩


theorem mem_contractVisits (kind : α → AttrKind) (sh : Shape κ) (implements : List Nat → Bool)
    (file : Node α κ) (c : List Nat) (x : Visit) :
    x ∈ contractVisits kind sh implements file c ↔
      x = (.macro .contract, c) ∨
      (x.1 = .arg .storage ∧ x.2 ∈ below kind (.arg .storage) file c) ∨
      (∃ e ∈ below kind (.arg .event) file c, x ∈ eventVisits kind file (.arg .event) e) ∨
      (x.1 = .arg .impl ∧ x.2 ∈ implsBelow kind sh implements file c) ∨
      (x.1 = .arg .constructor ∧ x.2 ∈ callablesBelow kind sh (.arg .constructor) file c) ∨
      (x.1 = .arg .message ∧ x.2 ∈ callablesBelow kind sh (.arg .message) file c) ∨
      (x.1 = .macro .test ∧ x.2 ∈ below kind (.macro .test) file c) ∨
      (x.1 = .macro .e2eTest ∧ x.2 ∈ below kind (.macro .e2eTest) file c) := by
  unfold contractVisits
  simp only [List.mem_append, List.mem_cons, List.mem_flatMap, mem_tagged, or_assoc]

theorem mem_traitVisits (kind : α → AttrKind) (sh : Shape κ) (file : Node α κ) (t : List Nat)
    (x : Visit) : x ∈ traitVisits kind sh file t ↔ x = (.macro .traitDefinition, t) ∨
      (x.1 = .arg .message ∧ (Inside file t x.2 ∨ Member sh file t x.2) ∧
        file.Carries kind (.arg .message) x.2) := by
  unfold traitVisits
  simp only [List.mem_append, List.mem_cons, mem_tagged, mem_members, mem_below, or_assoc]
  refine or_congr_right ⟨?_, ?_⟩
  · rintro (⟨h1, h2, h3⟩ | ⟨h1, h2, h3⟩)
    · exact ⟨h1, .inr h2, h3⟩
    · exact ⟨h1, .inl h2, h3⟩
  · rintro ⟨h1, h2 | h2, h3⟩
    · exact .inr ⟨h1, h2, h3⟩
    · exact .inl ⟨h1, h2, h3⟩

theorem mem_chainVisits (kind : α → AttrKind) (sh : Shape κ) (v : Version) (file : Node α κ)
    (t : List Nat) (x : Visit) : x ∈ chainVisits kind sh v file t ↔
      x = (.macro .chainExtension, t) ∨
      (x.1 = fnKind v ∧ Member sh file t x.2 ∧ file.Carries kind (fnKind v) x.2) ∨
      (x.1 = .arg .extension ∧ Inside file t x.2 ∧ file.Carries kind (.arg .extension) x.2) := by
  unfold chainVisits
  simp only [List.mem_append, List.mem_cons, mem_tagged, mem_members, mem_below, or_assoc]

theorem fnKind_iff (v : Version) (k : AttrKind) :
    k = fnKind v ↔ (v = .v4 ∧ k = .arg .extension) ∨ (v = .v5 ∧ k = .arg .function) := by
  cases v <;> simp [fnKind]

theorem mem_visits (kind : α → AttrKind) (sh : Shape κ) (implements : List Nat → Bool)
    (v : Version) (file : Node α κ) (x : Visit) :
    x ∈ visits kind sh implements v file ↔
      (∃ c, Placed kind sh v file (.macro .contract) c ∧
        x ∈ contractVisits kind sh implements file c) ∨
      (∃ e, Placed kind sh v file (.macro .event) e ∧ x ∈ eventVisits kind file (.macro .event) e) ∨
      (∃ t, Placed kind sh v file (.macro .traitDefinition) t ∧ x ∈ traitVisits kind sh file t) ∨
      (∃ t, Placed kind sh v file (.macro .chainExtension) t ∧ x ∈ chainVisits kind sh v file t) ∨
      (x.1 = .macro .storageItem ∧ Placed kind sh v file (.macro .storageItem) x.2) ∨
      (x.1 = .macro .test ∧ Inside file [] x.2 ∧ file.Carries kind (.macro .test) x.2) ∨
      (x.1 = .macro .e2eTest ∧ Inside file [] x.2 ∧ file.Carries kind (.macro .e2eTest) x.2) := by
  unfold visits
  simp only [List.mem_append, List.mem_flatMap, mem_tagged, or_assoc,
    mem_contracts kind sh v file, mem_peeked_placed kind sh v file (.macro .event) (by simp),
    mem_peeked_placed kind sh v file (.macro .traitDefinition) (by simp),
    mem_peeked_placed kind sh v file (.macro .chainExtension) (by simp),
    mem_peeked_placed kind sh v file (.macro .storageItem) (by simp), mem_file kind (.macro .test),
    mem_file kind (.macro .e2eTest)]

theorem at_of_carries (kind : α → AttrKind) (k : AttrKind) (file : Node α κ) (p : List Nat)
    (h : file.Carries kind k p) : ∃ n, file.at? p = some n :=
  carries_at kind k file p [] (by simpa using h)


theorem nearest_or_top (file : Node α κ) (o : List Nat) :
    file.NoneBetween [] o ∨ ∃ q, q ≠ [] ∧ file.Annotated q ∧ Inside file q o := by
  have key : ∀ m ≤ o.length, (∀ l, 0 < l → l < m → ¬ file.Annotated (o.take l)) ∨
      ∃ l, 0 < l ∧ l < m ∧ file.Annotated (o.take l) ∧
        ∀ l', l < l' → l' < m → ¬ file.Annotated (o.take l') := by
    intro m
    induction m with
    | zero => exact fun _ => .inl fun l _ h => absurd h (Nat.not_lt_zero _)
    | succ m ih =>
      intro hm
      by_cases hz : 0 < m ∧ file.Annotated (o.take m)
      · exact .inr ⟨m, hz.1, Nat.lt_succ_self m, hz.2, fun l' h1 h2 => absurd h1 (by omega)⟩
      · rcases ih (by omega) with h | ⟨l, h1, h2, h3, h4⟩
        · refine .inl fun l hl hlm => ?_
          by_cases he : l = m
          · subst he; exact fun ha => hz ⟨hl, ha⟩
          · exact h l hl (by omega)
        · refine .inr ⟨l, h1, by omega, h3, fun l' h5 h6 => ?_⟩
          by_cases he : l' = m
          · subst he; exact fun ha => hz ⟨by omega, ha⟩
          · exact h4 l' h5 (by omega)
  have pre : ∀ r, r <+: o → r ≠ o → r = o.take r.length ∧ r.length < o.length := by
    intro r h1 h2
    refine ⟨List.prefix_iff_eq_take.1 h1, ?_⟩
    rcases Nat.lt_or_ge r.length o.length with h | h
    · exact h
    · exact absurd (List.IsPrefix.eq_of_length h1 (Nat.le_antisymm h1.length_le h)) h2
  rcases key o.length (Nat.le_refl _) with h | ⟨l, h1, h2, h3, h4⟩
  · refine .inl fun r _ hr h1 h2 => ?_
    obtain ⟨he, hlt⟩ := pre r h1 h2
    rw [he]
    refine h _ ?_ hlt
    cases r with
    | nil => exact absurd rfl hr
    | cons => simp
  · have hlen : (o.take l).length = l := by rw [List.length_take]; omega
    refine .inr ⟨o.take l, ?_, h3, List.take_prefix _ _, ?_, ?_⟩
    · intro he
      rw [he] at hlen
      simp at hlen
      omega
    · intro he
      rw [he] at hlen
      omega
    · intro r hr hne h5 h6
      obtain ⟨he, hlt⟩ := pre r h5 h6
      rw [he]
      refine h4 _ ?_ hlt
      have hle := hr.length_le
      rw [hlen] at hle
      rcases Nat.lt_or_ge l r.length with h | h
      · exact h
      · exact absurd (List.IsPrefix.eq_of_length hr (by omega)).symm hne

theorem leads_append (kind : α → AttrKind) (file n : Node α κ) (q r : List Nat) (i : Nat) (a : α)
    (h : file.at? q = some n) : Leads kind file (q ++ r) i a ↔ Leads kind n r i a := by
  unfold Leads Node.InkAt
  simp only [List.append_assoc, Node.at?_append, h, Option.bind_some]

/-- An attribute of a node strictly below another is found by the searches below the latter. -/
theorem found_below (file n : Node α κ) (q r : List Nat) (i : Nat) (a : α) (hr : r ≠ [])
    (hn : file.at? q = some n) (hi : file.InkAt (q ++ r ++ [i]) a)
    (hout : ∀ p, p <+: q ++ r → file.isAttrAt p = false) :
    ∃ i c p, n.children[i]? = some c ∧ (∀ x cs, c ≠ .attr x cs) ∧ n.InkAt (i :: p) a := by
  cases r with
  | nil => exact absurd rfl hr
  | cons x r =>
    have hi' : n.InkAt (x :: (r ++ [i])) a := by
      obtain ⟨cs, hi⟩ := hi
      refine ⟨cs, ?_⟩
      rw [List.append_assoc, Node.at?_append, hn] at hi
      simpa using hi
    obtain ⟨c, hc, _⟩ := (Node.inkAt_cons n x _ a).1 hi'
    refine ⟨x, c, _, hc, ?_, hi'⟩
    intro y cs he
    have h1 := hout (q ++ [x]) (by simp [List.prefix_append_right_inj])
    unfold Node.isAttrAt at h1
    rw [Node.at?_append, hn, Option.bind_some, Node.at?_cons, hc] at h1
    subst he
    simp [Node.at?, Node.isAttr] at h1

theorem open_reported (kind : α → AttrKind) (v : Version) (scope : AttrKind) (file n : Node α κ)
    (q o : List Nat) (i : Nat) (a : α) (hn : file.at? q = some n)
    (hs : ∃ k, k ≠ .macro .scaleDerive ∧ Allowed scope v k) (hin : Inside file q o)
    (hi : file.InkAt (o ++ [i]) a) (hl : Leads kind file o i a) (hu : (kind a).isUnknown = false)
    (hna : ¬ Allowed scope v (kind a))
    (hx : ¬ (v = .v5 ∧ scope = .macro .chainExtension ∧ kind a = .arg .extension)) :
    a ∈ scopeCheck kind scope v n := by
  obtain ⟨found, h1, h2⟩ := C58_reported_partial kind scope v n hs
  obtain ⟨r, rfl⟩ := hin.1
  obtain ⟨h3, h4⟩ := (inside_append file n q r hn).1 hin
  rw [h1]
  refine List.mem_map.2 ⟨(r ++ [i], a), (h2 r i a).2 ⟨⟨h3, ?_, h4⟩,
    (leads_append kind file n q r i a hn).1 hl, hu, hna, hx⟩, rfl⟩
  obtain ⟨cs, hi⟩ := hi
  refine ⟨cs, ?_⟩
  rw [List.append_assoc, Node.at?_append, hn] at hi
  exact hi

theorem closed_reported (kind : α → AttrKind) (v : Version) (scope : AttrKind) (file n : Node α κ)
    (q o : List Nat) (i : Nat) (a : α) (hn : file.at? q = some n)
    (hs : ∀ k, Allowed scope v k → k = .macro .scaleDerive) (hin : Inside file q o)
    (hi : file.InkAt (o ++ [i]) a) (hout : ∀ p, p <+: o → file.isAttrAt p = false)
    (hd : kind a ∈ defining) : a ∈ scopeCheck kind scope v n := by
  rw [C58_closed kind scope v n hs]
  obtain ⟨r, rfl⟩ := hin.1
  obtain ⟨h3, _⟩ := (inside_append file n q r hn).1 hin
  refine ⟨found_below file n q r i a h3 hn hi hout, ?_, ?_⟩
  · revert hd; generalize kind a = k; revert k; decide
  · intro h
    rw [hs _ h] at hd
    revert hd; decide

theorem any_reported (kind : α → AttrKind) (file n : Node α κ)
    (q o : List Nat) (i : Nat) (a : α) (hn : file.at? q = some n) (hin : Inside file q o)
    (hi : file.InkAt (o ++ [i]) a) (hout : ∀ p, p <+: o → file.isAttrAt p = false)
    (hd : kind a ∈ defining) : a ∈ anyDescendants kind false n := by
  unfold anyDescendants
  obtain ⟨r, rfl⟩ := hin.1
  obtain ⟨h3, _⟩ := (inside_append file n q r hn).1 hin
  refine List.mem_filter.2 ⟨(Node.C23_descendants n a).2 (found_below file n q r i a h3 hn hi hout), ?_⟩
  revert hd; generalize kind a = k; revert k; decide

theorem topic_reported (kind : α → AttrKind) (file n : Node α κ)
    (q o : List Nat) (i : Nat) (a : α) (hn : file.at? q = some n) (hin : Inside file q o)
    (hi : file.InkAt (o ++ [i]) a) (hout : ∀ p, p <+: o → file.isAttrAt p = false)
    (ht : kind a ≠ .arg .topic) : a ∈ onlyTopics kind n := by
  unfold onlyTopics
  obtain ⟨r, rfl⟩ := hin.1
  obtain ⟨h3, _⟩ := (inside_append file n q r hn).1 hin
  exact List.mem_filter.2 ⟨(Node.C23_descendants n a).2 (found_below file n q r i a h3 hn hi hout),
    by simpa using ht⟩

theorem allowed_iff (scope : AttrKind) (v : Version) (k : AttrKind) :
    Allowed scope v k ↔ (allowedKinds scope v).contains k = true := by
  rw [← mem_allowedKinds, List.contains_iff_mem]

/-! ## C84 -/

/-- The rules of an entity other than an ink! impl are run on an item iff the item is annotated as
one and stands where ink! expects it. -/
theorem C84_checked (kind : α → AttrKind) (sh : Shape κ) (implements : List Nat → Bool)
    (v : Version) (file : Node α κ) (k : AttrKind) (p : List Nat) (hk : k ≠ .arg .impl) :
    (k, p) ∈ visits kind sh implements v file ↔ Placed kind sh v file k p := by
  rw [mem_visits]
  constructor
  · rintro (⟨c, hc, h⟩ | ⟨e, he, h⟩ | ⟨t, ht, h⟩ | ⟨t, ht, h⟩ | ⟨h1, h2⟩ | ⟨h1, h2, h3⟩ | ⟨h1, h2, h3⟩)
    · rcases (mem_contractVisits kind sh implements file c _).1 h with h | ⟨h1, h2⟩ | ⟨e, he, h⟩ |
        ⟨h1, _⟩ | ⟨h1, h2⟩ | ⟨h1, h2⟩ | ⟨h1, h2⟩ | ⟨h1, h2⟩
      · cases h; exact hc
      · simp only at h1; subst h1
        obtain ⟨h3, h4⟩ := (mem_below _ _ _ _ _).1 h2
        exact .contract c _ _ hc h3 (by simp) h4
      · obtain ⟨h3, h4⟩ := (mem_below _ _ _ _ _).1 he
        have hpe : Placed kind sh v file (.arg .event) e := .contract c _ _ hc h3 (by simp) h4
        rcases (mem_eventVisits kind file _ e _).1 h with h | ⟨h1, h2, h5⟩
        · cases h; exact hpe
        · simp only at h1; subst h1
          exact .topic _ e _ (by simp) hpe h2 h5
      · exact absurd h1 hk
      · simp only at h1; subst h1
        obtain ⟨h3, h4 | ⟨q, h4, h5, h6⟩⟩ := (mem_callablesBelow kind sh _ file (.inl rfl) c p).1 h2
        · exact .contract c _ _ hc h4 (by simp) h3
        · exact .impl c q _ _ hc h4 h5 h6 (by simp) h3
      · simp only at h1; subst h1
        obtain ⟨h3, h4 | ⟨q, h4, h5, h6⟩⟩ := (mem_callablesBelow kind sh _ file (.inr rfl) c p).1 h2
        · exact .contract c _ _ hc h4 (by simp) h3
        · exact .impl c q _ _ hc h4 h5 h6 (by simp) h3
      · simp only at h1; subst h1
        obtain ⟨h3, h4⟩ := (mem_below _ _ _ _ _).1 h2
        exact .contract c _ _ hc h3 (by simp) h4
      · simp only at h1; subst h1
        obtain ⟨h3, h4⟩ := (mem_below _ _ _ _ _).1 h2
        exact .contract c _ _ hc h3 (by simp) h4
    · rcases (mem_eventVisits kind file _ e _).1 h with h | ⟨h1, h2, h5⟩
      · cases h; exact he
      · simp only at h1; subst h1
        exact .topic _ e _ (by simp) he h2 h5
    · rcases (mem_traitVisits kind sh file t _).1 h with h | ⟨h1, h2, h5⟩
      · cases h; exact ht
      · simp only at h1; subst h1
        exact .trait t _ ht h2 h5
    · rcases (mem_chainVisits kind sh v file t _).1 h with h | ⟨h1, h2, h5⟩ | ⟨h1, h2, h5⟩
      · cases h; exact ht
      · simp only at h1
        exact .member t _ _ ht h2 ((fnKind_iff v k).1 h1) (by rw [h1]; exact h5)
      · simp only at h1; subst h1
        exact .extension t _ ht h2 h5
    · simp only at h1; subst h1; exact h2
    · simp only at h1; subst h1; exact .top _ _ (by simp) h2 h3
    · simp only at h1; subst h1; exact .top _ _ (by simp) h2 h3
  · intro h
    have peek : ∀ k', (k' ∈ [AttrKind.macro .event, .macro .traitDefinition,
        .macro .chainExtension, .macro .storageItem]) → Placed kind sh v file k' p →
        k = k' → (k, p) ∈ visits kind sh implements v file := fun k' hk' hp he => by
      subst he
      rw [mem_visits]
      simp only [List.mem_cons, List.not_mem_nil, or_false] at hk'
      rcases hk' with rfl | rfl | rfl | rfl
      · exact Or.inr (Or.inl ⟨p, hp, (mem_eventVisits kind file _ p _).2 (.inl rfl)⟩)
      · exact Or.inr (Or.inr (Or.inl ⟨p, hp, (mem_traitVisits kind sh file p _).2 (.inl rfl)⟩))
      · exact Or.inr (Or.inr (Or.inr (Or.inl
          ⟨p, hp, (mem_chainVisits kind sh v file p _).2 (.inl rfl)⟩)))
      · exact Or.inr (Or.inr (Or.inr (Or.inr (Or.inl ⟨rfl, hp⟩))))
    have hcopy := h
    cases h with
    | top _ _ hk' h1 h2 =>
      simp only [List.mem_cons, List.not_mem_nil, or_false] at hk'
      rcases hk' with rfl | rfl | rfl | rfl | rfl | rfl | rfl
      · exact .inl ⟨p, hcopy, (mem_contractVisits kind sh implements file p _).2 (.inl rfl)⟩
      · exact (mem_visits ..).1 (peek _ (by simp) hcopy rfl)
      · exact (mem_visits ..).1 (peek _ (by simp) hcopy rfl)
      · exact (mem_visits ..).1 (peek _ (by simp) hcopy rfl)
      · exact (mem_visits ..).1 (peek _ (by simp) hcopy rfl)
      · exact .inr (.inr (.inr (.inr (.inr (.inl ⟨rfl, h1, h2⟩)))))
      · exact .inr (.inr (.inr (.inr (.inr (.inr ⟨rfl, h1, h2⟩)))))
    | contract c _ _ hc h1 hk' h2 =>
      have inC : (k, p) ∈ contractVisits kind sh implements file c →
          (k, p) ∈ visits kind sh implements v file := fun h =>
        (mem_visits ..).2 (Or.inl ⟨c, hc, h⟩)
      simp only [List.mem_cons, List.not_mem_nil, or_false] at hk'
      have hb := (mem_below kind k file c p).2 ⟨h1, h2⟩
      rcases hk' with rfl | rfl | rfl | rfl | rfl | rfl | rfl | rfl | rfl | rfl
      · exact (mem_visits ..).1 <| inC ((mem_contractVisits kind sh implements file c _).2 (.inr (.inl ⟨rfl, hb⟩)))
      · exact (mem_visits ..).1 <| inC ((mem_contractVisits kind sh implements file c _).2 (.inr (.inr (.inl
          ⟨p, hb, (mem_eventVisits kind file _ p _).2 (.inl rfl)⟩))))
      · exact (mem_visits ..).1 <| inC ((mem_contractVisits kind sh implements file c _).2 (.inr (.inr (.inr (.inr (.inl
          ⟨rfl, (mem_callablesBelow kind sh _ file (.inl rfl) c p).2 ⟨h2, .inl h1⟩⟩))))))
      · exact (mem_visits ..).1 <| inC ((mem_contractVisits kind sh implements file c _).2 (.inr (.inr (.inr (.inr (.inr
          (.inl ⟨rfl, (mem_callablesBelow kind sh _ file (.inr rfl) c p).2 ⟨h2, .inl h1⟩⟩)))))))
      · exact (mem_visits ..).1 (peek _ (by simp) hcopy rfl)
      · exact (mem_visits ..).1 (peek _ (by simp) hcopy rfl)
      · exact (mem_visits ..).1 (peek _ (by simp) hcopy rfl)
      · exact (mem_visits ..).1 (peek _ (by simp) hcopy rfl)
      · exact (mem_visits ..).1 <| inC ((mem_contractVisits kind sh implements file c _).2 (.inr (.inr (.inr (.inr (.inr
          (.inr (.inl ⟨rfl, hb⟩))))))))
      · exact (mem_visits ..).1 <| inC ((mem_contractVisits kind sh implements file c _).2 (.inr (.inr (.inr (.inr (.inr
          (.inr (.inr ⟨rfl, hb⟩))))))))
    | annotated => exact absurd rfl hk
    | impl c q _ _ hc h1 h2 h3 hk' h4 =>
      simp only [List.mem_cons, List.not_mem_nil, or_false] at hk'
      rcases hk' with rfl | rfl
      · exact .inl ⟨c, hc, (mem_contractVisits kind sh implements file c _).2 (.inr (.inr (.inr
          (.inr (.inl ⟨rfl, (mem_callablesBelow kind sh _ file (.inl rfl) c p).2
            ⟨h4, .inr ⟨q, h1, h2, h3⟩⟩⟩)))))⟩
      · exact .inl ⟨c, hc, (mem_contractVisits kind sh implements file c _).2 (.inr (.inr (.inr
          (.inr (.inr (.inl ⟨rfl, (mem_callablesBelow kind sh _ file (.inr rfl) c p).2
            ⟨h4, .inr ⟨q, h1, h2, h3⟩⟩⟩))))))⟩
    | topic k' e _ hk' he h1 h2 =>
      simp only [List.mem_cons, List.not_mem_nil, or_false] at hk'
      rcases hk' with rfl | rfl
      · cases he with
        | top _ _ h => simp at h
        | contract c _ _ hc h3 _ h4 =>
          exact .inl ⟨c, hc, (mem_contractVisits kind sh implements file c _).2 (.inr (.inr (.inl
            ⟨e, (mem_below _ _ _ _ _).2 ⟨h3, h4⟩,
              (mem_eventVisits kind file _ e _).2 (.inr ⟨rfl, h1, h2⟩)⟩)))⟩
        | impl _ _ _ _ _ _ _ _ h => simp at h
        | member _ _ _ _ _ h => simp at h
      · exact .inr (.inl ⟨e, he, (mem_eventVisits kind file _ e _).2 (.inr ⟨rfl, h1, h2⟩)⟩)
    | «trait» t _ ht h1 h2 =>
      exact .inr (.inr (.inl ⟨t, ht, (mem_traitVisits kind sh file t _).2 (.inr ⟨rfl, h1, h2⟩)⟩))
    | extension t _ ht h1 h2 =>
      exact .inr (.inr (.inr (.inl ⟨t, ht, (mem_chainVisits kind sh v file t _).2
        (.inr (.inr ⟨rfl, h1, h2⟩))⟩)))
    | member t _ _ ht h1 h2 h3 =>
      have he := (fnKind_iff v k).2 h2
      exact .inr (.inr (.inr (.inl ⟨t, ht, (mem_chainVisits kind sh v file t _).2
        (.inr (.inl ⟨he, h1, he ▸ h3⟩))⟩)))

/-- The rules of ink! impls are run on an item iff it is an ink! impl that is found as one of a
contract. -/
theorem C84_impls (kind : α → AttrKind) (sh : Shape κ) (implements : List Nat → Bool)
    (v : Version) (file : Node α κ) (p : List Nat) :
    (.arg .impl, p) ∈ visits kind sh implements v file ↔
      ∃ c, Placed kind sh v file (.macro .contract) c ∧ ImplOf kind sh file c p ∧
        IsInkImpl kind sh implements file p := by
  rw [mem_visits]
  have at? : ∀ c, Placed kind sh v file (.macro .contract) c → ∃ n, file.at? c = some n := by
    intro c hc
    exact at_of_carries kind _ file c ((placed_contract kind sh v file c).1 hc).2
  constructor
  · rintro (⟨c, hc, h⟩ | ⟨e, he, h⟩ | ⟨t, ht, h⟩ | ⟨t, ht, h⟩ | ⟨h1, h2⟩ | ⟨h1, h2, h3⟩ | ⟨h1, h2, h3⟩)
    · rcases (mem_contractVisits kind sh implements file c _).1 h with h | ⟨h1, h2⟩ | ⟨e, he, h⟩ |
        ⟨_, h2⟩ | ⟨h1, h2⟩ | ⟨h1, h2⟩ | ⟨h1, h2⟩ | ⟨h1, h2⟩
      · cases h
      · simp at h1
      · rcases (mem_eventVisits kind file _ e _).1 h with h | ⟨h1, _⟩
        · cases h
        · simp at h1
      · exact ⟨c, hc, (mem_implsBelow kind sh implements file c p (at? c hc)).1 h2⟩
      all_goals simp at h1
    · rcases (mem_eventVisits kind file _ e _).1 h with h | ⟨h1, _⟩
      · cases h
      · simp at h1
    · rcases (mem_traitVisits kind sh file t _).1 h with h | ⟨h1, _⟩
      · cases h
      · simp at h1
    · rcases (mem_chainVisits kind sh v file t _).1 h with h | ⟨h1, _⟩ | ⟨h1, _⟩
      · cases h
      · cases v <;> simp [fnKind] at h1
      · simp at h1
    all_goals simp at h1
  · rintro ⟨c, hc, h⟩
    exact .inl ⟨c, hc, (mem_contractVisits kind sh implements file c _).2 (.inr (.inr (.inr (.inl
      ⟨rfl, (mem_implsBelow kind sh implements file c p (at? c hc)).2 h⟩))))⟩

/-- An item of a contract annotated as an ink! impl is checked, and so is the `impl` around each
constructor or message of the contract that has no annotated node in between. -/
theorem C84_impl (kind : α → AttrKind) (sh : Shape κ) (implements : List Nat → Bool)
    (v : Version) (file : Node α κ) (c p : List Nat)
    (hc : Placed kind sh v file (.macro .contract) c)
    (h : Placed kind sh v file (.arg .impl) p ∨
      (∃ f, Inside file c f ∧ Callable kind file f ∧ KindIs sh.isFn file f ∧
        ItemAround sh file f p ∧ KindIs sh.isImpl file p ∧ Inside file c p)) :
    (.arg .impl, p) ∈ visits kind sh implements v file := by
  rw [C84_impls]
  rcases h with h | ⟨f, h1, h2, h3, h4, h5, h6⟩
  · cases h with
    | top _ _ h => simp at h
    | contract _ _ _ _ _ h _ => simp at h
    | impl _ _ _ _ _ _ _ _ h _ => simp at h
    | annotated c' _ hc' h1 h2 h3 => exact ⟨c', hc', .inr (.inl ⟨h1, .inl h2, h3⟩), .inl h2⟩
    | member _ _ _ _ _ h _ => simp at h
  · refine ⟨c, hc, .inr (.inr ⟨h5, f, h1, h2, h3, h4⟩), .inr ⟨h5, .inl ⟨f, ⟨h4.1, h4.2.1, ?_⟩, h2⟩⟩⟩
    intro r ha hb hd he
    refine h1.2.2 r (h6.1.trans ha) ?_ hd he
    rintro rfl
    exact h6.2.1 (List.IsPrefix.eq_of_length h6.1
      (Nat.le_antisymm h6.1.length_le ha.length_le))


theorem placed_visited (kind : α → AttrKind) (sh : Shape κ) (implements : List Nat → Bool)
    (v : Version) (file : Node α κ) (k : AttrKind) (p : List Nat) (h : Placed kind sh v file k p) :
    (k, p) ∈ visits kind sh implements v file := by
  by_cases hk : k = .arg .impl
  · subst hk
    have h' := h
    cases h with
    | top _ _ h => simp at h
    | contract _ _ _ _ _ h _ => simp at h
    | impl _ _ _ _ _ _ _ _ h _ => simp at h
    | annotated c _ hc _ _ _ => exact C84_impl kind sh implements v file c p hc (.inl h')
    | member _ _ _ _ _ h _ => simp at h
  · exact (C84_checked kind sh implements v file k p hk).2 h

/-- What happens below an item whose rules are run: an item directly inside is in its place or its
leading attribute is reported. -/
theorem step (kind : α → AttrKind) (sh : Shape κ) (implements : List Nat → Bool) (v : Version)
    (file : Node α κ) (q o : List Nat) (k : AttrKind) (a : α) (hk : k ∈ defining) (hq : q ≠ [])
    (hqa : file.Annotated q)
    (hp : Placed kind sh v file k q) (hin : Inside file q o) (ha : LeadBy kind file o a)
    (hd : kind a ∈ defining) (himpl : kind a = .arg .impl → KindIs sh.isItem file o)
    (hfn : kind a = .arg .function → ∀ t, t ≠ [] → file.Annotated t → Inside file t o →
      Member sh file t o)
    (hout : ∀ p, p <+: o → file.isAttrAt p = false) :
    Placed kind sh v file (kind a) o ∨ a ∈ misplaced kind sh implements v file := by
  obtain ⟨i, hi, hl⟩ := ha
  have hcar : file.Carries kind (kind a) o := ⟨i, a, hi, rfl⟩
  obtain ⟨n, hn⟩ : ∃ n, file.at? q = some n := by
    obtain ⟨r, rfl⟩ := hin.1
    exact carries_at kind (kind a) file q r hcar
  have hvis := placed_visited kind sh implements v file k q hp
  have rep : a ∈ check kind v k n → a ∈ misplaced kind sh implements v file := by
    intro h
    unfold misplaced
    refine List.mem_append.2 (.inl (List.mem_flatMap.2 ⟨(k, q), hvis, ?_⟩))
    unfold checkAt
    rw [hn]
    exact h
  have hu : (kind a).isUnknown = false := by
    revert hd; generalize kind a = k; revert k; decide
  have opn : ∀ scope, (∃ k, k ≠ .macro .scaleDerive ∧ Allowed scope v k) →
      (∀ kd ∈ defining, (kd = .arg .impl → KindIs sh.isItem file o) → (kd = .arg .function →
        Member sh file q o) → file.Carries kind kd o →
        (Allowed scope v kd ∨ (v = .v5 ∧ scope = .macro .chainExtension ∧ kd = .arg .extension)) →
        Placed kind sh v file kd o) →
      (a ∈ scopeCheck kind scope v n → a ∈ check kind v k n) →
      Placed kind sh v file (kind a) o ∨ a ∈ misplaced kind sh implements v file := by
    intro scope hs hpl hch
    by_cases hal : Allowed scope v (kind a) ∨
        (v = .v5 ∧ scope = .macro .chainExtension ∧ kind a = .arg .extension)
    · exact .inl (hpl _ hd himpl (fun h => hfn h q hq hqa hin) hcar hal)
    · rw [not_or] at hal
      exact .inr (rep (hch (open_reported kind v scope file n q o i a hn hs hin hi hl hu hal.1 hal.2)))
  have cls : ∀ scope, (∀ k, Allowed scope v k → k = .macro .scaleDerive) →
      (a ∈ scopeCheck kind scope v n → a ∈ check kind v k n) →
      Placed kind sh v file (kind a) o ∨ a ∈ misplaced kind sh implements v file :=
    fun scope hs hch => .inr (rep (hch (closed_reported kind v scope file n q o i a hn hs hin hi hout hd)))
  have hclosed : ∀ scope ∈ [AttrKind.macro .test, .macro .e2eTest, .arg .constructor, .arg .message,
      .arg .extension, .arg .function], ∀ k, Allowed scope v k → k = .macro .scaleDerive := by
    intro scope hs k hk
    rw [allowed_iff, List.contains_iff_mem] at hk
    simp only [List.mem_cons, List.not_mem_nil, or_false] at hs
    rcases hs with rfl | rfl | rfl | rfl | rfl | rfl <;> cases v <;>
      simpa [allowedKinds, validDescendantMacros, validDescendantArgs] using hk
  simp only [defining, List.mem_cons, List.not_mem_nil, or_false] at hk
  rcases hk with rfl | rfl | rfl | rfl | rfl | rfl | rfl | rfl | rfl | rfl | rfl | rfl | rfl | rfl | rfl
  · -- contract
    refine opn (.macro .contract) ⟨.macro .storageItem, by decide, ?_⟩ ?_ (fun h => h)
    · rw [allowed_iff]; cases v <;> decide
    · intro kd hkd h1 h2 h3 h4
      by_cases hI : kd = .arg .impl
      · subst hI
        exact .annotated q o hp hin h3 (h1 rfl)
      · refine .contract q kd o hp hin ?_ h3
        have h5 : (allowedKinds (.macro .contract) v).contains kd = true := by
          rcases h4 with h4 | ⟨_, h4, _⟩
          · exact (allowed_iff _ _ _).1 h4
          · simp at h4
        clear h4 h3 h1 h2
        revert hkd h5 hI
        revert kd
        cases v <;> decide
  · exact (Classical.em (kind a = .arg .topic)).imp
      (fun h => by rw [h] at hcar ⊢; exact .topic _ q o (by simp) hp hin hcar)
      (fun h => rep (topic_reported kind file n q o i a hn hin hi hout h))
  · -- trait definition
    refine opn (.macro .traitDefinition) ⟨.arg .message, by decide, ?_⟩ ?_ (fun h => h)
    · rw [allowed_iff]; cases v <;> decide
    · intro kd hkd h1 h2 h3 h4
      have h5 : (allowedKinds (.macro .traitDefinition) v).contains kd = true := by
        rcases h4 with h4 | ⟨_, h4, _⟩
        · exact (allowed_iff _ _ _).1 h4
        · simp at h4
      have : kd = .arg .message := by
        clear h4 h3 h1 h2
        revert hkd h5
        revert kd
        cases v <;> decide
      subst this
      exact .trait q o hp (.inl hin) h3
  · -- chain extension
    refine opn (.macro .chainExtension) ⟨.arg .handleStatus, by decide, ?_⟩ ?_ (fun h => h)
    · rw [allowed_iff]; cases v <;> decide
    · intro kd hkd h1 h2 h3 h4
      have : kd = .arg .extension ∨ (v = .v5 ∧ kd = .arg .function) := by
        rcases h4 with h4 | ⟨_, _, h4⟩
        · rw [allowed_iff] at h4
          clear h3 h2 h1
          revert hkd h4
          revert kd
          cases v <;> decide
        · exact .inl h4
      rcases this with rfl | ⟨rfl, rfl⟩
      · exact .extension q o hp hin h3
      · exact .member q _ o hp (h2 rfl) (.inr ⟨rfl, rfl⟩) h3
  · exact .inr (rep (any_reported kind file n q o i a hn hin hi hout hd))
  · exact cls (.macro .test) (hclosed _ (by simp)) (fun h => h)
  · exact cls (.macro .e2eTest) (hclosed _ (by simp)) (fun h => h)
  · exact .inr (rep (any_reported kind file n q o i a hn hin hi hout hd))
  · exact (Classical.em (kind a = .arg .topic)).imp
      (fun h => by rw [h] at hcar ⊢; exact .topic _ q o (by simp) hp hin hcar)
      (fun h => rep (topic_reported kind file n q o i a hn hin hi hout h))
  · -- impl
    refine opn (.arg .impl) ⟨.arg .message, by decide, ?_⟩ ?_ (fun h => h)
    · rw [allowed_iff]; cases v <;> decide
    · intro kd hkd h1 h2 h3 h4
      have h5 : (allowedKinds (.arg .impl) v).contains kd = true := by
        rcases h4 with h4 | ⟨_, h4, _⟩
        · exact (allowed_iff _ _ _).1 h4
        · simp at h4
      have : kd ∈ [AttrKind.arg .constructor, .arg .message] := by
        clear h4 h3 h1 h2
        revert hkd h5
        revert kd
        cases v <;> decide
      cases hp with
      | top _ _ h => simp at h
      | contract _ _ _ _ _ h _ => simp at h
      | impl _ _ _ _ _ _ _ _ h _ => simp at h
      | annotated c _ hc h6 h7 _ => exact .impl c q kd o hc h6 (.inl h7) hin this h3
      | member _ _ _ _ _ h _ => simp at h
  · exact cls (.arg .constructor) (hclosed _ (by simp)) (fun h => h)
  · exact cls (.arg .message) (hclosed _ (by simp)) (fun h => h)
  · exact .inr (rep (any_reported kind file n q o i a hn hin hi hout hd))
  · exact cls (fnKind v) (hclosed _ (by cases v <;> simp [fnKind])) (fun h => h)
  · exact cls (fnKind v) (hclosed _ (by cases v <;> simp [fnKind])) (fun h => h)

/-- Every ink! item outside attributes, whose leading attribute and those of all items around it
have rules of their own, is checked by the rules of its leading attribute, or the leading attribute
of it or of an item around it is reported as misplaced.

Missing for the full claim: items around or at which an attribute without rules of its own leads (a
`scale_derive` macro, an argument that only accompanies others, an unknown one); an ink! impl on
something else than an item; a `function` of an ink! 5 chain extension that is not a function of its
trait; and implementations of ink! trait definitions without any ink! attribute
(`C84_negation_derive`, `C84_negation_impl`, `C84_negation_function`, `C84_negation_trait`). -/
theorem C84_accounted_partial (kind : α → AttrKind) (sh : Shape κ) (implements : List Nat → Bool)
    (v : Version) (file : Node α κ) (o : List Nat) (ho : o ≠ []) (ha : file.Annotated o)
    (hout : ∀ p, p <+: o → file.isAttrAt p = false)
    (hreg : ∀ q, q ≠ [] → q <+: o → file.Annotated q → Regular kind sh file q) :
    (∃ a, LeadBy kind file o a ∧ Placed kind sh v file (kind a) o ∧
      (kind a, o) ∈ visits kind sh implements v file) ∨
    ∃ q a, q ≠ [] ∧ q <+: o ∧ LeadBy kind file q a ∧ a ∈ misplaced kind sh implements v file := by
  suffices h : ∀ m (o : List Nat), o.length ≤ m → o ≠ [] → file.Annotated o →
      (∀ p, p <+: o → file.isAttrAt p = false) →
      (∀ q, q ≠ [] → q <+: o → file.Annotated q → Regular kind sh file q) →
      (∃ a, LeadBy kind file o a ∧ kind a ∈ defining ∧ Placed kind sh v file (kind a) o) ∨
      ∃ q a, q ≠ [] ∧ q <+: o ∧ LeadBy kind file q a ∧
        a ∈ misplaced kind sh implements v file by
    rcases h o.length o (Nat.le_refl _) ho ha hout hreg with ⟨a, h1, _, h2⟩ | h
    · exact .inl ⟨a, h1, h2, placed_visited kind sh implements v file _ o h2⟩
    · exact .inr h
  intro m
  induction m with
  | zero =>
    intro o hlen ho
    exact absurd (List.length_eq_zero_iff.1 (Nat.le_zero.1 hlen)) ho
  | succ m ih =>
    intro o hlen ho ha hout hreg
    obtain ⟨a, hlead, hdef, himpl, hfn⟩ := hreg o ho (List.prefix_rfl) ha
    rcases nearest_or_top file o with htop | ⟨q, hq, hqa, hin⟩
    · -- nothing annotated around
      obtain ⟨i, hi, hl⟩ := hlead
      have hu : (kind a).isUnknown = false := by
        revert hdef; generalize kind a = k; revert k; decide
      by_cases hrep : (∃ k, kind a = .arg k) ∨
          (v = .v4 ∧ (kind a = .macro .event ∨ kind a = .macro .scaleDerive))
      · refine .inr ⟨o, a, ho, List.prefix_rfl, ⟨i, hi, hl⟩, ?_⟩
        unfold misplaced
        refine List.mem_append.2 (.inr (List.mem_map.2 ⟨(o ++ [i], a), ?_, rfl⟩))
        exact (C58_file kind v file o i a).2 ⟨⟨ho, hi, htop⟩, hl, hu, hrep⟩
      · refine .inl ⟨a, ⟨i, hi, hl⟩, hdef, .top _ _ ?_ ((inside_nil file o).2 ⟨ho, htop⟩)
          ⟨i, a, hi, rfl⟩⟩
        rw [not_or] at hrep
        have h1 := hrep.1
        clear hrep hu himpl hfn hl hi
        revert hdef h1
        generalize kind a = k
        intro hdef h1
        cases k with
        | arg x => exact absurd ⟨x, rfl⟩ h1
        | «macro» x => revert hdef; cases x <;> decide
    · have hlt : q.length < o.length := by
        rcases Nat.lt_or_ge q.length o.length with h | h
        · exact h
        · exact absurd (List.IsPrefix.eq_of_length hin.1
            (Nat.le_antisymm hin.1.length_le h)) hin.2.1
      rcases ih q (by omega) hq hqa (fun p hp => hout p (hp.trans hin.1))
          (fun r hr hp => hreg r hr (hp.trans hin.1)) with ⟨b, _, hbd, hb⟩ | ⟨r, b, hr, hrq, hlb, hb⟩
      · rcases step kind sh implements v file q o (kind b) a hbd hq hqa hb hin hlead hdef himpl hfn
            hout with h | h
        · exact .inl ⟨a, hlead, hdef, h⟩
        · exact .inr ⟨o, a, ho, List.prefix_rfl, hlead, h⟩
      · exact .inr ⟨r, b, hr, hrq.trans hin.1, hlb, hb⟩

/-! ## Examples and findings -/

/-- Kinds of syntax nodes for the examples. -/
inductive Syn | file | mod | list | strukt | field | impl | trait | fn
  deriving DecidableEq

/-- The shape of the kinds in the examples. -/
def syn : Shape Syn where
  isImpl := (· == .impl)
  isItem k := k == .mod || k == .strukt || k == .impl || k == .trait || k == .fn
  isTrait := (· == .trait)
  isList := (· == .list)
  isFn := (· == .fn)

/-- A contract with a storage, an event with a topic and an `impl` with a constructor that contains
a misplaced message. -/
def sample : Node AttrKind Syn :=
  .node .file [.node .mod [.attr (some (.macro .contract)) [], .node .list [
    .node .strukt [.attr (some (.arg .storage)) []],
    .node .strukt [.attr (some (.arg .event)) [], .node .field [.attr (some (.arg .topic)) []]],
    .node .impl [.node .list [.node .fn [.attr (some (.arg .constructor)) [],
      .node .list [.node .fn [.attr (some (.arg .message)) []]]]]]]]]

example : visits id syn (fun _ => false) .v4 sample =
    [(.macro .contract, [0]), (.arg .storage, [0, 1, 0]), (.arg .event, [0, 1, 1]),
     (.arg .topic, [0, 1, 1, 1]), (.arg .impl, [0, 1, 2]),
     (.arg .constructor, [0, 1, 2, 0, 0])] := by decide

example : misplaced id syn (fun _ => false) .v4 sample = [.arg .message] := by decide

/-- `IsInkImpl`, `ImplOf` and `Placed` are met by the `impl` and the constructor of the sample. -/
example : Placed id syn .v4 sample (.arg .constructor) [0, 1, 2, 0, 0] ∧
    ∃ c, Placed id syn .v4 sample (.macro .contract) c ∧ ImplOf id syn sample c [0, 1, 2] ∧
      IsInkImpl id syn (fun _ => false) sample [0, 1, 2] :=
  ⟨(C84_checked id syn (fun _ => false) .v4 sample _ _ (by decide)).1 (by decide),
    (C84_impls id syn (fun _ => false) .v4 sample _).1 (by decide)⟩

theorem leadBy_one (kind : α → AttrKind) (file : Node α κ) (o : List Nat) (i : Nat) (a : α)
    (h : attrsAt file o = [(o ++ [i], a)]) : LeadBy kind file o a := by
  have hm := mem_attrsAt file o
  rw [h] at hm
  refine ⟨i, ((hm (o ++ [i]) a).1 (by simp)).choose_spec.2, fun j b hj => ?_⟩
  have := (hm (o ++ [j]) b).2 ⟨j, rfl, hj⟩
  simp only [List.mem_singleton, Prod.mk.injEq, List.append_cancel_left_eq, List.cons.injEq,
    and_true] at this
  obtain ⟨rfl, rfl⟩ := this
  exact ⟨Nat.le_refl _, fun h => absurd h (Nat.lt_irrefl _)⟩

/-- The hypotheses of `C84_accounted_partial` are met by the misplaced message of the sample. -/
example : sample.Annotated [0, 1, 2, 0, 0, 1, 0] ∧
    (∀ p, p <+: [0, 1, 2, 0, 0, 1, 0] → sample.isAttrAt p = false) ∧
    ∀ q, q ≠ [] → q <+: [0, 1, 2, 0, 0, 1, 0] → sample.Annotated q → Regular id syn sample q := by
  have pre : ∀ p : List Nat, p <+: [0, 1, 2, 0, 0, 1, 0] → p ∈ (List.range 8).map
      (fun l => [0, 1, 2, 0, 0, 1, 0].take l) := by
    intro p hp
    exact List.mem_map.2 ⟨p.length, List.mem_range.2 (Nat.lt_succ_of_le hp.length_le),
      (List.prefix_iff_eq_take.1 hp).symm⟩
  refine ⟨⟨0, .arg .message, [], rfl⟩, ?_, ?_⟩
  · intro p hp
    have h := pre p hp
    clear hp
    revert p
    decide
  · intro q hq hp ha
    have h := pre q hp
    have hx : attrsAt sample q ≠ [] := by
      obtain ⟨i, a, cs, h⟩ := ha
      have := (mem_attrsAt sample q (q ++ [i]) a).2 ⟨i, rfl, cs, h⟩
      exact List.ne_nil_of_mem this
    have hlist : q ∈ [[0], [0, 1, 2, 0, 0], [0, 1, 2, 0, 0, 1, 0]] := by
      clear ha hp
      revert hx hq
      revert q
      decide
    simp only [List.mem_cons, List.not_mem_nil, or_false] at hlist
    rcases hlist with rfl | rfl | rfl
    · exact ⟨.macro .contract, leadBy_one _ _ _ 0 _ (by decide), by decide, by simp, by simp⟩
    · exact ⟨.arg .constructor, leadBy_one _ _ _ 0 _ (by decide), by decide, by simp, by simp⟩
    · exact ⟨.arg .message, leadBy_one _ _ _ 0 _ (by decide), by decide, by simp, by simp⟩

/-- Finding: an `impl` of an ink! trait definition in a contract is not found as an ink! impl unless
it has an ink! attribute on or in it: `impl` items are looked for among the children of the module
node, where there are none. An implementation of an ink! trait in which all ink! attributes are
missing is therefore not checked at all. -/
theorem C84_negation_trait : ∃ (file : Node AttrKind Syn) (c p : List Nat),
    Placed id syn .v5 file (.macro .contract) c ∧ KindIs syn.isImpl file p ∧ c <+: p ∧
      IsInkImpl id syn (fun q => q == p) file p ∧
      visits id syn (fun q => q == p) .v5 file = [(.macro .contract, c)] :=
  ⟨.node .file [.node .mod [.attr (some (.macro .contract)) [], .node .list [
      .node .impl [.node .list [.node .fn []]]]]], [0], [0, 1, 0],
    (C84_checked id syn (fun _ => false) .v5 _ _ _ (by decide)).1 (by decide),
    (kindAt_iff _ _ _).1 (by decide), by decide,
    .inr ⟨(kindAt_iff _ _ _).1 (by decide), .inr (by decide)⟩, by decide⟩

/-- Finding: `#[ink(impl)]` on something that is not an item, such as a struct field, in a contract
is neither checked by the rules for ink! impls nor reported as misplaced. -/
theorem C84_negation_impl : ∃ (file : Node AttrKind Syn) (o : List Nat),
    file.Carries id (.arg .impl) o ∧
      visits id syn (fun _ => false) .v5 file = [(.macro .contract, [0])] ∧ o ≠ [0] ∧
      misplaced id syn (fun _ => false) .v5 file = [] :=
  ⟨.node .file [.node .mod [.attr (some (.macro .contract)) [], .node .list [
    .node .strukt [.node .field [.attr (some (.arg .impl)) []]]]]], [0, 1, 0, 0],
    ⟨0, _, ⟨_, rfl⟩, rfl⟩, by decide, by decide, by decide⟩

/-- Finding: `#[ink(function = …)]` in an ink! 5 chain extension on something else than a function
of the trait, here a function inside a default body, is neither checked by the rules for extension
functions nor reported as misplaced. (The same attribute spelled `extension` is checked.) -/
theorem C84_negation_function : ∃ (file : Node AttrKind Syn) (o : List Nat),
    file.Carries id (.arg .function) o ∧
      visits id syn (fun _ => false) .v5 file = [(.macro .chainExtension, [0])] ∧ o ≠ [0] ∧
      misplaced id syn (fun _ => false) .v5 file = [] :=
  ⟨.node .file [.node .trait [.attr (some (.macro .chainExtension)) [], .node .list [
    .node .fn [.node .list [.node .fn [.attr (some (.arg .function)) []]]]]]], [0, 1, 0, 0, 0],
    ⟨0, _, ⟨_, rfl⟩, rfl⟩, by decide, by decide, by decide⟩

/-- Finding: an ink! attribute inside an item whose leading attribute is `scale_derive` (ink! 5) is
neither checked nor reported: no rules are run on such an item. -/
theorem C84_negation_derive : ∃ (file : Node AttrKind Syn) (o : List Nat),
    file.Carries id (.arg .topic) o ∧
      visits id syn (fun _ => false) .v5 file = [] ∧
      misplaced id syn (fun _ => false) .v5 file = [] :=
  ⟨.node .file [.node .strukt [.attr (some (.macro .scaleDerive)) [],
    .node .field [.attr (some (.arg .topic)) []]]], [0, 1],
    ⟨0, _, ⟨_, rfl⟩, rfl⟩, by decide, by decide⟩

end Verif.Analyzer.Walk
