import Verif.Analyzer.Decl

/-!
# C114: the declaration of an item
-/

namespace Verif.Analyzer.Decl

/-! ## Specification -/

/-- A doc comment or an attribute. -/
def IsMeta (c : Elem) : Prop := (∃ n, c = .tok .doc n) ∨ ∃ cs, c = .node .attr cs

/-- White space or a comment that is no doc comment. -/
def IsSpace (c : Elem) : Prop := ∃ n, c = .tok .ws n ∨ c = .tok .comment n

/-- A node of one of the kinds. -/
def IsNode (ks : List NodeKind) (c : Elem) : Prop := ∃ k ∈ ks, ∃ cs, c = .node k cs

/-- A token of a kind. -/
def IsTok (k : Tok) (c : Elem) : Prop := ∃ n, c = .tok k n

mutual

/-- No token of the element is empty. -/
def Full : Elem → Prop
  | .tok _ n => 0 < n
  | .node _ cs => FullAll cs

/-- No token of the elements is empty. -/
def FullAll : List Elem → Prop
  | [] => True
  | c :: cs => Full c ∧ FullAll cs

end

/-- The first token of the elements is neither white space nor a comment. -/
inductive StartsSolid : List Elem → Prop
  | tok (k : Tok) (n : Nat) (cs : List Elem) (h : k ≠ .ws ∧ k ≠ .comment ∧ k ≠ .doc) :
      StartsSolid (.tok k n :: cs)
  | node (k : NodeKind) (ds cs : List Elem) (h : StartsSolid ds) : StartsSolid (.node k ds :: cs)

/-- An item with a block: the length up to and including its left curly bracket, the length of what is
inside, and the length of the right bracket. -/
inductive Block : ItemKind → List Elem → Nat → Nat → Nat → Prop
  | list (k : ItemKind) (a inner b : List Elem) (n m : Nat) (hk : k = .module ∨ k = .listed)
      (ha : ∀ c ∈ a, ¬ IsNode [.list] c)
      (hi : ∀ c ∈ inner, ¬ IsTok .rCurly c) :
      Block k (a ++ .node .list (.tok .lCurly n :: inner ++ [.tok .rCurly m]) :: b) (lenAll a + n)
        (lenAll inner) m
  | record (a inner b : List Elem) (n m : Nat) (ha : ∀ c ∈ a, ¬ IsNode [.list, .tuple] c)
      (hi : ∀ c ∈ inner, ¬ IsTok .rCurly c) :
      Block .struct (a ++ .node .list (.tok .lCurly n :: inner ++ [.tok .rCurly m]) :: b) (lenAll a + n)
        (lenAll inner) m
  | body (a inner b b' : List Elem) (n m : Nat) (ha : ∀ c ∈ a, ¬ IsNode [.body] c)
      (hi : ∀ c ∈ inner, ¬ IsTok .rCurly c) :
      Block .fn (a ++ .node .body (.node .list (.tok .lCurly n :: inner ++ [.tok .rCurly m]) :: b') :: b)
        (lenAll a + n) (lenAll inner) m

/-- An item that ends with a semicolon: the length in front of it and its length. -/
inductive Statement : ItemKind → List Elem → Nat → Nat → Prop
  | plain (k : ItemKind) (a b : List Elem) (n : Nat)
      (hk : k = .module ∨ k = .fn ∨ k = .struct ∨ k = .typeAlias)
      (ha : ∀ c ∈ a, ¬ IsNode [.list, .tuple, .body] c ∧ ¬ IsTok .semi c)
      (hb : ∀ c ∈ b, ¬ IsNode [.list, .tuple, .body] c) :
      Statement k (a ++ .tok .semi n :: b) (lenAll a) n
  | tuple (a ts b c : List Elem) (n : Nat) (ha : ∀ c ∈ a, ¬ IsNode [.list, .tuple] c)
      (hs : ∀ c ∈ a ++ b, ¬ IsTok .semi c) :
      Statement .struct (a ++ .node .tuple ts :: b ++ .tok .semi n :: c)
        (lenAll (a ++ .node .tuple ts :: b)) n

/-- The children of an item: doc comments, attributes and space, then the rest without doc comments and
attributes. -/
structure Parts (front core : List Elem) : Prop where
  frontOk : ∀ c ∈ front, IsMeta c ∨ IsSpace c
  coreOk : ∀ c ∈ core, ¬ IsMeta c
  solid : StartsSolid core
  full : FullAll (front ++ core)

/-! ## Lemmas -/

theorem lenAll_append (a b : List Elem) : lenAll (a ++ b) = lenAll a + lenAll b := by
  induction a with
  | nil => simp [lenAll]
  | cons c a ih => rw [List.cons_append, lenAll, lenAll, ih]; omega

theorem fullAll_append (a b : List Elem) : FullAll (a ++ b) ↔ FullAll a ∧ FullAll b := by
  induction a with
  | nil => simp [FullAll]
  | cons c a ih => rw [List.cons_append, FullAll, FullAll, ih, and_assoc]

theorem leavesAll_append (o : Nat) (a b : List Elem) :
    leavesAll o (a ++ b) = leavesAll o a ++ leavesAll (o + lenAll a) b := by
  induction a generalizing o with
  | nil => simp [leavesAll, lenAll]
  | cons c a ih => rw [List.cons_append, leavesAll, leavesAll, ih, lenAll, List.append_assoc,
      Nat.add_assoc]

mutual

theorem leaves_lt (o : Nat) (c : Elem) (h : Full c) : ∀ t ∈ leaves o c, o ≤ t.2 ∧ t.2 < o + len c := by
  match c with
  | .tok k n =>
    intro t ht
    rw [leaves, List.mem_singleton] at ht
    subst ht
    rw [Full] at h
    rw [len]
    exact ⟨Nat.le_refl _, by simp only; omega⟩
  | .node k cs =>
    rw [leaves, len]
    rw [Full] at h
    exact leavesAll_lt o cs h

theorem leavesAll_lt (o : Nat) (cs : List Elem) (h : FullAll cs) :
    ∀ t ∈ leavesAll o cs, o ≤ t.2 ∧ t.2 < o + lenAll cs := by
  match cs with
  | [] => intro t ht; simp [leavesAll] at ht
  | c :: cs =>
    intro t ht
    rw [FullAll] at h
    rw [leavesAll, List.mem_append] at ht
    rw [lenAll]
    rcases ht with ht | ht
    · have := leaves_lt o c h.1 t ht; omega
    · have := leavesAll_lt (o + len c) cs h.2 t ht; omega

end

theorem startsSolid_leaves (cs : List Elem) (h : StartsSolid cs) (o : Nat) :
    ∃ k ts, leavesAll o cs = (k, o) :: ts ∧ k.isTrivia = false := by
  induction h generalizing o with
  | tok k n cs h =>
    refine ⟨k, leavesAll (o + n) cs, by simp [leavesAll, leaves, len], ?_⟩
    cases k <;> simp [Tok.isTrivia] at h ⊢
  | node k ds cs _ ih =>
    obtain ⟨k', ts, h1, h2⟩ := ih o
    exact ⟨k', ts ++ leavesAll (o + len (.node k ds)) cs, by simp [leavesAll, leaves, h1], h2⟩

theorem space_leaves (o : Nat) (cs : List Elem) (h : ∀ c ∈ cs, IsSpace c) :
    ∀ t ∈ leavesAll o cs, t.1.isTrivia = true := by
  induction cs generalizing o with
  | nil => intro t ht; simp [leavesAll] at ht
  | cons c cs ih =>
    intro t ht
    rw [leavesAll, List.mem_append] at ht
    rcases ht with ht | ht
    · obtain ⟨n, rfl | rfl⟩ := h c (by simp)
      all_goals
        rw [leaves, List.mem_singleton] at ht
        subst ht
        rfl
    · exact ih _ (fun c hc => h c (by simp [hc])) t ht

theorem find_append (p : Elem → Bool) (o : Nat) (a b : List Elem) (h : ∀ c ∈ a, p c = false) :
    find p o (a ++ b) = find p (o + lenAll a) b := by
  induction a generalizing o with
  | nil => simp [lenAll]
  | cons c a ih =>
    rw [List.cons_append, find, h c (by simp), lenAll]
    simp only [Bool.false_eq_true, if_false]
    rw [ih (o + len c) fun c hc => h c (by simp [hc]), Nat.add_assoc]

theorem find_none (p : Elem → Bool) (o : Nat) (a : List Elem) (h : ∀ c ∈ a, p c = false) :
    find p o a = none := by
  have := find_append p o a [] h
  simpa [find] using this

theorem find_here (p : Elem → Bool) (o : Nat) (c : Elem) (b : List Elem) (h : p c = true) :
    find p o (c :: b) = some (o, c) := by
  rw [find, h]; rfl

theorem isNode_false (k : NodeKind) (ks : List NodeKind) (hk : k ∈ ks) (c : Elem) (h : ¬ IsNode ks c) :
    c.isNode k = false := by
  cases c with
  | tok t n => rfl
  | node k' cs =>
    rw [Elem.isNode]
    cases hb : k' == k
    · rfl
    · rw [beq_iff_eq] at hb
      exact absurd ⟨k, hk, cs, by rw [hb]⟩ h

theorem isTok_false (k : Tok) (c : Elem) (h : ¬ IsTok k c) : c.isTok k = false := by
  cases c with
  | node k' cs => rfl
  | tok t n =>
    rw [Elem.isTok]
    cases hb : t == k
    · rfl
    · rw [beq_iff_eq] at hb
      exact absurd ⟨n, by rw [hb]⟩ h

theorem lastEnd_append (p : Elem → Bool) (o : Nat) (a b : List Elem) :
    lastEnd p o (a ++ b) = (lastEnd p (o + lenAll a) b).or (lastEnd p o a) := by
  induction a generalizing o with
  | nil => simp [lenAll, lastEnd]
  | cons c a ih =>
    rw [List.cons_append, lastEnd, lastEnd, ih, lenAll, Nat.add_assoc]
    cases lastEnd p (o + (len c + lenAll a)) b <;> simp

theorem lastEnd_none (p : Elem → Bool) (o : Nat) (a : List Elem) (h : ∀ c ∈ a, p c = false) :
    lastEnd p o a = none := by
  induction a generalizing o with
  | nil => rfl
  | cons c a ih => rw [lastEnd, h c (by simp), ih _ fun c hc => h c (by simp [hc])]; rfl

theorem lastEnd_le (p : Elem → Bool) (o : Nat) (a : List Elem) (e : Nat) (h : lastEnd p o a = some e) :
    e ≤ o + lenAll a := by
  induction a generalizing o with
  | nil => cases h
  | cons c a ih =>
    rw [lastEnd] at h
    rw [lenAll]
    cases hl : lastEnd p (o + len c) a with
    | some x =>
      rw [hl] at h
      obtain rfl := Option.some.inj h
      have := ih _ hl
      omega
    | none =>
      rw [hl, Option.none_or] at h
      split at h
      · obtain rfl := Option.some.inj h; omega
      · cases h

theorem not_meta (c : Elem) (h : ¬ IsMeta c) : c.isTok .doc = false ∧ c.isNode .attr = false := by
  constructor
  · exact isTok_false _ _ fun ⟨n, hn⟩ => h (.inl ⟨n, hn⟩)
  · refine isNode_false .attr [.attr] (by simp) _ ?_
    rintro ⟨k, hk, cs, rfl⟩
    obtain rfl : k = .attr := by simpa using hk
    exact h (.inr ⟨cs, rfl⟩)

/-- The end of the last doc comment or attribute. -/
theorem metaEnd_last (o : Nat) (a b : List Elem) (m : Elem) (hm : IsMeta m)
    (hb : ∀ c ∈ b, ¬ IsMeta c) : metaEnd o (a ++ m :: b) = some (o + lenAll a + len m) := by
  have h1 : ∀ p : Elem → Bool, (∀ c ∈ b, p c = false) → lastEnd p o (a ++ m :: b) =
      (if p m then some (o + lenAll a + len m) else none).or (lastEnd p o a) := by
    intro p hp
    rw [lastEnd_append, lastEnd, lastEnd_none p _ b hp, Option.none_or]
  unfold metaEnd
  rw [h1 _ fun c hc => (not_meta c (hb c hc)).1, h1 _ fun c hc => (not_meta c (hb c hc)).2]
  rcases hm with ⟨n, rfl⟩ | ⟨cs, rfl⟩
  · have e1 : (Elem.tok .doc n).isTok .doc = true := rfl
    have e2 : (Elem.tok .doc n).isNode .attr = false := rfl
    rw [e1, e2]
    simp only [if_true, Option.some_or, Bool.false_eq_true, if_false, Option.none_or]
    cases hl : lastEnd (Elem.isNode .attr) o a with
    | none => rfl
    | some x =>
      have := lastEnd_le _ _ _ _ hl
      simp only
      rw [if_pos (by omega)]
  · have e1 : (Elem.node .attr cs).isTok .doc = false := rfl
    have e2 : (Elem.node .attr cs).isNode .attr = true := rfl
    rw [e1, e2]
    simp only [if_true, Option.some_or, Bool.false_eq_true, if_false, Option.none_or]
    cases hl : lastEnd (Elem.isTok .doc) o a with
    | none => rfl
    | some x =>
      have := lastEnd_le _ _ _ _ hl
      simp only
      split
      · congr 1; omega
      · rfl

theorem metaEnd_none (o : Nat) (a : List Elem) (h : ∀ c ∈ a, ¬ IsMeta c) : metaEnd o a = none := by
  unfold metaEnd
  rw [lastEnd_none _ _ _ fun c hc => (not_meta c (h c hc)).1,
    lastEnd_none _ _ _ fun c hc => (not_meta c (h c hc)).2]

theorem find?_skip {α : Type} (p : α → Bool) (a b : List α) (h : ∀ x ∈ a, p x = false) :
    (a ++ b).find? p = b.find? p := by
  rw [List.find?_append, List.find?_eq_none.2 (by simpa using h)]
  rfl

/-- The last doc comment or attribute of a list. -/
theorem last_meta (l : List Elem) (h : ∃ c ∈ l, IsMeta c) :
    ∃ a m b, l = a ++ m :: b ∧ IsMeta m ∧ ∀ c ∈ b, ¬ IsMeta c := by
  induction l with
  | nil => obtain ⟨c, hc, _⟩ := h; cases hc
  | cons x l ih =>
    by_cases hl : ∃ c ∈ l, IsMeta c
    · obtain ⟨a, m, b, rfl, h1, h2⟩ := ih hl
      exact ⟨x :: a, m, b, rfl, h1, h2⟩
    · obtain ⟨c, hc, hm⟩ := h
      rcases List.mem_cons.1 hc with h1 | h1
      · refine ⟨[], x, l, rfl, h1 ▸ hm, fun c hc hm => hl ⟨c, hc, hm⟩⟩
      · exact absurd ⟨c, h1, hm⟩ hl

theorem declStart_eq (o : Nat) (front core rest : List Elem) (h : Parts front core)
    (hf : (∃ c ∈ front, IsMeta c) ∨ front = []) :
    declStart o (front ++ core) rest = o + lenAll front := by
  rcases hf with hf | rfl
  · obtain ⟨a, m, b, rfl, hm, hb⟩ := last_meta front hf
    unfold declStart
    have hbc : ∀ c ∈ b ++ core, ¬ IsMeta c := by
      intro c hc
      rcases List.mem_append.1 hc with h1 | h1
      · exact hb c h1
      · exact h.coreOk c h1
    rw [List.append_assoc, List.cons_append, metaEnd_last o a (b ++ core) m hm hbc, Option.bind_some]
    obtain ⟨k, ts, hk, htr⟩ := startsSolid_leaves core h.solid (o + lenAll (a ++ m :: b))
    have hfull := h.full
    rw [fullAll_append] at hfull
    have hsplit : a ++ m :: (b ++ core) ++ rest = (a ++ [m]) ++ (b ++ (core ++ rest)) := by simp
    have hfa : FullAll (a ++ [m]) := by
      have := hfull.1
      rw [show a ++ m :: b = (a ++ [m]) ++ b by simp, fullAll_append] at this
      exact this.1
    have hlen1 : lenAll (a ++ [m]) = lenAll a + len m := by simp [lenAll_append, lenAll]
    have hlen2 : lenAll (a ++ m :: b) = lenAll (a ++ [m]) + lenAll b := by
      rw [← lenAll_append]; simp
    rw [hsplit, leavesAll_append, find?_skip, leavesAll_append, find?_skip, leavesAll_append,
      show o + lenAll (a ++ [m]) + lenAll b = o + lenAll (a ++ m :: b) by omega, hk]
    · rw [List.cons_append, List.find?_cons]
      have : (decide (o + lenAll a + len m ≤ o + lenAll (a ++ m :: b)) && !k.isTrivia) = true := by
        rw [htr, hlen2, hlen1]
        simp only [Bool.not_false, Bool.and_true, decide_eq_true_eq]
        omega
      simp only
      rw [this]
      rfl
    · intro t ht
      have hsp : ∀ c ∈ b, IsSpace c := fun c hc =>
        (h.frontOk c (by simp [hc])).resolve_left (hb c hc)
      rw [space_leaves _ _ hsp t ht]
      simp
    · intro t ht
      have := leavesAll_lt o _ hfa t ht
      have : ¬ (o + lenAll a + len m ≤ t.2) := by omega
      simp [this]
  · unfold declStart
    rw [List.nil_append, metaEnd_none o core h.coreOk]
    rfl

theorem front_node (front : List Elem) (hf : ∀ c ∈ front, IsMeta c ∨ IsSpace c) (k : NodeKind)
    (hk : k ≠ .attr) : ∀ c ∈ front, c.isNode k = false := by
  intro c hc
  rcases hf c hc with (⟨n, rfl⟩ | ⟨cs, rfl⟩) | ⟨n, rfl | rfl⟩
  · rfl
  · rw [Elem.isNode]; exact beq_false_of_ne (Ne.symm hk)
  · rfl
  · rfl

theorem front_tok (front : List Elem) (hf : ∀ c ∈ front, IsMeta c ∨ IsSpace c) (k : Tok)
    (hk : k.isTrivia = false) : ∀ c ∈ front, c.isTok k = false := by
  intro c hc
  rcases hf c hc with (⟨n, rfl⟩ | ⟨cs, rfl⟩) | ⟨n, rfl | rfl⟩
  · cases k <;> first | rfl | cases hk
  · rfl
  · cases k <;> first | rfl | cases hk
  · cases k <;> first | rfl | cases hk

theorem listEnd_bracket (o n : Nat) (cs ds : List Elem) :
    listEnd (o, .node .list (.tok .lCurly n :: cs ++ ds)) = o + n := by
  unfold listEnd
  simp only [Elem.children, List.cons_append]
  rw [find_here _ _ _ _ rfl]
  rfl

theorem listClose_bracket (o n m : Nat) (inner : List Elem) (hi : ∀ c ∈ inner, ¬ IsTok .rCurly c) :
    listClose (o, .node .list (.tok .lCurly n :: inner ++ [.tok .rCurly m])) =
      some (o + n + lenAll inner, .tok .rCurly m) := by
  unfold listClose
  simp only [Elem.children]
  rw [find_append, find_here _ _ _ _ rfl, lenAll, len, Nat.add_assoc]
  intro c hc
  rcases List.mem_cons.1 hc with rfl | hc
  · rfl
  · exact isTok_false _ _ (hi c hc)

/-- What is found behind the front of an item. -/
theorem find_front (front : List Elem) (hf : ∀ c ∈ front, IsMeta c ∨ IsSpace c) (o : Nat)
    (core : List Elem) :
    (∀ k, k ≠ .attr → find (Elem.isNode k) o (front ++ core) =
      find (Elem.isNode k) (o + lenAll front) core) ∧
    (∀ k, k.isTrivia = false → find (Elem.isTok k) o (front ++ core) =
      find (Elem.isTok k) (o + lenAll front) core) ∧
    find (fun c => c.isNode .list || c.isNode .tuple) o (front ++ core) =
      find (fun c => c.isNode .list || c.isNode .tuple) (o + lenAll front) core := by
  refine ⟨fun k hk => find_append _ _ _ _ (front_node front hf k hk),
    fun k hk => find_append _ _ _ _ (front_tok front hf k hk), find_append _ _ _ _ fun c hc => ?_⟩
  rw [front_node front hf .list (by decide) c hc, front_node front hf .tuple (by decide) c hc]
  rfl

theorem declEnd_front (front : List Elem) (hf : ∀ c ∈ front, IsMeta c ∨ IsSpace c) (k : ItemKind)
    (o : Nat) (core : List Elem) :
    declEnd k o (front ++ core) = declEnd k (o + lenAll front) core := by
  obtain ⟨h1, h2, h3⟩ := find_front front hf o core
  unfold declEnd semiEnd
  rw [h1 .list (by decide), h1 .body (by decide), h2 .semi rfl, h3]

theorem terminal_front (front : List Elem) (hf : ∀ c ∈ front, IsMeta c ∨ IsSpace c) (k : ItemKind)
    (o : Nat) (core : List Elem) :
    terminal k o (front ++ core) = terminal k (o + lenAll front) core := by
  obtain ⟨h1, h2, h3⟩ := find_front front hf o core
  unfold terminal
  rw [h1 .list (by decide), h1 .body (by decide), h2 .semi rfl, h3]

theorem block_ends (k : ItemKind) (core : List Elem) (d i m : Nat) (h : Block k core d i m) (o : Nat) :
    declEnd k o core = some (o + d) ∧ terminal k o core = some (o + d + i, o + d + i + m) ∧
      d + i + m ≤ lenAll core := by
  cases h with
  | list k a inner b n m hk ha hi =>
    have hfind : find (Elem.isNode .list) o (a ++ .node .list (.tok .lCurly n :: inner ++
        [.tok .rCurly m]) :: b) = some (o + lenAll a, .node .list (.tok .lCurly n :: inner ++
        [.tok .rCurly m])) := by
      rw [find_append _ _ _ _ fun c hc => isNode_false .list [.list] (by simp) c (ha c hc)]
      exact find_here _ _ _ _ rfl
    refine ⟨?_, ?_, ?_⟩
    · unfold declEnd
      rcases hk with rfl | rfl <;> simp only [hfind, Option.map_some,
        listEnd_bracket, Option.some_or, Nat.add_assoc]
    · unfold terminal
      rcases hk with rfl | rfl <;> simp only [hfind, Option.bind_some, listClose_bracket _ _ _ _ hi,
        Option.some_or, Option.map_some, endOf, len, Nat.add_assoc]
    · simp only [lenAll_append, lenAll, len, List.cons_append]
      omega
  | record a inner b n m ha hi =>
    have hfind : find (fun c => c.isNode .list || c.isNode .tuple) o (a ++ .node .list
        (.tok .lCurly n :: inner ++ [.tok .rCurly m]) :: b) = some (o + lenAll a, .node .list
        (.tok .lCurly n :: inner ++ [.tok .rCurly m])) := by
      rw [find_append _ _ _ _ fun c hc => by
        rw [isNode_false .list [.list, .tuple] (by simp) c (ha c hc),
          isNode_false .tuple [.list, .tuple] (by simp) c (ha c hc)]; rfl]
      exact find_here _ _ _ _ rfl
    have hl : ∀ cs, (Elem.node .list cs).isNode .list = true := fun _ => rfl
    refine ⟨?_, ?_, ?_⟩
    · unfold declEnd
      simp only [hfind, hl, if_true, listEnd_bracket, Nat.add_assoc]
    · unfold terminal
      simp only [hfind, Option.bind_some, hl, if_true, listClose_bracket _ _ _ _ hi,
        Option.some_or, Option.map_some, endOf, len, Nat.add_assoc]
    · simp only [lenAll_append, lenAll, len, List.cons_append]
      omega
  | body a inner b b' n m ha hi =>
    have hfind : find (Elem.isNode .body) o (a ++ .node .body (.node .list (.tok .lCurly n :: inner ++
        [.tok .rCurly m]) :: b') :: b) = some (o + lenAll a, .node .body (.node .list
        (.tok .lCurly n :: inner ++ [.tok .rCurly m]) :: b')) := by
      rw [find_append _ _ _ _ fun c hc => isNode_false .body [.body] (by simp) c (ha c hc)]
      exact find_here _ _ _ _ rfl
    have hfind2 : ∀ o, find (Elem.isNode .list) o (.node .list (.tok .lCurly n :: inner ++
        [.tok .rCurly m]) :: b') = some (o, .node .list (.tok .lCurly n :: inner ++
        [.tok .rCurly m])) := fun o => find_here _ _ _ _ rfl
    refine ⟨?_, ?_, ?_⟩
    · unfold declEnd
      simp only [hfind, Elem.children, hfind2, listEnd_bracket, Nat.add_assoc]
    · unfold terminal
      simp only [hfind, Option.bind_some, Elem.children, hfind2, listClose_bracket _ _ _ _ hi,
        Option.some_or, Option.map_some, endOf, len, Nat.add_assoc]
    · simp only [lenAll_append, lenAll, len, List.cons_append]
      omega

theorem statement_ends (k : ItemKind) (core : List Elem) (d n : Nat) (h : Statement k core d n)
    (o : Nat) :
    declEnd k o core = some (o + d + n) ∧ terminal k o core = some (o + d, o + d + n) ∧
      d + n ≤ lenAll core := by
  cases h with
  | plain k a b n hk ha hb =>
    have hnode : ∀ k' ∈ [NodeKind.list, .tuple, .body], ∀ c ∈ a ++ Elem.tok .semi n :: b,
        c.isNode k' = false := by
      intro k' hk' c hc
      rcases List.mem_append.1 hc with h1 | h1
      · exact isNode_false k' _ hk' c (ha c h1).1
      · rcases List.mem_cons.1 h1 with rfl | h1
        · rfl
        · exact isNode_false k' _ hk' c (hb c h1)
    have hsemi : find (Elem.isTok .semi) o (a ++ .tok .semi n :: b) =
        some (o + lenAll a, .tok .semi n) := by
      rw [find_append _ _ _ _ fun c hc => isTok_false _ _ (ha c hc).2]
      exact find_here _ _ _ _ rfl
    have hl := find_none (Elem.isNode .list) o _ (hnode .list (by simp))
    have hb' := find_none (Elem.isNode .body) o _ (hnode .body (by simp))
    have ht := find_none (fun c => c.isNode .list || c.isNode .tuple) o (a ++ Elem.tok .semi n :: b)
      fun c hc => by rw [hnode .list (by simp) c hc, hnode .tuple (by simp) c hc]; rfl
    refine ⟨?_, ?_, ?_⟩
    · unfold declEnd semiEnd
      rcases hk with rfl | rfl | rfl | rfl <;>
        simp only [hl, hb', ht, hsemi, Option.map_none, Option.none_or, Option.map_some, endOf, len]
    · unfold terminal
      rcases hk with rfl | rfl | rfl | rfl <;>
        simp only [hl, hb', ht, hsemi, Option.bind_none, Option.none_or, Option.map_some, endOf, len]
    · simp only [lenAll_append, lenAll, len]
      omega
  | tuple a ts b c n ha hs =>
    have hfind : find (fun c => c.isNode .list || c.isNode .tuple) o (a ++ .node .tuple ts :: b ++
        .tok .semi n :: c) = some (o + lenAll a, .node .tuple ts) := by
      rw [List.append_assoc, find_append _ _ _ _ fun c hc => by
        rw [isNode_false .list [.list, .tuple] (by simp) c (ha c hc),
          isNode_false .tuple [.list, .tuple] (by simp) c (ha c hc)]; rfl]
      exact find_here _ _ _ _ rfl
    have hsemi : find (Elem.isTok .semi) o (a ++ .node .tuple ts :: b ++ .tok .semi n :: c) =
        some (o + lenAll (a ++ .node .tuple ts :: b), .tok .semi n) := by
      rw [find_append _ _ _ _ fun c hc => ?_]
      · exact find_here _ _ _ _ rfl
      · rcases List.mem_append.1 hc with h1 | h1
        · exact isTok_false _ _ (hs c (List.mem_append.2 (.inl h1)))
        · rcases List.mem_cons.1 h1 with rfl | h1
          · rfl
          · exact isTok_false _ _ (hs c (List.mem_append.2 (.inr h1)))
    have hl : ∀ cs, (Elem.node .tuple cs).isNode .list = false := fun _ => rfl
    refine ⟨?_, ?_, ?_⟩
    · unfold declEnd semiEnd
      simp only [hfind, hl, Bool.false_eq_true, if_false, hsemi, Option.map_some, Option.some_or, endOf,
        len]
    · unfold terminal
      simp only [hfind, hl, Bool.false_eq_true, if_false, hsemi, Option.bind_some, Option.some_or,
        Option.map_some, endOf, len]
    · simp only [lenAll_append, lenAll, len]
      omega

/-! ## The theorems -/

/-- **C114** (partial). For an item whose doc comments and attributes come in front and that has a block: the
declaration starts right behind them and ends with the left bracket, the terminal token is the right
bracket, and what is between is exactly the inside of the block; there is no panic, and all of it lies in
the item. (Missing: items with a comment but without doc comments and attributes, and doc comments elsewhere,
see below.) -/
theorem C114_block_partial (k : ItemKind) (o : Nat) (front core rest : List Elem) (d i m : Nat)
    (h : Parts front core) (hf : (∃ c ∈ front, IsMeta c) ∨ front = []) (hb : Block k core d i m) :
    declRange k o (front ++ core) rest =
      some (some (o + lenAll front, o + lenAll front + d)) ∧
    terminal k o (front ++ core) =
      some (o + lenAll front + d + i, o + lenAll front + d + i + m) ∧
    lenAll front + d + i + m ≤ lenAll (front ++ core) := by
  obtain ⟨h1, h2, h3⟩ := block_ends k core d i m hb (o + lenAll front)
  refine ⟨?_, ?_, ?_⟩
  · unfold declRange
    rw [declEnd_front front h.frontOk, h1]
    simp only
    rw [declStart_eq o front core rest h hf, if_pos (by omega)]
  · rw [terminal_front front h.frontOk, h2]
  · rw [lenAll_append]; omega

/-- **C114** (partial). For an item whose doc comments and attributes come in front and that ends with a
semicolon: the declaration is all that is behind them up to and including the semicolon, which is the
terminal token; there is no panic. (Missing: as for blocks.) -/
theorem C114_statement_partial (k : ItemKind) (o : Nat) (front core rest : List Elem) (d n : Nat)
    (h : Parts front core) (hf : (∃ c ∈ front, IsMeta c) ∨ front = []) (hs : Statement k core d n) :
    declRange k o (front ++ core) rest =
      some (some (o + lenAll front, o + lenAll front + d + n)) ∧
    terminal k o (front ++ core) = some (o + lenAll front + d, o + lenAll front + d + n) ∧
    lenAll front + d + n ≤ lenAll (front ++ core) := by
  obtain ⟨h1, h2, h3⟩ := statement_ends k core d n hs (o + lenAll front)
  refine ⟨?_, ?_, ?_⟩
  · unfold declRange
    rw [declEnd_front front h.frontOk, h1]
    simp only
    rw [declStart_eq o front core rest h hf, if_pos (by omega)]
  · rw [terminal_front front h.frontOk, h2]
  · rw [lenAll_append]; omega

/-- **C114** (partial). For an item with a block, as before: a selection is on the declaration exactly if it lies
between the doc comments and attributes and the end of the left bracket, or in the right bracket; it is in the
body exactly if it lies between the brackets of a block that is not empty. In particular a selection that
starts in the doc comments or attributes is neither. -/
theorem C114_focus_partial (k : ItemKind) (o : Nat) (front core rest : List Elem) (d i m : Nat)
    (h : Parts front core) (hf : (∃ c ∈ front, IsMeta c) ∨ front = []) (hb : Block k core d i m)
    (sel : Nat × Nat) :
    ∃ decl body, onDeclaration k o (front ++ core) rest sel = some decl ∧
      onBody k o (front ++ core) rest sel = some body ∧
      (decl = true ↔ (o + lenAll front ≤ sel.1 ∧ sel.2 ≤ o + lenAll front + d) ∨
        (o + lenAll front + d + i ≤ sel.1 ∧ sel.2 ≤ o + lenAll front + d + i + m)) ∧
      (body = true ↔ 0 < i ∧ o + lenAll front + d ≤ sel.1 ∧ sel.2 ≤ o + lenAll front + d + i) ∧
      (sel.1 < o + lenAll front → decl = false ∧ body = false) := by
  obtain ⟨h1, h2, -⟩ := C114_block_partial k o front core rest d i m h hf hb
  unfold onDeclaration onBody
  rw [h1, h2]
  refine ⟨_, _, rfl, rfl, ?_, ?_, ?_⟩
  · simp
  · simp
  · intro hlt
    constructor
    · simp; omega
    · simp; omega

/-! ## Examples and findings -/

/-- `/// d⏎#[a]⏎struct E { x: u8 }` in parts. -/
def sampleFront : List Elem :=
  [.tok .doc 5, .tok .ws 1, .node .attr [.tok .other 1, .tok .other 1, .tok .other 1, .tok .other 1],
    .tok .ws 1]

/-- See `sampleFront`. -/
def sampleCore : List Elem :=
  [.tok .other 6, .tok .ws 1, .node .other [.tok .other 1], .tok .ws 1] ++
    .node .list (.tok .lCurly 1 :: [.tok .ws 1, .node .other [.tok .other 5], .tok .ws 1] ++
      [.tok .rCurly 1]) :: []

example : Parts sampleFront sampleCore where
  frontOk := by
    intro c hc
    simp only [sampleFront, List.mem_cons, List.not_mem_nil, or_false] at hc
    rcases hc with rfl | rfl | rfl | rfl
    · exact .inl (.inl ⟨_, rfl⟩)
    · exact .inr ⟨_, .inl rfl⟩
    · exact .inl (.inr ⟨_, rfl⟩)
    · exact .inr ⟨_, .inl rfl⟩
  coreOk := by
    intro c hc
    simp only [sampleCore, List.mem_append, List.mem_cons, List.not_mem_nil, or_false] at hc
    rcases hc with (rfl | rfl | rfl | rfl) | rfl <;>
      (rintro (⟨n, h⟩ | ⟨cs, h⟩) <;> simp at h)
  solid := .tok _ _ _ (by decide)
  full := by simp [sampleFront, sampleCore, FullAll, Full]

example : ∃ c ∈ sampleFront, IsMeta c := ⟨.tok .doc 5, by simp [sampleFront], .inl ⟨_, rfl⟩⟩

example : Block .struct sampleCore 10 7 1 := by
  refine .record [.tok .other 6, .tok .ws 1, .node .other [.tok .other 1], .tok .ws 1]
    [.tok .ws 1, .node .other [.tok .other 5], .tok .ws 1] [] 1 1 ?_ ?_
  · intro c hc
    simp only [List.mem_cons, List.not_mem_nil, or_false] at hc
    rcases hc with rfl | rfl | rfl | rfl <;> (rintro ⟨k, hk, cs, h⟩; simp at h)
    rw [← h.1] at hk; simp at hk
  · intro c hc
    simp only [List.mem_cons, List.not_mem_nil, or_false] at hc
    rcases hc with rfl | rfl | rfl <;> (rintro ⟨n, h⟩; simp at h)

example : Statement .struct [.tok .other 6, .tok .ws 1, .node .tuple [.tok .other 1, .tok .rParen 1],
    .tok .semi 1] 9 1 :=
  .tuple [.tok .other 6, .tok .ws 1] [.tok .other 1, .tok .rParen 1] [] [] 1 (by
    intro c hc
    simp only [List.mem_cons, List.not_mem_nil, or_false] at hc
    rcases hc with rfl | rfl <;> (rintro ⟨k, hk, cs, h⟩; simp at h)) (by
    intro c hc
    simp only [List.append_nil, List.mem_cons, List.not_mem_nil, or_false] at hc
    rcases hc with rfl | rfl <;> (rintro ⟨n, h⟩; simp at h))

example : declRange .struct 3 (sampleFront ++ sampleCore) [] = some (some (14, 24)) ∧
    terminal .struct 3 (sampleFront ++ sampleCore) = some (31, 32) := by decide

/-- Finding: `struct A(u8) /** d */ where T: C` (the semicolon is missing) makes the code panic: the doc comment
is behind the closing parenthesis, so that the declaration would start behind its end. -/
theorem C114_negation_panic :
    declRange .struct 0 [.tok .other 6, .tok .ws 1, .node .other [.tok .other 1],
      .node .tuple [.tok .other 1, .node .other [.tok .other 2], .tok .rParen 1], .tok .ws 1,
      .tok .doc 8, .tok .ws 1, .node .other [.tok .other 5, .tok .ws 1, .tok .other 4]] [] = none := by
  decide

/-- Finding: a comment in front of an item belongs to its declaration if there is no doc comment and no
attribute (`// c⏎struct E;`), but not if there is one (`// c⏎/// d⏎struct E;`). -/
theorem C114_negation_comment :
    declRange .struct 0 ([.tok .comment 4, .tok .ws 1] ++
      [.tok .other 6, .tok .ws 1, .node .other [.tok .other 1], .tok .semi 1]) [] =
      some (some (0, 14)) ∧
    declRange .struct 0 ([.tok .comment 4, .tok .ws 1, .tok .doc 5, .tok .ws 1] ++
      [.tok .other 6, .tok .ws 1, .node .other [.tok .other 1], .tok .semi 1]) [] =
      some (some (11, 20)) := by
  decide

end Verif.Analyzer.Decl
