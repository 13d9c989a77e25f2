import Verif.Ir.MetaLemmas

/-!
# C20: attribute argument parsing is total and well ranged

Inputs are arbitrary token trees `Elem` (nested to any depth, with any tokens and error
nodes) and an arbitrary expression parser. The only assumption is `Elem.wf`: the lexer
nests parentheses, so a `(` token is always the first child of its own token tree.
-/

namespace Verif.Ir

/-- The token tree of an attribute `#[ink( mid )]`. -/
def parenthesised (mid : List Elem) : Elem :=
  .tree (.tok .lParen "(" :: (mid ++ [.tok .rParen ")"]))

/-- `mid` contains only elements that can stand between the parentheses of one attribute:
no parenthesis token of its own level and no stray closing bracket. -/
def Between (mid : List Elem) : Prop :=
  ∀ c ∈ mid, c.isLParen = false ∧ c.isRParen = false ∧ c.isErrorRBrack = false

instance (mid : List Elem) : Decidable (Between mid) := by unfold Between; infer_instance

theorem content_parenthesised (pe : ExprParser) (o : Nat) (mid : List Elem)
    (h : Between mid) :
    content (annotate pe o (.tok .lParen "(" :: (mid ++ [.tok .rParen ")"]))) =
      annotate pe (o + 1) mid := by
  unfold content
  have h1 : ((annotate pe o (.tok .lParen "(" :: (mid ++ [.tok .rParen ")"]))).any
      fun a => a.elem.isLParen) = true := by
    simp only [annotate, List.any_cons, Bool.or_eq_true]
    exact .inl rfl
  rw [if_pos h1]
  simp only [annotate, List.drop_one, List.tail_cons]
  rw [show (Elem.tok .lParen "(").len = 1 from by decide, annotate_append]
  rw [List.takeWhile_append_of_pos]
  · simp [annotate, Annot.elem, Elem.isRParen]
  · intro a ha
    have : a.elem ∈ mid := by
      rw [← annotate_elems pe (o + 1) mid]; exact List.mem_map_of_mem ha
    simp [h _ this]

/-- Parsing the arguments of an attribute never panics. -/
theorem C20_total (pe : ExprParser) (o : Nat) (e : Elem) (h : e.wf = true) :
    (e.parse pe o).isSome := by
  obtain ⟨items, hi, _⟩ := e.parse_ok pe o h
  rw [hi]; rfl

/-- The items come in source order and do not overlap. -/
theorem C20_ordered (pe : ExprParser) (o : Nat) (e : Elem) (items : List Meta)
    (h : e.wf = true) (hp : e.parse pe o = some items)
    (i j : Nat) (hij : i < j) (hj : j < items.length) (ri rj : Nat × Nat)
    (hi : items[i].textRange = some ri) (hjr : items[j].textRange = some rj) :
    ri.1 ≤ ri.2 ∧ ri.2 ≤ rj.1 ∧ rj.1 ≤ rj.2 := by
  obtain ⟨items', hi', ho, _⟩ := e.parse_ok pe o h
  rw [hp] at hi'
  cases hi'
  exact ⟨Meta.textRange_le hi,
    (List.pairwise_iff_getElem.1 ho i j (by omega) hj hij) _ _ hi hjr,
    Meta.textRange_le hjr⟩

/-- Every item lies strictly between the parentheses. -/
theorem C20_inside (pe : ExprParser) (o : Nat) (mid : List Elem) (items : List Meta)
    (hb : Between mid) (hwf : Elem.wfList mid = true)
    (hp : (parenthesised mid).parse pe o = some items) (m : Meta) (hm : m ∈ items)
    (r : Nat × Nat) (hr : m.textRange = some r) :
    o + 1 ≤ r.1 ∧ r.1 ≤ r.2 ∧ r.2 ≤ o + 1 + Elem.lenList mid := by
  simp only [parenthesised, Elem.parse, content_parenthesised pe o mid hb] at hp
  have ht := annotate_ok pe mid (o + 1) hwf
  have hbm := annotate_inB pe (o + 1) mid
  have hfl := groupRuns_flatten (fun a : Annot => a.elem.isComma) (annotate pe (o + 1) mid)
  have hsep : firstSep o (annotate pe o (.tok .lParen "(" :: (mid ++ [.tok .rParen ")"]))) =
      o + 1 := by
    have h1 : ((annotate pe o (.tok .lParen "(" :: (mid ++ [.tok .rParen ")"]))).find?
        fun a => a.elem.isLParen) =
          some ⟨⟨.tok .lParen "(", o⟩, Elem.parse pe o (.tok .lParen "(")⟩ := by
      simp only [annotate]
      exact List.find?_cons_of_pos rfl
    unfold firstSep
    rw [h1]
    show o + (Elem.tok .lParen "(").len = o + 1
    rw [show (Elem.tok .lParen "(").len = 1 from by decide]
  rw [hsep] at hp
  have hlen : o + 1 + Elem.lenList mid ≤
      o + Elem.lenList (.tok .lParen "(" :: (mid ++ [.tok .rParen ")"])) := by
    have happ : ∀ a b : List Elem, Elem.lenList (a ++ b) = Elem.lenList a + Elem.lenList b := by
      intro a b
      induction a with
      | nil => simp [Elem.lenList]
      | cons x xs ih => simp [Elem.lenList, ih, Nat.add_assoc]
    simp only [Elem.lenList, happ, show (Elem.tok .lParen "(").len = 1 from by decide]
    omega
  obtain ⟨ms, hms, _, hw, _⟩ := itemsOf_ok (pe := pe) (ttStart := o)
    (ttStop := o + Elem.lenList (.tok .lParen "(" :: (mid ++ [.tok .rParen ")"])))
    (groupRuns (fun a => a.elem.isComma) (annotate pe (o + 1) mid))
    (o + 1) (o + 1) (o + 1 + Elem.lenList mid)
    (by rw [hfl]; exact hbm) (by rw [hfl]; exact ht)
    (fun kg hkg => (groupRuns_key _ _ kg hkg).1) (groupRuns_alternating _ _)
    (by intro _ _ _; omega) (by omega) (by omega) hlen
  rw [hp] at hms
  cases hms
  have := hw m hm r hr
  have := Meta.textRange_le hr
  omega

/-- The number of items is the number of maximal comma-free runs. -/
theorem C20_count_partial (pe : ExprParser) (o : Nat) (mid : List Elem) (items : List Meta)
    (hb : Between mid) (hp : (parenthesised mid).parse pe o = some items) :
    items.length = runStarts Elem.isComma true mid := by
  simp only [parenthesised, Elem.parse, content_parenthesised pe o mid hb] at hp
  rw [itemsOf_length _ _ _ hp, groupRuns_count]
  have : ∀ (l : List Annot) (b : Bool), runStarts (fun a : Annot => a.elem.isComma) b l =
      runStarts Elem.isComma b (l.map Annot.elem) := by
    intro l
    induction l with
    | nil => intro b; rfl
    | cons x xs ih => intro b; simp [runStarts, ih]
  rw [this, annotate_elems]

/-- Without a leading comma and without two commas in a row, `n` commas give `n + 1` items,
or `n` when the list ends with a comma: the count part of the property for such lists. -/
theorem C20_commas_partial (pe : ExprParser) (o : Nat) (mid : List Elem) (items : List Meta)
    (hb : Between mid) (hp : (parenthesised mid).parse pe o = some items)
    (hne : mid ≠ []) (hlead : mid.head?.map Elem.isComma = some false)
    (hadj : ∀ a x y b, mid = a ++ x :: y :: b → ¬ (x.isComma = true ∧ y.isComma = true)) :
    items.length = (mid.filter Elem.isComma).length +
      (if mid.getLast?.map Elem.isComma = some true then 0 else 1) := by
  rw [C20_count_partial pe o mid items hb hp]
  have key : ∀ (l : List Elem), l ≠ [] →
      (∀ a x y b, l = a ++ x :: y :: b → ¬ (x.isComma = true ∧ y.isComma = true)) →
      ∀ prev : Bool, ¬ (prev = true ∧ l.head?.map Elem.isComma = some true) →
      runStarts Elem.isComma prev l + (if prev then 0 else 1) =
        (l.filter Elem.isComma).length +
          (if l.getLast?.map Elem.isComma = some true then 0 else 1) := by
    intro l
    induction l with
    | nil => intro h; exact absurd rfl h
    | cons x xs ih =>
      intro _ hadj prev hp
      cases xs with
      | nil =>
        cases hx : x.isComma <;> cases prev <;> simp [runStarts, hx] at hp ⊢
      | cons y ys =>
        have := ih (by simp) (fun a u v b he => hadj (x :: a) u v b (by rw [he]; rfl)) x.isComma
          (by
            intro ⟨h1, h2⟩
            exact hadj [] x y ys rfl ⟨h1, by simpa using h2⟩)
        rw [List.getLast?_cons_cons, runStarts]
        generalize (if (y :: ys).getLast?.map Elem.isComma = some true then 0 else 1) = e at *
        generalize runStarts Elem.isComma x.isComma (y :: ys) = r at *
        rw [List.filter_cons]
        generalize (y :: ys).filter Elem.isComma = f at *
        cases hx : x.isComma <;> cases prev <;> simp [hx] at hp this ⊢ <;> omega
  have := key mid hne hadj true (by simp [hlead])
  simpa using this

/-- The count clause is false as stated: consecutive commas are grouped, so `a,,b` has two
commas and two items, while `a,,,b` has three commas and still only two items, and `,` has
one comma and no item. -/
theorem C20_count_negation (pe : ExprParser) :
    (∃ items, (parenthesised [.tok .ident "a", .tok .comma ",", .tok .comma ",",
      .tok .comma ",", .tok .ident "b"]).parse pe 0 = some items ∧ items.length = 2) ∧
    (∃ items, (parenthesised [.tok .comma ","]).parse pe 0 = some items ∧
      items.length = 0) := by
  constructor
  · obtain ⟨items, h, _⟩ := Elem.parse_ok pe (parenthesised [.tok .ident "a", .tok .comma ",",
      .tok .comma ",", .tok .comma ",", .tok .ident "b"]) 0 (by decide)
    exact ⟨items, h, by rw [C20_count_partial pe 0 _ items (by decide) h]; decide⟩
  · obtain ⟨items, h, _⟩ := Elem.parse_ok pe (parenthesised [.tok .comma ","]) 0 (by decide)
    exact ⟨items, h, by rw [C20_count_partial pe 0 _ items (by decide) h]; decide⟩

/-- Computing a range is *not* total: for `#[ink((a)=)]` (an argument that starts with a
nested parenthesised list and has no value) `text_range` panics. -/
theorem C20_range_negation (pe : ExprParser) :
    ∃ m, (parenthesised [parenthesised [.tok .ident "a"], .tok .eq "="]).parse pe 0 = some [m] ∧
      m.textRange = none := by
  exact ⟨_, rfl, rfl⟩

/-- Also `#[ink((a) x)]` panics, without any `=`. -/
theorem C20_range_negation_name (pe : ExprParser) :
    ∃ m, (parenthesised [parenthesised [.tok .ident "a"], .tok .whitespace " ",
      .tok .ident "x"]).parse pe 0 = some [m] ∧ m.textRange = none := by
  exact ⟨_, rfl, rfl⟩

/-- The range of every item can be computed when, at every nesting depth, no argument
starts with a nested token tree (what is missing from the full claim is exactly the kind
of input in `C20_range_negation`). -/
theorem C20_range_partial (pe : ExprParser) (o : Nat) (e : Elem) (items : List Meta)
    (hwf : e.wf = true) (hn : e.named = true) (hp : e.parse pe o = some items)
    (m : Meta) (hm : m ∈ items) : m.textRange.isSome :=
  e.parse_ranges pe o items hwf hn hp m hm

/-! Non-vacuity: `#[ink(message, selector = 1, backend(node(url = "x")),)]`. -/

/-- Sample content used below. -/
def sampleMid : List Elem :=
  [.tok .ident "message", .tok .comma ",", .tok .whitespace " ", .tok .ident "selector",
   .tok .whitespace " ", .tok .eq "=", .tok .whitespace " ", .tok .intNumber "1",
   .tok .comma ",", .tok .ident "backend",
   parenthesised [.tok .ident "node",
     parenthesised [.tok .ident "url", .tok .eq "=", .tok .string "\"x\""]],
   .tok .comma ","]

example : (parenthesised sampleMid).wf = true ∧ (parenthesised sampleMid).named = true ∧
    Between sampleMid ∧ Elem.wfList sampleMid = true ∧ sampleMid ≠ [] ∧
    sampleMid.head?.map Elem.isComma = some false := by decide

example : ∃ items, (parenthesised sampleMid).parse (fun s => some (.intNumber, s)) 0 =
    some items ∧ items.map Meta.textRange = [some (1, 8), some (10, 22), some (23, 43)] := by
  exact ⟨_, rfl, rfl⟩

end Verif.Ir
