import Verif.Analyzer.RemoveProps
import Verif.Ir.Attr

/-!
# C76: a well-formed argument list is read as it is written

Arguments as the language defines them (names, `name = value` pairs and `name(argument)`, nested to
any depth, with white space and comments anywhere), and what reading them has to give.
-/

namespace Verif.Analyzer
open Verif.Ir

/-! ## Specification -/

/-- An argument as it is written. Lists of elements other than values are white space and
comments. -/
inductive Written where
  | flag (lead : List Elem) (name : Elem) (trail : List Elem)
  | keyed (lead : List Elem) (name : Elem) (gap : List Elem) (eq : String) (value : List Elem)
  | nest (lead : List Elem) (name : Elem) (gap : List Elem) (inner : Written) (trail : List Elem)
  | hollow (lead : List Elem) (name : Elem) (gap : List Elem) (trail : List Elem)

/-- Its source. -/
def Written.source : Written → List Elem
  | .flag lead name trail => lead ++ name :: trail
  | .keyed lead name gap eq value => (lead ++ name :: gap) ++ .tok .eq eq :: value
  | .nest lead name gap inner trail =>
    (lead ++ name :: gap) ++ parenthesised inner.source :: trail
  | .hollow lead name gap trail => (lead ++ name :: gap) ++ parenthesised [] :: trail

/-- The kind and the text of a value: of the symbol `_` or `@`, or of the literal or path that the
expression parser recognises in the whole text. -/
inductive ValueIs (pe : ExprParser) : List Elem → ValueTok → String → Prop
  | underscore (a b s) : AllTrivia a → AllTrivia b →
      ValueIs pe (a ++ .tok .underscore s :: b) .underscore s
  | at (a b s) : AllTrivia a → AllTrivia b → ValueIs pe (a ++ .tok .at s :: b) .at s
  | expr (v k s) : (∀ e ∈ v, ∀ t, e ≠ .tok .underscore t ∧ e ≠ .tok .at t) →
      pe (Elem.textList v) = some (k, s) → ValueIs pe v k s

/-- The written argument is well formed: its names are names, and its value is a value without
commas and parentheses of its own. -/
def Written.Ok (pe : ExprParser) : Written → Prop
  | .flag lead name trail => AllTrivia lead ∧ IsName name ∧ AllTrivia trail
  | .keyed lead name gap _ value => AllTrivia lead ∧ IsName name ∧ AllTrivia gap ∧ value ≠ [] ∧
      (∃ k s, ValueIs pe value k s) ∧ Between value ∧ ∀ e ∈ value, e.isComma = false
  | .nest lead name gap inner trail => AllTrivia lead ∧ IsName name ∧ AllTrivia gap ∧ inner.Ok pe ∧
      AllTrivia trail
  | .hollow lead name gap trail => AllTrivia lead ∧ IsName name ∧ AllTrivia gap ∧ AllTrivia trail

/-- The argument `a` bears the name that is written at the offset. -/
def Bears (a : Arg) (name : Elem) (start : Nat) : Prop :=
  a.item.name = .ok ⟨name, start⟩ ∧ a.kind = ArgKind.ofName name.text

/-- The argument `a` is the one written at offset `o`: the same name at the same place, the same
value and the same nested argument. -/
def IsRead (pe : ExprParser) : Written → Nat → Arg → Prop
  | .flag lead name _, o, a => Bears a name (o + Elem.lenList lead) ∧ a.item.eq = none ∧
      a.item.value = .none ∧ a.nested = none
  | .keyed lead name gap eq value, o, a => Bears a name (o + Elem.lenList lead) ∧
      a.item.eq = some ⟨.tok .eq eq, o + Elem.lenList (lead ++ name :: gap)⟩ ∧ a.nested = none ∧
      ∃ v, a.value = some v ∧ ValueIs pe value v.kind v.text
  | .nest lead name gap inner _, o, a => Bears a name (o + Elem.lenList lead) ∧
      a.item.eq = none ∧ a.item.value = .none ∧
      ∃ a', a.nested = some a' ∧ IsRead pe inner (o + Elem.lenList (lead ++ name :: gap) + 1) a'
  | .hollow lead name gap _, o, a => Bears a name (o + Elem.lenList lead) ∧
      a.item.eq = none ∧ a.item.value = .none ∧
      ∃ a', a.nested = some a' ∧ a'.kind = .unknown ∧ a'.item.name = .none ∧ a'.item.eq = none ∧
        a'.item.value = .none ∧ a'.nested = none ∧ a'.item.textRange = some (o + Elem.lenList (lead ++ name :: gap),
          o + Elem.lenList (lead ++ name :: gap) + 2)

/-- The comma after an argument. -/
def commaElem : Elem := .tok .comma ","

/-- The source of an argument list, with or without a comma after the last argument. -/
def listSource (trailing : Bool) : List Written → List Elem
  | [] => []
  | [w] => w.source ++ (if trailing then [commaElem] else [])
  | w :: ws => w.source ++ commaElem :: listSource trailing ws

/-- What can follow the arguments: the closing parenthesis, or, while the user is typing, the closing
bracket of the attribute (which the Rust parser puts into an error node) or the end of the file. -/
inductive Ends : List Elem → Prop
  | paren (s rest) : Ends (.tok .rParen s :: rest)
  | bracket (before s rest) : Ends (.error (before ++ [.tok .rBrack s]) :: rest)
  | eof : Ends []

/-- The arguments `as` are those of the list written at offset `o`, one for one and in order. -/
def AreRead (pe : ExprParser) : List Written → Nat → List Arg → Prop
  | [], _, as => as = []
  | w :: ws, o, as => ∃ a as', as = a :: as' ∧ IsRead pe w o a ∧
      AreRead pe ws (o + Elem.lenList w.source + 1) as'

/-! ## Lemmas -/

theorem build_flag (pe : ExprParser) (o : Nat) (lead gap : List Elem) (nm : Elem)
    (hl : AllTrivia lead) (hgap : AllTrivia gap) (hn : IsName nm) (t1 t2 sep : Nat) :
    buildItem pe t1 t2 sep (annotate pe o (lead ++ nm :: gap)) =
      some (.mk (.ok ⟨nm, o + Elem.lenList lead⟩) none .none none sep none) := by
  obtain ⟨h1, h2, h3⟩ := name_part pe o lead gap nm hl hgap hn t1 t2
  unfold buildItem
  have e1 : (annotate pe o (lead ++ nm :: gap)).takeWhile (fun a => !a.elem.isEq) =
      annotate pe o (lead ++ nm :: gap) := by
    have := List.takeWhile_append_of_pos (l₂ := []) (p := fun a : Annot => !a.elem.isEq)
      (l₁ := annotate pe o (lead ++ nm :: gap)) (by intro a ha; simp [h3 a ha])
    simpa using this
  have e2 : (annotate pe o (lead ++ nm :: gap)).dropWhile (fun a => !a.elem.isEq) = [] := by
    have := List.dropWhile_append_of_pos (l₂ := []) (p := fun a : Annot => !a.elem.isEq)
      (l₁ := annotate pe o (lead ++ nm :: gap)) (by intro a ha; simp [h3 a ha])
    simpa using this
  simp only [e1, e2, h1, Option.bind_some, Option.isSome_none, Bool.false_eq_true, if_false, h2,
    List.head?_nil, Option.map_none, List.tail_nil, List.map_nil]
  simp [parseMetaValue, MetaOpt.isSome, Meta.new?]

theorem build_keyed (pe : ExprParser) (o : Nat) (lead gap value : List Elem) (nm : Elem)
    (eq : String) (hl : AllTrivia lead) (hgap : AllTrivia gap) (hn : IsName nm) (t1 t2 sep : Nat) :
    buildItem pe t1 t2 sep (annotate pe o ((lead ++ nm :: gap) ++ .tok .eq eq :: value)) =
      some (.mk (.ok ⟨nm, o + Elem.lenList lead⟩)
        (some ⟨.tok .eq eq, o + Elem.lenList (lead ++ nm :: gap)⟩)
        (parseMetaValue pe ((annotate pe (o + Elem.lenList (lead ++ nm :: gap) +
          (Elem.tok .eq eq).len) value).map Annot.placed)) none sep none) := by
  obtain ⟨h1, h2, h3⟩ := name_part pe o lead gap nm hl hgap hn t1 t2
  unfold buildItem
  rw [annotate_append]
  have e1 : (annotate pe o (lead ++ nm :: gap) ++ annotate pe (o + Elem.lenList (lead ++ nm :: gap))
      (.tok .eq eq :: value)).takeWhile (fun a => !a.elem.isEq) =
      annotate pe o (lead ++ nm :: gap) := by
    rw [List.takeWhile_append_of_pos (by intro a ha; simp [h3 a ha]), annotate,
      List.takeWhile_cons_of_neg (by simp [Annot.elem, Elem.isEq]), List.append_nil]
  have e2 : (annotate pe o (lead ++ nm :: gap) ++ annotate pe (o + Elem.lenList (lead ++ nm :: gap))
      (.tok .eq eq :: value)).dropWhile (fun a => !a.elem.isEq) =
      annotate pe (o + Elem.lenList (lead ++ nm :: gap)) (.tok .eq eq :: value) := by
    rw [List.dropWhile_append_of_pos (by intro a ha; simp [h3 a ha]), annotate,
      List.dropWhile_cons_of_neg (by simp [Annot.elem, Elem.isEq])]
  simp only [e1, e2, h1, Option.bind_some, Option.isSome_none, Bool.false_eq_true, if_false, h2]
  simp only [annotate, List.head?_cons, Option.map_some, List.tail_cons]
  simp [MetaOpt.isSome, Meta.new?]

theorem build_tree (pe : ExprParser) (o : Nat) (lead gap trail : List Elem) (nm : Elem)
    (inner : List Elem) (m : Meta) (hl : AllTrivia lead) (hgap : AllTrivia gap)
    (htr : AllTrivia trail) (hn : IsName nm) (t1 t2 sep : Nat)
    (hi : nestedOf [⟨⟨Elem.tree inner, o + Elem.lenList (lead ++ nm :: gap)⟩,
      (Elem.tree inner).parse pe (o + Elem.lenList (lead ++ nm :: gap))⟩] t1 t2 =
        some (some m)) :
    buildItem pe t1 t2 sep (annotate pe o ((lead ++ nm :: gap) ++ Elem.tree inner :: trail)) =
      some (.mk (.ok ⟨nm, o + Elem.lenList lead⟩) none .none (some m) sep none) := by
  obtain ⟨_, h2, h3⟩ := name_part pe o lead gap nm hl hgap hn t1 t2
  obtain ⟨l1, l2, l3⟩ := filter_trivia trail htr pe
    (o + Elem.lenList (lead ++ nm :: gap) + (Elem.tree inner).len)
  have ht : ∀ a ∈ annotate pe o (lead ++ nm :: gap), a.elem.isTree = false := by
    intro a ha
    have : a.elem ∈ lead ++ nm :: gap := by
      rw [← annotate_elems pe o (lead ++ nm :: gap)]
      exact List.mem_map_of_mem ha
    have hk : ∀ e : Elem, e.isTrivia = true → e.isTree = false := by
      intro e he
      cases e with
      | tree _ => cases he
      | _ => rfl
    rcases List.mem_append.1 this with h | h
    · exact hk _ (hl _ h)
    · rcases List.mem_cons.1 h with h | h
      · rw [h]
        obtain ⟨s, rfl | rfl⟩ := hn <;> rfl
      · exact hk _ (hgap _ h)
  unfold buildItem
  rw [annotate_append, annotate]
  generalize hA : annotate pe o (lead ++ nm :: gap) = A at *
  generalize hT : annotate pe (o + Elem.lenList (lead ++ nm :: gap) + (Elem.tree inner).len)
    trail = T at *
  generalize hx : (⟨⟨Elem.tree inner, o + Elem.lenList (lead ++ nm :: gap)⟩,
    (Elem.tree inner).parse pe (o + Elem.lenList (lead ++ nm :: gap))⟩ : Annot) = x
  have hxe : x.elem.isEq = false := by rw [← hx]; rfl
  have hxt : x.elem.isTree = true := by rw [← hx]; rfl
  rw [hx] at hi
  have hall : ∀ a ∈ A ++ x :: T, a.elem.isEq = false := by
    intro a ha
    rcases List.mem_append.1 ha with ha | ha
    · exact h3 a ha
    · rcases List.mem_cons.1 ha with rfl | ha
      · exact hxe
      · exact l3 a ha
  have e1 : (A ++ x :: T).takeWhile (fun a => !a.elem.isEq) = A ++ x :: T := by
    have := List.takeWhile_append_of_pos (l₂ := []) (p := fun a : Annot => !a.elem.isEq)
      (l₁ := A ++ x :: T) (by intro a ha; simp [hall a ha])
    simpa using this
  have e2 : (A ++ x :: T).dropWhile (fun a => !a.elem.isEq) = [] := by
    have := List.dropWhile_append_of_pos (l₂ := []) (p := fun a : Annot => !a.elem.isEq)
      (l₁ := A ++ x :: T) (by intro a ha; simp [hall a ha])
    simpa using this
  have hAt : A.filter (fun a => a.elem.isTree) = [] := by
    rw [List.filter_eq_nil_iff]
    intro a ha
    simp [ht a ha]
  have hn1 : nestedOf (A ++ x :: T) t1 t2 = some (some m) := by
    unfold nestedOf at hi ⊢
    rw [List.filter_cons_of_pos (by exact hxt), List.filter_nil] at hi
    rw [List.filter_append, hAt, List.nil_append, List.filter_cons_of_pos (by exact hxt), l2]
    exact hi
  have hA' : A.filter (fun a => !a.elem.isTree) = A := by
    rw [List.filter_eq_self]
    intro a ha
    simp [ht a ha]
  have hname : parseName (((A ++ x :: T).filter fun a => !a.elem.isTree).map Annot.placed) =
      .ok ⟨nm, o + Elem.lenList lead⟩ := by
    rw [List.filter_append, hA', List.filter_cons_of_neg (by simp [hxt])]
    unfold parseName at h2 ⊢
    have : ((A ++ T.filter fun a => !a.elem.isTree).map Annot.placed).filter
        (fun p => !p.elem.isTrivia) = (A.map Annot.placed).filter (fun p => !p.elem.isTrivia) := by
      rw [List.map_append, List.filter_append]
      have : ((T.filter fun a => !a.elem.isTree).map Annot.placed).filter
          (fun p => !p.elem.isTrivia) = [] := by
        rw [List.filter_eq_nil_iff] at l1 ⊢
        intro p hp
        obtain ⟨a, ha, rfl⟩ := List.mem_map.1 hp
        exact l1 _ (List.mem_map_of_mem (List.mem_filter.1 ha).1)
      rw [this, List.append_nil]
    rw [this]
    revert h2
    generalize (A.map Annot.placed).filter (fun p => !p.elem.isTrivia) = F
    match F with
    | [] => exact fun h2 => nomatch h2
    | [p] =>
      simp only
      split
      · exact id
      · exact id
      · exact fun h2 => nomatch h2
    | _ :: _ :: _ => exact fun h2 => nomatch h2
  simp only [e1, e2, hn1, Option.bind_some, Option.isSome_some, if_true, hname,
    List.head?_nil, Option.map_none, List.tail_nil, List.map_nil]
  simp [parseMetaValue, MetaOpt.isSome, Meta.new?]

theorem build_nest (pe : ExprParser) (o : Nat) (lead gap trail : List Elem) (nm : Elem)
    (inner : List Elem) (m : Meta) (hl : AllTrivia lead) (hgap : AllTrivia gap)
    (htr : AllTrivia trail) (hn : IsName nm) (t1 t2 sep : Nat)
    (hi : nestedOf [⟨⟨parenthesised inner, o + Elem.lenList (lead ++ nm :: gap)⟩,
      (parenthesised inner).parse pe (o + Elem.lenList (lead ++ nm :: gap))⟩] t1 t2 =
        some (some m)) :
    buildItem pe t1 t2 sep (annotate pe o ((lead ++ nm :: gap) ++ parenthesised inner :: trail)) =
      some (.mk (.ok ⟨nm, o + Elem.lenList lead⟩) none .none (some m) sep none) :=
  build_tree pe o lead gap trail nm _ m hl hgap htr hn t1 t2 sep hi

theorem build_several (pe : ExprParser) (o : Nat) (lead gap trail : List Elem) (nm : Elem)
    (inner : List Elem) (hl : AllTrivia lead) (hgap : AllTrivia gap)
    (htr : AllTrivia trail) (hn : IsName nm) (t1 t2 sep : Nat)
    (hi : nestedOf [⟨⟨.tree inner, o + Elem.lenList (lead ++ nm :: gap)⟩,
      (Elem.tree inner).parse pe (o + Elem.lenList (lead ++ nm :: gap))⟩] t1 t2 = some none) :
    ∃ items, buildItem pe t1 t2 sep (annotate pe o ((lead ++ nm :: gap) ++ Elem.tree inner :: trail)) =
      some (.mk (.err items) none .none none sep none) := by
  obtain ⟨_, h2, h3⟩ := name_part pe o lead gap nm hl hgap hn t1 t2
  obtain ⟨l1, l2, l3⟩ := filter_trivia trail htr pe
    (o + Elem.lenList (lead ++ nm :: gap) + (Elem.tree inner).len)
  have ht : ∀ a ∈ annotate pe o (lead ++ nm :: gap), a.elem.isTree = false := by
    intro a ha
    have : a.elem ∈ lead ++ nm :: gap := by
      rw [← annotate_elems pe o (lead ++ nm :: gap)]
      exact List.mem_map_of_mem ha
    have hk : ∀ e : Elem, e.isTrivia = true → e.isTree = false := by
      intro e he
      cases e with
      | tree _ => cases he
      | _ => rfl
    rcases List.mem_append.1 this with h | h
    · exact hk _ (hl _ h)
    · rcases List.mem_cons.1 h with h | h
      · rw [h]
        obtain ⟨s, rfl | rfl⟩ := hn <;> rfl
      · exact hk _ (hgap _ h)
  unfold buildItem
  rw [annotate_append, annotate]
  generalize hA : annotate pe o (lead ++ nm :: gap) = A at *
  generalize hT : annotate pe (o + Elem.lenList (lead ++ nm :: gap) + (Elem.tree inner).len)
    trail = T at *
  generalize hx : (⟨⟨Elem.tree inner, o + Elem.lenList (lead ++ nm :: gap)⟩,
    (Elem.tree inner).parse pe (o + Elem.lenList (lead ++ nm :: gap))⟩ : Annot) = x
  have hxe : x.elem.isEq = false := by rw [← hx]; rfl
  have hxt : x.elem.isTree = true := by rw [← hx]; rfl
  have hxv : x.placed.elem.isTrivia = false := by rw [← hx]; rfl
  rw [hx] at hi
  have hall : ∀ a ∈ A ++ x :: T, a.elem.isEq = false := by
    intro a ha
    rcases List.mem_append.1 ha with ha | ha
    · exact h3 a ha
    · rcases List.mem_cons.1 ha with rfl | ha
      · exact hxe
      · exact l3 a ha
  have e1 : (A ++ x :: T).takeWhile (fun a => !a.elem.isEq) = A ++ x :: T := by
    have := List.takeWhile_append_of_pos (l₂ := []) (p := fun a : Annot => !a.elem.isEq)
      (l₁ := A ++ x :: T) (by intro a ha; simp [hall a ha])
    simpa using this
  have e2 : (A ++ x :: T).dropWhile (fun a => !a.elem.isEq) = [] := by
    have := List.dropWhile_append_of_pos (l₂ := []) (p := fun a : Annot => !a.elem.isEq)
      (l₁ := A ++ x :: T) (by intro a ha; simp [hall a ha])
    simpa using this
  have hAt : A.filter (fun a => a.elem.isTree) = [] := by
    rw [List.filter_eq_nil_iff]
    intro a ha
    simp [ht a ha]
  have hn1 : nestedOf (A ++ x :: T) t1 t2 = some none := by
    unfold nestedOf at hi ⊢
    rw [List.filter_cons_of_pos (by exact hxt), List.filter_nil] at hi
    rw [List.filter_append, hAt, List.nil_append, List.filter_cons_of_pos (by exact hxt), l2]
    exact hi
  have hname : ∃ items, parseName ((A ++ x :: T).map Annot.placed) = .err items := by
    unfold parseName at h2 ⊢
    rw [List.map_append, List.map_cons, List.filter_append, List.filter_cons_of_pos (by simp [hxv]), l1]
    revert h2
    generalize (A.map Annot.placed).filter (fun p => !p.elem.isTrivia) = F
    match F with
    | [] => exact fun h2 => nomatch h2
    | [p] => exact fun _ => ⟨_, rfl⟩
    | _ :: _ :: _ => exact fun h2 => nomatch h2
  obtain ⟨items, hname⟩ := hname
  refine ⟨items, ?_⟩
  simp only [e1, e2, hn1, Option.bind_some, Option.isSome_none, Bool.false_eq_true, if_false, hname,
    List.head?_nil, Option.map_none, List.tail_nil, List.map_nil]
  simp [parseMetaValue, MetaOpt.isSome, Meta.new?]

theorem placed_elems (pe : ExprParser) (o : Nat) (cs : List Elem) :
    ((annotate pe o cs).map Annot.placed).map Placed.elem = cs := by
  rw [List.map_map]
  exact annotate_elems pe o cs

theorem value_read (pe : ExprParser) (o : Nat) (v : List Elem) (k : ValueTok) (s : String)
    (hne : v ≠ []) (h : ValueIs pe v k s) :
    ∃ mv, parseMetaValue pe ((annotate pe o v).map Annot.placed) = .ok mv ∧ mv.kind = k ∧
      mv.text = s := by
  have hpl := placed_elems pe o v
  have hemp : ((annotate pe o v).map Annot.placed).isEmpty = false := by
    cases v with
    | nil => exact absurd rfl hne
    | cons => rfl
  have hsolid : (((annotate pe o v).map Annot.placed).filter fun p => !p.elem.isTrivia).map
      Placed.elem = v.filter fun e => !e.isTrivia := by
    conv => rhs; rw [← hpl]
    generalize (annotate pe o v).map Annot.placed = l
    rw [List.filter_map]
    rfl
  have key : ∃ mv, parseValue pe ((annotate pe o v).map Annot.placed) = some mv ∧ mv.kind = k ∧
      mv.text = s := by
    unfold parseValue
    rw [hemp]
    simp only [Bool.false_eq_true, if_false]
    have hone : ∀ a b (e : Elem), AllTrivia a → AllTrivia b → e.isTrivia = false →
        v = a ++ e :: b → ∃ p, (((annotate pe o v).map Annot.placed).filter
          fun p => !p.elem.isTrivia) = [p] ∧ p.elem = e := by
      intro a b e ha hb he hv
      have h1 : v.filter (fun e => !e.isTrivia) = [e] := by
        rw [hv, List.filter_append, List.filter_cons_of_pos (by simp [he])]
        have h2 : a.filter (fun e => !e.isTrivia) = [] := by
          rw [List.filter_eq_nil_iff]
          intro x hx
          simp [ha x hx]
        have h3 : b.filter (fun e => !e.isTrivia) = [] := by
          rw [List.filter_eq_nil_iff]
          intro x hx
          simp [hb x hx]
        rw [h2, h3]
        rfl
      rw [h1] at hsolid
      revert hsolid
      generalize ((annotate pe o v).map Annot.placed).filter (fun p => !p.elem.isTrivia) = F
      match F with
      | [] => intro h; simp at h
      | [p] => intro h; exact ⟨p, rfl, by simpa using h⟩
      | _ :: _ :: _ => intro h; simp at h
    cases h with
    | underscore a b s ha hb =>
      obtain ⟨p, hp, he⟩ := hone a b _ ha hb rfl rfl
      rw [hp]
      simp only [he]
      exact ⟨_, rfl, rfl, rfl⟩
    | «at» a b s ha hb =>
      obtain ⟨p, hp, he⟩ := hone a b _ ha hb rfl rfl
      rw [hp]
      simp only [he]
      exact ⟨_, rfl, rfl, rfl⟩
    | expr _ _ _ hno hpe =>
      rw [hpl, hpe]
      have hmem : ∀ p ∈ ((annotate pe o v).map Annot.placed).filter (fun p => !p.elem.isTrivia),
          ∀ t, p.elem ≠ .tok .underscore t ∧ p.elem ≠ .tok .at t := by
        intro p hp t
        refine hno _ ?_ t
        have := List.mem_map_of_mem (f := Placed.elem) (List.mem_filter.1 hp).1
        rwa [hpl] at this
      split
      · rename_i p hp
        have := hmem p (by rw [hp]; simp)
        split
        · rename_i t he
          exact absurd he (this t).1
        · rename_i t he
          exact absurd he (this t).2
        · exact ⟨_, rfl, rfl, rfl⟩
      · exact ⟨_, rfl, rfl, rfl⟩
  obtain ⟨mv, h1, h2⟩ := key
  refine ⟨mv, ?_, h2⟩
  unfold parseMetaValue
  rw [hemp, h1]
  rfl

theorem trivia_plain {es : List Elem} (h : AllTrivia es) :
    Between es ∧ ∀ e ∈ es, e.isComma = false := by
  have hk : ∀ e : Elem, e.isTrivia = true → e.isLParen = false ∧ e.isRParen = false ∧
      e.isErrorRBrack = false ∧ e.isComma = false := by
    intro e he
    cases e with
    | tok k s => cases k <;> first | exact ⟨rfl, rfl, rfl, rfl⟩ | cases he
    | tree _ => cases he
    | error _ => cases he
  exact ⟨fun e he => ⟨(hk e (h e he)).1, (hk e (h e he)).2.1, (hk e (h e he)).2.2.1⟩,
    fun e he => (hk e (h e he)).2.2.2⟩

theorem name_plain {e : Elem} (h : IsName e) : e.isLParen = false ∧ e.isRParen = false ∧
    e.isErrorRBrack = false ∧ e.isComma = false := by
  obtain ⟨s, rfl | rfl⟩ := h <;> exact ⟨rfl, rfl, rfl, rfl⟩

/-- The source of a well-formed argument contains no comma and no parenthesis of its own level. -/
theorem source_plain (pe : ExprParser) (w : Written) (h : w.Ok pe) : w.source ≠ [] ∧
    Between w.source ∧ ∀ e ∈ w.source, e.isComma = false := by
  have key : ∀ e ∈ w.source, e.isLParen = false ∧ e.isRParen = false ∧ e.isErrorRBrack = false ∧
      e.isComma = false := by
    have tr : ∀ {es : List Elem}, AllTrivia es → ∀ e ∈ es, e.isLParen = false ∧
        e.isRParen = false ∧ e.isErrorRBrack = false ∧ e.isComma = false := by
      intro es h e he
      have := (trivia_plain h).1 e he
      exact ⟨this.1, this.2.1, this.2.2, (trivia_plain h).2 e he⟩
    cases w with
    | flag lead name trail =>
      obtain ⟨h1, h2, h3⟩ := h
      intro e he
      simp only [Written.source, List.mem_append, List.mem_cons] at he
      rcases he with he | rfl | he
      · exact tr h1 e he
      · exact name_plain h2
      · exact tr h3 e he
    | keyed lead name gap eq value =>
      obtain ⟨h1, h2, h3, _, _, h5, h6⟩ := h
      intro e he
      simp only [Written.source, List.mem_append, List.mem_cons] at he
      rcases he with (he | rfl | he) | rfl | he
      · exact tr h1 e he
      · exact name_plain h2
      · exact tr h3 e he
      · exact ⟨rfl, rfl, rfl, rfl⟩
      · exact ⟨(h5 e he).1, (h5 e he).2.1, (h5 e he).2.2, h6 e he⟩
    | nest lead name gap inner trail =>
      obtain ⟨h1, h2, h3, _, h5⟩ := h
      intro e he
      simp only [Written.source, List.mem_append, List.mem_cons] at he
      rcases he with (he | rfl | he) | rfl | he
      · exact tr h1 e he
      · exact name_plain h2
      · exact tr h3 e he
      · exact ⟨rfl, rfl, rfl, rfl⟩
      · exact tr h5 e he
    | hollow lead name gap trail =>
      obtain ⟨h1, h2, h3, h5⟩ := h
      intro e he
      simp only [Written.source, List.mem_append, List.mem_cons] at he
      rcases he with (he | rfl | he) | rfl | he
      · exact tr h1 e he
      · exact name_plain h2
      · exact tr h3 e he
      · exact ⟨rfl, rfl, rfl, rfl⟩
      · exact tr h5 e he
  refine ⟨?_, fun e he => ⟨(key e he).1, (key e he).2.1, (key e he).2.2.1⟩,
    fun e he => (key e he).2.2.2⟩
  cases w <;> simp [Written.source]

theorem groupRuns_false {l : List Annot} (hne : l ≠ []) (h : ∀ a ∈ l, a.elem.isComma = false) :
    groupRuns (fun a : Annot => a.elem.isComma) l = [(false, l)] := by
  induction l with
  | nil => exact absurd rfl hne
  | cons x l ih =>
    rw [groupRuns]
    cases l with
    | nil =>
      simp only [groupRuns]
      rw [h x (by simp)]
    | cons y l =>
      rw [ih (by simp) (fun a ha => h a (List.mem_cons_of_mem _ ha))]
      simp only
      rw [if_pos (h x (by simp))]

theorem parse_parenthesised (pe : ExprParser) (o : Nat) (mid : List Elem) (hb : Between mid) :
    (parenthesised mid).parse pe o = itemsOf pe o (o + (parenthesised mid).len) (o + 1)
      (groupRuns (fun a => a.elem.isComma) (annotate pe (o + 1) mid)) := by
  unfold parenthesised
  rw [Elem.parse, content_parenthesised pe o mid hb]
  rfl

theorem annotate_plain {pe : ExprParser} {o : Nat} {es : List Elem}
    (h : ∀ e ∈ es, e.isComma = false) : ∀ a ∈ annotate pe o es, a.elem.isComma = false := by
  intro a ha
  apply h
  rw [← annotate_elems pe o es]
  exact List.mem_map_of_mem ha

theorem annotate_ne {pe : ExprParser} {o : Nat} {es : List Elem} (h : es ≠ []) :
    annotate pe o es ≠ [] := by
  cases es with
  | nil => exact absurd rfl h
  | cons => simp [annotate]

theorem build_read (pe : ExprParser) (w : Written) : w.Ok pe → ∀ (o t1 t2 sep : Nat),
    t1 ≤ o → o + Elem.lenList w.source ≤ t2 → ∃ m, buildItem pe t1 t2 sep (annotate pe o w.source) = some m ∧
      IsRead pe w o (Arg.ofMeta m) := by
  induction w with
  | flag lead name trail =>
    intro ⟨h1, h2, h3⟩ o t1 t2 sep _ _
    exact ⟨_, build_flag pe o lead trail name h1 h3 h2 t1 t2 sep, ⟨rfl, rfl⟩, rfl, rfl, rfl⟩
  | keyed lead name gap eq value =>
    intro ⟨h1, h2, h3, hne, ⟨k, s, hv⟩, _⟩ o t1 t2 sep _ _
    obtain ⟨mv, e1, e2, e3⟩ := value_read pe (o + Elem.lenList (lead ++ name :: gap) +
      (Elem.tok .eq eq).len) value k s hne hv
    refine ⟨_, build_keyed pe o lead gap value name eq h1 h3 h2 t1 t2 sep, ⟨rfl, rfl⟩, rfl, rfl,
      mv, ?_, by rw [e2, e3]; exact hv⟩
    simp only [Arg.value, Arg.ofMeta, Meta.value, e1]
  | nest lead name gap inner trail ih =>
    intro ⟨h1, h2, h3, h4, h5⟩ o t1 t2 sep _ _
    obtain ⟨p1, p2, p3⟩ := source_plain pe inner h4
    have e := parse_parenthesised pe (o + Elem.lenList (lead ++ name :: gap)) inner.source p2
    obtain ⟨m, hm, hr⟩ := ih h4 (o + Elem.lenList (lead ++ name :: gap) + 1)
      (o + Elem.lenList (lead ++ name :: gap))
      (o + Elem.lenList (lead ++ name :: gap) + (parenthesised inner.source).len)
      (o + Elem.lenList (lead ++ name :: gap) + 1) (by omega) (by
        rw [show (parenthesised inner.source).len = 1 + (Elem.lenList inner.source + 1) by
          simp only [parenthesised, Elem.len, Elem.lenList, lenList_append]; rfl]
        omega)
    rw [groupRuns_false (annotate_ne p1) (annotate_plain p3), itemsOf, hm] at e
    simp only [Option.bind_some, itemsOf, Option.map_some] at e
    exact ⟨_, build_nest pe o lead gap trail name inner.source m h1 h3 h5 h2 t1 t2 sep
        (by simp [nestedOf, Annot.elem, parenthesised, Elem.isTree] at e ⊢; rw [e]),
      ⟨rfl, rfl⟩, rfl, rfl, Arg.ofMeta m, rfl, hr⟩
  | hollow lead name gap trail =>
    intro ⟨h1, h2, h3, h5⟩ o t1 t2 sep ht1 ht2
    have e := parse_parenthesised pe (o + Elem.lenList (lead ++ name :: gap)) []
      (fun c hc => nomatch hc)
    simp only [annotate, groupRuns, itemsOf] at e
    have hlen : (parenthesised []).len = 2 := rfl
    have hsrc : o + Elem.lenList (lead ++ name :: gap) + 2 ≤ t2 := by
      simp only [Written.source, lenList_append (lead ++ name :: gap), Elem.lenList, hlen] at ht2
      omega
    refine ⟨_, build_nest pe o lead gap trail name [] (.mk .none none .none none
      (o + Elem.lenList (lead ++ name :: gap)) (some (o + Elem.lenList (lead ++ name :: gap) + 2)))
      h1 h3 h5 h2 t1 t2 sep ?_, ⟨rfl, rfl⟩, rfl, rfl, _, rfl, rfl, rfl, rfl, rfl, rfl, ?_⟩
    · rw [e]
      have htxt : (parenthesised []).text = "()" := rfl
      have hbool : (decide (t1 ≤ o + Elem.lenList (lead ++ name :: gap) + 2) &&
          decide (o + Elem.lenList (lead ++ name :: gap) + 2 ≤ t2)) = true := by
        simp only [Bool.and_eq_true, decide_eq_true_eq]
        omega
      have hemp : Meta.empty? (o + Elem.lenList (lead ++ name :: gap))
          (some (o + Elem.lenList (lead ++ name :: gap) + 2)) t1 t2 =
          some (.mk .none none .none none (o + Elem.lenList (lead ++ name :: gap))
            (some (o + Elem.lenList (lead ++ name :: gap) + 2))) := by
        unfold Meta.empty?
        rw [if_pos ⟨by omega, by omega, hbool⟩]
      have hx : ∀ (x : Annot), x.elem.isTree = true → x.parsed = some [] → x.elem.text = "()" →
          nestedOf [x] t1 t2 = (Meta.empty? x.placed.start (some x.placed.stop) t1 t2).map some := by
        intro x h1 h2 h3
        unfold nestedOf
        rw [List.filter_cons_of_pos (by exact h1), List.filter_nil]
        simp only [h2, h3, or_true, if_true]
      rw [hx ⟨⟨parenthesised [], o + Elem.lenList (lead ++ name :: gap)⟩, some []⟩ rfl rfl htxt]
      simp only [Placed.stop, hlen, hemp, Option.map_some]
    · simp [Arg.ofMeta, Meta.textRange, optRange, eqRange, rangeNew]

theorem listSource_plain (pe : ExprParser) (trailing : Bool) (ws : List Written)
    (h : ∀ w ∈ ws, w.Ok pe) : Between (listSource trailing ws) := by
  induction ws with
  | nil => intro c hc; simp [listSource] at hc
  | cons w ws ih =>
    have hc : commaElem.isLParen = false ∧ commaElem.isRParen = false ∧
      commaElem.isErrorRBrack = false := ⟨rfl, rfl, rfl⟩
    obtain ⟨_, p2, _⟩ := source_plain pe w (h w (by simp))
    cases ws with
    | nil =>
      intro c hmem
      simp only [listSource, List.mem_append] at hmem
      rcases hmem with hmem | hmem
      · exact p2 c hmem
      · cases trailing with
        | false => simp at hmem
        | true =>
          simp only [if_true, List.mem_singleton] at hmem
          rw [hmem]
          exact hc
    | cons w' ws =>
      intro c hmem
      simp only [listSource, List.mem_append, List.mem_cons] at hmem
      rcases hmem with hmem | rfl | hmem
      · exact p2 c hmem
      · exact hc
      · exact ih (fun w hw => h w (List.mem_cons_of_mem _ hw)) c hmem

theorem groupRuns_comma (A B : List Annot) (x : Annot) (hne : A ≠ [])
    (hA : ∀ a ∈ A, a.elem.isComma = false) (hx : x.elem.isComma = true)
    (hB : ∀ y, B.head? = some y → y.elem.isComma = false) :
    groupRuns (fun a : Annot => a.elem.isComma) (A ++ x :: B) =
      (false, A) :: (true, [x]) :: groupRuns (fun a : Annot => a.elem.isComma) B := by
  rw [groupRuns_append _ A (x :: B), groupRuns_false hne hA]
  · have : x :: B = [x] ++ B := rfl
    rw [this, groupRuns_append _ [x] B]
    · simp [groupRuns, hx]
    · intro u v hu hv
      simp only [List.getLast?_singleton, Option.some.injEq] at hu
      subst hu
      rw [hx, hB v hv]
      simp
  · intro u v hu hv
    simp only [List.head?_cons, Option.some.injEq] at hv
    subst hv
    rw [hA u (List.mem_of_getLast? hu), hx]
    simp

theorem items_read (pe : ExprParser) (trailing : Bool) (t1 t2 : Nat) (ws : List Written)
    (h : ∀ w ∈ ws, w.Ok pe) : ∀ (o sep : Nat), t1 ≤ o →
    o + Elem.lenList (listSource trailing ws) ≤ t2 → ∃ ms,
    itemsOf pe t1 t2 sep (groupRuns (fun a => a.elem.isComma)
      (annotate pe o (listSource trailing ws))) = some ms ∧
      AreRead pe ws o (ms.map Arg.ofMeta) := by
  induction ws with
  | nil =>
    intro o sep _ _
    exact ⟨[], by simp [listSource, annotate, groupRuns, itemsOf], rfl⟩
  | cons w ws ih =>
    intro o sep ho1 ho2
    have hw := h w (by simp)
    obtain ⟨p1, _, p3⟩ := source_plain pe w hw
    obtain ⟨m, hm, hr⟩ := build_read pe w hw o t1 t2 sep ho1 (by
      have : Elem.lenList w.source ≤ Elem.lenList (listSource trailing (w :: ws)) := by
        cases ws <;> simp only [listSource, lenList_append] <;> omega
      omega)
    have ih := ih (fun w hw => h w (List.mem_cons_of_mem _ hw))
    cases ws with
    | nil =>
      cases trailing with
      | false =>
        simp only [listSource, Bool.false_eq_true, if_false, List.append_nil]
        rw [groupRuns_false (annotate_ne p1) (annotate_plain p3), itemsOf, hm]
        exact ⟨[m], by simp [itemsOf], _, _, rfl, hr, rfl⟩
      | true =>
        simp only [listSource, if_true]
        rw [annotate_append, annotate, groupRuns_comma _ _ _ (annotate_ne p1) (annotate_plain p3)
          rfl (by simp [annotate]), itemsOf, hm]
        exact ⟨[m], by simp [itemsOf, annotate, groupRuns], _, _, rfl, hr, rfl⟩
    | cons w' ws =>
      simp only [listSource]
      rw [annotate_append, annotate, groupRuns_comma _ _ _ (annotate_ne p1) (annotate_plain p3)
        rfl ?_, itemsOf, hm]
      · obtain ⟨ms, e1, e2⟩ := ih (o + Elem.lenList w.source + commaElem.len)
          (o + Elem.lenList w.source + commaElem.len) (by omega) (by
            simp only [listSource, lenList_append w.source, Elem.lenList] at ho2 ⊢
            omega)
        refine ⟨m :: ms, ?_, _, _, rfl, hr, e2⟩
        simp only [Option.bind_some, itemsOf, List.head?_cons, Placed.stop]
        rw [e1]
        rfl
      · intro y hy
        have hw' := h w' (by simp)
        obtain ⟨q1, _, q3⟩ := source_plain pe w' hw'
        have hhead : ∃ e rest, listSource trailing (w' :: ws) = e :: rest ∧ e ∈ w'.source := by
          cases hs : w'.source with
          | nil => exact absurd hs q1
          | cons e rest =>
            cases ws with
            | nil => exact ⟨e, _, by simp only [listSource, hs]; rfl, by simp⟩
            | cons _ _ => exact ⟨e, _, by simp only [listSource, hs]; rfl, by simp⟩
        obtain ⟨e, rest, he, hmem⟩ := hhead
        rw [he] at hy
        simp only [annotate, List.head?_cons, Option.some.injEq] at hy
        subst hy
        exact q3 e hmem

theorem tree_arg_plain (inner lead gap trail : List Elem) (name : Elem) (hl : AllTrivia lead)
    (hg : AllTrivia gap) (ht : AllTrivia trail) (hn : IsName name) :
    (lead ++ name :: gap) ++ .tree inner :: trail ≠ [] ∧
      Between ((lead ++ name :: gap) ++ .tree inner :: trail) ∧
      ∀ e ∈ (lead ++ name :: gap) ++ .tree inner :: trail, e.isComma = false := by
  have tr : ∀ {es : List Elem}, AllTrivia es → ∀ e ∈ es, e.isLParen = false ∧
      e.isRParen = false ∧ e.isErrorRBrack = false ∧ e.isComma = false := by
    intro es h e he
    have := (trivia_plain h).1 e he
    exact ⟨this.1, this.2.1, this.2.2, (trivia_plain h).2 e he⟩
  have key : ∀ e ∈ (lead ++ name :: gap) ++ .tree inner :: trail, e.isLParen = false ∧
      e.isRParen = false ∧ e.isErrorRBrack = false ∧ e.isComma = false := by
    intro e he
    simp only [List.mem_append, List.mem_cons] at he
    rcases he with (he | rfl | he) | rfl | he
    · exact tr hl e he
    · exact name_plain hn
    · exact tr hg e he
    · exact ⟨rfl, rfl, rfl, rfl⟩
    · exact tr ht e he
  exact ⟨by simp, fun e he => ⟨(key e he).1, (key e he).2.1, (key e he).2.2.1⟩,
    fun e he => (key e he).2.2.2⟩

/-! ## Theorems -/

/-- Every well-formed argument list, of any length and nesting, with or without a trailing comma and
with any white space and comments, is read as it is written: one argument for each written one, in
order, with its name at its place, its value and its nested argument (an empty one for `name()`).
Missing for the full claim: white space after a trailing comma, or alone between the parentheses,
which is read as a further argument (`C76_negation_trailing`, `C76_negation_empty`). -/
theorem C76_read_partial (pe : ExprParser) (o : Nat) (segments : List String) (ws : List Written)
    (trailing : Bool) (h : ∀ w ∈ ws, w.Ok pe) :
    ∃ args, parseInkArgs pe ⟨segments, some (parenthesised (listSource trailing ws), o)⟩ =
      some args ∧ AreRead pe ws (o + 1) args := by
  obtain ⟨ms, h1, h2⟩ := items_read pe trailing o
    (o + (parenthesised (listSource trailing ws)).len) ws h (o + 1) (o + 1)
    (by omega) (by
      simp only [parenthesised, Elem.len, Elem.lenList, lenList_append]
      have : (Elem.tok .lParen "(").len = 1 := rfl
      simp only [Elem.len] at this
      omega)
  refine ⟨ms.map Arg.ofMeta, ?_, h2⟩
  unfold parseInkArgs
  simp only [parse_parenthesised pe o _ (listSource_plain pe trailing ws h), h1, Option.map_some]

theorem lastTok_snoc (before : List Elem) (k : Ir.TokKind) (s : String) :
    Elem.lastTokList (before ++ [.tok k s]) = some k := by
  induction before with
  | nil => rfl
  | cons c cs ih => rw [List.cons_append, Elem.lastTokList, ih]; rfl

theorem content_ends (pe : ExprParser) (o : Nat) (mid tail : List Elem) (h : Between mid)
    (ht : Ends tail) :
    content (annotate pe o (.tok .lParen "(" :: (mid ++ tail))) = annotate pe (o + 1) mid := by
  unfold content
  have h1 : ((annotate pe o (.tok .lParen "(" :: (mid ++ tail))).any
      fun a => a.elem.isLParen) = true := by
    simp only [annotate, List.any_cons, Bool.or_eq_true]
    exact .inl rfl
  rw [if_pos h1]
  simp only [annotate, List.drop_one, List.tail_cons]
  rw [show (Elem.tok .lParen "(").len = 1 from by decide, annotate_append]
  rw [List.takeWhile_append_of_pos]
  · cases ht with
    | paren s rest => simp [annotate, Annot.elem, Elem.isRParen]
    | bracket before s rest =>
      have he : (Elem.error (before ++ [.tok .rBrack s])).isErrorRBrack = true := by
        rw [Elem.isErrorRBrack, lastTok_snoc]
        rfl
      rw [annotate, List.takeWhile_cons_of_neg (by simp [Annot.elem, he]), List.append_nil]
    | eof => simp [annotate]
  · intro a ha
    have : a.elem ∈ mid := by
      rw [← annotate_elems pe (o + 1) mid]; exact List.mem_map_of_mem ha
    simp [h _ this]

/-- The same holds for an attribute that is not complete yet: without the closing parenthesis, the
arguments before the closing bracket, or before the end of the file, are read as they are
written, whatever comes after the bracket. Missing for the full claim: as for `C76_read_partial`. -/
theorem C76_unclosed_partial (pe : ExprParser) (o : Nat) (segments : List String)
    (ws : List Written) (trailing : Bool) (h : ∀ w ∈ ws, w.Ok pe) (tail : List Elem)
    (ht : Ends tail) :
    ∃ args, parseInkArgs pe
        ⟨segments, some (.tree (.tok .lParen "(" :: (listSource trailing ws ++ tail)), o)⟩ =
      some args ∧ AreRead pe ws (o + 1) args := by
  have hl : (Elem.tok .lParen "(").len = 1 := rfl
  obtain ⟨ms, h1, h2⟩ := items_read pe trailing o
    (o + Elem.lenList (.tok .lParen "(" :: (listSource trailing ws ++ tail))) ws h (o + 1) (o + 1)
    (by omega) (by
      simp only [Elem.lenList, lenList_append, hl]
      omega)
  refine ⟨ms.map Arg.ofMeta, ?_, h2⟩
  unfold parseInkArgs
  simp only [Elem.parse, content_ends pe o _ tail (listSource_plain pe trailing ws h) ht]
  have hsep : firstSep o (annotate pe o (.tok .lParen "(" :: (listSource trailing ws ++ tail))) =
      o + 1 := by
    unfold firstSep
    rw [annotate, List.find?_cons_of_pos (by rfl)]
    rfl
  rw [hsep, h1]
  rfl

/-- `#[ink(message]` followed by more source. -/
example : Ends [.error [.tok .rBrack "]"], .tok .whitespace "\n", .tok .ident "fn"] :=
  .bracket [] _ _

/-- The number of arguments read is the number written. -/
theorem areRead_length (pe : ExprParser) (ws : List Written) (o : Nat) (as : List Arg)
    (h : AreRead pe ws o as) : as.length = ws.length := by
  induction ws generalizing o as with
  | nil => rw [show as = [] from h]; rfl
  | cons w ws ih =>
    obtain ⟨a, as', rfl, _, h⟩ := h
    rw [List.length_cons, List.length_cons, ih _ _ h]

/-- A name with several arguments in its parentheses, which ink! does not have, is not taken for the
argument of that name: it is one argument of unknown kind without nested ones. -/
theorem C76_several (pe : ExprParser) (o : Nat) (segments : List String) (ws : List Written)
    (trailing : Bool) (h : ∀ w ∈ ws, w.Ok pe) (h2 : 2 ≤ ws.length) (lead gap trail : List Elem)
    (name : Elem) (hl : AllTrivia lead) (hg : AllTrivia gap) (ht : AllTrivia trail) (hn : IsName name) :
    ∃ a, parseInkArgs pe ⟨segments, some (parenthesised ((lead ++ name :: gap) ++
        parenthesised (listSource trailing ws) :: trail), o)⟩ = some [a] ∧
      a.kind = .unknown ∧ a.nested = none ∧ a.value = none := by
  obtain ⟨q1, q2, q3⟩ := tree_arg_plain (.tok .lParen "(" :: (listSource trailing ws ++ [.tok .rParen ")"]))
    lead gap trail name hl hg ht hn
  obtain ⟨ms, e1, e2⟩ := items_read pe trailing (o + 1 + Elem.lenList (lead ++ name :: gap))
    (o + 1 + Elem.lenList (lead ++ name :: gap) + (parenthesised (listSource trailing ws)).len) ws h
    (o + 1 + Elem.lenList (lead ++ name :: gap) + 1) (o + 1 + Elem.lenList (lead ++ name :: gap) + 1)
    (by omega) (by
      simp only [parenthesised, Elem.len, Elem.lenList, lenList_append]
      have : (Elem.tok .lParen "(").len = 1 := rfl
      simp only [Elem.len] at this
      omega)
  have hms : 2 ≤ ms.length := by
    have := areRead_length pe ws _ _ e2
    rw [List.length_map] at this
    omega
  have hpar := parse_parenthesised pe (o + 1 + Elem.lenList (lead ++ name :: gap)) _
    (listSource_plain pe trailing ws h)
  rw [e1] at hpar
  have hlong : (parenthesised (listSource trailing ws)).text ≠ "(" ∧
      (parenthesised (listSource trailing ws)).text ≠ "()" := by
    have hne : listSource trailing ws ≠ [] ∧ ∃ e ∈ listSource trailing ws, e = commaElem := by
      match ws, h2 with
      | w :: w' :: ws, _ =>
        refine ⟨by simp [listSource], commaElem, by simp [listSource], rfl⟩
    obtain ⟨_, e, he, rfl⟩ := hne
    obtain ⟨A, B, hAB⟩ := List.append_of_mem he
    have htx : (parenthesised (listSource trailing ws)).text.toList =
        '(' :: ((Elem.textList A).toList ++ ',' :: ((Elem.textList B).toList ++ [')'])) := by
      rw [hAB]
      simp [parenthesised, Elem.text, Elem.textList, textList_append, commaElem]
    constructor
    · intro e
      rw [e] at htx
      cases (Elem.textList A).toList <;> simp at htx
    · intro e
      rw [e] at htx
      have := congrArg List.length htx
      simp at this
      omega
  have hnest : nestedOf [⟨⟨parenthesised (listSource trailing ws), o + 1 + Elem.lenList (lead ++ name :: gap)⟩,
      (parenthesised (listSource trailing ws)).parse pe (o + 1 + Elem.lenList (lead ++ name :: gap))⟩] o
      (o + (parenthesised ((lead ++ name :: gap) ++
        parenthesised (listSource trailing ws) :: trail)).len) = some none := by
    rw [hpar]
    unfold nestedOf
    rw [List.filter_cons_of_pos (by rfl), List.filter_nil]
    simp only [Annot.elem]
    match ms, hms with
    | m1 :: m2 :: ms, _ => simp only [hlong.1, hlong.2, or_self, if_false]
  obtain ⟨items, hb⟩ := build_several pe (o + 1) lead gap trail name _ hl hg ht hn o _ (o + 1) hnest
  have hp := parse_parenthesised pe o ((lead ++ name :: gap) ++
    parenthesised (listSource trailing ws) :: trail) q2
  have hgr : groupRuns (fun a : Annot => a.elem.isComma) (annotate pe (o + 1) ((lead ++ name :: gap) ++
      parenthesised (listSource trailing ws) :: trail)) = [(false, annotate pe (o + 1)
        ((lead ++ name :: gap) ++ parenthesised (listSource trailing ws) :: trail))] :=
    groupRuns_false (annotate_ne q1) (annotate_plain q3)
  have hb' : buildItem pe o (o + (parenthesised ((lead ++ name :: gap) ++
      parenthesised (listSource trailing ws) :: trail)).len) (o + 1) (annotate pe (o + 1)
        ((lead ++ name :: gap) ++ parenthesised (listSource trailing ws) :: trail)) =
      some (.mk (.err items) none .none none (o + 1) none) := hb
  rw [hgr, itemsOf, hb'] at hp
  refine ⟨Arg.ofMeta (.mk (.err items) none .none none (o + 1) none), ?_, rfl, rfl, rfl⟩
  unfold parseInkArgs
  simp only [hp, Option.bind_some, itemsOf, Option.map_some, List.map_cons, List.map_nil]

/-- While the user is typing, an argument whose parenthesis has just been opened, at the end of the file,
has an empty nested argument at that parenthesis. -/
theorem C76_opened (pe : ExprParser) (o : Nat) (segments : List String) (lead gap : List Elem)
    (name : Elem) (hl : AllTrivia lead) (hg : AllTrivia gap) (hn : IsName name) :
    ∃ a a', parseInkArgs pe ⟨segments, some (.tree (.tok .lParen "(" :: ((lead ++ name :: gap) ++
        [.tree [.tok .lParen "("]])), o)⟩ = some [a] ∧
      Bears a name (o + 1 + Elem.lenList lead) ∧ a.nested = some a' ∧ a'.kind = .unknown ∧
      a'.item.textRange = some (o + 1 + Elem.lenList (lead ++ name :: gap),
        o + 1 + Elem.lenList (lead ++ name :: gap) + 1) := by
  obtain ⟨q1, q2, q3⟩ := tree_arg_plain [.tok .lParen "("] lead gap [] name hl hg (by simp [AllTrivia]) hn
  have hl1 : (Elem.tok .lParen "(").len = 1 := rfl
  have hlt : (Elem.tree [.tok .lParen "("]).len = 1 := rfl
  have hlen : Elem.lenList (.tok .lParen "(" :: ((lead ++ name :: gap) ++ [.tree [.tok .lParen "("]])) =
      1 + (Elem.lenList (lead ++ name :: gap) + 1) := by
    rw [Elem.lenList, lenList_append, hl1]
    simp only [Elem.lenList, hlt]
  have hempty : Meta.empty? (o + 1 + Elem.lenList (lead ++ name :: gap))
      (some (o + 1 + Elem.lenList (lead ++ name :: gap) + 1)) o
      (o + Elem.lenList (.tok .lParen "(" :: ((lead ++ name :: gap) ++ [.tree [.tok .lParen "("]]))) =
      some (.mk .none none .none none (o + 1 + Elem.lenList (lead ++ name :: gap))
        (some (o + 1 + Elem.lenList (lead ++ name :: gap) + 1))) := by
    unfold Meta.empty?
    rw [hlen, if_pos ⟨by omega, by omega, by
      simp only [Option.all_some, Bool.and_eq_true, decide_eq_true_eq]; omega⟩]
  have hnest : nestedOf [⟨⟨.tree [.tok .lParen "("], o + 1 + Elem.lenList (lead ++ name :: gap)⟩,
      (Elem.tree [.tok .lParen "("]).parse pe (o + 1 + Elem.lenList (lead ++ name :: gap))⟩] o
      (o + Elem.lenList (.tok .lParen "(" :: ((lead ++ name :: gap) ++ [.tree [.tok .lParen "("]]))) =
      some (some (.mk .none none .none none (o + 1 + Elem.lenList (lead ++ name :: gap))
        (some (o + 1 + Elem.lenList (lead ++ name :: gap) + 1)))) := by
    rw [show (Elem.tree [.tok .lParen "("]).parse pe (o + 1 + Elem.lenList (lead ++ name :: gap)) = some []
      from rfl]
    unfold nestedOf
    rw [List.filter_cons_of_pos (by rfl), List.filter_nil]
    simp only [Annot.elem, Placed.stop, hlt, hempty]
    rfl
  have hb := build_tree pe (o + 1) lead gap [] name _ _ hl hg (by simp [AllTrivia]) hn o _ (o + 1) hnest
  refine ⟨Arg.ofMeta (.mk (.ok ⟨name, o + 1 + Elem.lenList lead⟩) none .none (some (.mk .none none .none none
      (o + 1 + Elem.lenList (lead ++ name :: gap))
      (some (o + 1 + Elem.lenList (lead ++ name :: gap) + 1)))) (o + 1) none), Arg.ofMeta _, ?_, ⟨rfl, rfl⟩, rfl,
    rfl, ?_⟩
  · unfold parseInkArgs
    have hc := content_ends pe o ((lead ++ name :: gap) ++ [.tree [.tok .lParen "("]]) [] q2 .eof
    rw [List.append_nil] at hc
    simp only [Elem.parse, hc]
    have hsep : firstSep o (annotate pe o (.tok .lParen "(" :: ((lead ++ name :: gap) ++
        [.tree [.tok .lParen "("]]))) = o + 1 := by
      unfold firstSep
      rw [annotate, List.find?_cons_of_pos (by rfl)]
      rfl
    rw [hsep, groupRuns_false (annotate_ne q1) (annotate_plain q3), itemsOf, hb]
    rfl
  · simp [Arg.ofMeta, Meta.textRange, optRange, eqRange, rangeNew]

/-- White space after a trailing comma is read as an argument: `#[ink(message, )]` has two. -/
theorem C76_negation_trailing (pe : ExprParser) :
    ∃ a b, parseInkArgs pe ⟨["ink"], some (parenthesised [.tok .ident "message", commaElem,
      .tok .whitespace " "], 0)⟩ = some [a, b] ∧ b.kind = .unknown :=
  ⟨_, _, rfl, rfl⟩

/-- So is the white space of an empty argument list: `#[ink( )]` has one argument. -/
theorem C76_negation_empty (pe : ExprParser) :
    ∃ a, parseInkArgs pe ⟨["ink"], some (parenthesised [.tok .whitespace " "], 0)⟩ = some [a] ∧
      a.kind = .unknown :=
  ⟨_, rfl, rfl⟩

/-! ### Non-vacuity -/

/-- Sample expression parser. -/
def samplePe : ExprParser := fun s => if s = " A" then some (.path, "A") else none

/-- Sample argument list: `a, backend(node(url = A)) ,backend(), selector = _`. -/
def sampleWritten : List Written :=
  [.flag [] (.tok .ident "a") [],
   .nest [.tok .whitespace " "] (.tok .ident "backend") []
    (.nest [] (.tok .ident "node") [] (.keyed [] (.tok .ident "url") [.tok .whitespace " "] "="
      [.tok .whitespace " ", .tok .ident "A"]) []) [.tok .whitespace " "],
   .hollow [] (.tok .ident "backend") [] [],
   .keyed [.tok .whitespace " "] (.tok .ident "selector") [.tok .whitespace " "] "="
    [.tok .whitespace " ", .tok .underscore "_"]]

example : 2 ≤ sampleWritten.length := by decide

example : ∀ w ∈ sampleWritten, w.Ok samplePe := by
  have t0 : AllTrivia [] := fun e he => nomatch he
  have t1 : AllTrivia [.tok .whitespace " "] := by
    intro e he
    rw [List.mem_singleton.1 he]
    rfl
  have nm : ∀ s, IsName (.tok .ident s) := fun s => ⟨s, .inl rfl⟩
  intro w hw
  simp only [sampleWritten, List.mem_cons, List.not_mem_nil, or_false] at hw
  rcases hw with rfl | rfl | rfl | rfl
  · exact ⟨t0, nm _, t0⟩
  · refine ⟨t1, nm _, t0, ⟨t0, nm _, t0, ⟨t0, nm _, t1, by simp, ⟨.path, "A", .expr _ _ _ ?_ ?_⟩,
      by decide, by decide⟩, t0⟩, t1⟩
    · intro e he t
      simp only [List.mem_cons, List.not_mem_nil, or_false] at he
      rcases he with rfl | rfl <;> exact ⟨(fun h => nomatch h), (fun h => nomatch h)⟩
    · decide
  · exact ⟨t0, nm _, t0, t0⟩
  · exact ⟨t1, nm _, t1, by simp, ⟨_, _, .underscore [.tok .whitespace " "] [] "_" t1 t0⟩,
      by decide, by decide⟩

end Verif.Analyzer
