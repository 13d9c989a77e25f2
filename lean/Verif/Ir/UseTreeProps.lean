import Verif.Ir.UseTree
import Verif.Ir.SelectorProps

/-!
# C25: flattening a use tree lists exactly the imported paths
-/

namespace Verif.Ir.UseTree

/-! ## Specification

Top-down, as the language defines it: walk to each leaf, remembering the path walked. -/

mutual

/-- Paths imported by a tree under a prefix (`[]` when there is none); `inList` tells
whether the tree stands in a `{…}` list. -/
def imported (pre : Names) (inList : Bool) : UseTree → List (Names × Option String)
  | list path subs => importedList (pre ++ path.getD []) subs
  | glob path alias => [(pre ++ path.getD [] ++ ["*"], alias)]
  | leaf path alias =>
    if inList ∧ path = ["self"] then (if pre = [] then [] else [(pre, alias)])
    else [(pre ++ path, alias)]
  | empty => []

/-- Paths imported by the members of a list. -/
def importedList (pre : Names) : List UseTree → List (Names × Option String)
  | [] => []
  | t :: ts => imported pre true t ++ importedList pre ts

end

mutual

/-- Every path in the tree is non-empty. -/
def Wf : UseTree → Prop
  | list path subs => path ≠ some [] ∧ WfList subs
  | glob path _ => path ≠ some []
  | leaf path _ => path ≠ []
  | empty => True

/-- Every path in the members is non-empty. -/
def WfList : List UseTree → Prop
  | [] => True
  | t :: ts => Wf t ∧ WfList ts

end

/-- The tree is a bare `self` leaf. -/
def isSelf : UseTree → Bool
  | leaf path _ => path == ["self"]
  | _ => false

mutual

/-- Nested lists that have no path of their own, or the path `self`, hold no `self` leaf
(excludes `a::{{self}}` and `a::{self::{self}}`). -/
def SelfOk (nested : Bool) : UseTree → Prop
  | list path subs =>
    (nested = true → path = none ∨ path = some ["self"] → ∀ t ∈ subs, isSelf t = false) ∧
      SelfOkList subs
  | _ => True

/-- The same for the members of a list. -/
def SelfOkList : List UseTree → Prop
  | [] => True
  | t :: ts => SelfOk true t ∧ SelfOkList ts

end

/-! ## Lemmas -/

theorem text_cons_cons (a b : String) (l : List String) :
    Names.text (a :: b :: l) = a ++ "::" ++ Names.text (b :: l) := by
  unfold Names.text
  apply String.ext
  simp [String.toList_intercalate, String.toList_append, List.intercalate]

theorem text_append (p q : Names) (hp : p ≠ []) (hq : q ≠ []) :
    Names.text (p ++ q) = Names.text p ++ "::" ++ Names.text q := by
  induction p with
  | nil => exact absurd rfl hp
  | cons a p ih =>
    cases p with
    | nil =>
      cases q with
      | nil => exact absurd rfl hq
      | cons b q =>
        rw [List.singleton_append, text_cons_cons]
        simp [Names.text]
    | cons b p =>
      rw [List.cons_append, List.cons_append, text_cons_cons, ← List.cons_append, ih (by simp),
        text_cons_cons]
      simp [String.append_assoc]

theorem text_eq_self (p : Names) : Names.text p = "self" ↔ p = ["self"] := by
  constructor
  · intro h
    match p, h with
    | [], h => exact absurd h (by decide)
    | [a], h => simpa [Names.text] using h
    | a :: b :: l, h =>
      exfalso
      rw [text_cons_cons] at h
      have h2 := congrArg String.toList h
      have : ':' ∈ "self".toList := by
        rw [← h2]
        simp [String.toList_append]
      exact absurd this (by decide)
  · rintro rfl
    simp [Names.text]

/-- Prefixing at the level of names. -/
def addNames (pre : Names) (e : Names × Option String) : Names × Option String :=
  (if e.1 = ["self"] then pre else pre ++ e.1, e.2)

/-- Rendering an entry. -/
def render (e : Names × Option String) : Entry := (Names.text e.1, e.2)

theorem addPrefix_some (pre : Names) (hpre : pre ≠ []) (es : List (Names × Option String))
    (hes : ∀ e ∈ es, e.1 ≠ []) :
    addPrefix (some pre) (es.map render) = (es.map (addNames pre)).map render := by
  simp only [addPrefix, List.map_map]
  apply List.map_congr_left
  intro e he
  have h1 : ((render e).1 = "self") = (e.1 = ["self"]) := propext (text_eq_self e.1)
  by_cases h : e.1 = ["self"]
  · have h2 : (render e).1 = "self" := h1 ▸ h
    simp only [Function.comp, addNames, if_pos h, if_pos h2]
    rfl
  · have h2 : ¬ (render e).1 = "self" := h1 ▸ h
    simp only [Function.comp, addNames, if_neg h, if_neg h2]
    show (_, _) = (_, _)
    rw [text_append _ _ hpre (hes e he)]
    rfl

theorem addPrefix_none (es : List (Names × Option String)) :
    addPrefix none (es.map render) =
      (es.filter fun e => e.1 != ["self"]).map render := by
  simp only [addPrefix]
  rw [List.filter_map]
  congr 1
  apply List.filter_congr
  intro e _
  show (Names.text e.1 != "self") = (e.1 != ["self"])
  by_cases h : e.1 = ["self"]
  · rw [h]; decide
  · have : Names.text e.1 ≠ "self" := fun hh => h ((text_eq_self _).1 hh)
    rw [bne_iff_ne.2 h, bne_iff_ne.2 this]

mutual

/-- The traversal of the code at the level of names. -/
def names : UseTree → List (Names × Option String)
  | list none subs => (namesList subs).filter fun e => e.1 != ["self"]
  | list (some pre) subs => (namesList subs).map (addNames pre)
  | glob none alias => [(["*"], alias)]
  | glob (some pre) alias => [(pre ++ ["*"], alias)]
  | leaf path alias => [(path, alias)]
  | empty => []

/-- The same for the members of a list. -/
def namesList : List UseTree → List (Names × Option String)
  | [] => []
  | t :: ts => names t ++ namesList ts

end

mutual

theorem names_ne : (t : UseTree) → Wf t → ∀ e ∈ names t, e.1 ≠ []
  | list none subs, h, e, he => by
    rw [names, List.mem_filter] at he
    rw [Wf] at h
    exact namesList_ne subs h.2 e he.1
  | list (some pre) subs, h, e, he => by
    rw [names, List.mem_map] at he
    rw [Wf] at h
    obtain ⟨x, _, rfl⟩ := he
    have hp : pre ≠ [] := fun hh => h.1 (by rw [hh])
    simp only [addNames]
    split
    · exact hp
    · simp [hp]
  | glob none _, _, e, he => by simp [names] at he; simp [he]
  | glob (some pre) _, _, e, he => by simp [names] at he; simp [he]
  | leaf path _, h, e, he => by simp [names] at he; rw [Wf] at h; simpa [he] using h
  | empty, _, e, he => by simp [names] at he

theorem namesList_ne : (ts : List UseTree) → WfList ts → ∀ e ∈ namesList ts, e.1 ≠ []
  | [], _, e, he => by simp [namesList] at he
  | t :: ts, h, e, he => by
    rw [namesList, List.mem_append] at he
    rw [WfList] at h
    rcases he with he | he
    · exact names_ne t h.1 e he
    · exact namesList_ne ts h.2 e he

end

mutual

theorem flatten_names : (t : UseTree) → Wf t → flatten t = (names t).map render
  | list none subs, h => by
    rw [Wf] at h
    rw [flatten, flattenList_names subs h.2, addPrefix_none, names]
  | list (some pre) subs, h => by
    rw [Wf] at h
    have hp : pre ≠ [] := fun hh => h.1 (by rw [hh])
    rw [flatten, flattenList_names subs h.2, addPrefix_some pre hp _ (namesList_ne subs h.2), names]
  | glob none alias, _ => by
    rw [flatten, names]
    rfl
  | glob (some pre) alias, h => by
    rw [Wf] at h
    have hp : pre ≠ [] := fun hh => h (by rw [hh])
    rw [flatten, names]
    have : addPrefix (some pre) [("*", alias)] =
        addPrefix (some pre) ([((["*"] : Names), alias)].map render) := rfl
    rw [this, addPrefix_some pre hp _ (by simp)]
    rfl
  | leaf path alias, _ => by rw [flatten, names]; rfl
  | empty, _ => by rw [flatten, names]; rfl

theorem flattenList_names : (ts : List UseTree) → WfList ts →
    flattenList ts = (namesList ts).map render
  | [], _ => rfl
  | t :: ts, h => by
    rw [WfList] at h
    rw [flattenList, namesList, flatten_names t h.1, flattenList_names ts h.2, List.map_append]

end

mutual

theorem names_self : (t : UseTree) → Wf t → SelfOk true t → isSelf t = false →
    ∀ e ∈ names t, e.1 ≠ ["self"]
  | list none subs, _, _, _, e, he => by
    rw [names, List.mem_filter] at he
    simpa using he.2
  | list (some pre) subs, h, hok, _, e, he => by
    rw [names, List.mem_map] at he
    obtain ⟨x, hx, rfl⟩ := he
    rw [Wf] at h
    rw [SelfOk] at hok
    have hp : pre ≠ [] := fun hh => h.1 (by rw [hh])
    have hxne := namesList_ne subs h.2 x hx
    simp only [addNames]
    split
    · rename_i hxs
      intro hpre
      subst hpre
      exact namesList_self subs h.2 hok.2 (hok.1 rfl (Or.inr rfl)) x hx hxs
    · intro hh
      match pre, hp with
      | a :: pre', _ =>
        simp only [List.cons_append, List.cons.injEq, List.append_eq_nil_iff] at hh
        exact hxne hh.2.2
  | glob none _, _, _, _, e, he => by simp [names] at he; simp [he]
  | glob (some pre) _, _, _, _, e, he => by
    simp [names] at he
    rw [he]
    intro hh
    have := congrArg List.getLast? hh
    simp at this
  | leaf path _, _, _, hs, e, he => by simp [names] at he; rw [he]; simpa [isSelf] using hs
  | empty, _, _, _, e, he => by simp [names] at he

theorem namesList_self : (ts : List UseTree) → WfList ts → SelfOkList ts →
    (∀ t ∈ ts, isSelf t = false) → ∀ e ∈ namesList ts, e.1 ≠ ["self"]
  | [], _, _, _, e, he => by simp [namesList] at he
  | t :: ts, h, hok, hs, e, he => by
    rw [namesList, List.mem_append] at he
    rw [WfList] at h
    rw [SelfOkList] at hok
    rcases he with he | he
    · exact names_self t h.1 hok.1 (hs t (by simp)) e he
    · exact namesList_self ts h.2 hok.2 (fun t ht => hs t (List.mem_cons_of_mem _ ht)) e he

end

/-- What the specification makes of one entry of the code's traversal under a prefix. -/
def under (pre : Names) (es : List (Names × Option String)) : List (Names × Option String) :=
  if pre = [] then es.filter fun e => e.1 != ["self"] else es.map (addNames pre)

theorem under_append (pre : Names) (a b : List (Names × Option String)) :
    under pre (a ++ b) = under pre a ++ under pre b := by
  unfold under
  split <;> simp

mutual

theorem imported_eq : (t : UseTree) → Wf t → SelfOk true t → (pre : Names) →
    imported pre true t = under pre (names t)
  | list none subs, h, hok, pre => by
    rw [Wf] at h
    rw [SelfOk] at hok
    rw [imported, names, Option.getD_none, List.append_nil,
      importedList_eq subs h.2 hok.2 pre]
    congr 1
    symm
    rw [List.filter_eq_self]
    intro e he
    simpa using namesList_self subs h.2 hok.2 (hok.1 rfl (Or.inl rfl)) e he
  | list (some q) subs, h, hok, pre => by
    have h0 := h
    have hok0 := hok
    rw [Wf] at h
    rw [SelfOk] at hok
    have hq : q ≠ [] := fun hh => h.1 (by rw [hh])
    have hself := names_self (list (some q) subs) h0 hok0 rfl
    rw [imported, Option.getD_some, importedList_eq subs h.2 hok.2 (pre ++ q)]
    rw [names] at hself ⊢
    unfold under
    rw [if_neg (by simp [hq])]
    split
    · rename_i hpre
      subst hpre
      rw [List.nil_append]
      symm
      rw [List.filter_eq_self]
      intro e he
      simpa using hself e he
    · rename_i hpre
      rw [List.map_map]
      apply List.map_congr_left
      intro e he
      have h1 := hself (addNames q e) (List.mem_map_of_mem he)
      simp only [Function.comp]
      have h2 : addNames pre (addNames q e) = (pre ++ (addNames q e).1, (addNames q e).2) := by
        generalize addNames q e = x at h1 ⊢
        rw [addNames, if_neg h1]
      rw [h2]
      simp only [addNames]
      split <;> simp
  | glob none alias, _, _, pre => by
    rw [imported, names]
    unfold under
    split
    · rename_i hpre; subst hpre; rfl
    · simp [addNames]
  | glob (some q) alias, _, _, pre => by
    rw [imported, names]
    have hne : q ++ ["*"] ≠ ["self"] := by
      intro hh
      have := congrArg List.getLast? hh
      simp at this
    unfold under
    split
    · rename_i hpre; subst hpre; simp [hne]
    · simp [addNames, hne]
  | leaf path alias, _, _, pre => by
    rw [imported, names]
    unfold under
    by_cases hs : path = ["self"]
    · rw [if_pos ⟨rfl, hs⟩]
      split <;> simp [addNames, hs]
    · rw [if_neg (fun h => hs h.2)]
      split
      · rename_i hpre; simp [hpre, hs]
      · simp [addNames, hs]
  | empty, _, _, pre => by
    rw [imported, names]
    unfold under
    split <;> rfl

theorem importedList_eq : (ts : List UseTree) → WfList ts → SelfOkList ts → (pre : Names) →
    importedList pre ts = under pre (namesList ts)
  | [], _, _, pre => by
    rw [importedList, namesList]
    unfold under
    split <;> rfl
  | t :: ts, h, hok, pre => by
    rw [WfList] at h
    rw [SelfOkList] at hok
    rw [importedList, namesList, under_append, imported_eq t h.1 hok.1 pre,
      importedList_eq ts h.2 hok.2 pre]

end

/-! ## Theorems -/

/-- Flattening lists exactly the imported paths, in order, at any depth. Missing: trees with
a `self` leaf in a nested list without a path of its own (or with the path `self`), for
which the claim is false. -/
theorem C25_flatten_partial (t : UseTree) (hwf : Wf t) (hok : SelfOk false t) :
    flatten t = (imported [] false t).map fun e => (Names.text e.1, e.2) := by
  have hr : (fun e : Names × Option String => (Names.text e.1, e.2)) = render := rfl
  rw [flatten_names t hwf, hr]
  congr 1
  cases t with
  | list path subs =>
    rw [Wf] at hwf
    rw [SelfOk] at hok
    cases path with
    | none =>
      rw [imported, names, importedList_eq subs hwf.2 hok.2]
      rfl
    | some q =>
      have hq : q ≠ [] := fun hh => hwf.1 (by rw [hh])
      rw [imported, names, Option.getD_some, List.nil_append, importedList_eq subs hwf.2 hok.2]
      unfold under
      rw [if_neg hq]
  | glob path alias =>
    cases path <;> simp [imported, names]
  | leaf path alias => simp [imported, names]
  | empty => simp [imported, names]

/-- Nothing else is produced and nothing is lost (same exclusion as above). -/
theorem C25_exact_partial (t : UseTree) (hwf : Wf t) (hok : SelfOk false t) (e : Entry) :
    e ∈ flatten t ↔ ∃ p alias, (p, alias) ∈ imported [] false t ∧ e = (Names.text p, alias) := by
  rw [C25_flatten_partial t hwf hok, List.mem_map]
  constructor
  · rintro ⟨⟨p, a⟩, h, rfl⟩
    exact ⟨p, a, h, rfl⟩
  · rintro ⟨p, a, h, rfl⟩
    exact ⟨(p, a), h, rfl⟩

/-- `use a::{{self}};` imports `a`, but flattening loses it. -/
theorem C25_negation :
    ∃ t : UseTree, Wf t ∧ imported [] false t = [(["a"], none)] ∧ flatten t = [] := by
  refine ⟨.list (some ["a"]) [.list none [.leaf ["self"] none]], ?_, by decide, by decide⟩
  simp [Wf, WfList]

/-! Non-vacuity: `a::{self, b::{c as d, *}, e}`. -/

/-- Sample tree. -/
def sampleUse : UseTree :=
  .list (some ["a"]) [.leaf ["self"] none,
    .list (some ["b"]) [.leaf ["c"] (some "d"), .glob none none], .leaf ["e"] none]

example : Wf sampleUse ∧ SelfOk false sampleUse ∧
    flatten sampleUse = [("a", none), ("a::b::c", some "d"), ("a::b::*", none),
      ("a::e", none)] := by
  refine ⟨?_, ?_, by decide⟩
  · simp [sampleUse, Wf, WfList]
  · simp [sampleUse, SelfOk, SelfOkList]

end Verif.Ir.UseTree
