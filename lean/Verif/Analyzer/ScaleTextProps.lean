import Verif.Analyzer.ScaleText
import Verif.Analyzer.ScaleProps
import Verif.Analyzer.AttrActionsProps

/-!
# C103: the fix for missing SCALE codec traits changes one attribute

Property C103.
-/

namespace Verif.Analyzer.ScaleText
open Verif.Ir Verif.Analyzer.Insert Verif.Analyzer.AttrActions Verif.Analyzer.InsertText

/-! ## Specification -/

/-- Replacing the bytes from `start` to `stop` of `text` gives `result`. -/
def Replaces (text : String) (start stop : Nat) (new result : String) : Prop :=
  ∃ l m r, text = l ++ m ++ r ∧ start = l.utf8ByteSize ∧ stop = l.utf8ByteSize + m.utf8ByteSize ∧
    result = l ++ new ++ r

/-- The attributes. -/
def ownAttrs (l : List Lead) : List OwnAttr :=
  l.filterMap fun
    | .attr a => some a
    | .trivia _ _ => none

/-- The attribute `derive` with the given elements between its parentheses. -/
def deriveOf (inner : List Elem) : OwnAttr :=
  ⟨none, [.tok .other "#", .tok .other "[", .tok .ident "derive"],
    some (.tok .lParen "(" :: (inner ++ [.tok .rParen ")"])), [], true⟩

/-- The names separated by commas and spaces. -/
def commaList (names : List (List Elem)) : List Elem :=
  [Elem.tok .comma ",", .tok .whitespace " "].intercalate names

/-- The documented path of a trait. -/
def pathOf : ScaleTrait → List Elem
  | .encode => [.tok .ident "scale", .tok .other "::", .tok .ident "Encode"]
  | .decode => [.tok .ident "scale", .tok .other "::", .tok .ident "Decode"]
  | .typeInfo => [.tok .ident "scale_info", .tok .other "::", .tok .ident "TypeInfo"]

/-- The argument of `ink::scale_derive`. -/
def wordOf : ScaleTrait → List Elem
  | .encode => [.tok .ident "Encode"]
  | .decode => [.tok .ident "Decode"]
  | .typeInfo => [.tok .ident "TypeInfo"]

/-- The attribute `ink::scale_derive` for the traits. -/
def scaleDeriveOf (l : List ScaleTrait) : OwnAttr :=
  ⟨some ⟨.macro .scaleDerive, l.map ScaleTrait.keyword⟩,
    [.tok .other "#", .tok .other "[", .tok .ident "ink", .tok .other "::", .tok .ident "scale_derive"],
    some (.tok .lParen "(" :: (commaList (l.map wordOf) ++ [.tok .rParen ")"])), [], true⟩

/-- Where a new attribute goes: behind the attributes, or in front of the item if there are none. -/
def NewPlace (l1 l2 : List Lead) : Prop :=
  (l2 = [] ∧ ∃ a, Lead.attr a ∈ l1) ∨ (l1 = [] ∧ ∀ a, Lead.attr a ∉ l2)

/-! ## Lemmas -/

theorem attrs_own (b : List Elem) (l : List Lead) : (attrsFrom b l).map (fun a => a.2.1) = ownAttrs l := by
  induction l generalizing b with
  | nil => rfl
  | cons x l ih =>
    cases x with
    | attr a => simpa [attrsFrom, ownAttrs] using ih _
    | trivia k s => simpa [attrsFrom, ownAttrs] using ih _

theorem classes_eq (t : Target) : classes t = (ownAttrs t.lead).map classify := by
  unfold classes Target.attrs
  rw [← attrs_own t.before, List.map_map]
  rfl

theorem ownAttrs_append (a b : List Lead) : ownAttrs (a ++ b) = ownAttrs a ++ ownAttrs b := by
  simp [ownAttrs]

/-- The attribute at a position. -/
theorem attr_at (b : List Elem) (l : List Lead) (i : Nat) (x : List Elem × OwnAttr × List Lead)
    (h : (attrsFrom b l)[i]? = some x) :
    ∃ l1 l2, l = l1 ++ .attr x.2.1 :: l2 ∧ x = (b ++ leadElems l1, x.2.1, l2) ∧
      (ownAttrs l1).length = i := by
  induction l generalizing b i with
  | nil => simp [attrsFrom] at h
  | cons y l ih =>
    cases y with
    | attr a =>
      cases i with
      | zero =>
        simp [attrsFrom] at h
        subst h
        exact ⟨[], l, rfl, by simp [leadElems], rfl⟩
      | succ i =>
        simp only [attrsFrom, List.getElem?_cons_succ] at h
        obtain ⟨l1, l2, h1, h2, h3⟩ := ih _ _ h
        refine ⟨.attr a :: l1, l2, by rw [h1]; rfl, ?_, by simpa [ownAttrs] using h3⟩
        rw [h2]
        simp [leadElems_cons, Lead.elems]
    | trivia k s =>
      obtain ⟨l1, l2, h1, h2, h3⟩ := ih _ _ h
      refine ⟨.trivia k s :: l1, l2, by rw [h1]; rfl, ?_, by simpa [ownAttrs] using h3⟩
      rw [h2]
      simp [leadElems_cons, Lead.elems]

theorem attr_isSome (b : List Elem) (l : List Lead) (i : Nat) (h : i < (ownAttrs l).length) :
    ∃ x, (attrsFrom b l)[i]? = some x := by
  rw [← attrs_own b, List.length_map] at h
  exact ⟨_, List.getElem?_eq_getElem h⟩

theorem replaces_attr (t : Target) (l1 l2 : List Lead) (a new : OwnAttr)
    (h : t.lead = l1 ++ .attr a :: l2) (s : String) (hs : s = Elem.textList new.elems) :
    Replaces (textOf t) (Elem.lenList (t.before ++ leadElems l1))
      (Elem.lenList (t.before ++ leadElems l1) + Elem.lenList a.elems) s
      (textOf (withLead t (l1 ++ .attr new :: l2))) := by
  refine ⟨Elem.textList (t.before ++ leadElems l1), Elem.textList a.elems,
    Elem.textList (leadElems l2 ++ (t.body ++ t.after)), ?_, ?_, ?_, ?_⟩
  · rw [textOf, file_split t l1 _ h, ← textList_append, ← textList_append]
    simp [leadElems_cons, Lead.elems]
  · rw [textList_size]
  · rw [textList_size, textList_size]
  · rw [textOf, file_split (withLead t (l1 ++ .attr new :: l2)) l1 (.attr new :: l2) rfl, hs,
      ← textList_append, ← textList_append]
    simp [withLead, leadElems_cons, Lead.elems]

theorem replaces_insert (text : String) (n : Nat) (new result : String)
    (h : Inserts text (n, new) result) : Replaces text n n new result := by
  obtain ⟨l, r, h1, h2, h3⟩ := h
  exact ⟨l, "", r, by simpa using h1, h2, by simpa using h2, h3⟩

theorem newOffset_spot (t : Target) (hp : Proper t) :
    ∃ l1 l2, t.lead = l1 ++ l2 ∧ NewPlace l1 l2 ∧
      newOffset t = Elem.lenList (t.before ++ leadElems l1) := by
  rcases last_attr t.lead with hn | ⟨x, a, q, hl, hq⟩
  · refine ⟨[], t.lead, rfl, .inr ⟨rfl, ?_⟩, ?_⟩
    · intro a ha
      obtain ⟨k, s, h⟩ := hn _ ha
      cases h
    · unfold newOffset Target.attrs
      rw [attrsFrom_noAttr _ _ hn]
      simp [leadElems]
  · refine ⟨t.lead, [], by simp, .inl ⟨rfl, a, by rw [hl]; simp⟩, ?_⟩
    obtain ⟨l, h1, h2⟩ := lastToken_some t hp x q a hl q
    have hlast : t.attrs.getLast? = some (t.before ++ leadElems x, a, q) := by
      unfold Target.attrs
      rw [hl, attrsFrom_append, attrsFrom, attrsFrom_noAttr _ q hq]
      simp
    obtain ⟨k, s, R, hR, hk⟩ := next_elem t hp t.lead [] (by simp) (.inl rfl)
    have e : t.file = (t.before ++ leadElems x ++ a.elems) ++ (leadElems q ++ .tok k s :: R) := by
      rw [← hR, file_split t x _ hl]
      simp [leadElems_append, leadElems_cons, Lead.elems, leadElems]
    have hf := hp.full
    rw [e] at hf
    unfold newOffset
    rw [hlast, Option.bind_some, h1, Option.bind_some, e, nextSolid_after _ _ _ _ _ l hf h2
      (noAttr_trivia q hq fun k s hks => hp.trivia k s (by rw [hl]; simp [hks])) hk]
    conv => rhs; rw [hl]
    simp [leadElems_append, leadElems_cons, Lead.elems]

/-- The missing traits are some of the three, in their order. -/
theorem missing_cases (E : ScaleEnv) (v : Version) (attrs : List DAttr) (impl : ScaleTrait → Bool) :
    scaleUnimplemented E v attrs impl ∈ [[], [.encode], [.decode], [.typeInfo], [.encode, .decode],
      [.encode, .typeInfo], [.decode, .typeInfo], [.encode, .decode, .typeInfo]] := by
  unfold scaleUnimplemented ScaleTrait.all
  generalize scaleMissing E v attrs impl = p
  cases h1 : p .encode <;> cases h2 : p .decode <;> cases h3 : p .typeInfo <;>
    simp [List.filter, h1, h2, h3]

/-- The lists of missing traits. -/
def Sub (l : List ScaleTrait) : Prop :=
  l ∈ [[], [.encode], [.decode], [.typeInfo], [.encode, .decode],
      [.encode, .typeInfo], [.decode, .typeInfo], [ScaleTrait.encode, .decode, .typeInfo]]

theorem sub_cases {P : List ScaleTrait → Prop} (h1 : P []) (h2 : P [.encode]) (h3 : P [.decode])
    (h4 : P [.typeInfo]) (h5 : P [.encode, .decode]) (h6 : P [.encode, .typeInfo])
    (h7 : P [.decode, .typeInfo]) (h8 : P [.encode, .decode, .typeInfo]) (l : List ScaleTrait)
    (h : Sub l) : P l := by
  simp only [Sub, List.mem_cons, List.not_mem_nil, or_false] at h
  rcases h with rfl | rfl | rfl | rfl | rfl | rfl | rfl | rfl <;> assumption

theorem plain_v4 (l : List ScaleTrait) (h : Sub l) :
    plain .v4 l = Elem.textList (commaList (l.map pathOf)) := by
  revert l
  exact sub_cases (by decide) (by decide) (by decide) (by decide) (by decide) (by decide) (by decide)
    (by decide)

theorem plain_v5 (l : List ScaleTrait) (h : Sub l) :
    plain .v5 l = Elem.textList (commaList (l.map wordOf)) := by
  revert l
  exact sub_cases (by decide) (by decide) (by decide) (by decide) (by decide) (by decide) (by decide)
    (by decide)

theorem plain_paths (l : List ScaleTrait) (h : Sub l) :
    traitPathsPlain l = (Elem.textList (commaList (l.map pathOf))).toList := by
  revert l
  exact sub_cases (by decide) (by decide) (by decide) (by decide) (by decide) (by decide) (by decide)
    (by decide)

theorem commaList_open (l : List ScaleTrait) (h : Sub l) :
    ∀ e ∈ commaList (l.map pathOf), isRParen e = false := by
  have : (commaList (l.map pathOf)).all (fun e => !isRParen e) = true := by
    revert l
    exact sub_cases (by decide) (by decide) (by decide) (by decide) (by decide) (by decide) (by decide)
      (by decide)
  intro e he
  simpa using List.all_eq_true.1 this e he

theorem inside_open (cs : List Elem) : ∀ e ∈ inside cs, isRParen e = false := by
  intro e he
  have := List.all_eq_true.1 (List.all_takeWhile (l := cs.drop (if cs.any isLParen then 1 else 0))
    (p := fun e => !isRParen e)) e he
  simpa using this

theorem inside_parens (inner : List Elem) (h : ∀ e ∈ inner, isRParen e = false) :
    inside (.tok .lParen "(" :: (inner ++ [.tok .rParen ")"])) = inner := by
  unfold inside
  rw [if_pos (by simp [isLParen]), List.drop_succ_cons, List.drop_zero,
    List.takeWhile_append_of_pos (by intro e he; simp [h e he])]
  simp [isRParen]

theorem classify_derive (inner : List Elem) (h : ∀ e ∈ inner, isRParen e = false) :
    classify (deriveOf inner) = .derive (some (Elem.textList inner).toList) := by
  have hp : pathText (deriveOf inner) = "derive" := rfl
  unfold classify
  split
  · rename_i h'
    cases h'
  · rw [if_pos hp]
    simp only [deriveOf, Option.map_some, metaString, inside_parens inner h]

theorem text_derive (inner : List Elem) :
    Elem.textList (deriveOf inner).elems = "#[derive(" ++ Elem.textList inner ++ ")]" := by
  have e : (deriveOf inner).elems = [.tok .other "#", .tok .other "[", .tok .ident "derive",
      .tree (.tok .lParen "(" :: (inner ++ [.tok .rParen ")"])), .tok .rBrack "]"] := by
    simp [deriveOf, OwnAttr.elems]
  rw [e]
  simp only [Elem.textList, Elem.text, textList_append, String.append_empty]
  rw [← String.toList_inj]
  simp [String.toList_append]

theorem text_scale (l : List ScaleTrait) :
    Elem.textList (scaleDeriveOf l).elems =
      "#[ink::scale_derive(" ++ Elem.textList (commaList (l.map wordOf)) ++ ")]" := by
  have e : (scaleDeriveOf l).elems = [.tok .other "#", .tok .other "[", .tok .ident "ink",
      .tok .other "::", .tok .ident "scale_derive",
      .tree (.tok .lParen "(" :: (commaList (l.map wordOf) ++ [.tok .rParen ")"])), .tok .rBrack "]"] := by
    simp [scaleDeriveOf, OwnAttr.elems]
  rw [e]
  simp only [Elem.textList, Elem.text, textList_append, String.append_empty]
  rw [← String.toList_inj]
  simp [String.toList_append]

/-- What separates the old names from the new ones. -/
def sepOf (E : ScaleEnv) (text : List Char) : List Elem :=
  if (trimEnd E.isWs text).getLast? = some ',' then [] else [.tok .comma ",", .tok .whitespace " "]

theorem prefix_text (E : ScaleEnv) (inner : List Elem) :
    metaPrefix E (Elem.textList inner).toList =
      (Elem.textList (inner ++ sepOf E (Elem.textList inner).toList)).toList := by
  unfold metaPrefix sepOf
  rw [textList_append, String.toList_append]
  split <;> rfl

/-- The new attribute. -/
def newAttr (E : ScaleEnv) (v : Version) (old : Option (List Elem)) (missing : List ScaleTrait) :
    OwnAttr :=
  if v = .v5 then scaleDeriveOf missing
  else
    deriveOf ((old.map fun cs => inside cs ++ sepOf E (metaString cs).toList).getD [] ++
      commaList (missing.map pathOf))

theorem newAttr_text (E : ScaleEnv) (v : Version) (old : Option (List Elem)) (l : List ScaleTrait)
    (h : Sub l) (pre : String)
    (hpre : pre = if v = .v4 then String.ofList ((old.map fun cs => metaPrefix E (metaString cs).toList).getD [])
      else "") :
    attrText v pre (plain v l) = Elem.textList (newAttr E v old l).elems := by
  subst hpre
  cases v with
  | v5 =>
    simp only [newAttr, if_true, text_scale, ← plain_v5 l h, attrText, attrPath]
    rw [← String.toList_inj]
    simp [String.toList_append]
  | v4 =>
    simp only [newAttr, reduceCtorEq, if_false, if_true, text_derive, attrText, attrPath, textList_append,
      ← plain_v4 l h]
    rw [← String.toList_inj]
    cases old with
    | none => simp [String.toList_append, Elem.textList]
    | some cs =>
      have := prefix_text E (inside cs)
      simp only [Option.map_some, Option.getD_some, metaString, String.toList_append, String.toList_ofList,
        this, textList_append]
      simp

theorem newAttr_class (E : ScaleEnv) (v : Version) (attrs : List DAttr) (old : Option (List Elem))
    (l : List ScaleTrait) (h : Sub l)
    (hm : v = .v4 → standaloneMeta attrs = old.map fun cs => (metaString cs).toList) :
    classify (newAttr E v old l) = fixedAttr E v attrs l := by
  cases v with
  | v5 =>
    have : l.map ScaleTrait.keyword = l.map (·.argKind) := by simp [argKind_eq]
    simp only [newAttr, if_true, fixedAttr, ← this]
    rfl
  | v4 =>
    simp only [newAttr, reduceCtorEq, if_false, fixedAttr, hm rfl]
    rw [classify_derive]
    · rw [textList_append, String.toList_append, plain_paths l h]
      cases old with
      | none => rfl
      | some cs => simp only [Option.map_some, Option.getD_some, metaString, prefix_text]
    · intro e he
      rcases List.mem_append.1 he with he | he
      · cases old with
        | none => simp at he
        | some cs =>
          simp only [Option.map_some, Option.getD_some, List.mem_append] at he
          rcases he with he | he
          · exact inside_open cs e he
          · unfold sepOf at he
            split at he
            · cases he
            · simp only [List.mem_cons, List.not_mem_nil, or_false] at he
              rcases he with rfl | rfl <;> rfl
      · exact commaList_open l h e he

theorem target_lt (v : Version) (attrs : List DAttr) (i : Nat) (h : targetAttr v attrs = some i) :
    i < attrs.length := by
  unfold targetAttr at h
  split at h <;> exact (List.findIdx?_eq_some_iff_getElem.1 h).1

/-- An attribute that is read as `derive` has the text of its token tree. -/
theorem classify_text (a : OwnAttr) (text : Option (List Char)) (h : classify a = .derive text) :
    text = a.tree.map fun cs => (metaString cs).toList := by
  unfold classify at h
  split at h
  · cases h
  · split at h
    · cases h; rfl
    · split at h <;> cases h

/-- What the edit does. -/
theorem edit_cases (E : ScaleEnv) (v : Version) (t : Target) (hp : Proper t) (impl : ScaleTrait → Bool)
    (e : Change) (h : scaleEdit E v t impl = some e) :
    ∃ l1 old l2 new, t.lead = l1 ++ old ++ l2 ∧
      ((old = [] ∧ NewPlace l1 l2 ∧ targetAttr v (classes t) = none ∧
        new = newAttr E v none (scaleUnimplemented E v (classes t) impl)) ∨
       ∃ a, old = [.attr a] ∧ targetAttr v (classes t) = some (ownAttrs l1).length ∧
        new = newAttr E v a.tree (scaleUnimplemented E v (classes t) impl)) ∧
      scaleUnimplemented E v (classes t) impl ≠ [] ∧
      Replaces (textOf t) e.start e.stop e.text (textOf (withLead t (l1 ++ .attr new :: l2))) ∧
      scaleFix E v (classes t) impl = some (classes (withLead t (l1 ++ .attr new :: l2))) := by
  have hsub : Sub (scaleUnimplemented E v (classes t) impl) := missing_cases _ _ _ _
  unfold scaleEdit at h
  unfold scaleFix
  generalize hm : scaleUnimplemented E v (classes t) impl = l at h hsub
  simp only at h ⊢
  cases l with
  | nil => simp at h
  | cons x l =>
    simp only [List.isEmpty_cons, Bool.false_eq_true, if_false] at h ⊢
    cases ht : targetAttr v (classes t) with
    | none =>
      rw [ht] at h
      simp only [Option.bind_none] at h
      cases h
      obtain ⟨l1, l2, h1, h2, h3⟩ := newOffset_spot t hp
      have hc := newAttr_class E v (classes t) none (x :: l) hsub
        (fun hv => by subst hv; exact (target_v4_none _ ht).1)
      refine ⟨l1, [], l2, _, by simpa using h1, .inl ⟨rfl, h2, rfl, rfl⟩, by simp, ?_, ?_⟩
      · exact replaces_insert _ _ _ _ (inserts_attr t l1 l2 h1 _ _
          (newAttr_text E v none (x :: l) hsub "" (by split <;> rfl)) _ h3)
      · rw [classes_eq (withLead _ _), ← hc, classes_eq t, h1]
        simp only [withLead, ownAttrs_append, List.map_append]
        rcases h2 with ⟨rfl, -⟩ | ⟨rfl, h2⟩
        · simp [ownAttrs]
        · have : ownAttrs l2 = [] := by
            unfold ownAttrs
            rw [List.filterMap_eq_nil_iff]
            intro y hy
            cases y with
            | attr a => exact absurd hy (h2 a)
            | trivia k s => rfl
          have e : ownAttrs (.attr (newAttr E v none (x :: l)) :: l2) =
              newAttr E v none (x :: l) :: ownAttrs l2 := rfl
          rw [e, this]
          simp [ownAttrs]
    | some i =>
      have hlt := target_lt v _ i ht
      rw [classes_eq, List.length_map] at hlt
      obtain ⟨y, hy⟩ := attr_isSome t.before t.lead i hlt
      have hy' : t.attrs[i]? = some y := hy
      rw [ht, Option.bind_some, hy'] at h
      obtain ⟨l1, l2, h1, h2, h3⟩ := attr_at _ _ _ _ hy
      generalize y.2.1 = a at h1 h2
      subst h2
      simp only at h
      cases h
      have hi : (classes t)[i]? = some (classify a) := by
        rw [classes_eq, h1, ownAttrs_append, ← h3]
        have e : ownAttrs (.attr a :: l2) = a :: ownAttrs l2 := rfl
        rw [e]
        simp
      have hmeta : v = .v4 → standaloneMeta (classes t) = a.tree.map fun cs => (metaString cs).toList := by
        intro hv
        subst hv
        obtain ⟨text, g1, g2, -⟩ := target_v4 _ _ ht
        rw [hi] at g1
        rw [g2]
        exact classify_text a text (Option.some.inj g1)
      have hc := newAttr_class E v (classes t) a.tree (x :: l) hsub hmeta
      refine ⟨l1, [.attr a], l2, _, by simpa using h1, .inr ⟨a, rfl, by rw [h3], rfl⟩, by simp, ?_, ?_⟩
      · refine replaces_attr t l1 l2 a _ h1 _ (newAttr_text E v a.tree (x :: l) hsub _ ?_)
        unfold keptText
        split
        · rename_i hv
          rw [hmeta hv, Option.map_map]
          rfl
        · rfl
      · rw [classes_eq (withLead _ _), ← hc, classes_eq t, h1]
        simp only [withLead, ownAttrs_append, List.map_append]
        have e : ∀ b, ownAttrs (.attr b :: l2) = b :: ownAttrs l2 := fun _ => rfl
        rw [e, e, ← h3]
        simp

theorem textList_all (l : List Elem) (p : Char → Bool) (h : ∀ x ∈ l, ∀ c ∈ x.text.toList, p c = true) :
    ∀ c ∈ (Elem.textList l).toList, p c = true := by
  induction l with
  | nil => simp [Elem.textList]
  | cons x l ih =>
    intro c hc
    rw [Elem.textList, String.toList_append] at hc
    rcases List.mem_append.1 hc with hc | hc
    · exact h x (by simp) c hc
    · exact ih (fun y hy => h y (by simp [hy])) c hc

theorem same_attr (l1 l1' l2 l2' : List Lead) (a a' : OwnAttr)
    (h : l1 ++ .attr a :: l2 = l1' ++ .attr a' :: l2') (hlen : (ownAttrs l1).length = (ownAttrs l1').length) :
    l1 = l1' ∧ a = a' ∧ l2 = l2' := by
  induction l1 generalizing l1' with
  | nil =>
    cases l1' with
    | nil => simpa using h
    | cons y l1' =>
      simp only [List.nil_append, List.cons_append, List.cons.injEq] at h
      rw [← h.1] at hlen
      simp [ownAttrs] at hlen
  | cons x l1 ih =>
    cases l1' with
    | nil =>
      simp only [List.nil_append, List.cons_append, List.cons.injEq] at h
      rw [h.1] at hlen
      simp [ownAttrs] at hlen
    | cons y l1' =>
      simp only [List.cons_append, List.cons.injEq] at h
      obtain ⟨rfl, h⟩ := h
      have := ih l1' h (by
        cases x with
        | attr b => simpa [ownAttrs] using hlen
        | trivia k s => simpa [ownAttrs] using hlen)
      exact ⟨by rw [this.1], this.2⟩

theorem run_text (p : List Char) (h : ∀ c ∈ p, c ≠ '$' ∧ c ≠ '\\') (s : List Char) :
    expand (p ++ s) = (expand s).map fun x => (p ++ x.1, x.2) := by
  have h1 : Reading.text.run (p ++ s) = (Reading.text.run s).map fun x => (x.1, p ++ x.2.1, x.2.2) := by
    rw [run_append, run_plain p h, Option.bind_some]
    rfl
  unfold expand
  rw [h1]
  cases h2 : Reading.text.run s with
  | none => rfl
  | some x =>
    obtain ⟨st, o, n⟩ := x
    cases h3 : st.finish <;> simp [h3]

theorem stops_expand (v : Version) (l : List ScaleTrait) (h : Sub l) :
    expand ((tabStops v l).toList ++ ")]".toList) =
      some ((plain v l).toList ++ ")]".toList, (List.range l.length).map (· + 1)) := by
  cases v <;> revert l <;>
  exact sub_cases (by decide +kernel) (by decide +kernel) (by decide +kernel) (by decide +kernel)
    (by decide +kernel) (by decide +kernel) (by decide +kernel) (by decide +kernel)

/-! ## Theorems -/

/-- C103. An edit is made iff a fix is (`C48_silent`, `C48_v4` and `C48_v5_partial` say when and what that
means for the traits), and after the edit the attributes of the type are read as those of the fix. The
edit replaces one attribute (the first of the kind), or it adds one behind the attributes (in front of
the item if there are none), and nothing else in the file changes. -/
theorem C103_edit (E : ScaleEnv) (v : Version) (t : Target) (hp : Proper t) (impl : ScaleTrait → Bool) :
    (scaleEdit E v t impl = none ↔ scaleFix E v (classes t) impl = none) ∧
    ∀ e, scaleEdit E v t impl = some e → ∃ l1 old l2 new, t.lead = l1 ++ old ++ l2 ∧
      (old = [] ∧ NewPlace l1 l2 ∨
        ∃ a, old = [.attr a] ∧ match v with
          | .v4 => (∃ x, classify a = .derive x) ∧ ∀ b, .attr b ∈ l1 → ∀ x, classify b ≠ .derive x
          | .v5 => (∃ x, classify a = .scaleDerive x) ∧
              ∀ b, .attr b ∈ l1 → ∀ x, classify b ≠ .scaleDerive x) ∧
      Replaces (textOf t) e.start e.stop e.text (textOf (withLead t (l1 ++ .attr new :: l2))) ∧
      scaleFix E v (classes t) impl = some (classes (withLead t (l1 ++ .attr new :: l2))) := by
  constructor
  · unfold scaleEdit scaleFix
    simp only
    split
    · simp
    · constructor
      · intro h
        split at h <;> cases h
      · intro h
        split at h <;> cases h
  · intro e h
    obtain ⟨l1, old, l2, new, h1, h2, -, h3, h4⟩ := edit_cases E v t hp impl e h
    refine ⟨l1, old, l2, new, h1, ?_, h3, h4⟩
    rcases h2 with ⟨rfl, h2, -⟩ | ⟨a, rfl, h2, -⟩
    · exact .inl ⟨rfl, h2⟩
    · refine .inr ⟨a, rfl, ?_⟩
      have hown : classes t = (ownAttrs l1).map classify ++ classify a :: (ownAttrs l2).map classify := by
        rw [classes_eq, h1, ownAttrs_append, ownAttrs_append]
        simp [ownAttrs]
      have hmem : ∀ b, Lead.attr b ∈ l1 → b ∈ ownAttrs l1 := by
        intro b hb
        exact List.mem_filterMap.2 ⟨_, hb, rfl⟩
      rw [hown] at h2
      unfold targetAttr at h2
      cases v with
      | v4 =>
        rw [if_neg (by decide), List.findIdx?_eq_some_iff_getElem] at h2
        obtain ⟨g1, g2, g3⟩ := h2
        constructor
        · simp at g2
          cases hc : classify a <;> simp [hc, DAttr.deriveText?] at g2 ⊢
        · intro b hb x hx
          obtain ⟨i, hi, hib⟩ := List.getElem_of_mem (hmem b hb)
          have := g3 i hi
          rw [List.getElem_append_left (by simpa using hi)] at this
          simp [hib, hx, DAttr.deriveText?] at this
      | v5 =>
        rw [if_pos rfl, List.findIdx?_eq_some_iff_getElem] at h2
        obtain ⟨g1, g2, g3⟩ := h2
        constructor
        · simp at g2
          cases hc : classify a <;> simp [hc, DAttr.scaleArgs?] at g2 ⊢
        · intro b hb x hx
          obtain ⟨i, hi, hib⟩ := List.getElem_of_mem (hmem b hb)
          have := g3 i hi
          rw [List.getElem_append_left (by simpa using hi)] at this
          simp [hib, hx, DAttr.scaleArgs?] at this

/-- C103. In version 4, after the edit the type has all three traits. -/
theorem C103_v4 (E : ScaleEnv) (hE : E.Lawful) (t : Target) (hp : Proper t) (impl : ScaleTrait → Bool)
    (e : Change) (h : scaleEdit E .v4 t impl = some e) :
    ∃ t', Replaces (textOf t) e.start e.stop e.text (textOf t') ∧
      ∀ tr, HasTrait E .v4 (classes t') impl tr := by
  obtain ⟨l1, old, l2, new, -, -, h3, h4⟩ := (C103_edit E .v4 t hp impl).2 e h
  exact ⟨_, h3, C48_v4 E hE _ impl _ h4⟩

/-- C103. In version 5, the attribute written is read as `ink::scale_derive` with exactly the traits that
the type lacks (those of the attribute that it replaces are lost, `C48_negation`). -/
theorem C103_v5 (pe : ExprParser) (E : ScaleEnv) (t : Target) (hp : Proper t) (impl : ScaleTrait → Bool)
    (e : Change) (h : scaleEdit E .v5 t impl = some e) :
    ∃ l1 old l2 new, t.lead = l1 ++ old ++ l2 ∧
      Replaces (textOf t) e.start e.stop e.text (textOf (withLead t (l1 ++ .attr new :: l2))) ∧
      (∀ o, ∃ r, castAttr pe ⟨segments new, new.tree.map fun cs => (.tree cs, o)⟩ = some (some r) ∧
        r.kind = .macro .scaleDerive ∧ new.ink = some ⟨r.kind, r.args.map (·.kind)⟩ ∧
        ∀ tr, ScaleTrait.keyword tr ∈ r.args.map (·.kind) ↔ scaleMissing E .v5 (classes t) impl tr = true) := by
  obtain ⟨l1, old, l2, new, h1, h2, hne, h3, h4⟩ := edit_cases E .v5 t hp impl e h
  refine ⟨l1, old, l2, new, h1, h3, fun o => ?_⟩
  have hnew : new = scaleDeriveOf (scaleUnimplemented E .v5 (classes t) impl) := by
    rcases h2 with ⟨-, -, -, rfl⟩ | ⟨a, -, -, rfl⟩ <;> rfl
  have hmem : ∀ tr, tr ∈ scaleUnimplemented E .v5 (classes t) impl ↔
      scaleMissing E .v5 (classes t) impl tr = true := mem_unimplemented E .v5 _ impl
  have hsub : Sub (scaleUnimplemented E .v5 (classes t) impl) := missing_cases _ _ _ _
  subst hnew
  generalize scaleUnimplemented E .v5 (classes t) impl = l at *
  simp only [← hmem]
  clear h4 h3 h2 h1 hmem h
  suffices h : ∃ r, castAttr pe ⟨segments (scaleDeriveOf l),
      (scaleDeriveOf l).tree.map fun cs => (.tree cs, o)⟩ = some (some r) ∧
      r.kind = .macro .scaleDerive ∧ r.args.map (·.kind) = l.map ScaleTrait.keyword by
    obtain ⟨r, g1, g2, g3⟩ := h
    refine ⟨r, g1, g2, by rw [g2, g3]; rfl, fun tr => ?_⟩
    rw [g3, List.mem_map]
    constructor
    · rintro ⟨tr', h', h''⟩
      have : tr' = tr := by
        revert h''
        cases tr <;> cases tr' <;> decide
      exact this ▸ h'
    · exact fun h => ⟨tr, h, rfl⟩
  revert hne
  refine sub_cases (P := fun l => l ≠ [] → ∃ r, castAttr pe ⟨segments (scaleDeriveOf l),
      (scaleDeriveOf l).tree.map fun cs => (.tree cs, o)⟩ = some (some r) ∧
      r.kind = .macro .scaleDerive ∧ r.args.map (·.kind) = l.map ScaleTrait.keyword)
    (fun h => absurd rfl h) ?_ ?_ ?_ ?_ ?_ ?_ ?_ l hsub <;> intro _ <;>
    exact ⟨_, rfl, rfl, rfl⟩

/-- C103. In version 4, the names in an existing `derive` stay as they are; the missing ones follow, with
a comma in between unless there is one already.
Missing for the full claim: lists without any name and lists with a comment behind the last name or
comma (`C103_negation_empty`, `C103_negation_comment`). -/
theorem C103_list_partial (E : ScaleEnv) (hc : E.isWs ',' = false) (t : Target) (hp : Proper t)
    (impl : ScaleTrait → Bool) (l1 l2 : List Lead) (a : OwnAttr) (core : List Elem) (last : Elem)
    (ws : List Elem) (h : t.lead = l1 ++ .attr a :: l2) (hd : pathText a = "derive") (hi : a.ink = none)
    (hfirst : ∀ b, .attr b ∈ l1 → pathText b ≠ "derive")
    (htree : a.tree = some (.tok .lParen "(" :: (core ++ last :: ws ++ [.tok .rParen ")"])))
    (hopen : ∀ x ∈ core ++ last :: ws, isRParen x = false)
    (hws : ∀ x ∈ ws, ∀ c ∈ x.text.toList, E.isWs c = true)
    (hlast : ∃ c, last.text.toList.getLast? = some c ∧ E.isWs c = false ∧ (c = ',' ↔ last = .tok .comma ","))
    (e : Change) (he : scaleEdit E .v4 t impl = some e) :
    ∃ (missing : List ScaleTrait) (sep : List Elem), missing ≠ [] ∧
      (∀ tr, tr ∈ missing ↔ scaleMissing E .v4 (classes t) impl tr = true) ∧
      (last = .tok .comma "," ∧ sep = [] ∨
        last ≠ .tok .comma "," ∧ sep = [.tok .comma ",", .tok .whitespace " "]) ∧
      Replaces (textOf t) e.start e.stop e.text (textOf (withLead t (l1 ++ .attr (deriveOf
        (core ++ last :: ws ++ sep ++ commaList (missing.map pathOf))) :: l2))) := by
  obtain ⟨l1', old, l2', new, h1, h2, hne, h3, -⟩ := edit_cases E .v4 t hp impl e he
  have hcl : classify a = .derive (a.tree.map fun cs => (metaString cs).toList) := by
    unfold classify
    split
    · rename_i h'
      rw [hi] at h'
      cases h'
    · rw [if_pos hd]
  have htarget : targetAttr .v4 (classes t) = some (ownAttrs l1).length := by
    have hown : classes t = (ownAttrs l1).map classify ++ classify a :: (ownAttrs l2).map classify := by
      rw [classes_eq, h, ownAttrs_append]
      simp [ownAttrs]
    unfold targetAttr
    rw [if_neg (by decide), hown, List.findIdx?_eq_some_iff_getElem]
    refine ⟨by simp, by simp [hcl, DAttr.deriveText?], ?_⟩
    intro j hj
    rw [List.getElem_append_left (by simpa using hj), List.getElem_map]
    obtain ⟨y, hy, hy'⟩ := List.mem_filterMap.1 (List.getElem_mem hj : (ownAttrs l1)[j] ∈ ownAttrs l1)
    generalize (ownAttrs l1)[j] = b at hy'
    cases y with
    | trivia k s => cases hy'
    | attr c =>
      cases hy'
      have hb := hfirst b hy
      unfold classify
      split
      · simp [DAttr.deriveText?]
      · rw [if_neg hb]
        split <;> simp [DAttr.deriveText?]
  rcases h2 with ⟨-, -, h2, -⟩ | ⟨a', rfl, h2, hnew⟩
  · rw [htarget] at h2
    cases h2
  · rw [htarget] at h2
    obtain ⟨rfl, rfl, rfl⟩ := same_attr l1 l1' l2 l2' a a' (by rw [← h, h1]; simp) (Option.some.inj h2)
    refine ⟨_, sepOf E (metaString (.tok .lParen "(" :: (core ++ last :: ws ++ [.tok .rParen ")"]))).toList,
      hne, mem_unimplemented E .v4 _ impl, ?_, ?_⟩
    · rw [metaString, inside_parens _ hopen]
      obtain ⟨c, hc1, hc2, hc3⟩ := hlast
      have htrim : (trimEnd E.isWs (Elem.textList (core ++ last :: ws)).toList).getLast? = some c := by
        obtain ⟨ys, hys⟩ := List.getLast?_eq_some_iff.1 hc1
        have hall : ∀ d ∈ (Elem.textList ws).toList, E.isWs d = true := textList_all ws _ hws
        rw [textList_append, Elem.textList, String.toList_append, String.toList_append, hys]
        unfold trimEnd
        rw [List.reverse_append, List.reverse_append, List.append_assoc,
          List.dropWhile_append_of_pos (by simpa using hall), List.reverse_append]
        simp [hc2]
      unfold sepOf
      rw [htrim]
      by_cases hcomma : c = ','
      · exact .inl ⟨hc3.1 hcomma, if_pos (by rw [hcomma])⟩
      · exact .inr ⟨fun h => hcomma (hc3.2 h), if_neg (by simpa using hcomma)⟩
    · subst hnew
      rw [newAttr, if_neg (by decide), htree] at h3
      simp only [Option.map_some, Option.getD_some, inside_parens _ hopen] at h3
      exact h3

/-- C103. The snippet shows the text of the edit, with one tab stop for each missing trait. -/
theorem C103_snippet (E : ScaleEnv) (v : Version) (t : Target) (impl : ScaleTrait → Bool)
    (hclean : ∀ c ∈ (keptText E v (classes t)).toList, c ≠ '$' ∧ c ≠ '\\')
    (e : Change) (h : scaleEdit E v t impl = some e) :
    ∃ n, 0 < n ∧ n ≤ 3 ∧
      expand e.snippet.toList = some (e.text.toList, (List.range n).map (· + 1)) := by
  have hsub : Sub (scaleUnimplemented E v (classes t) impl) := missing_cases _ _ _ _
  have hpath : ∀ c ∈ ("#[" ++ attrPath v ++ "(").toList, c ≠ '$' ∧ c ≠ '\\' := by
    cases v <;> decide
  have key : ∀ (pre : String) (l : List ScaleTrait), Sub l → (∀ c ∈ pre.toList, c ≠ '$' ∧ c ≠ '\\') →
      expand (attrText v pre (tabStops v l)).toList =
        some ((attrText v pre (plain v l)).toList, (List.range l.length).map (· + 1)) := by
    intro pre l hl hpre
    have e1 : ∀ s : String, (attrText v pre s).toList =
        (("#[" ++ attrPath v ++ "(").toList ++ pre.toList) ++ (s.toList ++ ")]".toList) := by
      intro s
      simp [attrText, String.toList_append]
    rw [e1, e1, run_text _ (by
      intro c hc
      rcases List.mem_append.1 hc with hc | hc
      · exact hpath c hc
      · exact hpre c hc), stops_expand v l hl]
    rfl
  have hlen : ∀ l, Sub l → l.length ≤ 3 :=
    fun l => sub_cases (P := fun l => l.length ≤ 3) (by decide) (by decide) (by decide) (by decide)
      (by decide) (by decide) (by decide) (by decide) l
  unfold scaleEdit at h
  generalize scaleUnimplemented E v (classes t) impl = l at h hsub
  simp only at h
  split at h
  · cases h
  · rename_i hne
    refine ⟨l.length, ?_, hlen l hsub, ?_⟩
    · cases l with
      | nil => exact absurd rfl hne
      | cons => simp
    · split at h
      · cases h
        exact key _ _ hsub hclean
      · cases h
        exact key _ _ hsub (by simp)

/-! ## Examples -/

/-- Traits by their documented paths, white space by `Char.isWhitespace`. -/
def sampleEnv : ScaleEnv := ⟨fun t p => p == t.path, Char.isWhitespace⟩

/-- A struct with the given attribute. -/
def structWith (l : List Lead) : Target :=
  ⟨[], l, [.tok .ident "struct", .tok .whitespace " ", .tok .ident "S", .tok .other ";"], []⟩

/-- C103 is false for an empty `derive`: the list gets a comma in front of the first name. -/
theorem C103_negation_empty :
    (scaleEdit sampleEnv .v4 (structWith [.attr (deriveOf []), .trivia .whitespace " "])
      fun _ => false).map Change.text =
      some "#[derive(, scale::Encode, scale::Decode, scale_info::TypeInfo)]" := by
  decide +kernel

/-- C103 is false for a comment at the end of the list: behind a trailing comma a second one is added,
and a comma at the end of a comment counts as separator. -/
theorem C103_negation_comment :
    (scaleEdit sampleEnv .v4 (structWith [.attr (deriveOf [.tok .ident "Debug", .tok .comma ",",
        .tok .comment "/* a */"]), .trivia .whitespace " "]) fun _ => false).map Change.text =
      some "#[derive(Debug,/* a */, scale::Encode, scale::Decode, scale_info::TypeInfo)]" ∧
    (scaleEdit sampleEnv .v4 (structWith [.attr (deriveOf [.tok .ident "Debug", .tok .whitespace " ",
        .tok .comment "// a,", .tok .whitespace "\n"]), .trivia .whitespace " "])
        fun _ => false).map Change.text =
      some "#[derive(Debug // a,\nscale::Encode, scale::Decode, scale_info::TypeInfo)]" := by
  decide +kernel

/-- `#[derive(Debug)]` with one trait implemented: the hypotheses of `C103_list_partial` hold. -/
example : Proper (structWith [.attr (deriveOf [.tok .ident "Debug"]), .trivia .whitespace " "]) ∧
    scaleEdit sampleEnv .v4 (structWith [.attr (deriveOf [.tok .ident "Debug"]), .trivia .whitespace " "])
        (fun t => t == .decode) =
      some ⟨0, 16, "#[derive(Debug, scale::Encode, scale_info::TypeInfo)]",
        "#[derive(Debug, ${1:scale::Encode}, ${2:scale_info::TypeInfo})]"⟩ ∧
    pathText (deriveOf [.tok .ident "Debug"]) = "derive" ∧
    (∃ c, "Debug".toList.getLast? = some c ∧ sampleEnv.isWs c = false ∧
      (c = ',' ↔ Elem.tok .ident "Debug" = .tok .comma ",")) := by
  refine ⟨⟨by decide, ?_, ?_, ⟨_, _, _, rfl, rfl⟩⟩, by decide +kernel, by decide +kernel,
    'g', by decide, by decide, (fun h => absurd h (by decide)), by simp⟩
  · intro k s h
    simp only [structWith, List.mem_cons, reduceCtorEq, Lead.trivia.injEq, List.not_mem_nil, or_false,
      false_or] at h
    rw [h.1]
    rfl
  · intro a h
    simp only [structWith, List.mem_cons, reduceCtorEq, Lead.attr.injEq, List.not_mem_nil, or_false] at h
    subst h
    exact ⟨_, _, _, rfl, rfl⟩

/-- Without attributes, in version 5, behind a comment: the attribute goes in front of the comment. -/
example : scaleEdit sampleEnv .v5 (structWith [.trivia .comment "/// a", .trivia .whitespace "\n"])
        (fun t => t == .decode) =
      some ⟨0, 0, "#[ink::scale_derive(Encode, TypeInfo)]",
        "#[ink::scale_derive(${1:Encode}, ${2:TypeInfo})]"⟩ := by
  decide +kernel

end Verif.Analyzer.ScaleText
