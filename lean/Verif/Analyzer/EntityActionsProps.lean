import Verif.Analyzer.EntityActions
import Verif.Analyzer.MissingProps
import Verif.Analyzer.OfferProps

/-!
# The actions that add ink! entities add exactly the entity they name (C104)

Specification: `Entity.new` is the entity that is added, `Gap` says what a place between two children of
a list is, `putIn` (in `Verif.Analyzer.MoveLemmas`) is the tree with a node added to a list. `Goes` (in
`Verif.Analyzer.OfferProps`) says where an entity goes if no place is chosen.

The theorems are partial: that the new text is parsed to the tree `putIn` is not part of the model, and
a new name is only free among the names that are considered (`C104_negation_enum`,
`C104_negation_extension`).
-/

namespace Verif.Analyzer.EntityActions

open Verif.Ir Verif.Ir.Token Verif.Analyzer.Move Verif.Analyzer.Missing

/-! ## Specification -/

/-- The range is a place for child `k` among the children of a list that starts at `o`: it is in the
white space (if any) that follows the children before. -/
def Gap (cs : List Src) (o : Nat) (r : Nat × Nat) (k : Nat) : Prop :=
  k ≤ cs.length ∧ ∃ w1 w w2 rest, texts (cs.drop k) = w1 ++ w ++ w2 ++ rest ∧ White (w1 ++ w ++ w2) ∧
    r.1 = o + bytes (texts (cs.take k)) + bytes w1 ∧ r.2 = r.1 + bytes w

/-- Applying the edit puts its text where the tree has `y` added as child `k` of the node at `l`, and
replaces white space only; up to white space, the text is that of `y`. -/
def PutsIn (root : Src) (e : Edit) (l : List Nat) (k : Nat) (y : Src) : Prop :=
  ∃ A w1 w w2 B, White (w1 ++ w ++ w2) ∧ root.text = A ++ (w1 ++ w ++ w2) ++ B ∧
    applyEdit root.text e = some (A ++ w1 ++ e.text ++ w2 ++ B) ∧
    (putIn root l k y).text = A ++ y.text ++ (w1 ++ w ++ w2) ++ B ∧ codeOf e.text = codeOf y.text

/-- The attribute of an entity. -/
def Entity.attr : Entity → Option AttrKind
  | .storage => some (.arg .storage)
  | .event => some (.arg .event)
  | .constructor => some (.arg .constructor)
  | .message | .traitMessage => some (.arg .message)
  | .errorCode => none
  | .extension .v4 => some (.arg .extension)
  | .extension .v5 => some (.arg .function)
  | .test => some (.macro .test)
  | .e2eTest _ => some (.macro .e2eTest)

/-- A function with an id. -/
def newExtension (v : Version) (name : List Char) (id : Nat) : Src :=
  match v with
  | .v4 => annotated .fn (.arg .extension) ("#[ink(extension = ".toList ++ id.repr.toList ++ ")]".toList)
      ("fn ".toList ++ name ++ "();".toList)
  | .v5 => annotated .fn (.arg .function) ("#[ink(function = ".toList ++ id.repr.toList ++ ")]".toList)
      ("fn ".toList ++ name ++ "();".toList)

/-- The signature of a test function behind its name. -/
def e2eRest : Version → List Char
  | .v4 => "(mut client: ink_e2e::Client<C, E>) -> std::result::Result<(), Box<dyn std::error::Error>> {\n    todo!();\n\n    Ok(())\n}".toList
  | .v5 => "<Client: E2EBackend>(mut client: Client) -> std::result::Result<(), Box<dyn std::error::Error>> {\n    todo!();\n\n    Ok(())\n}".toList

/-- The entity with a name and (for extensions) an id. -/
def Entity.new (name : List Char) (id : Nat) : Entity → Src
  | .storage => newStorage name
  | .event => annotated .struct (.arg .event) "#[ink(event)]".toList
      ("pub struct ".toList ++ name ++ " {}".toList)
  | .constructor => newConstructor name
  | .message => newMessage name
  | .traitMessage => newTraitMessage name
  | .errorCode => .node (.item .other) [.tok false "type ErrorCode = ();".toList]
  | .extension v => newExtension v name id
  | .test => annotated .fn (.macro .test) "#[ink::test]".toList
      ("fn ".toList ++ name ++ "() {\n    todo!()\n}".toList)
  | .e2eTest v => annotated .fn (.macro .e2eTest) "#[ink_e2e::test]".toList
      ("async fn ".toList ++ name ++ e2eRest v)

/-- Entities can be added to these items. -/
def Host (root : Src) (c : List Nat) : Entity → Prop
  | .storage | .event | .test | .e2eTest _ => kindAt root c = some (.item .module)
  | .constructor | .message => IsImpl root c
  | .traitMessage | .errorCode | .extension _ => kindAt root c = some (.item .trait)

/-- Where the entity goes among the children of a list. -/
def GoesTo (cs : List Src) (k : Nat) : Entity → Prop
  | .storage => StartSlot cs k
  | .event => Slot .event cs k
  | .errorCode => k = 1
  | .constructor | .message | .traitMessage | .extension _ | .test | .e2eTest _ => EndSlot cs k

/-- The items whose names the entity must not have: for events the `struct`s, for functions of modules
and `impl` blocks the functions in the same list; for functions of traits the messages or extensions. -/
def Rival (root : Src) (c : List Nat) (j : Nat) (p : List Nat) : Entity → Prop
  | .event => (∃ m, p = c ++ [j] ++ [m]) ∧ kindAt root p = some (.item .struct)
  | .constructor | .message | .test | .e2eTest _ =>
    (∃ m, p = c ++ [j] ++ [m]) ∧ kindAt root p = some (.item .fn)
  | .traitMessage => PartOf root (.arg .message) c p ∧ kindAt root p = some (.item .fn)
  | .extension _ => PartOf root (.arg .extension) c p ∧ kindAt root p = some (.item .fn)
  | .storage | .errorCode => False

/-- The name of the entity: that of the contract for storage, and for the others one that no rival has,
if there are not too many of those. -/
def Named (nm : List Nat → Option String) (root : Src) (c : List Nat) (j : Nat) (name : List Char)
    (en : Entity) : Prop :=
  (en = .storage → NameOf nm root c name ∨ (nm c = none ∧ name = "Storage".toList)) ∧
  (Few (fun p => Rival root c j p en) → ∀ p n, Rival root c j p en → nm p = some n → n.toList ≠ name)

/-- The id of the entity: one that no extension has, if one of the 2³² - 1 is free. -/
def Numbered (ids : List Nat → Option Nat) (root : Src) (c : List Nat) (id : Nat) : Entity → Prop
  | .extension _ => 1 ≤ id ∧ id ≤ 4294967295 ∧
    ((∃ free, 1 ≤ free ∧ free ≤ 4294967295 ∧
      ∀ p, PartOf root (.arg .extension) c p → ids p ≠ some free) →
      ∀ p, PartOf root (.arg .extension) c p → ids p ≠ some id)
  | _ => True

/-- The edit adds the entity `y` as child `k` of the list of the item at `c`, which is child `j`. -/
structure Added (root : Src) (c : List Nat) (e : Edit) (j : Nat) (cs : List Src) (k : Nat) (y : Src) :
    Prop where
  list : ItsList root c j
  children : root.at? (c ++ [j]) = some (.node .list cs)
  puts : PutsIn root e (c ++ [j]) k y
  offers : Offers e [] y []
  keeps : Keeps root (c ++ [j]) k y

/-! ## Lemmas -/

theorem putIn_set (root : Src) (l : List Nat) (kd : NKind) (cs : List Src) (k : Nat) (y : Src)
    (h : root.at? l = some (.node kd cs)) :
    putIn root l k y = setAt root l (.node kd (cs.take k ++ y :: cs.drop k)) := by
  induction l generalizing root with
  | nil =>
    simp only [Src.at?, Option.some.injEq] at h
    subst h
    rfl
  | cons i l ih =>
    cases root with
    | tok w t => simp [Src.at?, Src.children] at h
    | node k' ds =>
      simp only [Src.at?, Src.children] at h
      cases hc : ds[i]? with
      | none => simp [hc] at h
      | some d =>
        rw [hc, Option.bind_some] at h
        obtain ⟨a, b, rfl, rfl⟩ := split_index hc
        simp only [putIn, setAt, modify_at]
        rw [ih d h]

theorem put_gap (root : Src) (l : List Nat) (kd : NKind) (cs : List Src) (r : Nat × Nat) (k : Nat)
    (t : Insertion) (y : Src) (h : root.at? l = some (.node kd cs))
    (hg : Gap cs (startAt 0 root l) r k) (hy : codeOf t.plain = codeOf y.text) :
    PutsIn root ⟨t.plain, r.1, r.2, some t.snippet⟩ l k y := by
  obtain ⟨-, w1, w, w2, rest, g1, g2, g3, g4⟩ := hg
  obtain ⟨A, B, h1, h2, h3⟩ := at_split root l _ h
  have h2 := h2 0
  rw [Nat.zero_add] at h2
  have hcs : texts cs = texts (cs.take k) ++ texts (cs.drop k) := by
    rw [← texts_append, List.take_append_drop]
  have ht : root.text = (A ++ texts (cs.take k) ++ w1) ++ w ++ (w2 ++ (rest ++ B)) := by
    rw [h1, Src.text, hcs, g1]
    simp
  refine ⟨A ++ texts (cs.take k), w1, w, w2, rest ++ B, g2, by rw [ht]; simp, ?_, ?_, hy⟩
  · rw [ht]
    have := Header.apply_cut (A ++ texts (cs.take k) ++ w1) w (w2 ++ (rest ++ B))
      ⟨t.plain, r.1, r.2, some t.snippet⟩
      (by simp only [bytes_append]; rw [g3, h2]) (by simp only [bytes_append]; rw [g4, g3, h2])
    simpa using this
  · rw [putIn_set root l kd cs k y h, h3]
    simp [Src.text, texts_append, texts, g1]

theorem gap_of_offset (cs : List Src) (o k : Nat) (off : Nat) (hk : k ≤ cs.length)
    (h : off = o + bytes (texts (cs.take k))) : Gap cs o (off, off) k :=
  ⟨hk, [], [], [], texts (cs.drop k), by simp, (by intro c hc; cases hc), by simp [h, bytes], by simp [bytes]⟩

theorem assocStart_slot (o : Nat) (cs ds : List Src) (hb : cs = .tok false ['{'] :: ds) :
    1 ≤ cs.length ∧ Offer.insertAssocStart o cs = o + bytes (texts (cs.take 1)) := by
  subst hb
  refine ⟨by simp, ?_⟩
  unfold Offer.insertAssocStart
  simp [lCurly, texts, Src.text]

theorem offset_slot (en : Entity) (o : Nat) (cs ds : List Src) (hb : cs = .tok false ['{'] :: ds) :
    ∃ k, GoesTo cs k en ∧ k ≤ cs.length ∧ en.offset o cs = o + bytes (texts (cs.take k)) := by
  cases en with
  | storage => exact start_slot o cs ds hb
  | event => exact scope_slot .event o cs ds hb
  | errorCode => exact ⟨1, rfl, assocStart_slot o cs ds hb⟩
  | constructor => exact assoc_slot o cs ds hb
  | message => exact assoc_slot o cs ds hb
  | traitMessage => exact assoc_slot o cs ds hb
  | extension v => exact assoc_slot o cs ds hb
  | test => exact end_slot o cs ds hb
  | e2eTest v => exact end_slot o cs ds hb

/-- The edit exists exactly if a place is chosen or the item has a list. -/
theorem editAt_some (root : Src) (c : List Nat) (range : Option (Nat × Nat))
    (offset : Nat → List Src → Nat) (t : Insertion) :
    (editAt root c range offset t).isSome = true ↔ range ≠ none ∨ ∃ j, ItsList root c j := by
  unfold editAt
  cases range with
  | some r => simp
  | none =>
    simp only [ne_eq, not_true_eq_false, false_or]
    constructor
    · intro h
      cases hl : listOf root c with
      | none => rw [hl] at h; cases h
      | some l =>
        obtain ⟨j, -, hj⟩ := (listOf_iff root c l).1 hl
        exact ⟨j, hj⟩
    · rintro ⟨j, hj⟩
      obtain ⟨cs, hl⟩ := list_node root (c ++ [j]) hj.list
      rw [(listOf_iff root c (c ++ [j])).2 ⟨j, rfl, hj⟩, Option.bind_some]
      unfold putEdit
      rw [hl]
      rfl

/-- A place for the edit: the chosen one, or the one for the entity. -/
def Place (root : Src) (c : List Nat) (range : Option (Nat × Nat)) (goes : List Src → Nat → Prop)
    (j : Nat) (cs : List Src) (k : Nat) : Prop :=
  match range with
  | some r => Gap cs (startAt 0 root (c ++ [j])) r k
  | none => goes cs k

theorem editAt_adds (root : Src) (c : List Nat) (range : Option (Nat × Nat))
    (offset : Nat → List Src → Nat) (goes : List Src → Nat → Prop) (t : Insertion) (e : Edit) (y : Src)
    (i : List Char) (s : List Char) (hb : Bracketed root)
    (hr : ∀ r, range = some r → ∃ j cs k, ItsList root c j ∧
      root.at? (c ++ [j]) = some (.node .list cs) ∧ Gap cs (startAt 0 root (c ++ [j])) r k)
    (ho : ∀ o cs ds, cs = .tok false ['{'] :: ds →
      ∃ k, goes cs k ∧ k ≤ cs.length ∧ offset o cs = o + bytes (texts (cs.take k)))
    (hws : White i) (hplain : t.plain = applyIndenting y.text i)
    (hsnip : t.snippet = applyIndenting s i) (hag : Insertion.Agrees ⟨y.text, s⟩)
    (hy : ∀ a, y.kind? ≠ some (.attr a)) (he : editAt root c range offset t = some e) :
    (∃ j cs k, Added root c e j cs k y ∧ Place root c range goes j cs k ∧ k ≤ cs.length) ∧
    ∀ r, range = some r → (e.start, e.stop) = r := by
  have hcode : codeOf t.plain = codeOf y.text := by rw [hplain, (C32_code _ _ hws).1]
  unfold editAt at he
  cases range with
  | some r =>
    simp only [Option.some.injEq] at he
    subst he
    obtain ⟨j, cs, k, h1, h2, h3⟩ := hr r rfl
    refine ⟨⟨j, cs, k, ⟨h1, h2, put_gap root _ _ cs r k t y h2 h3 hcode, ?_,
      keeps_of h2 h3.1 hy⟩, h3, h3.1⟩, fun r' h => by cases h; rfl⟩
    exact ⟨i, s, hws, by simp [hplain], by simp [hsnip], hag⟩
  | none =>
    refine ⟨?_, fun r h => by cases h⟩
    simp only [Option.bind_eq_some_iff, listOf_iff] at he
    obtain ⟨l, ⟨j, rfl, hj⟩, he⟩ := he
    obtain ⟨cs, hl⟩ := list_node root (c ++ [j]) hj.list
    obtain ⟨ds, hds⟩ := hb _ cs hl
    obtain ⟨k, h1, h2, h3⟩ := ho (startAt 0 root (c ++ [j])) cs ds hds
    unfold putEdit at he
    rw [hl, Option.map_some, Option.some.injEq] at he
    simp only [Src.children] at he
    subst he
    refine ⟨j, cs, k, ⟨hj, hl, put_gap root _ _ cs (_, _) k t y hl
      (gap_of_offset cs _ k _ h2 h3) hcode, ?_, keeps_of hl h2 hy⟩, h1, h2⟩
    exact ⟨i, s, hws, by simp [hplain], by simp [hsnip], hag⟩

/-! ## Names and texts -/

theorem event_plain (used : List String) : (eventInsertion used).plain =
    (Entity.new (suggestName "Event" used).toList 0 .event).text := by
  unfold Entity.new
  rw [annotated_text]
  simp only [eventInsertion, uniqueInsertion, uniqueText]
  rw [replaced _ _ (chars! "#[ink(event)]\npub struct ") (chars! " {}") _ (by decide)
    (by decide +kernel) (by decide +kernel)]
  rw [show chars! "#[ink(event)]\npub struct " =
    "#[ink(event)]".toList ++ '\n' :: "pub struct ".toList by decide]
  simp

theorem test_plain (used : List String) : (testInsertion used).plain =
    (Entity.new (suggestName "it_works" used).toList 0 .test).text := by
  unfold Entity.new
  rw [annotated_text]
  simp only [testInsertion, uniqueInsertion, uniqueText]
  rw [replaced _ _ (chars! "#[ink::test]\nfn ") (chars! "() {\n    todo!()\n}") _ (by decide)
    (by decide +kernel) (by decide +kernel)]
  rw [show chars! "#[ink::test]\nfn " = "#[ink::test]".toList ++ '\n' :: "fn ".toList by decide]
  simp

theorem e2eTest_plain (v : Version) (used : List String) : (e2eTestInsertion v used).plain =
    (Entity.new (suggestName "it_works" used).toList 0 (.e2eTest v)).text := by
  unfold Entity.new
  rw [annotated_text]
  simp only [e2eTestInsertion, uniqueInsertion, uniqueText]
  cases v
  · rw [replaced _ _ (chars! "#[ink_e2e::test]\nasync fn ") (e2eRest .v4) _ (by decide)
      (by decide +kernel) (by decide +kernel)]
    rw [show chars! "#[ink_e2e::test]\nasync fn " =
      "#[ink_e2e::test]".toList ++ '\n' :: "async fn ".toList by decide]
    simp
  · rw [replaced _ _ (chars! "#[ink_e2e::test]\nasync fn ") (e2eRest .v5) _ (by decide)
      (by decide +kernel) (by decide +kernel)]
    rw [show chars! "#[ink_e2e::test]\nasync fn " =
      "#[ink_e2e::test]".toList ++ '\n' :: "async fn ".toList by decide]
    simp

theorem suggested_id (ids : List Nat) : 1 ≤ (suggestId 4294967295 none ids).getD 1 ∧
    (suggestId 4294967295 none ids).getD 1 ≤ 4294967295 ∧
    ((∃ free, 1 ≤ free ∧ free ≤ 4294967295 ∧ free ∉ ids) →
      (suggestId 4294967295 none ids).getD 1 ∉ ids) := by
  cases hs : suggestId 4294967295 none ids with
  | none =>
    refine ⟨by simp, by simp, ?_⟩
    rintro ⟨f, h1, h2, h3⟩
    exact absurd ((C30_exhausted 4294967295 none ids (by simp)).1 hs f (by simpa using h1) h2) h3
  | some i =>
    have := C30_fresh 4294967295 none ids i (by simp) hs
    simp only [Option.getD_some]
    exact ⟨by simpa using this.2.2.1, this.2.1, fun _ => this.1⟩

/-- The preferred name of a function with an id. -/
def preferred : Version → String
  | .v5 => "my_function"
  | .v4 => "my_extension"

theorem preferred_cases (v : Version) : preferred v = "my_function" ∨ preferred v = "my_extension" := by
  cases v
  · exact .inr rfl
  · exact .inl rfl

theorem extensionText_eq (v : Version) (names : List String) (ids : List Nat) :
    extensionText v names ids = extensionTexts v (suggestName (preferred v) names).toList
      ((suggestId 4294967295 none ids).getD 1) := by
  cases v <;> rfl

theorem extension_plain (v : Version) (names : List String) (ids : List Nat) :
    (extensionText v names ids).plain = (Entity.new (suggestName (preferred v) names).toList
      ((suggestId 4294967295 none ids).getD 1) (.extension v)).text := by
  have hb : ']' ∉ (suggestName (preferred v) names).toList := by
    intro hm
    rcases mem_suggestName _ names _ hm with h | h
    · revert h
      cases v <;> decide
    · revert h; decide
  rw [extensionText_eq, extensionTexts_eq v _ _ hb (suggested_id ids).1]
  generalize (suggestId 4294967295 none ids).getD 1 = id
  generalize (suggestName (preferred v) names).toList = name
  have e1 : chars! ")]\nfn " = ")]".toList ++ '\n' :: "fn ".toList := by decide
  cases v
  · simp only [Entity.new, newExtension]
    rw [annotated_text, e1, show "#[ink(extension = ".toList =
      chars! "#[ink(" ++ chars! "extension" ++ chars! " = " by decide]
    simp
  · simp only [Entity.new, newExtension]
    rw [annotated_text, e1, show "#[ink(function = ".toList =
      chars! "#[ink(" ++ chars! "function" ++ chars! " = " by decide]
    simp

/-- The items of a kind in the list have the names collected, and there are not more names. -/
theorem itemNames_spec (k : IKind) (nm : List Nat → Option String) (root : Src) (c : List Nat) (j : Nat)
    (hj : ItsList root c j) : ∃ ps : List (List Nat), ps.Nodup ∧
      (∀ p, p ∈ ps ↔ (∃ m, p = c ++ [j] ++ [m]) ∧ kindAt root p = some (.item k)) ∧
      itemNames k nm root c = ps.filterMap nm := by
  obtain ⟨cs, hl⟩ := list_node root (c ++ [j]) hj.list
  refine ⟨((List.range cs.length).map fun m => c ++ [j] ++ [m]).filter fun p =>
    kindAt root p == some (.item k), ?_, ?_, ?_⟩
  · refine List.Pairwise.filter _ (List.pairwise_map.2 ?_)
    refine List.nodup_range.imp ?_
    intro a b hab h
    exact hab (by simpa using h)
  · intro p
    rw [List.mem_filter, List.mem_map, beq_iff_eq]
    constructor
    · rintro ⟨⟨m, -, rfl⟩, h⟩
      exact ⟨⟨m, rfl⟩, h⟩
    · rintro ⟨⟨m, rfl⟩, h⟩
      refine ⟨⟨m, List.mem_range.2 ?_, rfl⟩, h⟩
      rcases Nat.lt_or_ge m cs.length with h' | h'
      · exact h'
      · rw [kindAt_child root _ _ m hl] at h
        simp only [Src.children] at h
        rw [List.getElem?_eq_none h'] at h
        cases h
  · unfold itemNames
    rw [(listOf_iff root c (c ++ [j])).2 ⟨j, rfl, hj⟩]
    simp only [hl, Src.children]

theorem implFnNames_eq (nm : List Nat → Option String) (root : Src) (c : List Nat) :
    implFnNames nm root c = itemNames .fn nm root c := rfl

theorem suggestName_congr (pref : String) (used used' : List String) (h : ∀ n, n ∈ used ↔ n ∈ used') :
    suggestName pref used = suggestName pref used' := by
  have : ∀ fuel name, suggestNameLoop pref used fuel name = suggestNameLoop pref used' fuel name := by
    intro fuel
    induction fuel with
    | zero => intro name; simp only [suggestNameLoop, h]
    | succ fuel ih => intro name; simp only [suggestNameLoop, h, ih]
  exact this _ _

theorem nodup_list {α : Type} (l : List α) : ∃ m : List α, m.Nodup ∧ ∀ x, x ∈ m ↔ x ∈ l := by
  induction l with
  | nil => exact ⟨[], List.nodup_nil, fun _ => Iff.rfl⟩
  | cons a l ih =>
    obtain ⟨m, h1, h2⟩ := ih
    by_cases ha : a ∈ l
    · refine ⟨m, h1, fun x => ?_⟩
      rw [h2, List.mem_cons]
      exact ⟨.inr, fun h => h.elim (fun e => e ▸ ha) id⟩
    · refine ⟨a :: m, List.nodup_cons.2 ⟨fun h => ha ((h2 a).1 h), h1⟩, fun x => ?_⟩
      rw [List.mem_cons, List.mem_cons, h2]

/-- A name that is suggested with the names of nodes taken is none of these. -/
theorem fresh (pref : String) (nm : List Nat → Option String) (ps : List (List Nat)) (P : List Nat → Prop)
    (hP : ∀ p, p ∈ ps ↔ P p) (hfew : Few P) (p : List Nat) (n : String) (hp : P p)
    (h : nm p = some n) : n.toList ≠ (suggestName pref (ps.filterMap nm)).toList := by
  intro he
  have he := String.toList_inj.1 he
  obtain ⟨qs, hq1, hq2⟩ := nodup_list ps
  have hlen := hfew qs hq1 fun q hq => (hP q).1 ((hq2 q).1 hq)
  have := C31_fresh_partial pref (qs.filterMap nm)
    (Nat.lt_of_le_of_lt (List.length_filterMap_le _ _) hlen)
  rw [suggestName_congr pref (qs.filterMap nm) (ps.filterMap nm) (by
    intro n
    simp only [List.mem_filterMap, hq2]), ← he] at this
  exact this (List.mem_filterMap.2 ⟨p, (hq2 p).2 ((hP p).2 hp), h⟩)

theorem fnNames_filter (nm : List Nat → Option String) (root : Src) (k : AttrKind) (c : List Nat) :
    ∃ ps : List (List Nat), (∀ p, p ∈ ps ↔ PartOf root k c p ∧ kindAt root p = some (.item .fn)) ∧
      fnNames nm root (below k root c) = ps.filterMap nm := by
  refine ⟨_, fun p => ?_, rfl⟩
  rw [List.mem_filter, below_iff, beq_iff_eq]

theorem contractName_none (nm : List Nat → Option String) (root : Src) (c : List Nat)
    (hm : kindAt root c = some (.item .module)) (h : contractName nm root c = none) : nm c = none := by
  cases hn : nm c with
  | none => rfl
  | some n =>
    obtain ⟨name, hname⟩ := contractName_some nm root c hm (by rw [hn]; exact fun h => by cases h)
    rw [h] at hname
    cases hname

theorem contractName_from (nm : List Nat → Option String) (root : Src) (c : List Nat) (name : List Char)
    (h : contractName nm root c = some name) :
    ∃ p n, nm p = some n ∧ (name = n.toList ∨ name = pascalCase n.toList) := by
  unfold contractName at h
  rw [Option.or_eq_some_iff] at h
  rcases h with h | ⟨-, h⟩
  · simp only [Option.map_eq_some_iff, Option.bind_eq_some_iff] at h
    obtain ⟨n, ⟨p, -, hp⟩, rfl⟩ := h
    exact ⟨p, n, hp, .inl rfl⟩
  · split at h
    · simp only [Option.map_eq_some_iff] at h
      obtain ⟨n, hn, rfl⟩ := h
      exact ⟨c, n, hn, .inr rfl⟩
    · cases h

/-- Names have no characters special in snippets. -/
def CleanNames (nm : List Nat → Option String) : Prop :=
  ∀ p n, nm p = some n → (Clean n.toList ∧ n.toList ≠ []) ∧
    Clean (pascalCase n.toList) ∧ pascalCase n.toList ≠ []

theorem host_iff (root : Src) (c : List Nat) (en : Entity) :
    (∃ k, kindAt root c = some (.item k) ∧ en.host k = true) ↔ Host root c en := by
  have h1 : ∀ m : IKind, (∃ k, kindAt root c = some (.item k) ∧ (k == m) = true) ↔
      kindAt root c = some (.item m) := by
    intro m
    constructor
    · rintro ⟨k, h, hk⟩
      rw [h, beq_iff_eq.1 hk]
    · intro h
      exact ⟨m, h, beq_self_eq_true m⟩
  have h2 : (∃ k, kindAt root c = some (.item k) ∧ k.isImpl = true) ↔ IsImpl root c := by
    constructor
    · rintro ⟨k, h, hk⟩
      cases k with
      | impl t => exact ⟨t, h⟩
      | _ => cases hk
    · rintro ⟨t, h⟩
      exact ⟨_, h, rfl⟩
  cases en with
  | storage => exact h1 _
  | event => exact h1 _
  | test => exact h1 _
  | e2eTest v => exact h1 _
  | constructor => exact h2
  | message => exact h2
  | traitMessage => exact h1 _
  | errorCode => exact h1 _
  | extension v => exact h1 _

theorem add_eq (nm : List Nat → Option String) (ids : List Nat → Option Nat) (root : Src) (c : List Nat)
    (range : Option (Nat × Nat)) (en : Entity) :
    (Host root c en → add nm ids root c range en = editAt root c range en.offset
      ((en.insertion nm ids root c).withIndent (en.indent root c))) ∧
    (¬ Host root c en → add nm ids root c range en = none) := by
  rw [← host_iff]
  unfold add
  constructor
  · rintro ⟨k, h1, h2⟩
    rw [h1]
    simp only [h2, if_true]
  · intro h
    split
    · rename_i k hk
      rw [if_neg]
      intro h2
      exact h ⟨k, hk, h2⟩
    · rfl

theorem errorCode_plain : errorCodeInsertion.plain = (Entity.new [] 0 .errorCode).text := by
  decide +kernel

/-- What is known of the text for an entity. -/
structure Filled (nm : List Nat → Option String) (ids : List Nat → Option Nat) (root : Src)
    (c : List Nat) (en : Entity) (name : List Char) (id : Nat) : Prop where
  plain : (en.insertion nm ids root c).plain = (en.new name id).text
  agrees : (en.insertion nm ids root c).Agrees
  named : ∀ j, ItsList root c j → Named nm root c j name en
  numbered : Numbered ids root c id en

theorem filled (nm : List Nat → Option String) (ids : List Nat → Option Nat) (root : Src)
    (c : List Nat) (en : Entity) (hn : en = .storage → CleanNames nm) (hh : Host root c en) :
    ∃ name id, Filled nm ids root c en name id := by
  have items : ∀ (en' : Entity) (k : IKind) (pref : String), en' ≠ .storage →
      (∀ j p, Rival root c j p en' ↔ (∃ m, p = c ++ [j] ++ [m]) ∧ kindAt root p = some (.item k)) →
      ∀ j, ItsList root c j →
        Named nm root c j (suggestName pref (itemNames k nm root c)).toList en' := by
    intro en' k pref hs hr j hj
    refine ⟨fun h => absurd h hs, ?_⟩
    intro hfew p n hp h
    obtain ⟨ps, -, h2, h3⟩ := itemNames_spec k nm root c j hj
    rw [h3]
    exact fresh pref nm ps _ (fun p => (h2 p).trans (hr j p).symm) hfew p n hp h
  have parts : ∀ (en' : Entity) (a : AttrKind) (pref : String), en' ≠ .storage →
      (∀ j p, Rival root c j p en' ↔ PartOf root a c p ∧ kindAt root p = some (.item .fn)) →
      ∀ j, Named nm root c j (suggestName pref (fnNames nm root (below a root c))).toList en' := by
    intro en' a pref hs hr j
    refine ⟨fun h => absurd h hs, ?_⟩
    intro hfew p n hp h
    obtain ⟨ps, h2, h3⟩ := fnNames_filter nm root a c
    rw [h3]
    exact fresh pref nm ps _ (fun p => (h2 p).trans (hr j p).symm) hfew p n hp h
  cases en with
  | storage =>
    have none_named : ∀ j name, (NameOf nm root c name ∨ (nm c = none ∧ name = "Storage".toList)) →
        Named nm root c j name .storage := by
      intro j name h
      exact ⟨fun _ => h, fun _ p n hp => hp.elim⟩
    cases hc : contractName nm root c with
    | none =>
      refine ⟨"Storage".toList, 0, ⟨?_, ?_, fun j _ => none_named j _
        (.inr ⟨contractName_none nm root c hh hc, rfl⟩), trivial⟩⟩
      · simp only [Entity.insertion, hc]
        decide +kernel
      · simp only [Entity.insertion, hc]
        exact (fits_of_offered _ .namelessStorage).agrees
    | some name =>
      refine ⟨name, 0, ⟨?_, ?_, fun j _ => none_named j _ (.inl (contractName_spec nm root c name hc)),
        trivial⟩⟩
      · simp only [Entity.insertion, hc]
        exact storage_plain name
      · simp only [Entity.insertion, hc]
        obtain ⟨p, n, h1, h2⟩ := contractName_from nm root c name hc
        have := hn rfl p n h1
        rcases h2 with rfl | rfl
        · exact (fits_of_offered _ (.storage _ this.1.1 this.1.2)).agrees
        · exact (fits_of_offered _ (.storage _ this.2.1 this.2.2)).agrees
  | event => exact ⟨_, 0, ⟨event_plain _, (fits_of_offered _ (.event _)).agrees,
      items .event .struct "Event" (by decide) (fun j p => Iff.rfl), trivial⟩⟩
  | constructor => exact ⟨_, 0, ⟨constructor_plain _, (fits_of_offered _ (.constructor _)).agrees,
      items .constructor .fn "new" (by decide) (fun j p => Iff.rfl), trivial⟩⟩
  | message => exact ⟨_, 0, ⟨message_plain _, (fits_of_offered _ (.message _)).agrees,
      items .message .fn "my_message" (by decide) (fun j p => Iff.rfl), trivial⟩⟩
  | traitMessage => exact ⟨_, 0, ⟨traitMessage_plain _, (fits_of_offered _ (.traitMessage _)).agrees,
      fun j _ => parts .traitMessage (.arg .message) "my_message" (by decide) (fun j p => Iff.rfl) j,
      trivial⟩⟩
  | errorCode =>
    exact ⟨[], 0, ⟨errorCode_plain, (fits_of_offered _ .errorCode).agrees,
      fun j _ => ⟨fun h => (by cases h), fun _ p n hp => hp.elim⟩, trivial⟩⟩
  | extension v =>
    refine ⟨_, _, ⟨extension_plain v _ _, ?_, fun j _ => parts (.extension v) (.arg .extension) _
      (by intro h; cases h) (fun j p => Iff.rfl) j, ?_⟩⟩
    · simp only [Entity.insertion]
      rw [extensionText_eq]
      exact (fits_extensionTexts v _ _ _ (preferred_cases v) (suggested_id _).1).agrees
    · obtain ⟨h1, h2, h3⟩ := suggested_id ((below (.arg .extension) root c).filterMap ids)
      refine ⟨h1, h2, ?_⟩
      rintro ⟨free, f1, f2, f3⟩ p hp he
      refine h3 ⟨free, f1, f2, ?_⟩ (List.mem_filterMap.2 ⟨p, (below_iff root _ c p).2 hp, he⟩)
      intro hm
      obtain ⟨q, hq, hf⟩ := List.mem_filterMap.1 hm
      exact f3 q ((below_iff root _ c q).1 hq) hf
  | test => exact ⟨_, 0, ⟨test_plain _, (fits_of_offered _ (.test _)).agrees,
      items .test .fn "it_works" (by decide) (fun j p => Iff.rfl), trivial⟩⟩
  | e2eTest v => exact ⟨_, 0, ⟨e2eTest_plain v _, (fits_of_offered _ (.e2eTest v _)).agrees,
      items (.e2eTest v) .fn "it_works" (by intro h; cases h) (fun j p => Iff.rfl), trivial⟩⟩

theorem new_kind (name : List Char) (id : Nat) (en : Entity) (a : Option AttrKind) :
    (en.new name id).kind? ≠ some (.attr a) := by
  cases en with
  | errorCode => simp [Entity.new, Src.kind?]
  | extension v => cases v <;> exact annotated_kind _ _ _ _ _
  | _ => exact annotated_kind _ _ _ _ _

theorem new_marked (name : List Char) (id : Nat) (en : Entity) (a : AttrKind)
    (h : en.attr = some a) : Marked (en.new name id) a [] := by
  cases en with
  | errorCode => cases h
  | extension v =>
    cases v <;> (cases h; exact annotated_marked _ _ _ _)
  | _ => cases h; exact annotated_marked _ _ _ _

theorem indent_spec (nm : List Nat → Option String) (ids : List Nat → Option Nat) (root : Src)
    (c : List Nat) (en : Entity) : ∃ i, White i ∧
      ((en.insertion nm ids root c).withIndent (en.indent root c)).plain =
        applyIndenting (en.insertion nm ids root c).plain i ∧
      ((en.insertion nm ids root c).withIndent (en.indent root c)).snippet =
        applyIndenting (en.insertion nm ids root c).snippet i := by
  refine ⟨itemChildrenIndenting (wsBefore root c), ws_children _, ?_⟩
  unfold Entity.indent
  simp only
  split
  · rename_i h
    have : itemChildrenIndenting (wsBefore root c) = [] := by simpa using h.2
    rw [this]
    exact ⟨rfl, rfl⟩
  · exact ⟨rfl, rfl⟩

/-! ## C104 -/

/-- An entity can be added exactly to the items it belongs in, where a place is chosen or they have a
list. -/
theorem C104_offered (nm : List Nat → Option String) (ids : List Nat → Option Nat) (root : Src)
    (c : List Nat) (range : Option (Nat × Nat)) (en : Entity) :
    (add nm ids root c range en).isSome = true ↔
      Host root c en ∧ (range ≠ none ∨ ∃ j, ItsList root c j) := by
  obtain ⟨h1, h2⟩ := add_eq nm ids root c range en
  by_cases hh : Host root c en
  · rw [h1 hh, editAt_some]
    simp [hh]
  · rw [h2 hh]
    simp [hh]

/-- The edit adds the entity, at the chosen place or else where it goes in the list of the item. Its name
is free among the rivals, and its id among the extensions; afterwards it belongs to the item, and nothing
that was there is gone. -/
theorem C104_adds_partial (nm : List Nat → Option String) (ids : List Nat → Option Nat) (root : Src)
    (c : List Nat) (range : Option (Nat × Nat)) (en : Entity) (e : Edit) (hb : Bracketed root)
    (hn : en = .storage → CleanNames nm)
    (hr : ∀ r, range = some r → ∃ j cs k, ItsList root c j ∧
      root.at? (c ++ [j]) = some (.node .list cs) ∧ Gap cs (startAt 0 root (c ++ [j])) r k)
    (he : add nm ids root c range en = some e) :
    ∃ j cs k name id, Added root c e j cs k (en.new name id) ∧ (range = none → GoesTo cs k en) ∧
      (∀ r, range = some r → (e.start, e.stop) = r ∧ Gap cs (startAt 0 root (c ++ [j])) r k) ∧
      Named nm root c j name en ∧ Numbered ids root c id en ∧
      ∀ a, en.attr = some a → Bare root (c ++ [j]) →
        PartOf (putIn root (c ++ [j]) k (en.new name id)) a c (c ++ [j] ++ [k]) := by
  obtain ⟨h1, h2⟩ := add_eq nm ids root c range en
  by_cases hh : Host root c en
  · rw [h1 hh] at he
    obtain ⟨name, id, hf⟩ := filled nm ids root c en hn hh
    obtain ⟨i, i1, i2, i3⟩ := indent_spec nm ids root c en
    obtain ⟨⟨j, cs, k, g1, g2, g4⟩, g3⟩ := editAt_adds root c range en.offset
      (fun cs k => GoesTo cs k en) _ e (en.new name id) i (en.insertion nm ids root c).snippet hb hr
      (fun o cs ds h => offset_slot en o cs ds h) i1 (by rw [i2, hf.plain]) i3
      (by rw [← hf.plain]; exact hf.agrees) (new_kind name id en) he
    refine ⟨j, cs, k, name, id, g1, ?_, ?_, hf.named j g1.list, hf.numbered, ?_⟩
    · rintro rfl
      exact g2
    · rintro r rfl
      exact ⟨g3 r rfl, g2⟩
    · intro a ha hbare
      exact part_added g1.children g4 (new_kind name id en) a (new_marked name id en a ha) hbare
  · rw [h2 hh] at he
    cases he

/-! ### Constructors and messages of contracts -/

/-- What an action that adds a constructor or message `y` (with attribute `a`) at the range does, if
`i` is the `impl` block around the range. -/
def AddsIn (root : Src) (c i : List Nat) (e : Edit) (r : Nat × Nat) (a : AttrKind) (y : Src) : Prop :=
  ∃ j cs k, Added root i e j cs k y ∧ Gap cs (startAt 0 root (i ++ [j])) r k ∧
    (BareLists root → Bare root i ∨ ImplLike root i → Within root c i →
      CallableOf (putIn root (i ++ [j]) k y) a c (i ++ [j] ++ [k]))

/-- What it does if there is no such `impl` block: it adds one of the contract. -/
def AddsNew (nm : List Nat → Option String) (root : Src) (c : List Nat) (e : Edit) (r : Nat × Nat)
    (a : AttrKind) (y : Src) : Prop :=
  ∃ j cs k name ind, ItsList root c j ∧ root.at? (c ++ [j]) = some (.node .list cs) ∧
    Gap cs (startAt 0 root (c ++ [j])) r k ∧ NameOf nm root c name ∧
    PutsIn root e (c ++ [j]) k (newImpl name y) ∧ White ind ∧
    Offers e (ind ++ "impl ".toList ++ name ++ " {\n".toList) y ('\n' :: ind ++ ['}']) ∧
    Keeps root (c ++ [j]) k (newImpl name y) ∧
    (BareLists root →
      CallableOf (putIn root (c ++ [j]) k (newImpl name y)) a c (c ++ [j] ++ [k] ++ [4, 1]))

/-- The place is in the list of the item. -/
def PlaceIn (root : Src) (c : List Nat) (r : Nat × Nat) : Prop :=
  ∃ j cs k, ItsList root c j ∧ root.at? (c ++ [j]) = some (.node .list cs) ∧
    Gap cs (startAt 0 root (c ++ [j])) r k

theorem addCallableAt_adds (nm : List Nat → Option String) (implements : List Nat → Bool)
    (around : Nat × Nat → Option (List Nat)) (root : Src) (c : List Nat) (r : Nat × Nat) (t : Insertion)
    (e : Edit) (a : AttrKind) (y : Src) (hb : Bracketed root)
    (hc : kindAt root c = some (.item .module)) (hn : nm c ≠ none)
    (hr : ∀ i, around r = some i → PlaceIn root i r) (hr' : around r = none → PlaceIn root c r)
    (hy : ∀ b, y.kind? ≠ some (.attr b)) (hmark : Marked y a []) (hplain : t.plain = y.text)
    (hag : t.Agrees) (he : addCallableAt nm implements around root c (some r) t = some e) :
    (e.start, e.stop) = r ∧ (∀ i, around r = some i → AddsIn root c i e r a y) ∧
      (around r = none → AddsNew nm root c e r a y) := by
  unfold addCallableAt at he
  rw [Option.bind_some] at he
  cases har : around r with
  | some i =>
    rw [har] at he
    simp only at he
    have hws := ws_children (wsBefore root i)
    obtain ⟨⟨j, cs, k, g1, g2, g3⟩, g4⟩ := editAt_adds root i (some r) insertAssocEnd
      (fun cs k => EndSlot cs k) _ e y (itemChildrenIndenting (wsBefore root i)) t.snippet hb
      (fun r' h => by cases h; exact hr i har) (fun o cs ds h => assoc_slot o cs ds h) hws
      (by rw [← hplain]; rfl) rfl (by rw [← hplain]; exact hag) hy he
    refine ⟨g4 r rfl, fun i' h => ?_, fun h => (by cases h)⟩
    cases h
    exact ⟨j, cs, k, g1, g2, callable_in_impl g1.list g1.children g3 hy hmark⟩
  | none =>
    rw [har] at he
    simp only at he
    obtain ⟨name, hname⟩ := contractName_some nm root c hc hn
    rw [hc, if_pos (by simp), hname] at he
    simp only [Option.some.injEq] at he
    have hws := ws_children (wsBefore root c)
    have hws4 : White (itemChildrenIndenting (wsBefore root c) ++ "    ".toList) := by
      intro d hd
      rcases List.mem_append.1 hd with hd | hd
      · exact hws d hd
      · exact (by decide : ∀ d ∈ "    ".toList, isWs d = true) d hd
    have hyi : ∀ b, (newImpl name y).kind? ≠ some (.attr b) := by
      intro b
      simp [newImpl, Src.kind?]
    obtain ⟨j, cs, k, h1, h2, h3⟩ := hr' har
    have hcode := newImpl_code name _ (applyIndenting t.plain
      (itemChildrenIndenting (wsBefore root c) ++ "    ".toList)) y hws (by
        rw [(C32_code _ _ hws4).1, hplain])
    subst he
    refine ⟨rfl, fun i h => (by cases h), fun _ => ⟨j, cs, k, name,
      itemChildrenIndenting (wsBefore root c), h1, h2, h3, contractName_spec nm root c name hname,
      put_gap root _ _ cs r k _ _ h2 h3 hcode, hws, ?_, keeps_of h2 h3.1 hyi,
      callable_in_new h1 h2 h3.1 hy hmark⟩⟩
    refine ⟨_, t.snippet, hws4, ?_, ?_, ?_⟩
    · rw [← hplain]
      rfl
    · rfl
    · rw [← hplain]
      exact hag

/-- A name no constructor and no message of the contract has, if there are not too many of those. -/
def FreeOf (nm : List Nat → Option String) (root : Src) (c : List Nat) (name : List Char) : Prop :=
  Few (fun p => CallableOf root (.arg .constructor) c p ∨ CallableOf root (.arg .message) c p) →
    ∀ p n, CallableOf root (.arg .constructor) c p ∨ CallableOf root (.arg .message) c p →
      kindAt root p = some (.item .fn) → nm p = some n → n.toList ≠ name

theorem contractFnNames_free (nm : List Nat → Option String) (root : Src) (c : List Nat)
    (pref : String) : FreeOf nm root c (suggestName pref (contractFnNames nm root c)).toList := by
  intro hfew p n hp hk hn
  unfold contractFnNames fnNames
  refine fresh pref nm _ (fun p => (CallableOf root (.arg .constructor) c p ∨
    CallableOf root (.arg .message) c p) ∧ kindAt root p = some (.item .fn)) ?_ ?_ p n ⟨hp, hk⟩ hn
  · intro q
    rw [List.mem_filter, List.mem_append, callables_iff root _ (.inl rfl), callables_iff root _ (.inr rfl),
      beq_iff_eq]
  · intro L h1 h2
    exact hfew L h1 fun q hq => (h2 q hq).1

/-- Adding a constructor to a contract at a chosen place: it goes to the `impl` block around the place,
or else to a new one there, and it belongs to the contract afterwards. Its name is free among the
constructors and messages, and nothing that was there is gone. -/
theorem C104_constructor_partial (nm : List Nat → Option String) (implements : List Nat → Bool)
    (around : Nat × Nat → Option (List Nat)) (root : Src) (c : List Nat) (r : Nat × Nat) (e : Edit)
    (hb : Bracketed root) (hc : kindAt root c = some (.item .module)) (hn : nm c ≠ none)
    (hr : ∀ i, around r = some i → PlaceIn root i r) (hr' : around r = none → PlaceIn root c r)
    (he : addConstructorAt nm implements around root c (some r) = some e) :
    (e.start, e.stop) = r ∧ ∃ name, FreeOf nm root c name ∧
      (∀ i, around r = some i → AddsIn root c i e r (.arg .constructor) (newConstructor name)) ∧
      (around r = none → AddsNew nm root c e r (.arg .constructor) (newConstructor name)) := by
  obtain ⟨h1, h2, h3⟩ := addCallableAt_adds nm implements around root c r _ e (.arg .constructor) _ hb hc
    hn hr hr' (annotated_kind _ _ _ _) (annotated_marked _ _ _ _) (constructor_plain _)
    (fits_of_offered _ (.constructor _)).agrees he
  exact ⟨h1, _, contractFnNames_free nm root c "new", h2, h3⟩

/-- The same for a message. -/
theorem C104_message_partial (nm : List Nat → Option String) (implements : List Nat → Bool)
    (around : Nat × Nat → Option (List Nat)) (root : Src) (c : List Nat) (r : Nat × Nat) (e : Edit)
    (hb : Bracketed root) (hc : kindAt root c = some (.item .module)) (hn : nm c ≠ none)
    (hr : ∀ i, around r = some i → PlaceIn root i r) (hr' : around r = none → PlaceIn root c r)
    (he : addMessageAt nm implements around root c (some r) = some e) :
    (e.start, e.stop) = r ∧ ∃ name, FreeOf nm root c name ∧
      (∀ i, around r = some i → AddsIn root c i e r (.arg .message) (newMessage name)) ∧
      (around r = none → AddsNew nm root c e r (.arg .message) (newMessage name)) := by
  obtain ⟨h1, h2, h3⟩ := addCallableAt_adds nm implements around root c r _ e (.arg .message) _ hb hc
    hn hr hr' (annotated_kind _ _ _ _) (annotated_marked _ _ _ _) (message_plain _)
    (fits_of_offered _ (.message _)).agrees he
  exact ⟨h1, _, contractFnNames_free nm root c "my_message", h2, h3⟩

/-- Without a chosen place, a constructor or message goes where the fixes of missing ones put it, with a
name that is free among all constructors and messages. -/
theorem C104_callable_default_partial (nm : List Nat → Option String) (implements : List Nat → Bool)
    (around : Nat × Nat → Option (List Nat)) (root : Src) (c : List Nat) (hb : Bracketed root)
    (hc : kindAt root c = some (.item .module)) :
    (∀ e, addConstructorAt nm implements around root c none = some e → ∃ name, FreeOf nm root c name ∧
      Adds nm implements root c e (.arg .constructor) (newConstructor name)) ∧
    (∀ e, addMessageAt nm implements around root c none = some e → ∃ name, FreeOf nm root c name ∧
      Adds nm implements root c e (.arg .message) (newMessage name)) ∧
    ((∃ j, ModuleList root c j) → nm c ≠ none →
      (addConstructorAt nm implements around root c none).isSome = true ∧
      (addMessageAt nm implements around root c none).isSome = true) := by
  have heq : ∀ t, addCallableAt nm implements around root c none t =
      addCallable nm implements root c t := by
    intro t
    unfold addCallableAt
    rfl
  refine ⟨?_, ?_, ?_⟩
  · intro e he
    unfold addConstructorAt at he
    rw [heq] at he
    exact ⟨_, contractFnNames_free nm root c "new", addCallable_adds nm implements root c _ e _ _ _ _ hb
      hc (constructor_plain _) (fits_of_offered _ (.constructor _)).agrees he⟩
  · intro e he
    unfold addMessageAt at he
    rw [heq] at he
    exact ⟨_, contractFnNames_free nm root c "my_message", addCallable_adds nm implements root c _ e _ _
      _ _ hb hc (message_plain _) (fits_of_offered _ (.message _)).agrees he⟩
  · intro hm hn
    unfold addConstructorAt addMessageAt
    rw [heq, heq]
    obtain ⟨e1, h1⟩ := addCallable_some nm implements root c
      (constructorInsertion (contractFnNames nm root c)) hm hn
    obtain ⟨e2, h2⟩ := addCallable_some nm implements root c
      (messageInsertion (contractFnNames nm root c)) hm hn
    rw [h1, h2]
    exact ⟨rfl, rfl⟩

/-! ### Places -/

theorem prefix_bytes (a p u v : List Char) (h : a ++ u = p ++ v) (hle : bytes p ≤ bytes a) :
    ∃ m, a = p ++ m ∧ v = m ++ u := by
  rcases List.append_eq_append_iff.1 h with ⟨m, h1, h2⟩ | ⟨m, h1, h2⟩
  · have : m = [] := by
      by_cases hm : m = []
      · exact hm
      · have := bytes_pos m hm
        rw [h1, bytes_append] at hle
        omega
    subst this
    exact ⟨[], by simpa using h1.symm, by simpa using h2.symm⟩
  · exact ⟨m, h1, h2⟩

/-- For a selection in the body of an item, the place that is chosen is one between the children of the
body. -/
theorem C104_place (o : Nat) (ds : List Src) (f : Offer.Focus) (r : Nat × Nat)
    (hin : Offer.InBody o ds f) (hws : ∀ t, .tok true t ∈ ds → White t)
    (hbound : ∃ a b d, texts (Offer.full ds) = a ++ b ++ d ∧ r.1 = o + bytes a ∧ r.2 = r.1 + bytes b) :
    ∃ k, Gap (Offer.full ds) o (Offer.editRange f r) k := by
  have ends : ∀ (d rest : List Src), Offer.full ds = d ++ rest →
      Gap (Offer.full ds) o (o + bytes (texts d), o + bytes (texts d)) d.length := by
    intro d rest h
    refine ⟨by rw [h]; simp, [], [], [], texts rest, ?_, (by intro c hc; cases hc), ?_, rfl⟩
    · rw [h]
      simp
    · rw [h]
      simp [bytes]
  cases hin with
  | bracket hw hr =>
    refine ⟨1, ?_⟩
    have := ends [.tok false ['{']] (ds ++ [.tok false ['}']]) rfl
    unfold Offer.editRange
    rw [hw, hr]
    simpa [texts, Src.text, Offer.bytes_curly] using this
  | child d x e hds hx hw hr =>
    have hfull : Offer.full ds = (.tok false ['{'] :: d) ++ x :: (e ++ [.tok false ['}']]) := by
      unfold Offer.full
      rw [hds]
      simp
    unfold Offer.editRange
    split
    · rename_i hc
      simp only [Bool.and_eq_true, Offer.within, decide_eq_true_eq, hr] at hc
      obtain ⟨hf, hc1, hc2⟩ := hc
      obtain ⟨t, rfl⟩ := hw hf
      obtain ⟨a, b, v, h1, h2, h3⟩ := hbound
      have htext : texts (Offer.full ds) = ('{' :: texts d) ++ (t ++ texts (e ++ [.tok false ['}']])) := by
        rw [hfull, texts_append]
        simp [texts, Src.text]
      have hcur : bytes ('{' :: texts d) = 1 + bytes (texts d) := by
        rw [show '{' :: texts d = ['{'] ++ texts d from rfl, bytes_append, Offer.bytes_curly]
      have hxt : bytes (Src.tok true t).text = bytes t := rfl
      rw [hxt] at hc2
      obtain ⟨w1, g1, g2⟩ := prefix_bytes a ('{' :: texts d) (b ++ v) _
        (by rw [← List.append_assoc, ← h1, htext]) (by rw [hcur]; omega)
      have hb1 : bytes a = 1 + bytes (texts d) + bytes w1 := by rw [g1, bytes_append, hcur]
      obtain ⟨w2, k1, k2⟩ := prefix_bytes t (w1 ++ b) (texts (e ++ [.tok false ['}']])) v
        (by rw [g2, List.append_assoc]) (by rw [bytes_append]; omega)
      refine ⟨d.length + 1, by rw [hfull]; simp, w1, b, w2, texts (e ++ [.tok false ['}']]), ?_, ?_, ?_,
        h3⟩
      · rw [hfull, show d.length + 1 = (Src.tok false ['{'] :: d).length from rfl, List.drop_left]
        simp only [texts, Src.text]
        rw [k1]
      · rw [← k1]
        exact hws t (by rw [hds]; simp)
      · rw [hfull, show d.length + 1 = (Src.tok false ['{'] :: d).length from rfl, List.take_left]
        have : texts (Src.tok false ['{'] :: d) = '{' :: texts d := by simp [texts, Src.text]
        rw [this, hcur]
        omega
    · rw [hr]
      have := ends (.tok false ['{'] :: d ++ [x]) (e ++ [.tok false ['}']]) (by rw [hfull]; simp)
      have hl : texts (.tok false ['{'] :: d ++ [x]) = ['{'] ++ (texts d ++ x.text) := by
        simp [texts, texts_append, Src.text]
      rw [hl, bytes_append, bytes_append, Offer.bytes_curly] at this
      refine ⟨(.tok false ['{'] :: d ++ [x] : List Src).length, ?_⟩
      rw [show o + 1 + bytes (texts d) + bytes x.text = o + (1 + (bytes (texts d) + bytes x.text)) by omega]
      exact this

/-! ### Topics -/

theorem splitInclusive_comma (u : List Char) :
    ∃ ls l, splitInclusive (u ++ [',']) = ls ++ [l ++ [',']] := by
  induction u with
  | nil => exact ⟨[], [], rfl⟩
  | cons c u ih =>
    obtain ⟨ls, l, h⟩ := ih
    by_cases hc : c = '\n'
    · subst hc
      exact ⟨['\n'] :: ls, l, by rw [List.cons_append, splitInclusive, h]; rfl⟩
    · rw [List.cons_append, splitInclusive, h]
      · cases ls with
        | nil => exact ⟨[], c :: l, rfl⟩
        | cons m ms => exact ⟨(c :: m) :: ms, l, rfl⟩
      · intro h
        exact hc h

theorem joinLines_last (f : List Char → List Char) (ls : List (List Char)) (l : List Char)
    (hl : l ≠ []) : ∃ t, joinLines f (ls ++ [l]) = t ++ f l := by
  induction ls with
  | nil =>
    refine ⟨[], ?_⟩
    cases l with
    | nil => exact absurd rfl hl
    | cons a l => rfl
  | cons m ms ih =>
    obtain ⟨t, ht⟩ := ih
    cases ms with
    | nil => exact ⟨(if m.isEmpty then [] else f m) ++ '\n' :: t, by
        simp only [List.cons_append, List.nil_append, joinLines] at ht ⊢; rw [ht]; simp⟩
    | cons n ns => exact ⟨(if m.isEmpty then [] else f m) ++ '\n' :: t, by
        simp only [List.cons_append, joinLines] at ht ⊢; rw [ht]; simp⟩

/-- Indenting keeps a comma at the end where it is. -/
theorem indent_comma (u i : List Char) (hi : White i) :
    ∃ t, applyIndenting (u ++ [',']) i = t ++ [','] ∧ codeOf t = codeOf u := by
  have key : ∃ t, applyIndenting (u ++ [',']) i = t ++ [','] := by
    unfold applyIndenting
    split
    · exact ⟨u, rfl⟩
    · obtain ⟨ls, l, h⟩ := splitInclusive_comma u
      unfold lines
      rw [h, List.map_append, List.map_cons, List.map_nil]
      have : stripEnding (l ++ [',']) = l ++ [','] := by
        unfold stripEnding
        simp only [List.reverse_append, List.reverse_cons, List.reverse_nil, List.nil_append,
          List.cons_append]
        split
        · rename_i h; simp at h
        · rename_i h; simp at h
        · rfl
      rw [this]
      obtain ⟨t, ht⟩ := joinLines_last (fun l => i ++ l) (ls.map stripEnding) (l ++ [',']) (by simp)
      exact ⟨t ++ i ++ l, by rw [ht]; simp⟩
  obtain ⟨t, ht⟩ := key
  refine ⟨t, ht, ?_⟩
  have := (C32_code (u ++ [',']) i hi).1
  rw [ht, codeOf_append, codeOf_append] at this
  exact List.append_cancel_right this

theorem topic_plain (used : List String) : (topicInsertion used).plain =
    "#[ink(topic)]\n".toList ++ (suggestName "my_topic" used).toList ++ ": bool".toList ++ [','] := by
  simp only [topicInsertion, uniqueInsertion, uniqueText]
  rw [replaced _ _ (chars! "#[ink(topic)]\n") (chars! ": bool,") _ (by decide)
    (by decide +kernel) (by decide +kernel)]
  rw [show chars! "#[ink(topic)]\n" = "#[ink(topic)]\n".toList by decide,
    show chars! ": bool," = ": bool".toList ++ [','] by decide]
  simp

/-- A field that is a topic, up to white space. -/
def TopicText (name t : List Char) : Prop :=
  codeOf t = codeOf ("#[ink(topic)]\n".toList ++ name ++ ": bool".toList)

theorem topic_at (names : List String) (ws : Option (List Char)) (r : Nat × Nat)
    (A w B : List Char) (h1 : r.1 = bytes A) (h2 : r.2 = bytes A + bytes w) :
    ∃ name t, TopicText name t ∧ (names.length < 254 → ∀ n ∈ names, n.toList ≠ name) ∧
      applyEdit (A ++ w ++ B) (addTopicAt names ws r) = some (A ++ t ++ [','] ++ B) ∧
      Offers (addTopicAt names ws r) []
        (.tok false ("#[ink(topic)]\n".toList ++ name ++ ": bool,".toList)) [] := by
  have hws := ws_children ws
  obtain ⟨t, ht, hc⟩ := indent_comma ("#[ink(topic)]\n".toList ++
    (suggestName "my_topic" names).toList ++ ": bool".toList) (itemChildrenIndenting ws) hws
  refine ⟨(suggestName "my_topic" names).toList, t, hc, ?_, ?_, ?_⟩
  · intro hlen n hn he
    rw [String.toList_inj.1 he] at hn
    exact C31_fresh_partial "my_topic" names hlen hn
  · have := Header.apply_cut A w B (addTopicAt names ws r) h1 (by
      rw [← h2]; rfl)
    rw [List.append_assoc, this]
    simp only [addTopicAt, Insertion.withIndent]
    rw [topic_plain, ht]
    simp
  · refine ⟨_, (topicInsertion names).snippet, hws, ?_, ?_, ?_⟩
    · simp only [addTopicAt, Insertion.withIndent, topic_plain, List.nil_append, List.append_nil]
      congr 1
      simp [Src.text]
    · simp [addTopicAt, Insertion.withIndent]
    · have : (Src.tok false ("#[ink(topic)]\n".toList ++ (suggestName "my_topic" names).toList ++
          ": bool,".toList)).text = (topicInsertion names).plain := by
        rw [topic_plain]
        simp [Src.text]
      rw [this]
      exact (fits_of_offered _ (.topic names)).agrees

/-- A topic added at a place behind the bracket or the comma of a field of a `struct` with named fields:
the list has one more field with its comma there, with a name no other field has, and nothing else
changes. -/
theorem C104_topic_partial (names : List String) (ws : Option (List Char)) (r : Nat × Nat)
    (pre post lead w1 w w2 : List Char) (fs1 fs2 : List Offer.Field) (f : Offer.Field) :
    (lead = w1 ++ w ++ w2 → r.1 = bytes pre + 1 + bytes w1 → r.2 = r.1 + bytes w →
      ∃ name t, TopicText name t ∧ (names.length < 254 → ∀ n ∈ names, n.toList ≠ name) ∧
        applyEdit (pre ++ Offer.fieldsText false lead fs1 ++ post) (addTopicAt names ws r) =
          some (pre ++ Offer.fieldsText false w1 (⟨t, [], true, w2⟩ :: fs1) ++ post)) ∧
    (f.comma = true → f.after = w1 ++ w ++ w2 →
      r.1 = bytes pre + 1 + bytes lead + bytes (fs1.flatMap Offer.Field.full) + bytes f.text +
        bytes f.gap + 1 + bytes w1 → r.2 = r.1 + bytes w →
      ∃ name t, TopicText name t ∧ (names.length < 254 → ∀ n ∈ names, n.toList ≠ name) ∧
        applyEdit (pre ++ Offer.fieldsText false lead (fs1 ++ f :: fs2) ++ post)
            (addTopicAt names ws r) =
          some (pre ++ Offer.fieldsText false lead
            (fs1 ++ ⟨f.text, f.gap, true, w1⟩ :: ⟨t, [], true, w2⟩ :: fs2) ++ post)) := by
  constructor
  · intro h1 h2 h3
    obtain ⟨name, t, k1, k2, k3, -⟩ := topic_at names ws r (pre ++ '{' :: w1) w
      (w2 ++ fs1.flatMap Offer.Field.full ++ ['}'] ++ post) (by
        rw [show pre ++ '{' :: w1 = pre ++ ['{'] ++ w1 by simp, bytes_append, bytes_append,
          Offer.bytes_curly, h2]) (by
        rw [show pre ++ '{' :: w1 = pre ++ ['{'] ++ w1 by simp, bytes_append, bytes_append,
          Offer.bytes_curly, h3, h2])
    refine ⟨name, t, k1, k2, ?_⟩
    simpa [Offer.fieldsText, Offer.Field.full, h1, List.append_assoc] using k3
  · intro h0 h1 h2 h3
    have hb : bytes (pre ++ ['{'] ++ lead ++ fs1.flatMap Offer.Field.full ++ f.text ++ f.gap ++ [','] ++ w1) =
        r.1 := by
      simp only [bytes_append, Offer.bytes_curly, h2, show bytes [','] = 1 by decide]
    obtain ⟨name, t, k1, k2, k3, -⟩ := topic_at names ws r
      (pre ++ ['{'] ++ lead ++ fs1.flatMap Offer.Field.full ++ f.text ++ f.gap ++ [','] ++ w1) w
      (w2 ++ fs2.flatMap Offer.Field.full ++ ['}'] ++ post) hb.symm (by rw [hb, h3])
    refine ⟨name, t, k1, k2, ?_⟩
    simpa [Offer.fieldsText, Offer.Field.full, h0, h1, List.append_assoc] using k3

/-- The action that adds a topic at the cursor puts no comma behind the field before: adding one behind
`a: u8` gives no list of fields. -/
theorem C104_negation_topic : ∃ names ws r,
    applyEdit "struct E { a: u8 }".toList (addTopicAt names ws r) =
      some "struct E { a: u8    #[ink(topic)]\n    my_topic: bool, }".toList :=
  ⟨["a"], some [], (16, 16), by decide +kernel⟩

/-- Before the first field, and behind the comma of the second one of three. -/
example : 10 = bytes "struct E ".toList + 1 + bytes [] ∧
    applyEdit ("struct E ".toList ++ Offer.fieldsText false ['\n', ' '] [] ++ "\n".toList)
        (addTopicAt [] (some []) (10, 11)) =
      some "struct E {    #[ink(topic)]\n    my_topic: bool, }\n".toList ∧
    28 = bytes "struct E ".toList + 1 + bytes [' '] + bytes "a: A,".toList +
      bytes "my_topic: B".toList + 1 ∧
    applyEdit ("struct E ".toList ++ Offer.fieldsText false [' ']
          [⟨"a: A".toList, [], true, []⟩, ⟨"my_topic: B".toList, [], true, ['\n']⟩,
            ⟨"c: C".toList, [], false, []⟩])
        (addTopicAt ["a", "my_topic", "c"] (some []) (28, 29)) =
      some ("struct E { a: A,my_topic: B,    #[ink(topic)]\n    my_topic2: bool,c: C}").toList := by
  decide +kernel

/-! ### Cases -/

theorem few_of {P : List Nat → Prop} (l : List (List Nat)) (hl : l.length < 254)
    (h : ∀ p, P p → p ∈ l) : Few P := by
  intro L hn hL
  exact Nat.lt_of_le_of_lt (nodup_subset_length L l hn fun p hp => h p (hL p hp)) hl

/-- A contract with an event. -/
def exEvents : Src := exModule [.node (.item .use) [.tok false "use d::e;".toList], .tok true "\n    ".toList,
  annotated .struct (.arg .event) "#[ink(event)]".toList "pub struct Event {}".toList]

/-- The names of the module and of the event. -/
def exEventsName : List Nat → Option String
  | [0] => some "c"
  | [0, 3, 4] => some "Event"
  | _ => none

/-- No ids. -/
def exNoIds : List Nat → Option Nat := fun _ => none

/-- The place behind the `use` item is one for child 3, and that inside of the white space before it one
for child 1. -/
example : Bracketed exEvents ∧ CleanNames exEventsName ∧ Host exEvents [0] .event ∧
    (∃ j cs, ItsList exEvents [0] j ∧ exEvents.at? ([0] ++ [j]) = some (.node .list cs) ∧
      Bare exEvents ([0] ++ [j]) ∧ Gap cs (startAt 0 exEvents ([0] ++ [j])) (38, 38) 3 ∧
      Gap cs (startAt 0 exEvents ([0] ++ [j])) (26, 28) 1 ∧ Rival exEvents [0] j [0, 3, 4] .event ∧
      Few (fun p => Rival exEvents [0] j p .event)) ∧
    ((add exEventsName exNoIds exEvents [0] (some (38, 38)) .event).bind (applyEdit exEvents.text)) =
      some "#[ink::contract]
mod c {
    use d::e;    #[ink(event)]
    pub struct Event2 {}
    #[ink(event)]
pub struct Event {}
}".toList ∧
    ((add exEventsName exNoIds exEvents [0] none .storage).bind (applyEdit exEvents.text)) =
      some "#[ink::contract]
mod c {
    use d::e;    #[ink(storage)]
    pub struct C {}
    #[ink(event)]
pub struct Event {}
}".toList := by
  have hl : listOf exEvents [0] = some [0, 3] := by decide +kernel
  obtain ⟨j, hj, hm⟩ := (listOf_iff _ _ _).1 hl
  have : j = 3 := by simpa using hj.symm
  subst this
  refine ⟨bracketed_of _ (by decide +kernel), ?_, (by decide +kernel : kindAt exEvents [0] = some (.item .module)), ⟨3, _, hm, rfl,
    bareLists_of _ (by decide +kernel) _ (by decide +kernel), ?_, ?_, ⟨⟨4, rfl⟩, by decide +kernel⟩, ?_⟩,
    by decide +kernel, by decide +kernel⟩
  · intro p n h
    unfold exEventsName at h
    split at h
    · cases h
      decide +kernel
    · cases h
      decide +kernel
    · cases h
  · exact ⟨by decide, [], [], "\n    ".toList, _, rfl, (by unfold White; decide +kernel), by decide +kernel, rfl⟩
  · exact ⟨by decide, "\n ".toList, "  ".toList, " ".toList, _, rfl, (by unfold White; decide +kernel),
      by decide +kernel, by decide +kernel⟩
  · refine few_of ((List.range 7).map fun m => [0, 3, m]) (by decide) ?_
    rintro p ⟨⟨m, rfl⟩, hk⟩
    rcases Nat.lt_or_ge m 7 with h | h
    · exact List.mem_map.2 ⟨m, List.mem_range.2 h, rfl⟩
    · have hat : exEvents.at? [0, 3] = some (.node .list ((exEvents.at? [0, 3]).get rfl).children) := rfl
      rw [show [0] ++ [3] ++ [m] = [0, 3] ++ [m] from rfl, kindAt_child exEvents _ [0, 3] m hat,
        List.getElem?_eq_none] at hk
      · cases hk
      · exact h

/-- A chain extension with an extension that has id 1. -/
def exExtension (attr : AttrKind) (text : String) : Src :=
  .node .other [.node (.item .trait) [
    .node (.attr (some (.macro .chainExtension))) [.tok false "#[ink::chain_extension]".toList],
    .tok true ['\n'], .tok false "pub trait X ".toList,
    .node .list [.tok false ['{'], annotated .fn attr text.toList "fn f();".toList, .tok false ['}']]]]

/-- The name of the extension. -/
def exExtensionName (name : String) : List Nat → Option String
  | [0, 3, 1] => some name
  | _ => none

/-- The id of the extension. -/
def exExtensionId : List Nat → Option Nat
  | [0, 3, 1] => some 1
  | _ => none

example : Host (exExtension (.arg .extension) "#[ink(extension = 1)]") [0] (.extension .v4) ∧
    PartOf (exExtension (.arg .extension) "#[ink(extension = 1)]") (.arg .extension) [0] [0, 3, 1] ∧
    (∃ free, 1 ≤ free ∧ free ≤ 4294967295 ∧
      ∀ p, PartOf (exExtension (.arg .extension) "#[ink(extension = 1)]") (.arg .extension) [0] p →
        exExtensionId p ≠ some free) ∧
    (add (exExtensionName "my_extension") exExtensionId
      (exExtension (.arg .extension) "#[ink(extension = 1)]") [0] none (.extension .v4)).map (·.text) =
      some "    #[ink(extension = 2)]\n    fn my_extension2();".toList := by
  refine ⟨(by decide +kernel : kindAt _ [0] = some (.item .trait)),
    (below_iff _ _ _ _).1 (by decide +kernel), ⟨2, by decide, by decide, ?_⟩,
    by decide +kernel⟩
  intro p _ h
  unfold exExtensionId at h
  split at h
  · cases h
  · cases h

/-- The `impl` block around a place in a contract with a constructor. -/
def exAround : Nat × Nat → Option (List Nat) := fun r => if r.1 < 30 then none else some [0, 3, 2]

/-- In and before the `impl` block. -/
example : Bracketed exTaken ∧ kindAt exTaken [0] = some (.item .module) ∧ exTakenName [0] ≠ none ∧
    BareLists exTaken ∧ Bare exTaken [0, 3, 2] ∧ Within exTaken [0] [0, 3, 2] ∧
    exAround (24, 26) = none ∧ PlaceIn exTaken [0] (24, 26) ∧
    (addMessageAt exTakenName exNoTrait exAround exTaken [0] (some (24, 26))).map
      (fun e => (e.text, e.start, e.stop)) = some ("    impl C {
        #[ink(message)]
        pub fn my_message2(&self) {
            todo!()
        }
    }".toList, 24, 26) ∧
    exAround (37, 37) = some [0, 3, 2] ∧ PlaceIn exTaken [0, 3, 2] (37, 37) ∧
    (addConstructorAt exTakenName exNoTrait exAround exTaken [0] (some (37, 37))).map
      (fun e => (e.text, e.start, e.stop)) = some ("        #[ink(constructor)]
        pub fn new() -> Self {
            todo!()
        }".toList, 37, 37) := by
  have hl : listOf exTaken [0] = some [0, 3] := by decide +kernel
  obtain ⟨j, hj, hm⟩ := (listOf_iff _ _ _).1 hl
  have : j = 3 := by simpa using hj.symm
  subst this
  have hl' : listOf exTaken [0, 3, 2] = some [0, 3, 2, 1] := by decide +kernel
  obtain ⟨j, hj, hm'⟩ := (listOf_iff _ _ _).1 hl'
  have : j = 1 := by simpa using hj.symm
  subst this
  refine ⟨bracketed_of _ (by decide +kernel), by decide +kernel, by decide, bareLists_of _ (by decide +kernel),
    ?_, ?_, by decide, ?_, by decide +kernel, by decide, ?_, by decide +kernel⟩
  · rintro b ⟨i, hi⟩
    match i with
    | 0 => cases hi
    | 1 => cases hi
    | n + 2 => cases hi
  · refine ⟨⟨[3, 2], rfl⟩, by decide, ?_⟩
    intro r r1 r2 r3 r4
    have e3 : [0, 3, 2] = [0] ++ [3] ++ [2] := rfl
    rw [e3] at r3 r4
    rcases List.prefix_concat_iff.1 r3 with h | r3
    · exact absurd h r4
    rcases List.prefix_concat_iff.1 r3 with rfl | r3
    · exact bareLists_of _ (by decide +kernel) _ hm.list
    · exact absurd (r3.eq_of_length (Nat.le_antisymm r3.length_le r1.length_le)) r2
  · exact ⟨3, _, 1, hm, rfl, by decide, [], "\n ".toList, "   ".toList, _, rfl, (by unfold White; decide +kernel),
      by decide +kernel, by decide +kernel⟩
  · exact ⟨1, _, 1, hm', rfl, by decide, [], [], [], _, rfl, (by unfold White; decide +kernel),
      by decide +kernel, rfl⟩

/-- In the white space of a body. -/
example : Offer.InBody 7 [.tok true "\n    ".toList, exPlain "fn f() {}"] ⟨true, (8, 13), false⟩ ∧
    (∀ t, Src.tok true t ∈ [Src.tok true "\n    ".toList, exPlain "fn f() {}"] → White t) ∧
    (∃ a b d, texts (Offer.full [.tok true "\n    ".toList, exPlain "fn f() {}"]) = a ++ b ++ d ∧
      10 = 7 + bytes a ∧ 12 = 10 + bytes b) := by
  refine ⟨.child [] _ _ rfl (fun k h => by cases h) (fun _ => ⟨_, rfl⟩) (by decide), ?_,
    "{\n ".toList, "  ".toList, _, rfl, by decide, by decide⟩
  intro t h
  simp only [List.mem_cons, List.not_mem_nil, or_false] at h
  rcases h with h | h
  · rw [show t = "\n    ".toList by simpa using h]
    unfold White
    decide
  · cases h

/-- A contract with an `enum` that is named `Event`. -/
def exEnum : Src := exModule [.node (.item .other) [.tok false "enum Event {}".toList]]

/-- The names of the module and of the `enum`. -/
def exEnumName : List Nat → Option String
  | [0] => some "c"
  | [0, 3, 2] => some "Event"
  | _ => none

/-- The action that adds an event gives it the name of an `enum` of the contract: only the names of
`struct`s are considered. -/
theorem C104_negation_enum : ∃ nm ids root c j k e, Bracketed root ∧ ItsList root c j ∧
    kindAt root (c ++ [j] ++ [k]) = some (.item .other) ∧ nm (c ++ [j] ++ [k]) = some "Event" ∧
    add nm ids root c none .event = some e ∧ "pub struct Event {}".toList <:+ e.text := by
  have hl : listOf exEnum [0] = some [0, 3] := by decide +kernel
  obtain ⟨j, hj, hm⟩ := (listOf_iff _ _ _).1 hl
  have : j = 3 := by simpa using hj.symm
  subst this
  exact ⟨exEnumName, exNoIds, exEnum, [0], 3, 2,
    ⟨"    #[ink(event)]\n    pub struct Event {}".toList, 24, 24,
      some "    #[ink(event)]\n    pub struct ${1:Event} {\n        $2\n    }".toList⟩,
    bracketed_of _ (by decide +kernel), hm, by decide +kernel, rfl, by decide +kernel, by decide +kernel⟩

/-- The action that adds a function to an ink! 5 chain extension gives it the name and the id of one
that is there: only functions annotated as extensions are considered. -/
theorem C104_negation_extension : ∃ nm ids root c p e, Bracketed root ∧
    PartOf root (.arg .function) c p ∧ kindAt root p = some (.item .fn) ∧
    nm p = some "my_function" ∧ ids p = some 1 ∧ add nm ids root c none (.extension .v5) = some e ∧
    codeOf e.text = codeOf "#[ink(function = 1)] fn my_function();".toList :=
  ⟨exExtensionName "my_function", exExtensionId, exExtension (.arg .function) "#[ink(function = 1)]",
    [0], [0, 3, 1], (add (exExtensionName "my_function") exExtensionId
      (exExtension (.arg .function) "#[ink(function = 1)]") [0] none (.extension .v5)).get
      (by decide +kernel),
    bracketed_of _ (by decide +kernel), (below_iff _ _ _ _).1 (by decide +kernel), by decide +kernel, rfl,
    rfl, by decide +kernel, by decide +kernel⟩

end Verif.Analyzer.EntityActions
