import Verif.Analyzer.MissingLemmas

/-!
# Missing parts are reported, and the fixes add them (C100)

Specification: `PartOf`, `CallableOf` (in `Verif.Analyzer.MissingLemmas`) say what belongs to a contract
or trait; `putIn` (in `Verif.Analyzer.MoveLemmas`) is the tree with a node added to a list.

The theorems about the fixes are partial: that the new text is parsed to the tree `putIn` is not part of
the model, and a new name is only free among the constructors and messages
(`C100_negation_function`, `C100_negation_trait_function`, `C100_negation_struct`).
-/

namespace Verif.Analyzer.Missing

open Verif.Ir Verif.Ir.Token Verif.Analyzer.Move

/-! ## Specification -/

/-- White space. -/
def White (i : List Char) : Prop := ∀ c ∈ i, isWs c = true

/-- Applying the edit puts its text where the tree has `y` added as child `k` of the node at `l`; up to
white space, the text is that of `y`. -/
def Puts (root : Src) (e : Edit) (l : List Nat) (k : Nat) (y : Src) : Prop :=
  ∃ A B, root.text = A ++ B ∧ applyEdit root.text e = some (A ++ e.text ++ B) ∧
    (putIn root l k y).text = A ++ y.text ++ B ∧ codeOf e.text = codeOf y.text

/-- The edit offers the text of `y`, indented, between affixes, and a snippet for it. -/
def Offers (e : Edit) (pre : List Char) (y : Src) (post : List Char) : Prop :=
  ∃ i s, White i ∧ e.text = pre ++ applyIndenting y.text i ++ post ∧
    e.snippet = some (pre ++ applyIndenting s i ++ post) ∧ Insertion.Agrees ⟨y.text, s⟩

/-- An item with an ink! attribute. -/
def annotated (k : IKind) (a : AttrKind) (attr rest : List Char) : Src :=
  .node (.item k) [.node (.attr (some a)) [.tok false attr], .tok true ['\n'], .tok false rest]

/-- A storage `struct`. -/
def newStorage (name : List Char) : Src :=
  annotated .struct (.arg .storage) "#[ink(storage)]".toList
    ("pub struct ".toList ++ name ++ " {}".toList)

/-- A constructor. -/
def newConstructor (name : List Char) : Src :=
  annotated .fn (.arg .constructor) "#[ink(constructor)]".toList
    ("pub fn ".toList ++ name ++ "() -> Self {\n    todo!()\n}".toList)

/-- A message. -/
def newMessage (name : List Char) : Src :=
  annotated .fn (.arg .message) "#[ink(message)]".toList
    ("pub fn ".toList ++ name ++ "(&self) {\n    todo!()\n}".toList)

/-- A message of a trait definition. -/
def newTraitMessage (name : List Char) : Src :=
  annotated .fn (.arg .message) "#[ink(message)]".toList
    ("fn ".toList ++ name ++ "(&self);".toList)

/-- Lists of items carry no ink! attributes. -/
def BareLists (root : Src) : Prop := ∀ l, kindAt root l = some .list → Bare root l

/-- The item at `p` is the closest one around the node at `f`. -/
def ItemAround (root : Src) (f p : List Nat) : Prop :=
  p <+: f ∧ p ≠ f ∧ IsItem root p ∧ ∀ r, p <+: r → r ≠ p → r <+: f → r ≠ f → ¬ IsItem root r

/-- The item at `i` is found as an ink! impl of the contract at `c`: it is an `impl` block that is a
child of it, an item of it that is annotated like an `impl`, or the `impl` block around a constructor or
message function of it; and it is annotated as an `impl`, or is an `impl` block with constructors or
messages or one of an ink! trait definition. -/
def InkImplOf (implements : List Nat → Bool) (root : Src) (c i : List Nat) : Prop :=
  ((IsImpl root i ∧ ∃ j, i = c ++ [j]) ∨
    (Within root c i ∧ ImplLike root i ∧ IsItem root i) ∨
    (IsImpl root i ∧ ∃ f, Within root c f ∧
      (Marked root (.arg .constructor) f ∨ Marked root (.arg .message) f) ∧
      kindAt root f = some (.item .fn) ∧ ItemAround root f i)) ∧
  (Marked root (.arg .impl) i ∨ (IsImpl root i ∧
    ((∃ f, PartOf root (.arg .constructor) i f ∨ PartOf root (.arg .message) i f) ∨
      implements i = true)))

/-- The `impl` block at `i` is one for constructors and messages of the contract at `c`: the first one
of no trait in its root, or else an ink! impl of it that is of no trait. -/
def Home (implements : List Nat → Bool) (root : Src) (c i : List Nat) : Prop :=
  FirstInherent root c i ∨ ((¬ ∃ i', FirstInherent root c i') ∧
    kindAt root i = some (.item (.impl false)) ∧ InkImplOf implements root c i)

/-- The name is the one of the contract: that of its storage `struct`, if it has just one storage, and
that of the module in pascal case, if it has none. -/
def NameOf (nm : List Nat → Option String) (root : Src) (c : List Nat) (name : List Char) : Prop :=
  (∀ p n, PartOf root (.arg .storage) c p → (∀ q, PartOf root (.arg .storage) c q → q = p) →
    kindAt root p = some (.item .struct) → nm p = some n → name = n.toList) ∧
  ((¬ ∃ p, PartOf root (.arg .storage) c p) → ∃ n, nm c = some n ∧ name = pascalCase n.toList)

/-- All of these are fewer than 254. -/
def Few (P : List Nat → Prop) : Prop :=
  ∀ L : List (List Nat), L.Nodup → (∀ p ∈ L, P p) → L.length < 254

/-- What belonged to a contract or trait before still does afterwards. -/
def Keeps (root : Src) (l : List Nat) (k : Nat) (y : Src) : Prop :=
  ∀ a c p, (PartOf root a c p → PartOf (putIn root l k y) a (shift l k c) (shift l k p)) ∧
    (CallableOf root a c p → CallableOf (putIn root l k y) a (shift l k c) (shift l k p))

/-! ## Lemmas -/

theorem atLeastOne_some (found : List (List Nat)) (fix : Option Edit) :
    (atLeastOne found fix).isSome = true ↔ ∀ p, p ∉ found := by
  unfold atLeastOne
  cases found with
  | nil => simp
  | cons a l =>
    simp only [List.isEmpty_cons, Bool.false_eq_true, if_false, Option.isSome_none, false_iff]
    intro h
    exact h a (by simp)

theorem atLeastOne_eq (found : List (List Nat)) (fix : Option Edit) (r : Report)
    (h : atLeastOne found fix = some r) : found = [] ∧ r.fixes = fix.toList := by
  unfold atLeastOne at h
  split at h
  · cases h
    rename_i h
    exact ⟨by simpa using h, rfl⟩
  · cases h

theorem atLeastOne_none (found : List (List Nat)) (fix : Option Edit) (p : List Nat) (h : p ∈ found) :
    atLeastOne found fix = none := by
  unfold atLeastOne
  rw [if_neg]
  cases found with
  | nil => simp at h
  | cons a l => simp

theorem replaced (pat text b a rep : List Char) (hp : pat ≠ []) (h : findPat pat text = some (b, a))
    (ha : findPat pat a = none) : replaceAll pat rep text = b ++ (rep ++ a) := by
  rw [(findPat_some pat rep text b a hp h).2, findPat_none pat rep a ha]

theorem annotated_text (k : IKind) (a : AttrKind) (attr rest : List Char) :
    (annotated k a attr rest).text = attr ++ '\n' :: rest := by
  simp [annotated, Src.text, texts]

theorem annotated_kind (k : IKind) (a : AttrKind) (attr rest : List Char) (b : Option AttrKind) :
    (annotated k a attr rest).kind? ≠ some (.attr b) := by
  simp [annotated, Src.kind?]

theorem annotated_marked (k : IKind) (a : AttrKind) (attr rest : List Char) :
    Marked (annotated k a attr rest) a [] := ⟨0, rfl⟩

theorem storage_plain (name : List Char) :
    (storageInsertion (some name)).plain = (newStorage name).text := by
  unfold newStorage
  rw [annotated_text]
  simp only [storageInsertion]
  rw [replaced _ _ (chars! "#[ink(storage)]\npub struct ") (chars! " {}") name (by decide)
    (by decide +kernel) (by decide +kernel)]
  rw [show chars! "#[ink(storage)]\npub struct " =
    "#[ink(storage)]".toList ++ '\n' :: "pub struct ".toList by decide]
  simp

theorem constructor_plain (used : List String) :
    (constructorInsertion used).plain = (newConstructor (suggestName "new" used).toList).text := by
  unfold newConstructor
  rw [annotated_text]
  simp only [constructorInsertion, uniqueInsertion, uniqueText]
  rw [replaced _ _ (chars! "#[ink(constructor)]\npub fn ") (chars! "() -> Self {\n    todo!()\n}") _
    (by decide) (by decide +kernel) (by decide +kernel)]
  rw [show chars! "#[ink(constructor)]\npub fn " =
    "#[ink(constructor)]".toList ++ '\n' :: "pub fn ".toList by decide]
  simp

theorem message_plain (used : List String) :
    (messageInsertion used).plain = (newMessage (suggestName "my_message" used).toList).text := by
  unfold newMessage
  rw [annotated_text]
  simp only [messageInsertion, uniqueInsertion, uniqueText]
  rw [replaced _ _ (chars! "#[ink(message)]\npub fn ") (chars! "(&self) {\n    todo!()\n}") _
    (by decide) (by decide +kernel) (by decide +kernel)]
  rw [show chars! "#[ink(message)]\npub fn " =
    "#[ink(message)]".toList ++ '\n' :: "pub fn ".toList by decide]
  simp

theorem traitMessage_plain (used : List String) :
    (traitMessageInsertion used).plain =
      (newTraitMessage (suggestName "my_message" used).toList).text := by
  unfold newTraitMessage
  rw [annotated_text]
  simp only [traitMessageInsertion, uniqueInsertion, uniqueText]
  rw [replaced _ _ (chars! "#[ink(message)]\nfn ") (chars! "(&self);") _
    (by decide) (by decide +kernel) (by decide +kernel)]
  rw [show chars! "#[ink(message)]\nfn " =
    "#[ink(message)]".toList ++ '\n' :: "fn ".toList by decide]
  simp

theorem putEdit_puts (root : Src) (l : List Nat) (offset : Nat → List Src → Nat) (t : Insertion)
    (e : Edit) (kd : NKind) (cs : List Src) (k : Nat) (y : Src)
    (hl : root.at? l = some (.node kd cs))
    (ho : offset (startAt 0 root l) cs = startAt 0 root l + bytes (texts (cs.take k)))
    (hy : codeOf t.plain = codeOf y.text) (he : putEdit root l offset t = some e) :
    Puts root e l k y ∧ e.text = t.plain ∧ e.snippet = some t.snippet := by
  unfold putEdit at he
  rw [hl, Option.map_some, Option.some.injEq] at he
  simp only [Src.children] at he
  obtain ⟨A, B, h1, h2, h3⟩ := put_split root l kd cs k hl
  have h2 := h2 0
  rw [← ho, Nat.zero_add] at h2
  subst he
  refine ⟨⟨A, B, h1, ?_, h3 y, hy⟩, rfl, rfl⟩
  have := Header.apply_cut A [] B
    ⟨t.plain, offset (startAt 0 root l) cs, offset (startAt 0 root l) cs, some t.snippet⟩ h2
    (by rw [h2]; simp [bytes])
  rw [h1]
  simpa using this

theorem keeps_of {root : Src} {l : List Nat} {k : Nat} {y : Src} {cs : List Src}
    (hl : root.at? l = some (.node .list cs)) (hk : k ≤ cs.length)
    (hy : ∀ a, y.kind? ≠ some (.attr a)) : Keeps root l k y :=
  fun a c p => ⟨partOf_shift hl hk hy a c p, callableOf_shift hl hk hy a c p⟩

/-- An added item with an attribute belongs to what the list belongs to. -/
theorem part_added {root : Src} {c : List Nat} {j k : Nat} {y : Src} {cs : List Src}
    (hl : root.at? (c ++ [j]) = some (.node .list cs)) (hk : k ≤ cs.length)
    (hy : ∀ a, y.kind? ≠ some (.attr a)) (a : AttrKind) (hm : Marked y a [])
    (hb : Bare root (c ++ [j])) : PartOf (putIn root (c ++ [j]) k y) a c (c ++ [j] ++ [k]) := by
  refine ⟨?_, within_added hl hk hy c (List.prefix_append _ _) ?_⟩
  · have := marked_added (k := k) hl hk a [] hm
    rwa [List.append_nil] at this
  · intro r h1 h2 h3
    rcases List.prefix_concat_iff.1 h3 with rfl | h
    · exact hb
    · exact absurd (h.eq_of_length (Nat.le_antisymm h.length_le h1.length_le)) h2

theorem find_first {root : Src} {l : List Nat} {cs : List Src} (hb : Bracketed root)
    (hl : root.at? l = some (.node .list cs)) : ∃ ds, cs = .tok false ['{'] :: ds := hb l cs hl

theorem not_bare {root : Src} {a : AttrKind} {p : List Nat} (h : Marked root a p) : ¬ Bare root p :=
  fun hb => hb a h

/-! ## C100: reports -/

/-- A missing storage is reported exactly if no storage belongs to the contract. -/
theorem C100_storage_reported (nm : List Nat → Option String) (root : Src) (c : List Nat) :
    (ensureStorage nm root c).isSome = true ↔ ¬ ∃ p, PartOf root (.arg .storage) c p := by
  unfold ensureStorage
  rw [atLeastOne_some]
  simp only [below_iff, not_exists]

/-- A missing constructor is reported exactly if none belongs to the contract or an `impl` of it. -/
theorem C100_constructor_reported (nm : List Nat → Option String) (implements : List Nat → Bool)
    (root : Src) (c : List Nat) : (ensureConstructor nm implements root c).isSome = true ↔
      ¬ ∃ p, CallableOf root (.arg .constructor) c p := by
  unfold ensureConstructor
  rw [atLeastOne_some]
  simp only [callables_iff root _ (.inl rfl), not_exists]

/-- A missing message is reported exactly if none belongs to the contract or an `impl` of it. -/
theorem C100_message_reported (nm : List Nat → Option String) (implements : List Nat → Bool)
    (root : Src) (c : List Nat) : (ensureMessage nm implements root c).isSome = true ↔
      ¬ ∃ p, CallableOf root (.arg .message) c p := by
  unfold ensureMessage
  rw [atLeastOne_some]
  simp only [callables_iff root _ (.inr rfl), not_exists]

/-- A trait definition without messages is reported exactly if no message belongs to it. -/
theorem C100_trait_reported (nm : List Nat → Option String) (root : Src) (c : List Nat) :
    (ensureTraitMessage nm root c).isSome = true ↔ ¬ ∃ p, PartOf root (.arg .message) c p := by
  unfold ensureTraitMessage
  rw [atLeastOne_some]
  simp only [below_iff, not_exists]

theorem inkAttrs_iff (root : Src) (i : List Nat) (a : AttrKind) :
    ((toNode root).inkAttrsAt i).any (· == a) = true ↔ Marked root a i := by
  rw [← carries_iff]
  have := Walk.any_attrsAt id a (toNode root) i
  simpa using this

/-- An ink! impl is reported exactly if it is not annotated as one and no constructor and no message
belongs to it. -/
theorem C100_impl_reported (nm : List Nat → Option String) (root : Src) (i : List Nat) :
    (ensureImpl nm root i).isSome = true ↔ ¬ Marked root (.arg .impl) i ∧
      (¬ ∃ p, PartOf root (.arg .constructor) i p) ∧ ¬ ∃ p, PartOf root (.arg .message) i p := by
  have key : ∀ a, (below a root i).isEmpty = true ↔ ¬ ∃ p, PartOf root a i p := by
    intro a
    rw [List.isEmpty_iff, List.eq_nil_iff_forall_not_mem]
    simp only [below_iff, not_exists]
  rw [← key, ← key, ← inkAttrs_iff]
  unfold ensureImpl
  generalize ((toNode root).inkAttrsAt i).any (· == .arg .impl) = b1
  generalize (below (.arg .constructor) root i).isEmpty = b2
  generalize (below (.arg .message) root i).isEmpty = b3
  cases b1 <;> cases b2 <;> cases b3 <;> simp

/-! ## C100: fixes -/

/-- The fix for a missing storage: it exists exactly if the contract is a module with a list, and puts a
storage named like the contract behind the last `use` (or else at the start). Afterwards the storage is
there, and nothing that was there is gone. (Names have no characters special in snippets.) -/
theorem C100_storage_fix_partial (nm : List Nat → Option String) (root : Src) (c : List Nat) (r : Report)
    (hb : Bracketed root) (hr : ensureStorage nm root c = some r)
    (hn : ∀ n, nm c = some n → Clean (pascalCase n.toList) ∧ pascalCase n.toList ≠ []) :
    (r.fixes ≠ [] ↔ ∃ j, ModuleList root c j) ∧
    ∀ e ∈ r.fixes, ∃ j cs k name, ModuleList root c j ∧ root.at? (c ++ [j]) = some (.node .list cs) ∧
      Slot .storage cs k ∧ Puts root e (c ++ [j]) k (newStorage name) ∧
      Offers e [] (newStorage name) [] ∧
      name = (match nm c with | some n => pascalCase n.toList | none => "Storage".toList) ∧
      Keeps root (c ++ [j]) k (newStorage name) ∧
      (Bare root (c ++ [j]) →
        PartOf (putIn root (c ++ [j]) k (newStorage name)) (.arg .storage) c (c ++ [j] ++ [k]) ∧
        ∀ nm', ensureStorage nm' (putIn root (c ++ [j]) k (newStorage name)) c = none) := by
  obtain ⟨hnone, hfix⟩ := atLeastOne_eq _ _ _ hr
  rw [hfix]
  constructor
  · constructor
    · intro h
      cases ha : addStorage nm root c with
      | none => rw [ha] at h; exact absurd rfl h
      | some e =>
        unfold addStorage at ha
        simp only [Option.bind_eq_some_iff, moduleList_iff] at ha
        obtain ⟨l, ⟨j, rfl, hm⟩, _⟩ := ha
        exact ⟨j, hm⟩
    · rintro ⟨j, hm⟩ h
      obtain ⟨cs, hl⟩ := list_node root (c ++ [j]) hm.2.list
      unfold addStorage putEdit at h
      rw [(moduleList_iff root c (c ++ [j])).2 ⟨j, rfl, hm⟩, Option.bind_some, hl] at h
      simp at h
  · intro e he
    rw [Option.mem_toList] at he
    unfold addStorage at he
    simp only [Option.bind_eq_some_iff, moduleList_iff] at he
    obtain ⟨l, ⟨j, rfl, hm⟩, he⟩ := he
    obtain ⟨cs, hl⟩ := list_node root (c ++ [j]) hm.2.list
    obtain ⟨ds, hds⟩ := hb _ cs hl
    obtain ⟨k, h1, h2, h3⟩ := start_slot (startAt 0 root (c ++ [j])) cs ds hds
    have hname : contractName nm root c = (nm c).map fun n => pascalCase n.toList := by
      unfold contractName
      rw [hnone, hm.1]
      simp
    have hplain : (storageInsertion (contractName nm root c)).plain = (newStorage
        (match nm c with | some n => pascalCase n.toList | none => "Storage".toList)).text := by
      rw [hname]
      cases nm c with
      | none =>
        simp only [Option.map_none]
        decide +kernel
      | some n => exact storage_plain _
    have hag : (storageInsertion (contractName nm root c)).Agrees := by
      rw [hname]
      cases hc : nm c with
      | none => exact (fits_of_offered _ .namelessStorage).agrees
      | some n => exact (fits_of_offered _ (.storage _ (hn n hc).1 (hn n hc).2)).agrees
    have hws := ws_children (wsBefore root c)
    obtain ⟨g1, g2, g3⟩ := putEdit_puts root (c ++ [j]) _ _ e .list cs k
      (newStorage (match nm c with | some n => pascalCase n.toList | none => "Storage".toList)) hl h3
      (by
        simp only [Insertion.withIndent]
        rw [(C32_code _ _ hws).1, hplain]) he
    refine ⟨j, cs, k, _, hm, hl, h1, g1, ?_, rfl, keeps_of hl h2 (annotated_kind _ _ _ _), ?_⟩
    · refine ⟨_, (storageInsertion (contractName nm root c)).snippet, hws, ?_, ?_, ?_⟩
      · rw [g2, ← hplain]
        simp [Insertion.withIndent]
      · rw [g3]
        simp [Insertion.withIndent]
      · rw [← hplain]
        exact hag
    · intro hbare
      have hpart := part_added hl h2 (annotated_kind _ _ _ _) (.arg .storage)
        (annotated_marked .struct (.arg .storage) "#[ink(storage)]".toList
          ("pub struct ".toList ++ (match nm c with | some n => pascalCase n.toList | none => "Storage".toList) ++ " {}".toList)) hbare
      refine ⟨hpart, fun nm' => ?_⟩
      exact atLeastOne_none _ _ _ ((below_iff _ _ _ _).2 hpart)

/-- The fix for a trait definition without messages: it exists exactly if the item is a trait with a
list, and puts a message at the end. Afterwards the message is there, and nothing that was there is
gone. -/
theorem C100_trait_fix_partial (nm : List Nat → Option String) (root : Src) (c : List Nat) (r : Report)
    (hb : Bracketed root) (hr : ensureTraitMessage nm root c = some r) :
    (r.fixes ≠ [] ↔ kindAt root c = some (.item .trait) ∧ ∃ j, ItsList root c j) ∧
    ∀ e ∈ r.fixes, ∃ j cs k, ItsList root c j ∧ root.at? (c ++ [j]) = some (.node .list cs) ∧
      EndSlot cs k ∧ Puts root e (c ++ [j]) k (newTraitMessage "my_message".toList) ∧
      Offers e [] (newTraitMessage "my_message".toList) [] ∧
      Keeps root (c ++ [j]) k (newTraitMessage "my_message".toList) ∧
      (Bare root (c ++ [j]) →
        PartOf (putIn root (c ++ [j]) k (newTraitMessage "my_message".toList)) (.arg .message) c
          (c ++ [j] ++ [k]) ∧
        ∀ nm', ensureTraitMessage nm'
          (putIn root (c ++ [j]) k (newTraitMessage "my_message".toList)) c = none) := by
  obtain ⟨hnone, hfix⟩ := atLeastOne_eq _ _ _ hr
  rw [hfix]
  unfold addTraitMessage
  constructor
  · constructor
    · intro h
      split at h
      · rename_i hk
        refine ⟨by simpa using hk, ?_⟩
        cases ha : listOf root c with
        | none => rw [ha] at h; exact absurd rfl h
        | some l =>
          obtain ⟨j, -, hm⟩ := (listOf_iff root c l).1 ha
          exact ⟨j, hm⟩
      · exact absurd rfl h
    · rintro ⟨hk, j, hm⟩ h
      obtain ⟨cs, hl⟩ := list_node root (c ++ [j]) hm.list
      unfold putEdit at h
      rw [if_pos (by simpa using hk), (listOf_iff root c (c ++ [j])).2 ⟨j, rfl, hm⟩, Option.bind_some,
        hl] at h
      simp at h
  · intro e he
    rw [Option.mem_toList] at he
    split at he
    · simp only [Option.bind_eq_some_iff, listOf_iff] at he
      obtain ⟨l, ⟨j, rfl, hm⟩, he⟩ := he
      obtain ⟨cs, hl⟩ := list_node root (c ++ [j]) hm.list
      obtain ⟨ds, hds⟩ := hb _ cs hl
      obtain ⟨k, h1, h2, h3⟩ := assoc_slot (startAt 0 root (c ++ [j])) cs ds hds
      have hws := ws_children (wsBefore root c)
      have hplain : (traitMessageInsertion (fnNames nm root (below (.arg .message) root c))).plain =
          (newTraitMessage "my_message".toList).text := by
        rw [hnone, traitMessage_plain]
        rfl
      obtain ⟨g1, g2, g3⟩ := putEdit_puts root (c ++ [j]) _ _ e .list cs k
        (newTraitMessage "my_message".toList) hl h3
        (by
          simp only [Insertion.withIndent]
          rw [(C32_code _ _ hws).1, hplain]) he
      refine ⟨j, cs, k, hm, hl, h1, g1, ?_, keeps_of hl h2 (annotated_kind _ _ _ _), ?_⟩
      · refine ⟨_, (traitMessageInsertion (fnNames nm root (below (.arg .message) root c))).snippet, hws,
          ?_, ?_, ?_⟩
        · rw [g2, ← hplain]
          simp [Insertion.withIndent]
        · rw [g3]
          simp [Insertion.withIndent]
        · rw [← hplain]
          exact (fits_of_offered _ (.traitMessage _)).agrees
      · intro hbare
        have hpart := part_added hl h2 (annotated_kind _ _ _ _) (.arg .message)
          (annotated_marked .fn (.arg .message) "#[ink(message)]".toList
            ("fn ".toList ++ "my_message".toList ++ "(&self);".toList)) hbare
        refine ⟨hpart, fun nm' => ?_⟩
        exact atLeastOne_none _ _ _ ((below_iff _ _ _ _).2 hpart)
    · cases he

/-! ### Constructors and messages -/

theorem contractName_spec (nm : List Nat → Option String) (root : Src) (c : List Nat) (name : List Char)
    (h : contractName nm root c = some name) : NameOf nm root c name := by
  unfold contractName at h
  constructor
  · intro p n hp huniq hk hn
    have hne : below (.arg .storage) root c ≠ [] := by
      intro he
      have := (below_iff root (.arg .storage) c p).2 hp
      rw [he] at this
      cases this
    cases hl : below (.arg .storage) root c with
    | nil => exact absurd hl hne
    | cons q l =>
      have hq : q = p := huniq q ((below_iff root _ c q).1 (by rw [hl]; simp))
      rw [hl, hq] at h
      simp only [List.head?_cons, Option.filter_some, hk, beq_self_eq_true, if_true, Option.bind_some,
        hn, Option.map_some, Option.some_or, Option.some.injEq] at h
      exact h.symm
  · intro hno
    have hnil : below (.arg .storage) root c = [] := by
      rw [List.eq_nil_iff_forall_not_mem]
      intro p hp
      exact hno ⟨p, (below_iff root _ c p).1 hp⟩
    rw [hnil] at h
    simp only [List.head?_nil, Option.filter_none, Option.bind_none, Option.map_none, Option.none_or] at h
    split at h
    · simp only [Option.map_eq_some_iff] at h
      obtain ⟨n, h1, h2⟩ := h
      exact ⟨n, h1, h2.symm⟩
    · cases h

theorem contractName_some (nm : List Nat → Option String) (root : Src) (c : List Nat)
    (hm : kindAt root c = some (.item .module)) (hn : nm c ≠ none) :
    ∃ name, contractName nm root c = some name := by
  unfold contractName
  cases hc : nm c with
  | none => exact absurd hc hn
  | some n =>
    rw [hm]
    simp only [beq_self_eq_true, if_true, Option.map_some]
    generalize Option.map String.toList _ = o
    cases o with
    | none => exact ⟨_, rfl⟩
    | some x => exact ⟨_, rfl⟩

theorem fnKind_iff (root : Src) (p : List Nat) :
    Walk.KindIs shape.isFn (toNode root) p ↔ kindAt root p = some (.item .fn) := by
  rw [kindIs_iff _ _ _ (fun a => rfl)]
  constructor
  · rintro ⟨k, h, hk⟩
    rw [h]
    exact congrArg some (beq_iff_eq.1 hk)
  · intro h
    exact ⟨_, h, rfl⟩

theorem inkImplOf_iff (implements : List Nat → Bool) (root : Src) (c i : List Nat) :
    (Walk.ImplOf id shape (toNode root) c i ∧ Walk.IsInkImpl id shape implements (toNode root) i) ↔
      InkImplOf implements root c i := by
  unfold Walk.ImplOf Walk.IsInkImpl InkImplOf Walk.Callable Walk.ItemAround ItemAround PartOf
  simp only [implKind_iff, itemKind_iff, fnKind_iff, inside_iff, carries_iff, looks_iff]
  refine and_congr_right fun _ => or_congr_right (and_congr_right fun _ => or_congr_left ?_)
  exact exists_congr fun f => by rw [and_or_left, and_comm, and_comm (b := Marked root _ f)]

theorem inkImpl_spec (implements : List Nat → Bool) (root : Src) (c i : List Nat)
    (h : inkImpl implements root c = some i) (hc : kindAt root c = some (.item .module)) :
    kindAt root i = some (.item (.impl false)) ∧ InkImplOf implements root c i := by
  unfold inkImpl at h
  rw [Option.filter_eq_some_iff] at h
  obtain ⟨h1, h2⟩ := h
  refine ⟨by simpa using h2, ?_⟩
  have := List.mem_of_find?_eq_some h1
  refine (inkImplOf_iff implements root c i).1
    ((Walk.mem_implsBelow id shape implements (toNode root) c i ?_).1 this)
  rw [toNode_at]
  unfold kindAt at hc
  cases hn : root.at? c with
  | none => rw [hn] at hc; cases hc
  | some n => exact ⟨toNode n, rfl⟩

/-- If all ink! impls of the contract are `impl` blocks, one of no trait is found. -/
theorem inkImpl_found (implements : List Nat → Bool) (root : Src) (c : List Nat)
    (hc : kindAt root c = some (.item .module))
    (hall : ∀ i, InkImplOf implements root c i → IsImpl root i) (i : List Nat)
    (hk : kindAt root i = some (.item (.impl false))) (hi : InkImplOf implements root c i) :
    ∃ i', inkImpl implements root c = some i' := by
  have hat : ∃ n, (toNode root).at? c = some n := by
    rw [toNode_at]
    unfold kindAt at hc
    cases hn : root.at? c with
    | none => rw [hn] at hc; cases hc
    | some n => exact ⟨toNode n, rfl⟩
  unfold inkImpl
  have hmem := (Walk.mem_implsBelow id shape implements (toNode root) c i hat).2
    ((inkImplOf_iff implements root c i).2 hi)
  cases hf : (Walk.implsBelow id shape implements (toNode root) c).find? fun p =>
      kindAt root p != some (.item (.impl true)) with
  | none =>
    rw [List.find?_eq_none] at hf
    have := hf i hmem
    rw [hk] at this
    exact absurd rfl this
  | some i' =>
    have h1 := List.mem_of_find?_eq_some hf
    have h2 := List.find?_some hf
    obtain ⟨t, ht⟩ := hall i' ((inkImplOf_iff implements root c i').1
      ((Walk.mem_implsBelow id shape implements (toNode root) c i' hat).1 h1))
    rw [ht] at h2
    cases t with
    | true => exact absurd h2 (by decide)
    | false => exact ⟨i', by simp [ht]⟩

theorem home_within (implements : List Nat → Bool) (root : Src) (c i : List Nat)
    (hc : kindAt root c = some (.item .module)) (hl : BareLists root)
    (h : Home implements root c i) : Within root c i := by
  rcases h with ⟨j, m, hm, rfl, -, -⟩ | ⟨-, hk, hi, -⟩
  · refine ⟨by rw [List.append_assoc]; exact List.prefix_append _ _, ?_, ?_⟩
    · intro h
      have := congrArg List.length h
      simp at this
    · intro r h1 h2 h3 h4
      rcases List.prefix_concat_iff.1 h3 with h | h
      · exact absurd h h4
      · rcases List.prefix_concat_iff.1 h with h | h
        · rw [h]
          exact hl _ hm.2.list
        · exact absurd (h.eq_of_length (Nat.le_antisymm h.length_le h1.length_le)) h2
  · rcases hi with ⟨-, m, rfl⟩ | ⟨h, -⟩ | ⟨-, f, hf, -, -, ⟨g1, g2, g3, g4⟩⟩
    · refine ⟨List.prefix_append _ _, by simp, ?_⟩
      intro r h1 h2 h3 h4
      rcases List.prefix_concat_iff.1 h3 with h | h
      · exact absurd h h4
      · exact absurd (h.eq_of_length (Nat.le_antisymm h.length_le h1.length_le)) h2
    · exact h
    · obtain ⟨w1, w2, w3⟩ := hf
      have hne : c ≠ i := by
        rintro rfl
        rw [hc] at hk
        cases hk
      rcases List.prefix_or_prefix_of_prefix w1 g1 with h | h
      · refine ⟨h, hne, ?_⟩
        intro r h1 h2 h3 h4
        refine w3 r h1 h2 (h3.trans g1) ?_
        rintro rfl
        exact g2 (g1.eq_of_length (Nat.le_antisymm g1.length_le h3.length_le))
      · exact absurd ⟨_, hc⟩ (g4 c h hne w1 w2)

/-- What a fix that adds a constructor or message `y` (with attribute `a`) does. -/
def Adds (nm : List Nat → Option String) (implements : List Nat → Bool) (root : Src) (c : List Nat)
    (e : Edit) (a : AttrKind) (y : Src) : Prop :=
  (∃ i j cs k, Home implements root c i ∧ ItsList root i j ∧
    root.at? (i ++ [j]) = some (.node .list cs) ∧ EndSlot cs k ∧ Puts root e (i ++ [j]) k y ∧
    Offers e [] y [] ∧ Keeps root (i ++ [j]) k y ∧
    (BareLists root → Bare root i ∨ ImplLike root i →
      CallableOf (putIn root (i ++ [j]) k y) a c (i ++ [j] ++ [k]))) ∨
  ((¬ ∃ i j, FirstInherent root c i ∧ ItsList root i j) ∧
    ((∀ i, InkImplOf implements root c i → IsImpl root i ∧ ∃ j, ItsList root i j) →
      ¬ ∃ i j, Home implements root c i ∧ ItsList root i j) ∧
    ∃ j cs k name ind, ModuleList root c j ∧ root.at? (c ++ [j]) = some (.node .list cs) ∧
      Slot .impl cs k ∧ NameOf nm root c name ∧ Puts root e (c ++ [j]) k (newImpl name y) ∧
      White ind ∧ Offers e (ind ++ "impl ".toList ++ name ++ " {\n".toList) y ('\n' :: ind ++ ['}']) ∧
      Keeps root (c ++ [j]) k (newImpl name y) ∧
      (BareLists root →
        CallableOf (putIn root (c ++ [j]) k (newImpl name y)) a c (c ++ [j] ++ [k] ++ [4, 1])))

theorem newImpl_code (name ind t : List Char) (y : Src) (hws : White ind)
    (h : codeOf t = codeOf y.text) :
    codeOf ((ind ++ "impl ".toList ++ name ++ " {\n".toList) ++ t ++ ('\n' :: ind ++ ['}'])) =
      codeOf (newImpl name y).text := by
  have e1 : codeOf "impl ".toList = codeOf "impl".toList := by decide
  have e2 : codeOf " {\n".toList = ['{'] := by decide
  have e3 : codeOf [' '] = [] := by decide
  have e4 : codeOf ['{'] = ['{'] := by decide
  have e5 : codeOf ['}'] = ['}'] := by decide
  have e6 : isWs ' ' = true := by decide
  have e7 : isWs '{' = false := by decide
  have e8 : isWs '}' = false := by decide
  simp only [newImpl, Src.text, texts, codeOf_append, codeOf_nl, List.cons_append,
    codeOf_ws _ hws, e1, e2, e3, e4, e5, h, List.nil_append, List.append_nil, List.append_assoc]
  simp [codeOf_append, e5, codeOf, List.filter_cons, e6, e7, e8]

/-- A function added to the list of an `impl` block of the contract belongs to the contract. -/
theorem callable_in_impl {root : Src} {c i' : List Nat} {j k : Nat} {y : Src} {cs : List Src}
    {a : AttrKind} (hj : ItsList root i' j) (hl : root.at? (i' ++ [j]) = some (.node .list cs))
    (h2 : k ≤ cs.length) (hy : ∀ b, y.kind? ≠ some (.attr b)) (hmark : Marked y a [])
    (hlists : BareLists root) (hi : Bare root i' ∨ ImplLike root i') (hin : Within root c i') :
    CallableOf (putIn root (i' ++ [j]) k y) a c (i' ++ [j] ++ [k]) := by
  have hbare : Bare root (i' ++ [j]) := hlists _ hj.list
  have hm := marked_added (k := k) hl h2 a [] hmark
  rw [List.append_nil] at hm
  refine ⟨hm, ?_⟩
  rcases hi with hi | hi
  · left
    refine within_added hl h2 hy c (hin.1.trans (List.prefix_append _ _)) ?_
    intro r r1 r2 r3
    rcases List.prefix_concat_iff.1 r3 with rfl | r3
    · exact hbare
    · by_cases hri : r = i'
      · rw [hri]
        exact hi
      · exact hin.2.2 r r1 r2 r3 hri
  · right
    have hsc : shift (i' ++ [j]) k c = c := shift_out _ _ _ fun h => by
      have := h.length_le
      have := hin.1.length_le
      simp at *
      omega
    have hsi : shift (i' ++ [j]) k i' = i' := shift_out _ _ _ fun h => by
      have := h.length_le
      simp at this
      omega
    refine ⟨i', ?_, ?_, (part_added hl h2 hy a hmark hbare).2⟩
    · have := within_shift (y := y) hl h2 hy c i' hin
      rwa [hsc, hsi] at this
    · have := (implLike_shift (y := y) hl h2 hy i').2 hi
      rwa [hsi] at this

/-- A function in an `impl` block added to the contract belongs to it. -/
theorem callable_in_new {root : Src} {c : List Nat} {j k : Nat} {name : List Char} {y : Src}
    {cs : List Src} {a : AttrKind} (hm : ItsList root c j)
    (hl : root.at? (c ++ [j]) = some (.node .list cs)) (h2 : k ≤ cs.length)
    (hy : ∀ b, y.kind? ≠ some (.attr b)) (hmark : Marked y a []) (hlists : BareLists root) :
    CallableOf (putIn root (c ++ [j]) k (newImpl name y)) a c (c ++ [j] ++ [k] ++ [4, 1]) := by
  have hyi : ∀ b, (newImpl name y).kind? ≠ some (.attr b) := by
    intro b
    simp [newImpl, Src.kind?]
  have hat := at_putIn root (c ++ [j]) k (newImpl name y) _ cs hl h2
  have hm4 : Marked (newImpl name y) a [4, 1] := by
    obtain ⟨i, hi⟩ := hmark
    exact ⟨i, hi⟩
  refine ⟨marked_added hl h2 a [4, 1] hm4, .inl ?_⟩
  have hin := within_added (k := k) hl h2 hyi c (List.prefix_append _ _) (by
    intro r r1 r2 r3
    rcases List.prefix_concat_iff.1 r3 with rfl | r3
    · exact hlists _ hm.list
    · exact absurd (r3.eq_of_length (Nat.le_antisymm r3.length_le r1.length_le)) r2)
  refine ⟨hin.1.trans (List.prefix_append _ _), ?_, ?_⟩
  · intro h
    have := congrArg List.length h
    simp at this
  · intro r r1 r2 r3 r4
    have bare_new : ∀ s, (∀ b i, kindAt (newImpl name y) (s ++ [i]) ≠ some (.attr (some b))) →
        Bare (putIn root (c ++ [j]) k (newImpl name y)) (c ++ [j] ++ [k] ++ s) := by
      rintro s hs b ⟨i, hi⟩
      rw [List.append_assoc _ s, kindAt_append _ _ _ _ hat] at hi
      exact hs b i hi
    have e3 : c ++ [j] ++ [k] ++ [4, 1] = c ++ [j] ++ [k] ++ [4] ++ [1] := by simp
    rw [e3] at r3 r4
    rcases List.prefix_concat_iff.1 r3 with h | r3
    · exact absurd h r4
    rcases List.prefix_concat_iff.1 r3 with rfl | r3
    · refine bare_new [4] ?_
      intro b i
      match i with
      | 0 => simp [newImpl, kindAt, Src.at?, Src.children, Src.kind?]
      | 1 =>
        have := hy (some b)
        simpa [newImpl, kindAt, Src.at?, Src.children] using this
      | 2 => simp [newImpl, kindAt, Src.at?, Src.children, Src.kind?]
      | n + 3 => simp [newImpl, kindAt, Src.at?, Src.children]
    by_cases hrk : r = c ++ [j] ++ [k]
    · rw [hrk, ← List.append_nil (c ++ [j] ++ [k])]
      refine bare_new [] ?_
      intro b i
      match i with
      | 0 => simp [newImpl, kindAt, Src.at?, Src.children, Src.kind?]
      | 1 => simp [newImpl, kindAt, Src.at?, Src.children, Src.kind?]
      | 2 => simp [newImpl, kindAt, Src.at?, Src.children, Src.kind?]
      | 3 => simp [newImpl, kindAt, Src.at?, Src.children, Src.kind?]
      | 4 => simp [newImpl, kindAt, Src.at?, Src.children, Src.kind?]
      | n + 5 => simp [newImpl, kindAt, Src.at?, Src.children]
    · exact hin.2.2 r r1 r2 r3 hrk

theorem addCallable_adds (nm : List Nat → Option String) (implements : List Nat → Bool) (root : Src)
    (c : List Nat) (t : Insertion) (e : Edit) (a : AttrKind) (ik : IKind) (attr rest : List Char)
    (hb : Bracketed root) (hc : kindAt root c = some (.item .module))
    (hplain : t.plain = (annotated ik a attr rest).text) (hag : t.Agrees)
    (he : addCallable nm implements root c t = some e) :
    Adds nm implements root c e a (annotated ik a attr rest) := by
  have hy := annotated_kind ik a attr rest
  have hmark := annotated_marked ik a attr rest
  generalize annotated ik a attr rest = y at hplain hy hmark
  have hof : ∀ i, (rootImpl root c).or (inkImpl implements root c) = some i → Home implements root c i := by
    intro i hi
    rw [Option.or_eq_some_iff] at hi
    rcases hi with hi | ⟨h1, h2⟩
    · exact .inl ((firstInherent_iff root c i).1 hi)
    · refine .inr ⟨?_, inkImpl_spec implements root c i h2 hc⟩
      rintro ⟨i', hi'⟩
      rw [(firstInherent_iff root c i').2 hi'] at h1
      cases h1
  unfold addCallable at he
  split at he
  · rename_i i l hil
    simp only [Option.bind_eq_some_iff, Option.map_eq_some_iff, Prod.mk.injEq] at hil
    obtain ⟨i', hi', l', hl', rfl, rfl⟩ := hil
    obtain ⟨j, rfl, hj⟩ := (listOf_iff _ _ _).1 hl'
    obtain ⟨cs, hl⟩ := list_node root (i' ++ [j]) hj.list
    obtain ⟨ds, hds⟩ := hb _ cs hl
    obtain ⟨k, h1, h2, h3⟩ := assoc_slot (startAt 0 root (i' ++ [j])) cs ds hds
    have hws := ws_children (wsBefore root i')
    obtain ⟨g1, g2, g3⟩ := putEdit_puts root (i' ++ [j]) _ _ e .list cs k y hl h3
      (by
        simp only [Insertion.withIndent]
        rw [(C32_code _ _ hws).1, hplain]) he
    refine .inl ⟨i', j, cs, k, hof i' hi', hj, hl, h1, g1, ?_, keeps_of hl h2 hy, ?_⟩
    · refine ⟨_, t.snippet, hws, ?_, ?_, ?_⟩
      · rw [g2, ← hplain]
        simp [Insertion.withIndent]
      · rw [g3]
        simp [Insertion.withIndent]
      · rw [← hplain]
        exact hag
    · intro hlists hi
      exact callable_in_impl hj hl h2 hy hmark hlists hi
        (home_within implements root c i' hc hlists (hof i' hi'))
  · rename_i hnone
    have hno : ∀ i, (rootImpl root c).or (inkImpl implements root c) = some i →
        ¬ ∃ j, ItsList root i j := by
      rintro i hi ⟨j, hj⟩
      rw [hi, Option.bind_some, (listOf_iff root i (i ++ [j])).2 ⟨j, rfl, hj⟩] at hnone
      cases hnone
    simp only [Option.bind_eq_some_iff, moduleList_iff] at he
    obtain ⟨l, ⟨j, rfl, hm⟩, name, hname, he⟩ := he
    obtain ⟨cs, hl⟩ := list_node root (c ++ [j]) hm.2.list
    obtain ⟨ds, hds⟩ := hb _ cs hl
    obtain ⟨k, h1, h2, h3⟩ := scope_slot .impl (startAt 0 root (c ++ [j])) cs ds hds
    have hws := ws_children (wsBefore root c)
    have hws4 : White (itemChildrenIndenting (wsBefore root c) ++ "    ".toList) := by
      intro d hd
      rcases List.mem_append.1 hd with hd | hd
      · exact hws d hd
      · exact (by decide : ∀ d ∈ "    ".toList, isWs d = true) d hd
    have hyi : ∀ b, (newImpl name y).kind? ≠ some (.attr b) := by
      intro b
      simp [newImpl, Src.kind?]
    obtain ⟨g1, g2, g3⟩ := putEdit_puts root (c ++ [j]) _ _ e .list cs k (newImpl name y) hl h3
      (newImpl_code name _ _ y hws (by
        simp only [Insertion.withIndent]
        rw [(C32_code _ _ hws4).1, hplain])) he
    refine .inr ⟨?_, ?_, j, cs, k, name, itemChildrenIndenting (wsBefore root c), hm, hl, h1,
      contractName_spec nm root c name hname, g1, hws, ?_, keeps_of hl h2 hyi, ?_⟩
    · rintro ⟨i, j', hi, hj'⟩
      refine hno i ?_ ⟨j', hj'⟩
      rw [(firstInherent_iff root c i).2 hi]
      rfl
    · rintro hall ⟨i, j', hi | ⟨hf, hk, hi⟩, hj'⟩
      · refine hno i ?_ ⟨j', hj'⟩
        rw [(firstInherent_iff root c i).2 hi]
        rfl
      · obtain ⟨i', hi'⟩ := inkImpl_found implements root c hc (fun i h => (hall i h).1) i hk hi
        have hr : rootImpl root c = none := by
          cases hr : rootImpl root c with
          | none => rfl
          | some i2 => exact absurd ⟨i2, (firstInherent_iff root c i2).1 hr⟩ hf
        refine hno i' (by rw [hr, hi']; rfl) (hall i' ?_).2
        exact (inkImpl_spec implements root c i' hi' hc).2
    · refine ⟨_, t.snippet, hws4, ?_, ?_, ?_⟩
      · rw [g2, ← hplain]
        rfl
      · rw [g3]
        rfl
      · rw [← hplain]
        exact hag
    · intro hlists
      exact callable_in_new hm.2 hl h2 hy hmark hlists

theorem addCallable_some (nm : List Nat → Option String) (implements : List Nat → Bool) (root : Src)
    (c : List Nat) (t : Insertion) (hm : ∃ j, ModuleList root c j) (hn : nm c ≠ none) :
    ∃ e, addCallable nm implements root c t = some e := by
  obtain ⟨j, hm⟩ := hm
  obtain ⟨cs, hl⟩ := list_node root (c ++ [j]) hm.2.list
  obtain ⟨name, hname⟩ := contractName_some nm root c hm.1 hn
  unfold addCallable
  split
  · rename_i i l hil
    simp only [Option.bind_eq_some_iff, Option.map_eq_some_iff, Prod.mk.injEq] at hil
    obtain ⟨i', -, l', hl', rfl, rfl⟩ := hil
    obtain ⟨j', rfl, hj'⟩ := (listOf_iff _ _ _).1 hl'
    obtain ⟨cs', hcs'⟩ := list_node root (i' ++ [j']) hj'.list
    unfold putEdit
    rw [hcs']
    exact ⟨_, rfl⟩
  · rw [(moduleList_iff root c (c ++ [j])).2 ⟨j, rfl, hm⟩, Option.bind_some, hname, Option.bind_some]
    unfold putEdit
    rw [hl]
    exact ⟨_, rfl⟩

/-- The functions among the entities have the names collected, and there are not more names. -/
theorem fnNames_spec (nm : List Nat → Option String) (root : Src) (ps : List (List Nat)) :
    (∀ p ∈ ps, ∀ n, kindAt root p = some (.item .fn) → nm p = some n → n ∈ fnNames nm root ps) ∧
    (fnNames nm root ps).length ≤ ps.length := by
  unfold fnNames
  refine ⟨?_, (List.length_filterMap_le _ _).trans (List.length_filter_le _ _)⟩
  intro p hp n hk hn
  exact List.mem_filterMap.2 ⟨p, List.mem_filter.2 ⟨hp, by simp [hk]⟩, hn⟩

/-- The fix for a missing constructor: it exists if the contract is a module with a list and a name. It
adds a constructor, in an `impl` block of the contract or a new one, where it belongs to the contract
afterwards, with a name no message of the contract has; nothing that was there is gone. -/
theorem C100_constructor_fix_partial (nm : List Nat → Option String) (implements : List Nat → Bool)
    (root : Src) (c : List Nat) (r : Report) (hb : Bracketed root)
    (hc : kindAt root c = some (.item .module)) (hr : ensureConstructor nm implements root c = some r) :
    ((∃ j, ModuleList root c j) → nm c ≠ none → r.fixes ≠ []) ∧
    ∀ e ∈ r.fixes, ∃ name, Adds nm implements root c e (.arg .constructor)
        (newConstructor name.toList) ∧
      (Few (CallableOf root (.arg .message) c) → ∀ p, CallableOf root (.arg .message) c p →
        kindAt root p = some (.item .fn) → nm p ≠ some name) := by
  obtain ⟨hnone, hfix⟩ := atLeastOne_eq _ _ _ hr
  rw [hfix]
  constructor
  · intro hm hn h
    obtain ⟨e, he⟩ := addCallable_some nm implements root c
      (constructorInsertion (contractFnNames nm root c)) hm hn
    unfold addConstructor at h
    rw [he] at h
    cases h
  · intro e he
    rw [Option.mem_toList] at he
    refine ⟨suggestName "new" (contractFnNames nm root c), addCallable_adds nm implements root c _ e _ _
      _ _ hb hc (constructor_plain _) (fits_of_offered _ (.constructor _)).agrees he, ?_⟩
    intro hfew p hp hk hn
    have hs := fnNames_spec nm root (callables (.arg .message) root c)
    have heq : contractFnNames nm root c = fnNames nm root (callables (.arg .message) root c) := by
      unfold contractFnNames
      rw [hnone]
      rfl
    rw [heq] at hn
    have hlen := hfew _ (callables_nodup root _ (.inr rfl) c) (fun q hq =>
      (callables_iff root _ (.inr rfl) c q).1 hq)
    exact C31_fresh_partial "new" _ (Nat.lt_of_le_of_lt hs.2 hlen)
      (hs.1 p ((callables_iff root _ (.inr rfl) c p).2 hp) _ hk hn)

/-- The same for a missing message. -/
theorem C100_message_fix_partial (nm : List Nat → Option String) (implements : List Nat → Bool)
    (root : Src) (c : List Nat) (r : Report) (hb : Bracketed root)
    (hc : kindAt root c = some (.item .module)) (hr : ensureMessage nm implements root c = some r) :
    ((∃ j, ModuleList root c j) → nm c ≠ none → r.fixes ≠ []) ∧
    ∀ e ∈ r.fixes, ∃ name, Adds nm implements root c e (.arg .message) (newMessage name.toList) ∧
      (Few (CallableOf root (.arg .constructor) c) → ∀ p, CallableOf root (.arg .constructor) c p →
        kindAt root p = some (.item .fn) → nm p ≠ some name) := by
  obtain ⟨hnone, hfix⟩ := atLeastOne_eq _ _ _ hr
  rw [hfix]
  constructor
  · intro hm hn h
    obtain ⟨e, he⟩ := addCallable_some nm implements root c
      (messageInsertion (contractFnNames nm root c)) hm hn
    unfold addMessage at h
    rw [he] at h
    cases h
  · intro e he
    rw [Option.mem_toList] at he
    refine ⟨suggestName "my_message" (contractFnNames nm root c), addCallable_adds nm implements root c _
      e _ _ _ _ hb hc (message_plain _) (fits_of_offered _ (.message _)).agrees he, ?_⟩
    intro hfew p hp hk hn
    have hs := fnNames_spec nm root (callables (.arg .constructor) root c)
    have heq : contractFnNames nm root c = fnNames nm root (callables (.arg .constructor) root c) := by
      unfold contractFnNames
      rw [hnone, List.append_nil]
    rw [heq] at hn
    have hlen := hfew _ (callables_nodup root _ (.inl rfl) c) (fun q hq =>
      (callables_iff root _ (.inl rfl) c q).1 hq)
    exact C31_fresh_partial "my_message" _ (Nat.lt_of_le_of_lt hs.2 hlen)
      (hs.1 p ((callables_iff root _ (.inl rfl) c p).2 hp) _ hk hn)

/-! ### Impl blocks -/

theorem implFnNames_spec (nm : List Nat → Option String) (root : Src) (i : List Nat) (j : Nat)
    (cs : List Src) (hj : ItsList root i j) (hl : root.at? (i ++ [j]) = some (.node .list cs)) :
    (∀ m n, kindAt root (i ++ [j] ++ [m]) = some (.item .fn) → nm (i ++ [j] ++ [m]) = some n →
      n ∈ implFnNames nm root i) ∧ (implFnNames nm root i).length ≤ cs.length := by
  have heq : implFnNames nm root i =
      fnNames nm root ((List.range cs.length).map fun m => i ++ [j] ++ [m]) := by
    unfold implFnNames
    rw [(listOf_iff root i (i ++ [j])).2 ⟨j, rfl, hj⟩]
    simp only [hl, Src.children]
  rw [heq]
  obtain ⟨h1, h2⟩ := fnNames_spec nm root ((List.range cs.length).map fun m => i ++ [j] ++ [m])
  refine ⟨?_, by simpa using h2⟩
  intro m n hk hn
  refine h1 _ (List.mem_map.2 ⟨m, List.mem_range.2 ?_, rfl⟩) n hk hn
  rcases Nat.lt_or_ge m cs.length with h | h
  · exact h
  · rw [kindAt_child root _ _ m hl] at hk
    simp only [Src.children] at hk
    rw [List.getElem?_eq_none h] at hk
    cases hk

/-- What a fix that adds `new name` (with attribute `a`) to the `impl` block at `i` does. -/
def AddsTo (nm : List Nat → Option String) (root : Src) (i : List Nat) (e : Edit) (a : AttrKind)
    (new : List Char → Src) : Prop :=
  ∃ j cs k name, ItsList root i j ∧ root.at? (i ++ [j]) = some (.node .list cs) ∧ EndSlot cs k ∧
    Puts root e (i ++ [j]) k (new name.toList) ∧ Offers e [] (new name.toList) [] ∧
    Keeps root (i ++ [j]) k (new name.toList) ∧
    (cs.length < 254 → ∀ m, kindAt root (i ++ [j] ++ [m]) = some (.item .fn) →
      nm (i ++ [j] ++ [m]) ≠ some name) ∧
    (Bare root (i ++ [j]) →
      PartOf (putIn root (i ++ [j]) k (new name.toList)) a i (i ++ [j] ++ [k]))

theorem addToImpl_adds (nm : List Nat → Option String) (root : Src) (i : List Nat)
    (insertion : List String → Insertion) (e : Edit) (a : AttrKind) (new : List Char → Src)
    (pref : String) (hb : Bracketed root)
    (hplain : ∀ used, (insertion used).plain = (new (suggestName pref used).toList).text)
    (hag : ∀ used, (insertion used).Agrees) (hy : ∀ n b, (new n).kind? ≠ some (.attr b))
    (hmark : ∀ n, Marked (new n) a []) (he : addToImpl nm root i insertion = some e) :
    AddsTo nm root i e a new := by
  unfold addToImpl at he
  simp only [Option.bind_eq_some_iff, listOf_iff] at he
  obtain ⟨l, ⟨j, rfl, hj⟩, he⟩ := he
  obtain ⟨cs, hl⟩ := list_node root (i ++ [j]) hj.list
  obtain ⟨ds, hds⟩ := hb _ cs hl
  obtain ⟨k, h1, h2, h3⟩ := assoc_slot (startAt 0 root (i ++ [j])) cs ds hds
  have hws := ws_children (wsBefore root i)
  obtain ⟨g1, g2, g3⟩ := putEdit_puts root (i ++ [j]) _ _ e .list cs k
    (new (suggestName pref (implFnNames nm root i)).toList) hl h3
    (by
      simp only [Insertion.withIndent]
      rw [(C32_code _ _ hws).1, hplain]) he
  obtain ⟨n1, n2⟩ := implFnNames_spec nm root i j cs hj hl
  refine ⟨j, cs, k, _, hj, hl, h1, g1, ?_, keeps_of hl h2 (hy _), ?_,
    part_added hl h2 (hy _) a (hmark _)⟩
  · refine ⟨_, (insertion (implFnNames nm root i)).snippet, hws, ?_, ?_, ?_⟩
    · rw [g2, ← hplain]
      simp [Insertion.withIndent]
    · rw [g3]
      simp [Insertion.withIndent]
    · rw [← hplain]
      exact hag _
  · intro hlen m hk hn
    exact C31_fresh_partial pref _ (Nat.lt_of_le_of_lt n2 hlen) (n1 m _ hk hn)

theorem addToImpl_some (nm : List Nat → Option String) (root : Src) (i : List Nat)
    (insertion : List String → Insertion) :
    (∃ e, addToImpl nm root i insertion = some e) ↔ ∃ j, ItsList root i j := by
  unfold addToImpl
  simp only [Option.bind_eq_some_iff, listOf_iff]
  constructor
  · rintro ⟨e, l, ⟨j, -, hj⟩, -⟩
    exact ⟨j, hj⟩
  · rintro ⟨j, hj⟩
    obtain ⟨cs, hl⟩ := list_node root (i ++ [j]) hj.list
    have : ∀ t, ∃ e, putEdit root (i ++ [j]) insertAssocEnd t = some e := by
      intro t
      unfold putEdit
      rw [hl]
      exact ⟨_, rfl⟩
    obtain ⟨e, he⟩ := this _
    exact ⟨e, _, ⟨j, rfl, hj⟩, he⟩

/-- The fixes for a reported ink! impl: none unless it is an `impl` block with a list; and then one that
adds a constructor and one that adds a message at its end, with names no function of it has. Either way
what was there stays, and the block is no longer reported. -/
theorem C100_impl_fix_partial (nm : List Nat → Option String) (root : Src) (i : List Nat) (r : Report)
    (hb : Bracketed root) (hr : ensureImpl nm root i = some r) :
    (¬ (IsImpl root i ∧ ∃ j, ItsList root i j) → r.fixes = []) ∧
    (IsImpl root i ∧ (∃ j, ItsList root i j) → ∃ e e', r.fixes = [e, e'] ∧
      AddsTo nm root i e (.arg .constructor) newConstructor ∧
      AddsTo nm root i e' (.arg .message) newMessage) := by
  have hfix : r.fixes = if implKind <$> kindAt root i == some true then
      (addToImpl nm root i constructorInsertion).toList ++
        (addToImpl nm root i messageInsertion).toList else [] := by
    unfold ensureImpl at hr
    split at hr
    · cases hr
      rfl
    · cases hr
  have hk : (implKind <$> kindAt root i == some true) = true ↔ IsImpl root i := by
    unfold IsImpl
    cases kindAt root i with
    | none => simp
    | some k =>
      cases k with
      | item k => cases k <;> simp [implKind]
      | _ => simp [implKind]
  constructor
  · intro h
    rw [hfix]
    split
    · rename_i h1
      have hno : ∀ ins, addToImpl nm root i ins = none := by
        intro ins
        cases ha : addToImpl nm root i ins with
        | none => rfl
        | some e => exact absurd ⟨hk.1 h1, (addToImpl_some nm root i ins).1 ⟨e, ha⟩⟩ h
      rw [hno, hno]
      rfl
    · rfl
  · rintro ⟨h1, h2⟩
    obtain ⟨e, he⟩ := (addToImpl_some nm root i constructorInsertion).2 h2
    obtain ⟨e', he'⟩ := (addToImpl_some nm root i messageInsertion).2 h2
    refine ⟨e, e', ?_, ?_, ?_⟩
    · rw [hfix, if_pos (hk.2 h1), he, he']
      rfl
    · exact addToImpl_adds nm root i _ e _ _ "new" hb constructor_plain
        (fun u => (fits_of_offered _ (.constructor u)).agrees) (fun n => annotated_kind _ _ _ _)
        (fun n => annotated_marked _ _ _ _) he
    · exact addToImpl_adds nm root i _ e' _ _ "my_message" hb message_plain
        (fun u => (fits_of_offered _ (.message u)).agrees) (fun n => annotated_kind _ _ _ _)
        (fun n => annotated_marked _ _ _ _) he'

/-- Of the ink! impls of a contract, only those that implement an ink! trait definition are ever
reported, so that the constructor and the message offered are always functions for the `impl` block of a
trait, which cannot have functions of its own. -/
theorem C100_negation_impl (nm : List Nat → Option String) (implements : List Nat → Bool) (root : Src)
    (c i : List Nat) (hi : InkImplOf implements root c i)
    (hr : (ensureImpl nm root i).isSome = true) : implements i = true := by
  obtain ⟨h1, h2, h3⟩ := (C100_impl_reported nm root i).1 hr
  rcases hi.2 with h | ⟨-, ⟨f, h | h⟩ | h⟩
  · exact absurd h h1
  · exact absurd ⟨f, h⟩ h2
  · exact absurd ⟨f, h⟩ h3
  · exact h

/-! ## Cases -/

/-- The tree is an ink! attribute. -/
def isInkAttr : Src → Bool
  | .node (.attr (some _)) _ => true
  | _ => false

mutual

/-- Whether lists of items carry no ink! attributes. -/
def listsOk : Src → Bool
  | .tok _ _ => true
  | .node k cs => (k != .list || !cs.any isInkAttr) && listsOkAll cs

/-- The same for trees in a row. -/
def listsOkAll : List Src → Bool
  | [] => true
  | c :: cs => listsOk c && listsOkAll cs

end

theorem listsOk_mem (cs : List Src) (h : listsOkAll cs = true) (c : Src) (hc : c ∈ cs) :
    listsOk c = true := by
  induction cs with
  | nil => cases hc
  | cons d ds ih =>
    rw [listsOkAll, Bool.and_eq_true] at h
    rcases List.mem_cons.1 hc with rfl | hc
    · exact h.1
    · exact ih h.2 hc

theorem bareLists_of (root : Src) (h : listsOk root = true) : BareLists root := by
  intro l
  induction l generalizing root with
  | nil =>
    rintro hl k ⟨i, hi⟩
    cases root with
    | tok w t => simp [kindAt, Src.at?, Src.kind?] at hl
    | node k' cs =>
      simp only [kindAt, Src.at?, Src.kind?, Option.bind_some, Option.some.injEq] at hl
      subst hl
      rw [listsOk, Bool.and_eq_true] at h
      have h1 := h.1
      simp only [bne_self_eq_false, Bool.false_or, Bool.not_eq_true'] at h1
      rw [List.any_eq_false] at h1
      simp only [kindAt, List.nil_append, Src.at?, Src.children, Option.bind_assoc] at hi
      rw [Option.bind_eq_some_iff] at hi
      obtain ⟨d, hd, hk⟩ := hi
      refine h1 d (List.mem_of_getElem? hd) ?_
      cases d with
      | tok w t => simp [Src.kind?] at hk
      | node k'' ds =>
        simp only [Src.kind?, Option.bind_some, Option.some.injEq] at hk
        subst hk
        rfl
  | cons i l ih =>
    intro hl
    have hl' := hl
    unfold kindAt at hl'
    rw [Src.at?] at hl'
    cases hc : root.children[i]? with
    | none => rw [hc] at hl'; cases hl'
    | some c =>
      rw [hc] at hl'
      have hok : listsOk c = true := by
        cases root with
        | tok w t => simp [Src.children] at hc
        | node k ds =>
          rw [listsOk, Bool.and_eq_true] at h
          exact listsOk_mem ds h.2 c (List.mem_of_getElem? hc)
      have := ih c hok hl'
      rintro k ⟨j, hj⟩
      refine this k ⟨j, ?_⟩
      unfold kindAt at hj ⊢
      rw [List.cons_append, Src.at?, hc] at hj
      exact hj

/-- A contract with the items. -/
def exModule (items : List Src) : Src :=
  .node .other [.node (.item .module) [
    .node (.attr (some (.macro .contract))) [.tok false "#[ink::contract]".toList], .tok true ['\n'],
    .tok false "mod c ".toList, .node .list ([.tok false ['{'], .tok true "\n    ".toList] ++ items ++
      [.tok true ['\n'], .tok false ['}']])]]

/-- A contract in which all is missing. -/
def exEmpty : Src := exModule [.node (.item .use) [.tok false "use d::e;".toList]]

/-- The module is named `c`. -/
def exName : List Nat → Option String
  | [0] => some "c"
  | _ => none

/-- No trait is implemented. -/
def exNoTrait : List Nat → Bool := fun _ => false

example : Bracketed exEmpty ∧ BareLists exEmpty ∧ kindAt exEmpty [0] = some (.item .module) ∧
    (∀ n, exName [0] = some n → Clean (pascalCase n.toList) ∧ pascalCase n.toList ≠ []) ∧
    ((ensureStorage exName exEmpty [0]).bind (·.fixes.head?)).bind (applyEdit exEmpty.text) =
      some "#[ink::contract]
mod c {
    use d::e;    #[ink(storage)]
    pub struct C {}
}".toList ∧
    ((ensureConstructor exName exNoTrait exEmpty [0]).bind (·.fixes.head?)).bind
      (applyEdit exEmpty.text) = some "#[ink::contract]
mod c {
    use d::e;    impl C {
        #[ink(constructor)]
        pub fn new() -> Self {
            todo!()
        }
    }
}".toList ∧
    ((ensureMessage exName exNoTrait exEmpty [0]).bind (·.fixes.head?)).bind (applyEdit exEmpty.text) =
      some "#[ink::contract]
mod c {
    use d::e;    impl C {
        #[ink(message)]
        pub fn my_message(&self) {
            todo!()
        }
    }
}".toList := by
  refine ⟨bracketed_of _ (by decide +kernel), bareLists_of _ (by decide +kernel), by decide +kernel, ?_,
    by decide +kernel, by decide +kernel, by decide +kernel⟩
  intro n hn
  cases hn
  decide +kernel

/-- A contract with a constructor `my_message`. -/
def exTaken : Src := exModule [.node (.item (.impl false)) [.tok false "impl C ".toList,
  .node .list [.tok false ['{'], newConstructor "my_message".toList, .tok false ['}']]]]

/-- The names of the module and of the constructor. -/
def exTakenName : List Nat → Option String
  | [0] => some "c"
  | [0, 3, 2, 1, 1] => some "my_message"
  | _ => none

example : Bracketed exTaken ∧ BareLists exTaken ∧ kindAt exTaken [0] = some (.item .module) ∧
    Few (CallableOf exTaken (.arg .constructor) [0]) ∧
    kindAt exTaken [0, 3, 2, 1, 1] = some (.item .fn) ∧
    CallableOf exTaken (.arg .constructor) [0] [0, 3, 2, 1, 1] ∧
    ((ensureMessage exTakenName exNoTrait exTaken [0]).bind (·.fixes.head?)).map (·.text) =
      some "        #[ink(message)]
        pub fn my_message2(&self) {
            todo!()
        }".toList := by
  have hcs : callables (.arg .constructor) exTaken [0] = [[0, 3, 2, 1, 1]] := by decide +kernel
  refine ⟨bracketed_of _ (by decide +kernel), bareLists_of _ (by decide +kernel), by decide +kernel, ?_,
    by decide +kernel, ?_, ?_⟩
  · intro L hn hL
    have h1 : ∀ p ∈ L, p = [0, 3, 2, 1, 1] := by
      intro p hp
      have := (callables_iff exTaken _ (.inl rfl) [0] p).2 (hL p hp)
      rw [hcs] at this
      simpa using this
    match L, hn, h1 with
    | [], _, _ => decide
    | [_], _, _ => exact (by decide : 1 < 254)
    | a :: b :: _, hn, h1 =>
      rw [h1 a (by simp), h1 b (by simp)] at hn
      simp at hn
  · refine (callables_iff exTaken _ (.inl rfl) [0] _).1 ?_
    rw [hcs]
    simp
  · decide +kernel

/-- A trait definition with no messages. -/
def exTrait (its : List Src) : Src :=
  .node .other [.node (.item .trait) [
    .node (.attr (some (.macro .traitDefinition))) [.tok false "#[ink::trait_definition]".toList],
    .tok true ['\n'], .tok false "pub trait D ".toList,
    .node .list ([.tok false ['{']] ++ its ++ [.tok false ['}']])]]

example : Bracketed (exTrait []) ∧ Bare (exTrait []) [0, 3] ∧
    ((ensureTraitMessage exName (exTrait []) [0]).bind (·.fixes.head?)).bind
      (applyEdit (exTrait []).text) = some "#[ink::trait_definition]
pub trait D {    #[ink(message)]
    fn my_message(&self);}".toList :=
  ⟨bracketed_of _ (by decide +kernel), bareLists_of _ (by decide +kernel) _ (by decide +kernel),
    by decide +kernel⟩

/-- A contract with an `impl` block of a trait definition in which there is nothing. -/
def exUnfilled : Src := exModule [.node (.item (.impl true)) [
  .node (.attr (some (.arg .namespace))) [.tok false "#[ink(namespace = \"n\")]".toList],
  .tok true "\n    ".toList, .tok false "impl D for C ".toList,
  .node .list [.tok false ['{'], .tok false ['}']]]]

/-- The trait of the `impl` block is an ink! trait definition. -/
def exDefined : List Nat → Bool := fun p => p == [0, 3, 2]

example : Bracketed exUnfilled ∧ InkImplOf exDefined exUnfilled [0] [0, 3, 2] ∧
    IsImpl exUnfilled [0, 3, 2] ∧ (∃ j, ItsList exUnfilled [0, 3, 2] j) ∧
    ((ensureImpl exName exUnfilled [0, 3, 2]).map (·.fixes.length)) = some 2 ∧
    ((ensureImpl exName exUnfilled [0, 3, 2]).bind (·.fixes.head?)).bind (applyEdit exUnfilled.text) =
      some "#[ink::contract]
mod c {
    #[ink(namespace = \"n\")]
    impl D for C {        #[ink(constructor)]
        pub fn new() -> Self {
            todo!()
        }}
}".toList := by
  refine ⟨bracketed_of _ (by decide +kernel), ?_, ⟨true, by decide +kernel⟩, ?_, by decide +kernel,
    by decide +kernel⟩
  · refine (inkImplOf_iff exDefined exUnfilled [0] [0, 3, 2]).1
      ((Walk.mem_implsBelow id shape exDefined (toNode exUnfilled) [0] [0, 3, 2] ⟨_, rfl⟩).1
        (by decide +kernel))
  · have : listOf exUnfilled [0, 3, 2] = some [0, 3, 2, 3] := by decide +kernel
    obtain ⟨j, -, hj⟩ := (listOf_iff _ _ _).1 this
    exact ⟨j, hj⟩

/-- A contract with a `struct` named like it. -/
def exStruct : Src := exContract []

/-- The names of the module and of the `struct`. -/
def exStructName : List Nat → Option String
  | [0] => some "c"
  | [0, 3, 2] => some "C"
  | _ => none

/-- The fix for a missing storage adds a second `struct` of the same name if the contract has one that
is not annotated. -/
theorem C100_negation_struct : ∃ nm root c p e, Bracketed root ∧
    (ensureStorage nm root c).map (·.fixes) = some [e] ∧
    kindAt root p = some (.item .struct) ∧ (∃ j m, ModuleList root c j ∧ p = c ++ [j, m]) ∧
    nm p = some "C" ∧ "pub struct C {}".toList <:+ e.text := by
  have hl : moduleList exStruct [0] = some [0, 3] := by decide +kernel
  obtain ⟨j, hj, hm⟩ := (moduleList_iff _ _ _).1 hl
  have : j = 3 := by simpa using hj.symm
  subst this
  exact ⟨exStructName, exStruct, [0], [0, 3, 2],
    ⟨"    #[ink(storage)]\n    pub struct C {}".toList, 24, 24,
      some "    #[ink(storage)]\n    pub struct ${1:C} {\n        $2\n    }".toList⟩,
    bracketed_of _ (by decide +kernel), by decide +kernel, by decide +kernel,
    ⟨3, 2, hm, rfl⟩, rfl, by decide +kernel⟩

/-- A function that is not annotated. -/
def exPlain (text : String) : Src := .node (.item .fn) [.tok false text.toList]

/-- A contract with a function `new` that is not annotated. -/
def exFunction : Src := exModule [exImpl false [exPlain "fn new() {}"]]

/-- The names of the module and of the function. -/
def exFunctionName : List Nat → Option String
  | [0] => some "c"
  | [0, 3, 2, 1, 1] => some "new"
  | _ => none

/-- The fix for a missing constructor adds a second function of the same name to the `impl` block if that
has one that is not annotated. -/
theorem C100_negation_function : ∃ nm implements root c i j k, Bracketed root ∧
    FirstInherent root c i ∧ ItsList root i j ∧ kindAt root (i ++ [j] ++ [k]) = some (.item .fn) ∧
    nm (i ++ [j] ++ [k]) = some "new" ∧
    ((ensureConstructor nm implements root c).bind (·.fixes.head?)).bind (applyEdit root.text) =
      some "#[ink::contract]
mod c {
    impl C {fn new() {}        #[ink(constructor)]
        pub fn new() -> Self {
            todo!()
        }}
}".toList := by
  have hl : listOf exFunction [0, 3, 2] = some [0, 3, 2, 1] := by decide +kernel
  obtain ⟨j, hj, hm⟩ := (listOf_iff _ _ _).1 hl
  have : j = 1 := by simpa using hj.symm
  subst this
  have hr : rootImpl exFunction [0] = some [0, 3, 2] := by decide +kernel
  exact ⟨exFunctionName, exNoTrait, exFunction, [0], [0, 3, 2], 1, 1,
    bracketed_of _ (by decide +kernel), (firstInherent_iff _ _ _).1 hr, hm, by decide +kernel, rfl,
    by decide +kernel⟩

/-- The name of the function of the trait. -/
def exTraitName : List Nat → Option String
  | [0, 3, 1] => some "my_message"
  | _ => none

/-- The fix for a trait definition without messages adds a second function of the same name if the trait
has one that is not annotated. -/
theorem C100_negation_trait_function : ∃ nm root c j k, Bracketed root ∧ ItsList root c j ∧
    kindAt root (c ++ [j] ++ [k]) = some (.item .fn) ∧ nm (c ++ [j] ++ [k]) = some "my_message" ∧
    ((ensureTraitMessage nm root c).bind (·.fixes.head?)).bind (applyEdit root.text) =
      some "#[ink::trait_definition]
pub trait D {fn my_message();    #[ink(message)]
    fn my_message(&self);}".toList := by
  have hl : listOf (exTrait [exPlain "fn my_message();"]) [0] = some [0, 3] := by decide +kernel
  obtain ⟨j, hj, hm⟩ := (listOf_iff _ _ _).1 hl
  have : j = 3 := by simpa using hj.symm
  subst this
  exact ⟨exTraitName, exTrait [exPlain "fn my_message();"], [0], 3, 1,
    bracketed_of _ (by decide +kernel), hm, by decide +kernel, rfl, by decide +kernel⟩

/-- A contract with an `impl` block of something else in front of its own. -/
def exOther : Src := exModule [newStorage ['C'], .tok true "\n    ".toList,
  .node (.item (.impl false)) [.tok false "impl Other ".toList,
    .node .list [.tok false ['{'], .tok false ['}']]], .tok true "\n    ".toList, exImpl false []]

/-- The names of the module and of the storage. -/
def exOtherName : List Nat → Option String
  | [0] => some "c"
  | [0, 3, 2] => some "C"
  | _ => none

/-- Constructors and messages are added to the first `impl` block of no trait in the contract, even if
that is one for another type than the storage. -/
theorem C100_negation_type : ∃ nm implements root c, Bracketed root ∧
    (∃ p, PartOf root (.arg .storage) c p ∧ nm p = some "C") ∧
    ((ensureMessage nm implements root c).bind (·.fixes.head?)).bind (applyEdit root.text) =
      some "#[ink::contract]
mod c {
    #[ink(storage)]
pub struct C {}
    impl Other {        #[ink(message)]
        pub fn my_message(&self) {
            todo!()
        }}
    impl C {}
}".toList := by
  exact ⟨exOtherName, exNoTrait, exOther, [0],
    bracketed_of _ (by decide +kernel),
    ⟨[0, 3, 2], (below_iff _ _ _ _).1 (by decide +kernel), rfl⟩,
    by decide +kernel⟩

end Verif.Analyzer.Missing
