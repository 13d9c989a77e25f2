import Verif.Analyzer.SignatureExactProps
import Verif.Util.Chars

/-!
# C122: signature help shows arguments of the version in use and explains them
-/

namespace Verif.Analyzer.SigDoc

open Verif.Ir

/-! ## Specification -/

/-- The arguments that came with ink! 5. -/
def newInFive : List ArgKind :=
  [.backend, .decode, .encode, .function, .node, .runtimeOnly, .sandbox, .signatureTopic, .typeInfo]

/-- The argument exists in a version of ink! (`additional_contracts` is deprecated in ink! 5, but
still accepted). -/
def Exists (v : Version) (k : ArgKind) : Prop := k ≠ .unknown ∧ (k ∈ newInFive → v = .v5)

instance (v : Version) (k : ArgKind) : Decidable (Exists v k) := by unfold Exists; infer_instance

/-- The argument is the one that gives the attribute, or the primary attribute of the item, its
kind. -/
def Written (c : SigContext) (k : ArgKind) : Prop :=
  c.kind = .arg k ∨ c.primary = some (.arg k)

/-- A text about an argument: what is to be known about the type of its value, if there is
anything, then an empty line, then what the argument is for in this version of ink!. -/
def Explains (v : Version) (k : ArgKind) (text : List Char) : Prop :=
  argDetail k v ≠ [] ∧ text = match documentedDetail k with
    | some d => d.toList ++ '\n' :: '\n' :: argDetail k v
    | none => argDetail k v

/-- The signature shows these arguments, one parameter and one text each. -/
structure ShowsWith (v : Version) (s : SigHelp) (kinds : List ArgKind) : Prop where
  params : Describes s (kinds.map (paramSpec v (decide (.constructor ∈ kinds))))
  docs : s.docs.length = kinds.length

/-! ## Lemmas -/

theorem fold_docs (v : Version) (args : List ArgKind) (focused : Option FocusedArg)
    (l : List ArgKind) (st : SigState) :
    (l.foldl (sigStep v args focused) st).docs = st.docs ++ l.map (paramDoc v args) := by
  induction l generalizing st with
  | nil => simp
  | cons k l ih =>
    rw [List.foldl_cons, ih]
    simp [sigStep]

theorem doc_of_add (v : Version) (args : List ArgKind) (focused : Option FocusedArg)
    (range : Nat × Nat) (s : SigHelp) (h : s ∈ addSignature v args focused range) :
    s.docs = (sigSorted args).map (paramDoc v args) ∧
      s.label = (sigLoop v args focused).signature ∧ s.params = (sigLoop v args focused).params := by
  unfold addSignature at h
  simp only at h
  split at h
  · obtain rfl := List.mem_singleton.1 h
    refine ⟨?_, rfl, rfl⟩
    unfold sigLoop
    rw [fold_docs]
    simp
  · cases h

theorem describes_add (v : Version) (args : List ArgKind) (focused : Option FocusedArg)
    (range : Nat × Nat) (s : SigHelp) (h : s ∈ addSignature v args focused range) :
    ShowsWith v s (sigSorted args) := by
  obtain ⟨h1, h2, h3⟩ := doc_of_add v args focused range s h
  have hperm : (sigSorted args).Perm args := Util.sortBy_perm _ _
  have hinv : SigInv ((sigSorted args).map (paramText v args)) (sigLoop v args focused) := by
    have := sigFold_inv v args focused (sigSorted args) [] ⟨[], [], none, none, []⟩
      ⟨rfl, by simp, rfl, by simp, by simp, by simp⟩
    rw [List.nil_append] at this
    exact this
  rw [funext (paramText_eq v args)] at hinv
  have hc : (decide (ArgKind.constructor ∈ sigSorted args)) = decide (ArgKind.constructor ∈ args) := by
    simp only [hperm.mem_iff]
  refine ⟨?_, by rw [h1]; simp⟩
  rw [hc]
  refine ⟨h2.trans hinv.label, by rw [h3]; exact hinv.count, ?_, ?_⟩
  · rw [h2, h3]; exact hinv.selects
  · rw [h3]; exact hinv.apart

theorem valueDetail_eq (v : Version) (args : List ArgKind) (k : ArgKind) :
    (valueDetail (sigValueKind v args k)).toList = ((documentedDetail k).map (·.toList)).getD [] ∧
      (documentedDetail k).map (·.toList) ≠ some [] := by
  have key : ∀ v ∈ [Version.v4, .v5], ∀ k ∈ ArgKind.all, ∀ c ∈ [true, false],
      (valueDetail (if v = .v5 then ValueKind.ofArgV5 k (if c then some true else none)
        else ValueKind.ofArg k)).toList = ((documentedDetail k).map (·.toList)).getD [] ∧
      (documentedDetail k).map (·.toList) ≠ some [] := by decide +kernel
  have := key v (by cases v <;> simp) k (ArgKind.mem_all k) (decide (.constructor ∈ args))
    (by cases decide (ArgKind.constructor ∈ args) <;> simp)
  rw [← this.1]
  refine ⟨?_, this.2⟩
  unfold sigValueKind
  simp

theorem argDetail_ne (v : Version) (k : ArgKind) (h : Exists v k) : argDetail k v ≠ [] := by
  have key : ∀ v ∈ [Version.v4, .v5], ∀ k ∈ ArgKind.all, Exists v k →
      (argDetail k v).isEmpty = false := by decide +kernel
  intro hn
  have := key v (by cases v <;> simp) k (ArgKind.mem_all k) h
  rw [hn] at this
  cases this

/-- The text of an argument which exists. -/
theorem paramDoc_explains (v : Version) (args : List ArgKind) (k : ArgKind) (h : Exists v k) :
    ∃ text, paramDoc v args k = some text ∧ Explains v k text := by
  have hne := argDetail_ne v k h
  obtain ⟨h1, h2⟩ := valueDetail_eq v args k
  unfold paramDoc
  rw [h1]
  cases hd : documentedDetail k with
  | none =>
    refine ⟨argDetail k v, ?_, hne, by rw [hd]⟩
    have : (argDetail k v).isEmpty = false := by simpa using hne
    simp [this, List.intercalate, List.intersperse]
  | some d =>
    rw [hd] at h2
    have hdn : d.toList ≠ [] := fun hn => h2 (by simp [hn])
    have h3 : (argDetail k v).isEmpty = false := by simpa using hne
    have h4 : d.toList.isEmpty = false := by simpa using hdn
    refine ⟨d.toList ++ '\n' :: '\n' :: argDetail k v, ?_, hne, by rw [hd]⟩
    simp only [Option.map_some, Option.getD_some, List.filter, h3, h4, Bool.not_false]
    simp [List.intercalate, List.intersperse]

theorem explains_inj (v : Version) (a b : ArgKind) (text : List Char) (ha : Exists v a)
    (hb : Exists v b) (h1 : Explains v a text) (h2 : Explains v b text) : a = b := by
  have key : ∀ v ∈ [Version.v4, .v5], ∀ a ∈ ArgKind.all, ∀ b ∈ ArgKind.all, Exists v a →
      Exists v b → (match documentedDetail a with
        | some d => d.toList ++ '\n' :: '\n' :: argDetail a v
        | none => argDetail a v) = (match documentedDetail b with
        | some d => d.toList ++ '\n' :: '\n' :: argDetail b v
        | none => argDetail b v) → a = b := by decide +kernel
  exact key v (by cases v <;> simp) a (ArgKind.mem_all a) b (ArgKind.mem_all b) ha hb
    (h1.2.symm.trans h2.2)

theorem siblings_exist (v : Version) (k : AttrKind) : ∀ a ∈ validSiblings k v, Exists v a := by
  cases k with
  | arg k =>
    have key : ∀ v ∈ [Version.v4, .v5], ∀ k ∈ ArgKind.all, ∀ a ∈ validSiblings (.arg k) v,
        Exists v a := by decide +kernel
    exact key v (by cases v <;> simp) k (ArgKind.mem_all k)
  | «macro» m => cases m <;> cases v <;> decide

theorem syntax_exist (v : Version) (item : ItemKind) : ∀ a ∈ argsBySyntax item v, Exists v a := by
  cases item <;> cases v <;> decide

theorem around_exist (v : Version) (k : ArgKind) (l : List ArgKind) (h : Around v k l) :
    ∀ a ∈ l, Exists v a ∨ a = k := by
  cases h with
  | primary =>
    intro a ha
    rcases List.mem_cons.1 ha with rfl | ha
    · exact .inr rfl
    · exact .inl (siblings_exist v _ a ha)
  | related p _ hp =>
    intro a ha
    rcases List.mem_cons.1 ha with rfl | ha
    · exact .inl (siblings_exist v _ _ hp)
    · exact .inl (siblings_exist v _ a ha)
  | alone =>
    intro a ha
    rcases List.mem_cons.1 ha with rfl | ha
    · exact .inr rfl
    · exact .inl (siblings_exist v _ a ha)
  | «namespace» => exact fun a ha => .inr (List.mem_singleton.1 ha)

theorem relevant_exist (v : Version) (c : SigContext) (focused : Option FocusedArg)
    (l : List ArgKind) (h : RelevantArgs v c focused l) : ∀ a ∈ l, Exists v a ∨ Written c a := by
  intro a ha
  cases h with
  | primary k hk =>
    rcases List.mem_cons.1 ha with rfl | ha
    · exact .inr (.inl hk)
    · exact .inl (siblings_exist v _ a ha)
  | separate k p hk _ hp =>
    rcases List.mem_cons.1 ha with rfl | ha
    · exact .inr (.inr hp.1)
    · exact .inl (siblings_exist v _ a ha)
  | known k l hk _ _ _ h =>
    rcases around_exist v k l h a ha with h | rfl
    · exact .inl h
    · exact .inr (.inl hk)
  | guessed k l _ _ hp h =>
    obtain ⟨item, _, hi, _⟩ := hp.item
    rcases around_exist v k l h a ha with h | rfl
    · exact .inl h
    · exact .inl (syntax_exist v item _ hi)
  | macroArgs m => exact .inl (siblings_exist v _ a ha)

/-! ## Theorems -/

/-- Every signature offered shows arguments that exist in the version of ink! in use, except for
the argument that is written already, and each of those that exist is explained, for that
version, by a text of its own. Missing: an argument written already need not exist
(`C122_negation`). -/
theorem C122_explained_partial (v : Version) (c : SigContext) (t : ParenTree)
    (args : List ((Nat × Nat) × FocusedArg)) (offset : Nat) (s : SigHelp)
    (h : s ∈ signatureHelp v c t args offset) :
    ∃ kinds : List ArgKind, kinds ≠ [] ∧ ShowsWith v s kinds ∧
      (∀ k ∈ kinds, Exists v k ∨ Written c k) ∧
      (∀ (i : Nat) (k : ArgKind), kinds[i]? = some k → Exists v k →
        ∃ text, s.docs[i]? = some (some text) ∧ Explains v k text) ∧
      ∀ (i j : Nat) (a b : ArgKind) (text : List Char), kinds[i]? = some a → kinds[j]? = some b →
        Exists v a → Exists v b → s.docs[i]? = some (some text) →
        s.docs[j]? = some (some text) → a = b := by
  obtain ⟨_, l, hl, hs⟩ :=
    (raw_iff v c t args offset s).1 ((Util.uniqueByFrom_sublist _ _ _).mem h)
  have hperm : (sigSorted l).Perm l := Util.sortBy_perm _ _
  have hdoc : ∀ (i : Nat) (k : ArgKind), (sigSorted l)[i]? = some k → Exists v k →
      ∃ text, s.docs[i]? = some (some text) ∧ Explains v k text := by
    intro i k hi hk
    obtain ⟨text, h1, h2⟩ := paramDoc_explains v l k hk
    refine ⟨text, ?_, h2⟩
    rw [(doc_of_add v l _ _ s hs).1, List.getElem?_map, hi, Option.map_some, h1]
  refine ⟨sigSorted l, ?_, describes_add v l _ _ s hs, ?_, hdoc, ?_⟩
  · intro hn
    rw [hn] at hperm
    exact relevant_ne v c _ l hl (List.Perm.nil_eq hperm).symm
  · intro k hk
    exact relevant_exist v c _ l hl k (hperm.mem_iff.1 hk)
  · intro i j a b text hi hj ha hb h1 h2
    obtain ⟨t1, g1, e1⟩ := hdoc i a hi ha
    obtain ⟨t2, g2, e2⟩ := hdoc j b hj hb
    rw [g1] at h1
    rw [g2] at h2
    cases h1
    cases h2
    exact explains_inj v a b _ ha hb e1 e2

/-- In ink! 5 every parameter of every signature is explained. -/
theorem C122_five (c : SigContext) (t : ParenTree) (args : List ((Nat × Nat) × FocusedArg))
    (offset : Nat) (s : SigHelp) (h : s ∈ signatureHelp .v5 c t args offset) :
    s.params.length = s.docs.length ∧ ∀ d ∈ s.docs, ∃ text, d = some text ∧ text ≠ [] := by
  obtain ⟨_, l, hl, hs⟩ :=
    (raw_iff .v5 c t args offset s).1 ((Util.uniqueByFrom_sublist _ _ _).mem h)
  have hsh := describes_add .v5 l _ _ s hs
  refine ⟨by rw [hsh.params.count, hsh.docs]; simp, ?_⟩
  have hne : ∀ a ∈ l, a ≠ .unknown := by
    have hw := relevant_exist .v5 c _ l hl
    intro a ha
    rcases hw a ha with h | h
    · exact h.1
    · rintro rfl
      have hsib : ∀ k, ArgKind.unknown ∉ validSiblings k .v5 := fun k hk =>
        (siblings_exist .v5 k _ hk).1 rfl
      have har : ∀ k, k ≠ ArgKind.unknown → Around .v5 k l → False := by
        intro k hk hl
        rcases around_exist .v5 k l hl _ ha with h | h
        · exact h.1 rfl
        · exact hk h.symm
      cases hl with
      | primary k hk he =>
        rcases List.mem_cons.1 ha with rfl | ha
        · cases he
        · exact hsib _ ha
      | separate k p hk _ hp =>
        rcases List.mem_cons.1 ha with rfl | ha
        · cases hp.2
        · exact hsib _ ha
      | known k _ hk _ _ hu h => exact har k hu h
      | guessed k _ _ _ hp h =>
        obtain ⟨item, _, hi, _⟩ := hp.item
        exact har k (syntax_exist .v5 item _ hi).1 h
      | macroArgs m => exact hsib _ ha
  intro d hd
  rw [(doc_of_add .v5 l _ _ s hs).1] at hd
  obtain ⟨k, hk, rfl⟩ := List.mem_map.1 hd
  have hperm : (sigSorted l).Perm l := Util.sortBy_perm _ _
  obtain ⟨text, h1, h2⟩ := paramDoc_explains .v5 l k ⟨hne k (hperm.mem_iff.1 hk), fun _ => rfl⟩
  refine ⟨text, h1, ?_⟩
  rintro rfl
  have := h2.2
  cases hd : documentedDetail k with
  | none => rw [hd] at this; exact h2.1 this.symm
  | some d =>
    rw [hd] at this
    simp at this

/-- In an ink! 4 project, signature help for `#[ink(function = 1)]` presents an argument that does
not exist there, without an explanation, as if it were valid. -/
theorem C122_negation : ∃ (c : SigContext) (t : ParenTree)
    (args : List ((Nat × Nat) × FocusedArg)) (offset : Nat) (s : SigHelp),
    s ∈ signatureHelp .v4 c t args offset ∧ s.label = "function: u16".toList ∧
      ¬ Exists .v4 .function ∧ s.docs = [none] :=
  ⟨⟨.arg .function, none, some .fn, none⟩, ⟨5, 19, some 6, some 18⟩,
    [((6, 18), ⟨.function, some "function".toList⟩)], 7,
    ⟨"function: u16".toList, (6, 18), [(0, 13)], some 0, [none]⟩,
    by decide +kernel, rfl, by decide, rfl⟩

/-! Non-vacuity. -/

example : (signatureHelp .v5 ⟨.macro .event, none, some .struct, none⟩ ⟨5, 20, some 6, some 19⟩
    [] 7).map (fun s => (s.label, s.docs)) =
    [("anonymous, signature_topic: &str".toList,
      [some (chars! "Tells the ink! codegen to treat the ink! event as anonymous which omits the event signature as topic upon emitting."),
       some (chars! "A 32 byte hex string.\n\nSpecifies custom signature topic of the event that allows to use manually specified shared event definition.")])] := by
  decide +kernel

end Verif.Analyzer.SigDoc
