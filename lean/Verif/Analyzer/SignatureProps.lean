import Verif.Analyzer.HintsProps
import Verif.Analyzer.Signature
import Verif.Ir.SelectorProps

/-!
# C44: signature help
-/

namespace Verif.Analyzer

open Verif.Ir

/-! ## Specification -/

/-- The text between two positions. -/
def slice (t : List Char) (r : Nat × Nat) : List Char := (t.drop r.1).take (r.2 - r.1)

/-- The label consists of the given texts separated by `, `. -/
def joined (texts : List (List Char)) : List Char := [',', ' '].intercalate texts

/-- The parameters of a signature are exactly the given texts: the label is the texts joined, there
is one parameter per text, in order and two positions apart, whose range lies within the label
and selects the text. -/
structure Describes (s : SigHelp) (texts : List (List Char)) : Prop where
  label : s.label = joined texts
  count : s.params.length = texts.length
  selects : ∀ (i : Nat) (r : Nat × Nat) (t : List Char), s.params[i]? = some r → texts[i]? = some t →
    r.1 ≤ r.2 ∧ r.2 ≤ s.label.length ∧ slice s.label r = t
  apart : ∀ (i : Nat) (r r' : Nat × Nat), s.params[i]? = some r → s.params[i + 1]? = some r' → r'.1 = r.2 + 2

/-- The position of the active parameter: the first one of the kind of the focused argument,
otherwise the first one whose name starts with the (non-empty) name of the focused argument,
otherwise the first one. -/
def activeSpec (kinds : List ArgKind) (focused : Option FocusedArg) : Nat :=
  match focused with
  | none => 0
  | some f =>
    ((kinds.findIdx? fun k => k = f.kind).or
      (kinds.findIdx? fun k => ∃ n, f.name = some n ∧ n ≠ [] ∧ n <+: k.name.toList)).getD 0

/-- The text of a parameter: the name of the argument, and the type of its value if it has one. (The
two values of `backend` have no type, but get a colon.) -/
def paramSpec (v : Version) (onConstructor : Bool) (k : ArgKind) : List Char :=
  k.name.toList ++ match documentedType v onConstructor k with
    | some t => [':', ' '] ++ t.toList
    | none => if k = .node ∨ k = .runtimeOnly then [':', ' '] else []

/-! ## Lemmas -/

theorem paramText_eq (v : Version) (args : List ArgKind) (k : ArgKind) :
    paramText v args k = paramSpec v (decide (.constructor ∈ args)) k := by
  have key : ∀ k ∈ ArgKind.all, ∀ v ∈ [Version.v4, .v5], ∀ c ∈ [true, false],
      k.name.toList ++ (if (if v = .v5 then ValueKind.ofArgV5 k (if c then some true else none)
        else ValueKind.ofArg k) = .none then [] else [':', ' ']) ++
      (if v = .v5 then ValueKind.ofArgV5 k (if c then some true else none)
        else ValueKind.ofArg k).display.toList = paramSpec v c k := by decide +kernel
  have := key k (ArgKind.mem_all k) v (by cases v <;> simp) (decide (.constructor ∈ args))
    (by cases decide (ArgKind.constructor ∈ args) <;> simp)
  rw [← this]
  unfold paramText sigValueKind
  simp


theorem paramText_ne (v : Version) (args : List ArgKind) (k : ArgKind) : paramText v args k ≠ [] := by
  have : k.name.toList ≠ [] := by
    have key : ∀ k ∈ ArgKind.all, k.name.toList ≠ [] := by decide +kernel
    exact key k (ArgKind.mem_all k)
  unfold paramText
  intro h
  simp only [List.append_eq_nil_iff] at h
  exact this h.1.1

/-- All texts of parameters are ASCII. -/
theorem paramText_ascii (v : Version) (args : List ArgKind) (k : ArgKind) :
    ∀ c ∈ paramText v args k, c.val < 128 := by
  have key : ∀ k ∈ ArgKind.all, ∀ c ∈ k.name.toList, c.val < 128 := by decide +kernel
  have key4 : ∀ k ∈ ArgKind.all, ∀ c ∈ (ValueKind.ofArg k).display.toList, c.val < 128 := by
    decide +kernel
  have key5 : ∀ k ∈ ArgKind.all, ∀ b ∈ [some true, none], ∀ c ∈
      (ValueKind.ofArgV5 k b).display.toList, c.val < 128 := by decide +kernel
  intro c hc
  unfold paramText at hc
  simp only [List.mem_append] at hc
  rcases hc with (hc | hc) | hc
  · exact key k (ArgKind.mem_all k) c hc
  · split at hc
    · cases hc
    · simp only [List.mem_cons, List.not_mem_nil, or_false] at hc
      rcases hc with rfl | rfl <;> decide
  · unfold sigValueKind at hc
    split at hc
    · split at hc
      · exact key5 k (ArgKind.mem_all k) _ (by simp) c hc
      · exact key5 k (ArgKind.mem_all k) _ (by simp) c hc
    · exact key4 k (ArgKind.mem_all k) c hc

/-- The state of the loop after the given kinds. -/
structure SigInv (texts : List (List Char)) (st : SigState) : Prop where
  label : st.signature = joined texts
  empty : st.signature = [] ↔ texts = []
  count : st.params.length = texts.length
  selects : ∀ (i : Nat) (r : Nat × Nat) (t : List Char), st.params[i]? = some r → texts[i]? = some t →
    r.1 ≤ r.2 ∧ r.2 ≤ st.signature.length ∧ slice st.signature r = t
  apart : ∀ (i : Nat) (r r' : Nat × Nat), st.params[i]? = some r → st.params[i + 1]? = some r' → r'.1 = r.2 + 2
  last : ∀ r, st.params.getLast? = some r → r.2 = st.signature.length

theorem slice_append (t u : List Char) (r : Nat × Nat) (h1 : r.1 ≤ r.2) (h2 : r.2 ≤ t.length) :
    slice (t ++ u) r = slice t r := by
  unfold slice
  rw [List.drop_append, List.take_append]
  have : r.2 - r.1 - (t.drop r.1).length = 0 := by simp; omega
  rw [this]
  simp

theorem joined_snoc (texts : List (List Char)) (t : List Char) (h : texts ≠ []) :
    joined (texts ++ [t]) = joined texts ++ ([',', ' '] ++ t) := by
  unfold joined
  induction texts with
  | nil => exact absurd rfl h
  | cons a l ih =>
    cases l with
    | nil => simp [List.intercalate, List.intersperse]
    | cons b l =>
      have := ih (by simp)
      have hc : ∀ (a b : List Char) (t : List (List Char)),
          [',', ' '].intercalate (a :: b :: t) =
            a ++ [',', ' '] ++ [',', ' '].intercalate (b :: t) := by
        intro a b t
        simp [List.intercalate, List.intersperse]
      rw [List.cons_append, List.cons_append, hc, hc, ← List.cons_append, this]
      simp only [List.append_assoc]

theorem sigStep_inv (v : Version) (args : List ArgKind) (focused : Option FocusedArg)
    (texts : List (List Char)) (st : SigState) (k : ArgKind) (h : SigInv texts st) :
    SigInv (texts ++ [paramText v args k]) (sigStep v args focused st k) := by
  have hne := paramText_ne v args k
  generalize hp : paramText v args k = p at hne
  have hsig : (sigStep v args focused st k).signature = sigPush st.signature p := by
    rw [← hp]; rfl
  have hpar : (sigStep v args focused st k).params =
      st.params ++ [(sigStart st.signature, sigStart st.signature + p.length)] := by
    rw [← hp]; rfl
  have hpush : sigPush st.signature p = joined (texts ++ [p]) := by
    unfold sigPush
    by_cases he : texts = []
    · have := h.empty.2 he
      rw [this, he]
      simp [joined, List.intercalate]
    · have hs : st.signature ≠ [] := fun hs => he (h.empty.1 hs)
      rw [joined_snoc _ _ he, ← h.label]
      rw [if_neg (by simpa using hs)]
  have hlen : (sigPush st.signature p).length = sigStart st.signature + p.length := by
    unfold sigPush sigStart
    split
    · simp
    · simp; omega
  have hslice : slice (sigPush st.signature p)
      (sigStart st.signature, sigStart st.signature + p.length) = p := by
    unfold slice sigPush sigStart
    split
    · rename_i he
      have : st.signature = [] := by simpa using he
      simp [this]
    · simp only [Nat.add_sub_cancel_left]
      rw [← List.append_assoc, List.drop_append]
      simp
  refine ⟨?_, ?_, ?_, ?_, ?_, ?_⟩
  · rw [hsig, hpush]
  · rw [hsig]
    unfold sigPush
    simp [hne]
  · rw [hpar]
    simp [h.count]
  · intro i r t hr ht
    rw [hpar] at hr
    rw [hsig]
    by_cases hi : i < st.params.length
    · rw [List.getElem?_append_left hi] at hr
      rw [List.getElem?_append_left (by rw [← h.count]; exact hi)] at ht
      obtain ⟨g1, g2, g3⟩ := h.selects i r t hr ht
      refine ⟨g1, ?_, ?_⟩
      · unfold sigPush
        simp only [List.length_append]
        omega
      · unfold sigPush
        rw [slice_append _ _ _ g1 g2, g3]
    · have hlt : i < (st.params ++ [(sigStart st.signature,
          sigStart st.signature + p.length)]).length := by
        rw [List.getElem?_eq_some_iff] at hr
        exact hr.1
      have hi' : i = st.params.length := by simp at hlt; omega
      subst hi'
      rw [List.getElem?_concat_length] at hr
      rw [h.count, List.getElem?_concat_length] at ht
      obtain rfl := Option.some.inj hr
      obtain rfl := Option.some.inj ht
      exact ⟨by simp, by rw [hlen]; exact Nat.le_refl _, hslice⟩
  · intro i r r' hr hr'
    rw [hpar] at hr hr'
    by_cases hi : i + 1 < st.params.length
    · rw [List.getElem?_append_left hi] at hr'
      rw [List.getElem?_append_left (by omega)] at hr
      exact h.apart i r r' hr hr'
    · have hlt : i + 1 < (st.params ++ [(sigStart st.signature,
          sigStart st.signature + p.length)]).length := by
        rw [List.getElem?_eq_some_iff] at hr'
        exact hr'.1
      have hi' : i + 1 = st.params.length := by simp at hlt; omega
      rw [hi', List.getElem?_concat_length] at hr'
      rw [List.getElem?_append_left (by omega)] at hr
      have hl := h.last r (by rw [List.getLast?_eq_getElem?, ← hi']; exact hr)
      obtain rfl := Option.some.inj hr'
      have : st.signature ≠ [] := by
        intro hs
        have := h.empty.1 hs
        have hc := h.count
        rw [this] at hc
        simp at hc
        rw [hc] at hi'
        simp at hi'
      unfold sigStart
      rw [if_neg (by simpa using this), hl]
  · intro r hr
    rw [hpar, List.getLast?_concat] at hr
    obtain rfl := Option.some.inj hr
    rw [hsig, hlen]

theorem sigFold_inv (v : Version) (args : List ArgKind) (focused : Option FocusedArg)
    (l : List ArgKind) (texts : List (List Char)) (st : SigState) (h : SigInv texts st) :
    SigInv (texts ++ l.map (paramText v args)) (l.foldl (sigStep v args focused) st) := by
  induction l generalizing texts st with
  | nil => simpa using h
  | cons k l ih =>
    have := ih _ _ (sigStep_inv v args focused texts st k h)
    rw [List.append_assoc] at this
    exact this

/-- First index, starting to count at `n`. -/
theorem fold_active (v : Version) (args : List ArgKind) (focused : Option FocusedArg)
    (l : List ArgKind) (st : SigState) :
    (l.foldl (sigStep v args focused) st).active =
      st.active.or ((l.findIdx? (focusKind focused)).map (· + st.params.length)) := by
  induction l generalizing st with
  | nil => simp
  | cons k l ih =>
    rw [List.foldl_cons, ih]
    have hp : (sigStep v args focused st k).params.length = st.params.length + 1 := by
      simp [sigStep]
    have ha : (sigStep v args focused st k).active =
      sigActive focused k st.params.length st.active := rfl
    rw [hp, ha, List.findIdx?_cons]
    unfold sigActive
    cases hs : st.active with
    | some a => simp
    | none =>
      cases hk : focusKind focused k with
      | true => simp
      | false =>
        simp only [Option.isNone_none, Bool.and_false, Bool.false_eq_true, if_false,
          Option.none_or, Option.map_map]
        congr 1
        funext x
        simp only [Function.comp_apply]
        omega

theorem fold_prefix (v : Version) (args : List ArgKind) (focused : Option FocusedArg)
    (l : List ArgKind) (st : SigState) (hn : st.active = none)
    (hl : ∀ k ∈ l, focusKind focused k = false) :
    (l.foldl (sigStep v args focused) st).byPrefix =
      st.byPrefix.or ((l.findIdx? (focusPrefix focused)).map (· + st.params.length)) := by
  induction l generalizing st with
  | nil => simp
  | cons k l ih =>
    have hk := hl k (by simp)
    have hp : (sigStep v args focused st k).params.length = st.params.length + 1 := by
      simp [sigStep]
    have ha : (sigStep v args focused st k).active = none := by
      change sigActive focused k st.params.length st.active = none
      unfold sigActive
      rw [hk, hn]
      rfl
    have hb : (sigStep v args focused st k).byPrefix =
      sigByPrefix focused k st.params.length st.active st.byPrefix := rfl
    rw [List.foldl_cons, ih _ ha (fun k' h' => hl k' (by simp [h'])), hp, hb, List.findIdx?_cons]
    unfold sigByPrefix
    rw [hn, hk]
    cases hs : st.byPrefix with
    | some a => simp
    | none =>
      cases hf : focusPrefix focused k with
      | true => simp
      | false =>
        simp only [Option.isNone_none, Bool.and_false, Bool.false_eq_true, if_false,
          Option.none_or, Option.map_map]
        congr 1
        funext x
        simp only [Function.comp_apply]
        omega

theorem active_eq (v : Version) (args : List ArgKind) (focused : Option FocusedArg) :
    ((sigLoop v args focused).active.or (sigLoop v args focused).byPrefix).or (some 0) =
      some (activeSpec (sigSorted args) focused) := by
  unfold sigLoop
  rw [fold_active]
  simp only [Option.none_or, List.length_nil, Nat.add_zero, Option.map_id']
  cases focused with
  | none =>
    have hb : ∀ l : List ArgKind, (l.foldl (sigStep v args none) ⟨[], [], none, none, []⟩).byPrefix =
        none := by
      intro l
      rw [fold_prefix _ _ _ _ _ rfl (fun _ _ => rfl)]
      simp only [Option.none_or, Option.map_eq_none_iff, List.findIdx?_eq_none_iff]
      intro _ _
      rfl
    have hf : (sigSorted args).findIdx? (focusKind none) = none := by
      rw [List.findIdx?_eq_none_iff]
      intro _ _
      rfl
    rw [hf, hb]
    rfl
  | some f =>
    have hfk : (sigSorted args).findIdx? (focusKind (some f)) =
        (sigSorted args).findIdx? (fun k => decide (k = f.kind)) := by
      congr 1
      funext k
      simp [focusKind, eq_comm]
    have hpk : (fun k : ArgKind => decide (∃ n, f.name = some n ∧ n ≠ [] ∧ n <+: k.name.toList)) =
        focusPrefix (some f) := by
      funext k
      rw [Bool.eq_iff_iff]
      unfold focusPrefix
      cases hn : f.name <;> simp [hn]
    unfold activeSpec
    simp only
    rw [hfk]
    cases hk : (sigSorted args).findIdx? (fun k => decide (k = f.kind)) with
    | some i => simp
    | none =>
      rw [fold_prefix v args (some f) _ _ rfl (by
        rw [List.findIdx?_eq_none_iff] at hk
        intro k hk'
        have := hk k hk'
        simpa [focusKind, eq_comm] using this)]
      simp only [hpk, Option.none_or, List.length_nil, Nat.add_zero, Option.map_id']
      cases (sigSorted args).findIdx? (focusPrefix (some f)) <;> rfl

theorem activeSpec_lt (kinds : List ArgKind) (focused : Option FocusedArg) (h : kinds ≠ []) :
    activeSpec kinds focused < kinds.length := by
  have hpos : 0 < kinds.length := List.length_pos_iff.2 h
  unfold activeSpec
  cases focused with
  | none => exact hpos
  | some f =>
    simp only
    cases h1 : kinds.findIdx? (fun k => decide (k = f.kind)) with
    | some i => exact (List.findIdx?_eq_some_iff_getElem.1 h1).1
    | none =>
      simp only [Option.none_or]
      cases h2 : kinds.findIdx? (fun k => decide (∃ n, f.name = some n ∧ n ≠ [] ∧
          n <+: k.name.toList)) with
      | some i => exact (List.findIdx?_eq_some_iff_getElem.1 h2).1
      | none => exact hpos

/-! ## Theorems -/

/-- One signature is added for a non-empty list of arguments and none otherwise. Its parameters
are described by the texts of the arguments, primary ones first; its active parameter is
the one of the focused argument, or the first one. -/
theorem C44_signature (v : Version) (args : List ArgKind) (focused : Option FocusedArg)
    (range : Nat × Nat) :
    (args = [] → addSignature v args focused range = []) ∧
    (args ≠ [] → ∃ (s : SigHelp) (kinds : List ArgKind), addSignature v args focused range = [s] ∧ s.range = range ∧
      kinds.Perm args ∧ kinds.Pairwise (fun a b => a.sortOrder ≤ b.sortOrder) ∧
      Describes s (kinds.map (paramSpec v (decide (.constructor ∈ args)))) ∧
      s.active = some (activeSpec kinds focused) ∧
      activeSpec kinds focused < s.params.length) := by
  have hperm : (sigSorted args).Perm args := Util.sortBy_perm _ _
  have hinv : SigInv ((sigSorted args).map (paramText v args)) (sigLoop v args focused) := by
    have := sigFold_inv v args focused (sigSorted args) [] ⟨[], [], none, none, []⟩
      ⟨rfl, by simp, rfl, by simp, by simp, by simp⟩
    rw [List.nil_append] at this
    exact this
  refine ⟨?_, fun hne => ?_⟩
  · rintro rfl
    rfl
  · have hs : sigSorted args ≠ [] := fun h => hne (List.Perm.nil_eq (h ▸ hperm)).symm
    have h1 : (sigLoop v args focused).signature ≠ [] := by
      intro h
      have := hinv.empty.1 h
      simp [hs] at this
    have hcount : (sigLoop v args focused).params.length = (sigSorted args).length := by
      simpa using hinv.count
    have h2 : (sigLoop v args focused).params ≠ [] := by
      intro h
      rw [h] at hcount
      exact hs (List.length_eq_zero_iff.1 hcount.symm)
    have hadd : addSignature v args focused range =
        [{ label := (sigLoop v args focused).signature, range
           params := (sigLoop v args focused).params
           active := some (activeSpec (sigSorted args) focused)
           docs := (sigLoop v args focused).docs }] := by
      unfold addSignature
      simp only
      rw [if_pos (by simp [h1, h2]), active_eq]
    rw [funext (paramText_eq v args)] at hinv
    refine ⟨_, sigSorted args, hadd, rfl, hperm, Util.sortBy_sorted _ _,
      ⟨hinv.label, hinv.count, hinv.selects, hinv.apart⟩, rfl, ?_⟩
    rw [hcount]
    exact activeSpec_lt _ _ hs

theorem mem_add (v : Version) (args : List ArgKind) (focused : Option FocusedArg)
    (range : Nat × Nat) (s : SigHelp) (h : s ∈ addSignature v args focused range) :
    ∃ args', addSignature v args' focused range = [s] := by
  by_cases he : args = []
  · rw [(C44_signature v args focused range).1 he] at h
    cases h
  · obtain ⟨s', _, h', _⟩ := (C44_signature v args focused range).2 he
    rw [h'] at h
    obtain rfl := List.mem_singleton.1 h
    exact ⟨args, h'⟩

theorem mem_compl (v : Version) (k : ArgKind) (focused : Option FocusedArg)
    (range : Nat × Nat) (s : SigHelp) (h : s ∈ complementarySignature v k focused range) :
    ∃ args', addSignature v args' focused range = [s] := by
  unfold complementarySignature at h
  rw [List.mem_append] at h
  rcases h with h | h
  · split at h
    · exact mem_add _ _ _ _ _ h
    · cases h
  · split at h
    · exact mem_add _ _ _ _ _ h
    · obtain ⟨p, _, h⟩ := List.mem_flatMap.1 h
      exact mem_add _ _ _ _ _ h

theorem mem_raw (v : Version) (c : SigContext) (t : ParenTree)
    (args : List ((Nat × Nat) × FocusedArg)) (offset : Nat) (s : SigHelp)
    (h : s ∈ rawSignatures v c t args offset) :
    focusedOnArgs t offset = true ∧
    ∃ args', addSignature v args' (focusedArg args offset) (sigRange t) = [s] := by
  unfold rawSignatures at h
  split at h
  · rename_i hf
    refine ⟨hf, ?_⟩
    split at h
    · unfold argSignatures at h
      split at h
      · exact mem_add _ _ _ _ _ h
      · split at h
        · exact mem_add _ _ _ _ _ h
        · split at h
          · exact mem_compl _ _ _ _ _ h
          · split at h
            · obtain ⟨p, _, h⟩ := List.mem_flatMap.1 h
              unfold guessSignature at h
              split at h
              · exact mem_add _ _ _ _ _ h
              · split at h
                · exact mem_compl _ _ _ _ _ h
                · cases h
            · cases h
    · unfold macroSignatures at h
      split at h
      · cases h
      · exact mem_add _ _ _ _ _ h
  · cases h

/-- Every signature offered is described by at least one parameter text and its active parameter is
one of them; it covers the text between the parentheses, in which the cursor is. -/
theorem C44_offered (v : Version) (c : SigContext) (t : ParenTree)
    (args : List ((Nat × Nat) × FocusedArg)) (offset : Nat) (s : SigHelp)
    (h : s ∈ signatureHelp v c t args offset) :
    (∃ texts, texts ≠ [] ∧ Describes s texts ∧ ∃ i, s.active = some i ∧ i < s.params.length) ∧
    (∃ l, t.lparen = some l ∧ s.range.1 = l ∧ l ≤ offset) ∧
    (∀ r, t.rparen = some r → s.range.2 = r ∧ offset ≤ r) ∧
    (t.rparen = none → s.range.2 = t.stop ∧ offset < t.stop) := by
  have hraw : s ∈ rawSignatures v c t args offset :=
    (Util.uniqueByFrom_sublist _ _ _).mem h
  obtain ⟨hf, args', hadd⟩ := mem_raw v c t args offset s hraw
  have hne : args' ≠ [] := by
    rintro rfl
    rw [(C44_signature v [] _ _).1 rfl] at hadd
    cases hadd
  obtain ⟨s', kinds, h1, h2, h3, _, h4, h5, h6⟩ := (C44_signature v args' _ _).2 hne
  rw [hadd] at h1
  obtain rfl : s = s' := by simpa using h1
  refine ⟨⟨_, ?_, h4, _, h5, h6⟩, ?_, ?_, ?_⟩
  · intro h
    rw [List.map_eq_nil_iff] at h
    rw [h] at h3
    exact hne (List.Perm.nil_eq h3).symm
  all_goals
    unfold focusedOnArgs at hf
    simp only [Bool.and_eq_true, decide_eq_true_eq] at hf
    rw [h2]
    unfold sigRange
  · cases hl : t.lparen with
    | none => rw [hl] at hf; simp at hf
    | some l =>
      rw [hl] at hf
      exact ⟨l, rfl, rfl, by simpa using hf.1.2⟩
  · intro r hr
    rw [hr] at hf ⊢
    exact ⟨rfl, by simpa using hf.2⟩
  · intro hr
    rw [hr]
    exact ⟨rfl, hf.1.1.2⟩

/-- No two signatures have the same label. -/
theorem C44_distinct (v : Version) (c : SigContext) (t : ParenTree)
    (args : List ((Nat × Nat) × FocusedArg)) (offset : Nat) :
    (signatureHelp v c t args offset).Pairwise fun a b => a.label ≠ b.label := by
  have hp := Util.uniqueByFrom_pairwise (fun s : SigHelp => (s.label, s.range)) []
    (rawSignatures v c t args offset)
  refine List.Pairwise.imp_of_mem ?_ hp
  intro a b ha hb hab hl
  apply hab
  have ra := (mem_raw v c t args offset a ((Util.uniqueByFrom_sublist _ _ _).mem ha)).2
  have rb := (mem_raw v c t args offset b ((Util.uniqueByFrom_sublist _ _ _).mem hb)).2
  have hr : ∀ s, (∃ args', addSignature v args' (focusedArg args offset) (sigRange t) = [s]) →
      s.range = sigRange t := by
    rintro s ⟨args', h⟩
    by_cases hne : args' = []
    · rw [(C44_signature v args' _ _).1 hne] at h
      cases h
    · obtain ⟨s', _, h1, h2, _⟩ := (C44_signature v args' (focusedArg args offset) (sigRange t)).2 hne
      rw [h] at h1
      obtain rfl : s = s' := by simpa using h1
      exact h2
  simp only [Prod.mk.injEq]
  exact ⟨hl, by rw [hr a ra, hr b rb]⟩

/-- For an attribute with a primary argument there is exactly one signature, of the argument and
those that may stand next to it. -/
theorem C44_primary (v : Version) (c : SigContext) (k : ArgKind) (t : ParenTree)
    (args : List ((Nat × Nat) × FocusedArg)) (offset : Nat) (hk : c.kind = .arg k)
    (he : k.isEntityType = true) (hf : focusedOnArgs t offset = true) :
    ∃ (s : SigHelp) (kinds : List ArgKind), signatureHelp v c t args offset = [s] ∧ kinds.Perm (k :: validSiblings (.arg k) v) ∧
      Describes s (kinds.map (paramSpec v (decide (.constructor ∈ k :: validSiblings (.arg k) v)))) := by
  obtain ⟨s, kinds, h1, _, h3, _, h5, _⟩ := (C44_signature v (k :: validSiblings (.arg k) v)
    (focusedArg args offset) (sigRange t)).2 (by simp)
  refine ⟨s, kinds, ?_, h3, h5⟩
  unfold signatureHelp rawSignatures
  rw [if_pos hf, hk]
  simp only
  unfold argSignatures
  rw [if_pos he]
  unfold anchorSignature anchorArgs
  rw [h1]
  rfl

/-! Non-vacuity. -/

example : (signatureHelp .v5 ⟨.arg .message, none, some .fn, none⟩ ⟨5, 22, some 6, some 21⟩
    [((6, 13), ⟨.message, some "message".toList⟩), ((15, 18), ⟨.unknown, some "sel".toList⟩)]
    18).map (fun s => (s.label, s.range, s.params, s.active)) =
    [("message, default, payable, selector: u32 | _ | @".toList, (6, 21),
      [(0, 7), (9, 16), (18, 25), (27, 48)], some 3)] := by decide +kernel

example : Describes { label := "message, default".toList, range := (0, 0)
                      params := [(0, 7), (9, 16)], active := some 0, docs := [] }
    ["message".toList, "default".toList] :=
  ⟨by decide, rfl, by
    intro i r t hr ht
    match i with
    | 0 => obtain rfl := Option.some.inj hr; obtain rfl := Option.some.inj ht; decide
    | 1 => obtain rfl := Option.some.inj hr; obtain rfl := Option.some.inj ht; decide
    | n + 2 => simp at hr, by
    intro i r r' hr hr'
    match i with
    | 0 => obtain rfl := Option.some.inj hr; obtain rfl := Option.some.inj hr'; rfl
    | n + 1 => simp at hr'⟩

end Verif.Analyzer
