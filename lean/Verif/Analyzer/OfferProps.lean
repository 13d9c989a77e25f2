import Verif.Analyzer.Offer
import Verif.Analyzer.MoveProps

/-!
# Actions add ink! entities where they are wanted, inside of the item (C88)
-/

namespace Verif.Analyzer.Offer

open Verif.Ir Verif.Ir.Token Verif.Analyzer.Move

/-! ## Specification -/

/-- The item has a body in brackets, with these children, that starts at `o`; no bracket of the body is
among the children. -/
structure Body (i : Item) (o : Nat) (ds : List Src) : Prop where
  list : i.list = some (o, .tok false ['{'] :: (ds ++ [.tok false ['}']]))
  inner : ∀ w t, Src.tok w t ∈ ds → t ≠ ['{'] ∧ t ≠ ['}']

/-- What is wanted for an item; `body` says that the selection is in its body, and `still` that the place
for the text is too. -/
def Wanted (v : Version) (i : Item) (body still : Prop) : What → Prop
  | .migrate => v = .v4 ∧ ((∃ c t e, i.kind = .module (some c) t e) ∨
      (∃ b, i.kind = .chainExtension b) ∨ i.kind = .traitDefinition ∨ i.kind = .storageItem)
  | .extract => (i.kind = .event ∧ v = .v5) ∨ i.kind = .eventV2
  | .storage => ∃ c t e, i.kind = .module (some c) t e ∧ c.hasStorage = false
  | .event => ∃ c t e, i.kind = .module (some c) t e
  | .eventV2 => (∃ c t e, i.kind = .module (some c) t e) ∧ v = .v5
  | .topic => i.kind = .event ∨ i.kind = .eventV2
  | .constructor => (∃ w, i.kind = .impl false true w) ∨
      ∃ c t e, i.kind = .module (some c) t e ∧
        (body → still ∧ c.hasInherent = false)
  | .message => i.kind = .traitDefinition ∨
      (∃ w, i.kind = .impl false true w ∧ (v = .v5 → w = false)) ∨
      ∃ c t e, i.kind = .module (some c) t e ∧ (v = .v5 → c.wildcard = false) ∧
        (body → still ∧ c.hasInherent = false)
  | .errorCode => i.kind = .chainExtension false
  | .extension => ∃ b, i.kind = .chainExtension b
  | .test => ∃ e, i.kind = .module none true e
  | .e2eTest => ∃ t, i.kind = .module none t true
  | .contract | .traitDefinition | .chainExtension | .combineExtensions | .storageItem
  | .environment => False

/-- What is wanted in the root of a file. -/
def WantedInRoot (v : Version) (hasContract : Bool) : What → Prop
  | .migrate => v = .v4
  | .contract => hasContract = false
  | .eventV2 | .combineExtensions => v = .v5
  | .traitDefinition | .chainExtension | .storageItem | .environment => True
  | _ => False

/-- The selection is in the declaration of an item with a body, or in the closing bracket. -/
def OnDeclaration (i : Item) (o : Nat) (ds : List Src) (r : Nat × Nat) : Prop :=
  (i.declStart ≤ r.1 ∧ r.2 ≤ o + 1) ∨
    (o + 1 + bytes (texts ds) ≤ r.1 ∧ r.2 ≤ o + 1 + bytes (texts ds) + 1)

/-- The range is in the body of an item, which is not empty. -/
def OnBody (o : Nat) (ds : List Src) (r : Nat × Nat) : Prop :=
  texts ds ≠ [] ∧ o + 1 ≤ r.1 ∧ r.2 ≤ o + 1 + bytes (texts ds)

/-- Where a thing goes among the children of the body if the selection gives no place. -/
def Goes : What → List Src → Nat → Prop
  | .storage, cs, k => StartSlot cs k
  | .event, cs, k => Slot .event cs k
  | .errorCode, _, k => k = 1
  | _, cs, k => EndSlot cs k

/-- A range in a body: between the brackets, in no item of the body, and nothing but white space is
replaced. -/
structure Inside (o : Nat) (ds : List Src) (r : Nat × Nat) : Prop where
  order : r.1 ≤ r.2
  lower : o + 1 ≤ r.1
  upper : r.2 ≤ o + 1 + bytes (texts ds)
  items : ∀ d x e k, ds = d ++ x :: e → x.kind? = some (.item k) →
    r.2 ≤ o + 1 + bytes (texts d) ∨ o + 1 + bytes (texts d) + bytes x.text ≤ r.1
  blank : r.1 = r.2 ∨ ∃ d t e, ds = d ++ .tok true t :: e ∧ o + 1 + bytes (texts d) ≤ r.1 ∧
    r.2 ≤ o + 1 + bytes (texts d) + bytes t

/-- The focused element is the opening bracket, or a token or node of the body that is no item. -/
inductive InBody (o : Nat) (ds : List Src) (f : Focus) : Prop where
  | bracket (hw : f.ws = false) (hr : f.range = (o, o + 1))
  | child (d : List Src) (x : Src) (e : List Src) (hds : ds = d ++ x :: e)
      (hx : ∀ k, x.kind? ≠ some (.item k)) (hw : f.ws = true → ∃ t, x = .tok true t)
      (hr : f.range = (o + 1 + bytes (texts d), o + 1 + bytes (texts d) + bytes x.text))

/-! ## Lemmas -/

theorem bytes_curly : bytes ['{'] = 1 := by decide

theorem bytes_close : bytes ['}'] = 1 := by decide

theorem rCurly_skip (o : Nat) (ds rest : List Src)
    (h : ∀ w t, Src.tok w t ∈ ds → t ≠ ['}']) :
    rCurly o (ds ++ rest) = rCurly (o + bytes (texts ds)) rest := by
  induction ds generalizing o with
  | nil => rfl
  | cons c ds ih =>
    have ih' := fun o => ih o (fun w t ht => h w t (List.mem_cons_of_mem _ ht))
    cases c with
    | tok w t =>
      have ht := h w t (List.mem_cons_self ..)
      simp only [List.cons_append, rCurly, if_neg ht, ih', texts, Src.text, bytes_append]
      congr 1
      omega
    | node k es =>
      simp only [List.cons_append, rCurly, ih', texts, bytes_append]
      congr 1
      omega

theorem body_decl (i : Item) (o : Nat) (ds : List Src) (h : Body i o ds) :
    i.decl = some (i.declStart, o + 1) := by
  unfold Item.decl
  rw [h.list]
  simp [lCurly, bytes_curly]

theorem body_terminal (i : Item) (o : Nat) (ds : List Src) (h : Body i o ds) :
    i.terminal = some (o + 1 + bytes (texts ds), o + 1 + bytes (texts ds) + 1) := by
  unfold Item.terminal
  rw [h.list]
  simp only [Option.bind_some]
  have e : rCurly o (.tok false ['{'] :: (ds ++ [.tok false ['}']])) =
      rCurly (o + 1) (ds ++ [.tok false ['}']]) := by
    simp [rCurly, bytes_curly]
  rw [e, rCurly_skip _ _ _ (fun w t ht => (h.inner w t ht).2)]
  simp [rCurly, bytes_close]

theorem onBody_iff (i : Item) (o : Nat) (ds : List Src) (h : Body i o ds) (r : Nat × Nat) :
    onBody i r = true ↔ OnBody o ds r := by
  unfold onBody OnBody
  rw [body_decl i o ds h, body_terminal i o ds h]
  simp only [within, Bool.and_eq_true, decide_eq_true_eq]
  constructor
  · rintro ⟨h1, h2, h3⟩
    refine ⟨?_, h2, h3⟩
    intro h0
    rw [h0] at h1
    simp [bytes] at h1
  · rintro ⟨h1, h2, h3⟩
    have := bytes_pos _ h1
    exact ⟨by omega, h2, h3⟩

theorem addAt_what (w w' : What) (range : Option (Nat × Nat)) (off : Option Nat)
    (h : (range.isSome || off.isSome) = true) :
    w' ∈ (addAt w range off).map Act.what ↔ w' = w := by
  unfold addAt
  cases range with
  | some r => simp
  | none =>
    cases off with
    | some o => simp
    | none => simp at h

theorem onDeclaration_iff (i : Item) (o : Nat) (ds : List Src) (h : Body i o ds) (r : Nat × Nat) :
    onDeclaration i r = true ↔ OnDeclaration i o ds r := by
  unfold onDeclaration OnDeclaration
  rw [body_decl i o ds h, body_terminal i o ds h]
  simp [within]

theorem what_append (w : What) (a b : List Act) :
    w ∈ (a ++ b).map Act.what ↔ w ∈ a.map Act.what ∨ w ∈ b.map Act.what := by
  rw [List.map_append, List.mem_append]

theorem what_if (w : What) (p : Prop) [Decidable p] (a b : List Act) :
    w ∈ (if p then a else b).map Act.what ↔
      (p ∧ w ∈ a.map Act.what) ∨ (¬ p ∧ w ∈ b.map Act.what) := by
  split <;> simp_all

theorem what_one (w : What) (a : Act) : w ∈ [a].map Act.what ↔ w = a.what := by simp

theorem what_nil (w : What) : w ∈ ([] : List Act).map Act.what ↔ False := by simp

theorem addCallable_what (w w' : What) (inImpl : Bool) (c : Contract) (range : Option (Nat × Nat))
    (h : c.callable.isSome = true) :
    w' ∈ (addCallable w inImpl c range).map Act.what ↔ w' = w := by
  unfold addCallable
  exact addAt_what _ _ _ _ (by simp [h])

theorem itemActs_what (v : Version) (inImpl : Bool) (i : Item) (o : Nat) (ds : List Src)
    (hb : Body i o ds) (range : Option (Nat × Nat))
    (hfd : i.kind = .event ∨ i.kind = .eventV2 → i.field.isSome = true)
    (hc : ∀ c t e, i.kind = .module (some c) t e → c.callable.isSome = true) (w : What) :
    w ∈ (itemActs v inImpl i range).map Act.what ↔
      Wanted v i (range.isSome = true) (range.any (onBody i) = true) w := by
  have hoff : ∀ f, (range.isSome || (i.offset f).isSome) = true := by
    intro f
    unfold Item.offset
    rw [hb.list]
    simp
  have hn : range.isNone = !range.isSome := by cases range <;> rfl
  unfold itemActs Wanted
  cases hk : i.kind with
  | module c t e =>
    cases c with
    | none =>
      simp only [what_append, what_if, addAt_what _ _ _ _ (hoff _), what_nil]
      cases w <;> simp_all
    | some c =>
      have hcs := hc c t e hk
      simp only [what_append, what_if, addAt_what _ _ _ _ (hoff _), what_nil, what_one,
        addCallable_what _ _ _ _ _ hcs, hn]
      cases w <;> simp_all
      all_goals
        cases range <;> simp_all
      all_goals
        cases v <;> simp_all
      all_goals exact and_comm
  | impl a b d =>
    simp only [what_append, what_if, addAt_what _ _ _ _ (hoff _), what_nil]
    cases w <;> cases v <;> cases a <;> cases b <;> simp_all
  | chainExtension b =>
    simp only [what_append, what_if, addAt_what _ _ _ _ (hoff _), what_nil, what_one]
    cases w <;> simp_all
  | traitDefinition =>
    simp only [what_append, what_if, addAt_what _ _ _ _ (hoff _), what_nil, what_one]
    cases w <;> simp_all
  | event =>
    simp only [what_append, what_if, what_nil, what_one,
      addAt_what _ _ range i.field (by simp [hfd (.inl hk)])]
    cases w <;> simp_all
  | eventV2 =>
    simp only [what_append, what_if, what_nil, what_one,
      addAt_what _ _ range i.field (by simp [hfd (.inr hk)])]
    cases w <;> simp_all
  | storageItem =>
    simp only [what_append, what_if, what_nil, what_one]
    cases w <;> simp_all
  | other =>
    simp only [what_nil]
    cases w <;> simp_all

/-! ## C88 -/

/-- What is offered for an item with a body: exactly what is wanted, if no attribute is selected and the
selection is in the declaration or the body, but not in a field. -/
theorem C88_offered (v : Version) (p : Point) (r : Nat × Nat) (f : Focus) (i : Item) (o : Nat)
    (ds : List Src) (hf : p.focus = some f) (hi : p.item = some i) (hb : Body i o ds)
    (hfd : i.kind = .event ∨ i.kind = .eventV2 → i.field.isSome = true)
    (hc : ∀ c t e, i.kind = .module (some c) t e → c.callable.isSome = true) (w : What) :
    w ∈ (acts v p r).map Act.what ↔
      p.inAttr = false ∧ (OnDeclaration i o ds r ∨ (OnBody o ds r ∧ p.onField = false)) ∧
        Wanted v i (OnBody o ds r) (OnBody o ds (editRange f r)) w := by
  unfold acts
  rw [hf, hi]
  simp only [← onDeclaration_iff i o ds hb, ← onBody_iff i o ds hb]
  cases ha : p.inAttr with
  | true => simp
  | false =>
    simp only [Bool.false_eq_true, if_false, true_and, Bool.or_eq_true, Bool.and_eq_true,
      Bool.not_eq_true']
    rw [what_if, itemActs_what v p.inImpl i o ds hb _ hfd hc]
    cases hbody : onBody i r
    · have hw : ∀ x y, Wanted v i False x w ↔ Wanted v i False y w := by
        intro x y
        cases w <;> simp [Wanted]
      simp only [Bool.false_eq_true, if_false, false_and, or_false, Option.isSome_none,
        Option.any_none, List.map_nil, List.not_mem_nil, and_false]
      rw [hw _ (onBody i (editRange f r) = true)]
    · simp
/-- What is offered in the root of a file, and that it replaces the selected white space or goes behind
what is selected. -/
theorem C88_root (v : Version) (p : Point) (r : Nat × Nat) (f : Focus) (hf : p.focus = some f)
    (hi : p.item = none) :
    (∀ w, w ∈ (acts v p r).map Act.what ↔
      p.inAttr = false ∧ f.inRoot = true ∧ WantedInRoot v p.hasContract w) ∧
    ∀ a ∈ acts v p r, ∀ q, a.place = some q →
      (f.ws = true ∧ f.range.1 ≤ r.1 ∧ r.2 ≤ f.range.2 ∧ q = r) ∨ q = (f.range.2, f.range.2) := by
  unfold acts
  rw [hf, hi]
  cases ha : p.inAttr with
  | true => simp
  | false =>
    simp only [Bool.false_eq_true, if_false, true_and]
    cases hr : f.inRoot with
    | false => simp
    | true =>
      simp only [if_true, true_and]
      constructor
      · intro w
        unfold rootActs WantedInRoot
        simp only [what_append, what_if, what_nil, what_one]
        cases w <;> cases v <;> cases p.hasContract <;> simp
      · intro a ham q hq
        have hq' : q = editRange f r := by
          unfold rootActs at ham
          cases v <;> cases hh : p.hasContract <;> simp [hh] at ham <;>
            rcases ham with rfl | rfl | rfl | rfl | rfl | rfl | rfl <;> simp_all
        rw [hq']
        unfold editRange
        split
        · rename_i h
          simp only [Bool.and_eq_true, within, decide_eq_true_eq] at h
          exact .inl ⟨h.1, h.2.1, h.2.2, rfl⟩
        · exact .inr rfl

/-! ### Places -/

/-- The children of a body with its brackets. -/
def full (ds : List Src) : List Src := .tok false ['{'] :: (ds ++ [.tok false ['}']])

theorem last_bound (test : IKind → Bool) (ds : List Src) (i : Nat) (h : LastOf test (full ds) i) :
    i + 1 < (full ds).length := by
  obtain ⟨⟨c, k, hc, hk, -⟩, -⟩ := h
  rcases Nat.lt_trichotomy i (ds.length + 1) with h | h | h
  · simp [full]
    omega
  · subst h
    simp only [full, List.getElem?_cons_succ] at hc
    rw [List.getElem?_append_right (by omega)] at hc
    simp at hc
    rw [← hc] at hk
    cases hk
  · rw [List.getElem?_eq_none (by simp [full]; omega)] at hc
    cases hc

theorem startSlot_bound (ds : List Src) (k : Nat) (h : StartSlot (full ds) k) :
    1 ≤ k ∧ k < (full ds).length := by
  rcases h with ⟨i, hi, rfl⟩ | ⟨-, rfl⟩
  · exact ⟨by omega, last_bound _ _ _ hi⟩
  · exact ⟨by omega, by simp [full]⟩

theorem endSlot_bound (ds : List Src) (k : Nat) (h : EndSlot (full ds) k) :
    1 ≤ k ∧ k < (full ds).length := by
  rcases h with ⟨i, hi, rfl⟩ | ⟨-, rfl⟩
  · exact ⟨by omega, last_bound _ _ _ hi⟩
  · exact ⟨by omega, by simp [full]⟩

theorem goes_bound (w : What) (ds : List Src) (k : Nat) (h : Goes w (full ds) k) :
    1 ≤ k ∧ k < (full ds).length := by
  unfold Goes at h
  split at h
  · exact startSlot_bound ds _ h
  · rcases h with ⟨i, hi, rfl⟩ | ⟨-, h⟩
    · exact ⟨by omega, last_bound _ _ _ hi⟩
    · exact startSlot_bound ds _ h
  · subst h
    exact ⟨by omega, by simp [full]⟩
  · exact endSlot_bound ds _ h

theorem addAt_mem (w : What) (range : Option (Nat × Nat)) (off : Option Nat) (a : Act) :
    a ∈ addAt w range off ↔ a.what = w ∧
      ∃ q, a.place = some q ∧ range.or (off.map fun o => (o, o)) = some q := by
  unfold addAt
  cases h : range.or (off.map fun o => (o, o)) with
  | none => simp
  | some r =>
    simp only [List.mem_singleton, Option.some.injEq]
    constructor
    · rintro rfl
      exact ⟨rfl, r, rfl, rfl⟩
    · rintro ⟨h1, q, h2, h3⟩
      subst h3
      cases a
      simp_all

theorem mem_if (p : Prop) [Decidable p] (a : Act) (x y : List Act) :
    a ∈ (if p then x else y) ↔ (p ∧ a ∈ x) ∨ (¬ p ∧ a ∈ y) := by
  split <;> simp_all

/-- The place of an action if the selection gives none. -/
def Default (i : Item) (o : Nat) (ds : List Src) (w : What) (q : Nat × Nat) : Prop :=
  (w = .eventV2 ∧ ∃ c t e, i.kind = .module (some c) t e ∧ q = (c.start, c.start)) ∨
  (w = .topic ∧ ∃ n, i.field = some n ∧ q = (n, n)) ∨
  ((w = .constructor ∨ w = .message) ∧ ∃ c t e n, i.kind = .module (some c) t e ∧
    c.callable = some n ∧ q = (n, n)) ∨
  ∃ k, Goes w (full ds) k ∧ 1 ≤ k ∧ k < (full ds).length ∧
    q = (o + bytes (texts ((full ds).take k)), o + bytes (texts ((full ds).take k)))

theorem offset_goes (w : What) (i : Item) (o : Nat) (ds : List Src) (hb : Body i o ds)
    (f : Nat → List Src → Nat) (q : Nat × Nat)
    (hgo : ∃ k, Goes w (full ds) k ∧ f o (full ds) = o + bytes (texts ((full ds).take k)))
    (h : (none : Option (Nat × Nat)).or ((i.offset f).map fun o => (o, o)) = some q) :
    Default i o ds w q := by
  obtain ⟨k, hk, he⟩ := hgo
  unfold Item.offset at h
  rw [hb.list] at h
  simp only [Option.none_or, Option.map_some, Option.some.injEq] at h
  have hbd := goes_bound w ds k hk
  refine .inr (.inr (.inr ⟨k, hk, hbd.1, hbd.2, ?_⟩))
  rw [← h]
  show (f o (full ds), f o (full ds)) = _
  rw [he]

theorem itemActs_default (v : Version) (inImpl : Bool) (i : Item) (o : Nat) (ds : List Src)
    (hb : Body i o ds) (a : Act) (q : Nat × Nat) (ha : a ∈ itemActs v inImpl i none)
    (hq : a.place = some q) : Default i o ds a.what q := by
  have hst := start_slot o (full ds) _ rfl
  have hen := end_slot o (full ds) _ rfl
  have has := assoc_slot o (full ds) _ rfl
  have hev := scope_slot .event o (full ds) _ rfl
  have kend : ∀ (w : What) (f : Nat → List Src → Nat), (∃ k, EndSlot (full ds) k ∧ k ≤ (full ds).length ∧
      f o (full ds) = o + bytes (texts ((full ds).take k))) →
      (∀ cs k, Goes w cs k = EndSlot cs k) →
      ∃ k, Goes w (full ds) k ∧ f o (full ds) = o + bytes (texts ((full ds).take k)) := by
    rintro w f ⟨k, h1, -, h2⟩ hw
    exact ⟨k, by rw [hw]; exact h1, h2⟩
  have key : ∀ (w : What) (f : Nat → List Src → Nat), (∃ k, Goes w (full ds) k ∧
      f o (full ds) = o + bytes (texts ((full ds).take k))) →
      a ∈ addAt w none (i.offset f) → Default i o ds a.what q := by
    intro w f hg hm
    obtain ⟨h1, q', h2, h3⟩ := (addAt_mem _ _ _ _).1 hm
    rw [hq, Option.some.injEq] at h2
    subst h2
    rw [h1]
    exact offset_goes w i o ds hb f q hg h3
  have kcall : ∀ w c t e, i.kind = .module (some c) t e → (w = .constructor ∨ w = .message) →
      a ∈ addCallable w inImpl c none → Default i o ds a.what q := by
    intro w c t e hk hw hm
    unfold addCallable at hm
    obtain ⟨h1, q', h2, h3⟩ := (addAt_mem _ _ _ _).1 hm
    rw [hq, Option.some.injEq] at h2
    subst h2
    rw [h1]
    have h3' : c.callable.map (fun o => (o, o)) = some q := by
      simpa using h3
    obtain ⟨n, hn, rfl⟩ := Option.map_eq_some_iff.1 h3'
    exact .inr (.inr (.inl ⟨hw, c, t, e, n, hk, hn, rfl⟩))
  have ktopic : a ∈ addAt .topic none i.field → Default i o ds a.what q := by
    intro hm
    obtain ⟨h1, q', h2, h3⟩ := (addAt_mem _ _ _ _).1 hm
    rw [hq, Option.some.injEq] at h2
    subst h2
    simp only [Option.none_or, Option.map_eq_some_iff] at h3
    obtain ⟨n, hn, rfl⟩ := h3
    exact .inr (.inl ⟨h1, n, hn, rfl⟩)
  have kno : ∀ w, a ∈ [(⟨w, none⟩ : Act)] → Default i o ds a.what q := by
    intro w hm
    rw [List.mem_singleton] at hm
    subst hm
    cases hq
  have gst : ∃ k, Goes .storage (full ds) k ∧
      insertStart o (full ds) = o + bytes (texts ((full ds).take k)) := by
    obtain ⟨k, h1, -, h2⟩ := hst
    exact ⟨k, h1, h2⟩
  have gev : ∃ k, Goes .event (full ds) k ∧
      insertAfterStruct o (full ds) = o + bytes (texts ((full ds).take k)) := by
    obtain ⟨k, h1, -, h2⟩ := hev
    exact ⟨k, h1, h2⟩
  have ger : ∃ k, Goes .errorCode (full ds) k ∧
      insertAssocStart o (full ds) = o + bytes (texts ((full ds).take k)) := by
    refine ⟨1, rfl, ?_⟩
    simp [insertAssocStart, full, lCurly, texts, Src.text]
  unfold itemActs at ha
  cases hk : i.kind with
  | module c t e =>
    cases c with
    | none =>
      simp only [hk, List.mem_append, mem_if, List.not_mem_nil, and_false, or_false] at ha
      rcases ha with ⟨-, ha⟩ | ⟨-, ha⟩
      · exact key _ _ (kend .test _ hen fun _ _ => rfl) ha
      · exact key _ _ (kend .e2eTest _ hen fun _ _ => rfl) ha
    | some c =>
      simp only [hk, List.mem_append, mem_if, List.not_mem_nil, and_false, or_false, false_or]
        at ha
      rcases ha with (((⟨-, ha⟩ | ⟨-, ha⟩) | ⟨-, ha⟩) | ha) | ⟨-, ha | ⟨-, ha⟩⟩
      · exact kno _ ha
      · exact key _ _ gst ha
      · rw [List.mem_singleton] at ha
        subst ha
        cases hq
        exact .inl ⟨rfl, c, t, e, hk, rfl⟩
      · exact key _ _ gev ha
      · exact kcall _ c t e hk (.inl rfl) ha
      · exact kcall _ c t e hk (.inr rfl) ha
  | impl b1 b2 b3 =>
    simp only [hk, List.mem_append, mem_if, List.not_mem_nil, and_false, or_false] at ha
    rcases ha with ⟨-, ha | ⟨-, ha⟩⟩
    · exact key _ _ (kend .constructor _ has fun _ _ => rfl) ha
    · exact key _ _ (kend .message _ has fun _ _ => rfl) ha
  | chainExtension b =>
    simp only [hk, List.mem_append, mem_if, List.not_mem_nil, and_false, or_false, false_or] at ha
    rcases ha with (⟨-, ha⟩ | ⟨-, ha⟩) | ha
    · exact kno _ ha
    · exact key _ _ ger ha
    · exact key _ _ (kend .extension _ has fun _ _ => rfl) ha
  | traitDefinition =>
    simp only [hk, List.mem_append, mem_if, List.not_mem_nil, and_false, or_false] at ha
    rcases ha with ⟨-, ha⟩ | ha
    · exact kno _ ha
    · exact key _ _ (kend .message _ has fun _ _ => rfl) ha
  | event =>
    simp only [hk, List.mem_append, mem_if, List.not_mem_nil, and_false, or_false] at ha
    rcases ha with ha | ⟨-, ha⟩
    · exact ktopic ha
    · exact kno _ ha
  | eventV2 =>
    simp only [hk, List.mem_append] at ha
    rcases ha with ha | ha
    · exact ktopic ha
    · exact kno _ ha
  | storageItem =>
    simp only [hk, mem_if, List.not_mem_nil, and_false, or_false] at ha
    exact kno _ ha.2
  | other => simp [hk] at ha

/-- If the selection is not in the body, then each thing goes to its place in the body: storage to the
start, events behind the `struct`s, `ErrorCode` behind the bracket, other things to the end; but an event
of ink! 5 goes before the contract, a topic to the place for fields, and a constructor or message to the
place for functions of the contract. -/
theorem C88_declaration (v : Version) (p : Point) (r : Nat × Nat) (i : Item) (o : Nat)
    (ds : List Src) (hi : p.item = some i) (hb : Body i o ds) (hr : ¬ OnBody o ds r) (a : Act)
    (q : Nat × Nat) (ha : a ∈ acts v p r) (hq : a.place = some q)
    (hf : p.focus.isSome = true) : Default i o ds a.what q := by
  unfold acts at ha
  obtain ⟨f, hf⟩ := Option.isSome_iff_exists.1 hf
  rw [hf, hi] at ha
  rw [← onBody_iff i o ds hb, Bool.not_eq_true] at hr
  simp only [hr, Bool.false_eq_true, if_false, Bool.false_and, Bool.or_false, mem_if,
    List.not_mem_nil, and_false, false_or, or_false] at ha
  exact itemActs_default v p.inImpl i o ds hb a q ha.2.2 hq

theorem apart (d d' e e' : List Src) (x x' : Src) (h : d ++ x :: e = d' ++ x' :: e') (hne : x ≠ x') :
    bytes (texts d) + bytes x.text ≤ bytes (texts d') ∨
      bytes (texts d') + bytes x'.text ≤ bytes (texts d) := by
  rcases List.append_eq_append_iff.1 h with ⟨m, h1, h2⟩ | ⟨m, h1, h2⟩
  · cases m with
    | nil =>
      simp only [List.nil_append, List.cons.injEq] at h2
      exact absurd h2.1 hne
    | cons y m =>
      simp only [List.cons_append, List.cons.injEq] at h2
      obtain ⟨rfl, -⟩ := h2
      left
      rw [h1, texts_append, bytes_append, texts, bytes_append]
      omega
  · cases m with
    | nil =>
      simp only [List.nil_append, List.cons.injEq] at h2
      exact absurd h2.1.symm hne
    | cons y m =>
      simp only [List.cons_append, List.cons.injEq] at h2
      obtain ⟨rfl, -⟩ := h2
      right
      rw [h1, texts_append, bytes_append, texts, bytes_append]
      omega

theorem editRange_inside (o : Nat) (ds : List Src) (f : Focus) (r : Nat × Nat) (h : OnBody o ds r)
    (hr : r.1 ≤ r.2) (hin : InBody o ds f) : Inside o ds (editRange f r) := by
  obtain ⟨-, h1, h2⟩ := h
  have hlt : ∀ d x e, ds = d ++ x :: e →
      bytes (texts d) + bytes x.text ≤ bytes (texts ds) := by
    rintro d x e rfl
    rw [texts_append, texts, bytes_append, bytes_append]
    omega
  cases hin with
  | bracket hw hrg =>
    unfold editRange
    rw [hw, hrg]
    simp only [Bool.false_and, Bool.false_eq_true, if_false]
    exact ⟨by simp, by simp, by simp, fun d x e k _ _ => .inl (by simp), .inl rfl⟩
  | child d x e hds hx hw hrg =>
    have hle := hlt d x e hds
    unfold editRange
    split
    · rename_i hc
      simp only [Bool.and_eq_true, within, decide_eq_true_eq, hrg] at hc
      obtain ⟨t, rfl⟩ := hw hc.1
      refine ⟨hr, h1, h2, ?_, .inr ⟨d, t, e, hds, hc.2.1, hc.2.2⟩⟩
      intro d' x' e' k hds' hk
      have := apart d d' e e' (.tok true t) x' (by rw [← hds, hds']) (by
        rintro rfl
        cases hk)
      rcases this with h | h
      · left
        have := hc.2.2
        omega
      · right
        have := hc.2.1
        omega
    · rw [hrg]
      refine ⟨by simp, by simp; omega, by simp; omega, ?_, .inl rfl⟩
      intro d' x' e' k hds' hk
      have := apart d d' e e' x x' (by rw [← hds, hds']) (by
        rintro rfl
        exact hx k hk)
      rcases this with h | h
      · left
        simp
        omega
      · right
        simp
        omega

theorem itemActs_range (v : Version) (inImpl : Bool) (i : Item) (r : Nat × Nat) (a : Act)
    (q : Nat × Nat) (hn : ∀ c t e, i.kind = .module (some c) t e → c.named = true)
    (ha : a ∈ itemActs v inImpl i (some r)) (hq : a.place = some q) (he : a.what ≠ .eventV2) :
    q = r := by
  have key : ∀ w off, a ∈ addAt w (some r) off → q = r := by
    intro w off hm
    obtain ⟨h1, q', h2, h3⟩ := (addAt_mem _ _ _ _).1 hm
    rw [hq, Option.some.injEq] at h2
    subst h2
    simpa using h3.symm
  have kno : ∀ w, a ∈ [(⟨w, none⟩ : Act)] → q = r := by
    intro w hm
    rw [List.mem_singleton] at hm
    subst hm
    cases hq
  unfold itemActs at ha
  cases hk : i.kind with
  | module c t e =>
    cases c with
    | none =>
      simp only [hk, List.mem_append, mem_if, List.not_mem_nil, and_false, or_false] at ha
      rcases ha with ⟨-, ha⟩ | ⟨-, ha⟩ <;> exact key _ _ ha
    | some c =>
      simp only [hk, List.mem_append, mem_if, List.not_mem_nil, and_false, or_false, false_or,
        addCallable, hn c t e hk, Bool.or_true, if_true] at ha
      rcases ha with (((⟨-, ha⟩ | ⟨-, ha⟩) | ⟨-, ha⟩) | ha) | ⟨-, ha | ⟨-, ha⟩⟩
      · exact kno _ ha
      · exact key _ _ ha
      · rw [List.mem_singleton] at ha
        subst ha
        exact absurd rfl he
      · exact key _ _ ha
      · exact key _ _ ha
      · exact key _ _ ha
  | impl b1 b2 b3 =>
    simp only [hk, List.mem_append, mem_if, List.not_mem_nil, and_false, or_false] at ha
    rcases ha with ⟨-, ha | ⟨-, ha⟩⟩ <;> exact key _ _ ha
  | chainExtension b =>
    simp only [hk, List.mem_append, mem_if, List.not_mem_nil, and_false, or_false, false_or] at ha
    rcases ha with (⟨-, ha⟩ | ⟨-, ha⟩) | ha
    · exact kno _ ha
    · exact key _ _ ha
    · exact key _ _ ha
  | traitDefinition =>
    simp only [hk, List.mem_append, mem_if, List.not_mem_nil, and_false, or_false] at ha
    rcases ha with ⟨-, ha⟩ | ha
    · exact kno _ ha
    · exact key _ _ ha
  | event =>
    simp only [hk, List.mem_append, mem_if, List.not_mem_nil, and_false, or_false] at ha
    rcases ha with ha | ⟨-, ha⟩
    · exact key _ _ ha
    · exact kno _ ha
  | eventV2 =>
    simp only [hk, List.mem_append] at ha
    rcases ha with ha | ha
    · exact key _ _ ha
    · exact kno _ ha
  | storageItem =>
    simp only [hk, mem_if, List.not_mem_nil, and_false, or_false] at ha
    exact kno _ ha.2
  | other => simp [hk] at ha

/-- If the selection is in the body, then each thing (but an event of ink! 5, which goes before the
contract) goes inside of the body: in no other item, and replacing nothing but white space. Missing: this
needs the focused element to be in the body too; it is not if the cursor is right before the closing
bracket (`C88_negation_closing`) or if more than one element is selected
(`C88_negation_selection`). -/
theorem C88_body_partial (v : Version) (p : Point) (r : Nat × Nat) (f : Focus) (i : Item) (o : Nat)
    (ds : List Src) (hf : p.focus = some f) (hi : p.item = some i) (hb : Body i o ds)
    (hn : ∀ c t e, i.kind = .module (some c) t e → c.named = true) (hr : r.1 ≤ r.2)
    (hbody : OnBody o ds r) (hin : InBody o ds f) (a : Act) (q : Nat × Nat) (ha : a ∈ acts v p r)
    (hq : a.place = some q) (he : a.what ≠ .eventV2) : Inside o ds q := by
  unfold acts at ha
  rw [hf, hi] at ha
  have hbody' := (onBody_iff i o ds hb r).2 hbody
  simp only [hbody', if_true, mem_if, List.not_mem_nil, and_false, false_or, or_false] at ha
  have := itemActs_range v p.inImpl i _ a q hn ha.2.2 hq he
  rw [this]
  exact editRange_inside o ds f r hbody hr hin

/-- Full claim of `C88_body_partial`: no. In `mod m {⏎}` with the cursor right before the closing bracket,
the focused token is the bracket, and a test goes behind it, outside of the module. -/
theorem C88_negation_closing :
    ∃ (toks : List Tok) (t : At) (p : Point) (i : Item) (o : Nat) (ds : List Src) (a : Act)
      (q : Nat × Nat),
      (tokenAt toks 8).bind AtOffset.focused = some t ∧
      p.focus = some ⟨false, (t.start, t.stop), false⟩ ∧ p.item = some i ∧ Body i o ds ∧
      OnBody o ds (8, 8) ∧ a ∈ acts .v5 p (8, 8) ∧ a.place = some q ∧ ¬ Inside o ds q := by
  refine ⟨[⟨false, ['m', 'o', 'd']⟩, ⟨true, [' ']⟩, ⟨false, ['m']⟩, ⟨true, [' ']⟩, ⟨false, ['{']⟩,
      ⟨true, ['\n']⟩, ⟨false, ['}']⟩], ⟨⟨false, ['}']⟩, 8, 6⟩,
    ⟨some ⟨false, (8, 9), false⟩, false, some ⟨.module none true false, 0,
      some (6, [.tok false ['{'], .tok true ['\n'], .tok false ['}']]), none, none⟩, false, false,
      false, 9⟩, ⟨.module none true false, 0,
      some (6, [.tok false ['{'], .tok true ['\n'], .tok false ['}']]), none, none⟩, 6,
    [.tok true ['\n']], ⟨.test, some (9, 9)⟩, (9, 9), by decide +kernel, rfl, rfl, ⟨rfl, ?_⟩,
    ⟨by decide, by decide, by decide⟩, by decide +kernel, rfl, ?_⟩
  · intro w t ht
    simp only [List.mem_singleton, Src.tok.injEq] at ht
    rw [ht.2]
    decide
  · intro h
    exact absurd h.upper (by decide)

/-- Full claim of `C88_body_partial`: no. If both line breaks and the `use` between them are selected in
`mod m {⏎use x;⏎}`, then the element around them is the whole list, and a test goes behind it, outside of
the module. -/
theorem C88_negation_selection :
    ∃ (f : Focus) (p : Point) (i : Item) (o : Nat) (ds : List Src) (r : Nat × Nat) (a : Act)
      (q : Nat × Nat),
      p.focus = some f ∧ f.range = (o, o + 1 + bytes (texts ds) + 1) ∧ p.item = some i ∧
      Body i o ds ∧ r = (o + 1, o + 1 + bytes (texts ds)) ∧ 1 < ds.length ∧
      OnBody o ds r ∧ a ∈ acts .v5 p r ∧ a.place = some q ∧ ¬ Inside o ds q := by
  refine ⟨⟨false, (6, 16), false⟩,
    ⟨some ⟨false, (6, 16), false⟩, false, some ⟨.module none true false, 0,
      some (6, [.tok false ['{'], .tok true ['\n'],
        .node (.item .use) [.tok false ['u', 's', 'e', ' ', 'x', ';']], .tok true ['\n'],
        .tok false ['}']]), none, none⟩, false, false, false, 16⟩, ⟨.module none true false, 0,
      some (6, [.tok false ['{'], .tok true ['\n'],
        .node (.item .use) [.tok false ['u', 's', 'e', ' ', 'x', ';']], .tok true ['\n'],
        .tok false ['}']]), none, none⟩, 6,
    [.tok true ['\n'], .node (.item .use) [.tok false ['u', 's', 'e', ' ', 'x', ';']],
      .tok true ['\n']], (7, 15), ⟨.test, some (16, 16)⟩, (16, 16), rfl, by decide +kernel, rfl,
    ⟨rfl, ?_⟩, by decide +kernel, by decide, ⟨by decide +kernel, by decide, by decide +kernel⟩,
    by decide +kernel, rfl, ?_⟩
  · intro w t ht
    simp only [List.mem_cons, Src.tok.injEq, reduceCtorEq, List.not_mem_nil, or_false, false_or,
      or_self] at ht
    rw [ht.2]
    decide
  · intro h
    exact absurd h.upper (by decide +kernel)

/-! ### Fields -/

/-- A topic added to a `struct` with named fields: the former fields stay as they are, but that the last
gets a comma, and the new one is behind them. White space and comments stay too. -/
theorem C88_topic (pre post lead text : List Char) (fs : List Field) (f : Field) :
    ∃ last new, applyEdit (pre ++ fieldsText false lead (fs ++ [f]) ++ post)
        (topicEdit false (bytes pre) lead (fs ++ [f]) (text ++ [','])) =
        some (pre ++ fieldsText false lead (fs ++ [last, new]) ++ post) ∧
      last.text = f.text ∧ last.comma = true ∧ new.text = text ∧ new.comma = true ∧
      new.gap = [] ∧ last.after = ['\n'] ∧ last.gap ++ new.after = f.gap ++ f.after := by
  by_cases hc : f.comma = true
  · refine ⟨⟨f.text, f.gap, true, ['\n']⟩, ⟨text, [], true, f.after⟩, ?_, rfl, rfl, rfl, rfl,
      rfl, rfl, rfl⟩
    have := Header.apply_cut (pre ++ '{' :: lead ++ fs.flatMap Field.full ++ f.text ++ f.gap ++ [','])
      [] (f.after ++ ['}'] ++ post) (topicEdit false (bytes pre) lead (fs ++ [f]) (text ++ [',']))
      (by simp [topicEdit, fieldPlace, hc, bytes_append, bytes]; simp [Char.utf8Size]; omega)
      (by simp [topicEdit, fieldPlace, hc, bytes_append, bytes]; simp [Char.utf8Size]; omega)
    simpa [topicEdit, fieldPlace, hc, fieldsText, Field.full, List.append_assoc] using this
  · refine ⟨⟨f.text, [], true, ['\n']⟩, ⟨text, [], true, f.gap ++ f.after⟩, ?_, rfl, rfl, rfl,
      rfl, rfl, rfl, rfl⟩
    have := Header.apply_cut (pre ++ '{' :: lead ++ fs.flatMap Field.full ++ f.text)
      [] (f.gap ++ f.after ++ ['}'] ++ post) (topicEdit false (bytes pre) lead (fs ++ [f]) (text ++ [',']))
      (by simp [topicEdit, fieldPlace, hc, bytes_append, bytes]; simp [Char.utf8Size]; omega)
      (by simp [topicEdit, fieldPlace, hc, bytes_append, bytes]; simp [Char.utf8Size]; omega)
    simpa [topicEdit, fieldPlace, hc, fieldsText, Field.full, List.append_assoc] using this

/-- A topic added to a `struct` with brackets and no fields is its only field. -/
theorem C88_topic_empty (pre post lead text : List Char) :
    applyEdit (pre ++ fieldsText false lead [] ++ post) (topicEdit false (bytes pre) lead [] (text ++ [','])) =
      some (pre ++ fieldsText false [] [⟨text, [], true, lead⟩] ++ post) := by
  have := Header.apply_cut (pre ++ ['{']) [] (lead ++ ['}'] ++ post)
    (topicEdit false (bytes pre) lead [] (text ++ [',']))
    (by simp [topicEdit, fieldPlace, bytes_append, bytes]; simp [Char.utf8Size])
    (by simp [topicEdit, fieldPlace, bytes_append, bytes]; simp [Char.utf8Size])
  simpa [topicEdit, fieldPlace, fieldsText, Field.full, List.append_assoc] using this

/-- The topic of `struct S(u8);` is a field with a name in a list of fields without names, which is no
Rust. -/
theorem C88_negation_tuple :
    ∃ text : List Char, text = "    #[ink(topic)]\n    my_topic: bool,".toList ∧
      applyEdit "struct S(u8);".toList (topicEdit true 8 [] [⟨['u', '8'], [], false, []⟩] text) =
        some "struct S(u8,     #[ink(topic)]\n    my_topic: bool,);".toList :=
  ⟨_, rfl, by decide +kernel⟩

/-! ### Examples -/

/-- `mod m {⏎⏎struct S;⏎}` as a contract without a storage; see `exPoint`. -/
def exBody : List Src :=
  [.tok true ['\n', '\n'], .node (.item .struct) [.tok false ['s', ';']], .tok true ['\n']]

/-- The module with `exBody`. -/
def exItem : Item :=
  ⟨.module (some ⟨false, false, false, some 12, true, 0⟩) false false, 0,
    some (6, .tok false ['{'] :: (exBody ++ [.tok false ['}']])), none, none⟩

/-- A cursor between the two line breaks of `exBody`. -/
def exPoint : Point := ⟨some ⟨true, (7, 9), false⟩, false, some exItem, false, false, true, 13⟩

theorem exBody_body : Body exItem 6 exBody := by
  refine ⟨rfl, ?_⟩
  intro w t ht
  simp only [exBody, List.mem_cons, Src.tok.injEq, reduceCtorEq, List.not_mem_nil, or_false,
    false_or] at ht
  rcases ht with ⟨-, rfl⟩ | ⟨-, rfl⟩ <;> decide

example : OnBody 6 exBody (8, 8) := ⟨by decide +kernel, by decide, by decide +kernel⟩

example : InBody 6 exBody ⟨true, (7, 9), false⟩ :=
  .child [] _ _ rfl (by simp [Src.kind?]) (fun _ => ⟨_, rfl⟩) (by decide +kernel)

example : acts .v4 exPoint (8, 8) = [⟨.migrate, none⟩, ⟨.storage, some (8, 8)⟩,
    ⟨.event, some (8, 8)⟩, ⟨.constructor, some (8, 8)⟩, ⟨.message, some (8, 8)⟩] := by
  decide +kernel

example : acts .v5 exPoint (0, 0) = [⟨.storage, some (7, 7)⟩, ⟨.eventV2, some (0, 0)⟩,
    ⟨.event, some (11, 11)⟩, ⟨.constructor, some (12, 12)⟩, ⟨.message, some (12, 12)⟩] := by
  decide +kernel

example : applyEdit "struct S { a: u8 }".toList
    (topicEdit false 9 [' '] [⟨"a: u8".toList, [], false, [' ']⟩] "b: u8,".toList) =
    some "struct S { a: u8,\nb: u8, }".toList := by decide +kernel

end Verif.Analyzer.Offer
