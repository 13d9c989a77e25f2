import Verif.Analyzer.TraitImplLemmas

/-!
# Properties of the check of trait definition implementations

C54 (names), C63 (the quickfix for missing messages), C64 (signatures), C65 (ink! arguments).

## Specification
-/

namespace Verif.Analyzer

open Verif.Ir

/-- The trait definition has a message of this name. -/
def Declares (messages : List TraitMsg) (n : String) : Prop := ∃ m ∈ messages, m.name = some n

/-- The implementation has a function of this name. -/
def HasFn (items : List AssocItem) (n : String) : Prop :=
  ∃ f r, AssocItem.fn f ∈ items ∧ f.name = some (n, r)

/-- All names are proper (the parser gives no empty names to functions with a name). -/
def NamesOk (messages : List TraitMsg) (items : List AssocItem) : Prop :=
  (∀ m ∈ messages, m.name ≠ some "") ∧
    ∀ f r, AssocItem.fn f ∈ items → f.name ≠ some ("", r)

/-- The diagnostics that concern which items there are. -/
def TraitIssue.AboutNames : TraitIssue → Prop
  | .undeclaredMethod _ | .notAMessage | .missingMessages => True
  | _ => False

/-! ## Lemmas -/

theorem matchPart_issue {d i : Option SigPart} {dr rr : Nat × Nat} {l : String}
    {r : Option String} {x : TraitDiag} (h : x ∈ matchPart d i dr rr l r) :
    (∃ p, x.issue = .signatureMismatch p) ∨ ∃ p, x.issue = .signatureUndeclared p := by
  unfold matchPart at h
  split at h
  · rw [List.mem_singleton] at h; exact .inl ⟨_, by rw [h]⟩
  · split at h
    · cases h
    · rw [List.mem_singleton] at h; exact .inl ⟨_, by rw [h]⟩
  · rw [List.mem_singleton] at h; exact .inr ⟨_, by rw [h]⟩
  · cases h

theorem matchSignature_issue {m : TraitMsg} {f : ImplFn} {r : Nat × Nat} {x : TraitDiag}
    (h : x ∈ matchSignature m f r) :
    (∃ p, x.issue = .signatureMismatch p) ∨ ∃ p, x.issue = .signatureUndeclared p := by
  unfold matchSignature at h
  rcases List.mem_append.1 h with h | h <;> exact matchPart_issue h

theorem checkValue_issue {d a : TArg} {x : TraitDiag} (h : x ∈ checkValue d a) :
    x.issue = .missingValue a.kind ∨ x.issue = .valueMismatch a.kind := by
  unfold checkValue at h
  split at h
  · cases h
  · split at h
    · cases h
    · split at h
      · rw [List.mem_singleton] at h; exact .inl (by rw [h])
      · split at h
        · cases h
        · rw [List.mem_singleton] at h; exact .inr (by rw [h])

theorem checkArg_issue {ds : List TArg} {b : Bool} {a : TArg} {x : TraitDiag}
    (h : x ∈ checkArg ds b a) :
    x.issue = .missingValue a.kind ∨ x.issue = .valueMismatch a.kind ∨
      x.issue = .undeclaredArg a.kind := by
  unfold checkArg at h
  split at h
  · rcases checkValue_issue h with h | h
    · exact .inl h
    · exact .inr (.inl h)
  · split at h
    · cases h
    · rw [List.mem_singleton] at h; exact .inr (.inr (by rw [h]))

theorem checkAttr_issue {ds : List TArg} {t : TAttr} {x : TraitDiag} (h : x ∈ checkAttr ds t) :
    x.issue = .macroAttr ∨ ∃ a ∈ t.args, x.issue = .missingValue a.kind ∨
      x.issue = .valueMismatch a.kind ∨ x.issue = .undeclaredArg a.kind := by
  unfold checkAttr at h
  rcases List.mem_append.1 h with h | h
  · split at h
    · rw [List.mem_singleton] at h; exact .inl (by rw [h])
    · cases h
  · rw [List.mem_flatMap] at h
    obtain ⟨a, ha, h⟩ := h
    exact .inr ⟨a, ha, checkArg_issue h⟩

theorem matchArgs_names {order : List TArg → List TArg} {v : Version} {m : TraitMsg} {f : ImplFn}
    {x : TraitDiag} (h : x ∈ matchArgs order v m f) : ¬ x.issue.AboutNames := by
  unfold matchArgs at h
  rcases List.mem_append.1 h with h | h
  · rw [List.mem_flatMap] at h
    obtain ⟨t, _, h⟩ := h
    rcases checkAttr_issue h with h | ⟨a, _, h | h | h⟩ <;> rw [h] <;> exact id
  · split at h
    · cases h
    · rw [List.mem_singleton] at h; rw [h]; exact id

theorem missingDiag_issue {i : TraitImpl} {ms : List TraitMsg} {x : TraitDiag}
    (h : x ∈ missingDiag i ms) : x.issue = .missingMessages := by
  unfold missingDiag at h
  split at h
  · cases h
  · rw [List.mem_singleton] at h; rw [h]

/-- The reports of one item that concern names. -/
theorem checkItem_names {order : List TArg → List TArg} {v : Version} {messages : List TraitMsg}
    {methods : List String} {i : AssocItem} {x : TraitDiag} :
    x ∈ checkItem order v messages methods i ∧ x.issue.AboutNames ↔
      (∃ f n r, i = .fn f ∧ f.name = some (n, r) ∧ findMessage messages n = none ∧
        n ∉ methods ∧ x = ⟨.undeclaredMethod n, f.range, [deleteRange f.range]⟩) ∨
      ∃ r, i = .other r ∧ x = ⟨.notAMessage, r, [deleteRange r]⟩ := by
  constructor
  · rintro ⟨h, hn⟩
    cases i with
    | other r =>
      unfold checkItem at h
      rw [List.mem_singleton] at h
      exact .inr ⟨r, rfl, h⟩
    | fn f =>
      left
      unfold checkItem at h
      cases hf : f.name with
      | none => simp [hf] at h
      | some p =>
        obtain ⟨n, r⟩ := p
        simp only [hf] at h
        cases hm : findMessage messages n with
        | none =>
          simp only [hm] at h
          split at h
          · cases h
          · rename_i hmeth
            rw [List.mem_singleton] at h
            exact ⟨f, n, r, rfl, hf, hm, fun hc => hmeth (List.contains_iff_mem.2 hc), h⟩
        | some m =>
          simp only [hm] at h
          rcases List.mem_append.1 h with h | h
          · exact absurd hn (matchArgs_names h)
          · rcases matchSignature_issue h with ⟨p, h⟩ | ⟨p, h⟩ <;> rw [h] at hn <;> exact hn.elim
  · rintro (⟨f, n, r, rfl, hf, hm, hmeth, rfl⟩ | ⟨r, rfl, rfl⟩)
    · refine ⟨?_, trivial⟩
      unfold checkItem
      simp only [hf, hm]
      rw [if_neg (fun h => hmeth (List.contains_iff_mem.1 h))]
      exact List.mem_singleton_self _
    · exact ⟨List.mem_singleton_self _, trivial⟩

/-! ## C54: names -/

/-- C54, unexpected functions. A function of the implementation is reported (with its removal
as quickfix) exactly when no message *and no other method* of the trait definition has its
name. Missing from the full claim: a function that has the name of a trait method without
`#[ink(message)]` is unexpected too, but not reported (`C54_negation`). -/
theorem C54_unexpected_partial (orderArgs : List TArg → List TArg)
    (orderMsgs : List TraitMsg → List TraitMsg) (v : Version) (messages : List TraitMsg)
    (methods : List String) (i : TraitImpl) (n : String) (hn : n ≠ "") (d : TraitDiag) :
    (d ∈ checkTraitImpl orderArgs orderMsgs v messages methods i ∧
        d.issue = .undeclaredMethod n) ↔
      ∃ f r, AssocItem.fn f ∈ i.items.getD [] ∧ f.name = some (n, r) ∧
        ¬ Declares messages n ∧ n ∉ methods ∧
        d = ⟨.undeclaredMethod n, f.range, [⟨[], f.range.1, f.range.2, none⟩]⟩ := by
  constructor
  · rintro ⟨h, hi⟩
    unfold checkTraitImpl at h
    rcases List.mem_append.1 h with h | h
    · rw [List.mem_flatMap] at h
      obtain ⟨it, hit, h⟩ := h
      rcases checkItem_names.1 ⟨h, by rw [hi]; trivial⟩ with
        ⟨f, n', r, rfl, hf, hm, hmeth, rfl⟩ | ⟨r, _, rfl⟩
      · have : n' = n := by injection hi
        subst this
        exact ⟨f, r, hit, hf, (findMessage_none hn).1 hm, hmeth, rfl⟩
      · cases hi
    · rw [missingDiag_issue h] at hi
      cases hi
  · rintro ⟨f, r, hf, hfn, hd, hm, rfl⟩
    refine ⟨?_, rfl⟩
    unfold checkTraitImpl
    refine List.mem_append_left _ (List.mem_flatMap.2 ⟨_, hf, ?_⟩)
    exact (checkItem_names.2 (.inl ⟨f, n, r, rfl, hfn, (findMessage_none hn).2 hd, hm, rfl⟩)).1

/-- C54, missing messages. The implementation gets one report for missing messages exactly
when the trait definition has a message of a name that none of its functions has. -/
theorem C54_missing (orderArgs : List TArg → List TArg)
    (orderMsgs : List TraitMsg → List TraitMsg) (ho : ∀ l, (orderMsgs l).Perm l) (v : Version)
    (messages : List TraitMsg) (methods : List String) (i : TraitImpl) :
    (((checkTraitImpl orderArgs orderMsgs v messages methods i).filter
        fun d => d.issue == .missingMessages).length ≤ 1) ∧
    ((∃ d ∈ checkTraitImpl orderArgs orderMsgs v messages methods i,
        d.issue = .missingMessages) ↔
      ∃ n, n ≠ "" ∧ Declares messages n ∧ ¬ HasFn (i.items.getD []) n) := by
  have hitem : ∀ it, ∀ x ∈ checkItem orderArgs v messages methods it,
      x.issue ≠ .missingMessages := by
    intro it x hx hi
    rcases checkItem_names.1 ⟨hx, by rw [hi]; trivial⟩ with ⟨f, n', r, _, _, _, _, rfl⟩ | ⟨r, _, rfl⟩
      <;> cases hi
  constructor
  · unfold checkTraitImpl
    rw [List.filter_append]
    have : ((i.items.getD []).flatMap (checkItem orderArgs v messages methods)).filter
        (fun d => d.issue == .missingMessages) = [] := by
      rw [List.filter_eq_nil_iff]
      intro x hx
      rw [List.mem_flatMap] at hx
      obtain ⟨it, _, hx⟩ := hx
      simpa using hitem it x hx
    rw [this, List.nil_append]
    refine Nat.le_trans (List.length_filter_le _ _) ?_
    unfold missingDiag
    split <;> simp
  · constructor
    · rintro ⟨d, h, hi⟩
      unfold checkTraitImpl at h
      rcases List.mem_append.1 h with h | h
      · rw [List.mem_flatMap] at h
        obtain ⟨it, _, h⟩ := h
        exact absurd hi (hitem it d h)
      · cases hm : missingMessages orderMsgs messages (i.items.getD []) with
        | nil => rw [hm] at h; cases h
        | cons m ms =>
          have hmem : m ∈ missingMessages orderMsgs messages (i.items.getD []) := by
            rw [hm]; exact List.mem_cons_self
          rw [mem_missingMessages ho] at hmem
          obtain ⟨hms, hnamed⟩ := mem_messageIndex_sub hmem.1
          cases hn : m.name with
          | none => simp [TraitMsg.named, hn] at hnamed
          | some n =>
            refine ⟨n, ?_, ⟨m, hms, hn⟩, hmem.2 n hn⟩
            intro h0
            simp [TraitMsg.named, hn, h0] at hnamed
    · rintro ⟨n, hn, hd, hf⟩
      obtain ⟨m, hm, hmn⟩ := exists_messageIndex hn hd
      have hmem : m ∈ missingMessages orderMsgs messages (i.items.getD []) := by
        rw [mem_missingMessages ho]
        refine ⟨hm, fun n' hn' => ?_⟩
        rw [hmn] at hn'
        cases hn'
        exact hf
      unfold checkTraitImpl
      cases hl : missingMessages orderMsgs messages (i.items.getD []) with
      | nil => rw [hl] at hmem; cases hmem
      | cons m' ms' =>
        exact ⟨_, List.mem_append_right _ (List.mem_singleton_self _), rfl⟩

/-- C54, other items. Every associated constant, type or macro call is reported. -/
theorem C54_other (orderArgs : List TArg → List TArg)
    (orderMsgs : List TraitMsg → List TraitMsg) (v : Version) (messages : List TraitMsg)
    (methods : List String) (i : TraitImpl) (d : TraitDiag) :
    (d ∈ checkTraitImpl orderArgs orderMsgs v messages methods i ∧ d.issue = .notAMessage) ↔
      ∃ r, AssocItem.other r ∈ i.items.getD [] ∧
        d = ⟨.notAMessage, r, [⟨[], r.1, r.2, none⟩]⟩ := by
  constructor
  · rintro ⟨h, hi⟩
    unfold checkTraitImpl at h
    rcases List.mem_append.1 h with h | h
    · rw [List.mem_flatMap] at h
      obtain ⟨it, hit, h⟩ := h
      rcases checkItem_names.1 ⟨h, by rw [hi]; trivial⟩ with
        ⟨f, n', r, _, _, _, _, rfl⟩ | ⟨r, rfl, rfl⟩
      · cases hi
      · exact ⟨r, hit, rfl⟩
    · rw [missingDiag_issue h] at hi
      cases hi
  · rintro ⟨r, hr, rfl⟩
    exact ⟨List.mem_append_left _ (List.mem_flatMap.2 ⟨_, hr, List.mem_singleton_self _⟩), rfl⟩

/-- C54, the equivalence. When every method of the trait definition is a message, the
implementation has no report about names iff its functions are exactly the messages by name
and it has no other items. Missing from the full claim: traits with methods that are not
messages (`C54_negation`). -/
theorem C54_exact_partial (orderArgs : List TArg → List TArg)
    (orderMsgs : List TraitMsg → List TraitMsg) (ho : ∀ l, (orderMsgs l).Perm l) (v : Version)
    (messages : List TraitMsg) (methods : List String) (i : TraitImpl)
    (hok : NamesOk messages (i.items.getD []))
    (hmeth : ∀ n ∈ methods, Declares messages n) :
    (∀ d ∈ checkTraitImpl orderArgs orderMsgs v messages methods i, ¬ d.issue.AboutNames) ↔
      (∀ n, HasFn (i.items.getD []) n ↔ Declares messages n) ∧
        ∀ r, AssocItem.other r ∉ i.items.getD [] := by
  have hm := (C54_missing orderArgs orderMsgs ho v messages methods i).2
  constructor
  · intro h
    refine ⟨fun n => ⟨?_, ?_⟩, ?_⟩
    · rintro ⟨f, r, hf, hfn⟩
      have hn : n ≠ "" := fun h0 => hok.2 f r hf (h0 ▸ hfn)
      by_cases hd : Declares messages n
      · exact hd
      · have := (C54_unexpected_partial orderArgs orderMsgs v messages methods i n hn
          ⟨.undeclaredMethod n, f.range, [⟨[], f.range.1, f.range.2, none⟩]⟩).2
          ⟨f, r, hf, hfn, hd, fun hc => hd (hmeth n hc), rfl⟩
        exact absurd trivial (h _ this.1)
    · intro hd
      by_cases hf : HasFn (i.items.getD []) n
      · exact hf
      · have hn : n ≠ "" := by
          rintro rfl
          obtain ⟨m, hm, hmn⟩ := hd
          exact hok.1 m hm hmn
        obtain ⟨d, hd', hi⟩ := hm.2 ⟨n, hn, hd, hf⟩
        exact absurd (by rw [hi]; trivial) (h d hd')
    · intro r hr
      have := (C54_other orderArgs orderMsgs v messages methods i _).2 ⟨r, hr, rfl⟩
      exact absurd trivial (h _ this.1)
  · rintro ⟨hnames, hother⟩ d hd ha
    cases hi : d.issue with
    | undeclaredMethod n =>
      by_cases hn : n = ""
      · subst hn
        unfold checkTraitImpl at hd
        rcases List.mem_append.1 hd with h | h
        · rw [List.mem_flatMap] at h
          obtain ⟨it, hit, h⟩ := h
          rcases checkItem_names.1 ⟨h, ha⟩ with ⟨f, n', r, rfl, hf, _, _, rfl⟩ | ⟨r, _, rfl⟩
          · have : n' = "" := by injection hi
            exact hok.2 f r hit (this ▸ hf)
          · cases hi
        · rw [missingDiag_issue h] at hi
          cases hi
      · obtain ⟨f, r, hf, hfn, hnd, _, _⟩ :=
          (C54_unexpected_partial orderArgs orderMsgs v messages methods i n hn d).1 ⟨hd, hi⟩
        exact hnd ((hnames n).1 ⟨f, r, hf, hfn⟩)
    | notAMessage =>
      obtain ⟨r, hr, _⟩ :=
        (C54_other orderArgs orderMsgs v messages methods i d).1 ⟨hd, hi⟩
      exact hother r hr
    | missingMessages =>
      obtain ⟨n, _, hdec, hnf⟩ := hm.1 ⟨d, hd, hi⟩
      exact hnf ((hnames n).2 hdec)
    | signatureMismatch => rw [hi] at ha; exact ha
    | signatureUndeclared => rw [hi] at ha; exact ha
    | macroAttr => rw [hi] at ha; exact ha
    | missingValue => rw [hi] at ha; exact ha
    | valueMismatch => rw [hi] at ha; exact ha
    | undeclaredArg => rw [hi] at ha; exact ha
    | missingArgs => rw [hi] at ha; exact ha

/-- The argument `message`, for examples. -/
def sampleMessageArg : TArg := ⟨.message, none, chars! "message", (0, 7), (0, 7)⟩

/-- A trait message `#[ink(message)] fn n(&self)`, for examples. -/
def sampleTraitMsg (n : String) : TraitMsg :=
  { name := some n, params := some ⟨[(false, chars! "(&self)")], (0, 7)⟩, ret := none
    paramTexts := some (some (chars! "&self"), []), retType := none
    args := [sampleMessageArg] }

/-- Its implementation, for examples. -/
def sampleImplFn (n : String) : ImplFn :=
  { name := some (n, (40, 43)), params := some ⟨[(false, chars! "(&self)")], (43, 50)⟩
    ret := none, attrs := [⟨.arg .message, [sampleMessageArg], (20, 35)⟩]
    range := (20, 53), declRange := (37, 50) }

/-- An implementation with the given items, for examples. -/
def sampleImpl (items : List AssocItem) : TraitImpl := ⟨some items, 60, chars! "    ", [], (0, 15)⟩

/-- C54 is false as stated: the trait definition declares the message `get` and a method `aux`
that is not a message; an implementation with functions `get` and `aux` (or with only
unexpected methods) has no diagnostic, although `aux` is not a message. -/
theorem C54_negation :
    checkTraitImpl id id .v5 [sampleTraitMsg "get"] ["get", "aux"]
        (sampleImpl [.fn (sampleImplFn "get"), .fn (sampleImplFn "aux")]) = [] ∧
      HasFn [.fn (sampleImplFn "get"), .fn (sampleImplFn "aux")] "aux" ∧
      ¬ Declares [sampleTraitMsg "get"] "aux" := by
  refine ⟨by decide, ⟨sampleImplFn "aux", (40, 43), by simp, rfl⟩, ?_⟩
  rintro ⟨m, hm, hn⟩
  rw [List.mem_singleton] at hm
  subst hm
  exact absurd hn (by decide)

/-- `set` is missing, `foo` and the constant are unexpected. -/
example :
    (checkTraitImpl id id .v5 [sampleTraitMsg "get", sampleTraitMsg "set"] ["get", "set"]
        (sampleImpl [.fn (sampleImplFn "get"), .fn (sampleImplFn "foo"), .other (70, 80)])).map
      TraitDiag.issue = [.undeclaredMethod "foo", .notAMessage, .missingMessages] := by decide

/-- The hypotheses of `C54_exact_partial` hold for a proper implementation. -/
example : NamesOk [sampleTraitMsg "get"] [.fn (sampleImplFn "get")] ∧
    ∀ n ∈ ["get"], Declares [sampleTraitMsg "get"] n := by
  refine ⟨⟨?_, ?_⟩, ?_⟩
  · intro m hm
    rw [List.mem_singleton] at hm
    subst hm
    decide
  · intro f r hf
    rw [List.mem_singleton] at hf
    cases hf
    intro h
    injection h with h
    injection h with h _
    exact absurd h (by decide)
  · intro n hn
    rw [List.mem_singleton] at hn
    subst hn
    exact ⟨_, List.mem_singleton_self _, rfl⟩

/-! ## C63: the quickfix for missing messages -/

/-- `s` is the source of a function that implements message `m` with the given body: its
name, its declared parameters and its declared return type. -/
def IsStub (m : TraitMsg) (body s : List Char) : Prop :=
  ∃ n params ret, m.name = some n ∧
    params = (match m.paramTexts with
      | some (self, others) => List.intercalate (chars! ", ") (self.toList ++ others)
      | none => []) ∧
    ret = (match m.retType with
      | some t => chars! " -> " ++ t
      | none => []) ∧
    s = chars! "fn " ++ n.toList ++ ['('] ++ params ++ [')'] ++ ret ++ chars! " {\n    " ++ body ++
      chars! "\n}"

/-- The parameters have texts (the parser has no empty parameters). -/
def ParamsOk (m : TraitMsg) : Prop :=
  ∀ self others, m.paramTexts = some (self, others) → ∀ p ∈ others, p ≠ []

/-- The bodies of snippets: placeholders numbered from `k`. -/
def placeholder (k : Nat) : List Char := chars! "${" ++ k.repr.toList ++ chars! ":todo!()}"

/-- One stub for each message in turn, with bodies `body 1`, `body 2`, … -/
def AreStubs (body : Nat → List Char) : Nat → List TraitMsg → List (List Char) → Prop
  | _, [], [] => True
  | k, m :: ms, s :: ss => IsStub m (body k) s ∧ AreStubs body (k + 1) ms ss
  | _, _, _ => False

theorem stubParams_eq (self : Option (List Char)) (others : List (List Char))
    (h : ∀ p ∈ others, p ≠ []) :
    stubParams self others = List.intercalate (chars! ", ") (self.toList ++ others) := by
  unfold stubParams
  cases self with
  | none => simp
  | some s =>
    cases others with
    | nil => simp [List.intercalate]
    | cons o os =>
      have ho : o ≠ [] := h o List.mem_cons_self
      have : (List.intercalate [',', ' '] (o :: os)).isEmpty = false := by
        cases o with
        | nil => exact absurd rfl ho
        | cons c cs => cases os <;> simp [List.intercalate]
      rw [this]
      simp [List.intercalate]

theorem stub_isStub (m : TraitMsg) (n : String) (hn : m.name = some n) (hp : ParamsOk m)
    (body : List Char) :
    IsStub m body (stubSig n m ++ chars! " {\n    " ++ body ++ chars! "\n}") := by
  refine ⟨n, _, _, hn, rfl, rfl, ?_⟩
  unfold stubSig
  cases hr : m.retType with
  | none =>
    cases hpt : m.paramTexts with
    | none => simp
    | some p =>
      obtain ⟨self, others⟩ := p
      simp [stubParams_eq self others (hp self others hpt)]
  | some t =>
    cases hpt : m.paramTexts with
    | none => simp
    | some p =>
      obtain ⟨self, others⟩ := p
      simp [stubParams_eq self others (hp self others hpt)]

theorem stubs_eq (ms : List TraitMsg) (hn : ∀ m ∈ ms, ∃ n, m.name = some n)
    (hp : ∀ m ∈ ms, ParamsOk m) (k : Nat) (hk : 1 ≤ k) (e s : Option (List Char)) :
    ∃ es ss, AreStubs (fun _ => chars! "todo!()") k ms es ∧ AreStubs placeholder k ms ss ∧
      (ms = [] → stubs e s k ms = (e, s)) ∧
      (ms ≠ [] → stubs e s k ms =
        (some (e.getD [] ++ (if k > 1 then ['\n', '\n'] else []) ++
            List.intercalate ['\n', '\n'] es),
          some (s.getD [] ++ (if k > 1 then ['\n', '\n'] else []) ++
            List.intercalate ['\n', '\n'] ss))) := by
  induction ms generalizing k e s with
  | nil => exact ⟨[], [], trivial, trivial, fun _ => rfl, fun h => absurd rfl h⟩
  | cons m ms ih =>
    obtain ⟨n, hmn⟩ := hn m List.mem_cons_self
    have hpm := hp m List.mem_cons_self
    obtain ⟨es, ss, hes, hss, hnil, hcons⟩ := ih (fun x hx => hn x (List.mem_cons_of_mem _ hx))
      (fun x hx => hp x (List.mem_cons_of_mem _ hx)) (k + 1) (by omega)
      (some (e.getD [] ++ (if k > 1 then ['\n', '\n'] else []) ++ stubSig n m ++
        chars! " {\n    todo!()\n}"))
      (some (s.getD [] ++ (if k > 1 then ['\n', '\n'] else []) ++ stubSig n m ++
        chars! " {\n    ${" ++ k.repr.toList ++ chars! ":todo!()}\n}"))
    refine ⟨(stubSig n m ++ chars! " {\n    " ++ chars! "todo!()" ++ chars! "\n}") :: es,
      (stubSig n m ++ chars! " {\n    " ++ placeholder k ++ chars! "\n}") :: ss,
      ⟨stub_isStub m n hmn hpm _, hes⟩, ⟨stub_isStub m n hmn hpm _, hss⟩,
      fun h => (nomatch h), fun _ => ?_⟩
    have e1 : stubs e s k (m :: ms) = stubs
      (some (e.getD [] ++ (if k > 1 then ['\n', '\n'] else []) ++ stubSig n m ++
        chars! " {\n    todo!()\n}"))
      (some (s.getD [] ++ (if k > 1 then ['\n', '\n'] else []) ++ stubSig n m ++
        chars! " {\n    ${" ++ k.repr.toList ++ chars! ":todo!()}\n}")) (k + 1) ms := by
      rw [stubs, hmn]
    rw [e1]
    cases ms with
    | nil =>
      rw [hnil rfl]
      cases es with
      | cons => exact hes.elim
      | nil =>
        cases ss with
        | cons => exact hss.elim
        | nil => simp [List.intercalate, placeholder]
    | cons m' ms' =>
      rw [hcons (by simp)]
      cases es with
      | nil => exact hes.elim
      | cons x xs =>
        cases ss with
        | nil => exact hss.elim
        | cons y ys =>
          have : k + 1 > 1 := by omega
          simp [List.intercalate, placeholder, this]

/-- The inserted text: indented like the other items; in an implementation without item list it is
put between braces. -/
def inItem (i : TraitImpl) (text : List Char) : List Char :=
  match i.items with
  | some _ => applyIndenting text i.childIndent
  | none => chars! " {" ++ applyIndenting text i.childIndent ++ i.indent ++ ['}']

theorem format_eq (i : TraitImpl) : i.format = inItem i := by
  funext t
  unfold TraitImpl.format inItem
  cases i.items <;> simp

/-- C63. The report of missing messages comes with one edit at the insertion offset. It
inserts, separated by blank lines and indented like the other items, exactly one stub for each
message without a function — each once, in some order — with the declared name, parameters and
return type; the snippet has the placeholders numbered in the same order. -/
theorem C63_stubs (orderArgs : List TArg → List TArg)
    (orderMsgs : List TraitMsg → List TraitMsg) (ho : ∀ l, (orderMsgs l).Perm l) (v : Version)
    (messages : List TraitMsg) (methods : List String) (i : TraitImpl)
    (hp : ∀ m ∈ messages, ParamsOk m) (d : TraitDiag)
    (hd : d ∈ checkTraitImpl orderArgs orderMsgs v messages methods i)
    (hi : d.issue = .missingMessages) :
    ∃ ms es ss, (ms.map TraitMsg.name).Nodup ∧ (∀ m ∈ ms, m ∈ messages) ∧
      (∀ n, n ≠ "" → ((∃ m ∈ ms, m.name = some n) ↔
        Declares messages n ∧ ¬ HasFn (i.items.getD []) n)) ∧
      AreStubs (fun _ => chars! "todo!()") 1 ms es ∧ AreStubs placeholder 1 ms ss ∧
      d.edits = [⟨inItem i (List.intercalate ['\n', '\n'] es), i.insertAt, i.insertAt,
        some (inItem i (List.intercalate ['\n', '\n'] ss))⟩] := by
  rw [← format_eq]
  unfold checkTraitImpl at hd
  rcases List.mem_append.1 hd with h | h
  · rw [List.mem_flatMap] at h
    obtain ⟨it, _, h⟩ := h
    rcases checkItem_names.1 ⟨h, by rw [hi]; trivial⟩ with ⟨f, n', r, _, _, _, _, rfl⟩ | ⟨r, _, rfl⟩
      <;> cases hi
  · have hmem : ∀ m, _ ↔ _ := fun m =>
      mem_missingMessages ho (ms := messages) (items := i.items.getD []) (m := m)
    have hdist := missingMessages_distinct ho messages (i.items.getD [])
    cases hl : missingMessages orderMsgs messages (i.items.getD []) with
    | nil => rw [hl] at h; cases h
    | cons m0 ms0 =>
      rw [hl] at h hmem hdist
      have hsub : ∀ m ∈ m0 :: ms0, m ∈ messages ∧ m.named = true := fun m hm =>
        mem_messageIndex_sub ((hmem m).1 hm).1
      obtain ⟨es, ss, hes, hss, _, hcons⟩ := stubs_eq (m0 :: ms0)
        (fun m hm => by
          have := (hsub m hm).2
          cases hn : m.name with
          | none => simp [TraitMsg.named, hn] at this
          | some n => exact ⟨n, rfl⟩)
        (fun m hm => hp m (hsub m hm).1) 1 (Nat.le_refl 1) none none
      refine ⟨m0 :: ms0, es, ss, ?_, fun m hm => (hsub m hm).1, ?_, hes, hss, ?_⟩
      · rw [List.nodup_iff_pairwise_ne, List.pairwise_map]
        exact hdist
      · intro n hn
        constructor
        · rintro ⟨m, hm, hmn⟩
          exact ⟨⟨m, (hsub m hm).1, hmn⟩, ((hmem m).1 hm).2 n hmn⟩
        · rintro ⟨hdec, hnf⟩
          obtain ⟨m, hm, hmn⟩ := exists_messageIndex hn hdec
          refine ⟨m, (hmem m).2 ⟨hm, fun n' hn' => ?_⟩, hmn⟩
          rw [hmn] at hn'
          cases hn'
          exact hnf
      · unfold missingDiag at h
        rw [List.mem_singleton] at h
        rw [h, hcons (by simp)]
        simp

/-- C63, effect. When functions with the names of all missing messages are added, no message
is reported as missing any more. -/
theorem C63_resolves (orderArgs : List TArg → List TArg)
    (orderMsgs : List TraitMsg → List TraitMsg) (ho : ∀ l, (orderMsgs l).Perm l) (v : Version)
    (messages : List TraitMsg) (methods : List String) (i : TraitImpl) (new : List AssocItem)
    (hnew : ∀ n, Declares messages n → ¬ HasFn (i.items.getD []) n → HasFn new n) :
    ¬ ∃ d ∈ checkTraitImpl orderArgs orderMsgs v messages methods
        { i with items := some (i.items.getD [] ++ new) }, d.issue = .missingMessages := by
  intro h
  obtain ⟨n, _, hdec, hnf⟩ := (C54_missing orderArgs orderMsgs ho v messages methods _).2.1 h
  apply hnf
  by_cases hf : HasFn (i.items.getD []) n
  · obtain ⟨f, r, hf, hn⟩ := hf
    exact ⟨f, r, List.mem_append_left _ hf, hn⟩
  · obtain ⟨f, r, hf, hn⟩ := hnew n hdec hf
    exact ⟨f, r, List.mem_append_right _ hf, hn⟩

/-- C63 is false where it says that nothing further is reported for the added functions: a
stub has no ink! attribute, so it is always reported for the missing `message` argument. -/
theorem C63_negation (order : List TArg → List TArg) (ho : ∀ l, (order l).Perm l) (v : Version)
    (m : TraitMsg) (hm : ∃ a ∈ m.args, a.kind = .message) (stub : ImplFn) (hs : stub.attrs = []) :
    ∃ ts, ⟨.missingArgs ts, stub.declRange, []⟩ ∈ matchArgs order v m stub := by
  obtain ⟨a, ha, hak⟩ := exists_argIndex (by decide) hm
  have : a ∈ missingArgs order v m.args stub.attrs := by
    unfold missingArgs
    rw [Util.mem_sortBy, List.mem_filter, (ho _).mem_iff]
    refine ⟨ha, ?_⟩
    simp [hs, hak, allowedMessageArgs]
  unfold matchArgs
  cases hl : missingArgs order v m.args stub.attrs with
  | nil => rw [hl] at this; cases this
  | cons x xs => exact ⟨_, List.mem_append_right _ (List.mem_singleton_self _)⟩

/-- Two missing messages: the inserted text. -/
example :
    ((checkTraitImpl id id .v5 [sampleTraitMsg "get", sampleTraitMsg "set"] ["get", "set"]
        (sampleImpl [])).flatMap TraitDiag.edits).map Edit.text =
      [chars! "    fn get(&self) {\n        todo!()\n    }\n\n    fn set(&self) {\n        todo!()\n    }"] := by
  decide +kernel

example : ParamsOk (sampleTraitMsg "get") := by
  intro self others h
  cases h
  intro p hp
  cases hp

/-! ## C64: signatures -/

/-- The source text of a sequence of elements. -/
def sourceText (es : List (Bool × List Char)) : List Char := (es.map Prod.snd).flatten

/-- The source text of those that are not trivia. -/
def withoutTrivia (es : List (Bool × List Char)) : List Char :=
  sourceText (es.filter fun e => e.1 = false)

theorem text_eq : Elements.text = sourceText := by
  funext es
  unfold Elements.text sourceText
  rw [List.flatMap_def]

theorem stripped_eq : Elements.stripped = withoutTrivia := by
  funext es
  unfold Elements.stripped withoutTrivia sourceText
  rw [List.flatMap_def]
  congr 3
  funext e
  cases e.1 <;> rfl

/-- The source text of a part without whitespace and comments, for any function `norm` that
removes trivia from source text. -/
def SameUpToTrivia (norm : List Char → List Char) (a b : Option SigPart) : Prop :=
  a.map (fun p => norm (sourceText p.elems)) = b.map (fun p => norm (sourceText p.elems))

/-- `norm` removes the trivia between the elements of a part. -/
def RemovesTrivia (norm : List Char → List Char) (a : Option SigPart) : Prop :=
  ∀ p ∈ a, norm (sourceText p.elems) = norm (withoutTrivia p.elems)

/-- C64, one direction. If a method has no signature diagnostic, its parameter list and its
return type are those of the declaration up to whitespace and comments. Missing from the full
claim: signatures that differ only in whitespace or comments *inside* a parameter or type are
reported (`C64_negation`). -/
theorem C64_sound_partial (norm : List Char → List Char) (m : TraitMsg) (f : ImplFn)
    (nameRange : Nat × Nat) (h1 : RemovesTrivia norm m.params) (h2 : RemovesTrivia norm f.params)
    (h3 : RemovesTrivia norm m.ret) (h4 : RemovesTrivia norm f.ret)
    (h : matchSignature m f nameRange = []) :
    SameUpToTrivia norm f.params m.params ∧ SameUpToTrivia norm f.ret m.ret := by
  have key : ∀ (d i : Option SigPart) (dr rr : Nat × Nat) (l : String) (r : Option String),
      RemovesTrivia norm d → RemovesTrivia norm i → matchPart d i dr rr l r = [] →
      SameUpToTrivia norm i d := by
    intro d i dr rr l r hd hi hm
    unfold matchPart at hm
    cases d with
    | none =>
      cases i with
      | none => rfl
      | some i => cases hm
    | some d =>
      cases i with
      | none => cases hm
      | some i =>
        dsimp only at hm
        split at hm
        · rename_i he
          have he : withoutTrivia i.elems = withoutTrivia d.elems := by
            rw [← stripped_eq]
            simpa [triviaEq] using he
          show some (norm (sourceText i.elems)) = some (norm (sourceText d.elems))
          rw [hd d rfl, hi i rfl, he]
        · cases hm
  unfold matchSignature at h
  rw [List.append_eq_nil_iff] at h
  exact ⟨key _ _ _ _ _ _ h1 h2 h.1, key _ _ _ _ _ _ h3 h4 h.2⟩

/-- C64, other direction. A method whose parameter list and return type consist of the same
elements as the declared ones, up to trivia between the elements, has no signature
diagnostic. -/
theorem C64_complete_partial (m : TraitMsg) (f : ImplFn) (nameRange : Nat × Nat)
    (hp : f.params.map (fun p => p.elems.filter (!·.1)) = m.params.map fun p => p.elems.filter (!·.1))
    (hr : f.ret.map (fun p => p.elems.filter (!·.1)) = m.ret.map fun p => p.elems.filter (!·.1)) :
    matchSignature m f nameRange = [] := by
  have key : ∀ (d i : Option SigPart) (dr rr : Nat × Nat) (l : String) (r : Option String),
      i.map (fun p => p.elems.filter (!·.1)) = d.map (fun p => p.elems.filter (!·.1)) →
      matchPart d i dr rr l r = [] := by
    intro d i dr rr l r h
    cases d with
    | none =>
      cases i with
      | none => rfl
      | some i => cases h
    | some d =>
      cases i with
      | none => cases h
      | some i =>
        have h : i.elems.filter (!·.1) = d.elems.filter (!·.1) := Option.some.inj h
        show (if triviaEq i.elems d.elems then _ else _) = _
        rw [if_pos]
        simp [triviaEq, Elements.stripped, h]
  unfold matchSignature
  simp only [key _ _ _ _ _ _ hp, key _ _ _ _ _ _ hr, List.append_nil]

/-- C64, the quickfix. A mismatch is fixed by putting the declared text in the place of the
implemented part (or where it belongs, if there is none); an undeclared part is deleted. -/
theorem C64_quickfix (m : TraitMsg) (f : ImplFn) (nameRange : Nat × Nat) (d : TraitDiag)
    (hd : d ∈ matchSignature m f nameRange) :
    (∃ p, m.params = some p ∧ d.edits = [⟨sourceText p.elems,
        ((f.params.map SigPart.range).getD (nameRange.2, nameRange.2)).1,
        ((f.params.map SigPart.range).getD (nameRange.2, nameRange.2)).2, none⟩]) ∨
    (∃ p, m.params = none ∧ f.params = some p ∧ d.edits = [⟨[], p.range.1, p.range.2, none⟩]) ∨
    (∃ p e, m.ret = some p ∧
        (∀ r, f.ret = some r → e = (⟨sourceText p.elems, r.range.1, r.range.2, none⟩ : Edit)) ∧
        (f.ret = none → ∀ ps, f.params = some ps → e = ⟨sourceText p.elems, ps.range.2, ps.range.2, none⟩) ∧
        (f.ret = none → f.params = none → e = ⟨sourceText p.elems, nameRange.2, nameRange.2, none⟩) ∧
        d.edits = [e]) ∨
    (∃ p, m.ret = none ∧ f.ret = some p ∧ d.edits = [⟨[], p.range.1, p.range.2, none⟩]) := by
  rw [← text_eq]
  unfold matchSignature at hd
  rcases List.mem_append.1 hd with h | h
  · unfold matchPart at h
    split at h
    · rename_i p hm hf
      rw [List.mem_singleton] at h
      exact .inl ⟨p, hm, by rw [h]; rfl⟩
    · rename_i p q hm hf
      split at h
      · cases h
      · rw [List.mem_singleton] at h
        exact .inl ⟨p, hm, by rw [h]; rfl⟩
    · rename_i p hm hf
      rw [List.mem_singleton] at h
      exact .inr (.inl ⟨p, hm, hf, by rw [h]; rfl⟩)
    · cases h
  · unfold matchPart at h
    split at h
    · rename_i p hm hf
      rw [List.mem_singleton] at h
      refine .inr (.inr (.inl ⟨p, _, hm, ?_, ?_, ?_, by rw [h]⟩))
      · intro r hr; rw [hf] at hr; cases hr
      · intro _ ps hps; simp [hf, hps, replaceRange]
      · intro _ hps; simp [hf, hps, replaceRange]
    · rename_i p q hm hf
      split at h
      · cases h
      · rw [List.mem_singleton] at h
        refine .inr (.inr (.inl ⟨p, _, hm, ?_, ?_, ?_, by rw [h]⟩))
        · intro r hr; rw [hf] at hr; cases hr; simp [hf, replaceRange]
        · intro hc; rw [hf] at hc; cases hc
        · intro hc; rw [hf] at hc; cases hc
    · rename_i p hm hf
      rw [List.mem_singleton] at h
      exact .inr (.inr (.inr ⟨p, hm, hf, by rw [h]; rfl⟩))
    · cases h

/-- The parts of the parameter list `(&self, a: u8)`, for examples. -/
def sampleParams (param : List Char) (range : Nat × Nat) : SigPart :=
  ⟨[(false, ['(']), (false, chars! "&self"), (false, [',']), (true, [' ']), (false, param),
    (false, [')'])], range⟩

/-- C64 is false as stated: `(&self, a:u8)` is reported against the declared `(&self, a: u8)`,
although the two differ in whitespace only. -/
theorem C64_negation :
    let m := { sampleTraitMsg "get" with params := some (sampleParams (chars! "a: u8") (0, 14)) }
    let f := { sampleImplFn "get" with params := some (sampleParams (chars! "a:u8") (43, 56)) }
    (matchSignature m f (40, 43)).map TraitDiag.issue = [.signatureMismatch "parameter list"] ∧
      SameUpToTrivia (fun t => t.filter (· != ' ')) f.params m.params := by
  refine ⟨by decide, by unfold SameUpToTrivia; decide⟩

/-- Whitespace between the elements does not matter. -/
example : matchSignature
    { sampleTraitMsg "get" with params := some (sampleParams (chars! "a: u8") (0, 14)) }
    { sampleImplFn "get" with params := some ⟨[(false, ['(']), (true, ['\n', ' ']),
        (false, chars! "&self"), (false, [',']), (true, ['\n', ' ']), (false, chars! "a: u8"),
        (false, [')'])], (43, 60)⟩ } (40, 43) = [] := by decide

/-- The hypothesis on `norm` holds for the removal of blanks. -/
example : RemovesTrivia (fun t => t.filter (· != ' ')) (some (sampleParams (chars! "a: u8") (0, 14))) := by
  intro p hp
  cases hp
  decide

/-! ## C65: ink! arguments -/

/-- `d` is the last argument of kind `k` of the declaration. -/
def LastOfKind (declared : List TArg) (k : ArgKind) (d : TArg) : Prop :=
  ∃ xs ys, declared = xs ++ d :: ys ∧ d.kind = k ∧ ∀ y ∈ ys, y.kind ≠ k

/-- The attributes of the implementation have an argument of this kind. -/
def ImplHasArg (attrs : List TAttr) (k : ArgKind) : Prop := ∃ t ∈ attrs, ∃ a ∈ t.args, a.kind = k

theorem mem_argIndex {as : List TArg} {d : TArg} :
    d ∈ argIndex as ↔ d.kind ≠ .unknown ∧ LastOfKind as d.kind d := by
  induction as with
  | nil =>
    constructor
    · intro h; cases h
    · rintro ⟨_, xs, ys, h, _⟩
      cases xs <;> cases h
  | cons x xs ih =>
    constructor
    · intro h
      refine ⟨(mem_argIndex_sub h).2, ?_⟩
      unfold argIndex at h
      have tail : d ∈ argIndex xs → LastOfKind (x :: xs) d.kind d := fun h => by
        obtain ⟨_, as, bs, e, hk, hb⟩ := ih.1 h
        exact ⟨x :: as, bs, by rw [e]; rfl, hk, hb⟩
      split at h
      · rename_i hx
        rcases List.mem_cons.1 h with rfl | h
        · rw [Bool.and_eq_true, Bool.not_eq_true', List.any_eq_false] at hx
          exact ⟨[], xs, rfl, rfl, fun y hy he => hx.2 y hy (by rw [he]; exact beq_self_eq_true _)⟩
        · exact tail h
      · exact tail h
    · rintro ⟨hu, as, bs, e, _, hb⟩
      unfold argIndex
      cases as with
      | nil =>
        cases e
        rw [if_pos]
        · exact List.mem_cons_self
        · have hany : (xs.any fun a' => a'.kind == d.kind) = false := by
            rw [List.any_eq_false]
            intro y hy he
            exact hb y hy (by simpa using he)
          rw [hany]
          simp [hu]
      | cons a as =>
        cases e
        have : d ∈ argIndex (as ++ d :: bs) := ih.2 ⟨hu, as, bs, rfl, rfl, hb⟩
        split
        · exact List.mem_cons_of_mem _ this
        · exact this

theorem declaredArg_iff {as : List TArg} {k : ArgKind} {d : TArg} :
    declaredArg as k = some d ↔ k ≠ .unknown ∧ LastOfKind as k d := by
  constructor
  · intro h
    unfold declaredArg at h
    have h1 := mem_argIndex.1 (List.mem_of_find?_eq_some h)
    have h2 : d.kind = k := by simpa using List.find?_some h
    exact h2 ▸ h1
  · rintro ⟨hu, h⟩
    obtain ⟨xs, ys, e, hk, hb⟩ := h
    have hmem : d ∈ argIndex as := mem_argIndex.2 ⟨hk ▸ hu, xs, ys, e, rfl, hk ▸ hb⟩
    cases hf : declaredArg as k with
    | none =>
      rcases declaredArg_none.1 hf with h | h
      · exact absurd h hu
      · exact absurd ⟨d, (mem_argIndex_sub hmem).1, hk⟩ h
    | some d' =>
      unfold declaredArg at hf
      have h1 := mem_argIndex.1 (List.mem_of_find?_eq_some hf)
      have h2 : d'.kind = k := by simpa using List.find?_some hf
      rw [eq_of_distinct_kind (argIndex_distinct as) (List.mem_of_find?_eq_some hf) hmem
        (h2.trans hk.symm)]

/-- C65, undeclared arguments. An argument of the implementing method is reported, with its
removal as quickfix, exactly when it is in an attribute that is not a macro and the
declaration has no argument of its kind (or its kind is unknown). -/
theorem C65_undeclared (order : List TArg → List TArg) (v : Version) (m : TraitMsg) (f : ImplFn)
    (k : ArgKind) (d : TraitDiag) :
    (d ∈ matchArgs order v m f ∧ d.issue = .undeclaredArg k) ↔
      ∃ t ∈ f.attrs, ∃ a ∈ t.args, (∀ mk, t.kind ≠ .macro mk) ∧ a.kind = k ∧
        (k = .unknown ∨ ¬ ∃ b ∈ m.args, b.kind = k) ∧
        d = ⟨.undeclaredArg k, a.range, [⟨[], a.removal.1, a.removal.2, none⟩]⟩ := by
  constructor
  · rintro ⟨h, hi⟩
    unfold matchArgs at h
    rcases List.mem_append.1 h with h | h
    · rw [List.mem_flatMap] at h
      obtain ⟨t, ht, h⟩ := h
      refine ⟨t, ht, ?_⟩
      unfold checkAttr at h
      rcases List.mem_append.1 h with h | h
      · split at h
        · rw [List.mem_singleton] at h; rw [h] at hi; cases hi
        · cases h
      · rw [List.mem_flatMap] at h
        obtain ⟨a, ha, h⟩ := h
        refine ⟨a, ha, ?_⟩
        unfold checkArg at h
        split at h
        · rcases checkValue_issue h with h | h <;> rw [h] at hi <;> cases hi
        · rename_i hf
          split at h
          · cases h
          · rename_i hmac
            rw [List.mem_singleton] at h
            have hk : a.kind = k := by rw [h] at hi; injection hi
            refine ⟨?_, hk, hk ▸ declaredArg_none.1 hf, by rw [h, ← hk]; rfl⟩
            intro mk hmk
            exact hmac (by unfold TAttr.isMacro; rw [hmk])
    · split at h
      · cases h
      · rw [List.mem_singleton] at h; rw [h] at hi; cases hi
  · rintro ⟨t, ht, a, ha, hmac, rfl, hnone, rfl⟩
    refine ⟨?_, rfl⟩
    unfold matchArgs
    refine List.mem_append_left _ (List.mem_flatMap.2 ⟨t, ht, ?_⟩)
    unfold checkAttr
    refine List.mem_append_right _ (List.mem_flatMap.2 ⟨a, ha, ?_⟩)
    have hb : t.isMacro = false := by
      unfold TAttr.isMacro
      cases hk : t.kind with
      | «macro» mk => exact absurd hk (hmac mk)
      | arg => rfl
    unfold checkArg
    rw [declaredArg_none.2 hnone, hb]
    exact List.mem_singleton_self _

/-- C65, missing arguments. The method gets a report listing texts `ts` exactly when `ts` is
the non-empty list, sorted by the priority of the kinds, of the declared arguments among
`message`, `default`, `payable` and `selector` whose kind the method has no argument of. -/
theorem C65_missing (order : List TArg → List TArg) (ho : ∀ l, (order l).Perm l) (v : Version)
    (m : TraitMsg) (f : ImplFn) :
    ∃ missing : List TArg,
      missing.Pairwise (fun a b => a.kind.sortOrder ≤ b.kind.sortOrder) ∧
      missing.Nodup ∧
      (∀ a, a ∈ missing ↔ LastOfKind m.args a.kind a ∧ ¬ ImplHasArg f.attrs a.kind ∧
        a.kind ∈ [ArgKind.message, .default, .payable, .selector]) ∧
      (∀ d, (d ∈ matchArgs order v m f ∧ ∃ ts, d.issue = .missingArgs ts) ↔
        missing ≠ [] ∧ d = ⟨.missingArgs (missing.map TArg.text), f.declRange, []⟩) := by
  refine ⟨missingArgs order v m.args f.attrs, Util.sortBy_sorted _ _, ?_, ?_, ?_⟩
  · unfold missingArgs
    rw [(Util.sortBy_perm _ _).nodup_iff]
    have : (order (argIndex m.args)).Nodup := by
      rw [(ho _).nodup_iff, List.nodup_iff_pairwise_ne]
      exact (argIndex_distinct m.args).imp fun h e => h (by rw [e])
    exact this.sublist List.filter_sublist
  · intro a
    unfold missingArgs
    rw [Util.mem_sortBy, List.mem_filter, (ho _).mem_iff, mem_argIndex]
    have hall : (allowedMessageArgs v).contains a.kind = true ↔
        a.kind ∈ [ArgKind.message, .default, .payable, .selector] := by
      rw [List.contains_iff_mem]
      cases v <;> rfl
    have hany : (f.attrs.any fun t => t.args.any fun a' => a'.kind == a.kind) = true ↔
        ImplHasArg f.attrs a.kind := by
      simp [ImplHasArg, List.any_eq_true]
    rw [Bool.and_eq_true, Bool.not_eq_true', hall, ← hany]
    constructor
    · rintro ⟨⟨_, h1⟩, h2, h3⟩
      exact ⟨h1, by rw [h2]; simp, h3⟩
    · rintro ⟨h1, h2, h3⟩
      refine ⟨⟨?_, h1⟩, by simpa using h2, h3⟩
      intro hu
      rw [hu] at h3
      exact absurd h3 (by decide)
  · intro d
    constructor
    · rintro ⟨h, ts, hi⟩
      unfold matchArgs at h
      rcases List.mem_append.1 h with h | h
      · rw [List.mem_flatMap] at h
        obtain ⟨t, _, h⟩ := h
        rcases checkAttr_issue h with h | ⟨a, _, h | h | h⟩ <;> rw [h] at hi <;> cases hi
      · cases hl : missingArgs order v m.args f.attrs with
        | nil => rw [hl] at h; cases h
        | cons x xs =>
          rw [hl] at h
          exact ⟨List.cons_ne_nil _ _, List.mem_singleton.1 h⟩
    · rintro ⟨hne, rfl⟩
      refine ⟨?_, _, rfl⟩
      unfold matchArgs
      cases hl : missingArgs order v m.args f.attrs with
      | nil => exact absurd hl hne
      | cons x xs => exact List.mem_append_right _ (List.mem_singleton_self _)

/-- C65, values. For an argument kind that takes a value, a declared value that is absent or
different (up to trivia) in the implementation is reported, with the declared argument as
replacement, and nothing else is. -/
theorem C65_values (order : List TArg → List TArg) (v : Version) (m : TraitMsg) (f : ImplFn)
    (d : TraitDiag) :
    (d ∈ matchArgs order v m f ∧ ∃ k, d.issue = .missingValue k ∨ d.issue = .valueMismatch k) ↔
      ∃ t ∈ f.attrs, ∃ a ∈ t.args, ∃ b dv, a.kind ≠ .unknown ∧ LastOfKind m.args a.kind b ∧
        b.value = some dv ∧ ValueKind.ofArg a.kind ≠ .none ∧ d.range = a.range ∧
        d.edits = [⟨b.text, a.range.1, a.range.2, none⟩] ∧
        ((a.value = none ∧ d.issue = .missingValue a.kind) ∨
          ∃ av, a.value = some av ∧ withoutTrivia av ≠ withoutTrivia dv ∧
            d.issue = .valueMismatch a.kind) := by
  rw [← stripped_eq]
  constructor
  · rintro ⟨h, k, hi⟩
    unfold matchArgs at h
    rcases List.mem_append.1 h with h | h
    · rw [List.mem_flatMap] at h
      obtain ⟨t, ht, h⟩ := h
      refine ⟨t, ht, ?_⟩
      unfold checkAttr at h
      rcases List.mem_append.1 h with h | h
      · split at h
        · rw [List.mem_singleton] at h; rw [h] at hi; rcases hi with hi | hi <;> cases hi
        · cases h
      · rw [List.mem_flatMap] at h
        obtain ⟨a, ha, h⟩ := h
        refine ⟨a, ha, ?_⟩
        unfold checkArg at h
        cases hf : declaredArg m.args a.kind with
        | none =>
          simp only [hf] at h
          split at h
          · cases h
          · rw [List.mem_singleton] at h; rw [h] at hi; rcases hi with hi | hi <;> cases hi
        | some b =>
          simp only [hf] at h
          obtain ⟨hu, hlast⟩ := declaredArg_iff.1 hf
          unfold checkValue at h
          cases hv : b.value with
          | none => simp [hv] at h
          | some dv =>
            simp only [hv] at h
            split at h
            · cases h
            · rename_i hk
              refine ⟨b, dv, hu, hlast, hv, hk, ?_⟩
              cases hav : a.value with
              | none =>
                simp only [hav] at h
                rw [List.mem_singleton] at h
                subst h
                exact ⟨rfl, rfl, .inl ⟨rfl, rfl⟩⟩
              | some av =>
                simp only [hav] at h
                split at h
                · cases h
                · rename_i hne
                  rw [List.mem_singleton] at h
                  subst h
                  exact ⟨rfl, rfl, .inr ⟨av, rfl, fun e => hne (by simp [triviaEq, e]), rfl⟩⟩
    · split at h
      · cases h
      · rw [List.mem_singleton] at h; rw [h] at hi; rcases hi with hi | hi <;> cases hi
  · rintro ⟨t, ht, a, ha, b, dv, hu, hlast, hv, hk, hr, he, hcase⟩
    have hmem : d ∈ checkValue b a := by
      obtain ⟨issue, range, edits⟩ := d
      dsimp only at hr he hcase
      subst hr he
      unfold checkValue
      rcases hcase with ⟨hav, rfl⟩ | ⟨av, hav, hne, rfl⟩
      · simp [hv, hk, hav, replaceRange]
      · have : triviaEq av dv = false := by simp [triviaEq, hne]
        simp [hv, hk, hav, this, replaceRange]
    refine ⟨?_, a.kind, ?_⟩
    · unfold matchArgs
      refine List.mem_append_left _ (List.mem_flatMap.2 ⟨t, ht, ?_⟩)
      unfold checkAttr
      refine List.mem_append_right _ (List.mem_flatMap.2 ⟨a, ha, ?_⟩)
      unfold checkArg
      rw [declaredArg_iff.2 ⟨hu, hlast⟩]
      exact hmem
    · rcases hcase with ⟨_, h⟩ | ⟨_, _, _, h⟩
      · exact .inl h
      · exact .inr h

/-- C65, agreement. A method that repeats the arguments of the declaration — all of known and
distinct kinds — with the same values, in any order and any grouping into attributes that are
not macros, has no argument diagnostic. -/
theorem C65_same (order : List TArg → List TArg) (ho : ∀ l, (order l).Perm l) (v : Version)
    (m : TraitMsg) (f : ImplFn) (hk : (m.args.map TArg.kind).Nodup)
    (hu : ∀ a ∈ m.args, a.kind ≠ .unknown)
    (hmac : ∀ t ∈ f.attrs, ∀ mk, t.kind ≠ .macro mk)
    (hsame : ((f.attrs.flatMap TAttr.args).map fun a => (a.kind, a.value.map withoutTrivia)).Perm
      (m.args.map fun a => (a.kind, a.value.map withoutTrivia))) :
    matchArgs order v m f = [] := by
  rw [← stripped_eq] at hsame
  rw [List.eq_nil_iff_forall_not_mem]
  intro d hd
  have hdecl : ∀ t ∈ f.attrs, ∀ a ∈ t.args, ∃ b ∈ m.args, b.kind = a.kind ∧
      b.value.map Elements.stripped = a.value.map Elements.stripped := by
    intro t ht a ha
    have : (a.kind, a.value.map Elements.stripped) ∈
        m.args.map fun a => (a.kind, a.value.map Elements.stripped) :=
      hsame.mem_iff.1 (List.mem_map.2 ⟨a, List.mem_flatMap.2 ⟨t, ht, ha⟩, rfl⟩)
    obtain ⟨b, hb, he⟩ := List.mem_map.1 this
    injection he with h1 h2
    exact ⟨b, hb, h1, h2⟩
  have huniq : ∀ b ∈ m.args, ∀ c ∈ m.args, b.kind = c.kind → b = c := by
    intro b hb c hc he
    have hp : m.args.Pairwise fun a b => a.kind ≠ b.kind := by
      rw [List.nodup_iff_pairwise_ne, List.pairwise_map] at hk
      exact hk
    exact eq_of_distinct_kind hp hb hc he
  cases hi : d.issue with
  | undeclaredArg k =>
    obtain ⟨t, ht, a, ha, _, rfl, hn, _⟩ := (C65_undeclared order v m f k d).1 ⟨hd, hi⟩
    obtain ⟨b, hb, hbk, _⟩ := hdecl t ht a ha
    rcases hn with hn | hn
    · exact hu b hb (hbk.trans hn)
    · exact hn ⟨b, hb, hbk⟩
  | missingArgs ts =>
    obtain ⟨missing, _, _, hm, hr⟩ := C65_missing order ho v m f
    obtain ⟨hne, _⟩ := (hr d).1 ⟨hd, ts, hi⟩
    obtain ⟨x, xs, rfl⟩ := List.exists_cons_of_ne_nil hne
    obtain ⟨⟨as, bs, e, _, _⟩, hnot, _⟩ := (hm x).1 List.mem_cons_self
    apply hnot
    have : (x.kind, x.value.map Elements.stripped) ∈
        (f.attrs.flatMap TAttr.args).map fun a => (a.kind, a.value.map Elements.stripped) :=
      hsame.mem_iff.2 (List.mem_map.2 ⟨x, by rw [e]; simp, rfl⟩)
    obtain ⟨a, ha, he⟩ := List.mem_map.1 this
    obtain ⟨t, ht, ha⟩ := List.mem_flatMap.1 ha
    injection he with h1 _
    exact ⟨t, ht, a, ha, h1⟩
  | missingValue k | valueMismatch k =>
    obtain ⟨t, ht, a, ha, b, dv, _, ⟨as, bs, e, hbk, _⟩, hv, _, _, _, hcase⟩ :=
      (C65_values order v m f d).1 ⟨hd, k, by simp [hi]⟩
    obtain ⟨c, hc, hck, hcv⟩ := hdecl t ht a ha
    have hbm : b ∈ m.args := by rw [e]; simp
    have := huniq c hc b hbm (hck.trans hbk.symm)
    subst this
    rw [hv] at hcv
    rcases hcase with ⟨hav, _⟩ | ⟨av, hav, hne, _⟩
    · rw [hav] at hcv; cases hcv
    · rw [hav] at hcv
      exact hne (by rw [← stripped_eq]; exact (Option.some.inj hcv).symm)
  | macroAttr =>
    unfold matchArgs at hd
    rcases List.mem_append.1 hd with h | h
    · rw [List.mem_flatMap] at h
      obtain ⟨t, ht, h⟩ := h
      unfold checkAttr at h
      rcases List.mem_append.1 h with h | h
      · split at h
        · rename_i hm
          unfold TAttr.isMacro at hm
          cases hk : t.kind with
          | «macro» mk => exact hmac t ht mk hk
          | arg => rw [hk] at hm; cases hm
        · cases h
      · rw [List.mem_flatMap] at h
        obtain ⟨a, _, h⟩ := h
        rcases checkArg_issue h with h | h | h <;> rw [h] at hi <;> cases hi
    · split at h
      · cases h
      · rw [List.mem_singleton] at h; rw [h] at hi; cases hi
  | undeclaredMethod | notAMessage | missingMessages =>
    exact absurd (by rw [hi]; trivial) (matchArgs_names hd)
  | signatureMismatch p | signatureUndeclared p =>
    unfold matchArgs at hd
    rcases List.mem_append.1 hd with h | h
    · rw [List.mem_flatMap] at h
      obtain ⟨t, _, h⟩ := h
      rcases checkAttr_issue h with h | ⟨a, _, h | h | h⟩ <;> rw [h] at hi <;> cases hi
    · split at h
      · cases h
      · rw [List.mem_singleton] at h; rw [h] at hi; cases hi

/-- A declaration `#[ink(message, payable, selector = 1)]` against an implementation
`#[ink(message, selector = 2, topic)]`. -/
example :
    (matchArgs id .v5
      { sampleTraitMsg "get" with args := [sampleMessageArg, ⟨.payable, none, chars! "payable", (9, 16), (0, 0)⟩,
          ⟨.selector, some [(false, ['1'])], chars! "selector = 1", (18, 30), (0, 0)⟩] }
      { sampleImplFn "get" with attrs := [⟨.arg .message, [sampleMessageArg,
          ⟨.selector, some [(false, ['2'])], chars! "selector = 2", (18, 30), (0, 0)⟩,
          ⟨.topic, none, chars! "topic", (32, 37), (30, 37)⟩], (20, 35)⟩] }).map TraitDiag.issue =
      [.valueMismatch .selector, .undeclaredArg .topic, .missingArgs [chars! "payable"]] := by decide

/-- The hypotheses of `C65_same` hold for the sample method. -/
example : ((sampleTraitMsg "get").args.map TArg.kind).Nodup ∧
    (∀ a ∈ (sampleTraitMsg "get").args, a.kind ≠ .unknown) ∧
    (((sampleImplFn "get").attrs.flatMap TAttr.args).map
        fun a => (a.kind, a.value.map withoutTrivia)).Perm
      ((sampleTraitMsg "get").args.map fun a => (a.kind, a.value.map withoutTrivia)) :=
  ⟨by decide, by decide, List.Perm.refl _⟩

end Verif.Analyzer
