import Verif.Analyzer.ExtensionArg
import Verif.Analyzer.InsertTextProps

/-!
# Property C98: a chain extension without an id is reported and given one of its own
-/

namespace Verif.Analyzer.ExtensionArg
open Verif.Ir Verif.Analyzer.Insert Verif.Analyzer.InsertText

/-! ## Specification -/

/-- A written argument is the argument `extension`: this is its name. -/
def NamedExtension : Written → Prop
  | .flag _ name _ | .keyed _ name _ _ _ | .nest _ name _ _ _ | .hollow _ name _ _ =>
    name.text = "extension"

/-- The attributes of the chain extension have the arguments `ws` in its main attribute and otherwise no
argument `extension`. -/
def Writes (pe : ExprParser) (e : Ext) (ws : List Written) : Prop :=
  Has pe e.attr ws ∧ ∀ a ∈ e.argsBefore ++ e.argsAfter, a.kind ≠ .extension

/-- The chain extension with another text of its attribute. -/
def Ext.withAttr (e : Ext) (a : AttrIn) : Ext := ⟨a, e.argsBefore, e.argsAfter⟩

/-- The argument `extension = n`. -/
def extensionIs (n : Nat) : Written :=
  .keyed [] (.tok .ident "extension") [space] "=" [space, .tok .other n.repr]

/-- The expression parser reads decimal literals as what they are. -/
def ReadsInts (pe : ExprParser) : Prop := ∀ n : Nat, pe (" " ++ n.repr) = some (.intNumber, n.repr)

/-! ## Lemmas -/

theorem kind_extension (s : String) : ArgKind.ofName s = .extension ↔ s = "extension" := by
  constructor
  · intro h
    unfold ArgKind.ofName at h
    split at h <;> first | rfl | cases h
  · rintro rfl
    rfl

theorem isRead_extension (pe : ExprParser) (w : Written) (o : Nat) (a : Arg) (h : IsRead pe w o a) :
    a.kind = .extension ↔ NamedExtension w := by
  cases w with
  | flag lead name trail => rw [h.1.2]; exact kind_extension _
  | keyed lead name gap eq value => rw [h.1.2]; exact kind_extension _
  | nest lead name gap inner trail => rw [h.1.2]; exact kind_extension _
  | hollow lead name gap trail => rw [h.1.2]; exact kind_extension _

theorem areRead_extension (pe : ExprParser) (ws : List Written) (o : Nat) (as : List Arg)
    (h : AreRead pe ws o as) : (∃ a ∈ as, a.kind = .extension) ↔ ∃ w ∈ ws, NamedExtension w := by
  induction ws generalizing o as with
  | nil => rw [show as = [] from h]; simp
  | cons w ws ih =>
    obtain ⟨a, as', rfl, h1, h2⟩ := h
    simp only [List.mem_cons, exists_eq_or_imp, ih _ _ h2, isRead_extension pe w o a h1]

theorem extensionArg_none (pe : ExprParser) (e : Ext) (ws : List Written) (h : Writes pe e ws) :
    e.extensionArg pe = some none ↔ ∀ w ∈ ws, ¬ NamedExtension w := by
  obtain ⟨⟨args, h1, h2⟩, h3⟩ := h
  have key := areRead_extension pe ws _ args h2
  unfold Ext.extensionArg
  rw [h1, Option.map_some, Option.some.injEq, List.find?_eq_none]
  constructor
  · intro hn w hw hx
    obtain ⟨a, ha, hk⟩ := key.mpr ⟨w, hw, hx⟩
    have := hn a (by simp [ha])
    simp [hk] at this
  · intro hn a ha
    simp only [decide_eq_true_eq]
    intro hk
    simp only [List.mem_append] at ha
    rcases ha with ha | ha | ha
    · exact h3 a (by simp [ha]) hk
    · obtain ⟨w, hw, hx⟩ := key.mp ⟨a, ha, hk⟩
      exact hn w hw hx
    · exact h3 a (by simp [ha]) hk

theorem areRead_split (pe : ExprParser) (ws vs : List Written) (o : Nat) (as : List Arg)
    (h : AreRead pe (ws ++ vs) o as) : ∃ as₁ as₂ o₂, as = as₁ ++ as₂ ∧ AreRead pe ws o as₁ ∧
      AreRead pe vs o₂ as₂ := by
  induction ws generalizing o as with
  | nil => exact ⟨[], as, o, rfl, rfl, h⟩
  | cons w ws ih =>
    obtain ⟨a, as', rfl, h1, h2⟩ := h
    obtain ⟨as₁, as₂, o₂, rfl, h3, h4⟩ := ih _ _ h2
    exact ⟨a :: as₁, as₂, o₂, rfl, ⟨a, as₁, rfl, h1, h3⟩, h4⟩

theorem id_of_last (pe : ExprParser) (hpe : ReadsInts pe) (e : Ext) (ws : List Written) (lead : List Elem)
    (n : Nat) (hn : n ≤ maxU16) (hws : ∀ w ∈ ws, ¬ NamedExtension w)
    (h : Writes pe e (ws ++ [setLead lead (extensionIs n)])) : e.id pe = some (some n) := by
  obtain ⟨⟨args, h1, h2⟩, h3⟩ := h
  obtain ⟨as₁, as₂, o₂, rfl, h4, a, as', rfl, h5, h6⟩ := areRead_split pe _ _ _ _ h2
  rw [show as' = [] from h6] at h1
  have hno : ∀ x ∈ e.argsBefore ++ as₁, ¬ (x.kind = .extension) := by
    intro x hx
    rcases List.mem_append.1 hx with hx | hx
    · exact h3 x (by simp [hx])
    · intro hk
      obtain ⟨w, hw, hx'⟩ := (areRead_extension pe ws _ _ h4).mp ⟨x, hx, hk⟩
      exact hws w hw hx'
  have hk : a.kind = .extension := (isRead_extension pe _ _ _ h5).mpr rfl
  have hfind : (e.argsBefore ++ ((as₁ ++ [a]) ++ e.argsAfter)).find? (fun a => a.kind = .extension) =
      some a := by
    rw [show e.argsBefore ++ ((as₁ ++ [a]) ++ e.argsAfter) = (e.argsBefore ++ as₁) ++ a :: e.argsAfter by simp,
      List.find?_append, List.find?_eq_none.mpr (by simpa using hno)]
    simp [hk]
  obtain ⟨_, _, _, v, hv1, hv2⟩ := h5
  have hval : ValueIs pe [space, .tok .other n.repr] .intNumber n.repr := by
    refine .expr _ _ _ ?_ ?_
    · intro e he t
      simp only [List.mem_cons, List.not_mem_nil, or_false] at he
      rcases he with rfl | rfl <;> simp [space]
    · have := hpe n
      simpa [Elem.textList, space, Elem.text] using this
  obtain ⟨e1, e2⟩ := valueIs_unique pe _ _ _ _ _ hval hv2
  unfold Ext.id Ext.extensionArg
  rw [h1, Option.map_some, hfind, Option.map_some, Option.bind_some, hv1, Option.bind_some,
    MetaValue.asU16, e1, e2, asInt_repr _ _ hn]

theorem extensionIs_ok (pe : ExprParser) (hpe : ReadsInts pe) (n : Nat) : (extensionIs n).Ok pe :=
  (keyedOf_ok pe .extension .intNumber n.repr (by decide) (by decide) (hpe n)).1

theorem extensionIs_text (n : Nat) :
    Elem.textList (listSource false [extensionIs n]) = "extension = " ++ n.repr := by
  have := keyedOf_text .extension .intNumber n.repr
  simp only [listSource, Bool.false_eq_true, if_false, List.append_nil]
  exact this

theorem ensure_fix (pe : ExprParser) (file : List Ext) (ids : List Nat) (hids : idsOf pe file = some ids)
    (e : Ext) (ws : List Written) (h : Writes pe e ws) (hno : ∀ w ∈ ws, ¬ NamedExtension w) (p : Place)
    (hp : argPlace e.attr none = some p) :
    ensureExtensionArg pe file e = some (some (some (p.insertion
      (Elem.textList (listSource false [extensionIs (defaultId maxU16 ids)]))))) := by
  unfold ensureExtensionArg
  rw [(extensionArg_none pe e ws h).mpr hno]
  simp [hids, hp, extensionIs_text]

theorem idsOf_spec (pe : ExprParser) (file : List Ext) (h : ∀ x ∈ file, ∃ i, x.id pe = some i) :
    ∃ ids, idsOf pe file = some ids ∧ ids.length ≤ file.length ∧
      ∀ x ∈ file, ∀ n, x.id pe = some (some n) → n ∈ ids := by
  induction file with
  | nil => exact ⟨[], rfl, by simp, by simp⟩
  | cons e es ih =>
    obtain ⟨ids, h1, h2, h3⟩ := ih fun x hx => h x (by simp [hx])
    obtain ⟨i, hi⟩ := h e (by simp)
    refine ⟨i.toList ++ ids, by simp [idsOf, hi, h1], ?_, ?_⟩
    · cases i <;> simp <;> omega
    · intro x hx n hn
      rcases List.mem_cons.1 hx with rfl | hx
      · rw [hi] at hn
        cases hn
        simp
      · exact List.mem_append_right _ (h3 x hx n hn)

/-! ## C98 -/

/-- **C98** (reported). A chain extension is reported exactly when none of its arguments is `extension`. -/
theorem C98_reported (pe : ExprParser) (file : List Ext)
    (hfile : ∀ x ∈ file, ∃ i, x.id pe = some i) (e : Ext) (ws : List Written) (h : Writes pe e ws) :
    (∃ r, ensureExtensionArg pe file e = some (some r)) ↔ ∀ w ∈ ws, ¬ NamedExtension w := by
  obtain ⟨ids, hids, _, _⟩ := idsOf_spec pe file hfile
  rw [← extensionArg_none pe e ws h]
  unfold ensureExtensionArg
  obtain ⟨args, ha⟩ : ∃ x, e.extensionArg pe = some x := by
    obtain ⟨⟨args, h1, _⟩, _⟩ := h
    exact ⟨_, by unfold Ext.extensionArg; rw [h1]; rfl⟩
  rw [ha]
  cases args with
  | none => simp [hids]
  | some a => simp

/-- **C98** (bare attribute). For `#[ink::chain_extension]` the fix adds the argument `extension` with an
id: afterwards the attribute has just this argument, the chain extension has the id, it is not reported
any more, and the id was not in use (as long as there are fewer than 65535 chain extensions). -/
theorem C98_bare (pe : ExprParser) (hpe : ReadsInts pe) (file : List Ext)
    (hfile : ∀ x ∈ file, ∃ i, x.id pe = some i) (e : Ext) (before gap after : List Elem)
    (hattr : e.attr = ⟨before, none, gap, true, after⟩) (h : Writes pe e []) :
    ∃ fix n, ensureExtensionArg pe file e = some (some (some fix)) ∧
      Inserts (Elem.textList e.attr.file) fix
        (Elem.textList (withArgs (before ++ gap) [] after false [extensionIs n]).file) ∧
      Ext.id pe (e.withAttr (withArgs (before ++ gap) [] after false [extensionIs n])) = some (some n) ∧
      ensureExtensionArg pe file (e.withAttr (withArgs (before ++ gap) [] after false [extensionIs n])) =
        some none ∧
      1 ≤ n ∧ n ≤ 65535 ∧
      (file.length < 65535 → ∀ x ∈ file, x.id pe ≠ some (some n)) := by
  obtain ⟨ids, hids, hlen, hmem⟩ := idsOf_spec pe file hfile
  obtain ⟨n1, n2, n3⟩ := defaultId_spec maxU16 (by decide) ids
  obtain ⟨p, hp, _, hins, hhas⟩ := C79_bare pe before gap after [extensionIs (defaultId maxU16 ids)]
    (by intro w hw; rw [List.mem_singleton.1 hw]; exact extensionIs_ok pe hpe _) none
  rw [← hattr] at hp hins
  have hid : Ext.id pe (e.withAttr (withArgs (before ++ gap) [] after false
      [extensionIs (defaultId maxU16 ids)])) = some (some (defaultId maxU16 ids)) :=
    id_of_last pe hpe _ [] [] _ n2 (by simp) ⟨hhas, h.2⟩
  refine ⟨_, defaultId maxU16 ids, ensure_fix pe file ids hids e [] h (by simp) p hp, hins, hid, ?_, n1, n2,
    fun hl x hx hn => n3 (by unfold maxU16; omega) (hmem x hx _ hn)⟩
  unfold Ext.id at hid
  unfold ensureExtensionArg
  obtain ⟨arg, ha, hb⟩ := Option.map_eq_some_iff.mp hid
  rw [ha, Option.bind_some]
  cases arg with
  | none => simp at hb
  | some a => rfl

/-- **C98** (attribute with arguments). The same with other arguments, all of which are kept, in order.

Missing: as for `C79_last_partial` (white space behind a trailing comma or alone between the parentheses). -/
theorem C98_list_partial (pe : ExprParser) (hpe : ReadsInts pe) (file : List Ext)
    (hfile : ∀ x ∈ file, ∃ i, x.id pe = some i) (e : Ext) (before gap after : List Elem) (trailing : Bool)
    (ws : List Written) (hattr : e.attr = withArgs before gap after trailing ws)
    (hws : ∀ w ∈ ws, w.Ok pe) (hshut : ∀ w ∈ ws, Shut w) (hfull : FullList e.attr.file = true)
    (hno : ∀ w ∈ ws, ¬ NamedExtension w) (h : Writes pe e ws) :
    ∃ fix n lead, AllTrivia lead ∧ ensureExtensionArg pe file e = some (some (some fix)) ∧
      Inserts (Elem.textList e.attr.file) fix
        (Elem.textList (withArgs before gap after false (ws ++ [setLead lead (extensionIs n)])).file) ∧
      Ext.id pe (e.withAttr (withArgs before gap after false (ws ++ [setLead lead (extensionIs n)]))) =
        some (some n) ∧
      ensureExtensionArg pe file
        (e.withAttr (withArgs before gap after false (ws ++ [setLead lead (extensionIs n)]))) =
        some none ∧
      1 ≤ n ∧ n ≤ 65535 ∧
      (file.length < 65535 → ∀ x ∈ file, x.id pe ≠ some (some n)) := by
  obtain ⟨ids, hids, hlen, hmem⟩ := idsOf_spec pe file hfile
  obtain ⟨n1, n2, n3⟩ := defaultId_spec maxU16 (by decide) ids
  obtain ⟨p, ns', hp, hns', hins, hhas⟩ := C79_last_partial pe before gap after trailing ws
    [extensionIs (defaultId maxU16 ids)] hws hshut
    (by intro w hw; rw [List.mem_singleton.1 hw]; exact extensionIs_ok pe hpe _) (by simp)
    (by rw [← hattr]; exact hfull) none (by simp)
  rw [← hattr] at hp hins
  obtain ⟨lead, hlead, rfl⟩ : ∃ lead, AllTrivia lead ∧
      ns' = [setLead lead (extensionIs (defaultId maxU16 ids))] := by
    rcases hns' with rfl | rfl
    · exact ⟨[], none_trivia, rfl⟩
    · exact ⟨[space], space_trivia, rfl⟩
  have hid : Ext.id pe (e.withAttr (withArgs before gap after false
      (ws ++ [setLead lead (extensionIs (defaultId maxU16 ids))]))) = some (some (defaultId maxU16 ids)) :=
    id_of_last pe hpe _ ws lead _ n2 hno ⟨hhas, h.2⟩
  refine ⟨_, defaultId maxU16 ids, lead, hlead, ensure_fix pe file ids hids e ws h hno p hp, hins, hid, ?_,
    n1, n2, fun hl x hx hn => n3 (by unfold maxU16; omega) (hmem x hx _ hn)⟩
  unfold Ext.id at hid
  unfold ensureExtensionArg
  obtain ⟨arg, ha, hb⟩ := Option.map_eq_some_iff.mp hid
  rw [ha, Option.bind_some]
  cases arg with
  | none => simp at hb
  | some a => rfl

/-! ## Examples and findings -/

/-- `#[ink::chain_extension]`. -/
def bareDemo : Ext :=
  ⟨⟨[.tok .other "#", .tok .other "[", .tok .other "ink::chain_extension"], none, [], true,
    [.tok .whitespace "\n"]⟩, [], []⟩

example (pe : ExprParser) : Writes pe bareDemo [] ∧ ∀ x ∈ [bareDemo, bareDemo], ∃ i, x.id pe = some i :=
  ⟨⟨⟨[], rfl, rfl⟩, by simp [bareDemo]⟩, by
    simp [Ext.id, Ext.extensionArg, bareDemo, AttrIn.args, parseInkArgs]⟩

example (pe : ExprParser) : ensureExtensionArg pe [bareDemo] bareDemo =
    some (some (some (22, "(extension = 1)"))) := by
  simp [ensureExtensionArg, Ext.extensionArg, idsOf, Ext.id, bareDemo, AttrIn.args, parseInkArgs, argPlace,
    defaultId_nil, AttrIn.bracketStart, Place.insertion, Elem.lenList, Elem.len]
  decide

/-- Finding: two chain extensions of a file that both lack an id are given the same one, so that applying
both fixes makes their ids overlap. -/
theorem C98_negation_two (pe : ExprParser) (file : List Ext) (e₁ e₂ : Ext) (fix₁ fix₂ : Nat × String)
    (h₁ : ensureExtensionArg pe file e₁ = some (some (some fix₁)))
    (h₂ : ensureExtensionArg pe file e₂ = some (some (some fix₂)))
    (hb₁ : e₁.attr.tree = none) (hb₂ : e₂.attr.tree = none) : fix₁.2 = fix₂.2 := by
  have key : ∀ e fix, ensureExtensionArg pe file e = some (some (some fix)) → e.attr.tree = none →
      ∃ ids, idsOf pe file = some ids ∧
        fix.2 = "(" ++ ("extension = " ++ (defaultId maxU16 ids).repr) ++ ")" := by
    intro e fix h hb
    unfold ensureExtensionArg at h
    obtain ⟨arg, _, h⟩ := Option.bind_eq_some_iff.mp h
    cases arg with
    | some a => simp at h
    | none =>
      obtain ⟨ids, hi, h⟩ := Option.map_eq_some_iff.mp h
      refine ⟨ids, hi, ?_⟩
      simp only [Option.some.injEq, Option.map_eq_some_iff] at h
      obtain ⟨p, hp, rfl⟩ := h
      unfold argPlace at hp
      rw [hb] at hp
      split at hp
      · simp only [Option.some.injEq] at hp
        subst hp
        rfl
      · simp at hp
  obtain ⟨i₁, a₁, b₁⟩ := key e₁ fix₁ h₁ hb₁
  obtain ⟨i₂, a₂, b₂⟩ := key e₂ fix₂ h₂ hb₂
  rw [a₁] at a₂
  cases a₂
  rw [b₁, b₂]

end Verif.Analyzer.ExtensionArg
