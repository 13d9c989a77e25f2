import Verif.Analyzer.Extract
import Verif.Analyzer.EditProps
import Verif.Analyzer.MembersProps
import Verif.Analyzer.IndentProps

/-!
# C85: extracting an event

The specification: a struct item is written as documentation (comments and attributes, each with the
whitespace behind it) followed by the declaration; a module as a brace and items with what is between
them.
-/

namespace Verif.Analyzer.Extract

open Verif.Ir
open Verif.Ir.Token (bytes bytes_append)
open Verif.Analyzer.Members (applyAll applyAll_cons applyAll_one)

/-! ## Specification -/

/-- A comment or attribute of an item, with the whitespace behind it. -/
structure Lead where
  part : Part
  gap : Option (List Char)

/-- The children that it is made of. -/
def Lead.parts (l : Lead) : List Part := l.part :: (l.gap.map Part.ws).toList

/-- The children of a struct item as usually written: comments and attributes in front, none of them
inside of the declaration. -/
structure Tidy (parts : List Part) (leads : List Lead) (decl : List Part) : Prop where
  shape : parts = leads.flatMap Lead.parts ++ decl
  docs : ∀ l ∈ leads, (∃ t, t ≠ [] ∧ l.part = .comment t) ∨ ∃ t i, t ≠ [] ∧ l.part = .attr t i
  body : ∀ p ∈ decl, (∃ t, p = .ws t) ∨ ∃ t, p = .code t
  starts : ∃ t ds, decl = .code t :: ds ∧ t ≠ []

/-- The comments, in order. -/
def comments (leads : List Lead) : List (List Char) :=
  leads.filterMap fun l => match l.part with | .comment t => some t | _ => none

/-- The attributes that are not ink! attributes, in order. -/
def plainAttrs (leads : List Lead) : List (List Char) :=
  leads.filterMap fun l => match l.part with | .attr t none => some t | _ => none

/-- All arguments of all ink! attributes of the item, in order. -/
def inkArgs (parts : List Part) : List (ArgKind × List Char) :=
  parts.flatMap fun p => match p with | .attr _ (some a) => a.args | _ => []

/-- Each text on its own line. -/
def onLines (ts : List (List Char)) : List Char := ts.flatMap fun t => t ++ ['\n']

/-- An item of a module, with the tokens between it and what is before it. -/
structure Seg where
  gap : List FTok
  isUse : Bool
  toks : List FTok

/-- The tokens of items. -/
def segToks (segs : List Seg) : List FTok := segs.flatMap fun s => s.gap ++ s.toks

/-- The ranges of items from an offset on. -/
def place : Nat → List Seg → List Item
  | _, [] => []
  | off, s :: ss =>
    ⟨s.isUse, off + bytes (fileText s.gap), off + bytes (fileText s.gap) + bytes (fileText s.toks)⟩ ::
      place (off + bytes (fileText s.gap) + bytes (fileText s.toks)) ss

/-! ## Lemmas -/

theorem strip_code (b : Bool) (ps : List Part)
    (h : ∀ p ∈ ps, (∃ t, p = .ws t) ∨ ∃ t, p = .code t)
    (hs : b = false ∨ ∃ t ds, ps = .code t :: ds) : strip b ps = ps := by
  induction ps generalizing b with
  | nil => cases b <;> rfl
  | cons p ps ih =>
    have ih' := ih false (fun q hq => h q (List.mem_cons_of_mem _ hq)) (.inl rfl)
    rcases h p (List.mem_cons_self ..) with ⟨t, rfl⟩ | ⟨t, rfl⟩
    · rcases hs with rfl | ⟨t', ds, he⟩
      · simp [strip, ih']
      · cases he
    · cases b <;> simp [strip, ih']

theorem strip_leads (b : Bool) (leads : List Lead) (ds : List Part)
    (h : ∀ l ∈ leads, (∃ t, t ≠ [] ∧ l.part = .comment t) ∨ ∃ t i, t ≠ [] ∧ l.part = .attr t i)
    (hd : ∀ b, strip b ds = ds) : strip b (leads.flatMap Lead.parts ++ ds) = ds := by
  induction leads generalizing b with
  | nil => exact hd b
  | cons l ls ih =>
    have ih' := fun b => ih b (fun q hq => h q (List.mem_cons_of_mem _ hq))
    obtain ⟨p, g⟩ := l
    rcases h _ (List.mem_cons_self ..) with ⟨t, _, he⟩ | ⟨t, i, _, he⟩ <;> simp only at he <;> subst he
    · cases g with
      | none => simpa [Lead.parts, strip] using ih' true
      | some w => simpa [Lead.parts, strip] using ih' false
    · cases g with
      | none => simpa [Lead.parts, strip] using ih' true
      | some w => simpa [Lead.parts, strip] using ih' false

theorem strip_tidy (parts : List Part) (leads : List Lead) (decl : List Part)
    (h : Tidy parts leads decl) : strip false parts = decl := by
  rw [h.shape]
  refine strip_leads _ _ _ h.docs fun b => strip_code _ _ h.body (.inr ?_)
  obtain ⟨t, ds, h, _⟩ := h.starts
  exact ⟨t, ds, h⟩

theorem filterMap_tidy {β : Type} (f : Part → Option β) (g : Lead → Option β)
    (parts : List Part) (leads : List Lead) (decl : List Part) (h : Tidy parts leads decl)
    (hw : ∀ t, f (.ws t) = none) (hc : ∀ t, f (.code t) = none) (hg : ∀ l, g l = f l.part) :
    parts.filterMap f = leads.filterMap g := by
  rw [h.shape, List.filterMap_append]
  have h2 : decl.filterMap f = [] := by
    rw [List.filterMap_eq_nil_iff]
    intro p hp
    rcases h.body p hp with ⟨t, rfl⟩ | ⟨t, rfl⟩
    · exact hw t
    · exact hc t
  rw [h2, List.append_nil]
  clear h h2
  induction leads with
  | nil => rfl
  | cons l ls ih =>
    rw [List.flatMap_cons, List.filterMap_append, ih, List.filterMap_cons, hg]
    obtain ⟨p, gap⟩ := l
    cases gap with
    | none => cases hf : f p <;> simp [Lead.parts, hf]
    | some w => cases hf : f p <;> simp [Lead.parts, hf, hw]

theorem comments_tidy (parts : List Part) (leads : List Lead) (decl : List Part)
    (h : Tidy parts leads decl) : parts.filterMap commentOf = comments leads :=
  filterMap_tidy _ _ _ _ _ h (fun _ => rfl) (fun _ => rfl) (fun l => by
    obtain ⟨p, g⟩ := l; cases p <;> rfl)

theorem plainAttrs_tidy (parts : List Part) (leads : List Lead) (decl : List Part)
    (h : Tidy parts leads decl) : parts.filterMap plainAttrOf = plainAttrs leads :=
  filterMap_tidy _ _ _ _ _ h (fun _ => rfl) (fun _ => rfl) (fun l => by
    obtain ⟨p, g⟩ := l
    cases p with
    | attr t i => cases i <;> rfl
    | _ => rfl)

theorem onLines_eq (ts : List (List Char)) (h : ts ≠ []) :
    onLines ts = List.intercalate ['\n'] ts ++ ['\n'] := by
  induction ts with
  | nil => exact absurd rfl h
  | cons t ts ih =>
    cases ts with
    | nil => simp [onLines, List.intercalate]
    | cons u us =>
      have := ih (by simp)
      simp only [onLines, List.flatMap_cons] at this ⊢
      rw [List.append_assoc t, this]
      simp [List.intercalate, List.intersperse]

theorem intercalate_ne (ts : List (List Char)) (h : ts ≠ []) (hne : ∀ t ∈ ts, t ≠ []) :
    List.intercalate ['\n'] ts ≠ [] := by
  cases ts with
  | nil => exact absurd rfl h
  | cons t ts =>
    have := hne t (List.mem_cons_self ..)
    cases ts <;> simp [List.intercalate, List.intersperse, this]

theorem intercalate_nil : List.intercalate ['\n'] ([] : List (List Char)) = [] := rfl

theorem mem_comments (parts : List Part) (leads : List Lead) (decl : List Part)
    (h : Tidy parts leads decl) : (∀ t ∈ comments leads, t ≠ []) ∧ ∀ t ∈ plainAttrs leads, t ≠ [] := by
  constructor
  · intro t ht
    obtain ⟨l, hl, he⟩ := List.mem_filterMap.1 ht
    rcases h.docs l hl with ⟨u, hu, hp⟩ | ⟨u, i, hu, hp⟩
    · rw [hp] at he
      exact Option.some.inj he ▸ hu
    · rw [hp] at he
      cases he
  · intro t ht
    obtain ⟨l, hl, he⟩ := List.mem_filterMap.1 ht
    rcases h.docs l hl with ⟨u, hu, hp⟩ | ⟨u, i, hu, hp⟩
    · rw [hp] at he
      cases he
    · rw [hp] at he
      cases i with
      | none => exact Option.some.inj he ▸ hu
      | some i => cases he

theorem eventAttr_ne (parts : List Part) : eventAttr parts ≠ [] := by
  unfold eventAttr
  exact List.append_ne_nil_of_right_ne_nil _ (List.cons_ne_nil _ _)

theorem join_all (cs as : List (List Char)) (e b : List Char) (hc : ∀ t ∈ cs, t ≠ [])
    (ha : ∀ t ∈ as, t ≠ []) (he : e ≠ []) (hb : b ≠ []) :
    List.intercalate ['\n'] ([List.intercalate ['\n'] cs, List.intercalate ['\n'] as, e, b].filter
      fun t => !t.isEmpty) = onLines cs ++ onLines as ++ (e ++ ['\n']) ++ b := by
  have emp : ∀ t : List Char, t ≠ [] → t.isEmpty = false := fun t h => by
    cases t with
    | nil => exact absurd rfl h
    | cons => rfl
  by_cases h1 : cs = [] <;> by_cases h2 : as = []
  · subst h1 h2
    simp [emp e he, emp b hb, onLines, List.intercalate, List.intersperse]
  · subst h1
    rw [onLines_eq as h2]
    simp [emp _ (intercalate_ne as h2 ha), emp e he, emp b hb, onLines]
  · subst h2
    rw [onLines_eq cs h1]
    simp [emp _ (intercalate_ne cs h1 hc), emp e he, emp b hb, onLines]
  · rw [onLines_eq cs h1, onLines_eq as h2]
    simp [emp _ (intercalate_ne cs h1 hc), emp _ (intercalate_ne as h2 ha), emp e he, emp b hb]

theorem find_args (k : ArgKind) (parts : List Part) :
    argByKind parts k = ((inkArgs parts).find? fun x => x.1 == k).map (·.2) := by
  induction parts with
  | nil => rfl
  | cons p ps ih =>
    have e1 : inkArgs (p :: ps) = (match p with | .attr _ (some a) => a.args | _ => []) ++
      inkArgs ps := rfl
    rw [e1, List.find?_append]
    have skip : inkOf p = none → argByKind (p :: ps) k = argByKind ps k := by
      intro h
      unfold argByKind
      rw [List.filterMap_cons, h]
    cases p with
    | attr t i =>
      cases i with
      | none => rw [skip rfl, ih]; rfl
      | some a =>
        have : argByKind (.attr t (some a) :: ps) k =
            ((a.args.find? fun x => x.1 == k).map (·.2)).or (argByKind ps k) := by
          unfold argByKind
          rw [List.filterMap_cons]
          simp only [inkOf, List.findSome?_cons]
          cases (a.args.find? fun x => x.1 == k) <;> rfl
        rw [this, ih]
        simp only
        cases (a.args.find? fun x => x.1 == k) <;> rfl
    | comment t => rw [skip rfl, ih]; rfl
    | ws t => rw [skip rfl, ih]; rfl
    | code t => rw [skip rfl, ih]; rfl

theorem find_filter (k : ArgKind) (q : ArgKind → Bool) (hk : q k = true)
    (l : List (ArgKind × List Char)) :
    l.find? (fun x => x.1 == k) = (l.filter fun x => q x.1).find? fun x => x.1 == k := by
  induction l with
  | nil => rfl
  | cons a l ih =>
    by_cases h : a.1 = k
    · have : q a.1 = true := by rw [h]; exact hk
      rw [List.filter_cons, if_pos this, List.find?_cons_of_pos (by simp [h]),
        List.find?_cons_of_pos (by simp [h])]
    · have h' : (a.1 == k) = false := by simpa using h
      rw [List.find?_cons_of_neg (by simp [h']), ih, List.filter_cons]
      split
      · rw [List.find?_cons_of_neg (by simp [h'])]
      · rfl

theorem extract_some (file : List FTok) (parent : Nat → Option (Option (List Char))) (s : Struct)
    (m : Module) (x : Extraction) (h : extract file parent (some s) (some m) = some x) :
    isEvent s.parts = true ∧ s.name = some x.name ∧ ∃ l, m.list = some l ∧
      x = ⟨x.name, content s.parts s.prevWs, formatEdit file parent ⟨[], s.start, s.stop, none⟩,
        insertStart l, '\n' :: itemChildrenIndenting m.prevWs⟩ := by
  unfold extract at h
  cases he : isEvent s.parts with
  | false => rw [Option.filter_some, he] at h; simp at h
  | true =>
    rw [Option.filter_some, he] at h
    simp only [if_true] at h
    cases hn : s.name with
    | none => rw [hn] at h; cases h
    | some n =>
      cases hl : m.list with
      | none => rw [hn, hl] at h; cases h
      | some l =>
        rw [hn, hl] at h
        have := (Option.some.inj h).symm
        subst this
        exact ⟨rfl, rfl, l, rfl, rfl⟩

theorem ws_indent (prevWs : Option (List Char)) (i : List Char) (h : itemIndenting prevWs = some i) :
    ∀ c ∈ i, isWs c = true := by
  cases prevWs with
  | none => cases h
  | some w =>
    have := Option.some.inj h
    subst this
    intro c hc
    have := takeWhile_all' _ _ c hc
    simp only [Bool.and_eq_true] at this
    exact this.2

theorem lastUse (off : Nat) (segs : List Seg) :
    ∃ U V, segs = U ++ V ∧ (∀ v ∈ V, v.isUse = false) ∧
      ((U = [] ∧ ((place off segs).filter (·.isUse)).getLast? = none) ∨
        (∃ U' u, U = U' ++ [u] ∧ u.isUse = true ∧
          ((place off segs).filter (·.isUse)).getLast?.map (·.stop) =
            some (off + bytes (fileText (segToks U))))) := by
  induction segs generalizing off with
  | nil => exact ⟨[], [], rfl, by simp, .inl ⟨rfl, rfl⟩⟩
  | cons s ss ih =>
    obtain ⟨U, V, he, hV, h⟩ := ih (off + bytes (fileText s.gap) + bytes (fileText s.toks))
    rcases h with ⟨rfl, hn⟩ | ⟨U', u, rfl, hu, hs⟩
    · simp only [List.nil_append] at he
      subst he
      have hnil := List.getLast?_eq_none_iff.1 hn
      cases hs : s.isUse with
      | false =>
        refine ⟨[], s :: ss, rfl, ?_, .inl ⟨rfl, ?_⟩⟩
        · intro v hv
          rcases List.mem_cons.1 hv with rfl | hv
          · exact hs
          · exact hV v hv
        · simp only [place]
          rw [List.filter_cons_of_neg (by simp [hs]), hnil]
          rfl
      | true =>
        refine ⟨[s], ss, rfl, hV, .inr ⟨[], s, rfl, hs, ?_⟩⟩
        simp only [place]
        rw [List.filter_cons_of_pos (by simp [hs]), hnil]
        simp [segToks, fileText, bytes_append, Nat.add_assoc]
    · refine ⟨s :: (U' ++ [u]), V, by rw [he]; rfl, hV, .inr ⟨s :: U', u, rfl, hu, ?_⟩⟩
      simp only [place]
      have hne : ((place (off + bytes (fileText s.gap) + bytes (fileText s.toks)) ss).filter
          (·.isUse)) ≠ [] := by
        intro h0
        rw [h0] at hs
        cases hs
      have : ∀ (a : Item) (l : List Item), l ≠ [] → ((a :: l).getLast?) = l.getLast? := by
        intro a l hl
        cases l with
        | nil => exact absurd rfl hl
        | cons b l => simp [List.getLast?_cons]
      have e2 : ((List.filter (fun x => x.isUse) ((⟨s.isUse, off + bytes (fileText s.gap),
          off + bytes (fileText s.gap) + bytes (fileText s.toks)⟩ : Item) ::
            place (off + bytes (fileText s.gap) + bytes (fileText s.toks)) ss)).getLast?) =
          ((place (off + bytes (fileText s.gap) + bytes (fileText s.toks)) ss).filter
            (·.isUse)).getLast? := by
        cases hb : s.isUse with
        | false => rw [List.filter_cons_of_neg (by simp)]
        | true => rw [List.filter_cons_of_pos (by simp), this _ _ hne]
      rw [e2, hs]
      simp [segToks, fileText, bytes_append, Nat.add_assoc]

theorem delete_form (f g : List FTok) (parent : Nat → Option (Option (List Char)))
    (hw : FileWf (f ++ g)) (start : Nat) :
    ∃ e, formatEdit (f ++ g) parent ⟨[], start, bytes (fileText f), none⟩ = some e ∧
      (e = ⟨[], start, bytes (fileText f), none⟩ ∨
        ∃ w g', g = w :: g' ∧ w.kind = .whitespace ∧
          e = ⟨[], start, bytes (fileText f) + bytes w.text, none⟩) := by
  unfold formatEdit
  rw [if_neg (by
    rw [List.flatMap_append, bytes_append]
    simp only [fileText]
    omega)]
  cases hc : coveringWs (f ++ g) ⟨[], start, bytes (fileText f), none⟩ with
  | some t => exact ⟨_, by simp [formatInside], .inl rfl⟩
  | none =>
    refine ⟨_, rfl, ?_⟩
    unfold formatDelete
    simp only
    rw [tokAfter_boundary f g hw]
    cases g with
    | nil => exact .inl rfl
    | cons t g =>
      simp only [List.head?_cons, Option.map_some]
      split
      · rename_i hd
        unfold deletesAfter at hd
        simp only [Bool.and_eq_true, beq_iff_eq] at hd
        exact .inr ⟨t, g, rfl, hd.1.2, rfl⟩
      · exact .inl rfl

theorem two_edits (a b c d x y : List Char) (s1 s2 t1 t2 : Nat) (h1 : s1 = bytes a)
    (h2 : t1 = bytes a + bytes b) (h3 : s2 = bytes a + bytes b + bytes c)
    (h4 : t2 = bytes a + bytes b + bytes c + bytes d) (z : List Char) :
    applyAll (a ++ b ++ c ++ d ++ z) [⟨x, s1, t1, none⟩, ⟨y, s2, t2, none⟩] =
      some (a ++ x ++ c ++ y ++ z) := by
  rw [applyAll_cons, applyAll_one]
  have e1 := Header.apply_cut (a ++ b ++ c) d z ⟨y, s2, t2, none⟩
    (by simp only [bytes_append, h3]) (by simp only [bytes_append, h4])
  rw [show a ++ b ++ c ++ d ++ z = a ++ b ++ c ++ (d ++ z) by simp, e1, Option.bind_some]
  have e2 := Header.apply_cut a b (c ++ y ++ z) ⟨x, s1, t1, none⟩ h1 h2
  rw [show a ++ b ++ c ++ y ++ z = a ++ (b ++ (c ++ y ++ z)) by simp, e2]
  simp

/-! ## C85 -/

/-- The content of the new file: the comments of the event and its other attributes, each on its own
line and in order, then one ink! event attribute, then the declaration with all its fields and their
attributes, of which only whitespace may be changed (nothing, if the event is not indented).

Missing for the full claim: comments inside of the declaration (`C85_negation_glued`) and ink!
attributes other than the event attribute and its arguments (`C85_negation_dropped`). -/
theorem C85_content_partial (file : List FTok) (parent : Nat → Option (Option (List Char)))
    (s : Struct) (m : Module) (x : Extraction) (leads : List Lead) (decl : List Part)
    (ht : Tidy s.parts leads decl) (hc : codeOf (decl.flatMap Part.text) ≠ [])
    (h : extract file parent (some s) (some m) = some x) :
    ∃ e b, x.content = onLines (comments leads) ++ onLines (plainAttrs leads) ++ (e ++ ['\n']) ++ b ∧
      codeOf b = codeOf (decl.flatMap Part.text) ∧
      ((s.prevWs = none ∨ ∃ w, s.prevWs = some w ∧ w.getLast? = some '\n') →
        b = decl.flatMap Part.text) ∧
      ((∀ a ∈ inkArgs s.parts, a.1 ≠ .anonymous ∧ a.1 ≠ .signatureTopic) →
        e = "#[ink::event]".toList) ∧
      (∀ k t, (inkArgs s.parts).filter (fun a => a.1 == .anonymous || a.1 == .signatureTopic) =
        [(k, t)] → e = "#[ink::event(".toList ++ t ++ ")]".toList) := by
  obtain ⟨_, _, l, hl, hx⟩ := extract_some file parent s m x h
  have hxc : x.content = content s.parts s.prevWs := by rw [hx]
  obtain ⟨b, hb1, hb2, hb3⟩ : ∃ b, b = outdent s.prevWs ((strip false s.parts).flatMap Part.text) ∧
      codeOf b = codeOf (decl.flatMap Part.text) ∧
      ((s.prevWs = none ∨ ∃ w, s.prevWs = some w ∧ w.getLast? = some '\n') →
        b = decl.flatMap Part.text) := by
    rw [strip_tidy _ _ _ ht]
    unfold outdent
    cases hi : itemIndenting s.prevWs with
    | none => exact ⟨_, rfl, rfl, fun _ => rfl⟩
    | some i =>
      refine ⟨_, rfl, (C32_code _ i (ws_indent _ _ hi)).2, ?_⟩
      rintro (h0 | ⟨w, h0, h1⟩)
      · rw [h0] at hi; cases hi
      · have : i = [] := by
          rw [h0] at hi
          have := (Option.some.inj hi).symm
          subst this
          unfold endIndenting
          rcases List.eq_nil_or_concat w with rfl | ⟨v, c, rfl⟩
          · rfl
          · simp only [List.concat_eq_append, List.getLast?_append, List.getLast?_singleton,
              Option.some_or, Option.some.injEq] at h1
            subst h1
            simp
        subst this
        rfl
  refine ⟨eventAttr s.parts, b, ?_, hb2, hb3, ?_, ?_⟩
  · rw [hxc]
    unfold content
    simp only
    rw [← hb1, comments_tidy _ _ _ ht, plainAttrs_tidy _ _ _ ht]
    obtain ⟨h1, h2⟩ := mem_comments _ _ _ ht
    refine join_all _ _ _ _ h1 h2 (eventAttr_ne _) ?_
    rintro rfl
    exact hc hb2.symm
  · intro hno
    have none' : ∀ k, (k = .anonymous ∨ k = .signatureTopic) → argByKind s.parts k = none := by
      intro k hk
      rw [find_args, Option.map_eq_none_iff, List.find?_eq_none]
      intro a ha
      have := hno a ha
      rcases hk with rfl | rfl
      · simpa using this.1
      · simpa using this.2
    unfold eventAttr
    rw [none' _ (.inl rfl), none' _ (.inr rfl)]
    rfl
  · intro k t hf
    have hmem : (k, t) ∈ (inkArgs s.parts).filter
        (fun a => a.1 == .anonymous || a.1 == .signatureTopic) := by rw [hf]; simp
    have hk := (List.mem_filter.1 hmem).2
    simp only [Bool.or_eq_true, beq_iff_eq] at hk
    unfold eventAttr
    rw [find_args, find_args, find_filter .anonymous (fun k => k == .anonymous || k == .signatureTopic)
      (by decide), find_filter .signatureTopic (fun k => k == .anonymous || k == .signatureTopic)
      (by decide), hf]
    have e1 : "#[ink::event(".toList = "#[ink::event".toList ++ ['('] := by decide
    have e2 : ")]".toList = [')', ']'] := by decide
    rw [e1, e2]
    generalize "#[ink::event".toList = y
    have hs : (ArgKind.signatureTopic == ArgKind.anonymous) = false := by decide
    rcases hk with rfl | rfl
    · simp [List.find?]
    · simp [List.find?, hs]

/-- The edits of the contract: the event is removed, with at most a whitespace token behind it, and
the import is put behind the last `use` item of the module or behind its opening brace if there is
none; the two edits do not overlap and nothing else changes. -/
theorem C85_edits (head tail : List FTok) (A B : List Seg) (t : Seg)
    (parent : Nat → Option (Option (List Char))) (s : Struct) (m : Module) (x : Extraction)
    (hw : FileWf (head ++ segToks (A ++ t :: B) ++ tail))
    (hstart : s.start = bytes (fileText (head ++ segToks A ++ t.gap)))
    (hparts : s.parts.flatMap Part.text = fileText t.toks) (huse : t.isUse = false)
    (hne : ∀ u ∈ A ++ t :: B, u.isUse = true → u.toks ≠ [])
    (hl : m.list = some ⟨some (bytes (fileText head)), place (bytes (fileText head)) (A ++ t :: B),
      bytes (fileText head) - 1⟩)
    (h : extract (head ++ segToks (A ++ t :: B) ++ tail) parent (some s) (some m) = some x) :
    ∃ U V e, A ++ t :: B = U ++ V ∧ (∀ v ∈ V, v.isUse = false) ∧
      (U = [] ∨ ∃ u, U.getLast? = some u ∧ u.isUse = true) ∧
      x.edit = some e ∧
      ∀ imp : List Char, ∃ w, Blank w ∧
        ((∃ Q z, fileText (head ++ segToks U) ++ Q ++ fileText t.toks ++ w ++ z =
              fileText (head ++ segToks (A ++ t :: B) ++ tail) ∧
            applyAll (fileText (head ++ segToks (A ++ t :: B) ++ tail))
              [⟨imp, x.importOffset, x.importOffset, none⟩, e] =
              some (fileText (head ++ segToks U) ++ imp ++ Q ++ z)) ∨
         (∃ P Q z, P ++ fileText t.toks ++ w ++ Q = fileText (head ++ segToks U) ∧
            fileText (head ++ segToks U) ++ z =
              fileText (head ++ segToks (A ++ t :: B) ++ tail) ∧
            applyAll (fileText (head ++ segToks (A ++ t :: B) ++ tail))
              [e, ⟨imp, x.importOffset, x.importOffset, none⟩] =
              some (P ++ Q ++ imp ++ z))) := by
  obtain ⟨_, _, l, hl', hx⟩ := extract_some _ parent s m x h
  rw [hl] at hl'
  have hl'' := (Option.some.inj hl').symm
  subst hl''
  have hoff : x.importOffset = insertStart ⟨some (bytes (fileText head)),
      place (bytes (fileText head)) (A ++ t :: B), bytes (fileText head) - 1⟩ := by rw [hx]
  have hedit : x.edit = formatEdit (head ++ segToks (A ++ t :: B) ++ tail) parent
      ⟨[], s.start, s.stop, none⟩ := by rw [hx]
  obtain ⟨U, V, hUV, hV, hU⟩ := lastUse (bytes (fileText head)) (A ++ t :: B)
  have himp : x.importOffset = bytes (fileText (head ++ segToks U)) := by
    rw [hoff]
    unfold insertStart
    simp only
    rcases hU with ⟨rfl, hn⟩ | ⟨U', u, rfl, _, hs⟩
    · rw [hn]
      simp [segToks, fileText]
    · rw [hs]
      simp [fileText, bytes_append]
  -- the tokens around the event
  have hfile : head ++ segToks (A ++ t :: B) ++ tail =
      (head ++ segToks A ++ t.gap ++ t.toks) ++ (segToks B ++ tail) := by
    simp [segToks]
  have hstop : s.stop = bytes (fileText (head ++ segToks A ++ t.gap ++ t.toks)) := by
    unfold Struct.stop
    rw [hparts, hstart]
    simp only [fileText, List.flatMap_append, bytes_append]
  obtain ⟨e, he, hform⟩ := delete_form (head ++ segToks A ++ t.gap ++ t.toks) (segToks B ++ tail)
    parent (by rw [← hfile]; exact hw) s.start
  refine ⟨U, V, e, hUV, hV, ?_, ?_, ?_⟩
  · rcases hU with ⟨h, _⟩ | ⟨U', u, rfl, hu, _⟩
    · exact .inl h
    · exact .inr ⟨u, by simp, hu⟩
  · rw [hedit, hstop, hfile]
    exact he
  intro imp
  -- what is removed behind the event
  obtain ⟨ws, g', hg, hblank, hee⟩ : ∃ ws g', segToks B ++ tail = ws ++ g' ∧ Blank (fileText ws) ∧
      e = ⟨[], s.start, s.stop + bytes (fileText ws), none⟩ ∧ ws.length ≤ 1 := by
    rcases hform with h1 | ⟨w, g', h1, h2, h3⟩
    · exact ⟨[], _, rfl, by simp [fileText, Blank], by rw [h1, hstop]; simp [fileText, bytes], by simp⟩
    · refine ⟨[w], g', h1, ?_, by rw [h3, hstop]; simp [fileText], by simp⟩
      simp only [fileText, List.flatMap_cons, List.flatMap_nil, List.append_nil]
      exact hw.blank w (by rw [hfile, h1]; simp) h2
  obtain ⟨hee, hlen⟩ := hee
  refine ⟨fileText ws, hblank, ?_⟩
  have hcase : (∃ A', A = U ++ A') ∨ ∃ B1 B2, B = B1 ++ B2 ∧ B1 ≠ [] ∧ U = A ++ t :: B1 := by
    rcases List.append_eq_append_iff.1 hUV with ⟨A', h1, h2⟩ | ⟨A', h1, h2⟩
    · cases A' with
      | nil => exact .inl ⟨[], by simpa using h1.symm⟩
      | cons y A' =>
        simp only [List.cons_append, List.cons.injEq] at h2
        obtain ⟨rfl, rfl⟩ := h2
        refine .inr ⟨A', V, rfl, ?_, h1⟩
        rintro rfl
        rcases hU with ⟨h0, _⟩ | ⟨U', u, h0, hu, _⟩
        · rw [h1] at h0; simp at h0
        · rw [h1] at h0
          have := List.append_inj_right' h0 rfl
          simp only [List.cons.injEq, and_true] at this
          rw [← this, huse] at hu
          cases hu
    · exact .inl ⟨A', h1⟩
  have hft : ∀ a b : List FTok, fileText (a ++ b) = fileText a ++ fileText b := by
    intro a b; simp [fileText]
  have hst : ∀ a b : List Seg, segToks (a ++ b) = segToks a ++ segToks b := by
    intro a b; simp [segToks]
  rcases hcase with ⟨A', rfl⟩ | ⟨B1, B2, rfl, hB1, rfl⟩
  · refine .inl ⟨fileText (segToks A' ++ t.gap), fileText g', ?_, ?_⟩
    · rw [hfile, hg]
      simp only [hft, hst, List.append_assoc]
    · have := two_edits (fileText (head ++ segToks U)) [] (fileText (segToks A' ++ t.gap))
        (fileText t.toks ++ fileText ws) imp [] x.importOffset s.start x.importOffset
        (s.stop + bytes (fileText ws)) himp (by simpa [bytes] using himp)
        (by rw [hstart]; simp [hft, hst, bytes_append, bytes, Nat.add_assoc])
        (by rw [hstop]; simp [hft, hst, bytes_append, bytes, Nat.add_assoc]) (fileText g')
      rw [hee]
      rw [show fileText (head ++ segToks ((U ++ A') ++ t :: B) ++ tail) =
        fileText (head ++ segToks U) ++ [] ++ fileText (segToks A' ++ t.gap) ++
          (fileText t.toks ++ fileText ws) ++ fileText g' by
        rw [hfile, hg]; simp only [hft, hst, List.append_assoc, List.append_nil], this]
      simp
  · -- the import comes behind the event
    obtain ⟨q, hq⟩ : ∃ q, segToks B1 = ws ++ q := by
      have hne1 : segToks B1 ≠ [] := by
        rcases hU with ⟨h0, _⟩ | ⟨U', u, h0, hu, _⟩
        · simp at h0
        · have hlast : B1.getLast? = some u := by
            have : (A ++ t :: B1).getLast? = some u := by rw [h0]; simp
            rw [List.getLast?_append, List.getLast?_cons] at this
            cases hb : B1.getLast? with
            | none => exact absurd (List.getLast?_eq_none_iff.1 hb) hB1
            | some v => rw [hb] at this; simpa using this
          have hmem := List.mem_of_getLast? hlast
          have := hne u (by simp [hmem]) hu
          intro hnil
          simp only [segToks, List.flatMap_eq_nil_iff] at hnil
          have hu0 := hnil u hmem
          exact this (List.append_eq_nil_iff.1 hu0).2
      rw [hst, List.append_assoc] at hg
      cases ws with
      | nil => exact ⟨_, rfl⟩
      | cons w ws' =>
        have : ws' = [] := by
          cases ws' with
          | nil => rfl
          | cons => simp at hlen
        subst this
        cases hb : segToks B1 with
        | nil => exact absurd hb hne1
        | cons y ys =>
          rw [hb] at hg
          simp only [List.cons_append, List.cons.injEq] at hg
          exact ⟨ys, by rw [hg.1]; rfl⟩
    have hst1 : segToks (A ++ t :: B1) = segToks A ++ t.gap ++ t.toks ++ (ws ++ q) := by
      rw [← hq]; simp [segToks]
    have hst2 : segToks (A ++ t :: (B1 ++ B2)) = segToks A ++ t.gap ++ t.toks ++ (ws ++ q) ++
        segToks B2 := by
      rw [← hq]; simp [segToks]
    refine .inr ⟨fileText (head ++ segToks A ++ t.gap), fileText q, fileText (segToks B2 ++ tail),
      ?_, ?_, ?_⟩
    · rw [hst1]; simp only [hft, List.append_assoc]
    · rw [hst1, hst2]; simp only [hft, List.append_assoc]
    · have := two_edits (fileText (head ++ segToks A ++ t.gap)) (fileText t.toks ++ fileText ws)
        (fileText q) [] [] imp s.start x.importOffset (s.stop + bytes (fileText ws))
        x.importOffset hstart
        (by rw [hstop]; simp only [hft, bytes_append]; omega)
        (by rw [himp, hst1]; simp only [hft, bytes_append]; omega)
        (by rw [himp, hst1]; simp only [hft, bytes_append, bytes]; omega)
        (fileText (segToks B2 ++ tail))
      rw [hee]
      rw [show fileText (head ++ segToks (A ++ t :: (B1 ++ B2)) ++ tail) =
        fileText (head ++ segToks A ++ t.gap) ++ (fileText t.toks ++ fileText ws) ++ fileText q ++ [] ++
          fileText (segToks B2 ++ tail) by
        rw [hst2]; simp only [hft, List.append_assoc, List.append_nil], this]
      simp

/-- An extraction exists exactly for a named struct with an ink! event attribute inside a module with
a body; in particular never for an event at the top of a file. It keeps the name. -/
theorem C85_refused (file : List FTok) (parent : Nat → Option (Option (List Char)))
    (item : Option Struct) (module : Option Module) (n : List Char) :
    (∃ x, extract file parent item module = some x ∧ x.name = n) ↔
      ∃ s m l, item = some s ∧ module = some m ∧ m.list = some l ∧ s.name = some n ∧
        ∃ p ∈ s.parts, ∃ t a, p = .attr t (some a) ∧
          (a.kind = .arg .event ∨ a.kind = .macro .event) := by
  have hev : ∀ parts, isEvent parts = true ↔ ∃ p ∈ parts, ∃ t a, p = .attr t (some a) ∧
      (a.kind = .arg .event ∨ a.kind = .macro .event) := by
    intro parts
    unfold isEvent
    simp only [List.any_eq_true, List.mem_filterMap, Bool.or_eq_true, beq_iff_eq]
    constructor
    · rintro ⟨a, ⟨p, hp, h⟩, hk⟩
      cases p with
      | attr t i => exact ⟨_, hp, t, a, by rw [show i = some a from h], hk⟩
      | comment t => cases h
      | ws t => cases h
      | code t => cases h
    · rintro ⟨p, hp, t, a, rfl, hk⟩
      exact ⟨a, ⟨_, hp, rfl⟩, hk⟩
  constructor
  · rintro ⟨x, h, rfl⟩
    cases item with
    | none => cases h
    | some s =>
      cases module with
      | none =>
        unfold extract at h
        cases he : isEvent s.parts <;> rw [Option.filter_some, he] at h
        · cases h
        · simp only [if_true] at h
          cases hn : s.name <;> rw [hn] at h <;> cases h
      | some m =>
        obtain ⟨h1, h2, l, h3, _⟩ := extract_some file parent s m x h
        exact ⟨s, m, l, rfl, rfl, h3, h2, (hev _).1 h1⟩
  · rintro ⟨s, m, l, rfl, rfl, hl, hn, hp⟩
    unfold extract
    rw [Option.filter_some, (hev _).2 hp, if_pos rfl]
    simp only [hn, hl]
    exact ⟨_, rfl, rfl⟩

/-! ## Examples and findings -/

/-- An event with a comment and a derive attribute in a module. -/
def eventParts : List Part :=
  [.comment "/// E".toList, .ws "\n  ".toList, .attr "#[derive(D)]".toList none, .ws "\n  ".toList,
   .attr "#[ink(event, anonymous)]".toList (some ⟨.arg .event, [(.event, "event".toList),
     (.anonymous, "anonymous".toList)]⟩), .ws "\n  ".toList,
   .code "pub".toList, .ws " ".toList, .code "struct".toList, .ws " ".toList, .code "E".toList,
   .ws " ".toList, .code "{\n    #[ink(topic)] a: u8,\n  }".toList]

example : content eventParts (some "\n  ".toList) =
    ("/// E\n#[derive(D)]\n#[ink::event(anonymous)]\n" ++
      "pub struct E {\n  #[ink(topic)] a: u8,\n}").toList := by decide

example : Tidy eventParts
    [⟨.comment "/// E".toList, some "\n  ".toList⟩,
     ⟨.attr "#[derive(D)]".toList none, some "\n  ".toList⟩,
     ⟨.attr "#[ink(event, anonymous)]".toList (some ⟨.arg .event, [(.event, "event".toList),
       (.anonymous, "anonymous".toList)]⟩), some "\n  ".toList⟩]
    [.code "pub".toList, .ws " ".toList, .code "struct".toList, .ws " ".toList, .code "E".toList,
     .ws " ".toList, .code "{\n    #[ink(topic)] a: u8,\n  }".toList] where
  shape := by decide
  docs := by
    intro l hl
    simp only [List.mem_cons, List.not_mem_nil, or_false] at hl
    rcases hl with rfl | rfl | rfl
    · exact .inl ⟨_, by decide, rfl⟩
    · exact .inr ⟨_, _, by decide, rfl⟩
    · exact .inr ⟨_, _, by decide, rfl⟩
  body := by
    intro p hp
    simp only [List.mem_cons, List.not_mem_nil, or_false] at hp
    rcases hp with rfl | rfl | rfl | rfl | rfl | rfl | rfl
    all_goals first | exact .inl ⟨_, rfl⟩ | exact .inr ⟨_, rfl⟩
  starts := ⟨_, _, rfl, by decide⟩

/-- A module with the event between two `use` items. -/
example : (extract ([⟨.lCurly, ['{']⟩] ++ segToks [⟨[⟨.whitespace, ['\n']⟩], true, [⟨.other, "use a;".toList⟩]⟩,
      ⟨[⟨.whitespace, ['\n']⟩], false, [⟨.other, eventParts.flatMap Part.text⟩]⟩,
      ⟨[⟨.whitespace, ['\n']⟩], true, [⟨.other, "use b;".toList⟩]⟩] ++ [⟨.rCurly, ['}']⟩])
    (fun _ => none) (some ⟨eventParts, some ['E'], some ['\n'], 9⟩)
    (some ⟨none, some ⟨some 1, place 1 [⟨[⟨.whitespace, ['\n']⟩], true, [⟨.other, "use a;".toList⟩]⟩,
      ⟨[⟨.whitespace, ['\n']⟩], false, [⟨.other, eventParts.flatMap Part.text⟩]⟩,
      ⟨[⟨.whitespace, ['\n']⟩], true, [⟨.other, "use b;".toList⟩]⟩], 0⟩⟩)).map
        (fun x => (x.importOffset, x.edit)) =
      some (9 + bytes (eventParts.flatMap Part.text) + 7,
        some ⟨[], 9, 9 + bytes (eventParts.flatMap Part.text) + 1, none⟩) := by decide

/-- Finding: a comment between two words of the declaration is moved in front, and the whitespace
behind it is dropped; if there was none before it, the words are glued together. -/
theorem C85_negation_glued :
    content [.attr "#[ink::event]".toList (some ⟨.macro .event, []⟩), .ws ['\n'], .code "pub".toList,
      .ws [' '], .code "struct".toList, .comment "/* c */".toList, .ws [' '], .code "E;".toList] none =
    "/* c */\n#[ink::event]\npub structE;".toList := by decide

/-- Finding: other ink! attributes of the event are lost, here a `scale_derive` macro. -/
theorem C85_negation_dropped :
    content [.attr "#[ink::event]".toList (some ⟨.macro .event, []⟩), .ws ['\n'],
      .attr "#[ink::scale_derive(TypeInfo)]".toList (some ⟨.macro .scaleDerive,
        [(.typeInfo, "TypeInfo".toList)]⟩), .ws ['\n'], .code "pub struct E;".toList] none =
    "#[ink::event]\npub struct E;".toList := by decide

/-- Finding: an event or a field that is private to the contract stays private in its new package, where the
contract can no longer import the event or set the field; and the file of the new package has no `no_std`
attribute. -/
theorem C85_negation_private :
    content [.attr "#[ink(event)]".toList (some ⟨.arg .event, [(.event, "event".toList)]⟩), .ws ['\n'],
      .code "struct".toList, .ws [' '], .code "E".toList, .ws [' '], .code "{ a: u8 }".toList] none =
    "#[ink::event]\nstruct E { a: u8 }".toList := by decide

/-- Finding: the import is put in front of inner attributes of the module, which must come first. -/
theorem C85_negation_inner : ∃ (head tail : List FTok) (t : Seg) (s : Struct) (x : Extraction),
    fileText (head ++ segToks [t] ++ tail) = "{#![a] #[ink::event]struct E;}".toList ∧
    extract (head ++ segToks [t] ++ tail) (fun _ => none) (some s) (some ⟨none, some
      ⟨some (bytes (fileText head)), place (bytes (fileText head)) [t], 0⟩⟩) = some x ∧
    x.edit.bind (fun e => applyAll (fileText (head ++ segToks [t] ++ tail))
      [⟨"\nuse e::E;".toList, x.importOffset, x.importOffset, none⟩, e]) =
      some "{\nuse e::E;#![a] }".toList :=
  ⟨[⟨.lCurly, ['{']⟩], [⟨.rCurly, ['}']⟩], ⟨[⟨.other, "#![a]".toList⟩, ⟨.whitespace, [' ']⟩], false,
      [⟨.other, "#[ink::event]struct E;".toList⟩]⟩,
    ⟨[.attr "#[ink::event]".toList (some ⟨.macro .event, []⟩), .code "struct E;".toList], some ['E'],
      some [' '], 7⟩, _, by decide, rfl, by decide⟩

end Verif.Analyzer.Extract
