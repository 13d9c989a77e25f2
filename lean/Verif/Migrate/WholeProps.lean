import Verif.Migrate.Whole
import Verif.Migrate.DeriveProps
import Verif.Migrate.HostFnProps
import Verif.Migrate.TestFnProps
import Verif.Analyzer.EditLayoutProps

/-!
# C112: the edits of the migration of a file

C112: Migrating a file gives every edit once, and no two edits overlap: an editor can apply them all.
-/

namespace Verif.Migrate.Whole

open Verif.Ir.Token (bytes bytes_append)
open Verif.Analyzer (Edit FTok formatEdit FileWf TokBoundary fileText)
open Verif.Analyzer.Members (InOrder)
open Verif.Migrate.Imports (UseItem itemEdits delete)
open Verif.Migrate.TestFn (Arg Sig attrEdits fnSig imports tree Once Separated Spaced BothLast gone
  removeFirst removeArg ownRange renderArgs)

/-! ## Specification -/

/-- A place in a file that the migration may change: a legacy event, an attribute with derives, the name
of an argument, the body of a function, the argument list of the attribute of an e2e test, the function of
an e2e test, its body, a `use` item, or a place where something is put in. -/
inductive Site where
  | event (e : LegacyEvent)
  | derive (a : DeriveAttr)
  | argument (r : Nat × Nat)
  | body (b : HostFn.Expr)
  | testAttr (off : Nat) (args : List Arg) (close : List Char)
  | testSig (off : Nat) (s : Sig)
  | testBody (e : Expr)
  | use_ (off : Nat) (u : UseItem)
  | point (n : Nat)

/-- The part of the file that may change. For a function it is the parameters, or the end of its name. -/
def Site.range : Site → Nat × Nat
  | .event e => (e.start, e.stop)
  | .derive a => (a.start, a.stop)
  | .argument r => r
  | .body b => (b.start, b.stop)
  | .testAttr off args close => (off, off + bytes (tree args close))
  | .testSig off s =>
    (off + bytes (s.before ++ s.name ++ (if s.params.isSome then s.generics.getD [] else [])),
      off + bytes (s.before ++ s.name ++ (if s.params.isSome then s.generics.getD [] else []) ++
        s.params.getD []))
  | .testBody e => (e.node.start, e.node.stop)
  | .use_ off u => (off, off + bytes u.render)
  | .point n => (n, n)

/-- The places of a file. Attributes count if they derive a SCALE trait, and bodies if a host function is
migrated in them. -/
def IsSite (f : File) : Site → Prop
  | .event e => ∃ c ∈ f.contracts, e ∈ c.events ∧ e.attr.isSome = true
  | .derive a => a ∈ f.derives ∧ ∃ n ∈ derivedNames a, (f.res a n).isSome = true
  | .argument r => ∃ x ∈ f.extensions, some r ∈ x.functions
  | .body b => b ∈ f.bodies ∧ HostFn.visit f.known [] b ≠ []
  | .testAttr off args close => ∃ t ∈ f.tests, t.attr = some (off, args, close)
  | .testSig off s => ∃ t ∈ f.tests, t.sig = some (off, s)
  | .testBody e => ∃ t ∈ f.tests, t.body = some e
  | .use_ off u => ∃ t ∈ f.tests, (off, u) ∈ t.uses
  | .point n =>
    (∃ c ∈ f.contracts, c.start = n ∨ c.useOffset = some n) ∨
      (∃ x ∈ f.extensions, ∃ i, x.insert = some i ∧ i.1 = n) ∨
      ∃ t ∈ f.tests, ∃ i, t.importAt = some i ∧ i.1 = n

/-- A place is as the parts of the claim about the single steps want it. -/
def SiteOk (f : File) : Site → Prop
  | .event e => e.start ≤ e.stop
  | .derive a => AttrRanges a
  | .argument r => r.1 ≤ r.2
  | .body b => ∀ p e, HostFn.Reached f.known b p e → HostFn.RangesOk e
  | .testAttr _ args close => Once args ∧ Separated args ∧ Spaced args ∧ TestFn.Blank close ∧
      (BothLast args → ∀ a ∈ args, gone a = true)
  | .testSig .. => True
  | .testBody e => Named e ∧ OnlyClient e ∧ ∀ p g, Reached e p g → RangesOk g
  | .use_ _ u => Imports.Usual u
  | .point _ => True

/-- Different places do not share text, and nothing is put inside another place. -/
def SitesApart (f : File) : Prop :=
  ∀ s t, IsSite f s → IsSite f t → s ≠ t →
    s.range.2 ≤ t.range.1 ∨ t.range.2 ≤ s.range.1

/-- The second offset is in or before the white space that directly follows the first. -/
def InGap (text : List Char) (n m : Nat) : Prop :=
  ∃ a w b, text = a ++ w ++ b ∧ bytes a = n ∧ Verif.Analyzer.Blank w ∧ n ≤ m ∧ m < n + bytes w

/-! ## Lemmas -/

theorem mem_unique {x : Edit} {es : List Edit} : x ∈ unique es ↔ x ∈ es := by
  induction es with
  | nil => simp [unique]
  | cons e es ih =>
    rw [unique, List.mem_cons, List.mem_cons, List.mem_filter, ih]
    by_cases h : x = e <;> simp [h]

theorem nodup_unique (es : List Edit) : (unique es).Nodup := by
  induction es with
  | nil => simp [unique]
  | cons e es ih =>
    rw [unique, List.nodup_cons]
    refine ⟨by simp [List.mem_filter], ?_⟩
    exact List.Pairwise.filter _ ih

/-- The edits at a place. -/
def At (f : File) : Site → Edit → Prop
  | .event e, x => x = ⟨[], e.start, e.stop, none⟩
  | .derive a, x => x ∈ attrEdit f.res a ∨ (x.start = a.start ∧ x.stop = a.start)
  | .argument r, x => x = ⟨chars! "function", r.1, r.2, none⟩
  | .body b, x => x ∈ HostFn.visit f.known [] b
  | .testAttr off args close, x => x ∈ attrEdits off args close
  | .testSig off s, x => x ∈ fnSig off s
  | .testBody e, x => x ∈ editsOf (visit e)
  | .use_ off u, x => x ∈ itemEdits off u
  | .point n, x => x.start = n ∧ x.stop = n

theorem steps_at (f : File) (hperm : ∀ l, (f.perm l).Perm l) {x : Edit} (hx : x ∈ steps f) :
    ∃ s, IsSite f s ∧ At f s x := by
  unfold steps at hx
  simp only [List.mem_append] at hx
  rcases hx with (((hx | hx) | hx) | hx) | hx
  · unfold eventsMigration at hx
    simp only [List.mem_flatMap] at hx
    obtain ⟨c, hc, e, he, hx⟩ := hx
    unfold eventEdits at hx
    split at hx
    · cases hx
    · rename_i attr hattr
      simp only [List.mem_append, List.mem_singleton] at hx
      rcases hx with (rfl | hx) | rfl
      · exact ⟨.point c.start, Or.inl ⟨c, hc, Or.inl rfl⟩, rfl, rfl⟩
      · split at hx
        · rename_i o n ho hn
          simp only [List.mem_singleton] at hx
          subst hx
          exact ⟨.point o, Or.inl ⟨c, hc, Or.inr ho⟩, rfl, rfl⟩
        · cases hx
      · exact ⟨.event e, ⟨c, hc, he, by rw [hattr]; rfl⟩, rfl⟩
  · have key : ∀ (xs : List MigExt) (used : List Nat), x ∈ extEdits used xs →
        ∃ y ∈ xs, (∃ i, y.insert = some i ∧ x.start = i.1 ∧ x.stop = i.1) ∨
          ∃ r, some r ∈ y.functions ∧ x = ⟨chars! "function", r.1, r.2, none⟩ := by
      intro xs
      induction xs with
      | nil => intro used h; cases h
      | cons y ys ih =>
        intro used h
        rw [extEdits] at h
        simp only [List.mem_append] at h
        rcases h with (h | h) | h
        · refine ⟨y, List.mem_cons_self .., Or.inl ?_⟩
          unfold extArg at h
          split at h
          · cases h
          · split at h
            · rename_i o pre post hi
              simp only [List.mem_singleton] at h
              subst h
              exact ⟨_, hi, rfl, rfl⟩
            · cases h
        · refine ⟨y, List.mem_cons_self .., Or.inr ?_⟩
          unfold functionEdits at h
          simp only [List.mem_map, List.mem_filterMap] at h
          obtain ⟨r, ⟨o, ho, rfl⟩, rfl⟩ := h
          exact ⟨r, ho, rfl⟩
        · obtain ⟨z, hz, h⟩ := ih _ h
          exact ⟨z, List.mem_cons_of_mem _ hz, h⟩
    obtain ⟨y, hy, ⟨i, hi, h1, h2⟩ | ⟨r, hr, rfl⟩⟩ := key _ _ hx
    · exact ⟨.point i.1, Or.inr (Or.inl ⟨y, hy, i, hi, rfl⟩), h1, h2⟩
    · exact ⟨.argument r, ⟨y, hy, hr⟩, rfl⟩
  · obtain ⟨m, _, hm, hmem⟩ := C66_added f.res f.perm hperm f.derives
    rw [hm, List.mem_append] at hx
    rcases hx with hx | hx
    · rw [List.mem_flatMap] at hx
      obtain ⟨a, ha, hx⟩ := hx
      refine ⟨.derive a, ⟨ha, ?_⟩, Or.inl hx⟩
      have hne : scaleItems f.res a ≠ [] := by
        intro h0
        unfold attrEdit at hx
        split at hx
        · cases hx
        · rw [if_pos (by simp [h0])] at hx
          cases hx
      rw [scaleItems_eq] at hne
      obtain ⟨t, ht⟩ := List.exists_mem_of_ne_nil _ hne
      rw [List.mem_filterMap] at ht
      obtain ⟨n, hn, ht⟩ := ht
      exact ⟨n, hn, by rw [ht]; rfl⟩
    · rw [List.mem_map] at hx
      obtain ⟨⟨item, start, ts⟩, hm', rfl⟩ := hx
      obtain ⟨a, as, haff, rfl, _⟩ := (hmem item start ts).1 hm'
      have ha : a ∈ affected f.res f.derives item := by rw [haff]; exact List.mem_cons_self ..
      unfold affected at ha
      rw [List.mem_filter] at ha
      simp only [Bool.and_eq_true, List.any_eq_true] at ha
      exact ⟨.derive a, ⟨ha.1, ha.2.2⟩, Or.inr ⟨rfl, rfl⟩⟩
  · unfold HostFn.migrate at hx
    rw [List.mem_flatMap] at hx
    obtain ⟨b, hb, hx⟩ := hx
    exact ⟨.body b, ⟨hb, List.ne_nil_of_mem hx⟩, hx⟩
  · rw [List.mem_flatMap] at hx
    obtain ⟨t, ht, hx⟩ := hx
    unfold testEdits at hx
    simp only [List.mem_append] at hx
    rcases hx with ((hx | hx) | hx) | hx
    · split at hx
      · cases hx
      · rename_i off args close h
        exact ⟨.testAttr off args close, ⟨t, ht, h⟩, hx⟩
    · split at hx
      · cases hx
      · rename_i off s h
        exact ⟨.testSig off s, ⟨t, ht, h⟩, hx⟩
    · unfold bodyEdits at hx
      split at hx
      · cases hx
      · rename_i e he
        rw [List.mem_append] at hx
        rcases hx with hx | hx
        · exact ⟨.testBody e, ⟨t, ht, he⟩, hx⟩
        · split at hx
          · cases hx
          · rename_i off indent hi
            unfold imports at hx
            rw [List.mem_map] at hx
            obtain ⟨tr, _, rfl⟩ := hx
            exact ⟨.point off, Or.inr (Or.inr ⟨t, ht, _, hi, rfl⟩), rfl, rfl⟩
    · rw [List.mem_flatMap] at hx
      obtain ⟨⟨off, u⟩, hu, hx⟩ := hx
      exact ⟨.use_ off u, ⟨t, ht, hu⟩, hx⟩

theorem removeFirst_inside {k : TestFn.ArgKind} {prev : Option Nat} {lo off : Nat} {as : List Arg}
    {x : Edit} (hp : ∀ c, prev = some c → lo ≤ c ∧ c ≤ off) (hlo : lo ≤ off)
    (hx : x ∈ removeFirst k prev off as) : Inside x lo (off + bytes (renderArgs as)) := by
  induction as generalizing prev off with
  | nil => cases hx
  | cons a as ih =>
    have hone : bytes (chars! ",") = 1 := by decide
    rw [removeFirst] at hx
    rw [renderArgs, bytes_append]
    have hr : bytes a.render = bytes a.lead + bytes a.core + bytes a.trail +
        (if a.comma then 1 else 0) := by
      unfold TestFn.Arg.render Imports.commaText
      rw [bytes_append, bytes_append, bytes_append]
      cases a.comma
      · rfl
      · exact congrArg _ hone
    split at hx
    · simp only [List.mem_singleton] at hx
      subst hx
      unfold ownRange
      cases hc : a.comma with
      | true =>
        simp only [hc, if_true] at hr
        simp only [if_true, delete, Inside]
        omega
      | false =>
        simp only [hc, Bool.false_eq_true, if_false] at hr
        simp only [Bool.false_eq_true, if_false]
        cases prev with
        | none => simp only [delete, Inside]; omega
        | some c =>
          have := hp c rfl
          simp only [delete, Inside]
          omega
    · have := ih (off := off + bytes a.render) (by
        intro c hc
        split at hc
        · rename_i hcm
          have := Option.some.inj hc
          rw [if_pos hcm] at hr
          omega
        · cases hc) (by omega) hx
      unfold Inside at this ⊢
      omega

theorem attrEdits_inside {off : Nat} {args : List Arg} {close : List Char} {x : Edit}
    (hx : x ∈ attrEdits off args close) : Inside x off (off + bytes (tree args close)) := by
  have h1 : ∀ k, x ∈ removeArg k off args close → Inside x off (off + bytes (tree args close)) := by
    intro k h
    unfold removeArg at h
    split at h
    · simp only [List.mem_singleton] at h
      subst h
      simp only [delete, Inside]
      omega
    · have := removeFirst_inside (lo := off + 1) (fun c hc => by cases hc) (Nat.le_refl _) h
      have hb : bytes (chars! "(") = 1 := by decide
      have ht : bytes (tree args close) = 1 + bytes (renderArgs args) + bytes close + 1 := by
        unfold tree
        have hb' : bytes (chars! ")") = 1 := by decide
        simp only [bytes_append, hb, hb']
      unfold Inside at this ⊢
      omega
  unfold attrEdits at hx
  split at hx
  · simp only [List.mem_singleton] at hx
    subst hx
    simp only [delete, Inside]
    omega
  · rcases List.mem_append.1 hx with h | h
    · exact h1 _ h
    · exact h1 _ h

theorem attrEdits_disjoint {off : Nat} {args : List Arg} {close : List Char} (ho : Once args)
    (hs : Separated args) (hb : Spaced args) (hc : TestFn.Blank close)
    (hlast : BothLast args → ∀ a ∈ args, gone a = true) :
    (attrEdits off args close).Pairwise fun x y => ¬ Overlap x y := by
  have hP : bytes (List.replicate off ' ') = off := by
    induction off with
    | zero => rfl
    | succ n ih =>
      rw [List.replicate_succ, bytes, ih]
      have : (' ' : Char).utf8Size = 1 := by decide
      omega
  obtain ⟨es, new, hperm, hord, _⟩ :=
    TestFn.C93_attribute_partial (List.replicate off ' ') [] args close ho hs hb hc hlast
  rw [hP] at hperm
  refine (hperm.pairwise_iff ?_).1 ?_
  · intro x y hxy hyx
    unfold Overlap at hxy hyx
    omega
  · refine List.Pairwise.imp ?_ hord
    intro a b h ho
    unfold Overlap at ho
    omega

theorem at_inside (f : File) {s : Site} (hok : SiteOk f s) {x : Edit} (hx : At f s x) :
    Inside x s.range.1 s.range.2 := by
  cases s with
  | event e =>
    have hx : x = _ := hx
    subst hx
    exact ⟨Nat.le_refl _, hok, Nat.le_refl _⟩
  | derive a =>
    rcases hx with hx | ⟨h1, h2⟩
    · exact attrEdit_inside hok hx
    · have : a.start ≤ a.stop := hok.1
      simp only [Site.range, Inside]
      omega
  | argument r =>
    have hx : x = _ := hx
    subst hx
    exact ⟨Nat.le_refl _, hok, Nat.le_refl _⟩
  | body b =>
    have h := HostFn.visit_perm f.known b []
    rw [HostFn.outer_nil, List.nil_append] at h
    exact (HostFn.changes_good f.known b hok).1 x (h.mem_iff.1 hx)
  | testAttr off args close => exact attrEdits_inside hx
  | testSig off s =>
    have hx : x ∈ fnSig off s := hx
    unfold fnSig at hx
    simp only [Site.range]
    cases hp : s.params with
    | none =>
      simp only [hp, List.mem_singleton] at hx
      subst hx
      simp only [Inside, Option.isSome_none, Bool.false_eq_true, if_false, Option.getD_none, List.append_nil, bytes_append]
      omega
    | some ps =>
      simp only [hp, List.mem_singleton] at hx
      subst hx
      simp only [Inside, Option.isSome_some, if_true, Option.getD_some, bytes_append]
      omega
  | testBody e => exact (visit_good e hok.1 hok.2.1 hok.2.2).1 x hx
  | use_ off u =>
    have := (Imports.itemEdits_within u hok off).1 (x.start, x.stop) (List.mem_map.2 ⟨x, hx, rfl⟩)
    exact this
  | point n =>
    obtain ⟨h1, h2⟩ := hx
    simp only [Site.range, Inside]
    omega

theorem of_pairwise {l : List Edit} (h : l.Pairwise fun x y => ¬ Overlap x y) {x y : Edit}
    (hx : x ∈ l) (hy : y ∈ l) (hne : x ≠ y) : ¬ Overlap x y := by
  induction l with
  | nil => cases hx
  | cons e l ih =>
    rw [List.pairwise_cons] at h
    rcases List.mem_cons.1 hx with h1 | h1
    · rcases List.mem_cons.1 hy with h2 | h2
      · exact absurd (h1.trans h2.symm) hne
      · rw [h1]
        exact h.1 y h2
    · rcases List.mem_cons.1 hy with h2 | h2
      · intro ho
        refine h.1 x h1 ?_
        rw [← h2]
        unfold Overlap at ho ⊢
        omega
      · exact ih h.2 h1 h2

theorem at_pair (f : File) {s : Site} (hok : SiteOk f s) {x y : Edit} (hx : At f s x) (hy : At f s y)
    (hne : x ≠ y) : ¬ Overlap x y := by
  have hix := at_inside f hok hx
  have hiy := at_inside f hok hy
  cases s with
  | event e => exact absurd (Eq.trans hx (Eq.symm hy)) hne
  | derive a =>
    simp only [Site.range, Inside] at hix hiy
    rcases hx with hx | ⟨h1, h2⟩
    · rcases hy with hy | ⟨h1, h2⟩
      · exact of_pairwise (pairwise_of_le_one (attrEdit_one f.res a) _) hx hy hne
      · unfold Overlap
        omega
    · unfold Overlap
      omega
  | argument r => exact absurd (Eq.trans hx (Eq.symm hy)) hne
  | body b => exact of_pairwise (HostFn.C90_disjoint f.known b hok) hx hy hne
  | testAttr off args close =>
    obtain ⟨h1, h2, h3, h4, h5⟩ := hok
    exact of_pairwise (attrEdits_disjoint h1 h2 h3 h4 h5) hx hy hne
  | testSig off s =>
    have hx : x ∈ fnSig off s := hx
    have hy : y ∈ fnSig off s := hy
    unfold fnSig at hx hy
    cases hp : s.params <;> simp only [hp, List.mem_singleton] at hx hy <;>
      exact absurd (hx.trans hy.symm) hne
  | testBody e => exact of_pairwise (C49_body_partial e hok.1 hok.2.1 hok.2.2) hx hy hne
  | use_ off u =>
    refine of_pairwise (l := itemEdits off u) ?_ hx hy hne
    have := (Imports.itemEdits_within u hok off).2
    rw [List.pairwise_map] at this
    refine this.imp ?_
    intro a b h ho
    unfold Overlap at ho
    omega
  | point n =>
    obtain ⟨h1, h2⟩ := hx
    obtain ⟨h3, h4⟩ := hy
    unfold Overlap
    omega

theorem formatAll_mem {toks : List FTok} {parent : Nat → Option (Option (List Char))} :
    ∀ {es es' : List Edit}, formatAll toks parent es = some es' →
      ∀ R : Edit → Edit → Prop, (es.Pairwise fun x y => ∀ x' y', formatEdit toks parent x = some x' →
        formatEdit toks parent y = some y' → R x' y') → es'.Pairwise R
  | [], es', h, R, _ => by
    simp only [formatAll, Option.some.injEq] at h
    subst h
    exact List.Pairwise.nil
  | e :: es, es', h, R, hp => by
    have aux : ∀ {es es' : List Edit}, formatAll toks parent es = some es' → ∀ y' ∈ es',
        ∃ y ∈ es, formatEdit toks parent y = some y' := by
      intro es
      induction es with
      | nil =>
        intro es' h y' hy
        simp only [formatAll, Option.some.injEq] at h
        subst h
        cases hy
      | cons a as ih =>
        intro es' h y' hy
        rw [formatAll] at h
        split at h
        · rename_i a' as' h1 h2
          simp only [Option.some.injEq] at h
          subst h
          rcases List.mem_cons.1 hy with rfl | hy
          · exact ⟨a, List.mem_cons_self .., h1⟩
          · obtain ⟨y, hy, h3⟩ := ih h2 y' hy
            exact ⟨y, List.mem_cons_of_mem _ hy, h3⟩
        · cases h
    rw [formatAll] at h
    split at h
    · rename_i a' as' h1 h2
      simp only [Option.some.injEq] at h
      subst h
      rw [List.pairwise_cons] at hp
      refine List.Pairwise.cons ?_ (formatAll_mem h2 R hp.2)
      intro y' hy'
      obtain ⟨y, hy, h3⟩ := aux h2 y' hy'
      exact hp.1 y hy a' y' h1 h3
    · cases h

theorem formatAll_exists {toks : List FTok} {parent : Nat → Option (Option (List Char))} {x : Edit} :
    ∀ {es es' : List Edit}, formatAll toks parent es = some es' → x ∈ es →
      ∃ x' ∈ es', formatEdit toks parent x = some x'
  | e :: es, es', h, hx => by
    rw [formatAll] at h
    split at h
    · rename_i a' as' h1 h2
      simp only [Option.some.injEq] at h
      subst h
      rcases List.mem_cons.1 hx with rfl | hx
      · exact ⟨a', List.mem_cons_self .., h1⟩
      · obtain ⟨x', hx', h3⟩ := formatAll_exists h2 hx
        exact ⟨x', List.mem_cons_of_mem _ hx', h3⟩
    · cases h

/-- Where a formatted edit is. -/
theorem format_range {toks : List FTok} {parent : Nat → Option (Option (List Char))} (hw : FileWf toks)
    {x x' : Edit} (hb : x.text = [] → TokBoundary toks x.stop)
    (h : formatEdit toks parent x = some x') :
    x'.start = x.start ∧ (x'.stop = x.stop ∨ (x.text = [] ∧ x.stop ≤ x'.stop ∧
      ∀ m, x.stop ≤ m → m < x'.stop → InGap (fileText toks) x.stop m)) := by
  by_cases ht : x.text = []
  · rcases Verif.Analyzer.C34_delete_partial toks parent hw x x' ht (hb ht) h with
      rfl | ⟨pre, w, post, h1, h2, h3, h4, _⟩
    · exact ⟨rfl, Or.inl rfl⟩
    · subst h4
      exact ⟨rfl, Or.inr ⟨ht, by simp, fun m h5 h6 => ⟨pre, w, post, h1, h2, h3, h5, h6⟩⟩⟩
  · obtain ⟨p, s, _, _, h1⟩ := Verif.Analyzer.C34_replace toks parent x x' ht h
    subst h1
    exact ⟨rfl, Or.inl rfl⟩

/-! ## Theorems -/

/-- Before formatting, the migration has exactly the edits of its steps, each once. -/
theorem C112_once (f : File) :
    (unique (steps f)).Nodup ∧ ∀ x, x ∈ unique (steps f) ↔
      x ∈ eventsMigration f.contracts ∨ x ∈ extensionsMigration f.extensions ∨
        x ∈ scaleDerive f.res f.perm f.derives ∨ (∃ b ∈ f.bodies, x ∈ HostFn.visit f.known [] b) ∨
        ∃ t ∈ f.tests,
          (∃ off args close, t.attr = some (off, args, close) ∧ x ∈ attrEdits off args close) ∨
          (∃ off s, t.sig = some (off, s) ∧ x ∈ fnSig off s) ∨
          (∃ e, t.body = some e ∧ (x ∈ editsOf (visit e) ∨
            ∃ off indent, t.importAt = some (off, indent) ∧ x ∈ imports off indent (visit e))) ∨
          ∃ off u, (off, u) ∈ t.uses ∧ x ∈ itemEdits off u := by
  refine ⟨nodup_unique _, fun x => ?_⟩
  have ht : ∀ t, x ∈ testEdits t ↔
      (∃ off args close, t.attr = some (off, args, close) ∧ x ∈ attrEdits off args close) ∨
      (∃ off s, t.sig = some (off, s) ∧ x ∈ fnSig off s) ∨
      (∃ e, t.body = some e ∧ (x ∈ editsOf (visit e) ∨
        ∃ off indent, t.importAt = some (off, indent) ∧ x ∈ imports off indent (visit e))) ∨
      ∃ off u, (off, u) ∈ t.uses ∧ x ∈ itemEdits off u := by
    intro t
    unfold testEdits bodyEdits
    simp only [List.mem_append, List.mem_flatMap, Prod.exists]
    rw [or_assoc, or_assoc]
    refine or_congr ?_ (or_congr ?_ (or_congr ?_ Iff.rfl))
    · cases h : t.attr with
      | none => simp
      | some a =>
        obtain ⟨off, args, close⟩ := a
        constructor
        · intro h
          exact ⟨_, _, _, rfl, h⟩
        · rintro ⟨_, _, _, h1, h2⟩
          cases h1
          exact h2
    · cases h : t.sig with
      | none => simp
      | some a =>
        obtain ⟨off, s⟩ := a
        constructor
        · intro h
          exact ⟨_, _, rfl, h⟩
        · rintro ⟨_, _, h1, h2⟩
          cases h1
          exact h2
    · cases h : t.body with
      | none => simp
      | some e =>
        simp only [List.mem_append, Option.some.injEq, exists_eq_left']
        refine or_congr Iff.rfl ?_
        cases h : t.importAt with
        | none => simp
        | some a =>
          obtain ⟨off, indent⟩ := a
          constructor
          · intro h
            exact ⟨_, _, rfl, h⟩
          · rintro ⟨_, _, h1, h2⟩
            cases h1
            exact h2
  rw [mem_unique]
  unfold steps HostFn.migrate
  simp only [List.mem_append, List.mem_flatMap, ht, or_assoc]

/-- Before formatting, no two edits overlap, if the places that are changed are apart. Missing: places
inside others, namely derives on legacy events (`C49_negation_event`), host functions in the bodies of e2e
tests (`C112_negation_host`), and items in function bodies; and what is missing for the single steps
(`SiteOk`). -/
theorem C112_apart_partial (f : File) (hperm : ∀ l, (f.perm l).Perm l)
    (hok : ∀ s, IsSite f s → SiteOk f s) (hap : SitesApart f) :
    (unique (steps f)).Pairwise fun x y => ¬ Overlap x y := by
  have hall : ∀ x ∈ unique (steps f), ∀ y ∈ unique (steps f), x ≠ y → ¬ Overlap x y := by
    intro x hx y hy hne
    obtain ⟨s, hs, hxs⟩ := steps_at f hperm (mem_unique.1 hx)
    obtain ⟨t, ht, hyt⟩ := steps_at f hperm (mem_unique.1 hy)
    by_cases hst : s = t
    · subst hst
      exact at_pair f (hok s hs) hxs hyt hne
    · have hix := at_inside f (hok s hs) hxs
      have hiy := at_inside f (hok t ht) hyt
      rcases hap s t hs ht hst with h | h
      · exact (not_overlap_of_le hix hiy h).1
      · exact (not_overlap_of_le hiy hix h).2
  refine List.Pairwise.imp_of_mem ?_ (nodup_unique (steps f))
  intro x y hx hy hne
  exact hall x hx y hy hne

/-- Formatting makes two edits overlap only if one of them starts in the white space directly behind the
other, which is a deletion. -/
theorem C112_format (toks : List FTok) (parent : Nat → Option (Option (List Char))) (hw : FileWf toks)
    (x y x' y' : Edit)
    (hbx : x.text = [] → TokBoundary toks x.stop) (hby : y.text = [] → TokBoundary toks y.stop)
    (hno : ¬ Overlap x y) (hx' : formatEdit toks parent x = some x')
    (hy' : formatEdit toks parent y = some y') (ho : Overlap x' y') :
    (x.text = [] ∧ InGap (fileText toks) x.stop y.start) ∨
      (y.text = [] ∧ InGap (fileText toks) y.stop x.start) := by
  obtain ⟨h1, h2⟩ := format_range hw hbx hx'
  obtain ⟨h3, h4⟩ := format_range hw hby hy'
  unfold Overlap at hno ho
  rcases h2 with h2 | ⟨h2, h5, h6⟩
  · rcases h4 with h4 | ⟨h4, h7, h8⟩
    · omega
    · exact Or.inr ⟨h4, h8 _ (by omega) (by omega)⟩
  · by_cases hc : x.stop ≤ y.start
    · exact Or.inl ⟨h2, h6 _ hc (by omega)⟩
    · rcases h4 with h4 | ⟨h4, h7, h8⟩
      · omega
      · exact Or.inr ⟨h4, h8 _ (by omega) (by omega)⟩

/-- No two edits of the migration of a file overlap. Missing: as for `C112_apart_partial`, and edits that
start in the white space behind a deletion (`C112_negation_last_use`). -/
theorem C112_disjoint_partial (toks : List FTok) (parent : Nat → Option (Option (List Char))) (f : File)
    (es : List Edit) (hw : FileWf toks) (hperm : ∀ l, (f.perm l).Perm l)
    (hok : ∀ s, IsSite f s → SiteOk f s) (hap : SitesApart f)
    (hb : ∀ x ∈ steps f, x.text = [] → TokBoundary toks x.stop)
    (hgap : ∀ x ∈ steps f, ∀ y ∈ steps f, x ≠ y → x.text = [] →
      ¬ InGap (fileText toks) x.stop y.start)
    (h : migrate toks parent f = some es) : es.Pairwise fun x y => ¬ Overlap x y := by
  refine formatAll_mem h _ ?_
  have hp := List.Pairwise.and (C112_apart_partial f hperm hok hap) (nodup_unique (steps f))
  refine List.Pairwise.imp_of_mem ?_ hp
  intro x y hx hy ⟨hno, hne⟩ x' y' hx' hy' ho
  rw [mem_unique] at hx hy
  rcases C112_format toks parent hw x y x' y' (hb x hx) (hb y hy) hno hx' hy' ho with
    ⟨h1, h2⟩ | ⟨h1, h2⟩
  · exact hgap x hx y hy hne h1 h2
  · exact hgap y hy x hx (Ne.symm hne) h1 h2

/-- C112 is false: if the last `use` item of a module is removed, with white space around it and an item
behind it, and an e2e test of the module needs an import, then the import goes into the text that is
deleted. -/
theorem C112_negation_last_use (A M C : List FTok) (w : FTok)
    (parent : Nat → Option (Option (List Char))) (f : File) (t : Test) (u : UseItem) (e : Expr)
    (indent : List Char) (tr : E2ETrait) (es : List Edit) (hw : FileWf (A ++ (M ++ w :: C)))
    (hA : ∀ k, A.getLast? = some k → k.kind = .whitespace) (hM : fileText M = u.render)
    (hne : u.render ≠ []) (hws : w.kind = .whitespace) (hC : ∀ k, C.head? = some k → k.kind ≠ .rCurly)
    (ht : t ∈ f.tests) (hu : (bytes (fileText A), u) ∈ t.uses)
    (hdel : itemEdits (bytes (fileText A)) u =
      [delete (bytes (fileText A), bytes (fileText A) + bytes u.render)])
    (hat : t.importAt = some (bytes (fileText A) + bytes u.render, indent)) (hbody : t.body = some e)
    (hneed : Out.need tr ∈ visit e) (h : migrate (A ++ (M ++ w :: C)) parent f = some es) :
    ∃ x ∈ es, ∃ y ∈ es, Overlap x y ∧ x.text = [] ∧ x.start = bytes (fileText A) ∧
      y.start = bytes (fileText A) + bytes u.render ∧ y.stop = y.start ∧
      x.stop = y.start + bytes w.text := by
  have hx : delete (bytes (fileText A), bytes (fileText A) + bytes u.render) ∈ unique (steps f) := by
    rw [(C112_once f).2]
    exact Or.inr (Or.inr (Or.inr (Or.inr ⟨t, ht, Or.inr (Or.inr (Or.inr
      ⟨_, u, hu, by rw [hdel]; exact List.mem_singleton.2 rfl⟩))⟩)))
  have hreq : tr ∈ TestFn.required (visit e) := by
    unfold TestFn.required
    rw [List.mem_eraseDups, List.mem_filterMap]
    exact ⟨_, hneed, rfl⟩
  have hy : (⟨chars! "\n" ++ indent ++ chars! "use " ++ TestFn.traitPath tr ++ chars! ";",
      bytes (fileText A) + bytes u.render, bytes (fileText A) + bytes u.render, none⟩ : Edit) ∈
      unique (steps f) := by
    rw [(C112_once f).2]
    refine Or.inr (Or.inr (Or.inr (Or.inr ⟨t, ht, Or.inr (Or.inr (Or.inl
      ⟨e, hbody, Or.inr ⟨_, _, hat, ?_⟩⟩))⟩)))
    unfold imports
    rw [List.mem_map]
    exact ⟨tr, hreq, rfl⟩
  obtain ⟨x', hx', hfx⟩ := formatAll_exists h hx
  obtain ⟨y', hy', hfy⟩ := formatAll_exists h hy
  have hfx2 := (Verif.Analyzer.C72_delete A M (w :: C) parent
    (delete (bytes (fileText A), bytes (fileText A) + bytes u.render)) hw rfl rfl (by
      simp [delete, Verif.Analyzer.fileText_append, bytes_append, hM])).1 w C rfl hws hA hC
  rw [hfx] at hfx2
  have hfx2 := Option.some.inj hfx2
  obtain ⟨p, s, _, _, hfy2⟩ := Verif.Analyzer.C34_replace _ parent _ y' (by simp) hfy
  have hpos : 0 < bytes u.render := Verif.Ir.Token.bytes_pos _ hne
  have hwpos : 0 < bytes w.text := Verif.Ir.Token.bytes_pos _ (hw.nonempty w (by simp))
  refine ⟨x', hx', y', hy', ?_⟩
  subst hfx2 hfy2
  simp only [Overlap, delete, and_true]
  omega

/-! ## Examples -/

/-- Tokens, for examples. -/
def tk (t : List Char) : FTok := ⟨.other, t⟩

/-- White space, braces and semicolon, for examples. -/
def ws : FTok := ⟨.whitespace, [' ']⟩

/-- See `ws`. -/
def lc : FTok := ⟨.lCurly, ['{']⟩

/-- See `ws`. -/
def rc : FTok := ⟨.rCurly, ['}']⟩

/-- See `ws`. -/
def sc : FTok := ⟨.semicolon, [';']⟩

/-- `{ client.balance(a) }` at an offset. -/
def balanceBody (o : Nat) : Expr :=
  .mk { form := .block, role := .body, text := [], start := o, stop := o + 21 }
    [balanceCall .tail (chars! "client") (o + 2)]

theorem balanceBody_ok (o : Nat) : Named (balanceBody o) ∧ OnlyClient (balanceBody o) ∧
    ∀ p e, Reached (balanceBody o) p e → RangesOk e := by
  have hl : (reachedList (balanceBody o)).map Prod.snd =
      [balanceBody o, balanceCall .tail (chars! "client") (o + 2)] := rfl
  have hall : ∀ P : Expr → Prop, (∀ e ∈ (reachedList (balanceBody o)).map Prod.snd, P e) →
      ∀ p e, Reached (balanceBody o) p e → P e :=
    fun P h => forall_reached (balanceBody o) P fun q hq => h q.2 (List.mem_map_of_mem hq)
  refine ⟨?_, ?_, ?_⟩
  · refine hall _ ?_
    rw [hl]
    simp [balanceBody, Expr.node, balanceCall, leaf, Expr.children]
  · refine hall _ ?_
    rw [hl]
    simp [balanceBody, Expr.node, balanceCall, leaf, Expr.children, onClient]
  · refine hall _ ?_
    rw [hl]
    simp [balanceBody, Expr.node, balanceCall, leaf, Expr.children, RangesOk]

/-- `use ink_e2e::build_message;` -/
def oldUse : UseItem :=
  ⟨chars! "use ", .leaf (some ["ink_e2e", "build_message"]) false none (chars! "ink_e2e::build_message"),
    [';']⟩

/-- `mod t { use ink_e2e::build_message; #[ink_e2e::test] fn f(c: C) { client.balance(a) } }`. -/
def lastUseToks : List FTok :=
  [tk (chars! "mod"), ws, tk (chars! "t"), ws, lc, ws] ++
    ([tk (chars! "use"), ws, tk (chars! "ink_e2e::build_message"), sc] ++
      ws :: [tk (chars! "#[ink_e2e::test"), tk (chars! "]"),
    ws, tk (chars! "fn"), ws, tk (chars! "f(c:"), ws, tk (chars! "C)"), ws, lc, ws,
    tk (chars! "client.balance(a)"), ws, rc, ws, rc])

/-- Its e2e test; the import goes behind the last `use` item. -/
def lastUseTest : Test :=
  ⟨none, some (53, ⟨chars! "fn ", ['f'], none, some (chars! "(c: C)"), chars! " { client.balance(a) }"⟩),
    some (balanceBody 64),
    some (TestFn.importOffset 7 [⟨.space, [' ']⟩, ⟨.use_, oldUse.render⟩] .module_, chars! "  "),
    [(8, oldUse)]⟩

/-- A file with nothing but e2e tests. -/
def testFile (ts : List Test) : File :=
  ⟨[], [], sampleRes, id, [], HostFn.knownIn HostFn.bareFile 9, [], ts⟩

/-- The deletion is 8..36, the insertion at 35. -/
example : (migrate lastUseToks (fun _ => some none) (testFile [lastUseTest])).map
      (List.map fun e => (e.start, e.stop)) = some [(57, 63), (73, 80), (35, 35), (8, 36)] := by
  decide +kernel

/-- The hypotheses of `C112_negation_last_use` hold for it. -/
example : ∃ es x y, migrate lastUseToks (fun _ => some none) (testFile [lastUseTest]) = some es ∧
    x ∈ es ∧ y ∈ es ∧ Overlap x y := by
  cases h : migrate lastUseToks (fun _ => some none) (testFile [lastUseTest]) with
  | none => exact absurd h (by decide +kernel)
  | some es =>
    obtain ⟨x, hx, y, hy, ho, _⟩ := C112_negation_last_use _ _ _ _ (fun _ => some none)
      (testFile [lastUseTest]) lastUseTest oldUse (balanceBody 64) (chars! "  ") .chain es
      ⟨by decide, by decide⟩ (by decide) (by decide) (by decide) rfl (by decide) (by simp [testFile])
      (List.mem_singleton.2 rfl) (by decide +kernel) (by decide +kernel) rfl (by decide +kernel) h
    exact ⟨es, x, y, rfl, hx, hy, ho⟩

/-- `client.call(s, ink::env::call::Call::new(x), v, l)`, as the migration of e2e tests sees it. -/
def hostInTest : Expr :=
  .mk { form := .methodCall, role := .tail, text := [], start := 0, stop := 50
        name := some ("call", 7, 11)
        argList := some (11, 50, chars! "(s, ink::env::call::Call::new(x), v, l)") }
    [leaf .path .receiver (chars! "client") 0, leaf .path .arg ['s'] 12,
      .mk { form := .call, role := .arg, text := chars! "ink::env::call::Call::new(x)", start := 15
            stop := 43 }
        [leaf .path .callee (chars! "ink::env::call::Call::new") 15, leaf .path .arg ['x'] 41],
      leaf .path .arg ['v'] 45, leaf .path .arg ['l'] 48]

/-- The same, as the migration of host functions sees it. -/
def hostInTest' : HostFn.Expr :=
  .method 0 50 .tail (some ("call", 7, 11)) (.path 0 6 .receiver (chars! "client") none)
    [HostFn.opaqueExpr 12 13 .arg,
      .call 15 43 .arg (.path 15 40 .callee (chars! "ink::env::call::Call::new")
        (some ⟨false, 15, [HostFn.seg "ink" 15, HostFn.seg "env" 20, HostFn.seg "call" 25,
          HostFn.seg "Call" 31], HostFn.seg "new" 37⟩)) [HostFn.opaqueExpr 41 42 .arg],
      HostFn.opaqueExpr 45 46 .arg, HostFn.opaqueExpr 48 49 .arg]

/-- An e2e test with this body. -/
def hostTestFile : File :=
  ⟨[], [], sampleRes, id, [], HostFn.knownIn HostFn.bareFile 9, [hostInTest'],
    [⟨none, none, some hostInTest, none, []⟩]⟩

/-- C112 is false: host functions are migrated in e2e tests too, and an argument of a client call that is
changed is replaced as a whole: of `client.call(s, ink::env::call::Call::new(x), v, l)` both the path in
the argument and all arguments are replaced. -/
theorem C112_negation_host :
    ∃ x ∈ unique (steps hostTestFile), ∃ y ∈ unique (steps hostTestFile), Overlap x y ∧
      x.text = chars! "ink::env::call::CallV1" ∧
      y.text = chars! "(s, ink::env::call::Call::new(x)).value(v).storage_deposit_limit(l).submit()" :=
  ⟨⟨chars! "ink::env::call::CallV1", 15, 35, none⟩, by decide +kernel,
    ⟨chars! "(s, ink::env::call::Call::new(x)).value(v).storage_deposit_limit(l).submit()", 11, 50, none⟩,
    by decide +kernel, by unfold Overlap; decide, rfl, rfl⟩

/-! ### A file that is migrated without overlaps -/

/-- ```
#[ink::contract] mod c { #[ink(event)] struct E; #[derive(E)] struct S;
fn g() { Self::env().instantiate_contract(p) } mod t { use ink_e2e::build_message; use super::A;
#[ink_e2e::test(keep_attr = k)] fn f(c: C) { client.balance(a) }
#[ink_e2e::test] fn h(c: C) { client.balance(a) } } }
```
in one line. -/
def goodToks : List FTok :=
  [tk (chars! "#[ink::contract"), tk (chars! "]"), ws, tk (chars! "mod"), ws, tk (chars! "c"),
    ws, lc, ws, tk (chars! "#[ink"), tk (chars! "(event)"), tk (chars! "]"), ws,
    tk (chars! "struct"), ws, tk (chars! "E"), sc, ws, tk (chars! "#[derive"), tk (chars! "(E)"),
    tk (chars! "]"), ws, tk (chars! "struct"), ws, tk (chars! "S"), sc, ws, tk (chars! "fn"), ws,
    tk (chars! "g()"), ws, lc, ws, tk (chars! "Self::env().instantiate_contract(p)"), ws, rc, ws,
    tk (chars! "mod"), ws, tk (chars! "t"), ws, lc, ws, tk (chars! "use"), ws,
    tk (chars! "ink_e2e::build_message"), sc, ws, tk (chars! "use"), ws, tk (chars! "super::A"),
    sc, ws, tk (chars! "#[ink_e2e::test"), tk (chars! "(keep_attr"), ws, tk (chars! "="), ws,
    tk (chars! "k)"), tk (chars! "]"), ws, tk (chars! "fn"), ws, tk (chars! "f(c:"), ws,
    tk (chars! "C)"), ws, lc, ws, tk (chars! "client.balance(a)"), ws, rc, ws,
    tk (chars! "#[ink_e2e::test"), tk (chars! "]"), ws, tk (chars! "fn"), ws, tk (chars! "h(c:"),
    ws, tk (chars! "C)"), ws, lc, ws, tk (chars! "client.balance(a)"), ws, rc, ws, rc, ws, rc]

/-- `use super::A;` -/
def goodUse : UseItem :=
  ⟨chars! "use ", .leaf (some ["super", "A"]) false none (chars! "super::A"), [';']⟩

/-- `Self::env().instantiate_contract(p)` in the block at 79. -/
def goodBody : HostFn.Expr :=
  .node 79 118 .body .block [
    .method 81 116 .tail (some ("instantiate_contract", 93, 113))
      (.call 81 92 .receiver (.path 81 90 .callee (chars! "Self::env")
        (some ⟨false, 81, [HostFn.seg "Self" 81], HostFn.seg "env" 87⟩)) [])
      [HostFn.opaqueExpr 114 115 .arg]]

/-- The legacy event. -/
def goodEvent : LegacyEvent :=
  ⟨chars! "#[ink(event)] struct E;", 25, 48, some (chars! "#[ink(event)]"), false, none, none, some ['E']⟩

/-- The attribute with the derive. -/
def goodDerive : DeriveAttr := ⟨49, 61, 49, .derive (some (['E'], 57, 60))⟩

/-- The arguments of the attribute of the first test. -/
def goodArgs : List Arg := [⟨.keep, [], chars! "keep_attr = k", [], false⟩]

/-- The function of a test. -/
def goodSig (name : List Char) : Sig :=
  ⟨chars! "fn ", name, none, some (chars! "(c: C)"), chars! " { client.balance(a) }"⟩

/-- The file. -/
def goodFile : File :=
  ⟨[⟨0, none, some 24, [goodEvent]⟩], [], sampleRes, id, [goodDerive],
    HostFn.knownIn HostFn.bareFile 9, [goodBody],
    [⟨some (184, goodArgs, []), some (201, goodSig ['f']), some (balanceBody 212), some (168, chars! "  "),
        [(127, oldUse), (155, goodUse)]⟩,
      ⟨none, some (251, goodSig ['h']), some (balanceBody 262), some (168, chars! "  "),
        [(127, oldUse), (155, goodUse)]⟩]⟩

/-- The ranges of the edits. Both tests want the import at 168 and the deletion of the `use` item. -/
example : (migrate goodToks (fun _ => some none) goodFile).map (List.map fun e => (e.start, e.stop)) =
    some [(0, 0), (24, 24), (25, 49), (49, 62), (49, 49), (93, 113), (184, 199), (205, 211), (221, 228),
      (168, 168), (127, 155), (255, 261), (271, 278)] := by decide +kernel

/-- The places of the file. -/
def goodSites : List Site :=
  [.point 0, .point 24, .event goodEvent, .derive goodDerive, .body goodBody, .use_ 127 oldUse,
    .use_ 155 goodUse, .point 168, .testAttr 184 goodArgs [], .testSig 201 (goodSig ['f']),
    .testBody (balanceBody 212), .testSig 251 (goodSig ['h']), .testBody (balanceBody 262)]

theorem goodSites_all (s : Site) (h : IsSite goodFile s) : s ∈ goodSites := by
  cases s <;> simp [IsSite, goodFile] at h <;> simp [goodSites] <;> grind

theorem pairwise_apart {l : List Site} (h : l.Pairwise fun s t => s.range.2 ≤ t.range.1) {s t : Site}
    (hs : s ∈ l) (ht : t ∈ l) (hne : s ≠ t) : s.range.2 ≤ t.range.1 ∨ t.range.2 ≤ s.range.1 := by
  induction l with
  | nil => cases hs
  | cons e l ih =>
    rw [List.pairwise_cons] at h
    rcases List.mem_cons.1 hs with h1 | h1
    · rcases List.mem_cons.1 ht with h2 | h2
      · exact absurd (h1.trans h2.symm) hne
      · rw [h1]
        exact Or.inl (h.1 t h2)
    · rcases List.mem_cons.1 ht with h2 | h2
      · rw [h2]
        exact Or.inr (h.1 s h1)
      · exact ih h.2 h1 h2

theorem not_inGap {text : List Char} {n m : Nat} {a b : List Char}
    (h : Verif.Ir.Token.splitAt text n = some (a, b))
    (hm : m < n ∨ n + bytes (b.takeWhile Verif.Analyzer.isBlank) ≤ m) : ¬ InGap text n m := by
  rintro ⟨a', w, b', rfl, rfl, hw, h1, h2⟩
  rw [Verif.Ir.Token.splitAt_spec _ a' (w ++ b') (by simp)] at h
  have h3 := Option.some.inj h
  have hb : b = w ++ b' := (congrArg Prod.snd h3).symm
  rw [hb, List.takeWhile_append_of_pos hw, bytes_append] at hm
  omega

/-- The hypotheses of `C112_disjoint_partial` hold for it. -/
example : FileWf goodToks ∧ (∀ l, (goodFile.perm l).Perm l) ∧ (∀ s, IsSite goodFile s → SiteOk goodFile s) ∧
    SitesApart goodFile ∧ (∀ x ∈ steps goodFile, x.text = [] → TokBoundary goodToks x.stop) ∧
    ∀ x ∈ steps goodFile, ∀ y ∈ steps goodFile, x ≠ y → x.text = [] →
      ¬ InGap (fileText goodToks) x.stop y.start := by
  refine ⟨⟨by decide +kernel, by decide +kernel⟩, fun l => List.Perm.refl _, ?_, ?_, ?_, ?_⟩
  · intro s hs
    have := goodSites_all s hs
    simp only [goodSites, List.mem_cons, List.not_mem_nil, or_false] at this
    rcases this with rfl | rfl | rfl | rfl | rfl | rfl | rfl | rfl | rfl | rfl | rfl | rfl | rfl
    · trivial
    · trivial
    · simp [SiteOk, goodEvent]
    · simp [SiteOk, AttrRanges, goodDerive]
    · intro p e he
      have hl : (HostFn.reachedList goodFile.known goodBody).map Prod.snd =
          [goodBody] ++ goodBody.children ++ goodBody.children.flatMap HostFn.Expr.children := by rfl
      have : e ∈ (HostFn.reachedList goodFile.known goodBody).map Prod.snd :=
        List.mem_map.2 ⟨(p, e), HostFn.mem_reachedList.2 he, rfl⟩
      rw [hl] at this
      simp only [goodBody, HostFn.Expr.children, List.flatMap_cons, List.flatMap_nil, List.append_nil,
        List.mem_append, List.mem_cons, List.not_mem_nil, or_false] at this
      rcases this with (rfl | rfl) | rfl | rfl
      · simp [HostFn.RangesOk, HostFn.Expr.start, HostFn.Expr.stop]
      · simp [HostFn.RangesOk, HostFn.Expr.start, HostFn.Expr.stop, HostFn.opaqueExpr]
      · simp [HostFn.RangesOk, HostFn.Expr.start, HostFn.Expr.stop, HostFn.calleePath, HostFn.seg]
        decide
      · simp [HostFn.RangesOk, HostFn.opaqueExpr]
    · refine ⟨by simp [oldUse, Imports.Tree.Commas], ?_, ?_⟩
      · simp [oldUse, Imports.Tree.Plain, Imports.Deprecated]
      · simp [oldUse, Imports.Tree.NoClash]
    · refine ⟨by simp [goodUse, Imports.Tree.Commas], ?_, ?_⟩
      · simp [goodUse, Imports.Tree.Plain, Imports.Deprecated]
      · simp [goodUse, Imports.Tree.NoClash]
    · trivial
    · refine ⟨by simp [Once, goodArgs], trivial, ?_, ?_, fun _ => ?_⟩
      · simp [Spaced, goodArgs, TestFn.Blank]
      · simp [TestFn.Blank]
      · simp [goodArgs, gone]
    · trivial
    · exact balanceBody_ok 212
    · trivial
    · exact balanceBody_ok 262
  · intro s t hs ht hne
    refine pairwise_apart (l := goodSites) ?_ (goodSites_all s hs) (goodSites_all t ht) hne
    have : goodSites.map Site.range = [(0, 0), (24, 24), (25, 48), (49, 61), (79, 118), (127, 154),
        (155, 168), (168, 168), (184, 199), (205, 211), (212, 233), (255, 261), (262, 283)] := by
      decide +kernel
    rw [← List.pairwise_map (f := Site.range) (R := fun a b : Nat × Nat => a.2 ≤ b.1), this]
    decide
  · have key : ∀ x ∈ steps goodFile, x.text = [] →
        (List.range (goodToks.length + 1)).any
          (fun i => x.stop == bytes (fileText (goodToks.take i))) = true := by decide +kernel
    intro x hx ht
    have := key x hx ht
    rw [List.any_eq_true] at this
    obtain ⟨i, _, h⟩ := this
    exact ⟨goodToks.take i, goodToks.drop i, (List.take_append_drop ..).symm, by simpa using h⟩
  · have key : ∀ x ∈ steps goodFile, ∀ y ∈ steps goodFile, x ≠ y → x.text = [] →
        ((Verif.Ir.Token.splitAt (fileText goodToks) x.stop).any fun p => decide (y.start < x.stop ∨
          x.stop + bytes (p.2.takeWhile Verif.Analyzer.isBlank) ≤ y.start)) = true := by decide +kernel
    intro x hx y hy hne ht
    have := key x hx y hy hne ht
    rw [Option.any_eq_true] at this
    obtain ⟨⟨a, b⟩, h1, h2⟩ := this
    exact not_inGap h1 (by simpa using h2)

end Verif.Migrate.Whole
