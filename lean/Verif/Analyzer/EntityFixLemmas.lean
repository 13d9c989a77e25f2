import Verif.Analyzer.EntityFix
import Verif.Analyzer.EntityOrderProps
import Verif.Analyzer.DupProps

/-!
# Lemmas for C111: kinds of written attributes and the main attribute of an item
-/

namespace Verif.Analyzer.EntityFix

open Verif.Ir Verif.Analyzer

/-! ## Places in lists -/

theorem at_split {l : List α} {i : Nat} {w : α} :
    l[i]? = some w ↔ ∃ pre post, l = pre ++ w :: post ∧ pre.length = i := by
  constructor
  · intro h
    obtain ⟨hl, he⟩ := List.getElem?_eq_some_iff.1 h
    refine ⟨l.take i, l.drop (i + 1), ?_, by simp; omega⟩
    rw [← he, List.getElem_cons_drop, List.take_append_drop]
  · rintro ⟨pre, post, rfl, rfl⟩
    simp

theorem split_unique {pre post pre' post' : List α} {w w' : α}
    (h : pre ++ w :: post = pre' ++ w' :: post') (hl : pre.length = pre'.length) :
    pre = pre' ∧ w = w' ∧ post = post' := by
  obtain ⟨h1, h2⟩ := List.append_inj h hl
  injection h2 with h2 h3
  exact ⟨h1, h2, h3⟩

theorem set_split (pre post : List α) (w x : α) :
    (pre ++ w :: post).set pre.length x = pre ++ x :: post := by simp

theorem erase_split (pre post : List α) (w : α) :
    (pre ++ w :: post).eraseIdx pre.length = pre ++ post := by
  rw [List.eraseIdx_append_of_length_le (Nat.le_refl _)]; simp

/-! ## Kinds -/

/-- The kind by which the code reads an attribute is that of the attribute as written. -/
theorem kind_cast (segments : List String) (hasTree : Bool) (args : List Arg) (f : Form)
    (hs : (∃ c n, segments = [c, n] ∧ f = .path (MacroKind.ofPath c n)) ∨
      (segments.length > 2 ∧ f = .path .unknown) ∨ (segments.length = 1 ∧ f = .ink hasTree)) :
    (castKind segments hasTree args).1 = Written.kind ⟨f, args.map (·.kind)⟩ := by
  rcases hs with ⟨c, n, rfl, rfl⟩ | ⟨hl, rfl⟩ | ⟨hl, rfl⟩
  · rfl
  · match segments, hl with
    | _ :: _ :: _ :: _, _ => rfl
  · match segments, hl with
    | [s], _ =>
      have hm : ∀ l : List Arg, (Util.sortBy (fun a => a.kind.sortOrder) l).map (·.kind) =
          Util.sortBy ArgKind.sortOrder (l.map (·.kind)) := by
        have hi : ∀ (x : Arg) (l : List Arg),
            (Util.insertBy (fun a => a.kind.sortOrder) x l).map (·.kind) =
              Util.insertBy ArgKind.sortOrder x.kind (l.map (·.kind)) := by
          intro x l
          induction l with
          | nil => rfl
          | cons y ys ih =>
            simp only [Util.insertBy, List.map_cons]
            split
            · rfl
            · simp [ih]
        intro l
        induction l with
        | nil => rfl
        | cons x xs ih => simp only [Util.sortBy, List.map_cons, hi, ih]
      simp only [castKind, Written.kind, ← hm, List.head?_map]
      cases (Util.sortBy (fun a : Arg => a.kind.sortOrder) args).head? <;> simp

theorem ink_kind {t : Bool} {l : List ArgKind} {k : ArgKind}
    (h1 : ∀ y ∈ l, k.sortOrder ≤ y.sortOrder)
    (h2 : (l.filter fun y => y.sortOrder == k.sortOrder).head? = some k) :
    Written.kind ⟨.ink t, l⟩ = .arg k := by
  unfold Written.kind
  dsimp only
  have hs := Util.sortBy_stable ArgKind.sortOrder l k.sortOrder
  rw [← hs] at h2
  cases hh : Util.sortBy ArgKind.sortOrder l with
  | nil => rw [hh] at h2; exact absurd h2 (by simp)
  | cons x xs =>
    have hsort := Util.sortBy_sorted ArgKind.sortOrder l
    rw [hh] at hsort h2
    have hx : x ∈ l := Util.mem_sortBy.1 (by rw [hh]; exact List.mem_cons_self)
    have hk : k ∈ x :: xs :=
      (List.mem_filter.1 (List.mem_of_head? h2)).1
    have hle : x.sortOrder ≤ k.sortOrder := by
      rcases List.mem_cons.1 hk with rfl | hk
      · exact Nat.le_refl _
      · exact (List.pairwise_cons.1 hsort).1 k hk
    have heq : x.sortOrder = k.sortOrder := Nat.le_antisymm hle (h1 x hx)
    rw [List.filter_cons, if_pos (by simp [heq])] at h2
    have : x = k := by simpa using h2
    subst this
    rfl

theorem ink_kind_inv {t : Bool} {l : List ArgKind} {k : ArgKind} (hl : l ≠ [])
    (h : Written.kind ⟨.ink t, l⟩ = .arg k) :
    (∀ y ∈ l, k.sortOrder ≤ y.sortOrder) ∧
    (l.filter fun y => y.sortOrder == k.sortOrder).head? = some k := by
  unfold Written.kind at h
  dsimp only at h
  rw [← Util.sortBy_stable]
  cases hh : Util.sortBy ArgKind.sortOrder l with
  | nil =>
    have := Util.sortBy_length ArgKind.sortOrder l
    rw [hh] at this
    exact absurd (List.length_eq_zero_iff.1 this.symm) hl
  | cons x xs =>
    rw [hh] at h
    have : x = k := by simpa using h
    subst this
    have hsort := Util.sortBy_sorted ArgKind.sortOrder l
    rw [hh] at hsort
    refine ⟨fun y hy => ?_, by simp⟩
    have hy : y ∈ Util.sortBy ArgKind.sortOrder l := Util.mem_sortBy.2 hy
    rw [hh] at hy
    rcases List.mem_cons.1 hy with rfl | hy
    · exact Nat.le_refl _
    · exact (List.pairwise_cons.1 hsort).1 y hy

theorem ink_kind_exists (t : Bool) {l : List ArgKind} (hl : l ≠ []) :
    ∃ k ∈ l, Written.kind ⟨.ink t, l⟩ = .arg k := by
  unfold Written.kind
  dsimp only
  cases hh : Util.sortBy ArgKind.sortOrder l with
  | nil =>
    have := Util.sortBy_length ArgKind.sortOrder l
    rw [hh] at this
    exact absurd (List.length_eq_zero_iff.1 this.symm) hl
  | cons x xs =>
    exact ⟨x, Util.mem_sortBy.1 (by rw [hh]; exact List.mem_cons_self), rfl⟩

theorem ink_nil (t : Bool) : ¬ Known (Written.kind ⟨.ink t, []⟩) := by
  cases t <;> decide

theorem so_le (k : ArgKind) (h : k ≠ .unknown) : k.sortOrder ≤ 1 := by
  cases k <;> first | decide | exact absurd rfl h

theorem prio_arg (k : ArgKind) (h : k ≠ .unknown) : attrPriority (.arg k) = 1 + k.sortOrder := by
  cases k <;> first | rfl | exact absurd rfl h

theorem prio_pos (k : ArgKind) : 1 ≤ attrPriority (.arg k) := by cases k <;> decide

theorem prio_le (k : AttrKind) : attrPriority k ≤ 2 := by
  have : ∀ k ∈ AttrKind.all, attrPriority k ≤ 2 := by decide
  exact this k k.mem_all

theorem known_of_so {k : ArgKind} (h : k.sortOrder ≤ 1) : k ≠ .unknown := by
  rintro rfl; exact absurd h (by decide)

/-- The arguments of a known attribute have no better priority than the attribute. -/
theorem kind_best {w : Written} {k : ArgKind} (hk : k ∈ w.args) (hu : k ≠ .unknown)
    (hp : w.kind = .macro .unknown → w.args = []) :
    Known w.kind ∧ attrPriority w.kind ≤ attrPriority (.arg k) := by
  obtain ⟨f, l⟩ := w
  cases f with
  | path m =>
    refine ⟨⟨fun e => ?_, by simp [Written.kind]⟩, Nat.zero_le _⟩
    have := hp e
    rw [this] at hk
    exact absurd hk (by simp)
  | ink t =>
    have hl : l ≠ [] := by rintro rfl; exact absurd hk (by simp)
    obtain ⟨k', hk', he⟩ := ink_kind_exists t hl
    have h1 := (ink_kind_inv hl he).1 k hk
    have h2 := so_le k hu
    have hu' : k' ≠ .unknown := known_of_so (by omega)
    rw [he]
    refine ⟨⟨by simp, by simpa using hu'⟩, ?_⟩
    rw [prio_arg _ hu, prio_arg _ hu']
    omega

/-- With fewer arguments an attribute does not get a better priority. -/
theorem kind_shrink {f : Form} {l l' : List ArgKind} (hs : ∀ k ∈ l', k ∈ l)
    (hk : Known (Written.kind ⟨f, l'⟩)) :
    Known (Written.kind ⟨f, l⟩) ∧
      attrPriority (Written.kind ⟨f, l⟩) ≤ attrPriority (Written.kind ⟨f, l'⟩) := by
  cases f with
  | path m => exact ⟨hk, Nat.le_refl _⟩
  | ink t =>
    have hl : l' ≠ [] := by rintro rfl; exact ink_nil t hk
    obtain ⟨k', hk', he⟩ := ink_kind_exists t hl
    rw [he] at hk ⊢
    have hu : k' ≠ .unknown := fun e => hk.2 (by rw [e])
    have hne : l ≠ [] := List.ne_nil_of_mem (hs k' hk')
    refine kind_best (w := ⟨.ink t, l⟩) (hs k' hk') hu (fun e => ?_)
    obtain ⟨_, _, he'⟩ := ink_kind_exists t hne
    rw [he'] at e
    exact absurd e (by simp)

/-- Removing an argument that does not give the attribute its kind leaves the kind. -/
theorem kind_remove {f : Form} {as bs : List ArgKind} {k : ArgKind}
    (h : Written.kind ⟨f, as ++ k :: bs⟩ ≠ .arg k ∨ k ∈ as) :
    Written.kind ⟨f, as ++ bs⟩ = Written.kind ⟨f, as ++ k :: bs⟩ := by
  cases f with
  | path m => rfl
  | ink t =>
    have hl : as ++ k :: bs ≠ [] := by simp
    obtain ⟨k', hk', he⟩ := ink_kind_exists t hl
    obtain ⟨h1, h2⟩ := ink_kind_inv hl he
    rw [he]
    refine ink_kind (fun y hy => h1 y ?_) ?_
    · rcases List.mem_append.1 hy with hy | hy
      · exact List.mem_append_left _ hy
      · exact List.mem_append_right _ (List.mem_cons_of_mem _ hy)
    · rw [List.filter_append] at h2 ⊢
      rw [List.filter_cons] at h2
      cases hf : as.filter (fun y => y.sortOrder == k'.sortOrder) with
      | cons x xs => rw [hf] at h2; simpa using h2
      | nil =>
        rw [hf] at h2
        split at h2
        · rename_i hc
          have : k = k' := by simpa using h2
          subst this
          rcases h with h | h
          · exact absurd he h
          · have : k ∈ as.filter (fun y => y.sortOrder == k.sortOrder) :=
              List.mem_filter.2 ⟨h, by simp⟩
            rw [hf] at this
            exact absurd this (by simp)
        · simpa using h2

/-- Moving the argument that gives the attribute its kind to the front leaves the kind. -/
theorem kind_move {f : Form} {as bs : List ArgKind} {k : ArgKind}
    (h : Written.kind ⟨f, as ++ k :: bs⟩ = .arg k) :
    Written.kind ⟨f, k :: (as ++ bs)⟩ = .arg k := by
  cases f with
  | path m => exact absurd h (by simp [Written.kind])
  | ink t =>
    obtain ⟨h1, -⟩ := ink_kind_inv (by simp) h
    refine ink_kind (fun y hy => h1 y ?_) (by simp)
    simp only [List.mem_cons, List.mem_append] at hy ⊢
    rcases hy with hy | hy | hy
    · exact .inr (.inl hy)
    · exact .inl hy
    · exact .inr (.inr hy)

/-- An entity argument in front gives the attribute its kind. -/
theorem kind_insert {t : Bool} {l : List ArgKind} {k : ArgKind} (h : k.sortOrder = 0) :
    Written.kind ⟨.ink t, k :: l⟩ = .arg k :=
  ink_kind (fun y _ => by omega) (by simp)

/-- Replacing the first `extension`, if it gives the attribute its kind. -/
theorem kind_rename {f : Form} {as bs : List ArgKind} (hn : ArgKind.extension ∉ as)
    (h : Written.kind ⟨f, as ++ .extension :: bs⟩ = .arg .extension) :
    Written.kind ⟨f, as ++ .function :: bs⟩ = .arg .function := by
  cases f with
  | path m => exact absurd h (by simp [Written.kind])
  | ink t =>
    obtain ⟨-, h2⟩ := ink_kind_inv (by simp) h
    refine ink_kind (fun y _ => Nat.zero_le _) ?_
    rw [List.filter_append] at h2 ⊢
    have e : (fun y : ArgKind => y.sortOrder == ArgKind.function.sortOrder) =
        fun y => y.sortOrder == ArgKind.extension.sortOrder := rfl
    rw [e]
    cases hf : as.filter (fun y => y.sortOrder == ArgKind.extension.sortOrder) with
    | nil => rw [List.filter_cons, if_pos (by decide)]; rfl
    | cons x xs =>
      rw [hf] at h2
      have hx : x = .extension := by simpa using h2
      have : x ∈ as := (List.mem_filter.1 (by rw [hf]; exact List.mem_cons_self)).1
      exact absurd (hx ▸ this) hn

/-! ## The main attribute -/

/-- In `pre ++ w :: post` the attribute `w` is the main attribute. -/
def Main (pre : List Written) (w : Written) (post : List Written) : Prop :=
  Known w.kind ∧
  (∀ a ∈ pre, Known a.kind → attrPriority w.kind < attrPriority a.kind) ∧
  ∀ a ∈ post, Known a.kind → attrPriority w.kind ≤ attrPriority a.kind

theorem main_iff (pre : List Written) (w : Written) (post : List Written) :
    Main pre w post ↔
      IsPrimary ((pre ++ w :: post).map Written.view) pre.length w.view := by
  constructor
  · rintro ⟨h1, h2, h3⟩
    refine ⟨by simp, h1, fun i a ha hk hi => ?_, fun i a ha hk hi => ?_⟩
    · rw [List.map_append, List.getElem?_append_left (by simpa using hi)] at ha
      rw [List.getElem?_map] at ha
      obtain ⟨b, hb, rfl⟩ := Option.map_eq_some_iff.1 ha
      exact h2 b (List.mem_of_getElem? hb) hk
    · rw [List.map_append, List.getElem?_append_right (by simp; omega)] at ha
      rw [List.map_cons, List.getElem?_cons] at ha
      rw [if_neg (by simp; omega), List.getElem?_map] at ha
      obtain ⟨b, hb, rfl⟩ := Option.map_eq_some_iff.1 ha
      exact h3 b (List.mem_of_getElem? hb) hk
  · intro h
    refine ⟨h.known, fun a ha hk => ?_, fun a ha hk => ?_⟩
    · obtain ⟨i, hi⟩ := List.mem_iff_getElem?.1 ha
      have hl := (List.getElem?_eq_some_iff.1 hi).1
      refine h.before i a.view ?_ hk (by omega)
      rw [List.map_append, List.getElem?_append_left (by simpa using hl), List.getElem?_map, hi]
      rfl
    · obtain ⟨i, hi⟩ := List.mem_iff_getElem?.1 ha
      refine h.after (pre.length + 1 + i) a.view ?_ hk (by omega)
      rw [List.map_append, List.getElem?_append_right (by simp; omega), List.map_cons,
        List.length_map, show pre.length + 1 + i - pre.length = i + 1 by omega,
        List.getElem?_cons_succ, List.getElem?_map, hi]
      rfl

theorem main_of_primary {item : List Written} {p : Nat} {P : AttrV}
    (h : IsPrimary (item.map Written.view) p P) :
    ∃ pre w post, item = pre ++ w :: post ∧ pre.length = p ∧ P = w.view ∧ Main pre w post := by
  have ha := h.at_
  rw [List.getElem?_map] at ha
  obtain ⟨w, hw, rfl⟩ := Option.map_eq_some_iff.1 ha
  obtain ⟨pre, post, rfl, rfl⟩ := at_split.1 hw
  exact ⟨pre, w, post, rfl, rfl, rfl, (main_iff _ _ _).2 h⟩

/-- The main attribute stays the main attribute when it keeps its kind (or gets a better one) and
the others have no better kinds than before. -/
theorem main_keep {pre post pre' post' : List Written} {w w' : Written} (h : Main pre w post)
    (hw : Known w'.kind ∧ attrPriority w'.kind ≤ attrPriority w.kind)
    (h1 : ∀ a ∈ pre', Known a.kind → ∃ b ∈ pre, Known b.kind ∧
      attrPriority b.kind ≤ attrPriority a.kind)
    (h2 : ∀ a ∈ post', Known a.kind → ∃ b ∈ pre ++ post, Known b.kind ∧
      attrPriority b.kind ≤ attrPriority a.kind) : Main pre' w' post' := by
  refine ⟨hw.1, fun a ha hk => ?_, fun a ha hk => ?_⟩
  · obtain ⟨b, hb, hkb, hle⟩ := h1 a ha hk
    have := h.2.1 b hb hkb
    omega
  · obtain ⟨b, hb, hkb, hle⟩ := h2 a ha hk
    rcases List.mem_append.1 hb with hb | hb
    · have := h.2.1 b hb hkb
      omega
    · have := h.2.2 b hb hkb
      omega

theorem main_unique {pre post pre' post' : List Written} {w w' : Written} (h : Main pre w post)
    (h' : Main pre' w' post') (he : pre ++ w :: post = pre' ++ w' :: post') :
    pre = pre' ∧ w = w' ∧ post = post' := by
  refine split_unique he ?_
  have h1 := (C43_primary _ _ _).2 ((main_iff _ _ _).1 h)
  have h2 := (C43_primary _ _ _).2 ((main_iff _ _ _).1 h')
  rw [he, h2] at h1
  exact (congrArg Prod.snd (Option.some.inj h1)).symm

theorem wf_view (w : Written) : w.view.Wf := by
  intro k hk hu
  obtain ⟨f, l⟩ := w
  cases f with
  | path m => exact absurd hk (by simp [Written.view, Written.kind])
  | ink t =>
    by_cases hl : l = []
    · subst hl
      have : Written.kind ⟨.ink t, []⟩ = .arg k := hk
      have hkn := ink_nil t
      rw [this] at hkn
      exact absurd ⟨by simp, by simpa using hu⟩ hkn
    · obtain ⟨k', hk', he⟩ := ink_kind_exists t hl
      have : AttrKind.arg k' = .arg k := he.symm.trans hk
      injection this with this
      exact this ▸ hk'

end Verif.Analyzer.EntityFix
