import Verif.Ir.ResolveProps

/-!
# C75: item resolution finds the item that the path denotes

The specification says, without any search, which module and which item a path denotes in a crate.
What resolution finds is denoted by the path; and when the names of the crate are unambiguous, a
path that denotes an item by the steps that the code follows is not reported as unknown. The
negations show the steps of the language that the code does not follow.
-/

namespace Verif.Ir.Resolve

/-! ## Specification -/

/-- The steps by which a path may be followed: whether the modules inside of a module can be
entered by name, whether `super` can be repeated, and whether an import of `p` is looked into when
following the path `full`. -/
structure Rules where
  enters : List Nat → Prop
  repeats : Prop
  follows : Path → Path → Prop

/-- The steps of the language. -/
def Rules.rust : Rules := ⟨fun _ => True, True, fun _ _ => True⟩

/-- The steps of the language that the code follows: modules are only entered from the file,
`super` is not repeated, and an import is only looked into when it is qualified and differs from
the path being followed. -/
def Rules.code : Rules := ⟨fun m => m = [], False, fun full p => p ≠ full ∧ 2 ≤ p.segs.length⟩

/-- The import `u` makes the name `s` stand for the path `p`: by an alias, by the last segment, or
by a glob. -/
inductive Imports (u : Use) (s : String) : Path → Prop
  | alias_ : u.alias_ = some s → Imports u s u.path
  | last : u.alias_ = none → u.path.segs.getLast? = some s → Imports u s u.path
  | glob (init : List String) : u.alias_ = none → u.path.segs = init ++ ["*"] →
      Imports u s ⟨u.path.leading, init ++ [s]⟩

mutual

/-- Seen from the module `m`, the path denotes the module `m'`: from the crate root for a leading
`::` (as in the 2015 edition) or `crate`, from the module itself for `self`, from its parent for
`super`, and else from what the first name denotes. -/
inductive Leads (R : Rules) (root : Mod) : List Nat → Path → List Nat → Prop
  | global (m s ss m1 m') : Named R root ⟨true, s :: ss⟩ [] s m1 →
      Walks R root ⟨true, s :: ss⟩ m1 ss m' → Leads R root m ⟨true, s :: ss⟩ m'
  | crate (m ss m') : Walks R root ⟨false, "crate" :: ss⟩ [] ss m' →
      Leads R root m ⟨false, "crate" :: ss⟩ m'
  | self (m ss m') : Walks R root ⟨false, "self" :: ss⟩ m ss m' →
      Leads R root m ⟨false, "self" :: ss⟩ m'
  | super (m i ss m') : Walks R root ⟨false, "super" :: ss⟩ m ss m' →
      Leads R root (m ++ [i]) ⟨false, "super" :: ss⟩ m'
  | name (m s ss m1 m') : s ≠ "crate" → s ≠ "self" → s ≠ "super" →
      Named R root ⟨false, s :: ss⟩ m s m1 → Walks R root ⟨false, s :: ss⟩ m1 ss m' →
      Leads R root m ⟨false, s :: ss⟩ m'

/-- The remaining names of the path `full` lead from the module `m` to the module `m'`. -/
inductive Walks (R : Rules) (root : Mod) : Path → List Nat → List String → List Nat → Prop
  | nil (full m) : Walks R root full m [] m
  | cons (full m s ss m1 m') : Named R root full m s m1 → Walks R root full m1 ss m' →
      Walks R root full m (s :: ss) m'
  | super (full m i ss m') : R.repeats → Walks R root full m ss m' →
      Walks R root full (m ++ [i]) ("super" :: ss) m'

/-- In the module `m`, the name `s` denotes the module `m'`: a module declared there, or one
imported there. -/
inductive Named (R : Rules) (root : Mod) : Path → List Nat → String → List Nat → Prop
  | child (full m n i c) : R.enters m → root.at? m = some n → n.mods[i]? = some c →
      Named R root full m c.name (m ++ [i])
  | use (full m n u s p m') : root.at? m = some n → u ∈ n.uses → Imports u s p →
      R.follows full p → Leads R root m p m' → Named R root full m s m'

end

/-- The module that the qualifier of an item path denotes: the module itself if there is none (the
crate root for a leading `::`). -/
inductive Qualifies (R : Rules) (root : Mod) (m : List Nat) (leading : Bool) :
    List String → List Nat → Prop
  | none : leading = false → Qualifies R root m leading [] m
  | global : leading = true → Qualifies R root m leading [] []
  | some (q m') : q ≠ [] → Leads R root m ⟨leading, q⟩ m' → Qualifies R root m leading q m'

/-- Seen from the module `m`, the path denotes the item `x` (its module and name): one declared in
the module that the qualifier denotes, or one imported there. -/
inductive Denotes (R : Rules) (root : Mod) : List Nat → Path → List Nat × String → Prop
  | item (m l q name m' n) : Qualifies R root m l q m' → root.at? m' = some n → name ∈ n.items →
      Denotes R root m ⟨l, q ++ [name]⟩ (m', name)
  | use (m l q name m' n u p x) : Qualifies R root m l q m' → root.at? m' = some n → u ∈ n.uses →
      Imports u name p → R.follows ⟨l, q ++ [name]⟩ p → Denotes R root m' p x →
      Denotes R root m ⟨l, q ++ [name]⟩ x

/-- No name of the crate denotes two modules, and no module declares an alias twice. -/
structure Unambiguous (root : Mod) : Prop where
  modules : ∀ full m s m1 m2, Named .rust root full m s m1 → Named .rust root full m s m2 → m1 = m2
  aliases : ∀ m n, root.at? m = some n → ∀ u1 ∈ n.uses, ∀ u2 ∈ n.uses, ∀ s,
    u1.alias_ = some s → u2.alias_ = some s → u1 = u2

/-! ## Lemmas -/

theorem mem_usesAt {root : Mod} {m : List Nat} {u : Use} :
    u ∈ usesAt root m ↔ ∃ n, root.at? m = some n ∧ u ∈ n.uses := by
  unfold usesAt
  cases h : root.at? m <;> simp

theorem hasItem_iff {root : Mod} {m : List Nat} {s : String} :
    hasItem root m s = true ↔ ∃ n, root.at? m = some n ∧ s ∈ n.items := by
  unfold hasItem
  cases h : root.at? m <;> simp

theorem imports_of_candidates {name : String} {uses : List Use} {p : Path}
    (h : p ∈ candidates name uses) : ∃ u ∈ uses, Imports u name p := by
  obtain ⟨u, hu, hlen, hl, hc⟩ := mem_candidates h
  refine ⟨u, hu, ?_⟩
  rcases hc with ⟨ha, rfl⟩ | ⟨ha, hs, rfl⟩ | ⟨ha, hs, hp⟩
  · exact .alias_ ha
  · exact .last ha hs
  · obtain ⟨pl, ps⟩ := p
    simp only at hl hp
    subst hl hp
    refine .glob _ ha ?_
    rw [List.getLast?_eq_some_iff] at hs
    obtain ⟨init, hi⟩ := hs
    rw [hi, List.dropLast_concat]

theorem candidates_length {name : String} {uses : List Use} {p : Path}
    (h : p ∈ candidates name uses) : 2 ≤ p.segs.length := by
  unfold candidates at h
  rw [List.mem_filter] at h
  simpa using h.2

theorem candidates_of_imports {name : String} {uses : List Use} {u : Use} {p : Path}
    (hu : u ∈ uses) (hi : Imports u name p) (hlen : 2 ≤ p.segs.length)
    (hal : ∀ u1 ∈ uses, ∀ u2 ∈ uses, ∀ s, u1.alias_ = some s → u2.alias_ = some s → u1 = u2) :
    p ∈ candidates name uses := by
  unfold candidates
  rw [List.mem_filter, List.mem_append]
  refine ⟨?_, by simpa using hlen⟩
  cases hi with
  | alias_ ha =>
    refine .inl ?_
    rw [Option.mem_toList, Option.map_eq_some_iff]
    cases hf : uses.reverse.find? fun u => u.alias_ == some name with
    | none =>
      rw [List.find?_eq_none] at hf
      exact absurd (by simpa using ha) (hf u (by simpa using hu))
    | some u' =>
      refine ⟨u', rfl, ?_⟩
      have h1 : u' ∈ uses := by simpa using List.mem_of_find?_eq_some hf
      have h2 : u'.alias_ = some name := by simpa using List.find?_some hf
      rw [hal u' h1 u hu name h2 ha]
  | last ha hs =>
    refine .inr ?_
    rw [List.mem_filterMap]
    refine ⟨u, by simp [hu, ha], ?_⟩
    rw [if_pos ⟨hs, .inl hlen⟩]
  | glob init ha hs =>
    refine .inr ?_
    rw [List.mem_filterMap]
    refine ⟨u, by simp [hu, ha], ?_⟩
    have hl : 2 ≤ u.path.segs.length := by
      rw [hs]
      simpa using hlen
    have hg : u.path.segs.getLast? = some "*" := by rw [hs, List.getLast?_concat]
    by_cases hn : name = "*"
    · rw [if_pos ⟨by rw [hg, hn], .inl hl⟩, hn, ← hs]
    · rw [if_neg (fun h => hn (by
        have := h.1
        rw [hg] at this
        exact (Option.some.inj this).symm)), if_pos ⟨hg, .inl hl⟩, hs, List.dropLast_concat]

theorem findMap_sound {f : α → Option (Option β)} {l : List α} {b : β}
    (h : findMap f l = some (some b)) : ∃ x ∈ l, f x = some (some b) := by
  induction l with
  | nil => simp [findMap] at h
  | cons x xs ih =>
    rw [findMap] at h
    split at h
    · simp at h
    · rename_i b' hb
      exact ⟨x, by simp, by rw [hb, h]⟩
    · obtain ⟨y, hy, hy'⟩ := ih h
      exact ⟨y, List.mem_cons_of_mem _ hy, hy'⟩

theorem findMap_complete {f : α → Option (Option β)} {l : List α}
    (h : findMap f l = some none) : ∀ x ∈ l, f x = some none := by
  induction l with
  | nil => simp
  | cons x xs ih =>
    rw [findMap] at h
    split at h
    · simp at h
    · simp at h
    · rename_i hx
      intro y hy
      rcases List.mem_cons.1 hy with rfl | hy
      · exact hx
      · exact ih h y hy

theorem childNamed_sound {root : Mod} {full : Path} {m c : List Nat} {s : String}
    (h : childNamed root m s = some c) : Named .code root full m s c := by
  unfold childNamed at h
  split at h
  · rename_i hm
    subst hm
    rw [Option.map_eq_some_iff] at h
    obtain ⟨i, hi, rfl⟩ := h
    rw [List.findIdx?_eq_some_iff_getElem] at hi
    obtain ⟨hlt, hs, _⟩ := hi
    have := Named.child (R := .code) (root := root) full [] root i (root.mods[i]) rfl rfl
      (by simp [hlt])
    rw [beq_iff_eq.1 hs] at this
    exact this
  · simp at h

/-- Induction over the three relations together. -/
theorem leads_induction {R : Rules} {root : Mod} {P : List Nat → Path → List Nat → Prop}
    {Q : Path → List Nat → List String → List Nat → Prop}
    {N : Path → List Nat → String → List Nat → Prop}
    (global : ∀ m s ss m1 m', N ⟨true, s :: ss⟩ [] s m1 → Q ⟨true, s :: ss⟩ m1 ss m' →
      P m ⟨true, s :: ss⟩ m')
    (crate : ∀ m ss m', Q ⟨false, "crate" :: ss⟩ [] ss m' → P m ⟨false, "crate" :: ss⟩ m')
    (self : ∀ m ss m', Q ⟨false, "self" :: ss⟩ m ss m' → P m ⟨false, "self" :: ss⟩ m')
    (super : ∀ m i ss m', Q ⟨false, "super" :: ss⟩ m ss m' →
      P (m ++ [i]) ⟨false, "super" :: ss⟩ m')
    (name : ∀ m s ss m1 m', s ≠ "crate" → s ≠ "self" → s ≠ "super" → N ⟨false, s :: ss⟩ m s m1 →
      Q ⟨false, s :: ss⟩ m1 ss m' → P m ⟨false, s :: ss⟩ m')
    (nil : ∀ full m, Q full m [] m)
    (cons : ∀ full m s ss m1 m', N full m s m1 → Q full m1 ss m' → Q full m (s :: ss) m')
    (supers : ∀ full m i ss m', R.repeats → Q full m ss m' → Q full (m ++ [i]) ("super" :: ss) m')
    (child : ∀ full m n i c, R.enters m → root.at? m = some n → n.mods[i]? = some c →
      N full m c.name (m ++ [i]))
    (use : ∀ full m n u s p m', root.at? m = some n → u ∈ n.uses → Imports u s p →
      R.follows full p → Leads R root m p m' → P m p m' → N full m s m') :
    (∀ {m p m'}, Leads R root m p m' → P m p m') ∧
    (∀ {full m ss m'}, Walks R root full m ss m' → Q full m ss m') ∧
    (∀ {full m s m'}, Named R root full m s m' → N full m s m') := by
  refine ⟨fun {m p m'} h => ?_, fun {full m ss m'} h => ?_, fun {full m s m'} h => ?_⟩
  · exact Leads.rec (motive_1 := fun a b c _ => P a b c) (motive_2 := fun a b c d _ => Q a b c d)
      (motive_3 := fun a b c d _ => N a b c d)
      (fun m s ss m1 m' _ _ => global m s ss m1 m') (fun m ss m' _ => crate m ss m')
      (fun m ss m' _ => self m ss m') (fun m i ss m' _ => super m i ss m')
      (fun m s ss m1 m' n1 n2 n3 _ _ => name m s ss m1 m' n1 n2 n3) nil
      (fun full m s ss m1 m' _ _ => cons full m s ss m1 m')
      (fun full m i ss m' hr _ => supers full m i ss m' hr) child
      (fun full m n u s p m' h1 h2 h3 h4 h5 => use full m n u s p m' h1 h2 h3 h4 h5) h
  · exact Walks.rec (motive_1 := fun a b c _ => P a b c) (motive_2 := fun a b c d _ => Q a b c d)
      (motive_3 := fun a b c d _ => N a b c d)
      (fun m s ss m1 m' _ _ => global m s ss m1 m') (fun m ss m' _ => crate m ss m')
      (fun m ss m' _ => self m ss m') (fun m i ss m' _ => super m i ss m')
      (fun m s ss m1 m' n1 n2 n3 _ _ => name m s ss m1 m' n1 n2 n3) nil
      (fun full m s ss m1 m' _ _ => cons full m s ss m1 m')
      (fun full m i ss m' hr _ => supers full m i ss m' hr) child
      (fun full m n u s p m' h1 h2 h3 h4 h5 => use full m n u s p m' h1 h2 h3 h4 h5) h
  · exact Named.rec (motive_1 := fun a b c _ => P a b c) (motive_2 := fun a b c d _ => Q a b c d)
      (motive_3 := fun a b c d _ => N a b c d)
      (fun m s ss m1 m' _ _ => global m s ss m1 m') (fun m ss m' _ => crate m ss m')
      (fun m ss m' _ => self m ss m') (fun m i ss m' _ => super m i ss m')
      (fun m s ss m1 m' n1 n2 n3 _ _ => name m s ss m1 m' n1 n2 n3) nil
      (fun full m s ss m1 m' _ _ => cons full m s ss m1 m')
      (fun full m i ss m' hr _ => supers full m i ss m' hr) child
      (fun full m n u s p m' h1 h2 h3 h4 h5 => use full m n u s p m' h1 h2 h3 h4 h5) h

theorem weaken_all (root : Mod) :
    (∀ {m p m'}, Leads .code root m p m' → Leads .rust root m p m') ∧
    (∀ {full m ss m'}, Walks .code root full m ss m' → Walks .rust root full m ss m') ∧
    (∀ {full m s m'}, Named .code root full m s m' → Named .rust root full m s m') :=
  leads_induction
    (fun _ _ _ _ _ h1 h2 => .global _ _ _ _ _ h1 h2)
    (fun _ _ _ h1 => .crate _ _ _ h1)
    (fun _ _ _ h1 => .self _ _ _ h1)
    (fun _ _ _ _ h1 => .super _ _ _ _ h1)
    (fun _ _ _ _ _ n1 n2 n3 h1 h2 => .name _ _ _ _ _ n1 n2 n3 h1 h2)
    (fun _ _ => .nil _ _)
    (fun _ _ _ _ _ _ h1 h2 => .cons _ _ _ _ _ _ h1 h2)
    (fun _ _ _ _ _ h _ => h.elim)
    (fun _ _ n i c _ h2 h3 => .child _ _ n i c trivial h2 h3)
    (fun _ _ n u _ p _ h1 h2 h3 _ _ h5 => .use _ _ n u _ p _ h1 h2 h3 trivial h5)

theorem Leads.weaken {root : Mod} {m : List Nat} {p : Path} {m' : List Nat}
    (h : Leads .code root m p m') : Leads .rust root m p m' :=
  (weaken_all root).1 h

theorem Named.weaken {root : Mod} {p : Path} {m : List Nat} {s : String} {m' : List Nat}
    (h : Named .code root p m s m') : Named .rust root p m s m' :=
  (weaken_all root).2.2 h

/-- What a resolver of qualifiers may answer. -/
def SoundQ (root : Mod) (rec : Path → List Nat → Option (Option (List Nat))) : Prop :=
  ∀ p m m', rec p m = some (some m') → Leads .code root m p m'

theorem nextChild_sound {root : Mod} {rec : Path → List Nat → Option (Option (List Nat))}
    (hrec : SoundQ root rec) {path : Path} {m m' : List Nat} {s : String}
    (h : nextChild root rec path m s = some (some m')) : Named .code root path m s m' := by
  unfold nextChild at h
  split at h
  · rename_i c hc
    rw [← Option.some.inj (Option.some.inj h)]
    exact childNamed_sound hc
  · obtain ⟨p, hp, hf⟩ := findMap_sound h
    split at hf
    · rename_i hne
      obtain ⟨u, hu, hi⟩ := imports_of_candidates hp
      obtain ⟨n, hn, hu⟩ := mem_usesAt.1 hu
      exact .use _ _ n u s p m' hn hu hi ⟨hne, candidates_length hp⟩ (hrec _ _ _ hf)
    · simp at hf

theorem walk_sound {root : Mod} {rec : Path → List Nat → Option (Option (List Nat))}
    (hrec : SoundQ root rec) {path : Path} {ss : List String} {m m' : List Nat}
    (h : walk root rec path m ss = some (some m')) : Walks .code root path m ss m' := by
  induction ss generalizing m with
  | nil =>
    have := Option.some.inj (Option.some.inj h)
    subst this
    exact .nil _ _
  | cons s ss ih =>
    rw [walk] at h
    split at h
    · simp at h
    · simp at h
    · rename_i m1 h1
      exact .cons _ _ _ _ _ _ (nextChild_sound hrec h1) (ih h)

theorem resolveQualifier_sound (root : Mod) (fuel : Nat) :
    SoundQ root (resolveQualifier root fuel) := by
  induction fuel with
  | zero =>
    intro p m m' h
    simp [resolveQualifier] at h
  | succ fuel ih =>
    intro p m m' h
    obtain ⟨l, segs⟩ := p
    cases segs with
    | nil => simp [resolveQualifier] at h
    | cons s ss =>
      rw [resolveQualifier] at h
      simp only at h
      split at h
      · simp at h
      · simp at h
      · rename_i m1 h1
        have hw := walk_sound ih h
        unfold firstSegment at h1
        cases l with
        | true =>
          simp only [if_true] at h1
          exact .global _ _ _ _ _ (nextChild_sound ih h1) hw
        | false =>
          simp only [Bool.false_eq_true, if_false] at h1
          split at h1
          · rename_i hs
            subst hs
            rw [← Option.some.inj (Option.some.inj h1)] at hw
            exact .crate _ _ _ hw
          · rename_i n1
            split at h1
            · rename_i hs
              subst hs
              rw [← Option.some.inj (Option.some.inj h1)] at hw
              exact .self _ _ _ hw
            · rename_i n2
              split at h1
              · rename_i hs
                subst hs
                split at h1
                · simp at h1
                · rename_i hm
                  rw [← Option.some.inj (Option.some.inj h1)] at hw
                  obtain ⟨init, i, rfl⟩ := (List.eq_nil_or_concat m).resolve_left hm
                  rw [List.concat_eq_append, List.dropLast_concat] at hw
                  rw [List.concat_eq_append]
                  exact .super _ _ _ _ hw
              · rename_i n3
                exact .name _ _ _ _ _ n1 n2 n3 (nextChild_sound ih h1) hw

theorem resolveItem_sound (root : Mod) (fuel : Nat) : ∀ (path : Path) (m : List Nat)
    (x : List Nat × String), (path.leading = false ∨ 2 ≤ path.segs.length) →
    resolveItem root fuel path ⟨m, none⟩ = some (some x) → Denotes .code root m path x := by
  induction fuel with
  | zero =>
    intro path m x _ h
    simp [resolveItem] at h
  | succ fuel ih =>
    intro path m x hp h
    obtain ⟨l, segs⟩ := path
    rcases List.eq_nil_or_concat segs with rfl | ⟨q, name, rfl⟩
    · simp [resolveItem] at h
    · rw [List.concat_eq_append] at h hp ⊢
      rw [resolveItem] at h
      simp only [List.getLast?_concat, List.dropLast_concat] at h
      have hq : ∀ m', (if q = [] then some (some m)
          else resolveQualifier root fuel ⟨l, q⟩ m) = some (some m') →
          Qualifies .code root m l q m' := by
        intro m' hm
        split at hm
        · rename_i hq
          subst hq
          rw [← Option.some.inj (Option.some.inj hm)]
          refine .none ?_
          rcases hp with hp | hp
          · exact hp
          · simp at hp
        · rename_i hq
          exact .some _ _ hq (resolveQualifier_sound _ _ _ _ _ hm)
      split at h
      · simp at h
      · simp at h
      · rename_i m' hm
        have hq := hq m' hm
        split at h
        · rename_i hi
          obtain ⟨n, hn, hi⟩ := hasItem_iff.1 hi
          rw [← Option.some.inj (Option.some.inj h)]
          exact .item _ _ _ _ _ n hq hn hi
        · split at h
          · simp at h
          · rename_i y hy
            have : y = x := Option.some.inj (Option.some.inj h)
            subst this
            obtain ⟨p, hp', hf⟩ := findMap_sound hy
            split at hf
            · rename_i hne
              obtain ⟨u, hu, hi⟩ := imports_of_candidates hp'
              obtain ⟨n, hn, hu⟩ := mem_usesAt.1 hu
              exact .use _ _ _ _ _ n u p _ hq hn hu hi ⟨hne, candidates_length hp'⟩
                (ih _ _ _ (.inr (candidates_length hp')) hf)
            · simp at hf
          · simp at h

theorem Denotes.weaken {root : Mod} {m : List Nat} {p : Path} {x : List Nat × String}
    (h : Denotes .code root m p x) : Denotes .rust root m p x := by
  have hq : ∀ {m l q m'}, Qualifies .code root m l q m' → Qualifies .rust root m l q m' := by
    intro m l q m' h
    cases h with
    | none h => exact .none h
    | global h => exact .global h
    | some _ _ h1 h2 => exact .some _ _ h1 h2.weaken
  induction h with
  | item m l q name m' n h1 h2 h3 => exact .item _ _ _ _ _ n (hq h1) h2 h3
  | use m l q name m' n u p x h1 h2 h3 h4 _ _ ih =>
    exact .use _ _ _ _ _ n u p _ (hq h1) h2 h3 h4 trivial ih

/-- A search for the module `m'` that may run out of fuel. -/
def FindsOrOut (r : Option (Option (List Nat))) (m' : List Nat) : Prop :=
  r = none ∨ r = some (some m')

theorem named_of_found {root : Mod} (hU : Unambiguous root) {p : Path} {m : List Nat} {s : String}
    {m' : List Nat} {fuel : Nat} (h : Named .rust root p m s m')
    (key : nextChild root (resolveQualifier root fuel) p m s ≠ some none) :
    FindsOrOut (nextChild root (resolveQualifier root fuel) p m s) m' := by
  cases hr : nextChild root (resolveQualifier root fuel) p m s with
  | none => exact .inl rfl
  | some o =>
    cases o with
    | none => exact absurd hr key
    | some m2 =>
      refine .inr ?_
      rw [hU.modules p m s m2 m' (nextChild_sound (resolveQualifier_sound root fuel) hr).weaken h]

theorem complete_all (root : Mod) (hU : Unambiguous root) :
    (∀ {m p m'}, Leads .code root m p m' →
      ∀ fuel, FindsOrOut (resolveQualifier root fuel p m) m') ∧
    (∀ {full m ss m'}, Walks .code root full m ss m' →
      ∀ fuel, FindsOrOut (walk root (resolveQualifier root fuel) full m ss) m') ∧
    (∀ {full m s m'}, Named .code root full m s m' →
      ∀ fuel, FindsOrOut (nextChild root (resolveQualifier root fuel) full m s) m') := by
  refine leads_induction ?_ ?_ ?_ ?_ ?_ ?_ ?_ ?_ ?_ ?_
  · intro m s ss m1 m' h1 h2 fuel
    cases fuel with
    | zero => exact .inl rfl
    | succ fuel =>
      rw [resolveQualifier]
      simp only [firstSegment, if_true]
      rcases h1 fuel with e | e <;> rw [e]
      · exact .inl rfl
      · exact h2 fuel
  · intro m ss m' h1 fuel
    cases fuel with
    | zero => exact .inl rfl
    | succ fuel => exact h1 fuel
  · intro m ss m' h1 fuel
    cases fuel with
    | zero => exact .inl rfl
    | succ fuel => exact h1 fuel
  · intro m i ss m' h1 fuel
    cases fuel with
    | zero => exact .inl rfl
    | succ fuel =>
      rw [resolveQualifier]
      have e : firstSegment root (resolveQualifier root fuel) ⟨false, "super" :: ss⟩ (m ++ [i])
          "super" = some (some m) := by
        unfold firstSegment
        rw [if_neg (by simp), if_neg (by decide), if_neg (by decide), if_pos rfl, if_neg (by simp),
          List.dropLast_concat]
      simp only [e]
      exact h1 fuel
  · intro m s ss m1 m' n1 n2 n3 h1 h2 fuel
    cases fuel with
    | zero => exact .inl rfl
    | succ fuel =>
      rw [resolveQualifier]
      simp only [firstSegment, n1, n2, n3, if_false, Bool.false_eq_true]
      rcases h1 fuel with e | e <;> rw [e]
      · exact .inl rfl
      · exact h2 fuel
  · intro full m fuel
    exact .inr rfl
  · intro full m s ss m1 m' h1 h2 fuel
    rw [walk]
    rcases h1 fuel with e | e <;> rw [e]
    · exact .inl rfl
    · exact h2 fuel
  · intro full m i ss m' hr
    exact hr.elim
  · intro full m n i c h1 h2 h3 fuel
    refine named_of_found hU (.child _ _ n i c trivial h2 h3) ?_
    have hm : m = [] := h1
    subst hm
    have hn : root = n := Option.some.inj h2
    subst hn
    have : (childNamed root [] c.name).isSome := by
      unfold childNamed
      rw [if_pos rfl, Option.isSome_map, List.findIdx?_isSome, List.any_eq_true]
      exact ⟨c, List.mem_of_getElem? h3, by simp⟩
    obtain ⟨k, hk⟩ := Option.isSome_iff_exists.1 this
    rw [nextChild, hk]
    simp
  · intro full m n u s q m' h1 h2 h3 h4 h5 ih fuel
    refine named_of_found hU (.use _ _ n u s q m' h1 h2 h3 trivial h5.weaken) ?_
    intro hn
    unfold nextChild at hn
    split at hn
    · simp at hn
    · have hmem : q ∈ candidates s (usesAt root m) := by
        have hu : usesAt root m = n.uses := by
          unfold usesAt
          rw [h1]
        rw [hu]
        exact candidates_of_imports h2 h3 h4.2 (hU.aliases m n h1)
      have := findMap_complete hn q hmem
      rw [if_pos h4.1] at this
      rcases ih fuel with e | e <;> rw [e] at this <;> simp at this

theorem resolveItem_complete {root : Mod} (hU : Unambiguous root) {m : List Nat} {p : Path}
    {x : List Nat × String} (h : Denotes .code root m p x) :
    (p.leading = false ∨ 2 ≤ p.segs.length) → ∀ fuel,
    resolveItem root fuel p ⟨m, none⟩ ≠ some none := by
  have hq : ∀ {m l q name m'} fuel, Qualifies .code root m l q m' →
      (l = false ∨ 2 ≤ (q ++ [name]).length) →
      (if q = [] then some (some m) else resolveQualifier root fuel ⟨l, q⟩ m) = none ∨
      (if q = [] then some (some m) else resolveQualifier root fuel ⟨l, q⟩ m) = some (some m') := by
    intro m l q name m' fuel h hl
    cases h with
    | none h => exact .inr rfl
    | global h =>
      rcases hl with hl | hl
      · rw [h] at hl
        exact (nomatch hl)
      · simp at hl
    | some _ _ h1 h2 =>
      rw [if_neg h1]
      exact (complete_all root hU).1 h2 fuel
  induction h with
  | item m l q name m' n h1 h2 h3 =>
    intro hl fuel
    cases fuel with
    | zero => simp [resolveItem]
    | succ fuel =>
      rw [resolveItem]
      simp only [List.getLast?_concat, List.dropLast_concat]
      rcases hq fuel h1 hl with e | e <;> rw [e]
      · simp
      · simp only
        rw [if_pos (hasItem_iff.2 ⟨n, h2, h3⟩)]
        simp
  | use m l q name m' n u p x h1 h2 h3 h4 h5 h6 ih =>
    intro hl fuel
    cases fuel with
    | zero => simp [resolveItem]
    | succ fuel =>
      rw [resolveItem]
      simp only [List.getLast?_concat, List.dropLast_concat]
      rcases hq fuel h1 hl with e | e <;> rw [e]
      · simp
      · simp only
        split
        · simp
        · have hu : usesAt root m' = n.uses := by
            unfold usesAt
            rw [h2]
          have hmem : p ∈ candidates name (usesAt root m') := by
            rw [hu]
            exact candidates_of_imports h3 h4 h5.2 (hU.aliases m' n h2)
          split
          · simp
          · simp
          · rename_i hn
            have := findMap_complete hn p hmem
            rw [if_pos h5.1] at this
            exact absurd this (ih (.inr h5.2) fuel)

theorem findMap_stable {f g : α → Option (Option β)} {l : List α} {o : Option β}
    (hfg : ∀ x o, f x = some o → g x = some o) (h : findMap f l = some o) :
    findMap g l = some o := by
  induction l with
  | nil => exact h
  | cons x xs ih =>
    rw [findMap] at h ⊢
    split at h
    · simp at h
    · rename_i b hb
      rw [hfg x _ hb]
      exact h
    · rename_i hb
      rw [hfg x _ hb]
      exact ih h

theorem nextChild_stable {root : Mod} {f g : Path → List Nat → Option (Option (List Nat))}
    (hfg : ∀ p m o, f p m = some o → g p m = some o) {path : Path} {m : List Nat} {s : String}
    {o : Option (List Nat)} (h : nextChild root f path m s = some o) :
    nextChild root g path m s = some o := by
  unfold nextChild at h ⊢
  split
  · rename_i c hc
    rw [hc] at h
    exact h
  · rename_i hc
    rw [hc] at h
    refine findMap_stable ?_ h
    intro p o ho
    split at ho
    · rename_i hne
      rw [if_pos hne]
      exact hfg _ _ _ ho
    · rename_i hne
      rw [if_neg hne]
      exact ho

theorem walk_stable {root : Mod} {f g : Path → List Nat → Option (Option (List Nat))}
    (hfg : ∀ p m o, f p m = some o → g p m = some o) {path : Path} {ss : List String}
    {o : Option (List Nat)} {m : List Nat} (h : walk root f path m ss = some o) :
    walk root g path m ss = some o := by
  induction ss generalizing m with
  | nil => exact h
  | cons s ss ih =>
    rw [walk] at h ⊢
    split at h
    · simp at h
    · rename_i hn
      rw [nextChild_stable hfg hn]
      exact h
    · rename_i m1 hn
      rw [nextChild_stable hfg hn]
      exact ih h

theorem resolveQualifier_stable (root : Mod) (fuel : Nat) : ∀ p m o,
    resolveQualifier root fuel p m = some o → resolveQualifier root (fuel + 1) p m = some o := by
  induction fuel with
  | zero =>
    intro p m o h
    simp [resolveQualifier] at h
  | succ fuel ih =>
    intro p m o h
    rw [resolveQualifier] at h ⊢
    split
    · rename_i hs
      rw [hs] at h
      exact h
    · rename_i s ss hs
      rw [hs] at h
      simp only at h
      have hfirst : ∀ o, firstSegment root (resolveQualifier root fuel) p m s = some o →
          firstSegment root (resolveQualifier root (fuel + 1)) p m s = some o := by
        intro o ho
        unfold firstSegment at ho ⊢
        split
        · rename_i hl
          rw [if_pos hl] at ho
          exact nextChild_stable ih ho
        · rename_i hl
          rw [if_neg hl] at ho
          split
          · rename_i h1
            rw [if_pos h1] at ho
            exact ho
          · rename_i h1
            rw [if_neg h1] at ho
            split
            · rename_i h2
              rw [if_pos h2] at ho
              exact ho
            · rename_i h2
              rw [if_neg h2] at ho
              split
              · rename_i h3
                rw [if_pos h3] at ho
                exact ho
              · rename_i h3
                rw [if_neg h3] at ho
                exact nextChild_stable ih ho
      split at h
      · simp at h
      · rename_i hf
        rw [hfirst _ hf]
        exact h
      · rename_i m1 hf
        rw [hfirst _ hf]
        exact walk_stable ih h

theorem resolveItem_stable (root : Mod) (fuel : Nat) : ∀ p r o,
    resolveItem root fuel p r = some o → resolveItem root (fuel + 1) p r = some o := by
  induction fuel with
  | zero =>
    intro p r o h
    simp [resolveItem] at h
  | succ fuel ih =>
    intro p r o h
    rw [resolveItem] at h ⊢
    have hf : ∀ (r' : Ref) (q : Path) (o : Option (List Nat × String)),
        (if q ≠ p then resolveItem root fuel q r' else some none) = some o →
        (if q ≠ p then resolveItem root (fuel + 1) q r' else some none) = some o := by
      intro r' q o h
      split at h
      · rename_i hne
        rw [if_pos hne]
        exact ih _ _ _ h
      · rename_i hne
        rw [if_neg hne]
        exact h
    split
    · rename_i hs
      rw [hs] at h
      exact h
    · rename_i name hs
      rw [hs] at h
      simp only at h ⊢
      have hq : ∀ o, (if p.segs.dropLast = [] then some (some r.mod)
          else resolveQualifier root fuel { p with segs := p.segs.dropLast } r.mod) = some o →
          (if p.segs.dropLast = [] then some (some r.mod)
          else resolveQualifier root (fuel + 1) { p with segs := p.segs.dropLast } r.mod) =
            some o := by
        intro o ho
        split at ho
        · rename_i hd
          rw [if_pos hd]
          exact ho
        · rename_i hd
          rw [if_neg hd]
          exact resolveQualifier_stable root fuel _ _ _ ho
      split at h
      · simp at h
      · rename_i hn
        rw [hq _ hn]
        exact h
      · rename_i m hn
        rw [hq _ hn]
        simp only
        split
        · rename_i hi
          rw [if_pos hi] at h
          exact h
        · rename_i hi
          rw [if_neg hi] at h
          split at h
          · simp at h
          · rename_i x hx
            rw [findMap_stable (hf _) hx]
            exact h
          · rename_i hx
            rw [findMap_stable (hf _) hx]
            simp only
            split at h
            · rename_i parent uses hown
              split at h
              · rename_i hpar
                rw [if_pos hpar]
                exact findMap_stable (hf _) h
              · rename_i hpar
                rw [if_neg hpar]
                exact h
            · exact h

/-! ## Theorems -/

/-- The answer of a resolution that finishes does not depend on the fuel, which only bounds the
depth of the recursion. -/
theorem C75_stable (root : Mod) (path : Path) (r : Ref) (fuel fuel' : Nat)
    (o : Option (List Nat × String)) (h : resolveItem root fuel path r = some o)
    (hle : fuel ≤ fuel') : resolveItem root fuel' path r = some o := by
  induction fuel' with
  | zero =>
    have : fuel = 0 := by omega
    subst this
    exact h
  | succ k ih =>
    by_cases hk : fuel ≤ k
    · exact resolveItem_stable root k path r o (ih hk)
    · have : fuel = k + 1 := by omega
      subst this
      exact h

/-- What resolution finds is denoted by the path, for references that have no use scope of their
own and paths other than `::X`. Missing: those two, for which the claim is false
(`C75_negation_global`, `C75_negation_own`). -/
theorem C75_sound_partial (root : Mod) (fuel : Nat) (path : Path) (m : List Nat)
    (x : List Nat × String) (hp : path.leading = false ∨ 2 ≤ path.segs.length)
    (h : resolveItem root fuel path ⟨m, none⟩ = some (some x)) : Denotes .rust root m path x :=
  (resolveItem_sound root fuel path m x hp h).weaken

/-- In a crate whose names are unambiguous, a path that denotes an item by the steps that the code
follows is never reported as unknown. Missing: the other steps of the language, for which the claim
is false (`C75_negation_nested`, `C75_negation_super`, `C75_negation_text`,
`C75_negation_alias`). -/
theorem C75_complete_partial (root : Mod) (hU : Unambiguous root) (fuel : Nat) (path : Path)
    (m : List Nat) (x : List Nat × String) (hp : path.leading = false ∨ 2 ≤ path.segs.length)
    (h : Denotes .code root m path x) : resolveItem root fuel path ⟨m, none⟩ ≠ some none :=
  resolveItem_complete hU h hp fuel

/-- In a crate whose names are unambiguous and whose imports are layered, the item that a path
denotes by the steps that the code follows is found, if it is the only one. -/
theorem C75_finds_partial (root : Mod) (hU : Unambiguous root) (layer : List Nat → Nat)
    (hlay : Layered root layer) (B : Nat) (hB : ∀ m, layer m ≤ B) (path : Path) (m : List Nat)
    (x : List Nat × String) (hp : path.leading = false ∨ 2 ≤ path.segs.length)
    (h : Denotes .code root m path x) (huniq : ∀ y, Denotes .rust root m path y → y = x) :
    ∃ fuel, resolveItem root fuel path ⟨m, none⟩ = some (some x) := by
  obtain ⟨fuel, hf⟩ := C26_terminates_partial root layer hlay B hB path ⟨m, none⟩
    (fun _ _ h => nomatch h)
  refine ⟨fuel, ?_⟩
  cases hr : resolveItem root fuel path ⟨m, none⟩ with
  | none => exact absurd hr hf
  | some o =>
    cases o with
    | none => exact absurd hr (C75_complete_partial root hU fuel path m x hp h)
    | some y => rw [huniq y (C75_sound_partial root fuel path m y hp hr)]

theorem leads_super {root : Mod} {m : List Nat} {i : Nat} {ss : List String} {m' : List Nat}
    (h : Leads .rust root (m ++ [i]) ⟨false, "super" :: ss⟩ m') :
    Walks .rust root ⟨false, "super" :: ss⟩ m ss m' := by
  generalize hm : m ++ [i] = m0 at h
  generalize hp : (⟨false, "super" :: ss⟩ : Path) = p at h
  cases h with
  | global => simp at hp
  | crate => simp at hp
  | self => simp at hp
  | super m1 j ss1 m' hw =>
    obtain ⟨rfl, _⟩ := List.append_inj' hm rfl
    simp only [Path.mk.injEq, List.cons.injEq, true_and] at hp
    subst hp
    exact hw
  | name _ s _ _ _ _ _ h3 =>
    simp only [Path.mk.injEq, List.cons.injEq, true_and] at hp
    exact absurd hp.1.symm h3

theorem leads_crate {root : Mod} {m : List Nat} {ss : List String} {m' : List Nat}
    (h : Leads .rust root m ⟨false, "crate" :: ss⟩ m') :
    Walks .rust root ⟨false, "crate" :: ss⟩ [] ss m' := by
  generalize hp : (⟨false, "crate" :: ss⟩ : Path) = p at h
  cases h with
  | global => simp at hp
  | self => simp at hp
  | super => simp at hp
  | crate m1 ss1 m' hw =>
    simp only [Path.mk.injEq, List.cons.injEq, true_and] at hp
    subst hp
    exact hw
  | name _ s _ _ _ h3 =>
    simp only [Path.mk.injEq, List.cons.injEq, true_and] at hp
    exact absurd hp.1.symm h3

theorem walks_nil {root : Mod} {full : Path} {m m' : List Nat}
    (h : Walks .rust root full m [] m') : m' = m := by
  generalize hl : ([] : List String) = l at h
  cases h with
  | nil => rfl
  | cons => simp at hl
  | super => simp at hl

theorem walks_single {root : Mod} {full : Path} {m : List Nat} {s : String} {m' : List Nat}
    (hs : s ≠ "super") (h : Walks .rust root full m [s] m') : Named .rust root full m s m' := by
  generalize hl : [s] = l at h
  cases h with
  | nil => simp at hl
  | cons _ _ s1 ss m1 _ h1 h2 =>
    simp only [List.cons.injEq] at hl
    obtain ⟨rfl, rfl⟩ := hl
    cases h2
    exact h1
  | super =>
    simp only [List.cons.injEq] at hl
    exact absurd hl.1 hs

/-! ### Negations -/

/-- `mod a { mod b { struct S; } }`. -/
def nestedCrate : Mod := .mk "" [] [] [.mk "a" [] [] [.mk "b" ["S"] [] []]]

/-- A module inside of another module is never entered by name: `self::b::S` (or `b::S`) is not
found in module `a` of `mod a { mod b { struct S; } }`. -/
theorem C75_negation_nested :
    Denotes .rust nestedCrate [0] ⟨false, ["self", "b", "S"]⟩ ([0, 0], "S") ∧
    ∀ fuel, 2 ≤ fuel → resolveItem nestedCrate fuel ⟨false, ["self", "b", "S"]⟩ ⟨[0], none⟩ =
      some none := by
  refine ⟨?_, fun fuel h => C75_stable _ _ _ 2 fuel _ (by decide) h⟩
  refine .item [0] false ["self", "b"] "S" [0, 0] (.mk "b" ["S"] [] []) ?_ rfl (by decide)
  refine .some _ _ (by decide) (.self _ _ _ (.cons _ _ _ _ [0, 0] _ ?_ (.nil _ _)))
  exact .child _ [0] (.mk "a" [] [] [.mk "b" ["S"] [] []]) 0 (.mk "b" ["S"] [] []) trivial rfl rfl

/-- `struct S; mod a { mod b { .. } }`. -/
def superCrate : Mod := .mk "" ["S"] [] [.mk "a" [] [] [.mk "b" [] [] []]]

/-- A repeated `super` is not followed: `super::super::S` is not found in module `a::b` of
`struct S; mod a { mod b { .. } }`. -/
theorem C75_negation_super :
    Denotes .rust superCrate [0, 0] ⟨false, ["super", "super", "S"]⟩ ([], "S") ∧
    ∀ fuel, 2 ≤ fuel → resolveItem superCrate fuel ⟨false, ["super", "super", "S"]⟩
      ⟨[0, 0], none⟩ = some none := by
  refine ⟨?_, fun fuel h => C75_stable _ _ _ 2 fuel _ (by decide) h⟩
  refine .item [0, 0] false ["super", "super"] "S" [] superCrate ?_ rfl (by decide)
  exact .some _ _ (by decide) (.super [0] 0 ["super"] [] (.super _ [] 0 [] [] trivial (.nil _ _)))

/-- `struct X; mod b { pub use super::X; mod c { use super::X; } }`. -/
def textCrate : Mod := .mk "" ["X"] [] [.mk "b" [] [⟨⟨false, ["super", "X"]⟩, none⟩]
  [.mk "c" [] [⟨⟨false, ["super", "X"]⟩, none⟩] []]]

/-- A re-export with the same text as the import that leads to it is not followed: `X` is not found
in module `b::c` of `struct X; mod b { pub use super::X; mod c { use super::X; } }`. -/
theorem C75_negation_text :
    Denotes .rust textCrate [0, 0] ⟨false, ["X"]⟩ ([], "X") ∧
    ∀ fuel, 3 ≤ fuel → resolveItem textCrate fuel ⟨false, ["X"]⟩ ⟨[0, 0], none⟩ = some none := by
  refine ⟨?_, fun fuel h => C75_stable _ _ _ 3 fuel _ (by decide) h⟩
  refine .use [0, 0] false [] "X" [0, 0] (.mk "c" [] [⟨⟨false, ["super", "X"]⟩, none⟩] [])
    ⟨⟨false, ["super", "X"]⟩, none⟩ ⟨false, ["super", "X"]⟩ _ (.none rfl) rfl (by decide)
    (.last rfl rfl) trivial ?_
  refine .use [0, 0] false ["super"] "X" [0] (.mk "b" [] [⟨⟨false, ["super", "X"]⟩, none⟩]
    [.mk "c" [] [⟨⟨false, ["super", "X"]⟩, none⟩] []])
    ⟨⟨false, ["super", "X"]⟩, none⟩ ⟨false, ["super", "X"]⟩ _
    (.some _ _ (by decide) (.super [0] 0 [] _ (.nil _ _))) rfl (by decide)
    (.last rfl rfl) trivial ?_
  exact .item [0] false ["super"] "X" [] textCrate
    (.some _ _ (by decide) (.super [] 0 [] _ (.nil _ _))) rfl (by decide)

/-- `struct Y; type X = Y;`. -/
def aliasCrate : Mod := .mk "" ["Y"] [⟨⟨false, ["Y"]⟩, some "X"⟩] []

/-- An alias for an unqualified path is not followed: `X` is not found in `struct Y; type X = Y;`. -/
theorem C75_negation_alias :
    Denotes .rust aliasCrate [] ⟨false, ["X"]⟩ ([], "Y") ∧
    ∀ fuel, 1 ≤ fuel → resolveItem aliasCrate fuel ⟨false, ["X"]⟩ ⟨[], none⟩ = some none := by
  refine ⟨?_, fun fuel h => C75_stable _ _ _ 1 fuel _ (by decide) h⟩
  refine .use [] false [] "X" [] aliasCrate ⟨⟨false, ["Y"]⟩, some "X"⟩ ⟨false, ["Y"]⟩ _ (.none rfl)
    rfl (by decide) (.alias_ rfl) trivial ?_
  exact .item [] false [] "Y" [] aliasCrate (.none rfl) rfl (by decide)

/-- `mod a { struct X; }`. -/
def globalCrate : Mod := .mk "" [] [] [.mk "a" ["X"] [] []]

/-- A leading `::` before a single name is ignored: `::X` finds the item of the current module. -/
theorem C75_negation_global :
    resolveItem globalCrate 1 ⟨true, ["X"]⟩ ⟨[0], none⟩ = some (some ([0], "X")) ∧
    ¬ Denotes .rust globalCrate [0] ⟨true, ["X"]⟩ ([0], "X") := by
  refine ⟨by decide, ?_⟩
  have hq : ∀ q name m', q ++ [name] = ["X"] → Qualifies .rust globalCrate [0] true q m' →
      m' = [] := by
    intro q name m' h1 h2
    have : q = [] := by
      cases q with
      | nil => rfl
      | cons a l => cases l <;> simp at h1
    subst this
    cases h2 with
    | none h => exact (nomatch h)
    | global => rfl
    | some _ _ h => exact absurd rfl h
  intro h
  generalize hp : (⟨true, ["X"]⟩ : Path) = p at h
  generalize hx : (([0], "X") : List Nat × String) = x at h
  cases h with
  | item _ l q name m' n h1 h2 h3 =>
    injection hp with hl hs
    subst hl
    rw [hq q name m' hs.symm h1] at hx
    simp at hx
  | use _ l q name m' n u p x h1 h2 h3 h4 h5 h6 =>
    injection hp with hl hs
    subst hl
    rw [hq q name m' hs.symm h1] at h2
    have : globalCrate = n := Option.some.inj h2
    rw [← this] at h3
    simp [globalCrate, Mod.uses] at h3

/-- `mod d { struct X; } mod c { use super::d::X; }`. -/
def ownCrate : Mod := .mk "" [] [] [.mk "d" ["X"] [] [],
  .mk "c" [] [⟨⟨false, ["super", "d", "X"]⟩, none⟩] []]

/-- The imports of a reference module are used for qualified paths as well: seen from the module `c`
of `mod d { struct X; } mod c { use super::d::X; }`, the path `super::X`, which denotes nothing, is
resolved to `d::X`. -/
theorem C75_negation_own :
    resolveItem ownCrate 3 ⟨false, ["super", "X"]⟩ ⟨[1], some ([], usesAt ownCrate [1])⟩ =
      some (some ([0], "X")) ∧
    ∀ x, ¬ Denotes .rust ownCrate [1] ⟨false, ["super", "X"]⟩ x := by
  refine ⟨by decide, ?_⟩
  have hq : ∀ q name m', q ++ [name] = ["super", "X"] → Qualifies .rust ownCrate [1] false q m' →
      m' = [] := by
    intro q name m' h1 h2
    have : q = ["super"] := by
      cases q with
      | nil => simp at h1
      | cons a l =>
        cases l with
        | nil => simpa using (by simp at h1; exact h1.1)
        | cons b l => cases l <;> simp at h1
    subst this
    cases h2 with
    | some _ _ _ h =>
      exact walks_nil (leads_super (m := []) h)
  intro x h
  generalize hp : (⟨false, ["super", "X"]⟩ : Path) = p at h
  cases h with
  | item _ l q name m' n h1 h2 h3 =>
    injection hp with hl hs
    subst hl
    rw [hq q name m' hs.symm h1] at h2
    have : ownCrate = n := Option.some.inj h2
    rw [← this] at h3
    simp [ownCrate, Mod.items] at h3
  | use _ l q name m' n u p x h1 h2 h3 h4 h5 h6 =>
    injection hp with hl hs
    subst hl
    rw [hq q name m' hs.symm h1] at h2
    have : ownCrate = n := Option.some.inj h2
    rw [← this] at h3
    simp [ownCrate, Mod.uses] at h3

/-! ### Non-vacuity -/

/-- `struct S; mod c { use super::d; } mod d { pub use crate::S; }`. -/
def exportCrate : Mod := .mk "" ["S"] [] [.mk "c" [] [⟨⟨false, ["super", "d"]⟩, none⟩] [],
  .mk "d" [] [⟨⟨false, ["crate", "S"]⟩, none⟩] []]

theorem exportCrate_named {full : Path} {s : String} {m' : List Nat}
    (h : Named .rust exportCrate full [] s m') : (s = "c" ∧ m' = [0]) ∨ (s = "d" ∧ m' = [1]) := by
  cases h with
  | child _ _ n i c _ h2 h3 =>
    have : exportCrate = n := Option.some.inj h2
    subst this
    match i, h3 with
    | 0, h3 =>
      have := Option.some.inj h3
      subst this
      exact .inl ⟨rfl, rfl⟩
    | 1, h3 =>
      have := Option.some.inj h3
      subst this
      exact .inr ⟨rfl, rfl⟩
    | i + 2, h3 => simp [exportCrate, Mod.mods] at h3
  | use _ _ n u _ p _ h1 h2 =>
    have : exportCrate = n := Option.some.inj h1
    subst this
    simp [exportCrate, Mod.uses] at h2

theorem exportCrate_at {m : List Nat} {n : Mod} (h : exportCrate.at? m = some n) :
    m = [] ∨ m = [0] ∨ m = [1] := by
  match m with
  | [] => exact .inl rfl
  | [0] => exact .inr (.inl rfl)
  | [1] => exact .inr (.inr rfl)
  | 0 :: j :: _ => simp [exportCrate, Mod.at?, Mod.mods] at h
  | 1 :: j :: _ => simp [exportCrate, Mod.at?, Mod.mods] at h
  | (i + 2) :: _ => simp [exportCrate, Mod.at?, Mod.mods] at h

theorem imports_plain {l : Bool} {a b s : String} {p : Path} (hb : b ≠ "*")
    (h : Imports ⟨⟨l, [a, b]⟩, none⟩ s p) : s = b ∧ p = ⟨l, [a, b]⟩ := by
  cases h with
  | alias_ h => exact (nomatch h)
  | last _ h => exact ⟨(by simpa using h.symm), rfl⟩
  | glob init _ h =>
    have h' : [a, b] = init ++ ["*"] := h
    match init with
    | [] => simp at h'
    | [x] =>
      simp only [List.cons_append, List.nil_append, List.cons.injEq] at h'
      exact absurd h'.2.1 hb
    | [_, _] => simp at h'
    | _ :: _ :: _ :: _ => simp at h'

theorem exportCrate_named0 {full : Path} {s : String} {m' : List Nat}
    (h : Named .rust exportCrate full [0] s m') : s = "d" ∧ m' = [1] := by
  generalize hm : [0] = m at h
  cases h with
  | child _ _ n i c _ h2 h3 =>
    subst hm
    have := Option.some.inj h2
    subst this
    simp [Mod.mods] at h3
  | use _ _ n u _ p _ h1 h2 h3 h4 h5 =>
    subst hm
    have := Option.some.inj h1
    subst this
    simp only [Mod.uses, List.mem_singleton] at h2
    subst h2
    obtain ⟨rfl, rfl⟩ := imports_plain (by decide) h3
    have := walks_single (by decide) (leads_super (m := []) h5)
    rcases exportCrate_named this with ⟨h, _⟩ | ⟨_, h⟩
    · simp at h
    · exact ⟨rfl, h⟩

theorem exportCrate_named1 {full : Path} {s : String} {m' : List Nat}
    (h : Named .rust exportCrate full [1] s m') : False := by
  generalize hm : [1] = m at h
  cases h with
  | child _ _ n i c _ h2 h3 =>
    subst hm
    have := Option.some.inj h2
    subst this
    simp [Mod.mods] at h3
  | use _ _ n u _ p _ h1 h2 h3 h4 h5 =>
    subst hm
    have := Option.some.inj h1
    subst this
    simp only [Mod.uses, List.mem_singleton] at h2
    subst h2
    obtain ⟨rfl, rfl⟩ := imports_plain (by decide) h3
    have := walks_single (by decide) (leads_crate h5)
    rcases exportCrate_named this with ⟨h, _⟩ | ⟨h, _⟩ <;> simp at h

theorem exportCrate_unambiguous : Unambiguous exportCrate := by
  constructor
  · intro full m s m1 m2 h1 h2
    have hm : ∃ n, exportCrate.at? m = some n := by
      cases h1 with
      | child _ _ n _ _ _ h => exact ⟨n, h⟩
      | use _ _ n _ _ _ _ h => exact ⟨n, h⟩
    obtain ⟨n, hm⟩ := hm
    rcases exportCrate_at hm with rfl | rfl | rfl
    · rcases exportCrate_named h1 with ⟨rfl, rfl⟩ | ⟨rfl, rfl⟩ <;>
        rcases exportCrate_named h2 with ⟨h, rfl⟩ | ⟨h, rfl⟩ <;> simp at h <;> rfl
    · rw [(exportCrate_named0 h1).2, (exportCrate_named0 h2).2]
    · exact (exportCrate_named1 h1).elim
  · intro m n hn u1 h1 u2 h2 s ha1 ha2
    rcases exportCrate_at hn with rfl | rfl | rfl <;> have := Option.some.inj hn <;> subst this <;>
      simp [Mod.uses, exportCrate] at h1 <;> subst h1 <;> simp at ha1

/-- A path that goes through an imported module and a re-export. -/
example : Denotes .code exportCrate [0] ⟨false, ["d", "S"]⟩ ([], "S") ∧
    resolveItem exportCrate 5 ⟨false, ["d", "S"]⟩ ⟨[0], none⟩ = some (some ([], "S")) ∧
    Unambiguous exportCrate := by
  refine ⟨?_, by decide, exportCrate_unambiguous⟩
  refine .use [0] false ["d"] "S" [1] (.mk "d" [] [⟨⟨false, ["crate", "S"]⟩, none⟩] [])
    ⟨⟨false, ["crate", "S"]⟩, none⟩ ⟨false, ["crate", "S"]⟩ _ ?_ rfl (by decide) (.last rfl rfl)
    ⟨by decide, by decide⟩ ?_
  · refine .some _ _ (by decide) (.name _ _ _ [1] _ (by decide) (by decide) (by decide) ?_
      (.nil _ _))
    refine .use _ _ (.mk "c" [] [⟨⟨false, ["super", "d"]⟩, none⟩] [])
      ⟨⟨false, ["super", "d"]⟩, none⟩ _ ⟨false, ["super", "d"]⟩ _ rfl (by decide) (.last rfl rfl)
      ⟨by decide, by decide⟩ ?_
    refine .super [] 0 _ _ (.cons _ _ _ _ [1] _ ?_ (.nil _ _))
    exact .child _ [] exportCrate 1 _ rfl rfl rfl
  · exact .item [1] false ["crate"] "S" [] exportCrate
      (.some _ _ (by decide) (.crate _ _ _ (.nil _ _))) rfl (by decide)

end Verif.Ir.Resolve
