import Verif.Analyzer.External
import Verif.Ir.ResolveSoundProps

/-!
# Items of other crates are recognised by their paths (C89)
-/

namespace Verif.Analyzer.External

open Verif.Ir.Resolve

/-! ## Specification -/

mutual

/-- Seen from the module `m`, the path stands for the path `e` into one of the crates: it starts with the
name of a crate, or with an imported name, or with a module and a name imported there. (Names of crates
are taken not to be redefined.) -/
inductive Refers (root : Mod) (crates : List String) : List Nat → Path → List String → Prop
  | crate (m l c ss) : c ∈ crates → Refers root crates m ⟨l, c :: ss⟩ (c :: ss)
  | name (m x rest e) : Binds root crates m x e → Refers root crates m ⟨false, x :: rest⟩ (e ++ rest)
  | qualified (m l q m' x rest e) : Leads .rust root m ⟨l, q⟩ m' → Binds root crates m' x e →
      Refers root crates m ⟨l, q ++ x :: rest⟩ (e ++ rest)

/-- An import of the module `m` makes the name `x` stand for `e`. A glob import makes every name stand
for something. -/
inductive Binds (root : Mod) (crates : List String) : List Nat → String → List String → Prop
  | use (m u x p e) : u ∈ usesAt root m → Imports u x p → Refers root crates m p e →
      Binds root crates m x e

end

/-- The path stands for the item `name` of one of the crates: by imports, or by type aliases (the items
of `root`; `ty` gives their types). -/
inductive Is (root : Mod) (ty : List Nat → String → Option Path) (name : String)
    (quals : List (List String)) : List Nat → Path → Prop
  | imports (m path q) : q ∈ quals → Refers root (cratesOf quals) m path (q ++ [name]) →
      Is root ty name quals m path
  | typeAlias (m path m' x p) : Denotes .rust root m path (m', x) → ty m' x = some p →
      Is root ty name quals m' p → Is root ty name quals m path

/-- No glob import has an alias, as in Rust. -/
def NoAliasedGlobs (root : Mod) : Prop :=
  ∀ m, ∀ u ∈ usesAt root m, u.alias_ ≠ none → u.path.segs.getLast? ≠ some "*"

/-- No name of the module `m` stands for a whole crate of another name. -/
def NoCrateAliases (root : Mod) (crates : List String) (m : List Nat) : Prop :=
  ∀ a c, Binds root crates m a [c] → a = c

/-- Imports that rename are of one of the crates or not of a module of this crate. -/
def NoLocalRenames (root : Mod) (crates : List String) : Prop :=
  ∀ m, ∀ u ∈ usesAt root m, ∀ a, u.alias_ = some a → u.path.segs.getLast? = some a ∨
    (∃ c ∈ crates, u.path.segs.head? = some c) ∨
    ∀ m', ¬ Leads .rust root m ⟨u.path.leading, u.path.segs.dropLast⟩ m'

/-- By the steps that the code follows, and without aliases, the name `x` stands for `e` in the module
`m`: by an import from one of the crates, or from a module that imports it. `full` is the path being
followed, if it is not a glob; imports that are spelled like it, or have one segment, are not followed
then. -/
inductive Exports (root : Mod) (crates : List String) :
    Option Path → List Nat → String → List String → Prop
  | direct (full m u x p c) : u ∈ usesAt root m → u.alias_ = none → Imports u x p →
      c ∈ crates → u.path.segs.head? = some c → (full ≠ none → 2 ≤ p.segs.length) →
      Exports root crates full m x p.segs
  | glob (m u q x m' e) : u ∈ usesAt root m → u.alias_ = none → u.path.segs = q ++ ["*"] →
      (∀ c ∈ crates, u.path.segs.head? ≠ some c) → Leads .code root m ⟨u.path.leading, q⟩ m' →
      Exports root crates none m' x e → Exports root crates none m x e
  | named (m u q x m' e) : u ∈ usesAt root m → u.alias_ = none → u.path.segs = q ++ [x] → x ≠ "*" →
      (∀ c ∈ crates, u.path.segs.head? ≠ some c) → Leads .code root m ⟨u.path.leading, q⟩ m' →
      Exports root crates (some u.path) m' x e → Exports root crates none m x e
  | step (full m u q l x m' e) : u ∈ usesAt root m → u.alias_ = none → Imports u x ⟨l, q ++ [x]⟩ →
      x ≠ "*" → (∀ c ∈ crates, q.head? ≠ some c) → Leads .code root m ⟨l, q⟩ m' →
      full ≠ ⟨l, q ++ [x]⟩ → Exports root crates (some ⟨l, q ++ [x]⟩) m' x e →
      Exports root crates (some full) m x e

/-! ## Lemmas -/

theorem collect_some {f : α → Option β} {l : List α} {r : List β} (h : collect f l = some r) :
    (∀ y ∈ r, ∃ x ∈ l, f x = some y) ∧ ∀ x ∈ l, ∃ y ∈ r, f x = some y := by
  induction l generalizing r with
  | nil =>
    cases h
    simp
  | cons x xs ih =>
    rw [collect] at h
    split at h
    · cases h
    · rename_i y hy
      obtain ⟨r', hr', rfl⟩ := Option.map_eq_some_iff.1 h
      obtain ⟨h1, h2⟩ := ih hr'
      constructor
      · intro z hz
        rcases List.mem_cons.1 hz with rfl | hz
        · exact ⟨x, List.mem_cons_self .., hy⟩
        · obtain ⟨w, hw, he⟩ := h1 z hz
          exact ⟨w, List.mem_cons_of_mem _ hw, he⟩
      · intro z hz
        rcases List.mem_cons.1 hz with rfl | hz
        · exact ⟨y, List.mem_cons_self .., hy⟩
        · obtain ⟨w, hw, he⟩ := h2 z hz
          exact ⟨w, List.mem_cons_of_mem _ hw, he⟩

theorem collect_ne {f : α → Option β} {l : List α} (h : ∀ x ∈ l, f x ≠ none) :
    collect f l ≠ none := by
  induction l with
  | nil => simp [collect]
  | cons x xs ih =>
    rw [collect]
    split
    · exact absurd ‹_› (h x (List.mem_cons_self ..))
    · have := ih fun y hy => h y (List.mem_cons_of_mem _ hy)
      cases hc : collect f xs with
      | none => exact absurd hc this
      | some r => simp

theorem mem_put {l : List (String × Path)} {e x : String × Path} (h : x ∈ put l e) :
    x = e ∨ x ∈ l := by
  unfold put at h
  rcases List.mem_cons.1 h with h | h
  · exact .inl h
  · exact .inr (List.mem_filter.1 h).1

theorem mem_putAll {l es : List (String × Path)} {x : String × Path} (h : x ∈ putAll l es) :
    x ∈ l ∨ x ∈ es := by
  unfold putAll at h
  induction es generalizing l with
  | nil => exact .inl h
  | cons e es ih =>
    rcases ih h with h | h
    · rcases mem_put h with h | h
      · exact .inr (by rw [h]; exact List.mem_cons_self ..)
      · exact .inl h
    · exact .inr (List.mem_cons_of_mem _ h)

theorem mem_join_aliases {s : Scope} {rs : List Scope} {x : String × Path}
    (h : x ∈ (join s rs).aliases) : x ∈ s.aliases ∨ ∃ r ∈ rs, x ∈ r.aliases := by
  obtain ⟨u, l⟩ := s
  unfold join at h
  simp only at h ⊢
  induction rs generalizing l with
  | nil => exact .inl h
  | cons r rs ih =>
    rcases ih _ h with h | ⟨r', h1, h2⟩
    · rcases mem_putAll h with h | h
      · exact .inl h
      · exact .inr ⟨r, List.mem_cons_self .., h⟩
    · exact .inr ⟨r', List.mem_cons_of_mem _ h1, h2⟩

theorem mem_join_uses {s : Scope} {rs : List Scope} {p : Path} :
    p ∈ (join s rs).uses ↔ p ∈ s.uses ∨ ∃ r ∈ rs, p ∈ r.uses := by
  simp [join, List.mem_flatMap]

theorem mem_scope_uses {root : Mod} {m : List Nat} {p : Path} :
    p ∈ (scopeOf root m).uses ↔ ∃ u ∈ usesAt root m, u.alias_ = none ∧ u.path = p := by
  simp [scopeOf, and_assoc]

theorem mem_scope_aliases {root : Mod} {m : List Nat} {x : String × Path}
    (h : x ∈ (scopeOf root m).aliases) :
    ∃ u ∈ usesAt root m, u.alias_ = some x.1 ∧ u.path = x.2 := by
  unfold scopeOf at h
  rcases mem_putAll h with h | h
  · cases h
  · rw [List.mem_filterMap] at h
    obtain ⟨u, hu, he⟩ := h
    obtain ⟨a, ha, rfl⟩ := Option.map_eq_some_iff.1 he
    exact ⟨u, hu, ha, rfl⟩

theorem crateItem_iff {crates : List String} {p : Path} :
    crateItem crates p = true ↔ ∃ c ∈ crates, p.segs.head? = some c := by
  unfold crateItem
  cases h : p.segs.head? with
  | none => simp
  | some c => simp

theorem refers_crate {root : Mod} {crates : List String} {m : List Nat} {p : Path}
    (h : crateItem crates p = true) : Refers root crates m p p.segs := by
  obtain ⟨c, hc, hh⟩ := crateItem_iff.1 h
  obtain ⟨l, segs⟩ := p
  cases segs with
  | nil => cases hh
  | cons d ss =>
    simp only [List.head?_cons, Option.some.injEq] at hh
    subst hh
    exact .crate m l d ss hc

/-- A path in the scope of a module binds what it should. -/
structure SoundUse (root : Mod) (crates : List String) (m : List Nat) (p : Path) : Prop where
  crate : crateItem crates p = true
  named : ∀ x, p.segs.getLast? = some x → Binds root crates m x p.segs
  globbed : ∀ init, p.segs = init ++ ["*"] → ∀ x, Binds root crates m x (init ++ [x])

/-- An alias in the scope of a module binds what it should. -/
structure SoundAlias (root : Mod) (crates : List String) (m : List Nat) (e : String × Path) :
    Prop where
  crate : crateItem crates e.2 = true
  named : Binds root crates m e.1 e.2.segs
  plain : e.2.segs.getLast? ≠ some "*"

/-- What is found for an import. -/
structure SoundMatch (root : Mod) (crates : List String) (m : List Nat) (path : Path) (s : Scope) :
    Prop where
  uses : ∀ p ∈ s.uses, crateItem crates p = true ∧ Refers root crates m path p.segs ∧
    p.segs.getLast? ≠ some "*" ∧ p.segs.getLast? = path.segs.getLast?
  aliases : ∀ e ∈ s.aliases, crateItem crates e.2 = true ∧ Refers root crates m path e.2.segs ∧
    e.2.segs.getLast? ≠ some "*" ∧ some e.1 = path.segs.getLast?

theorem crateItem_glob {crates : List String} {init : List String} {l : Bool}
    {p : Path} (hi : init ≠ []) (hp : p.segs = init ++ ["*"]) (h : crateItem crates p = true) (x : String) :
    crateItem crates ⟨l, init ++ [x]⟩ = true := by
  rw [crateItem_iff] at h ⊢
  obtain ⟨c, hc, hh⟩ := h
  refine ⟨c, hc, ?_⟩
  rw [hp] at hh
  cases init with
  | nil => exact absurd rfl hi
  | cons a as => simpa using hh

/-- The scope of a module is sound. -/
def SoundScope (root : Mod) (crates : List String) (m : List Nat) (s : Scope) : Prop :=
  (∀ p ∈ s.uses, SoundUse root crates m p) ∧ ∀ e ∈ s.aliases, SoundAlias root crates m e

theorem soundMatch_empty {root : Mod} {crates : List String} {m : List Nat} {path : Path} :
    SoundMatch root crates m path .empty := by
  constructor <;> intro x hx <;> cases hx

theorem soundScope_empty {root : Mod} {crates : List String} {m : List Nat} :
    SoundScope root crates m .empty := by
  constructor <;> intro x hx <;> cases hx

theorem matchPath_leads {root : Mod} {crates : List String} {fuel : Nat} {path : Path} {m : List Nat}
    {s : Scope} (h : matchPath root crates fuel path m = some s)
    (hl : ∀ m', ¬ Leads .rust root m ⟨path.leading, path.segs.dropLast⟩ m') : s = .empty := by
  cases fuel with
  | zero => simp [matchPath] at h
  | succ fuel =>
    rw [matchPath] at h
    split at h
    · simpa using h.symm
    · split at h
      · simpa using h.symm
      · split at h
        · cases h
        · simpa using h.symm
        · rename_i m' hq
          exact absurd (resolveQualifier_sound root fuel _ _ _ hq).weaken (hl m')

theorem external_sound {root : Mod} {crates : List String} (hstar : "*" ∉ crates)
    (hg : NoAliasedGlobs root) (hr : NoLocalRenames root crates) (fuel : Nat) :
    (∀ m s, external root crates fuel m = some s → SoundScope root crates m s) ∧
    ∀ path m s, matchPath root crates fuel path m = some s →
      (path.segs.getLast? ≠ some "*" → SoundMatch root crates m path s) ∧
      ∀ q, path.segs = q ++ ["*"] → s = .empty ∨
        ∃ m', Leads .rust root m ⟨path.leading, q⟩ m' ∧ SoundScope root crates m' s := by
  induction fuel with
  | zero =>
    constructor
    · intro m s h
      simp [external] at h
    · intro path m s h
      simp [matchPath] at h
  | succ fuel ih =>
    obtain ⟨ihe, ihm⟩ := ih
    constructor
    · intro m s h
      rw [external, finish] at h
      split at h
      · cases h
      · rename_i rs hrs
        simp only at h
        split at h
        · cases h
        · rename_i es hes
          simp only [Option.some.injEq] at h
          subst h
          obtain ⟨c1, -⟩ := collect_some hrs
          obtain ⟨c2, -⟩ := collect_some hes
          -- what the results of the first loop give
          have hres : ∀ r ∈ rs, (∀ p ∈ r.uses, SoundUse root crates m p) ∧
              ∀ e ∈ r.aliases, SoundAlias root crates m e := by
            intro r hr'
            obtain ⟨p, hp, hm⟩ := c1 r hr'
            rw [List.mem_filter] at hp
            obtain ⟨u, hu, hua, rfl⟩ := mem_scope_uses.1 hp.1
            obtain ⟨i1, i2⟩ := ihm u.path m r hm
            by_cases hl : u.path.segs.getLast? = some "*"
            · obtain ⟨q, hq⟩ := List.getLast?_eq_some_iff.1 hl
              rcases i2 q hq with rfl | ⟨m', hlead, hs⟩
              · exact soundScope_empty
              · have lift : ∀ x e, Binds root crates m' x e → Binds root crates m x e := by
                  intro x e hb
                  have hrf : Refers root crates m ⟨u.path.leading, q ++ [x]⟩ (e ++ []) :=
                    .qualified m _ q m' x [] e hlead hb
                  rw [List.append_nil] at hrf
                  exact .use m u x _ e hu (.glob q hua hq) hrf
                refine ⟨fun p hp => ?_, fun e he => ?_⟩
                · have := hs.1 p hp
                  exact ⟨this.crate, fun x hx => lift _ _ (this.named x hx),
                    fun init hi x => lift _ _ (this.globbed init hi x)⟩
                · have := hs.2 e he
                  exact ⟨this.crate, lift _ _ this.named, this.plain⟩
            · have hs := i1 hl
              have lift : ∀ x e, u.path.segs.getLast? = some x → Refers root crates m u.path e →
                  Binds root crates m x e := by
                intro x e hx he
                exact .use m u x u.path e hu (.last hua hx) he
              refine ⟨fun p hp => ?_, fun e he => ?_⟩
              · obtain ⟨h1, h2, h3, h4⟩ := hs.uses p hp
                refine ⟨h1, fun x hx => lift x _ (by rw [← h4, hx]) h2, fun init hi x => ?_⟩
                rw [hi, List.getLast?_concat] at h3
                exact absurd rfl h3
              · obtain ⟨h1, h2, h3, h4⟩ := hs.aliases e he
                exact ⟨h1, lift _ _ h4.symm h2, h3⟩
          refine ⟨fun p hp => ?_, fun e he => ?_⟩
          · rcases mem_join_uses.1 hp with hp | ⟨r, hr', hp⟩
            · rw [List.mem_filter] at hp
              obtain ⟨u, hu, hua, rfl⟩ := mem_scope_uses.1 hp.1
              refine ⟨hp.2, fun x hx => ?_, fun init hi x => ?_⟩
              · exact .use m u x u.path _ hu (.last hua hx) (refers_crate hp.2)
              · refine .use m u x _ _ hu (.glob init hua hi) ?_
                have : init ≠ [] := by
                  rintro rfl
                  obtain ⟨c, hc, hh⟩ := crateItem_iff.1 hp.2
                  rw [hi] at hh
                  simp only [List.nil_append, List.head?_cons, Option.some.injEq] at hh
                  exact hstar (hh ▸ hc)
                exact refers_crate (crateItem_glob this hi hp.2 x)
            · exact (hres r hr').1 p hp
          · rw [List.mem_filterMap] at he
            obtain ⟨o, ho, hid⟩ := he
            simp only [id_eq] at hid
            subst hid
            obtain ⟨e0, he0, hstep⟩ := c2 _ ho
            unfold aliasStep at hstep
            split at hstep
            · rename_i hc
              simp only [Option.some.injEq] at hstep
              subst hstep
              rcases mem_join_aliases he0 with hm | ⟨r, hr', hm⟩
              · obtain ⟨u, hu, hua, hup⟩ := mem_scope_aliases hm
                refine ⟨hc, .use m u _ _ _ hu (.alias_ hua)
                  (by rw [hup]; exact refers_crate hc), ?_⟩
                rw [← hup]
                exact hg m u hu (by rw [hua]; simp)
              · exact (hres r hr').2 _ hm
            · rename_i hc
              obtain ⟨r, hm, hre⟩ := Option.map_eq_some_iff.1 hstep
              rcases mem_join_aliases he0 with hm' | ⟨r', hr', hm'⟩
              · obtain ⟨u, hu, hua, hup⟩ := mem_scope_aliases hm'
                have hng : e0.2.segs.getLast? ≠ some "*" := by
                  rw [← hup]
                  exact hg m u hu (by rw [hua]; simp)
                have hs := (ihm e0.2 m r hm).1 hng
                unfold resolved at hre
                obtain ⟨p, hp, rfl⟩ := Option.map_eq_some_iff.1 hre
                rcases Option.or_eq_some_iff.1 hp with hp | ⟨-, hp⟩
                · have hp' : p ∈ r.uses := List.mem_of_mem_head? hp
                  obtain ⟨h1, h2, h3, h4⟩ := hs.uses p hp'
                  exact ⟨h1, .use m u _ _ _ hu (.alias_ hua) (hup ▸ h2), h3⟩
                · obtain ⟨n, hn, hp⟩ := Option.bind_eq_some_iff.1 hp
                  obtain ⟨e1, he1, rfl⟩ := Option.map_eq_some_iff.1 hp
                  obtain ⟨h1, h2, h3, h4⟩ := hs.aliases e1 (List.mem_of_find?_eq_some he1)
                  exact ⟨h1, .use m u _ _ _ hu (.alias_ hua) (hup ▸ h2), h3⟩
              · exact absurd ((hres r' hr').2 _ hm').crate hc
    · intro path m s h
      rw [matchPath] at h
      split at h
      · rename_i hn
        simp only [Option.some.injEq] at h
        subst h
        exact ⟨fun _ => soundMatch_empty, fun _ _ => .inl rfl⟩
      · rename_i name hn
        split at h
        · simp only [Option.some.injEq] at h
          subst h
          exact ⟨fun _ => soundMatch_empty, fun _ _ => .inl rfl⟩
        · rename_i hq0
          split at h
          · cases h
          · simp only [Option.some.injEq] at h
            subst h
            exact ⟨fun _ => soundMatch_empty, fun _ _ => .inl rfl⟩
          · rename_i m' hq
            have hlead := (resolveQualifier_sound root fuel _ _ _ hq).weaken
            split at h
            · rename_i hstar'
              subst hstar'
              refine ⟨fun hne => absurd hn hne, fun q hq' => .inr ⟨m', ?_, ihe m' s h⟩⟩
              rw [hq', List.dropLast_concat] at hlead
              exact hlead
            · rename_i hne
              refine ⟨fun _ => ?_, fun q hq' => ?_⟩
              · obtain ⟨rs, hrs, rfl⟩ := Option.map_eq_some_iff.1 h
                obtain ⟨c1, -⟩ := collect_some hrs
                obtain ⟨q, hq'⟩ := List.getLast?_eq_some_iff.1 hn
                have hlead' : Leads .rust root m ⟨path.leading, q⟩ m' := by
                  rw [hq', List.dropLast_concat] at hlead
                  exact hlead
                have lift : ∀ e, Binds root crates m' name e → Refers root crates m path e := by
                  intro e hb
                  have hrf : Refers root crates m ⟨path.leading, q ++ [name]⟩ (e ++ []) :=
                    .qualified m _ q m' name [] e hlead' hb
                  rw [List.append_nil, ← hq'] at hrf
                  exact hrf
                have key : ∀ r ∈ rs, SoundMatch root crates m path r := by
                  intro r hr'
                  obtain ⟨p, hp, hstep⟩ := c1 r hr'
                  obtain ⟨u, hu, him⟩ := imports_of_candidates hp
                  have hnp : p.segs.getLast? ≠ some "*" := by
                    cases him with
                    | alias_ ha => exact hg m' u hu (by rw [ha]; simp)
                    | last ha hs =>
                      rw [hs]
                      simpa using hne
                    | glob init ha hs =>
                      rw [List.getLast?_concat]
                      simpa using hne
                  unfold matchStep at hstep
                  split at hstep
                  · rename_i hc
                    have hb := lift _ (.use m' u name p _ hu him (refers_crate hc))
                    simp only [Option.some.injEq] at hstep
                    subst hstep
                    split
                    · rename_i hln
                      constructor
                      · intro p' hp'
                        rw [List.mem_singleton] at hp'
                        subst hp'
                        exact ⟨hc, hb, hnp, by rw [hln, hn]⟩
                      · intro e he
                        cases he
                    · constructor
                      · intro e he
                        cases he
                      · intro e he
                        rw [List.mem_singleton] at he
                        subst he
                        exact ⟨hc, hb, hnp, hn.symm⟩
                  · rename_i hc
                    split at hstep
                    · have hs := (ihm p m' r hstep).1 hnp
                      have hlast : p.segs.getLast? = some name ∨ r = .empty := by
                        cases him with
                        | alias_ ha =>
                          rcases hr m' u hu name ha with h1 | h1 | h1
                          · exact .inl h1
                          · exact absurd (crateItem_iff.2 h1) hc
                          · exact .inr (matchPath_leads hstep h1)
                        | last ha hs' => exact .inl hs'
                        | glob init ha hs' => exact .inl (List.getLast?_concat ..)
                      rcases hlast with hlast | rfl
                      · have lift' : ∀ e, Refers root crates m' p e → Refers root crates m path e :=
                          fun e he => lift e (.use m' u name p e hu him he)
                        constructor
                        · intro p' hp'
                          obtain ⟨h1, h2, h3, h4⟩ := hs.uses p' hp'
                          exact ⟨h1, lift' _ h2, h3, by rw [h4, hlast, hn]⟩
                        · intro e he
                          obtain ⟨h1, h2, h3, h4⟩ := hs.aliases e he
                          exact ⟨h1, lift' _ h2, h3, by rw [h4, hlast, hn]⟩
                      · exact soundMatch_empty
                    · simp only [Option.some.injEq] at hstep
                      subst hstep
                      exact soundMatch_empty
                constructor
                · intro p hp
                  rcases mem_join_uses.1 hp with hp | ⟨r, hr', hp⟩
                  · cases hp
                  · exact (key r hr').uses p hp
                · intro e he
                  rcases mem_join_aliases he with he | ⟨r, hr', he⟩
                  · cases he
                  · exact (key r hr').aliases e he
              · rw [hq', List.getLast?_concat] at hn
                simp only [Option.some.injEq] at hn
                exact absurd hn.symm hne

theorem segs_eq {p : Path} {x : String} (h : p.segs.getLast? = some x) :
    p.segs = p.segs.dropLast ++ [x] := by
  obtain ⟨q, hq⟩ := List.getLast?_eq_some_iff.1 h
  rw [hq, List.dropLast_concat]

theorem hasQualifier_iff {path : Path} {q : List String} {strict : Bool} :
    hasQualifier path q strict = true ↔ q ≠ [] ∧ path.segs.dropLast = q ∧
      (strict = true → path.leading = false) := by
  unfold hasQualifier
  simp only [Bool.and_eq_true, bne_iff_ne, ne_eq, beq_iff_eq, Bool.or_eq_true, Bool.not_eq_true']
  constructor
  · rintro ⟨⟨h1, h2⟩, h3⟩
    refine ⟨h2 ▸ h1, h2, fun hs => ?_⟩
    rcases h3 with h3 | h3
    · rw [h3] at hs
      cases hs
    · exact h3
  · rintro ⟨h1, h2, h3⟩
    refine ⟨⟨h2 ▸ h1, h2⟩, ?_⟩
    cases strict with
    | false => exact .inl rfl
    | true => exact .inr (h3 rfl)

theorem inScope_binds {root : Mod} {crates : List String} {m : List Nat} {s : Scope} {x : String}
    {q : List String} (hs : SoundScope root crates m s) (h : inScope s x q = true) :
    Binds root crates m x (q ++ [x]) := by
  unfold inScope at h
  rw [List.any_eq_true] at h
  obtain ⟨p, hp, he⟩ := h
  simp only [Bool.or_eq_true, beq_iff_eq] at he
  have := hs.1 p hp
  rcases he with he | he
  · have h2 := this.named x (by rw [he, List.getLast?_concat])
    rwa [he] at h2
  · exact this.globbed q he x

theorem aliasesOf_binds {root : Mod} {crates : List String} {m : List Nat} {s : Scope} {x a : String}
    {q : List String} (hs : SoundScope root crates m s) (h : a ∈ aliasesOf s x q) :
    Binds root crates m a (q ++ [x]) := by
  unfold aliasesOf at h
  rw [List.mem_map] at h
  obtain ⟨e, he, rfl⟩ := h
  rw [List.mem_filter] at he
  simp only [Bool.or_eq_true, beq_iff_eq] at he
  have := hs.2 e he.1
  rcases he.2 with h2 | h2
  · have h3 := this.named
    rwa [h2] at h3
  · exact absurd (by rw [h2, List.getLast?_concat]) this.plain

theorem crateAliases_binds {root : Mod} {crates : List String} {m : List Nat} {s : Scope}
    {x a : String} (hs : SoundScope root crates m s) (h : a ∈ crateAliases s x) :
    Binds root crates m a [x] := by
  unfold crateAliases at h
  rw [List.mem_map] at h
  obtain ⟨e, he, rfl⟩ := h
  rw [List.mem_filter] at he
  simp only [beq_iff_eq] at he
  have h3 := (hs.2 e he.1).named
  rwa [he.2] at h3

/-- A name of a path with what follows. -/
theorem refers_name {root : Mod} {crates : List String} {m : List Nat} {path : Path} {a name : String}
    {post e : List String} (hl : path.leading = false) (hq : path.segs.dropLast = a :: post)
    (hn : path.segs.getLast? = some name) (hb : Binds root crates m a e) :
    Refers root crates m path (e ++ post ++ [name]) := by
  have h1 := segs_eq hn
  rw [hq] at h1
  obtain ⟨l, segs⟩ := path
  simp only at hl h1
  subst hl h1
  have := Refers.name m a (post ++ [name]) e hb
  rw [List.append_assoc]
  exact this

theorem subAt_refers {root : Mod} {quals : List (List String)} {m : List Nat} {s : Scope} {path : Path}
    {name anchor : String} {pre post : List String} (hs : SoundScope root (cratesOf quals) m s)
    (hq : pre ++ anchor :: post ∈ quals)
    (hl : path.leading = false ∨ (2 ≤ path.segs.length ∧ NoCrateAliases root (cratesOf quals) m))
    (hn : path.segs.getLast? = some name) (h : subAt s path pre anchor post = true) :
    Refers root (cratesOf quals) m path (pre ++ anchor :: post ++ [name]) := by
  have hcrate : pre = [] → path.segs.dropLast = anchor :: post →
      Refers root (cratesOf quals) m path (pre ++ anchor :: post ++ [name]) := by
    rintro rfl h1
    have h3 := segs_eq hn
    rw [h1] at h3
    have hc : crateItem (cratesOf quals) path = true := by
      rw [crateItem_iff]
      refine ⟨anchor, ?_, by rw [h3]; rfl⟩
      unfold cratesOf
      rw [List.mem_filterMap]
      exact ⟨_, hq, rfl⟩
    have := refers_crate (root := root) (m := m) hc
    rw [h3] at this
    exact this
  have hstrict : ∀ a, hasQualifier path (a :: post) (pre != []) = true → pre ≠ [] →
      path.leading = false := by
    intro a h hpre
    have := (hasQualifier_iff.1 h).2.2
    simpa [hpre] using this
  unfold subAt at h
  rw [Bool.or_eq_true] at h
  rcases h with h | h
  · simp only [Bool.and_eq_true, Bool.or_eq_true, beq_iff_eq] at h
    obtain ⟨h1', h2⟩ := h
    obtain ⟨-, h1, -⟩ := hasQualifier_iff.1 h1'
    by_cases hpre : pre = []
    · exact hcrate hpre h1
    · rcases h2 with h2 | h2
      · exact absurd h2 hpre
      · have := refers_name (hstrict _ h1' hpre) h1 hn (inScope_binds hs h2)
        simpa using this
  · rw [List.any_eq_true] at h
    obtain ⟨a, ha, h⟩ := h
    obtain ⟨-, h1, -⟩ := hasQualifier_iff.1 h
    split at ha
    · rename_i hpre
      have hb := crateAliases_binds hs ha
      rcases hl with hl | ⟨-, hl⟩
      · subst hpre
        have := refers_name hl h1 hn hb
        simpa using this
      · rw [hl a anchor hb] at h1
        exact hcrate hpre h1
    · rename_i hpre
      have := refers_name (hstrict _ h hpre) h1 hn (aliasesOf_binds hs ha)
      simpa using this

theorem subAny_iff {s : Scope} {path : Path} (xs pre : List String) :
    subAny s path pre xs = true ↔ ∃ a x b, xs = a ++ x :: b ∧ subAt s path (pre ++ a) x b = true := by
  induction xs generalizing pre with
  | nil =>
    simp [subAny]
  | cons y ys ih =>
    rw [subAny, Bool.or_eq_true, ih]
    constructor
    · rintro (h | ⟨a, x, b, rfl, h⟩)
      · exact ⟨[], y, ys, rfl, by simpa using h⟩
      · exact ⟨y :: a, x, b, rfl, by simpa using h⟩
    · rintro ⟨a, x, b, he, h⟩
      cases a with
      | nil =>
        simp only [List.nil_append, List.cons.injEq] at he
        obtain ⟨rfl, rfl⟩ := he
        exact .inl (by simpa using h)
      | cons z a =>
        simp only [List.cons_append, List.cons.injEq] at he
        obtain ⟨rfl, rfl⟩ := he
        exact .inr ⟨a, x, b, rfl, by simpa using h⟩

theorem isHere_refers {root : Mod} {quals : List (List String)} {m : List Nat} {s : Scope} {path : Path}
    {name : String} (hs : SoundScope root (cratesOf quals) m s)
    (hl : path.leading = false ∨ (2 ≤ path.segs.length ∧ NoCrateAliases root (cratesOf quals) m))
    (h : isHere s name path quals = true) :
    ∃ q ∈ quals, Refers root (cratesOf quals) m path (q ++ [name]) := by
  have plain : ∀ a e, path.segs.dropLast = [] → path.segs.getLast? = some a →
      Binds root (cratesOf quals) m a e → Refers root (cratesOf quals) m path e := by
    intro a e h0 ha hb
    have h1 := segs_eq ha
    rw [h0] at h1
    have hl : path.leading = false := by
      rcases hl with hl | ⟨hl, -⟩
      · exact hl
      · rw [h1] at hl
        simp at hl
    obtain ⟨l, segs⟩ := path
    simp only at hl h1
    subst hl h1
    have := Refers.name m a [] e hb
    rwa [List.append_nil] at this
  unfold isHere at h
  simp only [Bool.or_eq_true, Bool.and_eq_true, beq_iff_eq, List.any_eq_true] at h
  rcases h with ⟨hn, ⟨h0, q, hq, h⟩ | ⟨q, hq, h⟩⟩ | ⟨h0, q, hq, a, ha, h⟩
  · exact ⟨q, hq, plain name _ h0 hn (inScope_binds hs h)⟩
  · obtain ⟨a, x, b, rfl, h'⟩ := (subAny_iff q []).1 h
    exact ⟨_, hq, subAt_refers hs hq hl hn h'⟩
  · exact ⟨q, hq, plain a _ h0 h (aliasesOf_binds hs ha)⟩

theorem isDirect_refers {root : Mod} {quals : List (List String)} {m : List Nat} {path : Path}
    {name : String} (h : isDirect name path quals = true) :
    ∃ q ∈ quals, Refers root (cratesOf quals) m path (q ++ [name]) := by
  unfold isDirect at h
  simp only [Bool.and_eq_true, beq_iff_eq, List.any_eq_true] at h
  obtain ⟨hn, q, hq, h⟩ := h
  obtain ⟨h0, h1, -⟩ := hasQualifier_iff.1 h
  have h3 := segs_eq hn
  rw [h1] at h3
  refine ⟨q, hq, ?_⟩
  cases q with
  | nil => exact absurd rfl h0
  | cons c q =>
    have hc : crateItem (cratesOf quals) path = true := by
      rw [crateItem_iff]
      refine ⟨c, ?_, by rw [h3]; rfl⟩
      unfold cratesOf
      rw [List.mem_filterMap]
      exact ⟨_, hq, rfl⟩
    have := refers_crate (root := root) (m := m) hc
    rwa [h3] at this

/-- A resolution from a module of a plain name, or from the root of the file. -/
theorem resolve_ref {root : Mod} {fuel : Nat} {path : Path} {m : List Nat} {x : List Nat × String}
    (hl : path.leading = false ∨ 2 ≤ path.segs.length) (hm : m = [] ∨ path.segs.length ≤ 1)
    (h : resolveItem root fuel path (refOf root m) = some (some x)) :
    Denotes .rust root m path x := by
  have hnone : resolveItem root fuel path ⟨m, none⟩ = some (some x) := by
    by_cases hm0 : m = []
    · subst hm0
      simpa [refOf] using h
    · have hlen : path.segs.length ≤ 1 := by
        rcases hm with hm | hm
        · exact absurd hm hm0
        · exact hm
      cases fuel with
      | zero => simp [resolveItem] at h
      | succ fuel =>
        rw [resolveItem] at h ⊢
        cases hn : path.segs.getLast? with
        | none =>
          rw [hn] at h
          exact h
        | some name =>
          have hd : path.segs.dropLast = [] := by
            apply List.eq_nil_of_length_eq_zero
            rw [List.length_dropLast]
            omega
          have hne : m.dropLast ≠ m := by
            intro he
            have := congrArg List.length he
            rw [List.length_dropLast] at this
            have := List.length_pos_iff.2 hm0
            omega
          rw [hn] at h
          simp only [hd, if_true, refOf, if_neg hm0, if_neg hne] at h ⊢
          exact h
  exact (resolveItem_sound root fuel path m x hl hnone).weaken

/-! ## Theorems -/

/-- What is recognised as an item of another crate is one. Missing: paths that start with `::`, if they
consist of one name or a name of the module stands for a whole crate (`C89_negation_global`,
`C89_negation_global_name`), modules that rename imports of their own crate (`C89_negation_rename`), type
aliases reached by qualified paths from inner modules (see `C75_negation_own`); and globs hide what they
should not (`C89_negation_shadow`). -/
theorem C89_sound_partial (root : Mod) (ty : List Nat → String → Option Path) (name : String)
    (quals : List (List String)) (hstar : "*" ∉ cratesOf quals) (hg : NoAliasedGlobs root)
    (hr : NoLocalRenames root (cratesOf quals))
    (hty : ∀ m x p, ty m x = some p → p.leading = false ∧ (m = [] ∨ p.segs.length ≤ 1))
    (fuel : Nat) (path : Path) (m : List Nat)
    (hl : path.leading = false ∨ (2 ≤ path.segs.length ∧ NoCrateAliases root (cratesOf quals) m))
    (hm : m = [] ∨ path.segs.length ≤ 1 ∨ ∀ n x, ty n x = none)
    (h : isExternal root ty name quals fuel path m = some true) : Is root ty name quals m path := by
  induction fuel generalizing path m with
  | zero => simp [isExternal] at h
  | succ fuel ih =>
    rw [isExternal] at h
    split at h
    · rename_i hd
      obtain ⟨q, hq, hrf⟩ := isDirect_refers (root := root) (m := m) hd
      exact .imports m path q hq hrf
    · split at h
      · cases h
      · rename_i s hs
        have hsc := (external_sound hstar hg hr fuel).1 m s hs
        split at h
        · rename_i hh
          obtain ⟨q, hq, hrf⟩ := isHere_refers hsc hl hh
          exact .imports m path q hq hrf
        · split at h
          · cases h
          · cases h
          · rename_i m' x hres
            split at h
            · cases h
            · rename_i p hp
              have hm' : m = [] ∨ path.segs.length ≤ 1 := by
                rcases hm with hm | hm | hm
                · exact .inl hm
                · exact .inr hm
                · rw [hm] at hp
                  cases hp
              have hpp := hty m' x p hp
              refine .typeAlias m path m' x p (resolve_ref (hl.imp_right And.left) hm' hres)
                hp (ih p m' (.inl hpp.1) ?_ h)
              rcases hpp.2 with h1 | h1
              · exact .inl h1
              · exact .inr (.inl h1)

/-! ### Completeness -/

theorem leads_nonempty {R : Rules} {root : Mod} {m m' : List Nat} {l : Bool} {q : List String}
    (h : Leads R root m ⟨l, q⟩ m') : q ≠ [] := by
  cases h <;> simp

theorem not_crateItem {crates : List String} {p : Path} (h : ∀ c ∈ crates, p.segs.head? ≠ some c) :
    ¬ crateItem crates p = true := by
  rw [crateItem_iff]
  rintro ⟨c, hc, hh⟩
  exact h c hc hh

theorem matchPath_leads_to {root : Mod} (hU : Unambiguous root) {crates : List String} {fuel : Nat}
    {path : Path} {m m' : List Nat} {q : List String} {x : String} {s : Scope}
    (hp : path.segs = q ++ [x]) (hlead : Leads .code root m ⟨path.leading, q⟩ m')
    (h : matchPath root crates fuel path m = some s) :
    ∃ fuel', (x = "*" ∧ external root crates fuel' m' = some s) ∨
      (x ≠ "*" ∧ (collect (matchStep crates x path fun p => matchPath root crates fuel' p m')
        (candidates x (usesAt root m'))).map (join .empty) = some s) := by
  cases fuel with
  | zero => simp [matchPath] at h
  | succ fuel =>
    have hq := leads_nonempty hlead
    rw [matchPath, hp, List.getLast?_concat, List.dropLast_concat] at h
    simp only [if_neg hq] at h
    rcases (complete_all root hU).1 hlead fuel with hf | hf
    · rw [hf] at h
      cases h
    · rw [hf] at h
      simp only at h
      split at h
      · rename_i hx
        exact ⟨fuel, .inl ⟨hx, h⟩⟩
      · rename_i hx
        exact ⟨fuel, .inr ⟨hx, h⟩⟩

theorem candidates_plain {root : Mod} (hU : Unambiguous root) {m : List Nat} {u : Use} {x : String}
    {p : Path} (hu : u ∈ usesAt root m) (hi : Imports u x p) (hlen : 2 ≤ p.segs.length) :
    p ∈ candidates x (usesAt root m) := by
  obtain ⟨n, hn, hun⟩ := mem_usesAt.1 hu
  have : usesAt root m = n.uses := by
    unfold usesAt
    rw [hn]
  rw [this]
  exact candidates_of_imports hun hi hlen (hU.aliases m n hn)

/-- What the scope of a module provides for a name. -/
def Provides (s : Scope) (x : String) (e : List String) : Prop :=
  (∃ p ∈ s.uses, p.segs = e) ∨ ∃ p ∈ s.uses, ∃ init, p.segs = init ++ ["*"] ∧ e = init ++ [x]

theorem imports_last {u : Use} {x : String} {p : Path} (ha : u.alias_ = none) (hi : Imports u x p) :
    p.segs.getLast? = some x := by
  cases hi with
  | alias_ h =>
    rw [ha] at h
    cases h
  | last _ h => exact h
  | glob init _ h => exact List.getLast?_concat ..

theorem exports_last {root : Mod} {crates : List String} {full : Option Path} {m : List Nat}
    {x : String} {e : List String} (h : Exports root crates full m x e) : e.getLast? = some x := by
  induction h with
  | direct full m u x p c hu ha hi => exact imports_last ha hi
  | glob _ _ _ _ _ _ _ _ _ _ _ _ ih => exact ih
  | named _ _ _ _ _ _ _ _ _ _ _ _ _ ih => exact ih
  | step _ _ _ _ _ _ _ _ _ _ _ _ _ _ _ _ ih => exact ih

theorem exports_found {root : Mod} (hU : Unambiguous root) {crates : List String}
    (hstar : "*" ∉ crates) {full : Option Path} {m : List Nat} {x : String} {e : List String}
    (h : Exports root crates full m x e) :
    (full = none → ∀ fuel s, external root crates fuel m = some s → Provides s x e) ∧
    ∀ f, full = some f → ∀ fuel rs,
      collect (matchStep crates x f fun p => matchPath root crates fuel p m)
        (candidates x (usesAt root m)) = some rs → ∃ r ∈ rs, ∃ p ∈ r.uses, p.segs = e := by
  have hloop : ∀ m u, u ∈ usesAt root m → u.alias_ = none →
      (∀ c ∈ crates, u.path.segs.head? ≠ some c) → ∀ fuel s, external root crates fuel m = some s →
      ∃ fuel' r, matchPath root crates fuel' u.path m = some r ∧ ∀ p ∈ r.uses, p ∈ s.uses := by
    intro m u hu ha hnc fuel s h
    cases fuel with
    | zero => simp [external] at h
    | succ fuel =>
      rw [external, finish] at h
      split at h
      · cases h
      · rename_i rs hrs
        simp only at h
        split at h
        · cases h
        · rename_i es hes
          simp only [Option.some.injEq] at h
          subst h
          obtain ⟨r, hr, hm⟩ := (collect_some hrs).2 u.path (by
            rw [List.mem_filter]
            refine ⟨mem_scope_uses.2 ⟨u, hu, ha, rfl⟩, ?_⟩
            have := not_crateItem hnc
            simpa using this)
          exact ⟨fuel, r, hm, fun p hp => mem_join_uses.2 (.inr ⟨r, hr, hp⟩)⟩
  induction h with
  | direct full m u x p c hu ha hi hc hh hlen =>
    have hcu : crateItem crates u.path = true := crateItem_iff.2 ⟨c, hc, hh⟩
    constructor
    · intro _ fuel s h
      cases fuel with
      | zero => simp [external] at h
      | succ fuel =>
        rw [external, finish] at h
        split at h
        · cases h
        · rename_i rs hrs
          simp only at h
          split at h
          · cases h
          · rename_i es hes
            simp only [Option.some.injEq] at h
            subst h
            have hmem : u.path ∈ (join ⟨(scopeOf root m).uses.filter (crateItem crates),
                (scopeOf root m).aliases⟩ rs).uses := by
              refine mem_join_uses.2 (.inl ?_)
              rw [List.mem_filter]
              exact ⟨mem_scope_uses.2 ⟨u, hu, ha, rfl⟩, hcu⟩
            cases hi with
            | alias_ h =>
              rw [ha] at h
              cases h
            | last _ h => exact .inl ⟨_, hmem, rfl⟩
            | glob init _ h => exact .inr ⟨_, hmem, init, h, rfl⟩
    · intro f hf fuel rs hrs
      subst hf
      have hlen' := hlen (by simp)
      obtain ⟨r, hr, hstep⟩ := (collect_some hrs).2 p (candidates_plain hU hu hi hlen')
      have hcp : crateItem crates p = true := by
        cases hi with
        | alias_ h =>
          rw [ha] at h
          cases h
        | last _ h => exact hcu
        | glob init _ h =>
          refine crateItem_glob ?_ h hcu x
          rintro rfl
          rw [h] at hh
          simp only [List.nil_append, List.head?_cons, Option.some.injEq] at hh
          exact hstar (hh ▸ hc)
      unfold matchStep at hstep
      rw [if_pos hcp, if_pos (imports_last ha hi)] at hstep
      simp only [Option.some.injEq] at hstep
      subst hstep
      exact ⟨_, hr, p, List.mem_singleton.2 rfl, rfl⟩
  | glob m u q x m' e hu ha hp hnc hlead hex ih =>
    refine ⟨fun _ fuel s h => ?_, fun f hf => by cases hf⟩
    obtain ⟨fuel', r, hm, hsub⟩ := hloop m u hu ha hnc fuel s h
    obtain ⟨fuel2, ⟨-, he⟩ | ⟨hx, -⟩⟩ := matchPath_leads_to hU hp hlead hm
    · rcases ih.1 rfl fuel2 r he with ⟨p, hp, h1⟩ | ⟨p, hp, h1⟩
      · exact .inl ⟨p, hsub p hp, h1⟩
      · exact .inr ⟨p, hsub p hp, h1⟩
    · exact absurd rfl hx
  | named m u q x m' e hu ha hp hx hnc hlead hex ih =>
    refine ⟨fun _ fuel s h => ?_, fun f hf => by cases hf⟩
    obtain ⟨fuel', r, hm, hsub⟩ := hloop m u hu ha hnc fuel s h
    obtain ⟨fuel2, ⟨hx', -⟩ | ⟨-, he⟩⟩ := matchPath_leads_to hU hp hlead hm
    · exact absurd hx' hx
    · obtain ⟨rs, hrs, rfl⟩ := Option.map_eq_some_iff.1 he
      obtain ⟨r', hr', p, hp', h1⟩ := ih.2 _ rfl fuel2 rs hrs
      exact .inl ⟨p, hsub p (mem_join_uses.2 (.inr ⟨r', hr', hp'⟩)), h1⟩
  | step full m u q l x m' e hu ha hi hx hnc hlead hne hex ih =>
    refine ⟨fun hf => (by cases hf), fun f hf fuel rs hrs => ?_⟩
    simp only [Option.some.injEq] at hf
    subst hf
    have hq := leads_nonempty hlead
    have hlen : 2 ≤ (⟨l, q ++ [x]⟩ : Path).segs.length := by
      have := List.length_pos_iff.2 hq
      simp only [List.length_append, List.length_singleton]
      omega
    obtain ⟨r, hr, hstep⟩ := (collect_some hrs).2 _ (candidates_plain hU hu hi hlen)
    unfold matchStep at hstep
    have hnc' : ¬ crateItem crates ⟨l, q ++ [x]⟩ = true := by
      refine not_crateItem fun c hc => ?_
      have := hnc c hc
      cases q with
      | nil => exact absurd rfl hq
      | cons a q => simpa using this
    rw [if_neg hnc', if_pos (Ne.symm hne)] at hstep
    obtain ⟨fuel2, ⟨hx', -⟩ | ⟨-, he⟩⟩ := matchPath_leads_to hU rfl hlead hstep
    · exact absurd hx' hx
    · obtain ⟨rs', hrs', rfl⟩ := Option.map_eq_some_iff.1 he
      obtain ⟨r', hr', p, hp', h1⟩ := ih.2 _ rfl fuel2 rs' hrs'
      exact ⟨_, hr, p, mem_join_uses.2 (.inr ⟨r', hr', hp'⟩), h1⟩

theorem provides_inScope {s : Scope} {x : String} {pre : List String}
    (h : Provides s x (pre ++ [x])) : inScope s x pre = true := by
  unfold inScope
  rw [List.any_eq_true]
  rcases h with ⟨p, hp, h⟩ | ⟨p, hp, init, h1, h2⟩
  · exact ⟨p, hp, by simp [h]⟩
  · have : init = pre := by
      have := congrArg List.dropLast h2
      simpa using this.symm
    subst this
    exact ⟨p, hp, by simp [h1]⟩

/-- A path spelled in full is recognised. -/
theorem C89_direct (root : Mod) (ty : List Nat → String → Option Path) (name : String)
    (quals : List (List String)) (q : List String) (hq : q ∈ quals) (hq0 : q ≠ []) (l : Bool)
    (m : List Nat) (fuel : Nat) :
    isExternal root ty name quals (fuel + 1) ⟨l, q ++ [name]⟩ m = some true := by
  rw [isExternal, if_pos]
  unfold isDirect
  simp only [List.getLast?_concat, beq_self_eq_true, Bool.true_and, List.any_eq_true]
  refine ⟨q, hq, ?_⟩
  rw [hasQualifier_iff]
  exact ⟨hq0, by simp, by simp⟩

/-- The answer for a path is yes, if there is one and the imports of the module say so. -/
theorem isExternal_of_here {root : Mod} {ty : List Nat → String → Option Path} {name : String}
    {quals : List (List String)} {m : List Nat} {fuel : Nat} {path : Path}
    (h : ∀ fuel s, external root (cratesOf quals) fuel m = some s →
      isDirect name path quals = true ∨ isHere s name path quals = true)
    (hfin : isExternal root ty name quals fuel path m ≠ none) :
    isExternal root ty name quals fuel path m = some true := by
  cases fuel with
  | zero => exact absurd rfl hfin
  | succ fuel =>
    rw [isExternal] at hfin ⊢
    split
    · rfl
    · rename_i hd
      rw [if_neg hd] at hfin
      split
      · rename_i he
        rw [he] at hfin
        exact absurd rfl hfin
      · rename_i s hs
        rcases h fuel s hs with h | h
        · exact absurd h hd
        · rw [if_pos h]

/-- An item that is imported, directly or by way of modules that import it, is recognised, if the search
ends: by its name or by a path that starts with an imported name. Missing: the steps of the language that
the code does not follow (`C89_negation_crate_alias`, `C89_negation_qualified`,
`C89_negation_rename`). -/
theorem C89_complete_partial (root : Mod) (hU : Unambiguous root)
    (ty : List Nat → String → Option Path) (name : String) (quals : List (List String))
    (hstar : "*" ∉ cratesOf quals) (q : List String) (hq : q ∈ quals) (hq0 : q ≠ []) (m : List Nat)
    (x : String) (e rest : List String) (hex : Exports root (cratesOf quals) none m x e)
    (he : e ++ rest = q ++ [name]) (fuel : Nat)
    (hfin : isExternal root ty name quals fuel ⟨false, x :: rest⟩ m ≠ none) :
    isExternal root ty name quals fuel ⟨false, x :: rest⟩ m = some true := by
  refine isExternal_of_here (fun fuel s hs => ?_) hfin
  have hpr := (exports_found hU hstar hex).1 rfl fuel s hs
  obtain ⟨pre, rfl⟩ := List.getLast?_eq_some_iff.1 (exports_last hex)
  rcases List.eq_nil_or_concat rest with rfl | ⟨post, b, rfl⟩
  · rw [List.append_nil] at he
    obtain ⟨rfl, hn⟩ := List.append_inj' he rfl
    simp only [List.cons.injEq, and_true] at hn
    subst hn
    right
    unfold isHere
    simp only [Bool.or_eq_true, Bool.and_eq_true, List.any_eq_true]
    exact .inl ⟨by simp, .inl ⟨by simp, pre, hq, provides_inScope hpr⟩⟩
  · rw [List.concat_eq_append, ← List.append_assoc] at he
    obtain ⟨he', hn⟩ := List.append_inj' he rfl
    simp only [List.cons.injEq, and_true] at hn
    subst hn
    rw [List.concat_eq_append]
    by_cases hpre : pre = []
    · subst hpre
      left
      unfold isDirect
      simp only [Bool.and_eq_true, List.any_eq_true]
      refine ⟨?_, q, hq, ?_⟩
      · rw [← List.cons_append, List.getLast?_concat]
        simp
      · rw [hasQualifier_iff]
        refine ⟨hq0, ?_, by simp⟩
        rw [← List.cons_append, List.dropLast_concat, ← he']
        simp
    · right
      unfold isHere
      simp only [Bool.or_eq_true, Bool.and_eq_true, List.any_eq_true]
      refine .inl ⟨?_, .inr ⟨q, hq, ?_⟩⟩
      · rw [← List.cons_append, List.getLast?_concat]
        simp
      · rw [subAny_iff]
        refine ⟨pre, x, post, by rw [← he']; simp, ?_⟩
        unfold subAt
        rw [List.nil_append, Bool.or_eq_true, Bool.and_eq_true, Bool.or_eq_true]
        refine .inl ⟨?_, .inr (provides_inScope hpr)⟩
        rw [hasQualifier_iff]
        refine ⟨by simp, ?_, by simp⟩
        rw [← List.cons_append, List.dropLast_concat]

/-- An alias of the module that stands for an item, or for the start of its path, is enough. -/
theorem alias_here {s : Scope} {name a : String} {quals : List (List String)} {q rest : List String}
    {p : Path} (hq : q ∈ quals) (hmem : (a, p) ∈ s.aliases) (hne : p.segs ≠ [])
    (he : p.segs ++ rest = q ++ [name]) : isHere s name ⟨false, a :: rest⟩ quals = true := by
  unfold isHere
  simp only [Bool.or_eq_true, Bool.and_eq_true, List.any_eq_true]
  rcases List.eq_nil_or_concat rest with rfl | ⟨post, b, rfl⟩
  · rw [List.append_nil] at he
    refine .inr ⟨by simp, q, hq, a, ?_, by simp⟩
    unfold aliasesOf
    rw [List.mem_map]
    refine ⟨(a, p), List.mem_filter.2 ⟨hmem, ?_⟩, rfl⟩
    simp [he]
  · rw [List.concat_eq_append, ← List.append_assoc] at he
    obtain ⟨he', hn⟩ := List.append_inj' he rfl
    simp only [List.cons.injEq, and_true] at hn
    subst hn
    rw [List.concat_eq_append]
    obtain ⟨pre, x, hpx⟩ : ∃ pre x, p.segs = pre ++ [x] :=
      ⟨_, _, (List.dropLast_concat_getLast hne).symm⟩
    refine .inl ⟨?_, .inr ⟨q, hq, ?_⟩⟩
    · rw [← List.cons_append, List.getLast?_concat]
      simp
    · rw [subAny_iff]
      refine ⟨pre, x, post, by rw [← he', hpx]; simp, ?_⟩
      unfold subAt
      rw [List.nil_append, Bool.or_eq_true, List.any_eq_true]
      refine .inr ⟨a, ?_, ?_⟩
      · split
        · rename_i hpre
          subst hpre
          unfold crateAliases
          rw [List.mem_map]
          exact ⟨(a, p), List.mem_filter.2 ⟨hmem, by simp [hpx]⟩, rfl⟩
        · unfold aliasesOf
          rw [List.mem_map]
          exact ⟨(a, p), List.mem_filter.2 ⟨hmem, by simp [hpx]⟩, rfl⟩
      · rw [hasQualifier_iff]
        refine ⟨by simp, ?_, by simp⟩
        rw [← List.cons_append, List.dropLast_concat]

theorem put_keep {l : List (String × Path)} {e x : String × Path} (h : x ∈ l)
    (hk : e.1 = x.1 → e = x) : x ∈ put l e := by
  unfold put
  by_cases he : e.1 = x.1
  · rw [hk he]
    exact List.mem_cons_self ..
  · refine List.mem_cons_of_mem _ (List.mem_filter.2 ⟨h, ?_⟩)
    simpa using Ne.symm he

theorem putAll_keep {l es : List (String × Path)} {x : String × Path} (h : x ∈ l ∨ x ∈ es)
    (hk : ∀ e ∈ es, e.1 = x.1 → e = x) : x ∈ putAll l es := by
  unfold putAll
  induction es generalizing l with
  | nil => simpa using h
  | cons e es ih =>
    refine ih ?_ fun e' he' => hk e' (List.mem_cons_of_mem _ he')
    have hke := hk e (List.mem_cons_self ..)
    rcases h with h | h
    · exact .inl (put_keep h hke)
    · rcases List.mem_cons.1 h with rfl | h
      · exact .inl (List.mem_cons_self ..)
      · exact .inr h

/-- An alias of the module that is the only one of its name stays, if nothing is imported from the crate. -/
theorem alias_joined {root : Mod} {crates : List String} {fuel : Nat} {m : List Nat} {u : Use} {a : String}
    {rs : List Scope} (hu : u ∈ usesAt root m) (hua : u.alias_ = some a)
    (hone : ∀ v ∈ usesAt root m, v.alias_ = some a → v = u)
    (hloc : ∀ v ∈ usesAt root m, v.alias_ = none →
      (∃ c ∈ crates, v.path.segs.head? = some c) ∨
        ∀ m', ¬ Leads .rust root m ⟨v.path.leading, v.path.segs.dropLast⟩ m')
    (hrs : collect (fun p => matchPath root crates fuel p m)
      ((scopeOf root m).uses.filter fun p => !crateItem crates p) = some rs) :
    (a, u.path) ∈ (join ⟨(scopeOf root m).uses.filter (crateItem crates),
      (scopeOf root m).aliases⟩ rs).aliases := by
  have hempty : ∀ r ∈ rs, r = .empty := by
    intro r hr
    obtain ⟨p, hp, hm⟩ := (collect_some hrs).1 r hr
    rw [List.mem_filter] at hp
    obtain ⟨v, hv, hva, rfl⟩ := mem_scope_uses.1 hp.1
    rcases hloc v hv hva with h | h
    · rw [crateItem_iff.2 h] at hp
      cases hp.2
    · exact matchPath_leads hm h
  have hscope : (a, u.path) ∈ (scopeOf root m).aliases := by
    unfold scopeOf
    refine putAll_keep (.inr ?_) ?_
    · rw [List.mem_filterMap]
      exact ⟨u, hu, by rw [hua]; rfl⟩
    · intro e he' hk
      rw [List.mem_filterMap] at he'
      obtain ⟨v, hv, hve⟩ := he'
      obtain ⟨b, hb, rfl⟩ := Option.map_eq_some_iff.1 hve
      simp only at hk
      subst hk
      rw [hone v hv hb]
  have hj : (a, u.path) ∈ (join ⟨(scopeOf root m).uses.filter (crateItem crates),
      (scopeOf root m).aliases⟩ rs).aliases := by
    unfold join
    simp only
    have : ∀ (rs : List Scope) (l : List (String × Path)), (∀ r ∈ rs, r = .empty) →
        rs.foldl (fun a r => putAll a r.aliases) l = l := by
      intro rs
      induction rs with
      | nil =>
        intro l _
        rfl
      | cons r rs ih =>
        intro l h
        rw [List.foldl_cons, h r (List.mem_cons_self ..)]
        exact ih _ fun r' hr' => h r' (List.mem_cons_of_mem _ hr')
    rw [this rs _ hempty]
    exact hscope
  exact hj

/-- An item, or a crate or module of one, that is imported with an alias is recognised by the alias, if
the search ends and the module imports nothing else from its own crate. Missing: aliases of what is
imported from the own crate, as in `C89_complete_partial`. -/
theorem C89_alias_partial (root : Mod) (ty : List Nat → String → Option Path) (name : String)
    (quals : List (List String)) (q : List String) (hq : q ∈ quals) (m : List Nat)
    (a : String) (rest : List String) (u : Use) (hu : u ∈ usesAt root m) (hua : u.alias_ = some a)
    (hc : ∃ c ∈ cratesOf quals, u.path.segs.head? = some c)
    (hone : ∀ v ∈ usesAt root m, v.alias_ = some a → v = u)
    (hloc : ∀ v ∈ usesAt root m, v.alias_ = none →
      (∃ c ∈ cratesOf quals, v.path.segs.head? = some c) ∨
        ∀ m', ¬ Leads .rust root m ⟨v.path.leading, v.path.segs.dropLast⟩ m')
    (he : u.path.segs ++ rest = q ++ [name]) (fuel : Nat)
    (hfin : isExternal root ty name quals fuel ⟨false, a :: rest⟩ m ≠ none) :
    isExternal root ty name quals fuel ⟨false, a :: rest⟩ m = some true := by
  refine isExternal_of_here (fun fuel s hs => .inr ?_) hfin
  -- the alias is in the scope
  have hmem : (a, u.path) ∈ s.aliases := by
    cases fuel with
    | zero => simp [external] at hs
    | succ fuel =>
      rw [external, finish] at hs
      split at hs
      · cases hs
      · rename_i rs hrs
        simp only at hs
        split at hs
        · cases hs
        · rename_i es hes
          simp only [Option.some.injEq] at hs
          subst hs
          have hj := alias_joined hu hua hone hloc hrs
          obtain ⟨o, ho, hstep⟩ := (collect_some hes).2 _ hj
          unfold aliasStep at hstep
          rw [if_pos (crateItem_iff.2 hc)] at hstep
          simp only [Option.some.injEq] at hstep
          subst hstep
          rw [List.mem_filterMap]
          exact ⟨_, ho, rfl⟩
  refine alias_here hq hmem ?_ he
  obtain ⟨c, -, hh⟩ := hc
  intro h0
  rw [h0] at hh
  cases hh

/-- An alias for what another module of the crate imports from one of the crates, by a name that stands for one
path there, is recognised, if the search ends and the module imports nothing else from its own crate.
Missing: as in `C89_alias_partial`, and what the other module imports from the own crate
(`C89_negation_rename`). -/
theorem C89_renamed_partial (root : Mod) (hU : Unambiguous root) (ty : List Nat → String → Option Path)
    (name : String) (quals : List (List String)) (q : List String) (hq : q ∈ quals) (m m' : List Nat)
    (a x : String) (pre e rest : List String) (u : Use) (hu : u ∈ usesAt root m) (hua : u.alias_ = some a)
    (hup : u.path.segs = pre ++ [x]) (hx : x ≠ "*") (hnc : ∀ c ∈ cratesOf quals, u.path.segs.head? ≠ some c)
    (hlead : Leads .code root m ⟨u.path.leading, pre⟩ m')
    (hone : ∀ v ∈ usesAt root m, v.alias_ = some a → v = u)
    (hloc : ∀ v ∈ usesAt root m, v.alias_ = none →
      (∃ c ∈ cratesOf quals, v.path.segs.head? = some c) ∨
        ∀ m', ¬ Leads .rust root m ⟨v.path.leading, v.path.segs.dropLast⟩ m')
    (himp : ∃ v ∈ usesAt root m', ∃ p, Imports v x p) (hlen : 2 ≤ e.length)
    (hcr : ∃ c ∈ cratesOf quals, e.head? = some c)
    (huniq : ∀ v ∈ usesAt root m', ∀ p, Imports v x p → p.segs = e)
    (he : e ++ rest = q ++ [name]) (fuel : Nat)
    (hfin : isExternal root ty name quals fuel ⟨false, a :: rest⟩ m ≠ none) :
    isExternal root ty name quals fuel ⟨false, a :: rest⟩ m = some true := by
  refine isExternal_of_here (fun fuel s hs => .inr ?_) hfin
  have hmem : ∃ p, p.segs = e ∧ (a, p) ∈ s.aliases := by
    cases fuel with
    | zero => simp [external] at hs
    | succ fuel =>
      rw [external, finish] at hs
      split at hs
      · cases hs
      · rename_i rs hrs
        simp only at hs
        split at hs
        · cases hs
        · rename_i es hes
          simp only [Option.some.injEq] at hs
          subst hs
          have hj := alias_joined hu hua hone hloc hrs
          obtain ⟨o, ho, hstep⟩ := (collect_some hes).2 _ hj
          unfold aliasStep at hstep
          rw [if_neg (not_crateItem hnc)] at hstep
          obtain ⟨r, hr, rfl⟩ := Option.map_eq_some_iff.1 hstep
          obtain ⟨fuel2, ⟨hx', -⟩ | ⟨-, hc⟩⟩ := matchPath_leads_to hU hup hlead hr
          · exact absurd hx' hx
          · obtain ⟨rs', hrs', rfl⟩ := Option.map_eq_some_iff.1 hc
            have hall : ∀ p ∈ candidates x (usesAt root m'), p.segs = e := by
              intro p hp
              obtain ⟨v, hv, hi⟩ := imports_of_candidates hp
              exact huniq v hv p hi
            have hres : ∀ r ∈ rs', ∃ p, p.segs = e ∧
                r = if e.getLast? = some x then ⟨[p], []⟩ else ⟨[], [(x, p)]⟩ := by
              intro r hr
              obtain ⟨p, hp, hst⟩ := (collect_some hrs').1 r hr
              have hpe := hall p hp
              unfold matchStep at hst
              rw [if_pos (crateItem_iff.2 (by rw [hpe]; exact hcr)), hpe] at hst
              exact ⟨p, hpe, (Option.some.inj hst).symm⟩
            obtain ⟨r0, hr0⟩ : ∃ r0, r0 ∈ rs' := by
              obtain ⟨v, hv, p, hi⟩ := himp
              obtain ⟨r0, h0, -⟩ := (collect_some hrs').2 p
                (candidates_plain hU hv hi (by rw [huniq v hv p hi]; exact hlen))
              exact ⟨r0, h0⟩
            have hsome : ∃ p, p.segs = e ∧ resolved (a, u.path) (join .empty rs') = some (a, p) := by
              unfold resolved
              rw [hup, List.getLast?_concat]
              by_cases hl : e.getLast? = some x
              · simp only [if_pos hl] at hres
                cases rs' with
                | nil => cases hr0
                | cons r1 t =>
                  obtain ⟨p, hpe, rfl⟩ := hres r1 (List.mem_cons_self ..)
                  exact ⟨p, hpe, by simp [join, Scope.empty]⟩
              · simp only [if_neg hl] at hres
                have hno : (join .empty rs').uses = [] := by
                  unfold join Scope.empty
                  simp only [List.nil_append, List.flatMap_eq_nil_iff]
                  intro r hr
                  obtain ⟨p, -, rfl⟩ := hres r hr
                  rfl
                rcases List.eq_nil_or_concat rs' with rfl | ⟨init, r1, rfl⟩
                · cases hr0
                · obtain ⟨p, hpe, rfl⟩ := hres r1 (by simp)
                  refine ⟨p, hpe, ?_⟩
                  rw [hno]
                  unfold join
                  simp only [List.concat_eq_append, List.foldl_append, List.foldl_cons, List.foldl_nil,
                    putAll, put]
                  simp
            obtain ⟨p, hpe, hp⟩ := hsome
            refine ⟨p, hpe, ?_⟩
            rw [List.mem_filterMap]
            exact ⟨_, ho, by rw [hp]; rfl⟩
  obtain ⟨p, hpe, hmem⟩ := hmem
  refine alias_here hq hmem ?_ (by rw [hpe]; exact he)
  rw [hpe]
  rintro rfl
  simp at hlen

/-! ### Termination -/

theorem results_crate (root : Mod) (crates : List String) (fuel : Nat) :
    (∀ m s, external root crates fuel m = some s → ∀ e ∈ s.aliases, crateItem crates e.2 = true) ∧
    (∀ m s, external root crates fuel m = some s → ∀ p ∈ s.uses, crateItem crates p = true) ∧
    ∀ path m s, matchPath root crates fuel path m = some s →
      (∀ e ∈ s.aliases, crateItem crates e.2 = true) ∧ ∀ p ∈ s.uses, crateItem crates p = true := by
  induction fuel with
  | zero =>
    refine ⟨?_, ?_, ?_⟩
    · intro m s h
      simp [external] at h
    · intro m s h
      simp [external] at h
    · intro path m s h
      simp [matchPath] at h
  | succ fuel ih =>
    obtain ⟨ih1, ih2, ih3⟩ := ih
    have hres : ∀ (m : List Nat) (l : List Path) (rs : List Scope),
        collect (fun p => matchPath root crates fuel p m) l = some rs →
        ∀ r ∈ rs, (∀ e ∈ r.aliases, crateItem crates e.2 = true) ∧
          ∀ p ∈ r.uses, crateItem crates p = true := by
      intro m l rs h r hr
      obtain ⟨p, -, hm⟩ := (collect_some h).1 r hr
      exact ih3 p m r hm
    have hext : ∀ m s, external root crates (fuel + 1) m = some s →
        (∀ e ∈ s.aliases, crateItem crates e.2 = true) ∧ ∀ p ∈ s.uses, crateItem crates p = true := by
      intro m s h
      rw [external, finish] at h
      split at h
      · cases h
      · rename_i rs hrs
        simp only at h
        split at h
        · cases h
        · rename_i es hes
          simp only [Option.some.injEq] at h
          subst h
          refine ⟨fun e he => ?_, fun p hp => ?_⟩
          · rw [List.mem_filterMap] at he
            obtain ⟨o, ho, hid⟩ := he
            simp only [id_eq] at hid
            subst hid
            obtain ⟨e0, he0, hstep⟩ := (collect_some hes).1 _ ho
            unfold aliasStep at hstep
            split at hstep
            · rename_i hc
              simp only [Option.some.injEq] at hstep
              subst hstep
              exact hc
            · obtain ⟨r, hm, hre⟩ := Option.map_eq_some_iff.1 hstep
              obtain ⟨i1, i2⟩ := ih3 _ _ _ hm
              unfold resolved at hre
              obtain ⟨p, hp, rfl⟩ := Option.map_eq_some_iff.1 hre
              rcases Option.or_eq_some_iff.1 hp with hp | ⟨-, hp⟩
              · exact i2 p (List.mem_of_mem_head? hp)
              · obtain ⟨n, hn, hp⟩ := Option.bind_eq_some_iff.1 hp
                obtain ⟨e1, he1, rfl⟩ := Option.map_eq_some_iff.1 hp
                exact i1 e1 (List.mem_of_find?_eq_some he1)
          · rcases mem_join_uses.1 hp with hp | ⟨r, hr, hp⟩
            · exact (List.mem_filter.1 hp).2
            · exact (hres m _ rs hrs r hr).2 p hp
    refine ⟨fun m s h => (hext m s h).1, fun m s h => (hext m s h).2, ?_⟩
    intro path m s h
    have hempty : (∀ e ∈ Scope.empty.aliases, crateItem crates e.2 = true) ∧
        ∀ p ∈ Scope.empty.uses, crateItem crates p = true := by
      constructor <;> intro x hx <;> cases hx
    rw [matchPath] at h
    split at h
    · simp only [Option.some.injEq] at h
      exact h ▸ hempty
    · split at h
      · simp only [Option.some.injEq] at h
        exact h ▸ hempty
      · split at h
        · cases h
        · simp only [Option.some.injEq] at h
          exact h ▸ hempty
        · split at h
          · exact ⟨ih1 _ _ h, ih2 _ _ h⟩
          · obtain ⟨rs, hrs, rfl⟩ := Option.map_eq_some_iff.1 h
            have key : ∀ r ∈ rs, (∀ e ∈ r.aliases, crateItem crates e.2 = true) ∧
                ∀ p ∈ r.uses, crateItem crates p = true := by
              intro r hr
              obtain ⟨p, -, hstep⟩ := (collect_some hrs).1 r hr
              unfold matchStep at hstep
              split at hstep
              · rename_i hc
                simp only [Option.some.injEq] at hstep
                subst hstep
                split <;> simp [hc]
              · split at hstep
                · exact ih3 _ _ _ hstep
                · simp only [Option.some.injEq] at hstep
                  exact hstep ▸ hempty
            refine ⟨fun e he => ?_, fun p hp => ?_⟩
            · rcases mem_join_aliases he with he | ⟨r, hr, he⟩
              · cases he
              · exact (key r hr).1 e he
            · rcases mem_join_uses.1 hp with hp | ⟨r, hr, hp⟩
              · cases hp
              · exact (key r hr).2 p hp

/-- A path that leaves the crate, goes down a layer, or has one segment. -/
def Down (root : Mod) (layer : List Nat → Nat) (m : List Nat) (p : Path) : Prop :=
  p.segs.length < 2 ∨
  (p.leading = false ∧ ∃ kw rest x m0 m', p.segs = kw :: (rest ++ [x]) ∧
    keywordModule m kw = some m0 ∧ descend root m0 rest = some m' ∧ layer m' < layer m) ∨
  ∃ e rest, p.segs = e :: rest ∧ rest ≠ [] ∧ ExternalName root e

theorem down_use {root : Mod} {layer : List Nat → Nat} (hlay : Layered root layer) {m : List Nat}
    {u : Use} (hu : u ∈ usesAt root m) : Down root layer m u.path := by
  by_cases hlen : u.path.segs.length < 2
  · exact .inl hlen
  · rcases hlay m u hu (by omega) with ⟨hl, kw, rest, x, m0, m', hs, h0, h1, hlt⟩ |
      ⟨e, rest, hs, hr, -, he⟩
    · exact .inr (.inl ⟨hl, kw, rest, x, m0, m', hs, h0, h1, hlt⟩)
    · exact .inr (.inr ⟨e, rest, hs, hr, he⟩)

theorem down_candidate {root : Mod} {layer : List Nat → Nat} (hlay : Layered root layer)
    {m : List Nat} {x : String} {p : Path} (hp : p ∈ candidates x (usesAt root m)) :
    Down root layer m p := by
  rcases candidate_cases root layer m _ (hlay m) x p hp with h | h
  · exact .inr (.inl h)
  · exact .inr (.inr h)

theorem external_total (root : Mod) (crates : List String) (layer : List Nat → Nat)
    (hlay : Layered root layer) (B : Nat) (hB : ∀ m, layer m ≤ B) (n : Nat) : ∀ m, layer m ≤ n →
    (∀ path fuel, Down root layer m path → B + 3 + 2 * n ≤ fuel →
      matchPath root crates fuel path m ≠ none) ∧
    ∀ fuel, B + 4 + 2 * n ≤ fuel → external root crates fuel m ≠ none := by
  have hext : ∀ (n : Nat) (m : List Nat), (∀ path fuel, Down root layer m path → B + 3 + 2 * n ≤ fuel →
      matchPath root crates fuel path m ≠ none) →
      ∀ fuel, B + 4 + 2 * n ≤ fuel → external root crates fuel m ≠ none := by
    intro n m hm fuel hf
    obtain ⟨fuel, rfl⟩ : ∃ f, fuel = f + 1 := ⟨fuel - 1, by omega⟩
    rw [external, finish]
    split
    · rename_i h
      refine absurd h (collect_ne fun p hp => ?_)
      obtain ⟨u, hu, -, rfl⟩ := mem_scope_uses.1 (List.mem_filter.1 hp).1
      exact hm _ _ (down_use hlay hu) (by omega)
    · rename_i rs hrs
      simp only
      split
      · rename_i h
        refine absurd h (collect_ne fun e he => ?_)
        unfold aliasStep
        split
        · simp
        · rename_i hc
          rcases mem_join_aliases he with he | ⟨r, hr, he⟩
          · obtain ⟨u, hu, -, hup⟩ := mem_scope_aliases he
            have := hm u.path fuel (down_use hlay hu) (by omega)
            rw [hup] at this
            cases hq : matchPath root crates fuel e.2 m with
            | none => exact absurd hq this
            | some r => simp [hq]
          · obtain ⟨p, -, hp⟩ := (collect_some hrs).1 r hr
            exact absurd (((results_crate root crates fuel).2.2 _ _ _ hp).1 e he) hc
      · simp
  have hout : ∀ (m : List Nat) (path : Path) (fuel : Nat), B + 3 ≤ fuel →
      (path.segs.length < 2 ∨ ∃ e rest, path.segs = e :: rest ∧ rest ≠ [] ∧ ExternalName root e) →
      matchPath root crates fuel path m ≠ none := by
    intro m path fuel hf h
    obtain ⟨fuel, rfl⟩ : ∃ f, fuel = f + 1 := ⟨fuel - 1, by omega⟩
    rw [matchPath]
    split
    · simp
    · split
      · simp
      · rename_i hq0
        rcases h with h | ⟨e, rest, hs, hr, he⟩
        · exfalso
          apply hq0
          apply List.eq_nil_of_length_eq_zero
          rw [List.length_dropLast]
          omega
        · have hd : path.segs.dropLast = e :: rest.dropLast := by
            rw [hs]
            cases rest with
            | nil => exact absurd rfl hr
            | cons b rest => rfl
          rw [resolveQualifier_external root layer hlay B hB e rest.dropLast _ m fuel he hd (by omega)]
          simp
  induction n with
  | zero =>
    intro m hm
    have : ∀ path fuel, Down root layer m path → B + 3 + 2 * 0 ≤ fuel →
        matchPath root crates fuel path m ≠ none := by
      intro path fuel hd hf
      rcases hd with h | ⟨_, _, _, _, _, _, _, _, _, hlt⟩ | h
      · exact hout m path fuel (by omega) (.inl h)
      · omega
      · exact hout m path fuel (by omega) (.inr h)
    exact ⟨this, hext 0 m this⟩
  | succ n ih =>
    intro m hm
    have : ∀ path fuel, Down root layer m path → B + 3 + 2 * (n + 1) ≤ fuel →
        matchPath root crates fuel path m ≠ none := by
      intro path fuel hd hf
      rcases hd with h | ⟨hl, kw, rest, x, m0, m', hs, h0, h1, hlt⟩ | h
      · exact hout m path fuel (by omega) (.inl h)
      · obtain ⟨fuel, rfl⟩ : ∃ f, fuel = f + 2 := ⟨fuel - 2, by omega⟩
        have hx : path.segs.getLast? = some x := by
          rw [hs, ← List.cons_append, List.getLast?_concat]
        have hd : path.segs.dropLast = kw :: rest := by
          rw [hs, ← List.cons_append, List.dropLast_concat]
        rw [matchPath, hx]
        simp only [hd]
        rw [if_neg (by simp)]
        rw [resolveQualifier_local root fuel ⟨path.leading, kw :: rest⟩ m m0 m' kw rest [] hl (by simp)
          h0 h1, walk]
        simp only
        obtain ⟨i1, i2⟩ := ih m' (by omega)
        split
        · exact i2 _ (by omega)
        · have hc : collect (matchStep crates x path fun p => matchPath root crates (fuel + 1) p m')
              (candidates x (usesAt root m')) ≠ none := by
            refine collect_ne fun p hp => ?_
            unfold matchStep
            split
            · simp
            · split
              · exact i1 p _ (down_candidate hlay hp) (by omega)
              · simp
          cases hq : collect (matchStep crates x path fun p => matchPath root crates (fuel + 1) p m')
              (candidates x (usesAt root m')) with
          | none => exact absurd hq hc
          | some r => simp
      · exact hout m path fuel (by omega) (.inr h)
    exact ⟨this, hext (n + 1) m this⟩

/-- The search ends for every module, if the imports of the crate are layered; and so does that for a path
in the root of the file, if no type alias is for a path. Missing: crates with globs that form a cycle
(`C89_negation_glob`), cyclic type aliases (`C89_negation_type_alias`); and references from a module
(`C26_negation_module`). -/
theorem C89_terminates_partial (root : Mod) (ty : List Nat → String → Option Path) (name : String)
    (quals : List (List String)) (layer : List Nat → Nat) (hlay : Layered root layer) (B : Nat)
    (hB : ∀ m, layer m ≤ B) :
    (∀ m, ∃ fuel, external root (cratesOf quals) fuel m ≠ none) ∧
    ((∀ m x, ty m x = none) → ∀ path, ∃ fuel, isExternal root ty name quals fuel path [] ≠ none) := by
  have h1 := fun m => (external_total root (cratesOf quals) layer hlay B hB B m (hB m)).2
  refine ⟨fun m => ⟨_, h1 m _ (Nat.le_refl _)⟩, fun hty path => ?_⟩
  obtain ⟨f2, h2⟩ := C26_terminates_partial root layer hlay B hB path ⟨[], none⟩
    (fun _ _ h => nomatch h)
  obtain ⟨o, ho⟩ := Option.ne_none_iff_exists'.1 h2
  have ho' := C75_stable root path ⟨[], none⟩ f2 (f2 + (B + 4 + 2 * B)) o ho (by omega)
  refine ⟨f2 + (B + 4 + 2 * B) + 1, ?_⟩
  rw [isExternal]
  split
  · simp
  · split
    · rename_i he
      exact absurd he (h1 [] _ (by omega))
    · split
      · simp
      · have : refOf root [] = ⟨[], none⟩ := by simp [refOf]
        rw [this, ho']
        cases o with
        | none => simp
        | some x =>
          obtain ⟨m', y⟩ := x
          simp [hty]

/-! ### Examples and counterexamples -/

/-- The qualifiers of the SCALE codec crate, `crates/analyzer/src/resolution.rs:10`. -/
def scaleQuals : List (List String) := [["scale"], ["ink", "scale"], ["parity_scale_codec"]]

/-- No type aliases. -/
def noTypes : List Nat → String → Option Path := fun _ _ => none

/-- `use prelude::Encode; use ink as i; mod prelude { pub use ink::scale::Encode; }`. -/
def preludeCrate : Mod :=
  .mk "" [] [⟨⟨false, ["self", "prelude", "Encode"]⟩, none⟩, ⟨⟨false, ["ink"]⟩, some "i"⟩]
    [.mk "prelude" [] [⟨⟨false, ["ink", "scale", "Encode"]⟩, none⟩] []]

example : isExternal preludeCrate noTypes "Encode" scaleQuals 9 ⟨false, ["Encode"]⟩ [] = some true := by
  decide

example : isExternal preludeCrate noTypes "Encode" scaleQuals 9 ⟨false, ["i", "scale", "Encode"]⟩ [] =
    some true := by
  decide

example : isExternal preludeCrate noTypes "Encode" scaleQuals 9 ⟨false, ["j", "Encode"]⟩ [] =
    some false := by
  decide

/-- A type alias of the file for an imported item: `use ink::scale::Encode; type A = Encode;`. -/
def typeAliasCrate : Mod := .mk "" ["A"] [⟨⟨false, ["ink", "scale", "Encode"]⟩, none⟩] []

/-- Its type. -/
def typeAliasTy : List Nat → String → Option Path :=
  fun m x => if m = [] ∧ x = "A" then some ⟨false, ["Encode"]⟩ else none

theorem typeAlias_recognised :
    isExternal typeAliasCrate typeAliasTy "Encode" scaleQuals 9 ⟨false, ["A"]⟩ [] = some true := by
  decide

/-- `C89_sound_partial` applies to it. -/
example : Is typeAliasCrate typeAliasTy "Encode" scaleQuals [] ⟨false, ["A"]⟩ := by
  have huses : ∀ m, ∀ u ∈ usesAt typeAliasCrate m, u.alias_ = none := by
    intro m u hu
    match m with
    | [] =>
      simp only [usesAt, Mod.at?, typeAliasCrate, Mod.uses, List.mem_singleton] at hu
      rw [hu]
    | i :: m => simp [usesAt, Mod.at?, typeAliasCrate, Mod.mods] at hu
  refine C89_sound_partial _ _ _ _ (by decide) ?_ ?_ ?_ 9 _ _ (.inl rfl) (.inl rfl) typeAlias_recognised
  · intro m u hu h
    exact absurd (huses m u hu) h
  · intro m u hu a h
    rw [huses m u hu] at h
    cases h
  · intro m x p h
    unfold typeAliasTy at h
    split at h
    · rename_i hm
      cases h
      exact ⟨rfl, .inl hm.1⟩
    · cases h

/-- `use ink::scale; use ink as i;`. -/
def moduleCrate : Mod :=
  .mk "" [] [⟨⟨false, ["ink", "scale"]⟩, none⟩, ⟨⟨false, ["ink"]⟩, some "i"⟩] []

theorem moduleCrate_uses (m : List Nat) (u : Use) (h : u ∈ usesAt moduleCrate m) :
    m = [] ∧ (u = ⟨⟨false, ["ink", "scale"]⟩, none⟩ ∨ u = ⟨⟨false, ["ink"]⟩, some "i"⟩) := by
  match m with
  | [] => simpa [usesAt, Mod.at?, moduleCrate, Mod.uses] using h
  | i :: m => simp [usesAt, Mod.at?, moduleCrate, Mod.mods] at h

theorem moduleCrate_named {full : Path} {m : List Nat} {s : String} {m' : List Nat}
    (h : Named .rust moduleCrate full m s m') : False := by
  refine Named.rec (R := .rust) (root := moduleCrate)
    (motive_1 := fun _ p _ _ => p.leading = false →
      p.segs.head? ≠ some "ink" ∧ p.segs.head? ≠ some "scale")
    (motive_2 := fun _ _ _ _ _ => True) (motive_3 := fun _ _ _ _ _ => False)
    ?_ ?_ ?_ ?_ ?_ ?_ ?_ ?_ ?_ ?_ h
  all_goals first
    | (intros; trivial)
    | (intros; contradiction)
    | (intros; simp)
    | skip
  · intro full m n i c _ hn hc
    match m with
    | [] =>
      simp only [Mod.at?, Option.some.injEq] at hn
      subst hn
      simp [moduleCrate, Mod.mods] at hc
    | i :: m => simp [Mod.at?, moduleCrate, Mod.mods] at hn
  · intro full m n u s p m' hn hu hi _ hl ih
    obtain ⟨rfl, rfl | rfl⟩ := moduleCrate_uses m u (mem_usesAt.2 ⟨n, hn, hu⟩)
    · cases hi with
      | alias_ h => cases h
      | last => simp at ih
      | glob init _ h =>
        have := congrArg List.getLast? h
        simp at this
    · cases hi with
      | alias_ h => simp at ih
      | last h => cases h
      | glob init h => cases h

/-- `scale::Encode` is recognised by `C89_complete_partial`, which needs no type aliases. -/
example (fuel : Nat) (h : isExternal moduleCrate noTypes "Encode" [["ink", "scale"]] fuel
      ⟨false, ["scale", "Encode"]⟩ [] ≠ none) :
    isExternal moduleCrate noTypes "Encode" [["ink", "scale"]] fuel ⟨false, ["scale", "Encode"]⟩ [] =
      some true := by
  refine C89_complete_partial moduleCrate ⟨fun _ _ _ _ _ h => (moduleCrate_named h).elim, ?_⟩ noTypes
    "Encode" [["ink", "scale"]] (by decide) ["ink", "scale"] (by simp) (by simp) [] "scale"
    ["ink", "scale"] ["Encode"] ?_ rfl fuel h
  · intro m n hn u1 h1 u2 h2 s ha1 ha2
    obtain ⟨-, rfl | rfl⟩ := moduleCrate_uses m u1 (mem_usesAt.2 ⟨n, hn, h1⟩) <;>
      obtain ⟨-, rfl | rfl⟩ := moduleCrate_uses m u2 (mem_usesAt.2 ⟨n, hn, h2⟩) <;> simp_all
  · exact .direct none [] ⟨⟨false, ["ink", "scale"]⟩, none⟩ "scale" ⟨false, ["ink", "scale"]⟩ "ink"
      (by decide) rfl (.last rfl rfl) (by decide) rfl (by simp)

/-- `i::scale::Encode` is recognised by `C89_alias_partial`. -/
example (fuel : Nat) (h : isExternal moduleCrate noTypes "Encode" [["ink", "scale"]] fuel
      ⟨false, ["i", "scale", "Encode"]⟩ [] ≠ none) :
    isExternal moduleCrate noTypes "Encode" [["ink", "scale"]] fuel
      ⟨false, ["i", "scale", "Encode"]⟩ [] = some true := by
  refine C89_alias_partial moduleCrate noTypes "Encode" [["ink", "scale"]] ["ink", "scale"] (by simp) []
    "i" ["scale", "Encode"] ⟨⟨false, ["ink"]⟩, some "i"⟩ (by decide) rfl ⟨"ink", by decide, rfl⟩ ?_ ?_ rfl
    fuel h
  · intro v hv ha
    obtain ⟨-, rfl | rfl⟩ := moduleCrate_uses [] v hv
    · cases ha
    · rfl
  · intro v hv ha
    obtain ⟨-, rfl | rfl⟩ := moduleCrate_uses [] v hv
    · exact .inl ⟨"ink", by decide, rfl⟩
    · cases ha

/-- `use pre::E as F; mod pre { use ink::scale::Encode as E; }`. -/
def passCrate : Mod :=
  .mk "" [] [⟨⟨false, ["pre", "E"]⟩, some "F"⟩]
    [.mk "pre" [] [⟨⟨false, ["ink", "scale", "Encode"]⟩, some "E"⟩] []]

theorem passCrate_at {m : List Nat} {n : Mod} (h : passCrate.at? m = some n) : m = [] ∨ m = [0] := by
  match m with
  | [] => exact .inl rfl
  | [0] => exact .inr rfl
  | (i + 1) :: m => simp [Mod.at?, passCrate, Mod.mods] at h
  | 0 :: i :: m => simp [Mod.at?, passCrate, Mod.mods] at h

theorem imports_alias {u : Use} {s a : String} {p : Path} (ha : u.alias_ = some a) (h : Imports u s p) :
    s = a ∧ p = u.path := by
  cases h with
  | alias_ h =>
    rw [ha] at h
    exact ⟨(Option.some.inj h).symm, rfl⟩
  | last h =>
    rw [ha] at h
    cases h
  | glob _ h =>
    rw [ha] at h
    cases h

theorem passCrate_inner {full : Path} {s : String} {m' : List Nat}
    (h : Named .rust passCrate full [0] s m') : s = "E" ∧ ∃ full' m'', Named .rust passCrate full' [0] "ink" m'' := by
  generalize hm : [0] = m at h
  cases h with
  | child _ _ n i c _ h2 h3 =>
    subst hm
    have := Option.some.inj h2
    subst this
    simp [Mod.mods] at h3
  | use _ _ n u _ p _ h1 h2 h3 h4 h5 =>
    subst hm
    have := Option.some.inj h1
    subst this
    simp only [Mod.uses, List.mem_singleton] at h2
    subst h2
    obtain ⟨rfl, rfl⟩ := imports_alias rfl h3
    refine ⟨rfl, ?_⟩
    generalize hp : (⟨false, ["ink", "scale", "Encode"]⟩ : Path) = p at h5
    generalize hm : [0] = m at h5
    cases h5 with
    | global => cases hp
    | crate => simp at hp
    | self => simp at hp
    | super => simp at hp
    | name _ s ss m1 _ _ _ _ hn =>
      simp only [Path.mk.injEq, List.cons.injEq] at hp
      obtain ⟨-, rfl, -⟩ := hp
      exact ⟨_, _, hn⟩

theorem passCrate_named0 {full : Path} {s : String} {m' : List Nat}
    (h : Named .rust passCrate full [0] s m') : False := by
  obtain ⟨-, f, m, h⟩ := passCrate_inner h
  exact absurd (passCrate_inner h).1 (by decide)

theorem passCrate_named {full : Path} {s : String} {m' : List Nat}
    (h : Named .rust passCrate full [] s m') : (s = "pre" ∧ m' = [0]) ∨ (s = "F" ∧ ∃ full' m1 m2,
      Named .rust passCrate full' [] "pre" m1 ∧ Named .rust passCrate full' m1 "E" m2) := by
  generalize hm : [] = m at h
  cases h with
  | child _ _ n i c _ h2 h3 =>
    subst hm
    have := Option.some.inj h2
    subst this
    match i with
    | 0 =>
      simp only [passCrate, Mod.mods, List.getElem?_cons_zero, Option.some.injEq] at h3
      subst h3
      exact .inl ⟨rfl, rfl⟩
    | i + 1 => simp [passCrate, Mod.mods] at h3
  | use _ _ n u _ p _ h1 h2 h3 h4 h5 =>
    subst hm
    have := Option.some.inj h1
    subst this
    simp only [passCrate, Mod.uses, List.mem_singleton] at h2
    subst h2
    obtain ⟨rfl, rfl⟩ := imports_alias rfl h3
    refine .inr ⟨rfl, ?_⟩
    generalize hp : (⟨false, ["pre", "E"]⟩ : Path) = p at h5
    generalize hm : ([] : List Nat) = m at h5
    cases h5 with
    | global => cases hp
    | crate => simp at hp
    | self => simp at hp
    | super => simp at hp
    | name _ s ss m1 _ _ _ _ hn hw =>
      simp only [Path.mk.injEq, List.cons.injEq] at hp
      obtain ⟨-, rfl, rfl⟩ := hp
      subst hm
      exact ⟨_, _, _, hn, walks_single (by decide) hw⟩

theorem passCrate_root {full : Path} {s : String} {m' : List Nat}
    (h : Named .rust passCrate full [] s m') : s = "pre" ∧ m' = [0] := by
  rcases passCrate_named h with h | ⟨-, f, m1, m2, h1, h2⟩
  · exact h
  · rcases passCrate_named h1 with ⟨-, rfl⟩ | ⟨h, -⟩
    · exact (passCrate_named0 h2).elim
    · exact absurd h (by decide)

theorem passCrate_unambiguous : Unambiguous passCrate := by
  constructor
  · intro full m s m1 m2 h1 h2
    have hm : ∃ n, passCrate.at? m = some n := by
      cases h1 with
      | child _ _ n _ _ _ h => exact ⟨n, h⟩
      | use _ _ n _ _ _ _ h => exact ⟨n, h⟩
    obtain ⟨n, hm⟩ := hm
    rcases passCrate_at hm with rfl | rfl
    · rw [(passCrate_root h1).2, (passCrate_root h2).2]
    · exact (passCrate_named0 h1).elim
  · intro m n hn u1 h1 u2 h2 s ha1 ha2
    rcases passCrate_at hn with rfl | rfl <;> have := Option.some.inj hn <;> subst this <;>
      simp [Mod.uses, passCrate] at h1 h2 <;> rw [h1, h2]

/-- `F` is recognised by `C89_renamed_partial`. -/
example (fuel : Nat) (h : isExternal passCrate noTypes "Encode" [["ink", "scale"]] fuel
      ⟨false, ["F"]⟩ [] ≠ none) :
    isExternal passCrate noTypes "Encode" [["ink", "scale"]] fuel ⟨false, ["F"]⟩ [] = some true := by
  refine C89_renamed_partial passCrate passCrate_unambiguous noTypes "Encode" [["ink", "scale"]]
    ["ink", "scale"] (by simp) [] [0] "F" "E" ["pre"] ["ink", "scale", "Encode"] []
    ⟨⟨false, ["pre", "E"]⟩, some "F"⟩ (by decide) rfl rfl (by decide) (by decide) ?_ ?_ ?_ ?_ (by decide)
    ⟨"ink", by decide, rfl⟩ ?_ rfl fuel h
  · exact .name _ _ _ [0] _ (by decide) (by decide) (by decide) (.child _ [] passCrate 0 _ rfl rfl rfl)
      (.nil ..)
  · intro v hv ha
    simpa [usesAt, Mod.at?, passCrate, Mod.uses] using hv
  · intro v hv ha
    simp only [usesAt, Mod.at?, passCrate, Mod.uses, List.mem_singleton] at hv
    rw [hv] at ha
    cases ha
  · exact ⟨⟨⟨false, ["ink", "scale", "Encode"]⟩, some "E"⟩, by decide, _, .alias_ rfl⟩
  · intro v hv p hi
    simp only [usesAt, Mod.at?, passCrate, Mod.uses, Mod.mods, List.getElem?_cons_zero, Option.bind_some,
      List.mem_singleton] at hv
    subst hv
    rw [(imports_alias rfl hi).2]

/-- `::ink::scale::Encode` in a file without imports: `C89_sound_partial` applies. -/
example : isExternal (.mk "" [] [] []) noTypes "Encode" scaleQuals 9 ⟨true, ["ink", "scale", "Encode"]⟩ [] =
      some true ∧ NoCrateAliases (.mk "" [] [] []) (cratesOf scaleQuals) [] := by
  refine ⟨by decide, ?_⟩
  intro a c h
  cases h with
  | use _ u _ _ _ hu => simp [usesAt, Mod.at?, Mod.uses] at hu

/-- The searches of `C89_terminates_partial` end in it. -/
example (path : Path) : ∃ fuel, isExternal moduleCrate noTypes "Encode" scaleQuals fuel path [] ≠ none := by
  refine (C89_terminates_partial moduleCrate noTypes "Encode" scaleQuals (fun _ => 0) ?_ 0
    (fun _ => Nat.le_refl _)).2 (fun _ _ => rfl) path
  intro m u hu hlen
  obtain ⟨rfl, rfl | rfl⟩ := moduleCrate_uses m u hu
  · refine .inr ⟨"ink", ["scale"], rfl, by simp, by simp, by simp, by simp, by simp, ?_, ?_⟩
    · intro c hc
      cases hc
    · intro m u hu hlen
      obtain ⟨-, rfl | rfl⟩ := moduleCrate_uses m u hu
      · simp
      · simp at hlen
  · simp at hlen

/-- `pub use a::*; mod a { use super::*; }`, which is valid Rust. -/
def globLoop : Mod :=
  .mk "" [] [⟨⟨false, ["a", "*"]⟩, none⟩] [.mk "a" [] [⟨⟨false, ["super", "*"]⟩, none⟩] []]

theorem globLoop_never (crates : List String) (ha : "a" ∉ crates) (hs : "super" ∉ crates) (fuel : Nat) :
    external globLoop crates fuel [] = none ∧ external globLoop crates fuel [0] = none := by
  have c1 : crateItem crates ⟨false, ["a", "*"]⟩ = false := by simp [crateItem, ha]
  have c2 : crateItem crates ⟨false, ["super", "*"]⟩ = false := by simp [crateItem, hs]
  have key : ∀ fuel, (∀ f, f < fuel →
      external globLoop crates f [] = none ∧ external globLoop crates f [0] = none) →
      external globLoop crates fuel [] = none ∧ external globLoop crates fuel [0] = none := by
    intro fuel ih
    match fuel with
    | 0 => exact ⟨rfl, rfl⟩
    | 1 =>
      refine ⟨?_, ?_⟩
      · have h0 : (scopeOf globLoop []).uses = [⟨false, ["a", "*"]⟩] := rfl
        rw [external, finish]
        simp [h0, c1, collect, matchPath]
      · have h0 : (scopeOf globLoop [0]).uses = [⟨false, ["super", "*"]⟩] := rfl
        rw [external, finish]
        simp [h0, c2, collect, matchPath]
    | 2 =>
      refine ⟨?_, ?_⟩
      · have h0 : (scopeOf globLoop []).uses = [⟨false, ["a", "*"]⟩] := rfl
        rw [external, finish]
        simp [h0, c1, collect, matchPath, resolveQualifier]
      · have h0 : (scopeOf globLoop [0]).uses = [⟨false, ["super", "*"]⟩] := rfl
        rw [external, finish]
        simp [h0, c2, collect, matchPath, resolveQualifier]
    | f + 3 =>
      obtain ⟨i1, i2⟩ := ih (f + 1) (by omega)
      refine ⟨?_, ?_⟩
      · have h0 : (scopeOf globLoop []).uses = [⟨false, ["a", "*"]⟩] := rfl
        have h1 : resolveQualifier globLoop (f + 1) ⟨false, ["a"]⟩ [] = some (some [0]) := rfl
        rw [external, finish]
        simp [h0, c1, collect, matchPath, h1, i2]
      · have h0 : (scopeOf globLoop [0]).uses = [⟨false, ["super", "*"]⟩] := rfl
        have h1 : resolveQualifier globLoop (f + 1) ⟨false, ["super"]⟩ [0] = some (some []) := rfl
        rw [external, finish]
        simp [h0, c2, collect, matchPath, h1, i1]
  induction fuel using Nat.strongRecOn with
  | ind fuel ih => exact key fuel ih

/-- The analyzer does not terminate for a crate that re-exports a module with a glob, if that module
imports its parent with a glob, as is usual for modules of tests: `pub use a::*; mod a { use super::*; }`.
The search never ends, whatever path is asked for (unless it is spelled in full). -/
theorem C89_negation_glob (path : Path) (h : isDirect "Encode" path scaleQuals = false) (fuel : Nat) :
    isExternal globLoop noTypes "Encode" scaleQuals fuel path [] = none := by
  cases fuel with
  | zero => rfl
  | succ fuel =>
    rw [isExternal, (globLoop_never (cratesOf scaleQuals) (by decide) (by decide) fuel).1, h]
    rfl

example : isDirect "Encode" ⟨false, ["Encode"]⟩ scaleQuals = false := by decide

/-- `type A = B; type B = A;`. -/
def typeLoop : Mod := .mk "" ["A", "B"] [] []

/-- Their types. -/
def typeLoopTy : List Nat → String → Option Path
  | [], "A" => some ⟨false, ["B"]⟩
  | [], "B" => some ⟨false, ["A"]⟩
  | _, _ => none

theorem typeLoop_never (fuel : Nat) :
    isExternal typeLoop typeLoopTy "Encode" scaleQuals fuel ⟨false, ["A"]⟩ [] = none ∧
    isExternal typeLoop typeLoopTy "Encode" scaleQuals fuel ⟨false, ["B"]⟩ [] = none := by
  induction fuel with
  | zero => exact ⟨rfl, rfl⟩
  | succ fuel ih =>
    cases fuel with
    | zero => exact ⟨by decide, by decide⟩
    | succ fuel =>
      have h0 : external typeLoop (cratesOf scaleQuals) (fuel + 1) [] = some ⟨[], []⟩ := rfl
      have hr : refOf typeLoop [] = ⟨[], none⟩ := rfl
      have h1 : resolveItem typeLoop (fuel + 1) ⟨false, ["A"]⟩ ⟨[], none⟩ = some (some ([], "A")) := rfl
      have h2 : resolveItem typeLoop (fuel + 1) ⟨false, ["B"]⟩ ⟨[], none⟩ = some (some ([], "B")) := rfl
      constructor
      · rw [isExternal, if_neg (by decide), h0]
        simp only
        rw [if_neg (by decide), hr, h1]
        exact ih.2
      · rw [isExternal, if_neg (by decide), h0]
        simp only
        rw [if_neg (by decide), hr, h2]
        exact ih.1

/-- The analyzer does not terminate for a path to a type alias that refers to itself, e.g. for
`impl A for X {}` while `type A = B; type B = A;` is in the file (which does not compile, but is what the
editor may hold). -/
theorem C89_negation_type_alias (fuel : Nat) :
    isExternal typeLoop typeLoopTy "Encode" scaleQuals fuel ⟨false, ["A"]⟩ [] = none :=
  (typeLoop_never fuel).1

/-- `use ink as i;`. -/
def aliasCrate : Mod := .mk "" [] [⟨⟨false, ["ink"]⟩, some "i"⟩] []

theorem aliasCrate_named {full : Path} {m : List Nat} {s : String} {m' : List Nat}
    (h : Named .rust aliasCrate full m s m') : False := by
  refine Named.rec (R := .rust) (root := aliasCrate)
    (motive_1 := fun _ p _ _ => p.leading = false → p.segs.head? ≠ some "ink")
    (motive_2 := fun _ _ _ _ _ => True) (motive_3 := fun _ _ _ _ _ => False)
    ?_ ?_ ?_ ?_ ?_ ?_ ?_ ?_ ?_ ?_ h
  all_goals first
    | (intros; trivial)
    | (intros; contradiction)
    | (intros; simp)
    | skip
  · intro full m n i c _ hn hc
    match m with
    | [] =>
      simp only [Mod.at?, Option.some.injEq] at hn
      subst hn
      simp [aliasCrate, Mod.mods] at hc
    | i :: m => simp [Mod.at?, aliasCrate, Mod.mods] at hn
  · intro full m n u s p m' hn hu hi _ hl ih
    have hu' : u = ⟨⟨false, ["ink"]⟩, some "i"⟩ := by
      have := mem_usesAt.2 ⟨n, hn, hu⟩
      match m with
      | [] => simpa [usesAt, Mod.at?, aliasCrate, Mod.uses] using this
      | i :: m => simp [usesAt, Mod.at?, aliasCrate, Mod.mods] at this
    subst hu'
    cases hi with
    | alias_ h => simp at ih
    | last h => cases h
    | glob init h => cases h

/-- `::i::scale::Encode` is recognised where `i` is only an alias of the module, although a leading `::`
stands for the crates themselves: there is none named `i`. -/
theorem C89_negation_global :
    isExternal aliasCrate noTypes "Encode" scaleQuals 9 ⟨true, ["i", "scale", "Encode"]⟩ [] = some true ∧
    "i" ∉ cratesOf scaleQuals ∧ aliasCrate.mods.isEmpty ∧
    ∀ m, ¬ ∃ e, Refers aliasCrate (cratesOf scaleQuals) m ⟨true, ["i", "scale", "Encode"]⟩ e := by
  refine ⟨by decide, by decide, rfl, ?_⟩
  rintro m ⟨e, h⟩
  generalize hp : (⟨true, ["i", "scale", "Encode"]⟩ : Path) = p at h
  cases h with
  | crate _ l c ss hc =>
    cases hp
    exact absurd hc (by decide)
  | name => cases hp
  | qualified _ l q m' x rest e hl =>
    simp only [Path.mk.injEq] at hp
    obtain ⟨rfl, -⟩ := hp
    cases hl with
    | global _ s ss m1 m' hn => exact aliasCrate_named hn

/-- `use ink::scale::Encode;`. -/
def importCrate : Mod := .mk "" [] [⟨⟨false, ["ink", "scale", "Encode"]⟩, none⟩] []

/-- `::Encode` is recognised where `Encode` is only imported, although a leading `::` makes it the name of a
crate. -/
theorem C89_negation_global_name :
    isExternal importCrate noTypes "Encode" scaleQuals 9 ⟨true, ["Encode"]⟩ [] = some true ∧
    "Encode" ∉ cratesOf scaleQuals ∧
    ¬ ∃ e, Refers importCrate (cratesOf scaleQuals) [] ⟨true, ["Encode"]⟩ e := by
  refine ⟨by decide, by decide, ?_⟩
  rintro ⟨e, h⟩
  generalize hp : (⟨true, ["Encode"]⟩ : Path) = p at h
  cases h with
  | crate _ l c ss hc =>
    cases hp
    exact absurd hc (by decide)
  | name => cases hp
  | qualified _ l q m' x rest e hl =>
    simp only [Path.mk.injEq] at hp
    obtain ⟨rfl, hq⟩ := hp
    have := leads_nonempty hl
    cases q with
    | nil => exact absurd rfl this
    | cons _ q =>
      have := congrArg List.length hq
      simp at this

theorem named_child {root : Mod} (full : Path) (i : Nat) (c : Mod) {s : String}
    (h : root.mods[i]? = some c) (hs : c.name = s) : Named .rust root full [] s [i] := by
  subst hs
  exact .child full [] root i c trivial rfl h

/-- `mod inner { pub use ink::scale::Encode; } mod pre { pub use super::inner::Encode as E; } use pre::E;`.
-/
def renameCrate : Mod :=
  .mk "" [] [⟨⟨false, ["pre", "E"]⟩, none⟩]
    [.mk "inner" [] [⟨⟨false, ["ink", "scale", "Encode"]⟩, none⟩] [],
      .mk "pre" [] [⟨⟨false, ["super", "inner", "Encode"]⟩, some "E"⟩] []]

/-- A module that renames what another module of the crate imports: the new name is not recognised, and
the old one is, although the module that uses it does not import it. -/
theorem C89_negation_rename :
    isExternal renameCrate noTypes "Encode" scaleQuals 9 ⟨false, ["E"]⟩ [] = some false ∧
    Is renameCrate noTypes "Encode" scaleQuals [] ⟨false, ["E"]⟩ ∧
    isExternal renameCrate noTypes "Encode" scaleQuals 9 ⟨false, ["Encode"]⟩ [] = some true ∧
    ∀ u ∈ usesAt renameCrate [], ∀ p, ¬ Imports u "Encode" p := by
  refine ⟨by decide, ?_, by decide, ?_⟩
  · refine .imports _ _ ["ink", "scale"] (by decide) ?_
    refine .name _ "E" [] ["ink", "scale", "Encode"] (.use _ ⟨⟨false, ["pre", "E"]⟩, none⟩ _ _ _
      (by decide) (.last rfl rfl) ?_)
    refine .qualified _ false ["pre"] [1] "E" [] ["ink", "scale", "Encode"] ?_
      (.use _ ⟨⟨false, ["super", "inner", "Encode"]⟩, some "E"⟩ _ _ _ (by decide) (.alias_ rfl) ?_)
    · exact .name _ _ _ [1] _ (by decide) (by decide) (by decide)
        (named_child _ 1 _ rfl rfl) (.nil ..)
    · refine .qualified _ false ["super", "inner"] [0] "Encode" [] ["ink", "scale", "Encode"] ?_
        (.use _ ⟨⟨false, ["ink", "scale", "Encode"]⟩, none⟩ _ _ _ (by decide) (.last rfl rfl) ?_)
      · exact .super [] 1 _ _ (.cons _ _ _ _ [0] _ (named_child _ 0 _ rfl rfl) (.nil ..))
      · exact .crate _ _ _ _ (by decide)
  · intro u hu p h
    simp only [usesAt, Mod.at?, renameCrate, Mod.uses, List.mem_singleton] at hu
    subst hu
    cases h with
    | alias_ h => cases h
    | last _ h => simp at h
    | glob init _ h =>
      have := congrArg List.getLast? h
      simp at this

/-- `use ink::scale::*; use other::Encode;`. -/
def shadowCrate : Mod :=
  .mk "" [] [⟨⟨false, ["ink", "scale", "*"]⟩, none⟩, ⟨⟨false, ["other", "Encode"]⟩, none⟩] []

/-- With a glob import of the crate, a name is recognised as an item of it although the file imports that
name from elsewhere, which takes precedence in Rust. -/
theorem C89_negation_shadow :
    isExternal shadowCrate noTypes "Encode" scaleQuals 9 ⟨false, ["Encode"]⟩ [] = some true ∧
    (⟨⟨false, ["other", "Encode"]⟩, none⟩ : Use) ∈ usesAt shadowCrate [] ∧
    "other" ∉ cratesOf scaleQuals := by
  decide

/-- `use ink as i; use i::scale::Encode;`. -/
def crateAliasCrate : Mod :=
  .mk "" [] [⟨⟨false, ["ink"]⟩, some "i"⟩, ⟨⟨false, ["i", "scale", "Encode"]⟩, none⟩] []

/-- An item imported by way of an alias of its crate is not recognised. -/
theorem C89_negation_crate_alias :
    isExternal crateAliasCrate noTypes "Encode" scaleQuals 9 ⟨false, ["Encode"]⟩ [] = some false ∧
    Is crateAliasCrate noTypes "Encode" scaleQuals [] ⟨false, ["Encode"]⟩ := by
  refine ⟨by decide, .imports _ _ ["ink", "scale"] (by decide) ?_⟩
  refine .name _ "Encode" [] ["ink", "scale", "Encode"] (.use _
    ⟨⟨false, ["i", "scale", "Encode"]⟩, none⟩ _ _ _ (by decide) (.last rfl rfl) ?_)
  refine .name _ "i" ["scale", "Encode"] ["ink"] (.use _ ⟨⟨false, ["ink"]⟩, some "i"⟩ _ _ _ (by decide)
    (.alias_ rfl) ?_)
  exact .crate _ _ _ _ (by decide)

/-- `mod prelude { pub use ink::scale::Encode; }`. -/
def qualifiedCrate : Mod :=
  .mk "" [] [] [.mk "prelude" [] [⟨⟨false, ["ink", "scale", "Encode"]⟩, none⟩] []]

/-- An item that a module of the crate imports is not recognised by its path in that module, e.g.
`impl prelude::Encode for S {}`. -/
theorem C89_negation_qualified :
    isExternal qualifiedCrate noTypes "Encode" scaleQuals 9 ⟨false, ["prelude", "Encode"]⟩ [] =
      some false ∧
    Is qualifiedCrate noTypes "Encode" scaleQuals [] ⟨false, ["prelude", "Encode"]⟩ := by
  refine ⟨by decide, .imports _ _ ["ink", "scale"] (by decide) ?_⟩
  refine .qualified _ false ["prelude"] [0] "Encode" [] ["ink", "scale", "Encode"] ?_
    (.use _ ⟨⟨false, ["ink", "scale", "Encode"]⟩, none⟩ _ _ _ (by decide) (.last rfl rfl) ?_)
  · exact .name _ _ _ [0] _ (by decide) (by decide) (by decide)
      (named_child _ 0 _ rfl rfl) (.nil ..)
  · exact .crate _ _ _ _ (by decide)

end Verif.Analyzer.External
