import Verif.Ir.Resolve

/-!
# C26: item resolution terminates

The claim is false: two glob imports of external crates in one module, or a cycle of glob
re-exports, or a cycle of aliases, make the code recurse for ever. It is proved for crates
whose imports are layered.
-/

namespace Verif.Ir.Resolve

/-! ## Specification -/

/-- Resolution of a path from a reference node finishes. -/
def Terminates (root : Mod) (path : Path) (r : Ref) : Prop :=
  ∃ fuel, resolveItem root fuel path r ≠ none

/-- The module a keyword segment denotes. -/
def keywordModule (m : List Nat) (kw : String) : Option (List Nat) :=
  if kw = "crate" then some []
  else if kw = "self" then some m
  else if kw = "super" then (if m = [] then none else some m.dropLast)
  else none

/-- Following module names downwards, as far as the code does: from the file to one of its
modules. -/
def descend (root : Mod) : List Nat → List String → Option (List Nat)
  | m, [] => some m
  | [], [s] => (root.mods.findIdx? fun c => c.name == s).map fun i => [i]
  | _, _ => none

/-- An import of module `m` that names items of an existing module of a lower layer, from
`crate`, `self` or `super`. -/
def LocalUse (root : Mod) (layer : List Nat → Nat) (m : List Nat) (u : Use) : Prop :=
  u.path.leading = false ∧ ∃ kw rest x m0 m', u.path.segs = kw :: rest ++ [x] ∧
    keywordModule m kw = some m0 ∧ descend root m0 rest = some m' ∧ layer m' < layer m

/-- A name that denotes nothing in the crate: no keyword, no module, no alias and no
imported name. -/
def ExternalName (root : Mod) (e : String) : Prop :=
  e ≠ "crate" ∧ e ≠ "self" ∧ e ≠ "super" ∧ (∀ c ∈ root.mods, c.name ≠ e) ∧
    ∀ m, ∀ u ∈ usesAt root m, 2 ≤ u.path.segs.length →
      u.alias_ ≠ some e ∧ (u.alias_ = none → u.path.segs.getLast? ≠ some e)

/-- An import from another crate that is not a glob. -/
def ExternalUse (root : Mod) (u : Use) : Prop :=
  ∃ e rest, u.path.segs = e :: rest ∧ rest ≠ [] ∧ u.path.segs.getLast? ≠ some "*" ∧
    ExternalName root e

/-- The imports of the crate are layered: each one goes to a lower layer or to another
crate. -/
def Layered (root : Mod) (layer : List Nat → Nat) : Prop :=
  ∀ m, ∀ u ∈ usesAt root m, 2 ≤ u.path.segs.length → LocalUse root layer m u ∨ ExternalUse root u

/-! ## Lemmas -/

theorem findMap_ne {f : α → Option (Option β)} {l : List α} (h : ∀ x ∈ l, f x ≠ none) :
    findMap f l ≠ none := by
  induction l with
  | nil => simp [findMap]
  | cons x xs ih =>
    rw [findMap]
    have hx := h x (by simp)
    have := ih (fun y hy => h y (List.mem_cons_of_mem _ hy))
    split
    · contradiction
    · simp
    · exact this

theorem findMap_none {f : α → Option (Option β)} {l : List α} (h : ∀ x ∈ l, f x = some none) :
    findMap f l = some none := by
  induction l with
  | nil => rfl
  | cons x xs ih =>
    rw [findMap, h x (by simp)]
    exact ih (fun y hy => h y (List.mem_cons_of_mem _ hy))

theorem mem_candidates {name : String} {uses : List Use} {p : Path} (h : p ∈ candidates name uses) :
    ∃ u ∈ uses, 2 ≤ u.path.segs.length ∧ p.leading = u.path.leading ∧
      ((u.alias_ = some name ∧ p = u.path) ∨
       (u.alias_ = none ∧ u.path.segs.getLast? = some name ∧ p = u.path) ∨
       (u.alias_ = none ∧ u.path.segs.getLast? = some "*" ∧
          p.segs = u.path.segs.dropLast ++ [name])) := by
  unfold candidates at h
  rw [List.mem_filter, List.mem_append] at h
  obtain ⟨h, hlen⟩ := h
  simp only [decide_eq_true_eq] at hlen
  rcases h with h | h
  · rw [Option.mem_toList, Option.map_eq_some_iff] at h
    obtain ⟨u, hu, rfl⟩ := h
    refine ⟨u, ?_, hlen, rfl, Or.inl ⟨by simpa using List.find?_some hu, rfl⟩⟩
    have := List.mem_of_find?_eq_some hu
    simpa using this
  · rw [List.mem_filterMap] at h
    obtain ⟨u, hu, h⟩ := h
    rw [List.mem_filter] at hu
    have hnone : u.alias_ = none := by simpa using hu.2
    split at h
    · rename_i hc
      have := Option.some.inj h
      subst this
      exact ⟨u, hu.1, hlen, rfl, Or.inr (Or.inl ⟨hnone, hc.1, rfl⟩)⟩
    · split at h
      · rename_i hc
        have := Option.some.inj h
        subst this
        refine ⟨u, hu.1, ?_, rfl, Or.inr (Or.inr ⟨hnone, hc.1, rfl⟩)⟩
        simp at hlen
        omega
      · simp at h

theorem walk_descend (root : Mod) (rec : Path → List Nat → Option (Option (List Nat)))
    (path : Path) (m m' : List Nat) (ss tail : List String) (h : descend root m ss = some m') :
    walk root rec path m (ss ++ tail) = walk root rec path m' tail := by
  cases ss with
  | nil =>
    have : m = m' := by
      cases m <;> exact Option.some.inj h
    subst this
    rfl
  | cons s ss =>
    cases m with
    | cons i m => simp [descend] at h
    | nil =>
      cases ss with
      | cons s' ss => exact (nomatch h)
      | nil =>
        have hc : childNamed root [] s = some m' := h
        rw [List.cons_append, walk, nextChild, hc]
        rfl

theorem external_child (root : Mod) (e : String) (he : ExternalName root e) (m : List Nat) :
    childNamed root m e = none := by
  unfold childNamed
  split
  · rw [Option.map_eq_none_iff, List.findIdx?_eq_none_iff]
    intro c hc
    simpa using he.2.2.2.1 c hc
  · rfl

theorem firstSegment_keyword (root : Mod) (rec : Path → List Nat → Option (Option (List Nat)))
    (path : Path) (m m0 : List Nat) (kw : String) (hl : path.leading = false)
    (h : keywordModule m kw = some m0) : firstSegment root rec path m kw = some (some m0) := by
  unfold keywordModule at h
  unfold firstSegment
  rw [hl, if_neg (by simp)]
  split at h
  · rename_i hk
    rw [if_pos hk, h]
  · rename_i hk
    rw [if_neg hk]
    split at h
    · rename_i hk
      rw [if_pos hk, h]
    · rename_i hk
      rw [if_neg hk]
      split at h
      · rename_i hk
        rw [if_pos hk, h]
      · simp at h

/-- Resolving `kw :: rest ++ tail` where `kw :: rest` names an existing module. -/
theorem resolveQualifier_local (root : Mod) (fuel : Nat) (path : Path) (m m0 m' : List Nat)
    (kw : String) (rest tail : List String) (hl : path.leading = false)
    (hs : path.segs = kw :: (rest ++ tail)) (h0 : keywordModule m kw = some m0)
    (h1 : descend root m0 rest = some m') :
    resolveQualifier root (fuel + 1) path m =
      walk root (resolveQualifier root fuel) path m' tail := by
  rw [resolveQualifier, hs]
  simp only []
  rw [firstSegment_keyword root _ path m m0 kw hl h0]
  exact walk_descend root _ path m0 m' rest tail h1

/-- A candidate for `name` in a layered module either goes down a layer, ending in some
name that equals `name` for glob imports, or leaves the crate. -/
theorem candidate_cases (root : Mod) (layer : List Nat → Nat) (m : List Nat) (uses : List Use)
    (hu : ∀ u ∈ uses, 2 ≤ u.path.segs.length → LocalUse root layer m u ∨ ExternalUse root u)
    (name : String) (p : Path) (hp : p ∈ candidates name uses) :
    (p.leading = false ∧ ∃ kw rest x m0 m', p.segs = kw :: (rest ++ [x]) ∧
      keywordModule m kw = some m0 ∧ descend root m0 rest = some m' ∧ layer m' < layer m) ∨
    (∃ e rest, p.segs = e :: rest ∧ rest ≠ [] ∧ ExternalName root e) := by
  obtain ⟨u, humem, hlen, hlead, hcase⟩ := mem_candidates hp
  rcases hu u humem hlen with ⟨hl, kw, rest, x, m0, m', hs, h0, h1, hlt⟩ | ⟨e, rest, hs, hr, hng, he⟩
  · left
    refine ⟨by rw [hlead, hl], ?_⟩
    rcases hcase with ⟨_, rfl⟩ | ⟨_, _, rfl⟩ | ⟨_, _, hps⟩
    · exact ⟨kw, rest, x, m0, m', hs, h0, h1, hlt⟩
    · exact ⟨kw, rest, x, m0, m', hs, h0, h1, hlt⟩
    · refine ⟨kw, rest, name, m0, m', ?_, h0, h1, hlt⟩
      rw [hps, hs, List.dropLast_concat]
      rfl
  · right
    rcases hcase with ⟨_, rfl⟩ | ⟨_, _, rfl⟩ | ⟨_, hglob, _⟩
    · exact ⟨e, rest, hs, hr, he⟩
    · exact ⟨e, rest, hs, hr, he⟩
    · exact absurd hglob hng

/-- Looking up an external name finds nothing, and finishes. -/
theorem nextChild_external (root : Mod) (layer : List Nat → Nat) (hlay : Layered root layer)
    (e : String) (he : ExternalName root e) (n : Nat) : ∀ (m : List Nat) (path : Path) (fuel : Nat),
    layer m ≤ n → n + 1 ≤ fuel →
    nextChild root (resolveQualifier root fuel) path m e = some none := by
  induction n with
  | zero =>
    intro m path fuel hm hf
    rw [nextChild, external_child root e he m]
    simp only []
    apply findMap_none
    intro p hp
    exfalso
    obtain ⟨u, humem, hlen, hlead, hcase⟩ := mem_candidates hp
    obtain ⟨h1, h2⟩ := he.2.2.2.2 m u humem hlen
    rcases hcase with ⟨h, _⟩ | ⟨h, h', _⟩ | ⟨h, h', _⟩
    · exact h1 h
    · exact h2 h h'
    · rcases hlay m u humem hlen with ⟨_, _, _, _, _, _, _, _, _, hlt⟩ | ⟨_, _, _, _, hng, _⟩
      · omega
      · exact hng h'
  | succ n ih =>
    intro m path fuel hm hf
    rw [nextChild, external_child root e he m]
    simp only []
    apply findMap_none
    intro p hp
    split
    · obtain ⟨u, humem, hlen, hlead, hcase⟩ := mem_candidates hp
      obtain ⟨h1, h2⟩ := he.2.2.2.2 m u humem hlen
      rcases hcase with ⟨h, _⟩ | ⟨h, h', _⟩ | ⟨h, h', hps⟩
      · exact absurd h h1
      · exact absurd h' (h2 h)
      · rcases hlay m u humem hlen with ⟨hl, kw, rest, x, m0, m', hs, hk0, hk1, hlt⟩ |
          ⟨_, _, _, _, hng, _⟩
        · obtain ⟨fuel, rfl⟩ : ∃ f, fuel = f + 1 := ⟨fuel - 1, by omega⟩
          rw [resolveQualifier_local root fuel p m m0 m' kw rest [e] (by rw [hlead, hl])
            (by rw [hps, hs, List.dropLast_concat]; rfl) hk0 hk1, walk,
            ih m' p fuel (by omega) (by omega)]
        · exact absurd h' hng
    · rfl

/-- Leaving the crate finds nothing, and finishes. -/
theorem resolveQualifier_external (root : Mod) (layer : List Nat → Nat) (hlay : Layered root layer)
    (B : Nat) (hB : ∀ m, layer m ≤ B) (e : String) (rest : List String) (path : Path)
    (m : List Nat) (fuel : Nat) (he : ExternalName root e) (hs : path.segs = e :: rest)
    (hf : B + 2 ≤ fuel) : resolveQualifier root fuel path m = some none := by
  obtain ⟨fuel, rfl⟩ : ∃ f, fuel = f + 1 := ⟨fuel - 1, by omega⟩
  rw [resolveQualifier, hs]
  simp only []
  have : firstSegment root (resolveQualifier root fuel) path m e = some none := by
    unfold firstSegment
    split
    · exact nextChild_external root layer hlay e he B [] path fuel (hB _) (by omega)
    · rw [if_neg he.1, if_neg he.2.1, if_neg he.2.2.1]
      exact nextChild_external root layer hlay e he B m path fuel (hB _) (by omega)
  rw [this]

/-- Looking up any name finishes. -/
theorem nextChild_total (root : Mod) (layer : List Nat → Nat) (hlay : Layered root layer)
    (B : Nat) (hB : ∀ m, layer m ≤ B) (n : Nat) : ∀ (m : List Nat) (path : Path) (s : String)
    (fuel : Nat), layer m ≤ n → n + B + 2 ≤ fuel →
    nextChild root (resolveQualifier root fuel) path m s ≠ none := by
  induction n with
  | zero =>
    intro m path s fuel hm hf
    rw [nextChild]
    split
    · simp
    · apply findMap_ne
      intro p hp
      split
      · rcases candidate_cases root layer m _ (hlay m) s p hp with
          ⟨_, _, _, _, _, _, _, _, _, hlt⟩ | ⟨e, rest, hs, hr, he⟩
        · omega
        · rw [resolveQualifier_external root layer hlay B hB e rest p m fuel he hs (by omega)]
          simp
      · simp
  | succ n ih =>
    intro m path s fuel hm hf
    rw [nextChild]
    split
    · simp
    · apply findMap_ne
      intro p hp
      split
      · rcases candidate_cases root layer m _ (hlay m) s p hp with
          ⟨hl, kw, rest, x, m0, m', hs, h0, h1, hlt⟩ | ⟨e, rest, hs, hr, he⟩
        · obtain ⟨fuel, rfl⟩ : ∃ f, fuel = f + 1 := ⟨fuel - 1, by omega⟩
          rw [resolveQualifier_local root fuel p m m0 m' kw rest [x] hl hs h0 h1, walk]
          have := ih m' p x fuel (by omega) (by omega)
          split
          · contradiction
          · simp
          · simp [walk]
        · rw [resolveQualifier_external root layer hlay B hB e rest p m fuel he hs (by omega)]
          simp
      · simp

theorem walk_total (root : Mod) (layer : List Nat → Nat) (hlay : Layered root layer)
    (B : Nat) (hB : ∀ m, layer m ≤ B) (path : Path) (fuel : Nat) (hf : 2 * B + 2 ≤ fuel)
    (ss : List String) : ∀ m, walk root (resolveQualifier root fuel) path m ss ≠ none := by
  induction ss with
  | nil => intro m; simp [walk]
  | cons s ss ih =>
    intro m
    rw [walk]
    have := nextChild_total root layer hlay B hB B m path s fuel (hB m) (by omega)
    split
    · contradiction
    · simp
    · exact ih _

theorem resolveQualifier_total (root : Mod) (layer : List Nat → Nat) (hlay : Layered root layer)
    (B : Nat) (hB : ∀ m, layer m ≤ B) (path : Path) (m : List Nat) (fuel : Nat)
    (hf : 2 * B + 3 ≤ fuel) : resolveQualifier root fuel path m ≠ none := by
  obtain ⟨fuel, rfl⟩ : ∃ f, fuel = f + 1 := ⟨fuel - 1, by omega⟩
  rw [resolveQualifier]
  split
  · simp
  · rename_i s ss _
    have : firstSegment root (resolveQualifier root fuel) path m s ≠ none := by
      unfold firstSegment
      split
      · exact nextChild_total root layer hlay B hB B [] path s fuel (hB _) (by omega)
      · split
        · simp
        · split
          · simp
          · split
            · simp
            · exact nextChild_total root layer hlay B hB B m path s fuel (hB _) (by omega)
    split
    · contradiction
    · simp
    · exact walk_total root layer hlay B hB path fuel (by omega) ss _

/-- Resolving a candidate of a layered scope of module `m` finishes. -/
theorem resolveItem_candidate (root : Mod) (layer : List Nat → Nat) (hlay : Layered root layer)
    (B : Nat) (hB : ∀ m, layer m ≤ B) (n : Nat) : ∀ (m : List Nat)
    (own : Option (List Nat × List Use)) (uses : List Use) (name : String) (p : Path) (fuel : Nat),
    layer m ≤ n → (∀ q us, own = some (q, us) → q = m) →
    (∀ u ∈ uses, 2 ≤ u.path.segs.length → LocalUse root layer m u ∨ ExternalUse root u) →
    p ∈ candidates name uses → n + 2 * B + 4 ≤ fuel →
    resolveItem root fuel p ⟨m, own⟩ ≠ none := by
  induction n with
  | zero =>
    intro m own uses name p fuel hm hown hu hp hf
    obtain ⟨fuel, rfl⟩ : ∃ f, fuel = f + 1 := ⟨fuel - 1, by omega⟩
    rcases candidate_cases root layer m uses hu name p hp with
      ⟨_, _, _, _, _, _, _, _, _, hlt⟩ | ⟨e, rest, hs, hr, he⟩
    · omega
    · rw [resolveItem]
      obtain ⟨rest', x, rfl⟩ : ∃ r x, rest = r ++ [x] :=
        ⟨rest.dropLast, rest.getLast hr, (List.dropLast_concat_getLast hr).symm⟩
      have h1 : p.segs.getLast? = some x := by
        rw [hs, ← List.cons_append, List.getLast?_concat]
      have h2 : p.segs.dropLast = e :: rest' := by
        rw [hs, ← List.cons_append, List.dropLast_concat]
      rw [h1]
      simp only [h2]
      rw [if_neg (by simp), resolveQualifier_external root layer hlay B hB e rest' _ m fuel he rfl
        (by omega)]
      simp
  | succ n ih =>
    intro m own uses name p fuel hm hown hu hp hf
    obtain ⟨fuel, rfl⟩ : ∃ f, fuel = f + 1 := ⟨fuel - 1, by omega⟩
    rw [resolveItem]
    rcases candidate_cases root layer m uses hu name p hp with
      ⟨hl, kw, rest, x, m0, m', hs, h0, h1, hlt⟩ | ⟨e, rest, hs, hr, he⟩
    · have hx : p.segs.getLast? = some x := by
        rw [hs, ← List.cons_append, List.getLast?_concat]
      have hq : p.segs.dropLast = kw :: rest := by
        rw [hs, ← List.cons_append, List.dropLast_concat]
      rw [hx]
      simp only [hq]
      rw [if_neg (by simp)]
      have hres : resolveQualifier root fuel { p with segs := kw :: rest } m = some (some m') := by
        obtain ⟨fuel, rfl⟩ : ∃ f, fuel = f + 1 := ⟨fuel - 1, by omega⟩
        rw [resolveQualifier_local root fuel ⟨p.leading, kw :: rest⟩ m m0 m' kw rest [] hl (by simp) h0 h1,
          walk]
      rw [hres]
      simp only []
      split
      · simp
      · have hfm : findMap (fun q => if q ≠ p then resolveItem root fuel q ⟨m', none⟩ else some none)
            (candidates x (usesAt root m')) ≠ none := by
          apply findMap_ne
          intro q hq'
          split
          · exact ih m' none (usesAt root m') x q fuel (by omega) (fun _ _ h => nomatch h) (hlay m') hq'
              (by omega)
          · simp
        split
        · contradiction
        · simp
        · split
          · rename_i q us
            rw [if_neg (by
              intro hh
              rw [hown q us rfl] at hh
              rw [hh] at hlt
              omega)]
            simp
          · simp
    · obtain ⟨rest', x, rfl⟩ : ∃ r x, rest = r ++ [x] :=
        ⟨rest.dropLast, rest.getLast hr, (List.dropLast_concat_getLast hr).symm⟩
      have h1 : p.segs.getLast? = some x := by
        rw [hs, ← List.cons_append, List.getLast?_concat]
      have h2 : p.segs.dropLast = e :: rest' := by
        rw [hs, ← List.cons_append, List.dropLast_concat]
      rw [h1]
      simp only [h2]
      rw [if_neg (by simp), resolveQualifier_external root layer hlay B hB e rest' _ m fuel he rfl
        (by omega)]
      simp

/-! ## Theorems -/

/-- Resolution terminates for every path and every reference node, when the imports of the
crate (and of the reference item itself, which is not a module) are layered. Missing: crates with
cyclic imports or aliases, or with external glob imports, and references from a module
(`C26_negation_module`), for which the claim is false. -/
theorem C26_terminates_partial (root : Mod) (layer : List Nat → Nat) (hlay : Layered root layer)
    (B : Nat) (hB : ∀ m, layer m ≤ B) (path : Path) (r : Ref)
    (hown : ∀ q uses, r.own = some (q, uses) → q = r.mod ∧ ∀ u ∈ uses, 2 ≤ u.path.segs.length →
      LocalUse root layer r.mod u ∨ ExternalUse root u) :
    Terminates root path r := by
  refine ⟨3 * B + 5, ?_⟩
  rw [resolveItem]
  split
  · simp
  · rename_i name _
    simp only []
    have hq : (if path.segs.dropLast = [] then some (some r.mod)
        else resolveQualifier root (3 * B + 4) { path with segs := path.segs.dropLast } r.mod) ≠
        none := by
      split
      · simp
      · exact resolveQualifier_total root layer hlay B hB _ _ _ (by omega)
    split
    · contradiction
    · simp
    · rename_i m _
      split
      · simp
      · have hfm : findMap (fun p => if p ≠ path then resolveItem root (3 * B + 4) p ⟨m, none⟩
            else some none) (candidates name (usesAt root m)) ≠ none := by
          apply findMap_ne
          intro p hp
          split
          · exact resolveItem_candidate root layer hlay B hB B m none _ name p _ (hB m)
              (fun _ _ h => nomatch h) (hlay m) hp (by omega)
          · simp
        split
        · contradiction
        · simp
        · split
          · rename_i q uses huses
            split
            · apply findMap_ne
              intro p hp
              split
              · have := resolveItem_candidate root layer hlay B hB B r.mod r.own uses name p
                  (3 * B + 4) (hB _) (fun q us h => (hown q us h).1) (hown q uses huses).2 hp
                  (by omega)
                exact this
              · simp
            · simp
          · simp

/-- Two modules that re-export each other with globs (valid Rust). -/
def globCycle : Mod :=
  .mk "" [] [] [
    .mk "a" [] [⟨⟨false, ["super", "b", "*"]⟩, none⟩] [],
    .mk "b" [] [⟨⟨false, ["super", "a", "*"]⟩, none⟩] []]

theorem globCycle_loop (fuel : Nat) :
    resolveItem globCycle fuel ⟨false, ["super", "b", "N"]⟩ ⟨[0], none⟩ = none ∧
    resolveItem globCycle fuel ⟨false, ["super", "a", "N"]⟩ ⟨[1], none⟩ = none := by
  induction fuel with
  | zero => exact ⟨rfl, rfl⟩
  | succ fuel ih =>
    cases fuel with
    | zero => exact ⟨by decide, by decide⟩
    | succ fuel =>
      constructor
      · have h1 : resolveQualifier globCycle (fuel + 1) ⟨false, ["super", "b"]⟩ [0] =
            some (some [1]) := rfl
        rw [resolveItem]
        have h2 : (["super", "b", "N"] : List String).getLast? = some "N" := rfl
        have h3 : (["super", "b", "N"] : List String).dropLast = ["super", "b"] := rfl
        simp only [h2, h3]
        rw [if_neg (by simp), h1]
        have h4 : hasItem globCycle [1] "N" = false := rfl
        have h5 : candidates "N" (usesAt globCycle [1]) = [⟨false, ["super", "a", "N"]⟩] := by decide
        simp only [h4, h5, findMap]
        rw [if_neg (by simp), if_pos (by simp), ih.2]
      · have h1 : resolveQualifier globCycle (fuel + 1) ⟨false, ["super", "a"]⟩ [1] =
            some (some [0]) := rfl
        rw [resolveItem]
        have h2 : (["super", "a", "N"] : List String).getLast? = some "N" := rfl
        have h3 : (["super", "a", "N"] : List String).dropLast = ["super", "a"] := rfl
        simp only [h2, h3]
        rw [if_neg (by simp), h1]
        have h4 : hasItem globCycle [0] "N" = false := rfl
        have h5 : candidates "N" (usesAt globCycle [0]) = [⟨false, ["super", "b", "N"]⟩] := by decide
        simp only [h4, h5, findMap]
        rw [if_neg (by simp), if_pos (by simp), ih.1]

/-- Resolution does not terminate for modules that re-export each other with globs. -/
theorem C26_negation_globs :
    ∃ (root : Mod) (path : Path) (r : Ref), ¬ Terminates root path r :=
  ⟨globCycle, ⟨false, ["super", "b", "N"]⟩, ⟨[0], none⟩, fun ⟨fuel, h⟩ => h (globCycle_loop fuel).1⟩

/-- A file with two glob imports from other crates. -/
def twoGlobs : Mod :=
  .mk "" [] [⟨⟨false, ["ink", "*"]⟩, none⟩, ⟨⟨false, ["std", "*"]⟩, none⟩] []

theorem twoGlobs_loop (fuel : Nat) :
    (∀ x, x ≠ "ink" → resolveQualifier twoGlobs fuel ⟨false, ["ink", x]⟩ [] = none) ∧
    resolveQualifier twoGlobs fuel ⟨false, ["std", "ink"]⟩ [] = none ∧
    resolveQualifier twoGlobs fuel ⟨false, ["ink", "ink"]⟩ [] = none := by
  induction fuel with
  | zero => exact ⟨fun _ _ => rfl, rfl, rfl⟩
  | succ fuel ih =>
    obtain ⟨ih1, ih2, ih3⟩ := ih
    have hc : ∀ n, n ≠ "ink" ∨ n = "ink" := fun n => (Decidable.em (n = "ink")).symm
    have c1 : candidates "ink" (usesAt twoGlobs []) =
        [⟨false, ["ink", "ink"]⟩, ⟨false, ["std", "ink"]⟩] := by decide
    have c2 : candidates "std" (usesAt twoGlobs []) =
        [⟨false, ["ink", "std"]⟩, ⟨false, ["std", "std"]⟩] := by decide
    have n1 : childNamed twoGlobs [] "ink" = none := rfl
    have n2 : childNamed twoGlobs [] "std" = none := rfl
    refine ⟨?_, ?_, ?_⟩
    · intro x hx
      rw [resolveQualifier]
      simp only [firstSegment]
      rw [if_neg (by simp), if_neg (by decide), if_neg (by decide), if_neg (by decide), nextChild, n1]
      simp only [c1, findMap]
      rw [if_pos (by simp; exact fun h => hx h.symm), ih3]
    · rw [resolveQualifier]
      simp only [firstSegment]
      rw [if_neg (by simp), if_neg (by decide), if_neg (by decide), if_neg (by decide), nextChild, n2]
      simp only [c2, findMap]
      rw [if_pos (by simp), ih1 "std" (by decide)]
    · rw [resolveQualifier]
      simp only [firstSegment]
      rw [if_neg (by simp), if_neg (by decide), if_neg (by decide), if_neg (by decide), nextChild, n1]
      simp only [c1, findMap]
      rw [if_neg (by simp), if_pos (by simp), ih2]

/-- Resolution does not terminate for any qualified path into another crate in a file with
two glob imports from other crates, e.g. `ink::env::DefaultEnvironment` in a file with
`use ink::*; use std::*;`. -/
theorem C26_negation_two_globs (x name : String) (hx : x ≠ "ink") (fuel : Nat) :
    resolveItem twoGlobs fuel ⟨false, ["ink", x, name]⟩ ⟨[], none⟩ = none := by
  cases fuel with
  | zero => rfl
  | succ fuel =>
    rw [resolveItem]
    have h2 : (["ink", x, name] : List String).getLast? = some name := rfl
    have h3 : (["ink", x, name] : List String).dropLast = ["ink", x] := rfl
    simp only [h2, h3]
    rw [if_neg (by simp), (twoGlobs_loop fuel).1 x hx]

/-- A contract module with a glob import and an import of the same name from its parent:
`mod c { use super::*; use crate::E; }` (valid Rust), where `E` is not an item of the file (e.g.
because a macro defines it). -/
def ownGlob : List Use := [⟨⟨false, ["super", "*"]⟩, none⟩, ⟨⟨false, ["crate", "E"]⟩, none⟩]

/-- The crate of that module. -/
def ownGlobCrate : Mod := .mk "" [] [] [.mk "c" [] ownGlob []]

theorem ownGlob_loop (fuel : Nat) :
    resolveItem ownGlobCrate fuel ⟨false, ["crate", "E"]⟩ ⟨[0], some ([], ownGlob)⟩ = none ∧
    resolveItem ownGlobCrate fuel ⟨false, ["super", "E"]⟩ ⟨[0], some ([], ownGlob)⟩ = none := by
  induction fuel with
  | zero => exact ⟨rfl, rfl⟩
  | succ fuel ih =>
    cases fuel with
    | zero => exact ⟨by decide, by decide⟩
    | succ fuel =>
      have h4 : hasItem ownGlobCrate [] "E" = false := rfl
      have h5 : candidates "E" (usesAt ownGlobCrate []) = [] := by decide
      have h6 : candidates "E" ownGlob = [⟨false, ["super", "E"]⟩, ⟨false, ["crate", "E"]⟩] := by
        decide
      constructor
      · have h1 : resolveQualifier ownGlobCrate (fuel + 1) ⟨false, ["crate"]⟩ [0] =
            some (some []) := rfl
        rw [resolveItem]
        have h2 : (["crate", "E"] : List String).getLast? = some "E" := rfl
        have h3 : (["crate", "E"] : List String).dropLast = ["crate"] := rfl
        simp only [h2, h3]
        rw [if_neg (by simp), h1]
        simp only [h4, h5, h6, findMap]
        rw [if_neg (by simp), if_pos trivial, if_pos (by simp), ih.2]
      · have h1 : resolveQualifier ownGlobCrate (fuel + 1) ⟨false, ["super"]⟩ [0] =
            some (some []) := rfl
        rw [resolveItem]
        have h2 : (["super", "E"] : List String).getLast? = some "E" := rfl
        have h3 : (["super", "E"] : List String).dropLast = ["super"] := rfl
        simp only [h2, h3]
        rw [if_neg (by simp), h1]
        simp only [h4, h5, h6, findMap]
        rw [if_neg (by simp), if_pos trivial, if_neg (by simp), if_pos (by simp), ih.1]

/-- Resolution does not terminate for a reference from a module, e.g. the environment of
`#[ink::contract(env = crate::E)] mod c { use super::*; use crate::E; }` where `E` is not an item
of the file: the code resolves again what the module itself imports. No import is cyclic here. -/
theorem C26_negation_module (fuel : Nat) :
    resolveItem ownGlobCrate fuel ⟨false, ["crate", "E"]⟩
      ⟨[0], some ([], usesAt ownGlobCrate [0])⟩ = none :=
  (ownGlob_loop fuel).1

/-- A found item bears the name asked for, in the module reported, unless an alias led
elsewhere: it is always an item of an existing module. -/
theorem C26_found (root : Mod) (fuel : Nat) (path : Path) (r : Ref) (m : List Nat) (name : String)
    (h : resolveItem root fuel path r = some (some (m, name))) : hasItem root m name = true := by
  induction fuel generalizing path r with
  | zero => simp [resolveItem] at h
  | succ fuel ih =>
    have hfm : ∀ (r' : Ref) (l : List Path), findMap (fun p =>
        if p ≠ path then resolveItem root fuel p r' else some none) l = some (some (m, name)) →
        hasItem root m name = true := by
      intro r' l
      induction l with
      | nil => intro h; simp [findMap] at h
      | cons p l ih' =>
        intro h
        rw [findMap] at h
        split at h
        · simp at h
        · rename_i b hb
          have := Option.some.inj (Option.some.inj h)
          subst this
          split at hb
          · exact ih p r' hb
          · simp at hb
        · exact ih' h
    rw [resolveItem] at h
    split at h
    · simp at h
    · simp only [] at h
      split at h
      · simp at h
      · simp at h
      · split at h
        · rename_i hi
          have := Option.some.inj (Option.some.inj h)
          simp only [Prod.mk.injEq] at this
          rw [← this.1, ← this.2]
          exact hi
        · split at h
          · simp at h
          · rename_i x hx
            have := Option.some.inj (Option.some.inj h)
            subst this
            exact hfm _ _ hx
          · split at h
            · split at h
              · exact hfm _ _ h
              · simp at h
            · simp at h

/-! Non-vacuity: a contract module importing from its parent and from `ink`. -/

/-- Sample crate: `struct S; mod c { use super::*; use ink::env::E; }`. -/
def sampleCrate : Mod :=
  .mk "" ["S"] [] [.mk "c" [] [⟨⟨false, ["super", "*"]⟩, none⟩,
    ⟨⟨false, ["ink", "env", "E"]⟩, none⟩] []]

/-- Its layers. -/
def sampleLayer (m : List Nat) : Nat := if m = [] then 0 else 1

example : resolveItem sampleCrate 5 ⟨false, ["S"]⟩ ⟨[0], none⟩ = some (some ([], "S")) := by decide

theorem sample_uses (m : List Nat) (u : Use) (h : u ∈ usesAt sampleCrate m) :
    m = [0] ∧ (u = ⟨⟨false, ["super", "*"]⟩, none⟩ ∨ u = ⟨⟨false, ["ink", "env", "E"]⟩, none⟩) := by
  match m with
  | [] => simp [usesAt, sampleCrate, Mod.at?, Mod.uses] at h
  | [0] => simpa [usesAt, sampleCrate, Mod.at?, Mod.uses, Mod.mods] using h
  | (i + 1) :: _ => simp [usesAt, sampleCrate, Mod.at?, Mod.mods] at h
  | 0 :: j :: _ => simp [usesAt, sampleCrate, Mod.at?, Mod.mods] at h

theorem sample_child : ∀ c ∈ sampleCrate.mods, c.name ≠ "ink" := by
  intro c hc
  simp only [sampleCrate, Mod.mods, List.mem_singleton] at hc
  subst hc
  decide

example : Layered sampleCrate sampleLayer ∧ (∀ m, sampleLayer m ≤ 1) := by
  refine ⟨?_, ?_⟩
  · intro m u hu _
    obtain ⟨rfl, rfl | rfl⟩ := sample_uses m u hu
    · exact Or.inl ⟨rfl, "super", [], "*", [], [], rfl, rfl, rfl, by decide⟩
    · refine Or.inr ⟨"ink", ["env", "E"], rfl, by simp, by decide, by decide, by decide, by decide,
        sample_child, ?_⟩
      intro m u hu _
      obtain ⟨rfl, rfl | rfl⟩ := sample_uses m u hu <;> exact ⟨by simp, fun _ => by simp⟩
  · intro m
    unfold sampleLayer
    split <;> omega

end Verif.Ir.Resolve
