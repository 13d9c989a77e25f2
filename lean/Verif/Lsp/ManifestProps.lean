import Verif.Lsp.Manifest
import Verif.Lsp.ProjectProps

/-!
# Properties of manifest edits (C14)
-/

namespace Verif.Lsp

namespace Spec

/-- Value of an entry. -/
def value (l : Entries) (key : String) : Option Toml := l.lookup key

/-- Value of an entry of a header table. -/
def get2 (doc : Entries) (table key : String) : Option Toml :=
  match doc.lookup table with
  | some (.table l) => l.lookup key
  | _ => none

/-- A TOML document has every key once in each table. -/
def UniqueKeys (l : Entries) : Prop := (l.map (·.1)).Nodup

end Spec

open Spec

/-! ### Helper lemmas -/

theorem lookup_modify (l : Entries) (key k : String) (f : Toml → Toml) :
    (l.modify key f).lookup k = if k = key then (l.lookup k).map f else l.lookup k := by
  induction l with
  | nil => simp [Entries.modify]
  | cons e es ih =>
    obtain ⟨a, v⟩ := e
    simp only [Entries.modify, List.map_cons] at ih ⊢
    by_cases ha : a = key
    · subst ha
      simp only [if_true, List.lookup_cons]
      by_cases hk : k = a
      · subst hk; simp
      · have : (k == a) = false := by simpa using hk
        simp only [this, ih, hk, if_false]
    · simp only [ha, if_false, List.lookup_cons]
      by_cases hk : k = a
      · subst hk; simp [ha]
      · have : (k == a) = false := by simpa using hk
        simp only [this, ih]

theorem lookup_remove (l : Entries) (key k : String) :
    (l.remove key).lookup k = if k = key then none else l.lookup k := by
  induction l with
  | nil => simp [Entries.remove]
  | cons e es ih =>
    obtain ⟨a, v⟩ := e
    simp only [Entries.remove] at ih ⊢
    by_cases ha : a = key
    · subst ha
      rw [List.filter_cons_of_neg (by simp), ih, List.lookup_cons]
      by_cases hk : k = a
      · simp [hk]
      · have : (k == a) = false := by simpa using hk
        simp [hk, this]
    · rw [List.filter_cons_of_pos (by simp [ha]), List.lookup_cons, List.lookup_cons, ih]
      by_cases hk : k = a
      · subst hk; simp [ha]
      · have : (k == a) = false := by simpa using hk
        simp [this]

theorem lookup_append_new (l : Entries) (key k : String) (v : Toml) (h : l.lookup key = none) :
    (l ++ [(key, v)]).lookup k = if k = key then some v else l.lookup k := by
  induction l with
  | nil =>
    simp only [List.nil_append, List.lookup_cons, List.lookup_nil]
    by_cases hk : k = key
    · simp [hk]
    · have : (k == key) = false := by simpa using hk
      simp [this, hk]
  | cons e es ih =>
    obtain ⟨a, w⟩ := e
    rw [List.lookup_cons] at h
    cases ha : key == a with
    | true => rw [ha] at h; simp at h
    | false =>
      rw [ha] at h
      have ha' : key ≠ a := by simpa using ha
      simp only [List.cons_append, List.lookup_cons, ih h]
      by_cases hk : k = a
      · subst hk
        simp [Ne.symm ha']
      · have : (k == a) = false := by simpa using hk
        simp [this]

theorem lookup_insert (l : Entries) (key k : String) (v : Toml) :
    (l.insert key v).lookup k = if k = key then some v else l.lookup k := by
  unfold Entries.insert
  split
  · rename_i h
    rw [lookup_modify]
    split
    · rename_i hk
      subst hk
      obtain ⟨w, hw⟩ := Option.isSome_iff_exists.mp h
      simp [hw]
    · rfl
  · rename_i h
    exact lookup_append_new _ _ _ _ (Option.not_isSome_iff_eq_none.mp h)

theorem modify_modify (l : Entries) (key : String) (f g : Toml → Toml) :
    (l.modify key f).modify key g = l.modify key (g ∘ f) := by
  simp only [Entries.modify, List.map_map]
  apply List.map_congr_left
  intro e _
  simp only [Function.comp]
  by_cases h : e.1 = key <;> simp [h]

theorem modify_comm (l : Entries) (a b : String) (f g : Toml → Toml) (h : a ≠ b) :
    (l.modify a f).modify b g = (l.modify b g).modify a f := by
  simp only [Entries.modify, List.map_map]
  apply List.map_congr_left
  intro e _
  simp only [Function.comp]
  by_cases h1 : e.1 = a
  · have h2 : ¬ e.1 = b := fun h2 => h (h1.symm.trans h2)
    simp only [if_pos h1, if_neg h2]
  · by_cases h2 : e.1 = b
    · simp only [if_neg h1, if_pos h2]
    · simp only [if_neg h1, if_neg h2]

theorem modify_id (l : Entries) (key : String) (f : Toml → Toml)
    (h : ∀ e ∈ l, e.1 = key → f e.2 = e.2) : l.modify key f = l := by
  simp only [Entries.modify]
  conv => rhs; rw [← List.map_id l]
  apply List.map_congr_left
  intro e he
  by_cases h1 : e.1 = key
  · rw [if_pos h1, h e he h1]; rfl
  · rw [if_neg h1]; rfl

theorem modify_insert_idem (l : Entries) (v : Toml) (key : String) :
    (l.insert key v).insert key v = l.insert key v := by
  have : ((l.insert key v).lookup key).isSome = true := by rw [lookup_insert]; simp
  conv => lhs; unfold Entries.insert
  rw [if_pos (by simpa [Entries.insert] using this)]
  apply modify_id
  intro e he hk
  unfold Entries.insert at he
  split at he
  · simp only [Entries.modify, List.mem_map] at he
    obtain ⟨x, hx, rfl⟩ := he
    by_cases h1 : x.1 = key
    · simp [h1]
    · simp [h1] at hk
  · rename_i hn
    rw [List.mem_append] at he
    rcases he with he | he
    · exfalso
      apply hn
      have : ∀ (l : Entries) (e : String × Toml), e ∈ l → (l.lookup e.1).isSome = true := by
        intro l
        induction l with
        | nil => simp
        | cons x xs ih =>
          intro e he
          rw [List.lookup_cons]
          cases hb : e.1 == x.1 with
          | true => rfl
          | false =>
            rcases List.mem_cons.mp he with h | h
            · subst h; simp at hb
            · exact ih e h
      rw [← hk]
      exact this l e he
    · simp at he
      rw [he]

theorem insert_self (l : Entries) (key : String) (v : Toml) (hu : UniqueKeys l)
    (h : l.lookup key = some v) : l.insert key v = l := by
  unfold Entries.insert
  rw [if_pos (by simp [h])]
  apply modify_id
  intro e he hk
  induction l with
  | nil => simp at he
  | cons x xs ih =>
    rw [List.lookup_cons] at h
    rcases List.mem_cons.mp he with h1 | h1
    · subst h1
      rw [hk] at h
      simp only [beq_self_eq_true, Option.some.injEq] at h
      exact h.symm
    · have hne : key ≠ x.1 := by
        intro e'
        unfold UniqueKeys at hu
        rw [List.map_cons, List.nodup_cons] at hu
        apply hu.1
        rw [← e', ← hk]
        exact List.mem_map_of_mem h1
      have : (key == x.1) = false := by simpa using hne
      rw [this] at h
      unfold UniqueKeys at hu
      rw [List.map_cons, List.nodup_cons] at hu
      exact ih hu.2 h h1

theorem insert_present (l : Entries) (key : String) (v : Toml) (h : (l.lookup key).isSome = true) :
    l.insert key v = l.modify key fun _ => v := by
  unfold Entries.insert
  rw [if_pos h]

theorem insert_absent (l : Entries) (key : String) (v : Toml) (h : ¬ (l.lookup key).isSome = true) :
    l.insert key v = l ++ [(key, v)] := by
  unfold Entries.insert
  rw [if_neg h]

theorem upgradeTable_version (l : Entries) :
    (upgradeTable l).insert "version" (.str "5.0.0") = upgradeTable l := by
  have h3 := modify_insert_idem l (.str "5.0.0") "version"
  unfold upgradeTable
  simp only
  by_cases h : ((l.insert "version" (.str "5.0.0")).lookup "default-features").isSome = true
  · rw [if_pos h]
    exact h3
  · rw [if_neg h, insert_absent _ _ _ h]
    have h4 : ((l.insert "version" (.str "5.0.0")).lookup "version").isSome = true := by
      rw [lookup_insert]; simp
    have h2 : (List.lookup "version" (l.insert "version" (.str "5.0.0")
        ++ [("default-features", Toml.bool false)])).isSome = true := by
      rw [lookup_append_new _ _ _ _ (Option.not_isSome_iff_eq_none.mp h), lookup_insert]
      simp
    rw [insert_present _ _ _ h2]
    rw [insert_present _ _ _ h4] at h3
    generalize l.insert "version" (.str "5.0.0") = m at h3 ⊢
    simp only [Entries.modify] at h3 ⊢
    rw [List.map_append, h3]
    rfl

theorem upgradeTable_features (l : Entries) :
    ((upgradeTable l).lookup "default-features").isSome = true := by
  unfold upgradeTable
  simp only
  split
  · rename_i h; exact h
  · rw [lookup_insert]; simp

theorem upgradeTable_idem (l : Entries) : upgradeTable (upgradeTable l) = upgradeTable l := by
  have h1 := upgradeTable_version l
  have h2 := upgradeTable_features l
  generalize upgradeTable l = m at h1 h2 ⊢
  unfold upgradeTable
  simp only [h1, h2, if_true]

theorem upgradeInk_idem (dep : Toml) : upgradeInk (upgradeInk dep) = upgradeInk dep := by
  cases dep <;> simp [upgradeInk, upgradeTable_idem] <;> rfl

theorem modify_remove_comm (l : Entries) (a b : String) (f : Toml → Toml) :
    (l.remove a).modify b f = (l.modify b f).remove a := by
  simp only [Entries.remove, Entries.modify, List.filter_map]
  congr 1
  apply List.filter_congr
  intro e _
  simp only [Function.comp]
  by_cases h : e.1 = b <;> simp [h]

theorem remove_remove (l : Entries) (a : String) : (l.remove a).remove a = l.remove a := by
  simp [Entries.remove, List.filter_filter]

theorem remove_comm (l : Entries) (a b : String) : (l.remove a).remove b = (l.remove b).remove a := by
  simp only [Entries.remove, List.filter_filter]
  apply List.filter_congr
  intro e _
  exact Bool.and_comm _ _

theorem migrateDeps_idem (l : Entries) : migrateDeps (migrateDeps l) = migrateDeps l := by
  unfold migrateDeps
  rw [modify_remove_comm, modify_remove_comm, modify_modify,
    show upgradeInk ∘ upgradeInk = upgradeInk from funext upgradeInk_idem,
    remove_comm _ "scale-info" "scale", remove_remove, remove_remove]

theorem migrateDev_idem (t : Toml) : migrateDev (migrateDev t) = migrateDev t := by
  cases t <;> simp [migrateDev, modify_modify, Function.comp_def]

theorem migrateStd_idem (t : Toml) : migrateStd (migrateStd t) = migrateStd t := by
  cases t <;> simp [migrateStd, List.filter_filter]

theorem migrateFeatures_idem (t : Toml) : migrateFeatures (migrateFeatures t) = migrateFeatures t := by
  cases t <;> simp [migrateFeatures, modify_modify, Function.comp_def, migrateStd_idem]

theorem migrate_some (doc doc' : Entries) (h : migrateManifest doc = some doc') :
    ∃ deps ink, doc.lookup "dependencies" = some (.table deps) ∧ deps.lookup "ink" = some ink ∧
      doc' = ((doc.modify "dependencies" fun _ => .table (migrateDeps deps)).modify
        "dev-dependencies" migrateDev).modify "features" migrateFeatures := by
  unfold migrateManifest at h
  cases hd : doc.lookup "dependencies" with
  | none => rw [hd] at h; simp at h
  | some t =>
    rw [hd] at h
    cases t with
    | table deps =>
      simp only [Option.bind_some, Toml.asTable?] at h
      cases hi : deps.lookup "ink" with
      | none => rw [hi] at h; simp at h
      | some ink =>
        rw [hi] at h
        simp only [Option.some.injEq] at h
        exact ⟨deps, ink, rfl, hi, h.symm⟩
    | _ => simp [Toml.asTable?] at h

theorem migrate_lookup (doc doc' deps : Entries) (hd : doc.lookup "dependencies" = some (.table deps))
    (h : doc' = ((doc.modify "dependencies" fun _ => .table (migrateDeps deps)).modify
        "dev-dependencies" migrateDev).modify "features" migrateFeatures) (k : String) :
    doc'.lookup k = if k = "dependencies" then some (.table (migrateDeps deps))
      else if k = "dev-dependencies" then (doc.lookup k).map migrateDev
      else if k = "features" then (doc.lookup k).map migrateFeatures
      else doc.lookup k := by
  subst h
  simp only [lookup_modify]
  by_cases h1 : k = "dependencies"
  · subst h1; simp [hd]
  · by_cases h2 : k = "dev-dependencies"
    · subst h2; simp
    · simp [h1, h2]

/-! ## C14 -/

/-- Migration succeeds exactly for manifests with a `[dependencies]` table that has `ink`. -/
theorem C14_succeeds (doc : Entries) :
    (∃ doc', migrateManifest doc = some doc') ↔ ∃ ink, get2 doc "dependencies" "ink" = some ink := by
  constructor
  · rintro ⟨doc', h⟩
    obtain ⟨deps, ink, h1, h2, _⟩ := migrate_some doc doc' h
    exact ⟨ink, by simp [get2, h1, h2]⟩
  · rintro ⟨ink, h⟩
    unfold get2 at h
    cases hd : doc.lookup "dependencies" with
    | none => rw [hd] at h; simp at h
    | some t =>
      rw [hd] at h
      cases t with
      | table deps =>
        simp only at h
        simp [migrateManifest, hd, Toml.asTable?, h]
      | _ => simp at h

/-- The ink dependency becomes an inline table with version 5.0.0, which keeps the other settings
and has default features off unless they were set. -/
theorem C14_ink (doc doc' : Entries) (h : migrateManifest doc = some doc') :
    ∃ l, get2 doc' "dependencies" "ink" = some (.inline l) ∧
      value l "version" = some (.str "5.0.0") ∧
      (∀ old, get2 doc "dependencies" "ink" = some (.inline old) ∨
          get2 doc "dependencies" "ink" = some (.table old) →
        (∀ k, k ≠ "version" → k ≠ "default-features" → value l k = value old k) ∧
        value l "default-features" = (value old "default-features").or (some (.bool false))) ∧
      ((∀ old, get2 doc "dependencies" "ink" ≠ some (.inline old) ∧
          get2 doc "dependencies" "ink" ≠ some (.table old)) →
        l = [("version", .str "5.0.0"), ("default-features", .bool false)]) := by
  obtain ⟨deps, ink, h1, h2, h3⟩ := migrate_some doc doc' h
  have hl := migrate_lookup doc doc' deps h1 h3
  have hdep : get2 doc' "dependencies" "ink" = some (upgradeInk ink) := by
    simp only [get2, hl]
    simp [migrateDeps, lookup_remove, lookup_modify, h2]
  have hold : get2 doc "dependencies" "ink" = some ink := by simp [get2, h1, h2]
  have table : ∀ old : Entries, upgradeInk ink = upgradeInk (.inline old) →
      ∃ l, upgradeInk ink = .inline l ∧ value l "version" = some (.str "5.0.0") ∧
        (∀ k, k ≠ "version" → k ≠ "default-features" → value l k = value old k) ∧
        value l "default-features" = (value old "default-features").or (some (.bool false)) := by
    intro old e
    rw [e]
    refine ⟨_, rfl, ?_, ?_, ?_⟩
    · simp only [value, upgradeTable]
      split
      · rw [lookup_insert]; simp
      · rw [lookup_insert, lookup_insert]; simp
    · intro k hk1 hk2
      simp only [value, upgradeTable]
      split
      · rw [lookup_insert]; simp [hk1]
      · rw [lookup_insert, lookup_insert]; simp [hk1, hk2]
    · simp only [value, upgradeTable]
      split
      · rename_i hs
        rw [lookup_insert] at hs ⊢
        rw [if_neg (by decide)] at hs ⊢
        cases ho : old.lookup "default-features" with
        | none => rw [ho] at hs; simp at hs
        | some v => rfl
      · rename_i hs
        rw [lookup_insert] at hs
        rw [if_neg (by decide)] at hs
        rw [lookup_insert, if_pos rfl]
        have : old.lookup "default-features" = none := Option.not_isSome_iff_eq_none.mp hs
        rw [this]; rfl
  cases ink with
  | inline old =>
    obtain ⟨l, a1, a2, a3⟩ := table old rfl
    refine ⟨l, by rw [hdep, a1], a2, ?_, ?_⟩
    · intro old' ho
      rw [hold] at ho
      rcases ho with ho | ho
      · simp only [Option.some.injEq, Toml.inline.injEq] at ho
        subst ho; exact a3
      · simp at ho
    · intro hn; exact absurd hold (hn old).1
  | table old =>
    obtain ⟨l, a1, a2, a3⟩ := table old rfl
    refine ⟨l, by rw [hdep, a1], a2, ?_, ?_⟩
    · intro old' ho
      rw [hold] at ho
      rcases ho with ho | ho
      · simp at ho
      · simp only [Option.some.injEq, Toml.table.injEq] at ho
        subst ho; exact a3
    · intro hn; exact absurd hold (hn old).2
  | str s =>
    exact ⟨_, by rw [hdep]; rfl, rfl, by intro old ho; rw [hold] at ho; simp at ho, fun _ => rfl⟩
  | bool s =>
    exact ⟨_, by rw [hdep]; rfl, rfl, by intro old ho; rw [hold] at ho; simp at ho, fun _ => rfl⟩
  | arr s =>
    exact ⟨_, by rw [hdep]; rfl, rfl, by intro old ho; rw [hold] at ho; simp at ho, fun _ => rfl⟩
  | other s =>
    exact ⟨_, by rw [hdep]; rfl, rfl, by intro old ho; rw [hold] at ho; simp at ho, fun _ => rfl⟩

/-- The scale dependencies are gone, every other dependency is unchanged. -/
theorem C14_dependencies (doc doc' : Entries) (h : migrateManifest doc = some doc') (k : String) :
    get2 doc' "dependencies" k =
      if k = "scale" ∨ k = "scale-info" then none
      else if k = "ink" then get2 doc' "dependencies" "ink"
      else get2 doc "dependencies" k := by
  obtain ⟨deps, ink, h1, h2, h3⟩ := migrate_some doc doc' h
  have hl := migrate_lookup doc doc' deps h1 h3
  have hdeps : ∀ k, get2 doc' "dependencies" k = (migrateDeps deps).lookup k := by
    intro k; simp only [get2, hl]; simp
  rw [hdeps k, hdeps "ink"]
  have hold : get2 doc "dependencies" k = deps.lookup k := by simp [get2, h1]
  rw [hold]
  unfold migrateDeps
  simp only [lookup_remove, lookup_modify]
  by_cases a : k = "scale"
  · subst a; simp
  · by_cases b : k = "scale-info"
    · subst b; simp
    · by_cases c : k = "ink"
      · subst c; simp
      · simp [a, b, c]

/-- Development dependencies: `ink_e2e` becomes 5.0.0 when present, the others are unchanged. -/
theorem C14_dev_dependencies (doc doc' : Entries) (h : migrateManifest doc = some doc')
    (k : String) :
    get2 doc' "dev-dependencies" k =
      if k = "ink_e2e" then (get2 doc "dev-dependencies" k).map fun _ => .str "5.0.0"
      else get2 doc "dev-dependencies" k := by
  obtain ⟨deps, ink, h1, h2, h3⟩ := migrate_some doc doc' h
  have hl := migrate_lookup doc doc' deps h1 h3
  simp only [get2, hl]
  simp only [if_neg (show ¬ "dev-dependencies" = "dependencies" by decide), if_true]
  cases hd : doc.lookup "dev-dependencies" with
  | none => simp
  | some t =>
    cases t with
    | table l => simp only [Option.map_some, migrateDev, lookup_modify]
    | _ => simp [migrateDev]

/-- The `std` feature loses exactly the two scale entries, keeping the order of the others; every
other feature is unchanged. -/
theorem C14_features (doc doc' : Entries) (h : migrateManifest doc = some doc') (k : String) :
    (k ≠ "std" → get2 doc' "features" k = get2 doc "features" k) ∧
    (∀ l, get2 doc "features" "std" = some (.arr l) →
      ∃ l', get2 doc' "features" "std" = some (.arr l') ∧ l'.Sublist l ∧
        ∀ t, t ∈ l' ↔ t ∈ l ∧ t ≠ .str "scale/std" ∧ t ≠ .str "scale-info/std") ∧
    ((∀ l, get2 doc "features" "std" ≠ some (.arr l)) →
      get2 doc' "features" "std" = get2 doc "features" "std") := by
  obtain ⟨deps, ink, h1, h2, h3⟩ := migrate_some doc doc' h
  have hl := migrate_lookup doc doc' deps h1 h3
  have hf : ∀ k, get2 doc' "features" k =
      if k = "std" then (get2 doc "features" k).map migrateStd else get2 doc "features" k := by
    intro k
    simp only [get2, hl]
    simp only [if_neg (show ¬ "features" = "dependencies" by decide),
      if_neg (show ¬ "features" = "dev-dependencies" by decide), if_true]
    cases hd : doc.lookup "features" with
    | none => simp
    | some t =>
      cases t with
      | table l => simp only [Option.map_some, migrateFeatures, lookup_modify]
      | _ => simp [migrateFeatures]
  refine ⟨fun hk => by rw [hf, if_neg hk], ?_, ?_⟩
  · intro l hs
    rw [hf, if_pos rfl, hs]
    refine ⟨l.filter keepFeature, rfl, List.filter_sublist, ?_⟩
    intro t
    rw [List.mem_filter]
    cases t with
    | str s => simp [keepFeature]
    | _ => simp [keepFeature]
  · intro hn
    rw [hf, if_pos rfl]
    cases hs : get2 doc "features" "std" with
    | none => rfl
    | some t =>
      cases t with
      | arr l => exact absurd hs (hn l)
      | _ => rfl

/-- Every other top-level entry is unchanged, and no entry appears, disappears or moves. -/
theorem C14_frame (doc doc' : Entries) (h : migrateManifest doc = some doc') :
    doc'.map (·.1) = doc.map (·.1) ∧
    ∀ k, k ≠ "dependencies" → k ≠ "dev-dependencies" → k ≠ "features" → value doc' k = value doc k := by
  obtain ⟨deps, ink, h1, h2, h3⟩ := migrate_some doc doc' h
  have hl := migrate_lookup doc doc' deps h1 h3
  constructor
  · subst h3
    have : ∀ (l : Entries) (key : String) (f : Toml → Toml),
        (l.modify key f).map (·.1) = l.map (·.1) := by
      intro l key f
      simp only [Entries.modify, List.map_map]
      apply List.map_congr_left
      intro e _
      simp only [Function.comp]
      by_cases he : e.1 = key <;> simp [he]
    rw [this, this, this]
  · intro k a b c
    simp only [value, hl, a, b, c, if_false]

/-- Migrating twice gives the same manifest as migrating once. -/
theorem C14_idempotent (doc doc' : Entries) (h : migrateManifest doc = some doc') :
    migrateManifest doc' = some doc' := by
  obtain ⟨deps, ink, h1, h2, h3⟩ := migrate_some doc doc' h
  have hl := migrate_lookup doc doc' deps h1 h3
  have hink : (migrateDeps deps).lookup "ink" = some (upgradeInk ink) := by
    simp [migrateDeps, lookup_remove, lookup_modify, h2]
  unfold migrateManifest
  rw [hl]
  simp only [if_true, Option.bind_some, Toml.asTable?, hink, migrateDeps_idem]
  congr 1
  rw [h3]
  rw [modify_comm _ "features" "dependencies" _ _ (by decide),
    modify_comm _ "dev-dependencies" "dependencies" _ _ (by decide), modify_modify,
    modify_comm _ "features" "dev-dependencies" _ _ (by decide), modify_modify, modify_modify]
  rw [show migrateDev ∘ migrateDev = migrateDev from funext migrateDev_idem,
    show migrateFeatures ∘ migrateFeatures = migrateFeatures from funext migrateFeatures_idem]
  rfl

/-- The ink dependency of a migrated manifest is one that selects ink! 5. -/
theorem C14_recognised_partial (r : RegexClasses) (l : ClassLaws r) (doc doc' : Entries)
    (h : migrateManifest doc = some doc') :
    ∃ v, inkProjectVersion doc' false = some v ∧ v.guess r = .v5 := by
  obtain ⟨t, h1, h2, _⟩ := C14_ink doc doc' h
  unfold get2 at h1
  have : ∃ deps, doc'.lookup "dependencies" = some (.table deps) ∧
      deps.lookup "ink" = some (.inline t) := by
    cases hd : doc'.lookup "dependencies" with
    | none => rw [hd] at h1; simp at h1
    | some x =>
      rw [hd] at h1
      cases x with
      | table deps => exact ⟨deps, rfl, h1⟩
      | _ => simp at h1
  obtain ⟨deps, hd, hi⟩ := this
  have hv : t.lookup "version" = some (.str "5.0.0") := h2
  have hfive : r.isV5 "5.0.0" = true := by
    rw [isV5_iff r l]
    exact ⟨[], ['0', '.', '0'], by decide, by simp⟩
  unfold inkProjectVersion
  simp only [Bool.false_eq_true, if_false, hd, Option.bind_some, Toml.entries?, hi, inkDependency, hv,
    Toml.asStr?, Option.isSome_some, Bool.true_or, if_true]
  exact ⟨_, rfl, by simp [InkProjectVersion.guess, hfive]⟩

/-- A workspace that pins ink 4, and a member that inherits from it. -/
def inheritingFiles (member : Entries) : Files where
  isFile p := p == ["ws", "Cargo.toml"] || p == ["ws", "a", "Cargo.toml"]
  manifest p :=
    if p == ["ws", "Cargo.toml"] then
      some [("workspace", .table [("dependencies", .table [("ink", .str "4.3.0")])])]
    else if p == ["ws", "a", "Cargo.toml"] then some member
    else none

/-- When the dependency was inherited from the workspace, the migrated project need not be
recognised as ink! 5: the entry keeps `workspace = true` and the workspace decides. -/
theorem C14_recognised_negation :
    ¬ ∀ (r : RegexClasses) (doc doc' : Entries), ClassLaws r → migrateManifest doc = some doc' →
      detectVersion r (inheritingFiles doc') (some ["ws", "a", "lib.rs"]) = .v5 := by
  intro h
  have := h asciiClasses [("dependencies", .table [("ink", .inline [("workspace", .bool true)])])]
    [("dependencies", .table [("ink", .inline [("workspace", .bool true), ("version", .str "5.0.0"),
      ("default-features", .bool false)])])] asciiClasses_laws (by
        simp [migrateManifest, Toml.asTable?, migrateDeps, Entries.modify, Entries.remove, upgradeInk,
          upgradeTable, Entries.insert, List.lookup])
  revert this
  decide

/-- A project which does not inherit its ink dependency is recognised as ink! 5 after migration.
Missing for the full claim: inherited dependencies, see `C14_recognised_negation`. -/
theorem C14_project_partial (r : RegexClasses) (l : ClassLaws r) (fs : Files) (path cargo : FilePath)
    (doc doc' : Entries) (h : migrateManifest doc = some doc') (hr : isRust path = true)
    (hc : findCargoToml fs.isFile path = some cargo) (hm : fs.manifest cargo = some doc')
    (hw : (inkProjectVersion doc' false).any (·.workspace) = false) :
    detectVersion r fs (some path) = .v5 := by
  obtain ⟨v, hv, hg⟩ := C14_recognised_partial r l doc doc' h
  have hfile : fs.isFile cargo = true := by
    unfold findCargoToml at hc
    by_cases hf : fs.isFile (if fs.isFile (setCargoToml path) = true then setCargoToml path
        else findCargoLoop fs.isFile 10 path) = true
    · simp only [hf, if_true, Option.some.injEq] at hc
      rw [← hc]; exact hf
    · simp only [hf] at hc
      simp at hc
  have hmv : manifestVersion fs cargo false = some v := by
    simp [manifestVersion, hfile, hm, hv]
  rw [hv] at hw
  simp only [Option.any_some] at hw
  simp [detectVersion, projectVersion, hr, hc, hmv, hw, hg]

/-- A manifest touched by every part of the migration. -/
def demoManifest : Entries :=
  [("package", .table [("name", .str "flipper")]),
   ("dependencies", .table [("ink", .inline [("version", .str "4.3.0"), ("features", .arr [])]),
     ("scale", .inline []), ("scale-info", .inline []), ("hex", .str "0.4")]),
   ("dev-dependencies", .table [("ink_e2e", .str "4.3.0")]),
   ("features", .table [("std", .arr [.str "ink/std", .str "scale/std", .str "scale-info/std"]),
     ("ink-as-dependency", .arr [])])]

example : ∃ doc', migrateManifest demoManifest = some doc' :=
  (C14_succeeds demoManifest).mpr ⟨_, rfl⟩

/-- Adding the extracted event's package changes no other dependency and no other table. -/
theorem C14_add_dependency (doc doc' : Entries) (name : String) (item : Toml)
    (h : addDependency doc name item = some doc') (k : String) :
    get2 doc' "dependencies" k = (if k = name then some item else get2 doc "dependencies" k) ∧
    (k ≠ "dependencies" → value doc' k = value doc k) := by
  unfold addDependency at h
  cases hd : doc.lookup "dependencies" with
  | none => rw [hd] at h; simp at h
  | some t =>
    rw [hd] at h
    cases t with
    | table deps =>
      simp only [Option.bind_some, Toml.asTable?, Option.some.injEq] at h
      subst h
      constructor
      · simp only [get2, lookup_modify, if_true, hd, Option.map_some]
        exact lookup_insert deps name k item
      · intro hk
        simp only [value, lookup_modify, hk, if_false]
    | _ => simp [Toml.asTable?] at h

end Verif.Lsp
