import Verif.Lsp.Project

/-!
# Properties of manifest lookup and version detection (C15, C16)
-/

namespace Verif.Lsp

namespace Spec

/-- The directory `k` levels above `dir` (the root when there are fewer). -/
def up (dir : FilePath) (k : Nat) : FilePath := dir.take (dir.length - k)

/-- `m` is the manifest closest to `dir` among those at most ten levels up. -/
def Nearest (isFile : FilePath → Bool) (dir m : FilePath) : Prop :=
  ∃ k, k ≤ 10 ∧ k ≤ dir.length ∧ m = up dir k ++ ["Cargo.toml"] ∧ isFile m = true ∧
    ∀ j, j < k → isFile (up dir j ++ ["Cargo.toml"]) = false

/-- A `5.` that begins a number: nothing or a non-word character before it. -/
def HasFive (r : RegexClasses) (s : List Char) : Prop :=
  ∃ pre post, s = pre ++ ['5', '.'] ++ post ∧ ∀ c, pre.getLast? = some c → r.isWord c = false

/-- What is known about the character classes: `5` is a word character, operators and white space
are not, and operators and `5` are no white space. -/
structure ClassLaws (r : RegexClasses) : Prop where
  five : r.isWord '5' = true
  caret : r.isWord '^' = false
  tilde : r.isWord '~' = false
  gt : r.isWord '>' = false
  eq : r.isWord '=' = false
  space : ∀ c, r.isSpace c = true → r.isWord c = false

/-- The number at the front of a version requirement, after an operator and white space. -/
def major (s : List Char) : List Char :=
  (s.dropWhile fun c => c == '^' || c == '~' || c == '>' || c == '=' || c == '<' || c == ' ').takeWhile
    Char.isDigit

/-- The dependency's requirement selects ink! 5 as far as the server can tell. -/
def SelectsV5 (r : RegexClasses) (v : InkProjectVersion) : Prop :=
  (∃ s, v.version = some s ∧ (HasFive r s.toList ∨ ∃ ws t, s.toList = ws ++ '*' :: t ∧
      ∀ c ∈ ws, r.isSpace c = true)) ∨
    (v.version = none ∧ (v.path ≠ none ∨ v.git ≠ none))

end Spec

open Spec RegexClasses

/-! ### Helper lemmas -/

theorem up_dropLast (dir : FilePath) (k : Nat) : (up dir k).dropLast = up dir (k + 1) := by
  unfold up
  rw [List.dropLast_eq_take, List.take_take, List.length_take]
  congr 1
  omega

theorem loop_spec (isFile : FilePath → Bool) (dir : FilePath) (fuel k : Nat) (x : String) :
    findCargoLoop isFile fuel (up dir k ++ [x]) =
      if fuel = 0 then up dir k ++ [x]
      else match (List.range' (k + 1) fuel).find? (fun j => isFile (up dir j ++ ["Cargo.toml"])) with
        | some j => up dir j ++ ["Cargo.toml"]
        | none => up dir (k + fuel) ++ ["Cargo.toml"] := by
  induction fuel generalizing k x with
  | zero => rfl
  | succ fuel ih =>
    have hne : ∃ c cs, up dir k ++ [x] = c :: cs := by
      cases h : up dir k ++ [x] with
      | nil => simp at h
      | cons c cs => exact ⟨c, cs, rfl⟩
    obtain ⟨c, cs, hc⟩ := hne
    rw [hc]
    simp only [findCargoLoop]
    rw [← hc]
    have hset : setCargoToml (up dir k ++ [x]).dropLast = up dir (k + 1) ++ ["Cargo.toml"] := by
      rw [List.dropLast_concat]
      simp only [setCargoToml, up_dropLast]
    rw [hset]
    rw [if_neg (Nat.succ_ne_zero fuel), List.range'_succ, List.find?_cons]
    cases hf : isFile (up dir (k + 1) ++ ["Cargo.toml"]) with
    | true => simp
    | false =>
      simp only [Bool.false_eq_true, if_false]
      rw [ih]
      split
      · rename_i h0
        subst h0
        simp
      · rw [show k + 1 + fuel = k + (fuel + 1) by omega]

theorem find_spec (isFile : FilePath → Bool) (dir : FilePath) (x : String) :
    findCargoToml isFile (dir ++ [x]) =
      ((List.range 11).find? fun j => isFile (up dir j ++ ["Cargo.toml"])).map
        fun j => up dir j ++ ["Cargo.toml"] := by
  have h0 : up dir 0 = dir := by simp [up]
  have hr : List.range 11 = 0 :: List.range' 1 10 := by rfl
  rw [hr, List.find?_cons, h0]
  unfold findCargoToml
  have hs : setCargoToml (dir ++ [x]) = dir ++ ["Cargo.toml"] := by
    simp [setCargoToml]
  rw [hs]
  cases hf : isFile (dir ++ ["Cargo.toml"]) with
  | true => simp [hf, h0]
  | false =>
    have hl := loop_spec isFile dir 10 0 x
    rw [h0] at hl
    rw [if_neg (show ¬ (10 = 0) by omega), Nat.zero_add] at hl
    simp only [hf, Bool.false_eq_true, if_false, hl]
    cases hfind : (List.range' 1 10).find? (fun j => isFile (up dir j ++ ["Cargo.toml"])) with
    | some j =>
      have := List.find?_some hfind
      simp only [Option.map_some, this, if_true]
    | none =>
      have := List.find?_eq_none.mp hfind 10 (by
        rw [List.mem_range'_1]; omega)
      simp only [Bool.not_eq_true] at this
      simp [this]

theorem up_ge (dir : FilePath) (k : Nat) (h : dir.length ≤ k) : up dir k = up dir dir.length := by
  simp [up, Nat.sub_eq_zero_of_le h]

/-! ## C15 -/

/-- The manifest used for a file is exactly the nearest one, at most ten levels up. -/
theorem C15_nearest (isFile : FilePath → Bool) (dir : FilePath) (file : String) (m : FilePath) :
    findCargoToml isFile (dir ++ [file]) = some m ↔ Nearest isFile dir m := by
  rw [find_spec]
  constructor
  · intro h
    cases hf : (List.range 11).find? (fun j => isFile (up dir j ++ ["Cargo.toml"])) with
    | none => rw [hf] at h; simp at h
    | some j =>
      rw [hf] at h
      simp only [Option.map_some, Option.some.injEq] at h
      obtain ⟨h1, h2, h3⟩ := List.find?_range_eq_some.mp hf
      simp only [List.mem_range] at h2
      by_cases hj : j ≤ dir.length
      · refine ⟨j, by omega, hj, h.symm, by rw [← h]; exact h1, ?_⟩
        intro i hi
        have := h3 i hi
        simpa using this
      · exfalso
        have h4 := h3 dir.length (by omega)
        rw [up_ge dir j (by omega)] at h1
        rw [h1] at h4
        simp at h4
  · rintro ⟨k, hk, hlen, hm, hfile, hbefore⟩
    have : (List.range 11).find? (fun j => isFile (up dir j ++ ["Cargo.toml"])) = some k := by
      rw [List.find?_range_eq_some]
      refine ⟨by rw [← hm]; exact hfile, by simp; omega, ?_⟩
      intro j hj
      simp [hbefore j hj]
    rw [this, hm]
    rfl

/-- The file's own directory comes first. -/
theorem C15_own (isFile : FilePath → Bool) (dir : FilePath) (file : String)
    (h : isFile (dir ++ ["Cargo.toml"]) = true) :
    findCargoToml isFile (dir ++ [file]) = some (dir ++ ["Cargo.toml"]) := by
  rw [C15_nearest]
  exact ⟨0, by omega, by omega, by simp [up], h, by omega⟩

/-- No manifest is reported only when none of the directories within ten levels has one. -/
theorem C15_none (isFile : FilePath → Bool) (dir : FilePath) (file : String) :
    findCargoToml isFile (dir ++ [file]) = none ↔
      ∀ k, k ≤ 10 → isFile (up dir k ++ ["Cargo.toml"]) = false := by
  rw [find_spec, Option.map_eq_none_iff, List.find?_eq_none]
  constructor
  · intro h k hk
    have := h k (by simp; omega)
    simpa using this
  · intro h k hk
    simp only [List.mem_range] at hk
    simp [h k (by omega)]

example : findCargoToml (fun p => p == ["home", "Cargo.toml"] || p == ["Cargo.toml"])
    ["home", "project", "src", "lib.rs"] = some ["home", "Cargo.toml"] := by decide

example : Nearest (fun p => p == ["home", "Cargo.toml"] || p == ["Cargo.toml"])
    ["home", "project", "src"] ["home", "Cargo.toml"] :=
  ⟨2, by omega, by decide, by decide, by decide, by
    intro j hj
    have : j = 0 ∨ j = 1 := by omega
    rcases this with rfl | rfl <;> decide⟩

/-! ## C16 -/

theorem dropWhile_split (p : Char → Bool) (s : List Char) :
    ∃ ws, s = ws ++ s.dropWhile p ∧ ∀ c ∈ ws, p c = true := by
  refine ⟨s.takeWhile p, (List.takeWhile_append_dropWhile).symm, ?_⟩
  intro c hc
  have := List.all_takeWhile (p := p) (l := s)
  rw [List.all_eq_true] at this
  exact this c hc

theorem operators_nonword (r : RegexClasses) (l : ClassLaws r) (op : List Char)
    (h : op ∈ operators) : ∀ c ∈ op, r.isWord c = false := by
  have h1 := l.caret
  have h2 := l.tilde
  have h3 := l.gt
  have h4 := l.eq
  simp only [operators, List.mem_cons, List.not_mem_nil, or_false] at h
  rcases h with rfl | rfl | rfl | rfl | rfl | rfl <;> intro c hc <;> simp at hc
  · subst hc; exact h1
  · subst hc; exact h2
  · subst hc; exact h3
  · subst hc; exact h4
  · rcases hc with rfl | rfl
    · exact h3
    · exact h4

/-- A match contains a `5.` preceded by operator and white space characters. -/
theorem matchAt_split (r : RegexClasses) (rest : List Char) (h : r.matchAt rest = true) :
    ∃ op ws post, op ∈ operators ∧ (∀ c ∈ ws, r.isSpace c = true) ∧
      rest = op ++ ws ++ ['5', '.'] ++ post := by
  unfold matchAt at h
  rw [List.any_eq_true] at h
  obtain ⟨op, hop, h⟩ := h
  simp only [Bool.and_eq_true, List.isPrefixOf_iff_prefix] at h
  obtain ⟨⟨t, ht⟩, ⟨post, hpost⟩⟩ := h
  obtain ⟨ws, h1, h2⟩ := dropWhile_split r.isSpace (rest.drop op.length)
  refine ⟨op, ws, post, hop, h2, ?_⟩
  rw [← hpost] at h1
  rw [← ht] at h1 ⊢
  rw [List.drop_left] at h1
  rw [h1]
  simp

theorem matchAt_five (r : RegexClasses) (l : ClassLaws r) (post : List Char) :
    r.matchAt (['5', '.'] ++ post) = true := by
  have h5 : r.isSpace '5' = false := by
    cases h : r.isSpace '5' with
    | false => rfl
    | true => have := l.space _ h; rw [l.five] at this; simp at this
  simp [matchAt, operators, List.dropWhile, h5, List.isPrefixOf]

theorem last_nonword (r : RegexClasses) (l : ClassLaws r) (op ws : List Char)
    (hop : op ∈ operators) (hws : ∀ c ∈ ws, r.isSpace c = true) (c : Char)
    (h : (op ++ ws).getLast? = some c) : r.isWord c = false := by
  have hm := List.mem_of_getLast? h
  rw [List.mem_append] at hm
  rcases hm with hm | hm
  · exact operators_nonword r l op hop c hm
  · exact l.space c (hws c hm)

theorem search_sound (r : RegexClasses) (l : ClassLaws r) (s : List Char) (prev : Option Char)
    (h : r.search prev s = true) :
    ∃ pre post, s = pre ++ ['5', '.'] ++ post ∧
      ∀ c, (match pre.getLast? with | some c => some c | none => prev) = some c →
        r.isWord c = false := by
  have key : ∀ (s : List Char) (prev : Option Char),
      (prev.isNone || r.boundary prev s.head?) = true → r.matchAt s = true →
      ∃ pre post, s = pre ++ ['5', '.'] ++ post ∧
      ∀ c, (match pre.getLast? with | some c => some c | none => prev) = some c →
        r.isWord c = false := by
    intro s prev hb hm
    obtain ⟨op, ws, post, hop, hws, hs⟩ := matchAt_split r s hm
    refine ⟨op ++ ws, post, by rw [hs], ?_⟩
    intro c hc
    cases hl : (op ++ ws).getLast? with
    | some d =>
      rw [hl] at hc
      simp only [Option.some.injEq] at hc
      subst hc
      exact last_nonword r l op ws hop hws d hl
    | none =>
      rw [hl] at hc
      simp only at hc
      rw [List.getLast?_eq_none_iff] at hl
      rw [hl] at hs
      rw [hc, hs] at hb
      simp only [boundary, Option.isNone_some, Bool.false_or, List.nil_append, List.cons_append,
        List.head?_cons, Option.any_some, l.five] at hb
      cases hw : r.isWord c with
      | false => rfl
      | true => rw [hw] at hb; simp at hb
  induction s generalizing prev with
  | nil =>
    simp only [search, Bool.and_eq_true] at h
    exact key [] prev h.1 h.2
  | cons x xs ih =>
    simp only [search, Bool.or_eq_true, Bool.and_eq_true] at h
    rcases h with h | h
    · exact key (x :: xs) prev (by simpa using h.1) h.2
    · obtain ⟨pre, post, h1, h2⟩ := ih (some x) h
      refine ⟨x :: pre, post, by rw [h1]; rfl, ?_⟩
      intro c hc
      apply h2 c
      cases hp : pre.getLast? with
      | some d =>
        have : (x :: pre).getLast? = some d := by
          cases pre with
          | nil => simp at hp
          | cons y ys => rw [List.getLast?_cons_cons]; exact hp
        rw [this] at hc
        exact hc
      | none =>
        rw [List.getLast?_eq_none_iff] at hp
        subst hp
        simpa using hc

theorem search_complete (r : RegexClasses) (l : ClassLaws r) (pre post : List Char)
    (prev : Option Char)
    (h : ∀ c, (match pre.getLast? with | some c => some c | none => prev) = some c →
      r.isWord c = false) :
    r.search prev (pre ++ ['5', '.'] ++ post) = true := by
  induction pre generalizing prev with
  | nil =>
    have hm := matchAt_five r l post
    simp only [List.nil_append, List.cons_append, search, Bool.or_eq_true, Bool.and_eq_true] at hm ⊢
    left
    refine ⟨?_, hm⟩
    cases prev with
    | none => left; rfl
    | some c =>
      right
      have := h c rfl
      simp [boundary, this, l.five]
  | cons x xs ih =>
    simp only [List.cons_append, search, Bool.or_eq_true]
    right
    apply ih
    intro c hc
    apply h c
    cases hp : xs.getLast? with
    | some d =>
      rw [hp] at hc
      have : (x :: xs).getLast? = some d := by
        cases xs with
        | nil => simp at hp
        | cons y ys => rw [List.getLast?_cons_cons]; exact hp
      rw [this]; exact hc
    | none =>
      rw [hp] at hc
      rw [List.getLast?_eq_none_iff] at hp
      subst hp
      simpa using hc

theorem isV5_iff (r : RegexClasses) (l : ClassLaws r) (s : String) :
    r.isV5 s = true ↔ HasFive r s.toList := by
  unfold isV5
  constructor
  · intro h
    obtain ⟨pre, post, h1, h2⟩ := search_sound r l _ _ h
    refine ⟨pre, post, h1, ?_⟩
    intro c hc
    apply h2
    rw [hc]
  · rintro ⟨pre, post, h1, h2⟩
    rw [h1]
    apply search_complete r l
    intro c hc
    cases hp : pre.getLast? with
    | some d => rw [hp] at hc; simp at hc; subst hc; exact h2 d hp
    | none => rw [hp] at hc; simp at hc

theorem wildcard_iff (r : RegexClasses) (hstar : r.isSpace '*' = false) (s : String) :
    isWildcardReq r s = true ↔ ∃ ws t, s.toList = ws ++ '*' :: t ∧ ∀ c ∈ ws, r.isSpace c = true := by
  unfold isWildcardReq
  obtain ⟨ws, h1, h2⟩ := dropWhile_split r.isSpace s.toList
  constructor
  · intro h
    simp only [beq_iff_eq] at h
    cases hd : s.toList.dropWhile r.isSpace with
    | nil => rw [hd] at h; simp at h
    | cons c t =>
      rw [hd] at h h1
      simp only [List.head?_cons, Option.some.injEq] at h
      subst h
      exact ⟨ws, t, h1, h2⟩
  · rintro ⟨ws', t, h3, h4⟩
    rw [h3]
    have : (ws' ++ '*' :: t).dropWhile r.isSpace = '*' :: t := by
      clear h1 h3
      induction ws' with
      | nil => simp [hstar]
      | cons x xs ih =>
        simp only [List.cons_append, List.dropWhile_cons]
        rw [h4 x (by simp)]
        exact ih (fun c hc => h4 c (by simp [hc]))
    simp [this]

theorem guess_iff (r : RegexClasses) (l : ClassLaws r) (hstar : r.isSpace '*' = false)
    (v : InkProjectVersion) : v.guess r = .v5 ↔ SelectsV5 r v := by
  unfold InkProjectVersion.guess SelectsV5
  cases hv : v.version with
  | some s =>
    simp only [Option.some.injEq, reduceCtorEq, false_and, or_false, exists_eq_left']
    rw [← isV5_iff r l, ← wildcard_iff r hstar]
    cases h1 : r.isV5 s <;> cases h2 : isWildcardReq r s <;> simp
  | none =>
    cases hp : v.path <;> cases hg : v.git <;> simp

namespace Spec

/-- A table of either kind has an entry. -/
def Entry (t : Toml) (key : String) (u : Toml) : Prop :=
  ∃ l, (t = .table l ∨ t = .inline l) ∧ l.lookup key = some u

/-- The manifest has an entry for ink in `[dependencies]`, or in `[workspace.dependencies]`. -/
def InkEntry (p : List (String × Toml)) (inherited : Bool) (dep : Toml) : Prop :=
  ∃ deps, Entry deps "ink" dep ∧
    if inherited then ∃ ws, p.lookup "workspace" = some ws ∧ Entry ws "dependencies" deps
    else p.lookup "dependencies" = some deps

/-- What an entry for ink says: a version requirement, or a table with some of a version
requirement, a path, a git source and `workspace = true`. -/
def Describes (dep : Toml) (v : InkProjectVersion) : Prop :=
  (∃ s, dep = .str s ∧ v = ⟨some s, none, none, false⟩) ∨
    ((∀ s, v.version = some s ↔ Entry dep "version" (.str s)) ∧
      (∀ s, v.path = some s ↔ Entry dep "path" (.str s)) ∧
      (∀ s, v.git = some s ↔ Entry dep "git" (.str s)) ∧
      (v.workspace = true ↔ Entry dep "workspace" (.bool true)) ∧
      (v.version ≠ none ∨ v.path ≠ none ∨ v.git ≠ none ∨ v.workspace = true))

/-- The manifest file declares a dependency on ink. -/
def Declares (fs : Files) (cargo : FilePath) (inherited : Bool) (v : InkProjectVersion) : Prop :=
  fs.isFile cargo = true ∧ ∃ p, fs.manifest cargo = some p ∧ ∃ dep, InkEntry p inherited dep ∧
    Describes dep v

/-- The file has the extension `rs`. -/
def RustFile (path : FilePath) : Prop :=
  ∃ dir stem, stem ≠ [] ∧ ∃ name : String, path = dir ++ [name] ∧ name.toList = stem ++ ['.', 'r', 's']

end Spec

theorem entries_some (t : Toml) (l : List (String × Toml)) :
    t.entries? = some l ↔ t = .table l ∨ t = .inline l := by
  cases t <;> simp [Toml.entries?]

theorem entry_iff (t : Toml) (key : String) (u : Toml) :
    Entry t key u ↔ (t.entries?.bind fun l => l.lookup key) = some u := by
  unfold Entry
  rw [Option.bind_eq_some_iff]
  constructor
  · rintro ⟨l, h1, h2⟩
    exact ⟨l, (entries_some t l).2 h1, h2⟩
  · rintro ⟨l, h1, h2⟩
    exact ⟨l, (entries_some t l).1 h1, h2⟩

theorem inkEntry_iff (p : List (String × Toml)) (i : Bool) (v : InkProjectVersion) :
    inkProjectVersion p i = some v ↔ ∃ dep, InkEntry p i dep ∧ inkDependency dep = some v := by
  unfold inkProjectVersion InkEntry
  simp only
  rw [Option.bind_eq_some_iff]
  constructor
  · rintro ⟨dep, h1, h2⟩
    refine ⟨dep, ?_, h2⟩
    rw [Option.bind_eq_some_iff] at h1
    obtain ⟨l, h3, h4⟩ := h1
    rw [Option.bind_eq_some_iff] at h3
    obtain ⟨deps, h5, h6⟩ := h3
    refine ⟨deps, ⟨l, (entries_some _ _).1 h6, h4⟩, ?_⟩
    cases i with
    | false => simpa using h5
    | true =>
      simp only [if_true] at h5 ⊢
      rw [Option.bind_eq_some_iff] at h5
      obtain ⟨wl, h7, h8⟩ := h5
      rw [Option.bind_eq_some_iff] at h7
      obtain ⟨ws, h9, h10⟩ := h7
      exact ⟨ws, h9, wl, (entries_some _ _).1 h10, h8⟩
  · rintro ⟨dep, ⟨deps, ⟨l, h1, h2⟩, h3⟩, h4⟩
    refine ⟨dep, ?_, h4⟩
    rw [Option.bind_eq_some_iff]
    refine ⟨l, ?_, h2⟩
    rw [Option.bind_eq_some_iff]
    refine ⟨deps, ?_, (entries_some _ _).2 h1⟩
    cases i with
    | false => simpa using h3
    | true =>
      simp only [if_true] at h3 ⊢
      obtain ⟨ws, h5, wl, h6, h7⟩ := h3
      rw [h5, Option.bind_some, (entries_some _ _).2 h6]
      exact h7

theorem asStr_iff (t : Toml) (s : String) : t.asStr? = some s ↔ t = .str s := by
  cases t <;> simp [Toml.asStr?]

theorem field_iff (l : List (String × Toml)) (key s : String) :
    (l.lookup key).bind Toml.asStr? = some s ↔ l.lookup key = some (.str s) := by
  rw [Option.bind_eq_some_iff]
  simp [asStr_iff]

/-- The `workspace` field as read. -/
def workspaceFlag (l : List (String × Toml)) : Bool :=
  match l.lookup "workspace" with
  | some (.bool true) => true
  | _ => false

theorem workspaceFlag_iff (l : List (String × Toml)) :
    workspaceFlag l = true ↔ l.lookup "workspace" = some (.bool true) := by
  unfold workspaceFlag
  split <;> simp_all

theorem inkDependency_table (dep : Toml) (l : List (String × Toml))
    (h : dep.entries? = some l) : inkDependency dep =
      let info : InkProjectVersion :=
        ⟨(l.lookup "version").bind Toml.asStr?, (l.lookup "path").bind Toml.asStr?,
          (l.lookup "git").bind Toml.asStr?, workspaceFlag l⟩
      if info.version.isSome || info.path.isSome || info.git.isSome || info.workspace then some info
      else none := by
  have := (entries_some dep l).1 h
  rcases this with rfl | rfl <;> rfl

theorem describes_iff (dep : Toml) (v : InkProjectVersion) :
    inkDependency dep = some v ↔ Describes dep v := by
  unfold Describes
  cases he : dep.entries? with
  | none =>
    have hno : ∀ key u, ¬ Entry dep key u := by
      intro key u h
      rw [entry_iff, he] at h
      exact (nomatch h)
    constructor
    · intro h
      cases dep with
      | str s =>
        left
        refine ⟨s, rfl, ?_⟩
        have := Option.some.inj (show some _ = some v from h)
        exact this.symm
      | _ => simp [inkDependency, Toml.entries?] at h he
    · rintro (⟨s, rfl, rfl⟩ | ⟨h1, h2, h3, h4, h5⟩)
      · rfl
      · exfalso
        rcases h5 with h5 | h5 | h5 | h5
        · obtain ⟨s, hs⟩ := Option.ne_none_iff_exists'.1 h5
          exact hno _ _ ((h1 s).1 hs)
        · obtain ⟨s, hs⟩ := Option.ne_none_iff_exists'.1 h5
          exact hno _ _ ((h2 s).1 hs)
        · obtain ⟨s, hs⟩ := Option.ne_none_iff_exists'.1 h5
          exact hno _ _ ((h3 s).1 hs)
        · exact hno _ _ (h4.1 h5)
  | some l =>
    have hE : ∀ key u, Entry dep key u ↔ l.lookup key = some u := by
      intro key u
      rw [entry_iff, he, Option.bind_some]
    rw [inkDependency_table dep l he]
    simp only [hE]
    constructor
    · intro h
      split at h
      · rename_i hsome
        have := Option.some.inj h
        subst this
        right
        refine ⟨fun s => field_iff l _ s, fun s => field_iff l _ s, fun s => field_iff l _ s,
          workspaceFlag_iff l, ?_⟩
        simp only [Bool.or_eq_true] at hsome
        simp only [ne_eq, ← Option.isSome_iff_ne_none]
        rcases hsome with ((h | h) | h) | h
        · exact .inl h
        · exact .inr (.inl h)
        · exact .inr (.inr (.inl h))
        · exact .inr (.inr (.inr h))
      · exact (nomatch h)
    · rintro (⟨s, rfl, -⟩ | ⟨h1, h2, h3, h4, h5⟩)
      · simp [Toml.entries?] at he
      · have e1 : v.version = (l.lookup "version").bind Toml.asStr? :=
          Option.ext fun s => by rw [h1, field_iff]
        have e2 : v.path = (l.lookup "path").bind Toml.asStr? :=
          Option.ext fun s => by rw [h2, field_iff]
        have e3 : v.git = (l.lookup "git").bind Toml.asStr? :=
          Option.ext fun s => by rw [h3, field_iff]
        have e4 : v.workspace = workspaceFlag l := by
          rw [Bool.eq_iff_iff, h4, workspaceFlag_iff]
        obtain ⟨a, b, c, d⟩ := v
        simp only at e1 e2 e3 e4 h5
        rw [← e1, ← e2, ← e3, ← e4, if_pos]
        simp only [ne_eq, ← Option.isSome_iff_ne_none] at h5
        simp only [Bool.or_eq_true]
        rcases h5 with h | h | h | h
        · exact .inl (.inl (.inl h))
        · exact .inl (.inl (.inr h))
        · exact .inl (.inr h)
        · exact .inr h

theorem manifestVersion_iff (fs : Files) (cargo : FilePath) (i : Bool) (v : InkProjectVersion) :
    manifestVersion fs cargo i = some v ↔ Declares fs cargo i v := by
  unfold manifestVersion Declares
  cases hf : fs.isFile cargo with
  | false => simp
  | true =>
    rw [if_pos rfl, Option.bind_eq_some_iff]
    simp only [true_and, inkEntry_iff, describes_iff]

theorem manifestVersion_none (fs : Files) (cargo : FilePath) (i : Bool) :
    manifestVersion fs cargo i = none ↔ ∀ v, ¬ Declares fs cargo i v := by
  rw [Option.eq_none_iff_forall_ne_some]
  simp only [ne_eq, manifestVersion_iff]

theorem isRust_iff (path : FilePath) : isRust path = true ↔ RustFile path := by
  unfold isRust RustFile
  rcases List.eq_nil_or_concat path with rfl | ⟨dir, name, rfl⟩
  · simp
  · simp only [List.concat_eq_append, List.getLast?_append, List.getLast?_singleton,
      Option.some_or, Bool.and_eq_true, beq_iff_eq, decide_eq_true_eq]
    constructor
    · rintro ⟨h1, h2⟩
      have h3 := List.take_append_drop 3 name.toList.reverse
      rw [h1] at h3
      have h4 : name.toList = (name.toList.reverse.drop 3).reverse ++ ['.', 'r', 's'] := by
        have := congrArg List.reverse h3
        simp only [List.reverse_append, List.reverse_reverse] at this
        exact this.symm
      refine ⟨dir, (name.toList.reverse.drop 3).reverse, ?_, name, rfl, h4⟩
      intro h5
      have h6 : name.toList.length = name.length := String.length_toList
      rw [h5] at h4
      rw [h4] at h6
      simp at h6
      omega
    · rintro ⟨dir', stem, h1, name', h2, h3⟩
      have h4 := congrArg List.getLast? h2
      simp only [List.getLast?_append, List.getLast?_singleton, Option.some_or,
        Option.some.injEq] at h4
      subst h4
      have h6 : name.toList.length = name.length := String.length_toList
      refine ⟨by rw [h3]; simp, ?_⟩
      rw [← h6, h3]
      have := List.length_pos_iff.2 h1
      simp
      omega

/-- The ink dependency that decides: that of the file's nearest manifest, unless it inherits from the
workspace and the nearest manifest above declares one for the workspace. (`findCargoToml` is the
subject of C15.) -/
def Spec.deciding (fs : Files) (path : FilePath) (v : InkProjectVersion) : Prop :=
  ∃ cargo, findCargoToml fs.isFile path = some cargo ∧
    ∃ own, Declares fs cargo false own ∧
      if own.workspace = true then
        (∃ ws, findCargoToml fs.isFile cargo.dropLast = some ws ∧ Declares fs ws true v) ∨
          ((∀ ws, findCargoToml fs.isFile cargo.dropLast = some ws →
            ∀ v', ¬ Declares fs ws true v') ∧ v = own)
      else v = own

theorem projectVersion_iff (fs : Files) (path : FilePath) (v : InkProjectVersion) :
    projectVersion fs (some path) = some v ↔ RustFile path ∧ deciding fs path v := by
  rw [← isRust_iff]
  unfold projectVersion deciding
  simp only [← manifestVersion_iff]
  simp only [← ne_eq, ← Option.eq_none_iff_forall_ne_some]
  cases hr : isRust path with
  | false => simp
  | true =>
    simp only [if_true, true_and]
    cases hc : findCargoToml fs.isFile path with
    | none => simp
    | some cargo =>
      simp only [Option.some.injEq, exists_eq_left']
      cases hm : manifestVersion fs cargo false with
      | none => simp
      | some own =>
        simp only [Option.any_some, Option.some.injEq, exists_eq_left']
        by_cases hw : own.workspace = true
        case neg =>
          rw [if_neg hw, if_neg hw, Option.some.injEq]
          exact eq_comm
        case pos =>
          simp only [hw, if_true]
          cases hc2 : findCargoToml fs.isFile cargo.dropLast with
          | none => simp [eq_comm]
          | some ws =>
            simp only [Option.some.injEq, exists_eq_left', forall_eq']
            cases hv : manifestVersion fs ws true with
            | none => simp [eq_comm]
            | some v' => simp

/-- Exactly when a document is analysed as ink! 5: it is a Rust file and its manifest's deciding ink
dependency has a requirement with a number starting with `5.`, or a wildcard requirement, or no
requirement and a path or git source. Missing for the full claim: `HasFive` is not "is a 5.x
requirement", see `C16_minor_negation` and `C16_major_negation`. -/
theorem C16_detected_partial (r : RegexClasses) (l : ClassLaws r) (hstar : r.isSpace '*' = false)
    (fs : Files) (path : FilePath) :
    detectVersion r fs (some path) = .v5 ↔
      RustFile path ∧ ∃ v, deciding fs path v ∧ SelectsV5 r v := by
  unfold detectVersion
  cases hp : projectVersion fs (some path) with
  | none =>
    simp only [Option.map_none, Option.getD_none, reduceCtorEq, false_iff, not_and, not_exists]
    intro hr v hv
    rw [(projectVersion_iff fs path v).mpr ⟨hr, hv⟩] at hp
    simp at hp
  | some v =>
    simp only [Option.map_some, Option.getD_some, guess_iff r l hstar]
    have hv := (projectVersion_iff fs path v).mp hp
    constructor
    · intro h; exact ⟨hv.1, v, hv.2, h⟩
    · rintro ⟨hr, v', h1, h2⟩
      have := (projectVersion_iff fs path v').mpr ⟨hr, h1⟩
      rw [hp] at this
      simp only [Option.some.injEq] at this
      rw [this]; exact h2

/-- A document without a file path, without a manifest, or whose manifest declares no ink
dependency, is analysed as ink! 4. -/
theorem C16_default (r : RegexClasses) (fs : Files) (path : Option FilePath)
    (h : ∀ p, path = some p → findCargoToml fs.isFile p = none ∨
      ∃ cargo, findCargoToml fs.isFile p = some cargo ∧ ∀ v, ¬ Declares fs cargo false v) :
    detectVersion r fs path = .v4 := by
  unfold detectVersion projectVersion
  cases path with
  | none => rfl
  | some p =>
    simp only
    split
    · rcases h p rfl with h | ⟨cargo, h1, h2⟩
      · simp [h]
      · simp [h1, (manifestVersion_none fs cargo false).2 h2]
    · rfl

/-- A requirement made of an optional operator, white space and a version `5.…` is recognised.
Missing for the full claim: requirements without a minor version (`C16_major_negation`). -/
theorem C16_five_partial (r : RegexClasses) (l : ClassLaws r) (op ws rest : List Char) (s : String)
    (hop : op ∈ operators) (hws : ∀ c ∈ ws, r.isSpace c = true)
    (hs : s.toList = op ++ ws ++ ['5', '.'] ++ rest) (v : InkProjectVersion)
    (hv : v.version = some s) : v.guess r = .v5 := by
  have : r.isV5 s = true := by
    rw [isV5_iff r l]
    exact ⟨op ++ ws, rest, hs, fun c hc => last_nonword r l op ws hop hws c hc⟩
  simp [InkProjectVersion.guess, hv, this]

/-- A requirement in which no number starts with `5.`, and which does not start with a wildcard, is
not recognised. Missing for the full claim: 4.x requirements which contain `5.` later
(`C16_minor_negation`). -/
theorem C16_four_partial (r : RegexClasses) (l : ClassLaws r) (s : String) (v : InkProjectVersion)
    (hs : ¬ HasFive r s.toList) (hw : isWildcardReq r s = false) (hv : v.version = some s) :
    v.guess r = .v4 := by
  have : r.isV5 s = false := by
    cases h : r.isV5 s with
    | false => rfl
    | true => exact absurd ((isV5_iff r l s).mp h) hs
  simp [InkProjectVersion.guess, hv, this, hw]

/-- ASCII classes, for the witnesses. -/
def asciiClasses : RegexClasses where
  isWord c := c.isAlphanum || c == '_'
  isSpace c := c == ' ' || c == '\t' || c == '\n' || c == '\r'

theorem asciiClasses_laws : ClassLaws asciiClasses := by
  refine ⟨by decide, by decide, by decide, by decide, by decide, ?_⟩
  intro c hc
  simp only [asciiClasses, Bool.or_eq_true, beq_iff_eq] at hc
  rcases hc with ((h | h) | h) | h <;> subst h <;> decide

/-- A 4.x requirement can be taken for ink! 5. -/
theorem C16_minor_negation :
    ¬ ∀ (r : RegexClasses) (v : InkProjectVersion) (s : String), ClassLaws r →
      v.version = some s → v.guess r = .v5 → major s.toList = ['5'] := by
  intro h
  have := h asciiClasses ⟨some "4.5.0", none, none, false⟩ "4.5.0" asciiClasses_laws rfl (by decide)
  revert this
  decide

/-- A requirement for any 5.x version can be taken for ink! 4. -/
theorem C16_major_negation :
    ¬ ∀ (r : RegexClasses) (v : InkProjectVersion) (s : String), ClassLaws r →
      v.version = some s → major s.toList = ['5'] → v.guess r = .v5 := by
  intro h
  have := h asciiClasses ⟨some "5", none, none, false⟩ "5" asciiClasses_laws rfl (by decide)
  revert this
  decide

/-- A project whose package and workspace share one manifest, with ink inherited. -/
def rootManifest : List (String × Toml) :=
  [("workspace", .table [("dependencies", .table [("ink", .str "5.0.0")])]),
   ("dependencies", .table [("ink", .inline [("workspace", .bool true)])])]

/-- A package that inherits its requirement from the workspace table of its own manifest is not
recognised: the search for the workspace starts one directory above. -/
theorem C16_inherited_negation :
    ¬ ∀ (r : RegexClasses) (fs : Files) (path cargo : FilePath) (p : List (String × Toml))
        (v : InkProjectVersion), ClassLaws r → isRust path = true →
      findCargoToml fs.isFile path = some cargo → fs.manifest cargo = some p →
      (inkProjectVersion p false).any (·.workspace) = true → inkProjectVersion p true = some v →
      detectVersion r fs (some path) = v.guess r := by
  intro h
  have := h asciiClasses ⟨fun p => p == ["ws", "Cargo.toml"], fun p => if p == ["ws", "Cargo.toml"] then
      some rootManifest else none⟩ ["ws", "lib.rs"] ["ws", "Cargo.toml"] rootManifest
      ⟨some "5.0.0", none, none, false⟩ asciiClasses_laws (by decide) (by decide) (by rfl) (by decide)
      (by decide)
  revert this
  decide

example : ClassLaws asciiClasses ∧ asciiClasses.isSpace '*' = false ∧
    (⟨some ">= 5.0.0-rc", none, none, false⟩ : InkProjectVersion).guess asciiClasses = .v5 ∧
    (⟨some "^4.2.1", none, none, false⟩ : InkProjectVersion).guess asciiClasses = .v4 ∧
    (⟨none, none, some "https://github.com/paritytech/ink", false⟩ : InkProjectVersion).guess
      asciiClasses = .v5 := ⟨asciiClasses_laws, by decide⟩

/-- A workspace member with an inherited ink 5 dependency. -/
def memberFiles : Files where
  isFile p := p == ["ws", "Cargo.toml"] || p == ["ws", "a", "Cargo.toml"]
  manifest p :=
    if p == ["ws", "Cargo.toml"] then
      some [("workspace", .table [("dependencies", .table [("ink", .str "5.0.0")])])]
    else if p == ["ws", "a", "Cargo.toml"] then
      some [("dependencies", .table [("ink", .inline [("workspace", .bool true)])])]
    else none

example : detectVersion asciiClasses memberFiles (some ["ws", "a", "lib.rs"]) = .v5 := by decide

end Verif.Lsp
