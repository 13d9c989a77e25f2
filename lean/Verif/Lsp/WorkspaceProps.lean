import Verif.Lsp.Workspace
import Verif.Lsp.TranslateProps
import Verif.Lsp.ProjectProps
import Verif.Lsp.PackageProps
import Verif.Lsp.ManifestProps
import Verif.Analyzer.ProjectProps

/-!
# Property C96: what the project commands do to the client's documents
-/

namespace Verif.Lsp.Workspace

open Spec
open Verif.Analyzer (newProject replaceAll Project)

/-! ## Specification: a client which applies a workspace edit (LSP 3.17) -/

/-- The number of characters before the first place for which `p` holds of the text before it. -/
def placeWhere (text : List Char) (p : List Char → Bool) : Option Nat :=
  (List.range (text.length + 1)).find? fun k => p (text.take k)

/-- The place which has a position. -/
def atPos (enc : Encoding) (text : List Char) (q : Pos) : Option Nat :=
  placeWhere text fun pre => decide (posOf enc pre = q)

/-- The place at a byte offset. -/
def atByte (text : List Char) (o : Nat) : Option Nat := placeWhere text fun pre => decide (utf8Len pre = o)

/-- Puts an edit in front of those which do not start earlier. -/
def insertEdit (e : Nat × Nat × List Char) : List (Nat × Nat × List Char) → List (Nat × Nat × List Char)
  | [] => [e]
  | x :: xs => if e.1 ≤ x.1 then e :: x :: xs else x :: insertEdit e xs

/-- Orders edits by where they start; edits with the same start keep their order. -/
def sortEdits (l : List (Nat × Nat × List Char)) : List (Nat × Nat × List Char) := l.foldr insertEdit []

/-- The text with its edits carried out, from the character `i` on; there is no result if edits
overlap. -/
def rebuild (text : List Char) : Nat → List (Nat × Nat × List Char) → Option (List Char)
  | i, [] => some (text.drop i)
  | i, (a, b, new) :: rest =>
    if i ≤ a ∧ a ≤ b then (rebuild text b rest).map fun r => (text.drop i).take (a - i) ++ new ++ r
    else none

/-- The text after a list of edits, all of which refer to the text before. -/
def editText {β : Type} (place : β → Option Nat) (text : List Char) (edits : List ((β × β) × List Char)) :
    Option (List Char) :=
  (collectAll (fun e => (place e.1.1).bind fun a => (place e.1.2).map fun b => (a, b, e.2)) edits).bind
    fun l => rebuild text 0 (sortEdits l)

/-- What a client makes of text edits. -/
def clientEdit (enc : Encoding) (text : List Char) (edits : List TextEdit) : Option (List Char) :=
  editText (atPos enc text) text (edits.map fun e => (e.range, e.newText))

/-- What edits with byte ranges mean. -/
def byteEdit (text : List Char) (edits : List ((Nat × Nat) × List Char)) : Option (List Char) :=
  editText (atByte text) text edits

/-- The documents a client knows, by URI. -/
abbrev Docs := Uri → Option (List Char)

/-- One operation: a file is created only if it does not exist, a document is edited only if it
exists. -/
def runOp (enc : Encoding) (w : Docs) : Op → Option Docs
  | .create u => if w u = none then some fun v => if v = u then some [] else w v else none
  | .edit u es => (w u).bind fun t => (clientEdit enc t es).map fun t' v => if v = u then some t' else w v

/-- All operations in order. -/
def runOps (enc : Encoding) : Docs → List Op → Option Docs
  | w, [] => some w
  | w, o :: os => (runOp enc w o).bind fun w => runOps enc w os

/-- The property `changes` of a workspace edit: edits by document. -/
def runChanges (enc : Encoding) (w : Docs) (changes : List (Uri × List TextEdit)) : Option Docs :=
  runOps enc w (changes.map fun c => .edit c.1 c.2)

/-- What is assumed of the conversion of URIs and paths: the path of a Rust file has a file name, and a
file name of plain characters ends the URI. -/
structure HostLaws (h : Host) : Prop where
  file : ∀ u p, h.toFilePath u = some p → p ≠ []
  name : ∀ dir f u, (∀ c ∈ f.toList, c.isAlphanum = true ∨ c = '.') → h.fromFilePath (dir ++ [f]) = some u →
    ∃ a, u = a ++ f.toList

/-- The client's documents agree with the files on disk which the server reads. -/
def Saved (h : Host) (w : Docs) : Prop :=
  ∀ p u t, h.read p = some t → h.fromFilePath p = some u → w u = some t

/-- The client's documents are files on disk, so the directories they are in exist. -/
def OnDisk (h : Host) (w : Docs) : Prop :=
  ∀ dir rest u, h.fromFilePath (dir ++ rest) = some u → w u ≠ none → h.present dir = true

/-- The manifest of a package for an event. -/
def eventManifest (pkg : List Char) : List Char :=
  chars! "[package]\nname = \"" ++ pkg ++ chars! "\"\nversion = \"0.1.0\"\n\
    authors = [\"[your_name] <[your_email]>\"]\nedition = \"2021\"\n\n\
    [dependencies]\nink = { version = \"5.0.0\", default-features = false }\n\n\
    [features]\ndefault = [\"std\"]\nstd = [\n    \"ink/std\",\n]\n\
    ink-as-dependency = []\ne2e-tests = []"

/-- The manifest of the package which a Rust file belongs to. -/
def ManifestOf (h : Host) (uri : Uri) (m : FilePath) : Prop :=
  ∃ dir file, h.toFilePath uri = some (dir ++ [file]) ∧ Nearest h.isFile dir m

/-! ## Lemmas -/

theorem prefix_cases (text : List Char) (j k : Nat) (hj : j ≤ text.length) (hk : k ≤ text.length)
    (hlt : j < k) : ∃ mid, mid ≠ [] ∧ text.take k = text.take j ++ mid := by
  refine ⟨(text.drop j).take (k - j), ?_, ?_⟩
  · intro h
    have := congrArg List.length h
    simp at this
    omega
  · have : k = j + (k - j) := by omega
    conv => lhs; rw [this, List.take_add]

theorem placeWhere_eq (text : List Char) (p : List Char → Bool) (k : Nat) (hk : k ≤ text.length)
    (hp : p (text.take k) = true) (hu : ∀ j, j < k → p (text.take j) = false) :
    placeWhere text p = some k := by
  unfold placeWhere
  rw [List.find?_range_eq_some]
  refine ⟨hp, by simp; omega, fun j hj => ?_⟩
  simp [hu j hj]

theorem posOf_strict (enc : Encoding) (pre mid : List Char) (hm : mid ≠ []) :
    posOf enc pre ≠ posOf enc (pre ++ mid) := by
  obtain ⟨p, q, hp, hq, _, hne⟩ := C09_monotone enc pre mid [] hm
  have h1 := C08_position enc pre (mid ++ [])
  rw [← List.append_assoc, hp] at h1
  have h2 := C08_position enc (pre ++ mid) []
  rw [hq] at h2
  simp only [Option.some.injEq] at h1 h2
  rw [show posOf enc pre = p from h1.symm, show posOf enc (pre ++ mid) = q from h2.symm]
  exact hne

theorem utf8Len_app (a b : List Char) : utf8Len (a ++ b) = utf8Len a + utf8Len b := by
  induction a with
  | nil => simp [utf8Len]
  | cons c cs ih => simp [utf8Len, ih]; omega

theorem utf8Len_pos (a : List Char) (h : a ≠ []) : 0 < utf8Len a := by
  cases a with
  | nil => exact absurd rfl h
  | cons c cs =>
    have := Char.utf8Size_pos c
    simp [utf8Len]; omega

theorem atPos_take (enc : Encoding) (text : List Char) (k : Nat) (hk : k ≤ text.length) :
    atPos enc text (posOf enc (text.take k)) = some k := by
  apply placeWhere_eq _ _ _ hk
  · simp
  · intro j hj
    obtain ⟨mid, hm, h⟩ := prefix_cases text j k (by omega) hk hj
    rw [h]
    simpa using posOf_strict enc (text.take j) mid hm

theorem atByte_take (text : List Char) (k : Nat) (hk : k ≤ text.length) :
    atByte text (utf8Len (text.take k)) = some k := by
  apply placeWhere_eq _ _ _ hk
  · simp
  · intro j hj
    obtain ⟨mid, hm, h⟩ := prefix_cases text j k (by omega) hk hj
    rw [h, utf8Len_app]
    have := utf8Len_pos mid hm
    simp; omega

theorem atPos_pre (enc : Encoding) (pre post : List Char) :
    atPos enc (pre ++ post) (posOf enc pre) = some pre.length := by
  have := atPos_take enc (pre ++ post) pre.length (by simp)
  simpa using this

theorem atByte_pre (pre post : List Char) : atByte (pre ++ post) (utf8Len pre) = some pre.length := by
  have := atByte_take (pre ++ post) pre.length (by simp)
  simpa using this

theorem range_pre (enc : Encoding) (pre mid post : List Char) :
    (Context.mk enc (pre ++ mid ++ post)).range (utf8Len pre, utf8Len (pre ++ mid)) =
      some (posOf enc pre, posOf enc (pre ++ mid)) := by
  have h1 := C08_position enc pre (mid ++ post)
  have h2 := C08_position enc (pre ++ mid) post
  rw [← List.append_assoc] at h1
  simp only [Context.range, toLspRange, h1, h2]
  rfl

theorem translate_map (enc : Encoding) (text : List Char) (es : List ((Nat × Nat) × List Char))
    (h : ∀ e ∈ es, OnChars text e.1) :
    clientEdit enc text (translate ⟨enc, text⟩ es) = byteEdit text es := by
  unfold clientEdit byteEdit editText
  congr 1
  induction es with
  | nil => rfl
  | cons e es ih =>
    have ih := ih fun x hx => h x (by simp [hx])
    obtain ⟨pre, mid, post, ht, hr⟩ := h e (by simp)
    obtain ⟨⟨a, b⟩, new⟩ := e
    simp only [Prod.mk.injEq] at hr
    obtain ⟨rfl, rfl⟩ := hr
    subst ht
    have hp1 : atPos enc (pre ++ mid ++ post) (posOf enc pre) = some pre.length := by
      rw [List.append_assoc]; exact atPos_pre enc pre _
    have hp2 := atPos_pre enc (pre ++ mid) post
    have hb1 : atByte (pre ++ mid ++ post) (utf8Len pre) = some pre.length := by
      rw [List.append_assoc]; exact atByte_pre pre _
    have hb2 := atByte_pre (pre ++ mid) post
    unfold translate at ih ⊢
    rw [List.filterMap_cons]
    simp only [range_pre, Option.map_some, List.map_cons, collectAll, hp1, hp2, hb1, hb2,
      Option.bind_some]
    rw [ih]

theorem posOf_nil (enc : Encoding) : posOf enc [] = ⟨0, 0⟩ := by cases enc <;> rfl

theorem wholeEdit_eq (enc : Encoding) (text new : List Char) (e : TextEdit) (hs : utf8Len text < 2 ^ 32)
    (h : wholeEdit enc text new = some e) : e = ⟨(⟨0, 0⟩, posOf enc text), new⟩ := by
  unfold wholeEdit at h
  rw [Nat.mod_eq_of_lt hs] at h
  have := range_pre enc [] text []
  simp only [List.nil_append, List.append_nil, posOf_nil] at this
  rw [show (0 : Nat) = utf8Len [] from rfl, this] at h
  simpa using h.symm

theorem clientEdit_whole (enc : Encoding) (text new : List Char) :
    clientEdit enc text [⟨(⟨0, 0⟩, posOf enc text), new⟩] = some new := by
  have h0 : atPos enc text ⟨0, 0⟩ = some 0 := by
    have := atPos_pre enc [] text
    simpa [posOf_nil] using this
  have h1 : atPos enc text (posOf enc text) = some text.length := by
    have := atPos_pre enc text []
    simpa using this
  simp [clientEdit, editText, collectAll, h0, h1, sortEdits, insertEdit, rebuild]

theorem runOps_append (enc : Encoding) (w : Docs) (a b : List Op) :
    runOps enc w (a ++ b) = (runOps enc w a).bind fun w => runOps enc w b := by
  induction a generalizing w with
  | nil => rfl
  | cons o os ih =>
    simp only [List.cons_append, runOps]
    cases runOp enc w o with
    | none => rfl
    | some w1 => simp [ih]

/-- Creating one file. -/
theorem run_file (enc : Encoding) (w : Docs) (u : Uri) (t : List Char) (h : w u = none) :
    runOps enc w [.create u, .edit u [⟨(⟨0, 0⟩, ⟨0, 0⟩), t⟩]] =
      some fun v => if v = u then some t else w v := by
  have := clientEdit_whole enc [] t
  rw [posOf_nil] at this
  simp only [runOps, runOp, h, if_true, Option.bind_some, this, Option.map_some]
  congr 1
  funext v
  by_cases hv : v = u <;> simp [hv]

theorem run_file_exists (enc : Encoding) (w : Docs) (u : Uri) (t : List Char) (h : w u ≠ none)
    (rest : List Op) : runOps enc w (.create u :: .edit u [⟨(⟨0, 0⟩, ⟨0, 0⟩), t⟩] :: rest) = none := by
  simp [runOps, runOp, h]

/-- Creating two files. -/
theorem run_files (enc : Encoding) (w : Docs) (u v : Uri) (s t : List Char) (huv : u ≠ v)
    (hu : w u = none) (hv : w v = none) :
    runOps enc w (createOps [(u, s), (v, t)]) =
      some fun x => if x = u then some s else if x = v then some t else w x := by
  show runOps enc w ([.create u, .edit u [⟨(⟨0, 0⟩, ⟨0, 0⟩), s⟩]] ++
    [.create v, .edit v [⟨(⟨0, 0⟩, ⟨0, 0⟩), t⟩]]) = _
  rw [runOps_append, run_file enc w u s hu, Option.bind_some, run_file enc _ v t]
  · congr 1
    funext x
    by_cases h1 : x = u
    · simp [h1, huv]
    · simp [h1]
  · simp [huv.symm, hv]

theorem run_files_exists (enc : Encoding) (w : Docs) (u v : Uri) (s t : List Char) (huv : u ≠ v)
    (h : w u ≠ none ∨ w v ≠ none) (rest : List Op) :
    runOps enc w (createOps [(u, s), (v, t)] ++ rest) = none := by
  show runOps enc w ([.create u, .edit u [⟨(⟨0, 0⟩, ⟨0, 0⟩), s⟩]] ++
    [.create v, .edit v [⟨(⟨0, 0⟩, ⟨0, 0⟩), t⟩]] ++ rest) = none
  rw [List.append_assoc, runOps_append]
  by_cases hu : w u = none
  · rw [run_file enc w u s hu, Option.bind_some]
    apply run_file_exists
    have : w v ≠ none := by
      rcases h with h | h
      · exact absurd hu h
      · exact h
    simp [huv.symm, this]
  · have := run_file_exists enc w u s hu []
    rw [this]; rfl

theorem perm_two {α : Type} {l : List α} {a b : α} (h : l.Perm [a, b]) : l = [a, b] ∨ l = [b, a] := by
  have hlen := h.length_eq
  match l, hlen with
  | [x, y], _ =>
    have hx : x ∈ [a, b] := h.mem_iff.mp (by simp)
    simp only [List.mem_cons, List.not_mem_nil, or_false] at hx
    rcases hx with rfl | rfl
    · have := (List.perm_cons x).mp h
      rw [List.perm_singleton] at this
      left; rw [this]
    · have := (List.perm_cons x).mp (h.trans (List.Perm.swap x a []))
      rw [List.perm_singleton] at this
      right; rw [this]

theorem mapOf_two {β : Type} (u v : Uri) (s t : β) (h : u ≠ v) :
    mapOf [(u, s), (v, t)] = [(u, s), (v, t)] := by
  simp [mapOf, h]

/-- Editing two documents, in either order. -/
theorem run_edits (enc : Encoding) (w : Docs) (u v : Uri) (es fs : List TextEdit) (s t s' t' : List Char)
    (huv : u ≠ v) (hu : w u = some s) (hv : w v = some t) (hs : clientEdit enc s es = some s')
    (ht : clientEdit enc t fs = some t') (l : List (Uri × List TextEdit))
    (hl : l.Perm [(u, es), (v, fs)]) :
    runChanges enc w l =
      some fun x => if x = u then some s' else if x = v then some t' else w x := by
  rcases perm_two hl with rfl | rfl
  · simp only [runChanges, List.map_cons, List.map_nil, runOps, runOp, hu, Option.bind_some, hs,
      Option.map_some, if_neg huv.symm, hv, ht]
    congr 1
    funext x
    by_cases h1 : x = u
    · simp [h1, huv]
    · simp [h1]
  · simp only [runChanges, List.map_cons, List.map_nil, runOps, runOp, hv, Option.bind_some, ht,
      Option.map_some, if_neg huv, hu, hs]

theorem join_slash (dir file : List Char) : urlJoin (dir ++ ['/']) file = some (dir ++ ['/'] ++ file) := by
  unfold urlJoin
  simp

theorem cargo_path (isFile : FilePath → Bool) (p m : FilePath) (hp : p ≠ [])
    (h : findCargoToml isFile p = some m) : ∃ dir, m = dir ++ ["Cargo.toml"] := by
  rcases List.eq_nil_or_concat p with rfl | ⟨dir, file, rfl⟩
  · exact absurd rfl hp
  · rw [List.concat_eq_append, C15_nearest] at h
    obtain ⟨k, _, _, hm, _⟩ := h
    exact ⟨_, hm⟩

theorem rs_ne_cargo (u v : Uri) (h : isRsUri u = true) (hv : ∃ a, v = a ++ "Cargo.toml".toList) :
    u ≠ v := by
  rintro rfl
  obtain ⟨a, rfl⟩ := hv
  unfold isRsUri at h
  rw [show "Cargo.toml".toList = ['C','a','r','g','o','.','t','o','m','l'] from rfl] at h
  simp at h

/-- The template of the manifest with the place of the name. -/
def minimalT : Verif.Analyzer.Template where
  first := chars! "[package]\nname = \""
  rest := [(.moduleHole, chars! "\"\nversion = \"0.1.0\"\n\
    authors = [\"[your_name] <[your_email]>\"]\nedition = \"2021\"\n\n\
    [dependencies]\nink = { version = \"5.0.0\", default-features = false }\n\n\
    [features]\ndefault = [\"std\"]\nstd = [\n    \"ink/std\",\n]\n\
    ink-as-dependency = []\ne2e-tests = []")]

theorem minimal_ok : minimalManifest = minimalT.fill (chars! "my_package") [] ∧
    minimalT.safe (chars! "my_package") = true := by decide +kernel

theorem manifest_fill (pkg : List Char) :
    replaceAll (chars! "my_package") pkg minimalManifest = eventManifest pkg := by
  rw [minimal_ok.1, Verif.Analyzer.replaceAll_fill _ _ (by decide) _ minimal_ok.2]
  have e1 : replaceAll (chars! "my_package") pkg (chars! "my_package") = pkg := by
    have := Verif.Analyzer.replaceAll_match (chars! "my_package") pkg [] (by decide)
    rwa [List.append_nil, Verif.Analyzer.replaceAll_nil, List.append_nil] at this
  rw [e1]
  simp only [Verif.Analyzer.Template.fill, minimalT, List.flatMap_cons, List.flatMap_nil,
    Verif.Analyzer.Hole.name, List.append_nil, eventManifest, List.append_assoc]

theorem manifest_of (h : Host) (hl : HostLaws h) (uri : Uri) (m : FilePath)
    (hm : (h.toFilePath uri).bind (findCargoToml h.isFile) = some m) : ManifestOf h uri m := by
  obtain ⟨p, hp, hf⟩ := Option.bind_eq_some_iff.mp hm
  rcases List.eq_nil_or_concat p with rfl | ⟨dir, file, rfl⟩
  · exact absurd rfl (hl.file _ _ hp)
  · rw [List.concat_eq_append] at hp hf
    exact ⟨dir, file, hp, (C15_nearest _ _ _ _).mp hf⟩

theorem create_some (isAlphabetic isNumeric : Char → Bool) (name root : List Char) (r : CreateResponse)
    (hroot : ∃ dir, root = dir ++ ['/'])
    (h : handleCreate isAlphabetic isNumeric name root = some r) :
    ∃ p, newProject isAlphabetic isNumeric name true = .ok p ∧
      r.files = [(root ++ "lib.rs".toList, p.libPlain), (root ++ "Cargo.toml".toList, p.cargoPlain)] := by
  obtain ⟨dir, rfl⟩ := hroot
  unfold handleCreate at h
  simp only [join_slash] at h
  cases hp : newProject isAlphabetic isNumeric name true with
  | error e => rw [hp] at h; simp at h
  | ok p =>
    rw [hp] at h
    simp only [Option.some.injEq] at h
    refine ⟨p, rfl, ?_⟩
    rw [← h]
    apply mapOf_two
    intro e
    have := List.append_cancel_left e
    revert this
    decide

theorem files_ne (root : List Char) : root ++ "lib.rs".toList ≠ root ++ "Cargo.toml".toList := by
  intro e
  have := List.append_cancel_left e
  revert this
  decide

theorem decoded_root (urlParse : String → Option String) (args : List Json) (name root : String)
    (hparse : ∀ s s', urlParse s = some s' → s.toList.getLast? = some '/' →
      s'.toList.getLast? = some '/')
    (hdec : decodeExecute urlParse "createProject" args = .value (.create name root)) :
    ∃ dir, root.toList = dir ++ ['/'] := by
  unfold decodeExecute at hdec
  rw [if_pos rfl] at hdec
  simp only at hdec
  split at hdec
  · rename_i n r h1 h2
    simp only [Panics.value.injEq, Invocation.create.injEq] at hdec
    obtain ⟨rfl, rfl⟩ := hdec
    obtain ⟨it, _, hit⟩ := Option.bind_eq_some_iff.mp h2
    have := hparse _ _ hit (by
      by_cases hl : it.toList.getLast? = some '/'
      · rw [if_pos hl]; simp [hl]
      · rw [if_neg hl]; simp)
    obtain ⟨d, hd⟩ := List.getLast?_eq_some_iff.mp this
    exact ⟨d, hd⟩
  · simp at hdec

theorem plan_some (d : CharData) (taken : String → Bool) (event : List Char) (plan : ExtractPlan)
    (h : extractPlan d taken event = some plan) :
    ∃ pkg crt dir, d.packageName event = some (pkg, crt) ∧ taken dir = false ∧
      dir ∈ candidates (String.ofList pkg) ∧
      plan = ⟨String.ofList pkg, String.ofList crt, [dir, "src", "lib.rs"], [dir, "Cargo.toml"], dir⟩ := by
  unfold extractPlan at h
  split at h
  · simp at h
  · rename_i pkg crt hp
    split at h
    · simp at h
    · rename_i dir hd
      simp only [Option.some.injEq] at h
      obtain ⟨h1, pre, post, h2, _⟩ := C17_free _ _ _ hd
      exact ⟨pkg, crt, dir, hp, h1, by rw [h2]; simp, h.symm⟩

theorem extract_response (d : CharData) (h : Host) (hl : HostLaws h) (mt : ManifestText) (enc : Encoding)
    (snaps : Uri → Option Snap) (uri : Uri) (range : Nat × Nat) (snap : Snap) (x : Extracted)
    (r : ExtractResponse) (hsnap : snaps uri = some snap) (hx : snap.extract range = some x)
    (hsize : ∀ p t, h.read p = some t → utf8Len t < 2 ^ 32)
    (hr : handleExtract d h mt enc snaps uri range = some r) :
    ∃ pkg crt dir base cargoUri old new lib cargo at_, d.packageName x.name = some (pkg, crt) ∧
      ManifestOf h uri (base ++ ["Cargo.toml"]) ∧
      h.fromFilePath (base ++ ["Cargo.toml"]) = some cargoUri ∧
      h.read (base ++ ["Cargo.toml"]) = some old ∧
      dir ∈ candidates (String.ofList pkg) ∧ h.present (base ++ [dir]) = false ∧
      h.fromFilePath (base ++ [dir, "src", "lib.rs"]) = some lib ∧
      h.fromFilePath (base ++ [dir, "Cargo.toml"]) = some cargo ∧
      mt.addDependency old (String.ofList pkg)
        (.inline [("path", .str dir), ("default-features", .bool false)]) = some new ∧
      uri ≠ cargoUri ∧ lib ≠ cargo ∧
      (Context.mk enc snap.text).range (x.importOffset, x.importOffset) = some at_ ∧
      r.files = [(lib, x.content), (cargo, eventManifest pkg)] ∧
      r.edits = [(uri, translate ⟨enc, snap.text⟩ x.edits ++
          [⟨at_, x.importIndent ++ "use ".toList ++ crt ++ "::".toList ++ x.name ++ ";".toList⟩]),
        (cargoUri, [⟨(⟨0, 0⟩, posOf enc old), new⟩])] := by
  unfold handleExtract at hr
  split at hr
  · simp at hr
  rename_i hrs
  simp only [Bool.not_eq_true', Bool.not_eq_false] at hrs
  rw [hsnap, Option.bind_some, hx, Option.bind_some] at hr
  obtain ⟨path, hpath, hr⟩ := Option.bind_eq_some_iff.mp hr
  obtain ⟨plan, hplan, hr⟩ := Option.bind_eq_some_iff.mp hr
  obtain ⟨ec, hec, hr⟩ := Option.bind_eq_some_iff.mp hr
  obtain ⟨el, hel, hr⟩ := Option.bind_eq_some_iff.mp hr
  obtain ⟨at_, hat, hr⟩ := Option.bind_eq_some_iff.mp hr
  obtain ⟨old, hold, hr⟩ := Option.bind_eq_some_iff.mp hr
  obtain ⟨cu, hcu, hr⟩ := Option.bind_eq_some_iff.mp hr
  obtain ⟨new, hnew, hr⟩ := Option.bind_eq_some_iff.mp hr
  obtain ⟨e, he, hfin⟩ := Option.map_eq_some_iff.mp hr
  have hm := manifest_of h hl uri path hpath
  obtain ⟨_, _, _, k, _, _, hk, _⟩ := id hm
  obtain ⟨base, hbase⟩ : ∃ base, path = base ++ ["Cargo.toml"] := ⟨_, hk⟩
  subst hbase
  obtain ⟨pkg, crt, dir, hp, hfree, hcand, rfl⟩ := plan_some _ _ _ _ hplan
  simp only [List.dropLast_concat] at hec hel hfree hnew
  have hne : uri ≠ cu := rs_ne_cargo uri cu hrs (hl.name _ _ _ (by decide) hcu)
  have hlc : el ≠ ec := by
    obtain ⟨a, ha⟩ := hl.name (base ++ [dir, "src"]) "lib.rs" el (by decide) (by simpa using hel)
    obtain ⟨b, hb⟩ := hl.name (base ++ [dir]) "Cargo.toml" ec (by decide) (by simpa using hec)
    rintro rfl
    rw [ha] at hb
    have := congrArg List.getLast? hb
    rw [show "lib.rs".toList = ['l','i','b','.','r'] ++ ['s'] from rfl,
      show "Cargo.toml".toList = ['C','a','r','g','o','.','t','o','m'] ++ ['l'] from rfl,
      ← List.append_assoc, ← List.append_assoc, List.getLast?_concat, List.getLast?_concat] at this
    revert this
    decide
  refine ⟨pkg, crt, dir, base, cu, old, new, el, ec, at_, hp, hm, hcu, hold, hcand, hfree, hel, hec, hnew,
    hne, hlc, hat, ?_, ?_⟩
  · rw [← hfin]
    simp only [mapOf_two _ _ _ _ hlc, String.toList_ofList, manifest_fill]
  · rw [← hfin]
    simp only [mapOf_two _ _ _ _ hne, String.toList_ofList, importText,
      wholeEdit_eq enc old new e (hsize _ _ hold) he]

/-! ## C96 -/

/-- **C96** (create). Executing the command to create a project makes exactly two new documents in the
directory named by the argument, with or without a final slash: the source and the manifest of the
project; nothing else changes. This does not depend on the order in which the files are listed. -/
theorem C96_create (isAlphabetic isNumeric : Char → Bool) (urlParse : String → Option String)
    (args : List Json) (name root : String) (r : CreateResponse) (fs : List (Uri × List Char))
    (enc : Encoding) (w : Docs)
    (hparse : ∀ s s', urlParse s = some s' → s.toList.getLast? = some '/' →
      s'.toList.getLast? = some '/')
    (hdec : decodeExecute urlParse "createProject" args = .value (.create name root))
    (h : handleCreate isAlphabetic isNumeric name.toList root.toList = some r)
    (hfs : fs.Perm r.files)
    (hlib : w (root.toList ++ "lib.rs".toList) = none)
    (hcargo : w (root.toList ++ "Cargo.toml".toList) = none) :
    ∃ p, newProject isAlphabetic isNumeric name.toList true = .ok p ∧
      runOps enc w (changesOfCreate fs) = some fun u =>
        if u = root.toList ++ "lib.rs".toList then some p.libPlain
        else if u = root.toList ++ "Cargo.toml".toList then some p.cargoPlain
        else w u := by
  obtain ⟨p, hp, hr⟩ := create_some _ _ _ _ _ (decoded_root urlParse args name root hparse hdec) h
  refine ⟨p, hp, ?_⟩
  rw [hr] at hfs
  have hne := files_ne root.toList
  rcases perm_two hfs with rfl | rfl
  · exact run_files enc w _ _ _ _ hne hlib hcargo
  · rw [changesOfCreate, run_files enc w _ _ _ _ hne.symm hcargo hlib]
    congr 1
    funext u
    by_cases h1 : u = root.toList ++ "lib.rs".toList
    · have h2 : ¬ u = root.toList ++ "Cargo.toml".toList := fun e => hne (h1.symm.trans e)
      simp only [if_pos h1, if_neg h2]
    · simp only [if_neg h1]

/-- **C96** (create). A project is never created over existing documents: the client refuses the whole
edit if one of the two files exists. -/
theorem C96_create_keeps (isAlphabetic isNumeric : Char → Bool) (urlParse : String → Option String)
    (args : List Json) (name root : String) (r : CreateResponse) (fs : List (Uri × List Char))
    (enc : Encoding) (w : Docs)
    (hparse : ∀ s s', urlParse s = some s' → s.toList.getLast? = some '/' →
      s'.toList.getLast? = some '/')
    (hdec : decodeExecute urlParse "createProject" args = .value (.create name root))
    (h : handleCreate isAlphabetic isNumeric name.toList root.toList = some r)
    (hfs : fs.Perm r.files)
    (hold : w (root.toList ++ "lib.rs".toList) ≠ none ∨ w (root.toList ++ "Cargo.toml".toList) ≠ none) :
    runOps enc w (changesOfCreate fs) = none := by
  obtain ⟨p, hp, hr⟩ := create_some _ _ _ _ _ (decoded_root urlParse args name root hparse hdec) h
  rw [hr] at hfs
  have hne := files_ne root.toList
  rw [changesOfCreate, ← List.append_nil (createOps fs)]
  rcases perm_two hfs with rfl | rfl
  · exact run_files_exists enc w _ _ _ _ hne hold []
  · exact run_files_exists enc w _ _ _ _ hne.symm hold.symm []

/-- **C96** (create). The command succeeds exactly for the names which are valid for a project. -/
theorem C96_create_accepts (isAlphabetic isNumeric : Char → Bool) (name dir : List Char) :
    (∃ r, handleCreate isAlphabetic isNumeric name (dir ++ ['/']) = some r) ↔
      (∀ c ∈ name, isAlphabetic c = true ∨ isNumeric c = true ∨ c = '_' ∨ c = '-') ∧
      ∃ c rest, name = c :: rest ∧ isAlphabetic c = true := by
  rw [← (Verif.Analyzer.C45_validation isAlphabetic isNumeric name true).2]
  constructor
  · rintro ⟨r, h⟩
    obtain ⟨p, hp, _⟩ := create_some _ _ _ _ r ⟨dir, rfl⟩ h
    exact ⟨p, hp⟩
  · rintro ⟨p, hp⟩
    unfold handleCreate
    simp only [join_slash, hp]
    exact ⟨_, rfl⟩

/-- **C96** (migrate, partial). Migrating a project changes exactly two documents: the source gets the
migration edits of its analysis, and the manifest nearest to it is replaced by its migrated text. This
does not depend on the order in which the documents are listed.

Missing: a manifest with changes which are not saved (`C96_negation_unsaved`). -/
theorem C96_migrate_partial (h : Host) (hl : HostLaws h) (mt : ManifestText) (enc : Encoding)
    (snaps : Uri → Option Snap) (uri : Uri) (snap : Snap) (r : MigrateResponse)
    (es : List (Uri × List TextEdit)) (w : Docs) (code : List Char)
    (hsnap : snaps uri = some snap) (hopen : w uri = some snap.text)
    (hchars : ∀ e ∈ snap.migrate, OnChars snap.text e.1)
    (hcode : byteEdit snap.text snap.migrate = some code)
    (hsaved : Saved h w) (hsize : ∀ p t, h.read p = some t → utf8Len t < 2 ^ 32)
    (hr : handleMigrate h mt enc snaps uri = some r) (hes : es.Perm r.edits) :
    ∃ path cargoUri old new, ManifestOf h uri path ∧ h.fromFilePath path = some cargoUri ∧
      h.read path = some old ∧ mt.migrate old = some new ∧
      runChanges enc w es = some fun u =>
        if u = uri then some code else if u = cargoUri then some new else w u := by
  unfold handleMigrate at hr
  split at hr
  · simp at hr
  rename_i hrs
  simp only [Bool.not_eq_true', Bool.not_eq_false] at hrs
  rw [hsnap, Option.bind_some] at hr
  obtain ⟨path, hpath, hr⟩ := Option.bind_eq_some_iff.mp hr
  obtain ⟨old, hold, hr⟩ := Option.bind_eq_some_iff.mp hr
  obtain ⟨cu, hcu, hr⟩ := Option.bind_eq_some_iff.mp hr
  obtain ⟨new, hnew, hr⟩ := Option.bind_eq_some_iff.mp hr
  obtain ⟨e, he, hr⟩ := Option.map_eq_some_iff.mp hr
  have hm := manifest_of h hl uri path hpath
  obtain ⟨dir, file, _, k, _, _, hk, _⟩ := id hm
  have hne : uri ≠ cu := rs_ne_cargo uri cu hrs (hl.name _ _ _ (by decide) (hk ▸ hcu))
  refine ⟨path, cu, old, new, hm, hcu, hold, hnew, ?_⟩
  rw [← hr] at hes
  simp only [mapOf_two _ _ _ _ hne] at hes
  apply run_edits enc w uri cu _ _ _ _ _ _ hne hopen (hsaved _ _ _ hold hcu) _ _ es hes
  · rw [translate_map enc snap.text snap.migrate hchars, hcode]
  · rw [wholeEdit_eq enc old new e (hsize _ _ hold) he]
    exact clientEdit_whole enc old new

/-- **C96** (extract, partial). Extracting an event changes exactly two documents and makes exactly two.
The source gets the edits of the extraction and the import of the event from the new crate. The nearest
manifest gets a dependency on the directory of the new package. The new package is in a directory which
did not exist, with the extracted source and a manifest with its name. This does not depend on the order
in which documents are listed.

Missing: a manifest with changes which are not saved (as in `C96_negation_unsaved`), a manifest which
already has a dependency with the name of the new package (`C96_negation_dependency`), and edits which
the protocol forbids (`C96_negation_order`). -/
theorem C96_extract_partial (d : CharData) (h : Host) (hl : HostLaws h) (mt : ManifestText) (enc : Encoding)
    (snaps : Uri → Option Snap) (uri : Uri) (range : Nat × Nat) (snap : Snap) (x : Extracted)
    (r : ExtractResponse) (fs : List (Uri × List Char)) (es : List (Uri × List TextEdit)) (w : Docs)
    (hsnap : snaps uri = some snap) (hopen : w uri = some snap.text)
    (hx : snap.extract range = some x)
    (hchars : ∀ e ∈ x.edits, OnChars snap.text e.1)
    (himport : OnChars snap.text (x.importOffset, x.importOffset))
    (hsaved : Saved h w) (hdisk : OnDisk h w)
    (hsize : ∀ p t, h.read p = some t → utf8Len t < 2 ^ 32)
    (hr : handleExtract d h mt enc snaps uri range = some r)
    (hfs : fs.Perm r.files) (hes : es.Perm r.edits) :
    ∃ pkg crt dir base cargoUri old new lib cargo, d.packageName x.name = some (pkg, crt) ∧
      ManifestOf h uri (base ++ ["Cargo.toml"]) ∧
      h.fromFilePath (base ++ ["Cargo.toml"]) = some cargoUri ∧
      h.read (base ++ ["Cargo.toml"]) = some old ∧
      dir ∈ candidates (String.ofList pkg) ∧ h.present (base ++ [dir]) = false ∧
      h.fromFilePath (base ++ [dir, "src", "lib.rs"]) = some lib ∧
      h.fromFilePath (base ++ [dir, "Cargo.toml"]) = some cargo ∧
      mt.addDependency old (String.ofList pkg)
        (.inline [("path", .str dir), ("default-features", .bool false)]) = some new ∧
      ∀ code, byteEdit snap.text (x.edits ++ [((x.importOffset, x.importOffset),
          x.importIndent ++ "use ".toList ++ crt ++ "::".toList ++ x.name ++ ";".toList)]) = some code →
        runOps enc w (changesOfExtract fs es) = some fun u =>
          if u = uri then some code else if u = cargoUri then some new
          else if u = lib then some x.content else if u = cargo then some (eventManifest pkg)
          else w u := by
  obtain ⟨pkg, crt, dir, base, cu, old, new, lib, cargo, at_, hp, hm, hcu, hold, hcand, hfree, hlib, hcargo,
    hnew, hne, hlc, hat, hfiles, hedits⟩ :=
    extract_response d h hl mt enc snaps uri range snap x r hsnap hx hsize hr
  refine ⟨pkg, crt, dir, base, cu, old, new, lib, cargo, hp, hm, hcu, hold, hcand, hfree, hlib, hcargo,
    hnew, ?_⟩
  intro code hcode
  have hwl : w lib = none := by
    apply Classical.byContradiction
    intro hc
    have := hdisk (base ++ [dir]) ["src", "lib.rs"] lib (by simpa using hlib) hc
    rw [hfree] at this
    simp at this
  have hwc : w cargo = none := by
    apply Classical.byContradiction
    intro hc
    have := hdisk (base ++ [dir]) ["Cargo.toml"] cargo (by simpa using hcargo) hc
    rw [hfree] at this
    simp at this
  have hwcu := hsaved _ _ _ hold hcu
  have n1 : uri ≠ lib := fun e => by rw [e, hwl] at hopen; simp at hopen
  have n2 : uri ≠ cargo := fun e => by rw [e, hwc] at hopen; simp at hopen
  have n3 : cu ≠ lib := fun e => by rw [e, hwl] at hwcu; simp at hwcu
  have n4 : cu ≠ cargo := fun e => by rw [e, hwc] at hwcu; simp at hwcu
  rw [hfiles] at hfs
  rw [hedits] at hes
  have hcreate : runOps enc w (createOps fs) = some fun u =>
      if u = lib then some x.content else if u = cargo then some (eventManifest pkg) else w u := by
    rcases perm_two hfs with rfl | rfl
    · exact run_files enc w _ _ _ _ hlc hwl hwc
    · rw [run_files enc w _ _ _ _ hlc.symm hwc hwl]
      congr 1
      funext u
      by_cases h1 : u = lib
      · subst h1; simp [hlc]
      · simp [h1]
  have hce : clientEdit enc snap.text (translate ⟨enc, snap.text⟩ x.edits ++
      [⟨at_, x.importIndent ++ "use ".toList ++ crt ++ "::".toList ++ x.name ++ ";".toList⟩]) =
      some code := by
    have : translate ⟨enc, snap.text⟩ x.edits ++
        [⟨at_, x.importIndent ++ "use ".toList ++ crt ++ "::".toList ++ x.name ++ ";".toList⟩] =
        translate ⟨enc, snap.text⟩ (x.edits ++ [((x.importOffset, x.importOffset),
          x.importIndent ++ "use ".toList ++ crt ++ "::".toList ++ x.name ++ ";".toList)]) := by
      simp [translate, List.filterMap_append, hat]
    rw [this, translate_map, hcode]
    intro e he
    simp only [List.mem_append, List.mem_singleton] at he
    rcases he with he | rfl
    · exact hchars e he
    · exact himport
  unfold changesOfExtract
  rw [runOps_append, hcreate, Option.bind_some]
  have := run_edits enc (fun u => if u = lib then some x.content else if u = cargo then
    some (eventManifest pkg) else w u) uri cu _ _ snap.text old code new hne
    (by simp [n1, n2, hopen]) (by simp [n3, n4, hwcu]) hce (clientEdit_whole enc old new) es hes
  exact this

/-- **C96** (extract). An extraction is never put over existing documents: the client refuses the whole
edit if one of the new files exists, for instance only in the client. -/
theorem C96_extract_keeps (d : CharData) (h : Host) (hl : HostLaws h) (mt : ManifestText) (enc : Encoding)
    (snaps : Uri → Option Snap) (uri : Uri) (range : Nat × Nat) (snap : Snap) (x : Extracted)
    (r : ExtractResponse) (fs : List (Uri × List Char)) (es : List (Uri × List TextEdit)) (w : Docs)
    (hsnap : snaps uri = some snap) (hx : snap.extract range = some x)
    (hsize : ∀ p t, h.read p = some t → utf8Len t < 2 ^ 32)
    (hr : handleExtract d h mt enc snaps uri range = some r)
    (hfs : fs.Perm r.files) (hold : ∃ u t, (u, t) ∈ r.files ∧ w u ≠ none) :
    runOps enc w (changesOfExtract fs es) = none := by
  obtain ⟨pkg, crt, dir, base, cu, old, new, lib, cargo, at_, _, _, _, _, _, _, _, _, _, _, hlc, _, hfiles,
    _⟩ := extract_response d h hl mt enc snaps uri range snap x r hsnap hx hsize hr
  obtain ⟨u, t, hu, hw⟩ := hold
  rw [hfiles] at hfs hu
  have hor : w lib ≠ none ∨ w cargo ≠ none := by
    simp only [List.mem_cons, Prod.mk.injEq, List.not_mem_nil, or_false] at hu
    rcases hu with ⟨rfl, _⟩ | ⟨rfl, _⟩
    · exact Or.inl hw
    · exact Or.inr hw
  unfold changesOfExtract
  rcases perm_two hfs with rfl | rfl
  · exact run_files_exists enc w _ _ _ _ hlc hor _
  · exact run_files_exists enc w _ _ _ _ hlc.symm hor.symm _

/-! ## Examples and findings -/

/-- A host with one package in the directory `p`, for the examples. -/
def demoHost : Host where
  toFilePath u := if u = "file:///p/lib.rs".toList then some ["p", "lib.rs"] else none
  fromFilePath p := some ("file://".toList ++ p.flatMap fun c => '/' :: c.toList)
  isFile p := p == ["p", "lib.rs"] || p == ["p", "Cargo.toml"]
  present p := p == [] || p == ["p"] || p == ["p", "lib.rs"] || p == ["p", "Cargo.toml"]
  read p := if p = ["p", "Cargo.toml"] then some "[dependencies]\nink = \"4\"\n".toList else none

theorem demoHost_laws : HostLaws demoHost where
  file u p h := by
    simp only [demoHost] at h
    split at h
    · simp only [Option.some.injEq] at h
      rw [← h]; simp
    · simp at h
  name dir f u _ h := by
    simp only [demoHost, List.flatMap_append, List.flatMap_cons, List.flatMap_nil, List.append_nil,
      Option.some.injEq] at h
    exact ⟨"file://".toList ++ dir.flatMap (fun c => '/' :: c.toList) ++ ['/'], by rw [← h]; simp⟩

/-- Edits of the example's manifest. -/
def demoManifest : ManifestText where
  migrate t := if t = "[dependencies]\nink = \"4\"\n".toList then
    some "[dependencies]\nink = { version = \"5.0.0\" }\n".toList else none
  addDependency t n _ := some (t ++ n.toList ++ " = { path }\n".toList)

/-- An open document of the example. -/
def demoSnap : Snap where
  text := "mod m { é}".toList
  migrate := [((0, 3), "pub mod".toList), ((7, 7), "\n".toList)]
  extract _ := some ⟨"MyEvent".toList, "struct MyEvent;".toList, [((8, 10), [])], 7, "\n".toList⟩

/-- The client's documents of the example, given the manifest. -/
def demoDocs (manifest : List Char) : Docs := fun u =>
  if u = "file:///p/lib.rs".toList then some demoSnap.text
  else if u = "file:///p/Cargo.toml".toList then some manifest
  else none

example : ((handleMigrate demoHost demoManifest .utf16 (fun _ => some demoSnap)
      "file:///p/lib.rs".toList).bind fun r =>
    (runChanges .utf16 (demoDocs "[dependencies]\nink = \"4\"\n".toList) r.edits.reverse).map fun w =>
      (w "file:///p/lib.rs".toList, w "file:///p/Cargo.toml".toList)) =
    some (some "pub mod m {\n é}".toList,
      some "[dependencies]\nink = { version = \"5.0.0\" }\n".toList) := by decide +kernel

example : byteEdit demoSnap.text demoSnap.migrate = some "pub mod m {\n é}".toList ∧
    OnChars demoSnap.text (8, 10) :=
  ⟨by decide +kernel, "mod m { ".toList, ['é'], ['}'], by decide, by decide⟩

example : ((handleExtract asciiData demoHost demoManifest .utf16 (fun _ => some demoSnap)
      "file:///p/lib.rs".toList (0, 0)).bind fun r =>
    (runOps .utf16 (demoDocs "[dependencies]\nink = \"4\"\n".toList)
      (changesOfExtract r.files.reverse r.edits)).map fun w =>
      (w "file:///p/lib.rs".toList, w "file:///p/Cargo.toml".toList,
        w "file:///p/my-event/src/lib.rs".toList)) =
    some (some "mod m {\nuse my_event::MyEvent; }".toList,
      some "[dependencies]\nink = \"4\"\nmy-event = { path }\n".toList,
      some "struct MyEvent;".toList) := by decide +kernel

example : ((handleCreate Char.isAlpha Char.isDigit "hello".toList "file:///p/".toList).map fun r =>
    r.files.map (·.1)) = some ["file:///p/lib.rs".toList, "file:///p/Cargo.toml".toList] := by
  decide +kernel

/-- Finding: the manifest is read from disk although the client applies the edit to the open document.
Here the user has added a dependency without saving: the migration succeeds, but the dependency, which
a migration removes, stays behind the migrated text. -/
theorem C96_negation_unsaved : ∃ (r : MigrateResponse) (w : Docs),
    handleMigrate demoHost demoManifest .utf16 (fun _ => some demoSnap) "file:///p/lib.rs".toList =
      some r ∧
    runChanges .utf16 (demoDocs "[dependencies]\nink = \"4\"\nscale = \"3\"\n".toList) r.edits = some w ∧
    w "file:///p/Cargo.toml".toList =
      some "[dependencies]\nink = { version = \"5.0.0\" }\nscale = \"3\"\n".toList := by
  have h : ∃ r, handleMigrate demoHost demoManifest .utf16 (fun _ => some demoSnap)
      "file:///p/lib.rs".toList = some r ∧
      ((runChanges .utf16 (demoDocs "[dependencies]\nink = \"4\"\nscale = \"3\"\n".toList)
        r.edits).bind fun w => w "file:///p/Cargo.toml".toList) =
      some "[dependencies]\nink = { version = \"5.0.0\" }\nscale = \"3\"\n".toList :=
    ⟨_, rfl, by decide +kernel⟩
  obtain ⟨r, h1, h2⟩ := h
  obtain ⟨w, h3, h4⟩ := Option.bind_eq_some_iff.mp h2
  exact ⟨r, w, h1, h3, h4⟩

/-- An open document whose event directly follows the opening brace. -/
def tightSnap : Snap where
  text := "mod m {é}".toList
  migrate := []
  extract _ := some ⟨"MyEvent".toList, "struct MyEvent;".toList, [((7, 9), [])], 7, "\n".toList⟩

/-- Finding: if the event directly follows the place of the import, the edits of the source are a removal
followed by an insertion at the same place. The protocol only allows insertions before a removal, so a
client may refuse the whole edit. -/
theorem C96_negation_order : ∃ r,
    handleExtract asciiData demoHost demoManifest .utf16 (fun _ => some tightSnap)
      "file:///p/lib.rs".toList (0, 0) = some r ∧
    r.edits.map (fun e => (e.1, e.2.map (·.range.1))) =
      [("file:///p/lib.rs".toList, [⟨0, 7⟩, ⟨0, 7⟩]), ("file:///p/Cargo.toml".toList, [⟨0, 0⟩])] ∧
    ∀ es ∈ r.edits, es.1 = "file:///p/lib.rs".toList → clientEdit .utf16 tightSnap.text es.2 = none :=
  ⟨_, rfl, by decide +kernel, by decide +kernel⟩

/-- Finding: the new dependency is entered under the name of the package, even if the directory got a
number because that package already exists. A dependency with that name is then replaced: here an event
with the name of an extracted one, on whose package the contract depends, takes its place. -/
theorem C96_negation_dependency : ∃ (doc doc' : Entries) (plan : ExtractPlan),
    extractPlan asciiData (fun dir => dir == "my-event") "MyEvent".toList = some plan ∧
    get2 doc "dependencies" "my-event" =
      some (.inline [("path", .str "my-event"), ("default-features", .bool false)]) ∧
    addDependency doc plan.package (eventDependency plan.dependencyPath) = some doc' ∧
    get2 doc' "dependencies" "my-event" =
      some (.inline [("path", .str "my-event1"), ("default-features", .bool false)]) :=
  ⟨[("dependencies", .table [("my-event",
      .inline [("path", .str "my-event"), ("default-features", .bool false)])])], _, _, rfl, rfl, rfl, rfl⟩

/-- Finding: a code action which is resolved lazily creates files whatever the client announced, also if
it cannot create files (for a command, the server asks first). -/
theorem C96_negation_resolve (d : CharData) (h : Host) (hl : HostLaws h) (mt : ManifestText)
    (enc : Encoding) (snaps : Uri → Option Snap) (uri : Uri) (range : Nat × Nat) (snap : Snap)
    (x : Extracted) (r : ExtractResponse) (hsnap : snaps uri = some snap)
    (hx : snap.extract range = some x) (hsize : ∀ p t, h.read p = some t → utf8Len t < 2 ^ 32)
    (hr : handleExtract d h mt enc snaps uri range = some r) (caps : ClientCaps) :
    ∃ u, .create u ∈ resolveExtract caps r := by
  obtain ⟨pkg, crt, dir, base, cu, old, new, lib, cargo, at_, _, _, _, _, _, _, _, _, _, _, _, _, hfiles,
    _⟩ := extract_response d h hl mt enc snaps uri range snap x r hsnap hx hsize hr
  exact ⟨lib, by simp [resolveExtract, changesOfExtract, createOps, hfiles]⟩

/-- **C96** (edits). What a client makes of translated edits is what the edits mean, in every encoding. -/
theorem C96_edits (enc : Encoding) (text : List Char) (es : List ((Nat × Nat) × List Char))
    (h : ∀ e ∈ es, OnChars text e.1) :
    clientEdit enc text (translate ⟨enc, text⟩ es) = byteEdit text es := translate_map enc text es h

end Verif.Lsp.Workspace
