import Verif.Lsp.Fall
import Verif.Lsp.CrashProps
import Verif.Lsp.CapabilitiesProps
import Verif.Lsp.ServerProps

/-!
# C126: which sessions end with a panic of the server
-/

namespace Verif.Lsp.Fall

open Verif.Ir.Token Verif.Lsp.Crash Verif.Lsp.Spec

/-! ## Specification -/

/-- The position is on a line of the text, but its column is further after the end of the line than
the text has bytes after it; `o` is the byte this counts to. -/
def After (enc : Encoding) (text : List Char) (p : Pos) (o : Nat) : Prop :=
  ∃ before after, LineEnd text before after ∧ p.line = before.count '\n' ∧
    unitsOf enc (lastLine before) + utf8Len after < p.character ∧
    o + unitsOf enc (lastLine before) = utf8Len before + p.character

/-- The `range` of the argument is empty and after the end of the `.rs` document it names. -/
def PointAfter (cfg : Config) (docs : Docs) (arg : Json) : Prop :=
  ∃ (s uri : String) (d : Doc) (v : Json) (a b : Nat), Field arg "uri" (.str s) ∧
    cfg.urlParse s = some uri ∧
    (∃ stem, uri.toList = stem ++ ['.', 'r', 's']) ∧ docs uri = some d ∧
    Field arg "range" v ∧ Field v "start" (.num a) ∧ a < 2 ^ 64 ∧ Field v "end" (.num b) ∧ b < 2 ^ 64 ∧
    a % 2 ^ 32 = b % 2 ^ 32 ∧ utf8Len d.content.toList < a % 2 ^ 32

/-- The requests which end the server, given the open documents of the client: a position after the
end of the document, an empty selection after the end of the document, and an extraction for an
inverted range or for an empty range after the end of the document. -/
inductive Fatal (cfg : Config) (x : Outside) (docs : Docs) (req : Request) : Prop where
  | position (uri : String) (p : Pos) (d : Doc) (o : Nat)
      (method : req.method = "textDocument/completion" ∨ req.method = "textDocument/hover" ∨
        req.method = "textDocument/signatureHelp")
      (params : x.params.position req.method req.params = some (uri, p)) (isOpen : docs uri = some d)
      (beyond : After (positionEncoding cfg.caps) d.content.toList p o)
  | selection (uri : String) (p q : Pos) (d : Doc) (o : Nat)
      (method : req.method = "textDocument/codeAction")
      (params : x.params.range req.method req.params = some (uri, (p, q))) (isOpen : docs uri = some d)
      (beyond : After (positionEncoding cfg.caps) d.content.toList p o)
      (beyond' : After (positionEncoding cfg.caps) d.content.toList q o)
  | command (arg : Json) (args : List Json)
      (method : req.method = "workspace/executeCommand")
      (params : x.params.command req.params = some ("extractEvent", arg :: args))
      (bad : InvertedRange arg ∨ PointAfter cfg docs arg)
  | resolve (data : Json)
      (method : req.method = "codeAction/resolve")
      (params : x.params.action req.params = some (some data))
      (name : Field data "command" (.str "extractEvent"))
      (bad : InvertedRange data ∨ PointAfter cfg docs data)

/-- Documents and columns are counted in 32 bits without overflow. -/
def Small (x : Outside) (docs : Docs) (req : Request) : Prop :=
  (∀ uri p d, x.params.position req.method req.params = some (uri, p) → docs uri = some d →
    utf8Len d.content.toList + p.character < 2 ^ 32) ∧
  (∀ uri r d, x.params.range req.method req.params = some (uri, r) → docs uri = some d →
    utf8Len d.content.toList + r.1.character < 2 ^ 32 ∧ utf8Len d.content.toList + r.2.character < 2 ^ 32)

/-! ## Lemmas -/

theorem isPanic_iff {α : Type} (a : Answer α) : isPanic a = true ↔ a = .panic := by
  cases a <;> simp [isPanic]

/-- Every line of the text ends somewhere. -/
theorem lineEnd_exists (text : List Char) (n : Nat) (h : n ≤ text.count '\n') :
    ∃ before after, LineEnd text before after ∧ before.count '\n' = n := by
  induction text generalizing n with
  | nil => exact ⟨[], [], ⟨rfl, .inl rfl⟩, (Nat.le_zero.mp (by simpa using h)).symm⟩
  | cons c cs ih =>
    by_cases hc : c = '\n'
    · subst hc
      cases n with
      | zero => exact ⟨[], _, ⟨rfl, .inr ⟨_, rfl⟩⟩, rfl⟩
      | succ n =>
        obtain ⟨b, a, ⟨h1, h2⟩, h3⟩ := ih n (by simpa using h)
        exact ⟨'\n' :: b, a, ⟨by rw [h1]; rfl, h2⟩, by simp [h3]⟩
    · obtain ⟨b, a, ⟨h1, h2⟩, h3⟩ := ih n (by simpa [hc] using h)
      exact ⟨c :: b, a, ⟨by rw [h1]; rfl, h2⟩, by simp [hc, h3]⟩

/-- Where a position lies after the end of the text. -/
theorem fromPosition_after (bd : Build) (enc : Encoding) (text : List Char) (p : Pos) (o : Nat)
    (hsize : utf8Len text + p.character < 2 ^ 32) :
    (fromPosition bd enc (LineIndex.new text) p = .value (some o) ∧ utf8Len text < o) ↔
      After enc text p o := by
  constructor
  · rintro ⟨h1, h2⟩
    by_cases hline : text.count '\n' < p.line
    · rw [C60_line_partial bd enc text p hline] at h1; simp at h1
    · obtain ⟨b, a, hl, hb⟩ := lineEnd_exists text p.line (by omega)
      obtain ⟨o', ho, g1, g2⟩ := fromPosition_on bd enc text b a p.character hl hsize
      rw [hb] at ho
      rw [ho] at h1
      have : o' = o := by simpa using h1
      subst this
      have hlen : utf8Len text = utf8Len b + utf8Len a := by rw [hl.1, utf8Len_append]
      by_cases hc : p.character ≤ unitsOf enc (lastLine b)
      · have := g1 hc; omega
      · have := g2 (by omega)
        exact ⟨b, a, hl, hb.symm, by omega, this⟩
  · rintro ⟨b, a, hl, hb, hc, ho⟩
    obtain ⟨o', ho', g1, g2⟩ := fromPosition_on bd enc text b a p.character hl hsize
    have hlen : utf8Len text = utf8Len b + utf8Len a := by rw [hl.1, utf8Len_append]
    have := g2 (by omega)
    rw [← hb] at ho'
    refine ⟨?_, by omega⟩
    rw [show o = o' by omega]
    exact ho'

theorem fromPosition_value (bd : Build) (enc : Encoding) (text : List Char) (p : Pos)
    (hsize : utf8Len text + p.character < 2 ^ 32) :
    ∃ r, fromPosition bd enc (LineIndex.new text) p = .value r := by
  by_cases hline : text.count '\n' < p.line
  · exact ⟨_, C60_line_partial bd enc text p hline⟩
  · obtain ⟨b, a, hl, hb⟩ := lineEnd_exists text p.line (by omega)
    obtain ⟨o', ho, _⟩ := fromPosition_on bd enc text b a p.character hl hsize
    rw [hb] at ho
    exact ⟨_, ho⟩

/-- A lookup at a position. -/
theorem withOffset_panic {α : Type} (bd : Build) (ctx : Context) (file : List Tok) (p : Pos)
    (hfile : textOf file = ctx.text) (hsize : utf8Len ctx.text + p.character < 2 ^ 32)
    (rest : AtOffset → Answer α) (hrest : ∀ a, rest a ≠ .panic) :
    withOffset bd ctx p (fun o => atOffset file o rest) = .panic ↔ ∃ o, After ctx.encoding ctx.text p o := by
  have key := fun o => fromPosition_after bd ctx.encoding ctx.text p o hsize
  obtain ⟨r, hr⟩ := fromPosition_value bd ctx.encoding ctx.text p hsize
  unfold withOffset
  rw [hr]
  cases r with
  | none =>
    refine ⟨fun h => by simp at h, ?_⟩
    rintro ⟨o, h⟩
    have := ((key o).2 h).1
    rw [hr] at this; simp at this
  | some o =>
    simp only
    rw [atOffset_panic file o rest hrest, hfile]
    constructor
    · intro h; exact ⟨o, (key o).1 ⟨hr, h⟩⟩
    · rintro ⟨o', h⟩
      obtain ⟨h1, h2⟩ := (key o').2 h
      rw [hr] at h1
      have : o = o' := by simpa using h1
      omega

/-- The lookup of a range. -/
theorem focused_panic {α : Type} (file : List Tok) (r : Nat × Nat) (rest : Focus → Answer α)
    (hrest : ∀ a, rest a ≠ .panic) :
    focused file r rest = .panic ↔ r.1 = r.2 ∧ utf8Len (textOf file) < r.1 := by
  unfold focused
  by_cases h : r.1 = r.2
  · rw [if_pos h, atOffset_panic file r.1 _ (fun a => hrest _)]; simp [h]
  · rw [if_neg h]
    simp only [h, false_and, iff_false]
    split
    · exact hrest _
    · exact hrest _

/-- The server holds the documents of the client. -/
def Holds (cfg : Config) (snaps : Snapshots) (docs : Docs) : Prop :=
  ∀ u, (docs u = none → snaps u = none) ∧ ∀ d, docs u = some d →
    ∃ s, snaps u = some s ∧ s.content = d.content ∧ s.encoding = positionEncoding cfg.caps

theorem holds_reach {cfg : Config} {h : List (World × ClientMsg)} {s : State} {out : List ServerMsg}
    (hd : DrainsOnce h) (hr : run cfg .init h = (.running s, out)) :
    Holds cfg s.snapshots (docsAfter cfg (h.map (·.2))) := by
  have hi := inv_reach hd hr
  intro u
  rw [hi.snaps u, ← langsAfter_docs]
  have hl := hi.lang u
  cases hdoc : (langsAfter cfg h).docs u with
  | none => simp
  | some d =>
    cases hlang : (langsAfter cfg h).lang u with
    | none => simp [hlang, hdoc] at hl
    | some v => simp

theorem onDocument_iff {α : Type} {cfg : Config} {snaps : Snapshots} {docs : Docs}
    (hh : Holds cfg snaps docs) (dec : Option (String × α)) (f : Snapshot → α → Bool) (P : Doc → α → Prop)
    (hf : ∀ uri a s d, dec = some (uri, a) → docs uri = some d → s.content = d.content →
      s.encoding = positionEncoding cfg.caps → (f s a = true ↔ P d a)) :
    onDocument snaps dec f = true ↔ ∃ uri a d, dec = some (uri, a) ∧ docs uri = some d ∧ P d a := by
  unfold onDocument
  rcases dec with _ | ⟨uri, a⟩
  · simp
  · simp only
    cases hdoc : docs uri with
    | none =>
      rw [(hh uri).1 hdoc]
      simp only [Bool.false_eq_true, false_iff]
      rintro ⟨u, b, d, h1, h2, _⟩
      obtain ⟨rfl, rfl⟩ : uri = u ∧ a = b := by simpa using h1
      rw [hdoc] at h2; simp at h2
    | some d =>
      obtain ⟨s, hs, h1, h2⟩ := (hh uri).2 d hdoc
      rw [hs]
      simp only
      rw [hf uri a s d rfl hdoc h1 h2]
      constructor
      · intro h; exact ⟨uri, a, d, rfl, hdoc, h⟩
      · rintro ⟨u, b, d', g1, g2, g3⟩
        obtain ⟨rfl, rfl⟩ : uri = u ∧ a = b := by simpa using g1
        rw [hdoc] at g2
        obtain rfl : d = d' := by simpa using g2
        exact g3

theorem withRange_panic {α : Type} (bd : Build) (ctx : Context) (p q : Pos) (f : Nat × Nat → Answer α)
    (hp : utf8Len ctx.text + p.character < 2 ^ 32) (hq : utf8Len ctx.text + q.character < 2 ^ 32) :
    withRange bd ctx (p, q) f = .panic ↔ ∃ a b,
      fromPosition bd ctx.encoding (LineIndex.new ctx.text) p = .value (some a) ∧
      fromPosition bd ctx.encoding (LineIndex.new ctx.text) q = .value (some b) ∧ a ≤ b ∧
      f (a, b) = .panic := by
  obtain ⟨r, hr⟩ := fromPosition_value bd ctx.encoding ctx.text p hp
  obtain ⟨t, ht⟩ := fromPosition_value bd ctx.encoding ctx.text q hq
  unfold withRange fromLspRange
  simp only [hr, ht]
  cases r with
  | none => simp
  | some a =>
    cases t with
    | none => simp
    | some b =>
      by_cases hab : a ≤ b
      · simp [hab, textRangeNew]
      · simp only [hab, if_false]
        simp only [reduceCtorEq, false_iff]
        rintro ⟨a', b', h1, h2, h3, _⟩
        obtain rfl : a = a' := by simpa using h1
        obtain rfl : b = b' := by simpa using h2
        exact hab h3

theorem actionRequest_panic {α : Type} (bd : Build) (ctx : Context) (file : List Tok) (p q : Pos)
    (hfile : textOf file = ctx.text)
    (hp : utf8Len ctx.text + p.character < 2 ^ 32) (hq : utf8Len ctx.text + q.character < 2 ^ 32)
    (rest : Focus → Answer α) (hrest : ∀ a, rest a ≠ .panic) :
    actionRequest bd ctx file rest (p, q) = .panic ↔
      ∃ o, After ctx.encoding ctx.text p o ∧ After ctx.encoding ctx.text q o := by
  unfold actionRequest
  rw [withRange_panic bd ctx p q _ hp hq]
  unfold actions
  simp only [focused_panic file _ rest hrest, hfile]
  constructor
  · rintro ⟨a, b, h1, h2, _, h4, h5⟩
    obtain rfl : a = b := h4
    exact ⟨a, (fromPosition_after bd _ _ p a hp).1 ⟨h1, h5⟩, (fromPosition_after bd _ _ q a hq).1 ⟨h2, h5⟩⟩
  · rintro ⟨o, h1, h2⟩
    obtain ⟨g1, g2⟩ := (fromPosition_after bd _ _ p o hp).2 h1
    obtain ⟨g3, _⟩ := (fromPosition_after bd _ _ q o hq).2 h2
    exact ⟨o, o, g1, g3, Nat.le_refl _, rfl, g2⟩

theorem suffix_iff (u : String) :
    (".rs".toList.isSuffixOf u.toList = true) ↔ ∃ stem, u.toList = stem ++ ['.', 'r', 's'] := by
  rw [List.isSuffixOf_iff_suffix]
  constructor
  · rintro ⟨t, h⟩; exact ⟨t, h.symm⟩
  · rintro ⟨t, h⟩; exact ⟨t, h.symm⟩

theorem decodeExtract_extract (urlParse : String → Option String) (j : Json) (u : String) (r : Nat × Nat) :
    decodeExtract urlParse j = .value (.extract u r) ↔
      (∃ s, Field j "uri" (.str s) ∧ urlParse s = some u) ∧
      ∃ v, ∃ a b : Nat, Field j "range" v ∧ (Field v "start" (.num a) ∧ a < 2 ^ 64) ∧
        (Field v "end" (.num b) ∧ b < 2 ^ 64) ∧ a % 2 ^ 32 ≤ b % 2 ^ 32 ∧ r = (a % 2 ^ 32, b % 2 ^ 32) := by
  rw [← parseUri_iff]
  simp only [← numField_iff, ← get?_iff j]
  unfold decodeExtract
  cases hr : j.get? "range" with
  | none =>
    simp only [reduceCtorEq, false_and, exists_false, and_false, iff_false]
    cases parseUri urlParse j <;> simp
  | some v =>
    simp only [Option.some.injEq]
    unfold parseRange
    cases ha : (v.get? "start").bind Json.asU64? with
    | none =>
      simp only
      constructor
      · intro h; cases hu : parseUri urlParse j <;> simp [hu] at h
      · rintro ⟨_, w, a, b, rfl, h, _⟩; rw [ha] at h; simp at h
    | some a =>
      cases hb : (v.get? "end").bind Json.asU64? with
      | none =>
        simp only
        constructor
        · intro h; cases hu : parseUri urlParse j <;> simp [hu] at h
        · rintro ⟨_, w, a, b, rfl, _, h, _⟩; rw [hb] at h; simp at h
      | some b =>
        simp only [textRangeNew]
        by_cases hab : a % 2 ^ 32 ≤ b % 2 ^ 32
        · rw [if_pos hab]
          simp only
          cases hu : parseUri urlParse j with
          | none => simp
          | some u' =>
            simp only [Panics.value.injEq, Invocation.extract.injEq, Option.some.injEq]
            constructor
            · rintro ⟨rfl, rfl⟩; exact ⟨rfl, v, a, b, rfl, ha, hb, hab, rfl⟩
            · rintro ⟨rfl, w, a', b', rfl, h1, h2, _, rfl⟩
              rw [ha] at h1; rw [hb] at h2
              obtain rfl : a = a' := by simpa using h1
              obtain rfl : b = b' := by simpa using h2
              exact ⟨rfl, rfl⟩
        · rw [if_neg hab]
          simp only [reduceCtorEq, false_iff]
          rintro ⟨_, w, a', b', rfl, h1, h2, h3, _⟩
          rw [ha] at h1; rw [hb] at h2
          obtain rfl : a = a' := by simpa using h1
          obtain rfl : b = b' := by simpa using h2
          exact hab h3

theorem commandPanics_iff {cfg : Config} {x : Outside} {snaps : Snapshots} {docs : Docs}
    (hh : Holds cfg snaps docs) (htok : ∀ s, textOf (x.tokens s) = s.content.toList) (i : Panics Invocation) :
    commandPanics x snaps i = true ↔ i = .panic ∨ ∃ uri r d, i = .value (.extract uri r) ∧
      (∃ stem, uri.toList = stem ++ ['.', 'r', 's']) ∧ docs uri = some d ∧ r.1 = r.2 ∧
      utf8Len d.content.toList < r.1 := by
  cases i with
  | panic => simp [commandPanics]
  | value i =>
    cases i with
    | extract uri r =>
      simp only [commandPanics]
      by_cases hs : ".rs".toList.isSuffixOf uri.toList = true
      · rw [if_pos hs]
        rw [suffix_iff] at hs
        cases hdoc : docs uri with
        | none =>
          rw [(hh uri).1 hdoc]
          simp only [Bool.false_eq_true, reduceCtorEq, false_or, false_iff]
          rintro ⟨u, r', d, h1, _, h2, _⟩
          obtain ⟨rfl, rfl⟩ : uri = u ∧ r = r' := by simpa using h1
          rw [hdoc] at h2; simp at h2
        | some d =>
          obtain ⟨s, h1, h2, _⟩ := (hh uri).2 d hdoc
          rw [h1]
          simp only [isPanic_iff, reduceCtorEq, false_or]
          rw [focused_panic _ _ _ (by simp), htok, h2]
          constructor
          · rintro ⟨g1, g2⟩; exact ⟨uri, r, d, rfl, hs, hdoc, g1, g2⟩
          · rintro ⟨u, r', d', g1, _, g3, g4, g5⟩
            obtain ⟨rfl, rfl⟩ : uri = u ∧ r = r' := by simpa using g1
            rw [hdoc] at g3
            obtain rfl : d = d' := by simpa using g3
            exact ⟨g4, g5⟩
      · rw [if_neg hs]
        rw [suffix_iff] at hs
        simp only [Bool.false_eq_true, reduceCtorEq, false_or, false_iff]
        rintro ⟨u, r', d, h1, h2, _⟩
        obtain ⟨rfl, rfl⟩ : uri = u ∧ r = r' := by simpa using h1
        exact hs h2
    | _ => simp [commandPanics]

theorem extract_iff (cfg : Config) (docs : Docs) (j : Json) :
    (∃ uri r d, decodeExtract cfg.urlParse j = .value (.extract uri r) ∧
      (∃ stem, uri.toList = stem ++ ['.', 'r', 's']) ∧ docs uri = some d ∧ r.1 = r.2 ∧
      utf8Len d.content.toList < r.1) ↔ PointAfter cfg docs j := by
  simp only [decodeExtract_extract]
  constructor
  · rintro ⟨uri, r, d, ⟨⟨s, h1, h2⟩, v, a, b, h3, ⟨h4, h5⟩, ⟨h6, h7⟩, h8, rfl⟩, h9, h10, h11, h12⟩
    exact ⟨s, uri, d, v, a, b, h1, h2, h9, h10, h3, h4, h5, h6, h7, h11, h12⟩
  · rintro ⟨s, uri, d, v, a, b, h1, h2, h9, h10, h3, h4, h5, h6, h7, h11, h12⟩
    exact ⟨uri, (a % 2 ^ 32, b % 2 ^ 32), d,
      ⟨⟨s, h1, h2⟩, v, a, b, h3, ⟨h4, h5⟩, ⟨h6, h7⟩, by omega, rfl⟩, h9, h10, h11, h12⟩

theorem executeExtract (urlParse : String → Option String) (cmd : String) (args : List Json) (u : String)
    (r : Nat × Nat) : decodeExecute urlParse cmd args = .value (.extract u r) ↔
      cmd = "extractEvent" ∧ ∃ arg rest, args = arg :: rest ∧
        decodeExtract urlParse arg = .value (.extract u r) := by
  unfold decodeExecute
  by_cases h1 : cmd = "createProject"
  · subst h1
    simp only [if_true]
    split <;> simp
  · by_cases h2 : cmd = "migrateProject"
    · subst h2
      simp only [reduceCtorEq, if_false, if_true, h1]
      split <;> simp
    · by_cases h3 : cmd = "extractEvent"
      · subst h3
        cases args with
        | nil => simp
        | cons a rest => simp
      · simp [h1, h2, h3]

theorem resolveExtract (urlParse : String → Option String) (data : Option Json) (u : String)
    (r : Nat × Nat) : decodeResolve urlParse data = .value (.extract u r) ↔
      ∃ d, data = some d ∧ Field d "command" (.str "extractEvent") ∧
        decodeExtract urlParse d = .value (.extract u r) := by
  simp only [← strField_iff]
  unfold decodeResolve
  cases data with
  | none => simp
  | some d =>
    simp only [Option.bind_some, Option.getD_some, Option.some.injEq]
    cases hc : (d.get? "command").bind Json.asStr? with
    | none => simp [hc]
    | some cmd =>
      simp only
      by_cases h2 : cmd = "migrateProject"
      · subst h2
        simp only [if_true]
        split <;> simp [hc]
      · by_cases h3 : cmd = "extractEvent"
        · subst h3
          simp [hc]
        · simp [h2, h3, hc]

/-- One request, in terms of the documents of the client. -/
theorem panics_iff {bd : Build} {cfg : Config} {x : Outside} {snaps : Snapshots} {docs : Docs} {req : Request}
    (hh : Holds cfg snaps docs) (htok : ∀ s, textOf (x.tokens s) = s.content.toList)
    (hsmall : Small x docs req) : panics bd cfg x snaps req = true ↔ Fatal cfg x docs req := by
  have hpos : ∀ (f : Snapshot → Pos → Bool),
      (∀ s p, f s p = isPanic (withOffset bd (contextOf s) p
        (fun o => atOffset (x.tokens s) o (fun _ => Answer.ok ())))) →
      (onDocument snaps (x.params.position req.method req.params) f = true ↔
        ∃ uri p d, x.params.position req.method req.params = some (uri, p) ∧ docs uri = some d ∧
          ∃ o, After (positionEncoding cfg.caps) d.content.toList p o) := by
    intro f hf
    refine onDocument_iff hh _ f (fun d p => ∃ o, After (positionEncoding cfg.caps) d.content.toList p o) ?_
    intro uri p s d h1 h2 h3 h4
    have := hsmall.1 uri p d h1 h2
    rw [hf, isPanic_iff, withOffset_panic bd (contextOf s) (x.tokens s) p (htok s)
      (by simpa [contextOf, h3] using this) _ (by simp)]
    simp [contextOf, h3, h4]
  have hrange : ∀ (f : Snapshot → Pos × Pos → Bool) (P : Doc → Pos × Pos → Prop),
      (∀ s d r, s.content = d.content → s.encoding = positionEncoding cfg.caps →
        utf8Len d.content.toList + r.1.character < 2 ^ 32 → utf8Len d.content.toList + r.2.character < 2 ^ 32 →
        (f s r = true ↔ P d r)) →
      (onDocument snaps (x.params.range req.method req.params) f = true ↔
        ∃ uri r d, x.params.range req.method req.params = some (uri, r) ∧ docs uri = some d ∧ P d r) := by
    intro f P hf
    refine onDocument_iff hh _ f P ?_
    intro uri r s d h1 h2 h3 h4
    obtain ⟨g1, g2⟩ := hsmall.2 uri r d h1 h2
    exact hf s d r h3 h4 g1 g2
  unfold panics
  by_cases m1 : req.method = "textDocument/completion"
  · rw [if_pos m1, hpos _ (fun s p => by rfl)]
    constructor
    · rintro ⟨uri, p, d, h1, h2, o, h3⟩; exact .position uri p d o (.inl m1) h1 h2 h3
    · intro h
      cases h with
      | position uri p d o _ h1 h2 h3 => exact ⟨uri, p, d, h1, h2, o, h3⟩
      | _ => simp_all
  by_cases m2 : req.method = "textDocument/hover"
  · rw [if_neg m1, if_pos m2, hpos _ (fun s p => by
      simp [hoverRequest, hover, focused])]
    constructor
    · rintro ⟨uri, p, d, h1, h2, o, h3⟩; exact .position uri p d o (.inr (.inl m2)) h1 h2 h3
    · intro h
      cases h with
      | position uri p d o _ h1 h2 h3 => exact ⟨uri, p, d, h1, h2, o, h3⟩
      | _ => simp_all
  by_cases m3 : req.method = "textDocument/codeAction"
  · rw [if_neg m1, if_neg m2, if_pos m3, hrange _ (fun d r =>
      ∃ o, After (positionEncoding cfg.caps) d.content.toList r.1 o ∧
        After (positionEncoding cfg.caps) d.content.toList r.2 o)]
    · constructor
      · rintro ⟨uri, r, d, h1, h2, o, h3, h4⟩; exact .selection uri r.1 r.2 d o m3 h1 h2 h3 h4
      · intro h
        cases h with
        | selection uri p q d o _ h1 h2 h3 h4 => exact ⟨uri, (p, q), d, h1, h2, o, h3, h4⟩
        | _ => simp_all
    · intro s d r h3 h4 h5 h6
      rw [isPanic_iff]
      rw [show r = (r.1, r.2) from rfl, actionRequest_panic bd (contextOf s) (x.tokens s) r.1 r.2 (htok s)
        (by simpa [contextOf, h3] using h5) (by simpa [contextOf, h3] using h6) _ (by simp)]
      simp [contextOf, h3, h4]
  by_cases m4 : req.method = "codeAction/resolve"
  · rw [if_neg m1, if_neg m2, if_neg m3, if_pos m4]
    cases hp : x.params.action req.params with
    | none =>
      simp only [Bool.false_eq_true, false_iff]
      intro h
      cases h <;> simp_all
    | some data =>
      simp only
      rw [commandPanics_iff hh htok, C55_resolve_panics_iff_partial]
      simp only [resolveExtract]
      constructor
      · rintro (⟨d, rfl, h1, h2⟩ | ⟨uri, r, doc, ⟨d, rfl, h1, h2⟩, h3⟩)
        · exact .resolve d m4 hp h1 (.inl h2)
        · exact .resolve d m4 hp h1 (.inr ((extract_iff cfg docs d).1 ⟨uri, r, doc, h2, h3⟩))
      · intro h
        cases h with
        | resolve d _ h1 h2 h3 =>
          rw [hp] at h1
          obtain rfl : data = some d := by simpa using h1
          rcases h3 with h3 | h3
          · exact .inl ⟨d, rfl, h2, h3⟩
          · obtain ⟨uri, r, doc, g1, g2⟩ := (extract_iff cfg docs d).2 h3
            exact .inr ⟨uri, r, doc, ⟨d, rfl, h2, g1⟩, g2⟩
        | _ => simp_all
  by_cases m5 : req.method = "textDocument/inlayHint"
  · rw [if_neg m1, if_neg m2, if_neg m3, if_neg m4, if_pos m5, hrange _ (fun _ _ => False)]
    · constructor
      · rintro ⟨_, _, _, _, _, h⟩; exact h.elim
      · intro h; cases h <;> simp_all
    · intro s d r h3 h4 h5 h6
      rw [isPanic_iff, show r = (r.1, r.2) from rfl, withRange_panic bd (contextOf s) r.1 r.2 _
        (by simpa [contextOf, h3] using h5) (by simpa [contextOf, h3] using h6)]
      simp
  by_cases m6 : req.method = "textDocument/signatureHelp"
  · rw [if_neg m1, if_neg m2, if_neg m3, if_neg m4, if_neg m5, if_pos m6, hpos _ (fun s p => by rfl)]
    constructor
    · rintro ⟨uri, p, d, h1, h2, o, h3⟩; exact .position uri p d o (.inr (.inr m6)) h1 h2 h3
    · intro h
      cases h with
      | position uri p d o _ h1 h2 h3 => exact ⟨uri, p, d, h1, h2, o, h3⟩
      | _ => simp_all
  by_cases m7 : req.method = "workspace/executeCommand"
  · rw [if_neg m1, if_neg m2, if_neg m3, if_neg m4, if_neg m5, if_neg m6, if_pos m7]
    cases hp : x.params.command req.params with
    | none =>
      simp only [Bool.false_eq_true, false_iff]
      intro h
      cases h <;> simp_all
    | some ca =>
      obtain ⟨cmd, args⟩ := ca
      simp only
      rw [commandPanics_iff hh htok, C55_panics_iff_partial]
      simp only [executeExtract]
      constructor
      · rintro (⟨rfl, arg, rest, rfl, h2⟩ | ⟨uri, r, doc, ⟨rfl, arg, rest, rfl, h2⟩, h3⟩)
        · exact .command arg rest m7 hp (.inl h2)
        · exact .command arg rest m7 hp (.inr ((extract_iff cfg docs arg).1 ⟨uri, r, doc, h2, h3⟩))
      · intro h
        cases h with
        | command arg rest _ h1 h3 =>
          rw [hp] at h1
          obtain ⟨rfl, rfl⟩ : cmd = "extractEvent" ∧ args = arg :: rest := by simpa using h1
          rcases h3 with h3 | h3
          · exact .inl ⟨rfl, arg, rest, rfl, h3⟩
          · obtain ⟨uri, r, doc, g1, g2⟩ := (extract_iff cfg docs arg).2 h3
            exact .inr ⟨uri, r, doc, ⟨rfl, arg, rest, rfl, g1⟩, g2⟩
        | _ => simp_all
  · rw [if_neg m1, if_neg m2, if_neg m3, if_neg m4, if_neg m5, if_neg m6, if_neg m7]
    simp only [Bool.false_eq_true, false_iff]
    intro h
    cases h <;> simp_all

/-! ## Sessions -/

theorem run_cons_running {cfg : Config} {s : State} {w : World} {msg : ClientMsg} {s' : State}
    {out : List ServerMsg} (h : step cfg w s msg = (.running s', out)) (rest : List (World × ClientMsg)) :
    run cfg s ((w, msg) :: rest) = ((run cfg s' rest).1, out ++ (run cfg s' rest).2) := by
  simp [run, h]

theorem stepP_none {bd : Build} {cfg : Config} {x : Outside} {w : World} {s : State} {msg : ClientMsg} :
    stepP bd cfg x w s msg = none ↔
      ∃ req, msg = .request req ∧ req.method ≠ "shutdown" ∧ panics bd cfg x s.snapshots req = true := by
  unfold stepP
  cases msg with
  | request req =>
    by_cases h1 : req.method = "shutdown"
    · simp [h1]
    · by_cases h2 : panics bd cfg x s.snapshots req = true <;> simp [h1, h2]
  | _ => simp

theorem stepP_some {bd : Build} {cfg : Config} {x : Outside} {w : World} {s : State} {msg : ClientMsg}
    {r : Outcome × List ServerMsg} (h : stepP bd cfg x w s msg = some r) : step cfg w s msg = r := by
  unfold stepP at h
  cases msg with
  | request req =>
    simp only at h
    by_cases h1 : req.method = "shutdown"
    · simpa [h1] using h
    · by_cases h2 : panics bd cfg x s.snapshots req = true
      · simp [h1, h2] at h
      · simpa [h1, h2] using h
  | _ => simpa using h

/-- The request panics when it arrives in the state `s`. -/
def PanicsAt (bd : Build) (cfg : Config) (x : Outside) (s : State) (msg : ClientMsg) : Prop :=
  ∃ req, msg = .request req ∧ req.method ≠ "shutdown" ∧ panics bd cfg x s.snapshots req = true

/-- Either no message panics and the session is that of the loop without panics, or there is a first
message that panics, and the session is that of the loop without panics up to it. -/
theorem runP_cases (bd : Build) (cfg : Config) (x : Outside) (s : State) (h : List (World × ClientMsg)) :
    (runP bd cfg x s h = (.outcome (run cfg s h).1, (run cfg s h).2) ∧
      ∀ pre w msg post s' out, h = pre ++ (w, msg) :: post → run cfg s pre = (.running s', out) →
        ¬ PanicsAt bd cfg x s' msg) ∨
    (∃ pre w msg post s' out, h = pre ++ (w, msg) :: post ∧ run cfg s pre = (.running s', out) ∧
      PanicsAt bd cfg x s' msg ∧ runP bd cfg x s h = (.panicked, out) ∧
      ∀ pre' w' msg' post' s'' out', pre = pre' ++ (w', msg') :: post' →
        run cfg s pre' = (.running s'', out') → ¬ PanicsAt bd cfg x s'' msg') := by
  induction h generalizing s with
  | nil =>
    left
    refine ⟨rfl, ?_⟩
    intro pre w msg post s' out h
    simp at h
  | cons m rest ih =>
    obtain ⟨w, msg⟩ := m
    cases hstep : stepP bd cfg x w s msg with
    | none =>
      right
      refine ⟨[], w, msg, rest, s, [], rfl, rfl, stepP_none.1 hstep, by simp [runP, hstep], ?_⟩
      intro pre' w' msg' post' s'' out' h
      simp at h
    | some r =>
      have hnot : ¬ PanicsAt bd cfg x s msg := by
        intro hp
        rw [stepP_none.2 hp] at hstep; simp at hstep
      have hs := stepP_some hstep
      obtain ⟨o, out⟩ := r
      cases o with
      | stopped =>
        left
        refine ⟨by simp [runP, hstep, run, hs], ?_⟩
        intro pre w' msg' post s' out' heq hrun
        cases pre with
        | nil =>
          simp only [List.nil_append, List.cons.injEq, Prod.mk.injEq] at heq
          obtain ⟨⟨rfl, rfl⟩, rfl⟩ := heq
          simp only [run, Prod.mk.injEq, Outcome.running.injEq] at hrun
          obtain ⟨rfl, _⟩ := hrun
          exact hnot
        | cons m' pre =>
          simp only [List.cons_append, List.cons.injEq] at heq
          obtain ⟨rfl, rfl⟩ := heq
          simp [run, hs] at hrun
      | running s1 =>
        rcases ih s1 with ⟨h1, h2⟩ | ⟨pre, w', msg', post, s', out', h1, h2, h3, h4, h5⟩
        · left
          refine ⟨by simp [runP, hstep, run, hs, h1], ?_⟩
          intro pre w' msg' post s' out' heq hrun
          cases pre with
          | nil =>
            simp only [List.nil_append, List.cons.injEq, Prod.mk.injEq] at heq
            obtain ⟨⟨rfl, rfl⟩, rfl⟩ := heq
            simp only [run, Prod.mk.injEq, Outcome.running.injEq] at hrun
            obtain ⟨rfl, _⟩ := hrun
            exact hnot
          | cons m' pre =>
            simp only [List.cons_append, List.cons.injEq] at heq
            obtain ⟨rfl, rfl⟩ := heq
            rw [run_cons_running hs] at hrun
            simp only [Prod.mk.injEq] at hrun
            exact h2 pre w' msg' post s' (run cfg s1 pre).2 rfl (by rw [← hrun.1])
        · right
          refine ⟨(w, msg) :: pre, w', msg', post, s', out ++ out', by rw [h1]; rfl, ?_, h3, ?_, ?_⟩
          · rw [run_cons_running hs, h2]
          · simp [runP, hstep, h4]
          · intro pre' w'' msg'' post' s'' o heq hrun
            cases pre' with
            | nil =>
              simp only [List.nil_append, List.cons.injEq, Prod.mk.injEq] at heq
              obtain ⟨⟨rfl, rfl⟩, rfl⟩ := heq
              simp only [run, Prod.mk.injEq, Outcome.running.injEq] at hrun
              obtain ⟨rfl, _⟩ := hrun
              exact hnot
            | cons m' pre' =>
              simp only [List.cons_append, List.cons.injEq] at heq
              obtain ⟨rfl, heq⟩ := heq
              rw [run_cons_running hs] at hrun
              simp only [Prod.mk.injEq] at hrun
              exact h5 pre' w'' msg'' post' s'' (run cfg s1 pre').2 heq (by rw [← hrun.1])

/-! ## C126 -/

/-- The sizes of the documents and columns of a session. -/
def SmallSession (cfg : Config) (x : Outside) (h : List (World × ClientMsg)) : Prop :=
  ∀ pre w req post, h = pre ++ (w, .request req) :: post → Small x (docsAfter cfg (pre.map (·.2))) req

theorem DrainsOnce.left {a b : List (World × ClientMsg)} (h : DrainsOnce (a ++ b)) : DrainsOnce a :=
  fun y hy => h y (List.mem_append_left _ hy)

theorem fatal_at {bd : Build} {cfg : Config} {x : Outside} {h pre post : List (World × ClientMsg)} {w : World}
    {msg : ClientMsg} {s : State} {out : List ServerMsg}
    (hd : DrainsOnce h) (htok : ∀ s, textOf (x.tokens s) = s.content.toList) (hsmall : SmallSession cfg x h)
    (heq : h = pre ++ (w, msg) :: post) (hr : run cfg .init pre = (.running s, out)) :
    PanicsAt bd cfg x s msg ↔ ∃ req, msg = .request req ∧ Fatal cfg x (docsAfter cfg (pre.map (·.2))) req := by
  have hh := holds_reach (DrainsOnce.left (heq ▸ hd)) hr
  constructor
  · rintro ⟨req, rfl, _, h2⟩
    exact ⟨req, rfl, (panics_iff hh htok (hsmall pre w req post heq)).1 h2⟩
  · rintro ⟨req, rfl, h2⟩
    refine ⟨req, rfl, ?_, (panics_iff hh htok (hsmall pre w req post heq)).2 h2⟩
    intro hm
    cases h2 <;> simp_all

/-- **C126** (partial). Exactly which sessions end with a panic: those in which, while the server is
running, a request arrives that is fatal for the documents the client has open at that time. Missing:
there should be none. -/
theorem C126_session_partial (bd : Build) (cfg : Config) (x : Outside) (h : List (World × ClientMsg))
    (hd : DrainsOnce h) (htok : ∀ s, textOf (x.tokens s) = s.content.toList) (hsmall : SmallSession cfg x h) :
    (runP bd cfg x .init h).1 = .panicked ↔
      ∃ pre w req post, h = pre ++ (w, .request req) :: post ∧
        (∃ s out, run cfg .init pre = (.running s, out)) ∧
        Fatal cfg x (docsAfter cfg (pre.map (·.2))) req := by
  rcases runP_cases bd cfg x .init h with ⟨h1, h2⟩ | ⟨pre, w, msg, post, s, out, h1, h2, h3, h4, _⟩
  · rw [h1]
    simp only [reduceCtorEq, false_iff]
    rintro ⟨pre, w, req, post, g1, ⟨s, out, g2⟩, g3⟩
    exact h2 pre w _ post s out g1 g2 ((fatal_at hd htok hsmall g1 g2).2 ⟨req, rfl, g3⟩)
  · rw [h4]
    simp only [true_iff]
    obtain ⟨req, rfl, g⟩ := (fatal_at hd htok hsmall h1 h2).1 h3
    exact ⟨pre, w, req, post, h1, ⟨s, out, h2⟩, g⟩

/-- A session without a fatal request is the session of the loop whose handlers always return, so what
is proved of that loop (C01 to C07) holds for it. -/
theorem C126_refines (bd : Build) (cfg : Config) (x : Outside) (h : List (World × ClientMsg))
    (hd : DrainsOnce h) (htok : ∀ s, textOf (x.tokens s) = s.content.toList) (hsmall : SmallSession cfg x h)
    (hsafe : ∀ pre w req post, h = pre ++ (w, .request req) :: post →
      ¬ Fatal cfg x (docsAfter cfg (pre.map (·.2))) req) :
    runP bd cfg x .init h = (.outcome (run cfg .init h).1, (run cfg .init h).2) := by
  rcases runP_cases bd cfg x .init h with ⟨h1, _⟩ | ⟨pre, w, msg, post, s, out, h1, h2, h3, _⟩
  · exact h1
  · obtain ⟨req, rfl, g⟩ := (fatal_at hd htok hsmall h1 h2).1 h3
    exact absurd g (hsafe pre w req post h1)

/-- A fatal request is not answered, and neither is anything after it: whatever follows, what the
client gets is what it got before the first fatal request. -/
theorem C126_silence (bd : Build) (cfg : Config) (x : Outside) (pre post : List (World × ClientMsg))
    (w : World) (req : Request) (s : State) (out : List ServerMsg)
    (hd : DrainsOnce (pre ++ (w, .request req) :: post))
    (htok : ∀ s, textOf (x.tokens s) = s.content.toList)
    (hsmall : SmallSession cfg x (pre ++ (w, .request req) :: post))
    (hr : run cfg .init pre = (.running s, out))
    (hsafe : ∀ pre' w' req' post', pre = pre' ++ (w', .request req') :: post' →
      ¬ Fatal cfg x (docsAfter cfg (pre'.map (·.2))) req')
    (hfatal : Fatal cfg x (docsAfter cfg (pre.map (·.2))) req) :
    runP bd cfg x .init (pre ++ (w, .request req) :: post) = (.panicked, out) := by
  rcases runP_cases bd cfg x .init (pre ++ (w, .request req) :: post) with
    ⟨_, h2⟩ | ⟨pre', w', msg', post', s', out', h1, h2, h3, h4, h5⟩
  · exact absurd ((fatal_at hd htok hsmall rfl hr).2 ⟨req, rfl, hfatal⟩) (h2 pre w _ post s out rfl hr)
  · obtain ⟨req', rfl, g⟩ := (fatal_at hd htok hsmall h1 h2).1 h3
    rw [h4]
    rcases List.append_eq_append_iff.1 h1 with ⟨l, e1, e2⟩ | ⟨l, e1, e2⟩
    · cases l with
      | nil =>
        simp only [List.append_nil] at e1
        subst e1
        rw [hr] at h2
        simp only [Prod.mk.injEq] at h2
        rw [h2.2]
      | cons m l =>
        simp only [List.cons_append, List.cons.injEq] at e2
        obtain ⟨rfl, e2⟩ := e2
        exact absurd ((fatal_at hd htok hsmall rfl hr).2 ⟨req, rfl, hfatal⟩) (h5 pre w _ l s out e1 hr)
    · cases l with
      | nil =>
        simp only [List.append_nil] at e1
        subst e1
        rw [hr] at h2
        simp only [Prod.mk.injEq] at h2
        rw [h2.2]
      | cons m l =>
        simp only [List.cons_append, List.cons.injEq] at e2
        obtain ⟨rfl, _⟩ := e2
        exact absurd g (hsafe pre' w' req' l e1)

/-! ### Clients that name places of their documents -/

/-- The position is a place of the text: the line and the column of some point in it. -/
def Place (enc : Encoding) (text : List Char) (p : Pos) : Prop :=
  ∃ pre post, text = pre ++ post ∧ p = ⟨pre.count '\n', unitsOf enc (lastLine pre)⟩

/-- The `range` of the argument is in order and inside the document the argument names. -/
def RangeInside (cfg : Config) (docs : Docs) (arg : Json) : Prop :=
  ∀ (v : Json) (a b : Nat), Field arg "range" v → Field v "start" (.num a) → Field v "end" (.num b) →
    a ≤ b ∧ b < 2 ^ 32 ∧ ∀ (s uri : String) (d : Doc), Field arg "uri" (.str s) → cfg.urlParse s = some uri →
      docs uri = some d → b ≤ utf8Len d.content.toList

/-- Whatever the request names is inside the open documents of the client. -/
def Inside (cfg : Config) (x : Outside) (docs : Docs) (req : Request) : Prop :=
  (∀ uri p d, x.params.position req.method req.params = some (uri, p) → docs uri = some d →
    Place (positionEncoding cfg.caps) d.content.toList p) ∧
  (∀ uri p q d, x.params.range req.method req.params = some (uri, (p, q)) → docs uri = some d →
    Place (positionEncoding cfg.caps) d.content.toList p ∧
    Place (positionEncoding cfg.caps) d.content.toList q) ∧
  (∀ cmd arg args, x.params.command req.params = some (cmd, arg :: args) → RangeInside cfg docs arg) ∧
  (∀ data, x.params.action req.params = some (some data) → RangeInside cfg docs data)

theorem place_small {enc : Encoding} {text : List Char} {p : Pos} (h : Place enc text p) :
    p.character ≤ utf8Len text := by
  obtain ⟨pre, post, rfl, rfl⟩ := h
  have h1 := unitsOf_le enc (lastLine pre)
  have h2 := lastLine_le pre
  rw [utf8Len_append]
  show unitsOf enc (lastLine pre) ≤ _
  omega

theorem place_not_after {enc : Encoding} {text : List Char} {p : Pos} (hs : utf8Len text < 2 ^ 31)
    (h : Place enc text p) (o : Nat) : ¬ After enc text p o := by
  intro ha
  have hp := place_small h
  obtain ⟨h1, h2⟩ := (fromPosition_after .release enc text p o (by omega)).2 ha
  obtain ⟨pre, post, rfl, rfl⟩ := h
  have h3 := fromPosition_eq .release enc pre post (by omega)
  unfold posOf at h3
  rw [h3] at h1
  have : utf8Len pre = o := by simpa using h1
  rw [utf8Len_append] at h2
  omega

theorem inside_range {cfg : Config} {docs : Docs} {arg : Json} (h : RangeInside cfg docs arg) :
    ¬ (InvertedRange arg ∨ PointAfter cfg docs arg) := by
  rintro (⟨v, a, b, h1, h2, _, h3, _, h4⟩ | ⟨s, uri, d, v, a, b, h1, h2, _, h3, h4, h5, _, h6, _, h7, h8⟩)
  · obtain ⟨g1, g2, _⟩ := h v a b h1 h2 h3
    rw [Nat.mod_eq_of_lt g2, Nat.mod_eq_of_lt (by omega)] at h4
    omega
  · obtain ⟨g1, g2, g3⟩ := h v a b h4 h5 h6
    have := g3 s uri d h1 h2 h3
    rw [Nat.mod_eq_of_lt (show a < 2 ^ 32 by omega)] at h8
    omega

theorem inside_safe {cfg : Config} {x : Outside} {docs : Docs} {req : Request}
    (hs : ∀ uri d, docs uri = some d → utf8Len d.content.toList < 2 ^ 31) (h : Inside cfg x docs req) :
    Small x docs req ∧ ¬ Fatal cfg x docs req := by
  obtain ⟨h1, h2, h3, h4⟩ := h
  refine ⟨⟨?_, ?_⟩, ?_⟩
  · intro uri p d g1 g2
    have := place_small (h1 uri p d g1 g2)
    have := hs uri d g2
    omega
  · intro uri r d g1 g2
    have := place_small (h2 uri r.1 r.2 d g1 g2).1
    have := place_small (h2 uri r.1 r.2 d g1 g2).2
    have := hs uri d g2
    omega
  · intro hf
    cases hf with
    | position uri p d o _ g1 g2 g3 => exact place_not_after (hs uri d g2) (h1 uri p d g1 g2) o g3
    | selection uri p q d o _ g1 g2 g3 _ => exact place_not_after (hs uri d g2) (h2 uri p q d g1 g2).1 o g3
    | command arg args _ g1 g2 => exact inside_range (h3 _ arg args g1) g2
    | resolve data _ g1 _ g2 => exact inside_range (h4 data g1) g2

/-- A client that only names places of the documents it has open, each of less than two gigabytes, never
meets a panic: its session is the session of the loop whose handlers always return. -/
theorem C126_client (bd : Build) (cfg : Config) (x : Outside) (h : List (World × ClientMsg))
    (hd : DrainsOnce h) (htok : ∀ s, textOf (x.tokens s) = s.content.toList)
    (hsize : ∀ pre post uri d, h = pre ++ post → docsAfter cfg (pre.map (·.2)) uri = some d →
      utf8Len d.content.toList < 2 ^ 31)
    (hin : ∀ pre w req post, h = pre ++ (w, .request req) :: post →
      Inside cfg x (docsAfter cfg (pre.map (·.2))) req) :
    runP bd cfg x .init h = (.outcome (run cfg .init h).1, (run cfg .init h).2) := by
  have key := fun pre w req post (heq : h = pre ++ (w, .request req) :: post) =>
    inside_safe (fun uri d hdoc => hsize pre _ uri d heq hdoc) (hin pre w req post heq)
  exact C126_refines bd cfg x h hd htok (fun pre w req post heq => (key pre w req post heq).1)
    (fun pre w req post heq => (key pre w req post heq).2)

/-- Such a client gets one response for each of its requests, in order, as long as it neither shuts the
server down nor sends document notifications that cannot be read (C05). -/
theorem C126_answered (bd : Build) (cfg : Config) (x : Outside) (h : List (World × ClientMsg))
    (hd : DrainsOnce h) (htok : ∀ s, textOf (x.tokens s) = s.content.toList)
    (hsize : ∀ pre post uri d, h = pre ++ post → docsAfter cfg (pre.map (·.2)) uri = some d →
      utf8Len d.content.toList < 2 ^ 31)
    (hin : ∀ pre w req post, h = pre ++ (w, .request req) :: post →
      Inside cfg x (docsAfter cfg (pre.map (·.2))) req)
    (h1 : ∀ y ∈ h, ∀ req, y.2 = .request req → req.method ≠ "shutdown")
    (h2 : ∀ y ∈ h, ∀ p, y.2 ≠ .notification "exit" p)
    (h3 : ∀ y ∈ h, ∀ m p, y.2 = .notification m p → ¬ MalformedNote cfg m p) :
    ∃ s out, runP bd cfg x .init h = (.outcome (.running s), out) ∧
      (responses out).map (·.id) = requestIds (h.map (·.2)) := by
  obtain ⟨s, out, hr⟩ := C05_session_runs_partial cfg h .init h1 h2 h3
  refine ⟨s, out, ?_, C03_responses_match_requests cfg h .init s out hr⟩
  rw [C126_client bd cfg x h hd htok hsize hin, hr]

theorem field_unique {j : Json} {key : String} {v w : Json} (h1 : Field j key v) (h2 : Field j key w) :
    v = w := by
  rw [← get?_iff] at h1 h2
  rw [h1] at h2
  simpa using h2

theorem offered_range {cfg : Config} {docs : Docs} {arg : Json} {r : Nat × Nat}
    (hf : Field arg "range" (rangeJson r)) (hr : r.1 < r.2 ∧ r.2 < 2 ^ 32) :
    ¬ (InvertedRange arg ∨ PointAfter cfg docs arg) := by
  have hs : Field (rangeJson r) "start" (.num r.1) := ⟨_, rfl, rfl⟩
  have he : Field (rangeJson r) "end" (.num r.2) := ⟨_, rfl, rfl⟩
  have key : ∀ (v : Json) (a b : Nat), Field arg "range" v → Field v "start" (.num a) →
      Field v "end" (.num b) → a % 2 ^ 32 < b % 2 ^ 32 := by
    intro v a b h1 h2 h3
    obtain rfl := field_unique hf h1
    have e1 : r.1 = a := by
      have := field_unique hs h2
      simpa [Int.ofNat_inj] using this
    have e2 : r.2 = b := by
      have := field_unique he h3
      simpa [Int.ofNat_inj] using this
    rw [← e1, ← e2, Nat.mod_eq_of_lt hr.2, Nat.mod_eq_of_lt (by omega)]
    exact hr.1
  rintro (⟨v, a, b, h1, h2, _, h3, _, h4⟩ | ⟨s, uri, d, v, a, b, _, _, _, _, h4, h5, _, h6, _, h7, _⟩)
  · have := key v a b h1 h2 h3; omega
  · have := key v a b h4 h5 h6; omega

/-- Asking the server for an action that it offered is never fatal, whatever the client has done to its
documents in the meantime: neither resolving the action with its data nor executing its command. The
ranges of extractions are not empty (they are those of a declaration). -/
theorem C126_offered (cfg : Config) (x : Outside) (docs : Docs) (action : Action) (uri : String)
    (editResolve : Bool) (a : LspAction) (ha : lspAction action uri editResolve = some a)
    (hr : action.kind = .extract → action.range.1 < action.range.2 ∧ action.range.2 < 2 ^ 32)
    (req : Request)
    (hreq : (req.method = "codeAction/resolve" ∧ x.params.action req.params = some a.data) ∨
      (req.method = "workspace/executeCommand" ∧ x.params.command req.params = a.command)) :
    ¬ Fatal cfg x docs req := by
  intro hf
  unfold lspAction at ha
  simp only at ha
  split at ha
  · simp only [Option.some.injEq] at ha
    rcases hreq with ⟨hm, hp⟩ | ⟨hm, hp⟩
    · cases hf with
      | resolve data _ h1 h2 h3 =>
        rw [hp] at h1
        simp only [Option.some.injEq] at h1
        rw [← ha] at h1
        simp only at h1
        split at h1
        · rename_i hl
          split at h1
          · simp only [Option.some.injEq] at h1
            have hc : Field data "command" (.str (commandName action.kind)) := ⟨_, h1.symm, rfl⟩
            have hn := field_unique h2 hc
            have hk : action.kind = .extract := by
              cases hk : action.kind <;> simp [hk, commandName] at hl hn ⊢
            exact offered_range (r := action.range) ⟨_, h1.symm, rfl⟩ (hr hk) h3
          · simp at h1
        · split at h1
          · simp at h1
          · simp only [Option.some.injEq] at h1
            obtain ⟨fields, g1, g2⟩ := h2
            rw [← h1] at g1
            simp only [Json.obj.injEq] at g1
            rw [← g1] at g2
            simp [List.lookup] at g2
      | _ => simp_all
    · cases hf with
      | command arg args _ h1 h3 =>
        rw [hp, ← ha] at h1
        simp only at h1
        split at h1
        · rename_i hl
          split at h1
          · simp at h1
          · simp only [Option.some.injEq, Prod.mk.injEq, List.cons.injEq] at h1
            obtain ⟨hn, harg, _⟩ := h1
            have hk : action.kind = .extract := by
              cases hk : action.kind <;> simp [hk, commandName] at hl hn ⊢
            exact offered_range (r := action.range) ⟨_, harg.symm, rfl⟩ (hr hk) h3
        · simp at h1
      | _ => simp_all
  · simp at ha

/-- An extraction of a declaration of ten bytes, and a client which sends its data back. -/
example : ∃ a, lspAction ⟨"Extract ink! event into a standalone package", .extract, (20, 30), []⟩
      "file:///a.rs" true = some a ∧
    a.data = some (.obj [("command", .str "extractEvent"), ("uri", .str "file:///a.rs"),
      ("range", .obj [("start", .num 20), ("end", .num 30)])]) := ⟨_, rfl, rfl⟩

/-! ### A session -/

/-- Parameters as the demo client sends them. -/
def demoOutside : Outside where
  params := {
    position := fun _ j => do
      let n ← (j.get? "character").bind Json.asU64?
      some (← (j.get? "uri").bind Json.asStr?, ⟨0, n⟩)
    range := fun _ _ => none
    command := fun j => do some (← (j.get? "command").bind Json.asStr?, [← j.get? "argument"])
    action := fun j => some (j.get? "data") }
  tokens := fun s => [⟨false, s.content.toList⟩]

/-- The demo client opens a document with eight characters and asks for a hover at a column. -/
def demoHover (c : Int) : List (World × ClientMsg) :=
  demoHistory ++ [(demoWorld, .request ⟨.num 8, "textDocument/hover",
    .obj [("uri", .str "file:///a.rs"), ("character", .num c)]⟩)]

theorem demoHover_drains (c : Int) : DrainsOnce (demoHover c) := by
  intro y hy l
  simp [demoHover, demoHistory] at hy
  rcases hy with rfl | rfl | rfl | rfl <;> exact List.Perm.refl _

theorem demoHover_small : SmallSession demoConfig demoOutside (demoHover 9) := by
  intro pre w req post h
  match pre, h with
  | [], h => simp [demoHover, demoHistory] at h
  | [a], h =>
    simp [demoHover, demoHistory] at h
    obtain ⟨_, ⟨_, rfl⟩, _⟩ := h
    constructor
    · intro uri p d h1; simp [demoOutside, Json.get?, List.lookup] at h1
    · intro uri p d h1; simp [demoOutside] at h1
  | [a, b], h => simp [demoHover, demoHistory] at h
  | [a, b, c], h =>
    simp [demoHover, demoHistory] at h
    obtain ⟨rfl, rfl, rfl, ⟨_, rfl⟩, _⟩ := h
    constructor
    · intro uri p d h1 h2
      have e : demoOutside.params.position "textDocument/hover"
          (.obj [("uri", .str "file:///a.rs"), ("character", .num 9)]) = some ("file:///a.rs", ⟨0, 9⟩) := rfl
      rw [e] at h1
      obtain ⟨rfl, rfl⟩ : "file:///a.rs" = uri ∧ (⟨0, 9⟩ : Pos) = p := by simpa using h1
      have e2 : docsAfter demoConfig (demoHistory.map (·.2)) "file:///a.rs" = some ⟨"mod b {}", 2⟩ := rfl
      have e3 := e2.symm.trans h2
      obtain rfl : (⟨"mod b {}", 2⟩ : Doc) = d := by simpa using e3
      decide
    · intro uri p d h1; simp [demoOutside] at h1
  | a :: b :: c :: e :: l, h => simp [demoHover, demoHistory] at h

/-- The hypotheses hold for a session, which panics for column 9 and not for column 8. -/
example : DrainsOnce (demoHover 9) ∧ (∀ s, textOf (demoOutside.tokens s) = s.content.toList) ∧
    SmallSession demoConfig demoOutside (demoHover 9) ∧
    (∃ s out, run demoConfig .init demoHistory = (.running s, out)) ∧
    (runP .release demoConfig demoOutside .init (demoHover 9)).1 = .panicked ∧
    (runP .release demoConfig demoOutside .init (demoHover 8)).1 ≠ .panicked := by
  refine ⟨demoHover_drains 9, fun s => by simp [textOf, demoOutside], demoHover_small, ⟨_, _, rfl⟩, rfl, ?_⟩
  intro h
  have : (match (runP .release demoConfig demoOutside .init (demoHover 8)).1 with
    | .panicked => true | _ => false) = false := rfl
  rw [h] at this
  cases this

theorem demo_safe : ∀ pre w req post, demoHistory = pre ++ (w, .request req) :: post →
    ¬ Fatal demoConfig demoOutside (docsAfter demoConfig (pre.map (·.2))) req := by
  intro pre w req post h
  match pre, h with
  | [], h => simp [demoHistory] at h
  | [a], h =>
    simp [demoHistory] at h
    obtain ⟨_, ⟨_, rfl⟩, _⟩ := h
    intro hf
    cases hf with
    | position uri p d o _ h1 => simp [demoOutside, Json.get?, List.lookup] at h1
    | _ => simp_all
  | [a, b], h => simp [demoHistory] at h
  | a :: b :: c :: l, h => simp [demoHistory] at h

/-- The hypotheses of `C126_refines` hold for the first part of this session, those of `C126_silence`
for all of it. -/
example :
    (∀ pre w req post, demoHistory = pre ++ (w, .request req) :: post →
      ¬ Fatal demoConfig demoOutside (docsAfter demoConfig (pre.map (·.2))) req) ∧
    Fatal demoConfig demoOutside (docsAfter demoConfig (demoHistory.map (·.2)))
      ⟨.num 8, "textDocument/hover", .obj [("uri", .str "file:///a.rs"), ("character", .num 9)]⟩ := by
  refine ⟨demo_safe, .position "file:///a.rs" ⟨0, 9⟩ ⟨"mod b {}", 2⟩ 9 (.inr (.inl rfl)) rfl rfl ?_⟩
  exact ⟨"mod b {}".toList, [], ⟨rfl, .inl rfl⟩, by decide, by decide, by decide⟩

theorem demoHover_size (pre post : List (World × ClientMsg)) (uri : String) (d : Doc)
    (h : demoHover 8 = pre ++ post) (hdoc : docsAfter demoConfig (pre.map (·.2)) uri = some d) :
    utf8Len d.content.toList < 2 ^ 31 := by
  have e1 : docsAfter demoConfig ((demoHistory.take 1).map (·.2)) =
      fun u => if u = "file:///a.rs" then some ⟨"mod a {}", 1⟩ else none := rfl
  have e2 : docsAfter demoConfig ((demoHistory.take 2).map (·.2)) =
      fun u => if u = "file:///a.rs" then some ⟨"mod a {}", 1⟩ else none := rfl
  have e3 : docsAfter demoConfig (demoHistory.map (·.2)) = fun u => if u = "file:///a.rs" then
      some ⟨"mod b {}", 2⟩ else if u = "file:///a.rs" then some ⟨"mod a {}", 1⟩ else none := rfl
  have e4 : docsAfter demoConfig ((demoHover 8).map (·.2)) = fun u => if u = "file:///a.rs" then
      some ⟨"mod b {}", 2⟩ else if u = "file:///a.rs" then some ⟨"mod a {}", 1⟩ else none := rfl
  have hp : pre = (demoHover 8).take pre.length := by rw [h]; simp
  have hlen : pre.length ≤ 4 := by
    have := congrArg List.length h
    simp [demoHover, demoHistory] at this
    omega
  have key : pre = [] ∨ pre = demoHistory.take 1 ∨ pre = demoHistory.take 2 ∨ pre = demoHistory ∨
      pre = demoHover 8 := by
    rw [hp]
    rcases (by omega : pre.length = 0 ∨ pre.length = 1 ∨ pre.length = 2 ∨ pre.length = 3 ∨ pre.length = 4)
      with g | g | g | g | g <;> rw [g]
    · exact .inl rfl
    · exact .inr (.inl rfl)
    · exact .inr (.inr (.inl rfl))
    · exact .inr (.inr (.inr (.inl rfl)))
    · exact .inr (.inr (.inr (.inr rfl)))
  have fin : d = ⟨"mod a {}", 1⟩ ∨ d = ⟨"mod b {}", 2⟩ := by
    rcases key with rfl | rfl | rfl | rfl | rfl
    · simp [docsAfter] at hdoc
    · rw [e1] at hdoc
      by_cases hu : uri = "file:///a.rs" <;> simp [hu] at hdoc
      exact .inl hdoc.symm
    · rw [e2] at hdoc
      by_cases hu : uri = "file:///a.rs" <;> simp [hu] at hdoc
      exact .inl hdoc.symm
    · rw [e3] at hdoc
      by_cases hu : uri = "file:///a.rs" <;> simp [hu] at hdoc
      exact .inr hdoc.symm
    · rw [e4] at hdoc
      by_cases hu : uri = "file:///a.rs" <;> simp [hu] at hdoc
      exact .inr hdoc.symm
  rcases fin with rfl | rfl <;> decide

/-- The hover at column 8, the end of the only line, names a place of the document. -/
theorem demoHover_inside : Inside demoConfig demoOutside (docsAfter demoConfig (demoHistory.map (·.2)))
    ⟨.num 8, "textDocument/hover", .obj [("uri", .str "file:///a.rs"), ("character", .num 8)]⟩ := by
  refine ⟨?_, ?_, ?_, ?_⟩
  · intro uri p d h1 h2
    have e : demoOutside.params.position "textDocument/hover"
        (.obj [("uri", .str "file:///a.rs"), ("character", .num 8)]) = some ("file:///a.rs", ⟨0, 8⟩) := rfl
    rw [e] at h1
    obtain ⟨rfl, rfl⟩ : "file:///a.rs" = uri ∧ (⟨0, 8⟩ : Pos) = p := by simpa using h1
    have e2 : docsAfter demoConfig (demoHistory.map (·.2)) "file:///a.rs" = some ⟨"mod b {}", 2⟩ := rfl
    have e3 := e2.symm.trans h2
    obtain rfl : (⟨"mod b {}", 2⟩ : Doc) = d := by simpa using e3
    exact ⟨"mod b {}".toList, [], by simp, by decide⟩
  · intro uri p q d h1; simp [demoOutside] at h1
  · intro cmd arg args h1; simp [demoOutside, Json.get?, List.lookup] at h1
  · intro data h1; simp [demoOutside, Json.get?, List.lookup] at h1

/-- The hypotheses of `C126_client` and `C126_answered` hold for the session with the hover at column 8. -/
example : DrainsOnce (demoHover 8) ∧ (∀ s, textOf (demoOutside.tokens s) = s.content.toList) ∧
    (∀ pre post uri d, demoHover 8 = pre ++ post → docsAfter demoConfig (pre.map (·.2)) uri = some d →
      utf8Len d.content.toList < 2 ^ 31) ∧
    (∀ pre w req post, demoHover 8 = pre ++ (w, .request req) :: post →
      Inside demoConfig demoOutside (docsAfter demoConfig (pre.map (·.2))) req) ∧
    (∀ y ∈ demoHover 8, ∀ req, y.2 = .request req → req.method ≠ "shutdown") ∧
    (∀ y ∈ demoHover 8, ∀ p, y.2 ≠ .notification "exit" p) := by
  refine ⟨demoHover_drains 8, fun s => by simp [textOf, demoOutside], demoHover_size, ?_, ?_, ?_⟩
  · intro pre w req post h
    match pre, h with
    | [], h => simp [demoHover, demoHistory] at h
    | [a], h =>
      simp [demoHover, demoHistory] at h
      obtain ⟨_, ⟨_, rfl⟩, _⟩ := h
      refine ⟨?_, ?_, ?_, ?_⟩
      · intro uri p d h1; simp [demoOutside, Json.get?, List.lookup] at h1
      · intro uri p q d h1; simp [demoOutside] at h1
      · intro cmd arg args h1; simp [demoOutside, Json.get?, List.lookup] at h1
      · intro data h1; simp [demoOutside, Json.get?, List.lookup] at h1
    | [a, b], h => simp [demoHover, demoHistory] at h
    | [a, b, c], h =>
      simp [demoHover, demoHistory] at h
      obtain ⟨rfl, rfl, rfl, ⟨_, rfl⟩, _⟩ := h
      exact demoHover_inside
    | a :: b :: c :: e :: l, h => simp [demoHover, demoHistory] at h
  · intro y hy req h
    simp [demoHover, demoHistory] at hy
    rcases hy with rfl | rfl | rfl | rfl <;> simp at h <;> subst h <;> decide
  · intro y hy p h
    simp [demoHover, demoHistory] at hy
    rcases hy with rfl | rfl | rfl | rfl <;> simp at h

/-- The claim is false of the code: a client which follows the protocol can end the server. A column
after the end of the line means the end of the line, but one hover after the last line of an open
document ends the session. -/
theorem C126_negation :
    ¬ ∀ (cfg : Config) (x : Outside) (h : List (World × ClientMsg)), DrainsOnce h →
      (∀ s, textOf (x.tokens s) = s.content.toList) → SmallSession cfg x h →
      (runP .release cfg x .init h).1 ≠ .panicked := by
  intro h
  exact h demoConfig demoOutside (demoHover 9) (demoHover_drains 9) (fun s => by simp [textOf, demoOutside])
    demoHover_small rfl

end Verif.Lsp.Fall
