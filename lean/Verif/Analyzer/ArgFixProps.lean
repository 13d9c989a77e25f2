import Verif.Analyzer.ArgFix
import Verif.Analyzer.ArgCheckProps
import Verif.Analyzer.InsertTextProps
import Verif.Analyzer.RemoveReadProps
import Verif.Analyzer.SnippetProps

/-!
# C110: the quickfixes for ink! arguments leave arguments that are accepted
-/

namespace Verif.Analyzer.ArgFix
open Verif.Ir Verif.Analyzer.InsertText Verif.Analyzer.Insert

/-! ## Specification -/

/-- An argument as it is being written: a name, and possibly `=` and anything up to the next comma.
`lead` and `gap` are white space and comments. -/
structure Draft where
  lead : List Elem
  name : Elem
  gap : List Elem
  rest : Option (String × List Elem)

/-- Its source. -/
def Draft.source (d : Draft) : List Elem :=
  (d.lead ++ d.name :: d.gap) ++
    match d.rest with
    | none => []
    | some (e, value) => .tok .eq e :: value

/-- The parts are what they should be. -/
structure Draft.Ok (d : Draft) : Prop where
  lead : AllTrivia d.lead
  name : IsName d.name
  gap : AllTrivia d.gap
  value : ∀ e value, d.rest = some (e, value) → Between value ∧ ∀ x ∈ value, x.isComma = false

/-- There is no comment behind the name, only white space. -/
def Draft.Uncommented (d : Draft) : Prop :=
  (∀ x ∈ d.gap, ∀ c ∈ x.text.toList, c.isWhitespace = true) ∧
  ∀ e value, d.rest = some (e, value) → ∀ x ∈ value, x.isTrivia = true →
    ∀ c ∈ x.text.toList, c.isWhitespace = true

/-- The argument around a nested argument: `name(…)`. -/
structure Shell where
  lead : List Elem
  name : Elem
  gap : List Elem
  trail : List Elem

/-- The parts are what they should be. -/
structure Shell.Ok (s : Shell) : Prop where
  lead : AllTrivia s.lead
  name : IsName s.name
  gap : AllTrivia s.gap
  trail : AllTrivia s.trail

/-- The source of an argument with others around it, from outside to inside. -/
def around : List Shell → List Elem → List Elem
  | [], g => g
  | s :: ss, g => (s.lead ++ s.name :: s.gap) ++ parenthesised (around ss g) :: s.trail

/-- The kind of the outermost argument, if the innermost is a `k`. -/
def outerKind : List Shell → ArgKind → ArgKind
  | [], k => k
  | s :: _, _ => ArgKind.ofName s.name.text

/-- Each argument is one that the argument around it can have. -/
def Belongs : List Shell → ArgKind → Prop
  | [], _ => True
  | s :: ss, k => (∃ opts r, nestedSpec (ArgKind.ofName s.name.text) = some (opts, r) ∧
      outerKind ss k ∈ opts) ∧ Belongs ss k

/-- Applying the fix to the text gives the other text. -/
def Replaces (text : String) (f : Fix) (text' : String) : Prop :=
  ∃ l g r : String, text = l ++ g ++ r ∧ f.range = (l.utf8ByteSize, (l ++ g).utf8ByteSize) ∧
    text' = l ++ f.text ++ r

/-- The expression parser ignores white space behind the expression. -/
def Trims (pe : ExprParser) : Prop :=
  ∀ s w : String, (∀ c ∈ w.toList, c.isWhitespace = true) → pe (s ++ w) = pe s

/-- What is before the argument ends in a comma, and what is behind it begins with one. -/
structure Delimited (pre post : List Elem) : Prop where
  before : pre = [] ∨ ∃ p c, pre = p ++ [.tok .comma c]
  behind : post = [] ∨ ∃ c p, post = .tok .comma c :: p
  inside : Between pre ∧ Between post

/-- The argument behind `pre` is of the kind and nothing is reported for it. -/
def Mended (pe : ExprParser) (fi : String → Option String) (v : Version) (attr : Option AttrKind) (o : Nat)
    (pre g post : List Elem) (k : ArgKind) : Prop :=
  ∀ items m, ItemAfter pe o (pre ++ g ++ post) pre items m →
    (Arg.ofMeta m).kind = k ∧ validateArg fi v attr m (Arg.ofMeta m).kind = []

/-- Applying quickfixes ends in an argument for which nothing is reported, whichever of them are chosen:
each diagnostic has quickfixes, and after `n` of them the argument is of the kind and accepted. The
attribute is in a file between `A` and `B`; `ok` says what is assumed of the item that it belongs to. -/
def Ends (pe : ExprParser) (hash : String → Vector UInt8 32) (fi : String → Option String) (v : Version)
    (attr : Option AttrKind) (ok : Option Site → Prop) (A B pre post : List Elem) (k : ArgKind) :
    Nat → List Elem → Prop
  | 0, g => Mended pe fi v attr (Elem.lenList A) pre g post k
  | n + 1, g => ∀ site file rem items m, ok site →
      ItemAfter pe (Elem.lenList A) (pre ++ g ++ post) pre items m →
      ∃ ds, argDiags hash fi v attr site file rem m (Arg.ofMeta m).kind = some ds ∧
        ∀ x ∈ ds, x.fixes ≠ [] ∧ ∀ f ∈ x.fixes, ∃ ss d, (∀ s ∈ ss, Shell.Ok s) ∧ Draft.Ok d ∧
          Replaces (Elem.textList (inFile A (pre ++ g ++ post) B)) f
            (Elem.textList (inFile A (pre ++ around ss d.source ++ post) B)) ∧
          Ends pe hash fi v attr ok A B pre post k n (around ss d.source)

/-- Each argument around another is one that can have a nested argument, and those around it can have
it. The innermost argument can be any. -/
def Nested : List Shell → Prop
  | [] => True
  | [s] => ∃ o, nestedSpec (ArgKind.ofName s.name.text) = some o
  | s :: s' :: ss => (∃ opts r, nestedSpec (ArgKind.ofName s.name.text) = some (opts, r) ∧
      ArgKind.ofName s'.name.text ∈ opts) ∧ Nested (s' :: ss)

/-- What is assumed of the item that the attribute of an argument `k` belongs to: the expression parser
reads the default values, and `extension` belongs to a trait in ink! 5. -/
def SiteOk (pe : ExprParser) (fi : String → Option String) (v : Version) (k : ArgKind)
    (site : Option Site) : Prop :=
  Reads pe fi ((site.bind Site.environment).getD "ink::env::DefaultEnvironment") ∧
    (k = .extension → v = .v5 → ∀ s, site = some s → s.onFn = false)

/-- If the argument takes a nested argument but has a value, this is a name, or is not read as a value. -/
def Fitting (pe : ExprParser) (d : Draft) (k : ArgKind) : Prop :=
  ∀ opts r, nestedSpec k = some (opts, r) → ∀ e val, d.rest = some (e, val) →
    (val ≠ [] ∧ ∃ nm t, IsName nm ∧ ValueIs pe val t nm.text) ∨
    (pe (Elem.textList val) = none ∧ ∀ x ∈ val, ∀ t, x ≠ .tok .underscore t ∧ x ≠ .tok .at t)

/-! ## Lemmas -/

theorem argDiags_eq (hash : String → Vector UInt8 32) (fi : String → Option String) (v : Version)
    (attr : Option AttrKind) (site : Option Site) (file : List Leaf) (rem : Option RemAttr) (m : Meta)
    (kind : ArgKind) : argDiags hash fi v attr site file rem m kind =
    if kind = .unknown then
      (removalRange file rem m).bind fun r => m.textRange.map fun own =>
        [⟨if nameIsEmpty m then .missing else .unknown, own, [⟨"", none, r⟩]⟩]
    else if expectedValue v attr kind = .none then
      if m.eq.isSome || m.value.isSome then
        m.textRange.map fun own => [⟨.unexpectedValue, own, [⟨nameText m, none, own⟩]⟩]
      else some []
    else
      match valueOk fi (expectedValue v attr kind) m with
      | some ok =>
        if ok then some []
        else (insertText hash kind none site).bind fun t => m.textRange.map fun own =>
          [⟨.badValue, own, [⟨t.1, t.2, own⟩]⟩]
      | none =>
        m.textRange.bind fun own =>
        match m.value with
        | .ok x => some [⟨.useNested, own, [nestFix (nameText m) x.text own]⟩]
        | _ =>
          match m.nested with
          | none =>
            some (if (nestedOptions (expectedValue v attr kind)).2 then
              [⟨.nestedMissing, own, (nestedOptions (expectedValue v attr kind)).1.map fun k =>
                nestFix (nameText m) k.name own⟩] else [])
          | some m' =>
            if (Arg.ofMeta m').kind ∈ (nestedOptions (expectedValue v attr kind)).1 then
              argDiags hash fi v attr site file rem m' (Arg.ofMeta m').kind
            else
              m'.textRange.map fun r => [⟨.nestedUnknown, r,
                (nestedOptions (expectedValue v attr kind)).1.map (optionFix r)⟩] := by
  cases m with
  | mk name eq value nested start stop =>
    rw [argDiags.eq_def]
    cases value <;> cases nested <;> rfl

/-- The diagnostics are those of `validateArg`. -/
theorem issues (hash : String → Vector UInt8 32) (fi : String → Option String) (v : Version)
    (attr : Option AttrKind) (site : Option Site) (file : List Leaf) (rem : Option RemAttr) :
    ∀ (n : Nat) (m : Meta) (kind : ArgKind) (ds : List Diag), sizeOf m ≤ n →
      argDiags hash fi v attr site file rem m kind = some ds →
      ds.map Diag.issue = validateArg fi v attr m kind := by
  intro n
  induction n with
  | zero => intro m k ds h; cases m; simp at h
  | succ n ih =>
    intro m k ds hs h
    rw [argDiags_eq] at h
    rw [validateArg_eq]
    split at h
    · rename_i hk
      rw [if_pos hk]
      simp only [Option.bind_eq_some_iff, Option.map_eq_some_iff] at h
      obtain ⟨_, _, _, _, rfl⟩ := h
      rfl
    · rename_i hk
      rw [if_neg hk]
      split at h
      · rename_i hx
        rw [if_pos hx]
        split at h
        · rename_i hy
          rw [if_pos hy]
          simp only [Option.map_eq_some_iff] at h
          obtain ⟨_, _, rfl⟩ := h
          rfl
        · rename_i hy
          rw [if_neg hy]
          cases h
          rfl
      · rename_i hx
        rw [if_neg hx]
        cases hv : valueOk fi (expectedValue v attr k) m with
        | some ok =>
          rw [hv] at h
          cases ok with
          | true => cases h; rfl
          | false =>
            simp only [Bool.false_eq_true, if_false, Option.bind_eq_some_iff,
              Option.map_eq_some_iff] at h
            obtain ⟨_, _, _, _, rfl⟩ := h
            rfl
        | none =>
          rw [hv] at h
          simp only [Option.bind_eq_some_iff] at h
          obtain ⟨own, _, h⟩ := h
          have rest : (match m.nested with
              | none => some (if (nestedOptions (expectedValue v attr k)).2 then
                  [(⟨.nestedMissing, own, (nestedOptions (expectedValue v attr k)).1.map fun k =>
                    nestFix (nameText m) k.name own⟩ : Diag)] else [])
              | some m' =>
                if (Arg.ofMeta m').kind ∈ (nestedOptions (expectedValue v attr k)).1 then
                  argDiags hash fi v attr site file rem m' (Arg.ofMeta m').kind
                else
                  m'.textRange.map fun r => [⟨.nestedUnknown, r,
                    (nestedOptions (expectedValue v attr k)).1.map (optionFix r)⟩]) = some ds →
              ds.map Diag.issue = nestedPart fi v attr k m := by
            intro h
            unfold nestedPart
            cases hn : m.nested with
            | none =>
              rw [hn] at h
              simp only [Option.some.injEq] at h
              subst h
              dsimp only
              split <;> rfl
            | some m' =>
              rw [hn] at h
              dsimp only at h ⊢
              have hlt : sizeOf m' ≤ n := by
                cases m with
                | mk a b c d e f =>
                  have hd : d = some m' := hn
                  subst hd
                  simp at hs
                  omega
              split at h
              · rename_i hmem
                rw [if_pos hmem]
                exact ih m' _ _ hlt h
              · rename_i hmem
                rw [if_neg hmem]
                simp only [Option.map_eq_some_iff] at h
                obtain ⟨_, _, rfl⟩ := h
                rfl
          dsimp only
          cases hval : m.value with
          | ok x =>
            rw [hval] at h
            cases h
            rfl
          | err x =>
            rw [hval] at h
            exact rest h
          | none =>
            rw [hval] at h
            exact rest h

/-- The range of a value ends at the end of one of its elements, with white space and comments behind it. -/
theorem value_split (pe : ExprParser) (o : Nat) (V : List Elem) (s e : Nat) (hV : V ≠ []) :
    ∃ V1 V2, V = V1 ++ V2 ∧ AllTrivia V2 ∧
      optRange MetaValue.textRange (some (s, e))
        (parseMetaValue pe ((annotate pe o V).map Annot.placed)) = some (some (s, o + Elem.lenList V1)) := by
  have hne : (annotate pe o V).map Annot.placed ≠ [] := by
    intro h
    exact annotate_ne hV (List.map_eq_nil_iff.1 h)
  have hin := annotate_inB pe o V
  obtain ⟨y, l, rfl⟩ : ∃ y l, V = l ++ [y] := by
    rcases List.eq_nil_or_concat V with h | ⟨l, y, h⟩
    · exact absurd h hV
    · exact ⟨y, l, by rw [h, List.concat_eq_append]⟩
  have hlast : ((annotate pe o (l ++ [y])).map Annot.placed).getLast? = some ⟨y, o + Elem.lenList l⟩ := by
    rw [List.getLast?_map, annotate_last]
    rfl
  obtain ⟨a, ha⟩ : ∃ a, ((annotate pe o (l ++ [y])).map Annot.placed).head? = some a := by
    cases hh : ((annotate pe o (l ++ [y])).map Annot.placed).head? with
    | none => exact absurd (List.head?_eq_none_iff.1 hh) hne
    | some a => exact ⟨a, rfl⟩
  unfold parseMetaValue
  rw [if_neg (by simpa using hne)]
  cases hv : parseValue pe ((annotate pe o (l ++ [y])).map Annot.placed) with
  | none =>
    refine ⟨l ++ [y], [], by simp, by simp [AllTrivia], ?_⟩
    obtain ⟨r, hr, hb⟩ := itemsRange_ok hin
    simp only [optRange]
    rw [hr]
    unfold itemsRange at hr
    rw [hlast, ha] at hr
    simp only [Option.map_eq_some_iff] at hr
    obtain ⟨x, hx, rfl⟩ := hr
    rw [(rangeNew_eq hx).1]
    simp [updateRange, Placed.stop, lenList_append, Elem.lenList, Nat.add_assoc]
  | some mv =>
    obtain ⟨h1, h2⟩ := parseValue_elements hv
    obtain ⟨r, hr, hb1, hb2⟩ := MetaValue.textRange_ok (v := mv) (by rw [h1]; exact hin)
      (by rw [h1]; exact h2)
    simp only [optRange, hr, Option.map_some, updateRange]
    unfold MetaValue.textRange at hr
    rw [h1, hlast, ha] at hr
    obtain ⟨u, t, hut, ht, hu⟩ := RemoveRead.split_value (l ++ [y])
    rcases hu with rfl | ⟨x, z, rfl, hz⟩
    · have hnil : ((annotate pe o (l ++ [y])).map Annot.placed).filter
          (fun p => !p.elem.isTrivia) = [] := by
        rw [List.filter_eq_nil_iff]
        intro p hp
        have : p.elem ∈ l ++ [y] := by
          have := List.mem_map_of_mem (f := Placed.elem) hp
          rwa [placed_elems] at this
        rw [hut] at this
        simp [ht _ this]
      rw [hnil] at hr
      simp only [List.getLast?_nil, Option.map_none, Option.getD_none] at hr
      refine ⟨l, [y], rfl, ?_, by rw [(rangeNew_eq hr).1]⟩
      intro e he
      rw [List.mem_singleton.1 he]
      apply ht
      rw [List.nil_append] at hut
      rw [← hut]
      simp
    · refine ⟨x ++ [z], t, hut, ht, ?_⟩
      have hf : (((annotate pe o (l ++ [y])).map Annot.placed).filter
          (fun p => !p.elem.isTrivia)).getLast? = some ⟨z, o + Elem.lenList x⟩ := by
        rw [hut, annotate_append, annotate_append]
        simp only [annotate, List.map_append, List.map_cons, List.map_nil, List.filter_append]
        have h3 : ((annotate pe (o + Elem.lenList (x ++ [z])) t).map Annot.placed).filter
            (fun p => !p.elem.isTrivia) = [] := by
          rw [List.filter_eq_nil_iff]
          intro p hp
          have : p.elem ∈ t := by
            have := List.mem_map_of_mem (f := Placed.elem) hp
            rwa [placed_elems] at this
          simp [ht _ this]
        rw [h3, List.filter_cons_of_pos (by simp [hz])]
        simp
      simp only [hf, Option.map_some, Option.getD_some] at hr
      rw [(rangeNew_eq hr).1]
      simp [Placed.stop, lenList_append, Elem.lenList, Nat.add_assoc]

/-- What is read for a draft at the offset. -/
structure DraftItem (pe : ExprParser) (d : Draft) (o : Nat) (m : Meta) : Prop where
  name : m.name = .ok ⟨d.name, o + Elem.lenList d.lead⟩
  nested : m.nested = none
  eq : m.eq.isSome = d.rest.isSome
  flag : d.rest = none → m.value = .none
  value : ∀ e val, d.rest = some (e, val) → m.value = parseMetaValue pe
    ((annotate pe (o + Elem.lenList (d.lead ++ d.name :: d.gap) + (Elem.tok .eq e).len) val).map
      Annot.placed)
  range : ∃ core trail, d.source = d.lead ++ core ++ trail ∧ AllTrivia trail ∧
    (∀ x ∈ trail, x ∈ d.gap ∧ d.rest = none ∨ ∃ e val, d.rest = some (e, val) ∧ x ∈ val) ∧
    m.textRange = some (o + Elem.lenList d.lead, o + Elem.lenList (d.lead ++ core))

theorem build_draft (pe : ExprParser) (d : Draft) (hd : d.Ok) (o t1 t2 sep : Nat) :
    ∃ m, buildItem pe t1 t2 sep (annotate pe o d.source) = some m ∧ DraftItem pe d o m := by
  obtain ⟨lead, name, gap, rest⟩ := d
  obtain ⟨h1, h2, h3, h4⟩ := hd
  dsimp only at h1 h2 h3 h4
  cases rest with
  | none =>
    refine ⟨.mk (.ok ⟨name, o + Elem.lenList lead⟩) none .none none sep none, ?_, rfl, rfl, rfl,
      fun _ => rfl, (fun e val h => nomatch h), ?_⟩
    · simp only [Draft.source, List.append_nil]
      exact build_flag pe o lead gap name h1 h3 h2 t1 t2 sep
    · refine ⟨[name], gap, by simp [Draft.source], h3, fun x hx => .inl ⟨hx, rfl⟩, ?_⟩
      rw [(flag_range _ _).1]
      simp [Placed.stop, lenList_append, Elem.lenList, Nat.add_assoc]
  | some ev =>
    obtain ⟨e, val⟩ := ev
    refine ⟨_, build_keyed pe o lead gap val name e h1 h3 h2 t1 t2 sep, rfl, rfl, rfl,
      (fun h => nomatch h), ?_, ?_⟩
    · rintro e' val' h
      cases h
      rfl
    · have htr : ∀ b, optRange MetaValue.textRange (some (o + Elem.lenList lead,
          o + Elem.lenList (lead ++ name :: gap) + (Elem.tok .eq e).len))
            (parseMetaValue pe ((annotate pe (o + Elem.lenList (lead ++ name :: gap) +
              (Elem.tok .eq e).len) val).map Annot.placed)) = some (some (o + Elem.lenList lead, b)) →
          o + Elem.lenList lead ≤ b →
          (Meta.mk (.ok ⟨name, o + Elem.lenList lead⟩)
            (some ⟨.tok .eq e, o + Elem.lenList (lead ++ name :: gap)⟩)
            (parseMetaValue pe ((annotate pe (o + Elem.lenList (lead ++ name :: gap) +
              (Elem.tok .eq e).len) val).map Annot.placed)) none sep none).textRange =
            some (o + Elem.lenList lead, b) := by
        intro b hb hle
        rw [Meta.textRange]
        show ((optRange MetaValue.textRange (some (o + Elem.lenList lead,
          o + Elem.lenList (lead ++ name :: gap) + (Elem.tok .eq e).len))
            (parseMetaValue pe ((annotate pe (o + Elem.lenList (lead ++ name :: gap) +
              (Elem.tok .eq e).len) val).map Annot.placed))).bind fun r₄ =>
          rangeNew ((r₄.map Prod.fst).getD sep) (((r₄.map Prod.snd).or none).getD sep)) = _
        rw [hb]
        simp [rangeNew, hle]
      by_cases hV : val = []
      · subst hV
        refine ⟨name :: gap ++ [.tok .eq e], [], by simp [Draft.source], by simp [AllTrivia],
          (by simp), ?_⟩
        have hlen : o + Elem.lenList (lead ++ (name :: gap ++ [.tok .eq e])) =
            o + Elem.lenList (lead ++ name :: gap) + (Elem.tok .eq e).len := by
          rw [← List.append_assoc, lenList_append (lead ++ name :: gap)]
          simp [Elem.lenList, Nat.add_assoc]
        dsimp only
        rw [hlen]
        apply htr
        · simp [annotate, parseMetaValue, optRange]
        · rw [lenList_append]; omega
      · obtain ⟨V1, V2, e1, e2, e3⟩ := value_split pe (o + Elem.lenList (lead ++ name :: gap) +
          (Elem.tok .eq e).len) val (o + Elem.lenList lead)
          (o + Elem.lenList (lead ++ name :: gap) + (Elem.tok .eq e).len) hV
        refine ⟨name :: gap ++ .tok .eq e :: V1, V2, by simp [Draft.source, e1], e2,
          fun x hx => .inr ⟨e, val, rfl, by rw [e1]; simp [hx]⟩, ?_⟩
        have hlen : o + Elem.lenList (lead ++ (name :: gap ++ .tok .eq e :: V1)) =
            o + Elem.lenList (lead ++ name :: gap) + (Elem.tok .eq e).len + Elem.lenList V1 := by
          rw [← List.append_assoc, lenList_append (lead ++ name :: gap)]
          simp [Elem.lenList, Nat.add_assoc]
        dsimp only
        rw [hlen]
        apply htr _ e3
        rw [lenList_append]; omega

/-- Where the innermost argument begins if the outermost begins at the offset. -/
def deep : List Shell → Nat → Nat
  | [], o => o
  | s :: ss, o => deep ss (o + Elem.lenList (s.lead ++ s.name :: s.gap) + 1)

/-- What is read for arguments around another. -/
def At (P : Nat → Meta → Prop) : List Shell → Nat → Meta → Prop
  | [], o, m => P o m
  | s :: ss, o, m => m.name = .ok ⟨s.name, o + Elem.lenList s.lead⟩ ∧ m.eq = none ∧ m.value = .none ∧
      (∃ r, m.textRange = some r) ∧
      ∃ n, m.nested = some n ∧ At P ss (o + Elem.lenList (s.lead ++ s.name :: s.gap) + 1) n

/-- The elements of an argument. -/
structure Plain (g : List Elem) : Prop where
  ne : g ≠ []
  inside : Between g
  comma : ∀ e ∈ g, e.isComma = false

theorem trivia_plain {t : List Elem} (h : AllTrivia t) : Between t ∧ ∀ e ∈ t, e.isComma = false := by
  constructor
  · intro e he
    have := h e he
    cases e with
    | tok k s => cases k <;> simp_all [Elem.isTrivia, TokKind.isTrivia, Elem.isLParen, Elem.isRParen, Elem.isErrorRBrack]
    | tree cs => simp [Elem.isTrivia] at this
    | error cs => simp [Elem.isTrivia] at this
  · intro e he
    have := h e he
    cases e with
    | tok k s => cases k <;> simp_all [Elem.isTrivia, TokKind.isTrivia, Elem.isComma]
    | tree cs => simp [Elem.isTrivia] at this
    | error cs => simp [Elem.isTrivia] at this

theorem name_plain {n : Elem} (h : IsName n) :
    (n.isLParen = false ∧ n.isRParen = false ∧ n.isErrorRBrack = false) ∧ n.isComma = false := by
  obtain ⟨s, rfl | rfl⟩ := h <;> exact ⟨⟨rfl, rfl, rfl⟩, rfl⟩

theorem head_plain {lead gap : List Elem} {n : Elem} (h1 : AllTrivia lead) (h2 : IsName n)
    (h3 : AllTrivia gap) : Plain (lead ++ n :: gap) := by
  refine ⟨by simp, ?_, ?_⟩
  · intro e he
    simp only [List.mem_append, List.mem_cons] at he
    rcases he with he | rfl | he
    · exact (trivia_plain h1).1 e he
    · exact (name_plain h2).1
    · exact (trivia_plain h3).1 e he
  · intro e he
    simp only [List.mem_append, List.mem_cons] at he
    rcases he with he | rfl | he
    · exact (trivia_plain h1).2 e he
    · exact (name_plain h2).2
    · exact (trivia_plain h3).2 e he

theorem plain_append {a b : List Elem} (h : Plain a) (hb : Between b)
    (hc : ∀ e ∈ b, e.isComma = false) : Plain (a ++ b) := by
  refine ⟨by simp [h.ne], ?_, ?_⟩
  · intro e he
    rcases List.mem_append.1 he with he | he
    · exact h.inside e he
    · exact hb e he
  · intro e he
    rcases List.mem_append.1 he with he | he
    · exact h.comma e he
    · exact hc e he

theorem draft_plain {d : Draft} (h : d.Ok) : Plain d.source := by
  refine plain_append (head_plain h.lead h.name h.gap) ?_ ?_
  · intro x hx
    cases hr : d.rest with
    | none => rw [hr] at hx; simp at hx
    | some ev =>
      rw [hr] at hx
      rcases List.mem_cons.1 hx with rfl | hx
      · exact ⟨rfl, rfl, rfl⟩
      · exact (h.value _ _ hr).1 x hx
  · intro x hx
    cases hr : d.rest with
    | none => rw [hr] at hx; simp at hx
    | some ev =>
      rw [hr] at hx
      rcases List.mem_cons.1 hx with rfl | hx
      · rfl
      · exact (h.value _ _ hr).2 x hx

theorem around_plain {g : List Elem} (h : Plain g) : ∀ {ss : List Shell}, (∀ s ∈ ss, s.Ok) →
    Plain (around ss g)
  | [], _ => h
  | s :: ss, hs => by
    have h1 := hs s (by simp)
    refine plain_append (head_plain h1.lead h1.name h1.gap) ?_ ?_
    · intro x hx
      rcases List.mem_cons.1 hx with rfl | hx
      · exact ⟨rfl, rfl, rfl⟩
      · exact (trivia_plain h1.trail).1 x hx
    · intro x hx
      rcases List.mem_cons.1 hx with rfl | hx
      · rfl
      · exact (trivia_plain h1.trail).2 x hx

theorem build_around (pe : ExprParser) (P : Nat → Meta → Prop) (g : List Elem) (hg : Plain g)
    (hP : ∀ o t1 t2 sep, ∃ m, buildItem pe t1 t2 sep (annotate pe o g) = some m ∧ P o m ∧
      ∃ r, m.textRange = some r ∧ o ≤ r.2) :
    ∀ (ss : List Shell), (∀ s ∈ ss, s.Ok) → ∀ o t1 t2 sep, ∃ m,
      buildItem pe t1 t2 sep (annotate pe o (around ss g)) = some m ∧ At P ss o m ∧
      ∃ r, m.textRange = some r ∧ o ≤ r.2
  | [], _, o, t1, t2, sep => hP o t1 t2 sep
  | s :: ss, hs, o, t1, t2, sep => by
    have h1 := hs s (by simp)
    have hs' : ∀ s ∈ ss, s.Ok := fun x hx => hs x (by simp [hx])
    have hp := around_plain hg hs'
    have e := parse_parenthesised pe (o + Elem.lenList (s.lead ++ s.name :: s.gap)) (around ss g)
      hp.inside
    obtain ⟨m, hm, hat, r, hr, hle⟩ := build_around pe P g hg hP ss hs'
      (o + Elem.lenList (s.lead ++ s.name :: s.gap) + 1)
      (o + Elem.lenList (s.lead ++ s.name :: s.gap))
      (o + Elem.lenList (s.lead ++ s.name :: s.gap) + (parenthesised (around ss g)).len)
      (o + Elem.lenList (s.lead ++ s.name :: s.gap) + 1)
    rw [groupRuns_false (annotate_ne hp.ne) (annotate_plain hp.comma), itemsOf, hm] at e
    simp only [Option.bind_some, itemsOf, Option.map_some] at e
    have hlen : Elem.lenList (s.lead ++ s.name :: s.gap) = Elem.lenList s.lead +
        Elem.lenList (s.name :: s.gap) := lenList_append _ _
    have htr : (Meta.mk (.ok ⟨s.name, o + Elem.lenList s.lead⟩) none .none (some m) sep
        none).textRange = some (o + Elem.lenList s.lead, r.2) := by
      rw [Meta.textRange]
      simp only [optRange, Option.map_some, Option.bind_some, eqRange, hr]
      show rangeNew (o + Elem.lenList s.lead) r.2 = _
      unfold rangeNew
      exact if_pos (by omega)
    exact ⟨_, build_nest pe o s.lead s.gap s.trail s.name (around ss g) m h1.lead h1.gap h1.trail h1.name
        t1 t2 sep (by simp [nestedOf, Annot.elem, parenthesised, Elem.isTree] at e ⊢; rw [e]),
      ⟨rfl, rfl, rfl, ⟨_, htr⟩, m, rfl, hat⟩, _, htr, by dsimp only; omega⟩

theorem kind_of_name {m : Meta} {n : Elem} {o : Nat} (h : m.name = .ok ⟨n, o⟩) :
    (Arg.ofMeta m).kind = ArgKind.ofName n.text := by
  cases m with
  | mk name eq value nested start stop =>
    have : name = .ok ⟨n, o⟩ := h
    subst this
    rfl

/-- The check of the outermost argument is that of the innermost. -/
theorem diags_at (hash : String → Vector UInt8 32) (fi : String → Option String) (v : Version)
    (attr : Option AttrKind) (site : Option Site) (file : List Leaf) (rem : Option RemAttr)
    (P : Nat → Meta → Prop) (k : ArgKind) (hP : ∀ o n, P o n → (Arg.ofMeta n).kind = k) :
    ∀ (ss : List Shell) (o : Nat) (m : Meta), Belongs ss k → At P ss o m →
      (Arg.ofMeta m).kind = outerKind ss k ∧ ∃ n, P (deep ss o) n ∧
      argDiags hash fi v attr site file rem m (Arg.ofMeta m).kind =
        argDiags hash fi v attr site file rem n k ∧
      validateArg fi v attr m (Arg.ofMeta m).kind = validateArg fi v attr n k
  | [], o, m, _, h => ⟨hP o m h, m, h, by rw [hP o m h], by rw [hP o m h]⟩
  | s :: ss, o, m, ⟨⟨opts, r, hs, hmem⟩, hb⟩, ⟨h1, h2, h3, ⟨own, h4⟩, m', h5, h6⟩ => by
    obtain ⟨ik, n, in1, in2, in3⟩ := diags_at hash fi v attr site file rem P k hP ss _ m' hb h6
    have hk := kind_of_name h1
    obtain ⟨x1, x2, x3, x4⟩ := expected_nested fi v attr _ m _ hs
    refine ⟨hk, n, in1, ?_, ?_⟩
    · rw [argDiags_eq, hk, if_neg x1, if_neg x2, x3, h4]
      simp only [Option.bind_some, h3, h5, x4]
      rw [if_pos (by rw [ik]; exact hmem), in2]
    · rw [validateArg_eq, hk, if_neg x1, if_neg x2, x3]
      simp only [h3, nestedPart, h5, x4]
      rw [if_pos (by rw [ik]; exact hmem), in3]

/-- What is read behind `pre`. -/
theorem read_at (pe : ExprParser) (o : Nat) (pre post : List Elem) (hd : Delimited pre post)
    (ss : List Shell) (hss : ∀ s ∈ ss, s.Ok) (d : Draft) (hok : d.Ok) (items : List Meta) (m : Meta)
    (hm : ItemAfter pe o (pre ++ around ss d.source ++ post) pre items m) :
    At (DraftItem pe d) ss (o + 1 + Elem.lenList pre) m := by
  have hp := around_plain (draft_plain hok) hss
  have hbt : Between (pre ++ around ss d.source ++ post) := by
    intro e he
    simp only [List.mem_append] at he
    rcases he with (he | he) | he
    · exact hd.inside.1 e he
    · exact hp.inside e he
    · exact hd.inside.2 e he
  obtain ⟨t1, t2, sep, h⟩ := item_of_group pe o pre (around ss d.source) post hbt hp.ne hp.comma
    hd.before hd.behind items m hm
  obtain ⟨m', h1, h2, _⟩ := build_around pe (DraftItem pe d) d.source (draft_plain hok)
    (by
      intro o t1 t2 sep
      obtain ⟨m, h1, h2⟩ := build_draft pe d hok o t1 t2 sep
      obtain ⟨core, trail, _, _, _, hr⟩ := h2.range
      exact ⟨m, h1, h2, _, hr, by dsimp only; omega⟩) ss hss (o + 1 + Elem.lenList pre) t1 t2 sep
  rw [h] at h1
  cases h1
  exact h2

theorem at_append (P : Nat → Meta → Prop) (s : Shell) : ∀ (ss : List Shell) (o : Nat) (m : Meta),
    At P (ss ++ [s]) o m → At (At P [s]) ss o m
  | [], _, _, h => h
  | _ :: ss, _, _, ⟨h1, h2, h3, h4, n, h5, h6⟩ => ⟨h1, h2, h3, h4, n, h5, at_append P s ss _ n h6⟩

theorem deep_append (s : Shell) : ∀ (ss : List Shell) (o : Nat),
    deep (ss ++ [s]) o = deep ss o + Elem.lenList (s.lead ++ s.name :: s.gap) + 1
  | [], _ => rfl
  | _ :: ss, _ => deep_append s ss _

/-- What is read for the draft among the others. -/
theorem read_draft (hash : String → Vector UInt8 32) (fi : String → Option String) (v : Version)
    (attr : Option AttrKind) (site : Option Site) (file : List Leaf) (rem : Option RemAttr)
    (pe : ExprParser) (o : Nat) (pre post : List Elem) (hd : Delimited pre post) (ss : List Shell)
    (hss : ∀ s ∈ ss, s.Ok) (d : Draft) (hok : d.Ok) (hb : Belongs ss (ArgKind.ofName d.name.text))
    (items : List Meta) (m : Meta)
    (hm : ItemAfter pe o (pre ++ around ss d.source ++ post) pre items m) :
    (Arg.ofMeta m).kind = outerKind ss (ArgKind.ofName d.name.text) ∧
    ∃ n, DraftItem pe d (deep ss (o + 1 + Elem.lenList pre)) n ∧
      argDiags hash fi v attr site file rem m (Arg.ofMeta m).kind =
        argDiags hash fi v attr site file rem n (ArgKind.ofName d.name.text) ∧
      validateArg fi v attr m (Arg.ofMeta m).kind =
        validateArg fi v attr n (ArgKind.ofName d.name.text) := by
  have h2 := read_at pe o pre post hd ss hss d hok items m hm
  exact diags_at hash fi v attr site file rem _ _ (fun o n hn => kind_of_name hn.name) ss _ m hb h2

/-! ### Texts -/

/-- The text before the innermost argument. -/
def beforeText : List Shell → String
  | [] => ""
  | s :: ss => Elem.textList (s.lead ++ s.name :: s.gap) ++ "(" ++ beforeText ss

/-- The text behind the innermost argument. -/
def afterText : List Shell → String
  | [] => ""
  | s :: ss => afterText ss ++ ")" ++ Elem.textList s.trail

theorem around_text (g : List Elem) : ∀ ss : List Shell,
    Elem.textList (around ss g) = beforeText ss ++ Elem.textList g ++ afterText ss
  | [] => by simp [around, beforeText, afterText]
  | s :: ss => by
    simp only [around, textList_append (s.lead ++ s.name :: s.gap), Elem.textList, parenthesised,
      Elem.text, textList_append (around ss g), around_text g ss, beforeText, afterText]
    simp [String.append_assoc]

theorem deep_size : ∀ (ss : List Shell) (o : Nat), deep ss o = o + (beforeText ss).utf8ByteSize
  | [], o => by simp [deep, beforeText]
  | s :: ss, o => by
    rw [deep, deep_size ss, beforeText, String.utf8ByteSize_append, String.utf8ByteSize_append,
      textList_size]
    have : ("(" : String).utf8ByteSize = 1 := by decide
    omega

theorem replaces (A B pre post : List Elem) (ss : List Shell) (g g' lead core trail : List Elem) (f : Fix)
    (hg : g = lead ++ core ++ trail)
    (hr : f.range = (deep ss (Elem.lenList A + 1 + Elem.lenList pre) + Elem.lenList lead,
      deep ss (Elem.lenList A + 1 + Elem.lenList pre) + Elem.lenList (lead ++ core)))
    (hg' : Elem.textList g' = Elem.textList lead ++ f.text ++ Elem.textList trail) :
    Replaces (Elem.textList (inFile A (pre ++ around ss g ++ post) B)) f
      (Elem.textList (inFile A (pre ++ around ss g' ++ post) B)) := by
  have htext : ∀ g : List Elem, Elem.textList (inFile A (pre ++ around ss g ++ post) B) =
      (Elem.textList A ++ "(" ++ Elem.textList pre ++ beforeText ss) ++ Elem.textList g ++
        (afterText ss ++ Elem.textList post ++ ")" ++ Elem.textList B) := by
    intro g
    simp only [inFile, textList_append, Elem.textList, parenthesised, Elem.text, around_text]
    simp [String.append_assoc]
  refine ⟨Elem.textList A ++ "(" ++ Elem.textList pre ++ beforeText ss ++ Elem.textList lead,
    Elem.textList core, Elem.textList trail ++ (afterText ss ++ Elem.textList post ++ ")" ++
      Elem.textList B), ?_, ?_, ?_⟩
  · rw [htext, hg, textList_append, textList_append]
    simp [String.append_assoc]
  · rw [hr, deep_size]
    have : ("(" : String).utf8ByteSize = 1 := by decide
    simp only [String.utf8ByteSize_append, textList_size, lenList_append, this]
    simp only [Prod.mk.injEq, true_and]
    omega
  · rw [htext, hg']
    simp [String.append_assoc]

theorem around_append (g : List Elem) (s : Shell) : ∀ ss : List Shell,
    around (ss ++ [s]) g = around ss (around [s] g)
  | [] => rfl
  | t :: ss => by
    simp only [List.cons_append, around, around_append g s ss]

theorem outer_append (s : Shell) (k : ArgKind) : ∀ ss : List Shell,
    outerKind (ss ++ [s]) k = outerKind ss (ArgKind.ofName s.name.text)
  | [] => rfl
  | _ :: _ => rfl

theorem belongs_append (s : Shell) (k : ArgKind) (opts : List ArgKind) (r : Bool)
    (h : nestedSpec (ArgKind.ofName s.name.text) = some (opts, r)) (hk : k ∈ opts) : ∀ ss : List Shell,
    Belongs ss (ArgKind.ofName s.name.text) → Belongs (ss ++ [s]) k
  | [], _ => ⟨⟨opts, r, h, hk⟩, trivial⟩
  | t :: ss, ⟨⟨o, r', h1, h2⟩, h3⟩ =>
    ⟨⟨o, r', h1, by rw [← outer_append s k ss] at h2; exact h2⟩, belongs_append s k opts r h hk ss h3⟩

theorem nested_belongs (k : ArgKind) : ∀ ss : List Shell, Nested ss → Belongs ss k ∨
    ∃ ss0 s opts r, ss = ss0 ++ [s] ∧ Belongs ss0 (ArgKind.ofName s.name.text) ∧
      nestedSpec (ArgKind.ofName s.name.text) = some (opts, r) ∧ k ∉ opts
  | [], _ => .inl trivial
  | [s], ⟨(opts, r), h⟩ => by
    by_cases hk : k ∈ opts
    · exact .inl ⟨⟨opts, r, h, hk⟩, trivial⟩
    · exact .inr ⟨[], s, opts, r, rfl, trivial, h, hk⟩
  | s :: s' :: ss, ⟨⟨opts, r, h1, h2⟩, h3⟩ => by
    rcases nested_belongs k (s' :: ss) h3 with h | ⟨ss0, t, o, r', e, hb, hn, hk⟩
    · exact .inl ⟨⟨opts, r, h1, h2⟩, h⟩
    · refine .inr ⟨s :: ss0, t, o, r', by rw [e]; rfl, ⟨⟨opts, r, h1, ?_⟩, hb⟩, hn, hk⟩
      have : outerKind ss0 (ArgKind.ofName t.name.text) = ArgKind.ofName s'.name.text := by
        cases ss0 with
        | nil =>
          simp only [List.nil_append, List.cons.injEq] at e
          rw [e.1]
          rfl
        | cons a b =>
          simp only [List.cons_append, List.cons.injEq] at e
          rw [e.1]
          rfl
      rw [this]
      exact h2

/-- The kinds of arguments. -/
theorem kinds (fi : String → Option String) (v : Version) (attr : Option AttrKind) (k : ArgKind)
    (hk : k ≠ .unknown) :
    expectedValue v attr k = .none ∨
    (InsertText.takesValue k = true ∧ expectedValue v attr k ≠ .none ∧
      ∀ m, ∃ b, valueOk fi (expectedValue v attr k) m = some b) ∨
    ∃ opts r, nestedSpec k = some (opts, r) := by
  cases k <;> first
    | exact absurd rfl hk
    | (cases v <;> exact .inl rfl)
    | exact .inr (.inr ⟨_, _, rfl⟩)
    | (refine .inr (.inl ⟨rfl, ?_, fun m => ?_⟩)
       · cases v <;> cases attr <;> simp [expectedValue, ValueKind.ofArg, ValueKind.ofArgV5] <;>
           split <;> simp
       · cases v <;> cases attr <;> first
           | exact ⟨_, rfl⟩
           | (simp only [expectedValue, ValueKind.ofArgV5, Option.map_some]
              split <;> exact ⟨_, rfl⟩))

theorem mended_of (pe : ExprParser) (fi : String → Option String) (v : Version) (attr : Option AttrKind)
    (o : Nat) (pre post : List Elem) (hd : Delimited pre post) (ss : List Shell)
    (hss : ∀ s ∈ ss, s.Ok) (d : Draft) (hok : d.Ok) (hb : Belongs ss (ArgKind.ofName d.name.text))
    (h : ∀ o n, DraftItem pe d o n → validateArg fi v attr n (ArgKind.ofName d.name.text) = []) :
    Mended pe fi v attr o pre (around ss d.source) post (outerKind ss (ArgKind.ofName d.name.text)) := by
  intro items m hm
  obtain ⟨h1, n, h2, _, h3⟩ := read_draft (fun _ => Vector.replicate 32 0) fi v attr none [] none pe o pre
    post hd ss hss d hok hb items m hm
  exact ⟨h1, h3.trans (h _ _ h2)⟩

theorem whitespace_of {d : Draft} (hun : d.Uncommented) {trail : List Elem} (ht : AllTrivia trail)
    (h : ∀ x ∈ trail, x ∈ d.gap ∧ d.rest = none ∨ ∃ e val, d.rest = some (e, val) ∧ x ∈ val) :
    ∀ x ∈ trail, ∀ c ∈ x.text.toList, c.isWhitespace = true := by
  intro x hx
  rcases h _ hx with ⟨h, _⟩ | ⟨e, val, h, hm⟩
  · exact hun.1 x h
  · exact hun.2 e val h x hm (ht x hx)

theorem textList_white : ∀ {t : List Elem}, (∀ x ∈ t, ∀ c ∈ x.text.toList, c.isWhitespace = true) →
    ∀ c ∈ (Elem.textList t).toList, c.isWhitespace = true
  | [], _, c, hc => by simp [Elem.textList] at hc
  | x :: t, h, c, hc => by
    rw [Elem.textList, String.toList_append, List.mem_append] at hc
    rcases hc with hc | hc
    · exact h x (by simp) c hc
    · exact textList_white (fun y hy => h y (by simp [hy])) c hc

/-- A lone name is accepted if it stands alone or needs no nested argument. -/
theorem flag_clean (pe : ExprParser) (fi : String → Option String) (v : Version) (attr : Option AttrKind)
    (d : Draft) (hrest : d.rest = none) (k : ArgKind) (hu : k ≠ .unknown)
    (h : expectedValue v attr k = .none ∨ ∃ opts, nestedSpec k = some (opts, false)) (o : Nat) (n : Meta)
    (hn : DraftItem pe d o n) : validateArg fi v attr n k = [] := by
  have heq : n.eq = none := by
    have := hn.eq
    rw [hrest] at this
    exact Option.isSome_eq_false_iff.1 (by simpa using this) |> Option.isNone_iff_eq_none.1
  have hval := hn.flag hrest
  rw [validateArg_eq, if_neg hu]
  rcases h with h | ⟨opts, h⟩
  · rw [if_pos h, heq, hval]
    rfl
  · obtain ⟨_, x2, x3, x4⟩ := expected_nested fi v attr k n _ h
    rw [if_neg x2, x3]
    simp only [hval, hn.nested, x4]
    rfl

/-- One quickfix mends an argument that belongs where it is, unless its value is to be a nested
argument. -/
theorem one_fix (pe : ExprParser) (htrim : Trims pe) (hash : String → Vector UInt8 32)
    (fi : String → Option String) (v : Version) (attr : Option AttrKind) (A B pre post : List Elem)
    (hd : Delimited pre post) (ss : List Shell) (hss : ∀ s ∈ ss, s.Ok) (d : Draft) (hok : d.Ok)
    (hun : d.Uncommented) (k : ArgKind) (hk : ArgKind.ofName d.name.text = k) (hb : Belongs ss k)
    (hu : k ≠ .unknown) (hs : k ≠ .signatureTopic)
    (hval : nestedSpec k ≠ none → ∀ e val, d.rest = some (e, val) → ∀ o x,
      parseMetaValue pe ((annotate pe o val).map Annot.placed) ≠ .ok x)
    (ok : Option Site → Prop) (hsite : ∀ site, ok site → SiteOk pe fi v k site) :
    Ends pe hash fi v attr ok A B pre post (outerKind ss k) 1 (around ss d.source) := by
  subst hk
  intro site file rem items m hsok hm
  obtain ⟨_, n, hn, hds, _⟩ := read_draft hash fi v attr site file rem pe _ pre post hd ss hss d hok hb
    items m hm
  rw [hds, argDiags_eq, if_neg hu]
  obtain ⟨core, trail, hsrc, htr, hmem, hrange⟩ := hn.range
  have hname : nameText n = d.name.text := by simp only [nameText, hn.name]
  rw [hrange]
  rcases kinds fi v attr _ hu with hx | ⟨hx1, hx2, hx3⟩ | ⟨opts, r, hspec⟩
  · rw [if_pos hx]
    by_cases hp : (n.eq.isSome || n.value.isSome) = true
    · rw [if_pos hp]
      refine ⟨_, rfl, ?_⟩
      intro x hx'
      rw [List.mem_singleton.1 hx']
      refine ⟨by simp, ?_⟩
      intro f hf
      rw [List.mem_singleton.1 hf]
      refine ⟨ss, ⟨d.lead, d.name, trail, none⟩, hss, ⟨hok.lead, hok.name, htr, (fun _ _ h => nomatch h)⟩,
        ?_, ?_⟩
      · refine replaces A B pre post ss _ _ d.lead core trail _ hsrc rfl ?_
        simp [Draft.source, textList_append, Elem.textList, hname, String.append_assoc]
      · exact mended_of pe fi v attr _ pre post hd ss hss ⟨d.lead, d.name, trail, none⟩
          ⟨hok.lead, hok.name, htr, (fun _ _ h => nomatch h)⟩ hb
          (flag_clean pe fi v attr _ rfl _ hu (.inl hx))
    · rw [if_neg hp]
      exact ⟨[], rfl, by simp⟩
  · rw [if_neg hx2]
    obtain ⟨b, hbv⟩ := hx3 n
    rw [hbv]
    cases b with
    | true => exact ⟨[], rfl, by simp⟩
    | false =>
      obtain ⟨hr, hv⟩ := hsite site hsok
      have hnext : nextOf site none = some none := by cases site <;> rfl
      rw [text_keyed hash _ none site hx1 none hnext, if_neg (by simp)]
      refine ⟨_, rfl, ?_⟩
      intro x hx'
      rw [List.mem_singleton.1 hx']
      refine ⟨by simp, ?_⟩
      intro f hf
      rw [List.mem_singleton.1 hf]
      obtain ⟨t, h1, h2, h3, h4, h5, h6⟩ := default_reads pe fi hash site hr _ hx1 hs v attr hv
      generalize hdv : (defaultValue hash site (ArgKind.ofName d.name.text)).1 = s at *
      have hve : valueElem t s = .tok .other s := by cases t <;> first | rfl | contradiction
      have hw := whitespace_of hun htr hmem
      have hvi : ValueIs pe (space :: valueElem t s :: trail) t s := by
        refine .expr _ _ _ ?_ ?_
        · rw [hve]
          intro e he x
          simp only [List.mem_cons] at he
          rcases he with rfl | rfl | he
          · exact ⟨(fun h => nomatch h), (fun h => nomatch h)⟩
          · exact ⟨(fun h => nomatch h), (fun h => nomatch h)⟩
          · have := htr e he
            constructor <;> (rintro rfl; simp [Elem.isTrivia, TokKind.isTrivia] at this)
        · rw [hve]
          have : Elem.textList (space :: .tok .other s :: trail) = " " ++ s ++ Elem.textList trail := by
            simp [Elem.textList, space, Elem.text, String.append_assoc]
          rw [this, htrim _ _ (textList_white hw), h3]
      have hok' : Draft.Ok ⟨d.lead, nameElem (ArgKind.ofName d.name.text), [space],
          some ("=", space :: valueElem t s :: trail)⟩ := by
        refine ⟨hok.lead, nameElem_name _, space_trivia, ?_⟩
        rintro e val h
        cases h
        rw [hve]
        constructor
        · intro e he
          simp only [List.mem_cons] at he
          rcases he with rfl | rfl | he
          · exact ⟨rfl, rfl, rfl⟩
          · exact ⟨rfl, rfl, rfl⟩
          · exact (trivia_plain htr).1 e he
        · intro e he
          simp only [List.mem_cons] at he
          rcases he with rfl | rfl | he
          · rfl
          · rfl
          · exact (trivia_plain htr).2 e he
      have hkn : ArgKind.ofName (nameElem (ArgKind.ofName d.name.text)).text =
          ArgKind.ofName d.name.text := C18_arg_print_parse _
      refine ⟨ss, _, hss, hok', ?_, ?_⟩
      · refine replaces A B pre post ss _ _ d.lead core trail _ hsrc rfl ?_
        have hvt : (valueElem t s).text = s := by cases t <;> rfl
        simp only [Draft.source, textList_append, Elem.textList, nameElem_text, space, Elem.text, hvt,
          String.append_empty]
        simp only [String.append_assoc]
        congr 2
      · have := mended_of pe fi v attr (Elem.lenList A) pre post hd ss hss _ hok' (by rw [hkn]; exact hb) ?_
        · rw [hkn] at this
          exact this
        · intro o n' hn'
          rw [hkn, validateArg_eq, if_neg h4, if_neg h5]
          obtain ⟨mv, e1, e2, e3⟩ := value_read pe (o + Elem.lenList (d.lead ++
            nameElem (ArgKind.ofName d.name.text) :: [space]) + (Elem.tok .eq "=").len) _ t s (by simp) hvi
          have := hn'.value _ _ rfl
          rw [h6 mv e2 e3 n' (okValue_ok (this.trans e1))]
          rfl
  · obtain ⟨_, x2, x3, x4⟩ := expected_nested fi v attr _ n _ hspec
    rw [if_neg x2, x3]
    simp only [Option.bind_some, hn.nested, x4, hname]
    have hne : ∀ x, n.value ≠ .ok x := by
      intro x hx
      cases hr : d.rest with
      | none =>
        rw [hn.flag hr] at hx
        cases hx
      | some ev =>
        have := hn.value ev.1 ev.2 hr
        rw [this] at hx
        exact hval (by rw [hspec]; simp) ev.1 ev.2 hr _ x hx
    have hsome : ∃ ds, (match n.value with
        | .ok x => some [(⟨.useNested, (deep ss (Elem.lenList A + 1 + Elem.lenList pre) +
            Elem.lenList d.lead, deep ss (Elem.lenList A + 1 + Elem.lenList pre) +
            Elem.lenList (d.lead ++ core)), [nestFix d.name.text x.text
            (deep ss (Elem.lenList A + 1 + Elem.lenList pre) +
            Elem.lenList d.lead, deep ss (Elem.lenList A + 1 + Elem.lenList pre) +
            Elem.lenList (d.lead ++ core))]⟩ : Diag)]
        | _ => some (if r = true then [(⟨.nestedMissing, (deep ss (Elem.lenList A + 1 + Elem.lenList pre) +
            Elem.lenList d.lead, deep ss (Elem.lenList A + 1 + Elem.lenList pre) +
            Elem.lenList (d.lead ++ core)), opts.map fun k => nestFix d.name.text k.name
            (deep ss (Elem.lenList A + 1 + Elem.lenList pre) +
            Elem.lenList d.lead, deep ss (Elem.lenList A + 1 + Elem.lenList pre) +
            Elem.lenList (d.lead ++ core))⟩ : Diag)] else [])) = some ds ∧
        ds = (if r = true then [(⟨.nestedMissing, (deep ss (Elem.lenList A + 1 + Elem.lenList pre) +
            Elem.lenList d.lead, deep ss (Elem.lenList A + 1 + Elem.lenList pre) +
            Elem.lenList (d.lead ++ core)), opts.map fun k => nestFix d.name.text k.name
            (deep ss (Elem.lenList A + 1 + Elem.lenList pre) +
            Elem.lenList d.lead, deep ss (Elem.lenList A + 1 + Elem.lenList pre) +
            Elem.lenList (d.lead ++ core))⟩ : Diag)] else []) := by
      cases hv : n.value with
      | ok x => exact absurd hv (hne x)
      | err x => exact ⟨_, rfl, rfl⟩
      | none => exact ⟨_, rfl, rfl⟩
    obtain ⟨ds, hds', rfl⟩ := hsome
    refine ⟨_, hds', ?_⟩
    intro x hx'
    cases r with
    | false => simp at hx'
    | true =>
      rw [if_pos rfl, List.mem_singleton] at hx'
      subst hx'
      have hback : ∃ a b, opts = [a, b] ∧ ∀ k' ∈ opts, ∃ o, nestedSpec k' = some (o, false) := by
        generalize ArgKind.ofName d.name.text = k at hspec
        cases k <;> simp only [nestedSpec, reduceCtorEq, Option.some.injEq, Prod.mk.injEq,
          Bool.false_eq_true, and_false, and_true] at hspec
        subst hspec
        exact ⟨_, _, rfl, by simp [nestedSpec]⟩
      obtain ⟨a, b, rfl, hleaf⟩ := hback
      refine ⟨by simp, ?_⟩
      intro f hf
      obtain ⟨k', hk', rfl⟩ := List.mem_map.1 hf
      obtain ⟨o', ho'⟩ := hleaf k' hk'
      have hsh : ∀ s ∈ ss ++ [⟨d.lead, d.name, [], trail⟩], Shell.Ok s := by
        intro s hs'
        rcases List.mem_append.1 hs' with h | h
        · exact hss s h
        · rw [List.mem_singleton.1 h]
          exact ⟨hok.lead, hok.name, none_trivia, htr⟩
      have hok' : Draft.Ok ⟨[], nameElem k', [], none⟩ :=
        ⟨none_trivia, nameElem_name _, none_trivia, (fun _ _ h => nomatch h)⟩
      have hkn : ArgKind.ofName (nameElem k').text = k' := C18_arg_print_parse _
      refine ⟨ss ++ [⟨d.lead, d.name, [], trail⟩], ⟨[], nameElem k', [], none⟩, hsh, hok', ?_, ?_⟩
      · rw [around_append]
        refine replaces A B pre post ss _ _ d.lead core trail _ hsrc rfl ?_
        simp [around, parenthesised, Draft.source, nestFix, textList_append, Elem.textList, Elem.text,
          nameElem_text, String.append_assoc]
      · have hbel : Belongs (ss ++ [⟨d.lead, d.name, [], trail⟩]) k' :=
          belongs_append ⟨d.lead, d.name, [], trail⟩ k' _ _ hspec hk' ss hb
        have := mended_of pe fi v attr (Elem.lenList A) pre post hd _ hsh _ hok'
          (by rw [hkn]; exact hbel) (by
            rw [hkn]
            exact flag_clean pe fi v attr _ rfl k' (expected_nested fi v attr k' n _ ho').1 (.inr ⟨o', ho'⟩))
        rw [hkn, outer_append] at this
        exact this

theorem no_value (pe : ExprParser) (o : Nat) (val : List Elem) (h : pe (Elem.textList val) = none)
    (hno : ∀ x ∈ val, ∀ t, x ≠ .tok .underscore t ∧ x ≠ .tok .at t) (x : MetaValue) :
    parseMetaValue pe ((annotate pe o val).map Annot.placed) ≠ .ok x := by
  have hpl := placed_elems pe o val
  have key : parseValue pe ((annotate pe o val).map Annot.placed) = none := by
    unfold parseValue
    split
    · rfl
    · rw [hpl, h]
      have hmem : ∀ p ∈ ((annotate pe o val).map Annot.placed).filter (fun p => !p.elem.isTrivia),
          ∀ t, p.elem ≠ .tok .underscore t ∧ p.elem ≠ .tok .at t := by
        intro p hp t
        refine hno _ ?_ t
        have := List.mem_map_of_mem (f := Placed.elem) (List.mem_filter.1 hp).1
        rwa [hpl] at this
      dsimp only
      split
      · rename_i p hp
        have := hmem p (by rw [hp]; simp)
        split
        · rename_i t he
          exact absurd he (this t).1
        · rename_i t he
          exact absurd he (this t).2
        · rfl
      · rfl
  unfold parseMetaValue
  rw [key]
  split <;> simp

theorem option_kind {k k' : ArgKind} {opts : List ArgKind} {r : Bool}
    (h : nestedSpec k = some (opts, r)) (hk : k' ∈ opts) :
    k' ≠ .unknown ∧ k' ≠ .signatureTopic ∧ k' ≠ .extension := by
  cases k <;> simp only [nestedSpec, reduceCtorEq, Option.some.injEq, Prod.mk.injEq] at h
  all_goals
    obtain ⟨rfl, _⟩ := h
    simp only [List.mem_cons, List.not_mem_nil, or_false] at hk
  · rcases hk with rfl | rfl <;> decide
  · subst hk; decide
  · subst hk; decide

theorem belongs_known (k : ArgKind) : ∀ ss : List Shell, ss ≠ [] → Belongs ss k → k ≠ .unknown
  | [], h, _ => absurd rfl h
  | [_], _, ⟨⟨_, _, h1, h2⟩, _⟩ => (option_kind h1 h2).1
  | _ :: s :: ss, _, ⟨_, h⟩ => belongs_known k (s :: ss) (by simp) h

theorem option_site {pe : ExprParser} {fi : String → Option String} {v : Version} {k k' : ArgKind}
    {site : Option Site} (h : SiteOk pe fi v k site) (hk : k' ≠ .extension) : SiteOk pe fi v k' site :=
  ⟨h.1, fun h => absurd h hk⟩

/-- An argument that the one around it cannot have. -/
theorem wrong_option (pe : ExprParser) (htrim : Trims pe) (hash : String → Vector UInt8 32)
    (fi : String → Option String) (v : Version) (attr : Option AttrKind) (A B pre post : List Elem)
    (hd : Delimited pre post) (ss : List Shell) (s : Shell) (hss : ∀ t ∈ ss ++ [s], t.Ok) (d : Draft)
    (hok : d.Ok) (hun : d.Uncommented) (hb : Belongs ss (ArgKind.ofName s.name.text))
    (opts : List ArgKind) (r : Bool) (hspec : nestedSpec (ArgKind.ofName s.name.text) = some (opts, r))
    (hno : ArgKind.ofName d.name.text ∉ opts)
    (ok : Option Site → Prop) (hsite : ∀ site, ok site → SiteOk pe fi v .unknown site) :
    Ends pe hash fi v attr ok A B pre post (outerKind ss (ArgKind.ofName s.name.text)) 2
      (around (ss ++ [s]) d.source) := by
  intro site file rem items m hsok hm
  have hat := at_append _ s ss _ _ (read_at pe _ pre post hd _ hss d hok items m hm)
  obtain ⟨_, n, ⟨h1, h2, h3, ⟨own, h4⟩, n', h5, hn⟩, hds, _⟩ := diags_at hash fi v attr site file rem _
    (ArgKind.ofName s.name.text) (fun o n hn => kind_of_name hn.1) ss _ m hb hat
  obtain ⟨hu, x2, x3, x4⟩ := expected_nested fi v attr _ n _ hspec
  have hn' : DraftItem pe d (deep (ss ++ [s]) (Elem.lenList A + 1 + Elem.lenList pre)) n' := by
    rw [deep_append]
    exact hn
  obtain ⟨core, trail, hsrc, htr, hmem, hrange⟩ := hn'.range
  rw [hds, argDiags_eq, if_neg hu, if_neg x2, x3, h4]
  simp only [Option.bind_some, h3, h5, x4]
  rw [if_neg (by rw [kind_of_name hn'.name]; exact hno), hrange]
  refine ⟨_, rfl, ?_⟩
  intro x hx
  rw [List.mem_singleton.1 hx]
  refine ⟨?_, ?_⟩
  · generalize ArgKind.ofName s.name.text = k at hspec
    cases k <;> simp only [nestedSpec, reduceCtorEq, Option.some.injEq, Prod.mk.injEq] at hspec <;>
      (obtain ⟨rfl, _⟩ := hspec; simp)
  intro f hf
  obtain ⟨k', hk', rfl⟩ := List.mem_map.1 hf
  have hok' : Draft.Ok ⟨d.lead, nameElem k', trail, none⟩ :=
    ⟨hok.lead, nameElem_name _, htr, (fun _ _ h => nomatch h)⟩
  have hkn : ArgKind.ofName (nameElem k').text = k' := C18_arg_print_parse _
  obtain ⟨k1, k2, k3⟩ := option_kind hspec hk'
  refine ⟨ss ++ [s], ⟨d.lead, nameElem k', trail, none⟩, hss, hok', ?_, ?_⟩
  · refine replaces A B pre post (ss ++ [s]) _ _ d.lead core trail _ hsrc rfl ?_
    simp [Draft.source, optionFix, textList_append, Elem.textList, nameElem_text, String.append_assoc]
  · have := one_fix pe htrim hash fi v attr A B pre post hd _ hss ⟨d.lead, nameElem k', trail, none⟩ hok'
      ⟨?_, (fun _ _ h => nomatch h)⟩ k' hkn
      (belongs_append s k' _ _ hspec hk' ss hb) k1 k2
      (fun _ _ _ h => nomatch h) ok (fun site h => option_site (hsite site h) k3)
    · rw [outer_append] at this
      exact this
    · exact whitespace_of hun htr hmem

/-- A value that is a name. -/
theorem use_nested (pe : ExprParser) (htrim : Trims pe) (hash : String → Vector UInt8 32)
    (fi : String → Option String) (v : Version) (attr : Option AttrKind) (A B pre post : List Elem)
    (hd : Delimited pre post) (ss : List Shell) (hss : ∀ s ∈ ss, s.Ok) (d : Draft) (hok : d.Ok)
    (k : ArgKind) (hk : ArgKind.ofName d.name.text = k) (hb : Belongs ss k)
    (opts : List ArgKind) (r : Bool) (hspec : nestedSpec k = some (opts, r)) (e : String)
    (val : List Elem) (hrest : d.rest = some (e, val)) (hne : val ≠ []) (nm : Elem) (hnm : IsName nm)
    (t : ValueTok) (hval : ValueIs pe val t nm.text)
    (ok : Option Site → Prop) (hsite : ∀ site, ok site → SiteOk pe fi v k site) :
    ∃ n ≤ 2, Ends pe hash fi v attr ok A B pre post (outerKind ss k) (n + 1) (around ss d.source) := by
  subst hk
  have hok' : Draft.Ok ⟨[], nm, [], none⟩ :=
    ⟨none_trivia, hnm, none_trivia, (fun _ _ h => nomatch h)⟩
  have hun' : Draft.Uncommented ⟨[], nm, [], none⟩ := ⟨by simp, (fun _ _ h => nomatch h)⟩
  have hnext : ∃ n ≤ 2, ∀ trail, AllTrivia trail →
      Ends pe hash fi v attr ok A B pre post (outerKind ss (ArgKind.ofName d.name.text)) n
        (around (ss ++ [⟨d.lead, d.name, [], trail⟩]) (Draft.source ⟨[], nm, [], none⟩)) := by
    have hsh : ∀ trail, AllTrivia trail → ∀ s ∈ ss ++ [⟨d.lead, d.name, [], trail⟩], Shell.Ok s := by
      intro trail htr s hs'
      rcases List.mem_append.1 hs' with h | h
      · exact hss s h
      · rw [List.mem_singleton.1 h]
        exact ⟨hok.lead, hok.name, none_trivia, htr⟩
    by_cases hk' : ArgKind.ofName nm.text ∈ opts
    · obtain ⟨k1, k2, k3⟩ := option_kind hspec hk'
      refine ⟨1, by omega, fun trail htr => ?_⟩
      have := one_fix pe htrim hash fi v attr A B pre post hd _ (hsh trail htr) ⟨[], nm, [], none⟩ hok'
        hun' _ rfl (belongs_append ⟨d.lead, d.name, [], trail⟩ _ _ _ hspec hk' ss hb) k1 k2
        (fun _ _ _ h => nomatch h) ok (fun site h => option_site (hsite site h) k3)
      rw [outer_append] at this
      exact this
    · refine ⟨2, Nat.le_refl _, fun trail htr => ?_⟩
      exact wrong_option pe htrim hash fi v attr A B pre post hd ss _ (hsh trail htr) ⟨[], nm, [], none⟩
        hok' hun' hb opts r hspec hk' ok (fun site h => option_site (hsite site h) (by decide))
  obtain ⟨i, hi, hnext⟩ := hnext
  refine ⟨i, hi, ?_⟩
  intro site file rem items m hsok hm
  obtain ⟨_, n, hn, hds, _⟩ := read_draft hash fi v attr site file rem pe _ pre post hd ss hss d hok hb
    items m hm
  obtain ⟨hu, x2, x3, x4⟩ := expected_nested fi v attr _ n _ hspec
  obtain ⟨core, trail, hsrc, htr, hmem, hrange⟩ := hn.range
  have hname : nameText n = d.name.text := by simp only [nameText, hn.name]
  obtain ⟨mv, e1, e2, e3⟩ := value_read pe (deep ss (Elem.lenList A + 1 + Elem.lenList pre) +
    Elem.lenList (d.lead ++ d.name :: d.gap) + (Elem.tok .eq e).len) val t _ hne hval
  have hv := (hn.value e val hrest).trans e1
  rw [hds, argDiags_eq, if_neg hu, if_neg x2, x3, hrange, hv]
  refine ⟨_, rfl, ?_⟩
  intro x hx
  rw [List.mem_singleton.1 hx]
  refine ⟨by simp, ?_⟩
  intro f hf
  rw [List.mem_singleton.1 hf]
  have hsh : ∀ s ∈ ss ++ [⟨d.lead, d.name, [], trail⟩], Shell.Ok s := by
    intro s hs'
    rcases List.mem_append.1 hs' with h | h
    · exact hss s h
    · rw [List.mem_singleton.1 h]
      exact ⟨hok.lead, hok.name, none_trivia, htr⟩
  refine ⟨ss ++ [⟨d.lead, d.name, [], trail⟩], ⟨[], nm, [], none⟩, hsh, hok', ?_, hnext trail htr⟩
  rw [around_append]
  refine replaces A B pre post ss _ _ d.lead core trail _ hsrc rfl ?_
  simp [around, parenthesised, Draft.source, nestFix, textList_append, Elem.textList, Elem.text,
    hname, e3, String.append_assoc]

theorem name_of_kind (m : Meta) (h : (Arg.ofMeta m).kind ≠ .unknown) :
    nameText m = (Arg.ofMeta m).kind.name := by
  unfold Arg.ofMeta at h ⊢
  unfold nameText
  cases hm : m.name with
  | ok p =>
    rw [hm] at h
    dsimp only at h ⊢
    by_cases hd : p.elem.text ∈ documentedArgs
    · exact (C18_arg_round_trip _ hd).2.symm
    · exact absurd (C18_arg_unknown _ hd) h
  | err items =>
    rw [hm] at h
    exact absurd rfl h
  | none =>
    rw [hm] at h
    exact absurd rfl h

/-! ## Theorems -/

/-- C110. The diagnostics with quickfixes are the diagnostics of C42. -/
theorem C110_issues (hash : String → Vector UInt8 32) (fi : String → Option String) (v : Version)
    (attr : Option AttrKind) (site : Option Site) (file : List Leaf) (rem : Option RemAttr) (m : Meta)
    (ds : List Diag)
    (h : argDiags hash fi v attr site file rem m (Arg.ofMeta m).kind = some ds) :
    ds.map Diag.issue = validateArg fi v attr m (Arg.ofMeta m).kind :=
  issues hash fi v attr site file rem _ m _ ds (Nat.le_refl _) h

/-- C110. Applying the quickfixes that are offered for an argument (nested or not), one after the other
and whichever are chosen, ends after at most three of them in an argument of the same kind for which
nothing is reported. The argument is a name, alone or with `=` and anything behind it; around it are
arguments that can have nested arguments, and before and behind it other arguments. Missing for the full
claim: `signature_topic` (`C110_negation_topic`), arguments with a comment behind the name
(`C110_negation_comment`), arguments that take a nested argument but have another value
(`C110_negation_value`), arguments that have a nested argument but take none
(`C110_negation_nested`), and empty parentheses (`C110_negation_hollow`). Unknown arguments that are not
nested are removed (C51, C105). -/
theorem C110_ends_partial (pe : ExprParser) (htrim : Trims pe) (hash : String → Vector UInt8 32)
    (fi : String → Option String) (v : Version) (attr : Option AttrKind) (A B pre post : List Elem)
    (hd : Delimited pre post) (ss : List Shell) (hss : ∀ s ∈ ss, s.Ok) (hn : Nested ss) (d : Draft)
    (hok : d.Ok) (hun : d.Uncommented) (k : ArgKind) (hk : ArgKind.ofName d.name.text = k)
    (hu : ss = [] → k ≠ .unknown) (hs : k ≠ .signatureTopic) (hf : Fitting pe d k) :
    ∃ n ≤ 3, Ends pe hash fi v attr (SiteOk pe fi v k) A B pre post (outerKind ss k) n
      (around ss d.source) := by
  rcases nested_belongs k ss hn with hb | ⟨ss0, s, opts, r, rfl, hb, hspec, hno⟩
  · have hu' : k ≠ .unknown := by
      cases ss with
      | nil => exact hu rfl
      | cons s ss =>
        exact belongs_known k (s :: ss) (by simp) hb
    by_cases hc : ∃ opts r e val, nestedSpec k = some (opts, r) ∧ d.rest = some (e, val) ∧ val ≠ [] ∧
        ∃ nm t, IsName nm ∧ ValueIs pe val t nm.text
    · obtain ⟨opts, r, e, val, h1, h2, h3, nm, t, h4, h5⟩ := hc
      obtain ⟨n, hn, h⟩ := use_nested pe htrim hash fi v attr A B pre post hd ss hss d hok k hk hb
        opts r h1 e val h2 h3 nm h4 t h5 _ (fun _ h => h)
      exact ⟨n + 1, by omega, h⟩
    · refine ⟨1, by omega, one_fix pe htrim hash fi v attr A B pre post hd ss hss d hok hun k hk hb hu' hs
        ?_ _ (fun _ h => h)⟩
      intro hne e val hrest o x
      cases hspec : nestedSpec k with
      | none => exact absurd hspec hne
      | some p =>
        rcases hf p.1 p.2 hspec e val hrest with ⟨h1, h2⟩ | ⟨h1, h2⟩
        · exact absurd ⟨p.1, p.2, e, val, hspec, hrest, h1, h2⟩ hc
        · exact no_value pe o val h1 h2 x
  · refine ⟨2, by omega, ?_⟩
    rw [outer_append]
    subst hk
    exact wrong_option pe htrim hash fi v attr A B pre post hd ss0 s hss d hok hun hb opts r hspec hno _
      (fun site h => option_site h (by decide))

/-- C110. The argument is always read, so that what `C110_ends_partial` says of what is read is about
something. `wfList`: the first child of a token tree is its only opening parenthesis. -/
theorem C110_read (pe : ExprParser) (o : Nat) (pre post : List Elem) (hd : Delimited pre post)
    (ss : List Shell) (hss : ∀ s ∈ ss, s.Ok) (d : Draft) (hok : d.Ok)
    (hwf : Elem.wfList (pre ++ around ss d.source ++ post) = true) :
    ∃ items m, ItemAfter pe o (pre ++ around ss d.source ++ post) pre items m := by
  have hp := around_plain (draft_plain hok) hss
  have hbt : Between (pre ++ around ss d.source ++ post) := by
    intro e he
    simp only [List.mem_append] at he
    rcases he with (he | he) | he
    · exact hd.inside.1 e he
    · exact hp.inside e he
    · exact hd.inside.2 e he
  have hwf' : (parenthesised (pre ++ around ss d.source ++ post)).wf = true := by
    have happ : ∀ a b : List Elem, Elem.wfList (a ++ b) = (Elem.wfList a && Elem.wfList b) := by
      intro a b
      induction a with
      | nil => simp [Elem.wfList]
      | cons x a ih => simp [Elem.wfList, ih, Bool.and_assoc]
    unfold parenthesised
    rw [Elem.wf, Bool.and_eq_true]
    refine ⟨List.all_eq_true.2 ?_, ?_⟩
    · intro e he
      rcases List.mem_append.1 he with he | he
      · simp [(hbt e he).1]
      · rw [List.mem_singleton.1 he]
        rfl
    · rw [Elem.wfList, happ, hwf]
      rfl
  obtain ⟨items, hi⟩ := Option.isSome_iff_exists.1 (C20_total pe o _ hwf')
  have hlen := C20_count_partial pe o _ items hbt hi
  have happ : ∀ (p l : List Elem) (b : Bool), (p = [] ∧ b = true ∨ ∃ q c, p = q ++ [.tok .comma c]) →
      runStarts Elem.isComma b (p ++ l) = runStarts Elem.isComma b p + runStarts Elem.isComma true l := by
    intro p l
    induction p with
    | nil =>
      rintro b (⟨_, rfl⟩ | ⟨q, c, h⟩)
      · simp [runStarts]
      · simp at h
    | cons x p ih =>
      rintro b (⟨h, _⟩ | ⟨q, c, h⟩)
      · simp at h
      · simp only [List.cons_append, runStarts]
        rw [ih, Nat.add_assoc]
        cases q with
        | nil =>
          simp only [List.nil_append, List.cons.injEq] at h
          exact .inl ⟨h.2, by rw [h.1]; rfl⟩
        | cons y q =>
          simp only [List.cons_append, List.cons.injEq] at h
          exact .inr ⟨q, c, h.2⟩
  have hlt : runStarts Elem.isComma true pre < items.length := by
    rw [hlen, List.append_assoc, happ pre _ true (by
      rcases hd.before with h | h
      · exact .inl ⟨h, rfl⟩
      · exact .inr h)]
    cases hg : around ss d.source with
    | nil => exact absurd hg hp.ne
    | cons x g =>
      have := hp.comma x (by rw [hg]; simp)
      simp [runStarts, this]
      omega
  exact ⟨items, items[runStarts Elem.isComma true pre], hi, List.getElem?_eq_getElem hlt⟩

/-- C110. Filling in the snippet of a quickfix gives its text. Missing for the full claim: the quickfix
that makes a value the nested argument (`C110_negation_snippet`). -/
theorem C110_snippet_partial (hash : String → Vector UInt8 32) (fi : String → Option String) (v : Version)
    (attr : Option AttrKind) (site : Option Site) (file : List Leaf) (rem : Option RemAttr)
    (henv : ∀ s p, site = some s → s.environment = some p → Clean p.toList) (m : Meta)
    (ds : List Diag)
    (h : argDiags hash fi v attr site file rem m (Arg.ofMeta m).kind = some ds) (x : Diag) (hx : x ∈ ds)
    (hn : x.issue ≠ .useNested) (f : Fix) (hf : f ∈ x.fixes) (t : String) (ht : f.snippet = some t) :
    expand t.toList = some (f.text.toList, [1]) := by
  have key : ∀ (n : Nat) (m : Meta), sizeOf m ≤ n → ∀ ds,
      argDiags hash fi v attr site file rem m (Arg.ofMeta m).kind = some ds → ∀ x ∈ ds,
      x.issue ≠ .useNested → ∀ f ∈ x.fixes, ∀ t, f.snippet = some t →
      expand t.toList = some (f.text.toList, [1]) := by
    intro n
    induction n with
    | zero => intro m h; cases m; simp at h
    | succ n ih =>
      intro m hs ds h x hx hn f hf t ht
      rw [argDiags_eq] at h
      split at h
      · simp only [Option.bind_eq_some_iff, Option.map_eq_some_iff] at h
        obtain ⟨_, _, _, _, rfl⟩ := h
        rw [List.mem_singleton] at hx
        subst hx
        rw [List.mem_singleton] at hf
        subst hf
        cases ht
      · rename_i hk
        split at h
        · split at h
          · simp only [Option.map_eq_some_iff] at h
            obtain ⟨_, _, rfl⟩ := h
            rw [List.mem_singleton] at hx
            subst hx
            rw [List.mem_singleton] at hf
            subst hf
            cases ht
          · cases h
            cases hx
        · rcases kinds fi v attr _ hk with hk' | ⟨hk1, hk2, hk3⟩ | ⟨opts, r, hspec⟩
          · contradiction
          · obtain ⟨b, hb⟩ := hk3 m
            rw [hb] at h
            cases b with
            | true => cases h; cases hx
            | false =>
              simp only [Bool.false_eq_true, if_false, Option.bind_eq_some_iff,
                Option.map_eq_some_iff] at h
              obtain ⟨⟨t1, t2⟩, hi, _, _, rfl⟩ := h
              rw [List.mem_singleton] at hx
              subst hx
              rw [List.mem_singleton] at hf
              subst hf
              cases ht
              exact C80_snippet hash _ none site _ _ hi henv
          · obtain ⟨_, x2, x3, x4⟩ := expected_nested fi v attr _ m _ hspec
            rw [x3] at h
            simp only [Option.bind_eq_some_iff, x4] at h
            obtain ⟨own, _, h⟩ := h
            have hname : nameText m = ((Arg.ofMeta m).kind).name := name_of_kind m hk
            have hopt : ∀ k' ∈ opts, expand (("${1:" ++ k'.name ++ "}" : String)).toList =
                  some (k'.name.toList, [1]) ∧
                expand ((((Arg.ofMeta m).kind).name ++ "(${1:" ++ k'.name ++ "})" : String)).toList =
                  some ((((Arg.ofMeta m).kind).name ++ "(" ++ k'.name ++ ")" : String).toList, [1]) := by
              generalize (Arg.ofMeta m).kind = k at hspec
              cases k <;> simp only [nestedSpec, reduceCtorEq, Option.some.injEq, Prod.mk.injEq] at hspec
              all_goals
                obtain ⟨rfl, _⟩ := hspec
                simp only [List.mem_cons, List.not_mem_nil, or_false]
              · rintro k' (rfl | rfl) <;> decide
              · rintro k' rfl; decide
              · rintro k' rfl; decide
            have rest : (match m.nested with
              | none => some (if r = true then
                  [(⟨.nestedMissing, own, opts.map fun k =>
                    nestFix (nameText m) k.name own⟩ : Diag)] else [])
              | some m' =>
                if (Arg.ofMeta m').kind ∈ opts then
                  argDiags hash fi v attr site file rem m' (Arg.ofMeta m').kind
                else
                  m'.textRange.map fun r => [⟨.nestedUnknown, r, opts.map (optionFix r)⟩]) = some ds →
              expand t.toList = some (f.text.toList, [1]) := by
              intro h
              cases hnest : m.nested with
              | none =>
                rw [hnest] at h
                simp only [Option.some.injEq] at h
                subst h
                split at hx
                · rw [List.mem_singleton] at hx
                  subst hx
                  obtain ⟨k', hk', rfl⟩ := List.mem_map.1 hf
                  cases ht
                  rw [hname]
                  exact (hopt k' hk').2
                · cases hx
              | some m' =>
                rw [hnest] at h
                dsimp only at h
                split at h
                · refine ih m' ?_ ds h x hx hn f hf t ht
                  cases m with
                  | mk a b c d e f =>
                    have hd : d = some m' := hnest
                    subst hd
                    simp at hs
                    omega
                · simp only [Option.map_eq_some_iff] at h
                  obtain ⟨_, _, rfl⟩ := h
                  rw [List.mem_singleton] at hx
                  subst hx
                  obtain ⟨k', hk', rfl⟩ := List.mem_map.1 hf
                  cases ht
                  exact (hopt k' hk').1
            cases hval : m.value with
            | ok y =>
              rw [hval] at h
              cases h
              rw [List.mem_singleton] at hx
              subst hx
              exact absurd rfl hn
            | err y =>
              rw [hval] at h
              exact rest h
            | none =>
              rw [hval] at h
              exact rest h
  exact key _ m (Nat.le_refl _) ds h x hx hn f hf t ht

/-! ## Where the claim is false -/

/-- An expression parser for the cases below. -/
def someExprs : ExprParser := fun s =>
  if s = " \"\"" then some (.string, "\"\"")
  else if s = "1" ∨ s = " 1" then some (.intNumber, "1")
  else if s = " \"ws://x\"" then some (.string, "\"ws://x\"")
  else if s = "\"a}b\"" then some (.string, "\"a}b\"")
  else none

/-- `signature_topic` gets an empty value, which is reported again, with the same quickfix. -/
theorem C110_negation_topic (hash : String → Vector UInt8 32) (fi : String → Option String) (v : Version)
    (attr : Option AttrKind) : ∃ m m' f f',
    (parenthesised [.tok .ident "signature_topic"]).parse someExprs 0 = some [m] ∧
    argDiags hash fi v attr none [] none m .signatureTopic = some [⟨.badValue, (1, 16), [f]⟩] ∧
    Replaces "(signature_topic)" f "(signature_topic = \"\")" ∧
    (parenthesised [.tok .ident "signature_topic", .tok .whitespace " ", .tok .eq "=",
      .tok .whitespace " ", .tok .other "\"\""]).parse someExprs 0 = some [m'] ∧
    argDiags hash fi v attr none [] none m' .signatureTopic = some [⟨.badValue, (1, 21), [f']⟩] ∧
    Replaces "(signature_topic = \"\")" f' "(signature_topic = \"\")" := by
  have hi : insertText hash .signatureTopic none none = some ("signature_topic = \"\"",
      some "signature_topic = \"$1\"") := by
    rw [text_keyed hash _ none none rfl none rfl]
    simp [defaultValue]
    decide
  have hx : ∀ m, argDiags hash fi v attr none [] none m .signatureTopic =
      if validString fi .hex <$> okValue m = some true then some []
      else m.textRange.map fun own => [⟨.badValue, own, [⟨"signature_topic = \"\"",
        some "signature_topic = \"$1\"", own⟩]⟩] := by
    intro m
    rw [argDiags_eq, if_neg (by decide)]
    have hv : expectedValue v attr .signatureTopic = .string .hex := by cases v <;> rfl
    rw [hv, if_neg (by simp), hi]
    simp only [valueOk, Option.bind_some]
    cases okValue m with
    | none => simp
    | some y => simp
  refine ⟨_, _, _, _, rfl, (hx _).trans rfl, ⟨"(", "signature_topic", ")", by decide, by decide, by decide⟩,
    rfl, (hx _).trans rfl,
    ⟨"(", "signature_topic = \"\"", ")", by decide, by decide, by decide⟩⟩

/-- What is reported for an argument `selector` without a value that is accepted. -/
theorem selector_diags (hash : String → Vector UInt8 32) (fi : String → Option String)
    (attr : Option AttrKind) (file : List Leaf) (rem : Option RemAttr) (m : Meta)
    (h : okValue m = none) : argDiags hash fi .v4 attr none file rem m .selector =
      m.textRange.map fun own => [⟨.badValue, own, [⟨"selector = 1", some "selector = ${1:1}", own⟩]⟩] := by
  have hi : insertText hash .selector none none = some ("selector = 1", some "selector = ${1:1}") := by
    rw [text_keyed hash _ none none rfl none rfl]
    have hids : selectorIds hash none = [] := rfl
    have hid : defaultId maxU32 [] = 1 := by simp [defaultId, suggestId, suggestFrom]
    simp only [defaultValue, hids, hid, reduceCtorEq, if_false]
    decide
  rw [argDiags_eq, if_neg (by decide)]
  have hv : expectedValue .v4 attr .selector = .u32OrWildcard := rfl
  rw [hv, if_neg (by simp), hi]
  simp only [valueOk, h, Option.bind_some, Option.any_none, Bool.false_eq_true, if_false]

/-- The range of an argument does not include the closing parenthesis of its nested argument. For
`selector(1)` the quickfix gives `selector = 1)`. -/
theorem C110_negation_nested (hash : String → Vector UInt8 32) (fi : String → Option String)
    (attr : Option AttrKind) : ∃ m f,
    (parenthesised [.tok .ident "selector", parenthesised [.tok .other "1"]]).parse someExprs 0 =
      some [m] ∧
    argDiags hash fi .v4 attr none [] none m .selector = some [⟨.badValue, (1, 11), [f]⟩] ∧
    Replaces "(selector(1))" f "(selector = 1))" :=
  ⟨_, _, rfl, (selector_diags hash fi attr [] none _ rfl).trans rfl,
    ⟨"(", "selector(1", "))", by decide, by decide, by decide⟩⟩

/-- The quickfixes for `backend()` replace the parentheses: `backendnode`. -/
theorem C110_negation_hollow (hash : String → Vector UInt8 32) (fi : String → Option String) (v : Version)
    (attr : Option AttrKind) : ∃ m f f',
    (parenthesised [.tok .ident "backend", parenthesised []]).parse someExprs 0 = some [m] ∧
    argDiags hash fi v attr none [] none m .backend = some [⟨.nestedUnknown, (8, 10), [f, f']⟩] ∧
    Replaces "(backend())" f "(backendnode)" ∧ Replaces "(backend())" f' "(backendruntime_only)" := by
  refine ⟨_, _, _, rfl, by cases v <;> rfl, ⟨"(backend", "()", ")", by decide, by decide, by decide⟩,
    ⟨"(backend", "()", ")", by decide, by decide, by decide⟩⟩

/-- For `node = "ws://x"` the quickfix is `node("ws://x")`, for which the quickfix is `node(url)`: the
URL is lost. -/
theorem C110_negation_value (hash : String → Vector UInt8 32) (fi : String → Option String) (v : Version)
    (attr : Option AttrKind) : ∃ m m' f f',
    (parenthesised [.tok .ident "node", .tok .whitespace " ", .tok .eq "=", .tok .whitespace " ",
      .tok .other "\"ws://x\""]).parse someExprs 0 = some [m] ∧
    argDiags hash fi v attr none [] none m .node = some [⟨.useNested, (1, 16), [f]⟩] ∧
    Replaces "(node = \"ws://x\")" f "(node(\"ws://x\"))" ∧
    (parenthesised [.tok .ident "node", parenthesised [.tok .other "\"ws://x\""]]).parse someExprs 0 =
      some [m'] ∧
    argDiags hash fi v attr none [] none m' .node = some [⟨.nestedUnknown, (6, 14), [f']⟩] ∧
    Replaces "(node(\"ws://x\"))" f' "(node(url))" := by
  refine ⟨_, _, _, _, rfl, by cases v <;> rfl,
    ⟨"(", "node = \"ws://x\"", ")", by decide, by decide, by decide⟩, rfl, by cases v <;> rfl,
    ⟨"(node(", "\"ws://x\"", "))", by decide, by decide, by decide⟩⟩

/-- A comment behind the name ends up behind the value, which is then not read: an expression has to be
the whole text (`someExprs` is `none` for `1 /* c */`, as is the parser of the code). The same quickfix
is offered again and again. -/
theorem C110_negation_comment (hash : String → Vector UInt8 32) (fi : String → Option String)
    (attr : Option AttrKind) : ∃ m m' f f',
    (parenthesised [.tok .ident "selector", .tok .whitespace " ", .tok .comment "/* c */"]).parse
      someExprs 0 = some [m] ∧
    argDiags hash fi .v4 attr none [] none m .selector = some [⟨.badValue, (1, 9), [f]⟩] ∧
    Replaces "(selector /* c */)" f "(selector = 1 /* c */)" ∧
    (parenthesised [.tok .ident "selector", .tok .whitespace " ", .tok .eq "=", .tok .whitespace " ",
      .tok .other "1", .tok .whitespace " ", .tok .comment "/* c */"]).parse someExprs 0 = some [m'] ∧
    argDiags hash fi .v4 attr none [] none m' .selector = some [⟨.badValue, (1, 21), [f']⟩] ∧
    Replaces "(selector = 1 /* c */)" f' "(selector = 1)" := by
  refine ⟨_, _, _, _, rfl, (selector_diags hash fi attr [] none _ rfl).trans rfl,
    ⟨"(", "selector", " /* c */)", by decide, by decide, by decide⟩, rfl,
    (selector_diags hash fi attr [] none _ rfl).trans rfl,
    ⟨"(", "selector = 1 /* c */", ")", by decide, by decide, by decide⟩⟩

/-- The value in a snippet is not escaped: for `node = "a}b"` the snippet ends at the brace of the
value. -/
theorem C110_negation_snippet (hash : String → Vector UInt8 32) (fi : String → Option String) (v : Version)
    (attr : Option AttrKind) : ∃ m f t,
    (parenthesised [.tok .ident "node", .tok .eq "=", .tok .other "\"a}b\""]).parse someExprs 0 =
      some [m] ∧
    argDiags hash fi v attr none [] none m .node = some [⟨.useNested, (1, 11), [f]⟩] ∧
    f.text = "node(\"a}b\")" ∧ f.snippet = some t ∧
    expand t.toList = some ("node(\"ab\"})".toList, [1]) := by
  refine ⟨_, _, _, rfl, by cases v <;> rfl, by decide, rfl, by decide⟩

/-! ## The hypotheses can be met -/

/-- An expression parser that reads literals and ignores white space behind them. -/
def trimmedPe : ExprParser := fun t =>
  literalPe (String.ofList (t.toList.reverse.dropWhile Char.isWhitespace).reverse)

theorem trimmedPe_trims : Trims trimmedPe := by
  intro s w hw
  unfold trimmedPe
  rw [String.toList_append, List.reverse_append, List.dropWhile_append_of_pos]
  intro c hc
  exact hw c (List.mem_reverse.1 hc)

theorem trimmedPe_eq (s : String) (l : List Char) (c : Char) (h : s.toList = l ++ [c])
    (hc : c.isWhitespace = false) : trimmedPe s = literalPe s := by
  unfold trimmedPe
  rw [h, List.reverse_append, List.reverse_singleton, List.singleton_append,
    List.dropWhile_cons_of_neg (by simp [hc])]
  simp only [List.reverse_cons, List.reverse_reverse]
  rw [← h, String.ofList_toList]

theorem trimmedPe_reads : Reads trimmedPe (fun s => some s) "ink::env::DefaultEnvironment" where
  int n := by
    obtain ⟨h1, h2, _⟩ := repr_digits n
    rcases List.eq_nil_or_concat n.repr.toList with h | ⟨l, c, h⟩
    · exact absurd h h1
    · rw [List.concat_eq_append] at h
      rw [trimmedPe_eq _ (' ' :: l) c (by rw [String.toList_append, h]; rfl) ?_]
      · exact literalPe_reads.int n
      · have := List.all_eq_true.1 h2 c (by rw [h]; simp)
        cases hw : c.isWhitespace with
        | false => rfl
        | true =>
          exfalso
          simp only [Char.isWhitespace, Bool.or_eq_true, decide_eq_true_eq] at hw
          rcases hw with ((rfl | rfl) | rfl) | rfl <;> revert this <;> decide
  string s h1 h2 := by
    rw [trimmedPe_eq _ (' ' :: '"' :: s.toList) '"' (by simp [String.toList_append]) (by decide)]
    exact literalPe_reads.string s h1 h2
  true := by
    rw [trimmedPe_eq _ " tru".toList 'e' (by decide) (by decide)]
    exact literalPe_reads.true
  path s hs := by
    have := literalPe_reads.path s hs
    simp only [List.mem_cons, List.not_mem_nil, or_false] at hs
    rcases hs with rfl | rfl | rfl
    · rw [trimmedPe_eq _ " ink::env::DefaultEnvironmen".toList 't' (by decide) (by decide)]
      exact this
    · rw [trimmedPe_eq _ " ink::env::DefaultEnvironmen".toList 't' (by decide) (by decide)]
      exact this
    · rw [trimmedPe_eq _ " ink_e2e::MinimalSandbo".toList 'x' (by decide) (by decide)]
      exact this
  ident := rfl

/-- `SiteOk` can be met, together with `Trims`. -/
example (v : Version) (k : ArgKind) : Trims trimmedPe ∧ SiteOk trimmedPe (fun s => some s) v k none :=
  ⟨trimmedPe_trims, trimmedPe_reads, fun _ _ _ h => nomatch h⟩

/-- `, selector = "x" , payable` in an attribute. -/
example : Delimited [.tok .ident "message", .tok .comma ","] [.tok .comma ",", .tok .ident "payable"] :=
  ⟨.inr ⟨[.tok .ident "message"], ",", rfl⟩, .inr ⟨",", [.tok .ident "payable"], rfl⟩,
    ⟨by decide, by decide⟩⟩

/-- `url` in `backend(node(url))`. -/
example : Nested [⟨[], .tok .ident "backend", [], []⟩, ⟨[], .tok .ident "node", [], []⟩] :=
  ⟨⟨_, _, rfl, by decide⟩, _, rfl⟩

example : Draft.Ok ⟨[], .tok .ident "url", [], none⟩ ∧ Draft.Uncommented ⟨[], .tok .ident "url", [], none⟩ :=
  ⟨⟨none_trivia, ⟨_, .inl rfl⟩, none_trivia, (fun _ _ h => nomatch h)⟩, by simp, (fun _ _ h => nomatch h)⟩

/-- An argument that is not a value at all. -/
example : Draft.Ok ⟨[.tok .whitespace " "], .tok .ident "selector", [],
    some ("=", [.tok .other "\"x\"", .tok .whitespace " "])⟩ := by
  refine ⟨by intro e he; rw [List.mem_singleton.1 he]; rfl, ⟨_, .inl rfl⟩, none_trivia, ?_⟩
  rintro e val h
  cases h
  exact ⟨by decide, by decide⟩

/-- `backend = node` is `Fitting`. -/
example : Fitting (fun s => if s = "node" then some (.path, "node") else none)
    ⟨[], .tok .ident "backend", [], some ("=", [.tok .ident "node"])⟩ .backend := by
  rintro opts r h e val hr
  cases hr
  refine .inl ⟨by simp, .tok .ident "node", .path, ⟨_, .inl rfl⟩, .expr _ _ _ ?_ (by decide)⟩
  intro e he t
  rw [List.mem_singleton.1 he]
  exact ⟨(fun h => nomatch h), (fun h => nomatch h)⟩

end Verif.Analyzer.ArgFix
