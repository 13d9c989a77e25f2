import Verif.Ir.Attr
import Verif.Ir.MetaLemmas

/-!
# C18: attribute names parse and print consistently
# C19: the kind of an ink! attribute is its highest priority argument
-/

namespace Verif.Ir

/-! ## C18 -/

/-- The documented ink! argument names (ink! v4 and v5), independent of the model's
tables. -/
def documentedArgs : List String :=
  ["additional_contracts", "anonymous", "backend", "constructor", "Decode", "default",
   "derive", "Encode", "env", "environment", "event", "extension", "function",
   "handle_status", "impl", "keep_attr", "message", "namespace", "node", "payable",
   "runtime_only", "sandbox", "selector", "signature_topic", "storage", "topic", "TypeInfo",
   "url"]

/-- The documented ink! macro paths. -/
def documentedMacros : List (String × String) :=
  [("ink", "chain_extension"), ("ink", "contract"), ("ink", "event"), ("ink", "scale_derive"),
   ("ink", "storage_item"), ("ink", "test"), ("ink", "trait_definition"), ("ink_e2e", "test")]

/-- Every documented argument name parses to a kind that prints back exactly that name. -/
theorem C18_arg_round_trip (s : String) (h : s ∈ documentedArgs) :
    ArgKind.ofName s ≠ .unknown ∧ (ArgKind.ofName s).name = s := by
  have : ∀ s ∈ documentedArgs, ArgKind.ofName s ≠ .unknown ∧ (ArgKind.ofName s).name = s := by
    decide
  exact this s h

/-- Any other text parses to the unknown kind. -/
theorem C18_arg_unknown (s : String) (h : s ∉ documentedArgs) : ArgKind.ofName s = .unknown := by
  unfold ArgKind.ofName
  split <;> first | rfl | exact absurd (by decide) h

/-- Every kind is reached: printing and parsing a kind gives the kind back. -/
theorem C18_arg_print_parse (k : ArgKind) : ArgKind.ofName k.name = k := by
  cases k <;> decide

/-- Different argument kinds print differently. -/
theorem C18_arg_distinct (k k' : ArgKind) (h : k.name = k'.name) : k = k' := by
  rw [← C18_arg_print_parse k, ← C18_arg_print_parse k', h]

/-- Every documented macro path parses to a kind whose crate, name and path print back. -/
theorem C18_macro_round_trip (c n : String) (h : (c, n) ∈ documentedMacros) :
    MacroKind.ofPath c n ≠ .unknown ∧
    (MacroKind.ofPath c n).crateName = c ∧ (MacroKind.ofPath c n).macroName = n ∧
    (MacroKind.ofPath c n).pathAsStr = c ++ "::" ++ n := by
  have : ∀ p ∈ documentedMacros, MacroKind.ofPath p.1 p.2 ≠ .unknown ∧
      (MacroKind.ofPath p.1 p.2).crateName = p.1 ∧ (MacroKind.ofPath p.1 p.2).macroName = p.2 ∧
      (MacroKind.ofPath p.1 p.2).pathAsStr = p.1 ++ "::" ++ p.2 := by decide
  exact this (c, n) h

/-- Any other path parses to the unknown macro kind. -/
theorem C18_macro_unknown (c n : String) (h : (c, n) ∉ documentedMacros) :
    MacroKind.ofPath c n = .unknown := by
  unfold MacroKind.ofPath
  split
  · split <;> first | rfl | exact absurd (by decide) h
  · split <;> first | rfl | exact absurd (by decide) h
  · rfl

/-- Different macro kinds print differently, as full paths and in messages. -/
theorem C18_macro_distinct (k k' : MacroKind) :
    (k.pathAsStr = k'.pathAsStr → k = k') ∧ (k.display = k'.display → k = k') := by
  cases k <;> cases k' <;> decide

/-! ## C19 -/

/-- Priority classes of argument kinds, as documented: entity arguments first, then every
other known argument, then unknown arguments. -/
def priority (k : ArgKind) : Nat :=
  if k ∈ [.constructor, .event, .extension, .function, .impl, .message, .storage, .topic] then 0
  else if k = .unknown then 2 else 1

theorem priority_le (k k' : ArgKind) : k.sortOrder ≤ k'.sortOrder ↔ priority k ≤ priority k' := by
  cases k <;> cases k' <;> decide

theorem priority_lt (k k' : ArgKind) : k.sortOrder < k'.sortOrder ↔ priority k < priority k' := by
  rw [← Nat.not_le, ← Nat.not_le, priority_le]

/-- Which attributes are ink! attributes: those whose path starts with `ink` or `ink_e2e`. -/
theorem C19_is_ink (pe : ExprParser) (a : AttrSyntax) (r : Option InkAttr)
    (h : castAttr pe a = some r) :
    r.isSome ↔ ∃ rest, a.segments = "ink" :: rest ∨ a.segments = "ink_e2e" :: rest := by
  unfold castAttr at h
  have hc : a.canCast = true ↔
      ∃ rest, a.segments = "ink" :: rest ∨ a.segments = "ink_e2e" :: rest := by
    unfold AttrSyntax.canCast
    cases a.segments with
    | nil => simp
    | cons s rest =>
      simp only [Bool.or_eq_true, beq_iff_eq, List.cons.injEq]
      constructor
      · rintro (h | h)
        · exact ⟨rest, .inl ⟨h, rfl⟩⟩
        · exact ⟨rest, .inr ⟨h, rfl⟩⟩
      · rintro ⟨_, h | h⟩
        · exact .inl h.1
        · exact .inr h.1
  rw [← hc]
  split at h
  · rename_i hcc
    simp only [Option.map_eq_some_iff] at h
    obtain ⟨args, _, rfl⟩ := h
    simp [hcc]
  · rename_i hcc
    simp at h
    subst h
    simp [hcc]

/-- An attribute `#[ink(...)]` with at least one argument takes the kind of an argument of
best priority class, the first such in source order. -/
theorem C19_primary (pe : ExprParser) (a : AttrSyntax) (attr : InkAttr)
    (h : castAttr pe a = some (some attr)) (hseg : a.segments.length = 1)
    (hargs : attr.args ≠ []) :
    ∃ before primary after, attr.args = before ++ primary :: after ∧
      attr.kind = .arg primary.kind ∧ attr.primary = some primary ∧
      (∀ x ∈ before, priority primary.kind < priority x.kind) ∧
      (∀ x ∈ after, priority primary.kind ≤ priority x.kind) := by
  unfold castAttr at h
  split at h
  · simp only [Option.map_eq_some_iff] at h
    obtain ⟨args, _, h⟩ := h
    obtain ⟨s, hs⟩ := List.length_eq_one_iff.1 hseg
    rw [hs] at h
    simp only [Option.some.injEq] at h
    subst h
    simp only at hargs
    simp only [castKind]
    cases hh : (Util.sortBy (fun a : Arg => a.kind.sortOrder) args).head? with
    | none =>
      have h1 := List.head?_eq_none_iff.1 hh
      have h2 := Util.sortBy_length (fun a : Arg => a.kind.sortOrder) args
      rw [h1] at h2
      exact absurd (List.length_eq_zero_iff.1 h2.symm) hargs
    | some p =>
      obtain ⟨b, c, h1, h2, h3⟩ := Util.sortBy_head _ _ _ hh
      exact ⟨b, p, c, h1, rfl, rfl, fun x hx => (priority_lt _ _).1 (h2 x hx),
        fun x hx => (priority_le _ _).1 (h3 x hx)⟩
  · simp at h

/-- Path attributes take the macro kind of their path; longer paths are unknown macros. -/
theorem C19_path (pe : ExprParser) (a : AttrSyntax) (attr : InkAttr)
    (h : castAttr pe a = some (some attr)) :
    (∀ c n, a.segments = [c, n] → attr.kind = .macro (MacroKind.ofPath c n)) ∧
    (3 ≤ a.segments.length → attr.kind = .macro .unknown) := by
  unfold castAttr at h
  split at h
  · simp only [Option.map_eq_some_iff] at h
    obtain ⟨args, _, h⟩ := h
    refine ⟨?_, ?_⟩
    · intro c n hs
      rw [hs] at h
      simp only [castKind, Option.some.injEq] at h
      rw [← h]
    · intro hlen
      match hseg : a.segments, hlen with
      | _ :: _ :: _ :: _, _ =>
        rw [hseg] at h
        simp only [castKind, Option.some.injEq] at h
        rw [← h]
  · simp at h

/-- Attributes without arguments: `#[ink()]` is an unknown argument, `#[ink]` an unknown
macro. -/
theorem C19_empty (pe : ExprParser) (a : AttrSyntax) (attr : InkAttr)
    (h : castAttr pe a = some (some attr)) (hseg : a.segments.length = 1)
    (hargs : attr.args = []) :
    attr.kind = if a.tree.isSome then .arg .unknown else .macro .unknown := by
  unfold castAttr at h
  split at h
  · simp only [Option.map_eq_some_iff] at h
    obtain ⟨args, _, h⟩ := h
    obtain ⟨s, hs⟩ := List.length_eq_one_iff.1 hseg
    rw [hs] at h
    simp only [Option.some.injEq] at h
    subst h
    simp only at hargs
    subst hargs
    simp [castKind, Util.sortBy]
  · simp at h

/-- Reordering the arguments of an attribute with exactly one entity argument never changes
its kind: it is that entity argument, wherever it stands. -/
theorem C19_reorder (s : String) (b b' : Bool) (args args' : List Arg) (e : Arg)
    (hperm : args.Perm args') (he : e ∈ args) (hent : priority e.kind = 0)
    (hone : ∀ x ∈ args, priority x.kind = 0 → x.kind = e.kind) :
    (castKind [s] b args).1 = .arg e.kind ∧ (castKind [s] b' args').1 = .arg e.kind := by
  have key : ∀ (b : Bool) (l : List Arg), e ∈ l →
      (∀ x ∈ l, priority x.kind = 0 → x.kind = e.kind) →
      (castKind [s] b l).1 = .arg e.kind := by
    intro b l hm ho
    unfold castKind
    simp only
    cases hh : (Util.sortBy (fun a : Arg => a.kind.sortOrder) l).head? with
    | none =>
      have h1 := List.head?_eq_none_iff.1 hh
      have h2 := Util.sortBy_length (fun a : Arg => a.kind.sortOrder) l
      rw [h1] at h2
      have := List.length_eq_zero_iff.1 h2.symm
      rw [this] at hm
      simp at hm
    | some p =>
      obtain ⟨x, y, h1, h2, h3⟩ := Util.sortBy_head _ _ _ hh
      have hpl : p ∈ l := by rw [h1]; simp
      have hle : priority p.kind ≤ priority e.kind := by
        rw [h1] at hm
        rcases List.mem_append.1 hm with hm | hm
        · exact Nat.le_of_lt ((priority_lt _ _).1 (h2 e hm))
        · rcases List.mem_cons.1 hm with hm | hm
          · subst hm; exact Nat.le_refl _
          · exact (priority_le _ _).1 (h3 e hm)
      show AttrKind.arg p.kind = _
      rw [ho p hpl (by omega)]
  exact ⟨key b args he hone, key b' args' (hperm.mem_iff.1 he)
    (fun x hx => hone x (hperm.mem_iff.2 hx))⟩

/-- The arguments of the attribute are the parsed ones, in source order, each with the kind
its name denotes (names that are not a single identifier or `impl` are unknown). -/
theorem C19_args (pe : ExprParser) (a : AttrSyntax) (attr : InkAttr) (t : Elem) (o : Nat)
    (h : castAttr pe a = some (some attr)) (ht : a.tree = some (t, o)) :
    ∃ items, t.parse pe o = some items ∧ attr.args.map Arg.item = items ∧
      ∀ x ∈ attr.args, (∀ p, x.item.name = .ok p → x.kind = ArgKind.ofName p.elem.text) ∧
        ((∀ p, x.item.name ≠ .ok p) → x.kind = .unknown) := by
  unfold castAttr at h
  split at h
  · simp only [Option.map_eq_some_iff, parseInkArgs, ht] at h
    obtain ⟨args, ⟨items, hi, hargs⟩, h⟩ := h
    refine ⟨items, hi, ?_, ?_⟩
    · simp only [Option.some.injEq] at h
      rw [← h, ← hargs]
      simp only [List.map_map]
      have : (Arg.item ∘ Arg.ofMeta) = id := by funext m; rfl
      rw [this, List.map_id]
    · simp only [Option.some.injEq] at h
      rw [← h, ← hargs]
      simp only [List.mem_map]
      rintro x ⟨m, _, rfl⟩
      refine ⟨?_, ?_⟩
      · intro p hp
        have hp : m.name = .ok p := hp
        simp [Arg.ofMeta, hp]
      · intro hp
        have hp : ∀ p, m.name ≠ .ok p := hp
        unfold Arg.ofMeta
        split
        · rename_i p hpn; exact absurd hpn (hp p)
        · rfl
  · simp at h

/-! Non-vacuity: `#[ink(selector = 1, payable, message)]` is a message attribute. -/

example : ∃ attr, castAttr (fun s => some (.intNumber, s))
    ⟨["ink"], some (.tree [.tok .lParen "(", .tok .ident "selector", .tok .eq "=",
      .tok .intNumber "1", .tok .comma ",", .tok .ident "payable", .tok .comma ",",
      .tok .ident "message", .tok .rParen ")"], 5)⟩ = some (some attr) ∧
    attr.kind = .arg .message ∧ attr.args.map Arg.kind = [.selector, .payable, .message] :=
  ⟨_, rfl, rfl, rfl⟩

example : priority ArgKind.message = 0 ∧ priority ArgKind.selector = 1 ∧
    priority ArgKind.unknown = 2 := by decide

end Verif.Ir
