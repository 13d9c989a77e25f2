import Verif.Migrate.TestFn
import Verif.Migrate.ImportsProps

/-!
# C93: migrated e2e tests have the attribute, the signature and the imports of ink! 5

The attribute keeps its environment and loses the other arguments, the signature becomes that of ink! 5,
and an import of each required trait stands where items may stand.
-/

namespace Verif.Migrate.TestFn

open Verif.Ir.Token (bytes bytes_append)
open Verif.Analyzer (Edit)
open Verif.Analyzer.Members (applyAll InOrder apply_at)
open Verif.Migrate.Imports (commaText delete applyAll_append apply_delete)

/-! ## Specification -/

/-- Arguments are separated by commas; one may follow the last. -/
def Separated : List Arg → Prop
  | [] => True
  | [_] => True
  | a :: b :: as => a.comma = true ∧ Separated (b :: as)

/-- White space only. -/
def Blank (t : List Char) : Prop := ∀ c ∈ t, c.isWhitespace = true

/-- The text around arguments is white space. -/
def Spaced (args : List Arg) : Prop := ∀ a ∈ args, Blank a.lead ∧ Blank a.trail

/-- No kind of argument is given twice. -/
def Once (args : List Arg) : Prop := (args.map Arg.kind).Nodup

/-- The arguments that ink! 5 has no more. -/
def gone (a : Arg) : Bool := a.kind != .environment

/-- The last two arguments both go, without a comma behind the last one. -/
def BothLast (args : List Arg) : Prop :=
  ∃ front x y, args = front ++ [x, y] ∧ gone x = true ∧ gone y = true ∧ y.comma = false

/-- The element may not stand behind an item. -/
def Elem.inner (e : Elem) : Bool := e.kind == .doc || e.kind == .innerAttr

/-- An item may stand at the offset: nothing that has to come before items comes after it. -/
def ItemPlace (off : Nat) (es : List Elem) (at_ : Nat) : Prop :=
  ∃ es1 es2, es = es1 ++ es2 ∧ at_ = off + bytes (renderElems es1) ∧ ∀ e ∈ es2, e.inner = false

/-- Inner attributes and doc comments come before items, as in Rust. -/
def InnerFirst (es : List Elem) : Prop :=
  ∃ es1 es2, es = es1 ++ es2 ∧ (∀ e ∈ es1, e.inner = true ∨ e.kind = .space) ∧
    ∀ e ∈ es2, e.inner = false

/-! ## Lemmas -/

theorem renderArgs_append (a b : List Arg) : renderArgs (a ++ b) = renderArgs a ++ renderArgs b := by
  induction a with
  | nil => rfl
  | cons x a ih => simp [renderArgs, ih]

/-- The removals of all arguments that go, in the order of the text. -/
def removals (prev : Option Nat) (off : Nat) : List Arg → List Edit
  | [] => []
  | a :: as =>
    (if gone a then [delete (ownRange prev off a)] else []) ++
      removals (if a.comma then some (off + bytes a.render - 1) else none) (off + bytes a.render) as

theorem removeFirst_none {k : ArgKind} {prev : Option Nat} {off : Nat} {as : List Arg}
    (h : ∀ a ∈ as, a.kind ≠ k) : removeFirst k prev off as = [] := by
  induction as generalizing prev off with
  | nil => rfl
  | cons a as ih =>
    rw [removeFirst, if_neg (h a (by simp)), ih fun x hx => h x (List.mem_cons_of_mem _ hx)]

theorem removeFirst_perm (prev : Option Nat) (off : Nat) (as : List Arg) (h : Once as) :
    (removeFirst .additional prev off as ++ removeFirst .keep prev off as).Perm
      (removals prev off as) := by
  induction as generalizing prev off with
  | nil => exact List.Perm.refl _
  | cons a as ih =>
    unfold Once at h
    rw [List.map_cons, List.nodup_cons] at h
    have ih := ih (if a.comma then some (off + bytes a.render - 1) else none) (off + bytes a.render) h.2
    have hno : ∀ x ∈ as, x.kind ≠ a.kind := fun x hx he => h.1 (List.mem_map.2 ⟨x, hx, he⟩)
    rw [removeFirst, removeFirst, removals]
    cases hk : a.kind with
    | environment => simpa [hk, gone] using ih
    | additional =>
      rw [removeFirst_none (k := .additional) (fun x hx => hk ▸ hno x hx)] at ih
      simpa [hk, gone] using ih
    | keep =>
      rw [removeFirst_none (k := .keep) (fun x hx => hk ▸ hno x hx), List.append_nil] at ih
      simp only [hk, gone, reduceCtorEq, if_false, if_true]
      refine (List.perm_append_comm).trans ?_
      simpa using ih

/-- What is left of arguments that are all followed by a comma if they go. -/
def leftover : List Arg → List Char
  | [] => []
  | a :: as => (if gone a then a.lead else a.render) ++ leftover as

theorem removals_text (P S : List Char) (prev : Option Nat) (as : List Arg)
    (h : ∀ a ∈ as, gone a = true → a.comma = true) :
    applyAll (P ++ renderArgs as ++ S) (removals prev (bytes P) as) =
      some (P ++ leftover as ++ S) := by
  induction as generalizing P prev with
  | nil => simp [removals, applyAll, renderArgs, leftover]
  | cons a as ih =>
    have ih := ih (P ++ a.render) (if a.comma then some (bytes P + bytes a.render - 1) else none)
      fun x hx => h x (List.mem_cons_of_mem _ hx)
    rw [bytes_append] at ih
    rw [removals, applyAll_append]
    have hr : P ++ renderArgs (a :: as) ++ S = P ++ a.render ++ renderArgs as ++ S := by
      simp [renderArgs]
    rw [hr, ih, Option.bind_some]
    cases hg : gone a with
    | false => simp [applyAll, leftover, hg]
    | true =>
      have hc := h a (by simp) hg
      simp only [if_true]
      have := apply_delete P a.lead (a.core ++ a.trail ++ chars! ",") [] (leftover as ++ S)
        (ownRange prev (bytes P) a) (by simp [ownRange, hc]) (by
          have : bytes (chars! ",") = 1 := by decide
          simp only [ownRange, hc, if_true, bytes_append, this]
          omega)
      simp only [List.append_nil] at this
      have he : P ++ a.render ++ leftover as ++ S =
          P ++ (a.lead ++ (a.core ++ a.trail ++ chars! ",")) ++ (leftover as ++ S) := by
        simp [Arg.render, hc, commaText]
      rw [he, this]
      simp [leftover, hg]

theorem removals_order (prev : Option Nat) (off : Nat) (as : List Arg)
    (h : ∀ a ∈ as, gone a = true → a.comma = true) :
    InOrder (removals prev off as) ∧ ∀ e ∈ removals prev off as, off ≤ e.start ∧ e.start ≤ e.stop := by
  induction as generalizing prev off with
  | nil => exact ⟨List.Pairwise.nil, by simp [removals]⟩
  | cons a as ih =>
    obtain ⟨h1, h2⟩ := ih (if a.comma then some (off + bytes a.render - 1) else none)
      (off + bytes a.render) fun x hx => h x (List.mem_cons_of_mem _ hx)
    rw [removals]
    cases hg : gone a with
    | false =>
      simp only [Bool.false_eq_true, if_false, List.nil_append]
      exact ⟨h1, fun e he => ⟨by have := (h2 e he).1; omega, (h2 e he).2⟩⟩
    | true =>
      have hc := h a (by simp) hg
      have hone : bytes (chars! ",") = 1 := by decide
      have hlen : bytes a.render = bytes a.lead + bytes a.core + bytes a.trail + 1 := by
        simp only [Arg.render, commaText, hc, if_true, bytes_append, hone]
      simp only [if_true, List.singleton_append]
      refine ⟨List.Pairwise.cons (fun e he => ?_) h1, fun e he => ?_⟩
      · have := (h2 e he).1
        simp only [delete, ownRange, hc, if_true]
        omega
      · rcases List.mem_cons.1 he with rfl | he
        · simp only [delete, ownRange, hc, if_true]
          omega
        · exact ⟨by have := (h2 e he).1; omega, (h2 e he).2⟩

/-- What is left is a list of the arguments that stay. -/
theorem leftover_args (as : List Arg) (pend close : List Char) (hs : Separated as) (hb : Spaced as)
    (hp : Blank pend) (hc : Blank close) :
    ∃ as' close', pend ++ leftover as ++ close = renderArgs as' ++ close' ∧
      as'.map (fun a => (a.kind, a.core)) = (as.filter fun a => !gone a).map (fun a => (a.kind, a.core)) ∧
      Separated as' ∧ Spaced as' ∧ Blank close' := by
  induction as generalizing pend with
  | nil =>
    refine ⟨[], pend ++ close, by simp [leftover, renderArgs], rfl, trivial, ?_, ?_⟩
    · intro a ha
      simp at ha
    · intro c h
      rcases List.mem_append.1 h with h | h
      · exact hp c h
      · exact hc c h
  | cons a as ih =>
    have hs' : Separated as := by
      cases as with
      | nil => trivial
      | cons b as => exact hs.2
    have hb' : Spaced as := fun x hx => hb x (List.mem_cons_of_mem _ hx)
    have hab := hb a (by simp)
    have hpa : Blank (pend ++ a.lead) := by
      intro c h
      rcases List.mem_append.1 h with h | h
      · exact hp c h
      · exact hab.1 c h
    cases hg : gone a with
    | true =>
      obtain ⟨as', close', h1, h2, h3, h4, h5⟩ := ih (pend ++ a.lead) hs' hb' hpa
      refine ⟨as', close', ?_, ?_, h3, h4, h5⟩
      · simpa [leftover, hg] using h1
      · simpa [hg] using h2
    | false =>
      obtain ⟨as', close', h1, h2, h3, h4, h5⟩ := ih [] hs' hb' (by intro c h; simp at h)
      refine ⟨{ a with lead := pend ++ a.lead } :: as', close', ?_, ?_, ?_, ?_, h5⟩
      · simp only [List.nil_append] at h1
        simp only [leftover, hg, Bool.false_eq_true, if_false, renderArgs, List.append_assoc, ← h1]
        simp [Arg.render]
      · simp [hg, h2]
      · cases as' with
        | nil => trivial
        | cons b bs =>
          refine ⟨?_, h3⟩
          cases as with
          | nil => simp at h2
          | cons c cs => exact hs.1
      · intro x hx
        rcases List.mem_cons.1 hx with rfl | hx
        · exact ⟨hpa, hab.2⟩
        · exact h4 x hx

theorem separated_front {front : List Arg} {x y : Arg} (h : Separated (front ++ [x, y])) :
    Separated (front ++ [{ x with comma := false }]) ∧ x.comma = true ∧ ∀ a ∈ front, a.comma = true := by
  induction front with
  | nil => exact ⟨trivial, h.1, by simp⟩
  | cons a front ih =>
    cases front with
    | nil => exact ⟨⟨h.1, trivial⟩, h.2.1, by simpa using h.1⟩
    | cons b front =>
      obtain ⟨h1, h2, h3⟩ := ih h.2
      refine ⟨⟨h.1, h1⟩, h2, fun c hc => ?_⟩
      rcases List.mem_cons.1 hc with rfl | hc
      · exact h.1
      · exact h3 c hc

theorem separated_commas {as : List Arg} {y : Arg} (h : Separated (as ++ [y])) :
    ∀ a ∈ as, a.comma = true := by
  induction as with
  | nil => simp
  | cons a as ih =>
    intro c hc
    have h' : a.comma = true ∧ Separated (as ++ [y]) := by
      cases as with
      | nil => exact h
      | cons b as => exact h
    rcases List.mem_cons.1 hc with rfl | hc
    · exact h'.1
    · exact ih h'.2 c hc

theorem removals_last (prev : Option Nat) (off : Nat) (front : List Arg) (x y : Arg)
    (hx : gone x = false) (hc : x.comma = true) (hy : gone y = true) (hn : y.comma = false) :
    removals prev off (front ++ [x, y]) = removals prev off (front ++ [{ x with comma := false }]) ++
      [delete (off + bytes (renderArgs front) + bytes x.render - 1,
        off + bytes (renderArgs front) + bytes x.render + bytes y.lead + bytes y.core)] := by
  have hx' : gone { x with comma := false } = false := hx
  induction front generalizing prev off with
  | nil =>
    simp [removals, hx, hx', hy, hc, hn, ownRange, renderArgs, bytes]
  | cons a front ih =>
    rw [List.cons_append, List.cons_append, removals, removals, ih, renderArgs, bytes_append,
      List.append_assoc]
    simp only [Nat.add_assoc]

theorem removals_bound (prev : Option Nat) (off : Nat) (as : List Arg)
    (h : ∀ a ∈ as, gone a = true → a.comma = true) :
    ∀ e ∈ removals prev off as, e.stop ≤ off + bytes (renderArgs as) := by
  induction as generalizing prev off with
  | nil => simp [removals]
  | cons a as ih =>
    have hi := ih (if a.comma then some (off + bytes a.render - 1) else none)
      (off + bytes a.render) fun x hx => h x (List.mem_cons_of_mem _ hx)
    intro e he
    rw [removals] at he
    rw [renderArgs, bytes_append]
    rcases List.mem_append.1 he with he | he
    · cases hg : gone a with
      | false => simp [hg] at he
      | true =>
        simp only [hg, if_true, List.mem_singleton] at he
        subst he
        have h1 : bytes (chars! ",") = 1 := by decide
        simp only [ownRange, h a (by simp) hg, if_true, delete, Arg.render, commaText, bytes_append, h1]
        omega
    · have := hi e he
      omega

theorem renderElems_append (a b : List Elem) : renderElems (a ++ b) = renderElems a ++ renderElems b := by
  induction a with
  | nil => rfl
  | cons x a ih => simp [renderElems, ih]

theorem endOfLast_some {k : ElemKind} {off n : Nat} {es : List Elem} (h : endOfLast k off es = some n) :
    ∃ es1 e es2, es = es1 ++ e :: es2 ∧ e.kind = k ∧ (∀ x ∈ es2, x.kind ≠ k) ∧
      n = off + bytes (renderElems (es1 ++ [e])) := by
  induction es generalizing off n with
  | nil => simp [endOfLast] at h
  | cons e es ih =>
    rw [endOfLast, Option.or_eq_some_iff] at h
    rcases h with h | ⟨h0, h⟩
    · obtain ⟨es1, e', es2, rfl, h2, h3, h4⟩ := ih h
      refine ⟨e :: es1, e', es2, rfl, h2, h3, ?_⟩
      rw [h4, List.cons_append, renderElems, bytes_append]
      omega
    · split at h
      · rename_i hk
        refine ⟨[], e, es, rfl, hk, ?_, ?_⟩
        · clear ih h hk
          induction es generalizing off e with
          | nil => simp
          | cons x es ih2 =>
            rw [endOfLast, Option.or_eq_none_iff] at h0
            intro y hy
            rcases List.mem_cons.1 hy with rfl | hy
            · intro hk
              simp [hk] at h0
            · exact ih2 (off := off + bytes e.text) (e := x) h0.1 y hy
        · simp only [List.nil_append, renderElems, List.append_nil]
          exact (Option.some.inj h).symm
      · simp at h

theorem endOfLast_none {k : ElemKind} {off : Nat} {es : List Elem} (h : endOfLast k off es = none) :
    ∀ x ∈ es, x.kind ≠ k := by
  induction es generalizing off with
  | nil => simp
  | cons e es ih =>
    rw [endOfLast, Option.or_eq_none_iff] at h
    intro y hy
    rcases List.mem_cons.1 hy with rfl | hy
    · intro hk
      simp [hk] at h
    · exact ih h.1 y hy

theorem nodup_eraseDups (n : Nat) (l : List Verif.Migrate.E2ETrait) (h : l.length ≤ n) :
    l.eraseDups.Nodup := by
  induction n generalizing l with
  | zero =>
    have : l = [] := List.length_eq_zero_iff.1 (by omega)
    subst this
    simp
  | succ n ih =>
    cases l with
    | nil => simp
    | cons a l =>
      rw [List.eraseDups_cons, List.nodup_cons]
      refine ⟨?_, ih _ ?_⟩
      · rw [List.mem_eraseDups]
        simp
      · have := List.length_filter_le (fun b => !b == a) l
        simp only [List.length_cons] at h
        omega

theorem not_itemPlace (off n : Nat) (es1 es2 : List Elem) (a : Elem) (ha : a.inner = true)
    (hpos : 0 < bytes a.text) (hn : n ≤ off + bytes (renderElems es1)) :
    ¬ ItemPlace off (es1 ++ a :: es2) n := by
  rintro ⟨f1, f2, hf, hoff, hout⟩
  have key : bytes (renderElems es1) + bytes a.text ≤ bytes (renderElems f1) := by
    rcases List.append_eq_append_iff.1 hf with ⟨as, hf1, hf2⟩ | ⟨bs, hes, hf2⟩
    · cases as with
      | nil =>
        simp only [List.nil_append] at hf2
        have := hout a (by rw [← hf2]; simp)
        rw [ha] at this
        cases this
      | cons x as =>
        simp only [List.cons_append, List.cons.injEq] at hf2
        rw [hf1, renderElems_append, bytes_append, renderElems, bytes_append, hf2.1]
        omega
    · have := hout a (by rw [hf2]; simp)
      rw [ha] at this
      cases this
  omega

/-! ## Theorems -/

/-- The edits of the attribute do not overlap, and leave its environment (if any) and nothing else: no
argument list if it had arguments but no environment. Missing: attributes whose last two arguments both
go, where the edits overlap (`C93_negation_overlap`). -/
theorem C93_attribute_partial (P S : List Char) (args : List Arg) (close : List Char) (ho : Once args)
    (hs : Separated args) (hb : Spaced args) (hc : Blank close)
    (hlast : BothLast args → ∀ a ∈ args, gone a = true) :
    ∃ es new, es.Perm (attrEdits (bytes P) args close) ∧ InOrder es ∧
      applyAll (P ++ tree args close ++ S) es = some (P ++ new ++ S) ∧
      if args ≠ [] ∧ ∀ a ∈ args, a.kind ≠ .environment then new = []
      else ∃ as' close', new = tree as' close' ∧ as'.map (fun a => (a.kind, a.core)) =
          (args.filter fun a => a.kind == .environment).map (fun a => (a.kind, a.core)) ∧
        Separated as' ∧ Spaced as' ∧ Blank close' := by
  have hgone : (fun a : Arg => !gone a) = fun a => a.kind == .environment := by
    funext a
    cases h : a.kind <;> simp only [gone, h] <;> rfl
  by_cases hall : args ≠ [] ∧ ∀ a ∈ args, a.kind ≠ .environment
  · refine ⟨attrEdits (bytes P) args close, [], List.Perm.refl _, ?_⟩
    rw [if_pos hall]
    have he : attrEdits (bytes P) args close = [delete (bytes P, bytes P + bytes (tree args close))] := by
      unfold attrEdits
      have h1 : args.any (fun a => a.kind == .environment) = false := by
        simpa using hall.2
      rw [h1]
      cases h2 : args.any (fun a => a.kind == .additional) with
      | true => rfl
      | false =>
        simp only [Bool.not_false, Bool.and_false, Bool.false_eq_true, if_false]
        have h3 : ∀ a ∈ args, a.kind = .keep := by
          intro a ha
          have h4 := hall.2 a ha
          have h5 : a.kind ≠ .additional := by
            simp only [List.any_eq_false, beq_iff_eq] at h2
            exact h2 a ha
          cases hk : a.kind with
          | environment => exact absurd hk h4
          | additional => exact absurd hk h5
          | keep => rfl
        have hlen : args.length = 1 := by
          match args, hall.1, ho, h3 with
          | [a], _, _, _ => rfl
          | a :: b :: as, _, ho, h3 =>
            unfold Once at ho
            rw [List.map_cons, List.nodup_cons] at ho
            exact absurd (by simp [h3 a (by simp), h3 b (by simp)]) ho.1
        have hkeep : args.any (fun a => a.kind == .keep) = true := by
          obtain ⟨a, ha⟩ := List.exists_mem_of_ne_nil _ hall.1
          rw [List.any_eq_true]
          exact ⟨a, ha, by simp [h3 a ha]⟩
        unfold removeArg
        rw [if_neg (by simp [h2]), if_pos ⟨hlen, hkeep⟩,
          removeFirst_none (fun a ha => by rw [h3 a ha]; decide)]
        rfl
    rw [he]
    refine ⟨List.pairwise_singleton _ _, ?_, rfl⟩
    have := apply_delete P [] (tree args close) [] S (bytes P, bytes P + bytes (tree args close))
      (by simp [bytes]) (by simp [bytes])
    simpa using this
  · simp only [if_neg hall]
    have hedits : (attrEdits (bytes P) args close).Perm (removals none (bytes P + 1) args) := by
      have hra : ∀ k, k ≠ .environment →
          removeArg k (bytes P) args close = removeFirst k none (bytes P + 1) args := by
        intro k hk
        unfold removeArg
        rw [if_neg]
        rintro ⟨hlen, hany⟩
        refine hall ⟨by rintro rfl; simp at hlen, ?_⟩
        match args, hlen with
        | [a], _ =>
          intro b hb'
          simp only [List.mem_singleton] at hb'
          subst hb'
          simp only [List.any_cons, List.any_nil, Bool.or_false, beq_iff_eq] at hany
          rw [hany]
          exact hk
      unfold attrEdits
      rw [if_neg]
      · rw [hra _ (by decide), hra _ (by decide)]
        exact removeFirst_perm none (bytes P + 1) args ho
      · intro hcond
        simp only [Bool.and_eq_true, Bool.not_eq_true', List.any_eq_false, beq_iff_eq,
          List.any_eq_true] at hcond
        obtain ⟨h1, a, ha, _⟩ := hcond
        exact hall ⟨List.ne_nil_of_mem ha, h1⟩
    have hP : bytes (P ++ chars! "(") = bytes P + 1 := by
      rw [bytes_append]
      rfl
    have htree : ∀ (as : List Arg) (cl : List Char), P ++ tree as cl ++ S =
        (P ++ chars! "(") ++ renderArgs as ++ (cl ++ chars! ")" ++ S) := by
      intro as cl
      simp [tree]
    by_cases hcomma : ∀ a ∈ args, gone a = true → a.comma = true
    · obtain ⟨as', close', h1, h2, h3, h4, h5⟩ := leftover_args args [] close hs hb
        (by intro c h; simp at h) hc
      refine ⟨removals none (bytes P + 1) args, tree as' close', hedits.symm,
        (removals_order _ _ _ hcomma).1, ?_, as', close', rfl, ?_, h3, h4, h5⟩
      · rw [htree, htree]
        have := removals_text (P ++ chars! "(") (close ++ chars! ")" ++ S) none args hcomma
        rw [hP] at this
        rw [this]
        simp only [List.nil_append] at h1
        have h1' : leftover args ++ (close ++ (chars! ")" ++ S)) =
            renderArgs as' ++ (close' ++ (chars! ")" ++ S)) := by
          rw [← List.append_assoc, h1, List.append_assoc]
        simp only [List.append_assoc, h1']
      · rw [h2, hgone]
    · -- the last argument goes, and no comma follows
      rcases List.eq_nil_or_concat args with rfl | ⟨init, y, rfl⟩
      · exact absurd (by simp) hcomma
      rw [List.concat_eq_append] at *
      have hinit := separated_commas hs
      have hy : gone y = true ∧ y.comma = false := by
        refine Classical.byContradiction fun hno => hcomma fun a ha hg => ?_
        rcases List.mem_append.1 ha with ha | ha
        · exact hinit a ha
        · simp only [List.mem_singleton] at ha
          subst ha
          cases hcm : a.comma with
          | true => rfl
          | false => exact absurd ⟨hg, hcm⟩ hno
      have hneall : ¬ ∀ a ∈ init ++ [y], gone a = true := by
        intro h
        refine hall ⟨by simp, fun a ha => ?_⟩
        simpa [gone] using h a ha
      rcases List.eq_nil_or_concat init with rfl | ⟨front, x, rfl⟩
      · exact absurd (by simpa using hy.1) hneall
      rw [List.concat_eq_append, List.append_assoc, List.singleton_append] at *
      have hx : gone x = false := by
        cases hgx : gone x with
        | false => rfl
        | true => exact absurd (hlast ⟨front, x, y, rfl, hgx, hy.1, hy.2⟩) hneall
      obtain ⟨hsep, hxc, hfc⟩ := separated_front hs
      have hx0 : gone { x with comma := false } = false := hx
      have hcomma' : ∀ a ∈ front ++ [{ x with comma := false }], gone a = true → a.comma = true := by
        intro a ha hg
        rcases List.mem_append.1 ha with ha | ha
        · exact hfc a ha
        · simp only [List.mem_singleton] at ha
          subst ha
          rw [hx0] at hg
          cases hg
      have hbx : Spaced (front ++ [{ x with comma := false }]) := by
        intro a ha
        rcases List.mem_append.1 ha with ha | ha
        · exact hb a (by simp [ha])
        · simp only [List.mem_singleton] at ha
          subst ha
          exact hb x (by simp)
      have hyb := (hb y (by simp)).2
      obtain ⟨as', close', h1, h2, h3, h4, h5⟩ := leftover_args (front ++ [{ x with comma := false }]) []
        (y.trail ++ close) hsep hbx (by intro c h; simp at h) (by
          intro c h
          rcases List.mem_append.1 h with h | h
          · exact hyb c h
          · exact hc c h)
      refine ⟨removals none (bytes P + 1) (front ++ [x, y]), tree as' close', hedits.symm, ?_, ?_, as',
        close', rfl, ?_, h3, h4, h5⟩
      · rw [removals_last _ _ _ _ _ hx hxc hy.1 hy.2]
        refine List.pairwise_append.2 ⟨(removals_order _ _ _ hcomma').1, List.pairwise_singleton _ _, ?_⟩
        intro e he e' he'
        simp only [List.mem_singleton] at he'
        subst he'
        have hle := removals_bound _ _ _ hcomma' e he
        have h1 : bytes (chars! ",") = 1 := by decide
        have h0 : bytes ([] : List Char) = 0 := rfl
        simp only [renderArgs_append, renderArgs, Arg.render, commaText, hxc, bytes_append, h1, h0, if_true,
          Bool.false_eq_true, if_false, delete] at hle ⊢
        omega
      · have hedit := apply_delete (P ++ chars! "(" ++ renderArgs front) (x.lead ++ x.core ++ x.trail)
          (chars! "," ++ y.lead ++ y.core) [] (y.trail ++ close ++ chars! ")" ++ S)
          (bytes P + 1 + bytes (renderArgs front) + bytes x.render - 1,
            bytes P + 1 + bytes (renderArgs front) + bytes x.render + bytes y.lead + bytes y.core)
          (by
            have h1 : bytes (chars! ",") = 1 := by decide
            have h2 : bytes (chars! "(") = 1 := by decide
            simp only [Arg.render, commaText, hxc, bytes_append, h1, h2, if_true]
            omega)
          (by
            have h1 : bytes (chars! ",") = 1 := by decide
            have h2 : bytes (chars! "(") = 1 := by decide
            simp only [Arg.render, commaText, hxc, bytes_append, h1, h2, if_true]
            omega)
        have htext := removals_text (P ++ chars! "(") (y.trail ++ close ++ chars! ")" ++ S) none
          (front ++ [{ x with comma := false }]) hcomma'
        rw [hP] at htext
        have hbefore : P ++ tree (front ++ [x, y]) close ++ S = P ++ chars! "(" ++ renderArgs front ++
            (x.lead ++ x.core ++ x.trail ++ (chars! "," ++ y.lead ++ y.core) ++ []) ++
            (y.trail ++ close ++ chars! ")" ++ S) := by
          simp [tree, renderArgs_append, renderArgs, Arg.render, commaText, hxc, hy.2]
        have hmid : P ++ chars! "(" ++ renderArgs front ++ (x.lead ++ x.core ++ x.trail ++ []) ++
            (y.trail ++ close ++ chars! ")" ++ S) = P ++ chars! "(" ++
            renderArgs (front ++ [{ x with comma := false }]) ++ (y.trail ++ close ++ chars! ")" ++ S) := by
          simp [renderArgs_append, renderArgs, Arg.render, commaText]
        rw [removals_last _ _ _ _ _ hx hxc hy.1 hy.2, applyAll_append, hbefore, hedit, Option.bind_some,
          hmid, htext, htree]
        simp only [List.nil_append] at h1
        have h1' : leftover (front ++ [{ x with comma := false }]) ++ (y.trail ++ (close ++ (chars! ")" ++ S)))
            = renderArgs as' ++ (close' ++ (chars! ")" ++ S)) := by
          have := congrArg (· ++ (chars! ")" ++ S)) h1
          simpa only [List.append_assoc] using this
        simp only [List.append_assoc, h1']
      · rw [h2, hgone]
        have hyk : (y.kind == ArgKind.environment) = false := by
          rw [← congrFun hgone y, hy.1]
          rfl
        rw [List.filter_append, List.filter_append, List.map_append, List.map_append]
        congr 1
        simp only [List.filter_cons, hyk, List.filter_nil, Bool.false_eq_true, if_false]
        split <;> rfl

/-- The attribute `(additional_contracts = "a", environment = E, keep_attr = "k")`. -/
def exampleArgs : List Arg :=
  [⟨.additional, [], chars! "additional_contracts = \"a\"", [], true⟩,
    ⟨.environment, chars! " ", chars! "environment = E", [], true⟩,
    ⟨.keep, chars! " ", chars! "keep_attr = \"k\"", [], false⟩]

example : Once exampleArgs ∧ Separated exampleArgs ∧ Spaced exampleArgs ∧ ¬ BothLast exampleArgs := by
  refine ⟨by unfold Once; decide, ⟨rfl, rfl, trivial⟩, ?_, ?_⟩
  · unfold Spaced Blank
    decide
  · rintro ⟨front, x, y, h, hx, _, _⟩
    have h' : exampleArgs.dropLast.getLast? = (front ++ [x, y]).dropLast.getLast? := by rw [h]
    have h2 : (front ++ [x, y]).dropLast = front ++ [x] := by
      rw [show front ++ [x, y] = (front ++ [x]) ++ [y] by simp, List.dropLast_concat]
    rw [h2, List.getLast?_concat] at h'
    have h3 : x = ⟨.environment, chars! " ", chars! "environment = E", [], true⟩ := by
      have : exampleArgs.dropLast.getLast? =
        some ⟨.environment, chars! " ", chars! "environment = E", [], true⟩ := by decide
      rw [this] at h'
      exact (Option.some.inj h').symm
    subst h3
    cases hx

example : applyAll (tree exampleArgs []) (attrEdits 0 exampleArgs []) =
    some (chars! "( environment = E)") := by decide +kernel

/-- If the last two arguments go and another stays, both deletions contain the comma between the two: the
edits of every such attribute overlap, and an editor rejects them. -/
theorem C93_negation_overlap (off : Nat) (front : List Arg) (x y : Arg) (close : List Char)
    (ho : Once (front ++ [x, y])) (hf : ∃ a ∈ front, a.kind = .environment) (hx : gone x = true)
    (hy : gone y = true) (hxc : x.comma = true) (hyc : y.comma = false) :
    ∃ e1 e2, (attrEdits off (front ++ [x, y]) close).Perm [e1, e2] ∧
      e1.start < e2.stop ∧ e2.start < e1.stop ∧
      e2.start = off + 1 + bytes (renderArgs front) + bytes x.lead + bytes x.core + bytes x.trail ∧
      e1.stop = e2.start + 1 := by
  have hfront : ∀ a ∈ front, a.kind = .environment := by
    intro a ha
    unfold Once at ho
    rw [List.map_append] at ho
    have hd := (List.nodup_append.1 ho).2.2 a.kind (List.mem_map_of_mem ha)
    have h1 := (List.nodup_append.1 ho).2.1
    simp only [List.map_cons, List.map_nil, List.nodup_cons, List.mem_singleton] at h1
    have h2 := hd x.kind (by simp)
    have h3 := hd y.kind (by simp)
    have h4 : x.kind ≠ .environment := by simpa [gone] using hx
    have h5 : y.kind ≠ .environment := by simpa [gone] using hy
    cases hk : a.kind <;> cases hkx : x.kind <;> cases hky : y.kind <;> simp_all
  have hedits : (attrEdits off (front ++ [x, y]) close).Perm (removals none (off + 1) (front ++ [x, y])) := by
    unfold attrEdits
    have hany : (front ++ [x, y]).any (fun a => a.kind == .environment) = true := by
      obtain ⟨a, ha, hk⟩ := hf
      rw [List.any_eq_true]
      exact ⟨a, by simp [ha], by simp [hk]⟩
    have hlen : (front ++ [x, y]).length ≠ 1 := by simp
    rw [hany]
    simp only [Bool.not_true, Bool.false_and, Bool.false_eq_true, if_false, removeArg]
    rw [if_neg (fun h => hlen h.1), if_neg (fun h => hlen h.1)]
    exact removeFirst_perm none (off + 1) _ ho
  have hrem : ∀ prev o, removals prev o (front ++ [x, y]) =
      [delete (o + bytes (renderArgs front) + bytes x.lead,
        o + bytes (renderArgs front) + bytes x.lead + bytes x.core + bytes x.trail + 1),
       delete (o + bytes (renderArgs front) + bytes x.render - 1,
        o + bytes (renderArgs front) + bytes x.render + bytes y.lead + bytes y.core)] := by
    have hg : ∀ a ∈ front, gone a = false := fun a ha => by simp [gone, hfront a ha]
    clear hedits hfront hf ho
    induction front with
    | nil =>
      intro prev o
      simp [removals, hx, hy, hxc, hyc, ownRange, renderArgs, bytes]
    | cons a front ih =>
      intro prev o
      rw [List.cons_append, removals, hg a (by simp), ih fun b hb => hg b (by simp [hb]), renderArgs,
        bytes_append]
      simp [Nat.add_assoc]
  rw [hrem] at hedits
  refine ⟨_, _, hedits, ?_, ?_, ?_, ?_⟩
  all_goals
    have h1 : bytes (chars! ",") = 1 := by decide
    simp only [delete, Arg.render, commaText, hxc, if_true, bytes_append, h1]
    omega

/-- The attribute `(environment = E, additional_contracts = "a", keep_attr = "k")`: the two deletions are
18..45 and 44..61. -/
example : (attrEdits 0 [⟨.environment, [], chars! "environment = E", [], true⟩,
    ⟨.additional, chars! " ", chars! "additional_contracts = \"a\"", [], true⟩,
    ⟨.keep, chars! " ", chars! "keep_attr = \"k\"", [], false⟩] []).map (fun e => (e.start, e.stop)) =
    [(18, 45), (44, 61)] := by decide +kernel

/-- The signature of a function without generic parameters becomes `<Client: E2EBackend>(mut client: Client)`;
all other text stays. Missing: functions with generic parameters (`C93_negation_generics`). -/
theorem C93_signature_partial (P S : List Char) (s : Sig) (hg : s.generics = none) :
    applyAll (P ++ s.render ++ S) (fnSig (bytes P) s) = some (P ++
      (s.before ++ s.name ++ chars! "<Client: E2EBackend>" ++ chars! "(mut client: Client)" ++ s.after)
      ++ S) := by
  unfold fnSig
  cases hp : s.params with
  | none =>
    have := apply_at P s.render S (s.before ++ s.name) [] s.after
      (chars! "<Client: E2EBackend>(mut client: Client)") none (by simp [Sig.render, hg, hp])
    simp only [bytes_append, bytes, Nat.add_zero] at this
    simp only [Nat.add_assoc] at this ⊢
    rw [this]
    simp
  | some ps =>
    have := apply_at P s.render S (s.before ++ s.name) ps s.after
      (chars! "<Client: E2EBackend>(mut client: Client)") none (by simp [Sig.render, hg, hp])
    simp only [bytes_append] at this
    simp only [hg, Option.getD_none, bytes, Nat.add_zero]
    simp only [Nat.add_assoc] at this ⊢
    rw [this]
    simp

/-- A function with generic parameters gets a second list of them, which Rust rejects. -/
theorem C93_negation_generics (P S : List Char) (s : Sig) (gs ps : List Char) (hg : s.generics = some gs)
    (hp : s.params = some ps) :
    applyAll (P ++ s.render ++ S) (fnSig (bytes P) s) = some (P ++
      (s.before ++ s.name ++ gs ++ chars! "<Client: E2EBackend>(mut client: Client)" ++ s.after) ++ S) := by
  unfold fnSig
  have := apply_at P s.render S (s.before ++ s.name ++ gs) ps s.after
    (chars! "<Client: E2EBackend>(mut client: Client)") none (by simp [Sig.render, hg, hp])
  simp only [bytes_append] at this
  simp only [hp, hg, Option.getD_some]
  simp only [Nat.add_assoc] at this ⊢
  rw [this]

/-- A function of ink! 4, and what the migration makes of it; migrating it again doubles the generic
parameters. -/
def exampleSig (generics : Option (List Char)) : Sig :=
  ⟨chars! "async fn ", chars! "it_works", generics, some (chars! "(mut client: ink_e2e::Client<C, E>)"),
    chars! " {}"⟩

example : applyAll (exampleSig none).render (fnSig 0 (exampleSig none)) =
    some (chars! "async fn it_works<Client: E2EBackend>(mut client: Client) {}") := by decide +kernel

example : applyAll (exampleSig (some (chars! "<Client: E2EBackend>"))).render
    (fnSig 0 (exampleSig (some (chars! "<Client: E2EBackend>")))) =
    some (chars! "async fn it_works<Client: E2EBackend><Client: E2EBackend>(mut client: Client) {}") := by
  decide +kernel

/-- Exactly the required traits are imported, each once, all at the same offset and each on a line of its
own with the given indentation. -/
theorem C93_imports (off : Nat) (indent : List Char) (os : List Verif.Migrate.Out) :
    (imports off indent os).Nodup ∧
    (∀ e ∈ imports off indent os, e.start = off ∧ e.stop = off ∧
      (e.text = chars! "\n" ++ indent ++ chars! "use ink_e2e::ContractsBackend;" ∨
       e.text = chars! "\n" ++ indent ++ chars! "use ink_e2e::ChainBackend;")) ∧
    ((∃ e ∈ imports off indent os,
        e.text = chars! "\n" ++ indent ++ chars! "use ink_e2e::ContractsBackend;") ↔
      Verif.Migrate.Out.need .contracts ∈ os) ∧
    ((∃ e ∈ imports off indent os,
        e.text = chars! "\n" ++ indent ++ chars! "use ink_e2e::ChainBackend;") ↔
      Verif.Migrate.Out.need .chain ∈ os) := by
  have hreq : ∀ t, t ∈ required os ↔ Verif.Migrate.Out.need t ∈ os := by
    intro t
    unfold required
    rw [List.mem_eraseDups, List.mem_filterMap]
    constructor
    · rintro ⟨o, ho, h⟩
      cases o with
      | need t' =>
        cases h
        exact ho
      | edit e => cases h
    · intro h
      exact ⟨_, h, rfl⟩
  have htext : ∀ t, chars! "\n" ++ indent ++ chars! "use " ++ traitPath t ++ chars! ";" =
      chars! "\n" ++ indent ++ (match t with
        | .contracts => chars! "use ink_e2e::ContractsBackend;"
        | .chain => chars! "use ink_e2e::ChainBackend;") := by
    intro t
    cases t <;> simp [traitPath]
  have hmem : ∀ t', (∃ e ∈ imports off indent os, e.text = chars! "\n" ++ indent ++ (match t' with
        | Verif.Migrate.E2ETrait.contracts => chars! "use ink_e2e::ContractsBackend;"
        | .chain => chars! "use ink_e2e::ChainBackend;")) ↔ Verif.Migrate.Out.need t' ∈ os := by
    intro t'
    rw [← hreq]
    unfold imports
    constructor
    · rintro ⟨e, he, ht⟩
      obtain ⟨t, ht', rfl⟩ := List.mem_map.1 he
      simp only [htext] at ht
      have ht := List.append_cancel_left ht
      have : t = t' := by
        cases t <;> cases t' <;> first | rfl | (exact absurd ht (by decide))
      exact this ▸ ht'
    · intro h
      exact ⟨_, List.mem_map.2 ⟨t', h, rfl⟩, htext t'⟩
  refine ⟨?_, ?_, hmem .contracts, hmem .chain⟩
  · unfold imports
    have hnd : (required os).Nodup := nodup_eraseDups _ _ (Nat.le_refl _)
    refine List.Pairwise.map _ ?_ hnd
    intro a b hab h
    refine hab ?_
    have h2 := congrArg Edit.text h
    simp only [htext] at h2
    have h2 := List.append_cancel_left h2
    cases a <;> cases b <;> first | rfl | (exact absurd h2 (by decide))
  · intro e he
    unfold imports at he
    obtain ⟨t, _, rfl⟩ := List.mem_map.1 he
    refine ⟨rfl, rfl, ?_⟩
    rw [htext]
    cases t
    · exact Or.inl rfl
    · exact Or.inr rfl

example : (imports 5 (chars! "  ") [.need .chain, .need .contracts, .need .chain]).map Edit.text =
    [chars! "\n  use ink_e2e::ChainBackend;", chars! "\n  use ink_e2e::ContractsBackend;"] := by
  decide +kernel

/-- The imports go where items may stand. Missing: files with inner attributes, modules with inner
attributes or doc comments and without `use`, and functions with such (`C93_negation_file`,
`C93_negation_module`). -/
theorem C93_place_partial (off : Nat) (es : List Elem) (p : Parent) (hfirst : InnerFirst es)
    (h : match p with
      | .file => ∀ e ∈ es, e.kind ≠ .innerAttr
      | .module_ => (∃ e ∈ es, e.kind = .use_) ∨ ∀ e ∈ es, e.inner = false
      | .other => ∀ e ∈ es, e.inner = false) :
    ItemPlace off es (importOffset off es p) := by
  have hstart : (∀ e ∈ es, e.inner = false) → ItemPlace off es off :=
    fun h => ⟨[], es, rfl, by simp [renderElems, bytes], h⟩
  cases p with
  | file =>
    unfold importOffset
    cases hd : endOfLast .doc off es with
    | none =>
      refine hstart fun e he => ?_
      simp [Elem.inner, endOfLast_none hd e he, h e he]
    | some n =>
      obtain ⟨es1, e, es2, rfl, h2, h3, h4⟩ := endOfLast_some hd
      refine ⟨es1 ++ [e], es2, by simp, h4, fun x hx => ?_⟩
      simp [Elem.inner, h3 x hx, h x (by simp [hx])]
  | module_ =>
    unfold importOffset
    cases hd : endOfLast .use_ off es with
    | none =>
      refine hstart ?_
      rcases h with ⟨e, he, hk⟩ | h
      · exact absurd hk (endOfLast_none hd e he)
      · exact h
    | some n =>
      obtain ⟨es1, e, es2, rfl, h2, h3, h4⟩ := endOfLast_some hd
      refine ⟨es1 ++ [e], es2, by simp, h4, fun x hx => ?_⟩
      obtain ⟨f1, f2, hf, hin, hout⟩ := hfirst
      -- the `use` item belongs to the second part, and so does all that follows
      have hnot : e ∉ f1 := by
        intro hmem
        rcases hin e hmem with h | h
        · simp [Elem.inner, h2] at h
        · rw [h2] at h
          cases h
      rcases List.append_eq_append_iff.1 hf with ⟨as, hf1, hf2⟩ | ⟨bs, hes, hf2⟩
      · cases as with
        | nil =>
          simp only [List.nil_append] at hf2
          exact hout x (by rw [← hf2]; simp [hx])
        | cons a as =>
          simp only [List.cons_append, List.cons.injEq] at hf2
          exact absurd (by rw [hf1]; simp [hf2.1]) hnot
      · exact hout x (by rw [hf2]; simp [hx])
  | other => exact hstart h

/-- Whatever follows the first inner attribute of a file, the import of a test at the top of the file goes
before that attribute, unless a doc comment follows it: Rust rejects the file. -/
theorem C93_negation_file (off : Nat) (es1 es2 : List Elem) (a : Elem) (ha : a.kind = .innerAttr)
    (hpos : 0 < bytes a.text) (hdoc : ∀ e ∈ a :: es2, e.kind ≠ .doc) :
    importOffset off (es1 ++ a :: es2) .file ≤ off + bytes (renderElems es1) ∧
    ¬ ItemPlace off (es1 ++ a :: es2) (importOffset off (es1 ++ a :: es2) .file) := by
  have hle : importOffset off (es1 ++ a :: es2) .file ≤ off + bytes (renderElems es1) := by
    unfold importOffset
    cases hd : endOfLast .doc off (es1 ++ a :: es2) with
    | none => simp
    | some n =>
      obtain ⟨f1, e, f2, hf, hk, _, hn⟩ := endOfLast_some hd
      simp only [Option.getD_some]
      rw [hn]
      rcases List.append_eq_append_iff.1 hf with ⟨as, hf1, hf2⟩ | ⟨bs, hes, hf2⟩
      · exact absurd hk (hdoc e (by rw [hf2]; simp))
      · cases bs with
        | nil =>
          simp only [List.nil_append] at hf2
          exact absurd hk (hdoc e (by rw [← hf2]; simp))
        | cons b bs =>
          simp only [List.cons_append, List.cons.injEq] at hf2
          rw [hes, hf2.1, renderElems_append, renderElems_append, bytes_append, bytes_append, renderElems,
            renderElems, renderElems, bytes_append, bytes_append]
          have h0 : bytes ([] : List Char) = 0 := rfl
          omega
  exact ⟨hle, not_itemPlace off _ es1 es2 a (by simp [Elem.inner, ha]) hpos hle⟩

/-- `#![cfg(test)]` at the top of a file, and `//! Doc` before it. -/
example : importOffset 0 [⟨.innerAttr, chars! "#![cfg(test)]"⟩, ⟨.other, chars! "fn f() {}"⟩] .file = 0 ∧
    importOffset 0 [⟨.doc, chars! "//! Doc"⟩, ⟨.space, chars! "\n"⟩, ⟨.innerAttr, chars! "#![cfg(test)]"⟩,
      ⟨.other, chars! "fn f() {}"⟩] .file = 7 := by decide +kernel

/-- The import of a test in a module without `use` goes before the inner attributes and doc comments of
the module: Rust rejects the module. -/
theorem C93_negation_module (off : Nat) (es1 es2 : List Elem) (a : Elem) (ha : a.inner = true)
    (hpos : 0 < bytes a.text) (huse : ∀ e ∈ es1 ++ a :: es2, e.kind ≠ .use_) :
    importOffset off (es1 ++ a :: es2) .module_ = off ∧ ¬ ItemPlace off (es1 ++ a :: es2) off := by
  have hoff : importOffset off (es1 ++ a :: es2) .module_ = off := by
    unfold importOffset
    cases hd : endOfLast .use_ off (es1 ++ a :: es2) with
    | none => rfl
    | some n =>
      obtain ⟨f1, e, f2, hf, hk, _, _⟩ := endOfLast_some hd
      exact absurd hk (huse e (by rw [hf]; simp))
  exact ⟨hoff, not_itemPlace off off es1 es2 a ha hpos (by omega)⟩

/-- `{ //! Doc`, and a module with a `use` item, where the import goes behind it. -/
example : importOffset 1 [⟨.doc, chars! "//! Doc"⟩, ⟨.other, chars! "fn f() {}"⟩] .module_ = 1 ∧
    importOffset 1 [⟨.doc, chars! "//! Doc"⟩, ⟨.space, chars! "\n"⟩, ⟨.use_, chars! "use a;"⟩,
      ⟨.other, chars! "fn f() {}"⟩] .module_ = 15 := by decide +kernel

/-- The hypotheses of `C93_place_partial` for that module. -/
example : InnerFirst [⟨.doc, chars! "//! Doc"⟩, ⟨.space, chars! "\n"⟩, ⟨.use_, chars! "use a;"⟩,
    ⟨.other, chars! "fn f() {}"⟩] :=
  ⟨[⟨.doc, chars! "//! Doc"⟩, ⟨.space, chars! "\n"⟩], [⟨.use_, chars! "use a;"⟩,
    ⟨.other, chars! "fn f() {}"⟩], rfl, by decide, by decide⟩

end Verif.Migrate.TestFn
