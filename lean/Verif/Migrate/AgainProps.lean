import Verif.Migrate.WholeProps

/-!
# C125: migrating again

C125: A file is left as it is if it has nothing of ink! 4, and so a second migration changes nothing.
-/

namespace Verif.Migrate.Again

open Verif.Ir.Token (bytes)
open Verif.Analyzer (Edit FTok metaPaths)
open Verif.Analyzer.Members (applyAll)
open Verif.Migrate.TestFn (Arg Sig attrEdits fnSig imports tree Once Separated Spaced Blank BothLast gone)
open Verif.Migrate.Whole (File Test steps unique formatAll)

/-! ## Specification -/

/-- Nothing of ink! 4 is left in a file: no legacy events, no chain extensions without `extension`
argument (where it can be added) or with `extension` arguments on functions, no derives of SCALE traits,
and no visited calls of the old host functions. -/
structure Current (f : File) : Prop where
  events : ∀ c ∈ f.contracts, ∀ e ∈ c.events, e.attr = none
  ids : ∀ x ∈ f.extensions, x.hasArg = true ∨ x.insert = none
  functions : ∀ x ∈ f.extensions, ∀ r, some r ∉ x.functions
  derives : ∀ a ∈ f.derives, ∀ t s e, Derives a t s e → ∀ n ∈ metaPaths t, f.res a n = none
  calls : ∀ b ∈ f.bodies, ∀ p e, HostFn.Reached f.known b p e → ∀ x, ¬ HostFn.Records f.known e x

/-- The expression is `recv.name(args)`. -/
def IsCall (e : Expr) (name : String) (recv : Expr) (args : List Expr) : Prop :=
  e.node.form = .methodCall ∧ (∃ r, e.node.name = some (name, r)) ∧ e.children = recv :: args ∧
    recv.node.role = .receiver ∧ ∀ a ∈ args, a.node.role = .arg

/-- The calls of the client in ink! 5, with the number of their arguments. -/
def newCalls : List (String × Nat) :=
  [("instantiate", 3), ("instantiate_dry_run", 3), ("call", 2), ("call_dry_run", 2), ("upload", 2),
   ("free_balance", 1)]

/-- The expression is a call of the client in ink! 5, e.g.
`client.call(a, b).value(v).storage_deposit_limit(l).submit()`, with the given arguments of the chained
calls. -/
inductive Chain : Expr → List Expr → Prop where
  | base {e recv : Expr} {name : String} {args : List Expr} : IsCall e name recv args →
      recv.node.form = .path → recv.node.text = chars! "client" → (name, args.length) ∈ newCalls →
      Chain e []
  | link {e recv : Expr} {name : String} {args xs : List Expr} : IsCall e name recv args →
      Chain recv xs → name ∈ ["value", "storage_deposit_limit", "submit", "dry_run"] →
      Chain e (xs ++ args)

/-! ## Lemmas -/

theorem chain_form {e : Expr} {xs : List Expr} (h : Chain e xs) : e.node.form = .methodCall := by
  cases h with
  | base h _ _ _ => exact h.1
  | link h _ _ => exact h.1

theorem visitAll_none {p : Role → Bool} {cs : List Expr} (h : ∀ c ∈ cs, p c.node.role = false) :
    visitAll p cs = [] := by
  induction cs with
  | nil => simp [visitAll]
  | cons c cs ih =>
    rw [visitAll, h c (by simp), ih fun x hx => h x (List.mem_cons_of_mem _ hx)]
    rfl

theorem visitAll_all {p : Role → Bool} {cs : List Expr} (h : ∀ c ∈ cs, p c.node.role = true) :
    visitAll p cs = cs.flatMap visit := by
  induction cs with
  | nil => simp [visitAll]
  | cons c cs ih =>
    rw [visitAll, h c (by simp), ih fun x hx => h x (List.mem_cons_of_mem _ hx)]
    rfl

theorem argsOf_call {recv : Expr} {args : List Expr} (hr : recv.node.role = .receiver)
    (ha : ∀ a ∈ args, a.node.role = .arg) : argsOf (recv :: args) = args := by
  unfold argsOf
  rw [List.filter_cons_of_neg (by rw [hr]; decide), List.filter_eq_self]
  intro a h
  rw [ha a h]
  rfl

theorem rewrite_new {name : String} {args : List Expr} (h : (name, args.length) ∈ newCalls)
    (r a : Nat × Nat) : rewrite name r a args = [] := by
  simp only [newCalls, List.mem_cons, Prod.mk.injEq, List.not_mem_nil, or_false] at h
  rcases h with ⟨rfl, h⟩ | ⟨rfl, h⟩ | ⟨rfl, h⟩ | ⟨rfl, h⟩ | ⟨rfl, h⟩ | ⟨rfl, h⟩
  all_goals
    rcases args with _ | ⟨x, _ | ⟨y, _ | ⟨z, _ | ⟨w, args⟩⟩⟩⟩
    all_goals simp at h
    all_goals simp [rewrite]

theorem rewrite_link {name : String}
    (h : name ∈ ["value", "storage_deposit_limit", "submit", "dry_run"]) (r a : Nat × Nat)
    (args : List Expr) : rewrite name r a args = [] := by
  simp only [List.mem_cons, List.not_mem_nil, or_false] at h
  rcases h with rfl | rfl | rfl | rfl <;> simp [rewrite]

theorem unique_nil {l : List Edit} : unique l = [] ↔ l = [] := by
  cases l <;> simp [unique]

theorem migrate_nil (toks : List FTok) (parent : Nat → Option (Option (List Char))) (f : File) :
    Whole.migrate toks parent f = some [] ↔ steps f = [] := by
  unfold Whole.migrate
  constructor
  · intro h
    rw [← unique_nil]
    cases hu : unique (steps f) with
    | nil => rfl
    | cons e es =>
      rw [hu] at h
      simp only [formatAll] at h
      split at h <;> simp at h
  · intro h
    rw [h]
    rfl

theorem events_nil (cs : List EventContract) :
    eventsMigration cs = [] ↔ ∀ c ∈ cs, ∀ e ∈ c.events, e.attr = none := by
  unfold eventsMigration
  simp only [List.flatMap_eq_nil_iff]
  refine forall_congr' fun c => forall_congr' fun _ => forall_congr' fun e => forall_congr' fun _ => ?_
  unfold eventEdits
  cases e.attr <;> simp

theorem functions_nil (x : MigExt) : functionEdits x = [] ↔ ∀ r, some r ∉ x.functions := by
  unfold functionEdits
  rw [List.map_eq_nil_iff, List.filterMap_eq_nil_iff]
  constructor
  · intro h r hr
    cases h _ hr
  · intro h r hr
    cases r with
    | none => rfl
    | some r => exact absurd hr (h r)

theorem extArg_nil (used : List Nat) (x : MigExt) :
    (extArg used x).1 = [] ↔ x.hasArg = true ∨ x.insert = none := by
  unfold extArg
  cases x.hasArg <;> cases x.insert <;> simp

theorem ext_nil (used : List Nat) (xs : List MigExt) :
    extEdits used xs = [] ↔
      ∀ x ∈ xs, (x.hasArg = true ∨ x.insert = none) ∧ ∀ r, some r ∉ x.functions := by
  induction xs generalizing used with
  | nil => simp [extEdits]
  | cons x xs ih =>
    rw [extEdits, List.append_eq_nil_iff, List.append_eq_nil_iff, extArg_nil, functions_nil, ih]
    simp

theorem derive_nil (res : Res)
    (perm : List (Nat × Nat × List Analyzer.ScaleTrait) → List (Nat × Nat × List Analyzer.ScaleTrait))
    (hperm : ∀ l, (perm l).Perm l) (attrs : List DeriveAttr) :
    scaleDerive res perm attrs = [] ↔
      ∀ a ∈ attrs, ∀ t s e, Derives a t s e → ∀ n ∈ metaPaths t, res a n = none := by
  obtain ⟨m, _, hm, hmem⟩ := C66_added res perm hperm attrs
  have hnames : ∀ a t s e, Derives a t s e → derivedNames a = metaPaths t := by
    intro a t s e h
    unfold derivedNames
    rw [(C66_read a t s e).2 h]
  rw [hm, List.append_eq_nil_iff, List.map_eq_nil_iff]
  constructor
  · rintro ⟨_, rfl⟩ a ha t s e hd n hn
    cases hr : res a n with
    | none => rfl
    | some r =>
      exfalso
      have haff : a ∈ affected res attrs a.item := by
        unfold affected
        rw [List.mem_filter]
        refine ⟨ha, ?_⟩
        rw [hnames a t s e hd, Bool.and_eq_true, List.any_eq_true]
        exact ⟨beq_self_eq_true _, n, hn, by rw [hr]; rfl⟩
      cases hl : affected res attrs a.item with
      | nil => rw [hl] at haff; cases haff
      | cons b bs =>
        have := (hmem a.item b.start _).2 ⟨b, bs, hl, rfl, rfl⟩
        cases this
  · intro h
    constructor
    · rw [List.flatMap_eq_nil_iff]
      intro a ha
      exact (C66_kept res a).1 fun t s e hd n hn => h a ha t s e hd n hn
    · rw [List.eq_nil_iff_forall_not_mem]
      rintro ⟨item, start, ts⟩ hx
      obtain ⟨a, as, haff, -, -⟩ := (hmem item start ts).1 hx
      have ha : a ∈ affected res attrs item := by rw [haff]; simp
      unfold affected at ha
      rw [List.mem_filter, Bool.and_eq_true, List.any_eq_true] at ha
      obtain ⟨ha, -, n, hn, hs⟩ := ha
      unfold derivedNames at hn
      cases hd : deriveMeta a with
      | none => rw [hd] at hn; cases hn
      | some q =>
        obtain ⟨t, s, e⟩ := q
        rw [hd] at hn
        rw [h a ha t s e ((C66_read a t s e).1 hd) n hn] at hs
        cases hs

theorem host_nil (known : HostFn.Known) (hd : HostFn.Distinct known) (bodies : List HostFn.Expr) :
    HostFn.migrate known bodies = [] ↔ ∀ b ∈ bodies, ∀ p e, HostFn.Reached known b p e →
      ∀ x, ¬ HostFn.Records known e x := by
  rw [List.eq_nil_iff_forall_not_mem]
  constructor
  · intro h b hb p e he x hx
    exact h x ((HostFn.C90_exact_partial known hd bodies x).2 ⟨b, hb, p, e, he, hx⟩)
  · intro h x hx
    obtain ⟨b, hb, p, e, he, hx⟩ := (HostFn.C90_exact_partial known hd bodies x).1 hx
    exact h b hb p e he x hx

/-! ## Theorems -/

/-- A file without e2e tests is left as it is iff nothing of ink! 4 is left in it. Missing: e2e tests,
which are changed always (`C125_negation_test`). -/
theorem C125_current_partial (toks : List FTok) (parent : Nat → Option (Option (List Char))) (f : File)
    (hperm : ∀ l, (f.perm l).Perm l) (hd : HostFn.Distinct f.known) (ht : f.tests = []) :
    Whole.migrate toks parent f = some [] ↔ Current f := by
  rw [migrate_nil]
  unfold steps extensionsMigration
  rw [ht, List.flatMap_nil, List.append_nil]
  simp only [List.append_eq_nil_iff, events_nil, ext_nil, derive_nil f.res f.perm hperm,
    host_nil f.known hd]
  constructor
  · rintro ⟨⟨⟨h1, h2⟩, h3⟩, h4⟩
    exact ⟨h1, fun x hx => (h2 x hx).1, fun x hx => (h2 x hx).2, h3, h4⟩
  · rintro ⟨h1, h2, h3, h4, h5⟩
    exact ⟨⟨⟨h1, fun x hx => ⟨h2 x hx, h3 x hx⟩⟩, h4⟩, h5⟩

/-- What the migration leaves of a list of derives is not changed again: an attribute which derives the
new list, with the names standing for the same things, gets no edit. -/
theorem C125_derive (res : Res) (a : DeriveAttr) (t : List Char) (s e : Nat) (hd : Derives a t s e)
    (h1 : ∃ n ∈ metaPaths t, res a n ≠ none) (h2 : ∃ n ∈ metaPaths t, res a n = none) :
    ∃ inner, attrEdit res a = [⟨['('] ++ inner ++ [')'], s, e, none⟩] ∧
      ∀ (b : DeriveAttr) (s' e' : Nat), Derives b inner s' e' → (∀ n, res b n = res a n) →
        attrEdit res b = [] ∧ ∀ (perm : _) (_ : ∀ l, (perm l).Perm l), scaleDerive res perm [b] = [] := by
  obtain ⟨inner, he, hm⟩ := (C66_kept res a).2 t s e hd h1 h2
  refine ⟨inner, he, fun b s' e' hb hres => ?_⟩
  have hnone : ∀ t' s'' e'', Derives b t' s'' e'' → ∀ n ∈ metaPaths t', res b n = none := by
    intro t' s'' e'' hb' n hn
    have heq := (C66_read b t' s'' e'').2 hb'
    rw [(C66_read b inner s' e').2 hb] at heq
    cases heq
    rw [hm, List.mem_filter] at hn
    rw [hres]
    simpa using hn.2
  refine ⟨(C66_kept res b).1 hnone, fun perm hperm => (derive_nil res perm hperm [b]).2 ?_⟩
  intro a' ha'
  rw [List.mem_singleton] at ha'
  subst ha'
  exact hnone

/-- What the migration leaves of the attribute of an e2e test is not changed again. Missing: as for
`C93_attribute_partial`. -/
theorem C125_attribute_partial (P S : List Char) (args : List Arg) (close : List Char) (ho : Once args)
    (hs : Separated args) (hb : Spaced args) (hc : Blank close)
    (hlast : BothLast args → ∀ a ∈ args, gone a = true) :
    ∃ es new, es.Perm (attrEdits (bytes P) args close) ∧
      applyAll (P ++ tree args close ++ S) es = some (P ++ new ++ S) ∧
      (new = [] ∨ ∃ as' close', new = tree as' close' ∧ Separated as' ∧ Spaced as' ∧ Blank close' ∧
        ∀ off, attrEdits off as' close' = []) := by
  obtain ⟨es, new, h1, -, h2, h3⟩ := TestFn.C93_attribute_partial P S args close ho hs hb hc hlast
  refine ⟨es, new, h1, h2, ?_⟩
  split at h3
  · exact .inl h3
  · obtain ⟨as', close', h4, h5, h6, h7, h8⟩ := h3
    refine .inr ⟨as', close', h4, h6, h7, h8, fun off => ?_⟩
    have hk : ∀ a ∈ as', a.kind = .environment := by
      intro a ha
      have : (a.kind, a.core) ∈ as'.map fun a => (a.kind, a.core) := List.mem_map.2 ⟨a, ha, rfl⟩
      rw [h5, List.mem_map] at this
      obtain ⟨b, hb', he⟩ := this
      rw [List.mem_filter] at hb'
      injection he with he1 he2
      rw [← he1]
      simpa using hb'.2
    have hno : ∀ k, k ≠ .environment → as'.any (fun a => a.kind == k) = false := by
      intro k hne
      rw [List.any_eq_false]
      intro a ha
      rw [hk a ha, beq_iff_eq]
      exact Ne.symm hne
    have hrem : ∀ k, k ≠ .environment → TestFn.removeArg k off as' close' = [] := by
      intro k hne
      unfold TestFn.removeArg
      rw [hno k hne, if_neg (by simp)]
      exact TestFn.removeFirst_none fun a ha => by rw [hk a ha]; exact Ne.symm hne
    unfold attrEdits
    rw [hno .additional (by decide), Bool.and_false, if_neg (by simp), hrem .additional (by decide),
      hrem .keep (by decide)]
    rfl

/-- A call of the client in ink! 5 is not changed again, nor does it need imports; in its chained calls
only their arguments are looked at. -/
theorem C125_chain (e : Expr) (xs : List Expr) (h : Chain e xs) : visit e = xs.flatMap visit := by
  induction h with
  | @base e recv name args h hp ht hn =>
    obtain ⟨h1, ⟨r, h2⟩, h3, h4, h5⟩ := h
    cases e with
    | mk n cs =>
      have h3 : cs = recv :: args := h3
      have hc : isClient cs = true := by
        unfold isClient
        rw [h3, List.find?_cons, h4]
        simp [hp, ht]
      rw [visit, show n.form = .methodCall from h1]
      dsimp only
      rw [hc, show n.name = _ from h2]
      unfold rewriteMethod
      rw [show n.name = _ from h2]
      cases n.argList with
      | none => rfl
      | some a =>
        dsimp only
        rw [h3, argsOf_call h4 h5, rewrite_new hn]
        rfl
  | @link e recv name args xs h hc hn ih =>
    have hf := chain_form hc
    obtain ⟨h1, ⟨r, h2⟩, h3, h4, h5⟩ := h
    cases e with
    | mk n cs =>
      have h3 : cs = recv :: args := h3
      have hfind : (cs.find? fun c => c.node.role == .receiver) = some recv := by
        rw [h3, List.find?_cons, h4]
        rfl
      have hcl : isClient cs = false := by
        unfold isClient
        rw [hfind]
        simp [hf]
      have hch : chainedEdit n cs = [] := by
        unfold chainedEdit
        rw [hfind]
        simp [hf]
      have hrew : rewriteMethod n cs = [] := by
        unfold rewriteMethod
        rw [show n.name = _ from h2]
        cases n.argList with
        | none => rfl
        | some a => exact rewrite_link hn _ _ _
      rw [visit, show n.form = .methodCall from h1]
      dsimp only
      rw [hcl, hch, show n.name = _ from h2, hrew, h3, visitAll, visitAll, h4,
        visitAll_none (cs := args) (fun c hc => by rw [h5 c hc]; rfl),
        visitAll_all (cs := args) (fun c hc => by rw [h5 c hc]; rfl), ih]
      simp

/-- In a test body nothing is rewritten iff no expression that is looked at is of ink! 4. -/
theorem C125_body (root : Expr) (hn : Named root) :
    editsOf (visit root) = [] ↔ ∀ p e, Reached root p e → ∀ x, ¬ Records e (.edit x) := by
  have hmem : ∀ x, x ∈ editsOf (visit root) ↔ ∃ p e, Reached root p e ∧ Records e (.edit x) := by
    intro x
    have h1 : x ∈ editsOf (visit root) ↔ Out.edit x ∈ visit root := by
      unfold editsOf
      rw [List.mem_filterMap]
      constructor
      · rintro ⟨o, ho, h⟩
        cases o with
        | edit y => cases h; exact ho
        | need => cases h
      · intro h
        exact ⟨_, h, rfl⟩
    rw [h1, (visit_perm root hn).mem_iff, List.mem_flatMap]
    constructor
    · rintro ⟨⟨p, e⟩, hq, hx⟩
      exact ⟨p, e, (mem_reachedList root p e).1 hq, ((C50_records e).1 _).1 hx⟩
    · rintro ⟨p, e, hr, hx⟩
      exact ⟨(p, e), (mem_reachedList root p e).2 hr, ((C50_records e).1 _).2 hx⟩
  rw [List.eq_nil_iff_forall_not_mem]
  constructor
  · intro h p e hr x hx
    exact h x ((hmem x).2 ⟨p, e, hr, hx⟩)
  · intro h x hx
    obtain ⟨p, e, hr, hx⟩ := (hmem x).1 hx
    exact h p e hr x hx

/-- A file with an e2e test is changed always, and a migrated function gets a second list of generic
parameters, which Rust rejects. -/
theorem C125_negation_test :
    (∀ (toks : List FTok) (parent : Nat → Option (Option (List Char))) (f : File) (t : Test),
      t ∈ f.tests → t.sig.isSome = true → Whole.migrate toks parent f ≠ some []) ∧
    ∀ (P S before name after : List Char),
      applyAll (P ++ (before ++ name ++ chars! "<Client: E2EBackend>" ++ chars! "(mut client: Client)" ++
          after) ++ S)
        (fnSig (bytes P) ⟨before, name, some (chars! "<Client: E2EBackend>"),
          some (chars! "(mut client: Client)"), after⟩) =
      some (P ++ (before ++ name ++ chars! "<Client: E2EBackend><Client: E2EBackend>(mut client: Client)" ++
        after) ++ S) := by
  constructor
  · intro toks parent f t ht hs h
    rw [migrate_nil] at h
    obtain ⟨⟨off, s⟩, hsig⟩ := Option.isSome_iff_exists.1 hs
    have hne : fnSig off s ≠ [] := by
      unfold fnSig
      cases s.params <;> simp
    obtain ⟨x, hx⟩ := List.exists_mem_of_ne_nil _ hne
    have : x ∈ steps f := by
      unfold steps
      refine List.mem_append_right _ (List.mem_flatMap.2 ⟨t, ht, ?_⟩)
      unfold Whole.testEdits
      rw [hsig]
      simp [hx]
    rw [h] at this
    cases this
  · intro P S before name after
    have := TestFn.C93_negation_generics P S ⟨before, name, some (chars! "<Client: E2EBackend>"),
      some (chars! "(mut client: Client)"), after⟩ _ _ rfl rfl
    simp only [Sig.render, Option.getD_some] at this
    rw [this]
    simp

/-- `client.create_and_fund_account(a, b)` at offset 0. -/
def fundCall : Expr :=
  .mk { form := .methodCall, role := .tail, text := chars! "client.create_and_fund_account(a, b)"
        start := 0, stop := 36, name := some ("create_and_fund_account", 7, 30)
        argList := some (30, 36, chars! "(a, b)") }
    [leaf .path .receiver (chars! "client") 0, leaf .path .arg ['a'] 31, leaf .path .arg ['b'] 34]

/-- A call that ink! 5 spells in the same way needs no change, but the import of its trait is added by
every migration, whether or not it is there. -/
theorem C125_negation_import (off : Nat) (indent : List Char) :
    editsOf (visit fundCall) = [] ∧
    imports off indent (visit fundCall) =
      [⟨chars! "\n" ++ indent ++ chars! "use ink_e2e::ChainBackend;", off, off, none⟩] := by
  have h : visit fundCall = [.need .chain] := by decide +kernel
  rw [h]
  refine ⟨rfl, ?_⟩
  have hr : TestFn.required [.need .chain] = [.chain] := by decide
  unfold imports
  rw [hr]
  simp [TestFn.traitPath]

/-- `recv.name(args)` with the given texts and offsets. -/
def callOf (role : Role) (text : List Char) (start : Nat) (name : String) (at_ : Nat)
    (recv : Expr) (args : List Expr) : Expr :=
  .mk { form := .methodCall, role, text, start, stop := start + text.length
        name := some (name, at_, at_ + name.length)
        argList := some (at_ + name.length, start + text.length, text.drop (at_ + name.length - start)) }
    (recv :: args)

/-- `client.call(a, m, client.balance(a), None)`. -/
def nestedOld : Expr :=
  callOf .tail (chars! "client.call(a, m, client.balance(a), None)") 0 "call" 7
    (leaf .path .receiver (chars! "client") 0)
    [leaf .path .arg ['a'] 12, leaf .path .arg ['m'] 15, balanceCall .arg (chars! "client") 18,
      leaf .path .arg (chars! "None") 37]

/-- `client.call(a, m).value(client.balance(a)).submit()`. -/
def nestedNew : Expr :=
  callOf .tail (chars! "client.call(a, m).value(client.balance(a)).submit()") 0 "submit" 43
    (callOf .receiver (chars! "client.call(a, m).value(client.balance(a))") 0 "value" 18
      (callOf .receiver (chars! "client.call(a, m)") 0 "call" 7
        (leaf .path .receiver (chars! "client") 0)
        [leaf .path .arg ['a'] 12, leaf .path .arg ['m'] 15])
      [balanceCall .arg (chars! "client") 24]) []

/-- Calls in the arguments of a call of the client are left for a second migration:
`client.call(a, m, client.balance(a), None)` becomes
`client.call(a, m).value(client.balance(a)).submit()`, in which `balance` is renamed the next time. -/
theorem C125_negation_nested :
    editsOf (visit nestedOld) =
      [⟨chars! "(a, m).value(client.balance(a)).submit()", 11, 42, none⟩] ∧
    editsOf (visit nestedNew) = [⟨chars! "free_balance", 31, 38, none⟩] := by
  constructor <;> decide +kernel

/-- Of two `derive`s in one `cfg_attr`, the second one is left for a second migration. -/
theorem C125_negation_derive :
    (attrEdit sampleRes twoDerives = [⟨[], 14, 24, none⟩]) ∧
    ∀ start item, ∃ x, attrEdit sampleRes ⟨start, start + 27, item, .cfg (some
      [⟨.other, ['x'], start + 11, start + 12⟩, ⟨.comma, [','], start + 12, start + 13⟩,
       ⟨.trivia, [' '], start + 13, start + 14⟩, ⟨.trivia, [' '], start + 14, start + 15⟩,
       ⟨.derive, chars! "derive", start + 15, start + 21⟩, ⟨.tree, ['D'], start + 21, start + 24⟩])⟩ =
        [x] := by
  refine ⟨by decide +kernel, fun start item => ⟨⟨[], start, start + 27, none⟩, ?_⟩⟩
  have hm : metaPaths ['D'] = [['D']] := by decide
  simp [attrEdit, deriveMeta, findDerive, scaleItems, otherItems, hm, sampleRes, hasOtherAttrs]

/-! ## Examples -/

/-- A file with a chain extension, `#[derive(Clone)]`, and a call of `f`, where nothing is known of the
host functions. -/
def currentFile : File :=
  ⟨[⟨0, none, none, []⟩], [⟨some 1, true, some (9, [], []), [none]⟩], sampleRes, id,
    [⟨40, 56, 40, .derive (some (chars! "Clone", 48, 55))⟩], fun _ _ _ _ => false,
    [.call 60 63 .tail (.path 60 61 .callee ['f'] none) []], []⟩

/-- The hypotheses of `C125_current_partial`, for a file that is left as it is. -/
example : (∀ l, (currentFile.perm l).Perm l) ∧ HostFn.Distinct currentFile.known ∧
    currentFile.tests = [] ∧ Current currentFile := by
  have h1 : ∀ l, (currentFile.perm l).Perm l := fun l => List.Perm.refl l
  have h2 : HostFn.Distinct currentFile.known := by
    intro r p w _ w' _ h
    cases h
  exact ⟨h1, h2, rfl, (C125_current_partial [] (fun _ => none) currentFile h1 h2 rfl).1
    (by decide +kernel)⟩

/-- A file with `#[derive(E, Clone)]` is changed. -/
example : ¬ Current { currentFile with
    derives := [⟨40, 59, 40, .derive (some (chars! "E, Clone", 48, 58))⟩] } := by
  intro h
  have := h.derives _ (List.mem_singleton.2 rfl) _ _ _ (.plain rfl) ['E'] (by decide)
  revert this
  decide

/-- The hypotheses of `C125_chain`: `client.call(a, m).value(client.balance(a)).submit()`. -/
example : Chain nestedNew [balanceCall .arg (chars! "client") 24] := by
  have h := Chain.link (e := nestedNew) (name := "submit") (args := [])
    ⟨rfl, ⟨_, rfl⟩, rfl, rfl, by simp⟩
    (Chain.link (name := "value") (args := [balanceCall .arg (chars! "client") 24])
      ⟨rfl, ⟨_, rfl⟩, rfl, rfl, by
        intro a ha
        rw [List.mem_singleton] at ha
        rw [ha]
        rfl⟩
      (Chain.base (name := "call")
        (args := [leaf .path .arg ['a'] 12, leaf .path .arg ['m'] 15])
        ⟨rfl, ⟨_, rfl⟩, rfl, rfl, by
          intro a ha
          simp only [List.mem_cons, List.not_mem_nil, or_false] at ha
          rcases ha with rfl | rfl <;> rfl⟩ rfl rfl (by decide)) (by decide)) (by decide)
  exact h

/-- The hypotheses of `C125_derive`: `#[derive(E, Clone)]`. -/
example : ∃ a t s e, Derives a t s e ∧ (∃ n ∈ metaPaths t, sampleRes a n ≠ none) ∧
    ∃ n ∈ metaPaths t, sampleRes a n = none :=
  ⟨⟨40, 59, 40, .derive (some (chars! "E, Clone", 48, 58))⟩, _, _, _, .plain rfl,
    ⟨['E'], by decide, by decide⟩, ⟨chars! "Clone", by decide, by decide⟩⟩

/-- The hypotheses of `C125_attribute_partial`: `(keep_attr = "k", environment = E)`. -/
example : ∃ args : List Arg, Once args ∧ Separated args ∧ Spaced args ∧ ¬ BothLast args ∧
    attrEdits 0 args [] ≠ [] := by
  refine ⟨[⟨.keep, [], chars! "keep_attr = \"k\"", [], true⟩,
    ⟨.environment, [' '], chars! "environment = E", [], false⟩], by unfold Once; decide, ⟨rfl, trivial⟩,
    ?_, ?_, by decide +kernel⟩
  · intro a ha
    simp only [List.mem_cons, List.not_mem_nil, or_false] at ha
    rcases ha with rfl | rfl <;> refine ⟨?_, ?_⟩ <;> unfold Blank <;> decide
  · rintro ⟨front, x, y, h, -, hy, -⟩
    have := congrArg List.getLast? h
    rw [show front ++ [x, y] = (front ++ [x]) ++ [y] by simp, List.getLast?_concat] at this
    cases this
    revert hy
    decide

end Verif.Migrate.Again
