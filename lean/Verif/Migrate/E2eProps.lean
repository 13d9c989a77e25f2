import Verif.Migrate.E2e

/-!
# Properties of the migration of e2e test bodies

C50 (which calls are rewritten, once each) and the part of C49 (edits do not overlap) that
concerns e2e test bodies.

## Specification
-/

namespace Verif.Migrate

open Verif.Analyzer (Edit)

/-- The arguments of a call. -/
def arguments (e : Expr) : List Expr := e.children.filter fun c => c.node.role = .arg

/-- A method call on `client`. -/
def onClient (e : Expr) : Bool :=
  e.children.any fun r =>
    r.node.role = .receiver ∧ r.node.form = .path ∧ r.node.text = chars! "client"

/-- The subexpressions in which the migration looks for calls, for expressions other than calls.
The conditions of `if` and `while`, the iterable of `for`, the guards of `match`, the `else` block
of a `let` and the length of an array are not among them. -/
def lookTable : List (Form × Role) :=
  [(.array, .elem), (.arrayRepeat, .initializer), (.bin, .lhs), (.bin, .rhs), (.block, .stmt),
   (.block, .letInit), (.block, .tail), (.closure, .body), (.forLoop, .body),
   (.formatArgs, .template), (.formatArgs, .arg), (.ifElse, .thenBranch), (.ifElse, .elseBranch),
   (.index, .base), (.index, .index), (.loop, .body), (.matchOn, .scrutinee),
   (.matchOn, .armExpr), (.range, .start), (.range, .stop), (.record, .field), (.record, .spread),
   (.tuple, .field), (.whileLoop, .body), (.await, .operand), (.ret, .operand),
   (.wrapper, .operand)]

/-- The subexpressions in which the migration looks for further calls: the receiver and the
arguments of a method call that is not a call of `client`, the callee and the arguments of a
call that is not a message builder call, and the children in the table for other expressions. -/
def looksInto (e : Expr) (r : Role) : Bool :=
  match e.node.form with
  | .methodCall => !onClient e && (r == .receiver || r == .arg)
  | .call => e.node.builder.isNone && (r == .callee || r == .arg)
  | f => decide ((f, r) ∈ lookTable)

/-- `e` is the subexpression at path `p`, and the migration looks at it. -/
inductive Reached : Expr → List Nat → Expr → Prop where
  | here (e : Expr) : Reached e [] e
  | there {root : Expr} {i : Nat} {c e : Expr} {p : List Nat} :
      root.children[i]? = some c → looksInto root c.node.role = true → Reached c p e →
      Reached root (i :: p) e

/-- What the migration records for one expression. -/
def own (e : Expr) : List Out :=
  match e.node.form with
  | .methodCall =>
    (if onClient e then [] else chainedEdit e.node e.children) ++
      rewriteMethod e.node e.children
  | .call => e.node.builder.toList.map builderEdit
  | _ => unwrapDry e.node e.children

/-- The method calls have names (the parser recovers from `receiver.` without a name) and at
most one receiver. -/
def Named (root : Expr) : Prop :=
  ∀ p e, Reached root p e → e.node.form = .methodCall →
    e.node.name ≠ none ∧ (e.children.filter fun c => c.node.role = .receiver).length ≤ 1

/-- The calls that the migration is meant to rewrite: method name and number of arguments. -/
def migrated : List (String × Nat) :=
  [("instantiate", 5), ("instantiate_dry_run", 5), ("call", 4), ("call_dry_run", 4),
   ("upload", 3), ("balance", 1)]

/-- The first child with a role. -/
def child (r : Role) (e : Expr) : Option Expr := e.children.find? fun c => c.node.role = r

/-- What becomes of the `value` argument. -/
inductive ValuePart (v : Expr) : List Char → Prop where
  | zero : v.node.form = .literal → v.node.intZero = true → ValuePart v []
  | value : ¬ (v.node.form = .literal ∧ v.node.intZero = true) →
      ValuePart v (chars! ".value(" ++ v.node.text ++ [')'])

/-- The expression is `Some(x)`. -/
def IsSome (l x : Expr) : Prop :=
  l.node.form = .call ∧ ∃ f, child .callee l = some f ∧
    f.node.form = .path ∧ (f.node.text = chars! "Some" ∨ f.node.text = chars! "Option::Some") ∧
    (arguments l).head? = some x

/-- The expression is `None`. -/
def IsNone (l : Expr) : Prop :=
  l.node.form = .path ∧ (l.node.text = chars! "None" ∨ l.node.text = chars! "Option::None")

/-- What becomes of the `storage_deposit_limit` argument. -/
inductive LimitPart (l : Expr) : List Char → Prop where
  | none : IsNone l → LimitPart l []
  | some {x : Expr} : IsSome l x →
      LimitPart l (chars! ".storage_deposit_limit(" ++ x.node.text ++ [')'])
  | other : ¬ IsNone l → (∀ x, ¬ IsSome l x) →
      LimitPart l (chars! ".storage_deposit_limit(" ++ l.node.text ++ [')'])

/-- The new argument list of a migrated call, followed by the chained calls. -/
inductive NewArgs : String → List Expr → List Char → Prop where
  | instantiate {c s k v l : Expr} {value limit : List Char} :
      ValuePart v value → LimitPart l limit →
      NewArgs "instantiate" [c, s, k, v, l]
        (['('] ++ c.node.text ++ chars! ", " ++ s.node.text ++ chars! ", " ++ k.node.text ++ [')'] ++
          value ++ limit ++ chars! ".submit()")
  | instantiateDry {c s k v l : Expr} {value limit : List Char} :
      ValuePart v value → LimitPart l limit →
      NewArgs "instantiate_dry_run" [c, s, k, v, l]
        (['('] ++ c.node.text ++ chars! ", " ++ s.node.text ++ chars! ", " ++ k.node.text ++ [')'] ++
          value ++ limit ++ chars! ".dry_run()")
  | call {s m v l : Expr} {value limit : List Char} :
      ValuePart v value → LimitPart l limit →
      NewArgs "call" [s, m, v, l]
        (['('] ++ s.node.text ++ chars! ", " ++ m.node.text ++ [')'] ++
          value ++ limit ++ chars! ".submit()")
  | callDry {s m v l : Expr} {value limit : List Char} :
      ValuePart v value → LimitPart l limit →
      NewArgs "call_dry_run" [s, m, v, l]
        (['('] ++ s.node.text ++ chars! ", " ++ m.node.text ++ [')'] ++
          value ++ limit ++ chars! ".dry_run()")
  | upload {c s l : Expr} {limit : List Char} :
      LimitPart l limit →
      NewArgs "upload" [c, s, l]
        (['('] ++ c.node.text ++ chars! ", " ++ s.node.text ++ [')'] ++ limit ++ chars! ".submit()")

/-- The method call whose value an expression has: the expression itself, the tail of a block, or
an operand of a `return` (for a block without tail: of its first statement). -/
inductive LastCall : Expr → ENode → Prop where
  | call {e : Expr} : e.node.form = .methodCall → LastCall e e.node
  | tail {e c : Expr} {m : ENode} : e.node.form = .block → child .tail e = some c → LastCall c m →
      LastCall e m
  | first {e c : Expr} {cs : List Expr} {m : ENode} : e.node.form = .block → child .tail e = none →
      e.children = c :: cs → c.node.role = .stmt → c.node.form = .ret → LastCall c m → LastCall e m
  | ret {e c : Expr} {m : ENode} : e.node.form = .ret → child .operand e = some c →
      LastCall c m → LastCall e m

/-- What is recorded for an expression. -/
inductive Records (e : Expr) : Out → Prop where
  /-- The new argument list of a call with the old number of arguments. -/
  | args {name : String} {r : Nat × Nat} {a b : Nat} {t text : List Char} :
      e.node.form = .methodCall → e.node.name = some (name, r) → e.node.argList = some (a, b, t) →
      NewArgs name (arguments e) text → Records e (.edit ⟨text, a, b, none⟩)
  /-- Such a call needs the trait for contracts. -/
  | contracts {name : String} {r : Nat × Nat} {a b : Nat} {t text : List Char} :
      e.node.form = .methodCall → e.node.name = some (name, r) → e.node.argList = some (a, b, t) →
      NewArgs name (arguments e) text → Records e (.need .contracts)
  /-- The new name of `balance`. -/
  | balance {a b : Nat} {l : Nat × Nat × List Char} :
      e.node.form = .methodCall → e.node.name = some ("balance", a, b) →
      e.node.argList = some l → (arguments e).length = 1 →
      Records e (.edit ⟨chars! "free_balance", a, b, none⟩)
  /-- The calls that need the trait for the chain. -/
  | chain {name : String} {r : Nat × Nat} {l : Nat × Nat × List Char} :
      e.node.form = .methodCall → e.node.name = some (name, r) → e.node.argList = some l →
      (name, (arguments e).length) ∈
        [("balance", 1), ("create_and_fund_account", 2), ("runtime_call", 4)] →
      Records e (.need .chain)
  /-- `.call(|contract| contract.message(..))` after a message builder call. -/
  | chained {r c b : Expr} {m : ENode} {a a' : Nat} {l : Nat × Nat × List Char} {name : String}
      {nr : Nat × Nat} :
      e.node.form = .methodCall → onClient e = false → child .receiver e = some r →
      r.node.form = .call → r.node.builder ≠ none → e.node.name = some ("call", a, a') →
      e.node.argList = some l → arguments e = [c] → c.node.form = .closure →
      child .body c = some b → LastCall b m → m.name = some (name, nr) →
      Records e (.edit ⟨name.toList ++ (match m.argList with
        | some l => l.2.2
        | none => chars! "()"), a, e.node.stop, none⟩)
  /-- A message builder call. -/
  | builder {a b : Nat} {t : List Char} :
      e.node.form = .call → e.node.builder = some (a, b, t) →
      Records e (.edit ⟨chars! "ink_e2e::create_call_builder" ++ t, a, b, none⟩)
  /-- The result of a dry run is unwrapped. -/
  | dry {c : Expr} {name : String} {r : Nat × Nat} :
      e.node.form = .await → c ∈ e.children → c.node.role = .operand →
      c.node.form = .methodCall → c.node.name = some (name, r) → c.node.argList ≠ none →
      (name, (arguments c).length) ∈ [("instantiate_dry_run", 5), ("call_dry_run", 4)] →
      Records e (.edit ⟨chars! "?", e.node.stop, e.node.stop, none⟩)

/-! ## Lemmas -/

theorem walked_iff (f : Form) (r : Role) : walked f r = decide ((f, r) ∈ lookTable) := by
  cases f <;> cases r <;> rfl

theorem argsOf_eq (n : ENode) (cs : List Expr) : argsOf cs = arguments (.mk n cs) := by
  unfold argsOf arguments
  congr 1

theorem isClient_eq (n : ENode) (cs : List Expr)
    (h : (cs.filter fun c => c.node.role = .receiver).length ≤ 1) :
    isClient cs = onClient (.mk n cs) := by
  unfold isClient onClient
  show _ = cs.any _
  induction cs with
  | nil => rfl
  | cons c cs ih =>
    rw [List.find?_cons, List.any_cons]
    rw [List.filter_cons] at h
    by_cases hc : c.node.role = .receiver
    · have hc' : (c.node.role == Role.receiver) = true := by simp [hc]
      rw [hc']
      have hnone : ∀ d ∈ cs, d.node.role ≠ .receiver := by
        intro d hd hr
        rw [if_pos (by simpa using hc), List.length_cons] at h
        have : d ∈ cs.filter fun c => c.node.role = .receiver :=
          List.mem_filter.2 ⟨hd, by simpa using hr⟩
        have := List.length_pos_of_mem this
        omega
      have hany : (cs.any fun r => decide (r.node.role = .receiver ∧ r.node.form = .path ∧
          r.node.text = chars! "client")) = false := by
        rw [List.any_eq_false]
        intro d hd
        simp [hnone d hd]
      rw [hany]
      simp [hc, Bool.beq_eq_decide_eq]
    · have hc' : (c.node.role == Role.receiver) = false := by simpa using hc
      rw [hc']
      rw [if_neg (by simpa using hc)] at h
      simp only [hc, false_and, decide_false, Bool.false_or]
      exact ih h

mutual

/-- The reached subexpressions with their paths. -/
def reachedList : Expr → List (List Nat × Expr)
  | .mk n cs => ([], .mk n cs) :: reachedKids (looksInto (.mk n cs)) 0 cs

/-- The reached subexpressions below a list of children, the first of which has index `i`. -/
def reachedKids (f : Role → Bool) (i : Nat) : List Expr → List (List Nat × Expr)
  | [] => []
  | c :: cs =>
    (if f c.node.role then (reachedList c).map fun q => (i :: q.1, q.2) else []) ++
      reachedKids f (i + 1) cs

end

theorem reachedKids_head {f : Role → Bool} {i : Nat} {cs : List Expr} {q : List Nat × Expr}
    (h : q ∈ reachedKids f i cs) : ∃ j p, i ≤ j ∧ q.1 = j :: p := by
  induction cs generalizing i with
  | nil => simp [reachedKids] at h
  | cons c cs ih =>
    rw [reachedKids] at h
    rcases List.mem_append.1 h with h | h
    · split at h
      · obtain ⟨q', _, rfl⟩ := List.mem_map.1 h
        exact ⟨i, q'.1, Nat.le_refl _, rfl⟩
      · cases h
    · obtain ⟨j, p, hj, hq⟩ := ih h
      exact ⟨j, p, by omega, hq⟩

mutual

theorem mem_reachedList : (root : Expr) → ∀ p e, (p, e) ∈ reachedList root ↔ Reached root p e
  | .mk n cs => by
    intro p e
    rw [reachedList, List.mem_cons, mem_reachedKids (looksInto (.mk n cs)) 0 cs]
    constructor
    · rintro (h | ⟨j, q, c, rfl, hc, hr, h⟩)
      · cases h
        exact .here _
      · rw [Nat.zero_add]
        exact .there hc hr h
    · intro h
      cases h with
      | here => exact .inl rfl
      | there hc hr h => exact .inr ⟨_, _, _, by rw [Nat.zero_add], hc, hr, h⟩

theorem mem_reachedKids (f : Role → Bool) (i : Nat) : (cs : List Expr) → ∀ p e,
    ((p, e) ∈ reachedKids f i cs ↔
      ∃ j q c, p = (i + j) :: q ∧ cs[j]? = some c ∧ f c.node.role = true ∧ Reached c q e)
  | [] => by
    intro p e
    simp [reachedKids]
  | c :: cs => by
    intro p e
    rw [reachedKids, List.mem_append, mem_reachedKids f (i + 1) cs]
    constructor
    · rintro (h | ⟨j, q, d, rfl, hc, hr, h⟩)
      · split at h
        · rename_i hr
          obtain ⟨q, hq, he⟩ := List.mem_map.1 h
          cases he
          exact ⟨0, q.1, c, rfl, rfl, hr, (mem_reachedList c q.1 q.2).1 hq⟩
        · cases h
      · exact ⟨j + 1, q, d, by rw [Nat.add_assoc, Nat.add_comm 1], by simpa using hc, hr, h⟩
    · rintro ⟨j, q, d, rfl, hc, hr, h⟩
      cases j with
      | zero =>
        left
        have : c = d := by simpa using hc
        subst this
        rw [if_pos hr]
        exact List.mem_map.2 ⟨(q, e), (mem_reachedList c q e).2 h, rfl⟩
      | succ j =>
        right
        exact ⟨j, q, d, by rw [Nat.add_assoc, Nat.add_comm 1], by simpa using hc, hr, h⟩

end

mutual

theorem reachedList_nodup : (root : Expr) → ((reachedList root).map Prod.fst).Nodup
  | .mk n cs => by
    rw [reachedList, List.map_cons, List.nodup_cons]
    refine ⟨?_, reachedKids_nodup _ 0 cs⟩
    intro h
    obtain ⟨q, hq, he⟩ := List.mem_map.1 h
    obtain ⟨j, p, _, hp⟩ := reachedKids_head hq
    rw [hp] at he
    cases he

theorem reachedKids_nodup (f : Role → Bool) (i : Nat) :
    (cs : List Expr) → ((reachedKids f i cs).map Prod.fst).Nodup
  | [] => by simp [reachedKids]
  | c :: cs => by
    rw [reachedKids, List.map_append, List.nodup_append]
    refine ⟨?_, reachedKids_nodup f (i + 1) cs, ?_⟩
    · split
      · rw [List.map_map]
        have := reachedList_nodup c
        rw [List.nodup_iff_pairwise_ne, List.pairwise_map] at this ⊢
        exact this.imp fun h he => h (by injection he)
      · exact List.nodup_nil
    · intro x hx y hy hxy
      subst hxy
      obtain ⟨q, hq, he⟩ := List.mem_map.1 hy
      obtain ⟨j, p, hj, hp⟩ := reachedKids_head hq
      split at hx
      · rw [List.map_map] at hx
        obtain ⟨q', _, he'⟩ := List.mem_map.1 hx
        rw [← he, hp] at he'
        injection he' with h1 _
        omega
      · cases hx

end

theorem visitAll_or (p q : Role → Bool) (h : ∀ r, ¬ (p r = true ∧ q r = true)) (cs : List Expr) :
    (visitAll p cs ++ visitAll q cs).Perm (visitAll (fun r => p r || q r) cs) := by
  induction cs with
  | nil => simp [visitAll]
  | cons c cs ih =>
    rw [visitAll, visitAll, visitAll]
    cases hp : p c.node.role with
    | true =>
      have hq : q c.node.role = false := by
        cases hq : q c.node.role with
        | false => rfl
        | true => exact absurd ⟨hp, hq⟩ (h _)
      simp only [hq, if_true, Bool.false_eq_true, if_false, List.nil_append, Bool.true_or,
        List.append_assoc]
      exact List.Perm.append_left _ ih
    | false =>
      cases hq : q c.node.role with
      | false => simpa using ih
      | true =>
        simp only [if_true, Bool.false_eq_true, if_false, List.nil_append, Bool.false_or]
        rw [← List.append_assoc]
        refine List.Perm.trans (List.Perm.append_right _ List.perm_append_comm) ?_
        rw [List.append_assoc]
        exact List.Perm.append_left _ ih

theorem named_child {root c : Expr} {i : Nat} (h : Named root) (hc : root.children[i]? = some c)
    (hr : looksInto root c.node.role = true) : Named c :=
  fun p e he => h (i :: p) e (.there hc hr he)

mutual

theorem visit_perm : (root : Expr) → Named root →
    (visit root).Perm ((reachedList root).flatMap fun q => own q.2)
  | .mk n cs, hn => by
    have hkids := fun f (hf : f = looksInto (.mk n cs)) => visitAll_perm f 0 cs (by
      intro j c hc hr
      exact named_child hn (root := .mk n cs) hc (hf ▸ hr))
    rw [reachedList, List.flatMap_cons]
    rw [visit]
    cases hform : n.form with
    | methodCall =>
      obtain ⟨hname, hrec⟩ := hn [] _ (.here _) hform
      have hce : isClient cs = onClient (.mk n cs) := isClient_eq n cs hrec
      cases hnm : n.name with
      | none => exact absurd hnm hname
      | some nm =>
        have hown : own (.mk n cs) = (if isClient cs then [] else chainedEdit n cs) ++
            rewriteMethod n cs := by
          show (match n.form with | .methodCall => _ | .call => _ | _ => _) = _
          rw [hform, hce]
          rfl
        rw [hown]
        dsimp only
        cases hcl : isClient cs with
        | true =>
          have hl : looksInto (.mk n cs) = fun _ => false := by
            funext r
            show (match n.form with | .methodCall => _ | .call => _ | f => _) = _
            rw [hform]
            show (!onClient (.mk n cs) && _) = false
            rw [← hce, hcl]
            rfl
          have hk := hkids _ rfl
          rw [hl] at hk
          have hv : ∀ l, visitAll (fun _ => false) l = [] := by
            intro l
            induction l with
            | nil => rfl
            | cons x xs ih => rw [visitAll, ih]; rfl
          rw [hv] at hk
          rw [hl, List.nil_perm.1 hk]
          simp
        | false =>
          have hl : looksInto (.mk n cs) = fun r => (r == .receiver || r == .arg) := by
            funext r
            show (match n.form with | .methodCall => _ | .call => _ | f => _) = _
            rw [hform]
            show (!onClient (.mk n cs) && _) = _
            rw [← hce, hcl]
            rfl
          have hk := hkids _ hl.symm
          rw [hl]
          have hor := visitAll_or (· == .receiver) (· == .arg)
            (by intro r h; cases r <;> simp at h) cs
          refine List.Perm.trans ?_ (List.Perm.append_left _ (hor.trans hk))
          simp only [Bool.false_eq_true, if_false]
          generalize visitAll (fun r => r == .receiver) cs = A
          generalize visitAll (fun r => r == .arg) cs = B
          generalize chainedEdit n cs = X
          generalize rewriteMethod n cs = Y
          -- A ++ X ++ B ++ Y ~ X ++ Y ++ (A ++ B)
          have h1 : (A ++ X ++ B ++ Y).Perm (X ++ A ++ B ++ Y) :=
            List.Perm.append_right _ (List.Perm.append_right _ List.perm_append_comm)
          refine h1.trans ?_
          rw [List.append_assoc X A B, List.append_assoc X, List.append_assoc X]
          exact List.Perm.append_left _ List.perm_append_comm
    | call =>
      have hown : own (.mk n cs) = n.builder.toList.map builderEdit := by
        show (match n.form with | .methodCall => _ | .call => _ | _ => _) = _
        rw [hform]
        rfl
      rw [hown]
      dsimp only
      cases hb : n.builder with
      | some b =>
        have hl : looksInto (.mk n cs) = fun _ => false := by
          funext r
          show (match n.form with | .methodCall => _ | .call => _ | f => _) = _
          rw [hform]
          show (n.builder.isNone && _) = false
          rw [hb]
          rfl
        have hk := hkids _ rfl
        rw [hl] at hk
        have hv : ∀ l, visitAll (fun _ => false) l = [] := by
          intro l
          induction l with
          | nil => rfl
          | cons x xs ih => rw [visitAll, ih]; rfl
        rw [hv] at hk
        rw [hl, List.nil_perm.1 hk]
        simp
      | none =>
        have hl : looksInto (.mk n cs) = fun r => (r == .callee || r == .arg) := by
          funext r
          show (match n.form with | .methodCall => _ | .call => _ | f => _) = _
          rw [hform]
          show (n.builder.isNone && _) = _
          rw [hb]
          rfl
        have hk := hkids _ hl.symm
        rw [hl]
        exact (visitAll_or (· == .callee) (· == .arg)
          (by intro r h; cases r <;> simp at h) cs).trans hk
    | _ =>
      all_goals
        have hown : own (.mk n cs) = unwrapDry n cs := by
          show (match n.form with | .methodCall => _ | .call => _ | _ => _) = _
          rw [hform]
          rfl
        have hl : looksInto (.mk n cs) = walked n.form := by
          funext r
          show (match n.form with | .methodCall => _ | .call => _ | f => _) = _
          rw [hform, walked_iff]
        rw [hown]
        dsimp only
        refine List.perm_append_comm.trans (List.Perm.append_left _ ?_)
        have hk := hkids _ hl.symm
        rw [hform] at hk hl
        rw [hl]
        exact hk

theorem visitAll_perm (f : Role → Bool) (i : Nat) : (cs : List Expr) →
    (∀ (j : Nat) (c : Expr), cs[j]? = some c → f c.node.role = true → Named c) →
    (visitAll f cs).Perm ((reachedKids f i cs).flatMap fun q => own q.2)
  | [], _ => by simp [visitAll, reachedKids]
  | c :: cs, h => by
    rw [visitAll, reachedKids, List.flatMap_append]
    refine List.Perm.append ?_ (visitAll_perm f (i + 1) cs fun j d hd => h (j + 1) d (by simpa using hd))
    split
    · rename_i hr
      have := visit_perm c (h 0 c rfl hr)
      rw [List.flatMap_map]
      exact this
    · exact List.Perm.refl _

end

/-! ## C50 -/

/-- C50, every call once. What the migration records is, up to order, what it records for each
expression it looks at, each of them counted once (by its path). Missing from the full claim:
the migration does not look into conditions, iterables, guards and arguments of client calls
(`C50_negation_condition`), and it rewrites calls with other receivers
(`C50_negation_receiver`). -/
theorem C50_once_partial (root : Expr) (hn : Named root) :
    ∃ exprs : List (List Nat × Expr), (exprs.map Prod.fst).Nodup ∧
      (∀ p e, (p, e) ∈ exprs ↔ Reached root p e) ∧
      (visit root).Perm (exprs.flatMap fun q => own q.2) :=
  ⟨reachedList root, reachedList_nodup root, mem_reachedList root, visit_perm root hn⟩

theorem rewrite_edit {name : String} {r a : Nat × Nat} {args : List Expr} {x : Edit}
    (h : Out.edit x ∈ rewrite name r a args) :
    (name, args.length) ∈ migrated ∧
      ((name = "balance" ∧ (x.start, x.stop) = r) ∨ (name ≠ "balance" ∧ (x.start, x.stop) = a)) := by
  unfold rewrite at h
  split at h
  · rename_i hn
    split at h
    · simp only [List.mem_cons, Out.edit.injEq, reduceCtorEq, List.not_mem_nil, or_false] at h
      subst h
      rcases hn with rfl | rfl
      · exact ⟨by simp [migrated], .inr ⟨by decide, rfl⟩⟩
      · exact ⟨by simp [migrated], .inr ⟨by decide, rfl⟩⟩
    · cases h
  · split at h
    · rename_i hn
      split at h
      · simp only [List.mem_cons, Out.edit.injEq, reduceCtorEq, List.not_mem_nil, or_false] at h
        subst h
        rcases hn with rfl | rfl
        · exact ⟨by simp [migrated], .inr ⟨by decide, rfl⟩⟩
        · exact ⟨by simp [migrated], .inr ⟨by decide, rfl⟩⟩
      · cases h
    · split at h
      · rename_i hn
        split at h
        · simp only [List.mem_cons, Out.edit.injEq, reduceCtorEq, List.not_mem_nil, or_false] at h
          subst h hn
          exact ⟨by simp [migrated], .inr ⟨by decide, rfl⟩⟩
        · cases h
      · split at h
        · split at h <;> simp at h
        · split at h
          · rename_i hn
            split at h
            · rename_i hl
              simp only [List.mem_cons, Out.edit.injEq, reduceCtorEq, List.not_mem_nil,
                or_false] at h
              subst h hn
              exact ⟨by simp [migrated, hl], .inl ⟨rfl, rfl⟩⟩
            · cases h
          · split at h
            · split at h <;> simp at h
            · cases h

theorem editsOf_append (a b : List Out) : editsOf (a ++ b) = editsOf a ++ editsOf b := by
  unfold editsOf
  rw [List.filterMap_append]

theorem rewrite_one (name : String) (r a : Nat × Nat) (args : List Expr) :
    (editsOf (rewrite name r a args)).length ≤ 1 := by
  unfold rewrite editsOf
  split
  · split <;> simp
  · split
    · split <;> simp
    · split
      · split <;> simp
      · split
        · split <;> simp
        · split
          · split <;> simp
          · split
            · split <;> simp
            · simp

theorem rewriteMethod_one (e : Expr) :
    (editsOf (rewriteMethod e.node e.children)).length ≤ 1 := by
  unfold rewriteMethod
  split
  · exact rewrite_one _ _ _ _
  · exact Nat.zero_le _

theorem chained_one (n : ENode) (cs : List Expr) : (editsOf (chainedEdit n cs)).length ≤ 1 := by
  unfold chainedEdit
  split
  · split
    · split
      · split
        · split
          · split
            · simp [editsOf]
            · exact Nat.zero_le _
          · exact Nat.zero_le _
        · exact Nat.zero_le _
      · exact Nat.zero_le _
    · exact Nat.zero_le _
  · exact Nat.zero_le _

theorem child_eq (r : Role) (e : Expr) :
    child r e = e.children.find? fun c => c.node.role == r := by
  unfold child
  congr 1

theorem arguments_eq (e : Expr) : argsOf e.children = arguments e := by
  cases e with
  | mk n cs => exact argsOf_eq n cs

theorem valuePart_iff (v : Expr) (t : List Char) : ValuePart v t ↔ t = valueCall v := by
  unfold valueCall
  constructor
  · intro h
    cases h with
    | zero h1 h2 => simp [h1, h2]
    | value h =>
      rw [if_neg]
      simpa using h
  · rintro rfl
    split
    · rename_i h
      simp only [Bool.and_eq_true, beq_iff_eq] at h
      exact .zero h.1 h.2
    · rename_i h
      simp only [Bool.and_eq_true, beq_iff_eq] at h
      exact .value h

theorem limitCall_part (l : Expr) : LimitPart l (limitCall l) := by
  unfold limitCall
  split
  · rename_i h
    simp only [Bool.and_eq_true, beq_iff_eq, Bool.or_eq_true] at h
    exact .none h
  · rename_i h
    simp only [Bool.and_eq_true, beq_iff_eq, Bool.or_eq_true] at h
    dsimp only
    rw [← child_eq, arguments_eq]
    split
    · rename_i hcall
      rw [beq_iff_eq] at hcall
      cases hf : child .callee l with
      | none =>
        exact .other h fun x ⟨_, f, hf', _⟩ => by rw [hf] at hf'; cases hf'
      | some f =>
        dsimp only
        split
        · rename_i hs
          simp only [Bool.and_eq_true, beq_iff_eq, Bool.or_eq_true] at hs
          cases ha : (arguments l).head? with
          | none =>
            exact .other h fun x ⟨_, f', _, _, _, ha'⟩ => by rw [ha] at ha'; cases ha'
          | some x => exact .some ⟨hcall, f, hf, hs.1, hs.2, ha⟩
        · rename_i hs
          simp only [Bool.and_eq_true, beq_iff_eq, Bool.or_eq_true] at hs
          refine .other h fun x ⟨_, f', hf', hp, ht, _⟩ => hs ?_
          rw [hf] at hf'
          cases hf'
          exact ⟨hp, ht⟩
    · rename_i hcall
      rw [beq_iff_eq] at hcall
      exact .other h fun x hx => hcall hx.1

theorem limitPart_unique {l : Expr} {t t' : List Char} (h : LimitPart l t) (h' : LimitPart l t') :
    t = t' := by
  cases h with
  | none h =>
    cases h' with
    | none => rfl
    | some hx =>
      have := hx.1
      rw [h.1] at this
      cases this
    | other hn => exact absurd h hn
  | some hx =>
    cases h' with
    | none h =>
      have := hx.1
      rw [h.1] at this
      cases this
    | some hy =>
      obtain ⟨_, _, _, _, _, h1⟩ := hx
      obtain ⟨_, _, _, _, _, h2⟩ := hy
      rw [h1] at h2
      cases h2
      rfl
    | other _ hn => exact absurd hx (hn _)
  | other hn hs =>
    cases h' with
    | none h => exact absurd h hn
    | some hx => exact absurd hx (hs _)
    | other => rfl

theorem limitPart_iff (l : Expr) (t : List Char) : LimitPart l t ↔ t = limitCall l :=
  ⟨fun h => limitPart_unique h (limitCall_part l), fun h => h ▸ limitCall_part l⟩

theorem newArgs_text {name : String} {es : List Expr} {t : List Char} (h : NewArgs name es t)
    (r : Nat × Nat) (a b : Nat) :
    rewrite name r (a, b) es = [.edit ⟨t, a, b, none⟩, .need .contracts] := by
  cases h with
  | instantiate h1 h2 =>
    rw [valuePart_iff] at h1
    rw [limitPart_iff] at h2
    subst h1 h2
    simp [rewrite, submitCall, List.intercalate]
  | instantiateDry h1 h2 =>
    rw [valuePart_iff] at h1
    rw [limitPart_iff] at h2
    subst h1 h2
    simp [rewrite, submitCall, List.intercalate]
  | call h1 h2 =>
    rw [valuePart_iff] at h1
    rw [limitPart_iff] at h2
    subst h1 h2
    simp [rewrite, submitCall, List.intercalate]
  | callDry h1 h2 =>
    rw [valuePart_iff] at h1
    rw [limitPart_iff] at h2
    subst h1 h2
    simp [rewrite, submitCall, List.intercalate]
  | upload h2 =>
    rw [limitPart_iff] at h2
    subst h2
    simp [rewrite, List.intercalate]

/-- The five cases of `rewrite`. -/
theorem rewrite_cases (name : String) (r : Nat × Nat) (a b : Nat) (es : List Expr) :
    (∃ t, NewArgs name es t) ∨
    (name = "balance" ∧ es.length = 1 ∧
      rewrite name r (a, b) es = [.edit ⟨chars! "free_balance", r.1, r.2, none⟩, .need .chain]) ∨
    ((name, es.length) ∈ [("create_and_fund_account", 2), ("runtime_call", 4)] ∧
      rewrite name r (a, b) es = [.need .chain]) ∨
    rewrite name r (a, b) es = [] := by
  have hv : ∀ v, ValuePart v (valueCall v) := fun v => (valuePart_iff v _).2 rfl
  by_cases h1 : name = "instantiate" ∨ name = "instantiate_dry_run"
  · match es with
    | [c, s, k, v, l] =>
      left
      rcases h1 with rfl | rfl
      · exact ⟨_, .instantiate (hv v) (limitCall_part l)⟩
      · exact ⟨_, .instantiateDry (hv v) (limitCall_part l)⟩
    | [] => exact .inr (.inr (.inr (by unfold rewrite; rw [if_pos h1])))
    | [_] => exact .inr (.inr (.inr (by unfold rewrite; rw [if_pos h1])))
    | [_, _] => exact .inr (.inr (.inr (by unfold rewrite; rw [if_pos h1])))
    | [_, _, _] => exact .inr (.inr (.inr (by unfold rewrite; rw [if_pos h1])))
    | [_, _, _, _] => exact .inr (.inr (.inr (by unfold rewrite; rw [if_pos h1])))
    | _ :: _ :: _ :: _ :: _ :: _ :: _ =>
      exact .inr (.inr (.inr (by unfold rewrite; rw [if_pos h1])))
  · by_cases h2 : name = "call" ∨ name = "call_dry_run"
    · match es with
      | [s, m, v, l] =>
        left
        rcases h2 with rfl | rfl
        · exact ⟨_, .call (hv v) (limitCall_part l)⟩
        · exact ⟨_, .callDry (hv v) (limitCall_part l)⟩
      | [] => exact .inr (.inr (.inr (by unfold rewrite; rw [if_neg h1, if_pos h2])))
      | [_] => exact .inr (.inr (.inr (by unfold rewrite; rw [if_neg h1, if_pos h2])))
      | [_, _] => exact .inr (.inr (.inr (by unfold rewrite; rw [if_neg h1, if_pos h2])))
      | [_, _, _] => exact .inr (.inr (.inr (by unfold rewrite; rw [if_neg h1, if_pos h2])))
      | _ :: _ :: _ :: _ :: _ :: _ =>
        exact .inr (.inr (.inr (by unfold rewrite; rw [if_neg h1, if_pos h2])))
    · by_cases h3 : name = "upload"
      · subst h3
        match es with
        | [c, s, l] => exact .inl ⟨_, .upload (limitCall_part l)⟩
        | [] => exact .inr (.inr (.inr rfl))
        | [_] => exact .inr (.inr (.inr rfl))
        | [_, _] => exact .inr (.inr (.inr rfl))
        | _ :: _ :: _ :: _ :: _ => exact .inr (.inr (.inr rfl))
      · right
        unfold rewrite
        rw [if_neg h1, if_neg h2, if_neg h3]
        by_cases h4 : name = "create_and_fund_account"
        · rw [if_pos h4]
          by_cases hl : es.length = 2
          · exact .inr (.inl ⟨by simp [h4, hl], by rw [if_pos hl]⟩)
          · exact .inr (.inr (by rw [if_neg hl]))
        · rw [if_neg h4]
          by_cases h5 : name = "balance"
          · rw [if_pos h5]
            by_cases hl : es.length = 1
            · exact .inl ⟨h5, hl, by rw [if_pos hl]⟩
            · exact .inr (.inr (by rw [if_neg hl]))
          · rw [if_neg h5]
            by_cases h6 : name = "runtime_call"
            · rw [if_pos h6]
              by_cases hl : es.length = 4
              · exact .inr (.inl ⟨by simp [h6, hl], by rw [if_pos hl]⟩)
              · exact .inr (.inr (by rw [if_neg hl]))
            · rw [if_neg h6]
              exact .inr (.inr rfl)

mutual

theorem lastMethodCall_sound : (e : Expr) → ∀ m, lastMethodCall e = some m → LastCall e m
  | .mk n cs => by
    intro m h
    rw [lastMethodCall] at h
    split at h
    · rename_i hf
      have h := Option.some.inj h
      subst h
      exact .call (e := .mk n cs) hf
    · rename_i hf
      split at h
      · rename_i hany
        obtain ⟨c, hc, hl⟩ := lastMethodTail_sound cs m h
        exact .tail hf (by rw [child_eq]; exact hc) hl
      · rename_i hany
        obtain ⟨c, cs', h1, h2, h3, h4⟩ := lastMethodFirst_sound cs m h
        refine .first hf ?_ h1 h2 h3 h4
        rw [child_eq, List.find?_eq_none]
        intro x hx hc
        exact hany (List.any_eq_true.2 ⟨x, hx, hc⟩)
    · rename_i hf
      obtain ⟨c, hc, hl⟩ := lastMethodOperand_sound cs m h
      exact .ret hf (by rw [child_eq]; exact hc) hl
    · cases h

theorem lastMethodTail_sound : (cs : List Expr) → ∀ m, lastMethodTail cs = some m →
    ∃ c, cs.find? (fun c => c.node.role == .tail) = some c ∧ LastCall c m
  | [] => by intro m h; rw [lastMethodTail] at h; cases h
  | c :: cs => by
    intro m h
    rw [lastMethodTail] at h
    rw [List.find?_cons]
    split at h
    · rename_i hc
      rw [hc]
      exact ⟨c, rfl, lastMethodCall_sound c m h⟩
    · rename_i hc
      rw [Bool.not_eq_true] at hc
      rw [hc]
      exact lastMethodTail_sound cs m h

theorem lastMethodFirst_sound : (cs : List Expr) → ∀ m, lastMethodFirst cs = some m →
    ∃ c cs', cs = c :: cs' ∧ c.node.role = .stmt ∧ c.node.form = .ret ∧ LastCall c m
  | [] => by intro m h; rw [lastMethodFirst] at h; cases h
  | c :: cs => by
    intro m h
    rw [lastMethodFirst] at h
    split at h
    · rename_i hc
      simp only [Bool.and_eq_true, beq_iff_eq] at hc
      exact ⟨c, cs, rfl, hc.1, hc.2, lastMethodCall_sound c m h⟩
    · cases h

theorem lastMethodOperand_sound : (cs : List Expr) → ∀ m, lastMethodOperand cs = some m →
    ∃ c, cs.find? (fun c => c.node.role == .operand) = some c ∧ LastCall c m
  | [] => by intro m h; rw [lastMethodOperand] at h; cases h
  | c :: cs => by
    intro m h
    rw [lastMethodOperand] at h
    rw [List.find?_cons]
    split at h
    · rename_i hc
      rw [hc]
      exact ⟨c, rfl, lastMethodCall_sound c m h⟩
    · rename_i hc
      rw [Bool.not_eq_true] at hc
      rw [hc]
      exact lastMethodOperand_sound cs m h

end

theorem lastMethodTail_find (cs : List Expr) :
    lastMethodTail cs = (cs.find? fun c => c.node.role == .tail).bind lastMethodCall := by
  induction cs with
  | nil => rw [lastMethodTail]; rfl
  | cons c cs ih =>
    rw [lastMethodTail, List.find?_cons]
    cases hc : c.node.role == .tail with
    | true => rfl
    | false => exact ih

theorem lastMethodOperand_find (cs : List Expr) :
    lastMethodOperand cs = (cs.find? fun c => c.node.role == .operand).bind lastMethodCall := by
  induction cs with
  | nil => rw [lastMethodOperand]; rfl
  | cons c cs ih =>
    rw [lastMethodOperand, List.find?_cons]
    cases hc : c.node.role == .operand with
    | true => rfl
    | false => exact ih

theorem lastMethodCall_complete {e : Expr} {m : ENode} (h : LastCall e m) :
    lastMethodCall e = some m := by
  induction h with
  | @call e hf =>
    cases e with
    | mk n cs =>
      rw [lastMethodCall, show n.form = .methodCall from hf]
      rfl
  | @tail e c m hf hc _ ih =>
    cases e with
    | mk n cs =>
      rw [child_eq] at hc
      have hc : cs.find? (fun c => c.node.role == .tail) = some c := hc
      rw [lastMethodCall, show n.form = .block from hf]
      dsimp only
      rw [if_pos, lastMethodTail_find, hc]
      · exact ih
      · exact List.any_eq_true.2 ⟨c, List.mem_of_find?_eq_some hc, by simpa using List.find?_some hc⟩
  | @first e c cs' m hf hnone hcs hr hret _ ih =>
    cases e with
    | mk n cs =>
      rw [child_eq, List.find?_eq_none] at hnone
      have hcs : cs = c :: cs' := hcs
      rw [lastMethodCall, show n.form = .block from hf]
      dsimp only
      rw [if_neg, hcs, lastMethodFirst, if_pos (by simp [hr, hret])]
      · exact ih
      · intro hany
        obtain ⟨x, hx, hx'⟩ := List.any_eq_true.1 hany
        exact hnone x hx hx'
  | @ret e c m hf hc _ ih =>
    cases e with
    | mk n cs =>
      rw [child_eq] at hc
      have hc : cs.find? (fun c => c.node.role == .operand) = some c := hc
      rw [lastMethodCall, show n.form = .ret from hf]
      dsimp only
      rw [lastMethodOperand_find, hc]
      exact ih

theorem isDryRun_iff (c : Expr) : isDryRun c = true ↔ c.node.form = .methodCall ∧
    ∃ name r, c.node.name = some (name, r) ∧ c.node.argList ≠ none ∧
      (name, (arguments c).length) ∈ [("instantiate_dry_run", 5), ("call_dry_run", 4)] := by
  unfold isDryRun
  rw [Bool.and_eq_true, beq_iff_eq, arguments_eq]
  refine and_congr Iff.rfl ?_
  cases hn : c.node.name with
  | none => simp
  | some nr =>
    obtain ⟨name, r⟩ := nr
    cases hl : c.node.argList with
    | none => simp
    | some l =>
      simp only [Bool.or_eq_true, Bool.and_eq_true, beq_iff_eq, Option.some.injEq,
        Prod.mk.injEq, List.mem_cons, List.not_mem_nil, or_false, ne_eq, reduceCtorEq,
        not_false_eq_true, true_and]
      constructor
      · intro h
        exact ⟨name, r, ⟨rfl, rfl⟩, h⟩
      · rintro ⟨name', r', ⟨rfl, rfl⟩, h⟩
        exact h

theorem chainedEdit_iff (e : Expr) (o : Out) : o ∈ chainedEdit e.node e.children ↔
    ∃ r c b m a a' l name nr, child .receiver e = some r ∧
      r.node.form = .call ∧ r.node.builder ≠ none ∧ e.node.name = some ("call", a, a') ∧
      e.node.argList = some l ∧ arguments e = [c] ∧ c.node.form = .closure ∧
      child .body c = some b ∧ LastCall b m ∧ m.name = some (name, nr) ∧
      o = .edit ⟨name.toList ++ (match m.argList with
        | some l => l.2.2
        | none => chars! "()"), a, e.node.stop, none⟩ := by
  unfold chainedEdit
  rw [← child_eq, arguments_eq]
  constructor
  · intro h
    split at h
    · rename_i r hr
      split at h
      · rename_i hb
        rw [Bool.and_eq_true, beq_iff_eq] at hb
        split at h
        · rename_i a a' l c h1 h2 h3
          split at h
          · rename_i hc
            rw [beq_iff_eq] at hc
            split at h
            · rename_i m hm
              split at h
              · rename_i name nr hname
                rw [Option.bind_eq_some_iff] at hm
                obtain ⟨b, hbody, hm⟩ := hm
                rw [← child_eq] at hbody
                rw [List.mem_singleton] at h
                refine ⟨r, c, b, m, a, a', l, name, nr, hr, hb.1,
                  Option.isSome_iff_ne_none.1 hb.2, h1, h2, h3, hc, hbody,
                  lastMethodCall_sound b m hm, hname, ?_⟩
                rw [h]
                cases m.argList <;> rfl
              · cases h
            · cases h
          · cases h
        · cases h
      · cases h
    · cases h
  · rintro ⟨r, c, b, m, a, a', l, name, nr, hr, hf, hb, h1, h2, h3, hc, hbody, hm, hname, rfl⟩
    rw [child_eq] at hbody
    have hb' : (r.node.form == .call && r.node.builder.isSome) = true := by
      rw [Bool.and_eq_true, beq_iff_eq]
      exact ⟨hf, Option.isSome_iff_ne_none.2 hb⟩
    rw [hr, h1, h2, h3]
    simp only [hb', if_true, hc, beq_self_eq_true, hbody, Option.bind_some,
      lastMethodCall_complete hm, hname]
    rw [List.mem_singleton]
    cases m.argList <;> rfl

/-- C50, what is recorded for an expression: exactly the cases of `Records`, and at most one
edit. -/
theorem C50_records (e : Expr) :
    (∀ o, o ∈ own e ↔ Records e o) ∧ (editsOf (own e)).length ≤ 1 := by
  constructor
  · intro o
    unfold own
    constructor
    · intro h
      split at h
      · rename_i hform
        rcases List.mem_append.1 h with h | h
        · split at h
          · cases h
          · rename_i hc
            rw [Bool.not_eq_true] at hc
            obtain ⟨r, c, b, m, a, a', l, name, nr, h1, h2, h3, h4, h5, h6, h7, h8, h9, h10, rfl⟩ :=
              (chainedEdit_iff e o).1 h
            exact .chained hform hc h1 h2 h3 h4 h5 h6 h7 h8 h9 h10
        · unfold rewriteMethod at h
          split at h
          · rename_i name r a b t h1 h2
            rw [arguments_eq] at h
            rcases rewrite_cases name r a b (arguments e) with ⟨x, hx⟩ | ⟨h3, h4, h5⟩ | ⟨h3, h4⟩ | h3
            · rw [newArgs_text hx r a b] at h
              simp only [List.mem_cons, List.not_mem_nil, or_false] at h
              rcases h with rfl | rfl
              · exact .args hform h1 h2 hx
              · exact .contracts hform h1 h2 hx
            · rw [h5] at h
              subst h3
              simp only [List.mem_cons, List.not_mem_nil, or_false] at h
              rcases h with rfl | rfl
              · exact .balance hform h1 h2 h4
              · exact .chain hform h1 h2 (by simp [h4])
            · rw [h4] at h
              rw [List.mem_singleton] at h
              subst h
              exact .chain hform h1 h2 (List.mem_cons_of_mem _ h3)
            · rw [h3] at h
              cases h
          · cases h
      · rename_i hform
        obtain ⟨⟨a, b, t⟩, hb, rfl⟩ := List.mem_map.1 h
        exact .builder hform (by simpa using hb)
      · unfold unwrapDry at h
        split at h
        · rename_i hc
          rw [Bool.and_eq_true, beq_iff_eq, List.any_eq_true] at hc
          obtain ⟨hform, c, hc, hd⟩ := hc
          rw [Bool.and_eq_true, beq_iff_eq, isDryRun_iff] at hd
          obtain ⟨hr, hf, name, r, h1, h2, h3⟩ := hd
          rw [List.mem_singleton] at h
          subst h
          exact .dry hform hc hr hf h1 h2 h3
        · cases h
    · intro h
      have meth : e.node.form = .methodCall → ∀ {name : String} {r : Nat × Nat} {a b : Nat}
          {t : List Char}, e.node.name = some (name, r) → e.node.argList = some (a, b, t) →
          o ∈ rewrite name r (a, b) (arguments e) → o ∈ (match e.node.form with
          | .methodCall => (if onClient e then [] else chainedEdit e.node e.children) ++
              rewriteMethod e.node e.children
          | .call => e.node.builder.toList.map builderEdit
          | _ => unwrapDry e.node e.children) := by
        intro hform name r a b t h1 h2 h3
        rw [hform]
        refine List.mem_append_right _ ?_
        unfold rewriteMethod
        rw [h1, h2, arguments_eq]
        exact h3
      cases h with
      | @args name r a b t text hform h1 h2 hx =>
        exact meth hform h1 h2 (by rw [newArgs_text hx]; simp)
      | @contracts name r a b t text hform h1 h2 hx =>
        exact meth hform h1 h2 (by rw [newArgs_text hx]; simp)
      | @balance a b l hform h1 h2 hl =>
        exact meth hform h1 (t := l.2.2) (a := l.1) (b := l.2.1) h2 (by simp [rewrite, hl])
      | @chain name r l hform h1 h2 hm =>
        refine meth hform h1 (t := l.2.2) (a := l.1) (b := l.2.1) h2 ?_
        simp only [List.mem_cons, Prod.mk.injEq, List.not_mem_nil, or_false] at hm
        rcases hm with ⟨rfl, hl⟩ | ⟨rfl, hl⟩ | ⟨rfl, hl⟩
        · simp [rewrite, hl]
        · simp [rewrite, hl]
        · simp [rewrite, hl]
      | chained hform hc h1 h2 h3 h4 h5 h6 h7 h8 h9 h10 =>
        rw [hform]
        refine List.mem_append_left _ ?_
        rw [if_neg (by simp [hc])]
        exact (chainedEdit_iff e _).2 ⟨_, _, _, _, _, _, _, _, _, h1, h2, h3, h4, h5, h6, h7, h8, h9,
          h10, rfl⟩
      | builder hform hb =>
        rw [hform, hb]
        exact List.mem_singleton.2 rfl
      | dry hform hc hr hf h1 h2 h3 =>
        rw [hform]
        show _ ∈ unwrapDry e.node e.children
        unfold unwrapDry
        rw [if_pos]
        · exact List.mem_singleton.2 rfl
        · rw [Bool.and_eq_true, beq_iff_eq, List.any_eq_true]
          refine ⟨hform, _, hc, ?_⟩
          rw [Bool.and_eq_true, beq_iff_eq, isDryRun_iff]
          exact ⟨hr, hf, _, _, h1, h2, h3⟩
  · unfold own
    split
    · rw [editsOf_append, List.length_append]
      have h1 := rewriteMethod_one e
      have h2 : (editsOf (if onClient e then [] else chainedEdit e.node e.children)).length ≤ 1 := by
        split
        · exact Nat.zero_le _
        · exact chained_one e.node e.children
      -- a chained call has one argument, a rewritten `call` has four
      cases hc : chainedEdit e.node e.children with
      | nil =>
        have : (editsOf (if onClient e then [] else ([] : List Out))).length = 0 := by
          split <;> rfl
        omega
      | cons o os =>
        have ho : o ∈ chainedEdit e.node e.children := by rw [hc]; simp
        obtain ⟨r, c, b, m, a, a', l, name, nr, _, _, _, h4, h5, h6, _⟩ := (chainedEdit_iff e o).1 ho
        have : rewriteMethod e.node e.children = [] := by
          unfold rewriteMethod
          rw [h4, h5, arguments_eq, h6]
          rfl
        rw [this]
        rw [hc] at h2
        show _ + 0 ≤ 1
        omega
    · cases e.node.builder <;> simp [editsOf, builderEdit]
    · unfold unwrapDry
      split <;> simp [editsOf]

/-- C50, only calls on `client`. If the six method names are used (with the old number of
arguments) only on `client`, every edit of the migration rewrites a method call on `client`, a
message builder call, the call chained to one, or the result of a dry run. -/
theorem C50_calls_partial (root : Expr) (hn : Named root)
    (hclient : ∀ p e, Reached root p e → e.node.form = .methodCall → ∀ name r,
      e.node.name = some (name, r) → (name, (arguments e).length) ∈ migrated → onClient e = true)
    (x : Edit) (hx : Out.edit x ∈ visit root) :
    ∃ p e, Reached root p e ∧ Records e (.edit x) ∧
      (e.node.form = .methodCall → (∃ r, child .receiver e = some r ∧ r.node.builder ≠ none) ∨
        onClient e = true) := by
  rw [(visit_perm root hn).mem_iff, List.mem_flatMap] at hx
  obtain ⟨⟨p, e⟩, hq, hx⟩ := hx
  have hr := (mem_reachedList root p e).1 hq
  have hrec := ((C50_records e).1 (.edit x)).1 hx
  refine ⟨p, e, hr, hrec, fun hform => ?_⟩
  have hmig : ∀ {name : String} {es : List Expr} {t : List Char}, NewArgs name es t →
      (name, es.length) ∈ migrated := by
    intro name es t h
    cases h <;> simp [migrated]
  cases hrec with
  | args _ h1 h2 h3 => exact .inr (hclient p e hr hform _ _ h1 (hmig h3))
  | balance _ h1 h2 h3 => exact .inr (hclient p e hr hform _ _ h1 (by simp [migrated, h3]))
  | chained _ _ h1 h2 h3 => exact .inl ⟨_, h1, h3⟩
  | builder h => rw [hform] at h; cases h
  | dry h => rw [hform] at h; cases h

/-- C50, a call on `client` with the old number of arguments is rewritten: one edit which replaces
the argument list, and nothing else, whatever the arguments are. -/
theorem C50_text (e : Expr) (name : String) (r : Nat × Nat) (a b : Nat)
    (t : List Char) (hform : e.node.form = .methodCall) (hname : e.node.name = some (name, r))
    (hargs : e.node.argList = some (a, b, t))
    (hrec : (e.children.filter fun c => c.node.role = .receiver).length ≤ 1)
    (hc : onClient e = true)
    (hm : (name, (arguments e).length) ∈ migrated) (hb : name ≠ "balance") :
    ∃ text, NewArgs name (arguments e) text ∧
      visit e = [.edit ⟨text, a, b, none⟩, .need .contracts] := by
  have hv : visit e = rewrite name r (a, b) (arguments e) := by
    cases e with
    | mk n cs =>
      have hc : isClient cs = true := by rw [isClient_eq n cs hrec]; exact hc
      rw [visit, show n.form = .methodCall from hform]
      dsimp only
      rw [hc, show n.name = _ from hname]
      unfold rewriteMethod
      rw [show n.name = _ from hname, show n.argList = _ from hargs, argsOf_eq n]
      rfl
  rw [hv]
  rcases rewrite_cases name r a b (arguments e) with ⟨x, hx⟩ | ⟨h3, _⟩ | ⟨h3, _⟩ | h3
  · exact ⟨x, hx, newArgs_text hx r a b⟩
  · exact absurd h3 hb
  · exfalso
    simp only [migrated, List.mem_cons, Prod.mk.injEq, List.not_mem_nil, or_false] at hm h3
    rcases h3 with ⟨rfl, _⟩ | ⟨rfl, _⟩ <;> simp at hm
  · exfalso
    have hlen5 : ∀ l : List Expr, l.length = 5 → ∃ c s k v w, l = [c, s, k, v, w] := by
      intro l hl
      match l, hl with
      | [c, s, k, v, w], _ => exact ⟨c, s, k, v, w, rfl⟩
    have hlen4 : ∀ l : List Expr, l.length = 4 → ∃ c s k v, l = [c, s, k, v] := by
      intro l hl
      match l, hl with
      | [c, s, k, v], _ => exact ⟨c, s, k, v, rfl⟩
    have hlen3 : ∀ l : List Expr, l.length = 3 → ∃ c s k, l = [c, s, k] := by
      intro l hl
      match l, hl with
      | [c, s, k], _ => exact ⟨c, s, k, rfl⟩
    simp only [migrated, List.mem_cons, Prod.mk.injEq, List.not_mem_nil, or_false] at hm
    rcases hm with ⟨rfl, hl⟩ | ⟨rfl, hl⟩ | ⟨rfl, hl⟩ | ⟨rfl, hl⟩ | ⟨rfl, hl⟩ | ⟨rfl, hl⟩
    · obtain ⟨c, s, k, v, w, he⟩ := hlen5 _ hl
      rw [he] at h3
      simp [rewrite] at h3
    · obtain ⟨c, s, k, v, w, he⟩ := hlen5 _ hl
      rw [he] at h3
      simp [rewrite] at h3
    · obtain ⟨s, m, v, w, he⟩ := hlen4 _ hl
      rw [he] at h3
      simp [rewrite] at h3
    · obtain ⟨s, m, v, w, he⟩ := hlen4 _ hl
      rw [he] at h3
      simp [rewrite] at h3
    · obtain ⟨c, s, w, he⟩ := hlen3 _ hl
      rw [he] at h3
      simp [rewrite] at h3
    · exact absurd rfl hb

/-- An expression without structure, for examples. -/
def leaf (form : Form) (role : Role) (text : List Char) (start : Nat) (zero : Bool := false) :
    Expr :=
  .mk { form, role, text, start, stop := start + text.length, intZero := zero } []

/-- The method call `recv.balance(a)` at offset `o`, for examples. -/
def balanceCall (role : Role) (recv : List Char) (o : Nat) : Expr :=
  .mk { form := .methodCall, role, text := recv ++ chars! ".balance(a)", start := o
        stop := o + recv.length + 11
        name := some ("balance", o + recv.length + 1, o + recv.length + 8)
        argList := some (o + recv.length + 8, o + recv.length + 11, chars! "(a)") }
    [leaf .path .receiver recv o, leaf .path .arg ['a'] (o + recv.length + 9)]

/-- C50 is false: a call of `balance` on any other receiver is rewritten too. -/
theorem C50_negation_receiver :
    visit (balanceCall .tail (chars! "wallet") 0) =
        [.edit ⟨chars! "free_balance", 7, 14, none⟩, .need .chain] ∧
      onClient (balanceCall .tail (chars! "wallet") 0) = false := by
  decide

/-- C50 is false: a client call in the condition of an `if` is not rewritten. -/
theorem C50_negation_condition :
    visit (.mk { form := .ifElse, role := .tail, text := chars! "if client.balance(a) {}", start := 0
                 stop := 23 }
      [balanceCall .condition (chars! "client") 3,
        .mk { form := .block, role := .thenBranch, text := chars! "{}", start := 21, stop := 23 } []]) = [] ∧
      onClient (balanceCall .condition (chars! "client") 3) = true := by
  decide

/-- A call in a block is found and rewritten. -/
example :
    visit (.mk { form := .block, role := .body, text := chars! "{ client.balance(a) }", start := 0
                 stop := 21 } [balanceCall .tail (chars! "client") 2]) =
      [.edit ⟨chars! "free_balance", 9, 16, none⟩, .need .chain] := by decide

/-- `client.instantiate(c, s, k, 0, Some(l))` is rewritten as the new API wants. -/
example :
    visit (.mk { form := .methodCall, role := .tail, start := 0, stop := 41
                 text := chars! "client.instantiate(c, s, k, 0, Some(l))"
                 name := some ("instantiate", 7, 18)
                 argList := some (18, 39, chars! "(c, s, k, 0, Some(l))") }
        [leaf .path .receiver (chars! "client") 0, leaf .path .arg ['c'] 19,
          leaf .path .arg ['s'] 22, leaf .path .arg ['k'] 25, leaf .literal .arg ['0'] 28 true,
          .mk { form := .call, role := .arg, text := chars! "Some(l)", start := 31, stop := 38 }
            [leaf .path .callee (chars! "Some") 31, leaf .path .arg ['l'] 36]]) =
      [.edit ⟨chars! "(c, s, k).storage_deposit_limit(l).submit()", 18, 39, none⟩,
        .need .contracts] := by decide +kernel

/-! ## C49 for e2e test bodies -/

/-- Two edits overlap: they share a character, or one inserts strictly inside the range of the
other. -/
def Overlap (x y : Edit) : Prop := x.start < y.stop ∧ y.start < x.stop

/-- The ranges of an expression and of its direct parts are nested and ordered, as in every
syntax tree. -/
def RangesOk (e : Expr) : Prop :=
  e.node.start ≤ e.node.stop ∧
  (∀ c ∈ e.children, e.node.start ≤ c.node.start ∧ c.node.start ≤ c.node.stop ∧
    c.node.stop ≤ e.node.stop) ∧
  e.children.Pairwise (fun c d => c.node.stop ≤ d.node.start) ∧
  (∀ name a b, e.node.name = some (name, a, b) → e.node.start ≤ a ∧ a ≤ b ∧ b ≤ e.node.stop ∧
    (∀ c ∈ e.children, c.node.role = .receiver → c.node.stop ≤ a)) ∧
  (∀ a b t, e.node.argList = some (a, b, t) → e.node.start ≤ a ∧ a ≤ b ∧ b ≤ e.node.stop) ∧
  (∀ a b t, e.node.builder = some (a, b, t) → e.node.start ≤ a ∧ a ≤ b ∧ b ≤ e.node.stop)

/-- The migrated methods are used (with the old number of arguments) only on `client`, and nothing
in the arguments of a call chained to a message builder call is replaced. -/
def OnlyClient (root : Expr) : Prop :=
  ∀ p e, Reached root p e → e.node.form = .methodCall → onClient e = false →
    (∀ name r, e.node.name = some (name, r) → (name, (arguments e).length) ∉ migrated) ∧
      ((∀ r, child .receiver e = some r → r.node.builder = none) ∨
        ∀ a ∈ arguments e, ∀ q f, Reached a q f → ∀ x, ¬ Records f (.edit x))

theorem mem_editsOf {os : List Out} {x : Edit} : x ∈ editsOf os ↔ Out.edit x ∈ os := by
  unfold editsOf
  rw [List.mem_filterMap]
  constructor
  · rintro ⟨o, ho, h⟩
    cases o with
    | edit e => cases h; exact ho
    | need t => cases h
  · intro h
    exact ⟨_, h, rfl⟩

/-- The edit lies in a range. -/
def Inside (x : Edit) (a b : Nat) : Prop := a ≤ x.start ∧ x.start ≤ x.stop ∧ x.stop ≤ b

theorem not_overlap_of_le {x y : Edit} {a b c d : Nat} (hx : Inside x a b) (hy : Inside y c d)
    (h : b ≤ c) : ¬ Overlap x y ∧ ¬ Overlap y x := by
  unfold Inside at hx hy
  unfold Overlap
  omega

theorem rewriteMethod_inside {e : Expr} (hw : RangesOk e) {x : Edit}
    (hx : x ∈ editsOf (rewriteMethod e.node e.children)) :
    Inside x e.node.start e.node.stop := by
  rw [mem_editsOf] at hx
  unfold rewriteMethod at hx
  split at hx
  · rename_i name r a b t h1 h2
    obtain ⟨_, h | h⟩ := rewrite_edit hx
    · obtain ⟨h3, h4, h5, _⟩ := hw.2.2.2.1 name r.1 r.2 h1
      have h6 : x.start = r.1 ∧ x.stop = r.2 := by rw [← h.2]; exact ⟨rfl, rfl⟩
      unfold Inside
      omega
    · obtain ⟨h3, h4, h5⟩ := hw.2.2.2.2.1 a b t h2
      have h6 : x.start = a ∧ x.stop = b := by
        have := h.2
        injection this with h7 h8
        exact ⟨h7, h8⟩
      unfold Inside
      omega
  · cases hx

theorem chained_spec {e : Expr} (hw : RangesOk e) {x : Edit}
    (hx : x ∈ editsOf (chainedEdit e.node e.children)) :
    Inside x e.node.start e.node.stop ∧
      ∀ c ∈ e.children, c.node.role = .receiver → c.node.stop ≤ x.start := by
  rw [mem_editsOf] at hx
  unfold chainedEdit at hx
  split at hx
  · split at hx
    · split at hx
      · rename_i a b _ _ _ h1 _ _
        split at hx
        · split at hx
          · split at hx
            · rw [List.mem_singleton] at hx
              injection hx with hx
              subst hx
              obtain ⟨h3, h4, h5, h6⟩ := hw.2.2.2.1 _ _ _ h1
              exact ⟨⟨h3, Nat.le_trans h4 h5, Nat.le_refl _⟩, h6⟩
            · cases hx
          · cases hx
        · cases hx
      · cases hx
    · cases hx
  · cases hx

theorem pairwise_of_le_one {l : List Edit} (h : l.length ≤ 1) (R : Edit → Edit → Prop) :
    l.Pairwise R := by
  match l, h with
  | [], _ => exact List.Pairwise.nil
  | [x], _ => exact List.pairwise_singleton _ _
  | _ :: _ :: _, h => simp at h

/-- The edits of an expression lie in its range and do not overlap. -/
def Good (a b : Nat) (l : List Edit) : Prop :=
  (∀ x ∈ l, Inside x a b) ∧ l.Pairwise fun x y => ¬ Overlap x y

theorem visitAll_mem {f : Role → Bool} {cs : List Expr} {x : Edit}
    (h : x ∈ editsOf (visitAll f cs)) :
    ∃ (i : Nat) (c : Expr), cs[i]? = some c ∧ f c.node.role = true ∧ x ∈ editsOf (visit c) := by
  induction cs with
  | nil => simp [visitAll, editsOf] at h
  | cons c cs ih =>
    rw [visitAll, editsOf_append] at h
    rcases List.mem_append.1 h with h | h
    · split at h
      · rename_i hr
        exact ⟨0, c, rfl, hr, h⟩
      · cases h
    · obtain ⟨i, d, hd, hr, hx⟩ := ih h
      exact ⟨i + 1, d, by simpa using hd, hr, hx⟩

theorem visitAll_good {f : Role → Bool} {cs : List Expr} {a b : Nat}
    (hin : ∀ c ∈ cs, a ≤ c.node.start ∧ c.node.start ≤ c.node.stop ∧ c.node.stop ≤ b)
    (hord : cs.Pairwise fun c d => c.node.stop ≤ d.node.start)
    (h : ∀ (i : Nat) (c : Expr), cs[i]? = some c → f c.node.role = true →
      Good c.node.start c.node.stop (editsOf (visit c))) :
    Good a b (editsOf (visitAll f cs)) := by
  refine ⟨?_, ?_⟩
  · intro x hx
    obtain ⟨i, c, hc, hr, hx⟩ := visitAll_mem hx
    have h1 := (h i c hc hr).1 x hx
    have h2 := hin c (List.mem_of_getElem? hc)
    unfold Inside at h1 ⊢
    omega
  · induction cs with
    | nil => simp [visitAll, editsOf]
    | cons c cs ih =>
      rw [visitAll, editsOf_append, List.pairwise_append]
      rw [List.pairwise_cons] at hord
      have h' : ∀ (i : Nat) (d : Expr), cs[i]? = some d → f d.node.role = true →
          Good d.node.start d.node.stop (editsOf (visit d)) :=
        fun i d hd => h (i + 1) d (by simpa using hd)
      refine ⟨?_, ih (fun d hd => hin d (List.mem_cons_of_mem _ hd)) hord.2 h', ?_⟩
      · split
        · rename_i hr
          exact (h 0 c rfl hr).2
        · exact List.Pairwise.nil
      · intro x hx y hy
        split at hx
        · rename_i hr
          have h1 := (h 0 c rfl hr).1 x hx
          obtain ⟨i, d, hd, hr', hy⟩ := visitAll_mem hy
          have h2 := (h' i d hd hr').1 y hy
          exact (not_overlap_of_le h1 h2 (hord.1 d (List.mem_of_getElem? hd))).1
        · cases hx

theorem good_append {a b : Nat} {l m : List Edit} (hl : Good a b l) (hm : Good a b m)
    (h : ∀ x ∈ l, ∀ y ∈ m, ¬ Overlap x y) : Good a b (l ++ m) := by
  refine ⟨fun x hx => ?_, List.pairwise_append.2 ⟨hl.2, hm.2, h⟩⟩
  rcases List.mem_append.1 hx with hx | hx
  · exact hl.1 x hx
  · exact hm.1 x hx

theorem good_nil (a b : Nat) : Good a b [] := ⟨fun _ h => (nomatch h), List.Pairwise.nil⟩

theorem rewriteMethod_nil {e : Expr}
    (h : ∀ name r, e.node.name = some (name, r) → (name, (arguments e).length) ∉ migrated) :
    editsOf (rewriteMethod e.node e.children) = [] := by
  rw [List.eq_nil_iff_forall_not_mem]
  intro x hx
  rw [mem_editsOf] at hx
  unfold rewriteMethod at hx
  split at hx
  · rename_i name r a b t h1 h2
    rw [arguments_eq] at hx
    exact h name r h1 (rewrite_edit hx).1
  · cases hx

theorem chained_nil {e : Expr} (h : ∀ r, child .receiver e = some r → r.node.builder = none) :
    editsOf (chainedEdit e.node e.children) = [] := by
  rw [List.eq_nil_iff_forall_not_mem]
  intro x hx
  rw [mem_editsOf] at hx
  obtain ⟨r, c, b, m, a, a', l, name, nr, h1, h2, h3, _⟩ := (chainedEdit_iff e _).1 hx
  exact h3 (h r h1)

theorem args_nil {e : Expr} (hn : ∀ a ∈ arguments e, Named a)
    (h : ∀ a ∈ arguments e, ∀ q f, Reached a q f → ∀ x, ¬ Records f (.edit x)) :
    editsOf (visitAll (· == .arg) e.children) = [] := by
  rw [List.eq_nil_iff_forall_not_mem]
  intro x hx
  obtain ⟨i, c, hc, hr, hx⟩ := visitAll_mem hx
  have hca : c ∈ arguments e := by
    unfold arguments
    rw [List.mem_filter]
    exact ⟨List.mem_of_getElem? hc, by simpa using hr⟩
  rw [mem_editsOf, (visit_perm c (hn c hca)).mem_iff, List.mem_flatMap] at hx
  obtain ⟨⟨p, f⟩, hq, hx⟩ := hx
  exact h c hca p f ((mem_reachedList c p f).1 hq) x (((C50_records f).1 _).1 hx)

mutual

theorem visit_good : (root : Expr) → Named root → OnlyClient root →
    (∀ p e, Reached root p e → RangesOk e) →
    Good root.node.start root.node.stop (editsOf (visit root))
  | .mk n cs, hn, ho, hw => by
    have hw0 := hw [] _ (.here _)
    have hkids := fun f (hf : ∀ r, f r = true → looksInto (.mk n cs) r = true) =>
      visitAll_good (f := f) hw0.2.1 hw0.2.2.1 (kids_good f cs (by
        intro j c hc hr
        exact ⟨named_child hn hc (hf _ hr),
          fun p e he => ho (j :: p) e (.there hc (hf _ hr) he),
          fun p e he => hw (j :: p) e (.there hc (hf _ hr) he)⟩))
    rw [visit]
    cases hform : n.form with
    | methodCall =>
      obtain ⟨hname, hrec⟩ := hn [] _ (.here _) hform
      have hce : isClient cs = onClient (.mk n cs) := isClient_eq n cs hrec
      cases hnm : n.name with
      | none => exact absurd hnm hname
      | some nm =>
        dsimp only
        cases hcl : isClient cs with
        | true =>
          show Good _ _ (editsOf ([] ++ rewriteMethod n cs))
          rw [List.nil_append]
          exact ⟨fun x hx => rewriteMethod_inside hw0 hx,
            pairwise_of_le_one (rewriteMethod_one (.mk n cs)) _⟩
        | false =>
          obtain ⟨h1, h2⟩ := ho [] _ (.here _) hform (hce ▸ hcl)
          have h1 : editsOf (rewriteMethod n cs) = [] := rewriteMethod_nil h1
          have hlk : ∀ r, (r == Role.receiver || r == Role.arg) = true →
              looksInto (.mk n cs) r = true := by
            intro r hr
            show (match n.form with | .methodCall => _ | .call => _ | f => _) = _
            rw [hform]
            show (!onClient (.mk n cs) && _) = true
            rw [← hce, hcl, hr]
            rfl
          have hrecv := hkids (· == .receiver) (fun r hr => hlk r (by simp [hr]))
          have harg := hkids (· == .arg) (fun r hr => hlk r (by simp [hr]))
          have hch : Good n.start n.stop (editsOf (chainedEdit n cs)) :=
            ⟨fun x hx => (chained_spec hw0 hx).1, pairwise_of_le_one (chained_one n cs) _⟩
          simp only [Bool.false_eq_true, if_false, editsOf_append, h1, List.append_nil]
          -- receiver edits against chained edits
          have hrc : ∀ x ∈ editsOf (visitAll (· == .receiver) cs),
              ∀ y ∈ editsOf (chainedEdit n cs), ¬ Overlap x y := by
            intro x hx y hy
            obtain ⟨i, c, hc, hr, hx⟩ := visitAll_mem hx
            have hrec : c.node.role = .receiver := by simpa using hr
            have hl := hlk c.node.role (by simp [hrec])
            have hgood := kids_good (looksInto (.mk n cs)) cs (by
              intro j d hd hr
              exact ⟨named_child hn hd hr, fun p e he => ho (j :: p) e (.there hd hr he),
                fun p e he => hw (j :: p) e (.there hd hr he)⟩) i c hc hl
            have h3 := hgood.1 x hx
            have h4 := (chained_spec hw0 hy).2 c (List.mem_of_getElem? hc) hrec
            unfold Inside at h3
            unfold Overlap
            omega
          refine good_append (good_append hrecv hch hrc) harg ?_
          intro x hx y hy
          rcases List.mem_append.1 hx with hx | hx
          · -- receiver against arguments
            obtain ⟨i, c, hc, hr, hx⟩ := visitAll_mem hx
            obtain ⟨j, d, hd, hr', hy⟩ := visitAll_mem hy
            have hrec : c.node.role = .receiver := by simpa using hr
            have hrec' : d.node.role = .arg := by simpa using hr'
            have hg := kids_good (looksInto (.mk n cs)) cs (by
              intro j d hd hr
              exact ⟨named_child hn hd hr, fun p e he => ho (j :: p) e (.there hd hr he),
                fun p e he => hw (j :: p) e (.there hd hr he)⟩)
            have h3 := (hg i c hc (hlk _ (by simp [hrec]))).1 x hx
            have h4 := (hg j d hd (hlk _ (by simp [hrec']))).1 y hy
            have hij : i ≠ j := by
              rintro rfl
              rw [hc] at hd
              cases hd
              rw [hrec] at hrec'
              cases hrec'
            have hp := List.pairwise_iff_getElem.1 hw0.2.2.1
            have hi := (List.getElem?_eq_some_iff.1 hc)
            have hj := (List.getElem?_eq_some_iff.1 hd)
            obtain ⟨hil, hic⟩ := hi
            obtain ⟨hjl, hjd⟩ := hj
            rcases Nat.lt_or_gt_of_ne hij with hlt | hlt
            · have h5 : cs[i].node.stop ≤ cs[j].node.start := hp i j hil hjl hlt
              rw [hic, hjd] at h5
              exact (not_overlap_of_le h3 h4 h5).1
            · have h5 : cs[j].node.stop ≤ cs[i].node.start := hp j i hjl hil hlt
              rw [hic, hjd] at h5
              exact (not_overlap_of_le h4 h3 h5).2
          · rcases h2 with h2 | h2
            · rw [show editsOf (chainedEdit n cs) = [] from chained_nil h2] at hx
              cases hx
            · rw [show editsOf (visitAll (· == .arg) cs) = [] from args_nil (fun a ha => by
                have ha := List.mem_filter.1 ha
                obtain ⟨i, hi⟩ := List.getElem?_of_mem ha.1
                exact named_child hn hi (hlk _ (by
                  have := ha.2
                  rw [decide_eq_true_eq] at this
                  rw [this]
                  rfl))) h2] at hy
              cases hy
    | call =>
      dsimp only
      cases hb : n.builder with
      | some b =>
        obtain ⟨h3, h4, h5⟩ := hw0.2.2.2.2.2 b.1 b.2.1 b.2.2 hb
        refine ⟨fun x hx => ?_, pairwise_of_le_one (by simp [editsOf, builderEdit]) _⟩
        rw [mem_editsOf] at hx
        rw [List.mem_singleton] at hx
        injection hx with hx
        subst hx
        exact ⟨h3, h4, h5⟩
      | none =>
        have hlk : ∀ r, (r == Role.callee || r == Role.arg) = true →
            looksInto (.mk n cs) r = true := by
          intro r hr
          show (match n.form with | .methodCall => _ | .call => _ | f => _) = _
          rw [hform]
          show (n.builder.isNone && _) = true
          rw [hb, hr]
          rfl
        rw [editsOf_append]
        refine good_append (hkids (· == .callee) (fun r hr => hlk r (by simp [hr])))
          (hkids (· == .arg) (fun r hr => hlk r (by simp [hr]))) ?_
        intro x hx y hy
        obtain ⟨i, c, hc, hr, hx⟩ := visitAll_mem hx
        obtain ⟨j, d, hd, hr', hy⟩ := visitAll_mem hy
        have hrec : c.node.role = .callee := by simpa using hr
        have hrec' : d.node.role = .arg := by simpa using hr'
        have hg := kids_good (looksInto (.mk n cs)) cs (by
          intro j d hd hr
          exact ⟨named_child hn hd hr, fun p e he => ho (j :: p) e (.there hd hr he),
            fun p e he => hw (j :: p) e (.there hd hr he)⟩)
        have h3 := (hg i c hc (hlk _ (by simp [hrec]))).1 x hx
        have h4 := (hg j d hd (hlk _ (by simp [hrec']))).1 y hy
        have hij : i ≠ j := by
          rintro rfl
          rw [hc] at hd
          cases hd
          rw [hrec] at hrec'
          cases hrec'
        have hp := List.pairwise_iff_getElem.1 hw0.2.2.1
        obtain ⟨hil, hic⟩ := List.getElem?_eq_some_iff.1 hc
        obtain ⟨hjl, hjd⟩ := List.getElem?_eq_some_iff.1 hd
        rcases Nat.lt_or_gt_of_ne hij with hlt | hlt
        · have h5 : cs[i].node.stop ≤ cs[j].node.start := hp i j hil hjl hlt
          rw [hic, hjd] at h5
          exact (not_overlap_of_le h3 h4 h5).1
        · have h5 : cs[j].node.stop ≤ cs[i].node.start := hp j i hjl hil hlt
          rw [hic, hjd] at h5
          exact (not_overlap_of_le h4 h3 h5).2
    | _ =>
      all_goals
        dsimp only
        rw [editsOf_append]
        have hg := hkids (walked n.form) (fun r hr => by
          show (match n.form with | .methodCall => _ | .call => _ | f => _) = _
          rw [hform, walked_iff] at hr
          rw [hform]
          exact hr)
        rw [hform] at hg
        refine good_append hg ?_ ?_
        · refine ⟨fun x hx => ?_, ?_⟩
          · rw [mem_editsOf] at hx
            unfold unwrapDry at hx
            split at hx
            · rw [List.mem_singleton] at hx
              injection hx with hx
              subst hx
              exact ⟨hw0.1, Nat.le_refl _, Nat.le_refl _⟩
            · cases hx
          · unfold unwrapDry
            split
            · exact List.pairwise_singleton _ _
            · exact List.Pairwise.nil
        · intro x hx y hy
          have h3 := hg.1 x hx
          rw [mem_editsOf] at hy
          unfold unwrapDry at hy
          split at hy
          · rw [List.mem_singleton] at hy
            injection hy with hy
            subst hy
            unfold Inside at h3
            unfold Overlap
            have : (Expr.mk n cs).node = n := rfl
            rw [this] at h3
            dsimp only
            omega
          · cases hy

theorem kids_good (f : Role → Bool) : (cs : List Expr) →
    (∀ (j : Nat) (c : Expr), cs[j]? = some c → f c.node.role = true → Named c ∧ OnlyClient c ∧
      ∀ p e, Reached c p e → RangesOk e) →
    ∀ (i : Nat) (c : Expr), cs[i]? = some c → f c.node.role = true →
      Good c.node.start c.node.stop (editsOf (visit c))
  | [], _ => fun i c hc => by simp at hc
  | d :: ds, h => fun i c hc hr => by
    cases i with
    | zero =>
      have hcd : d = c := by simpa using hc
      obtain ⟨h1, h2, h3⟩ := h 0 d rfl (by rw [hcd]; exact hr)
      have := visit_good d h1 h2 h3
      rw [hcd] at this
      exact this
    | succ i =>
      exact kids_good f ds (fun j x hx => h (j + 1) x (by simpa using hx)) i c (by simpa using hc) hr

end

/-- C49 for the body of an e2e test: when no method call is rewritten whose receiver is not
`client` and nothing is rewritten inside the arguments of a call chained to a message builder
call, no two edits overlap. Missing from the full claim: exactly these two cases
(`C49_negation_nested`, `C49_negation_chained`), and the interaction with the other parts of
the migration (`C49_negation_event` in `Verif.Migrate.DeriveProps`). -/
theorem C49_body_partial (root : Expr) (hn : Named root) (ho : OnlyClient root)
    (hw : ∀ p e, Reached root p e → RangesOk e) :
    (editsOf (visit root)).Pairwise fun x y => ¬ Overlap x y :=
  (visit_good root hn ho hw).2

theorem forall_reached (root : Expr) (P : Expr → Prop)
    (h : ∀ q ∈ reachedList root, P q.2) : ∀ p e, Reached root p e → P e :=
  fun p e he => h (p, e) ((mem_reachedList root p e).2 he)

/-- `{ f(client.balance(a)); client.balance(a) }`, for examples. -/
def twoCalls : Expr :=
  .mk { form := .block, role := .body, text := [], start := 0, stop := 45 }
    [.mk { form := .call, role := .stmt, text := [], start := 2, stop := 22 }
      [leaf .path .callee ['f'] 2, balanceCall .arg (chars! "client") 4],
      balanceCall .tail (chars! "client") 25]

/-- The hypotheses hold for a block with two client calls, one nested in another call. -/
example : Named twoCalls ∧ OnlyClient twoCalls ∧ (∀ p e, Reached twoCalls p e → RangesOk e) ∧
    (editsOf (visit twoCalls)).length = 2 := by
  have hl : (reachedList twoCalls).map Prod.snd =
      [twoCalls, twoCalls.children[0], leaf .path .callee ['f'] 2,
        balanceCall .arg (chars! "client") 4, balanceCall .tail (chars! "client") 25] := rfl
  have hall : ∀ P : Expr → Prop, (∀ e ∈ (reachedList twoCalls).map Prod.snd, P e) →
      ∀ p e, Reached twoCalls p e → P e :=
    fun P h => forall_reached twoCalls P fun q hq => h q.2 (List.mem_map_of_mem hq)
  refine ⟨?_, ?_, ?_, by decide⟩
  · refine hall _ ?_
    rw [hl]
    simp [twoCalls, Expr.node, balanceCall, leaf, Expr.children]
  · refine hall _ ?_
    rw [hl]
    simp [twoCalls, Expr.node, balanceCall, leaf, Expr.children, onClient]
  · refine hall _ ?_
    rw [hl]
    simp [twoCalls, Expr.node, balanceCall, leaf, Expr.children, RangesOk]

/-- `x.call(s, client.balance(a), v, l)`, for examples. -/
def nestedCall : Expr :=
  .mk { form := .methodCall, role := .tail, text := chars! "x.call(s, client.balance(a), v, l)"
        start := 0, stop := 34, name := some ("call", 2, 6)
        argList := some (6, 34, chars! "(s, client.balance(a), v, l)") }
    [leaf .path .receiver ['x'] 0, leaf .path .arg ['s'] 7, balanceCall .arg (chars! "client") 10,
      leaf .path .arg ['v'] 29, leaf .path .arg ['l'] 32]

/-- C49 is false: in `x.call(s, client.balance(a), v, l)` both the inner name and the whole
argument list are replaced. -/
theorem C49_negation_nested :
    ∃ x y, editsOf (visit nestedCall) = [x, y] ∧ Overlap x y :=
  ⟨⟨chars! "free_balance", 17, 24, none⟩,
    ⟨chars! "(s, client.balance(a)).value(v).storage_deposit_limit(l).submit()", 6, 34, none⟩, by decide +kernel, by unfold Overlap; decide⟩

/-- `build_message(i).call(|c| c.set(client.balance(a)))`, for examples. -/
def chainedCall : Expr :=
  .mk { form := .methodCall, role := .tail, text := [], start := 0, stop := 51
        name := some ("call", 17, 21)
        argList := some (21, 51, chars! "(|c| c.set(client.balance(a)))") }
    [.mk { form := .call, role := .receiver, text := chars! "build_message(i)", start := 0
           stop := 16, argList := some (13, 16, chars! "(i)"), builder := some (0, 13, []) } [],
      .mk { form := .closure, role := .arg, text := [], start := 22, stop := 50 }
        [.mk { form := .methodCall, role := .body, text := [], start := 26, stop := 50
               name := some ("set", 28, 31)
               argList := some (31, 50, chars! "(client.balance(a))") }
          [leaf .path .receiver ['c'] 26, balanceCall .arg (chars! "client") 32]]]

/-- C49 is false: the call chained to a message builder call is replaced as a whole, and so
are calls inside of it. -/
theorem C49_negation_chained :
    ∃ b x y, editsOf (visit chainedCall) = [b, x, y] ∧ Overlap x y :=
  ⟨⟨chars! "ink_e2e::create_call_builder", 0, 13, none⟩, ⟨chars! "set(client.balance(a))", 17, 51, none⟩, ⟨chars! "free_balance", 39, 46, none⟩, by decide +kernel, by unfold Overlap; decide⟩

end Verif.Migrate
