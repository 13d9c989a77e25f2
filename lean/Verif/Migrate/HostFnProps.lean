import Verif.Migrate.HostFn
import Verif.Migrate.E2eProps
import Verif.Analyzer.ExternalProps

/-!
# The migration of cross-contract calls (C90)
-/

namespace Verif.Migrate.HostFn

open Verif.Analyzer (Edit)

/-! ## Specification -/

/-- The modules that have `build_call`, `build_create` and `Call`. -/
def callModules : List (List String) := [["ink_env", "call"], ["ink", "env", "call"]]

/-- The modules that have `instantiate_contract` and `invoke_contract`. -/
def envModules : List (List String) := [["ink_env"], ["ink", "env"]]

/-- The methods that configure a call builder. -/
def builderMethods : List String :=
  ["call_type", "call_flags", "returns", "exec_input", "delegate", "gas_limit", "transferred_value",
    "code_hash"]

/-- A segment as it is written, where generic arguments that are spelled like `drop` are left out. -/
def plainSeg (drop : Option (List Char)) (s : Seg) : String :=
  match s.generics with
  | none => s.name
  | some g => if drop = some g then s.name else s.name ++ String.ofList g

/-- The path that is looked up: without the generic arguments of its last segment. -/
def plainPath (leading : Bool) (qual : List Seg) (last : Seg) : Ir.Resolve.Path :=
  ⟨leading, qual.map (plainSeg last.generics) ++ [last.name]⟩

/-- The names of the functions whose calls are changed as a whole. -/
def wrappers : List (String × List (List String)) :=
  [("build_call", callModules), ("build_create", callModules), ("instantiate_contract", envModules),
    ("invoke_contract", envModules)]

/-- A path stands for at most one of these functions. -/
def Distinct (known : Known) : Prop :=
  ∀ r p, ∀ w ∈ wrappers, ∀ w' ∈ wrappers, known r w.1 w.2 p = true → known r w'.1 w'.2 p = true → w.1 = w'.1

/-- The call is `Self::env(..)`. -/
def SelfEnv (e : Expr) : Prop :=
  ∃ a b r a' b' r' t p args s, e = .call a b r (.path a' b' r' t (some p)) args ∧ p.leading = false ∧
    p.qual = [s] ∧ s.name = "Self" ∧ s.generics = none ∧ p.last.name = "env"

/-- The expression is a call, with the path `p`, of the item `name` of the crate (and it is not
`Self::env(..)`). -/
def Calls (known : Known) (e : Expr) (p : CallPath) (name : String) (quals : List (List String)) : Prop :=
  ¬ SelfEnv e ∧ ∃ r a' b' r' t args, e = .call e.start e.stop r (.path a' b' r' t (some p)) args ∧
    known (e.start, e.stop) name quals (plainPath p.leading p.qual p.last) = true

/-- The method call `e` is `b.m1(..).m2(..)…`, where the last method has the given name, and the others
configure a call builder. -/
inductive Chains : Expr → Expr → String → Nat × Nat → Prop
  | one (a b r name x y base args) :
      Chains (.method a b r (some (name, x, y)) base args) base name (x, y)
  | more (a b r name x y recv args base m xy) : m ∈ builderMethods → Chains recv base m xy →
      Chains (.method a b r (some (name, x, y)) recv args) base name (x, y)

/-- What the migration changes for an expression. -/
inductive Records (known : Known) (e : Expr) : Edit → Prop
  /-- A method of the environment: `instantiate_contract` or `invoke_contract` of a method call, or of
  `Self::env()`. -/
  | env (a b r name x y recv args) : e = .method a b r (some (name, x, y)) recv args →
      name ∈ ["instantiate_contract", "invoke_contract"] →
      ((∃ a b r n c cs, recv = .method a b r n c cs) ∨ SelfEnv recv) →
      Records known e ⟨name.toList ++ chars! "_v1", x, y, none⟩
  /-- `build_call::<..>()….call(..)`. -/
  | buildCall (base p x y) : Chains e base "call" (x, y) → Calls known base p "build_call" callModules →
      Records known e ⟨chars! "call_v1", x, y, none⟩
  /-- `build_create::<..>()`. -/
  | buildCreate (p) : Calls known e p "build_create" callModules →
      Records known e ⟨chars! ".instantiate_v1()", e.stop, e.stop, none⟩
  /-- `instantiate_contract(..)` or `invoke_contract(..)`. -/
  | wrapper (p name) : name ∈ ["instantiate_contract", "invoke_contract"] →
      Calls known e p name envModules →
      Records known e ⟨p.last.name.toList ++ chars! "_v1", p.last.start, p.last.nameStop, none⟩
  /-- `Call::<..>::new(..)`. -/
  | callType (r a' b' r' t p args qs s) : e = .call e.start e.stop r (.path a' b' r' t (some p)) args →
      ¬ SelfEnv e → p.qual = qs ++ [s] → p.last.name = "new" → p.last.generics = none →
      known (e.start, e.stop) "Call" callModules (plainPath p.leading qs s) = true →
      Records known e ⟨chars! "ink::env::call::CallV1" ++ s.generics.getD [], p.start, s.stop, none⟩

/-- The subexpressions `c` of `e` that are visited: not those of `self.env()` and `Self::env()`, nor the
arguments of the calls in `wrappers`, nor the places that are left out for every expression (see
`lookTable`). -/
inductive Visits (known : Known) : Expr → Expr → Prop
  | method (a b r name recv args c) : c ∈ recv :: args →
      ¬ ((∃ a b r p, recv = .path a b r (chars! "self") p) ∧ ∃ x y, name = some ("env", x, y)) →
      Visits known (.method a b r name recv args) c
  | call (a b r callee args c) : c ∈ callee :: args → ¬ SelfEnv (.call a b r callee args) →
      (∀ w ∈ wrappers, ∀ p, ¬ Calls known (.call a b r callee args) p w.1 w.2) →
      Visits known (.call a b r callee args) c
  | node (a b r form cs c) : c ∈ cs → (form, c.role) ∈ lookTable → Visits known (.node a b r form cs) c

/-- `e` is the subexpression at path `p` of `root`, and visited. -/
inductive Reached (known : Known) : Expr → List Nat → Expr → Prop
  | here (e : Expr) : Reached known e [] e
  | there (root : Expr) (i : Nat) (c e : Expr) (p : List Nat) : root.children[i]? = some c →
      Visits known root c → Reached known c p e → Reached known root (i :: p) e

/-- The ranges of an expression and of its direct parts are nested and ordered, as in every syntax
tree. -/
def RangesOk : Expr → Prop
  | .path .. => True
  | .method a b _ name recv args =>
    a ≤ recv.start ∧ recv.start ≤ recv.stop ∧ recv.stop ≤ b ∧ (∀ n x y, name = some (n, x, y) →
      a ≤ x ∧ x ≤ y ∧ y ≤ b ∧ recv.stop ≤ x ∧ ∀ c ∈ args, y ≤ c.start) ∧
    (∀ c ∈ args, recv.stop ≤ c.start ∧ c.stop ≤ b) ∧ args.Pairwise fun c d => c.stop ≤ d.start
  | .call a b _ callee args =>
    a ≤ callee.start ∧ callee.start ≤ callee.stop ∧ callee.stop ≤ b ∧
    (∀ c ∈ args, callee.stop ≤ c.start ∧ c.stop ≤ b) ∧
    args.Pairwise (fun c d => c.stop ≤ d.start) ∧
    ∀ p, calleePath callee = some p → callee.start ≤ p.start ∧ p.start ≤ p.last.start ∧
      p.last.start ≤ p.last.nameStop ∧ p.last.nameStop ≤ callee.stop ∧
      ∀ s ∈ p.qual, p.start ≤ s.stop ∧ s.stop ≤ p.last.start
  | .node a b _ _ cs =>
    (∀ c ∈ cs, a ≤ c.start ∧ c.stop ≤ b) ∧ cs.Pairwise fun c d => c.stop ≤ d.start

/-! ## Lemmas -/

theorem callQuals_eq : callQuals = callModules := rfl

theorem envQuals_eq : envQuals = envModules := rfl

theorem intermediates_eq : intermediates = builderMethods := rfl

theorem segText_eq : segText = plainSeg := by
  funext drop s
  unfold segText plainSeg
  cases h : s.generics with
  | none => cases drop <;> simp
  | some g =>
    by_cases hd : drop = some g
    · simp [hd]
    · have : ¬ some g = drop := fun h => hd h.symm
      simp [hd, this]

theorem simplified_eq : simplified = plainPath := by
  funext a b c
  simp only [simplified, plainPath, segText_eq]

/-- The expression is a method call or `Self::env()`. -/
def envLike : Expr → Bool
  | .method .. => true
  | .call _ _ _ callee _ =>
    match calleePath callee with
    | some p => selfEnvPath p
    | none => false
  | _ => false

/-- The expression is a call of `build_call`, followed by intermediate methods. -/
def isBase (known : Known) : Expr → Bool
  | .method _ _ _ name recv _ =>
    match name with
    | some (n, _) => decide (n ∈ builderMethods) && isBase known recv
    | none => false
  | .call a b _ callee _ =>
    match calleePath callee with
    | some p => !selfEnvPath p && wrapper known (a, b) p == some .buildCall
    | none => false
  | _ => false

/-- What is changed for an expression. -/
def own (known : Known) : Expr → List Edit
  | .method _ _ _ name recv _ =>
    (if envLike recv then envEdit [name] else []) ++
      (if isBase known recv && name.any (fun n => n.1 == "call") then callEdit [name] else [])
  | .call a b _ callee _ =>
    match calleePath callee with
    | some p =>
      if selfEnvPath p then []
      else typeEdit known (a, b) p ++
        match wrapper known (a, b) p with
        | some w => wrapEdit [] b p w
        | none => []
    | none => []
  | _ => []

/-- Whether the subexpressions with a role are visited. -/
def looks (known : Known) : Expr → Role → Bool
  | .path .. => fun _ => false
  | .method _ _ _ name recv _ => fun _ => !isSelfEnv recv name
  | .call a b _ callee _ => fun _ =>
    match calleePath callee with
    | some p => !selfEnvPath p && wrapper known (a, b) p == none
    | none => true
  | .node _ _ _ form _ => walked form

mutual

/-- All visited subexpressions with their paths. -/
def reachedList (known : Known) : Expr → List (List Nat × Expr)
  | .path a b r t p => [([], .path a b r t p)]
  | .method a b r name recv args =>
    ([], .method a b r name recv args) ::
      ((if looks known (.method a b r name recv args) recv.role then
        (reachedList known recv).map (fun q => (0 :: q.1, q.2)) else []) ++
      reachedKids known (looks known (.method a b r name recv args)) 1 args)
  | .call a b r callee args =>
    ([], .call a b r callee args) ::
      ((if looks known (.call a b r callee args) callee.role then
        (reachedList known callee).map (fun q => (0 :: q.1, q.2)) else []) ++
      reachedKids known (looks known (.call a b r callee args)) 1 args)
  | .node a b r form cs =>
    ([], .node a b r form cs) :: reachedKids known (looks known (.node a b r form cs)) 0 cs

/-- Those of a list of subexpressions, of which the first has the index `i`. -/
def reachedKids (known : Known) (f : Role → Bool) (i : Nat) : List Expr → List (List Nat × Expr)
  | [] => []
  | c :: cs =>
    (if f c.role then (reachedList known c).map (fun q => (i :: q.1, q.2)) else []) ++
      reachedKids known f (i + 1) cs

end

theorem reachedList_eq (known : Known) (e : Expr) :
    reachedList known e = ([], e) :: reachedKids known (looks known e) 0 e.children := by
  cases e <;> simp [reachedList, Expr.children, reachedKids]

theorem reachedKids_head {known : Known} {f : Role → Bool} {i : Nat} {cs : List Expr}
    {q : List Nat × Expr} (h : q ∈ reachedKids known f i cs) : ∃ j p, i ≤ j ∧ q.1 = j :: p := by
  induction cs generalizing i with
  | nil => simp [reachedKids] at h
  | cons c cs ih =>
    rw [reachedKids] at h
    rcases List.mem_append.1 h with h | h
    · split at h
      · obtain ⟨q', _, rfl⟩ := List.mem_map.1 h
        exact ⟨i, q'.1, Nat.le_refl _, rfl⟩
      · cases h
    · obtain ⟨j, p, hj, hq⟩ := ih h
      exact ⟨j, p, by omega, hq⟩

theorem mem_reachedKids {known : Known} {f : Role → Bool} {i : Nat} {cs : List Expr} {p : List Nat}
    {e : Expr} : (p, e) ∈ reachedKids known f i cs ↔
      ∃ j q c, p = (i + j) :: q ∧ cs[j]? = some c ∧ f c.role = true ∧ (q, e) ∈ reachedList known c := by
  induction cs generalizing i with
  | nil => simp [reachedKids]
  | cons c cs ih =>
    rw [reachedKids, List.mem_append, ih]
    constructor
    · rintro (h | ⟨j, q, d, rfl, hc, hr, h⟩)
      · split at h
        · rename_i hr
          obtain ⟨q, hq, he⟩ := List.mem_map.1 h
          cases he
          exact ⟨0, q.1, c, rfl, rfl, hr, hq⟩
        · cases h
      · exact ⟨j + 1, q, d, by rw [Nat.add_assoc, Nat.add_comm 1], by simpa using hc, hr, h⟩
    · rintro ⟨j, q, d, rfl, hc, hr, h⟩
      cases j with
      | zero =>
        left
        have : c = d := by simpa using hc
        subst this
        rw [if_pos hr]
        exact List.mem_map.2 ⟨(q, e), h, rfl⟩
      | succ j =>
        right
        exact ⟨j, q, d, by rw [Nat.add_assoc, Nat.add_comm 1], by simpa using hc, hr, h⟩

theorem selfEnvPath_iff {a b : Nat} {r : Role} {callee : Expr} {args : List Expr} :
    SelfEnv (.call a b r callee args) ↔ ∃ p, calleePath callee = some p ∧ selfEnvPath p = true := by
  constructor
  · rintro ⟨_, _, _, a', b', r', t, p, _, s, he, h1, h2, h3, h4, h5⟩
    cases he
    exact ⟨p, rfl, by simp [selfEnvPath, h1, h2, h3, h4, h5]⟩
  · rintro ⟨p, hp, h⟩
    cases callee with
    | path a' b' r' t p' =>
      simp only [calleePath] at hp
      subst hp
      unfold selfEnvPath at h
      split at h
      · rename_i s hs
        simp only [Bool.and_eq_true, Bool.not_eq_true', beq_iff_eq] at h
        exact ⟨a, b, r, a', b', r', t, p, args, s, rfl, h.1.1.1, hs, h.1.1.2, h.1.2, h.2⟩
      · cases h
    | _ => cases hp

theorem calls_iff {known : Known} {a b : Nat} {r : Role} {callee : Expr} {args : List Expr} {p : CallPath}
    {name : String} {quals : List (List String)} :
    Calls known (.call a b r callee args) p name quals ↔ calleePath callee = some p ∧
      selfEnvPath p = false ∧ known (a, b) name quals (plainPath p.leading p.qual p.last) = true := by
  unfold Calls
  rw [selfEnvPath_iff]
  constructor
  · rintro ⟨hs, _, a', b', r', t, _, he, hk⟩
    cases he
    refine ⟨rfl, ?_, hk⟩
    cases hp : selfEnvPath p with
    | false => rfl
    | true => exact absurd ⟨p, rfl, hp⟩ hs
  · rintro ⟨hp, hs, hk⟩
    refine ⟨?_, ?_⟩
    · rintro ⟨p', hp', hs'⟩
      rw [hp] at hp'
      cases hp'
      rw [hs] at hs'
      cases hs'
    · cases callee with
      | path a' b' r' t p' =>
        simp only [calleePath] at hp
        subst hp
        exact ⟨r, a', b', r', t, args, rfl, hk⟩
      | _ => cases hp

theorem wrapper_none {known : Known} {r : Nat × Nat} {p : CallPath} : wrapper known r p = none ↔
    ∀ w ∈ wrappers, known r w.1 w.2 (plainPath p.leading p.qual p.last) = false := by
  unfold wrapper wrappers
  simp only [callQuals_eq, envQuals_eq, simplified_eq]
  simp only [List.mem_cons, List.not_mem_nil, or_false, forall_eq_or_imp, forall_eq]
  split
  · rename_i h
    simp [h]
  · rename_i h1
    split
    · rename_i h
      simp [h]
    · rename_i h2
      split
      · rename_i h
        simp [h]
      · rename_i h3
        split
        · rename_i h
          simp [h]
        · rename_i h4
          simp [h1, h2, h3, h4]

theorem looks_iff {known : Known} {e c : Expr} (hc : c ∈ e.children) :
    looks known e c.role = true ↔ Visits known e c := by
  cases e with
  | path => cases hc
  | method a b r name recv args =>
    have hself : isSelfEnv recv name = true ↔
        (∃ a b r p, recv = .path a b r (chars! "self") p) ∧ ∃ x y, name = some ("env", x, y) := by
      constructor
      · intro h
        unfold isSelfEnv at h
        split at h
        · rename_i a b r t p n xy
          simp only [Bool.and_eq_true, beq_iff_eq] at h
          obtain ⟨rfl, rfl⟩ := h
          exact ⟨⟨a, b, r, p, rfl⟩, xy.1, xy.2, rfl⟩
        · cases h
      · rintro ⟨⟨a, b, r, p, rfl⟩, x, y, rfl⟩
        simp [isSelfEnv]
    simp only [looks, Bool.not_eq_true']
    constructor
    · intro h
      refine .method _ _ _ _ _ _ _ hc ?_
      rw [← hself, h]
      simp
    · intro h
      cases h with
      | method _ _ _ _ _ _ _ _ hn =>
        rw [← hself] at hn
        simpa using hn
  | call a b r callee args =>
    simp only [looks]
    constructor
    · intro h
      refine .call _ _ _ _ _ _ hc ?_ ?_
      · rw [selfEnvPath_iff]
        rintro ⟨p, hp, hs⟩
        rw [hp] at h
        simp [hs] at h
      · intro w hw p hcall
        obtain ⟨hp, hs, hk⟩ := calls_iff.1 hcall
        rw [hp] at h
        simp only [hs, Bool.not_false, Bool.true_and, beq_iff_eq] at h
        rw [wrapper_none.1 h w hw] at hk
        cases hk
    · intro h
      cases h with
      | call _ _ _ _ _ _ _ hs hw =>
        rw [selfEnvPath_iff] at hs
        split
        · rename_i p hp
          have hs' : selfEnvPath p = false := by
            cases hsp : selfEnvPath p with
            | false => rfl
            | true => exact absurd ⟨p, hp, hsp⟩ hs
          simp only [hs', Bool.not_false, Bool.true_and, beq_iff_eq]
          rw [wrapper_none]
          intro w hw'
          cases hk : known (a, b) w.1 w.2 (plainPath p.leading p.qual p.last) with
          | false => rfl
          | true => exact absurd (calls_iff.2 ⟨hp, hs', hk⟩) (hw w hw' p)
        · rfl
  | node a b r form cs =>
    simp only [looks, walked_iff, decide_eq_true_eq]
    exact ⟨fun h => .node _ _ _ _ _ _ hc h, fun h => by cases h; assumption⟩

mutual

theorem reached_of_mem (known : Known) : (root : Expr) → ∀ p e, (p, e) ∈ reachedList known root →
    Reached known root p e
  | .path .. => by
    intro p e h
    simp only [reachedList, List.mem_singleton, Prod.mk.injEq] at h
    obtain ⟨rfl, rfl⟩ := h
    exact .here _
  | .method a b r name recv args => by
    intro p e h
    rw [reachedList_eq, List.mem_cons, mem_reachedKids] at h
    rcases h with h | ⟨j, q, c, rfl, hc, hl, h⟩
    · cases h
      exact .here _
    · rw [Nat.zero_add]
      refine .there _ _ c _ _ hc ((looks_iff (List.mem_of_getElem? hc)).1 hl) ?_
      cases j with
      | zero =>
        have : recv = c := by simpa [Expr.children] using hc
        exact this ▸ reached_of_mem known recv q e (this ▸ h)
      | succ j => exact reached_of_kids known args j c (by simpa [Expr.children] using hc) q e h
  | .call a b r callee args => by
    intro p e h
    rw [reachedList_eq, List.mem_cons, mem_reachedKids] at h
    rcases h with h | ⟨j, q, c, rfl, hc, hl, h⟩
    · cases h
      exact .here _
    · rw [Nat.zero_add]
      refine .there _ _ c _ _ hc ((looks_iff (List.mem_of_getElem? hc)).1 hl) ?_
      cases j with
      | zero =>
        have : callee = c := by simpa [Expr.children] using hc
        exact this ▸ reached_of_mem known callee q e (this ▸ h)
      | succ j => exact reached_of_kids known args j c (by simpa [Expr.children] using hc) q e h
  | .node a b r form cs => by
    intro p e h
    rw [reachedList_eq, List.mem_cons, mem_reachedKids] at h
    rcases h with h | ⟨j, q, c, rfl, hc, hl, h⟩
    · cases h
      exact .here _
    · rw [Nat.zero_add]
      refine .there _ _ c _ _ hc ((looks_iff (List.mem_of_getElem? hc)).1 hl) ?_
      exact reached_of_kids known cs j c (by simpa [Expr.children] using hc) q e h

theorem reached_of_kids (known : Known) : (cs : List Expr) → ∀ (j : Nat) (c : Expr), cs[j]? = some c →
    ∀ p e, (p, e) ∈ reachedList known c → Reached known c p e
  | [] => by
    intro j c h
    simp at h
  | d :: ds => by
    intro j c h p e he
    cases j with
    | zero =>
      have : d = c := by simpa using h
      exact this ▸ reached_of_mem known d p e (this ▸ he)
    | succ j => exact reached_of_kids known ds j c (by simpa using h) p e he

end

theorem mem_reachedList {known : Known} {root : Expr} {p : List Nat} {e : Expr} :
    (p, e) ∈ reachedList known root ↔ Reached known root p e := by
  refine ⟨reached_of_mem known root p e, fun h => ?_⟩
  induction h with
  | here e =>
    rw [reachedList_eq]
    exact List.mem_cons_self ..
  | there root i c e p hc hv _ ih =>
    rw [reachedList_eq, List.mem_cons, mem_reachedKids]
    exact .inr ⟨i, p, c, by rw [Nat.zero_add], hc, (looks_iff (List.mem_of_getElem? hc)).2 hv, ih⟩

theorem kids_nodup {known : Known} {f : Role → Bool} {i : Nat} {cs : List Expr}
    (h : ∀ c ∈ cs, ((reachedList known c).map Prod.fst).Nodup) :
    ((reachedKids known f i cs).map Prod.fst).Nodup := by
  induction cs generalizing i with
  | nil => simp [reachedKids]
  | cons c cs ih =>
    rw [reachedKids, List.map_append, List.nodup_append]
    refine ⟨?_, ih fun d hd => h d (List.mem_cons_of_mem _ hd), ?_⟩
    · split
      · rw [List.map_map]
        have := h c (List.mem_cons_self ..)
        rw [List.nodup_iff_pairwise_ne, List.pairwise_map] at this ⊢
        exact this.imp fun h he => h (by injection he)
      · exact List.nodup_nil
    · intro x hx y hy hxy
      subst hxy
      obtain ⟨q, hq, he⟩ := List.mem_map.1 hy
      obtain ⟨j, p, hj, hp⟩ := reachedKids_head hq
      split at hx
      · rw [List.map_map] at hx
        obtain ⟨q', _, he'⟩ := List.mem_map.1 hx
        rw [← he, hp] at he'
        simp only [Function.comp_apply, List.cons.injEq] at he'
        omega
      · cases hx

mutual

theorem reachedList_nodup (known : Known) : (e : Expr) → ((reachedList known e).map Prod.fst).Nodup
  | .path .. => by simp [reachedList]
  | .method a b r name recv args => by
    rw [reachedList_eq]
    exact cons_nodup (kids_nodup fun c hc => by
      rcases List.mem_cons.1 hc with h | hc
      · exact h ▸ reachedList_nodup known recv
      · exact reachedAll_nodup known args c hc)
  | .call a b r callee args => by
    rw [reachedList_eq]
    exact cons_nodup (kids_nodup fun c hc => by
      rcases List.mem_cons.1 hc with h | hc
      · exact h ▸ reachedList_nodup known callee
      · exact reachedAll_nodup known args c hc)
  | .node a b r form cs => by
    rw [reachedList_eq]
    exact cons_nodup (kids_nodup (reachedAll_nodup known cs))
where
  /-- The expression itself comes first. -/
  cons_nodup {known : Known} {f : Role → Bool} {e : Expr} {cs : List Expr}
      (h : ((reachedKids known f 0 cs).map Prod.fst).Nodup) :
      ((([], e) :: reachedKids known f 0 cs).map Prod.fst).Nodup := by
    rw [List.map_cons, List.nodup_cons]
    refine ⟨fun h => ?_, h⟩
    obtain ⟨q, hq, he⟩ := List.mem_map.1 h
    obtain ⟨j, p, _, hp⟩ := reachedKids_head hq
    rw [hp] at he
    cases he

theorem reachedAll_nodup (known : Known) : (cs : List Expr) →
    ∀ c ∈ cs, ((reachedList known c).map Prod.fst).Nodup
  | [] => fun c h => nomatch h
  | d :: ds => fun c h => by
    rcases List.mem_cons.1 h with h | h
    · exact h ▸ reachedList_nodup known d
    · exact reachedAll_nodup known ds c h

end

/-- All that is changed in an expression. -/
def changes (known : Known) (e : Expr) : List Edit := (reachedList known e).flatMap fun q => own known q.2

theorem flatMap_shift (known : Known) (i : Nat) (l : List (List Nat × Expr)) :
    (l.map fun q => (i :: q.1, q.2)).flatMap (fun q => own known q.2) =
      l.flatMap fun q => own known q.2 := by
  rw [List.flatMap_map]

theorem changes_kids (known : Known) (f : Role → Bool) (i : Nat) (cs : List Expr) :
    (reachedKids known f i cs).flatMap (fun q => own known q.2) =
      (cs.filter fun c => f c.role).flatMap (changes known) := by
  induction cs generalizing i with
  | nil => rfl
  | cons c cs ih =>
    rw [reachedKids, List.flatMap_append, ih, List.filter_cons]
    split
    · rw [flatMap_shift, List.flatMap_cons]
      rfl
    · rfl

theorem changes_eq (known : Known) (e : Expr) : changes known e =
    own known e ++ (e.children.filter fun c => looks known e c.role).flatMap (changes known) := by
  unfold changes
  rw [reachedList_eq, List.flatMap_cons, changes_kids]
  rfl

/-- What an expression changes in the method calls around it. -/
def outer (known : Known) (chain : List (Option (String × Nat × Nat))) (e : Expr) : List Edit :=
  (if envLike e then envEdit chain else []) ++ (if isBase known e then callEdit chain else [])

theorem outer_nil (known : Known) (e : Expr) : outer known [] e = [] := by
  unfold outer
  split <;> split <;> rfl

theorem outer_cons (known : Known) (chain : List (Option (String × Nat × Nat))) (a b : Nat) (r : Role)
    (name : Option (String × Nat × Nat)) (recv : Expr) (args : List Expr) :
    outer known (name :: chain) recv = own known (.method a b r name recv args) ++
      (if isBase known (.method a b r name recv args) then callEdit chain else []) := by
  have hbase : isBase known (.method a b r name recv args) = match name with
      | some (n, _) => decide (n ∈ builderMethods) && isBase known recv
      | none => false := by
    cases name <;> simp [isBase]
  have henv : envEdit (name :: chain) = envEdit [name] := by
    cases name <;> rfl
  unfold outer
  rw [own, List.append_assoc, henv, hbase]
  congr 1
  cases name with
  | none => simp [callEdit]
  | some n =>
    obtain ⟨n, x, y⟩ := n
    cases hb : isBase known recv with
    | false => simp
    | true =>
      simp only [Option.any_some, Bool.true_and, beq_iff_eq, Bool.and_true, decide_eq_true_eq, if_true]
      by_cases hn : n = "call"
      · subst hn
        simp [callEdit, intermediates_eq, builderMethods]
      · by_cases hi : n ∈ builderMethods <;> simp [callEdit, intermediates_eq, hn, hi]

mutual

theorem visit_perm (known : Known) : (e : Expr) → ∀ chain,
    (visit known chain e).Perm (outer known chain e ++ changes known e)
  | .path .. => by
    intro chain
    simp [visit, outer, envLike, isBase, changes, reachedList, own]
  | .method a b r name recv args => by
    intro chain
    rw [visit, changes_eq]
    cases hs : isSelfEnv recv name with
    | true =>
      have hf : ((Expr.method a b r name recv args).children.filter fun c =>
          looks known (.method a b r name recv args) c.role) = [] := by
        rw [List.filter_eq_nil_iff]
        intro c _
        simp [looks, hs]
      rw [hf]
      unfold isSelfEnv at hs
      split at hs
      · rename_i a' b' r' t p n xy
        simp only [Bool.and_eq_true, beq_iff_eq] at hs
        obtain ⟨-, rfl⟩ := hs
        simp [outer, envLike, isBase, own, builderMethods]
      · cases hs
    | false =>
      have hf : ((Expr.method a b r name recv args).children.filter fun c =>
          looks known (.method a b r name recv args) c.role) = recv :: args := by
        rw [List.filter_eq_self.2]
        · rfl
        · intro c _
          simp [looks, hs]
      rw [hf, List.flatMap_cons]
      simp only [Bool.false_eq_true, if_false]
      have h1 := visit_perm known recv (name :: chain)
      have h2 := visitAll_perm known (fun _ => true) args
      rw [outer_cons known chain a b r name recv args] at h1
      have h3 : args.filter (fun _ => true) = args := by simp
      rw [h3] at h2
      have h4 : outer known chain (.method a b r name recv args) = envEdit chain ++
          (if isBase known (.method a b r name recv args) then callEdit chain else []) := rfl
      rw [h4]
      refine ((h1.append h2).append_right _).trans ?_
      generalize own known (.method a b r name recv args) = o
      generalize (if isBase known (.method a b r name recv args) then callEdit chain else []) = k
      generalize changes known recv = x
      generalize args.flatMap (changes known) = y
      generalize envEdit chain = v
      refine List.perm_append_comm.trans ?_
      rw [List.append_assoc, List.append_assoc, List.append_assoc]
      refine List.Perm.append_left v ?_
      rw [← List.append_assoc, ← List.append_assoc, ← List.append_assoc, ← List.append_assoc]
      exact (List.perm_append_comm.append_right _).append_right _
  | .call a b r callee args => by
    intro chain
    rw [visit, changes_eq]
    have hkids : looks known (.call a b r callee args) = (fun _ => true) →
        (visit known [] callee ++ visitAll known (fun _ => true) args).Perm
          (((Expr.call a b r callee args).children.filter fun c =>
            looks known (.call a b r callee args) c.role).flatMap (changes known)) := by
      intro hl
      have h1 := visit_perm known callee []
      rw [outer_nil, List.nil_append] at h1
      have h2 := visitAll_perm known (fun _ => true) args
      have h3 : args.filter (fun _ => true) = args := by simp
      rw [h3] at h2
      have h4 : ((Expr.call a b r callee args).children.filter fun c =>
            looks known (.call a b r callee args) c.role) = callee :: args := by
        rw [hl, List.filter_eq_self.2 (by simp)]
        rfl
      rw [h4, List.flatMap_cons]
      exact h1.append h2
    have hnone : looks known (.call a b r callee args) = (fun _ => false) →
        ((Expr.call a b r callee args).children.filter fun c =>
            looks known (.call a b r callee args) c.role).flatMap (changes known) = [] := by
      intro hl
      rw [hl, List.filter_eq_nil_iff.2 (by simp)]
      rfl
    cases hp : calleePath callee with
    | none =>
      have hl : looks known (.call a b r callee args) = fun _ => true := by
        funext
        simp [looks, hp]
      simpa [outer, envLike, isBase, own, hp] using hkids hl
    | some p =>
      simp only
      cases hs : selfEnvPath p with
      | true =>
        have hl : looks known (.call a b r callee args) = fun _ => false := by
          funext
          simp [looks, hp, hs]
        rw [hnone hl]
        simp [outer, envLike, isBase, own, hp, hs]
      | false =>
        cases hw : wrapper known (a, b) p with
        | none =>
          have hl : looks known (.call a b r callee args) = fun _ => true := by
            funext
            simp [looks, hp, hs, hw]
          have := (hkids hl).append_left (typeEdit known (a, b) p)
          simpa [outer, envLike, isBase, own, hp, hs, hw] using this
        | some w =>
          have hl : looks known (.call a b r callee args) = fun _ => false := by
            funext
            simp [looks, hp, hs, hw]
          rw [hnone hl]
          cases w with
          | buildCall =>
            simp only [outer, envLike, isBase, own, hp, hs, hw, wrapEdit, callEdit]
            simpa using List.perm_append_comm
          | _ => simp [outer, envLike, isBase, own, hp, hs, hw, wrapEdit]
  | .node a b r form cs => by
    intro chain
    rw [visit, changes_eq]
    have := visitAll_perm known (walked form) cs
    simpa [outer, envLike, isBase, own, looks, Expr.children] using this

theorem visitAll_perm (known : Known) (f : Role → Bool) : (cs : List Expr) →
    (visitAll known f cs).Perm ((cs.filter fun c => f c.role).flatMap (changes known))
  | [] => by simp [visitAll]
  | c :: cs => by
    rw [visitAll, List.filter_cons]
    have ih := visitAll_perm known f cs
    split
    · rw [List.flatMap_cons]
      have h := visit_perm known c []
      rw [outer_nil, List.nil_append] at h
      exact h.append ih
    · simpa using ih

end

theorem envLike_iff {e : Expr} : envLike e = true ↔
    (∃ a b r n c cs, e = .method a b r n c cs) ∨ SelfEnv e := by
  cases e with
  | path =>
    simp only [envLike, Bool.false_eq_true, reduceCtorEq, exists_false, false_or, false_iff]
    rintro ⟨_, _, _, _, _, _, _, _, _, _, h, _⟩
    cases h
  | node =>
    simp only [envLike, Bool.false_eq_true, reduceCtorEq, exists_false, false_or, false_iff]
    rintro ⟨_, _, _, _, _, _, _, _, _, _, h, _⟩
    cases h
  | method a b r n c cs => simp [envLike]
  | call a b r callee args =>
    rw [selfEnvPath_iff]
    simp only [envLike, reduceCtorEq, exists_false, false_or]
    cases calleePath callee <;> simp

theorem wrapper_buildCall {known : Known} {r : Nat × Nat} {p : CallPath} :
    wrapper known r p = some .buildCall ↔
      known r "build_call" callModules (plainPath p.leading p.qual p.last) = true := by
  unfold wrapper
  simp only [callQuals_eq, envQuals_eq, simplified_eq]
  split
  · simp_all
  · repeat' split
    all_goals simp_all

theorem wrapper_buildCreate {known : Known} (hd : Distinct known) {r : Nat × Nat} {p : CallPath} :
    wrapper known r p = some .buildCreate ↔
      known r "build_create" callModules (plainPath p.leading p.qual p.last) = true := by
  constructor
  · intro h
    unfold wrapper at h
    simp only [callQuals_eq, envQuals_eq, simplified_eq] at h
    repeat' split at h
    all_goals simp_all
  · intro h
    have h1 : known r "build_call" callModules (plainPath p.leading p.qual p.last) = false := by
      rw [Bool.eq_false_iff]
      intro h'
      exact absurd (hd _ _ ("build_create", callModules) (by simp [wrappers]) ("build_call", callModules)
        (by simp [wrappers]) h h') (by decide)
    simp [wrapper, callQuals_eq, simplified_eq, h, h1]

theorem wrapper_env {known : Known} (hd : Distinct known) {r : Nat × Nat} {p : CallPath} :
    wrapper known r p = some .instantiate ∨ wrapper known r p = some .invoke ↔
      ∃ name ∈ ["instantiate_contract", "invoke_contract"],
        known r name envModules (plainPath p.leading p.qual p.last) = true := by
  constructor
  · intro h
    unfold wrapper at h
    simp only [callQuals_eq, envQuals_eq, simplified_eq] at h
    repeat' split at h
    all_goals simp_all
  · rintro ⟨name, hn, h⟩
    have hm : (name, envModules) ∈ wrappers := by
      simp only [List.mem_cons, List.not_mem_nil, or_false] at hn
      rcases hn with rfl | rfl <;> simp [wrappers]
    have h1 : known r "build_call" callModules (plainPath p.leading p.qual p.last) = false := by
      rw [Bool.eq_false_iff]
      intro h'
      have := hd _ _ _ hm ("build_call", callModules) (by simp [wrappers]) h h'
      subst this
      simp at hn
    have h2 : known r "build_create" callModules (plainPath p.leading p.qual p.last) = false := by
      rw [Bool.eq_false_iff]
      intro h'
      have := hd _ _ _ hm ("build_create", callModules) (by simp [wrappers]) h h'
      subst this
      simp at hn
    simp only [List.mem_cons, List.not_mem_nil, or_false] at hn
    rcases hn with rfl | rfl
    · left
      simp [wrapper, callQuals_eq, envQuals_eq, simplified_eq, h, h1, h2]
    · right
      have h3 : known r "instantiate_contract" envModules (plainPath p.leading p.qual p.last) = false := by
        rw [Bool.eq_false_iff]
        intro h'
        exact absurd (hd _ _ _ hm ("instantiate_contract", envModules) (by simp [wrappers]) h h')
          (by decide)
      simp [wrapper, callQuals_eq, envQuals_eq, simplified_eq, h, h1, h2, h3]

theorem isBase_call {known : Known} {a b : Nat} {r : Role} {callee : Expr} {args : List Expr} :
    isBase known (.call a b r callee args) = true ↔
      ∃ p, Calls known (.call a b r callee args) p "build_call" callModules := by
  rw [isBase]
  constructor
  · intro h
    split at h
    · rename_i p hp
      simp only [Bool.and_eq_true, Bool.not_eq_true', beq_iff_eq] at h
      exact ⟨p, calls_iff.2 ⟨hp, h.1, wrapper_buildCall.1 h.2⟩⟩
    · cases h
  · rintro ⟨p, h⟩
    obtain ⟨hp, hs, hk⟩ := calls_iff.1 h
    rw [hp]
    simp [hs, wrapper_buildCall.2 hk]

theorem isBase_of_chains {known : Known} {e base : Expr} {name : String} {xy : Nat × Nat} {p : CallPath}
    (h : Chains e base name xy) (hc : Calls known base p "build_call" callModules) :
    ∃ a b r args recv, e = .method a b r (some (name, xy)) recv args ∧ isBase known recv = true := by
  induction h with
  | one a b r name x y base args =>
    refine ⟨a, b, r, args, base, rfl, ?_⟩
    have hc' := hc
    obtain ⟨-, _, _, _, _, _, _, he, -⟩ := hc'
    rw [he] at hc ⊢
    exact isBase_call.2 ⟨p, hc⟩
  | more a b r name x y recv args base m xy hm _ ih =>
    obtain ⟨a', b', r', args', recv', rfl, hb⟩ := ih hc
    refine ⟨a, b, r, args, _, rfl, ?_⟩
    rw [isBase]
    simp [hm, hb]

theorem chains_of_isBase (known : Known) : (recv : Expr) → isBase known recv = true →
    ∀ a b r (name : String) x y args, ∃ base p,
      Chains (.method a b r (some (name, x, y)) recv args) base name (x, y) ∧
        Calls known base p "build_call" callModules
  | .path .., h => by simp [isBase] at h
  | .node .., h => by simp [isBase] at h
  | .call a b r callee args, h => by
    intro a' b' r' name x y args'
    obtain ⟨p, hp⟩ := isBase_call.1 h
    exact ⟨_, p, .one .., hp⟩
  | .method a b r name recv args, h => by
    intro a' b' r' name' x' y' args'
    cases name with
    | none => simp [isBase] at h
    | some nxy =>
      obtain ⟨n, x, y⟩ := nxy
      simp only [isBase, Bool.and_eq_true, decide_eq_true_eq] at h
      obtain ⟨base, p, hc, hp⟩ := chains_of_isBase known recv h.2 a b r n x y args
      exact ⟨base, p, .more _ _ _ _ _ _ _ _ _ n (x, y) h.1 hc, hp⟩

theorem own_method {known : Known} {a b : Nat} {r : Role} {name : Option (String × Nat × Nat)}
    {recv : Expr} {args : List Expr} {x : Edit} :
    x ∈ own known (.method a b r name recv args) ↔ Records known (.method a b r name recv args) x := by
  constructor
  · intro h
    rw [own, List.mem_append] at h
    rcases h with h | h
    · split at h
      · rename_i he
        unfold envEdit at h
        split at h
        · rename_i n u v _ hn
          simp only [List.cons.injEq] at hn
          obtain ⟨rfl, -⟩ := hn
          split at h
          · rename_i hname
            rw [List.mem_singleton] at h
            subst h
            exact .env _ _ _ _ _ _ _ _ rfl (by simpa using hname) (envLike_iff.1 he)
          · cases h
        · cases h
      · cases h
    · split at h
      · rename_i hb
        simp only [Bool.and_eq_true, Option.any_eq_true, beq_iff_eq] at hb
        obtain ⟨hb, ⟨n, u, v⟩, hn, rfl⟩ := hb
        have hn' : name = some ("call", u, v) := hn
        subst hn'
        obtain ⟨base, p, hc, hp⟩ := chains_of_isBase known recv hb a b r "call" u v args
        simp only [callEdit, if_true, List.mem_singleton] at h
        subst h
        exact .buildCall _ _ _ _ hc hp
      · cases h
  · intro h
    rw [own, List.mem_append]
    cases h with
    | env a' b' r' n u v recv' args' he hn hrecv =>
      cases he
      left
      rw [if_pos (envLike_iff.2 hrecv)]
      simp only [List.mem_cons, List.not_mem_nil, or_false] at hn
      simp [envEdit, hn]
    | buildCall base p u v hc hp =>
      right
      obtain ⟨_, _, _, _, _, he, hb⟩ := isBase_of_chains hc hp
      cases he
      simp [hb, callEdit]
    | buildCreate p hc =>
      obtain ⟨-, _, _, _, _, _, _, he, -⟩ := hc
      cases he
    | wrapper p name hn hc =>
      obtain ⟨-, _, _, _, _, _, _, he, -⟩ := hc
      cases he
    | callType _ _ _ _ _ _ _ _ _ he => cases he

theorem typeEdit_iff {known : Known} {r : Nat × Nat} {p : CallPath} {x : Edit} :
    x ∈ typeEdit known r p ↔ ∃ qs s, p.qual = qs ++ [s] ∧ p.last.name = "new" ∧ p.last.generics = none ∧
      known r "Call" callModules (plainPath p.leading qs s) = true ∧
      x = ⟨chars! "ink::env::call::CallV1" ++ s.generics.getD [], p.start, s.stop, none⟩ := by
  unfold typeEdit
  simp only [callQuals_eq, simplified_eq]
  constructor
  · intro h
    split at h
    · cases h
    · rename_i t ht
      obtain ⟨qs, hq⟩ := List.getLast?_eq_some_iff.1 ht
      rw [hq, List.dropLast_concat] at h
      split at h
      · rename_i hc
        rw [List.mem_singleton] at h
        exact ⟨qs, t, hq, hc.1, hc.2.1, hc.2.2, h⟩
      · cases h
  · rintro ⟨qs, s, hq, h1, h2, h3, rfl⟩
    rw [hq, List.getLast?_concat, List.dropLast_concat]
    simp [h1, h2, h3]

theorem own_call {known : Known} (hd : Distinct known) {a b : Nat} {r : Role} {callee : Expr}
    {args : List Expr} {x : Edit} :
    x ∈ own known (.call a b r callee args) ↔ Records known (.call a b r callee args) x := by
  constructor
  · intro h
    rw [own] at h
    split at h
    · rename_i p hp
      split at h
      · cases h
      · rename_i hs
        rw [Bool.not_eq_true] at hs
        have hcalls : ∀ {name quals}, known (a, b) name quals (plainPath p.leading p.qual p.last) = true →
            Calls known (.call a b r callee args) p name quals := fun hk => calls_iff.2 ⟨hp, hs, hk⟩
        rcases List.mem_append.1 h with h | h
        · obtain ⟨qs, s, hq, h1, h2, h3, rfl⟩ := typeEdit_iff.1 h
          cases callee with
          | path a' b' r' t p' =>
            simp only [calleePath] at hp
            subst hp
            refine .callType r a' b' r' t p args qs s rfl ?_ hq h1 h2 h3
            rw [selfEnvPath_iff]
            rintro ⟨p', hp', hs'⟩
            cases hp'
            rw [hs] at hs'
            cases hs'
          | _ => cases hp
        · split at h
          · rename_i w hw
            cases w with
            | buildCall => simp [wrapEdit, callEdit] at h
            | buildCreate =>
              simp only [wrapEdit, List.mem_singleton] at h
              subst h
              exact .buildCreate p (hcalls ((wrapper_buildCreate hd).1 hw))
            | instantiate =>
              simp only [wrapEdit, List.mem_singleton] at h
              subst h
              obtain ⟨name, hn, hk⟩ := (wrapper_env hd).1 (.inl hw)
              exact .wrapper p name hn (hcalls hk)
            | invoke =>
              simp only [wrapEdit, List.mem_singleton] at h
              subst h
              obtain ⟨name, hn, hk⟩ := (wrapper_env hd).1 (.inr hw)
              exact .wrapper p name hn (hcalls hk)
          · cases h
    · cases h
  · intro h
    rw [own]
    cases h with
    | env _ _ _ _ _ _ _ _ he => cases he
    | buildCall base p u v hc hp =>
      obtain ⟨_, _, _, _, _, he, _⟩ := isBase_of_chains hc hp
      cases he
    | buildCreate p hc =>
      obtain ⟨hp, hs, hk⟩ := calls_iff.1 hc
      rw [hp]
      simp [hs, (wrapper_buildCreate hd).2 hk, wrapEdit, Expr.stop]
    | wrapper p name hn hc =>
      obtain ⟨hp, hs, hk⟩ := calls_iff.1 hc
      rw [hp]
      rcases (wrapper_env hd).2 ⟨name, hn, hk⟩ with h | h <;> simp [hs, h, wrapEdit]
    | callType r' a' b' r'' t p args' qs s he hs hq h1 h2 h3 =>
      cases he
      have hs' : selfEnvPath p = false := by
        rw [selfEnvPath_iff] at hs
        rw [Bool.eq_false_iff]
        intro h
        exact hs ⟨p, rfl, h⟩
      simp only [calleePath, hs', Bool.false_eq_true, if_false, List.mem_append]
      exact .inl (typeEdit_iff.2 ⟨qs, s, hq, h1, h2, h3, rfl⟩)

mutual

theorem expr_induct {P : Expr → Prop} (h : ∀ e, (∀ c ∈ e.children, P c) → P e) : (e : Expr) → P e
  | .path .. => h _ fun _ hc => nomatch hc
  | .method _ _ _ _ recv args => h _ fun c hc => by
    rcases List.mem_cons.1 hc with hc | hc
    · exact hc ▸ expr_induct h recv
    · exact exprs_induct h args c hc
  | .call _ _ _ callee args => h _ fun c hc => by
    rcases List.mem_cons.1 hc with hc | hc
    · exact hc ▸ expr_induct h callee
    · exact exprs_induct h args c hc
  | .node _ _ _ _ cs => h _ fun c hc => exprs_induct h cs c hc

theorem exprs_induct {P : Expr → Prop} (h : ∀ e, (∀ c ∈ e.children, P c) → P e) :
    (cs : List Expr) → ∀ c ∈ cs, P c
  | [] => fun _ hc => nomatch hc
  | d :: ds => fun c hc => by
    rcases List.mem_cons.1 hc with hc | hc
    · exact hc ▸ expr_induct h d
    · exact exprs_induct h ds c hc

end

theorem good_mono {a b a' b' : Nat} {l : List Edit} (h : Good a b l) (ha : a' ≤ a) (hb : b ≤ b') :
    Good a' b' l := by
  refine ⟨fun x hx => ?_, h.2⟩
  have := h.1 x hx
  unfold Inside at this ⊢
  omega

theorem flat_good {known : Known} {a b : Nat} {cs : List Expr}
    (h : ∀ c ∈ cs, a ≤ c.start ∧ c.stop ≤ b ∧ Good c.start c.stop (changes known c))
    (hp : cs.Pairwise fun c d => c.stop ≤ d.start) : Good a b (cs.flatMap (changes known)) := by
  induction cs with
  | nil => exact good_nil a b
  | cons c cs ih =>
    rw [List.flatMap_cons]
    rw [List.pairwise_cons] at hp
    obtain ⟨h1, h2, h3⟩ := h c (List.mem_cons_self ..)
    refine good_append (good_mono h3 h1 h2) (ih (fun d hd => h d (List.mem_cons_of_mem _ hd)) hp.2) ?_
    intro x hx y hy
    obtain ⟨d, hd, hy⟩ := List.mem_flatMap.1 hy
    obtain ⟨-, -, h6⟩ := h d (List.mem_cons_of_mem _ hd)
    exact (not_overlap_of_le (h3.1 x hx) (h6.1 y hy) (hp.1 d hd)).1

theorem own_method_good {known : Known} {a b : Nat} {r : Role} {name : Option (String × Nat × Nat)}
    {recv : Expr} {args : List Expr} :
    (∀ z ∈ own known (.method a b r name recv args), ∃ n x y, name = some (n, x, y) ∧ z.start = x ∧
      z.stop = y) ∧ (own known (.method a b r name recv args)).length ≤ 1 := by
  rw [own]
  cases name with
  | none => simp [envEdit]
  | some nxy =>
    obtain ⟨n, x, y⟩ := nxy
    refine ⟨fun z hz => ⟨n, x, y, rfl, ?_⟩, ?_⟩
    · rcases List.mem_append.1 hz with hz | hz
      · split at hz
        · simp only [envEdit] at hz
          split at hz
          · rw [List.mem_singleton] at hz
            subst hz
            exact ⟨rfl, rfl⟩
          · cases hz
        · cases hz
      · split at hz
        · rename_i hb
          simp only [Option.any_some, Bool.and_eq_true, beq_iff_eq] at hb
          simp only [callEdit, hb.2, if_true, List.mem_singleton] at hz
          subst hz
          exact ⟨rfl, rfl⟩
        · cases hz
    · by_cases hn : n = "call"
      · subst hn
        have he : envEdit [some ("call", x, y)] = [] := by
          rw [envEdit, if_neg (by decide)]
        have hc : (callEdit [some ("call", x, y)]).length = 1 := by
          rw [callEdit, if_pos rfl]
          rfl
        rw [he, ite_self, List.nil_append]
        split
        · rw [hc]
          exact Nat.le_refl _
        · exact Nat.zero_le _
      · have hb : (isBase known recv && Option.any (fun n => n.1 == "call") (some (n, x, y))) = false := by
          rw [Option.any_some, beq_false_of_ne hn, Bool.and_false]
        rw [hb]
        have he : (envEdit [some (n, x, y)]).length ≤ 1 := by
          rw [envEdit]
          split
          · exact Nat.le_refl _
          · exact Nat.zero_le _
        split
        · simpa using he
        · simp

theorem changes_good (known : Known) (e : Expr) (hw : ∀ p f, Reached known e p f → RangesOk f) :
    Good e.start e.stop (changes known e) := by
  revert hw
  refine expr_induct (P := fun e => (∀ p f, Reached known e p f → RangesOk f) →
    Good e.start e.stop (changes known e)) (fun e ih hw => ?_) e
  have hw0 := hw [] e (.here e)
  have hkid : ∀ c ∈ e.children, looks known e c.role = true →
      Good c.start c.stop (changes known c) := by
    intro c hc hl
    obtain ⟨i, hi⟩ := List.getElem?_of_mem hc
    exact ih c hc fun p f hf => hw (i :: p) f (.there _ _ _ _ _ hi ((looks_iff hc).1 hl) hf)
  rw [changes_eq]
  cases e with
  | path => simpa [own, Expr.children] using good_nil _ _
  | node a b r form cs =>
    have ho : own known (.node a b r form cs) = [] := by simp [own]
    rw [ho, List.nil_append]
    refine flat_good (fun c hc => ?_) (hw0.2.sublist List.filter_sublist)
    rw [List.mem_filter] at hc
    exact ⟨(hw0.1 c hc.1).1, (hw0.1 c hc.1).2, hkid c hc.1 hc.2⟩
  | method a b r name recv args =>
    obtain ⟨h1, h1', h2, h3, h4, h5⟩ := hw0
    obtain ⟨ho, hlen⟩ := own_method_good (known := known) (a := a) (b := b) (r := r) (name := name)
      (recv := recv) (args := args)
    refine good_append ⟨fun z hz => ?_, pairwise_of_le_one hlen _⟩ (flat_good (fun c hc => ?_) ?_) ?_
    · obtain ⟨n, x, y, hn, hx, hy⟩ := ho z hz
      have := h3 n x y hn
      simp only [Inside, Expr.start, Expr.stop]
      omega
    · rw [List.mem_filter] at hc
      refine ⟨?_, ?_, hkid c hc.1 hc.2⟩
      · rcases List.mem_cons.1 hc.1 with rfl | hc'
        · exact h1
        · have := (h4 c hc').1
          show a ≤ c.start
          omega
      · rcases List.mem_cons.1 hc.1 with rfl | hc'
        · exact h2
        · exact (h4 c hc').2
    · refine List.Pairwise.sublist List.filter_sublist ?_
      exact List.pairwise_cons.2 ⟨fun c hc => (h4 c hc).1, h5⟩
    · intro z hz w hw'
      obtain ⟨c, hc, hw'⟩ := List.mem_flatMap.1 hw'
      rw [List.mem_filter] at hc
      have hg := (hkid c hc.1 hc.2).1 w hw'
      obtain ⟨n, x, y, hn, hx, hy⟩ := ho z hz
      obtain ⟨g1, g2, g3, g4, g5⟩ := h3 n x y hn
      unfold Inside at hg
      unfold Overlap
      rcases List.mem_cons.1 hc.1 with rfl | hc'
      · omega
      · have := g5 c hc'
        omega
  | call a b r callee args =>
    obtain ⟨h1, h1', h2, h3, h4, h5⟩ := hw0
    have hargs : Good callee.stop b (((args.filter fun c =>
        looks known (.call a b r callee args) c.role)).flatMap (changes known)) := by
      refine flat_good (fun c hc => ?_) (h4.sublist List.filter_sublist)
      rw [List.mem_filter] at hc
      exact ⟨(h3 c hc.1).1, (h3 c hc.1).2, hkid c (List.mem_cons_of_mem _ hc.1) hc.2⟩
    cases hp : calleePath callee with
    | none =>
      have ho : own known (.call a b r callee args) = [] := by simp [own, hp]
      rw [ho, List.nil_append]
      refine flat_good (fun c hc => ?_) ?_
      · rw [List.mem_filter] at hc
        refine ⟨?_, ?_, hkid c hc.1 hc.2⟩
        · rcases List.mem_cons.1 hc.1 with rfl | hc'
          · exact h1
          · have := (h3 c hc').1
            show a ≤ c.start
            omega
        · rcases List.mem_cons.1 hc.1 with rfl | hc'
          · exact h2
          · exact (h3 c hc').2
      · refine List.Pairwise.sublist List.filter_sublist ?_
        exact List.pairwise_cons.2 ⟨fun c hc => (h3 c hc).1, h4⟩
    | some p =>
      obtain ⟨g1, g2, g3, g4, g5⟩ := h5 p hp
      have hcal : changes known callee = [] := by
        cases callee with
        | path => simp [changes, reachedList, own]
        | _ => cases hp
      have hkids : ((Expr.call a b r callee args).children.filter fun c =>
            looks known (.call a b r callee args) c.role).flatMap (changes known) =
          ((args.filter fun c => looks known (.call a b r callee args) c.role)).flatMap
            (changes known) := by
        simp only [Expr.children, List.filter_cons]
        split
        · rw [List.flatMap_cons, hcal, List.nil_append]
        · rfl
      rw [hkids]
      cases hs : selfEnvPath p with
      | true =>
        have ho : own known (.call a b r callee args) = [] := by simp [own, hp, hs]
        rw [ho, List.nil_append]
        exact good_mono hargs (by simp only [Expr.start]; omega) (Nat.le_refl _)
      | false =>
        have ho : own known (.call a b r callee args) = typeEdit known (a, b) p ++
            match wrapper known (a, b) p with
            | some w => wrapEdit [] b p w
            | none => [] := by simp [own, hp, hs]
        rw [ho]
        have ht : ∀ x ∈ typeEdit known (a, b) p, Inside x p.start p.last.start := by
          intro x hx
          obtain ⟨qs, t, hq, -, -, -, rfl⟩ := typeEdit_iff.1 hx
          have := g5 t (by rw [hq]; simp)
          unfold Inside
          simp only
          omega
        have ht1 : (typeEdit known (a, b) p).length ≤ 1 := by
          unfold typeEdit
          split
          · exact Nat.zero_le _
          · split
            · exact Nat.le_refl _
            · exact Nat.zero_le _
        have htg : Good a callee.stop (typeEdit known (a, b) p) :=
          good_mono ⟨ht, pairwise_of_le_one ht1 _⟩ (by omega) (by omega)
        cases hwr : wrapper known (a, b) p with
        | none =>
          simp only [List.append_nil]
          refine good_append (good_mono htg (Nat.le_refl _) h2)
            (good_mono hargs (by simp only [Expr.start]; omega) (Nat.le_refl _)) ?_
          intro x hx y hy
          exact (not_overlap_of_le (htg.1 x hx) (hargs.1 y hy) (Nat.le_refl _)).1
        | some w =>
          have hnone : (args.filter fun c => looks known (.call a b r callee args) c.role) = [] := by
            rw [List.filter_eq_nil_iff]
            intro c _
            simp [looks, hp, hs, hwr]
          rw [hnone, List.flatMap_nil, List.append_nil]
          have hwrap : Good p.last.start b (wrapEdit [] b p w) := by
            cases w with
            | buildCall => exact good_nil _ _
            | buildCreate =>
              refine ⟨fun x hx => ?_, List.pairwise_singleton _ _⟩
              rw [wrapEdit, List.mem_singleton] at hx
              subst hx
              exact ⟨by simp only; omega, Nat.le_refl _, Nat.le_refl _⟩
            | instantiate =>
              refine ⟨fun x hx => ?_, List.pairwise_singleton _ _⟩
              rw [wrapEdit, List.mem_singleton] at hx
              · subst hx
                exact ⟨Nat.le_refl _, g3, by simp only; omega⟩
            | invoke =>
              refine ⟨fun x hx => ?_, List.pairwise_singleton _ _⟩
              rw [wrapEdit, List.mem_singleton] at hx
              · subst hx
                exact ⟨Nat.le_refl _, g3, by simp only; omega⟩
          refine good_append (good_mono htg (Nat.le_refl _) h2)
            (good_mono hwrap (by simp only [Expr.start]; omega) (Nat.le_refl _)) ?_
          intro x hx y hy
          exact (not_overlap_of_le (ht x hx) (hwrap.1 y hy) (Nat.le_refl _)).1

/-! ## Theorems -/

/-- Everything that the migration changes is what it changes for each expression that it visits, each of
them counted once (by its path). -/
theorem C90_once (known : Known) (root : Expr) :
    ∃ exprs : List (List Nat × Expr), (exprs.map Prod.fst).Nodup ∧
      (∀ p e, (p, e) ∈ exprs ↔ Reached known root p e) ∧
      (visit known [] root).Perm (exprs.flatMap fun q => own known q.2) := by
  refine ⟨reachedList known root, reachedList_nodup known root, fun p e => mem_reachedList, ?_⟩
  have := visit_perm known root []
  rwa [outer_nil, List.nil_append] at this

/-- What is changed for an expression: exactly the cases of `Records`. -/
theorem C90_records (known : Known) (hd : Distinct known) (e : Expr) (x : Edit) :
    x ∈ own known e ↔ Records known e x := by
  cases e with
  | path =>
    simp only [own, List.not_mem_nil, false_iff]
    intro h
    cases h with
    | env _ _ _ _ _ _ _ _ he => cases he
    | buildCall base p u v hc hp =>
      obtain ⟨_, _, _, _, _, he, _⟩ := isBase_of_chains hc hp
      cases he
    | buildCreate p hc =>
      obtain ⟨-, _, _, _, _, _, _, he, -⟩ := hc
      cases he
    | wrapper p name hn hc =>
      obtain ⟨-, _, _, _, _, _, _, he, -⟩ := hc
      cases he
    | callType _ _ _ _ _ _ _ _ _ he => cases he
  | node =>
    simp only [own, List.not_mem_nil, false_iff]
    intro h
    cases h with
    | env _ _ _ _ _ _ _ _ he => cases he
    | buildCall base p u v hc hp =>
      obtain ⟨_, _, _, _, _, he, _⟩ := isBase_of_chains hc hp
      cases he
    | buildCreate p hc =>
      obtain ⟨-, _, _, _, _, _, _, he, -⟩ := hc
      cases he
    | wrapper p name hn hc =>
      obtain ⟨-, _, _, _, _, _, _, he, -⟩ := hc
      cases he
    | callType _ _ _ _ _ _ _ _ _ he => cases he
  | method => exact own_method
  | call => exact own_call hd

/-- No two changes overlap. -/
theorem C90_disjoint (known : Known) (root : Expr) (hw : ∀ p e, Reached known root p e → RangesOk e) :
    (visit known [] root).Pairwise fun x y => ¬ Overlap x y := by
  have h := visit_perm known root []
  rw [outer_nil, List.nil_append] at h
  rw [h.pairwise_iff]
  · exact (changes_good known root hw).2
  · intro x y hxy hyx
    unfold Overlap at hxy hyx
    omega

/-- Exactly the changes of `Records` are made, for all expressions that are visited. Missing: other method
calls before `.invoke_contract(..)` count as the environment (`C90_negation_receiver`), the arguments of
the changed calls are not visited (`C90_negation_nested`), nor are conditions (`C90_negation_condition`),
and imports are left as they are (`C90_negation_import`, `C90_negation_alias`). -/
theorem C90_exact_partial (known : Known) (hd : Distinct known) (bodies : List Expr) (x : Edit) :
    x ∈ migrate known bodies ↔ ∃ root ∈ bodies, ∃ p e, Reached known root p e ∧ Records known e x := by
  unfold migrate
  rw [List.mem_flatMap]
  constructor
  · rintro ⟨root, hr, h⟩
    have hp := visit_perm known root []
    rw [outer_nil, List.nil_append] at hp
    rw [hp.mem_iff, changes, List.mem_flatMap] at h
    obtain ⟨⟨p, e⟩, he, hx⟩ := h
    exact ⟨root, hr, p, e, mem_reachedList.1 he, (C90_records known hd e x).1 hx⟩
  · rintro ⟨root, hr, p, e, he, hx⟩
    refine ⟨root, hr, ?_⟩
    have hp := visit_perm known root []
    rw [outer_nil, List.nil_append] at hp
    rw [hp.mem_iff, changes, List.mem_flatMap]
    exact ⟨(p, e), mem_reachedList.2 he, (C90_records known hd e x).2 hx⟩

/-- `is_external_crate_item` in the root of a file without type aliases. -/
def knownIn (root : Ir.Resolve.Mod) (fuel : Nat) : Known := fun _ name quals p =>
  Verif.Analyzer.External.isExternal root Verif.Analyzer.External.noTypes name quals fuel p [] == some true

/-- The path of a call that is spelled in full. -/
def fullPath (leading : Bool) (start : Nat) (q : List Seg) (name : String) (a b : Nat)
    (generics : Option (List Char)) (stop : Nat) : CallPath :=
  ⟨leading, start, q, ⟨name, a, b, generics, stop⟩⟩

/-- A call of `instantiate_contract` or `invoke_contract` that is spelled in full (with or without generic
arguments) gets the new name, nothing else is changed, and the new path is that of the new function. -/
theorem C90_full (root : Ir.Resolve.Mod) (fuel : Nat) (hd : Distinct (knownIn root (fuel + 1)))
    (name : String) (hn : name ∈ ["instantiate_contract", "invoke_contract"]) (leading : Bool)
    (start a b stop x y : Nat) (q : List Seg) (hq : q.map (·.name) ∈ envModules)
    (hg : ∀ s ∈ q, s.generics = none) (generics : Option (List Char)) (r r' : Role) (u v : Nat)
    (t : List Char) (args : List Expr) :
    visit (knownIn root (fuel + 1)) [] (.call x y r
        (.path u v r' t (some (fullPath leading start q name a b generics stop))) args) =
      [⟨name.toList ++ chars! "_v1", a, b, none⟩] ∧
    Verif.Analyzer.External.isExternal root Verif.Analyzer.External.noTypes
      (name ++ "_v1") envModules (fuel + 1) ⟨leading, q.map (·.name) ++ [name ++ "_v1"]⟩ [] = some true := by
  have hq0 : q.map (·.name) ≠ [] := by
    intro h
    rw [h] at hq
    simp [envModules] at hq
  refine ⟨?_, Verif.Analyzer.External.C89_direct _ _ _ _ _ hq hq0 _ _ _⟩
  have hsimp : plainPath leading q ⟨name, a, b, generics, stop⟩ =
      ⟨leading, q.map (·.name) ++ [name]⟩ := by
    unfold plainPath
    congr 2
    apply List.map_congr_left
    intro s hs
    unfold plainSeg
    rw [hg s hs]
  have hk : knownIn root (fuel + 1) (x, y) name envModules ⟨leading, q.map (·.name) ++ [name]⟩ = true := by
    unfold knownIn
    rw [Verif.Analyzer.External.C89_direct _ _ _ _ _ hq hq0 _ _ _]
    rfl
  have hname : name ≠ "env" ∧ name ≠ "new" := by
    simp only [List.mem_cons, List.not_mem_nil, or_false] at hn
    rcases hn with rfl | rfl <;> decide
  have hs : selfEnvPath (fullPath leading start q name a b generics stop) = false := by
    unfold selfEnvPath fullPath
    dsimp only
    split
    · simp [hname.1]
    · rfl
  have ht : typeEdit (knownIn root (fuel + 1)) (x, y) (fullPath leading start q name a b generics stop) =
      [] := by
    unfold typeEdit fullPath
    dsimp only
    split
    · rfl
    · rw [if_neg]
      intro h
      exact hname.2 h.1
  rw [visit]
  simp only [calleePath, hs, ht, Bool.false_eq_true, if_false, List.nil_append]
  have hw := (wrapper_env hd (r := (x, y)) (p := fullPath leading start q name a b generics stop)).2
    ⟨name, hn, by
      show knownIn root (fuel + 1) (x, y) name envModules (plainPath leading q ⟨name, a, b, generics, stop⟩) = true
      rw [hsimp]
      exact hk⟩
  rcases hw with hw | hw <;> rw [hw] <;> rfl

/-! ### Examples and counterexamples -/

/-- A segment without generic arguments. -/
def seg (name : String) (start : Nat) : Seg :=
  ⟨name, start, start + name.length, none, start + name.length⟩

/-- An expression that nothing is known of. -/
def opaqueExpr (a b : Nat) (r : Role) : Expr := .node a b r .terminal []

/-- A file without imports. -/
def bareFile : Ir.Resolve.Mod := .mk "" [] [] []

/-- `ink::env::invoke_contract(p)`. -/
def fullCall (r : Role) (arg : Expr) : Expr :=
  .call 0 (arg.stop + 1) r (.path 0 25 .callee (chars! "ink::env::invoke_contract")
    (some ⟨false, 0, [seg "ink" 0, seg "env" 5], seg "invoke_contract" 10⟩)) [arg]

example : visit (knownIn bareFile 9) [] (fullCall .tail (opaqueExpr 26 27 .arg)) =
    [⟨chars! "invoke_contract_v1", 10, 25, none⟩] := by decide +kernel

/-- `ink::env::call::build_call::<E>().call_type(t).call(c)` at offset 0. -/
def builderCall : Expr :=
  .method 0 54 .tail (some ("call", 47, 51))
    (.method 0 46 .receiver (some ("call_type", 34, 43))
      (.call 0 33 .receiver (.path 0 31 .callee (chars! "ink::env::call::build_call::<E>")
        (some ⟨false, 0, [seg "ink" 0, seg "env" 5, seg "call" 10],
          ⟨"build_call", 16, 26, some (chars! "::<E>"), 31⟩⟩)) [])
      [opaqueExpr 44 45 .arg])
    [opaqueExpr 52 53 .arg]

example : visit (knownIn bareFile 9) [] builderCall = [⟨chars! "call_v1", 47, 51, none⟩] := by
  decide +kernel

/-- `Self::env().instantiate_contract(p)`. -/
def selfEnvCall : Expr :=
  .method 0 35 .tail (some ("instantiate_contract", 12, 32))
    (.call 0 11 .receiver (.path 0 9 .callee (chars! "Self::env")
      (some ⟨false, 0, [seg "Self" 0], seg "env" 6⟩)) [])
    [opaqueExpr 33 34 .arg]

example : visit (knownIn bareFile 9) [] selfEnvCall =
    [⟨chars! "instantiate_contract_v1", 12, 32, none⟩] := by decide +kernel

/-- Its ranges are as `C90_disjoint` wants. -/
example : RangesOk builderCall ∧ RangesOk selfEnvCall := by
  simp [RangesOk, builderCall, selfEnvCall, Expr.start, Expr.stop, opaqueExpr, calleePath, seg]

/-- `Call::<E>::new(a)` in a file with `use ink::env::call::Call;`. -/
example : visit (knownIn (.mk "" [] [⟨⟨false, ["ink", "env", "call", "Call"]⟩, none⟩] []) 9) []
      (.call 0 17 .tail (.path 0 14 .callee (chars! "Call::<E>::new")
        (some ⟨false, 0, [⟨"Call", 0, 4, some (chars! "::<E>"), 9⟩], seg "new" 11⟩))
        [opaqueExpr 15 16 .arg]) =
    [⟨chars! "ink::env::call::CallV1::<E>", 0, 9, none⟩] := by decide +kernel

/-- Without imports a path stands for what its last segment says. -/
theorem bare_distinct (fuel : Nat) : Distinct (knownIn bareFile (fuel + 2)) := by
  have key : ∀ r n q p, knownIn bareFile (fuel + 2) r n q p = true → p.segs.getLast? = some n := by
    intro r n q p h
    unfold knownIn at h
    rw [beq_iff_eq, Verif.Analyzer.External.isExternal] at h
    split at h
    · rename_i hd
      simp only [Verif.Analyzer.External.isDirect, Bool.and_eq_true, beq_iff_eq] at hd
      exact hd.1
    · have he : Verif.Analyzer.External.external bareFile (Verif.Analyzer.External.cratesOf q) (fuel + 1) [] =
          some ⟨[], []⟩ := by
        rw [Verif.Analyzer.External.external]
        rfl
      rw [he] at h
      dsimp only at h
      split at h
      · rename_i hh
        simp only [Verif.Analyzer.External.isHere, Verif.Analyzer.External.aliasesOf, Bool.or_eq_true,
          Bool.and_eq_true, beq_iff_eq, List.filter_nil, List.map_nil, List.any_nil, List.any_eq_true,
          Bool.false_eq_true, and_false, exists_false, or_false] at hh
        exact hh.1
      · repeat' split at h
        all_goals simp_all [Verif.Analyzer.External.noTypes]
  intro r p w _ w' _ h h'
  have := (key _ _ _ _ h).symm.trans (key _ _ _ _ h')
  simpa using this

example : Distinct (knownIn bareFile 9) := bare_distinct 7

/-- `self.token().invoke_contract(p)`: a method of something that is not the environment. -/
def tokenCall : Expr :=
  .method 0 31 .tail (some ("invoke_contract", 13, 28))
    (.method 0 12 .receiver (some ("token", 5, 10)) (.path 0 4 .receiver (chars! "self") none) [])
    [opaqueExpr 29 30 .arg]

/-- The method `invoke_contract` gets a new name after any method call, e.g. in
`self.token().invoke_contract(p)`, although only `self.env()` is the environment: the result does not
compile. -/
theorem C90_negation_receiver (known : Known) :
    visit known [] tokenCall = [⟨chars! "invoke_contract_v1", 13, 28, none⟩] := by
  simp only [visit, visitAll, tokenCall, isSelfEnv, opaqueExpr, envEdit]
  decide

/-- The arguments of a changed call are not looked into: in
`ink::env::invoke_contract(ink::env::call::build_create())` only the outer call is changed. -/
theorem C90_negation_nested :
    ∃ arg p, Calls (knownIn bareFile 9) arg p "build_create" callModules ∧
      visit (knownIn bareFile 9) [] arg = [⟨chars! ".instantiate_v1()", 56, 56, none⟩] ∧
      visit (knownIn bareFile 9) [] (fullCall .tail arg) =
        [⟨chars! "invoke_contract_v1", 10, 25, none⟩] := by
  refine ⟨.call 26 56 .arg (.path 26 54 .callee (chars! "ink::env::call::build_create")
    (some ⟨false, 26, [seg "ink" 26, seg "env" 31, seg "call" 36], seg "build_create" 42⟩)) [],
    ⟨false, 26, [seg "ink" 26, seg "env" 31, seg "call" 36], seg "build_create" 42⟩, ?_,
    by decide +kernel, by decide +kernel⟩
  exact calls_iff.2 ⟨rfl, by decide +kernel, by decide +kernel⟩

/-- Calls in conditions are not changed: `if ink::env::invoke_contract(p) {}`. -/
theorem C90_negation_condition :
    visit (knownIn bareFile 9) [] (.node 0 40 .tail .ifElse
      [fullCall .condition (opaqueExpr 26 27 .arg), .node 32 34 .thenBranch .block []]) = [] := by
  decide +kernel

/-- `use ink::env::invoke_contract;`. -/
def importFile : Ir.Resolve.Mod :=
  .mk "" [] [⟨⟨false, ["ink", "env", "invoke_contract"]⟩, none⟩] []

/-- `use ink::env::invoke_contract as ic;`. -/
def aliasFile : Ir.Resolve.Mod :=
  .mk "" [] [⟨⟨false, ["ink", "env", "invoke_contract"]⟩, some "ic"⟩] []

/-- A call of one segment. -/
def shortCall (name : String) : Expr :=
  .call 0 (name.length + 3) .tail (.path 0 name.length .callee name.toList
    (some ⟨false, 0, [], seg name 0⟩)) [opaqueExpr (name.length + 1) (name.length + 2) .arg]

/-- With `use ink::env::invoke_contract;` the call `invoke_contract(p)` becomes `invoke_contract_v1(p)`,
but the import stays, and so the new name stands for nothing. -/
theorem C90_negation_import :
    visit (knownIn importFile 9) [] (shortCall "invoke_contract") =
      [⟨chars! "invoke_contract_v1", 0, 15, none⟩] ∧
    knownIn importFile 9 (0, 0) "invoke_contract_v1" envModules ⟨false, ["invoke_contract_v1"]⟩ = false := by
  constructor <;> decide +kernel

/-- With `use ink::env::invoke_contract as ic;` the call `ic(p)` becomes `ic_v1(p)`, which stands for
nothing. -/
theorem C90_negation_alias :
    visit (knownIn aliasFile 9) [] (shortCall "ic") = [⟨chars! "ic_v1", 0, 2, none⟩] ∧
    knownIn aliasFile 9 (0, 0) "invoke_contract_v1" envModules ⟨false, ["ic_v1"]⟩ = false := by
  constructor <;> decide +kernel

/-- The migration is not idempotent: in `ink::env::call::build_create().instantiate_v1()` the call of
`instantiate_v1` is added again. -/
theorem C90_negation_again :
    visit (knownIn bareFile 9) [] (.method 0 47 .tail (some ("instantiate_v1", 31, 45))
      (.call 0 30 .receiver (.path 0 28 .callee (chars! "ink::env::call::build_create")
        (some ⟨false, 0, [seg "ink" 0, seg "env" 5, seg "call" 10], seg "build_create" 16⟩)) []) []) =
      [⟨chars! ".instantiate_v1()", 30, 30, none⟩] := by
  decide +kernel

end Verif.Migrate.HostFn
