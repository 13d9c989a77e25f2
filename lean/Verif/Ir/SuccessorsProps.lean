import Verif.Ir.Successors
import Verif.Ir.TreeProps

/-!
# C123: the iterator over successors gives every item once, and then nothing
-/

namespace Verif.Ir.Succ

/-! ## Specification -/

/-- The lists of items of a source and its successors, up to the end (a source may come without
a list). -/
inductive Chain (step : S → Option (Option (List T) × S)) : S → List (List T) → Prop
  | last (s : S) : step s = none → Chain step s []
  | next (s s' : S) (n : Option (List T)) (ls : List (List T)) : step s = some (n, s') →
      Chain step s' ls → Chain step s (n.getD [] :: ls)

/-- The states of an iterator after any number of calls. -/
inductive Reached (step : S → Option (Option (List T) × S)) (s : S) : Iter T S → Prop
  | start : Reached step s (Iter.new s)
  | call (it it' : Iter T S) (r : Option T) (d : Nat) : Reached step s it → Call step it r it' d →
      Reached step s it'

/-! ## Lemmas -/

theorem call_unique (step : S → Option (Option (List T) × S)) (it : Iter T S) (r r' : Option T)
    (st st' : Iter T S) (d d' : Nat) (h : Call step it r st d) (h' : Call step it r' st' d') :
    r = r' ∧ st = st' ∧ d = d' := by
  induction h generalizing r' st' d' with
  | item x xs s =>
    cases h' with
    | item => exact ⟨rfl, rfl, rfl⟩
    | again _ _ _ _ _ _ h => cases h
    | stop _ h => cases h
  | again it n s r it' d h1 h2 _ ih =>
    cases h' with
    | item => cases h1
    | again _ n' s' _ _ _ _ h4 h5 =>
      rw [h2] at h4
      cases h4
      obtain ⟨a, b, c⟩ := ih _ _ _ h5
      exact ⟨a, b, by rw [c]⟩
    | stop _ _ h4 => rw [h2] at h4; cases h4
  | stop it h1 h2 =>
    cases h' with
    | item => cases h1
    | again _ _ _ _ _ _ _ h4 => rw [h2] at h4; cases h4
    | stop => exact ⟨rfl, rfl, rfl⟩

/-- A call that gives nothing has come to a source without a successor. -/
theorem call_none (step : S → Option (Option (List T) × S)) (it it' : Iter T S) (d : Nat)
    (h : Call step it none it' d) : it'.nextIter.getD [] = [] ∧ step it'.source = none := by
  generalize hr : (none : Option T) = r at h
  induction h with
  | item => cases hr
  | again _ _ _ _ _ _ _ _ _ ih => exact ih hr
  | stop it h1 h2 => exact ⟨h1, h2⟩

theorem gives_of_chain (step : S → Option (Option (List T) × S)) (s : S) (ls : List (List T))
    (h : Chain step s ls) (l : List T) (it : Iter T S) (hs : it.source = s)
    (hl : it.nextIter.getD [] = l) : Gives step it (l ++ ls.flatten) := by
  induction h generalizing l it with
  | last s h =>
    subst hs
    induction l generalizing it with
    | nil => exact .done _ _ _ (.stop it hl h)
    | cons x xs ih =>
      obtain ⟨n, s⟩ := it
      cases n with
      | none => cases hl
      | some l' =>
        obtain rfl : l' = x :: xs := hl
        exact .more _ ⟨some xs, s⟩ x _ 0 (.item x xs s) (ih ⟨some xs, s⟩ rfl h)
  | next s s' n ls h _ ih =>
    subst hs
    induction l generalizing it with
    | nil =>
      rw [List.nil_append, List.flatten_cons]
      have hg := ih (n.getD []) ⟨n, s'⟩ rfl rfl
      generalize n.getD [] ++ ls.flatten = out at hg
      cases hg with
      | done _ it' d hc => exact .done _ it' _ (.again it n s' _ _ _ hl h hc)
      | more _ it' x xs d hc hg => exact .more _ it' x xs _ (.again it n s' _ _ _ hl h hc) hg
    | cons x xs ih' =>
      obtain ⟨n', s⟩ := it
      cases n' with
      | none => cases hl
      | some l' =>
        obtain rfl : l' = x :: xs := hl
        exact .more _ ⟨some xs, s⟩ x _ 0 (.item x xs s) (ih' ⟨some xs, s⟩ rfl h)

theorem chain_of_call (step : S → Option (Option (List T) × S)) (it it' : Iter T S)
    (r : Option T) (d : Nat) (h : Call step it r it' d) :
    (r = none → ∃ ls, Chain step it.source ls ∧ it.nextIter.getD [] ++ ls.flatten = []) ∧
    (∀ x, r = some x → ∀ ls', Chain step it'.source ls' → ∃ ls, Chain step it.source ls ∧
      it.nextIter.getD [] ++ ls.flatten = x :: (it'.nextIter.getD [] ++ ls'.flatten)) := by
  induction h with
  | item x xs s =>
    refine ⟨fun h => (nomatch h), fun y hy ls' h => ?_⟩
    cases hy
    exact ⟨ls', h, rfl⟩
  | again it n s r it' d h1 h2 _ ih =>
    constructor
    · intro hr
      obtain ⟨ls, hc, he⟩ := ih.1 hr
      exact ⟨_, .next _ s n ls h2 hc, by rw [h1]; simpa using he⟩
    · intro x hx ls' hc'
      obtain ⟨ls, hc, he⟩ := ih.2 x hx ls' hc'
      exact ⟨_, .next _ s n ls h2 hc, by rw [h1]; simpa using he⟩
  | stop it h1 h2 =>
    exact ⟨fun _ => ⟨[], .last _ h2, by rw [h1]; rfl⟩, fun x h => (nomatch h)⟩

theorem chain_of_gives (step : S → Option (Option (List T) × S)) (it : Iter T S) (xs : List T)
    (h : Gives step it xs) :
    ∃ ls, Chain step it.source ls ∧ xs = it.nextIter.getD [] ++ ls.flatten := by
  induction h with
  | done it it' d h =>
    obtain ⟨ls, h1, h2⟩ := (chain_of_call step it it' _ d h).1 rfl
    exact ⟨ls, h1, h2.symm⟩
  | more it it' x xs d h _ ih =>
    obtain ⟨ls', h1, h2⟩ := ih
    obtain ⟨ls, h3, h4⟩ := (chain_of_call step it it' _ d h).2 x rfl ls' h1
    exact ⟨ls, h3, by rw [h4, h2]⟩

theorem chain_unique (step : S → Option (Option (List T) × S)) (s : S) (l l' : List (List T))
    (h : Chain step s l) (h' : Chain step s l') : l = l' := by
  induction h generalizing l' with
  | last s h =>
    cases h' with
    | last => rfl
    | next _ _ _ _ h1 => rw [h] at h1; cases h1
  | next s s' n ls h _ ih =>
    cases h' with
    | last _ h1 => rw [h] at h1; cases h1
    | next _ s'' n' ls' h1 h2 =>
      rw [h] at h1
      cases h1
      rw [ih _ h2]

/-- From a source on the way up, the attributes that `climb` finds. -/
theorem chain_climb (root : Node α κ) (rp : List Nat) :
    ∃ ls, Chain (ancestorStep root) (some rp) ls ∧ ls.flatten = root.climb rp := by
  have hnone : ancestorStep root none = none := rfl
  induction rp with
  | nil =>
    unfold Node.climb
    by_cases h : root.inkAttrsAt [] = []
    · refine ⟨[[]], .next _ none none [] ?_ (.last _ hnone), by rw [h]; rfl⟩
      simp [ancestorStep, h, parent]
    · refine ⟨[root.inkAttrsAt []], .next _ none (some _) [] ?_ (.last _ hnone), ?_⟩
      · have : (root.inkAttrsAt []).isEmpty = false := by simpa using h
        unfold ancestorStep
        rw [Option.map_some, List.reverse_nil, this]
        rfl
      · simp
  | cons i rp ih =>
    unfold Node.climb
    by_cases h : root.inkAttrsAt (i :: rp).reverse = []
    · obtain ⟨ls, h1, h2⟩ := ih
      refine ⟨[] :: ls, .next _ (some rp) none ls ?_ h1, ?_⟩
      · unfold ancestorStep
        rw [Option.map_some, h]
        rfl
      · rw [h]
        simpa using h2
    · refine ⟨[root.inkAttrsAt (i :: rp).reverse], .next _ none (some _) [] ?_ (.last _ hnone), ?_⟩
      · have : (root.inkAttrsAt (i :: rp).reverse).isEmpty = false := by simpa using h
        unfold ancestorStep
        rw [Option.map_some, this]
        rfl
      · have : (root.inkAttrsAt (i :: rp).reverse).isEmpty = false := by simpa using h
        rw [this]
        simp

theorem ancestors_chain (root : Node α κ) (p : List Nat) :
    ∃ ls, Chain (ancestorStep root) (firstSource root p) ls ∧
      ls.flatten = root.inkClosestAncestors p := by
  have hnone : Chain (ancestorStep root) none [] := .last _ rfl
  unfold firstSource Node.inkClosestAncestors
  cases hp : p.reverse with
  | nil => exact ⟨[], by split <;> exact hnone, rfl⟩
  | cons i rp =>
    by_cases ha : root.isAttrAt p = true
    · rw [if_pos ha]
      simp only [ha, if_true]
      cases rp with
      | nil => exact ⟨[], hnone, rfl⟩
      | cons j rp' => exact chain_climb root rp'
    · rw [if_neg ha]
      simp only [ha, if_false, Bool.false_eq_true]
      exact chain_climb root rp

/-- The length of the way up from a source. -/
def height : Option (List Nat) → Nat
  | none => 0
  | some rp => rp.length + 1

theorem call_depth (root : Node α κ) (it it' : Iter α (Option (List Nat))) (r : Option α) (d : Nat)
    (h : Call (ancestorStep root) it r it' d) : d + height it'.source ≤ height it.source := by
  induction h with
  | item => simp
  | again it n s r it' d h1 h2 _ ih =>
    have hlt : height s + 1 ≤ height it.source := by
      cases hs : it.source with
      | none => rw [hs] at h2; cases h2
      | some rp =>
        rw [hs] at h2
        unfold ancestorStep at h2
        simp only [Option.map_some, Option.some.injEq] at h2
        split at h2
        · cases h2; simp [height]
        · cases h2
          cases rp <;> simp [parent, height]
    have : height (⟨n, s⟩ : Iter α (Option (List Nat))).source = height s := rfl
    omega
  | stop => simp

theorem height_first (root : Node α κ) (p : List Nat) : height (firstSource root p) ≤ p.length := by
  have h1 : height (parent p.reverse) ≤ p.length := by
    rw [← List.length_reverse]
    cases p.reverse <;> simp [parent, height]
  unfold firstSource
  split
  · refine Nat.le_trans ?_ h1
    cases parent p.reverse with
    | none => simp [height]
    | some rp => cases rp <;> simp [parent, height]
  · exact h1

/-! ## Theorems -/

/-- Calling the iterator until it has nothing more to give yields exactly the items of the source
and its successors, in order; it comes to an end exactly if the sources do. -/
theorem C123_items (step : S → Option (Option (List T) × S)) (s : S) (xs : List T) :
    Gives step (Iter.new s) xs ↔ ∃ ls, Chain step s ls ∧ xs = ls.flatten := by
  constructor
  · intro h
    exact chain_of_gives step _ xs h
  · rintro ⟨ls, h, rfl⟩
    exact gives_of_chain step s ls h [] (Iter.new s) rfl rfl

/-- What a call gives is determined by the state, and once a call has given nothing, no later call
gives anything. -/
theorem C123_fused (step : S → Option (Option (List T) × S)) (it it' : Iter T S) (d : Nat)
    (h : Call step it none it' d) (r : Option T) (it'' : Iter T S) (d' : Nat) :
    Call step it' r it'' d' ↔ r = none ∧ it'' = it' ∧ d' = 0 := by
  obtain ⟨h1, h2⟩ := call_none step it it' d h
  constructor
  · intro h'
    exact call_unique step it' _ _ _ _ _ _ h' (.stop it' h1 h2)
  · rintro ⟨rfl, rfl, rfl⟩
    exact .stop it'' h1 h2

/-- The search for the closest ink! ancestors of a node ends, and gives the attributes of the nearest
enclosing item that has any (as `C24_nearest` says) and nothing else. -/
theorem C123_ancestors (root : Node α κ) (p : List Nat) (xs : List α) :
    Gives (ancestorStep root) (Iter.new (firstSource root p)) xs ↔
      (∃ q, root.Nearest (root.subject p) q ∧ xs = root.inkAttrsAt q) ∨
      ((∀ q, q <+: root.subject p → q ≠ root.subject p → ¬ root.Annotated q) ∧ xs = []) := by
  have heq : Gives (ancestorStep root) (Iter.new (firstSource root p)) xs ↔
      xs = root.inkClosestAncestors p := by
    obtain ⟨ls, h1, h2⟩ := ancestors_chain root p
    rw [C123_items]
    constructor
    · rintro ⟨ls', h3, rfl⟩
      rw [chain_unique _ _ _ _ h3 h1, h2]
    · rintro rfl
      exact ⟨ls, h1, h2.symm⟩
  rw [heq]
  rcases Node.C24_nearest root p with ⟨q, hq, he⟩ | ⟨hn, he⟩
  · constructor
    · rintro rfl
      exact .inl ⟨q, hq, he⟩
    · rintro (⟨q', hq', rfl⟩ | ⟨hn, _⟩)
      · have : q' = q := by
          obtain ⟨a1, a2, a3, a4⟩ := hq
          obtain ⟨b1, b2, b3, b4⟩ := hq'
          rcases List.prefix_or_prefix_of_prefix a1 b1 with h | h
          · by_cases hne : q = q'
            · exact hne.symm
            · exact absurd b3 (a4 q' b1 b2 h (fun e => hne e.symm))
          · by_cases hne : q' = q
            · exact hne
            · exact absurd a3 (b4 q a1 a2 h (fun e => hne e.symm))
        rw [this, he]
      · exact absurd hq.2.2.1 (hn q hq.1 hq.2.1)
  · rw [he]
    constructor
    · rintro rfl
      exact .inr ⟨hn, rfl⟩
    · rintro (⟨q, hq, _⟩ | ⟨_, h⟩)
      · exact absurd hq.2.2.1 (hn q hq.1 hq.2.1)
      · exact h

/-- In that search no call of the iterator, whichever calls came before it, calls itself more often
than the node is deep. -/
theorem C123_depth (root : Node α κ) (p : List Nat) (it it' : Iter α (Option (List Nat)))
    (hr : Reached (ancestorStep root) (firstSource root p) it) (r : Option α) (d : Nat)
    (h : Call (ancestorStep root) it r it' d) : d ≤ p.length := by
  have h1 := call_depth root it it' r d h
  have h2 := height_first root p
  have h3 : height it.source ≤ height (firstSource root p) := by
    clear h h1
    induction hr with
    | start => exact Nat.le_refl _
    | call it it' r d _ hc ih =>
      have := call_depth root it it' r d hc
      omega
  omega

/-- In general nothing makes the recursion end: with a source that always has a successor without
items, `next` never returns. -/
theorem C123_endless : ∃ step : Nat → Option (Option (List Nat) × Nat),
    ¬ ∃ r it' d, Call step (Iter.new 0) r it' d := by
  refine ⟨fun n => some (none, n + 1), ?_⟩
  rintro ⟨r, it', d, h⟩
  have key : ∀ (it : Iter Nat Nat) r it' d,
      Call (fun n => some (none, n + 1)) it r it' d → it.nextIter = none → False := by
    intro it r it' d h
    induction h with
    | item => intro h; cases h
    | again _ n s _ _ _ _ h2 _ ih =>
      intro _
      cases h2
      exact ih rfl
    | stop _ _ h2 => cases h2
  exact key _ r it' d h rfl

/-! Non-vacuity. -/

/-- Counts down; even numbers have two items. -/
def countdown : Nat → Option (Option (List Nat) × Nat)
  | 0 => none
  | n + 1 => some (if n % 2 = 0 then some [n, n] else none, n)

example : Gives countdown (Iter.new 4) [2, 2, 0, 0] :=
  (C123_items _ _ _).2 ⟨[[], [2, 2], [], [0, 0]],
    .next 4 3 none _ rfl (.next 3 2 (some [2, 2]) _ rfl (.next 2 1 none _ rfl
      (.next 1 0 (some [0, 0]) _ rfl (.last 0 rfl)))), rfl⟩

example : Call countdown ⟨none, 0⟩ none ⟨none, 0⟩ 0 := .stop _ rfl rfl

end Verif.Ir.Succ
