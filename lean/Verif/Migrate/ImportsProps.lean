import Verif.Migrate.Imports
import Verif.Ir.UseTreeProps
import Verif.Analyzer.MembersProps

/-!
# The removal of deprecated imports from e2e tests (C91)
-/

namespace Verif.Migrate.Imports

open Verif.Ir (Names)
open Verif.Ir.UseTree (imported importedList)
open Verif.Ir.Token (bytes bytes_append)
open Verif.Analyzer (Edit applyEdit)
open Verif.Analyzer.Members (applyAll applyAll_cons applyAll_one apply_at InOrder)

/-! ## Specification -/

mutual

/-- The tree without its layout. -/
def Tree.use : Tree → Ir.UseTree
  | .leaf path true alias_ _ => .glob path alias_
  | .leaf (some p) false alias_ _ => .leaf p alias_
  | .leaf none false _ _ => .empty
  | .list path _ items _ => .list path items.uses

/-- The members of a list without their layout. -/
def Items.uses : Items → List Ir.UseTree
  | .nil => []
  | .cons _ t _ _ rest => t.use :: rest.uses

end

/-- The items that ink! 5.0 no longer has. -/
def Deprecated (n : Names) : Prop := n = ["ink_e2e", "build_message"] ∨ n = ["ink_e2e", "MessageBuilder"]

instance : DecidablePred Deprecated := fun n => by unfold Deprecated; infer_instance

/-- What a `use` item imports (as the language defines it, see C25). -/
def UseItem.imports (u : UseItem) : List (Names × Option String) := imported [] false u.tree.use

/-- The tree, in a list under the path `pre`, imports only deprecated items. -/
def Obsolete (pre : Names) (t : Tree) : Prop :=
  imported pre true t.use ≠ [] ∧ ∀ e ∈ imported pre true t.use, Deprecated e.1

mutual

/-- There are commas between the members of lists. -/
def Tree.Commas : Tree → Prop
  | .leaf _ _ _ _ => True
  | .list _ _ items _ => items.Commas

/-- There are commas between the members of a list. -/
def Items.Commas : Items → Prop
  | .nil => True
  | .cons _ t _ comma rest => (comma = true ∨ rest = .nil) ∧ t.Commas ∧ rest.Commas

end

mutual

/-- Nothing is imported from inside of the deprecated items, and lists in lists of some path have paths of
their own (`a::{{b}, c}` is out). -/
def Tree.Plain (pre : Names) : Tree → Prop
  | .leaf path glob _ _ => path ≠ some [] ∧ (glob = true → ¬ Deprecated (pre ++ path.getD []))
  | .list path _ items _ => path ≠ some [] ∧ ¬ Deprecated (pre ++ path.getD []) ∧
      (pre ≠ [] → path ≠ none) ∧ items.Plain (pre ++ path.getD [])

/-- The same for the members of a list. -/
def Items.Plain (pre : Names) : Items → Prop
  | .nil => True
  | .cons _ t _ _ rest => t.Plain pre ∧ rest.Plain pre

end

mutual

/-- No list ends with two members that only import deprecated items and without a comma behind them. -/
def Tree.NoClash (pre : Names) : Tree → Prop
  | .leaf _ _ _ _ => True
  | .list path _ items _ => items.NoClash (pre ++ path.getD [])

/-- The same for the members of a list. -/
def Items.NoClash (pre : Names) : Items → Prop
  | .nil => True
  | .cons _ t _ _ rest =>
    (Obsolete pre t → ∀ lead t' trail, rest = .cons lead t' trail false .nil → ¬ Obsolete pre t') ∧
      t.NoClash pre ∧ rest.NoClash pre

end

mutual

/-- Every list has members and every other tree imports something. -/
def Tree.Full (pre : Names) (inList : Bool) : Tree → Prop
  | .leaf path glob alias_ text => imported pre inList (Tree.leaf path glob alias_ text).use ≠ []
  | .list path _ items _ => items ≠ .nil ∧ items.Full (pre ++ path.getD [])

/-- The same for the members of a list. -/
def Items.Full (pre : Names) : Items → Prop
  | .nil => True
  | .cons _ t _ _ rest => t.Full pre true ∧ rest.Full pre

end

/-- `r` is what should be left of a `use` item: the imports that are not deprecated, nothing if there are
none. -/
structure Left (u : UseItem) (r : Option UseItem) : Prop where
  some_ : ∀ v, r = some v → v.before = u.before ∧ v.after = u.after ∧ v.tree.Commas ∧
    v.imports = u.imports.filter fun e => ¬ Deprecated e.1
  none_ : r = none → u.imports ≠ [] ∧ ∀ e ∈ u.imports, Deprecated e.1
  full : u.tree.Full [] false → (∀ e ∈ u.imports, Deprecated e.1) → r = none

/-- The text of an item that may have been removed. -/
def optText (r : Option UseItem) : List Char := (r.map UseItem.render).getD []

/-! ## What is dropped -/

mutual

/-- The tree is removed as a whole. -/
def drops (b : Bool) : Tree → Bool
  | .leaf path _ _ _ => deprecatedPath b path
  | .list path _ items _ => deprecatedPath b path || (!b &&
      match listMode path with
      | none => false
      | some m => items.isCons && allDrop m items)

/-- All members are removed. -/
def allDrop (m : Bool) : Items → Bool
  | .nil => true
  | .cons _ t _ _ rest => drops m t && allDrop m rest

/-- There are members. -/
def Items.isCons : Items → Bool
  | .nil => false
  | .cons _ _ _ _ _ => true

end

mutual

theorem inner_spec (b : Bool) : (t : Tree) → ∀ own off, (inner b own off t).2 = !drops b t ∧
    (drops b t = true → (inner b own off t).1 = [own])
  | .leaf path _ _ _, own, off => by
    simp only [inner, drops]
    split <;> simp_all
  | .list path head items close, own, off => by
    simp only [inner, drops]
    cases hp : deprecatedPath b path with
    | true => simp
    | false =>
      cases b with
      | true => simp
      | false =>
        cases hm : listMode path with
        | none => simp
        | some m =>
          have ih := innerItems_spec m items none (off + bytes head + 1)
          simp only [Bool.false_eq_true, if_false, Bool.false_or, Bool.not_false, Bool.true_and]
          cases items with
          | nil => simp [finish, innerItems, Items.isCons]
          | cons lead t trail comma rest =>
            simp only [Items.isCons, Bool.true_and]
            unfold finish
            cases ha : allDrop m (.cons lead t trail comma rest) with
            | true =>
              have h1 := ih.2 ha (by simp)
              rw [ih.1, ha]
              simp [h1]
            | false =>
              rw [ih.1, ha]
              split <;> simp_all

theorem innerItems_spec (m : Bool) : (is : Items) → ∀ prev off,
    (innerItems m prev off is).2 = !allDrop m is ∧
      (allDrop m is = true → is ≠ .nil → (innerItems m prev off is).1 ≠ [])
  | .nil, prev, off => by simp [innerItems, allDrop]
  | .cons lead t trail comma rest, prev, off => by
    have h1 := inner_spec m t (ownRange prev (off + bytes lead) (off + bytes lead + bytes t.render) trail
      comma) (off + bytes lead)
    have h2 := innerItems_spec m rest
      (if comma then some (off + bytes lead + bytes t.render + bytes trail) else none)
      (off + bytes lead + bytes t.render + bytes trail + bytes (commaText comma))
    constructor
    · simp only [innerItems, allDrop]
      rw [h1.1, h2.1, Bool.not_and]
    · intro ha _
      simp only [allDrop, Bool.and_eq_true] at ha
      simp only [innerItems]
      rw [h1.2 ha.1]
      simp

end

/-! ## What is left -/

/-- Puts text before the first member, or before the closing brace. -/
def addLead (l : List Char) : Items × List Char → Items × List Char
  | (.nil, c) => (.nil, l ++ c)
  | (.cons lead t trail comma rest, c) => (.cons (l ++ lead) t trail comma rest, c)

/-- The only member, without a comma, is removed: the text behind it. -/
def endsDrop (m : Bool) : Items → Option (List Char)
  | .cons _ t trail false .nil => if drops m t then some trail else none
  | _ => none

mutual

/-- The tree without what is removed. -/
def prune (b : Bool) : Tree → Tree
  | .leaf path glob alias_ text => .leaf path glob alias_ text
  | .list path head items close =>
    if b then .list path head items close
    else
      match listMode path with
      | none => .list path head items close
      | some m => .list path head (pruneItems m items).1 ((pruneItems m items).2 ++ close)

/-- The members that are left, and text that stays before the closing brace. -/
def pruneItems (m : Bool) : Items → Items × List Char
  | .nil => (.nil, [])
  | .cons lead t trail comma rest =>
    if drops m t then addLead lead (if comma then pruneItems m rest else (.nil, trail))
    else
      match endsDrop m rest with
      | some trail' => (.cons lead (prune m t) (trail ++ trail') false .nil, [])
      | none => (.cons lead (prune m t) trail comma (pruneItems m rest).1, (pruneItems m rest).2)

end

mutual

/-- No comma is removed twice. -/
def Clear (b : Bool) : Tree → Prop
  | .leaf _ _ _ _ => True
  | .list path _ items _ => b = false → ∀ m, listMode path = some m → ClearItems m items

/-- The same for members. -/
def ClearItems (m : Bool) : Items → Prop
  | .nil => True
  | .cons _ t _ comma rest => (comma = true ∨ rest = .nil) ∧
      (drops m t = true → endsDrop m rest = none) ∧ (drops m t = false → Clear m t) ∧ ClearItems m rest

end

theorem addLead_render (l : List Char) (x : Items × List Char) :
    (addLead l x).1.render ++ (addLead l x).2 = l ++ (x.1.render ++ x.2) := by
  obtain ⟨is, c⟩ := x
  cases is <;> simp [addLead, Items.render]

theorem applyAll_append (d : List Char) (a b : List Edit) :
    applyAll d (a ++ b) = (applyAll d b).bind fun d => applyAll d a := by
  induction a with
  | nil => simp [applyAll]
  | cons e a ih =>
    rw [List.cons_append, applyAll_cons, ih]
    cases applyAll d b <;> rfl

theorem apply_delete (P A t B S : List Char) (r : Nat × Nat) (h1 : r.1 = bytes P + bytes A)
    (h2 : r.2 = bytes P + bytes A + bytes t) :
    applyAll (P ++ (A ++ t ++ B) ++ S) [delete r] = some (P ++ (A ++ B) ++ S) := by
  have := apply_at P (A ++ t ++ B) S A t B [] none rfl
  unfold delete
  rw [h1, h2, this]
  simp

theorem endsDrop_some {m : Bool} {is : Items} {trail : List Char} (h : endsDrop m is = some trail) :
    ∃ lead t, is = .cons lead t trail false .nil ∧ drops m t = true := by
  unfold endsDrop at h
  split at h
  · rename_i lead t trail'
    split at h
    · rename_i hd
      cases h
      exact ⟨lead, t, rfl, hd⟩
    · cases h
  · cases h

mutual

/-- The edits of a tree that stays. -/
theorem apply_tree (b : Bool) : (t : Tree) → ∀ (own : Nat × Nat) (P S : List Char),
    drops b t = false → Clear b t →
      applyAll (P ++ t.render ++ S) ((inner b own (bytes P) t).1.map delete) =
        some (P ++ (prune b t).render ++ S)
  | .leaf path _ _ text, own, P, S, hd, _ => by
    simp only [drops] at hd
    simp [inner, hd, applyAll, prune]
  | .list path head items close, own, P, S, hd, hc => by
    simp only [drops, Bool.or_eq_false_iff] at hd
    simp only [inner, hd.1, Bool.false_eq_true, if_false, prune]
    cases b with
    | true => simp [applyAll]
    | false =>
      simp only [Bool.false_eq_true, if_false]
      cases hm : listMode path with
      | none => simp [applyAll]
      | some m =>
        have hd2 := hd.2
        simp only [hm, Bool.not_false, Bool.true_and] at hd2
        have hcl := hc rfl m hm
        dsimp only
        cases hi : items with
        | nil =>
          simp [finish, innerItems, applyAll, pruneItems]
        | cons lead t trail comma rest =>
          rw [← hi]
          have hall : allDrop m items = false := by
            rw [hi] at hd2 ⊢
            simpa [Items.isCons] using hd2
          have hends : endsDrop m items = none := by
            cases he : endsDrop m items with
            | none => rfl
            | some tr =>
              obtain ⟨l', t', rfl, hdt⟩ := endsDrop_some he
              simp [allDrop, hdt] at hall
          have ih := apply_items m items none (P ++ head ++ chars! "{") (close ++ chars! "}" ++ S) hends hcl
          have hb : bytes (P ++ head ++ chars! "{") = bytes P + bytes head + 1 := by
            have h1 : bytes (chars! "{") = 1 := by decide
            rw [bytes_append, bytes_append, h1]
          rw [hb] at ih
          have hfin : (finish own (innerItems m none (bytes P + bytes head + 1) items)).1 =
              (innerItems m none (bytes P + bytes head + 1) items).1 := by
            have hs := (innerItems_spec m items none (bytes P + bytes head + 1)).1
            rw [hall] at hs
            unfold finish
            rw [hs]
            split
            · rename_i hn
              simp only [List.isEmpty_iff] at hn
              simp [hn]
            · simp
          rw [hfin]
          have e1 : P ++ (Tree.list path head items close).render ++ S =
              P ++ head ++ chars! "{" ++ items.render ++ (close ++ chars! "}" ++ S) := by
            simp [Tree.render, List.append_assoc]
          rw [e1, ih]
          simp [Tree.render, List.append_assoc]

/-- The edits of the members of a list. -/
theorem apply_items (m : Bool) : (is : Items) → ∀ (prev : Option Nat) (P S : List Char),
    endsDrop m is = none → ClearItems m is →
      applyAll (P ++ is.render ++ S) ((innerItems m prev (bytes P) is).1.map delete) =
        some (P ++ ((pruneItems m is).1.render ++ (pruneItems m is).2) ++ S)
  | .nil, prev, P, S, _, _ => by simp [innerItems, applyAll, Items.render, pruneItems]
  | .cons lead t trail comma rest, prev, P, S, he, hc => by
    obtain ⟨hcomma, hno, hclear, hcr⟩ := hc
    simp only [innerItems, List.map_append]
    rw [applyAll_append]
    cases hd : drops m t with
    | true =>
      -- The member is removed; a comma follows, since it would end the list otherwise.
      have hct : comma = true := by
        rcases hcomma with h | h
        · exact h
        · subst h
          cases comma with
          | true => rfl
          | false => simp [endsDrop, hd] at he
      subst hct
      have ih := apply_items m rest (some (bytes P + bytes lead + bytes t.render + bytes trail))
        (P ++ lead ++ t.render ++ trail ++ chars! ",") S (hno hd) hcr
      have hb : bytes (P ++ lead ++ t.render ++ trail ++ chars! ",") =
          bytes P + bytes lead + bytes t.render + bytes trail + bytes (commaText true) := by
        simp only [bytes_append, commaText, if_true]
      rw [hb] at ih
      have e1 : P ++ (Items.cons lead t trail true rest).render ++ S =
          P ++ lead ++ t.render ++ trail ++ chars! "," ++ rest.render ++ S := by
        simp [Items.render, commaText, List.append_assoc]
      rw [if_pos rfl, e1, ih, Option.bind_some]
      rw [(inner_spec m t _ _).2 hd]
      have hc1 : bytes (chars! ",") = 1 := by decide
      have := apply_delete P lead (t.render ++ trail ++ chars! ",")
        ((pruneItems m rest).1.render ++ (pruneItems m rest).2) S
        (ownRange prev (bytes P + bytes lead) (bytes P + bytes lead + bytes t.render) trail true)
        (by simp [ownRange]) (by simp only [ownRange, if_true, bytes_append, hc1]; omega)
      simp only [List.map_cons, List.map_nil]
      have e2 : P ++ lead ++ t.render ++ trail ++ chars! "," ++
          ((pruneItems m rest).1.render ++ (pruneItems m rest).2) ++ S =
          P ++ (lead ++ (t.render ++ trail ++ chars! ",") ++
            ((pruneItems m rest).1.render ++ (pruneItems m rest).2)) ++ S := by
        simp [List.append_assoc]
      rw [e2, this]
      simp only [pruneItems, hd, if_true]
      rw [addLead_render]
    | false =>
      simp only [pruneItems, hd, Bool.false_eq_true, if_false]
      cases hr : endsDrop m rest with
      | some trail' =>
        obtain ⟨lead', t', rfl, hdt⟩ := endsDrop_some hr
        have hct : comma = true := by
          rcases hcomma with h | h
          · exact h
          · cases h
        subst hct
        have h1 : (innerItems m (if true = true then
            some (bytes P + bytes lead + bytes t.render + bytes trail) else none)
            (bytes P + bytes lead + bytes t.render + bytes trail + bytes (commaText true))
            (.cons lead' t' trail' false .nil)).1 =
            [(bytes P + bytes lead + bytes t.render + bytes trail,
              bytes P + bytes lead + bytes t.render + bytes trail + bytes (commaText true) +
                bytes lead' + bytes t'.render)] := by
          simp only [innerItems, List.append_nil, if_true]
          rw [(inner_spec m t' _ _).2 hdt]
          simp [ownRange]
        rw [h1]
        have e1 : P ++ (Items.cons lead t trail true (.cons lead' t' trail' false .nil)).render ++ S =
            P ++ ((lead ++ t.render ++ trail) ++ (commaText true ++ lead' ++ t'.render) ++ trail') ++ S := by
          simp [Items.render, commaText, List.append_assoc]
        rw [e1]
        simp only [List.map_cons, List.map_nil]
        rw [apply_delete P (lead ++ t.render ++ trail) (commaText true ++ lead' ++ t'.render) trail' S _
          (by simp only [bytes_append]; omega) (by simp only [bytes_append]; omega), Option.bind_some]
        have ih := apply_tree m t (ownRange prev (bytes P + bytes lead)
          (bytes P + bytes lead + bytes t.render) trail true) (P ++ lead) (trail ++ trail' ++ S) hd
          (hclear hd)
        rw [bytes_append] at ih
        have e2 : P ++ (lead ++ t.render ++ trail ++ trail') ++ S =
            P ++ lead ++ t.render ++ (trail ++ trail' ++ S) := by
          simp [List.append_assoc]
        rw [e2, ih]
        simp [Items.render, commaText, List.append_assoc]
      | none =>
        have ih1 := apply_items m rest
          (if comma = true then some (bytes P + bytes lead + bytes t.render + bytes trail) else none)
          (P ++ lead ++ t.render ++ trail ++ commaText comma) S hr hcr
        have hb : bytes (P ++ lead ++ t.render ++ trail ++ commaText comma) =
            bytes P + bytes lead + bytes t.render + bytes trail + bytes (commaText comma) := by
          simp only [bytes_append]
        rw [hb] at ih1
        have e1 : P ++ (Items.cons lead t trail comma rest).render ++ S =
            P ++ lead ++ t.render ++ trail ++ commaText comma ++ rest.render ++ S := by
          simp [Items.render, List.append_assoc]
        rw [e1, ih1, Option.bind_some]
        have ih := apply_tree m t (ownRange prev (bytes P + bytes lead)
          (bytes P + bytes lead + bytes t.render) trail comma) (P ++ lead)
          (trail ++ commaText comma ++ ((pruneItems m rest).1.render ++ (pruneItems m rest).2) ++ S) hd
          (hclear hd)
        rw [bytes_append] at ih
        have e2 : P ++ lead ++ t.render ++ trail ++ commaText comma ++
            ((pruneItems m rest).1.render ++ (pruneItems m rest).2) ++ S =
            P ++ lead ++ t.render ++ (trail ++ commaText comma ++
              ((pruneItems m rest).1.render ++ (pruneItems m rest).2) ++ S) := by
          simp [List.append_assoc]
        rw [e2, ih]
        simp [Items.render, List.append_assoc]

end

/-! ## Order -/

/-- Ranges between `lo` and `hi`, in order and apart. -/
def Within (lo hi : Nat) (l : List (Nat × Nat)) : Prop :=
  (∀ r ∈ l, lo ≤ r.1 ∧ r.1 ≤ r.2 ∧ r.2 ≤ hi) ∧ l.Pairwise fun a b => a.2 ≤ b.1

theorem within_nil (lo hi : Nat) : Within lo hi [] := ⟨by simp, List.Pairwise.nil⟩

theorem within_append {lo mid hi : Nat} {a b : List (Nat × Nat)} (ha : Within lo mid a)
    (hb : Within mid hi b) (h1 : lo ≤ mid) (h2 : mid ≤ hi) : Within lo hi (a ++ b) := by
  refine ⟨fun r hr => ?_, List.pairwise_append.2 ⟨ha.2, hb.2, fun x hx y hy => ?_⟩⟩
  · rcases List.mem_append.1 hr with h | h
    · have := ha.1 r h
      omega
    · have := hb.1 r h
      omega
  · have := ha.1 x hx
    have := hb.1 y hy
    omega

theorem within_mono {lo hi lo' hi' : Nat} {a : List (Nat × Nat)} (ha : Within lo hi a) (h1 : lo' ≤ lo)
    (h2 : hi ≤ hi') : Within lo' hi' a :=
  ⟨fun r hr => by have := ha.1 r hr; omega, ha.2⟩

mutual

theorem within_tree (b : Bool) : (t : Tree) → ∀ (own : Nat × Nat) (off : Nat),
    drops b t = false → Clear b t → Within off (off + bytes t.render) (inner b own off t).1
  | .leaf path _ _ text, own, off, hd, _ => by
    simp only [drops] at hd
    simp only [inner, hd, Bool.false_eq_true, if_false]
    exact within_nil _ _
  | .list path head items close, own, off, hd, hc => by
    simp only [drops, Bool.or_eq_false_iff] at hd
    simp only [inner, hd.1, Bool.false_eq_true, if_false]
    cases b with
    | true => exact within_nil _ _
    | false =>
      simp only [Bool.false_eq_true, if_false]
      cases hm : listMode path with
      | none => exact within_nil _ _
      | some m =>
        have hd2 := hd.2
        simp only [hm, Bool.not_false, Bool.true_and] at hd2
        dsimp only
        unfold finish
        split
        · exact within_nil _ _
        · rename_i hn
          have hcons : items.isCons = true := by
            cases items with
            | nil => simp [innerItems] at hn
            | cons => rfl
          rw [hcons, Bool.true_and] at hd2
          rw [(innerItems_spec m items none (off + bytes head + 1)).1, hd2]
          simp only [Bool.not_false, if_true]
          have hends : endsDrop m items = none := by
            cases he : endsDrop m items with
            | none => rfl
            | some tr =>
              obtain ⟨l', t', rfl, hdt⟩ := endsDrop_some he
              simp [allDrop, hdt] at hd2
          have ih := within_items m items none (off + bytes head + 1) hends (hc rfl m hm)
          refine within_mono ih (by omega) ?_
          have h1 : bytes (chars! "{") = 1 := by decide
          simp only [Tree.render, bytes_append, h1]
          omega

theorem within_items (m : Bool) : (is : Items) → ∀ (prev : Option Nat) (off : Nat),
    endsDrop m is = none → ClearItems m is →
      Within off (off + bytes is.render) (innerItems m prev off is).1
  | .nil, prev, off, _, _ => within_nil _ _
  | .cons lead t trail comma rest, prev, off, he, hc => by
    obtain ⟨hcomma, hno, hclear, hcr⟩ := hc
    simp only [innerItems, Items.render, bytes_append]
    cases hd : drops m t with
    | true =>
      have hct : comma = true := by
        rcases hcomma with h | h
        · exact h
        · subst h
          cases comma with
          | true => rfl
          | false => simp [endsDrop, hd] at he
      subst hct
      have ih := within_items m rest (some (off + bytes lead + bytes t.render + bytes trail))
        (off + bytes lead + bytes t.render + bytes trail + bytes (commaText true)) (hno hd) hcr
      rw [if_pos rfl, (inner_spec m t _ _).2 hd]
      have hc1 : bytes (commaText true) = 1 := by decide
      rw [hc1] at ih ⊢
      refine within_append (mid := off + bytes lead + bytes t.render + bytes trail + 1) ?_
        (within_mono ih (by omega) (by omega)) (by omega) (by omega)
      refine ⟨fun r hr => ?_, List.pairwise_singleton _ _⟩
      rw [List.mem_singleton.1 hr]
      simp only [ownRange, if_true]
      omega
    | false =>
      have iht := within_tree m t (ownRange prev (off + bytes lead) (off + bytes lead + bytes t.render)
        trail comma) (off + bytes lead) hd (hclear hd)
      refine within_append (mid := off + bytes lead + bytes t.render)
        (within_mono iht (by omega) (by omega)) ?_ (by omega) (by omega)
      cases hr : endsDrop m rest with
      | none =>
        have ih := within_items m rest
          (if comma = true then some (off + bytes lead + bytes t.render + bytes trail) else none)
          (off + bytes lead + bytes t.render + bytes trail + bytes (commaText comma)) hr hcr
        exact within_mono ih (by omega) (by omega)
      | some trail' =>
        obtain ⟨lead', t', rfl, hdt⟩ := endsDrop_some hr
        have hct : comma = true := by
          rcases hcomma with h | h
          · exact h
          · cases h
        subst hct
        simp only [innerItems, List.append_nil, if_true]
        rw [(inner_spec m t' _ _).2 hdt]
        refine ⟨fun r hr => ?_, List.pairwise_singleton _ _⟩
        rw [List.mem_singleton.1 hr]
        simp only [ownRange, Bool.false_eq_true, if_false, Items.render, bytes_append]
        omega

end

/-! ## Imports -/

/-- The path that the members of a list under scrutiny are under. -/
def preOf (b : Bool) : Names := if b then ["ink_e2e"] else []

theorem isDeprecatedName_iff (x : String) : isDeprecatedName x = true ↔ Deprecated ["ink_e2e", x] := by
  simp [isDeprecatedName, Deprecated]

theorem deprecatedPath_iff (b : Bool) (p : Names) :
    deprecatedPath b (some p) = true ↔ Deprecated (preOf b ++ p) := by
  cases b with
  | true =>
    simp only [deprecatedPath, preOf, if_true]
    split
    · rename_i x
      exact isDeprecatedName_iff x
    · rename_i h
      simp only [Bool.false_eq_true, false_iff, Deprecated, List.cons_append, List.nil_append,
        List.cons.injEq, true_and]
      rintro (h' | h') <;> exact h _ h'
  | false =>
    simp only [deprecatedPath, preOf, Bool.false_eq_true, if_false, List.nil_append, Bool.and_eq_true,
      beq_iff_eq]
    rcases List.eq_nil_or_concat p with rfl | ⟨q, x, rfl⟩
    · simp [Deprecated]
    · rw [List.concat_eq_append, List.getLast?_concat, List.dropLast_concat]
      simp only [Option.any_some, isDeprecatedName_iff, Deprecated]
      constructor
      · rintro ⟨h, rfl⟩
        exact h
      · intro h
        have : q = ["ink_e2e"] := by
          rcases h with h | h
          · exact (List.append_inj' (t₁ := [x]) (s₂ := ["ink_e2e"]) (t₂ := ["build_message"]) h rfl).1
          · exact (List.append_inj' (t₁ := [x]) (s₂ := ["ink_e2e"]) (t₂ := ["MessageBuilder"]) h rfl).1
        subst this
        exact ⟨h, rfl⟩

mutual

theorem imported_pre : (t : Ir.UseTree) → ∀ (pre : Names) (il : Bool), ∀ e ∈ imported pre il t,
    pre <+: e.1
  | .list path subs, pre, il, e, he => by
    rw [imported] at he
    exact (List.prefix_append pre _).trans (importedList_pre subs _ e he)
  | .glob path _, pre, il, e, he => by
    rw [imported, List.mem_singleton] at he
    subst he
    exact ⟨path.getD [] ++ ["*"], by simp⟩
  | .leaf path _, pre, il, e, he => by
    rw [imported] at he
    split at he
    · split at he
      · cases he
      · rw [List.mem_singleton] at he
        subst he
        exact List.prefix_refl _
    · rw [List.mem_singleton] at he
      subst he
      exact List.prefix_append _ _
  | .empty, pre, il, e, he => by
    rw [imported] at he
    cases he

theorem importedList_pre : (ts : List Ir.UseTree) → ∀ (pre : Names), ∀ e ∈ importedList pre ts,
    pre <+: e.1
  | [], pre, e, he => by
    rw [importedList] at he
    cases he
  | t :: ts, pre, e, he => by
    rw [importedList, List.mem_append] at he
    rcases he with h | h
    · exact imported_pre t pre true e h
    · exact importedList_pre ts pre e h

end

theorem deprecated_prefix {p n : Names} (h : p <+: n) (hn : Deprecated n) :
    p = [] ∨ p = ["ink_e2e"] ∨ p = n := by
  obtain ⟨s, rfl⟩ := h
  have : ∃ x, p ++ s = ["ink_e2e", x] := by
    rcases hn with h | h <;> exact ⟨_, h⟩
  obtain ⟨x, h⟩ := this
  match p, h with
  | [], _ => exact .inl rfl
  | [a], h =>
    right; left
    simp only [List.cons_append, List.cons.injEq] at h
    rw [h.1]
  | [a, b], h =>
    right; right
    simp only [List.cons_append, List.cons.injEq, List.nil_append] at h
    simp [h.2.2]
  | a :: b :: c :: l, h => simp at h

/-- Lists that are not looked into import nothing deprecated. -/
theorem list_clean {b : Bool} {path : Option Names} {head close : List Char} {items : Items}
    (hp : (Tree.list path head items close).Plain (preOf b)) (hm : b = true ∨ listMode path = none)
    (il : Bool) : ∀ e ∈ imported (preOf b) il (Tree.list path head items close).use, ¬ Deprecated e.1 := by
  intro e he hd
  obtain ⟨hp0, hpd, hpn, -⟩ := hp
  rw [Tree.use, imported] at he
  have hpre := importedList_pre _ _ e he
  rcases deprecated_prefix hpre hd with h | h | h
  · cases b with
    | true => simp [preOf] at h
    | false =>
      rcases hm with hm | hm
      · cases hm
      · cases path with
        | none => simp [listMode] at hm
        | some p =>
          simp only [preOf, Option.getD_some, Bool.false_eq_true, if_false, List.nil_append] at h
          exact hp0 (by rw [h])
  · cases b with
    | true =>
      cases path with
      | none => exact hpn (by simp [preOf]) rfl
      | some p =>
        simp only [preOf, Option.getD_some, if_true, List.cons_append, List.nil_append,
          List.cons.injEq, true_and] at h
        exact hp0 (by rw [h])
    | false =>
      rcases hm with hm | hm
      · cases hm
      · cases path with
        | none => simp [listMode] at hm
        | some p =>
          simp only [preOf, Option.getD_some, Bool.false_eq_true, if_false, List.nil_append] at h
          subst h
          simp [listMode] at hm
  · exact hpd (h ▸ hd)

theorem listMode_pre {path : Option Names} {m : Bool} (h : listMode path = some m) :
    path.getD [] = preOf m := by
  unfold listMode at h
  split at h
  · cases h
    rfl
  · split at h
    · rename_i hp
      cases h
      simp [hp, preOf]
    · cases h

/-- What a leaf that stays imports is not deprecated. -/
theorem leaf_clean {b : Bool} {path : Option Names} {glob : Bool} {al : Option String} {text : List Char}
    (hd : deprecatedPath b path = false) (il : Bool) :
    ∀ e ∈ imported (preOf b) il (Tree.leaf path glob al text).use, ¬ Deprecated e.1 := by
  intro e he hde
  cases glob with
  | true =>
    rw [Tree.use, imported, List.mem_singleton] at he
    subst he
    rcases hde with h | h
    all_goals
      have h2 := congrArg List.getLast? h
      simp [List.getLast?_concat] at h2
  | false =>
    cases path with
    | none =>
      rw [Tree.use, imported] at he
      cases he
    | some p =>
      rw [Tree.use, imported] at he
      split at he
      · split at he
        · cases he
        · rw [List.mem_singleton] at he
          subst he
          cases b <;> simp [preOf, Deprecated] at hde
      · rw [List.mem_singleton] at he
        subst he
        rw [← deprecatedPath_iff] at hde
        rw [hd] at hde
        cases hde

mutual

/-- What is dropped imports only deprecated items. -/
theorem drops_obsolete (b : Bool) : (t : Tree) → ∀ il, t.Plain (preOf b) → drops b t = true →
    imported (preOf b) il t.use ≠ [] ∧ ∀ e ∈ imported (preOf b) il t.use, Deprecated e.1
  | .leaf path glob al text, il, hp, hd => by
    simp only [drops] at hd
    cases path with
    | none => simp [deprecatedPath] at hd
    | some p =>
      have hdep := (deprecatedPath_iff b p).1 hd
      cases glob with
      | true => exact absurd hdep (hp.2 rfl)
      | false =>
        have hself : ¬ (il = true ∧ p = ["self"]) := by
          rintro ⟨-, rfl⟩
          cases b <;> simp [preOf, Deprecated] at hdep
        rw [Tree.use, imported, if_neg hself]
        simp [hdep]
  | .list path head items close, il, hp, hd => by
    simp only [drops, Bool.or_eq_true] at hd
    have hnd : deprecatedPath b path = false := by
      cases path with
      | none => rfl
      | some p =>
        rw [Bool.eq_false_iff]
        intro h
        exact hp.2.1 ((deprecatedPath_iff b p).1 h)
    rw [hnd] at hd
    cases b with
    | true => simp at hd
    | false =>
      cases hm : listMode path with
      | none => simp [hm] at hd
      | some m =>
        simp only [hm, Bool.false_eq_true, false_or, Bool.not_false, Bool.true_and,
          Bool.and_eq_true] at hd
        rw [Tree.use, imported]
        have hpre : preOf false ++ path.getD [] = preOf m := by
          rw [listMode_pre hm]
          rfl
        rw [hpre]
        have hpi := hp.2.2.2
        rw [hpre] at hpi
        refine allDrop_obsolete m items hpi hd.2 ?_
        rintro rfl
        simp [Items.isCons] at hd

theorem allDrop_obsolete (m : Bool) : (is : Items) → is.Plain (preOf m) → allDrop m is = true →
    is ≠ .nil → importedList (preOf m) is.uses ≠ [] ∧
      ∀ e ∈ importedList (preOf m) is.uses, Deprecated e.1
  | .nil, _, _, h => absurd rfl h
  | .cons lead t trail comma rest, hp, hd, _ => by
    simp only [allDrop, Bool.and_eq_true] at hd
    have h1 := drops_obsolete m t true hp.1 hd.1
    rw [Items.uses, importedList]
    refine ⟨by simp [h1.1], fun e he => ?_⟩
    rcases List.mem_append.1 he with h | h
    · exact h1.2 e h
    · cases rest with
      | nil =>
        rw [Items.uses, importedList] at h
        cases h
      | cons l' t' tr' c' r' => exact (allDrop_obsolete m _ hp.2 hd.2 (by simp)).2 e h

end

theorem addLead_uses (l : List Char) (x : Items × List Char) : (addLead l x).1.uses = x.1.uses := by
  obtain ⟨is, c⟩ := x
  cases is <;> simp [addLead, Items.uses]

theorem filter_none {l : List (Names × Option String)} (h : ∀ e ∈ l, Deprecated e.1) :
    l.filter (fun e => ¬ Deprecated e.1) = [] := by
  rw [List.filter_eq_nil_iff]
  intro e he
  simp [h e he]

theorem filter_all {l : List (Names × Option String)} (h : ∀ e ∈ l, ¬ Deprecated e.1) :
    l.filter (fun e => ¬ Deprecated e.1) = l := by
  rw [List.filter_eq_self]
  intro e he
  simp [h e he]

mutual

theorem prune_imports (b : Bool) : (t : Tree) → ∀ il, t.Plain (preOf b) → t.Commas →
    drops b t = false →
    imported (preOf b) il (prune b t).use =
      (imported (preOf b) il t.use).filter fun e => ¬ Deprecated e.1
  | .leaf path glob al text, il, hp, _, hd => by
    simp only [drops] at hd
    rw [filter_all (leaf_clean hd il)]
    simp [prune]
  | .list path head items close, il, hp, hc, hd => by
    cases b with
    | true =>
      rw [filter_all (list_clean hp (.inl rfl) il)]
      simp [prune]
    | false =>
      cases hm : listMode path with
      | none =>
        rw [filter_all (list_clean hp (.inr hm) il)]
        simp [prune, hm]
      | some m =>
        have hpre : preOf false ++ path.getD [] = preOf m := by
          rw [listMode_pre hm]
          rfl
        have hpi := hp.2.2.2
        rw [hpre] at hpi
        simp only [prune, hm, Bool.false_eq_true, if_false]
        rw [Tree.use, imported, Tree.use, imported, hpre]
        exact pruneItems_imports m items hpi hc

theorem pruneItems_imports (m : Bool) : (is : Items) → is.Plain (preOf m) → is.Commas →
    importedList (preOf m) (pruneItems m is).1.uses =
      (importedList (preOf m) is.uses).filter fun e => ¬ Deprecated e.1
  | .nil, _, _ => by simp [pruneItems, Items.uses, importedList]
  | .cons lead t trail comma rest, hp, hc => by
    have hrest : rest.uses = [] ∨ comma = true := by
      rcases hc.1 with h | h
      · exact .inr h
      · subst h
        exact .inl rfl
    rw [Items.uses, importedList, List.filter_append]
    cases hd : drops m t with
    | true =>
      simp only [pruneItems, hd, if_true]
      rw [addLead_uses, filter_none (drops_obsolete m t true hp.1 hd).2, List.nil_append]
      rcases hrest with h | h
      · cases comma with
        | true =>
          simp only [if_true]
          exact pruneItems_imports m rest hp.2 hc.2.2
        | false =>
          rw [h]
          simp [Items.uses, importedList]
      · simp only [h, if_true]
        exact pruneItems_imports m rest hp.2 hc.2.2
    | false =>
      have h1 := prune_imports m t true hp.1 hc.2.1 hd
      simp only [pruneItems, hd, Bool.false_eq_true, if_false]
      cases hr : endsDrop m rest with
      | some trail' =>
        obtain ⟨lead', t', rfl, hdt⟩ := endsDrop_some hr
        have h2 := drops_obsolete m t' true hp.2.1 hdt
        simp only [Items.uses, importedList, List.append_nil]
        rw [h1, filter_none h2.2, List.append_nil]
      | none =>
        simp only [Items.uses, importedList]
        rw [h1, pruneItems_imports m rest hp.2 hc.2.2]

end

theorem addLead_commas {l : List Char} {x : Items × List Char} (h : x.1.Commas) :
    (addLead l x).1.Commas := by
  obtain ⟨is, c⟩ := x
  cases is with
  | nil => exact h
  | cons => exact h

mutual

theorem prune_commas (b : Bool) : (t : Tree) → t.Commas → (prune b t).Commas
  | .leaf _ _ _ _, _ => by simp [prune, Tree.Commas]
  | .list path head items close, h => by
    simp only [prune]
    repeat' split
    · exact h
    · exact h
    · exact pruneItems_commas _ items h

theorem pruneItems_commas (m : Bool) : (is : Items) → is.Commas → (pruneItems m is).1.Commas
  | .nil, _ => by simp [pruneItems, Items.Commas]
  | .cons lead t trail comma rest, h => by
    simp only [pruneItems]
    split
    · apply addLead_commas
      split
      · exact pruneItems_commas m rest h.2.2
      · trivial
    · split
      · exact ⟨.inr rfl, prune_commas m t h.2.1, trivial⟩
      · refine ⟨?_, prune_commas m t h.2.1, pruneItems_commas m rest h.2.2⟩
        rcases h.1 with h1 | h1
        · exact .inl h1
        · subst h1
          exact .inr (by simp [pruneItems])

end

mutual

/-- Trees without clashes are clear. -/
theorem clear_of (b : Bool) : (t : Tree) → t.Plain (preOf b) → t.Commas → t.NoClash (preOf b) →
    Clear b t
  | .leaf _ _ _ _, _, _, _ => trivial
  | .list path head items close, hp, hc, hn => by
    intro hb m hm
    subst hb
    have hpre : preOf false ++ path.getD [] = preOf m := by
      rw [listMode_pre hm]
      rfl
    have hpi := hp.2.2.2
    rw [hpre] at hpi
    have hni : items.NoClash (preOf false ++ path.getD []) := hn
    rw [hpre] at hni
    exact clearItems_of m items hpi hc hni

theorem clearItems_of (m : Bool) : (is : Items) → is.Plain (preOf m) → is.Commas →
    is.NoClash (preOf m) → ClearItems m is
  | .nil, _, _, _ => trivial
  | .cons lead t trail comma rest, hp, hc, hn => by
    refine ⟨hc.1, fun hd => ?_, fun _ => clear_of m t hp.1 hc.2.1 hn.2.1,
      clearItems_of m rest hp.2 hc.2.2 hn.2.2⟩
    cases he : endsDrop m rest with
    | none => rfl
    | some trail' =>
      obtain ⟨lead', t', rfl, hdt⟩ := endsDrop_some he
      exact absurd (drops_obsolete m t' true hp.2.1 hdt)
        (hn.1 (drops_obsolete m t true hp.1 hd) lead' t' trail' rfl)

end

mutual

theorem full_imports : (t : Tree) → ∀ (pre : Names) (il : Bool), t.Full pre il →
    imported pre il t.use ≠ []
  | .leaf path glob al text, pre, il, h => h
  | .list path head items close, pre, il, h => by
    rw [Tree.use, imported]
    exact fullItems_imports items _ h.2 h.1

theorem fullItems_imports : (is : Items) → ∀ (pre : Names), is.Full pre → is ≠ .nil →
    importedList pre is.uses ≠ []
  | .nil, _, _, h => absurd rfl h
  | .cons lead t trail comma rest, pre, h, _ => by
    rw [Items.uses, importedList]
    simp [full_imports t pre true h.1]

end

mutual

/-- What stays imports something that is not deprecated. -/
theorem keeps_some (b : Bool) : (t : Tree) → ∀ il, t.Plain (preOf b) → t.Full (preOf b) il →
    drops b t = false → ∃ e ∈ imported (preOf b) il t.use, ¬ Deprecated e.1
  | .leaf path glob al text, il, hp, hf, hd => by
    simp only [drops] at hd
    obtain ⟨e, he⟩ := List.exists_mem_of_ne_nil _ hf
    exact ⟨e, he, leaf_clean hd il e he⟩
  | .list path head items close, il, hp, hf, hd => by
    have hne := full_imports _ _ _ hf
    cases b with
    | true =>
      obtain ⟨e, he⟩ := List.exists_mem_of_ne_nil _ hne
      exact ⟨e, he, list_clean hp (.inl rfl) il e he⟩
    | false =>
      cases hm : listMode path with
      | none =>
        obtain ⟨e, he⟩ := List.exists_mem_of_ne_nil _ hne
        exact ⟨e, he, list_clean hp (.inr hm) il e he⟩
      | some m =>
        have hpre : preOf false ++ path.getD [] = preOf m := by
          rw [listMode_pre hm]
          rfl
        have hpi := hp.2.2.2
        have hfi := hf.2
        rw [hpre] at hpi hfi
        simp only [drops, hm, Bool.or_eq_false_iff, Bool.not_false, Bool.true_and] at hd
        have hall : allDrop m items = false := by
          cases items with
          | nil => exact absurd rfl hf.1
          | cons => simpa [Items.isCons] using hd.2
        rw [Tree.use, imported, hpre]
        exact keepsItems_some m items hpi hfi hall

theorem keepsItems_some (m : Bool) : (is : Items) → is.Plain (preOf m) → is.Full (preOf m) →
    allDrop m is = false → ∃ e ∈ importedList (preOf m) is.uses, ¬ Deprecated e.1
  | .nil, _, _, h => by simp [allDrop] at h
  | .cons lead t trail comma rest, hp, hf, h => by
    rw [Items.uses, importedList]
    simp only [allDrop, Bool.and_eq_false_iff] at h
    rcases h with h | h
    · obtain ⟨e, he, hd⟩ := keeps_some m t true hp.1 hf.1 h
      exact ⟨e, List.mem_append_left _ he, hd⟩
    · obtain ⟨e, he, hd⟩ := keepsItems_some m rest hp.2 hf.2 h
      exact ⟨e, List.mem_append_right _ he, hd⟩

end

/-- What is left of an item. -/
def result (u : UseItem) : Option UseItem :=
  if drops false u.tree then none else some { u with tree := prune false u.tree }

/-- An item for which the property is claimed. -/
structure Usual (u : UseItem) : Prop where
  commas : u.tree.Commas
  plain : u.tree.Plain []
  noClash : u.tree.NoClash []

theorem result_left (u : UseItem) (h : Usual u) : Left u (result u) := by
  refine ⟨fun v hv => ?_, fun hn => ?_, fun hf hall => ?_⟩
  · unfold result at hv
    split at hv
    · cases hv
    · rename_i hd
      cases hv
      rw [Bool.not_eq_true] at hd
      exact ⟨rfl, rfl, prune_commas _ _ h.commas, prune_imports false u.tree false h.plain h.commas hd⟩
  · unfold result at hn
    split at hn
    · rename_i hd
      exact drops_obsolete false u.tree false h.plain hd
    · cases hn
  · unfold result
    cases hd : drops false u.tree with
    | true => rfl
    | false =>
      obtain ⟨e, he, hde⟩ := keeps_some false u.tree false h.plain hf hd
      exact absurd (hall e he) hde

/-- The edits of an item. -/
theorem itemEdits_apply (u : UseItem) (h : Usual u) (P S : List Char) :
    applyAll (P ++ u.render ++ S) (itemEdits (bytes P) u) = some (P ++ optText (result u) ++ S) := by
  have hcl := clear_of false u.tree h.plain h.commas h.noClash
  simp only [itemEdits]
  generalize hown : (bytes P + bytes u.before, bytes P + bytes u.before + bytes u.tree.render) = own
  have hs := inner_spec false u.tree own (bytes P + bytes u.before)
  unfold result
  cases hd : drops false u.tree with
  | true =>
    rw [hs.2 hd, hs.1, hd]
    simp only [List.isEmpty_cons, Bool.false_eq_true, if_false, Bool.not_true, if_true]
    have := apply_delete P [] u.render [] S (bytes P, bytes P + bytes u.render) (by simp [bytes])
      (by simp [bytes])
    simpa [optText] using this
  | false =>
    have hap := apply_tree false u.tree own (P ++ u.before) (u.after ++ S) hd hcl
    rw [bytes_append] at hap
    have e1 : P ++ u.render ++ S = P ++ u.before ++ u.tree.render ++ (u.after ++ S) := by
      simp [UseItem.render, List.append_assoc]
    rw [e1, hs.1, hd]
    simp only [Bool.not_false, if_true]
    have e2 : P ++ optText (some { u with tree := prune false u.tree }) ++ S =
        P ++ u.before ++ (prune false u.tree).render ++ (u.after ++ S) := by
      simp [optText, UseItem.render, List.append_assoc]
    split
    · rename_i hn
      simp only [List.isEmpty_iff] at hn
      rw [hn] at hap
      simp only [List.map_nil] at hap
      rw [hap]
      simp [optText, UseItem.render, List.append_assoc]
    · rw [hap]
      simp [optText, UseItem.render, List.append_assoc]

theorem itemEdits_within (u : UseItem) (h : Usual u) (off : Nat) :
    Within off (off + bytes u.render) ((itemEdits off u).map fun e => (e.start, e.stop)) := by
  have hcl := clear_of false u.tree h.plain h.commas h.noClash
  simp only [itemEdits]
  generalize (off + bytes u.before, off + bytes u.before + bytes u.tree.render) = own
  have hs := inner_spec false u.tree own (off + bytes u.before)
  split
  · exact within_nil _ _
  · split
    · rename_i hv
      have hd : drops false u.tree = false := by
        rw [hs.1] at hv
        simpa using hv
      have hw := within_tree false u.tree own (off + bytes u.before) hd hcl
      rw [List.map_map]
      have : ((fun e : Edit => (e.start, e.stop)) ∘ delete) = id := by
        funext r
        rfl
      rw [this, List.map_id]
      refine within_mono hw (by omega) ?_
      simp only [UseItem.render, bytes_append]
      omega
    · refine ⟨fun r hr => ?_, List.pairwise_singleton _ _⟩
      simp only [List.map_cons, List.map_nil, List.mem_singleton, delete] at hr
      subst hr
      simp

/-! ## Theorems -/

/-- After the migration the `use` items of the module import what they imported before, without the
deprecated items; items that imported nothing else are gone; all other text is as before. Missing: lists
that end with two deprecated imports (`C91_negation_overlap`), lists without a path in a list of `ink_e2e`
(`C91_negation_nested`) and paths with a leading `::` (`C91_negation_global`). -/
theorem C91_removed_partial (us : Uses) (h : ∀ x ∈ us, Usual x.2) (P S : List Char) :
    ∃ f : UseItem → Option UseItem, (∀ x ∈ us, Left x.2 (f x.2)) ∧
      applyAll (P ++ us.render ++ S) (edits (bytes P) us) =
        some (P ++ us.flatMap (fun x => x.1 ++ optText (f x.2)) ++ S) := by
  refine ⟨result, fun x hx => result_left x.2 (h x hx), ?_⟩
  induction us generalizing P with
  | nil => simp [Uses.render, edits, applyAll]
  | cons x us ih =>
    obtain ⟨gap, u⟩ := x
    simp only [edits]
    rw [applyAll_append]
    have ih := ih (fun y hy => h y (List.mem_cons_of_mem _ hy)) (P ++ gap ++ u.render)
    rw [bytes_append, bytes_append] at ih
    have e1 : P ++ Uses.render ((gap, u) :: us) ++ S = P ++ gap ++ u.render ++ Uses.render us ++ S := by
      simp [Uses.render, List.append_assoc]
    rw [e1, ih, Option.bind_some]
    have hi := itemEdits_apply u (h (gap, u) (List.mem_cons_self ..)) (P ++ gap)
      (us.flatMap (fun x => x.1 ++ optText (result x.2)) ++ S)
    rw [bytes_append] at hi
    rw [List.append_assoc (P ++ gap ++ u.render), hi]
    simp [List.append_assoc]

/-- The edits are in order and do not overlap. Missing: as for `C91_removed_partial`. -/
theorem C91_order_partial (us : Uses) (h : ∀ x ∈ us, Usual x.2) (off : Nat) :
    InOrder (edits off us) ∧ ∀ e ∈ edits off us, off ≤ e.start ∧ e.start ≤ e.stop ∧
      e.stop ≤ off + bytes us.render := by
  have key : Within off (off + bytes us.render) ((edits off us).map fun e => (e.start, e.stop)) := by
    induction us generalizing off with
    | nil => exact within_nil _ _
    | cons x us ih =>
      obtain ⟨gap, u⟩ := x
      simp only [edits, List.map_append]
      have h1 := itemEdits_within u (h (gap, u) (List.mem_cons_self ..)) (off + bytes gap)
      have h2 := ih (fun y hy => h y (List.mem_cons_of_mem _ hy)) (off + bytes gap + bytes u.render)
      have hb : bytes (Uses.render ((gap, u) :: us)) = bytes gap + bytes u.render + bytes (Uses.render us) := by
        simp only [Uses.render, List.flatMap_cons, bytes_append]
      rw [hb]
      exact within_append (mid := off + bytes gap + bytes u.render) (within_mono h1 (by omega) (by omega))
        (within_mono h2 (by omega) (by omega)) (by omega) (by omega)
  refine ⟨?_, fun e he => ?_⟩
  · have := key.2
    rw [List.pairwise_map] at this
    exact this
  · exact key.1 _ (List.mem_map_of_mem he)

/-! ### Examples and counterexamples -/

/-- A path in a list. -/
def name (s : String) : Tree := .leaf (some [s]) false none s.toList

/-- `use ink_e2e::{subxt, build_message, Client};` -/
def sampleItem : UseItem :=
  ⟨chars! "use ", .list (some ["ink_e2e"]) (chars! "ink_e2e::")
    (.cons [] (name "subxt") [] true (.cons [' '] (name "build_message") [] true
      (.cons [' '] (name "Client") [] false .nil))) [], [';']⟩

example : itemEdits 0 sampleItem = [⟨[], 21, 35, none⟩] := by decide +kernel

example : applyAll sampleItem.render (itemEdits 0 sampleItem) = some (chars! "use ink_e2e::{subxt,  Client};") := by
  decide +kernel

example : Usual sampleItem := by
  refine ⟨by simp [sampleItem, Tree.Commas, Items.Commas, name], ?_, ?_⟩
  · simp [sampleItem, Tree.Plain, Items.Plain, name, Deprecated]
  · simp [sampleItem, Tree.NoClash, Items.NoClash, name, Obsolete, Tree.use, imported, Deprecated]
    rintro _ _ _ rfl rfl rfl _
    simp [Tree.use, imported]

/-- `use {ink_e2e::build_message, ink_e2e::{MessageBuilder}};` is removed. -/
example : itemEdits 7 ⟨chars! "use ", .list none [] (.cons []
      (.leaf (some ["ink_e2e", "build_message"]) false none (chars! "ink_e2e::build_message")) [] true
    (.cons [' '] (.list (some ["ink_e2e"]) (chars! "ink_e2e::")
      (.cons [] (name "MessageBuilder") [] false .nil) []) [] false .nil)) [], [';']⟩ =
    [⟨[], 7, 63, none⟩] := by decide +kernel

/-- `use ink_e2e::{subxt, build_message, MessageBuilder};` -/
def clashItem : UseItem :=
  ⟨chars! "use ", .list (some ["ink_e2e"]) (chars! "ink_e2e::")
    (.cons [] (name "subxt") [] true (.cons [' '] (name "build_message") [] true
      (.cons [' '] (name "MessageBuilder") [] false .nil))) [], [';']⟩

/-- If a list ends with both deprecated items, then the comma between them is removed twice: the edits
overlap, which editors refuse; applied one after the other they leave a comma and remove what comes
next. -/
theorem C91_negation_overlap :
    itemEdits 0 clashItem = [⟨[], 21, 35, none⟩, ⟨[], 34, 50, none⟩] ∧
      ¬ InOrder (itemEdits 0 clashItem) := by
  have h : itemEdits 0 clashItem = [⟨[], 21, 35, none⟩, ⟨[], 34, 50, none⟩] := by decide +kernel
  refine ⟨h, ?_⟩
  rw [h]
  simp [InOrder]

/-- `use ink_e2e::{{build_message}, subxt};` -/
def nestedItem : UseItem :=
  ⟨chars! "use ", .list (some ["ink_e2e"]) (chars! "ink_e2e::")
    (.cons [] (.list none [] (.cons [] (name "build_message") [] false .nil) []) [] true
      (.cons [' '] (name "subxt") [] false .nil)) [], [';']⟩

/-- Lists in lists of `ink_e2e` are not looked into. -/
theorem C91_negation_nested : itemEdits 0 nestedItem = [] ∧
    (["ink_e2e", "build_message"], none) ∈ nestedItem.imports := by
  decide +kernel

/-- `use ::ink_e2e::build_message;` stays, although it imports a deprecated item. -/
theorem C91_negation_global : itemEdits 0 ⟨chars! "use ", .leaf (some ["", "ink_e2e", "build_message"]) false
    none (chars! "::ink_e2e::build_message"), [';']⟩ = [] := by
  decide +kernel

end Verif.Migrate.Imports
