import Verif.Analyzer.HeaderFixProps

/-!
# C74: where the header rules report
-/

namespace Verif.Analyzer.Header

open Verif.Ir.Token (bytes)

/-- The range is that of a part of the header (of the item at offset `o`) that the rule of the report
is about; for a returned `Self` it is this type at the end of the part. -/
def Names (o : Nat) (h : List Part) (x : Report) (a b : Nat) : Prop :=
  ∃ pre p post, h = pre ++ p :: post ∧ p.role ∈ touched x.rule ∧
    b = o + bytes (render pre) + bytes p.text ∧
    if x.rule = .returnsSelf then p.ty = "Self".toList ∧ a = b - 4
    else a = o + bytes (render pre)

/-- A report that names a place names exactly a part that the rule is about; for a return type the
type `Self` at its end. -/
theorem C74_range (k : Kind) (o : Nat) (h : List Part) (x : Report) (hx : x ∈ reports k o h)
    (a b : Nat) (hr : x.range = some (a, b)) :
    Names o h x a b := by
  have hloc : ∀ (l : Loc) (role : Role), h = l.pre ++ l.part :: l.post → l.part.role = role →
      role ∈ touched x.rule → x.rule ≠ .returnsSelf → x.range = some (l.range o) →
      Names o h x a b := by
    intro l role h1 h2 h3 h4 h5
    rw [h5] at hr
    have := Option.some.inj hr
    rw [Loc.range, Loc.start, Prod.mk.injEq] at this
    refine ⟨l.pre, l.part, l.post, h1, by rw [h2]; exact h3, this.2.symm, ?_⟩
    rw [if_neg h4]
    exact this.1.symm
  have hfirst : ∀ r role, role ∈ touched r → r ≠ .returnsSelf →
      x ∈ ((firstLoc role h).map fun l => (⟨r, some (l.range o), [delete (l.triviaRange o)]⟩ :
        Report)).toList ∨
      x ∈ ((firstLoc role h).map fun l => (⟨r, some (l.range o), [delete (l.range o)]⟩ :
        Report)).toList →
      Names o h x a b := by
    intro r role h1 h2 h3
    simp only [Option.mem_toList, Option.map_eq_some_iff] at h3
    rcases h3 with ⟨l, h3, rfl⟩ | ⟨l, h3, rfl⟩ <;> obtain ⟨h4, h5⟩ := firstLoc_some _ _ _ h3 <;>
      exact hloc l role h4 h5 h1 h2 rfl
  have hmany : ∀ r role (f : Loc → List Edit), role ∈ touched r → r ≠ .returnsSelf →
      x ∈ ((locs [] h).filter fun l => l.part.role == role).map (fun l =>
        (⟨r, some (l.range o), f l⟩ : Report)) →
      Names o h x a b := by
    intro r role f h1 h2 h3
    obtain ⟨l, hl, rfl⟩ := List.mem_map.1 h3
    obtain ⟨hl1, hl2⟩ := List.mem_filter.1 hl
    obtain ⟨A, B, h4, h5, h6⟩ := (locs_mem _ _ _).1 hl1
    exact hloc l role (by rw [h5, h6]; exact h4) (by simpa using hl2) h1 h2 rfl
  have hpub : ∀ r order, touched r = [.vis] → r ≠ .returnsSelf → x ∈ requirePub r order o h →
      Names o h x a b := by
    intro r order h1 h2 h3
    unfold requirePub at h3
    cases hl : firstLoc .vis h with
    | none =>
      rw [hl] at h3
      simp only [List.mem_singleton] at h3
      rw [h3] at hr
      exact (nomatch hr)
    | some l =>
      rw [hl] at h3
      simp only at h3
      split at h3
      · exact (nomatch h3)
      · rw [List.mem_singleton] at h3
        subst h3
        obtain ⟨h4, h5⟩ := firstLoc_some _ _ _ hl
        exact hloc l .vis h4 h5 (by rw [h1]; simp) h2 rfl
  have hfn : x ∈ fnInvariants o h → Names o h x a b := by
    intro hx
    simp only [fnInvariants, List.mem_append] at hx
    rcases hx with ((((hx | hx) | hx) | hx) | hx) | hx
    · exact hfirst _ _ (by simp [touched]) (by decide) (.inr hx)
    · exact hfirst _ _ (by simp [touched]) (by decide) (.inl hx)
    · exact hfirst _ _ (by simp [touched]) (by decide) (.inl hx)
    · exact hfirst _ _ (by simp [touched]) (by decide) (.inl hx)
    · exact hfirst _ _ (by simp [touched]) (by decide) (.inl hx)
    · exact hmany _ _ _ (by simp [touched]) (by decide) hx
  have hcall : x ∈ callableInvariants o h → Names o h x a b := by
    intro hx
    rcases List.mem_append.1 hx with hx | hx
    · unfold callableVis at hx
      cases hl : firstLoc .vis h with
      | none => rw [hl] at hx; exact (nomatch hx)
      | some l =>
        rw [hl] at hx
        simp only at hx
        split at hx
        · exact (nomatch hx)
        · rw [List.mem_singleton] at hx
          subst hx
          obtain ⟨h4, h5⟩ := firstLoc_some _ _ _ hl
          exact hloc l .vis h4 h5 (by simp [touched]) (fun h => nomatch h) rfl
    · exact hfn hx
  have hvis : ∀ w, x ∈ implVis w o h → Names o h x a b := by
    intro w hx
    cases w with
    | traitItem => exact (nomatch hx)
    | traitImpl => exact hfirst _ _ (by simp [touched]) (by decide) (.inl hx)
    | inherentImpl => exact hpub _ _ rfl (by decide) hx
  have hbody : ∀ w, x ∈ traitBody w o h → Names o h x a b := by
    intro w hx
    cases w with
    | traitItem => exact hfirst _ _ (by simp [touched]) (by decide) (.inr hx)
    | _ => exact (nomatch hx)
  have hself : x ∈ noSelfReceiver o h → Names o h x a b := by
    intro hx
    have hx' : x ∈ ((selfLoc h).map fun l => (⟨.selfReceiver, some (l.range o),
      [delete (l.delimRange o)]⟩ : Report)).toList := hx
    rw [Option.mem_toList, Option.map_eq_some_iff] at hx'
    obtain ⟨l, hl, rfl⟩ := hx'
    obtain ⟨h4, h5⟩ := selfLoc_some h l hl
    refine hloc l _ h4 rfl ?_ (fun h => nomatch h) rfl
    rcases h5 with h5 | h5 <;> rw [h5] <;> simp [touched]
  cases k with
  | message w =>
    simp only [reports, List.mem_append] at hx
    rcases hx with (((hx | hx) | hx) | hx) | hx
    · exact hvis w hx
    · exact hbody w hx
    · exact hcall hx
    · unfold receiverSelfRef at hx
      simp only at hx
      split at hx
      · exact (nomatch hx)
      · rw [List.mem_singleton] at hx
        rw [hx] at hr
        exact (nomatch hr)
    · unfold notReturnSelf at hx
      cases hl : firstLoc .ret h with
      | none => rw [hl] at hx; exact (nomatch hx)
      | some l =>
        rw [hl] at hx
        simp only at hx
        split at hx
        · rename_i hty
          rw [List.mem_singleton] at hx
          subst hx
          obtain ⟨h4, h5⟩ := firstLoc_some _ _ _ hl
          have := Option.some.inj hr
          rw [Loc.range, Loc.start, Prod.mk.injEq] at this
          refine ⟨l.pre, l.part, l.post, h4, by rw [h5]; exact List.mem_singleton.2 rfl, this.2.symm, ?_⟩
          rw [if_pos rfl]
          have h6 : bytes selfType = 4 := by decide
          exact ⟨hty, by rw [← this.1, ← this.2, h6]⟩
        · exact (nomatch hx)
  | constructor w =>
    simp only [reports, List.mem_append] at hx
    rcases hx with ((hx | hx) | hx) | hx
    · exact hvis w hx
    · exact hcall hx
    · exact hself hx
    · unfold requireReturnType at hx
      split at hx
      · exact (nomatch hx)
      · rw [List.mem_singleton] at hx
        rw [hx] at hr
        exact (nomatch hr)
  | extension =>
    simp only [reports, List.mem_append] at hx
    rcases hx with (hx | hx) | hx
    · exact hbody _ hx
    · exact hfn hx
    · exact hself hx
  | trait =>
    simp only [reports, traitInvariants, List.mem_append] at hx
    rcases hx with (((hx | hx) | hx) | hx) | hx
    · exact hfirst _ _ (by simp [touched]) (by decide) (.inl hx)
    · exact hfirst _ _ (by simp [touched]) (by decide) (.inl hx)
    · exact hfirst _ _ (by simp [touched]) (by decide) (.inr hx)
    · exact hpub _ _ rfl (by decide) hx
    · exact hfirst _ _ (by simp [touched]) (by decide) (.inr hx)
  | impl =>
    simp only [reports, implInvariants, List.mem_append] at hx
    rcases hx with ((hx | hx) | hx) | hx
    · exact hfirst _ _ (by simp [touched]) (by decide) (.inl hx)
    · exact hfirst _ _ (by simp [touched]) (by decide) (.inl hx)
    · exact hfirst _ _ (by simp [touched]) (by decide) (.inr hx)
    · exact hmany _ _ _ (by simp [touched]) (by decide) hx
  | struct => exact hpub _ _ rfl (by decide) hx

/-- The visibility, the generics, the `async` and the receiver of the sample are named. -/
example : (reports (.constructor .inherentImpl) 3 badNew).map Report.range =
    [some (3, 13), some (3, 13), some (26, 29), some (14, 19), some (30, 39), none] := by decide

end Verif.Analyzer.Header
