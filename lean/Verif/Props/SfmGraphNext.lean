import Verif.Props.SfmGraph

/-!
# C16: the next round of the optimisation after a view was removed
-/

namespace Verif.Sfm

variable {P : Type}

/-- The updated views are those for which there is a new pose. -/
theorem constrainViews_updates (ω : Oracle P) {R : Recon P} {edges : List (Nat × Nat × P)}
    (vs : List Nat) : ∀ {us rs}, R.constrainViews ω edges vs = some (us, rs) →
    ∀ u ∈ us, R.constrainView ω edges u.1 = some (some u.2) := by
  induction vs with
  | nil => intro us rs h; cases h; simp
  | cons v vs ih =>
    intro us rs h
    unfold Recon.constrainViews at h
    cases hv : R.constrainView ω edges v with
    | none => simp [hv] at h
    | some o =>
      cases hr : R.constrainViews ω edges vs with
      | none => cases o <;> simp [hv, hr] at h
      | some ur =>
        obtain ⟨us', rs'⟩ := ur
        cases o with
        | none =>
          simp only [hv, hr, Option.some.injEq, Prod.mk.injEq] at h
          obtain ⟨rfl, rfl⟩ := h
          exact ih hr
        | some p =>
          simp only [hv, hr, Option.some.injEq, Prod.mk.injEq] at h
          obtain ⟨rfl, rfl⟩ := h
          intro u hu
          rcases List.mem_cons.1 hu with rfl | hu
          · exact hv
          · exact ih hr u hu

variable [Mul P] [Inv P]

open Data in
/-- **C16** (negation, in general) The edges are not computed again: if a round of the optimisation removes a view, and a view
that is kept has a constraint with it, the next round panics, whatever the numeric parts. -/
theorem C16_removed_neighbour_panics {ω : Nat → Oracle P} {d : Data P} (hd : d.Consistent) {r : Nat}
    {R : Recon P} (hR : d.recons.get r = some R) {n : Nat} {us : List (Nat × P)} {rs : List Nat}
    (hc : R.constrainViews (ω (n + 1)) R.flattenConstraints R.views.keys = some (us, rs)) (h3 : 3 ≤ us.length)
    {c : Constraint P} {k : Nat} (he : (k, c) ∈ R.constraints.map.entries) {a b : Nat} (hab : a ≠ b)
    (ha : c.mentions a = true) (hb : c.mentions b = true) (hka : a ∈ us.map Prod.fst) (hkb : b ∈ rs) :
    d.applyLoop ω r R.flattenConstraints (n + 2) = none := by
  obtain ⟨hnd, hus, hrs⟩ := constrainLists_ok (ω (n + 1)) (hd.recons r R hR) hc
  obtain ⟨d1, R1, hrun1, hd1, hR1, hn1, hk1, hq1, _, _, hv1, _⟩ := applyBundleAdjust_ok hd hR hnd hus hrs
  have hdead : R1.views.get b = none := by rw [hv1, if_pos hkb]
  have hnot : a ∉ rs := by
    obtain ⟨u, hu, rfl⟩ := List.mem_map.1 hka
    have h1 := constrainViews_updates _ _ hc u hu
    obtain ⟨-, -, -, h4, -⟩ := constrainViews_ok _ _ hc
    intro h2
    rw [h4 _ h2] at h1
    cases h1
  have hlive : a ∈ R1.views.keys := by
    rw [SlotMap.mem_keys_iff]
    obtain ⟨u, hu, rfl⟩ := List.mem_map.1 hka
    obtain ⟨W, hW⟩ := hus u hu
    exact ⟨_, by rw [hv1, if_neg hnot, hW]; rfl⟩
  have hedge : ∃ q, (a, b, q) ∈ R.flattenConstraints := by
    have hin : ∀ x ∈ Recon.edgeConstraints c, x ∈ R.flattenConstraints := by
      intro x hx
      exact List.mem_flatMap.2 ⟨c, List.mem_map.2 ⟨_, he, rfl⟩, hx⟩
    simp only [Constraint.mentions, Bool.or_eq_true, beq_iff_eq] at ha hb
    rcases ha with (rfl | rfl) | rfl <;> rcases hb with (rfl | rfl) | rfl
    · exact absurd rfl hab
    · exact ⟨_, hin (c.v0, c.v1, c.first⁻¹) (by simp [Recon.edgeConstraints])⟩
    · exact ⟨_, hin (c.v0, c.v2, c.second⁻¹) (by simp [Recon.edgeConstraints])⟩
    · exact ⟨_, hin (c.v1, c.v0, c.first) (by simp [Recon.edgeConstraints])⟩
    · exact absurd rfl hab
    · exact ⟨_, hin (c.v1, c.v2, (c.second * c.first⁻¹)⁻¹) (by simp [Recon.edgeConstraints])⟩
    · exact ⟨_, hin (c.v2, c.v0, c.second) (by simp [Recon.edgeConstraints])⟩
    · exact ⟨_, hin (c.v2, c.v1, c.second * c.first⁻¹) (by simp [Recon.edgeConstraints])⟩
    · exact absurd rfl hab
  obtain ⟨q, hq⟩ := hedge
  have hview : R1.constrainView (ω n) R.flattenConstraints a = none := by
    have hm : (b, q) ∈ (R.flattenConstraints.filter (fun e => e.1 == a)).map Prod.snd :=
      List.mem_map.2 ⟨_, List.mem_filter.2 ⟨hq, by simp⟩, rfl⟩
    unfold Recon.constrainView
    simp only
    rw [if_neg, if_neg]
    · intro hall
      have := List.all_eq_true.1 hall _ hm
      rw [hdead] at this
      cases this
    · rw [List.isEmpty_iff]
      exact List.ne_nil_of_mem hm
  have hviews : ∀ vs : List Nat, a ∈ vs → R1.constrainViews (ω n) R.flattenConstraints vs = none := by
    intro vs
    induction vs with
    | nil => simp
    | cons v vs ih =>
      intro h
      unfold Recon.constrainViews
      by_cases hv : v = a
      · rw [hv, hview]
      · rw [ih (by simpa [Ne.symm hv] using h)]
        split <;> simp_all
  unfold Data.applyLoop
  simp only [hR, hc]
  rw [if_pos h3]
  simp only [hrun1]
  unfold Data.applyLoop
  simp only [hR1, hviews _ hlive]

/-- The state and the pose updates of `C16_optimisation_can_panic`: view 3 is removed, view 0 has a constraint with it. -/
example : ∃ R : Recon Ex.Shift, Ex.d8.recons.get 0 = some R ∧
    R.constrainViews Ex.ωnan R.flattenConstraints R.views.keys = some ([(0, ⟨0⟩), (1, ⟨0⟩), (2, ⟨0⟩)], [3]) ∧
    ∃ k c, (k, c) ∈ R.constraints.map.entries ∧ c.mentions 0 = true ∧ c.mentions 3 = true :=
  ⟨_, rfl, rfl, 1, _, by
    refine List.mem_of_getElem? (i := 1) rfl, rfl, rfl⟩

end Verif.Sfm
