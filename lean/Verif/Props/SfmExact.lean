import Verif.Lemmas.SfmExactSteps

/-!
# C90: exact data give the true reconstruction

The claim: when all pictures, matches and poses that come from outside are right, every reconstruction is the true scene, up
to the choice of coordinates and of the unit of length. It holds for all calls, except for mergers of reconstructions with
different units of length (`C90_units`): the change of coordinates in `try_merge_reconstructions` does not scale.
-/

namespace Verif.Sfm

open Verif.Geo

variable {C : Type} {W : World C} {sc : Scene}

theorem honestly_reachable {d : Data (Iso ℝ)} (h : HonestlyReached sc W d) : Reachable d := by
  induction h with
  | init => exact .init
  | step _ hv _ hs ih => exact .step ih hv hs

/-- **C90** (partial: reconstructions are merged only if they have the same unit of length) After any calls with right
pictures, matches and poses from outside, every reconstruction is true up to coordinates and unit of length: cameras,
landmarks and constraints. -/
theorem C90_true_partial (hsc : sc.Seen W) {d : Data (Iso ℝ)} (h : HonestlyReached sc W d) :
    ∀ r R, d.recons.get r = some R → R.TrueTo sc := by
  induction h with
  | init =>
    intro r R hR
    simp [Data.empty, SlotMap.empty, SlotMap.get, FMap.empty, FMap.get] at hR
  | step hd hv hh hs ih => exact step_true hsc (reachable_consistent (honestly_reachable hd)) ih hv hh hs

/-- **C90** The motion between any two cameras of a reconstruction is the true one, with one unit of length for all pairs.
-/
theorem C90_motion_partial (hsc : sc.Seen W) {d : Data (Iso ℝ)} (h : HonestlyReached sc W d) {r : Nat}
    {R : Recon (Iso ℝ)} (hR : d.recons.get r = some R) : ∃ s > 0, ∀ v u V U, R.views.get v = some V →
      R.views.get u = some U → relativePose V U = ((sc.pose U.frame).mul (sc.pose V.frame).inv).scale s := by
  obtain ⟨g, s, hg, hs, hT⟩ := C90_true_partial hsc h r R hR
  refine ⟨s, hs, fun v u V U hV hU => ?_⟩
  unfold relativePose
  rw [hT.poses v V hV, hT.poses u U hU]
  unfold Scene.viewed
  rw [← Iso.scale_inv', ← Iso.scale_mul', (hsc.rigid V.frame).mul_inv_rev hg, Iso.mul_assoc, ← Iso.mul_assoc g, hg.mul_inv,
    Iso.one_mul]

/-- **C90** The observations of every landmark meet in one point, in front of all its cameras. -/
theorem C90_points_partial (hsc : sc.Seen W) {d : Data (Iso ℝ)} (h : HonestlyReached sc W d) {r : Nat}
    {R : Recon (Iso ℝ)} (hR : d.recons.get r = some R) {l : Nat} (hl : R.LiveLandmark l) : ∃ x, ExactAt W R l x := by
  obtain ⟨g, s, hg, hs, hT⟩ := C90_true_partial hsc h r R hR
  exact hT.exact hsc hg hs ((reachable_consistent (honestly_reachable h)).recons r R hR) hl

/-- A motion that moves determines its unit of length. -/
theorem scale_inj {p : Iso ℝ} {a b : ℝ} (hp : p.t ≠ V3.zero) (h : p.scale a = p.scale b) : a = b := by
  by_contra hab
  refine hp ?_
  have ht : V3.smul a p.t = V3.smul b p.t := congrArg Iso.t h
  simp only [V3.ext_iff, lin] at ht
  have hne : a - b ≠ 0 := sub_ne_zero.2 hab
  have k : ∀ x : ℝ, a * x = b * x → x = 0 := by
    intro x hx
    have : (a - b) * x = 0 := by linear_combination hx
    exact (mul_eq_zero.1 this).resolve_left hne
  ext
  · exact k _ ht.1
  · exact k _ ht.2.1
  · exact k _ ht.2.2

theorem relative_moves {a b : Iso ℝ} (ha : a.Rigid) (h : centre a ≠ centre b) : (a.mul b.inv).t ≠ V3.zero :=
  fun e => h (centres_of_relative (V0 := ⟨0, b, []⟩) (V1 := ⟨0, a, []⟩) ha e)

/-- In a true reconstruction, the motion between two cameras tells the unit of length. -/
theorem unit_of_motion (hsc : sc.Seen W) {R : Recon (Iso ℝ)} {g : Iso ℝ} {s a : ℝ} (hg : g.Rigid) (hT : R.TrueIn sc g s)
    {v u : Nat} {V U : View (Iso ℝ)} (hV : R.views.get v = some V) (hU : R.views.get u = some U)
    (hne : U.frame ≠ V.frame) (h : relativePose V U = ((sc.pose U.frame).mul (sc.pose V.frame).inv).scale a) : a = s := by
  refine scale_inj (relative_moves (hsc.rigid U.frame) (hsc.apart _ _ hne)) (h.symm.trans ?_)
  unfold relativePose
  rw [hT.poses v V hV, hT.poses u U hU]
  unfold Scene.viewed
  rw [← Iso.scale_inv', ← Iso.scale_mul', (hsc.rigid V.frame).mul_inv_rev hg, Iso.mul_assoc, ← Iso.mul_assoc g, hg.mul_inv,
    Iso.one_mul]

/-- **C90** (the rest is false) A merger of two true reconstructions with different units of length, with the right pose
and any matches, gives a false reconstruction, unless it loses all views of the source but the common one. -/
theorem C90_units (hsc : sc.Seen W) {ω : Oracle (Iso ℝ)} (hω : ω.Fair) {ω' : Nat → Oracle (Iso ℝ)}
    (hω' : ∀ i, (ω' i).Fair) {st : Settings} {src dst sv : Nat} (hne : src ≠ dst) {d d' : Data (Iso ℝ)}
    (hd : d.Consistent) {S D D' : Recon (Iso ℝ)} {V : View (Iso ℝ)} (hS : d.recons.get src = some S)
    (hV : S.views.get sv = some V) (hD : d.recons.get dst = some D) {ms : FMap (List Nat)} (hwf : ms.WF)
    (hdom : ∀ f ls, ms.get f = some ls → f < V.landmarks.length) (hms : D.ValidMatches V.landmarks.length ms.get)
    {g h : Iso ℝ} {s t : ℝ} (hg : g.Rigid) (hh : h.Rigid) (hst : s ≠ t) (hTS : S.TrueIn sc g s) (hTD : D.TrueIn sc h t)
    (hDv : ∃ v, D.LiveView v)
    (hrun : d.tryMerge ω ω' st (fun p => p.mul (fromCameraPoses V.pose (sc.viewed h t V.frame)).inv) src sv dst
      (sc.viewed h t V.frame) ms = some (d', true)) (hD' : d'.recons.get dst = some D') (hT : D'.TrueTo sc) :
    ∀ w U, S.views.get w = some U → w ≠ sv → ∃ F, d'.frames.get U.frame = some F ∧ F.view = none := by
  intro w U hU hw
  obtain ⟨d'', D'', b, hrun', hd', hD'', _, _, _, hkeep, _, _, hb⟩ := Data.tryMerge_spec ω hω ω' hω' st
    (fun p => p.mul (fromCameraPoses V.pose (sc.viewed h t V.frame)).inv) hne hd hS hV hD (sc.viewed h t V.frame) hwf
    hdom hms
  rw [hrun] at hrun'
  cases hrun'
  rw [hD'] at hD''
  cases hD''
  obtain ⟨_, ⟨lms, hnew, _⟩, _, m', _, _, hmoved⟩ := hb rfl
  obtain ⟨i, hi⟩ : ∃ i, (S.views.erase sv).keys[i]? = some w := by
    refine List.mem_iff_getElem?.1 ((SlotMap.mem_keys_iff _ _).2 ⟨U, ?_⟩)
    rw [SlotMap.get_erase, if_neg hw]
    exact hU
  rcases hmoved i w U hi hU with hm | ⟨_, hF, _⟩
  · exfalso
    obtain ⟨U', hU', hf, hp, _⟩ := hm.view
    obtain ⟨k, a, hk, _, hT⟩ := hT
    obtain ⟨FV, hFV, hFVv, _⟩ := hd.viewFrame src S sv V hS hV
    -- the unit of length of the result is that of the destination
    have hta : t = a := by
      obtain ⟨v, X, hX⟩ := hDv
      have hlt := (hd.recons dst D hD).viewsWF.fresh _ _ hX
      have := hkeep v hlt
      rw [hX] at this
      cases hX' : D'.views.get v with
      | none => rw [hX'] at this; simp at this
      | some X' =>
        rw [hX'] at this
        simp only [Option.map_some, Option.some.injEq, Prod.mk.injEq] at this
        obtain ⟨FX, hFX, hFXv, _⟩ := hd.viewFrame dst D v X hD hX
        have hXV : X.frame ≠ V.frame := by
          intro e
          rw [e, hFV] at hFX
          cases hFX
          rw [hFVv] at hFXv
          simp only [Option.some.injEq, Prod.mk.injEq] at hFXv
          exact hne hFXv.1
        refine unit_of_motion hsc hk hT hnew hX' (by rw [this.1]; exact hXV) ?_
        unfold relativePose
        rw [this.2.1, this.1, hTD.poses v X hX]
        unfold Scene.viewed
        rw [← Iso.scale_inv', ← Iso.scale_mul', (hsc.rigid V.frame).mul_inv_rev hh, Iso.mul_assoc, ← Iso.mul_assoc h,
          hh.mul_inv, Iso.one_mul]
    -- and that of the source
    have hsa : s = a := by
      obtain ⟨FU, hFU, hFUv, _⟩ := hd.viewFrame src S w U hS hU
      have hUV : U.frame ≠ V.frame := by
        intro e
        rw [e, hFV] at hFU
        cases hFU
        rw [hFVv] at hFUv
        simp only [Option.some.injEq, Prod.mk.injEq] at hFUv
        exact hw hFUv.2.symm
      refine unit_of_motion hsc hk hT hnew hU' (by rw [hf]; exact hUV) ?_
      have r1 := Scene.viewed_rigid hsc.rigid hg s V.frame
      have r2 := Scene.viewed_rigid hsc.rigid hh t V.frame
      unfold relativePose
      rw [hp, hf, hTS.poses w U hU, hTS.poses sv V hV]
      unfold fromCameraPoses
      rw [r2.inv.mul_inv_rev r1, r2.inv_inv, Iso.mul_assoc, Iso.mul_assoc, r2.mul_inv, Iso.mul_one]
      unfold Scene.viewed
      rw [← Iso.scale_inv', ← Iso.scale_mul', (hsc.rigid V.frame).mul_inv_rev hg, Iso.mul_assoc, ← Iso.mul_assoc g,
        hg.mul_inv, Iso.one_mul]
    exact hst (hsa.trans hta.symm)
  · exact hF

end Verif.Sfm
