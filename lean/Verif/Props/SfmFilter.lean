import Verif.Lemmas.SfmFilterLoop
import Verif.Lemmas.SfmOptimize
import Verif.Props.Robust
import Verif.Props.EpipolarLoss
import Verif.Model.PoseGraph

/-!
# C87: what the filters keep
-/

namespace Verif.Sfm

open Verif.Geo

variable {C : Type}

theorem bearings_of_complete {W : World C} {R : Recon (Iso ℝ)} (hR : R.Consistent) (hb : BearingsComplete W R)
    {l : Nat} {L : Landmark} (hL : R.landmarks.get l = some L) :
    (∀ o ∈ L.entries, HasBearing W R o) ∧ ∃ pbs, L.entries.mapM (poseBearing W R) = some pbs := by
  have h1 : ∀ o ∈ L.entries, HasBearing W R o := by
    intro o ho
    obtain ⟨V, hV, hf⟩ := Recon.entry_assigned hR hL ho
    obtain ⟨b, h⟩ := hb o.1 V o.2 hV (List.getElem?_eq_some_iff.1 hf).1
    exact ⟨V, b, hV, h⟩
  refine ⟨h1, ?_⟩
  generalize L.entries = es at h1
  induction es with
  | nil => exact ⟨[], rfl⟩
  | cons o es ih =>
    obtain ⟨r, hr⟩ := ih (fun o ho => h1 o (List.mem_cons_of_mem _ ho))
    obtain ⟨V, b, h2, h3⟩ := h1 o (by simp)
    have : poseBearing W R o = some (V.pose, b) := by
      unfold poseBearing; rw [h2]; simp only [Option.bind_eq_bind, Option.bind_some, h3]; rfl
    exact ⟨(V.pose, b) :: r, by simp only [List.mapM_cons, this, hr]; rfl⟩

theorem complete_refines {W : World C} {R R' : Recon (Iso ℝ)} (h : R.Refines R') (hb : BearingsComplete W R) :
    BearingsComplete W R' := by
  intro v V' f hV' hf
  have hv := h.views v
  rw [hV'] at hv
  cases hV : R.views.get v with
  | none => rw [hV] at hv; simp at hv
  | some V =>
    rw [hV] at hv
    simp only [Option.map_some, Option.some.injEq, Prod.mk.injEq] at hv
    rw [hv.1]
    exact hb v V f hV (by omega)

theorem rigid_refines {R R' : Recon (Iso ℝ)} (h : R.Refines R') (hr : RigidPoses R) : RigidPoses R' := by
  intro v V' hV'
  have hv := h.views v
  rw [hV'] at hv
  cases hV : R.views.get v with
  | none => rw [hV] at hv; simp at hv
  | some V =>
    rw [hV] at hv
    simp only [Option.map_some, Option.some.injEq, Prod.mk.injEq] at hv
    rw [hv.2.1]
    exact hr v V hV

/-- Counting the landmarks with a property. -/
theorem count_robust {W : World C} {R : Recon (Iso ℝ)} (hR : R.Consistent) {ω : Oracle (Iso ℝ)}
    (h : ∀ l L, R.landmarks.get l = some L → (ω.robust R l = true ↔ Robust W R L.entries)) (n : Nat) :
    n ≤ R.robustCount ω ↔ AtLeastRobust W R n := by
  unfold Recon.robustCount AtLeastRobust
  constructor
  · intro hn
    refine ⟨_, hR.landmarksWF.nodup.filter _, hn, ?_⟩
    intro l hl
    obtain ⟨hl, hr⟩ := List.mem_filter.1 hl
    obtain ⟨L, hL⟩ := (SlotMap.mem_keys_iff R.landmarks l).1 hl
    exact ⟨L, hL, (h l L hL).1 hr⟩
  · rintro ⟨ls, hnd, hn, hls⟩
    refine hn.trans (List.Subperm.length_le (hnd.subperm ?_))
    intro l hl
    obtain ⟨L, hL, hr⟩ := hls l hl
    exact List.mem_filter.2 ⟨(SlotMap.mem_keys_iff R.landmarks l).2 ⟨L, hL⟩, (h l L hL).2 hr⟩

/-- **C87** No lookup of the tests fails. -/
theorem C87_lookups {d : Data (Iso ℝ)} (h : Reachable d) {r : Nat} {R : Recon (Iso ℝ)} (hR : d.recons.get r = some R)
    {W : World C} (hb : BearingsComplete W R) (lim : Limits) {l : Nat} {L : Landmark} (hL : R.landmarks.get l = some L) :
    (∃ x, triangulateRobust W R l = some x) ∧ (∃ x, isLandmarkRobust W R l = some x) ∧
    (∃ x, triangulateLandmark W R l = some x) ∧ (L.entries.length = 2 → ∃ x, twoViewTest W lim R l = some x) ∧
    ∀ p, ∀ o ∈ L.entries, ∃ x, tooFar W lim R p o = some x := by
  obtain ⟨_, pbs, hpbs⟩ := bearings_of_complete ((reachable_consistent h).recons r R hR) hb hL
  have hlen := mapM_length hpbs
  obtain ⟨x, hx⟩ : ∃ x, areObservationsRobust W R L.entries = some x := by
    unfold areObservationsRobust
    rw [hpbs]
    exact ⟨_, rfl⟩
  refine ⟨⟨_, by unfold triangulateRobust; rw [hL]; simp only [Option.bind_eq_bind, Option.bind_some, hx, hpbs]; rfl⟩,
    ⟨x, by unfold isLandmarkRobust; rw [hL]; exact hx⟩,
    ⟨_, by unfold triangulateLandmark; rw [hL]; simp only [Option.bind_eq_bind, Option.bind_some, hpbs]; rfl⟩, ?_, ?_⟩
  · intro h2
    rw [h2] at hlen
    match pbs, hlen, hpbs with
    | [a, b], _, hpbs =>
      exact ⟨_, by unfold twoViewTest; rw [hL]; simp only [Option.bind_eq_bind, Option.bind_some, hpbs]; rfl⟩
  · intro p o ho
    obtain ⟨pb, _, hpb⟩ := mapM_mem hpbs ho
    obtain ⟨x, hx, _⟩ := tooFar_of W lim (p := p) hpb
    exact ⟨x, hx⟩

/-- **C87** Filtering observations: in every landmark exactly the observations that fit stay, or one if none fits; each
other observation gets a landmark of its own; nothing else changes. The reconstruction is given up, and its frames are
released, exactly when too few robust landmarks are left. -/
theorem C87_filter_observations {d : Data (Iso ℝ)} (h : Reachable d) {r : Nat} {R : Recon (Iso ℝ)}
    (hR : d.recons.get r = some R) {W : World C} (hb : BearingsComplete W R) (hu : UnitBearings W)
    (hp : RigidPoses R) (hc : 0 ≤ W.minCosine) (lim : Limits) (ω : Oracle (Iso ℝ)) (s : Settings) :
    ∃ d' b R', d.filterObservations (geoOracle W lim ω) s r = some (d', b) ∧
      Sorted R R' (fun L o => Fits W lim R L.entries o) ∧
      (b = true ↔ AtLeastRobust W R' s.minRobust) ∧
      (b = true → d'.recons.get r = some R' ∧ d'.frames = d.frames) ∧
      (b = false → d'.recons.get r = none ∧ ∀ f F v, d'.frames.get f = some F → F.view ≠ some (r, v)) ∧
      (∀ q, q ≠ r → d'.recons.get q = d.recons.get q) ∧ d'.feeds = d.feeds := by
  have hd := reachable_consistent h
  have hRc := hd.recons r R hR
  obtain ⟨R', h1, h2, h3⟩ := loop_sorted hRc
    (filterStep_geo W lim ω (fun l L hL => (bearings_of_complete hRc hb hL).2))
  have hrun : Recon.filterLandmarks (geoOracle W lim ω) R.landmarks.keys R = some R' := by
    rw [Recon.filterLandmarks_eq]; exact h1
  obtain ⟨d', b, R'', k1, k2, _, k4, k5, _, k7, k8⟩ := Data.filterObservations_ok (geoOracle W lim ω) s hd hR
  have hcount := count_robust (W := W) h2.cons (ω := geoOracle W lim ω) (by
    intro l L hL
    obtain ⟨x, hx, hx'⟩ := C59_robust (rigid_refines h2 hp) hu hc
      (bearings_of_complete h2.cons (complete_refines h2 hb) hL).1
    have : (geoOracle W lim ω).robust R' l = x := by
      simp only [geoOracle, isLandmarkRobust, hL, Option.bind_eq_bind, Option.bind_some, hx, Option.getD_some]
    rw [this]; exact hx') s.minRobust
  have hb1 : b = decide (s.minRobust ≤ R'.robustCount (geoOracle W lim ω)) := by
    unfold Data.filterObservations at k1
    simp only [hR, hrun] at k1
    by_cases hlt : R'.robustCount (geoOracle W lim ω) < s.minRobust
    · rw [if_pos hlt] at k1
      revert k1
      generalize Data.removeReconstruction _ r = o
      cases o with
      | none => intro k1; cases k1
      | some d2 => intro k1; cases k1; rw [decide_eq_false (by omega)]
    · rw [if_neg hlt] at k1
      cases k1
      rw [decide_eq_true (by omega)]
  refine ⟨d', b, R', k1, h3, ?_, ?_, ?_, k5, k4⟩
  · rw [hb1, decide_eq_true_eq, hcount]
  · intro hbt
    refine ⟨?_, (k7 hbt).2.2⟩
    have hn : ¬ R'.robustCount (geoOracle W lim ω) < s.minRobust := by
      rw [hb1, decide_eq_true_eq] at hbt; omega
    unfold Data.filterObservations at k1
    simp only [hR, hrun] at k1
    rw [if_neg hn] at k1
    cases k1
    rw [SlotMap.get_modify, if_pos rfl, hR]; rfl
  · intro hbf
    have hnone := (k8 hbf).1
    refine ⟨hnone, ?_⟩
    intro f F v hF hv
    obtain ⟨_, _, hR', _⟩ := k2.frameView f F r v hF hv
    rw [hnone] at hR'; cases hR'

/-- **C87** Filtering landmarks: the robust ones that can be triangulated keep all their observations, the others are
taken apart. -/
theorem C87_filter_landmarks {d : Data (Iso ℝ)} (h : Reachable d) {r : Nat} {R : Recon (Iso ℝ)}
    (hR : d.recons.get r = some R) {W : World C} (hb : BearingsComplete W R) (hu : UnitBearings W)
    (hp : RigidPoses R) (hc : 0 ≤ W.minCosine) (lim : Limits) (ω : Oracle (Iso ℝ)) :
    ∃ d' R', d.filterLandmarks (geoOracle W lim ω) r = some d' ∧ d'.recons.get r = some R' ∧
      Sorted R R' (fun L _ => Robust W R L.entries ∧ ∃ pbs p, SeenAs W R L.entries pbs ∧ W.triangulate pbs = some p) ∧
      (∀ q, q ≠ r → d'.recons.get q = d.recons.get q) ∧ d'.frames = d.frames ∧ d'.feeds = d.feeds := by
  have hd := reachable_consistent h
  have hRc := hd.recons r R hR
  obtain ⟨R', h1, h2, h3⟩ := loop_sorted hRc
    (splitStep_geo W lim ω hRc (fun l L hL => (bearings_of_complete hRc hb hL).2))
  have hrun : Recon.splitNonRobust (geoOracle W lim ω) R.landmarks.keys R = some R' := by
    rw [Recon.splitNonRobust_eq]; exact h1
  obtain ⟨d', R'', k1, _, _, k4, k5, k6, k7, _⟩ := Data.filterLandmarks_ok (geoOracle W lim ω) hd hR
  have k1' := k1
  unfold Data.filterLandmarks Data.onRecon at k1'
  simp only [hR, hrun] at k1'
  cases k1'
  refine ⟨_, R', k1, ?_, ?_, k6, k5, k4⟩
  · change (d.recons.modify r _).get r = _
    rw [SlotMap.get_modify, if_pos rfl, hR]; rfl
  · have key : ∀ l L, R.landmarks.get l = some L →
        (areObservationsRobust W R L.entries = some true ↔ Robust W R L.entries) := by
      intro l L hL
      obtain ⟨x, hx, hx'⟩ := C59_robust hp hu hc (bearings_of_complete hRc hb hL).1
      rw [hx, Option.some_inj, hx']
    refine ⟨?_, h3.new, h3.views, h3.constraints⟩
    intro l L hL
    have := h3.kept l L hL
    simp only [key l L hL] at this
    exact this

theorem loss_symm (t a b : V3 ℝ) : epipolarLoss t a b = epipolarLoss t b a := by
  rcases lt_or_ge (a.dot b) 0 with hab | hab
  · rw [(C53_loss_one t a b).1 hab, (C53_loss_one t b a).1 (by rw [V3.dot_comm]; exact hab)]
  by_cases h : a.cross t ≠ V3.zero ∨ b.cross t ≠ V3.zero
  · rw [loss_eq h hab, loss_eq h.symm (by rw [V3.dot_comm]; exact hab), max_comm]
    have e : t.dot (b.cross a) = -t.dot (a.cross b) := by simp only [lin]; ring
    rw [e, abs_neg]
  · push Not at h
    rw [(C53_loss_one t a b).2 h.1 h.2, (C53_loss_one t b a).2 h.2 h.1]

theorem loss_rotate {m : M3 ℝ} (hm : m.IsRot) (t a b : V3 ℝ) :
    epipolarLoss (m.mulVec t) (m.mulVec a) (m.mulVec b) = epipolarLoss t a b := by
  unfold epipolarLoss
  simp only [hm.cross_mulVec, hm.normSq_mulVec, hm.dot_mulVec, ← M3.mulVec_smul]

/-- The sine distance of two observations does not depend on their order. -/
theorem pair_swap {a b : Iso ℝ × V3 ℝ} (ha : a.1.Rigid) (hb : b.1.Rigid) :
    epipolarLoss (a.1.mul b.1.inv).t ((a.1.mul b.1.inv).rot.mulVec b.2) a.2 =
      epipolarLoss (b.1.mul a.1.inv).t ((b.1.mul a.1.inv).rot.mulVec a.2) b.2 := by
  have hm : (b.1.mul a.1.inv).Rigid := hb.mul ha.inv
  have e : a.1.mul b.1.inv = (b.1.mul a.1.inv).inv := by
    have h1 : (a.1.mul b.1.inv).mul (b.1.mul a.1.inv) = Iso.one := by
      rw [Iso.mul_assoc, ← Iso.mul_assoc b.1.inv, hb.inv_mul, Iso.one_mul, ha.mul_inv]
    calc a.1.mul b.1.inv = ((a.1.mul b.1.inv).mul (b.1.mul a.1.inv)).mul (b.1.mul a.1.inv).inv := by
          rw [Iso.mul_assoc, hm.mul_inv, Iso.mul_one]
      _ = _ := by rw [h1, Iso.one_mul]
  rw [e]
  generalize b.1.mul a.1.inv = m at hm
  have hR : m.rot.IsRot := hm
  rw [← loss_rotate hR m.inv.t, M3.mulVec_mulVec]
  have e1 : m.rot.mul m.inv.rot = M3.one := hR.orth'
  have e2 : m.rot.mulVec m.inv.t = V3.smul (-1) m.t := by
    change m.rot.mulVec ((m.rot.transpose.mulVec m.t).neg) = _
    rw [M3.mulVec_neg, M3.mulVec_mulVec, hR.orth', M3.one_mulVec]
    lin3
  rw [e1, M3.one_mulVec, e2, C53_loss_scale (by norm_num), loss_symm]

/-- **C87** The test of two observations does not depend on their order, which is that of a hash map. -/
theorem C87_two_views_symmetric {a b : Iso ℝ × V3 ℝ} (ha : a.1.Rigid) (hb : b.1.Rigid) (lim : Limits) :
    Meet lim a b ↔ Meet lim b a := by
  unfold Meet
  rw [pair_swap ha hb]

end Verif.Sfm
