import Verif.Spec.SfmRigid
import Verif.Lemmas.SfmPoses
import Verif.Lemmas.SfmTop
import Verif.Lemmas.PoseGraphMoves
import Verif.Props.Optimize
import Verif.Props.SfmThree
import Verif.Props.SfmPose
import Verif.Props.SfmTop

/-!
# C95: poses and constraints are rigid motions after any calls
-/

namespace Verif.Sfm

open Verif.Geo

variable {C : Type}

theorem refinePose_rigid {W : World C} {lim : Limits} {s : PoseSettings} {R : Recon (Iso ℝ)} {frame : Nat}
    {ms : List (List Nat × Nat)} {half : Nat} : ∀ {n : Nat} {pose : Iso ℝ} {ws : List WorldMatch} {x : Iso ℝ × List WorldMatch},
      pose.Rigid → refinePose W lim s R frame ms half n pose ws = some (some x) → x.1.Rigid := by
  intro n
  induction n with
  | zero =>
    intro pose ws x hp h
    cases h
    exact hp
  | succ n ih =>
    intro pose ws x hp h
    simp only [refinePose] at h
    split at h
    · cases h
    · split at h
      · cases h
      · rename_i h1
        split at h
        · cases h
        · exact ih ((C55_single_moves (eps := 0) (Or.inr h1)).2 hp) h

theorem estimatePose_rigid {W : World C} {lim : Limits} {s : PoseSettings}
    {consensus : List WorldMatch → Option (Iso ℝ × List Nat)} (hc : ConsensusFair consensus) {R : Recon (Iso ℝ)}
    {frame : Nat} {ms : List (List Nat × Nat)} {pose : Iso ℝ}
    (h : estimatePose W lim s consensus R frame ms = some (some pose)) : pose.Rigid := by
  unfold estimatePose at h
  split at h
  · cases h
  · split at h
    · cases h
    · split at h
      · cases h
      · rename_i h1
        split at h
        · cases h
        · split at h
          · cases h
          · cases h
          · rename_i h2
            split at h
            · cases h
            · split at h
              · cases h
              · rename_i h3
                split at h
                · cases h
                · split at h
                  · cases h
                  · cases h
                    exact (C55_single_moves (eps := 0) (Or.inr h3)).2 (refinePose_rigid (hc.rigid _ _ _ h1) h2)

theorem geoJudge_rigid {W : World C} {lim : Limits} {s : PoseSettings}
    {consensus : List WorldMatch → Option (Iso ℝ × List Nat)} (hc : ConsensusFair consensus) {R : Recon (Iso ℝ)}
    {frame : Nat} {ms : List (List Nat × Nat)} {x : Iso ℝ × (List Nat → Nat → Bool)}
    (h : geoJudge W lim s consensus R frame ms = some x) : x.1.Rigid := by
  obtain ⟨pose, h1, rfl⟩ := Option.map_eq_some_iff.1 h
  cases e : estimatePose W lim s consensus R frame ms with
  | none => rw [e] at h1; cases h1
  | some y =>
    rw [e] at h1
    obtain rfl : y = some pose := h1
    exact estimatePose_rigid hc e

theorem rigid_scale {a : Iso ℝ} (h : a.Rigid) (k : ℝ) : (a.scale k).Rigid := h

theorem Recon.Poses.get {Q K : Iso ℝ → Prop} {R : Recon (Iso ℝ)} (h : R.Poses Q K) {v : Nat} {V : View (Iso ℝ)}
    (hV : R.views.get v = some V) : Q V.pose := h.views _ (FMap.mem_of_get hV)

theorem threeViewPoses_rigid {W : World C} {t : ThreeSettings} {shuffle : List Nat → List Nat} {R : Recon (Iso ℝ)}
    (hR : R.Poses Iso.Rigid Iso.Rigid) {v : Nat × Nat × Nat} {ls : List Nat} {p : Iso ℝ × Iso ℝ}
    (h : threeViewPoses W t shuffle R v ls = some (some p)) : p.1.Rigid ∧ p.2.Rigid := by
  simp only [threeViewPoses, Option.bind_eq_bind, Option.bind_eq_some_iff] at h
  obtain ⟨V0, h0, V1, h1, V2, h2, ms, _, h⟩ := h
  have r0 := hR.get h0
  split at h
  · cases h
  · split at h
    · cases h
    · cases h
      exact (C55_three_moves (p := (V1.pose.mul V0.pose.inv, V2.pose.mul V0.pose.inv)) (eps := 0) (rate := 0) (os := ms)
        (n := t.patience) ((hR.get h1).mul r0.inv) ((hR.get h2).mul r0.inv) (Or.inr (Or.inr rfl))).2

theorem ThreeViewBy.keeps {W : World C} {ω : Oracle (Iso ℝ)} (h : ThreeViewBy W ω) :
    ω.KeepsThree Iso.Rigid Iso.Rigid := by
  obtain ⟨t, shuffle, _, e⟩ := h
  intro R v ls p hR hp
  rw [e] at hp
  cases e1 : threeViewPoses W t shuffle R v ls with
  | none => simp only [e1] at hp; cases hp
  | some y =>
    simp only [e1] at hp
    obtain rfl : y = some p := hp
    exact threeViewPoses_rigid hR e1

theorem constrainPose_keeps {rate : ℝ} {ω : Oracle (Iso ℝ)} (h : ω.constrain = constrainPose rate) :
    ω.KeepsViews Iso.Rigid Iso.Rigid := by
  intro R v es p hR _ hp
  rw [h] at hp
  simp only [constrainPose, Option.bind_eq_bind, Option.bind_eq_some_iff] at hp
  obtain ⟨V, hV, ds, _, hp⟩ := hp
  cases hp
  exact (Tangent.pose_rigid _).mul (hR.get hV)

/-- With exact numbers no update of a pose is rejected. -/
theorem constrainPose_finite {rate : ℝ} {ω : Oracle (Iso ℝ)} (h : ω.constrain = constrainPose rate) :
    ω.FiniteUpdates := by
  intro R v es hv hes
  rw [h]
  obtain ⟨V, hV⟩ := hv
  have : ∀ es : List (Nat × Iso ℝ), (∀ e ∈ es, R.LiveView e.1) → ∃ ds, es.mapM (fun e => do
      let O ← R.views.get e.1
      pure ((e.2 * O.pose) * V.pose⁻¹).se3) = some ds := by
    intro es
    induction es with
    | nil => intro _; exact ⟨[], rfl⟩
    | cons e es ih =>
      intro he
      obtain ⟨O, hO⟩ := he e (List.mem_cons_self ..)
      obtain ⟨ds, hds⟩ := ih (fun x hx => he x (List.mem_cons_of_mem _ hx))
      refine ⟨((e.2 * O.pose) * V.pose⁻¹).se3 :: ds, ?_⟩
      rw [List.mapM_cons, hds, hO]
      rfl
  obtain ⟨ds, hds⟩ := this es hes
  unfold constrainPose
  rw [hV]
  show (Option.bind (List.mapM _ es) _).isSome = true
  rw [hds]
  rfl

theorem TopOracle.ByProgram.keeps {W : World C} {o : TopOracle (Iso ℝ)} (h : o.ByProgram W) :
    o.Keeps Iso.Rigid Iso.Rigid where
  judge R frame ms x _ hx := by
    obtain ⟨lim, ps, consensus, hc, e⟩ := h.judge
    rw [e] at hx
    exact geoJudge_rigid hc hx
  record := h.record.keeps
  merge i := (h.merge i).keeps
  tr a b p ha hb hp := by
    rw [h.tr]
    exact hp.mul (hb.inv.mul ha).inv
  opt i j := by
    obtain ⟨rate, e⟩ := h.opt i j
    exact constrainPose_keeps e

theorem FrameOracle.ByProgram.keeps {W : World C} {o : FrameOracle (Iso ℝ) ℝ} (h : o.ByProgram W) :
    o.Keeps Iso.Rigid Iso.Rigid where
  first i := (h.first i).keeps
  second i := (h.second i).keeps
  idp := by
    rw [h.idp]
    exact M3.IsRot.one
  consensus d a b ms x hx := by
    obtain ⟨geo, o', e, hc⟩ := h.start d
    rw [e] at hx
    exact hc a b ms x hx
  rescale d p k hp := by
    obtain ⟨geo, o', e, hc⟩ := h.start d
    rw [e]
    exact rigid_scale hp _
  optimise d c f s ps ms h1 h2 := by
    obtain ⟨geo, o', e, hc⟩ := h.start d
    rw [e]
    simp only [startGeo]
    cases e1 : threeViewL2 ps (1 / 1000) geo.patience (ms.filterMap (triBearings W c f s)) with
    | none => exact ⟨h1, h2⟩
    | some q => exact (C55_three_moves (eps := 0) h1 h2 (Or.inr (Or.inl e1))).2

theorem Call.ByProgram.keeps {W : World C} {d : Data (Iso ℝ)} (hd : d.Poses Iso.Rigid Iso.Rigid)
    {c : Call (Iso ℝ) ℝ} (h : c.ByProgram W d) : c.Keeps Iso.Rigid Iso.Rigid := by
  cases c with
  | addFeed => trivial
  | addFrame o feed n => exact FrameOracle.ByProgram.keeps h
  | incorporateReconstruction ω tr src dst m =>
    obtain ⟨h1, T, hT, rfl⟩ := h
    exact ⟨fun i => (h1 i).keeps, fun p hp => hp.mul hT.inv⟩
  | normalize f g r =>
    obtain ⟨a, R, v, V, hR, hV, rfl, rfl⟩ := h
    have := (hd.get hR).get hV
    exact ⟨fun p hp => rigid_scale (hp.mul this.inv) a, fun p hp => rigid_scale hp a⟩
  | optimize ω ω' r =>
    intro i j
    obtain ⟨rate, e⟩ := h i j
    exact constrainPose_keeps e
  | applyConstraints ω r =>
    intro i
    obtain ⟨rate, e⟩ := h i
    exact constrainPose_keeps e
  | regenerate ω ω' ω'' r =>
    refine ⟨fun i => (h.1 i).keeps, fun i j => ?_⟩
    obtain ⟨rate, e⟩ := h.2 i j
    exact constrainPose_keeps e
  | filterObservations ω r => trivial
  | filterLandmarks ω r => trivial
  | mergeDedup loss r a b => trivial

theorem geoHistory_poses {W : World C} {s : TopSettings} {d : Data (Iso ℝ)} (h : GeoHistory W s d) :
    d.Poses Iso.Rigid Iso.Rigid := by
  induction h with
  | new => intro e he; cases he
  | call _ _ hb hr ih =>
    exact call_poses (fun _ _ h1 h2 => h1.mul h2) (fun _ h1 => h1.inv) (fun _ h1 => h1) ih (hb.keeps ih) hr

theorem geoHistory_history {W : World C} {s : TopSettings} {d : Data (Iso ℝ)} (h : GeoHistory W s d) :
    History ℝ s d := by
  induction h with
  | new => exact .new
  | call _ ho _ hr ih => exact .call ih ho hr

/-- **C95** After any calls of public methods, with any pictures, matches and random choices, every pose and both poses of
every constraint are rigid motions: rotations without reflection, scaling or shear, and a translation. -/
theorem C95_rigid {W : World C} {s : TopSettings} {d : Data (Iso ℝ)} (h : GeoHistory W s d) {r : Nat}
    {R : Recon (Iso ℝ)} (hR : d.recons.get r = some R) :
    (∀ v V, R.views.get v = some V → V.pose.Rigid) ∧
    ∀ k c, R.constraints.get k = some c → c.first.Rigid ∧ c.second.Rigid := by
  have hp := (geoHistory_poses h).get hR
  exact ⟨fun v V hV => hp.get hV, fun k c hc => hp.constraints _ (FMap.mem_of_get hc)⟩

/-- **C95** What this means for the camera of a view: it keeps all distances and the handedness of the world, and its
inverse goes back. -/
theorem C95_motion {W : World C} {s : TopSettings} {d : Data (Iso ℝ)} (h : GeoHistory W s d) {r : Nat}
    {R : Recon (Iso ℝ)} (hR : d.recons.get r = some R) {v : Nat} {V : View (Iso ℝ)} (hV : R.views.get v = some V) :
    (∀ x y, ((V.pose.point x).sub (V.pose.point y)).norm = (x.sub y).norm) ∧
    (∀ x y z w, ((V.pose.point y).sub (V.pose.point x)).dot (((V.pose.point z).sub (V.pose.point x)).cross
      ((V.pose.point w).sub (V.pose.point x))) = (y.sub x).dot ((z.sub x).cross (w.sub x))) ∧
    ∀ x, V.pose.inv.point (V.pose.point x) = x ∧ V.pose.point (V.pose.inv.point x) = x := by
  have hp := (C95_rigid h hR).1 v V hV
  have e : ∀ x y, (V.pose.point x).sub (V.pose.point y) = V.pose.rot.mulVec (x.sub y) := by
    intro x y
    lin3
  refine ⟨?_, ?_, ?_⟩
  · intro x y
    rw [e]
    unfold V3.norm
    rw [hp.normSq_mulVec]
  · intro x y z w
    rw [e, e, e]
    have hd := hp.det
    have : ∀ a b c : V3 ℝ, (V.pose.rot.mulVec a).dot ((V.pose.rot.mulVec b).cross (V.pose.rot.mulVec c)) =
        V.pose.rot.det * a.dot (b.cross c) := by
      intro a b c
      simp only [lin]
      ring
    rw [this, hd, one_mul]
  · intro x
    refine ⟨point_inv_point hp x, ?_⟩
    have := point_inv_point hp.inv x
    rwa [hp.inv_inv] at this

/-- **C95** Together with C82: whatever has been called, a further call returns, and all poses are rigid motions again. -/
theorem C95_returns {W : World C} {s : TopSettings} (hs : s.Sane) {d : Data (Iso ℝ)} (h : GeoHistory W s d)
    {c : Call (Iso ℝ) ℝ} (ho : c.Ok d) (hb : c.ByProgram W d) :
    ∃ d', c.run s d = some d' ∧ GeoHistory W s d' ∧
      ∀ r R v V, d'.recons.get r = some R → R.views.get v = some V → V.pose.Rigid := by
  obtain ⟨d', e, _⟩ := C82_no_panic hs (geoHistory_history h) ho
  have h' : GeoHistory W s d' := .call h ho hb e
  exact ⟨d', e, h', fun r R v V hR hV => (C95_rigid h' hR).1 v V hV⟩

/-- **C95** All that C59, C87, C88, C89 and C94 assume of the state holds after any calls; only the bearings have to be unit
vectors, one for every feature. -/
theorem C95_pose_data {W : World C} {s : TopSettings} (hs : s.Sane) {d : Data (Iso ℝ)} (h : GeoHistory W s d)
    (hu : UnitBearings W) (hc : 0 ≤ W.minCosine)
    (hb : ∀ f F, d.frames.get f = some F → ∀ n < F.nfeat, ∃ b, W.bearing f n = some b) {r : Nat}
    {R : Recon (Iso ℝ)} (hR : d.recons.get r = some R) : PoseData W R := by
  have hd := C82_tables hs (geoHistory_history h)
  refine ⟨hd.recons r R hR, ?_, (C95_rigid h hR).1, hu, hc⟩
  intro v V f hV hf
  obtain ⟨F, h1, _, h3⟩ := hd.viewFrame r R v V hR hV
  exact hb _ _ h1 f (by omega)

end Verif.Sfm
