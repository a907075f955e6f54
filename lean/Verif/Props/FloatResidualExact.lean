import Verif.Model.FloatResidual
import Verif.Model.SfmStartGeo
import Verif.Model.SfmPose
import Verif.Model.Essential
import Verif.Props.FloatOptimizeExact
import Verif.Props.MeanMean
import Verif.Props.FloatResidual

/-!
# Residuals and acceptance tests without rounding (C109)

With exact numbers in place of rounded ones the floating point residuals and tests are the exact models.
-/

namespace Verif.Geo.Rounded

open Verif.Akaze
open Verif.Akaze.Unrounded
open Verif.Bicubic (Flt)
open Verif.Akaze.FloatOps (lit lt le abs sqrt)
open Verif.Akaze.FloatBits (isFinite isNan isSignNegative)
open P3P

/-- The exact model says NaN by `none`. -/
def SameR (o : Option ℝ) (x : Unrounded) : Prop := (∀ r, o = some r → x = num r) ∧ (o = none → ieee.val x = .nan)

theorem fromHomogeneous_none {p : V4 ℝ} (h : fromHomogeneous p = none) : p.xyz = V3.zero := by
  unfold fromHomogeneous at h
  simp only at h
  have hv : ∀ v : V4 ℝ, (if v.xyz.norm = 0 then none else some (V4.smul (1 / v.xyz.norm) v)) = none →
      v.xyz = V3.zero := by
    intro v h
    by_cases h0 : v.xyz.norm = 0
    · exact V3.norm_eq_zero.1 h0
    · rw [if_neg h0] at h
      cases h
  by_cases hw : p.w < 0
  · rw [if_pos hw] at h
    have := hv _ h
    obtain ⟨x, y, z, w⟩ := p
    have hx : -x = 0 := congrArg V3.x this
    have hy : -y = 0 := congrArg V3.y this
    have hz : -z = 0 := congrArg V3.z this
    show (⟨x, y, z⟩ : V3 ℝ) = ⟨0, 0, 0⟩
    rw [neg_eq_zero.1 hx, neg_eq_zero.1 hy, neg_eq_zero.1 hz]
  · rw [if_neg hw] at h
    exact hv _ h

theorem fhomogeneous_centre {p : V4 ℝ} (h : fromHomogeneous p = none) :
    NanV ieee (fbearing (fhomogeneous (numV4 p))) := by
  have h0 := fromHomogeneous_none h
  obtain ⟨x, y, z, w⟩ := p
  have hx : x = 0 := congrArg V3.x h0
  have hy : y = 0 := congrArg V3.y h0
  have hz : z = 0 := congrArg V3.z h0
  subst hx hy hz
  have hneg : (-(num 0) : Unrounded) = num 0 := by rw [num_neg, neg_zero]
  unfold fhomogeneous fbearing
  simp only
  by_cases hs : isSignNegative (num w) = true
  · rw [if_pos (show isSignNegative (numV4 ⟨0, 0, 0, w⟩).w = true from hs)]
    simp only [numV4, hneg]
    exact fnormalize_zero
  · rw [if_neg (show ¬isSignNegative (numV4 ⟨0, 0, 0, w⟩).w = true from hs)]
    exact fnormalize_zero

theorem transform_num (pose : Iso ℝ) (w : V4 ℝ) :
    (∀ q, transform pose w = some q → ftransform (numIso pose) (numV4 w) = numV4 q) ∧
    (transform pose w = none → NanV ieee (fbearing (ftransform (numIso pose) (numV4 w)))) := by
  rw [ftransform_num]
  exact ⟨(fhomogeneous_num _).1, fhomogeneous_centre⟩

theorem fbearing_num (p : V4 ℝ) : fbearing (numV4 p) = numV (bearing p) := rfl

/-- **C109.** Without rounding the residual of a world pose is that of C91. -/
theorem C109_unrounded_world (pose : Iso ℝ) (b : V3 ℝ) (w : V4 ℝ) :
    SameR (worldResidual pose b w) (fworldResidual (numIso pose) (numV b) (numV4 w)) := by
  unfold worldResidual fworldResidual
  have h := transform_num pose w
  cases hq : transform pose w with
  | none => exact ⟨by simp, fun _ => nan_sub (.inr (nan_fdot (.inr (h.2 hq))))⟩
  | some q =>
    rw [h.1 q hq, fbearing_num, fdot_num, num_one, num_sub]
    refine ⟨?_, by simp⟩
    intro r hr
    simp only [Option.bind_eq_bind, Option.bind_some, Option.pure_def, Option.some.injEq] at hr
    rw [hr]

/-- **C109.** Without rounding the residual of a relative pose is that of C91, for any eigenvalue solver. -/
theorem C109_unrounded_camera (solver : M4 → Option Eigen4) (pose : Iso ℝ) (a b : V3 ℝ)
    (vector : Iso Unrounded → V3 Unrounded → V3 Unrounded → Option (V4 Unrounded))
    (hv : vector (numIso pose) (numV a) (numV b) =
      (solver (residualSystem pose a b)).map fun e => numV4 (e.vecs (leastAbs4 e.vals))) :
    SameR (cameraResidual solver pose a b) (fcameraResidual vector (numIso pose) (numV a) (numV b)) := by
  unfold cameraResidual fcameraResidual
  rw [hv]
  have h2 : (lit 2 : Unrounded) = num 2 := by rw [num_lit]; norm_num
  cases hs : solver (residualSystem pose a b) with
  | none => exact ⟨fun r hr => by cases hr; exact h2, by simp⟩
  | some e =>
    simp only [Option.map_some]
    cases hp : fromHomogeneous (e.vecs (leastAbs4 e.vals)) with
    | none =>
      rw [if_neg (by rw [(fhomogeneous_num _).2 hp]; simp)]
      exact ⟨fun r hr => by cases hr; exact h2, by simp⟩
    | some p =>
      rw [(fhomogeneous_num _).1 p hp, if_pos (finite_num p)]
      have h := transform_num pose p
      cases hq : transform pose p with
      | none => exact ⟨by simp [hq], fun _ => nan_mul (.inr (nan_sub (.inr (nan_fdot (.inr (h.2 hq))))))⟩
      | some q =>
        simp only [h.1 q hq, fbearing_num, fdot_num, num_one, num_sub, num_add, num_lit, num_mul]
        refine ⟨?_, by simp [hq]⟩
        intro r hr
        simp only [hq, Option.bind_eq_bind, Option.bind_some, Option.pure_def, Option.some.injEq] at hr
        rw [← hr]
        norm_num

theorem frowMul_num (v : V3 ℝ) (A : M3 ℝ) :
    frowMul (numV v) (numM A) = numV ⟨V3.dot v ⟨A.m11, A.m21, A.m31⟩, V3.dot v ⟨A.m12, A.m22, A.m32⟩,
      V3.dot v ⟨A.m13, A.m23, A.m33⟩⟩ := rfl

theorem fdepth_num {a : V3 ℝ} (h : a.z ≠ 0) :
    funscale (numV a) (numV a).z = numV ⟨a.x / a.z, a.y / a.z, a.z / a.z⟩ := by
  unfold funscale numV
  simp only [num_div h]

/-- **C109.** Without rounding the residual of an essential matrix is that of C41. -/
theorem C109_unrounded_essential (E : M3 ℝ) (a b : V3 ℝ) :
    SameR (essentialResidual E a b) (fessentialResidual (numM E) (numV a) (numV b)) := by
  unfold fessentialResidual
  have hnan : ∀ v : V3 ℝ, v.z = 0 → NanV ieee (funscale (numV v) (numV v).z) := by
    intro v hv
    refine .inr (.inr ?_)
    show ieee.val (num v.z / num v.z) = .nan
    rw [hv, zero_div_zero]
    rfl
  by_cases ha : a.z = 0
  · have he : essentialResidual E a b = none := by simp [essentialResidual, cdiv, ha]
    rw [he]
    exact ⟨by simp, fun _ => nan_abs (nan_fdot (.inr (hnan a ha)))⟩
  · by_cases hb : b.z = 0
    · have he : essentialResidual E a b = none := by simp [essentialResidual, cdiv, ha, hb]
      rw [he]
      exact ⟨by simp, fun _ => nan_abs (nan_fdot (.inl (.inl (nan_fdot (.inl (hnan b hb))))))⟩
    · have he : essentialResidual E a b = some |V3.dot ⟨b.x / b.z, b.y / b.z, b.z / b.z⟩
          (E.mulVec ⟨a.x / a.z, a.y / a.z, a.z / a.z⟩)| := by simp [essentialResidual, cdiv, ha, hb]
      rw [he, fdepth_num ha, fdepth_num hb, frowMul_num, fdot_num, num_abs]
      refine ⟨?_, by simp⟩
      intro r hr
      simp only [Option.some.injEq] at hr
      rw [← hr]
      congr 2
      simp only [lin]
      ring

/-- **C109.** Without rounding the test of a landmark with two observations is that of C87. -/
theorem C109_unrounded_two_views (pose : Iso ℝ) (a b : V3 ℝ) (m : ℝ) :
    fbiRobust (numIso pose) (numV a) (numV b) (num m) = Sfm.biLandmarkRobust pose a b m := by
  unfold fbiRobust Sfm.biLandmarkRobust
  rw [show (numIso pose).rot = numM pose.rot from rfl, show (numIso pose).t = numV pose.t from rfl, fmulVec_num,
    C105_unrounded_loss, Bool.eq_iff_iff, num_lt, decide_eq_true_eq]

theorem C109_unrounded_angle (a b : V3 ℝ) (m : ℝ) :
    fangular (numV a) (numV b) (num m) = decide (1 - a.dot b > m) := by
  unfold fangular
  rw [fdot_num, num_one, num_sub, Bool.eq_iff_iff, num_lt, decide_eq_true_eq]

/-- **C109.** Without rounding the distance between an observation and a point is that of C87. -/
theorem C109_unrounded_distance (p : V4 ℝ) (o : Observation) :
    SameR (Sfm.cosineDistance p (o.pose, o.bearing)) (fcosineDistance (numV4 p) (numO o)) := by
  unfold Sfm.cosineDistance fcosineDistance
  have h := transform_num o.pose p
  rw [show (numO o).pose = numIso o.pose from rfl, show (numO o).bearing = numV o.bearing from rfl]
  cases hq : transform o.pose p with
  | none => exact ⟨by simp, fun _ => nan_sub (.inr (nan_fdot (.inl (h.2 hq))))⟩
  | some q =>
    rw [h.1 q hq, fbearing_num, fdot_num, num_one, num_sub]
    exact ⟨fun r hr => by simp only [Option.map_some, Option.some.injEq] at hr; rw [hr], by simp⟩

/-- A comparison with NaN is false. -/
noncomputable def closer (m : ℝ) (o : Option ℝ) : Bool := match o with
  | none => false
  | some r => decide (r < m)
noncomputable def farther (m : ℝ) (o : Option ℝ) : Bool := match o with
  | none => false
  | some r => decide (m < r)

theorem SameR.lt {o : Option ℝ} {x : Unrounded} (h : SameR o x) (m : ℝ) :
    FloatOps.lt x (num m) = closer m o := by
  rcases o with _ | r
  · exact nan_lt (.inl (h.2 rfl))
  · have hx := h.1 r rfl
    clear h
    subst hx
    rw [Bool.eq_iff_iff, num_lt]; simp [closer]

theorem SameR.gt {o : Option ℝ} {x : Unrounded} (h : SameR o x) (m : ℝ) :
    FloatOps.lt (num m) x = farther m o := by
  rcases o with _ | r
  · exact nan_lt (.inr (h.2 rfl))
  · have hx := h.1 r rfl
    clear h
    subst hx
    rw [Bool.eq_iff_iff, num_lt]; simp [farther]

/-- **C109.** Without rounding the test of a landmark with three observations is that of C92, if the triangulators agree. -/
theorem C109_unrounded_three_views {C : Type} (W : Sfm.World C) (tri : List (FObservation Unrounded) → Option (V4 Unrounded))
    (htri : ∀ os : List Observation, tri (os.map numO) = (W.tri os).map numV4)
    (p q : Iso ℝ) (c f s : V3 ℝ) (maxCosine minCosine : ℝ) :
    ftriRobust tri (numIso p) (numIso q) (numV c) (numV f) (numV s) (num maxCosine) (num minCosine) =
      Sfm.triLandmarkRobust W p q c f s maxCosine minCosine := by
  unfold ftriRobust Sfm.triLandmarkRobust ftoCamera toCamera
  have hone : (⟨⟨fone, fzero⟩, numV c⟩ : FObservation Unrounded) = numO ⟨Iso.one, c⟩ := rfl
  have h := htri [⟨Iso.one, c⟩, ⟨p, f⟩, ⟨q, s⟩]
  have hl : ([⟨Iso.one, c⟩, ⟨p, f⟩, ⟨q, s⟩] : List Observation).map numO =
    [⟨⟨fone, fzero⟩, numV c⟩, ⟨numIso p, numV f⟩, ⟨numIso q, numV s⟩] := rfl
  rw [hl] at h
  rw [h]
  cases hx : W.tri [⟨Iso.one, c⟩, ⟨p, f⟩, ⟨q, s⟩] with
  | none => rfl
  | some x =>
    cases hy : fromHomogeneous x with
    | none =>
      simp only [Option.map_some, Option.bind_eq_bind, Option.bind_some, hy]
      rw [nan_lt (J := ieee) (a := fcentreDistance _ _) (.inl (nan_sub (.inr (nan_fdot (.inl (fhomogeneous_centre hy))))))]
      rfl
    | some y =>
      simp only [Option.map_some, Option.bind_eq_bind, Option.bind_some, hy, (fhomogeneous_num _).1 y hy]
      have hc : lt (fcentreDistance (numV4 y) (numV c)) (num maxCosine) = decide (1 - (bearing y).dot c < maxCosine) := by
        unfold fcentreDistance
        rw [fbearing_num, fdot_num, num_one, num_sub, Bool.eq_iff_iff, num_lt, decide_eq_true_eq]
      have h1 := (C109_unrounded_distance y ⟨p, f⟩).lt maxCosine
      have h2 := (C109_unrounded_distance y ⟨q, s⟩).lt maxCosine
      have e1 : fmulVec (finv (numIso p)).rot (numV f) = numV (p.inv.rot.mulVec f) := by
        rw [finv_num]; rfl
      have e2 : fmulVec (finv (numIso q)).rot (numV s) = numV (q.inv.rot.mulVec s) := by
        rw [finv_num]; rfl
      rw [e1, e2, C109_unrounded_angle, C109_unrounded_angle, C109_unrounded_angle, hc,
        show lt (fcosineDistance (numV4 y) ⟨numIso p, numV f⟩) (num maxCosine) = _ from h1,
        show lt (fcosineDistance (numV4 y) ⟨numIso q, numV s⟩) (num maxCosine) = _ from h2]
      rfl

/-- **C109.** Without rounding the test of consistency is that of C88, if the triangulators agree. -/
theorem C109_unrounded_consistent {C : Type} (W : Sfm.World C) (lim : Sfm.Limits)
    (tri : List (FObservation Unrounded) → Option (V4 Unrounded))
    (htri : ∀ os : List Observation, tri (os.map numO) = (W.tri os).map numV4) (o : Observation) (others : List Observation) :
    fconsistent tri (num lim.maxSine) (num lim.maxCosine) (numO o) (others.map numO) =
      Sfm.observationConsistent W lim o.pose o.bearing (others.map fun x => (x.pose, x.bearing)) := by
  match others with
  | [] => rfl
  | [x] =>
    show some (fbiRobust (fisoMul (numIso x.pose) (finv (numIso o.pose))) (numV o.bearing) (numV x.bearing) (num lim.maxSine)) =
      some (Sfm.biLandmarkRobust (x.pose.mul o.pose.inv) o.bearing x.bearing lim.maxSine)
    rw [finv_num, fisoMul_num, C109_unrounded_two_views]
  | x :: y :: rest =>
    have hl : ((x :: y :: rest).map numO) ++ [numO o] = (x :: y :: rest ++ [o]).map numO := by simp
    have hr : ((x :: y :: rest).map fun x => (x.pose, x.bearing)) ++ [(o.pose, o.bearing)] =
        (x :: y :: rest ++ [o]).map fun x => (x.pose, x.bearing) := by simp
    show some (((tri (((x :: y :: rest).map numO) ++ [numO o])).map fun p =>
        (((x :: y :: rest).map numO) ++ [numO o]).all fun y => lt (fcosineDistance p y) (num lim.maxCosine)).getD false) =
      match W.triangulate (((x :: y :: rest).map fun x => (x.pose, x.bearing)) ++ [(o.pose, o.bearing)]) with
      | none => some false
      | some p => some ((((x :: y :: rest).map fun x => (x.pose, x.bearing)) ++ [(o.pose, o.bearing)]).all (fun o =>
        match Sfm.cosineDistance p o with
        | none => false
        | some x => decide (x < lim.maxCosine)))
    rw [hl, hr, htri, show W.triangulate _ = W.tri (x :: y :: rest ++ [o]) from rfl]
    cases W.tri (x :: y :: rest ++ [o]) with
    | none => rfl
    | some p =>
      simp only [Option.map_some, Option.getD_some, List.all_map]
      congr 1
      refine List.all_congr rfl fun a => ?_
      exact (C109_unrounded_distance p a).lt lim.maxCosine

/-- **C109.** Without rounding the robustness of a list of observations is that of C59. -/
theorem C109_unrounded_robust {C : Type} (W : Sfm.World C) (R : Sfm.Recon (Iso ℝ)) {obs : List (Nat × Nat)}
    {os : List Observation} (h : obs.mapM (Sfm.poseBearing W R) = some (os.map fun x => (x.pose, x.bearing))) :
    Sfm.areObservationsRobust W R obs =
      some (fobservationsRobust W.minObservations R.views.size (num W.minCosine) (os.map numO)) := by
  have hlen : obs.length = os.length := by
    simpa using (Geo.mapM_forall₂ h).length_eq
  have hc : ∀ l : List Observation, (Sfm.combinations ((l.map numO).map FObservation.ray)).any
      (fun p => fangular p.1 p.2 (num W.minCosine)) =
      (Sfm.combinations ((l.map fun x => (x.pose, x.bearing)).map (fun p => p.1.inv.rot.mulVec p.2))).any
        (fun p => Sfm.angularlyRobust W p.1 p.2) := by
    intro l
    induction l with
    | nil => rfl
    | cons a l ih =>
      simp only [List.map_cons, Sfm.combinations, List.any_append, ih, List.any_map]
      congr 1
  unfold Sfm.areObservationsRobust fobservationsRobust
  rw [h, hc]
  simp [hlen]

/-- **C109.** Without rounding the filter of observations removes exactly those further away than the limit. -/
theorem C109_unrounded_filter (m : ℝ) (p : V4 ℝ) (os : List Observation) :
    fkept (num m) (numV4 p) (os.map numO) = (os.filter fun o =>
      match Sfm.cosineDistance p (o.pose, o.bearing) with | none => true | some r => !decide (m < r)).map numO := by
  unfold fkept
  rw [List.filter_map]
  congr 1
  refine List.filter_congr fun o _ => ?_
  show (!lt (num m) (fcosineDistance (numV4 p) (numO o))) = _
  rw [(C109_unrounded_distance p o).gt m]
  cases Sfm.cosineDistance p (o.pose, o.bearing) <;> rfl

/-! ### Examples -/

namespace ExResidual

/-- The camera of the world. -/
noncomputable def here : Iso Unrounded := numIso Iso.one

theorem one_one : fromHomogeneous (⟨1, 0, 0, 1⟩ : V4 ℝ) = some ⟨1, 0, 0, 1⟩ := by
  have h : (⟨1, 0, 0, 1⟩ : V4 ℝ).xyz.norm = 1 := by
    unfold V3.norm
    simp [lin]
  unfold fromHomogeneous
  simp only
  have hw : ¬ (1 : ℝ) < 0 := by norm_num
  simp only [if_neg hw]
  rw [h, if_neg one_ne_zero]
  simp [lin]

theorem transform_one : transform Iso.one (⟨1, 0, 0, 1⟩ : V4 ℝ) = some ⟨1, 0, 0, 1⟩ := by
  unfold transform
  rw [show Iso.one.homMul (⟨1, 0, 0, 1⟩ : V4 ℝ) = ⟨1, 0, 0, 1⟩ by simp [lin]]
  exact one_one

/-- A match that fits has residual zero and is an inlier. -/
example : finlier (fworldResidual here (numV ⟨1, 0, 0⟩) (numV4 ⟨1, 0, 0, 1⟩)) (num (1 / 10)) = true := by
  have h : worldResidual Iso.one ⟨1, 0, 0⟩ ⟨1, 0, 0, 1⟩ = some 0 := by
    unfold worldResidual
    rw [transform_one]
    simp [lin, bearing]
  rw [show fworldResidual here (numV ⟨1, 0, 0⟩) (numV4 ⟨1, 0, 0, 1⟩) = num 0 from
    (C109_unrounded_world Iso.one ⟨1, 0, 0⟩ ⟨1, 0, 0, 1⟩).1 0 h]
  exact (num_lt _ _).2 (by norm_num)

/-- An infinite bearing that is an inlier. -/
example : finlier (fworldResidual here ⟨infinity, num 0, num 0⟩ (numV4 ⟨1, 0, 0, 1⟩)) (num (1 / 10)) = true := by
  refine C109_infinite (J := ieee) ?_ (x := 1 / 10) rfl
  rw [show ftransform here (numV4 ⟨1, 0, 0, 1⟩) = numV4 ⟨1, 0, 0, 1⟩ from (transform_num _ _).1 _ transform_one]
  show ieee.val (infinity * num 1 + num 0 * num 0 + num 0 * num 0) = .inf false
  have h1 : ieee.val (infinity * num 1) = .inf false := by
    rw [ieee.mul]
    show roundedBy ieee.rnd ((Flt.inf false).mul (.num 1)) = _
    simp [Flt.mul, roundedBy]
  have h0 : ieee.val (num 0 * num 0) = .num 0 := by rw [num_mul, mul_zero]; rfl
  rw [ieee.add, ieee.add, h1, h0]
  rfl

end ExResidual

end Verif.Geo.Rounded
