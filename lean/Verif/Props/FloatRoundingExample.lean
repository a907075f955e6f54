import Verif.Props.FloatRoundingViews

/-!
# C111: a camera, with numbers of 24 bits
-/

namespace Verif.Geo.Rounded

open Verif.Akaze
open Verif.Bicubic (Flt)
open ExFloat (F32 toF)

namespace ExRounding

theorem norm_of {v : V3 ℝ} {n : ℝ} (hn : 0 ≤ n) (h : v.normSq = n * n) : v.norm = n := by
  unfold V3.norm
  rw [h, Real.sqrt_mul_self hn]

theorem norm_le_of {v : V3 ℝ} {n : ℝ} (hn : 0 ≤ n) (h : v.normSq ≤ n * n) : v.norm ≤ n := by
  unfold V3.norm
  rw [← Real.sqrt_mul_self hn]
  exact Real.sqrt_le_sqrt h

/-- An integer as a number of 24 bits. -/
noncomputable def i (n : ℤ) : F32 := toF (.num n)

noncomputable def vec (a b c : ℤ) : V3 F32 := ⟨i a, i b, i c⟩
def vecR (a b c : ℤ) : V3 ℝ := ⟨a, b, c⟩

/-- A camera turned by a quarter. -/
noncomputable def pose : Iso F32 := ⟨⟨i 0, i (-1), i 0, i 1, i 0, i 0, i 0, i 0, i 1⟩, ⟨i 2, i 3, i 5⟩⟩
def poseR : Iso ℝ := ⟨⟨(0 : ℤ), (-1 : ℤ), (0 : ℤ), (1 : ℤ), (0 : ℤ), (0 : ℤ), (0 : ℤ), (0 : ℤ), (1 : ℤ)⟩,
  ⟨(2 : ℤ), (3 : ℤ), (5 : ℤ)⟩⟩

/-- The same with another translation. -/
noncomputable def pose2 : Iso F32 := ⟨pose.rot, vec 3 4 5⟩
def poseR2 : Iso ℝ := ⟨poseR.rot, vecR 3 4 5⟩

noncomputable def pt : V4 F32 := ⟨i 0, i 0, i 1, i 1⟩
def ptR : V4 ℝ := ⟨(0 : ℤ), (0 : ℤ), (1 : ℤ), (1 : ℤ)⟩

theorem has_vec {a b c : ℤ} (h1 : |a| ≤ 2 ^ 24) (h2 : |b| ≤ 2 ^ 24) (h3 : |c| ≤ 2 ^ 24) :
    HasV ExFloat.ieee (vec a b c) (vecR a b c) := ⟨val_int h1, val_int h2, val_int h3⟩

theorem has_pose : HasIso ExFloat.ieee pose poseR := by
  refine ⟨⟨⟨?_, ?_, ?_⟩, ⟨?_, ?_, ?_⟩, ?_, ?_, ?_⟩, ?_, ?_, ?_⟩ <;> exact val_int (by norm_num)

theorem has_pt : Has4 ExFloat.ieee pt ptR := by
  refine ⟨?_, ?_, ?_, ?_⟩ <;> exact val_int (by norm_num)

theorem near : NearRot poseR.rot ∧ NearRot poseR.inv.rot := by
  refine ⟨⟨?_, ?_, ?_⟩, ?_, ?_, ?_⟩ <;> exact norm_le_of (by norm_num) (by simp [lin, poseR]; norm_num)

theorem inSight : InSight poseR ptR 7 2 where
  rot := near.1
  finite := by simp [ptR]
  away := by norm_num
  dist := norm_of (by norm_num) (by simp [lin, poseR, ptR]; norm_num)
  ratio := by
    have h1 : ptR.xyz.norm ≤ 1 := norm_le_of (by norm_num) (by simp [lin, ptR])
    have h2 : poseR.t.norm ≤ 7 := norm_le_of (by norm_num) (by simp [lin, poseR]; norm_num)
    have h3 : ptR.w = 1 := by simp [ptR]
    rw [h3]
    linarith

theorem fine : Fine ((2 : ℝ) ^ (-23 : ℤ)) ((2 : ℝ) ^ (-149 : ℤ)) (2 ^ 100) 7 2 := by
  constructor <;> norm_num

theorem unit (a b c : ℤ) (h : a * a + b * b + c * c = 1) : (vecR a b c).norm = 1 := by
  refine norm_of (by norm_num) ?_
  have : ((a * a + b * b + c * c : ℤ) : ℝ) = 1 := by rw [h]; norm_num
  simp only [lin, vecR]
  push_cast at this
  linarith

theorem unit_le (a b c : ℤ) (h : a * a + b * b + c * c = 1) : (vecR a b c).norm ≤ 101 / 100 := by
  rw [unit a b c h]; norm_num

theorem residual_exact : worldResidual poseR (vecR 0 0 1) ptR = some (1 / 7) := by
  have hd := inSight.dist
  unfold worldResidual transform fromHomogeneous
  have h0 : ¬ (poseR.homMul ptR).w < 0 := by simp [lin, ptR]
  simp only [if_neg h0, hd, if_neg (by norm_num : ¬ (7 : ℝ) = 0), Option.bind_eq_bind, Option.bind_some, Option.pure_def]
  congr 1
  simp only [lin, bearing, poseR, ptR, vecR]
  norm_num

/-- The residual, and the match is an inlier. -/
example : (∃ z, ExFloat.ieee.val (fworldResidual pose (vec 0 0 1) pt) = .num z ∧ |z - 1 / 7| ≤ 1 / 65536) ∧
    finlier (fworldResidual pose (vec 0 0 1) pt) (i 1) = true := by
  constructor
  · obtain ⟨z, x, hz, hx, e⟩ := C111_world ExFloat.accurate ExFloat.bits has_pose
      (has_vec (a := 0) (b := 0) (c := 1) (by norm_num) (by norm_num) (by norm_num)) has_pt inSight fine
      (unit_le 0 0 1 (by norm_num))
    rw [residual_exact] at hx
    rw [← Option.some.inj hx] at e
    exact ⟨z, hz, e.trans (by norm_num)⟩
  · obtain ⟨x, hx, h⟩ := C111_inlier ExFloat.accurate ExFloat.bits has_pose
      (has_vec (a := 0) (b := 0) (c := 1) (by norm_num) (by norm_num) (by norm_num)) has_pt inSight fine
      (unit_le 0 0 1 (by norm_num)) (t := i 1) (θ := (1 : ℤ)) (val_int (by norm_num))
    rw [residual_exact] at hx
    rw [← Option.some.inj hx] at h
    refine (h ?_).2 (by norm_num)
    rw [abs_of_neg (by norm_num)]
    norm_num

theorem observe {a b c : ℤ} (h1 : |a| ≤ 2 ^ 24) (h2 : |b| ≤ 2 ^ 24) (h3 : |c| ≤ 2 ^ 24) (h : a * a + b * b + c * c = 1) :
    Observe ExFloat.ieee ((2 : ℝ) ^ (-23 : ℤ)) ((2 : ℝ) ^ (-149 : ℤ)) (2 ^ 100) 2 ptR ⟨pose, vec a b c⟩
      (poseR, vecR a b c) :=
  ⟨has_pose, has_vec h1 h2 h3, unit_le a b c h, 7, inSight, fine⟩

theorem distance_exact (a b c : ℤ) :
    Sfm.cosineDistance ptR (poseR, vecR a b c) = some (1 - (2 / 7 * (a : ℝ) + 3 / 7 * (b : ℝ) + 6 / 7 * (c : ℝ))) := by
  have hd := inSight.dist
  unfold Sfm.cosineDistance transform fromHomogeneous
  have h0 : ¬ (poseR.homMul ptR).w < 0 := by simp [lin, ptR]
  simp only [if_neg h0, hd, if_neg (by norm_num : ¬ (7 : ℝ) = 0), Option.map_some]
  congr 2
  simp only [lin, bearing, poseR, ptR, vecR]
  push_cast
  ring

/-- The test of an observation against two others, and the filter. -/
example : fconsistent (fun _ => some pt) (i 1) (i 1) ⟨pose, vec 0 0 1⟩ [⟨pose, vec 0 1 0⟩, ⟨pose, vec 1 0 0⟩] = some true ∧
    (⟨pose, vec 0 0 1⟩ : FObservation F32) ∈ fkept (i 1) pt [⟨pose, vec 0 1 0⟩, ⟨pose, vec 0 0 1⟩] := by
  have o1 := observe (a := 0) (b := 0) (c := 1) (by norm_num) (by norm_num) (by norm_num) (by norm_num)
  have o2 := observe (a := 0) (b := 1) (c := 0) (by norm_num) (by norm_num) (by norm_num) (by norm_num)
  have o3 := observe (a := 1) (b := 0) (c := 0) (by norm_num) (by norm_num) (by norm_num) (by norm_num)
  constructor
  · refine (C111_consistent ExFloat.accurate ExFloat.bits (maxSine := i 1) has_pt
      (show ExFloat.ieee.val (i 1) = .num ((1 : ℤ) : ℝ) from val_int (by norm_num))
      (by simp) rfl (.cons o2 (.cons o3 (.cons o1 .nil)))).1 ?_
    intro O hO
    rcases List.mem_cons.1 hO with rfl | hO
    · exact ⟨_, distance_exact 0 1 0, by norm_num⟩
    rcases List.mem_cons.1 hO with rfl | hO
    · exact ⟨_, distance_exact 1 0 0, by norm_num⟩
    rw [List.mem_singleton.1 hO]
    exact ⟨_, distance_exact 0 0 1, by norm_num⟩
  · obtain ⟨x, hx, h, -⟩ := C111_kept ExFloat.accurate ExFloat.bits has_pt
      (show ExFloat.ieee.val (i 1) = .num ((1 : ℤ) : ℝ) from val_int (by norm_num))
      (os := [⟨pose, vec 0 1 0⟩, ⟨pose, vec 0 0 1⟩]) (by simp) o1
    rw [distance_exact] at hx
    rw [← Option.some.inj hx] at h
    exact h (by norm_num)

theorem turned (a b c : ℤ) : poseR.inv.rot.mulVec (vecR a b c) = vecR b (-a) c := by
  simp only [lin, poseR, vecR]
  push_cast
  congr 1 <;> ring

theorem ray {a b c : ℤ} (h1 : |a| ≤ 2 ^ 24) (h2 : |b| ≤ 2 ^ 24) (h3 : |c| ≤ 2 ^ 24) (h : a * a + b * b + c * c = 1) :
    RayOf ExFloat.ieee ⟨pose, vec a b c⟩ (poseR, vecR a b c) := by
  refine ⟨has_pose, has_vec h1 h2 h3, near.2, unit_le a b c h, ?_⟩
  show (poseR.inv.rot.mulVec (vecR a b c)).norm ≤ _
  rw [turned]
  exact (unit_le b (-a) c (by linarith)).trans (by norm_num)

theorem has_hom : Has4 ExFloat.ieee (fhomogeneous pt) ptR := by
  obtain ⟨h1, h2, h3, h4⟩ := has_pt
  have hs : ¬ FloatBits.isSignNegative pt.w = true := fun h => by
    have := (ExFloat.bits.sign_num _ _ h4 (by simp [ptR])).1 h
    simp [ptR] at this
    linarith
  have z1 : ExFloat.ieee.val pt.x = .num 0 := h1.trans (by simp [ptR])
  have z2 : ExFloat.ieee.val pt.y = .num 0 := h2.trans (by simp [ptR])
  have z3 : ExFloat.ieee.val pt.z = .num 1 := h3.trans (by simp [ptR])
  have o : ExFloat.ieee.val (pt.z * pt.z) = .num 1 := by
    rw [ExFloat.ieee.mul, z3]
    show roundedBy ExFloat.ieee.rnd (Flt.num (1 * 1)) = _
    rw [one_mul]
    exact ExFloat.ieee.rnd_val _ _ z3
  have hn : ExFloat.ieee.val (fnorm ⟨pt.x, pt.y, pt.z⟩) = .num 1 := by
    have := val_zero_add (val_zero_add (val_zero_mul z1 z1) (val_zero_mul z2 z2)) o
    show ExFloat.ieee.val (FloatOps.sqrt (pt.x * pt.x + pt.y * pt.y + pt.z * pt.z)) = _
    rw [ExFloat.ieee.sqrt_num _ _ this, if_neg (by norm_num), Real.sqrt_one]
    exact ExFloat.ieee.rnd_val _ _ z3
  unfold fhomogeneous
  simp only [if_neg hs]
  exact ⟨val_mul_one h1 hn, val_mul_one h2 hn, val_mul_one h3 hn, val_mul_one h4 hn⟩

/-- Two observations with rays at a right angle, and the same in three views. -/
example : fobservationsRobust 2 5 (i 0) [⟨pose, vec 0 1 0⟩, ⟨pose, vec 0 0 1⟩] = true ∧
    ftriRobust (fun _ => some pt) pose pose (vec 0 0 1) (vec 0 1 0) (vec 0 0 1) (i 1) (i 0) = true := by
  have r1 := ray (a := 0) (b := 1) (c := 0) (by norm_num) (by norm_num) (by norm_num) (by norm_num)
  have r2 := ray (a := 0) (b := 0) (c := 1) (by norm_num) (by norm_num) (by norm_num) (by norm_num)
  have h0 : ExFloat.ieee.val (i 0) = .num ((0 : ℤ) : ℝ) := val_int (by norm_num)
  constructor
  · refine (C111_robust ExFloat.accurate (.cons r1 (.cons r2 .nil)) h0 (by norm_num) (by norm_num) (by norm_num)).1
      ⟨by simp, (poseR.inv.rot.mulVec (vecR 0 1 0), poseR.inv.rot.mulVec (vecR 0 0 1)), by simp [Sfm.combinations], ?_⟩
    show _ < 1 - (poseR.inv.rot.mulVec (vecR 0 1 0)).dot (poseR.inv.rot.mulVec (vecR 0 0 1))
    rw [turned, turned]
    simp only [lin, vecR]
    norm_num
  · have o1 := observe (a := 0) (b := 1) (c := 0) (by norm_num) (by norm_num) (by norm_num) (by norm_num)
    have o2 := observe (a := 0) (b := 0) (c := 1) (by norm_num) (by norm_num) (by norm_num) (by norm_num)
    have hpt : ftoCamera (fun _ => some pt) (vec 0 0 1) [⟨pose, vec 0 1 0⟩, ⟨pose, vec 0 0 1⟩] = some (fhomogeneous pt) := rfl
    obtain ⟨D2, D3, h2, h3, h, -⟩ := C111_three_views ExFloat.accurate ExFloat.bits hpt has_hom
      (hW := norm_le_of (by norm_num) (by simp [lin, ptR]; norm_num))
      (has_vec (a := 0) (b := 0) (c := 1) (by norm_num) (by norm_num) (by norm_num))
      ((unit_le 0 0 1 (by norm_num)).trans (by norm_num)) o1 o2 r1 r2
      (show ExFloat.ieee.val (i 1) = .num ((1 : ℤ) : ℝ) from val_int (by norm_num)) h0 (by norm_num)
    rw [distance_exact] at h2 h3
    rw [turned, turned, ← Option.some.inj h2, ← Option.some.inj h3] at h
    refine h ⟨?_, ?_, ?_, .inl ?_⟩
    · simp only [lin, ptR, vecR]; norm_num
    · norm_num
    · norm_num
    · simp only [lin, vecR]; norm_num

theorem baseline : Baseline poseR2.t (poseR2.rot.mulVec (vecR 0 0 1)) (vecR 0 0 1) 5 2 where
  a_unit := norm_le_of (by norm_num) (by simp [lin, poseR2, poseR, vecR]; norm_num)
  b_unit := (unit_le 0 0 1 (by norm_num)).trans (by norm_num)
  pos := by norm_num
  a_le := norm_le_of (by norm_num) (by simp [lin, poseR2, poseR, vecR]; norm_num)
  b_le := norm_le_of (by norm_num) (by simp [lin, poseR2, poseR, vecR]; norm_num)
  attained := .inl (norm_of (by norm_num) (by simp [lin, poseR2, poseR, vecR]; norm_num))
  ratio := norm_le_of (by norm_num) (by simp [lin, poseR2, vecR]; norm_num)

theorem fineBase : FineBase ((2 : ℝ) ^ (-23 : ℤ)) ((2 : ℝ) ^ (-149 : ℤ)) (2 ^ 100) 5 2 := by
  constructor <;> norm_num

/-- Two views. -/
example : fbiRobust pose2 (vec 0 0 1) (vec 0 0 1) (i 1) = true := by
  have hv := has_vec (a := 0) (b := 0) (c := 1) (by norm_num) (by norm_num) (by norm_num)
  have hl : epipolarLoss poseR2.t (poseR2.rot.mulVec (vecR 0 0 1)) (vecR 0 0 1) = 0 := by
    rw [exact_loss baseline]
    simp [lin, poseR2, poseR, vecR]
  rw [C111_two_views ExFloat.accurate ExFloat.bits (p := pose2) (t := i 1) (P := poseR2) (x := vecR 0 0 1) (y := vecR 0 0 1) (θ := ((1 : ℤ) : ℝ))
    ⟨has_pose.1, has_vec (by norm_num) (by norm_num) (by norm_num)⟩ hv hv (val_int (by norm_num)) near.1
    (unit_le 0 0 1 (by norm_num)) baseline fineBase ?_ ?_]
  · unfold Sfm.biLandmarkRobust
    rw [hl]
    simp
  · have : (poseR2.rot.mulVec (vecR 0 0 1)).dot (vecR 0 0 1) = 1 := by simp [lin, poseR2, poseR, vecR]
    rw [this]
    norm_num
  · rw [hl]
    norm_num

/-- An essential matrix and a match. -/
example : ∃ z, ExFloat.ieee.val (fessentialResidual ⟨i 0, i (-5), i 3, i 5, i 0, i (-2), i (-3), i 2, i 0⟩ (vec 1 2 1) (vec 2 1 1)) =
    .num z ∧ |z - 10| ≤ 1 / 1024 := by
  obtain ⟨z, w, hz, hw, e⟩ := C111_essential ExFloat.accurate
    (E := ⟨i 0, i (-5), i 3, i 5, i 0, i (-2), i (-3), i 2, i 0⟩)
    (X := ⟨((0 : ℤ) : ℝ), ((-5 : ℤ) : ℝ), ((3 : ℤ) : ℝ), ((5 : ℤ) : ℝ), ((0 : ℤ) : ℝ), ((-2 : ℤ) : ℝ), ((-3 : ℤ) : ℝ),
      ((2 : ℤ) : ℝ), ((0 : ℤ) : ℝ)⟩) (a := vec 1 2 1) (b := vec 2 1 1) (β := 2) (e := 5)
    (by refine ⟨⟨?_, ?_, ?_⟩, ⟨?_, ?_, ?_⟩, ?_, ?_, ?_⟩ <;> exact val_int (by norm_num))
    (has_vec (by norm_num) (by norm_num) (by norm_num)) (has_vec (by norm_num) (by norm_num) (by norm_num))
    (by simp [vecR]) (by simp [vecR]) (by simp [vecR]) (by simp [vecR]) (by simp [vecR]) (by simp [vecR])
    (by norm_num) (by norm_num) (by norm_num) (by norm_num) (by norm_num) (by norm_num) (by norm_num) (by norm_num)
  refine ⟨z, hz, ?_⟩
  have hw' : w = 10 := by
    have h1 : ¬ ((1 : ℤ) : ℝ) = 0 := by norm_num
    unfold essentialResidual cdiv vecR at hw
    simp only [if_neg h1, Option.bind_eq_bind, Option.bind_some, Option.pure_def, Option.some.injEq] at hw
    rw [← hw]
    simp only [lin]
    norm_num
  rw [hw'] at e
  exact e.trans (by norm_num)

end ExRounding

end Verif.Geo.Rounded
