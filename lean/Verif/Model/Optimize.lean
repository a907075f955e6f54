import Verif.Model.Triangulate

/-!
# cv-optimize: the pose optimisers

Model of `cv-optimize/src/single_view_optimizer.rs` and `three_view_optimizer.rs`. `none` is a pose
that is not a number; nothing the loops do brings back a number from it. The weights `epsilon` are taken
to be non-negative (an infinite weight is then positive). Log output is left out.
-/

namespace Verif.Geo

/-! ## Tangent vectors, cv-core/src/so3.rs -/

/-- so3.rs 37-42 `identity`. -/
@[lin] def Tangent.zero : Tangent := ⟨V3.zero, V3.zero⟩

/-- so3.rs 128-144 `add`, `add_assign`. -/
@[lin] def Tangent.add (a b : Tangent) : Tangent :=
  ⟨a.translation.add b.translation, a.rotation.add b.rotation⟩

/-- so3.rs 146-150 `sum`. -/
def Tangent.sum (as : List Tangent) : Tangent := as.foldl Tangent.add Tangent.zero

/-- so3.rs 78-82 `scale`. -/
@[lin] def Tangent.scale (s : ℝ) (a : Tangent) : Tangent :=
  ⟨V3.smul s a.translation, V3.smul s a.rotation⟩

/-- so3.rs 87-90 `scale_translation`. -/
@[lin] def Tangent.scaleTranslation (s : ℝ) (a : Tangent) : Tangent :=
  ⟨V3.smul s a.translation, a.rotation⟩

/-- so3.rs 95-98 `scale_rotation`. -/
@[lin] def Tangent.scaleRotation (s : ℝ) (a : Tangent) : Tangent :=
  ⟨a.translation, V3.smul s a.rotation⟩

/-- so3.rs 123-125 `l1`. -/
noncomputable def Tangent.l1 (a : Tangent) : Tangent :=
  Tangent.new a.translation.normalize a.rotation.normalize

/-! ## What the loops share -/

/-- single_view_optimizer.rs 48-57, three_view_optimizer.rs 71-80: the best value so far (`none` is the
infinity of lines 26, 27 and 34) and whether it was improved. -/
noncomputable def track (best : Option ℝ) (t : ℝ) : Option ℝ × Bool :=
  match best with
  | none => (some t, true)
  | some b => if t < b then (some t, true) else (some b, false)

/-- single_view_optimizer.rs 29-76 and 93-133, three_view_optimizer.rs 36-122 and 139-198, without what
is computed from the landmarks: `sizes p` are the lengths of the summed gradients at `p` and `update p` the
pose after the step. The test for the last iteration only logs. -/
noncomputable def optimizeLoop {P : Type} (sizes : P → List ℝ) (update : P → Option P) :
    Nat → List (Option ℝ) → Nat → P → Option P
  | 0, _, _, p => some p
  | n + 1, bests, idle, p =>
    let tracked := List.zipWith track bests (sizes p)
    let idle := if tracked.any (fun x => x.2) then 0 else idle + 1
    if 50 ≤ idle then some p
    else (update p).bind (optimizeLoop sizes update n (tracked.map (fun x => x.1)) idle)

/-- single_view_optimizer.rs 36, 37 and 44, 45, three_view_optimizer.rs 53, 54 and 65, 66: the reciprocal
of the sum of the reciprocals of the weights. A weight of zero makes the sum infinite and the result zero; no
weights make the sum zero and the result infinite, and infinity times the then zero gradient is not a
number. -/
noncomputable def harmonic (ws : List ℝ) : Option ℝ :=
  if 0 ∈ ws then some 0 else cdiv 1 (ws.map (fun w => 1 / w)).sum

/-- single_view_optimizer.rs 31-45, three_view_optimizer.rs 49-67 for one pose: the step from the gradients
of all landmarks. -/
noncomputable def stepL1 (tscale eps rate : ℝ) (gs : List Tangent) : Option Tangent := do
  let ts ← harmonic (gs.map (fun g => g.translation.norm + tscale * eps))
  let rs ← harmonic (gs.map (fun g => g.rotation.norm + eps))
  pure ((((Tangent.sum (gs.map Tangent.l1)).scale rate).scaleTranslation ts).scaleRotation rs)

/-! ## One view, cv-optimize/src/single_view_optimizer.rs -/

/-- An observed bearing and the homogeneous world point, cv-core `FeatureWorldMatch`. -/
abbrev WorldMatch := V3 ℝ × V4 ℝ

/-- single_view_optimizer.rs 4-14 `landmark_delta`. If the point is at the camera's centre, the transformed
point is not a number and `Se3TangentSpace::new` turns the gradient into zero. -/
noncomputable def landmarkDelta (pose : Iso ℝ) (lm : WorldMatch) : Option Tangent :=
  match transform pose lm.2 with
  | none => some Tangent.zero
  | some q => (toPoint q).map (fun x => worldPoseGradient x lm.1)

/-- single_view_optimizer.rs 34-40: the gradients of the landmarks that have one. -/
noncomputable def landmarkDeltas (pose : Iso ℝ) (lms : List WorldMatch) : List Tangent :=
  lms.filterMap (landmarkDelta pose)

/-- The lengths of both parts. -/
noncomputable def Tangent.sizes (a : Tangent) : List ℝ := [a.translation.norm, a.rotation.norm]

/-- single_view_optimizer.rs 16-78 `single_view_simple_optimize_l1`. -/
noncomputable def singleViewL1 (pose : Iso ℝ) (eps rate : ℝ) (n : Nat) (lms : List WorldMatch) :
    Option (Iso ℝ) :=
  if lms.isEmpty then some pose
  else optimizeLoop (fun p => (Tangent.sum ((landmarkDeltas p lms).map Tangent.l1)).sizes)
    (fun p => (stepL1 p.t.norm eps rate (landmarkDeltas p lms)).map (fun d => d.isometry.mul p))
    n [none, none] 0 pose

/-- single_view_optimizer.rs 101-102 and 126: the step of the second optimiser. -/
noncomputable def singleStepL2 (rate : ℝ) (lms : List WorldMatch) (p : Iso ℝ) : Iso ℝ :=
  (((Tangent.sum (landmarkDeltas p lms)).scale (1 / lms.length)).scale rate).isometry.mul p

/-- single_view_optimizer.rs 80-135 `single_view_simple_optimize_l2`. -/
noncomputable def singleViewL2 (pose : Iso ℝ) (rate : ℝ) (n : Nat) (lms : List WorldMatch) :
    Option (Iso ℝ) :=
  if lms.isEmpty then some pose
  else optimizeLoop (fun p => (Tangent.sum (landmarkDeltas p lms)).sizes)
    (fun p => some (singleStepL2 rate lms p)) n [none, none] 0 pose

/-! ## Three views, cv-optimize/src/three_view_optimizer.rs -/

/-- The bearings of one landmark in the centre, first and second view. -/
structure Bearings where
  center : V3 ℝ
  first : V3 ℝ
  second : V3 ℝ

/-- three_view_optimizer.rs 7-21 `landmark_gradients`. -/
noncomputable def landmarkGradients (p : Iso ℝ × Iso ℝ) (o : Bearings) : Tangent × Tangent :=
  threeViewGradients o.center (p.1.rot.mulVec o.first) p.1.t (p.2.rot.mulVec o.second) p.2.t

/-- The gradients of the first pose. -/
noncomputable def firstGradients (p : Iso ℝ × Iso ℝ) (os : List Bearings) : List Tangent :=
  os.map (fun o => (landmarkGradients p o).1)

/-- The gradients of the second pose. -/
noncomputable def secondGradients (p : Iso ℝ × Iso ℝ) (os : List Bearings) : List Tangent :=
  os.map (fun o => (landmarkGradients p o).2)

/-- three_view_optimizer.rs 101-107, 183-189, 252-254: both poses are moved. -/
noncomputable def movePoses (p : Iso ℝ × Iso ℝ) (d e : Tangent) : Iso ℝ × Iso ℝ :=
  (d.isometry.mul p.1, e.isometry.mul p.2)

/-- Lines 33, 136, 212 and 123, 199, 271: the loops work on the inverse poses. -/
def invPoses (p : Iso ℝ × Iso ℝ) : Iso ℝ × Iso ℝ := (p.1.inv, p.2.inv)

/-- three_view_optimizer.rs 45-67 and 101-107. -/
noncomputable def threeStepL1 (eps rate : ℝ) (os : List Bearings) (p : Iso ℝ × Iso ℝ) :
    Option (Iso ℝ × Iso ℝ) := do
  let tscale := p.1.t.norm + p.2.t.norm
  let d ← stepL1 tscale eps rate (firstGradients p os)
  let e ← stepL1 tscale eps rate (secondGradients p os)
  pure (movePoses p d e)

/-- three_view_optimizer.rs 23-124 `three_view_simple_optimize_l1`. -/
noncomputable def threeViewL1 (poses : Iso ℝ × Iso ℝ) (eps rate : ℝ) (n : Nat) (os : List Bearings) :
    Option (Iso ℝ × Iso ℝ) :=
  if os.isEmpty then some poses
  else (optimizeLoop
    (fun p => (Tangent.sum ((firstGradients p os).map Tangent.l1)).sizes ++
      (Tangent.sum ((secondGradients p os).map Tangent.l1)).sizes)
    (threeStepL1 eps rate os) n [none, none, none, none] 0 (invPoses poses)).map invPoses

/-- three_view_optimizer.rs 141-155 and 183-189. -/
noncomputable def threeStepL2 (rate : ℝ) (os : List Bearings) (p : Iso ℝ × Iso ℝ) : Iso ℝ × Iso ℝ :=
  movePoses p ((Tangent.sum (firstGradients p os)).scale (1 / os.length * rate))
    ((Tangent.sum (secondGradients p os)).scale (1 / os.length * rate))

/-- three_view_optimizer.rs 126-200 `three_view_simple_optimize_l2`. -/
noncomputable def threeViewL2 (poses : Iso ℝ × Iso ℝ) (rate : ℝ) (n : Nat) (os : List Bearings) :
    Option (Iso ℝ × Iso ℝ) :=
  if os.isEmpty then some poses
  else (optimizeLoop
    (fun p => (Tangent.sum (firstGradients p os)).sizes ++ (Tangent.sum (secondGradients p os)).sizes)
    (fun p => some (threeStepL2 rate os p)) n [none, none, none, none] 0 (invPoses poses)).map invPoses

/-- three_view_optimizer.rs 234-249 for one pose: mean gradient, each part scaled by its length over the mean
length; a quotient that is not finite counts as zero. -/
noncomputable def adaptiveStep (gs : List Tangent) : Tangent :=
  let k : ℝ := 1 / gs.length
  let l2 := (Tangent.sum gs).scale k
  let trate := (cdiv l2.translation.norm ((gs.map (fun g => g.translation.norm)).sum * k)).getD 0
  let rrate := (cdiv l2.rotation.norm ((gs.map (fun g => g.rotation.norm)).sum * k)).getD 0
  (l2.scaleTranslation trate).scaleRotation rrate

/-- three_view_optimizer.rs 219-254. -/
noncomputable def threeStepAdaptive (os : List Bearings) (p : Iso ℝ × Iso ℝ) : Iso ℝ × Iso ℝ :=
  movePoses p (adaptiveStep (firstGradients p os)) (adaptiveStep (secondGradients p os))

/-- three_view_optimizer.rs 203-272 `three_view_adaptive_optimize_l2`. -/
noncomputable def threeViewAdaptive (poses : Iso ℝ × Iso ℝ) (n : Nat) (os : List Bearings) :
    Iso ℝ × Iso ℝ :=
  if os.isEmpty then poses
  else invPoses ((List.replicate n ()).foldl (fun p _ => threeStepAdaptive os p) (invPoses poses))

end Verif.Geo
