import Verif.Model.SfmFilter
import Verif.Model.SfmStart
import Verif.Model.SfmRegister
import Verif.Model.Optimize
import Mathlib.Data.List.Sort

/-!
# cv-sfm: pose estimation in the registration of a frame

Source: /repo/cv-sfm/src/lib.rs 1563-1760, 2622-2655 and 2963-2976.  The matching before it and the doubling loop around
it are in `Model/SfmRegister`; this file replaces the parameter `judge` assumed there by the computation of the program.
A match is a list of one or two landmarks and a feature of the new frame.  `none` is a panic.
-/

namespace Verif.Sfm

open Verif.Geo

variable {C : Type}

/-- The settings of the pose estimation. -/
structure PoseSettings where
  /-- `single_view_minimum_landmarks` -/
  minLandmarks : Nat
  /-- `single_view_optimization_num_matches` -/
  cap : Nat
  /-- `single_view_filter_loop_iterations` -/
  rounds : Nat
  /-- `single_view_optimization_rate` -/
  rate : ℝ
  /-- `single_view_patience`, passed as the number of iterations -/
  patience : Nat

/-- lib.rs 2622-2655 `is_observation_consistent`.  A cosine distance that is not a number is not below the limit. -/
noncomputable def observationConsistent (W : World C) (lim : Limits) (pose : Iso ℝ) (b : V3 ℝ)
    (others : List (Iso ℝ × V3 ℝ)) : Option Bool :=
  match others with
  | [] => none
  | [o] => some (biLandmarkRobust (o.1.mul pose.inv) b o.2 lim.maxSine)
  | _ =>
    match W.triangulate (others ++ [(pose, b)]) with
    | none => some false
    | some p => some ((others ++ [(pose, b)]).all (fun o =>
        match cosineDistance p o with
        | none => false
        | some x => decide (x < lim.maxCosine)))

/-- lib.rs 1670-1673, 1720-1723 and 1752-1755: cameras and bearings of all observations of the landmarks of a match. -/
def matchPoseBearings (W : World C) (R : Recon (Iso ℝ)) (ls : List Nat) : Option (List (Iso ℝ × V3 ℝ)) := do
  let Ls ← ls.mapM R.landmarks.get
  (Ls.flatMap (fun L => L.entries)).mapM (poseBearing W R)

/-- lib.rs 2963-2976 `triangulate_merged_landmark_robust`. -/
noncomputable def triangulateMergedRobust (W : World C) (R : Recon (Iso ℝ)) (a b : Nat) : Option (Option (V4 ℝ)) := do
  let robust ← isMergedRobust W R a b
  let pbs ← matchPoseBearings W R [a, b]
  pure (if robust then W.triangulate pbs else none)

/-- lib.rs 1588-1600, 1678-1688 and 1724-1731: the point of a match; other numbers of landmarks panic. -/
noncomputable def worldPoint (W : World C) (R : Recon (Iso ℝ)) : List Nat → Option (Option (V4 ℝ))
  | [l] => triangulateRobust W R l
  | [a, b] => triangulateMergedRobust W R a b
  | _ => none

/-- lib.rs 1585-1601: the bearing and the point of a match, if it has a point. -/
noncomputable def worldMatch (W : World C) (R : Recon (Iso ℝ)) (frame : Nat) (m : List Nat × Nat) :
    Option (Option WorldMatch) := do
  let b ← W.bearing frame m.2
  let p ← worldPoint W R m.1
  pure (p.map (fun p => (b, p)))

/-- lib.rs 1666-1675, 1716-1724 and 1748-1756: the consistency test of a match. -/
noncomputable def consistentMatch (W : World C) (lim : Limits) (R : Recon (Iso ℝ)) (frame : Nat) (pose : Iso ℝ)
    (m : List Nat × Nat) : Option Bool := do
  let b ← W.bearing frame m.2
  let others ← matchPoseBearings W R m.1
  observationConsistent W lim pose b others

/-- lib.rs 1665-1690: a match that is consistent and has a point.  The program looks for the point of consistent matches
only; here it is computed for all, so that the model panics whenever the program could. -/
noncomputable def robustMatch (W : World C) (lim : Limits) (R : Recon (Iso ℝ)) (frame : Nat) (pose : Iso ℝ)
    (m : List Nat × Nat) : Option (Option WorldMatch) := do
  let c ← consistentMatch W lim R frame pose m
  let w ← worldMatch W R frame m
  pure (if c then w else none)

/-- lib.rs 1583-1602 and 1663-1692: the values of a partial function on all matches, without those that have none. -/
def collectMatches {α β : Type} (f : α → Option (Option β)) (ms : List α) : Option (List β) :=
  (ms.mapM f).map (fun l => l.filterMap id)

/-- lib.rs 1643-1693: the loop; `half` is `robust_minimum_matches`.  The result `some none` is a failure.  All matches are
tested and the surplus is cut off afterwards, the program stops when it has enough. -/
noncomputable def refinePose (W : World C) (lim : Limits) (s : PoseSettings) (R : Recon (Iso ℝ)) (frame : Nat)
    (ms : List (List Nat × Nat)) (half : Nat) : Nat → Iso ℝ → List WorldMatch → Option (Option (Iso ℝ × List WorldMatch))
  | 0, pose, ws => some (some (pose, ws))
  | n + 1, pose, ws =>
    if ws.length ≤ half then some none
    else
      match singleViewL2 pose s.rate s.patience ws with
      | none => none
      | some pose' =>
        match collectMatches (robustMatch W lim R frame pose') ms with
        | none => none
        | some ws' => refinePose W lim s R frame ms half n pose' (ws'.take s.cap)

/-- lib.rs 1579-1741: the pose of a frame with the sorted unique matches `ms`.  `consensus` is `model_inliers`: a pose and
the indices of its inliers. -/
noncomputable def estimatePose (W : World C) (lim : Limits) (s : PoseSettings)
    (consensus : List WorldMatch → Option (Iso ℝ × List Nat)) (R : Recon (Iso ℝ)) (frame : Nat)
    (ms : List (List Nat × Nat)) : Option (Option (Iso ℝ)) :=
  match collectMatches (worldMatch W R frame) ms with
  | none => none
  | some ws =>
    if ws.length < s.minLandmarks then some none
    else
      match consensus ws with
      | none => some none
      | some (pose, is) =>
        match pick ws is with
        | none => none
        | some inl =>
          match refinePose W lim s R frame ms ((inl.take s.cap).length / 2) s.rounds pose (inl.take s.cap) with
          | none => none
          | some none => some none
          | some (some (pose, ws')) =>
            if ws'.length ≤ (inl.take s.cap).length / 2 then some none
            else
              match singleViewL2 pose s.rate s.patience ws' with
              | none => none
              | some pose =>
                match collectMatches (robustMatch W lim R frame pose) ms with
                | none => none
                | some fin =>
                  if fin.length ≤ (inl.take s.cap).length / 2 then some none else some (some pose)

/-- lib.rs 1567-1574: the number of observations of the landmarks of a match. -/
def observationCount (R : Recon (Iso ℝ)) (m : List Nat × Nat) : Nat :=
  (m.1.map (fun l => ((R.landmarks.get l).map (fun L => L.entries.length)).getD 0)).sum

/-- lib.rs 1563-1577: stable sort by the number of observations, most first.  Looking up a dead landmark panics in the
program; `C88_no_panic` shows there is none. -/
def byObservations (R : Recon (Iso ℝ)) (ms : List (List Nat × Nat)) : List (List Nat × Nat) :=
  ms.insertionSort (fun a b => observationCount R b ≤ observationCount R a)

/-- The pose estimation as the parameter of `registerSubset`.  A lookup that panics in the program is given an arbitrary
value: `C88_no_panic` shows that there is none. -/
noncomputable def geoJudge (W : World C) (lim : Limits) (s : PoseSettings)
    (consensus : List WorldMatch → Option (Iso ℝ × List Nat)) (R : Recon (Iso ℝ)) (frame : Nat)
    (ms : List (List Nat × Nat)) : Option (Iso ℝ × (List Nat → Nat → Bool)) :=
  ((estimatePose W lim s consensus R frame ms).getD none).map (fun pose =>
    (pose, fun ls f => (consistentMatch W lim R frame pose (ls, f)).getD false))

end Verif.Sfm
