import Verif.Model.SfmPose
import Verif.Spec.SfmFilter
import Verif.Spec.SfmRegister

/-!
# Specification: a verified pose

A match proposes one or two landmarks of a reconstruction for a feature of a new frame.
-/

namespace Verif.Sfm

open Verif.Geo

variable {C : Type}

/-- The camera sees the point closer than the limit to the bearing. -/
def Near (lim : Limits) (p : V4 ℝ) (a : Iso ℝ × V3 ℝ) : Prop :=
  ∃ q, transform a.1 p = some q ∧ 1 - (bearing q).dot a.2 < lim.maxCosine

/-- The observations of some landmarks together. -/
def ObservedBy (R : Recon (Iso ℝ)) (ls : List Nat) (obs : List (Nat × Nat)) : Prop :=
  ∃ Ls : List Landmark, List.Forall₂ (fun l L => R.landmarks.get l = some L) ls Ls ∧
    obs = Ls.flatMap (fun L => L.entries)

/-- A camera at `pose` with the bearing of feature `f` of the frame agrees with all earlier observations of the
landmarks: with a single one when the bearings meet; otherwise there is a point that all of them, the new one included,
are near to. -/
def Agrees (W : World C) (lim : Limits) (R : Recon (Iso ℝ)) (frame : Nat) (pose : Iso ℝ) (ls : List Nat) (f : Nat) :
    Prop :=
  ∃ obs pbs b, ObservedBy R ls obs ∧ SeenAs W R obs pbs ∧ W.bearing frame f = some b ∧
    ((∃ o, pbs = [o] ∧ Meet lim (pose, b) o) ∨
     (2 ≤ pbs.length ∧ ∃ p, W.triangulate (pbs ++ [(pose, b)]) = some p ∧
        ∀ o ∈ pbs ++ [(pose, b)], Near lim p o))

/-- The landmarks together are robust and triangulated at `p`. -/
def LocatedAt (W : World C) (R : Recon (Iso ℝ)) (ls : List Nat) (p : V4 ℝ) : Prop :=
  ∃ obs pbs, ObservedBy R ls obs ∧ Robust W R obs ∧ SeenAs W R obs pbs ∧ W.triangulate pbs = some p

/-- The bearing and the point of a match. -/
def Located (W : World C) (R : Recon (Iso ℝ)) (frame : Nat) (m : List Nat × Nat) (w : WorldMatch) : Prop :=
  W.bearing frame m.2 = some w.1 ∧ LocatedAt W R m.1 w.2

/-- `ws` are the bearings and points of exactly those of the matches `ms` that have the property `Q` and a point, in the
same order. -/
def PointsOf (W : World C) (R : Recon (Iso ℝ)) (frame : Nat) (Q : List Nat × Nat → Prop) (ms : List (List Nat × Nat))
    (ws : List WorldMatch) : Prop :=
  ∃ sub : List (List Nat × Nat), sub.Sublist ms ∧ List.Forall₂ (Located W R frame) sub ws ∧
    (∀ m ∈ sub, Q m) ∧ ∀ m ∈ ms, Q m → (∃ w, Located W R frame m w) → m ∈ sub

/-- How the pose was found: a consensus over at least `minLandmarks` points gave the first pose and `k` inliers (at most
`cap` are used). The pose was then improved `rounds + 1` times, each time with more than `k / 2` points; after the first
time these are the first `cap` of those that agree with the pose. More than `k / 2` points agree with the last one. -/
def FoundFrom (W : World C) (lim : Limits) (s : PoseSettings) (consensus : List WorldMatch → Option (Iso ℝ × List Nat))
    (R : Recon (Iso ℝ)) (frame : Nat) (ms : List (List Nat × Nat)) (pose : Iso ℝ) : Prop :=
  ∃ (ws : List WorldMatch) (is : List Nat) (poses : Nat → Iso ℝ) (data : Nat → List WorldMatch),
    PointsOf W R frame (fun _ => True) ms ws ∧ s.minLandmarks ≤ ws.length ∧
    consensus ws = some (poses 0, is) ∧
    List.Forall₂ (fun i w => ws[i]? = some w) (is.take s.cap) (data 0) ∧
    (∀ i ≤ s.rounds, (data 0).length / 2 < (data i).length ∧ (data i).length ≤ s.cap ∧
      singleViewL2 (poses i) s.rate s.patience (data i) = some (poses (i + 1))) ∧
    (∀ i < s.rounds, ∃ all, data (i + 1) = all.take s.cap ∧
      PointsOf W R frame (fun m => Agrees W lim R frame (poses (i + 1)) m.1 m.2) ms all) ∧
    (∃ fin, PointsOf W R frame (fun m => Agrees W lim R frame pose m.1 m.2) ms fin ∧
      (data 0).length / 2 < fin.length) ∧
    pose = poses (s.rounds + 1)

/-- The matches are of features of the frame, which have bearings, with one or two live landmarks. -/
def ProperMatches (W : World C) (R : Recon (Iso ℝ)) (frame : Nat) (ms : List (List Nat × Nat)) : Prop :=
  ∀ m ∈ ms, (∃ b, W.bearing frame m.2 = some b) ∧
    ((∃ l, m.1 = [l] ∧ R.LiveLandmark l) ∨ ∃ a b, m.1 = [a, b] ∧ R.LiveLandmark a ∧ R.LiveLandmark b)

/-- A consensus returns rigid poses and indices in range. -/
structure ConsensusFair (consensus : List WorldMatch → Option (Iso ℝ × List Nat)) : Prop where
  rigid : ∀ ws pose is, consensus ws = some (pose, is) → pose.Rigid
  range : ∀ ws pose is, consensus ws = some (pose, is) → ∀ i ∈ is, i < ws.length

/-- What is assumed of the reconstruction and the bearings. -/
structure PoseData (W : World C) (R : Recon (Iso ℝ)) : Prop where
  cons : R.Consistent
  complete : BearingsComplete W R
  rigid : RigidPoses R
  unit : UnitBearings W
  cosine : 0 ≤ W.minCosine

end Verif.Sfm
