import Verif.Spec.SfmThree
import Verif.Spec.SfmHistory
import Verif.Model.PoseGraph

/-!
# Specification: exact data

What a reconstruction should be when nothing is measured wrongly: the true scene, up to the choice of coordinates and of
the unit of length.
-/

namespace Verif.Sfm

open Verif.Geo

variable {C : Type}

/-- The truth: where the frames were taken, and the points their features show. -/
structure Scene where
  /-- the (world to camera) pose of a frame -/
  pose : Nat → Iso ℝ
  /-- the point shown by a feature of a frame -/
  point : Nat → Nat → V3 ℝ

/-- The frames are exact pictures of the scene, taken at different places. -/
structure Scene.Seen (sc : Scene) (W : World C) : Prop where
  rigid : ∀ f, (sc.pose f).Rigid
  looks : ∀ f n b, W.bearing f n = some b → Looks (sc.pose f) b (sc.point f n)
  apart : ∀ f g, f ≠ g → centre (sc.pose f) ≠ centre (sc.pose g)

/-- The pose of a frame when the world has other coordinates (`g` leads to the true ones) and another unit of length. -/
def Scene.viewed (sc : Scene) (g : Iso ℝ) (s : ℝ) (f : Nat) : Iso ℝ := ((sc.pose f).mul g).scale s

/-- The reconstruction is true in these coordinates and with this unit of length: the cameras are where the frames were
taken, all observations of a landmark are of one point, and the constraints hold. -/
structure Recon.TrueIn (R : Recon (Iso ℝ)) (sc : Scene) (g : Iso ℝ) (s : ℝ) : Prop where
  poses : ∀ v V, R.views.get v = some V → V.pose = sc.viewed g s V.frame
  landmarks : ∀ l v f u h V U, R.Observes l v f → R.Observes l u h → R.views.get v = some V → R.views.get u = some U →
    sc.point V.frame f = sc.point U.frame h
  constraints : ∀ k c, R.constraints.get k = some c → R.Fulfils c

/-- The reconstruction is true, up to coordinates and unit of length. -/
def Recon.TrueTo (R : Recon (Iso ℝ)) (sc : Scene) : Prop := ∃ g s, g.Rigid ∧ 0 < s ∧ R.TrueIn sc g s

/-- The landmark shows the point. -/
def Recon.Depicts (R : Recon (Iso ℝ)) (sc : Scene) (l : Nat) (x : V3 ℝ) : Prop :=
  ∀ v f V, R.Observes l v f → R.views.get v = some V → sc.point V.frame f = x

/-- The proposed landmarks of a feature of a new frame show the same point as the feature. -/
def TrueMatches (sc : Scene) (R : Recon (Iso ℝ)) (frame : Nat) (ex : Nat → Option (List Nat)) : Prop :=
  ∀ f ls l, ex f = some ls → l ∈ ls → R.Depicts sc l (sc.point frame f)

/-- The pose and the matches for a new frame are right. -/
def Right (sc : Scene) (R : Recon (Iso ℝ)) (frame : Nat) (pose : Iso ℝ) (ex : Nat → Option (List Nat)) : Prop :=
  (∃ g s, g.Rigid ∧ 0 < s ∧ R.TrueIn sc g s ∧ pose = sc.viewed g s frame) ∧ TrueMatches sc R frame ex

/-- The poses of three-view constraints are computed from the observed bearings. -/
def ThreeViewBy (W : World C) (ω : Oracle (Iso ℝ)) : Prop :=
  ∃ t shuffle, (∀ l : List Nat, (shuffle l).Perm l) ∧
    ω.optimise = fun R v ls => (threeViewPoses W t shuffle R v ls).getD none

/-- What comes from outside is right: the poses at the start and of new frames, and all matches. The numeric steps are
those of the program. In a merger, both reconstructions have the same unit of length. -/
def Honest (sc : Scene) (W : World C) (d : Data (Iso ℝ)) : Op (Iso ℝ) → Prop
  | .addReconstruction c f s idp p1 p2 cm m1 m2 =>
    idp = Iso.one ∧
      (∃ a > 0, p1 = ((sc.pose f).mul (sc.pose c).inv).scale a ∧ p2 = ((sc.pose s).mul (sc.pose c).inv).scale a) ∧
      (∀ m ∈ cm, sc.point f m.2.1 = sc.point c m.1 ∧ sc.point s m.2.2 = sc.point c m.1) ∧
      (∀ m ∈ m1, sc.point f m.2 = sc.point c m.1) ∧ ∀ m ∈ m2, sc.point s m.2 = sc.point c m.1
  | .addView r frame pose ex => ∀ R, d.recons.get r = some R → Right sc R frame pose ex
  | .incorporateFrame ω _ r frame pose ex =>
    ThreeViewBy W ω ∧ ∀ R, d.recons.get r = some R → Right sc R frame pose ex
  | .tryMerge ω ω' _ tr src sv dst pose ms =>
    ThreeViewBy W ω ∧ (∀ i, ThreeViewBy W (ω' i)) ∧
      ∀ S D V, d.recons.get src = some S → d.recons.get dst = some D → S.views.get sv = some V →
        tr = (fun p => p.mul (fromCameraPoses V.pose pose).inv) ∧ TrueMatches sc D V.frame ms.get ∧
        ∃ g h s, g.Rigid ∧ h.Rigid ∧ 0 < s ∧ S.TrueIn sc g s ∧ D.TrueIn sc h s ∧ pose = sc.viewed h s V.frame
  | .incorporateReconstruction ω _ tr src dst m =>
    (∀ i, ThreeViewBy W (ω i)) ∧
      ∀ S D, d.recons.get src = some S → d.recons.get dst = some D →
        (∀ a b, m.get a = some b → ∃ x, S.Depicts sc a x ∧ D.Depicts sc b x) ∧
        ∃ g h s, g.Rigid ∧ h.Rigid ∧ 0 < s ∧ S.TrueIn sc g s ∧ D.TrueIn sc h s ∧
          ∀ f, tr (sc.viewed g s f) = sc.viewed h s f
  | .mergeLandmarks r a b => ∀ R, d.recons.get r = some R → ∃ x, R.Depicts sc a x ∧ R.Depicts sc b x
  | .mergeDedup _ r a b => ∀ R, d.recons.get r = some R → ∃ x, R.Depicts sc a x ∧ R.Depicts sc b x
  | .recordConstraints ω _ _ _ => ThreeViewBy W ω
  | .regenerateConstraints ω _ _ => ∀ i, ThreeViewBy W (ω i)
  | .optimize ω _ _ _ => ∃ rate, ∀ i j, (ω i j).constrain = constrainPose rate
  | .normalize f g r => ∃ a > 0, ∃ R v V, d.recons.get r = some R ∧ R.views.get v = some V ∧
      f = (fun p => (p.mul V.pose.inv).scale a) ∧ g = fun p => p.scale a
  | _ => True

/-- States reached when everything that comes from outside is right. -/
inductive HonestlyReached (sc : Scene) (W : World C) : Data (Iso ℝ) → Prop where
  | init : HonestlyReached sc W Data.empty
  | step {d d' : Data (Iso ℝ)} {op : Op (Iso ℝ)} : HonestlyReached sc W d → Valid d op → Honest sc W d op →
      step d op = some d' → HonestlyReached sc W d'

end Verif.Sfm
