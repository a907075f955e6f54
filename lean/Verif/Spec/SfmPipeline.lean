import Verif.Spec.SfmStartGeo
import Verif.Spec.SfmPose
import Verif.Spec.SfmTop
import Verif.Spec.SfmSearch

/-!
# Specification: all calls on exact data

The pictures are exact, descriptors identify the points, and the two consensus algorithms return exact answers. Everything
else is what the program computes.
-/

namespace Verif.Sfm

open Verif.Geo

variable {C : Type}

/-- The triangulator returns no wrong point for exact observations from at least two directions. -/
def SoundTriangulator (tri : List (Iso ℝ × V3 ℝ) → Option (V4 ℝ)) : Prop :=
  ∀ l x p, (∀ o ∈ l, o.1.Rigid) → (∀ o ∈ l, Looks o.1 o.2 x) →
    (∃ o ∈ l, ∃ o' ∈ l, (o.1.inv.rot.mulVec o.2).cross (o'.1.inv.rot.mulVec o'.2) ≠ V3.zero) →
    tri l = some p → fromPoint x = some p

/-- Exact pictures of a scene: every feature has a bearing, and no two frames look at a common point along the same line. -/
structure Scene.Pictured (sc : Scene) (W : World C) : Prop where
  seen : sc.Seen W
  every : ∀ f n, ∃ b, W.bearing f n = some b
  parallax : ∀ a b, a ≠ b → sc.Parallax W a b
  sound : SoundTriangulator W.triangulate
  cosine : 0 ≤ W.minCosine

/-- The consensus of the registration returns only poses that see their inliers exactly and that are determined by them. -/
structure ExactConsensus (consensus : List WorldMatch → Option (Iso ℝ × List Nat)) : Prop where
  fair : ConsensusFair consensus
  fits : ∀ ws pose is, consensus ws = some (pose, is) → ∀ i ∈ is, ∀ w, ws[i]? = some w → Geo.Fits pose w
  only : ∀ ws pose is, consensus ws = some (pose, is) → ∀ q : Iso ℝ, q.Rigid →
    (∀ i ∈ is, ∀ w, ws[i]? = some w → Geo.Fits q w) → q = pose

/-- Placing a frame in a reconstruction: the search finds landmarks of the right points, and pose estimation,
constraints and optimisation are those of the program. -/
structure ExactPlacing (sc : Scene) (W : World C) (s : TopSettings) (o : TopOracle (Iso ℝ)) : Prop where
  ro : ∀ f, (o.ro f).Fair
  range : ∀ (R : Recon (Iso ℝ)) frame f v V, R.views.get v = some V → ∀ e ∈ o.knn R frame f v, e.1 < V.landmarks.length
  right : ∀ (R : Recon (Iso ℝ)) frame views f ls l, R.TrueTo sc → R.StandsOut views (o.knn R frame f) s.betterBy ls → l ∈ ls →
    R.Depicts sc l (sc.point frame f)
  order : o.order = byObservations
  judge : ∃ lim ps consensus, ExactConsensus consensus ∧ o.judge = geoJudge W lim ps consensus
  record : o.record.Fair
  three : ThreeViewBy W o.record
  opt : ∃ rate, ∀ i j, (o.opt i j).constrain = constrainPose rate

/-- Adding a frame. -/
structure ExactFrame (sc : Scene) (W : World C) (s : TopSettings) (o : FrameOracle (Iso ℝ) ℝ) : Prop where
  similarOnce : ∀ d f, (o.similar d f).Nodup
  similarLive : ∀ d f g, g ∈ o.similar d f → ∃ G, d.frames.get g = some G
  sort : ∀ l, (o.sort l).Perm l
  first : ∀ i, ExactPlacing sc W s (o.first i)
  second : ∀ i, ExactPlacing sc W s (o.second i)
  start : ∀ d, ∃ geo o', o.start d = startGeo W geo o' ∧ o'.Fair ∧ o'.Searches d ∧ TrueConsensus sc o'
  idp : o.idp = Iso.one

/-- All views found for the new frame are in one reconstruction. -/
def FoundInOne (o : FrameOracle (Iso ℝ) ℝ) (s : TopSettings) (d : Data (Iso ℝ)) (feed n : Nat) : Prop :=
  ∀ d1, d.addFrame feed n = some d1 → ∀ g h G H r r' v v',
    d1.Candidate s.tracking d.frames.next (o.similar d1 d.frames.next) g → d1.frames.get g = some G →
    d1.Candidate s.tracking d.frames.next (o.similar d1 d.frames.next) h → d1.frames.get h = some H →
    G.view = some (r, v) → H.view = some (r', v') → r = r'

/-- A call of a public method with exact data. Matches and motions passed by the caller are right, and reconstructions
merged by the caller have the same unit of length (see `Honest`). -/
def ExactCall (sc : Scene) (W : World C) (s : TopSettings) (d : Data (Iso ℝ)) : Call (Iso ℝ) ℝ → Prop
  | .addFeed => True
  | .addFrame o feed n => ExactFrame sc W s o ∧ (∃ fs, d.feeds.get feed = some fs) ∧ FoundInOne o s d feed n
  | .incorporateReconstruction ω tr src dst m =>
    Valid d (.incorporateReconstruction ω s.ops tr src dst m) ∧
      Honest sc W d (.incorporateReconstruction ω s.ops tr src dst m)
  | .normalize f g r => Honest sc W d (.normalize f g r)
  | .optimize ω _ r => (∃ rate, ∀ i j, (ω i j).constrain = constrainPose rate) ∧ ∃ R, d.recons.get r = some R
  | .applyConstraints ω r => (∃ rate, ∀ i, (ω i).constrain = constrainPose rate) ∧ ∃ R, d.recons.get r = some R
  | .regenerate ω ω' _ r => (∀ i, (ω i).Fair ∧ ThreeViewBy W (ω i)) ∧
      (∃ rate, ∀ i j, (ω' i j).constrain = constrainPose rate) ∧ ∃ R, d.recons.get r = some R
  | .filterObservations _ r => ∃ R, d.recons.get r = some R
  | .filterLandmarks _ r => ∃ R, d.recons.get r = some R
  | .mergeDedup _ r a b => ∃ R, d.recons.get r = some R ∧ R.LiveLandmark a ∧ R.LiveLandmark b ∧
      ∃ x, R.Depicts sc a x ∧ R.Depicts sc b x

/-- States reached from the empty data by calls with exact data. -/
inductive ExactHistory (sc : Scene) (W : World C) (s : TopSettings) : Data (Iso ℝ) → Prop where
  | new : ExactHistory sc W s Data.empty
  | call {d d' : Data (Iso ℝ)} {c : Call (Iso ℝ) ℝ} : ExactHistory sc W s d → ExactCall sc W s d c →
      c.run s d = some d' → ExactHistory sc W s d'

end Verif.Sfm
