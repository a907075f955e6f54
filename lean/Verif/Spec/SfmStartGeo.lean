import Verif.Model.SfmStartGeo
import Verif.Spec.SfmStart
import Verif.Spec.SfmExact
import Verif.Spec.Optimize

/-!
# Specification: the start of a reconstruction from exact data
-/

namespace Verif.Sfm

open Verif.Geo

variable {C : Type}

/-- The motion from one frame to another. -/
def Scene.motion (sc : Scene) (a b : Nat) : Iso ℝ := (sc.pose b).mul (sc.pose a).inv

/-- The direction of a bearing in the world. -/
def Scene.ray (sc : Scene) (f : Nat) (b : V3 ℝ) : V3 ℝ := (sc.pose f).inv.rot.mulVec b

/-- The two features show the same point. -/
def Scene.Same (sc : Scene) (a i b j : Nat) : Prop := sc.point a i = sc.point b j

/-- No point matched between the two frames is on the line through the two cameras. -/
def Scene.Parallax (sc : Scene) (W : World C) (a b : Nat) : Prop :=
  ∀ i j u v, sc.Same a i b j → W.bearing a i = some u → W.bearing b j = some v →
    (sc.ray a u).cross (sc.ray b v) ≠ V3.zero

/-- The two frames see no common point under an angle of more than 90 degrees. -/
def Scene.Narrow (sc : Scene) (W : World C) (a b : Nat) : Prop :=
  ∀ i j u v, sc.Same a i b j → W.bearing a i = some u → W.bearing b j = some v → 0 ≤ (sc.ray a u).dot (sc.ray b v)

/-- What the two-view consensus finds is true: the motion up to the unit of length, and only matches of equal points. The
unit may be another one for each pair of frames. -/
def TrueConsensus (sc : Scene) (o : StartOracle (Iso ℝ) ℝ) : Prop :=
  ∀ a b l pose is, o.consensus a b l = some (pose, is) → (∃ k > 0, pose = (sc.motion a b).scale k) ∧
    ∀ i ∈ is, ∀ m, l[i]? = some m → sc.Same a m.1 b m.2

/-- Exact observations of `x`, which is not the origin, from at least two directions. -/
structure ExactlySeen (l : List (Iso ℝ × V3 ℝ)) (x : V3 ℝ) : Prop where
  rigid : ∀ o ∈ l, o.1.Rigid
  looks : ∀ o ∈ l, Looks o.1 o.2 x
  origin : x ≠ V3.zero
  across : ∃ o ∈ l, ∃ o' ∈ l, (o.1.inv.rot.mulVec o.2).cross (o'.1.inv.rot.mulVec o'.2) ≠ V3.zero

/-- The triangulator finds no other point when the observations are exact. -/
def ExactTriangulator (tri : List (Iso ℝ × V3 ℝ) → Option (V4 ℝ)) : Prop :=
  ∀ l x p, ExactlySeen l x → tri l = some p → fromPoint x = some p

/-- The triangulator finds the point when the observations are exact and no camera looks more than 90 degrees away from
the direction in which the origin of the world sees the point. -/
def CompleteTriangulator (tri : List (Iso ℝ × V3 ℝ) → Option (V4 ℝ)) : Prop :=
  ∀ l x, ExactlySeen l x → (∀ o ∈ l, 0 ≤ (o.1.inv.rot.mulVec o.2).dot x) → tri l = fromPoint x

/-- The start is true: one unit of length for both motions, and only matches of equal points. -/
structure TrueStart (sc : Scene) (center : Nat) (st : Start (Iso ℝ)) : Prop where
  poses : ∃ k > 0, st.firstPose = (sc.motion center st.first).scale k ∧ st.secondPose = (sc.motion center st.second).scale k
  combined : ∀ t ∈ st.combined, sc.Same center t.1 st.first t.2.1 ∧ sc.Same center t.1 st.second t.2.2
  first : ∀ m ∈ st.firstMatches, sc.Same center m.1 st.first m.2
  second : ∀ m ∈ st.secondMatches, sc.Same center m.1 st.second m.2

/-- Two of the three cameras see the match from directions whose cosine distance is more than `minimum`. -/
def Scene.Incident (sc : Scene) (W : World C) (minimum : ℝ) (c f g : Nat) (t : Tri) : Prop :=
  ∃ x y z, W.bearing c t.1 = some x ∧ W.bearing f t.2.1 = some y ∧ W.bearing g t.2.2 = some z ∧
    (1 - (sc.ray c x).dot (sc.ray f y) > minimum ∨ 1 - (sc.ray c x).dot (sc.ray g z) > minimum ∨
      1 - (sc.ray f y).dot (sc.ray g z) > minimum)

/-- Each of the three cameras sees the two matches in directions whose cosine distance is more than `minimum`. -/
def Directions (W : World C) (minimum : ℝ) (c f g : Nat) (a b : Tri) : Prop :=
  ∃ x y z x' y' z', W.bearing c a.1 = some x ∧ W.bearing f a.2.1 = some y ∧ W.bearing g a.2.2 = some z ∧
    W.bearing c b.1 = some x' ∧ W.bearing f b.2.1 = some y' ∧ W.bearing g b.2.2 = some z' ∧
    1 - x.dot x' > minimum ∧ 1 - y.dot y' > minimum ∧ 1 - z.dot z' > minimum

/-- The match fits the motions `p` and `q`: the three cameras (the first at the origin) triangulate a point that each sees
closer than `far` to its bearing, and two of the three directions are more than `near` apart, both in cosine distance. -/
def FitsMotions (W : World C) (far near : ℝ) (c f g : Nat) (p q : Iso ℝ) (t : Tri) : Prop :=
  ∃ u v w h x y z, W.bearing c t.1 = some u ∧ W.bearing f t.2.1 = some v ∧ W.bearing g t.2.2 = some w ∧
    W.triangulate [(Iso.one, u), (p, v), (q, w)] = some h ∧
    fromHomogeneous h = some x ∧ transform p x = some y ∧ transform q x = some z ∧
    1 - (bearing x).dot u < far ∧ 1 - (bearing y).dot v < far ∧ 1 - (bearing z).dot w < far ∧
    (near < 1 - u.dot (p.inv.rot.mulVec v) ∨ near < 1 - u.dot (q.inv.rot.mulVec w) ∨
      near < 1 - (p.inv.rot.mulVec v).dot (q.inv.rot.mulVec w))

end Verif.Sfm
