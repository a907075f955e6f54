import Verif.Model.Triangulate

/-!
# What triangulation means
-/

namespace Verif.Geo

/-- `x` is in front of a camera with (world to camera) pose `pose`, exactly in the direction `b`. -/
def Looks (pose : Iso ℝ) (b x : V3 ℝ) : Prop :=
  b.normSq = 1 ∧ ∃ d > 0, pose.point x = V3.smul d b

/-- `x` is on the line through `c` with direction `r`. -/
def OnLine (c r x : V3 ℝ) : Prop := ∃ d, x = c.add (V3.smul d r)

/-- Squared distance of `x` from the line through `c` with the unit direction `r`. -/
def lineDistSq (c r x : V3 ℝ) : ℝ := (x.sub c).normSq - (x.sub c).dot r * (x.sub c).dot r

/-- The sum of the squared distances of `x` from the rays of the observations. -/
def rayError (os : List Observation) (x : V3 ℝ) : ℝ :=
  (os.map (fun o => lineDistSq o.centre o.ray x)).sum

/-- `x` is on the line of the bearing `b` (in front of the camera or behind it). -/
def Sighted (pose : Iso ℝ) (b x : V3 ℝ) : Prop := b.normSq = 1 ∧ ∃ d, pose.point x = V3.smul d b

/-- The homogeneous coordinates of a point. -/
def hom (x : V3 ℝ) : V4 ℝ := ⟨x.x, x.y, x.z, 1⟩

/-- A correct eigenvalue decomposition: orthonormal eigenvectors. -/
structure IsEigen4 (A : M4) (e : Eigen4) : Prop where
  unit : ∀ i, (e.vecs i).dot (e.vecs i) = 1
  orth : ∀ i j, i ≠ j → (e.vecs i).dot (e.vecs j) = 0
  eigen : ∀ i, A.mulVec (e.vecs i) = V4.smul (e.vals i) (e.vecs i)

/-- The last right singular vector: a unit vector for which `A v` is smallest. -/
structure IsLast (A : M4) (v : V4 ℝ) : Prop where
  unit : v.dot v = 1
  least : ∀ u : V4 ℝ, (A.mulVec v).dot (A.mulVec v) * u.dot u ≤ (A.mulVec u).dot (A.mulVec u)

end Verif.Geo
