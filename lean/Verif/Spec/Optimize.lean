import Verif.Model.Optimize
import Verif.Spec.Triangulate

/-!
# What the pose optimisers should do
-/

namespace Verif.Geo

/-- The pose takes the world point exactly to the observed bearing. -/
def Fits (pose : Iso ℝ) (lm : WorldMatch) : Prop := (transform pose lm.2).map bearing = some lm.1

/-- The three bearings are those of one point in front of the centre camera and of the cameras with the
poses `p.1` and `p.2` relative to it. -/
def FitsThree (p : Iso ℝ × Iso ℝ) (o : Bearings) : Prop :=
  ∃ x, Looks Iso.one o.center x ∧ Looks p.1 o.first x ∧ Looks p.2 o.second x

/-- `q` is reached from `p` by `k` small motions. -/
inductive Moved : Nat → Iso ℝ → Iso ℝ → Prop
  | refl (p) : Moved 0 p p
  | step {k p q} (d : Tangent) : Moved k p q → Moved (k + 1) p (d.isometry.mul q)

/-- At step `k` of the history, no size is below all its former values. -/
def NoProgress (hist : Nat → List ℝ) (k : Nat) : Prop :=
  ∀ (i : Nat) (t : ℝ), (hist k)[i]? = some t → ∃ j < k, ∃ u, (hist j)[i]? = some u ∧ u ≤ t

/-- Fifty steps up to `k` without progress. -/
def Stalled (hist : Nat → List ℝ) (k : Nat) : Prop :=
  ∀ d < 50, d ≤ k ∧ NoProgress hist (k - d)

end Verif.Geo
