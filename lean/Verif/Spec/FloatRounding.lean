import Verif.Model.Residual
import Verif.Lemmas.FloatError

/-!
# Poses, points and bearings with finite numbers
-/

namespace Verif.Geo.Rounded

open Verif.Akaze

variable {D : Type} [FloatOps D]

/-- The coordinates are finite, with the values `x`. -/
def HasV (J : Ieee D) (a : V3 D) (x : V3 ℝ) : Prop :=
  J.val a.x = .num x.x ∧ J.val a.y = .num x.y ∧ J.val a.z = .num x.z

/-- The entries are finite, with the values `X`. -/
def HasM (J : Ieee D) (A : M3 D) (X : M3 ℝ) : Prop :=
  (J.val A.m11 = .num X.m11 ∧ J.val A.m12 = .num X.m12 ∧ J.val A.m13 = .num X.m13) ∧
  (J.val A.m21 = .num X.m21 ∧ J.val A.m22 = .num X.m22 ∧ J.val A.m23 = .num X.m23) ∧
  (J.val A.m31 = .num X.m31 ∧ J.val A.m32 = .num X.m32 ∧ J.val A.m33 = .num X.m33)

/-- The numbers of a pose are finite, with the values `P`. -/
def HasIso (J : Ieee D) (p : Iso D) (P : Iso ℝ) : Prop := HasM J p.rot P.rot ∧ HasV J p.t P.t

/-- The coordinates of a homogeneous point are finite, with the values `W`. -/
def Has4 (J : Ieee D) (w : V4 D) (W : V4 ℝ) : Prop :=
  J.val w.x = .num W.x ∧ J.val w.y = .num W.y ∧ J.val w.z = .num W.z ∧ J.val w.w = .num W.w

/-- The rows are at most 1 % longer than 1, which rotations are up to rounding. -/
def NearRot (R : M3 ℝ) : Prop :=
  (⟨R.m11, R.m12, R.m13⟩ : V3 ℝ).norm ≤ 101 / 100 ∧ (⟨R.m21, R.m22, R.m23⟩ : V3 ℝ).norm ≤ 101 / 100 ∧
    (⟨R.m31, R.m32, R.m33⟩ : V3 ℝ).norm ≤ 101 / 100

/-- A point in front of or behind a camera, not at infinity. In homogeneous coordinates `r` is the distance to the camera;
the distances of the point and of the camera from the origin together are at most `κ` times that. -/
structure InSight (P : Iso ℝ) (W : V4 ℝ) (r κ : ℝ) : Prop where
  rot : NearRot P.rot
  finite : 0 < W.w
  away : 0 < r
  dist : (P.homMul W).xyz.norm = r
  ratio : W.xyz.norm + P.t.norm * W.w ≤ κ * r

/-- The floating point type is precise enough and has enough range for points at the distance `r`. -/
structure Fine (u η M r κ : ℝ) : Prop where
  one_le : 1 ≤ κ
  precise : u * κ ≤ 1 / 1024
  tiny : 1024 * η ≤ u
  tiny_dist : 1024 * η ≤ u * r
  tiny_square : 2048 * η ≤ u * (r * r)
  range : 16 ≤ M
  range_dist : 16 * (κ * r) ≤ M
  range_square : 16 * (r * r) ≤ M

/-- Two bearings, the first in the frame of the second camera, and the translation between the cameras. The longer of the
cross products with the translation has the length `m`; the translation is at most `κ` times as long, so that `κ` is the
inverse sine of the angle between the baseline and the bearing farther from it. -/
structure Baseline (t a b : V3 ℝ) (m κ : ℝ) : Prop where
  a_unit : a.norm ≤ 102 / 100
  b_unit : b.norm ≤ 102 / 100
  pos : 0 < m
  a_le : (a.cross t).norm ≤ m
  b_le : (b.cross t).norm ≤ m
  attained : (a.cross t).norm = m ∨ (b.cross t).norm = m
  ratio : t.norm ≤ κ * m

/-- The floating point type is precise enough and has enough range for such a baseline. -/
structure FineBase (u η M m κ : ℝ) : Prop where
  one_le : 1 ≤ κ
  precise : u * κ ≤ 1 / 4096
  tiny : 1024 * η ≤ u
  tiny_base : 2048 * η ≤ u * m
  tiny_square : 4096 * η ≤ u * (m * m)
  tiny_product : 1024 * (η * m) ≤ u
  range : 16 ≤ M
  range_base : 4 * (κ * m) ≤ M
  range_square : 16 * (m * m) ≤ M
  range_inverse : 4 ≤ M * m

end Verif.Geo.Rounded
