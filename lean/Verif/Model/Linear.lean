import Mathlib.Algebra.Ring.Basic
import Mathlib.Tactic.Ring
import Verif.Model.LinAttr

/-!
# Vectors and matrices of size three and four, isometries

The parts of `nalgebra` the geometry code uses, over an arbitrary ring of numbers `K` (exact
arithmetic; rounding is not modelled).
-/

namespace Verif.Geo

/-- `nalgebra::Vector3`. -/
@[ext] structure V3 (K : Type) where
  x : K
  y : K
  z : K
deriving DecidableEq

/-- `nalgebra::Vector4`. -/
@[ext] structure V4 (K : Type) where
  x : K
  y : K
  z : K
  w : K
deriving DecidableEq

/-- `nalgebra::Matrix3`, row by row. -/
@[ext] structure M3 (K : Type) where
  m11 : K
  m12 : K
  m13 : K
  m21 : K
  m22 : K
  m23 : K
  m31 : K
  m32 : K
  m33 : K
deriving DecidableEq

/-- `nalgebra::IsometryMatrix3`: rotate, then translate. -/
@[ext] structure Iso (K : Type) where
  rot : M3 K
  t : V3 K
deriving DecidableEq

variable {K : Type}

namespace V3
variable [CommRing K]

@[lin] def zero : V3 K := ⟨0, 0, 0⟩
@[lin] def add (a b : V3 K) : V3 K := ⟨a.x + b.x, a.y + b.y, a.z + b.z⟩
@[lin] def sub (a b : V3 K) : V3 K := ⟨a.x - b.x, a.y - b.y, a.z - b.z⟩
@[lin] def neg (a : V3 K) : V3 K := ⟨-a.x, -a.y, -a.z⟩
@[lin] def smul (s : K) (a : V3 K) : V3 K := ⟨s * a.x, s * a.y, s * a.z⟩
@[lin] def dot (a b : V3 K) : K := a.x * b.x + a.y * b.y + a.z * b.z
@[lin] def cross (a b : V3 K) : V3 K :=
  ⟨a.y * b.z - a.z * b.y, a.z * b.x - a.x * b.z, a.x * b.y - a.y * b.x⟩
/-- `norm_squared`. -/
@[lin] def normSq (a : V3 K) : K := a.x * a.x + a.y * a.y + a.z * a.z

end V3

namespace V4
variable [CommRing K]

@[lin] def neg (a : V4 K) : V4 K := ⟨-a.x, -a.y, -a.z, -a.w⟩
@[lin] def smul (s : K) (a : V4 K) : V4 K := ⟨s * a.x, s * a.y, s * a.z, s * a.w⟩
@[lin] def add (a b : V4 K) : V4 K := ⟨a.x + b.x, a.y + b.y, a.z + b.z, a.w + b.w⟩
@[lin] def sub (a b : V4 K) : V4 K := ⟨a.x - b.x, a.y - b.y, a.z - b.z, a.w - b.w⟩
@[lin] def dot (a b : V4 K) : K := a.x * b.x + a.y * b.y + a.z * b.z + a.w * b.w
/-- `xyz()`. -/
@[lin] def xyz (a : V4 K) : V3 K := ⟨a.x, a.y, a.z⟩

end V4

namespace M3
variable [CommRing K]

@[lin] def zero : M3 K := ⟨0, 0, 0, 0, 0, 0, 0, 0, 0⟩
@[lin] def one : M3 K := ⟨1, 0, 0, 0, 1, 0, 0, 0, 1⟩
@[lin] def diag (a b c : K) : M3 K := ⟨a, 0, 0, 0, b, 0, 0, 0, c⟩
@[lin] def add (A B : M3 K) : M3 K :=
  ⟨A.m11 + B.m11, A.m12 + B.m12, A.m13 + B.m13, A.m21 + B.m21, A.m22 + B.m22, A.m23 + B.m23,
    A.m31 + B.m31, A.m32 + B.m32, A.m33 + B.m33⟩
@[lin] def sub (A B : M3 K) : M3 K :=
  ⟨A.m11 - B.m11, A.m12 - B.m12, A.m13 - B.m13, A.m21 - B.m21, A.m22 - B.m22, A.m23 - B.m23,
    A.m31 - B.m31, A.m32 - B.m32, A.m33 - B.m33⟩
@[lin] def neg (A : M3 K) : M3 K :=
  ⟨-A.m11, -A.m12, -A.m13, -A.m21, -A.m22, -A.m23, -A.m31, -A.m32, -A.m33⟩
@[lin] def smul (s : K) (A : M3 K) : M3 K :=
  ⟨s * A.m11, s * A.m12, s * A.m13, s * A.m21, s * A.m22, s * A.m23, s * A.m31, s * A.m32,
    s * A.m33⟩
@[lin] def mul (A B : M3 K) : M3 K :=
  ⟨A.m11 * B.m11 + A.m12 * B.m21 + A.m13 * B.m31,
   A.m11 * B.m12 + A.m12 * B.m22 + A.m13 * B.m32,
   A.m11 * B.m13 + A.m12 * B.m23 + A.m13 * B.m33,
   A.m21 * B.m11 + A.m22 * B.m21 + A.m23 * B.m31,
   A.m21 * B.m12 + A.m22 * B.m22 + A.m23 * B.m32,
   A.m21 * B.m13 + A.m22 * B.m23 + A.m23 * B.m33,
   A.m31 * B.m11 + A.m32 * B.m21 + A.m33 * B.m31,
   A.m31 * B.m12 + A.m32 * B.m22 + A.m33 * B.m32,
   A.m31 * B.m13 + A.m32 * B.m23 + A.m33 * B.m33⟩
@[lin] def transpose (A : M3 K) : M3 K :=
  ⟨A.m11, A.m21, A.m31, A.m12, A.m22, A.m32, A.m13, A.m23, A.m33⟩
@[lin] def mulVec (A : M3 K) (v : V3 K) : V3 K :=
  ⟨A.m11 * v.x + A.m12 * v.y + A.m13 * v.z, A.m21 * v.x + A.m22 * v.y + A.m23 * v.z,
    A.m31 * v.x + A.m32 * v.y + A.m33 * v.z⟩
@[lin] def det (A : M3 K) : K :=
  A.m11 * (A.m22 * A.m33 - A.m23 * A.m32) - A.m12 * (A.m21 * A.m33 - A.m23 * A.m31) +
    A.m13 * (A.m21 * A.m32 - A.m22 * A.m31)
@[lin] def trace (A : M3 K) : K := A.m11 + A.m22 + A.m33
/-- `cross_matrix`. -/
@[lin] def hat (v : V3 K) : M3 K := ⟨0, -v.z, v.y, v.z, 0, -v.x, -v.y, v.x, 0⟩
/-- `a * b.transpose()`. -/
@[lin] def outer (a b : V3 K) : M3 K :=
  ⟨a.x * b.x, a.x * b.y, a.x * b.z, a.y * b.x, a.y * b.y, a.y * b.z, a.z * b.x, a.z * b.y,
    a.z * b.z⟩
@[lin] def ofRows (a b c : V3 K) : M3 K := ⟨a.x, a.y, a.z, b.x, b.y, b.z, c.x, c.y, c.z⟩
@[lin] def ofCols (a b c : V3 K) : M3 K := ⟨a.x, b.x, c.x, a.y, b.y, c.y, a.z, b.z, c.z⟩
@[lin] def col1 (A : M3 K) : V3 K := ⟨A.m11, A.m21, A.m31⟩
@[lin] def col2 (A : M3 K) : V3 K := ⟨A.m12, A.m22, A.m32⟩
@[lin] def col3 (A : M3 K) : V3 K := ⟨A.m13, A.m23, A.m33⟩

end M3

namespace Iso
variable [CommRing K]

@[lin] def one : Iso K := ⟨M3.one, V3.zero⟩
/-- `a * b`: first `b`, then `a`. -/
@[lin] def mul (a b : Iso K) : Iso K := ⟨a.rot.mul b.rot, (a.rot.mulVec b.t).add a.t⟩
/-- `inverse()`: the rotation matrix is inverted by transposing it. -/
@[lin] def inv (a : Iso K) : Iso K := ⟨a.rot.transpose, (a.rot.transpose.mulVec a.t).neg⟩
/-- Transform a point. -/
@[lin] def point (a : Iso K) (p : V3 K) : V3 K := (a.rot.mulVec p).add a.t
/-- `to_homogeneous() * v`. -/
@[lin] def homMul (a : Iso K) (v : V4 K) : V4 K :=
  ⟨(a.rot.mulVec v.xyz).x + a.t.x * v.w, (a.rot.mulVec v.xyz).y + a.t.y * v.w,
    (a.rot.mulVec v.xyz).z + a.t.z * v.w, v.w⟩

end Iso

/-- A proper rotation matrix. -/
structure M3.IsRot [CommRing K] (A : M3 K) : Prop where
  orth : A.transpose.mul A = M3.one
  det : A.det = 1

/-- A rigid motion: an isometry whose matrix is a proper rotation. -/
def Iso.Rigid [CommRing K] (a : Iso K) : Prop := a.rot.IsRot

end Verif.Geo
