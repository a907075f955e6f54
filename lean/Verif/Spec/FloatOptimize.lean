import Verif.Model.FloatOptimize
import Verif.Lemmas.FloatGeom

/-!
# What is expected of the pose optimisers with floating point numbers (C108)
-/

namespace Verif.Geo.Rounded

open Verif.Akaze
open Verif.Bicubic (Flt)
open Verif.Akaze.FloatBits (isNan)

variable {D : Type} [FloatOps D] (J : Ieee D)

/-- The same coordinates, up to the sign of zero. -/
def SameVal (a b : V3 D) : Prop := J.val a.x = J.val b.x ∧ J.val a.y = J.val b.y ∧ J.val a.z = J.val b.z

/-- The same entries, up to the sign of zero. -/
def SameMat (A B : M3 D) : Prop :=
  J.val A.m11 = J.val B.m11 ∧ J.val A.m12 = J.val B.m12 ∧ J.val A.m13 = J.val B.m13 ∧
  J.val A.m21 = J.val B.m21 ∧ J.val A.m22 = J.val B.m22 ∧ J.val A.m23 = J.val B.m23 ∧
  J.val A.m31 = J.val B.m31 ∧ J.val A.m32 = J.val B.m32 ∧ J.val A.m33 = J.val B.m33

/-- The same pose, up to the sign of zero. -/
def SameIso (p q : Iso D) : Prop := SameMat J p.rot q.rot ∧ SameVal J p.t q.t

/-- The same two poses, up to the sign of zeros. -/
def SamePoses (p q : Iso D × Iso D) : Prop := SameIso J p.1 q.1 ∧ SameIso J p.2 q.2

/-- The same tangent vector, up to the sign of zero. -/
def SameT (a b : FTangent D) : Prop := SameVal J a.translation b.translation ∧ SameVal J a.rotation b.rotation

/-- The coordinates are finite. -/
def FiniteV (v : V3 D) : Prop := (∃ x, J.val v.x = .num x) ∧ (∃ x, J.val v.y = .num x) ∧ ∃ x, J.val v.z = .num x

/-- The entries of a pose are finite. -/
def FiniteIso (p : Iso D) : Prop :=
  FiniteV J ⟨p.rot.m11, p.rot.m21, p.rot.m31⟩ ∧ FiniteV J ⟨p.rot.m12, p.rot.m22, p.rot.m32⟩ ∧
  FiniteV J ⟨p.rot.m13, p.rot.m23, p.rot.m33⟩ ∧ FiniteV J p.t

/-- `is_nan` for one of the coordinates. -/
def hasNan [FloatBits D] (v : V3 D) : Bool := isNan v.x || isNan v.y || isNan v.z

/-- One of the bearings has NaN in it. -/
def FBearings.hasNan [FloatBits D] (o : FBearings D) : Bool :=
  Rounded.hasNan o.center || Rounded.hasNan o.first || Rounded.hasNan o.second

end Verif.Geo.Rounded
