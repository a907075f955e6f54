import Verif.Model.FloatArith
import Verif.Model.LambdaTwist

/-!
# lambda-twist with floating point numbers

Source: /repo/lambda-twist/src/lib.rs. The model of `LambdaTwist.lean` with the operations of `f64`, so that every value
may be NaN or infinite. Not modelled here: nalgebra's `try_inverse` and `Rotation3::from_matrix_eps`, which are
parameters, and the third eigenvector (lib.rs 512-518), which the caller does not use. The sums of nalgebra (`dot`,
`norm_squared`, products with matrices) are taken from the first to the last term.
-/

namespace Verif.Geo.P3P

open Verif.Akaze (FloatOps)
open Verif.Akaze.FloatOps (lit lt le abs sqrt)

variable {D : Type} [FloatOps D]

/-- nalgebra: `a - b`. -/
def fsub (a b : V3 D) : V3 D := ⟨a.x - b.x, a.y - b.y, a.z - b.z⟩
/-- nalgebra: `s * a`. -/
def fsmul (s : D) (a : V3 D) : V3 D := ⟨s * a.x, s * a.y, s * a.z⟩
/-- nalgebra: `a.dot(&b)`. -/
def fdot (a b : V3 D) : D := a.x * b.x + a.y * b.y + a.z * b.z
/-- nalgebra: `a.cross(&b)`. -/
def fcross (a b : V3 D) : V3 D := ⟨a.y * b.z - a.z * b.y, a.z * b.x - a.x * b.z, a.x * b.y - a.y * b.x⟩
/-- nalgebra: a matrix times a vector. -/
def fmulVec (A : M3 D) (v : V3 D) : V3 D :=
  ⟨fdot ⟨A.m11, A.m12, A.m13⟩ v, fdot ⟨A.m21, A.m22, A.m23⟩ v, fdot ⟨A.m31, A.m32, A.m33⟩ v⟩
/-- nalgebra: the product of two matrices. -/
def fmul (A B : M3 D) : M3 D :=
  let c1 := fmulVec A ⟨B.m11, B.m21, B.m31⟩
  let c2 := fmulVec A ⟨B.m12, B.m22, B.m32⟩
  let c3 := fmulVec A ⟨B.m13, B.m23, B.m33⟩
  ⟨c1.x, c2.x, c3.x, c1.y, c2.y, c3.y, c1.z, c2.z, c3.z⟩

/-- cv-core/src/point.rs 38-40 `point`, nalgebra's `Point3::from_homogeneous`: nothing if `w` is zero. -/
def fpoint (p : V4 D) : Option (V3 D) :=
  if FloatOps.eq p.w 0 then none else some ⟨p.x / p.w, p.y / p.w, p.z / p.w⟩

/-- lib.rs 423-435 `root2real`. -/
def froot2real (b c : D) : Bool × D × D :=
  let disc := b * b - 4 * c
  if lt disc 0 then (false, lit (1 / 2) * b, lit (1 / 2) * b)
  else if lt b 0 then (true, lit (1 / 2) * (-b + sqrt disc), lit (1 / 2) * (-b - sqrt disc))
  else (true, 2 * c / (-b + sqrt disc), 2 * c / (-b - sqrt disc))

/-- lib.rs 492, 497. -/
def fcubic (b c d r : D) : D := ((r + b) * r + c) * r + d

/-- lib.rs 493, 499. -/
def fcubicDeriv (b c r : D) : D := (3 * r + 2 * b) * r + c

/-- lib.rs 459-486. -/
def fcubeStart (b c d : D) : D :=
  if le (3 * c) (b * b) then
    let v := sqrt (b * b - 3 * c)
    let t1 := (-b - v) / 3
    let k := fcubic b c d t1
    if lt 0 k then t1 - sqrt (-k / (3 * t1 + b))
    else
      let t2 := (-b + v) / 3
      let k := fcubic b c d t2
      t2 + sqrt (-k / (3 * t2 + b))
  else
    let r0 := -b / 3
    if lt (abs (fcubicDeriv b c r0)) (lit (1 / 10 ^ 4)) then r0 + 1 else r0

/-- lib.rs 492-494. -/
def fnewtonStep (b c d r : D) : D := r - fcubic b c d r / fcubicDeriv b c r

/-- lib.rs 491-495. -/
def fnewtonFixed (b c d : D) : Nat → D → D
  | 0, r => r
  | n + 1, r => fnewtonFixed b c d n (fnewtonStep b c d r)

/-- lib.rs 496-504. -/
def fnewtonUntil (b c d : D) : Nat → D → D
  | 0, r => r
  | n + 1, r =>
    if lt (lit (1 / 10 ^ 13)) (abs (fcubic b c d r)) then fnewtonUntil b c d n (fnewtonStep b c d r) else r

/-- lib.rs 458-506 `cube_root`. -/
def fcubeRoot (b c d : D) : D := fnewtonUntil b c d 43 (fnewtonFixed b c d 7 (fcubeStart b c d))

/-- lib.rs 534-542 `compute_eigen_vector`. -/
def feigenVector (x : M3 D) (e : D) : V3 D :=
  let tmp := 1 / (e * (x.m11 + x.m22) + -x.m11 * x.m22 - e * e + x.m12 * x.m12)
  let a1 := -(e * x.m13 + (x.m12 * x.m23 - x.m13 * x.m22)) * tmp
  let a2 := -(e * x.m23 + (x.m12 * x.m13 - x.m11 * x.m23)) * tmp
  let rnorm := 1 / sqrt (a1 * a1 + a2 * a2 + 1)
  ⟨a1 * rnorm, a2 * rnorm, rnorm⟩

/-- lib.rs 508-554 `eigen_decomposition_singular`: the first two eigenvectors and eigenvalues. -/
def feigenSingular (x : M3 D) : V3 D × V3 D × D × D :=
  let b := -x.m11 - x.m22 - x.m33
  let c := -(x.m12 * x.m12) - x.m13 * x.m13 - x.m23 * x.m23 + x.m11 * (x.m22 + x.m33) + x.m22 * x.m33
  let r := froot2real b c
  let e := if lt (abs r.2.1) (abs r.2.2) then (r.2.2, r.2.1) else (r.2.1, r.2.2)
  (feigenVector x e.1, feigenVector x e.2, e.1, e.2)

/-- lib.rs 146-154. -/
structure FTri (D : Type) where
  a12 : D
  a13 : D
  a23 : D
  c12 : D
  c23 : D
  c31 : D

/-- lib.rs 140-154. -/
def FTri.of (x1 x2 x3 y1 y2 y3 : V3 D) : FTri D where
  a12 := fdot (fsub x1 x2) (fsub x1 x2)
  a13 := fdot (fsub x1 x3) (fsub x1 x3)
  a23 := fdot (fsub x2 x3) (fsub x2 x3)
  c12 := fdot y1 y2
  c23 := fdot y2 y3
  c31 := fdot y3 y1

/-- `ArrayVec::push` with room for four elements: panics when it is full. -/
def push4 {α : Type} (l : List α) (x : α) : Option (List α) := if l.length < 4 then some (l ++ [x]) else none

namespace FTri

/-- lib.rs 155. -/
def blob (k : FTri D) : D := k.c12 * k.c23 * k.c31 - 1
/-- lib.rs 158-160. -/
def s12 (k : FTri D) : D := 1 - k.c12 * k.c12
def s23 (k : FTri D) : D := 1 - k.c23 * k.c23
def s31 (k : FTri D) : D := 1 - k.c31 * k.c31
/-- lib.rs 163-165. -/
def b12 (k : FTri D) : D := -2 * k.c12
def b13 (k : FTri D) : D := -2 * k.c31
def b23 (k : FTri D) : D := -2 * k.c23
/-- lib.rs 169. -/
def p3 (k : FTri D) : D := k.a13 * (k.a23 * k.s31 - k.a13 * k.s23)
/-- lib.rs 170-172. -/
def p2 (k : FTri D) : D :=
  2 * k.blob * k.a23 * k.a13 + k.a13 * (2 * k.a12 + k.a13) * k.s23 + k.a23 * (k.a23 - k.a12) * k.s31
/-- lib.rs 173-175. -/
def p1 (k : FTri D) : D :=
  k.a23 * (k.a13 - k.a23) * k.s12 - k.a12 * k.a12 * k.s23 - 2 * k.a12 * (k.blob * k.a23 + k.a13 * k.s23)
/-- lib.rs 176. -/
def p0 (k : FTri D) : D := k.a12 * (k.a12 * k.s23 - k.a23 * k.s12)

/-- lib.rs 182-193 `d0_mat`. -/
def d0 (k : FTri D) (g : D) : M3 D :=
  let d00 := k.a23 * (1 - g)
  let d01 := -(k.a23 * k.c12)
  let d02 := k.a23 * k.c31 * g
  let d11 := k.a23 - k.a12 + k.a13 * g
  let d12 := -k.c23 * (k.a13 * g - k.a12)
  let d22 := g * (k.a13 - k.a23) - k.a12
  ⟨d00, d01, d02, d01, d11, d12, d02, d12, d22⟩

/-- lib.rs 207-216 `quadratic_coefficients`. -/
def quadratic (k : FTri D) (v1 v2 : V3 D) (ratio : D) : D × D × D × D :=
  let w2 := 1 / (ratio * v2.x - v1.x)
  let w0 := w2 * (v1.y - ratio * v2.y)
  let w1 := w2 * (v1.z - ratio * v2.z)
  let a := 1 / ((k.a13 - k.a12) * w1 * w1 - k.a12 * k.b13 * w1 - k.a12)
  let b := a * (k.a13 * k.b12 * w1 - k.a12 * k.b13 * w0 - 2 * w0 * w1 * (k.a12 - k.a13))
  let c := a * ((k.a13 - k.a12) * w0 * w0 + k.a13 * k.b12 * w0 + k.a13)
  (w0, w1, b, c)

/-- lib.rs 220-230 `possible_depths`; `none` for `(false, ..)`. -/
def possibleDepths (k : FTri D) (tau w0 w1 : D) : Option (V3 D) :=
  let d := k.a23 / (tau * (k.b23 + tau) + 1)
  if lt 0 d then
    let l2 := sqrt d
    let l3 := tau * l2
    let l1 := w0 * l2 + w1 * l3
    some ⟨l1, l2, l3⟩
  else none

/-- lib.rs 233-240 `push_solution`. -/
def pushSolution (k : FTri D) (lambdas : List (V3 D)) (tau w0 w1 : D) : Option (List (V3 D)) :=
  if lt 0 tau then
    match k.possibleDepths tau w0 w1 with
    | some l => if le 0 l.x then push4 lambdas l else some lambdas
    | none => some lambdas
  else some lambdas

/-- lib.rs 244-251 `push_solutions_to_lambdas`. -/
def pushSolutions (k : FTri D) (v1 v2 : V3 D) (lambdas : List (V3 D)) (ratio : D) : Option (List (V3 D)) :=
  let q := k.quadratic v1 v2 ratio
  if le 0 (q.2.2.1 * q.2.2.1 - 4 * q.2.2.2) then
    let r := froot2real q.2.2.1 q.2.2.2
    (k.pushSolution lambdas r.2.1 q.1 q.2.1).bind (fun l => k.pushSolution l r.2.2 q.1 q.2.1)
  else some lambdas

/-- `0.0_f64.max(x)`: the number if the other value is NaN. -/
def maxZero (x : D) : D := if lt 0 x then x else 0

/-- lib.rs 179-254: the depths before the refinement; `none` is a panic. -/
def depths (k : FTri D) : Option (List (V3 D)) :=
  let g := fcubeRoot (k.p2 / k.p3) (k.p1 / k.p3) (k.p0 / k.p3)
  let e := feigenSingular (k.d0 g)
  let ratio := sqrt (maxZero (-e.2.2.2 / e.2.2.1))
  (k.pushSolutions e.1 e.2.1 [] ratio).bind (fun l => k.pushSolutions e.1 e.2.1 l (-ratio))

/-- lib.rs 371-379 `compute_residual`. -/
def residual (k : FTri D) (l : V3 D) : V3 D :=
  ⟨l.x * l.x + l.y * l.y + k.b12 * l.x * l.y - k.a12,
    l.x * l.x + l.z * l.z + k.b13 * l.x * l.z - k.a13,
    l.y * l.y + l.z * l.z + k.b23 * l.y * l.z - k.a23⟩

/-- lib.rs 417-419 `l1_norm` of the residual. -/
def error (k : FTri D) (l : V3 D) : D :=
  let r := k.residual l
  abs r.x + abs r.y + abs r.z

/-- lib.rs 386-400: the new depths. -/
def gaussStep (k : FTri D) (l : V3 D) : V3 D :=
  let res := k.residual l
  let dr1dl1 := 2 * l.x + k.b12 * l.y
  let dr1dl2 := 2 * l.y + k.b12 * l.x
  let dr2dl1 := 2 * l.x + k.b13 * l.z
  let dr2dl3 := 2 * l.z + k.b13 * l.x
  let dr3dl2 := 2 * l.y + k.b23 * l.z
  let dr3dl3 := 2 * l.z + k.b23 * l.y
  let det := 1 / (-dr1dl1 * dr2dl3 * dr3dl2 - dr1dl2 * dr2dl1 * dr3dl3)
  let jac : M3 D := ⟨-dr2dl3 * dr3dl2, -dr1dl2 * dr3dl3, dr1dl2 * dr2dl3,
    -dr2dl1 * dr3dl3, dr1dl1 * dr3dl3, -dr1dl1 * dr2dl3,
    dr2dl1 * dr3dl2, -dr1dl1 * dr3dl2, -dr1dl2 * dr2dl1⟩
  fsub l (fsmul det (fmulVec jac res))

/-- lib.rs 361-412 `gauss_newton_refine_lambda`. -/
def refine (k : FTri D) : Nat → V3 D → V3 D
  | 0, l => l
  | n + 1, l =>
    if lt (k.error l) (lit (1 / 10 ^ 10)) then l
    else
      let l' := k.gaussStep l
      if lt (k.error l) (k.error l') then l else k.refine n l'

end FTri

/-- lib.rs 260-266, 293-297. -/
def fframe (a b : V3 D) : M3 D :=
  let c := fcross a b
  ⟨a.x, b.x, c.x, a.y, b.y, c.y, a.z, b.z, c.z⟩

/-- lib.rs 285-300. -/
def frecoverPose (xinv : M3 D) (x1 y1 y2 y3 l : V3 D) : Iso D :=
  let r1 := fsmul l.x y1
  let r2 := fsmul l.y y2
  let r3 := fsmul l.z y3
  let rot := fmul (fframe (fsub r1 r2) (fsub r1 r3)) xinv
  ⟨rot, fsub r1 (fmulVec rot x1)⟩

/-- lib.rs 110-317 `compute_poses_nordberg` for three samples of a bearing and a homogeneous world point; `none` is a
panic. `inverse` is nalgebra's `try_inverse`, `toRotation` its `Rotation3::from_matrix_eps`. The last `collect` into an
`ArrayVec` panics with more than four elements. -/
def fcomputePoses (inverse : M3 D → Option (M3 D)) (toRotation : M3 D → M3 D) (iterations : Nat)
    (s1 s2 s3 : V3 D × V4 D) : Option (List (Iso D)) :=
  match fpoint s1.2, fpoint s2.2, fpoint s3.2 with
  | some x1, some x2, some x3 =>
    let k := FTri.of x1 x2 x3 s1.1 s2.1 s3.1
    k.depths.bind (fun lambdas =>
      match inverse (fframe (fsub x1 x2) (fsub x1 x3)) with
      | none => some []
      | some xinv =>
        let poses := lambdas.map (fun l =>
          let p := frecoverPose xinv x1 s1.1 s2.1 s3.1 (k.refine iterations l)
          (⟨toRotation p.rot, p.t⟩ : Iso D))
        if poses.length ≤ 4 then some poses else none)
  | _, _, _ => some []

/-- lib.rs 334-346 `estimate`: panics with fewer than three samples and ignores all but the first three. -/
def festimate (inverse : M3 D → Option (M3 D)) (toRotation : M3 D → M3 D) (iterations : Nat) :
    List (V3 D × V4 D) → Option (List (Iso D))
  | s1 :: s2 :: s3 :: _ => fcomputePoses inverse toRotation iterations s1 s2 s3
  | _ => none

end Verif.Geo.P3P
