import Verif.Model.Pinhole

/-!
# lambda-twist: the pose of a camera from three points

Source: /repo/lambda-twist/src/lib.rs.  Exact real arithmetic.  A division by zero or the root of a
negative number gives `none`; where the code goes on with infinities or NaN, the comparisons that
follow are false for NaN, so no solution is pushed, and the model returns no solution.
-/

namespace Verif.Geo.P3P

/-- lib.rs 423-435 `root2real`; a root that is 0/0 is `none`. -/
noncomputable def root2real (b c : ℝ) : Bool × Option ℝ × Option ℝ :=
  let disc := b * b - 4 * c
  if disc < 0 then (false, some (1 / 2 * b), some (1 / 2 * b))
  else if b < 0 then
    (true, some (1 / 2 * (-b + Real.sqrt disc)), some (1 / 2 * (-b - Real.sqrt disc)))
  else (true, cdiv (2 * c) (-b + Real.sqrt disc), cdiv (2 * c) (-b - Real.sqrt disc))

/-- lib.rs 492, 497: `((r + b) * r + c) * r + d`. -/
def cubic (b c d r : ℝ) : ℝ := ((r + b) * r + c) * r + d

/-- lib.rs 493, 499: the derivative. -/
def cubicDeriv (b c r : ℝ) : ℝ := (3 * r + 2 * b) * r + c

/-- lib.rs 459-486: the initial solution. -/
noncomputable def cubeStart (b c d : ℝ) : Option ℝ :=
  if 3 * c ≤ b * b then
    let v := Real.sqrt (b * b - 3 * c)
    let t1 := (-b - v) / 3
    let k := cubic b c d t1
    if 0 < k then do
      let q ← cdiv (-k) (3 * t1 + b)
      let s ← csqrt q
      pure (t1 - s)
    else do
      let t2 := (-b + v) / 3
      let q ← cdiv (-(cubic b c d t2)) (3 * t2 + b)
      let s ← csqrt q
      pure (t2 + s)
  else
    let r0 := -b / 3
    if |cubicDeriv b c r0| < 1 / 10000 then some (r0 + 1) else some r0

/-- lib.rs 492-494: one Newton step. -/
noncomputable def newtonStep (b c d r : ℝ) : Option ℝ :=
  (cdiv (cubic b c d r) (cubicDeriv b c r)).map (fun q => r - q)

/-- lib.rs 491-495: a fixed number of steps. -/
noncomputable def newtonFixed (b c d : ℝ) : Nat → ℝ → Option ℝ
  | 0, r => some r
  | n + 1, r => (newtonStep b c d r).bind (newtonFixed b c d n)

/-- lib.rs 496-504: steps until the value is at most 1e-13. -/
noncomputable def newtonUntil (b c d : ℝ) : Nat → ℝ → Option ℝ
  | 0, r => some r
  | n + 1, r =>
    if 1 / 10 ^ 13 < |cubic b c d r| then (newtonStep b c d r).bind (newtonUntil b c d n)
    else some r

/-- lib.rs 458-506 `cube_root`. -/
noncomputable def cubeRoot (b c d : ℝ) : Option ℝ :=
  ((cubeStart b c d).bind (newtonFixed b c d 7)).bind (newtonUntil b c d 43)

/-- lib.rs 534-542 `compute_eigen_vector`. -/
noncomputable def eigenVector (x : M3 ℝ) (e : ℝ) : Option (V3 ℝ) := do
  let tmp ← cdiv 1 (e * (x.m11 + x.m22) + -x.m11 * x.m22 - e * e + x.m12 * x.m12)
  let a1 := -(e * x.m13 + (x.m12 * x.m23 - x.m13 * x.m22)) * tmp
  let a2 := -(e * x.m23 + (x.m12 * x.m13 - x.m11 * x.m23)) * tmp
  let rnorm ← cdiv 1 (Real.sqrt (a1 * a1 + a2 * a2 + 1))
  pure ⟨a1 * rnorm, a2 * rnorm, rnorm⟩

/-- lib.rs 508-554 `eigen_decomposition_singular`: the first two eigenvectors and eigenvalues. The
third eigenvector (512-518) is not used by the caller and left out. -/
noncomputable def eigenSingular (x : M3 ℝ) : Option (V3 ℝ × V3 ℝ × ℝ × ℝ) := do
  let b := -x.m11 - x.m22 - x.m33
  let c := -(x.m12 * x.m12) - x.m13 * x.m13 - x.m23 * x.m23 + x.m11 * (x.m22 + x.m33) +
    x.m22 * x.m33
  let e ← (root2real b c).2.1
  let f ← (root2real b c).2.2
  let (e1, e2) := if |e| < |f| then (f, e) else (e, f)
  let v1 ← eigenVector x e1
  let v2 ← eigenVector x e2
  pure (v1, v2, e1, e2)

/-- The squared distances and the cosines, lib.rs 146-154. -/
structure Tri where
  a12 : ℝ
  a13 : ℝ
  a23 : ℝ
  c12 : ℝ
  c23 : ℝ
  c31 : ℝ

/-- lib.rs 140-154. -/
def Tri.of (x1 x2 x3 y1 y2 y3 : V3 ℝ) : Tri where
  a12 := (x1.sub x2).normSq
  a13 := (x1.sub x3).normSq
  a23 := (x2.sub x3).normSq
  c12 := V3.dot y1 y2
  c23 := V3.dot y2 y3
  c31 := V3.dot y3 y1

namespace Tri

/-- lib.rs 155 `blob`. -/
def blob (k : Tri) : ℝ := k.c12 * k.c23 * k.c31 - 1
/-- lib.rs 158-160: squared sines. -/
def s12 (k : Tri) : ℝ := 1 - k.c12 * k.c12
def s23 (k : Tri) : ℝ := 1 - k.c23 * k.c23
def s31 (k : Tri) : ℝ := 1 - k.c31 * k.c31
/-- lib.rs 163-165. -/
def b12 (k : Tri) : ℝ := -2 * k.c12
def b13 (k : Tri) : ℝ := -2 * k.c31
def b23 (k : Tri) : ℝ := -2 * k.c23
/-- lib.rs 169. -/
def p3 (k : Tri) : ℝ := k.a13 * (k.a23 * k.s31 - k.a13 * k.s23)
/-- lib.rs 170-172. -/
def p2 (k : Tri) : ℝ :=
  2 * k.blob * k.a23 * k.a13 + k.a13 * (2 * k.a12 + k.a13) * k.s23 + k.a23 * (k.a23 - k.a12) * k.s31
/-- lib.rs 173-175. -/
def p1 (k : Tri) : ℝ :=
  k.a23 * (k.a13 - k.a23) * k.s12 - k.a12 * k.a12 * k.s23 -
    2 * k.a12 * (k.blob * k.a23 + k.a13 * k.s23)
/-- lib.rs 176. -/
def p0 (k : Tri) : ℝ := k.a12 * (k.a12 * k.s23 - k.a23 * k.s12)

/-- lib.rs 182-193 `d0_mat`. -/
def d0 (k : Tri) (g : ℝ) : M3 ℝ :=
  let d00 := k.a23 * (1 - g)
  let d01 := -(k.a23 * k.c12)
  let d02 := k.a23 * k.c31 * g
  let d11 := k.a23 - k.a12 + k.a13 * g
  let d12 := -k.c23 * (k.a13 * g - k.a12)
  let d22 := g * (k.a13 - k.a23) - k.a12
  ⟨d00, d01, d02, d01, d11, d12, d02, d12, d22⟩

/-- lib.rs 207-216 `quadratic_coefficients`: `w0`, `w1`, `b`, `c`. -/
noncomputable def quadratic (k : Tri) (v1 v2 : V3 ℝ) (ratio : ℝ) : Option (ℝ × ℝ × ℝ × ℝ) := do
  let w2 ← cdiv 1 (ratio * v2.x - v1.x)
  let w0 := w2 * (v1.y - ratio * v2.y)
  let w1 := w2 * (v1.z - ratio * v2.z)
  let a ← cdiv 1 ((k.a13 - k.a12) * w1 * w1 - k.a12 * k.b13 * w1 - k.a12)
  let b := a * (k.a13 * k.b12 * w1 - k.a12 * k.b13 * w0 - 2 * w0 * w1 * (k.a12 - k.a13))
  let c := a * ((k.a13 - k.a12) * w0 * w0 + k.a13 * k.b12 * w0 + k.a13)
  pure (w0, w1, b, c)

/-- lib.rs 220-230 `possible_depths`. An infinite depth (parallel bearings) is not modelled. -/
noncomputable def possibleDepths (k : Tri) (tau w0 w1 : ℝ) : Option (V3 ℝ) := do
  let d ← cdiv k.a23 (tau * (k.b23 + tau) + 1)
  if 0 < d then
    let l2 := Real.sqrt d
    let l3 := tau * l2
    some ⟨w0 * l2 + w1 * l3, l2, l3⟩
  else none

/-- lib.rs 233-240 `push_solution`. -/
noncomputable def pushSolution (k : Tri) (tau : Option ℝ) (w0 w1 : ℝ) : List (V3 ℝ) :=
  match tau with
  | none => []
  | some tau =>
    if 0 < tau then
      match k.possibleDepths tau w0 w1 with
      | none => []
      | some l => if 0 ≤ l.x then [l] else []
    else []

/-- lib.rs 244-251 `push_solutions_to_lambdas`. -/
noncomputable def pushSolutions (k : Tri) (v1 v2 : V3 ℝ) (ratio : ℝ) : List (V3 ℝ) :=
  match k.quadratic v1 v2 ratio with
  | none => []
  | some (w0, w1, b, c) =>
    if 0 ≤ b * b - 4 * c then
      k.pushSolution (root2real b c).2.1 w0 w1 ++ k.pushSolution (root2real b c).2.2 w0 w1
    else []

/-- lib.rs 203, 253-254, given the eigenvectors and eigenvalues. -/
noncomputable def fromEigen (k : Tri) (e : V3 ℝ × V3 ℝ × ℝ × ℝ) : List (V3 ℝ) :=
  match e with
  | (v1, v2, e1, e2) =>
    match cdiv (-e2) e1 with
    | none => []
    | some q =>
      k.pushSolutions v1 v2 (Real.sqrt (max 0 q)) ++ k.pushSolutions v1 v2 (-Real.sqrt (max 0 q))

/-- lib.rs 182-254: the depths from the root `g`. -/
noncomputable def depthsOf (k : Tri) (g : ℝ) : List (V3 ℝ) :=
  match eigenSingular (k.d0 g) with
  | none => []
  | some e => k.fromEigen e

/-- lib.rs 179: the root, from any root finder (`cubeRoot` in the code). -/
noncomputable def root (k : Tri) (solve : ℝ → ℝ → ℝ → Option ℝ) : Option ℝ := do
  let b ← cdiv k.p2 k.p3
  let c ← cdiv k.p1 k.p3
  let d ← cdiv k.p0 k.p3
  solve b c d

/-- lib.rs 179-254: the depths before the refinement. -/
noncomputable def depths (k : Tri) (solve : ℝ → ℝ → ℝ → Option ℝ) : List (V3 ℝ) :=
  match k.root solve with
  | none => []
  | some g => k.depthsOf g

/-- lib.rs 371-379 `compute_residual`. -/
def residual (k : Tri) (l : V3 ℝ) : V3 ℝ :=
  ⟨l.x * l.x + l.y * l.y + k.b12 * l.x * l.y - k.a12,
    l.x * l.x + l.z * l.z + k.b13 * l.x * l.z - k.a13,
    l.y * l.y + l.z * l.z + k.b23 * l.y * l.z - k.a23⟩

end Tri

/-- lib.rs 417-419 `l1_norm`. -/
def l1Norm (v : V3 ℝ) : ℝ := |v.x| + |v.y| + |v.z|

namespace Tri

/-- lib.rs 386-400: the new depths. -/
noncomputable def gaussStep (k : Tri) (l : V3 ℝ) : Option (V3 ℝ) := do
  let res := k.residual l
  let dr1dl1 := 2 * l.x + k.b12 * l.y
  let dr1dl2 := 2 * l.y + k.b12 * l.x
  let dr2dl1 := 2 * l.x + k.b13 * l.z
  let dr2dl3 := 2 * l.z + k.b13 * l.x
  let dr3dl2 := 2 * l.y + k.b23 * l.z
  let dr3dl3 := 2 * l.z + k.b23 * l.y
  let det ← cdiv 1 (-dr1dl1 * dr2dl3 * dr3dl2 - dr1dl2 * dr2dl1 * dr3dl3)
  let jac : M3 ℝ := ⟨-dr2dl3 * dr3dl2, -dr1dl2 * dr3dl3, dr1dl2 * dr2dl3,
    -dr2dl1 * dr3dl3, dr1dl1 * dr3dl3, -dr1dl1 * dr2dl3,
    dr2dl1 * dr3dl2, -dr1dl1 * dr3dl2, -dr1dl2 * dr2dl1⟩
  pure (l.sub (V3.smul det (jac.mulVec res)))

/-- lib.rs 361-412 `gauss_newton_refine_lambda`; `none` when a step divides by zero (the code then
continues with infinities or NaN, and accepts a NaN residual). -/
noncomputable def refine (k : Tri) : Nat → V3 ℝ → Option (V3 ℝ)
  | 0, l => some l
  | n + 1, l =>
    if l1Norm (k.residual l) < 1 / 10 ^ 10 then some l
    else
      match k.gaussStep l with
      | none => none
      | some l' =>
        if l1Norm (k.residual l) < l1Norm (k.residual l') then some l else k.refine n l'

end Tri

/-- nalgebra `try_inverse` of a 3×3 matrix: nothing if the determinant is zero, else the adjugate
divided by it. -/
noncomputable def tryInverse (A : M3 ℝ) : Option (M3 ℝ) :=
  if A.det = 0 then none
  else some (M3.smul (1 / A.det)
    ⟨A.m22 * A.m33 - A.m32 * A.m23, A.m13 * A.m32 - A.m33 * A.m12, A.m12 * A.m23 - A.m22 * A.m13,
     A.m23 * A.m31 - A.m33 * A.m21, A.m11 * A.m33 - A.m31 * A.m13, A.m13 * A.m21 - A.m23 * A.m11,
     A.m21 * A.m32 - A.m31 * A.m22, A.m12 * A.m31 - A.m32 * A.m11, A.m11 * A.m22 - A.m21 * A.m12⟩)

/-- lib.rs 260-266, 293-297: two vectors and their cross product as columns. -/
@[lin] def frame (a b : V3 ℝ) : M3 ℝ := M3.ofCols a b (a.cross b)

/-- lib.rs 285-300: rotation matrix and translation from the depths; `xinv` is the inverse of the
matrix of the world points. -/
@[lin] def recoverPose (xinv : M3 ℝ) (x1 y1 y2 y3 l : V3 ℝ) : Iso ℝ :=
  let r1 := V3.smul l.x y1
  let r2 := V3.smul l.y y2
  let r3 := V3.smul l.z y3
  let rot := (frame (r1.sub r2) (r1.sub r3)).mul xinv
  ⟨rot, r1.sub (rot.mulVec x1)⟩

/-- lib.rs 110-317 `compute_poses_nordberg` for the three world points (`none`: at infinity) and
bearings. `toRotation` is nalgebra's `Rotation3::from_matrix_eps`. -/
noncomputable def computePoses (solve : ℝ → ℝ → ℝ → Option ℝ) (toRotation : M3 ℝ → M3 ℝ)
    (iterations : Nat) (p1 p2 p3 : Option (V3 ℝ)) (y1 y2 y3 : V3 ℝ) : List (Option (Iso ℝ)) :=
  match p1, p2, p3 with
  | some x1, some x2, some x3 =>
    let k := Tri.of x1 x2 x3 y1 y2 y3
    match tryInverse (frame (x1.sub x2) (x1.sub x3)) with
    | none => []
    | some xinv =>
      (k.depths solve).map (fun l =>
        (k.refine iterations l).map (fun l' =>
          let p := recoverPose xinv x1 y1 y2 y3 l'
          ⟨toRotation p.rot, p.t⟩))
  | _, _, _ => []

end Verif.Geo.P3P
