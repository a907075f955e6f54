import Verif.Model.EightPoint

/-!
# nister-stewenius: the five-point solver

Source: /repo/nister-stewenius/src/lib.rs.  The eigenvalue solvers, the LU solver and the singular
value decomposition of nalgebra are parameters.
-/

namespace Verif.Geo

/-- lib.rs 15-34, 45 `PolyBasisVec`: a polynomial of degree three in x, y, z, in the order of the
constants. -/
@[ext] structure Poly (K : Type) where
  xxx : K
  xxy : K
  xyy : K
  yyy : K
  xxz : K
  xyz : K
  yyz : K
  xzz : K
  yzz : K
  zzz : K
  xx : K
  xy : K
  yy : K
  xz : K
  yz : K
  zz : K
  x : K
  y : K
  z : K
  one : K

variable {K : Type} [Field K]

/-- `a + b` of vectors. -/
@[lin] def Poly.add (a b : Poly K) : Poly K :=
  ⟨a.xxx + b.xxx, a.xxy + b.xxy, a.xyy + b.xyy, a.yyy + b.yyy, a.xxz + b.xxz, a.xyz + b.xyz,
    a.yyz + b.yyz, a.xzz + b.xzz, a.yzz + b.yzz, a.zzz + b.zzz, a.xx + b.xx, a.xy + b.xy,
    a.yy + b.yy, a.xz + b.xz, a.yz + b.yz, a.zz + b.zz, a.x + b.x, a.y + b.y, a.z + b.z,
    a.one + b.one⟩

/-- `a - b` of vectors. -/
@[lin] def Poly.sub (a b : Poly K) : Poly K :=
  ⟨a.xxx - b.xxx, a.xxy - b.xxy, a.xyy - b.xyy, a.yyy - b.yyy, a.xxz - b.xxz, a.xyz - b.xyz,
    a.yyz - b.yyz, a.xzz - b.xzz, a.yzz - b.yzz, a.zzz - b.zzz, a.xx - b.xx, a.xy - b.xy,
    a.yy - b.yy, a.xz - b.xz, a.yz - b.yz, a.zz - b.zz, a.x - b.x, a.y - b.y, a.z - b.z,
    a.one - b.one⟩

/-- `k * a` of a vector. -/
@[lin] def Poly.smul (k : K) (a : Poly K) : Poly K :=
  ⟨k * a.xxx, k * a.xxy, k * a.xyy, k * a.yyy, k * a.xxz, k * a.xyz, k * a.yyz, k * a.xzz,
    k * a.yzz, k * a.zzz, k * a.xx, k * a.xy, k * a.yy, k * a.xz, k * a.yz, k * a.zz, k * a.x,
    k * a.y, k * a.z, k * a.one⟩

/-- lib.rs 98-111 `o1`. -/
@[lin] def o1 (a b : V4 K) : Poly K where
  xxx := 0
  xxy := 0
  xyy := 0
  yyy := 0
  xxz := 0
  xyz := 0
  yyz := 0
  xzz := 0
  yzz := 0
  zzz := 0
  xx := a.x * b.x
  xy := a.x * b.y + a.y * b.x
  xz := a.x * b.z + a.z * b.x
  yy := a.y * b.y
  yz := a.y * b.z + a.z * b.y
  zz := a.z * b.z
  x := a.x * b.w + a.w * b.x
  y := a.y * b.w + a.w * b.y
  z := a.z * b.w + a.w * b.z
  one := a.w * b.w

/-- lib.rs 113-136 `o2`. -/
@[lin] def o2 (a : Poly K) (b : V4 K) : Poly K where
  xxx := a.xx * b.x
  xxy := a.xx * b.y + a.xy * b.x
  xxz := a.xx * b.z + a.xz * b.x
  xyy := a.xy * b.y + a.yy * b.x
  xyz := a.xy * b.z + a.yz * b.x + a.xz * b.y
  xzz := a.xz * b.z + a.zz * b.x
  yyy := a.yy * b.y
  yyz := a.yy * b.z + a.yz * b.y
  yzz := a.yz * b.z + a.zz * b.y
  zzz := a.zz * b.z
  xx := a.xx * b.w + a.x * b.x
  xy := a.xy * b.w + a.x * b.y + a.y * b.x
  xz := a.xz * b.w + a.x * b.z + a.z * b.x
  yy := a.yy * b.w + a.y * b.y
  yz := a.yz * b.w + a.y * b.z + a.z * b.y
  zz := a.zz * b.w + a.z * b.z
  x := a.x * b.w + a.one * b.x
  y := a.y * b.w + a.one * b.y
  z := a.z * b.w + a.one * b.z
  one := a.one * b.w

/-- The nullspace matrix: nine rows of four entries. -/
abbrev Nullspace (K : Type) := Fin 9 → V4 K

/-- lib.rs 139-149 `e_poly[i][j]` is row `3 * i + j`. -/
def ePoly (n : Nullspace K) (i j : Fin 3) : V4 K := n ⟨3 * i.val + j.val, by omega⟩

/-- lib.rs 154-167: row 0, the determinant. -/
def detRow (n : Nullspace K) : Poly K :=
  ((o2 ((o1 (ePoly n 0 1) (ePoly n 1 2)).sub (o1 (ePoly n 0 2) (ePoly n 1 1))) (ePoly n 2 0)).add
    (o2 ((o1 (ePoly n 0 2) (ePoly n 1 0)).sub (o1 (ePoly n 0 0) (ePoly n 1 2))) (ePoly n 2 1))).add
    (o2 ((o1 (ePoly n 0 0) (ePoly n 1 1)).sub (o1 (ePoly n 0 1) (ePoly n 1 0))) (ePoly n 2 2))

/-- lib.rs 176-178: an entry of the upper triangle. -/
def eetUpper (n : Nullspace K) (i j : Fin 3) : Poly K :=
  ((o1 (ePoly n i 0) (ePoly n j 0)).add (o1 (ePoly n i 1) (ePoly n j 1))).add
    (o1 (ePoly n i 2) (ePoly n j 2))

/-- lib.rs 169-183 `eet`. -/
def eet (n : Nullspace K) (i j : Fin 3) : Poly K :=
  if i ≤ j then eetUpper n i j else eetUpper n j i

/-- lib.rs 185-191 `l`. -/
def lPoly (n : Nullspace K) (i j : Fin 3) : Poly K :=
  if i = j then (eet n i j).sub (Poly.smul (1 / 2) (((eet n 0 0).add (eet n 1 1)).add (eet n 2 2)))
  else eet n i j

/-- lib.rs 193-201: row `1 + 3 * i + j`. -/
def traceRow (n : Nullspace K) (i j : Fin 3) : Poly K :=
  ((o2 (lPoly n i 0) (ePoly n 0 j)).add (o2 (lPoly n i 1) (ePoly n 1 j))).add
    (o2 (lPoly n i 2) (ePoly n 2 j))

/-- lib.rs 138-204 `five_points_polynomial_constraints`: the ten rows. -/
def constraintRow (n : Nullspace K) (r : Fin 10) : Poly K :=
  if r.val = 0 then detRow n
  else traceRow n ⟨(r.val - 1) / 3, by omega⟩ ⟨(r.val - 1) % 3, by omega⟩

/-- Coefficients 0 to 9. -/
def Poly.high (p : Poly K) : Fin 10 → K :=
  ![p.xxx, p.xxy, p.xyy, p.yyy, p.xxz, p.xyz, p.yyz, p.xzz, p.yzz, p.zzz]

/-- Coefficients 10 to 19. -/
def Poly.low (p : Poly K) : Fin 10 → K :=
  ![p.xx, p.xy, p.yy, p.xz, p.yz, p.zz, p.x, p.y, p.z, p.one]

/-- lib.rs 256: columns 0 to 9. -/
def highBlock (n : Nullspace K) : Matrix (Fin 10) (Fin 10) K :=
  Matrix.of (fun r => (constraintRow n r).high)

/-- lib.rs 257: columns 10 to 19. -/
def lowBlock (n : Nullspace K) : Matrix (Fin 10) (Fin 10) K :=
  Matrix.of (fun r => (constraintRow n r).low)

/-- lib.rs 265-277: the action matrix from the solution `m` of the linear system. -/
def actionMatrix (m : Matrix (Fin 10) (Fin 10) K) : Matrix (Fin 10) (Fin 10) K :=
  Matrix.of ![m 0, m 1, m 2, m 4, m 5, m 7,
    ![-1, 0, 0, 0, 0, 0, 0, 0, 0, 0], ![0, -1, 0, 0, 0, 0, 0, 0, 0, 0],
    ![0, 0, 0, -1, 0, 0, 0, 0, 0, 0], ![0, 0, 0, 0, 0, 0, -1, 0, 0, 0]]

/-- `eb * vector` and `Matrix3::from_iterator` (column by column), lib.rs 235. -/
def combine (n : Nullspace K) (v : V4 K) : M3 K :=
  ⟨(n 0).dot v, (n 3).dot v, (n 6).dot v, (n 1).dot v, (n 4).dot v, (n 7).dot v,
    (n 2).dot v, (n 5).dot v, (n 8).dot v⟩

/-- lib.rs 230 `v.fixed_rows::<4>(5)`. -/
def fourRows (v : Fin 10 → K) : V4 K := ⟨v 5, v 6, v 7, v 8⟩

/-- The linear algebra of nalgebra used by the solver. -/
structure FiveSolver where
  /-- `try_symmetric_eigen` -/
  symmetric : Matrix (Fin 9) (Fin 9) ℝ → Option SymEigen
  /-- `sort_unstable_by_key` of the indices by eigenvalue -/
  sort : (Fin 9 → ℝ) → List (Fin 9)
  /-- `full_piv_lu().solve` -/
  lu : Matrix (Fin 10) (Fin 10) ℝ → Matrix (Fin 10) (Fin 10) ℝ →
    Option (Matrix (Fin 10) (Fin 10) ℝ)
  /-- `complex_eigenvalues`: real and imaginary parts -/
  eigenvalues : Matrix (Fin 10) (Fin 10) ℝ → List (ℝ × ℝ)
  /-- `compute_eigenvector`, lib.rs 206-217: a null vector of the matrix minus the eigenvalue, or
  nothing when the smallest singular value is too large -/
  eigenvector : Matrix (Fin 10) (Fin 10) ℝ → ℝ → Option (Fin 10 → ℝ)

/-- lib.rs 50-66 `encode_epipolar_equation`: row of one match; entry `3 * j + k` is
`a[j] * b[k]`. -/
def fiveRow (m : Match) (i : Fin 9) : ℝ :=
  m.a.get ⟨i.val / 3, by omega⟩ * m.b.get ⟨i.val % 3, by omega⟩

/-- lib.rs 81-86 `nullity`: the position of the first eigenvalue above the threshold. -/
noncomputable def nullity (thr : ℝ) (vals : Fin 9 → ℝ) : List (Fin 9) → Option Nat
  | [] => none
  | i :: is => if thr < vals i then some 0 else (nullity thr vals is).map (· + 1)

/-- lib.rs 68-96 `five_points_nullspace_basis` for five matches; `thr` is `EIGEN_THRESHOLD`. -/
noncomputable def nullspaceBasis (sv : FiveSolver) (thr : ℝ) (ms : Fin 5 → Match) :
    Option (Nullspace ℝ) :=
  let A : Matrix (Fin 5) (Fin 9) ℝ := Matrix.of (fun i => fiveRow (ms i))
  match sv.symmetric (A.transpose * A) with
  | none => none
  | some e =>
    match nullity thr e.vals (sv.sort e.vals), sv.sort e.vals with
    | some 4, i₁ :: i₂ :: i₃ :: i₄ :: _ =>
      some (fun r => ⟨e.vecs i₁ r, e.vecs i₂ r, e.vecs i₃ r, e.vecs i₄ r⟩)
    | _, _ => none

/-- lib.rs 219-237 `essentials_from_action_ebasis`. -/
noncomputable def essentialsFromAction (sv : FiveSolver) (at_ : Matrix (Fin 10) (Fin 10) ℝ)
    (eb : Nullspace ℝ) : List (M3 ℝ) :=
  (sv.eigenvalues at_).filterMap (fun e =>
    if e.2 = 0 then (sv.eigenvector at_ e.1).map (fun v => combine eb (fourRows v)) else none)

/-- lib.rs 241-280 `five_points_relative_pose`. -/
noncomputable def fivePoint (sv : FiveSolver) (thr : ℝ) (ms : Fin 5 → Match) : List (M3 ℝ) :=
  match nullspaceBasis sv thr ms with
  | none => essentialsFromAction sv 0 (fun _ => ⟨0, 0, 0, 0⟩)
  | some n =>
    match sv.lu (highBlock n) (lowBlock n) with
    | none => essentialsFromAction sv 0 (fun _ => ⟨0, 0, 0, 0⟩)
    | some m => essentialsFromAction sv (actionMatrix m) n

/-- lib.rs 310-329 `estimate` (the `assert!(count == 5)` is in the type of `ms`). -/
noncomputable def fivePointEstimate (sv : FiveSolver) (svd : M3 ℝ → Option (SVD ℝ)) (thr : ℝ)
    (ms : Fin 5 → Match) : List (Iso ℝ) :=
  ((fivePoint sv thr ms).filterMap svd).flatMap possiblePoses

end Verif.Geo
