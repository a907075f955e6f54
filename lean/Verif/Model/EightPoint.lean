import Mathlib.LinearAlgebra.Matrix.NonsingularInverse
import Verif.Model.Essential

/-!
# eight-point: the linear estimate of the essential matrix

Source: /repo/eight-point/src/lib.rs.  The symmetric eigenvalue solver of nalgebra is a parameter
(its result is a `SymEigen`), and so is the singular value decomposition.
-/

namespace Verif.Geo

/-- A match: the two bearings. -/
structure Match where
  a : V3 ℝ
  b : V3 ℝ

/-- `v[j]` for a vector. -/
def V3.get (v : V3 ℝ) (j : Fin 3) : ℝ := ![v.x, v.y, v.z] j

/-- lib.rs 13-21: one row; entry `3 * j + k` is `ap[j] * bp[k]`, where both bearings are divided by
the depth of the first (line 16 divides `b` by `a.z`).  `none`: not finite. -/
noncomputable def epipolarRow (m : Match) : Option (Fin 9 → ℝ) :=
  if m.a.z = 0 then none
  else some (fun i =>
    let ap := V3.smul (1 / m.a.z) m.a
    let bp := V3.smul (1 / m.a.z) m.b
    ap.get ⟨i.val / 3, by omega⟩ * bp.get ⟨i.val % 3, by omega⟩)

/-- lib.rs 13: `(0..8).zip(matches)`: row `i` from match `i`; missing rows stay zero. -/
noncomputable def epipolarRows : Nat → List Match → Option (List (Fin 9 → ℝ))
  | 0, _ => some []
  | n + 1, [] => (epipolarRows n []).map (fun rs => 0 :: rs)
  | n + 1, m :: ms =>
    match epipolarRow m, epipolarRows n ms with
    | some r, some rs => some (r :: rs)
    | _, _ => none

/-- lib.rs 11-24 `encode_epipolar_equation`: the eight rows. -/
noncomputable def encodeEpipolar (ms : List Match) : Option (Matrix (Fin 8) (Fin 9) ℝ) :=
  (epipolarRows 8 ms).map (fun rs => Matrix.of (fun i => rs[i.val]?.getD 0))

/-- A result of `try_symmetric_eigen`: eigenvalues and eigenvectors. -/
structure SymEigen where
  vals : Fin 9 → ℝ
  vecs : Fin 9 → Fin 9 → ℝ

/-- lib.rs 53 `min_by_key` over a list of indices: the first minimum. -/
noncomputable def minIndex (vals : Fin 9 → ℝ) : Fin 9 → List (Fin 9) → Fin 9
  | best, [] => best
  | best, i :: is => minIndex vals (if vals i < vals best then i else best) is

/-- lib.rs 54-56: `Matrix3::from_iterator` fills columns. -/
def fromColumns (v : Fin 9 → ℝ) : M3 ℝ :=
  ⟨v 0, v 3, v 6, v 1, v 4, v 7, v 2, v 5, v 8⟩

/-- lib.rs 43-58 `from_matches`, with the eigenvalue solver as a parameter. -/
noncomputable def eightPoint (solver : Matrix (Fin 9) (Fin 9) ℝ → Option SymEigen)
    (ms : List Match) : Option (M3 ℝ) :=
  match encodeEpipolar ms with
  | none => none
  | some A =>
    match solver (A.transpose * A) with
    | none => none
    | some e => some (fromColumns (e.vecs (minIndex e.vals 0 [1, 2, 3, 4, 5, 6, 7, 8])))

/-- lib.rs 75-83 `estimate`: the four poses, or nothing. -/
noncomputable def eightPointEstimate (solver : Matrix (Fin 9) (Fin 9) ℝ → Option SymEigen)
    (svd : M3 ℝ → Option (SVD ℝ)) (ms : List Match) : List (Iso ℝ) :=
  match (eightPoint solver ms).bind svd with
  | none => []
  | some d => possiblePoses d

end Verif.Geo
