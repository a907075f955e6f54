import Verif.Model.Linear
import Mathlib.Tactic.LinearCombination

/-!
# Laws of the small linear algebra
-/

namespace Verif.Geo

/-- Prove an identity of vectors or matrices componentwise. -/
macro "lin3" : tactic => `(tactic| (ext <;> simp only [lin] <;> ring))

variable {K : Type} [CommRing K]

namespace V3

theorem add_comm (a b : V3 K) : a.add b = b.add a := by lin3
theorem add_assoc (a b c : V3 K) : (a.add b).add c = a.add (b.add c) := by lin3
theorem add_zero (a : V3 K) : a.add zero = a := by lin3
theorem zero_add (a : V3 K) : zero.add a = a := by lin3
theorem neg_neg (a : V3 K) : a.neg.neg = a := by lin3
theorem add_neg (a : V3 K) : a.add a.neg = zero := by lin3
theorem cross_self (a : V3 K) : a.cross a = zero := by lin3
theorem cross_anticomm (a b : V3 K) : a.cross b = (b.cross a).neg := by lin3
theorem dot_comm (a b : V3 K) : a.dot b = b.dot a := by simp only [lin]; ring
theorem dot_cross_left (a b : V3 K) : a.dot (a.cross b) = 0 := by simp only [lin]; ring
theorem dot_cross_right (a b : V3 K) : b.dot (a.cross b) = 0 := by simp only [lin]; ring
theorem dot_self (a : V3 K) : a.dot a = a.normSq := by simp only [lin]
theorem lagrange (a b : V3 K) :
    (a.cross b).normSq = a.normSq * b.normSq - a.dot b * a.dot b := by simp only [lin]; ring
theorem normSq_neg (a : V3 K) : a.neg.normSq = a.normSq := by simp only [lin]; ring
theorem normSq_smul (s : K) (a : V3 K) : (smul s a).normSq = s * s * a.normSq := by
  simp only [lin]; ring

end V3

namespace M3

theorem mul_assoc (A B C : M3 K) : (A.mul B).mul C = A.mul (B.mul C) := by lin3
theorem one_mul (A : M3 K) : one.mul A = A := by lin3
theorem mul_one (A : M3 K) : A.mul one = A := by lin3
theorem transpose_mul (A B : M3 K) : (A.mul B).transpose = B.transpose.mul A.transpose := by lin3
omit [CommRing K] in
theorem transpose_transpose (A : M3 K) : A.transpose.transpose = A := by lin3
theorem transpose_one : (one : M3 K).transpose = one := by lin3
theorem det_mul (A B : M3 K) : (A.mul B).det = A.det * B.det := by simp only [lin]; ring
theorem det_transpose (A : M3 K) : A.transpose.det = A.det := by simp only [lin]; ring
theorem det_one : (one : M3 K).det = 1 := by simp only [lin]; ring
theorem mulVec_mulVec (A B : M3 K) (v : V3 K) : A.mulVec (B.mulVec v) = (A.mul B).mulVec v := by
  lin3
theorem one_mulVec (v : V3 K) : one.mulVec v = v := by lin3
theorem mulVec_add (A : M3 K) (v w : V3 K) : A.mulVec (v.add w) = (A.mulVec v).add (A.mulVec w) := by
  lin3
theorem mulVec_neg (A : M3 K) (v : V3 K) : A.mulVec v.neg = (A.mulVec v).neg := by lin3
theorem mulVec_smul (A : M3 K) (s : K) (v : V3 K) :
    A.mulVec (V3.smul s v) = V3.smul s (A.mulVec v) := by lin3
theorem mulVec_zero (A : M3 K) : A.mulVec V3.zero = V3.zero := by lin3
theorem dot_mulVec (A : M3 K) (v w : V3 K) : v.dot (A.mulVec w) = (A.transpose.mulVec v).dot w := by
  simp only [lin]; ring
theorem hat_mulVec (a b : V3 K) : (hat a).mulVec b = a.cross b := by lin3

/-- The adjugate. -/
@[lin] def adj (A : M3 K) : M3 K :=
  ⟨A.m22 * A.m33 - A.m23 * A.m32, A.m13 * A.m32 - A.m12 * A.m33, A.m12 * A.m23 - A.m13 * A.m22,
   A.m23 * A.m31 - A.m21 * A.m33, A.m11 * A.m33 - A.m13 * A.m31, A.m13 * A.m21 - A.m11 * A.m23,
   A.m21 * A.m32 - A.m22 * A.m31, A.m12 * A.m31 - A.m11 * A.m32, A.m11 * A.m22 - A.m12 * A.m21⟩

theorem mul_adj (A : M3 K) : A.mul A.adj = smul A.det one := by lin3
theorem adj_mul (A : M3 K) : A.adj.mul A = smul A.det one := by lin3
theorem smul_one_mul (s : K) (A : M3 K) : (smul s one).mul A = smul s A := by lin3
theorem mul_smul_one (s : K) (A : M3 K) : A.mul (smul s one) = smul s A := by lin3
theorem one_smul (A : M3 K) : smul 1 A = A := by lin3

namespace IsRot

variable {A B : M3 K}

/-- The transpose of a rotation is its adjugate. -/
theorem transpose_eq_adj (h : A.IsRot) : A.transpose = A.adj := by
  have h1 : A.transpose.mul (A.mul A.adj) = A.adj := by rw [← mul_assoc, h.orth, one_mul]
  rwa [mul_adj, h.det, mul_smul_one, one_smul] at h1

theorem orth' (h : A.IsRot) : A.mul A.transpose = one := by
  rw [h.transpose_eq_adj, mul_adj, h.det, one_smul]

theorem transpose (h : A.IsRot) : A.transpose.IsRot :=
  ⟨by rw [transpose_transpose, h.orth'], by rw [det_transpose, h.det]⟩

theorem mul (h : A.IsRot) (h' : B.IsRot) : (A.mul B).IsRot := by
  refine ⟨?_, by rw [det_mul, h.det, h'.det, _root_.one_mul]⟩
  rw [transpose_mul, mul_assoc, ← mul_assoc A.transpose, h.orth, one_mul, h'.orth]

theorem one : (one : M3 K).IsRot := ⟨by lin3, det_one⟩

theorem dot_mulVec (h : A.IsRot) (v w : V3 K) : (A.mulVec v).dot (A.mulVec w) = v.dot w := by
  rw [M3.dot_mulVec, mulVec_mulVec, h.orth, one_mulVec]

theorem normSq_mulVec (h : A.IsRot) (v : V3 K) : (A.mulVec v).normSq = v.normSq := by
  rw [← V3.dot_self, h.dot_mulVec, V3.dot_self]

theorem cross_mulVec (h : A.IsRot) (v w : V3 K) :
    (A.mulVec v).cross (A.mulVec w) = A.mulVec (v.cross w) := by
  have e : (A.mulVec v).cross (A.mulVec w) = A.adj.transpose.mulVec (v.cross w) := by lin3
  rw [e, ← h.transpose_eq_adj, transpose_transpose]

end IsRot
end M3

namespace Iso

theorem mul_assoc (a b c : Iso K) : (a.mul b).mul c = a.mul (b.mul c) := by lin3
theorem one_mul (a : Iso K) : one.mul a = a := by lin3
theorem mul_one (a : Iso K) : a.mul one = a := by lin3

theorem mk_mul {a b : Iso K} : a.mul b = ⟨a.rot.mul b.rot, (a.rot.mulVec b.t).add a.t⟩ := rfl

namespace Rigid

variable {a b : Iso K}

theorem mul (h : a.Rigid) (h' : b.Rigid) : (a.mul b).Rigid := M3.IsRot.mul h h'
theorem inv (h : a.Rigid) : a.inv.Rigid := M3.IsRot.transpose h
theorem one : (one : Iso K).Rigid := M3.IsRot.one

theorem inv_mul (h : a.Rigid) : a.inv.mul a = Iso.one := by
  have h1 := M3.IsRot.orth h
  unfold Iso.mul Iso.inv
  simp only
  rw [h1, V3.add_neg]
  rfl

theorem mul_inv (h : a.Rigid) : a.mul a.inv = Iso.one := by
  have h1 := M3.IsRot.orth' h
  unfold Iso.mul Iso.inv
  simp only
  rw [h1, M3.mulVec_neg, M3.mulVec_mulVec, h1, M3.one_mulVec, V3.add_comm, V3.add_neg]
  rfl

end Rigid

theorem point_mul (a b : Iso K) (p : V3 K) : (a.mul b).point p = a.point (b.point p) := by lin3
theorem homMul_mul (a b : Iso K) (v : V4 K) : (a.mul b).homMul v = a.homMul (b.homMul v) := by lin3
theorem homMul_one (v : V4 K) : (one : Iso K).homMul v = v := by lin3
theorem homMul_smul (a : Iso K) (s : K) (v : V4 K) :
    a.homMul (V4.smul s v) = V4.smul s (a.homMul v) := by lin3
theorem homMul_neg (a : Iso K) (v : V4 K) : a.homMul v.neg = (a.homMul v).neg := by lin3

end Iso

end Verif.Geo
