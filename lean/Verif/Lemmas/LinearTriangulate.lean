import Verif.Lemmas.EpipolarPlane
import Mathlib.LinearAlgebra.Matrix.NonsingularInverse
import Mathlib.Algebra.BigOperators.Fin

/-!
# The linear systems of the triangulators
-/

namespace Verif.Geo

theorem V4.dot_comm (a b : V4 ℝ) : a.dot b = b.dot a := by simp only [lin]; ring
theorem V4.dot_smul (s : ℝ) (a b : V4 ℝ) : a.dot (V4.smul s b) = s * a.dot b := by
  simp only [lin]; ring
theorem V4.smul_dot (s : ℝ) (a b : V4 ℝ) : (V4.smul s a).dot b = s * a.dot b := by
  simp only [lin]; ring
theorem V4.dot_self_nonneg (a : V4 ℝ) : 0 ≤ a.dot a := by
  simp only [lin]
  nlinarith [mul_self_nonneg a.x, mul_self_nonneg a.y, mul_self_nonneg a.z, mul_self_nonneg a.w]
theorem V4.eq_zero {a : V4 ℝ} (h : a.dot a = 0) : a = ⟨0, 0, 0, 0⟩ := by
  simp only [lin] at h
  have hx := mul_self_nonneg a.x
  have hy := mul_self_nonneg a.y
  have hz := mul_self_nonneg a.z
  have hw := mul_self_nonneg a.w
  ext <;> apply mul_self_eq_zero.mp <;> linarith

/-- The camera coordinates of a homogeneous point. -/
def camera (pose : Iso ℝ) (v : V4 ℝ) : V3 ℝ := (pose.homMul v).xyz

theorem camera_hom (pose : Iso ℝ) (x : V3 ℝ) : camera pose (hom x) = pose.point x := by
  unfold camera hom; lin3

/-- One term of the quadratic form. -/
theorem termSquare_form {o : Observation} (hb : o.bearing.normSq = 1) (v : V4 ℝ) :
    v.dot ((termSquare o).mulVec v) = (camera o.pose v).normSq -
      (camera o.pose v).dot o.bearing * (camera o.pose v).dot o.bearing := by
  have : v.dot ((termSquare o).mulVec v) = (camera o.pose v).normSq -
      2 * ((camera o.pose v).dot o.bearing * (camera o.pose v).dot o.bearing) +
      o.bearing.normSq * ((camera o.pose v).dot o.bearing * (camera o.pose v).dot o.bearing) := by
    unfold camera
    simp only [lin]
    ring
  rw [this, hb]; ring

theorem termSquare_form_nonneg {o : Observation} (hb : o.bearing.normSq = 1) (v : V4 ℝ) :
    0 ≤ v.dot ((termSquare o).mulVec v) := by
  rw [termSquare_form hb]
  have := cauchy_schwarz (camera o.pose v) o.bearing
  rw [hb] at this
  linarith

/-- Equality in Cauchy-Schwarz. -/
theorem parallel_of_form {c b : V3 ℝ} (hb : b.normSq = 1) (h : c.normSq - c.dot b * c.dot b = 0) :
    c = V3.smul (c.dot b) b := by
  have : (c.sub (V3.smul (c.dot b) b)).normSq = c.normSq - 2 * (c.dot b * c.dot b) +
      c.dot b * c.dot b * b.normSq := by simp only [lin]; ring
  rw [hb] at this
  have hz : c.sub (V3.smul (c.dot b) b) = V3.zero := V3.normSq_eq_zero.mp (by linarith)
  generalize c.dot b = k at hz
  rw [V3.ext_iff] at hz ⊢
  simp only [lin] at hz ⊢
  obtain ⟨h1, h2, h3⟩ := hz
  exact ⟨by linarith, by linarith, by linarith⟩

theorem linearSystem_foldl (os : List Observation) (A : M4) (v w : V4 ℝ) :
    v.dot ((os.foldl (fun A o => A.add (termSquare o)) A).mulVec w) =
      v.dot (A.mulVec w) + (os.map (fun o => v.dot ((termSquare o).mulVec w))).sum := by
  induction os generalizing A with
  | nil => simp
  | cons o os ih =>
    rw [List.foldl_cons, ih, List.map_cons, List.sum_cons]
    have : v.dot ((A.add (termSquare o)).mulVec w) =
        v.dot (A.mulVec w) + v.dot ((termSquare o).mulVec w) := by
      generalize termSquare o = T
      simp only [lin]; ring
    rw [this, add_assoc]

theorem linearSystem_form (os : List Observation) (v w : V4 ℝ) :
    v.dot ((linearSystem os).mulVec w) = (os.map (fun o => v.dot ((termSquare o).mulVec w))).sum := by
  unfold linearSystem
  rw [linearSystem_foldl]
  have : v.dot (M4.zero.mulVec w) = 0 := by simp only [lin]; ring
  rw [this, zero_add]

theorem linearSystem_symm (os : List Observation) (v w : V4 ℝ) :
    v.dot ((linearSystem os).mulVec w) = w.dot ((linearSystem os).mulVec v) := by
  rw [linearSystem_form, linearSystem_form]
  congr 1
  apply List.map_congr_left
  intro o _
  simp only [lin]; ring

theorem linearSystem_nonneg {os : List Observation} (hb : ∀ o ∈ os, o.bearing.normSq = 1) (v : V4 ℝ) :
    0 ≤ v.dot ((linearSystem os).mulVec v) := by
  rw [linearSystem_form]
  apply List.sum_nonneg
  intro r hr
  obtain ⟨o, ho, rfl⟩ := List.mem_map.mp hr
  exact termSquare_form_nonneg (hb o ho) v

theorem linearSystem_zero {os : List Observation} (hb : ∀ o ∈ os, o.bearing.normSq = 1) {v : V4 ℝ}
    (h : v.dot ((linearSystem os).mulVec v) = 0) (o : Observation) (ho : o ∈ os) :
    ∃ k, camera o.pose v = V3.smul k o.bearing := by
  rw [linearSystem_form] at h
  have hz : v.dot ((termSquare o).mulVec v) = 0 := by
    refine le_antisymm ?_ (termSquare_form_nonneg (hb o ho) v)
    rw [← h]
    apply List.single_le_sum
    · intro r hr
      obtain ⟨o, ho, rfl⟩ := List.mem_map.mp hr
      exact termSquare_form_nonneg (hb o ho) v
    · exact List.mem_map.mpr ⟨o, ho, rfl⟩
  rw [termSquare_form (hb o ho)] at hz
  exact ⟨_, parallel_of_form (hb o ho) hz⟩

/-- Two observations with different directions determine the point. -/
theorem unique_point {p q : Iso ℝ} (hp : p.Rigid) (hq : q.Rigid) {b c x : V3 ℝ} {v : V4 ℝ}
    (hb : ∃ d, p.point x = V3.smul d b) (hc : ∃ d, q.point x = V3.smul d c)
    (hvb : ∃ k, camera p v = V3.smul k b) (hvc : ∃ k, camera q v = V3.smul k c)
    (hn : (p.inv.rot.mulVec b).cross (q.inv.rot.mulVec c) ≠ V3.zero) : v = V4.smul v.w (hom x) := by
  have key : ∀ (p : Iso ℝ) (b : V3 ℝ), p.Rigid → (∃ d, p.point x = V3.smul d b) →
      (∃ k, camera p v = V3.smul k b) →
      ∃ k, v.xyz.sub (V3.smul v.w x) = V3.smul k (p.inv.rot.mulVec b) := by
    rintro p b hp ⟨d, hd⟩ ⟨k, hk⟩
    refine ⟨k - v.w * d, ?_⟩
    have e1 : p.rot.mulVec (v.xyz.sub (V3.smul v.w x)) = (camera p v).sub (V3.smul v.w (p.point x)) := by
      unfold camera; lin3
    rw [hd, hk] at e1
    have e2 : v.xyz.sub (V3.smul v.w x) =
        p.inv.rot.mulVec (p.rot.mulVec (v.xyz.sub (V3.smul v.w x))) := by
      rw [M3.mulVec_mulVec]
      change _ = (p.rot.transpose.mul p.rot).mulVec _
      rw [hp.orth, M3.one_mulVec]
    rw [e2, e1]
    have e3 : (V3.smul k b).sub (V3.smul v.w (V3.smul d b)) = V3.smul (k - v.w * d) b := by lin3
    rw [e3, M3.mulVec_smul]
  obtain ⟨k, hk⟩ := key p b hp hb hvb
  obtain ⟨m, hm⟩ := key q c hq hc hvc
  have h0 : v.xyz.sub (V3.smul v.w x) = V3.zero := by
    by_cases hk0 : k = 0
    · rw [hk, hk0]; lin3
    · exfalso
      apply hn
      have e : V3.smul k ((p.inv.rot.mulVec b).cross (q.inv.rot.mulVec c)) = V3.zero := by
        have : V3.smul k ((p.inv.rot.mulVec b).cross (q.inv.rot.mulVec c)) =
            (V3.smul k (p.inv.rot.mulVec b)).cross (q.inv.rot.mulVec c) := by
          generalize p.inv.rot.mulVec b = r
          generalize q.inv.rot.mulVec c = s
          lin3
        rw [this, ← hk, hm]
        generalize q.inv.rot.mulVec c = s
        lin3
      rw [← V3.norm_eq_zero, V3.norm_smul, mul_eq_zero] at e
      exact V3.norm_eq_zero.mp (e.resolve_left (abs_ne_zero.mpr hk0))
  rw [V3.ext_iff] at h0
  unfold hom
  ext <;> simp only [lin] at h0 ⊢ <;> linarith [h0.1, h0.2.1, h0.2.2]

/-- The rows of an orthonormal system of four vectors span everything. -/
theorem orthonormal_complete {A : M4} {e : Eigen4} (he : IsEigen4 A e) {x : V4 ℝ}
    (h : ∀ i, (e.vecs i).dot x = 0) : x = ⟨0, 0, 0, 0⟩ := by
  let U : Matrix (Fin 4) (Fin 4) ℝ := Matrix.of fun i j =>
    ![(e.vecs i).x, (e.vecs i).y, (e.vecs i).z, (e.vecs i).w] j
  have h1 : U * U.transpose = 1 := by
    ext i j
    rw [Matrix.mul_apply, Fin.sum_univ_four]
    have : U i 0 * U.transpose 0 j + U i 1 * U.transpose 1 j + U i 2 * U.transpose 2 j +
        U i 3 * U.transpose 3 j = (e.vecs i).dot (e.vecs j) := by
      simp [U, Matrix.of_apply, V4.dot]
    rw [this, Matrix.one_apply]
    split
    · rename_i hij; rw [hij]; exact he.unit j
    · rename_i hij; exact he.orth i j hij
  have h2 : U.transpose * U = 1 := mul_eq_one_comm.mp h1
  have h3 : U.mulVec ![x.x, x.y, x.z, x.w] = 0 := by
    ext i
    rw [Matrix.mulVec, dotProduct, Fin.sum_univ_four]
    have := h i
    simp only [V4.dot] at this
    simpa [U, Matrix.of_apply] using this
  have h4 : ![x.x, x.y, x.z, x.w] = 0 := by
    rw [← Matrix.one_mulVec ![x.x, x.y, x.z, x.w], ← h2, ← Matrix.mulVec_mulVec, h3,
      Matrix.mulVec_zero]
  have := fun i => congrFun h4 i
  ext
  · simpa using this 0
  · simpa using this 1
  · simpa using this 2
  · simpa using this 3

theorem least4_le (vals : Fin 4 → ℝ) (i : Fin 4) : vals (least4 vals) ≤ vals i := by
  unfold least4
  simp only [List.foldl_cons, List.foldl_nil]
  fin_cases i <;> simp only [Fin.zero_eta, Fin.mk_one, Fin.reduceFinMk] <;> split_ifs <;> linarith

end Verif.Geo
