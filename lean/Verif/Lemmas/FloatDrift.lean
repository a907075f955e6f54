import Verif.Spec.FloatDrift
import Verif.Lemmas.FloatRounding
import Verif.Lemmas.QuatDescent
import Verif.Lemmas.Quat
import Verif.Model.FloatOptimize

/-!
# Products and inverses of matrices near rotations
-/

namespace Verif.Geo.Rounded

open Verif.Akaze
open P3P (fdot fmulVec fmul)

variable {D : Type} [FloatOps D] {J : Ieee D} {u η M : ℝ}

theorem norm_triangle (a b c : V3 ℝ) : (a.sub c).norm ≤ (a.sub b).norm + (b.sub c).norm := by
  have : a.sub c = (a.sub b).add (b.sub c) := by lin3
  rw [this]
  exact Quat.norm_add_le _ _

theorem Near.mono {e e' : ℝ} {F X : M3 ℝ} (h : Near e F X) (he : e ≤ e') : Near e' F X :=
  fun v => (h v).trans (mul_le_mul_of_nonneg_right he (V3.norm_nonneg v))

theorem Near.refl (X : M3 ℝ) : Near 0 X X := fun v => by
  have : (X.mulVec v).sub (X.mulVec v) = V3.zero := by lin3
  rw [this, zero_mul]
  exact (V3.norm_eq_zero.2 rfl).le

theorem Near.length {e : ℝ} {F X : M3 ℝ} (h : Near e F X) (hX : X.IsRot) (v : V3 ℝ) :
    (F.mulVec v).norm ≤ (1 + e) * v.norm := by
  have h1 : F.mulVec v = ((F.mulVec v).sub (X.mulVec v)).add (X.mulVec v) := by lin3
  rw [h1]
  have h2 := Quat.norm_add_le ((F.mulVec v).sub (X.mulVec v)) (X.mulVec v)
  rw [norm_rotated hX] at h2
  have := h v
  linarith

theorem abs_dot_le_norm (a b : V3 ℝ) : |a.dot b| ≤ a.norm * b.norm := by
  have h := abs_products a b
  have : a.dot b = a.x * b.x + a.y * b.y + a.z * b.z := by simp only [lin]
  rw [this]
  exact (abs_add_three _ _ _).trans h

theorem dot_le_norm (a b : V3 ℝ) : a.dot b ≤ a.norm * b.norm := (le_abs_self _).trans (abs_dot_le_norm a b)

/-- The transposes are as near. -/
theorem Near.transpose {e : ℝ} {F X : M3 ℝ} (h : Near e F X) : Near e F.transpose X.transpose := by
  intro v
  set w := (F.transpose.mulVec v).sub (X.transpose.mulVec v) with hw
  have h1 : w.norm * w.norm = v.dot ((F.mulVec w).sub (X.mulVec w)) := by
    rw [V3.norm_mul_self]
    have : w.normSq = w.dot ((F.transpose.mulVec v).sub (X.transpose.mulVec v)) := by rw [← hw]; simp only [lin]
    rw [this]
    clear_value w
    simp only [lin]
    ring
  have h2 := dot_le_norm v ((F.mulVec w).sub (X.mulVec w))
  have h3 := mul_le_mul_of_nonneg_left (h w) (V3.norm_nonneg v)
  have h4 : w.norm * w.norm ≤ e * v.norm * w.norm := by nlinarith
  rcases (V3.norm_nonneg w).eq_or_lt with h0 | h0
  · rw [← h0]
    have h5 := h v
    rw [← hw] at *
    have := (V3.norm_nonneg ((F.mulVec v).sub (X.mulVec v))).trans h5
    exact this
  · exact le_of_mul_le_mul_right h4 h0

/-- The columns, and the rows, are hardly longer than 1. -/
theorem Near.columns {e : ℝ} {F X : M3 ℝ} (h : Near e F X) (hX : X.IsRot) :
    (⟨F.m11, F.m21, F.m31⟩ : V3 ℝ).norm ≤ 1 + e ∧ (⟨F.m12, F.m22, F.m32⟩ : V3 ℝ).norm ≤ 1 + e ∧
      (⟨F.m13, F.m23, F.m33⟩ : V3 ℝ).norm ≤ 1 + e := by
  have one : ∀ v : V3 ℝ, v.normSq = 1 → (F.mulVec v).norm ≤ 1 + e := fun v hv => by
    have := h.length hX v
    rwa [V3.norm_of_normSq (a := v) zero_le_one (by rw [hv]; ring), mul_one] at this
  refine ⟨?_, ?_, ?_⟩
  · convert one ⟨1, 0, 0⟩ (by simp [lin]) using 2; simp [lin]
  · convert one ⟨0, 1, 0⟩ (by simp [lin]) using 2; simp [lin]
  · convert one ⟨0, 0, 1⟩ (by simp [lin]) using 2; simp [lin]

theorem Near.rows {e : ℝ} {F X : M3 ℝ} (h : Near e F X) (hX : X.IsRot) :
    (⟨F.m11, F.m12, F.m13⟩ : V3 ℝ).norm ≤ 1 + e ∧ (⟨F.m21, F.m22, F.m23⟩ : V3 ℝ).norm ≤ 1 + e ∧
      (⟨F.m31, F.m32, F.m33⟩ : V3 ℝ).norm ≤ 1 + e :=
  h.transpose.columns hX.transpose

/-- A rounded product of a row and a column. -/
theorem entry_error (A : Accurate J u η M) (E : FineRot u η M) {a b : V3 D} {x y : V3 ℝ} (ha : HasV J a x) (hb : HasV J b y)
    (hx : x.norm ≤ 102 / 100) (hy : y.norm ≤ 102 / 100) :
    ∃ z, J.val (fdot a b) = .num z ∧ |z - x.dot y| ≤ 337 / 100 * u := by
  have hs : |x.x * y.x| + |x.y * y.y| + |x.z * y.z| ≤ 105 / 100 := by
    have h1 := abs_products x y
    have h2 : x.norm * y.norm ≤ 102 / 100 * (102 / 100) := mul_le_mul hx hy (V3.norm_nonneg y) (by norm_num)
    linarith
  have hM := E.range
  have hη := E.tiny
  have hu0 := A.u_nonneg
  obtain ⟨z, hz, h, -⟩ := val_sum3 A E.precise (s := 105 / 100) (by linarith) (by linarith) ha.1 ha.2.1 ha.2.2 hb.1 hb.2.1 hb.2.2 hs
  exact ⟨z, hz, h.trans (by linarith)⟩

/-- Small entries make a small difference. -/
theorem near_of_entries {F X : M3 ℝ} {m : ℝ} (h1 : |F.m11 - X.m11| ≤ m ∧ |F.m12 - X.m12| ≤ m ∧ |F.m13 - X.m13| ≤ m)
    (h2 : |F.m21 - X.m21| ≤ m ∧ |F.m22 - X.m22| ≤ m ∧ |F.m23 - X.m23| ≤ m)
    (h3 : |F.m31 - X.m31| ≤ m ∧ |F.m32 - X.m32| ≤ m ∧ |F.m33 - X.m33| ≤ m) : Near (49 / 16 * m) F X := by
  intro v
  have row : ∀ {a b c a' b' c' : ℝ}, |a - a'| ≤ m → |b - b'| ≤ m → |c - c'| ≤ m →
      |(a * v.x + b * v.y + c * v.z) - (a' * v.x + b' * v.y + c' * v.z)| ≤ 7 / 4 * m * v.norm := by
    intro a b c a' b' c' ha hb hc
    have e : (a * v.x + b * v.y + c * v.z) - (a' * v.x + b' * v.y + c' * v.z) = (⟨a - a', b - b', c - c'⟩ : V3 ℝ).dot v := by
      simp only [lin]; ring
    rw [e]
    exact (abs_dot_le_norm _ _).trans (mul_le_mul_of_nonneg_right (norm_le_of_coords ha hb hc) (V3.norm_nonneg v))
  have := norm_le_of_coords (e := (F.mulVec v).sub (X.mulVec v)) (m := 7 / 4 * m * v.norm)
    (by simpa only [lin] using row h1.1 h1.2.1 h1.2.2) (by simpa only [lin] using row h2.1 h2.2.1 h2.2.2)
    (by simpa only [lin] using row h3.1 h3.2.1 h3.2.2)
  linarith

theorem Near.trans {e e' : ℝ} {F G X : M3 ℝ} (h : Near e F G) (h' : Near e' G X) : Near (e + e') F X := fun v => by
  have := norm_triangle (F.mulVec v) (G.mulVec v) (X.mulVec v)
  have := h v
  have := h' v
  linarith

/-- Products of matrices near rotations. -/
theorem Near.mul {ε e : ℝ} {F G X Y : M3 ℝ} (hF : Near ε F X) (hG : Near e G Y) (hX : X.IsRot) (hY : Y.IsRot) (h0 : 0 ≤ ε) :
    Near (e + (1 + e) * ε) (F.mul G) (X.mul Y) := by
  intro v
  have e1 : (F.mul G).mulVec v = F.mulVec (G.mulVec v) := by lin3
  have e2 : (X.mul Y).mulVec v = X.mulVec (Y.mulVec v) := by lin3
  rw [e1, e2]
  have h1 := norm_triangle (F.mulVec (G.mulVec v)) (X.mulVec (G.mulVec v)) (X.mulVec (Y.mulVec v))
  have h2 := hF (G.mulVec v)
  have h3 : (X.mulVec (G.mulVec v)).sub (X.mulVec (Y.mulVec v)) = X.mulVec ((G.mulVec v).sub (Y.mulVec v)) := by lin3
  rw [h3, norm_rotated hX] at h1
  have h4 := hG v
  have h5 := mul_le_mul_of_nonneg_left (hG.length hY v) h0
  linarith

/-- A rounded product of matrices. -/
theorem product_error (A : Accurate J u η M) (E : FineRot u η M) {a b : M3 D} {F G X Y : M3 ℝ} {ε e : ℝ} (ha : HasM J a F)
    (hb : HasM J b G) (hX : X.IsRot) (hY : Y.IsRot) (hF : Near ε F X) (hG : Near e G Y) (h0 : 0 ≤ ε) (hε : ε ≤ 1 / 50)
    (he : e ≤ 1 / 50) : ∃ H, HasM J (fmul a b) H ∧ Near (e + 102 / 100 * ε + 11 * u) H (X.mul Y) := by
  have r := hF.rows hX
  have c := hG.columns hY
  have b1 : 1 + ε ≤ 102 / 100 := by linarith
  have b2 : 1 + e ≤ 102 / 100 := by linarith
  obtain ⟨⟨a11, a12, a13⟩, ⟨a21, a22, a23⟩, a31, a32, a33⟩ := ha
  obtain ⟨⟨b11, b12, b13⟩, ⟨b21, b22, b23⟩, b31, b32, b33⟩ := hb
  have key : ∀ {p q : V3 D} {x y : V3 ℝ}, HasV J p x → HasV J q y → x.norm ≤ 1 + ε → y.norm ≤ 1 + e →
      ∃ z, J.val (fdot p q) = .num z ∧ |z - x.dot y| ≤ 337 / 100 * u :=
    fun hp hq hx hy => entry_error A E hp hq (hx.trans b1) (hy.trans b2)
  obtain ⟨z11, v11, w11⟩ := key (p := ⟨a.m11, a.m12, a.m13⟩) (q := ⟨b.m11, b.m21, b.m31⟩) ⟨a11, a12, a13⟩ ⟨b11, b21, b31⟩ r.1 c.1
  obtain ⟨z12, v12, w12⟩ := key (p := ⟨a.m11, a.m12, a.m13⟩) (q := ⟨b.m12, b.m22, b.m32⟩) ⟨a11, a12, a13⟩ ⟨b12, b22, b32⟩ r.1 c.2.1
  obtain ⟨z13, v13, w13⟩ := key (p := ⟨a.m11, a.m12, a.m13⟩) (q := ⟨b.m13, b.m23, b.m33⟩) ⟨a11, a12, a13⟩ ⟨b13, b23, b33⟩ r.1 c.2.2
  obtain ⟨z21, v21, w21⟩ := key (p := ⟨a.m21, a.m22, a.m23⟩) (q := ⟨b.m11, b.m21, b.m31⟩) ⟨a21, a22, a23⟩ ⟨b11, b21, b31⟩ r.2.1 c.1
  obtain ⟨z22, v22, w22⟩ := key (p := ⟨a.m21, a.m22, a.m23⟩) (q := ⟨b.m12, b.m22, b.m32⟩) ⟨a21, a22, a23⟩ ⟨b12, b22, b32⟩ r.2.1 c.2.1
  obtain ⟨z23, v23, w23⟩ := key (p := ⟨a.m21, a.m22, a.m23⟩) (q := ⟨b.m13, b.m23, b.m33⟩) ⟨a21, a22, a23⟩ ⟨b13, b23, b33⟩ r.2.1 c.2.2
  obtain ⟨z31, v31, w31⟩ := key (p := ⟨a.m31, a.m32, a.m33⟩) (q := ⟨b.m11, b.m21, b.m31⟩) ⟨a31, a32, a33⟩ ⟨b11, b21, b31⟩ r.2.2 c.1
  obtain ⟨z32, v32, w32⟩ := key (p := ⟨a.m31, a.m32, a.m33⟩) (q := ⟨b.m12, b.m22, b.m32⟩) ⟨a31, a32, a33⟩ ⟨b12, b22, b32⟩ r.2.2 c.2.1
  obtain ⟨z33, v33, w33⟩ := key (p := ⟨a.m31, a.m32, a.m33⟩) (q := ⟨b.m13, b.m23, b.m33⟩) ⟨a31, a32, a33⟩ ⟨b13, b23, b33⟩ r.2.2 c.2.2
  refine ⟨⟨z11, z12, z13, z21, z22, z23, z31, z32, z33⟩, ⟨⟨v11, v12, v13⟩, ⟨v21, v22, v23⟩, v31, v32, v33⟩, ?_⟩
  have h1 : Near (49 / 16 * (337 / 100 * u)) (⟨z11, z12, z13, z21, z22, z23, z31, z32, z33⟩ : M3 ℝ) (F.mul G) :=
    near_of_entries ⟨by simpa only [lin] using w11, by simpa only [lin] using w12, by simpa only [lin] using w13⟩
      ⟨by simpa only [lin] using w21, by simpa only [lin] using w22, by simpa only [lin] using w23⟩
      ⟨by simpa only [lin] using w31, by simpa only [lin] using w32, by simpa only [lin] using w33⟩
  refine (h1.trans (hF.mul hG hX hY h0)).mono ?_
  have := A.u_nonneg
  have : (1 + e) * ε ≤ 102 / 100 * ε := mul_le_mul_of_nonneg_right b2 h0
  linarith

end Verif.Geo.Rounded
