import Verif.Lemmas.FloatRounding
import Verif.Model.Essential

/-!
# Rounding errors of the residual of an essential matrix
-/

namespace Verif.Geo.Rounded

open Verif.Akaze
open P3P (fdot)

/-- A sum of three products of factors known up to `δ` and `γ`. -/
theorem err_dot {x1 x2 x3 y1 y2 y3 p1 p2 p3 q1 q2 q3 X Q δ γ : ℝ} (hx1 : |x1| ≤ X) (hx2 : |x2| ≤ X) (hx3 : |x3| ≤ X)
    (hq1 : |q1| ≤ Q) (hq2 : |q2| ≤ Q) (hq3 : |q3| ≤ Q) (hp1 : |p1 - x1| ≤ δ) (hp2 : |p2 - x2| ≤ δ) (hp3 : |p3 - x3| ≤ δ)
    (hy1 : |q1 - y1| ≤ γ) (hy2 : |q2 - y2| ≤ γ) (hy3 : |q3 - y3| ≤ γ) :
    |p1 * q1 + p2 * q2 + p3 * q3 - (x1 * y1 + x2 * y2 + x3 * y3)| ≤ 3 * (δ * Q) + 3 * (X * γ) := by
  have hδ : 0 ≤ δ := (abs_nonneg _).trans hp1
  have hX : 0 ≤ X := (abs_nonneg _).trans hx1
  have key : ∀ {x y p q : ℝ}, |x| ≤ X → |q| ≤ Q → |p - x| ≤ δ → |q - y| ≤ γ → |p * q - x * y| ≤ δ * Q + X * γ := by
    intro x y p q h1 h2 h3 h4
    have : p * q - x * y = (p - x) * q + x * (q - y) := by ring
    rw [this]
    have a1 := abs_add_le ((p - x) * q) (x * (q - y))
    rw [abs_mul, abs_mul] at a1
    have a2 := mul_le_mul h3 h2 (abs_nonneg _) hδ
    have a3 := mul_le_mul h1 h4 (abs_nonneg _) hX
    linarith
  have k1 := key hx1 hq1 hp1 hy1
  have k2 := key hx2 hq2 hp2 hy2
  have k3 := key hx3 hq3 hp3 hy3
  have : p1 * q1 + p2 * q2 + p3 * q3 - (x1 * y1 + x2 * y2 + x3 * y3) =
      (p1 * q1 - x1 * y1) + (p2 * q2 - x2 * y2) + (p3 * q3 - x3 * y3) := by ring
  rw [this]
  have a1 := abs_add_le ((p1 * q1 - x1 * y1) + (p2 * q2 - x2 * y2)) (p3 * q3 - x3 * y3)
  have a2 := abs_add_le (p1 * q1 - x1 * y1) (p2 * q2 - x2 * y2)
  linarith

variable {D : Type} [FloatOps D] {J : Ieee D} {u η M : ℝ}

/-- A bearing divided by its depth. -/
theorem depth_error (A : Accurate J u η M) {a : V3 D} {x : V3 ℝ} {β : ℝ} (ha : HasV J a x) (hz : x.z ≠ 0)
    (hx : |x.x / x.z| ≤ β) (hy : |x.y / x.z| ≤ β) (hβ : 1 ≤ β) (hη : 1024 * η ≤ u) (hM : β ≤ M) :
    ∃ d, HasV J (funscale a a.z) d ∧ |d.x - x.x / x.z| ≤ 101 / 100 * (u * β) ∧ |d.y - x.y / x.z| ≤ 101 / 100 * (u * β) ∧
      |d.z - 1| ≤ 101 / 100 * (u * β) := by
  have hu0 := A.u_nonneg
  obtain ⟨h1, h2, h3⟩ := ha
  have huβ : u ≤ u * β := by nlinarith
  have key : ∀ {b : D} {w : ℝ}, J.val b = .num w → |w / x.z| ≤ β →
      ∃ d, J.val (b / a.z) = .num d ∧ |d - w / x.z| ≤ 101 / 100 * (u * β) := by
    intro b w hb hw
    obtain ⟨d, hd, ed⟩ := A.div hb h3 hz (hw.trans hM)
    exact ⟨d, hd, by have := mul_le_mul_of_nonneg_left hw hu0; linarith⟩
  obtain ⟨d1, k1, e1⟩ := key h1 hx
  obtain ⟨d2, k2, e2⟩ := key h2 hy
  obtain ⟨d3, k3, e3⟩ := key h3 (by rw [div_self hz, abs_one]; exact hβ)
  rw [div_self hz] at e3
  exact ⟨⟨d1, d2, d3⟩, ⟨k1, k2, k3⟩, e1, e2, e3⟩

/-- One coordinate of a row times a matrix. -/
theorem row_error (A : Accurate J u η M) {d : V3 D} {d' b : V3 ℝ} {m1 m2 m3 : D} {n1 n2 n3 β e : ℝ} (hd : HasV J d d')
    (k1 : J.val m1 = .num n1) (k2 : J.val m2 = .num n2) (k3 : J.val m3 = .num n3)
    (hu : u ≤ 1 / 1024) (hβ : 1 ≤ β) (he : 0 ≤ e) (hη : 1024 * η ≤ u * (β * e)) (hM : 16 * (β * e) ≤ M)
    (b1 : |b.x| ≤ β) (b2 : |b.y| ≤ β) (b3 : |b.z| ≤ β)
    (e1 : |d'.x - b.x| ≤ 101 / 100 * (u * β)) (e2 : |d'.y - b.y| ≤ 101 / 100 * (u * β))
    (e3 : |d'.z - b.z| ≤ 101 / 100 * (u * β)) (h1 : |n1| ≤ e) (h2 : |n2| ≤ e) (h3 : |n3| ≤ e) :
    ∃ z, J.val (fdot d ⟨m1, m2, m3⟩) = .num z ∧ |z - (b.x * n1 + b.y * n2 + b.z * n3)| ≤ 13 * (u * (β * e)) := by
  have hu0 := A.u_nonneg
  have huβ : u * β ≤ 1 / 1024 * β := mul_le_mul_of_nonneg_right hu (by linarith)
  have hβe : 0 ≤ β * e := by positivity
  have huβe : u * (β * e) ≤ 1 / 1024 * (β * e) := mul_le_mul_of_nonneg_right hu hβe
  have big : ∀ {x y : ℝ}, |x - y| ≤ 101 / 100 * (u * β) → |y| ≤ β → |x| ≤ 101 / 100 * β := by
    intro x y h k
    have := abs_le_add h k
    linarith
  have prod : ∀ {x n : ℝ}, |x| ≤ 101 / 100 * β → |n| ≤ e → |x * n| ≤ 101 / 100 * (β * e) := by
    intro x n h k
    rw [abs_mul, ← mul_assoc]
    exact mul_le_mul h k (abs_nonneg _) (by linarith)
  have p1 := prod (big e1 b1) h1
  have p2 := prod (big e2 b2) h2
  have p3 := prod (big e3 b3) h3
  obtain ⟨g1, g2, g3⟩ := hd
  have hpos : 0 ≤ u * (β * e) := by positivity
  obtain ⟨z, hz, ez, -⟩ := val_sum3 A (s := 304 / 100 * (β * e)) hu (by linarith) (by linarith) g1 g2 g3 k1 k2 k3
    (by linarith)
  refine ⟨z, hz, ?_⟩
  have s0 : |n1 - n1| ≤ 0 := by simp
  have f := err_dot (y1 := n1) (y2 := n2) (y3 := n3) b1 b2 b3 h1 h2 h3 e1 e2 e3 (γ := 0) (by simp) (by simp) (by simp)
  have := abs_sub_le z (d'.x * n1 + d'.y * n2 + d'.z * n3) (b.x * n1 + b.y * n2 + b.z * n3)
  have hh : 101 / 100 * (u * β) * e = 101 / 100 * (u * (β * e)) := by ring
  rw [hh] at f
  linarith

/-- The residual of an essential matrix before the sign is dropped. -/
theorem essential_error (A : Accurate J u η M) {E : M3 D} {a b : V3 D} {X : M3 ℝ} {x y : V3 ℝ} {β e : ℝ}
    (hE : HasM J E X) (ha : HasV J a x) (hb : HasV J b y) (hx : x.z ≠ 0) (hy : y.z ≠ 0)
    (x1 : |x.x / x.z| ≤ β) (x2 : |x.y / x.z| ≤ β) (y1 : |y.x / y.z| ≤ β) (y2 : |y.y / y.z| ≤ β)
    (hβ : 1 ≤ β) (he : 0 ≤ e) (hX : (|X.m11| ≤ e ∧ |X.m12| ≤ e ∧ |X.m13| ≤ e) ∧ (|X.m21| ≤ e ∧ |X.m22| ≤ e ∧ |X.m23| ≤ e) ∧
      (|X.m31| ≤ e ∧ |X.m32| ≤ e ∧ |X.m33| ≤ e))
    (hu : u ≤ 1 / 1024) (hη : 1024 * η ≤ u) (hη2 : 1024 * η ≤ u * (β * e)) (hM : β ≤ M) (hM2 : 64 * (β * β * e) ≤ M) :
    ∃ z w, J.val (fessentialResidual E a b) = .num z ∧ essentialResidual X x y = some w ∧
      |z - w| ≤ 96 * (u * (β * β * e)) := by
  have hu0 := A.u_nonneg
  obtain ⟨⟨a11, a12, a13⟩, ⟨a21, a22, a23⟩, a31, a32, a33⟩ := hE
  obtain ⟨⟨c11, c12, c13⟩, ⟨c21, c22, c23⟩, c31, c32, c33⟩ := hX
  obtain ⟨d, hd, d1, d2, d3⟩ := depth_error A hb hy y1 y2 hβ hη hM
  obtain ⟨f, hf, f1, f2, f3⟩ := depth_error A ha hx x1 x2 hβ hη hM
  have hβe0 : 0 ≤ β * e := by positivity
  have hββ : β * e ≤ β * β * e := by nlinarith
  have hM3 : 16 * (β * e) ≤ M := by linarith
  have one : |(1 : ℝ)| ≤ β := by rw [abs_one]; exact hβ
  set b' : V3 ℝ := ⟨y.x / y.z, y.y / y.z, 1⟩ with hb'
  obtain ⟨g1, k1, e1⟩ := row_error A (b := b') hd a11 a21 a31 hu hβ he hη2 hM3 y1 y2 one d1 d2 d3 c11 c21 c31
  obtain ⟨g2, k2, e2⟩ := row_error A (b := b') hd a12 a22 a32 hu hβ he hη2 hM3 y1 y2 one d1 d2 d3 c12 c22 c32
  obtain ⟨g3, k3, e3⟩ := row_error A (b := b') hd a13 a23 a33 hu hβ he hη2 hM3 y1 y2 one d1 d2 d3 c13 c23 c33
  have col : ∀ {n1 n2 n3 : ℝ}, |n1| ≤ e → |n2| ≤ e → |n3| ≤ e → |b'.x * n1 + b'.y * n2 + b'.z * n3| ≤ 3 * (β * e) := by
    intro n1 n2 n3 h1 h2 h3
    have m1 : |b'.x * n1| ≤ β * e := by rw [abs_mul]; exact mul_le_mul y1 h1 (abs_nonneg _) (by linarith)
    have m2 : |b'.y * n2| ≤ β * e := by rw [abs_mul]; exact mul_le_mul y2 h2 (abs_nonneg _) (by linarith)
    have m3 : |b'.z * n3| ≤ β * e := by rw [abs_mul]; exact mul_le_mul one h3 (abs_nonneg _) (by linarith)
    linarith [abs_add_le (b'.x * n1 + b'.y * n2) (b'.z * n3), abs_add_le (b'.x * n1) (b'.y * n2)]
  have q1 := col c11 c21 c31
  have q2 := col c12 c22 c32
  have q3 := col c13 c23 c33
  have huβe : u * (β * e) ≤ 1 / 1024 * (β * e) := mul_le_mul_of_nonneg_right hu hβe0
  have huβ : u * β ≤ 1 / 1024 * β := mul_le_mul_of_nonneg_right hu (by linarith)
  have b1 := abs_le_add e1 q1
  have b2 := abs_le_add e2 q2
  have b3 := abs_le_add e3 q3
  have r1 : |f.x| ≤ 101 / 100 * β := by have := abs_le_add f1 x1; linarith
  have r2 : |f.y| ≤ 101 / 100 * β := by have := abs_le_add f2 x2; linarith
  have r3 : |f.z| ≤ 101 / 100 * β := by have := abs_le_add f3 one; linarith
  have prod : ∀ {g n : ℝ}, |g| ≤ 3 * (β * e) + 13 * (u * (β * e)) → |n| ≤ 101 / 100 * β →
      |g * n| ≤ 31 / 10 * (β * β * e) := by
    intro g n h k
    rw [abs_mul]
    have := mul_le_mul h k (abs_nonneg _) (by positivity)
    have h5 : (3 * (β * e) + 13 * (u * (β * e))) * (101 / 100 * β) ≤ (302 / 100 * (β * e)) * (101 / 100 * β) :=
      mul_le_mul_of_nonneg_right (by linarith) (by linarith)
    have h6 : (302 / 100 * (β * e)) * (101 / 100 * β) = 30502 / 10000 * (β * β * e) := by ring
    have h7 : 0 ≤ β * β * e := by positivity
    linarith
  have p1 := prod b1 r1
  have p2 := prod b2 r2
  have p3 := prod b3 r3
  obtain ⟨v1, v2, v3⟩ := hf
  have hpos : 0 ≤ u * (β * β * e) := by positivity
  have huu := mul_le_mul_of_nonneg_left hββ hu0
  obtain ⟨z, hz, ez, -⟩ := val_sum3 A (s := 93 / 10 * (β * β * e)) hu (by linarith) (by linarith) k1 k2 k3 v1 v2 v3
    (by linarith)
  have fd := err_dot q1 q2 q3 r1 r2 r3 e1 e2 e3 f1 f2 f3
  refine ⟨|z|, |(b'.x * X.m11 + b'.y * X.m21 + b'.z * X.m31) * (x.x / x.z) +
      (b'.x * X.m12 + b'.y * X.m22 + b'.z * X.m32) * (x.y / x.z) + (b'.x * X.m13 + b'.y * X.m23 + b'.z * X.m33) * 1|,
    J.abs_num _ _ hz, ?_, ?_⟩
  · unfold essentialResidual cdiv
    simp only [if_neg hx, if_neg hy, Option.bind_eq_bind, Option.bind_some, Option.pure_def, div_self hx, div_self hy, hb']
    congr 2
    simp only [lin]
    ring
  · refine (abs_abs_sub_abs_le _ _).trans ?_
    have := abs_sub_le z (g1 * f.x + g2 * f.y + g3 * f.z) ((b'.x * X.m11 + b'.y * X.m21 + b'.z * X.m31) * (x.x / x.z) +
      (b'.x * X.m12 + b'.y * X.m22 + b'.z * X.m32) * (x.y / x.z) + (b'.x * X.m13 + b'.y * X.m23 + b'.z * X.m33) * 1)
    have h8 : 3 * (13 * (u * (β * e)) * (101 / 100 * β)) + 3 * (3 * (β * e) * (101 / 100 * (u * β))) =
      (39 * (101 / 100) + 9 * (101 / 100)) * (u * (β * β * e)) := by ring
    rw [h8] at fd
    linarith

end Verif.Geo.Rounded
