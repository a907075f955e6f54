import Verif.Lemmas.FloatGeom

/-!
# Errors of floating point operations
-/

namespace Verif.Akaze

open FloatOps
open Verif.Bicubic (Flt)

/-- Numbers up to `M` are rounded to numbers, with a relative error of at most `u` and, for those too small for the type,
an absolute error of at most `η`. For `f64`: 2⁻⁵³, 2⁻¹⁰⁷⁵. -/
structure Accurate {F : Type} [FloatOps F] (J : Ieee F) (u η M : ℝ) : Prop where
  u_nonneg : 0 ≤ u
  η_nonneg : 0 ≤ η
  rnd : ∀ x, |x| ≤ M → ∃ y, J.rnd x = .num y ∧ |y - x| ≤ u * |x| + η

variable {F : Type} [FloatOps F] {J : Ieee F} {u η M : ℝ}

theorem Accurate.add (A : Accurate J u η M) {a b : F} {x y : ℝ} (ha : J.val a = .num x) (hb : J.val b = .num y)
    (h : |x + y| ≤ M) : ∃ z, J.val (a + b) = .num z ∧ |z - (x + y)| ≤ u * |x + y| + η := by
  rw [J.add, ha, hb]; exact A.rnd _ h

theorem Accurate.sub (A : Accurate J u η M) {a b : F} {x y : ℝ} (ha : J.val a = .num x) (hb : J.val b = .num y)
    (h : |x - y| ≤ M) : ∃ z, J.val (a - b) = .num z ∧ |z - (x - y)| ≤ u * |x - y| + η := by
  rw [J.sub, ha, hb]; exact A.rnd _ h

theorem Accurate.mul (A : Accurate J u η M) {a b : F} {x y : ℝ} (ha : J.val a = .num x) (hb : J.val b = .num y)
    (h : |x * y| ≤ M) : ∃ z, J.val (a * b) = .num z ∧ |z - x * y| ≤ u * |x * y| + η := by
  rw [J.mul, ha, hb]; exact A.rnd _ h

theorem Accurate.div (A : Accurate J u η M) {a b : F} {x y : ℝ} (ha : J.val a = .num x) (hb : J.val b = .num y)
    (hy : y ≠ 0) (h : |x / y| ≤ M) : ∃ z, J.val (a / b) = .num z ∧ |z - x / y| ≤ u * |x / y| + η := by
  rw [J.div a b x y ha hb hy]; exact A.rnd _ h

theorem Accurate.sqrt (A : Accurate J u η M) {a : F} {x : ℝ} (ha : J.val a = .num x) (h0 : 0 ≤ x) (h : √x ≤ M) :
    ∃ z, J.val (FloatOps.sqrt a) = .num z ∧ |z - √x| ≤ u * √x + η := by
  rw [J.sqrt_num a x ha, if_neg (not_lt.2 h0)]
  have e : |√x| = √x := abs_of_nonneg (Real.sqrt_nonneg x)
  have := A.rnd (√x) (by rw [e]; exact h)
  rwa [e] at this

/-- Rounding keeps the order with numbers of the type. -/
theorem Ieee.rnd_ge {x y z : ℝ} {a : F} (ha : J.val a = .num x) (hx : x ≤ y) (hz : J.rnd y = .num z) : x ≤ z := by
  have := J.rnd_mono x y hx
  rw [J.rnd_val a x ha, hz] at this
  exact this

end Verif.Akaze

namespace Verif.Geo.Rounded

/-- One rounded operation on inexact arguments: `v` is `z` rounded, `z` is near `w`. -/
theorem err_step {u η v z w e R : ℝ} (hu : 0 ≤ u) (h1 : |v - z| ≤ u * |z| + η) (h2 : |z - w| ≤ e) (h3 : |w| ≤ R) :
    |v - w| ≤ e + u * (R + e) + η := by
  have hz : |z| ≤ R + e := by
    have : |z| ≤ |z - w| + |w| := by simpa using abs_add_le (z - w) w
    linarith
  have : |v - w| ≤ |v - z| + |z - w| := abs_sub_le v z w
  have := mul_le_mul_of_nonneg_left hz hu
  linarith

theorem abs_le_add {x y e R : ℝ} (h : |x - y| ≤ e) (hy : |y| ≤ R) : |x| ≤ R + e := by
  have : |x| ≤ |x - y| + |y| := by simpa using abs_add_le (x - y) y
  linarith

/-- Coordinates divided by a length and by each other: the length drops out. -/
theorem err_quotient {u η B x n p q v : ℝ} (hu0 : 0 ≤ u) (hu : u ≤ 1 / 1024) (hη0 : 0 ≤ η) (hη : 1024 * (η * B) ≤ u)
    (hB : 1 ≤ B) (hn : 1 ≤ n) (hn2 : n ≤ 2 * B) (hx : |x| ≤ 11 / 10 * B)
    (hp : |p - x / n| ≤ u * |x / n| + η) (hq : |q - 1 / n| ≤ u * |1 / n| + η)
    (hv : |v - p / q| ≤ u * |p / q| + η) :
    0 < q ∧ |p / q| ≤ 2 * B ∧ |p / q - x| ≤ 3 * (u * B) ∧ |v - x| ≤ 4 * (u * B) := by
  have hn0 : 0 < n := by linarith
  have ht : n * η ≤ u / 512 := by nlinarith
  have huB : u ≤ u * B := by nlinarith
  have e1 : |n * p - x| ≤ 12 / 10 * (u * B) := by
    have : n * p - x = n * (p - x / n) := by field_simp
    rw [this, abs_mul, abs_of_pos hn0]
    have h2 : n * |p - x / n| ≤ n * (u * |x / n| + η) := mul_le_mul_of_nonneg_left hp hn0.le
    have h3 : n * (u * |x / n| + η) = u * |x| + n * η := by
      rw [abs_div, abs_of_pos hn0]; field_simp
    have h4 : u * |x| ≤ u * (11 / 10 * B) := mul_le_mul_of_nonneg_left hx hu0
    linarith
  have e2 : |n * q - 1| ≤ 101 / 100 * u := by
    have : n * q - 1 = n * (q - 1 / n) := by field_simp
    rw [this, abs_mul, abs_of_pos hn0]
    have h2 : n * |q - 1 / n| ≤ n * (u * |1 / n| + η) := mul_le_mul_of_nonneg_left hq hn0.le
    have h3 : n * (u * |1 / n| + η) = u + n * η := by
      rw [abs_div, abs_of_pos hn0, abs_one]; field_simp
    linarith
  have hq1 : 99 / 100 ≤ n * q := by have := (abs_le.1 e2).1; linarith
  have hq0 : 0 < q := by
    by_contra h
    have : n * q ≤ 0 := mul_nonpos_of_nonneg_of_nonpos hn0.le (not_lt.1 h)
    linarith
  have e3 : |p / q - x| ≤ 26 / 10 * (u * B) := by
    have : p / q - x = ((n * p - x) - x * (n * q - 1)) / (n * q) := by field_simp; ring
    rw [this, abs_div, abs_of_pos (by linarith : 0 < n * q), div_le_iff₀ (by linarith)]
    have h1 : |(n * p - x) - x * (n * q - 1)| ≤ |n * p - x| + |x| * |n * q - 1| := by
      rw [← abs_mul]; exact abs_sub _ _
    have h2 : |x| * |n * q - 1| ≤ (11 / 10 * B) * (101 / 100 * u) :=
      mul_le_mul hx e2 (abs_nonneg _) (by linarith)
    have h3 : 26 / 10 * (u * B) * (99 / 100) ≤ 26 / 10 * (u * B) * (n * q) :=
      mul_le_mul_of_nonneg_left hq1 (by positivity)
    nlinarith
  have h4 := err_step hu0 hv e3 hx
  have h5 : u * (11 / 10 * B + 26 / 10 * (u * B)) ≤ 12 / 10 * (u * B) := by
    have : u * (u * B) ≤ 1 / 1024 * (u * B) := mul_le_mul_of_nonneg_right hu (by positivity)
    nlinarith
  have h6 : η ≤ u * B / 1024 := by nlinarith
  have h8 : 0 ≤ u * B := by positivity
  refine ⟨hq0, ?_, by linarith, by linarith⟩
  have := abs_le_add e3 hx
  have h7 : u * B ≤ 1 / 1024 * B := mul_le_mul_of_nonneg_right hu (by linarith)
  linarith

/-- A rounded sum of squares. -/
theorem err_sum {u η x y q r p S : ℝ} (hu0 : 0 ≤ u) (hu : u ≤ 1 / 1024) (hη : 1024 * η ≤ u)
    (hq : |q - x * x| ≤ u * |x * x| + η) (hr : |r - y * y| ≤ u * |y * y| + η)
    (hp : |p - (q + r)| ≤ u * |q + r| + η) (hS : |S - (p + 1)| ≤ u * |p + 1| + η) :
    |S - (x * x + y * y + 1)| ≤ 4 * (u * (x * x + y * y + 1)) := by
  have hx := mul_self_nonneg x
  have hy := mul_self_nonneg y
  rw [abs_of_nonneg hx] at hq
  rw [abs_of_nonneg hy] at hr
  set W := x * x + y * y + 1 with hW
  have hW1 : 1 ≤ W := by linarith
  have huW : u ≤ u * W := by nlinarith
  have huuW : u * (u * W) ≤ 1 / 1024 * (u * W) := mul_le_mul_of_nonneg_right hu (by positivity)
  have e1 : |q + r - (x * x + y * y)| ≤ 11 / 10 * (u * W) := by
    have : q + r - (x * x + y * y) = (q - x * x) + (r - y * y) := by ring
    rw [this]
    have h := abs_add_le (q - x * x) (r - y * y)
    have : u * W = u * (x * x) + u * (y * y) + u := by rw [hW]; ring
    linarith
  have e2 := err_step hu0 hp e1 (show |x * x + y * y| ≤ W by rw [abs_of_nonneg (by linarith)]; linarith)
  have h2 : |p - (x * x + y * y)| ≤ 22 / 10 * (u * W) := by
    have : u * (W + 11 / 10 * (u * W)) = u * W + 11 / 10 * (u * (u * W)) := by ring
    linarith
  have e3 := err_step hu0 hS (w := W) (e := 22 / 10 * (u * W)) (R := W)
    (by rw [show p + 1 - W = p - (x * x + y * y) by rw [hW]; ring]; exact h2) (by rw [abs_of_nonneg (by linarith)])
  have : u * (W + 22 / 10 * (u * W)) = u * W + 22 / 10 * (u * (u * W)) := by ring
  linarith

/-- A rounded root. -/
theorem err_root {u η W S n : ℝ} (hu0 : 0 ≤ u) (hu : u ≤ 1 / 1024) (hη : 1024 * η ≤ u) (hW : 1 ≤ W)
    (hS1 : 1 ≤ S) (hS : |S - W| ≤ 4 * (u * W)) (hn : |n - √S| ≤ u * √S + η) : |n * n - W| ≤ 7 * (u * W) := by
  have hs1 : 1 ≤ √S := Real.one_le_sqrt.2 hS1
  have hss : √S * √S = S := Real.mul_self_sqrt (by linarith)
  set s := √S
  have hus : u ≤ u * s := by nlinarith
  have e1 : |n - s| ≤ 101 / 100 * (u * s) := by linarith
  have husS : u * s * s = u * S := by rw [mul_assoc, hss]
  have huus : u * (u * S) ≤ 1 / 1024 * (u * S) := mul_le_mul_of_nonneg_right hu (by positivity)
  have e2 : |n * n - S| ≤ 21 / 10 * (u * S) := by
    have : n * n - S = (n - s) * (2 * s + (n - s)) := by rw [← hss]; ring
    rw [this, abs_mul]
    have h1 : |2 * s + (n - s)| ≤ 2 * s + 101 / 100 * (u * s) := by
      have := abs_add_le (2 * s) (n - s)
      rw [abs_of_pos (by linarith : (0 : ℝ) < 2 * s)] at this
      linarith
    calc |n - s| * |2 * s + (n - s)| ≤ 101 / 100 * (u * s) * (2 * s + 101 / 100 * (u * s)) :=
          mul_le_mul e1 h1 (abs_nonneg _) (by positivity)
      _ = 202 / 100 * (u * S) + (101 / 100) ^ 2 * (u * (u * S)) := by rw [← hss]; ring
      _ ≤ 21 / 10 * (u * S) := by
        have : 0 ≤ u * S := by positivity
        linarith
  have hSW : S ≤ W + 4 * (u * W) := by have := (abs_le.1 hS).2; linarith
  have h3 : u * S ≤ u * W + 4 * (u * (u * W)) := by
    have := mul_le_mul_of_nonneg_left hSW hu0
    linarith
  have h4 : u * (u * W) ≤ 1 / 1024 * (u * W) := mul_le_mul_of_nonneg_right hu (by positivity)
  have h5 := abs_sub_le (n * n) S W
  have : 0 ≤ u * W := by positivity
  linarith

/-- A square of a rounded coordinate, times the square of the length. -/
theorem err_square {u η B x n p : ℝ} (hu0 : 0 ≤ u) (hu : u ≤ 1 / 1024) (hη0 : 0 ≤ η) (hη : 1024 * (η * B) ≤ u)
    (hn : 1 ≤ n) (hn2 : n ≤ 2 * B) (hp : |p - x / n| ≤ u * |x / n| + η) :
    |n * n * (p * p) - x * x| ≤ 21 / 10 * (u * (x * x)) + u / 100 := by
  have hn0 : 0 < n := by linarith
  have ht : n * η ≤ u / 512 := by nlinarith
  have ht0 : 0 ≤ n * η := by positivity
  have e1 : |n * p - x| ≤ u * |x| + u / 512 := by
    have : n * p - x = n * (p - x / n) := by field_simp
    rw [this, abs_mul, abs_of_pos hn0]
    have h2 : n * |p - x / n| ≤ n * (u * |x / n| + η) := mul_le_mul_of_nonneg_left hp hn0.le
    have h3 : n * (u * |x / n| + η) = u * |x| + n * η := by
      rw [abs_div, abs_of_pos hn0]; field_simp
    linarith
  have e2 : |n * n * (p * p) - x * x| ≤ (u * |x| + u / 512) * (2 * |x| + (u * |x| + u / 512)) := by
    have : n * n * (p * p) - x * x = (n * p - x) * (2 * x + (n * p - x)) := by ring
    rw [this, abs_mul]
    refine mul_le_mul e1 ?_ (abs_nonneg _) (by positivity)
    have := abs_add_le (2 * x) (n * p - x)
    rw [abs_mul, abs_two] at this
    linarith
  have hxx : |x| * |x| = x * x := abs_mul_abs_self x
  have hx0 := abs_nonneg x
  set a := |x|
  rw [← hxx] at e2 ⊢
  have h3 : a ≤ (a * a + 1) / 2 := by nlinarith [sq_nonneg (a - 1)]
  have h4 : u * a ≤ (u * (a * a) + u) / 2 := by
    have := mul_le_mul_of_nonneg_left h3 hu0
    linarith
  have h5 : u * (u * (a * a)) ≤ 1 / 1024 * (u * (a * a)) := mul_le_mul_of_nonneg_right hu (by positivity)
  have h6 : u * (u * a) ≤ 1 / 1024 * (u * a) := mul_le_mul_of_nonneg_right hu (by positivity)
  have h7 : u * u ≤ 1 / 1024 * u := mul_le_mul_of_nonneg_right hu hu0
  have e : (u * a + u / 512) * (2 * a + (u * a + u / 512)) =
      2 * (u * (a * a)) + u * (u * (a * a)) + 2 / 512 * (u * a) + 2 / 512 * (u * (u * a)) + u * u / 512 ^ 2 := by ring
  rw [e] at e2
  have : 0 ≤ u * (a * a) := by positivity
  linarith

/-- The squares of the three rounded coordinates add up to nearly one. -/
theorem err_unit {u η B x y n p q r : ℝ} (hu0 : 0 ≤ u) (hu : u ≤ 1 / 1024) (hη0 : 0 ≤ η) (hη : 1024 * (η * B) ≤ u)
    (hn : 1 ≤ n) (hn2 : n ≤ 2 * B) (hnn : |n * n - (x * x + y * y + 1)| ≤ 7 * (u * (x * x + y * y + 1)))
    (hp : |p - x / n| ≤ u * |x / n| + η) (hq : |q - y / n| ≤ u * |y / n| + η) (hr : |r - 1 / n| ≤ u * |1 / n| + η) :
    |p * p + q * q + r * r - 1| ≤ 12 * u := by
  have e1 := err_square hu0 hu hη0 hη hn hn2 hp
  have e2 := err_square hu0 hu hη0 hη hn hn2 hq
  have e3 := err_square hu0 hu hη0 hη hn hn2 hr
  rw [mul_one, mul_one] at e3
  have hx := mul_self_nonneg x
  have hy := mul_self_nonneg y
  set W := x * x + y * y + 1 with hW
  have hW1 : 1 ≤ W := by linarith
  have huW : u ≤ u * W := by nlinarith
  have huuW : u * W ≤ 1 / 1024 * W := mul_le_mul_of_nonneg_right hu (by linarith)
  have hnW : 99 / 100 * W ≤ n * n := by have := (abs_le.1 hnn).1; linarith
  have hn0 : 0 < n * n := by linarith
  have key : |n * n * (p * p + q * q + r * r - 1)| ≤ 11 * (u * W) := by
    have e : n * n * (p * p + q * q + r * r - 1) = (n * n * (p * p) - x * x) + (n * n * (q * q) - y * y) +
        (n * n * (r * r) - 1) - (n * n - W) := by rw [hW]; ring
    rw [e]
    have a1 := abs_sub ((n * n * (p * p) - x * x) + (n * n * (q * q) - y * y) + (n * n * (r * r) - 1)) (n * n - W)
    have a2 := abs_add_le ((n * n * (p * p) - x * x) + (n * n * (q * q) - y * y)) (n * n * (r * r) - 1)
    have a3 := abs_add_le (n * n * (p * p) - x * x) (n * n * (q * q) - y * y)
    have hs : u * W = u * (x * x) + u * (y * y) + u := by rw [hW]; ring
    linarith
  rw [abs_mul, abs_of_pos hn0] at key
  have h1 : 99 / 100 * W * |p * p + q * q + r * r - 1| ≤ 11 * (u * W) :=
    (mul_le_mul_of_nonneg_right hnW (abs_nonneg _)).trans key
  have h2 : W * (99 / 100 * |p * p + q * q + r * r - 1|) ≤ W * (11 * u) := by linarith
  have := le_of_mul_le_mul_left h2 (by linarith)
  linarith

end Verif.Geo.Rounded
