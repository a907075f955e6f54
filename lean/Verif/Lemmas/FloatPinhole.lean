import Verif.Spec.FloatPinhole

/-!
# Rounding errors of the pinhole camera
-/

namespace Verif.Geo.Rounded

open Verif.Akaze
open Verif.Bicubic (Flt)
open Verif.Akaze.FloatOps (sqrt)
open Verif.Akaze.FloatBits (isSignNegative)
open P3P (fdot)

variable {D : Type} [FloatOps D] {J : Ieee D} {u η M : ℝ}

/-- Consequences of the bounds. -/
theorem Enough.facts (E : Enough u η M K β) (hu : 0 ≤ u) (hη : 0 ≤ η) :
    u ≤ 1 / 1024 ∧ 1024 * η ≤ u ∧ 1024 * (η * β) ≤ u ∧ u * K ≤ u * (K * β) ∧ u * β ≤ u * (K * β) ∧
      K ≤ K * β ∧ β ≤ K * β ∧ β * β ≤ K * β ∧ 1 ≤ β * β ∧ u * (u * (K * β)) ≤ 1 / 1024 * (u * (K * β)) ∧
      u * (K * β) ≤ 1 / 1024 * β := by
  obtain ⟨h1, h2, h3, h4, -⟩ := E
  have hK : 1 ≤ K := by linarith
  have a1 : u ≤ 1 / 1024 := by nlinarith
  have a2 : η ≤ η * K := by nlinarith
  have a3 : η * β ≤ η * K := mul_le_mul_of_nonneg_left h2 hη
  have a4 : K ≤ K * β := by nlinarith
  have a5 : β ≤ K * β := by nlinarith
  have a6 : u * K ≤ u * (K * β) := mul_le_mul_of_nonneg_left a4 hu
  have a7 : u * β ≤ u * (K * β) := mul_le_mul_of_nonneg_left a5 hu
  refine ⟨a1, by linarith, by linarith, a6, a7, a4, a5, mul_le_mul_of_nonneg_right h2 (by linarith), by nlinarith,
    mul_le_mul_of_nonneg_right a1 (by positivity), ?_⟩
  rw [← mul_assoc]
  exact mul_le_mul_of_nonneg_right h3 (by linarith)

/-- The rounded second normalised image coordinate. -/
theorem normalised_y_error (A : Accurate J u η M) {k : FIntrinsics D} {px py : D} {fx fy cx cy s x y K β : ℝ}
    (S : Sees J k px py fx fy cx cy s x y K β) (E : Enough u η M K β) :
    ∃ y1, J.val (k.normalised px py).2 = .num y1 ∧ |y1| ≤ 11 / 10 * β ∧ |y1 - (y - cy) / fy| ≤ 3 * (u * β) := by
  have hu := A.u_nonneg
  have hη := A.η_nonneg
  obtain ⟨f1, f2, f3, f4, f5, f6, f7, -, -, f8, f9⟩ := E.facts hu hη
  have hβ := E.one_le
  have hM := E.range
  have hKβ : 0 ≤ K * β := by linarith
  have hE : 0 ≤ u * (K * β) := by positivity
  obtain ⟨hfy1, hfyK⟩ := S.fy_range
  have hYv := S.y_view
  set Y := (y - cy) / fy with hY
  have hfyY : fy * Y = y - cy := by rw [hY]; field_simp
  have hsub : |y - cy| ≤ 2 * K := by
    have := abs_sub y cy
    linarith [S.y_range, S.cy_range]
  -- the difference and the quotient for y
  obtain ⟨c1, hc1, ec1⟩ := A.sub S.val_y S.val_cy (hsub.trans (by linarith))
  have hc1' : |c1 / fy - Y| ≤ u * β + η := by
    have e : c1 / fy - Y = (c1 - (y - cy)) / fy := by rw [hY]; ring
    rw [e, abs_div, abs_of_pos (by linarith : (0 : ℝ) < fy), div_le_iff₀ (by linarith)]
    have h1 : |y - cy| ≤ fy * β := by
      rw [← hfyY, abs_mul, abs_of_pos (by linarith : (0 : ℝ) < fy)]
      exact mul_le_mul_of_nonneg_left hYv (by linarith)
    have h2 : u * |y - cy| ≤ u * (fy * β) := mul_le_mul_of_nonneg_left h1 hu
    nlinarith
  have hquot : |c1 / fy| ≤ β + (u * β + η) := abs_le_add hc1' hYv
  have huβ : u * β ≤ 1 / 1024 * β := mul_le_mul_of_nonneg_right f1 (by linarith)
  have hηβ : 1024 * η ≤ u * β := by nlinarith
  obtain ⟨y1, hy1, ey1⟩ := A.div hc1 S.val_fy (by linarith) (hquot.trans (by linarith))
  have dy : |y1 - Y| ≤ 3 * (u * β) := by
    have := err_step hu ey1 hc1' hYv
    have : u * (β + (u * β + η)) ≤ u * β + 1 / 100 * (u * β) := by
      have h1 : u * (u * β) ≤ 1 / 1024 * (u * β) := mul_le_mul_of_nonneg_right f1 (by positivity)
      have h2 : u * η ≤ 1 * η := mul_le_mul_of_nonneg_right (by linarith) hη
      linarith
    have : 0 ≤ u * β := by positivity
    linarith
  have by1 : |y1| ≤ 11 / 10 * β := by
    have := abs_le_add dy hYv
    linarith
  exact ⟨y1, hy1, by1, dy⟩

/-- The rounded normalised image coordinates. -/
theorem normalised_error (A : Accurate J u η M) {k : FIntrinsics D} {px py : D} {fx fy cx cy s x y K β : ℝ}
    (S : Sees J k px py fx fy cx cy s x y K β) (E : Enough u η M K β) :
    ∃ x1 y1, J.val (k.normalised px py).1 = .num x1 ∧ J.val (k.normalised px py).2 = .num y1 ∧
      |x1| ≤ 11 / 10 * β ∧ |y1| ≤ 11 / 10 * β ∧
      |fx * x1 - (x - cx - s * ((y - cy) / fy))| ≤ 12 * (u * (K * β)) ∧
      |fy * y1 - (y - cy)| ≤ 3 * (u * (K * β)) ∧ |s * y1 - s * ((y - cy) / fy)| ≤ 3 * (u * (K * β)) := by
  have hu := A.u_nonneg
  have hη := A.η_nonneg
  obtain ⟨f1, f2, f3, f4, f5, f6, f7, -, -, f8, f9⟩ := E.facts hu hη
  have hβ := E.one_le
  have hM := E.range
  have hKβ : 0 ≤ K * β := by linarith
  have hE : 0 ≤ u * (K * β) := by positivity
  obtain ⟨y1, hy1, by1, dy⟩ := normalised_y_error A S E
  obtain ⟨hfx1, hfxK⟩ := S.fx_range
  obtain ⟨hfy1, hfyK⟩ := S.fy_range
  have hYv := S.y_view
  have hXv := S.x_view
  set Y := (y - cy) / fy with hY
  have hfyY : fy * Y = y - cy := by rw [hY]; field_simp
  have hsub' : |x - cx| ≤ 2 * K := by
    have := abs_sub x cx
    linarith [S.x_range, S.cx_range]
  have K0 : 0 ≤ K := by linarith
  have scale : ∀ c : ℝ, |c| ≤ K → |c * y1 - c * Y| ≤ 3 * (u * (K * β)) := by
    intro c hc
    rw [← mul_sub, abs_mul]
    have := mul_le_mul hc dy (abs_nonneg _) K0
    linarith
  have dsy := scale s S.skew_range
  -- x
  obtain ⟨a1, ha1, ea1⟩ := A.sub S.val_x S.val_cx (hsub'.trans (by linarith))
  have hsY : |s * Y| ≤ K * β := by
    rw [abs_mul]; exact mul_le_mul S.skew_range hYv (abs_nonneg _) K0
  have hsy1 : |s * y1| ≤ K * β + 3 * (u * (K * β)) := abs_le_add dsy hsY
  have hEβ : u * (K * β) ≤ 1 / 1024 * (K * β) := mul_le_mul_of_nonneg_right f1 hKβ
  have huE : u ≤ u * (K * β) := le_mul_of_one_le_right hu (by linarith)
  have hηE : 1024 * η ≤ u * (K * β) := by linarith
  obtain ⟨m1, hm1, em1⟩ := A.mul S.val_skew hy1 (hsy1.trans (by linarith))
  have dm : |m1 - s * Y| ≤ 5 * (u * (K * β)) := by
    have := err_step hu em1 dsy hsY
    have e : u * (K * β + 3 * (u * (K * β))) = u * (K * β) + 3 * (u * (u * (K * β))) := by ring
    linarith
  have da : |a1 - (x - cx)| ≤ 21 / 10 * (u * (K * β)) := by
    have : u * |x - cx| ≤ u * (2 * K) := mul_le_mul_of_nonneg_left hsub' hu
    linarith
  have hD : |x - cx - s * Y| ≤ K * β := by
    have e : x - cx - s * Y = fx * ((x - cx - s * Y) / fx) := by field_simp
    rw [e, abs_mul, abs_of_pos (by linarith : (0 : ℝ) < fx)]
    exact mul_le_mul hfxK hXv (abs_nonneg _) K0
  have dd : |a1 - m1 - (x - cx - s * Y)| ≤ 8 * (u * (K * β)) := by
    have e : a1 - m1 - (x - cx - s * Y) = (a1 - (x - cx)) - (m1 - s * Y) := by ring
    rw [e]
    have := abs_sub (a1 - (x - cx)) (m1 - s * Y)
    linarith
  have hdm : |a1 - m1| ≤ K * β + 8 * (u * (K * β)) := abs_le_add dd hD
  obtain ⟨d1, hd1, ed1⟩ := A.sub ha1 hm1 (hdm.trans (by linarith))
  have dd1 : |d1 - (x - cx - s * Y)| ≤ 10 * (u * (K * β)) := by
    have := err_step hu ed1 dd hD
    have e : u * (K * β + 8 * (u * (K * β))) = u * (K * β) + 8 * (u * (u * (K * β))) := by ring
    linarith
  have hd1' : |d1| ≤ K * β + 10 * (u * (K * β)) := abs_le_add dd1 hD
  have hdfx : |d1 / fx| ≤ |d1| := by
    rw [abs_div, abs_of_pos (by linarith : (0 : ℝ) < fx)]
    exact div_le_self (abs_nonneg _) hfx1
  obtain ⟨x1, hx1, ex1⟩ := A.div hd1 S.val_fx (by linarith) (hdfx.trans (hd1'.trans (by linarith)))
  have dx : |fx * x1 - (x - cx - s * Y)| ≤ 12 * (u * (K * β)) := by
    have e : fx * x1 - (x - cx - s * Y) = fx * (x1 - d1 / fx) + (d1 - (x - cx - s * Y)) := by field_simp; ring
    rw [e]
    have h1 := abs_add_le (fx * (x1 - d1 / fx)) (d1 - (x - cx - s * Y))
    rw [abs_mul, abs_of_pos (by linarith : (0 : ℝ) < fx)] at h1
    have h2 : fx * |x1 - d1 / fx| ≤ fx * (u * |d1 / fx| + η) := mul_le_mul_of_nonneg_left ex1 (by linarith)
    have h3 : fx * (u * |d1 / fx| + η) = u * |d1| + fx * η := by
      rw [abs_div, abs_of_pos (by linarith : (0 : ℝ) < fx)]; field_simp
    have h4 : u * |d1| ≤ u * (K * β + 10 * (u * (K * β))) := mul_le_mul_of_nonneg_left hd1' hu
    have h5 : fx * η ≤ K * η := mul_le_mul_of_nonneg_right hfxK hη
    have h6 : 1024 * (K * η) ≤ u * (K * β) := by
      have := E.tiny
      linarith
    have e2 : u * (K * β + 10 * (u * (K * β))) = u * (K * β) + 10 * (u * (u * (K * β))) := by ring
    linarith
  have bx1 : |x1| ≤ 11 / 10 * β := by
    have e : x1 - (x - cx - s * Y) / fx = (fx * x1 - (x - cx - s * Y)) / fx := by field_simp
    have h1 : |x1 - (x - cx - s * Y) / fx| ≤ 12 * (u * (K * β)) := by
      rw [e, abs_div, abs_of_pos (by linarith : (0 : ℝ) < fx)]
      exact (div_le_self (abs_nonneg _) hfx1).trans dx
    have := abs_le_add h1 hXv
    linarith
  refine ⟨x1, y1, hx1, hy1, bx1, by1, dx, ?_, dsy⟩
  rw [← hfyY]
  exact scale fy (by rw [abs_of_pos (by linarith)]; exact hfyK)

theorem val_one_one : J.val ((1 : D) * 1) = .num 1 := by
  rw [J.mul, J.one]
  have := J.rnd_val 1 1 J.one
  simpa [Flt.mul, roundedBy] using this

/-- The rounded length of a direction. -/
theorem norm_error (A : Accurate J u η M) {K β x1 y1 : ℝ} {a b : D} (E : Enough u η M K β) (ha : J.val a = .num x1)
    (hb : J.val b = .num y1) (hx : |x1| ≤ 11 / 10 * β) (hy : |y1| ≤ 11 / 10 * β) :
    ∃ n, J.val (fnorm ⟨a, b, 1⟩) = .num n ∧ 1 ≤ n ∧ n ≤ 2 * β ∧
      |n * n - (x1 * x1 + y1 * y1 + 1)| ≤ 7 * (u * (x1 * x1 + y1 * y1 + 1)) := by
  have hu := A.u_nonneg
  have hη := A.η_nonneg
  obtain ⟨f1, f2, -, -, -, -, -, f3, f4, -, -⟩ := E.facts hu hη
  have hβ := E.one_le
  have hM := E.range
  have sq : ∀ {z : ℝ}, |z| ≤ 11 / 10 * β → z * z ≤ 121 / 100 * (β * β) := by
    intro z hz
    rw [← abs_mul_abs_self z]
    have := mul_le_mul hz hz (abs_nonneg _) (by linarith)
    linarith
  have hxx := mul_self_nonneg x1
  have hyy := mul_self_nonneg y1
  have sx := sq hx
  have sy := sq hy
  obtain ⟨q, hq, eq⟩ := A.mul ha ha (by rw [abs_of_nonneg hxx]; linarith)
  obtain ⟨r, hr, er⟩ := A.mul hb hb (by rw [abs_of_nonneg hyy]; linarith)
  have hq0 : 0 ≤ q := J.rnd_ge J.zero hxx (by rw [J.mul, ha] at hq; exact hq)
  have hr0 : 0 ≤ r := J.rnd_ge J.zero hyy (by rw [J.mul, hb] at hr; exact hr)
  have hqs : q ≤ 122 / 100 * (β * β) + 1 / 100 := by
    have h1 := (abs_le.1 eq).2
    rw [abs_of_nonneg hxx] at h1
    have : u * (x1 * x1) ≤ 1 / 1024 * (x1 * x1) := mul_le_mul_of_nonneg_right f1 hxx
    linarith
  have hrs : r ≤ 122 / 100 * (β * β) + 1 / 100 := by
    have h1 := (abs_le.1 er).2
    rw [abs_of_nonneg hyy] at h1
    have : u * (y1 * y1) ≤ 1 / 1024 * (y1 * y1) := mul_le_mul_of_nonneg_right f1 hyy
    linarith
  obtain ⟨p, hp, ep⟩ := A.add hq hr (by rw [abs_of_nonneg (by linarith)]; linarith)
  have hp0 : 0 ≤ p := J.rnd_ge J.zero (by linarith : (0 : ℝ) ≤ q + r) (by rw [J.add, hq, hr] at hp; exact hp)
  have hps : p ≤ 25 / 10 * (β * β) + 1 / 10 := by
    have h1 := (abs_le.1 ep).2
    rw [abs_of_nonneg (by linarith : (0 : ℝ) ≤ q + r)] at h1
    have : u * (q + r) ≤ 1 / 1024 * (q + r) := mul_le_mul_of_nonneg_right f1 (by linarith)
    linarith
  have h11 : J.val ((1 : D) * 1) = .num 1 := val_one_one
  obtain ⟨t, ht, et⟩ := A.add hp h11 (by rw [abs_of_nonneg (by linarith)]; linarith)
  have ht1 : 1 ≤ t := J.rnd_ge J.one (by linarith : (1 : ℝ) ≤ p + 1) (by rw [J.add, hp, h11] at ht; exact ht)
  have es := err_sum hu f1 f2 eq er ep et
  have hsq1 : 1 ≤ √t := Real.one_le_sqrt.2 ht1
  have htM : t ≤ 4 * (β * β) := by
    have h1 := (abs_le.1 et).2
    rw [abs_of_nonneg (by linarith : (0 : ℝ) ≤ p + 1)] at h1
    have : u * (p + 1) ≤ 1 / 1024 * (p + 1) := mul_le_mul_of_nonneg_right f1 (by linarith)
    linarith
  have hsqM : √t ≤ t := by
    have := Real.mul_self_sqrt (by linarith : (0 : ℝ) ≤ t)
    nlinarith
  obtain ⟨n, hn, en⟩ := A.sqrt ht (by linarith) (hsqM.trans (by linarith))
  have hn1 : 1 ≤ n := J.rnd_ge J.one hsq1 (by
    rw [J.sqrt_num _ _ ht, if_neg (by linarith)] at hn; exact hn)
  have en2 := err_root hu f1 f2 (W := x1 * x1 + y1 * y1 + 1) (by linarith) ht1 es en
  refine ⟨n, hn, hn1, ?_, en2⟩
  have h1 := (abs_le.1 en2).2
  have h2 : u * (x1 * x1 + y1 * y1 + 1) ≤ 1 / 1024 * (x1 * x1 + y1 * y1 + 1) :=
    mul_le_mul_of_nonneg_right f1 (by linarith)
  have h3 : n * n ≤ (2 * β) * (2 * β) := by linarith
  exact (mul_self_le_mul_self_iff (by linarith) (by linarith)).2 h3

/-- The rounded bearing. -/
theorem bearing_error (A : Accurate J u η M) {k : FIntrinsics D} {px py : D} {fx fy cx cy s x y K β : ℝ}
    (S : Sees J k px py fx fy cx cy s x y K β) (E : Enough u η M K β) :
    ∃ x1 y1 n p q r, J.val (k.calibrate px py).x = .num p ∧ J.val (k.calibrate px py).y = .num q ∧
      J.val (k.calibrate px py).z = .num r ∧
      |x1| ≤ 11 / 10 * β ∧ |y1| ≤ 11 / 10 * β ∧
      |fx * x1 - (x - cx - s * ((y - cy) / fy))| ≤ 12 * (u * (K * β)) ∧
      |fy * y1 - (y - cy)| ≤ 3 * (u * (K * β)) ∧ |s * y1 - s * ((y - cy) / fy)| ≤ 3 * (u * (K * β)) ∧
      1 ≤ n ∧ n ≤ 2 * β ∧ |n * n - (x1 * x1 + y1 * y1 + 1)| ≤ 7 * (u * (x1 * x1 + y1 * y1 + 1)) ∧
      |p - x1 / n| ≤ u * |x1 / n| + η ∧ |q - y1 / n| ≤ u * |y1 / n| + η ∧ |r - 1 / n| ≤ u * |1 / n| + η := by
  obtain ⟨x1, y1, hx1, hy1, bx, by1, d1, d2, d3⟩ := normalised_error A S E
  obtain ⟨n, hn, hn1, hn2, hnn⟩ := norm_error A E hx1 hy1 bx by1
  have hβ := E.one_le
  have hM := E.range
  obtain ⟨-, -, -, -, -, -, f7, -, -, -, -⟩ := E.facts A.u_nonneg A.η_nonneg
  have small : ∀ z : ℝ, |z / n| ≤ |z| := by
    intro z
    rw [abs_div, abs_of_pos (by linarith : (0 : ℝ) < n)]
    exact div_le_self (abs_nonneg _) hn1
  obtain ⟨p, hp, ep⟩ := A.div hx1 hn (by linarith) ((small x1).trans (bx.trans (by linarith)))
  obtain ⟨q, hq, eq⟩ := A.div hy1 hn (by linarith) ((small y1).trans (by1.trans (by linarith)))
  obtain ⟨r, hr, er⟩ := A.div J.one hn (by linarith) ((small 1).trans (by rw [abs_one]; linarith))
  exact ⟨x1, y1, n, p, q, r, hp, hq, hr, bx, by1, d1, d2, d3, hn1, hn2, hnn, ep, eq, er⟩

theorem uncalibrate_front [FloatBits D] (B : IeeeBits J) (k : FIntrinsics D) {b : V3 D} {z : ℝ} (hz : J.val b.z = .num z)
    (h : 0 < z) : k.uncalibrate b = some (k.pixel (b.x / b.z) (b.y / b.z)) := by
  unfold FIntrinsics.uncalibrate
  rw [if_neg (fun hn => not_lt.2 h.le ((B.sign_num _ _ hz h.ne').1 hn))]

theorem uncalibrateK1_front [FloatBits D] (B : IeeeBits J) (k : FIntrinsicsK1 D) {b : V3 D} {z : ℝ}
    (hz : J.val b.z = .num z) (h : 0 < z) :
    k.uncalibrate b = some (k.simple.pixel
      (b.x / b.z * (1 + k.change (b.x / b.z * (b.x / b.z) + b.y / b.z * (b.y / b.z))))
      (b.y / b.z * (1 + k.change (b.x / b.z * (b.x / b.z) + b.y / b.z * (b.y / b.z))))) := by
  unfold FIntrinsicsK1.uncalibrate
  rw [if_neg (fun hn => not_lt.2 h.le ((B.sign_num _ _ hz h.ne').1 hn))]

theorem not_over_zero (Z : ZeroOverZero J) {a b : D} {x : ℝ} (ha : J.val a = .num x) (hb : J.val b = .num 0) :
    J.NotNumber (a / b) := by
  by_cases hx : x = 0
  · exact not_of_nan (Z a b (by rw [ha, hx]) hb)
  · obtain ⟨s, hs⟩ := J.div_zero a b x ha hb hx
    intro y
    rw [hs]; simp

theorem val_sub_self {a : D} {x : ℝ} (h : J.val a = .num x) : J.val (a - a) = .num 0 := by
  rw [J.sub, h]
  show roundedBy J.rnd (Flt.num (x + -x)) = _
  rw [add_neg_cancel]
  exact J.rnd_val 0 0 J.zero

theorem val_mul_zero {a b : D} {x : ℝ} (h : J.val a = .num x) (hb : J.val b = .num 0) : J.val (a * b) = .num 0 := by
  rw [J.mul, h, hb]
  show roundedBy J.rnd (Flt.num (x * 0)) = _
  rw [mul_zero]
  exact J.rnd_val 0 0 J.zero

theorem val_zero_mul {a b : D} {x : ℝ} (ha : J.val a = .num 0) (h : J.val b = .num x) : J.val (a * b) = .num 0 := by
  rw [J.mul, ha, h]
  show roundedBy J.rnd (Flt.num (0 * x)) = _
  rw [zero_mul]
  exact J.rnd_val 0 0 J.zero

theorem val_zero_div {a b : D} {x : ℝ} (ha : J.val a = .num 0) (h : J.val b = .num x) (hx : x ≠ 0) :
    J.val (a / b) = .num 0 := by
  rw [J.div a b 0 x ha h hx, zero_div]
  exact J.rnd_val 0 0 J.zero

theorem val_zero_sub {a b : D} (ha : J.val a = .num 0) (hb : J.val b = .num 0) : J.val (a - b) = .num 0 := by
  rw [J.sub, ha, hb]
  show roundedBy J.rnd (Flt.num (0 + -0)) = _
  rw [neg_zero, add_zero]
  exact J.rnd_val 0 0 J.zero

theorem val_zero_add {a b : D} {x : ℝ} (ha : J.val a = .num 0) (hb : J.val b = .num x) : J.val (a + b) = .num x := by
  rw [J.add, ha, hb]
  show roundedBy J.rnd (Flt.num (0 + x)) = _
  rw [zero_add]
  exact J.rnd_val b x hb

theorem val_add_zero {a b : D} {x : ℝ} (ha : J.val a = .num x) (hb : J.val b = .num 0) : J.val (a + b) = .num x := by
  rw [J.add, ha, hb]
  show roundedBy J.rnd (Flt.num (x + 0)) = _
  rw [add_zero]
  exact J.rnd_val a x ha

theorem val_mul_one {a b : D} {x : ℝ} (ha : J.val a = .num x) (hb : J.val b = .num 1) : J.val (a / b) = .num x := by
  rw [J.div a b x 1 ha hb one_ne_zero, div_one]
  exact J.rnd_val a x ha

/-- The normalised coordinates of the principal point. -/
theorem normalised_centre (k : FIntrinsics D) {fx fy cx cy s : ℝ} (hfx : J.val k.fx = .num fx)
    (hfy : J.val k.fy = .num fy) (hcx : J.val k.cx = .num cx) (hcy : J.val k.cy = .num cy) (hs : J.val k.skew = .num s)
    (h1 : fx ≠ 0) (h2 : fy ≠ 0) :
    J.val (k.normalised k.cx k.cy).1 = .num 0 ∧ J.val (k.normalised k.cx k.cy).2 = .num 0 := by
  have hy := val_zero_div (val_sub_self hcy) hfy h2
  exact ⟨val_zero_div (val_zero_sub (val_sub_self hcx) (val_mul_zero hs hy)) hfx h1, hy⟩

/-- The direction of the optical axis. -/
theorem normalise_axis {x y : D} (hx : J.val x = .num 0) (hy : J.val y = .num 0) :
    J.val (fnormalize ⟨x, y, 1⟩).x = .num 0 ∧ J.val (fnormalize ⟨x, y, 1⟩).y = .num 0 ∧
      J.val (fnormalize ⟨x, y, 1⟩).z = .num 1 := by
  have hn : J.val (fnorm ⟨x, y, 1⟩) = .num 1 := by
    show J.val (sqrt (x * x + y * y + 1 * 1)) = _
    have : J.val (x * x + y * y + 1 * 1) = .num 1 :=
      val_zero_add (val_zero_add (val_mul_zero hx hx) (val_mul_zero hy hy)) val_one_one
    rw [J.sqrt_num _ _ this, if_neg (by norm_num), Real.sqrt_one]
    exact J.rnd_val 1 1 J.one
  exact ⟨val_mul_one hx hn, val_mul_one hy hn, val_mul_one J.one hn⟩

theorem mul_zero_cases {a b : D} (hb : J.val b = .num 0) : J.val (a * b) = .num 0 ∨ J.val (a * b) = .nan := by
  rw [J.mul, hb]
  rcases J.val a with _ | s | x
  · right; rfl
  · right; simp [Flt.mul, roundedBy]
  · left
    show roundedBy J.rnd (Flt.num (x * 0)) = _
    rw [mul_zero]
    exact J.rnd_val 0 0 J.zero

/-- At the centre the change of the distance is not a number, for every coefficient. -/
theorem change_centre (Z : ZeroOverZero J) (k : FIntrinsicsK1 D) {u2 : D} (hu : J.val u2 = .num 0) :
    J.val (k.change u2) = .nan := by
  unfold FIntrinsicsK1.change
  rcases mul_zero_cases (a := 2 * k.k1) hu with h2 | h2
  · rcases mul_zero_cases (a := 4 * k.k1) hu with h4 | h4
    · refine Z _ _ ?_ h2
      have h1 : J.val (1 - 4 * k.k1 * u2) = .num 1 := by
        rw [J.sub, J.one, h4]
        show roundedBy J.rnd (Flt.num (1 + -0)) = _
        rw [neg_zero, add_zero]
        exact J.rnd_val 1 1 J.one
      have h5 : J.val (sqrt (1 - 4 * k.k1 * u2)) = .num 1 := by
        rw [J.sqrt_num _ _ h1, if_neg (by norm_num), Real.sqrt_one]
        exact J.rnd_val 1 1 J.one
      have h6 : J.val (2 * k.k1 * u2 + sqrt (1 - 4 * k.k1 * u2) - 1) = .num 0 := by
        rw [J.sub, val_zero_add h2 h5, J.one]
        show roundedBy J.rnd (Flt.num (1 + -1)) = _
        rw [add_neg_cancel]
        exact J.rnd_val 0 0 J.zero
      rw [J.neg, h6]
      simp [Flt.neg]
    · exact nan_div (.inl (nan_neg (nan_sub (.inl (nan_add (.inr (nan_sqrt (nan_sub (.inr h4)))))))))
  · exact nan_div (.inr h2)

end Verif.Geo.Rounded
