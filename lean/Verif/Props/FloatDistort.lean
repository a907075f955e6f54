import Verif.Lemmas.FloatDistort
import Verif.Spec.FloatDistort

/-!
# C106: the round trip of a pixel through a camera with radial distortion
-/

namespace Verif.Geo.Rounded

open Verif.Akaze
open Verif.Bicubic (Flt)
open Verif.Akaze.FloatOps (sqrt)
open Verif.Akaze.FloatBits (isSignNegative)

variable {D : Type} [FloatOps D] {J : Ieee D} {u η M : ℝ}

/-- Normalising a direction and dividing by its last coordinate. -/
theorem divide_back (A : Accurate J u η M) {K β x y : ℝ} {a b : D} (E : Enough u η M K β) (ha : J.val a = .num x)
    (hb : J.val b = .num y) (hx : |x| ≤ 11 / 10 * β) (hy : |y| ≤ 11 / 10 * β) :
    ∃ r x2 y2, J.val (fnormalize ⟨a, b, 1⟩).z = .num r ∧ 0 < r ∧
      J.val ((fnormalize ⟨a, b, 1⟩).x / (fnormalize ⟨a, b, 1⟩).z) = .num x2 ∧
      J.val ((fnormalize ⟨a, b, 1⟩).y / (fnormalize ⟨a, b, 1⟩).z) = .num y2 ∧
      |x2 - x| ≤ 4 * (u * β) ∧ |y2 - y| ≤ 4 * (u * β) := by
  obtain ⟨n, hn, hn1, hn2, hnn⟩ := norm_error A E ha hb hx hy
  have hu := A.u_nonneg
  have hη := A.η_nonneg
  have hβ := E.one_le
  have hM := E.range
  obtain ⟨f1, f2, f3, -, -, -, f7, -, -, -, -⟩ := E.facts hu hη
  have small : ∀ z : ℝ, |z / n| ≤ |z| := by
    intro z
    rw [abs_div, abs_of_pos (by linarith : (0 : ℝ) < n)]
    exact div_le_self (abs_nonneg _) hn1
  obtain ⟨p, hp, ep⟩ := A.div ha hn (by linarith) ((small x).trans (hx.trans (by linarith)))
  obtain ⟨q, hq, eq⟩ := A.div hb hn (by linarith) ((small y).trans (hy.trans (by linarith)))
  obtain ⟨r, hr, er⟩ := A.div J.one hn (by linarith) ((small 1).trans (by rw [abs_one]; linarith))
  obtain ⟨hr0, bp, -, -⟩ := err_quotient (v := p / r) hu f1 hη f3 E.one_le hn1 hn2 hx ep er
    (by rw [sub_self, abs_zero]; positivity)
  obtain ⟨-, bq, -, -⟩ := err_quotient (v := q / r) hu f1 hη f3 E.one_le hn1 hn2 hy eq er
    (by rw [sub_self, abs_zero]; positivity)
  obtain ⟨x2, hx2, ex2⟩ := A.div hp hr hr0.ne' (bp.trans (by linarith))
  obtain ⟨y2, hy2, ey2⟩ := A.div hq hr hr0.ne' (bq.trans (by linarith))
  obtain ⟨-, -, -, e1⟩ := err_quotient hu f1 hη f3 E.one_le hn1 hn2 hx ep er ex2
  obtain ⟨-, -, -, e2⟩ := err_quotient hu f1 hη f3 E.one_le hn1 hn2 hy eq er ey2
  exact ⟨r, x2, y2, hr, hr0, hx2, hy2, e1, e2⟩

/-- Inexact coordinates are about as far from the centre. -/
theorem radius_near {x y X Y ρ : ℝ} (ρ0 : 0 < ρ) (h : ρ * ρ = X * X + Y * Y) (hx : |x - X| ≤ 12 / 1024 * ρ)
    (hy : |y - Y| ≤ 3 / 1024 * ρ) :
    ∃ r, 0 < r ∧ r * r = x * x + y * y ∧ |x| ≤ r ∧ |y| ≤ r ∧ 98 / 100 * ρ ≤ r ∧ r ≤ 1015 / 1000 * ρ ∧
      97 / 100 * (ρ * ρ) ≤ r * r ∧ r * r ≤ 103 / 100 * (ρ * ρ) := by
  have bX : |X| ≤ ρ := abs_le_of_sq_le_sq (by nlinarith [mul_self_nonneg Y]) ρ0.le
  have bY : |Y| ≤ ρ := abs_le_of_sq_le_sq (by nlinarith [mul_self_nonneg X]) ρ0.le
  have one : ∀ {a b c : ℝ}, c ≤ 12 / 1024 → |a - b| ≤ c * ρ → |b| ≤ ρ → |a * a - b * b| ≤ (2 + 12 / 1024) * c * (ρ * ρ) := by
    intro a b c hc h1 hb
    have c0 : 0 ≤ c * ρ := (abs_nonneg _).trans h1
    rw [show a * a - b * b = (a - b) * (a + b) by ring, abs_mul]
    have h2 : |a + b| ≤ (2 + 12 / 1024) * ρ := by
      have h3 := abs_le_add h1 hb
      have := abs_add_le a b
      have := mul_le_mul_of_nonneg_right hc ρ0.le
      linarith
    have := mul_le_mul h1 h2 (abs_nonneg _) c0
    linarith
  have h1 := abs_le.1 (one le_rfl hx bX)
  have h2 := abs_le.1 (one (by norm_num) hy bY)
  have ρρ : 0 < ρ * ρ := by positivity
  have l1 : 97 / 100 * (ρ * ρ) ≤ x * x + y * y := by linarith
  have l2 : x * x + y * y ≤ 103 / 100 * (ρ * ρ) := by linarith
  have hr : √(x * x + y * y) * √(x * x + y * y) = x * x + y * y := Real.mul_self_sqrt (by linarith)
  have hp : 0 < √(x * x + y * y) := Real.sqrt_pos.2 (by linarith)
  refine ⟨√(x * x + y * y), hp, hr, ?_, ?_, ?_, ?_, by linarith, by linarith⟩
  · exact Real.abs_le_sqrt (by nlinarith [mul_self_nonneg y])
  · exact Real.abs_le_sqrt (by nlinarith [mul_self_nonneg x])
  · exact Real.le_sqrt_of_sq_le (by nlinarith)
  · exact Real.sqrt_le_iff.2 ⟨by positivity, by nlinarith⟩

set_option maxHeartbeats 4000000 in
/-- **C106** With radial distortion `uncalibrate` after `calibrate` returns a pixel, at most `92 u K β + 20 u K ρ / |σ|` from the
first one. -/
theorem C106_k1_round_trip [FloatBits D] (B : IeeeBits J) (A : Accurate J u η M) {k : FIntrinsicsK1 D} {px py : D}
    {fx fy cx cy s k1 x y K β ρ σ : ℝ} (S : SeesK1 J k px py fx fy cx cy s k1 x y K β ρ σ)
    (E : EnoughK1 u η M K β ρ σ k1) :
    ∃ qx qy x' y', k.uncalibrate (k.calibrate px py) = some (qx, qy) ∧ J.val qx = .num x' ∧ J.val qy = .num y' ∧
      |x' - x| ≤ 92 * (u * (K * β)) + 20 * (u * (K * (ρ / |σ|))) ∧
      |y' - y| ≤ 92 * (u * (K * β)) + 20 * (u * (K * (ρ / |σ|))) := by
  obtain ⟨x1, y1, hx1, hy1, bx, by1, d1, d2, d3⟩ := normalised_error A S.sees E.enough
  have hu := A.u_nonneg
  have hη := A.η_nonneg
  obtain ⟨f1, f2, f3, f4, f5, f6, f7, f10, -, f8, f9⟩ := E.enough.facts hu hη
  have hβ := E.enough.one_le
  have hK := E.enough.le
  have K0 : 0 ≤ K := by linarith
  have hM := E.enough.range
  have ρ0 := S.pos
  have σ0 : 0 < |σ| := abs_pos.2 S.ne_zero
  have hE : 0 ≤ u * (K * β) := by positivity
  have away := E.away
  have inside := S.inside
  -- the coordinates before distortion is removed
  have g1 : |x1 - (x - cx - s * ((y - cy) / fy)) / fx| ≤ 12 / 1024 * ρ := by
    have h1 := S.sees.fx_range.1
    have e : x1 - (x - cx - s * ((y - cy) / fy)) / fx = (fx * x1 - (x - cx - s * ((y - cy) / fy))) / fx := by
      field_simp
    rw [e, abs_div, abs_of_pos (by linarith : 0 < fx)]
    exact (div_le_self (abs_nonneg _) h1).trans (d1.trans (by linarith))
  have g2 : |y1 - (y - cy) / fy| ≤ 3 / 1024 * ρ := by
    have h1 := S.sees.fy_range.1
    have e : y1 - (y - cy) / fy = (fy * y1 - (y - cy)) / fy := by field_simp
    rw [e, abs_div, abs_of_pos (by linarith : 0 < fy)]
    exact (div_le_self (abs_nonneg _) h1).trans (d2.trans (by linarith))
  obtain ⟨r1, r0, rr, xr, yr, l1, l2, l3, l4⟩ := radius_near ρ0 S.radius g1 g2
  have ρρ : 0 < ρ * ρ := by positivity
  obtain ⟨t, ht⟩ : ∃ t, t = k1 * (r1 * r1) := ⟨_, rfl⟩
  have at1 : |t| = |k1| * (r1 * r1) := by rw [ht, abs_mul, abs_of_pos (by positivity : 0 < r1 * r1)]
  have aσ : |σ| = |k1| * (ρ * ρ) := by rw [S.strength, abs_mul, abs_of_pos ρρ]
  have k0 : 0 ≤ |k1| := abs_nonneg _
  have t1 : 97 / 100 * |σ| ≤ |t| := by
    rw [at1, aσ]; have := mul_le_mul_of_nonneg_left l3 k0; linarith
  have t2 : |t| ≤ 103 / 100 * |σ| := by
    rw [at1, aσ]; have := mul_le_mul_of_nonneg_left l4 k0; linarith
  have small := S.small
  have t3 : |t| ≤ 13 / 100 := by linarith
  have tpos : 0 < |t| := by linarith
  have t0 : t ≠ 0 := abs_pos.1 tpos
  have bt := abs_le.1 t3
  have uσ : 0 ≤ u * |σ| := by positivity
  have uρρ : 0 ≤ u * (ρ * ρ) := by positivity
  have ηρ : 2048 * η ≤ u * (r1 * r1) := by
    have := mul_le_mul_of_nonneg_left l3 hu; linarith [E.tiny_ρ]
  have ηt : 2048 * η ≤ u * |t| := by
    have := mul_le_mul_of_nonneg_left t1 hu; linarith [E.tiny_σ]
  have ηr : 1024 * η ≤ u * r1 := by
    rcases le_total r1 1 with c | c
    · have : r1 * r1 ≤ r1 * 1 := mul_le_mul_of_nonneg_left c r0.le
      have := mul_le_mul_of_nonneg_left this hu
      linarith
    · have := mul_le_mul_of_nonneg_left c hu
      linarith
  have M16 : 16 ≤ M := by linarith only [hM, hβ, f7]
  have r1β : r1 ≤ 92 / 100 * β := by linarith
  have rrM : 8 * (r1 * r1) ≤ M := by
    have := mul_le_mul r1β r1β r0.le (by linarith only [hβ])
    have h0 : 0 ≤ K * β := by positivity
    linarith only [this, f10, hM, h0]
  -- removing distortion
  obtain ⟨d, hd, ed⟩ := divisor_error A hx1 hy1 S.val_k1 rr ht (by linarith) f1 f2 (by linarith) (by linarith) M16
  obtain ⟨a, ha, ea⟩ := undistorted_error A hx1 hd (by linarith) ed f1 (by linarith)
  obtain ⟨b, hb, eb⟩ := undistorted_error A hy1 hd (by linarith) ed f1 (by linarith)
  have ηβ : 1024 * η ≤ u * β := by have := mul_le_mul_of_nonneg_left hβ hu; linarith
  have near : ∀ {z w : ℝ}, |w| ≤ r1 → |z - w / (1 + t)| ≤ 4 * (u * |w|) + η → |z - w / (1 + t)| ≤ 4 * (u * β) := by
    intro z w hw h
    have := mul_le_mul_of_nonneg_left (hw.trans r1β) hu
    linarith
  have ea' := near xr ea
  have eb' := near yr eb
  have bound : ∀ {w : ℝ}, |w| ≤ r1 → |w / (1 + t)| ≤ 23 / 20 * r1 := by
    intro w hw
    have c1 : 87 / 100 ≤ 1 + t := by linarith only [bt.1]
    have c2 := mul_le_mul_of_nonneg_left c1 r0.le
    rw [abs_div, abs_of_pos (by linarith only [c1] : 0 < 1 + t), div_le_iff₀ (by linarith only [c1])]
    linarith only [c2, hw, r0]
  have bX := bound xr
  have bY := bound yr
  have uβ : u * β ≤ 1 / 1024 * β := mul_le_mul_of_nonneg_right f1 (by linarith)
  obtain ⟨r, x2, y2, hr, hr0, hx2, hy2, e1, e2⟩ := divide_back A E.enough ha hb
    ((abs_le_add ea' bX).trans (by linarith)) ((abs_le_add eb' bY).trans (by linarith))
  have ε1 : |x2 - x1 / (1 + t)| ≤ 8 * (u * β) := by
    have := abs_sub_le x2 a (x1 / (1 + t)); linarith
  have ε2 : |y2 - y1 / (1 + t)| ≤ 8 * (u * β) := by
    have := abs_sub_le y2 b (y1 / (1 + t)); linarith
  have hε : 8 * (u * β) ≤ 1 / 100 * r1 := by linarith
  have strong := E.strong
  have hXY : x1 / (1 + t) * (x1 / (1 + t)) + y1 / (1 + t) * (y1 / (1 + t)) = r1 * r1 / ((1 + t) * (1 + t)) := by
    rw [rr]
    have : 1 + t ≠ 0 := by linarith
    field_simp
  -- distorting again
  obtain ⟨f, hf, ef⟩ := factor_error A k S.val_k1 hx2 hy2 r0 ht t0 t3 hXY bX bY ε1 ε2 hε f1 (by linarith) f2 ηρ ηt E.tiny_k1
    M16 E.range_k1 rrM (by
      have := mul_le_mul_of_nonneg_left t1 (by linarith : 0 ≤ M); linarith [E.range_σ])
  obtain ⟨g, hg, eg⟩ := distorted_error A hx2 hf r0 t0 t3 xr ε1 hε ef (by linarith) ηr (by linarith)
  obtain ⟨h, hh, eh⟩ := distorted_error A hy2 hf r0 t0 t3 yr ε2 hε ef (by linarith) ηr (by linarith)
  have ratio : r1 / |t| ≤ 1047 / 1000 * (ρ / |σ|) := by
    rw [div_le_iff₀ tpos]
    have h1 := mul_le_mul_of_nonneg_left t1 (by positivity : 0 ≤ 1047 / 1000 * (ρ / |σ|))
    have h2 : 1047 / 1000 * (ρ / |σ|) * (97 / 100 * |σ|) = 1047 / 1000 * (97 / 100) * ρ := by field_simp
    linarith
  have uratio := mul_le_mul_of_nonneg_left ratio hu
  have τ1 : ∀ {z : ℝ}, z ≤ 42 / 10 * (8 * (u * β)) + 9 * (u * (r1 / |t|)) →
      z ≤ 336 / 10 * (u * β) + 95 / 10 * (u * (ρ / |σ|)) := by
    intro z hz
    have : 0 ≤ u * (ρ / |σ|) := by positivity
    linarith
  have hτ : 336 / 10 * (u * β) + 95 / 10 * (u * (ρ / |σ|)) ≤ 1 / 10 * β := by
    have h1 : u * (ρ / |σ|) ≤ 1 / 2048 * ρ := by
      have e : u * (ρ / |σ|) = u / |σ| * ρ := by ring
      rw [e]
      exact mul_le_mul_of_nonneg_right (by rw [div_le_iff₀ σ0]; linarith) ρ0.le
    linarith
  obtain ⟨x', y', hx', hy', ex, ey⟩ := pixel_error A S.sees E.enough hg hh bx by1 d1 d2 d3 (τ1 eg) (τ1 eh) hτ
  have hz : J.val (k.calibrate px py).z = .num r := hr
  have final : 2 * (K * (336 / 10 * (u * β) + 95 / 10 * (u * (ρ / |σ|)))) + 24 * (u * (K * β)) ≤
      92 * (u * (K * β)) + 20 * (u * (K * (ρ / |σ|))) := by
    have e : 2 * (K * (336 / 10 * (u * β) + 95 / 10 * (u * (ρ / |σ|)))) =
        672 / 10 * (u * (K * β)) + 19 * (u * (K * (ρ / |σ|))) := by ring
    have : 0 ≤ u * (K * (ρ / |σ|)) := by positivity
    linarith
  exact ⟨_, _, x', y', uncalibrateK1_front B k hz hr0, hx', hy', ex.trans final, ey.trans final⟩

end Verif.Geo.Rounded
