import Verif.Props.FloatDistort
import Verif.Props.FloatPinholeExample

/-!
# C106: a camera with radial distortion and numbers with 24 bits
-/

namespace Verif.Geo.Rounded

open Verif.Akaze
open Verif.Bicubic (Flt)
open ExFloat (F32 toF toF_num rep_int)

/-- The camera for pictures of 640 by 480 pixels, with distortion. -/
noncomputable def exCameraK1 : FIntrinsicsK1 F32 := ⟨exCamera, toF (.num (1 / 4))⟩

/-- The squared distance of the normalised image coordinates of the pixel from the centre. -/
noncomputable def exSquare : ℝ := (((100 : ℤ) - (320 : ℤ) - (2 : ℤ) * (((470 : ℤ) - (240 : ℤ)) / ((510 : ℤ) : ℝ))) / ((500 : ℤ) : ℝ)) *
    (((100 : ℤ) - (320 : ℤ) - (2 : ℤ) * (((470 : ℤ) - (240 : ℤ)) / ((510 : ℤ) : ℝ))) / ((500 : ℤ) : ℝ)) +
  (((470 : ℤ) - (240 : ℤ)) / ((510 : ℤ) : ℝ)) * (((470 : ℤ) - (240 : ℤ)) / ((510 : ℤ) : ℝ))

theorem exSquare_bounds : 62 / 100 * (62 / 100) ≤ exSquare ∧ exSquare ≤ 64 / 100 * (64 / 100) := by
  unfold exSquare
  norm_num

theorem exRadius_mul : √exSquare * √exSquare = exSquare := Real.mul_self_sqrt (by linarith [exSquare_bounds.1])

theorem exRadius_lower : 62 / 100 ≤ √exSquare := Real.le_sqrt_of_sq_le (by linarith [exSquare_bounds.1])

theorem exRadius_upper : √exSquare ≤ 64 / 100 := Real.sqrt_le_iff.2 ⟨by norm_num, by linarith [exSquare_bounds.2]⟩

theorem exStrength : |1 / 4 * exSquare| = 1 / 4 * exSquare := abs_of_pos (by linarith [exSquare_bounds.1])

theorem exCameraK1_sees : SeesK1 ExFloat.ieee exCameraK1 (toF (.num (100 : ℤ))) (toF (.num (470 : ℤ))) (500 : ℤ) (510 : ℤ)
    (320 : ℤ) (240 : ℤ) (2 : ℤ) (1 / 4) (100 : ℤ) (470 : ℤ) 512 1 (√exSquare) (1 / 4 * exSquare) where
  sees := exCamera_sees
  val_k1 := toF_num ⟨1, -2, by norm_num, by norm_num, by norm_num, by norm_num⟩
  pos := by linarith [exRadius_lower]
  radius := exRadius_mul
  inside := by linarith [exRadius_upper]
  strength := by rw [exRadius_mul]
  ne_zero := by linarith [exSquare_bounds.1]
  small := by rw [exStrength]; linarith [exSquare_bounds.2]

theorem exEnoughK1 : EnoughK1 ((2 : ℝ) ^ (-23 : ℤ)) ((2 : ℝ) ^ (-149 : ℤ)) (2 ^ 100) 512 1 (√exSquare) (1 / 4 * exSquare) (1 / 4) where
  enough := exEnough
  away := by norm_num; linarith [exRadius_lower]
  strong := by rw [exStrength]; norm_num; linarith [exSquare_bounds.1]
  tiny_ρ := by rw [exRadius_mul]; norm_num; linarith [exSquare_bounds.1]
  tiny_σ := by rw [exStrength]; norm_num; linarith [exSquare_bounds.1]
  tiny_k1 := by rw [abs_of_pos (by norm_num)]; norm_num
  range_k1 := by rw [abs_of_pos (by norm_num)]; norm_num
  range_σ := by rw [exStrength]; norm_num; linarith [exSquare_bounds.1]

/-- With distortion, numbers of 24 bits and rounding down, the pixel comes back up to 1/64 of a pixel. -/
example : ∃ qx qy x' y', exCameraK1.uncalibrate (exCameraK1.calibrate (toF (.num (100 : ℤ))) (toF (.num (470 : ℤ)))) =
      some (qx, qy) ∧ ExFloat.ieee.val qx = .num x' ∧ ExFloat.ieee.val qy = .num y' ∧
      |x' - 100| ≤ 1 / 64 ∧ |y' - 470| ≤ 1 / 64 := by
  obtain ⟨qx, qy, x', y', h, hx, hy, ex, ey⟩ := C106_k1_round_trip ExFloat.bits ExFloat.accurate exCameraK1_sees exEnoughK1
  have hr : √exSquare / |1 / 4 * exSquare| ≤ 7 := by
    rw [exStrength, div_le_iff₀ (by linarith [exSquare_bounds.1])]
    linarith [exSquare_bounds.1, exRadius_upper]
  have hb : 92 * ((2 : ℝ) ^ (-23 : ℤ) * (512 * 1)) + 20 * ((2 : ℝ) ^ (-23 : ℤ) * (512 * (√exSquare / |1 / 4 * exSquare|))) ≤ 1 / 64 := by
    norm_num at hr ⊢
    linarith
  refine ⟨qx, qy, x', y', h, hx, hy, ?_, ?_⟩
  · push_cast at ex
    exact ex.trans hb
  · push_cast at ey
    exact ey.trans hb

end Verif.Geo.Rounded
