import Verif.Props.FloatPinhole
import Verif.Props.FloatGeomExample
import Verif.Props.FloatGeomExact
import Mathlib.Data.Int.Log

/-!
# C106: numbers with 24 bits, and numbers without rounding
-/

namespace Verif.Akaze.ExFloat

open Verif.Bicubic (Flt)

/-- A number just below. -/
theorem rep_below {x : ℝ} (h : |x| ≤ 2 ^ 100) : ∃ y ∈ Rep, y ≤ x ∧ x - y ≤ (2 : ℝ) ^ (-23 : ℤ) * |x| + (2 : ℝ) ^ (-149 : ℤ) := by
  by_cases h0 : x = 0
  · exact ⟨0, rep_zero, h0.ge, by rw [h0]; simp⟩
  have hx : 0 < |x| := abs_pos.2 h0
  have l1 : (2 : ℝ) ^ Int.log 2 |x| ≤ |x| := Int.zpow_log_le_self (by norm_num) hx
  have l2 : |x| < (2 : ℝ) ^ (Int.log 2 |x| + 1) := Int.lt_zpow_succ_log_self (by norm_num) |x|
  generalize Int.log 2 |x| = L at l1 l2
  have hL : L ≤ 100 := by
    by_contra hc
    have : (2 : ℝ) ^ (101 : ℤ) ≤ (2 : ℝ) ^ L := zpow_le_zpow_right₀ (by norm_num) (by omega)
    have : (2 : ℝ) ^ (101 : ℤ) = 2 * 2 ^ 100 := by norm_num
    have : (0 : ℝ) < 2 ^ 100 := by positivity
    linarith
  obtain ⟨e, he⟩ : ∃ e, e = max (-149) (L - 23) := ⟨_, rfl⟩
  have p : (0 : ℝ) < (2 : ℝ) ^ e := by positivity
  have hs : |x / (2 : ℝ) ^ e| ≤ 2 ^ 24 := by
    rw [abs_div, abs_of_pos p, div_le_iff₀ p]
    have : (2 : ℝ) ^ (L + 1) ≤ (2 : ℝ) ^ (24 + e) := zpow_le_zpow_right₀ (by norm_num) (by omega)
    rw [zpow_add₀ (by norm_num) 24 e] at this
    exact l2.le.trans (this.trans (le_of_eq (by norm_num)))
  rw [abs_le] at hs
  have hm : |⌊x / (2 : ℝ) ^ e⌋| ≤ 2 ^ 24 := by
    rw [abs_le]
    constructor
    · rw [Int.le_floor]; push_cast; norm_num at hs ⊢; exact hs.1
    · have : ((⌊x / (2 : ℝ) ^ e⌋ : ℤ) : ℝ) ≤ ((2 ^ 24 : ℤ) : ℝ) := by
        push_cast; norm_num at hs ⊢; exact (Int.floor_le _).trans hs.2
      exact_mod_cast this
  refine ⟨⌊x / (2 : ℝ) ^ e⌋ * (2 : ℝ) ^ e, ⟨_, e, hm, by omega, by omega, rfl⟩, ?_, ?_⟩
  · rw [← le_div_iff₀ p]; exact Int.floor_le _
  · have h1 : x / (2 : ℝ) ^ e < ⌊x / (2 : ℝ) ^ e⌋ + 1 := Int.lt_floor_add_one _
    rw [div_lt_iff₀ p, add_mul, one_mul] at h1
    have h2 : (2 : ℝ) ^ e ≤ (2 : ℝ) ^ (-23 : ℤ) * |x| + (2 : ℝ) ^ (-149 : ℤ) := by
      rcases le_total (-149) (L - 23) with c | c
      · rw [he, max_eq_right c, show L - 23 = -23 + L by ring, zpow_add₀ (by norm_num)]
        have := mul_le_mul_of_nonneg_left l1 (by positivity : (0 : ℝ) ≤ (2 : ℝ) ^ (-23 : ℤ))
        have : (0 : ℝ) ≤ (2 : ℝ) ^ (-149 : ℤ) := by positivity
        linarith
      · rw [he, max_eq_left c]
        have : (0 : ℝ) ≤ (2 : ℝ) ^ (-23 : ℤ) * |x| := by positivity
        linarith
    exact (sub_lt_iff_lt_add'.2 h1).le.trans h2

/-- The rounding errors of `f32`, rounded down. -/
theorem accurate : Accurate ieee ((2 : ℝ) ^ (-23 : ℤ)) ((2 : ℝ) ^ (-149 : ℤ)) (2 ^ 100) where
  u_nonneg := by positivity
  η_nonneg := by positivity
  rnd x h := by
    obtain ⟨y, hy, hyx, hd⟩ := rep_below h
    have hex : ∃ y ∈ Rep, y ≤ x := ⟨y, hy, hyx⟩
    refine ⟨sSup {y | y ∈ Rep ∧ y ≤ x}, by show lower x = _; unfold lower; rw [if_pos hex], ?_⟩
    have h1 := (lower_mem hex).2
    have h2 := le_lower hy hyx
    rw [abs_sub_comm, abs_of_nonneg (by linarith)]
    linarith

theorem zero_over_zero : Geo.Rounded.ZeroOverZero ieee := by
  intro a b ha hb
  change a.1 = _ at ha
  change b.1 = _ at hb
  show roundedBy lower (fdiv a.1 b.1) = _
  rw [ha, hb]
  simp [fdiv, roundedBy]

end Verif.Akaze.ExFloat

namespace Verif.Geo.Rounded

open Verif.Akaze
open Verif.Bicubic (Flt)
open Verif.Akaze.FloatBits (isSignNegative)
open ExFloat (F32 toF toF_num rep_int)

theorem val_int {n : ℤ} (h : |n| ≤ 2 ^ 24) : ExFloat.ieee.val (toF (.num n)) = .num n := toF_num (rep_int h)

/-- A camera for pictures of 640 by 480 pixels. -/
noncomputable def exCamera : FIntrinsics F32 :=
  ⟨toF (.num (500 : ℤ)), toF (.num (510 : ℤ)), toF (.num (320 : ℤ)), toF (.num (240 : ℤ)), toF (.num (2 : ℤ))⟩

theorem exCamera_sees : Sees ExFloat.ieee exCamera (toF (.num (100 : ℤ))) (toF (.num (470 : ℤ))) (500 : ℤ) (510 : ℤ)
    (320 : ℤ) (240 : ℤ) (2 : ℤ) (100 : ℤ) (470 : ℤ) 512 1 where
  val_fx := val_int (by norm_num)
  val_fy := val_int (by norm_num)
  val_cx := val_int (by norm_num)
  val_cy := val_int (by norm_num)
  val_skew := val_int (by norm_num)
  val_x := val_int (by norm_num)
  val_y := val_int (by norm_num)
  fx_range := by norm_num
  fy_range := by norm_num
  cx_range := by norm_num
  cy_range := by norm_num
  skew_range := by norm_num
  x_range := by norm_num
  y_range := by norm_num
  x_view := by rw [abs_le]; norm_num
  y_view := by rw [abs_le]; norm_num

theorem exEnough : Enough ((2 : ℝ) ^ (-23 : ℤ)) ((2 : ℝ) ^ (-149 : ℤ)) (2 ^ 100) 512 1 where
  one_le := le_rfl
  le := by norm_num
  precise := by norm_num
  tiny := by norm_num
  range := by norm_num

/-- Even with numbers of 24 bits, rounded down, the pixel comes back up to 1/400 of a pixel. -/
example : ∃ qx qy x' y', exCamera.uncalibrate (exCamera.calibrate (toF (.num (100 : ℤ))) (toF (.num (470 : ℤ)))) =
      some (qx, qy) ∧ ExFloat.ieee.val qx = .num x' ∧ ExFloat.ieee.val qy = .num y' ∧
      |x' - 100| ≤ 1 / 400 ∧ |y' - 470| ≤ 1 / 400 := by
  obtain ⟨qx, qy, x', y', h, hx, hy, ex, ey⟩ := C106_round_trip ExFloat.bits ExFloat.accurate exCamera_sees exEnough
  refine ⟨qx, qy, x', y', h, hx, hy, ?_, ?_⟩
  · push_cast at ex
    exact ex.trans (by norm_num)
  · push_cast at ey
    exact ey.trans (by norm_num)

/-- The direction of this pixel. -/
example : ∃ p q r, ExFloat.ieee.val (exCamera.calibrate (toF (.num (100 : ℤ))) (toF (.num (470 : ℤ)))).x = .num p ∧
    ExFloat.ieee.val (exCamera.calibrate (toF (.num (100 : ℤ))) (toF (.num (470 : ℤ)))).y = .num q ∧
    ExFloat.ieee.val (exCamera.calibrate (toF (.num (100 : ℤ))) (toF (.num (470 : ℤ)))).z = .num r ∧ 0 < r ∧
    |p * p + q * q + r * r - 1| ≤ 1 / 600000 := by
  obtain ⟨p, q, r, hp, hq, hr, h0, h1, -, -⟩ := C106_calibrate ExFloat.accurate exCamera_sees exEnough
  exact ⟨p, q, r, hp, hq, hr, h0, h1.trans (by norm_num)⟩

/-- The centre without and with distortion. -/
example : (∃ qx qy, exCamera.uncalibrate (exCamera.calibrate exCamera.cx exCamera.cy) = some (qx, qy) ∧
      ExFloat.ieee.val qx = .num (320 : ℤ) ∧ ExFloat.ieee.val qy = .num (240 : ℤ)) ∧
    ∃ qx qy, (FIntrinsicsK1.mk exCamera 1).uncalibrate ((FIntrinsicsK1.mk exCamera 1).calibrate exCamera.cx exCamera.cy) =
      some (qx, qy) ∧ ExFloat.ieee.val qx = .nan ∧ ExFloat.ieee.val qy = .nan :=
  ⟨(C106_centre ExFloat.bits exCamera exCamera_sees.val_fx exCamera_sees.val_fy exCamera_sees.val_cx
      exCamera_sees.val_cy exCamera_sees.val_skew (by norm_num) (by norm_num)).2.2.2,
    (C106_k1_centre ExFloat.bits ExFloat.zero_over_zero (FIntrinsicsK1.mk exCamera 1) exCamera_sees.val_fx
      exCamera_sees.val_fy exCamera_sees.val_cx exCamera_sees.val_cy exCamera_sees.val_skew ExFloat.ieee.one (by norm_num)
      (by norm_num)).2.2.2⟩

/-- Without rounding there is no error. -/
theorem unrounded_accurate (M : ℝ) : Accurate Unrounded.ieee 0 0 M where
  u_nonneg := le_rfl
  η_nonneg := le_rfl
  rnd x _ := ⟨x, rfl, by simp⟩

open Unrounded P3P in
/-- The exact camera of `Pinhole.lean`. -/
def numK (k : Intrinsics) : FIntrinsics Unrounded :=
  ⟨num k.focals.x, num k.focals.y, num k.principal.x, num k.principal.y, num k.skew⟩

open Unrounded P3P in
/-- **C106** Without rounding the model is the one of C38. -/
theorem C106_unrounded_calibrate (k : Intrinsics) (p : V2 ℝ) {b : V3 ℝ} (h : k.calibrate p = some b) :
    (numK k).calibrate (num p.x) (num p.y) = numV b := by
  unfold Intrinsics.calibrate Intrinsics.normalised at h
  simp only [Option.bind_eq_bind, Option.bind_eq_some_iff, Option.pure_def, Option.some.injEq] at h
  obtain ⟨n, ⟨y, hy, x, hx, rfl⟩, hb⟩ := h
  unfold FIntrinsics.calibrate FIntrinsics.normalised
  simp only [numK, num_sub, cdiv_num hy, num_mul, cdiv_num hx, num_one]
  exact fnormalize_num hb

open Unrounded P3P in
/-- **C106** Without rounding `uncalibrate` is the one of C38. -/
theorem C106_unrounded_uncalibrate (k : Intrinsics) (b : V3 ℝ) {o : Option (V2 ℝ)} (h : k.uncalibrate b = some o) :
    (numK k).uncalibrate (numV b) = o.map (fun q => (num q.x, num q.y)) := by
  unfold Intrinsics.uncalibrate at h
  unfold FIntrinsics.uncalibrate
  by_cases hz : b.z < 0
  · rw [if_pos hz] at h
    rw [if_pos (show isSignNegative (numV b).z = true from (num_sign b.z).2 hz), ← Option.some.inj h]
    rfl
  · rw [if_neg hz] at h
    rw [if_neg (show ¬ isSignNegative (numV b).z = true from fun hn => hz ((num_sign b.z).1 hn))]
    unfold project at h
    simp only [Option.bind_eq_bind, Option.bind_eq_some_iff, Option.pure_def, Option.some.injEq] at h
    obtain ⟨n, ⟨x, hx, y, hy, rfl⟩, rfl⟩ := h
    show some ((numK k).pixel (num b.x / num b.z) (num b.y / num b.z)) = _
    rw [cdiv_num hx, cdiv_num hy]
    rfl

end Verif.Geo.Rounded
