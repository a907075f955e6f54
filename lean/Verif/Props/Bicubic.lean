import Verif.Model.Bicubic
import Verif.Spec.Bicubic
import Verif.Lemmas.Image
import Mathlib.Algebra.BigOperators.Fin
import Mathlib.Tactic.Linarith
import Mathlib.Tactic.Ring
import Mathlib.Tactic.NormNum
import Mathlib.Tactic.FieldSimp

/-!
# Bicubic sampling (C57, C58)
-/

namespace Verif.Bicubic

open Verif.Akaze

variable {S : Type _} {n : Nat}

theorem cubicValue_eq (p0 p1 p2 p3 t : ℝ) : cubicValue p0 p1 p2 p3 t = catmull p0 p1 p2 p3 t := by
  unfold cubicValue catmull; ring

theorem outside_iff (image : Img (Fin n → S)) (x y : ℝ) :
    ((⌊x⌋ : ℝ) - 1 < 0 ∨ (⌊x⌋ : ℝ) - 1 + 4 ≥ image.w ∨ (⌊y⌋ : ℝ) - 1 < 0 ∨ (⌊y⌋ : ℝ) - 1 + 4 ≥ image.h) ↔
      ¬ (Surrounded image.w x ∧ Surrounded image.h y) := by
  have e1 : ((⌊x⌋ : ℝ) - 1 < 0) ↔ ⌊x⌋ < 1 := by
    rw [sub_neg]; exact_mod_cast Iff.rfl
  have e2 : ((⌊y⌋ : ℝ) - 1 < 0) ↔ ⌊y⌋ < 1 := by
    rw [sub_neg]; exact_mod_cast Iff.rfl
  have e3 : ((⌊x⌋ : ℝ) - 1 + 4 ≥ image.w) ↔ (image.w : ℤ) ≤ ⌊x⌋ + 3 := by
    rw [show ((⌊x⌋ : ℝ) - 1 + 4) = ((⌊x⌋ + 3 : ℤ) : ℝ) by push_cast; ring]; exact_mod_cast Iff.rfl
  have e4 : ((⌊y⌋ : ℝ) - 1 + 4 ≥ image.h) ↔ (image.h : ℤ) ≤ ⌊y⌋ + 3 := by
    rw [show ((⌊y⌋ : ℝ) - 1 + 4) = ((⌊y⌋ + 3 : ℤ) : ℝ) by push_cast; ring]; exact_mod_cast Iff.rfl
  rw [e1, e2, e3, e4]
  unfold Surrounded
  omega

/-- What is computed inside the image. -/
theorem interpolate_eq (s : Sub S) {image : Img (Fin n → S)} {w h : Nat} {f : Nat → Nat → Fin n → S}
    (hs : image.Shows w h f) (x y : ℝ) (default : Fin n → S) : interpolate s image x y default =
      some (open Classical in if Surrounded w x ∧ Surrounded h y then
        (let i := ⌊x⌋.toNat
        let j := ⌊y⌋.toNat
        let row := fun j => blendCubic s (f (i - 1) j) (f i j) (f (i + 1) j) (f (i + 2) j) (x - ⌊x⌋)
        blendCubic s (row (j - 1)) (row j) (row (j + 1)) (row (j + 2)) (y - ⌊y⌋)) else default) := by
  obtain ⟨rfl, rfl, hwf, hg⟩ := hs
  unfold interpolate
  by_cases hin : Surrounded image.w x ∧ Surrounded image.h y
  · rw [if_pos hin]
    simp only [(not_congr (outside_iff image x y)).2 (not_not.2 hin), if_false]
    obtain ⟨⟨hx1, hx2⟩, hy1, hy2⟩ := hin
    have fx : ⌊(⌊x⌋ : ℝ) - 1⌋.toNat = ⌊x⌋.toNat - 1 := by
      rw [show ((⌊x⌋ : ℝ) - 1) = ((⌊x⌋ - 1 : ℤ) : ℝ) by push_cast; ring, Int.floor_intCast]; omega
    have fy : ⌊(⌊y⌋ : ℝ) - 1⌋.toNat = ⌊y⌋.toNat - 1 := by
      rw [show ((⌊y⌋ : ℝ) - 1) = ((⌊y⌋ - 1 : ℤ) : ℝ) by push_cast; ring, Int.floor_intCast]; omega
    have fb : ⌊(⌊y⌋ : ℝ) - 1 + 4⌋.toNat = ⌊y⌋.toNat - 1 + 4 := by
      rw [show ((⌊y⌋ : ℝ) - 1 + 4) = ((⌊y⌋ - 1 + 4 : ℤ) : ℝ) by push_cast; ring, Int.floor_intCast]; omega
    rw [fy, fb, Nat.add_sub_cancel_left]
    have row : ∀ (col : List (Fin n → S)) (m : Nat), m < 4 → col.length = 4 →
        blendRow s image ((⌊x⌋ : ℝ) - 1) (x - ((⌊x⌋ : ℝ) - 1 + 1)) (⌊y⌋.toNat - 1) col (⌊y⌋.toNat - 1 + m) =
          some (col.set m (blendCubic s (f (⌊x⌋.toNat - 1) (⌊y⌋.toNat - 1 + m)) (f ⌊x⌋.toNat (⌊y⌋.toNat - 1 + m))
            (f (⌊x⌋.toNat + 1) (⌊y⌋.toNat - 1 + m)) (f (⌊x⌋.toNat + 2) (⌊y⌋.toNat - 1 + m)) (x - ⌊x⌋))) := by
      intro col m hm hc
      unfold blendRow
      simp only [fx]
      rw [hg _ _ (by omega) (by omega), hg _ _ (by omega) (by omega), hg _ _ (by omega) (by omega),
        hg _ _ (by omega) (by omega), show ⌊x⌋.toNat - 1 + 1 = ⌊x⌋.toNat by omega,
        show ⌊x⌋.toNat - 1 + 2 = ⌊x⌋.toNat + 1 by omega, show ⌊x⌋.toNat - 1 + 3 = ⌊x⌋.toNat + 2 by omega, sub_add_cancel]
      simp only [Option.bind_eq_bind, Option.bind_some, Nat.add_sub_cancel_left]
      rw [if_pos (by omega)]
    obtain ⟨j, hj⟩ : ∃ j, ⌊y⌋.toNat = j + 1 := ⟨⌊y⌋.toNat - 1, by omega⟩
    rw [hj, Nat.add_sub_cancel] at row
    have r0 := fun col => row col 0 (by norm_num)
    have r1 := fun col => row col 1 (by norm_num)
    have r2 := fun col => row col 2 (by norm_num)
    have r3 := fun col => row col 3 (by norm_num)
    simp only [hj, Nat.add_sub_cancel, List.range', List.foldlM_cons, List.foldlM_nil]
    rw [Nat.add_zero] at r0
    rw [show j + 1 + 1 = j + 2 from rfl, show j + 2 + 1 = j + 3 from rfl, show j + 1 + 2 = j + 3 from rfl,
      r0 _ rfl]
    simp only [Option.bind_eq_bind, Option.bind_some]
    rw [r1 _ rfl]
    simp only [Option.bind_some]
    rw [r2 _ rfl]
    simp only [Option.bind_some]
    rw [r3 _ rfl]
    simp [sub_add_cancel]
  · rw [if_neg hin]
    simp only [(outside_iff image x y).2 hin, if_true]

/-- **C57** Bicubic sampling never reads outside the image and never panics. -/
theorem C57_reads (s : Sub S) {image : Img (Fin n → S)} (hwf : image.WF) (x y : ℝ) (default : Fin n → S) :
    ∃ r, interpolate s image x y default = some r := by
  let _ : Inhabited (Fin n → S) := ⟨default⟩
  exact ⟨_, interpolate_eq s hwf.exists_shows x y default⟩

/-- **C57** Where the neighbourhood of four by four pixels and one more row and column are inside the image, the value
does not depend on the default; everywhere else the default is returned. Missing: the one row and column. -/
theorem C57_default_partial (s : Sub S) {image : Img (Fin n → S)} (hwf : image.WF) (x y : ℝ) :
    (Surrounded image.w x ∧ Surrounded image.h y → ∀ d d', interpolate s image x y d = interpolate s image x y d') ∧
      (¬ (Surrounded image.w x ∧ Surrounded image.h y) → ∀ d, interpolate s image x y d = some d) := by
  refine ⟨fun hin d d' => ?_, fun hin d => ?_⟩
  · let _ : Inhabited (Fin n → S) := ⟨d⟩
    rw [interpolate_eq s hwf.exists_shows, interpolate_eq s hwf.exists_shows, if_pos hin, if_pos hin]
  · let _ : Inhabited (Fin n → S) := ⟨d⟩
    rw [interpolate_eq s hwf.exists_shows, if_neg hin]

/-- The neighbourhood of the point 1, 1 of an image of 4 by 4 pixels is the image. -/
theorem C57_false (s : Sub S) {image : Img (Fin n → S)} (hwf : image.WF) (hw : image.w = 4) (hh : image.h = 4) :
    HasFour image.w 1 ∧ HasFour image.h 1 ∧ ∀ x y d, interpolate s image x y d = some d := by
  refine ⟨?_, ?_, fun x y d => (C57_default_partial s hwf x y).2 ?_ d⟩
  · rw [hw]; norm_num [HasFour]
  · rw [hh]; norm_num [HasFour]
  · rw [hw, hh]; unfold Surrounded; omega

/-- An image where the hypotheses hold inside and outside. -/
example : (Img.ofFn 5 6 (fun x y (_ : Fin 3) => x + y)).WF ∧ Surrounded 5 (1.5 : ℝ) ∧ Surrounded 6 (2.25 : ℝ) ∧
    ¬ Surrounded 5 (2 : ℝ) := by
  have h1 : ⌊(1.5 : ℝ)⌋ = 1 := by rw [Int.floor_eq_iff]; norm_num
  have h2 : ⌊(2.25 : ℝ)⌋ = 2 := by rw [Int.floor_eq_iff]; norm_num
  have h3 : ⌊(2 : ℝ)⌋ = 2 := by rw [Int.floor_eq_iff]; norm_num
  unfold Surrounded
  rw [h1, h2, h3]
  exact ⟨(ofFn_shows _ _ _).2.2.1, by norm_num, by norm_num, by norm_num⟩

/-- **C58** Where nothing is rounded the value is the bicubic interpolation of each channel. -/
theorem C58_float {image : Img (Fin n → ℝ)} {w h : Nat} {f : Nat → Nat → Fin n → ℝ} (hs : image.Shows w h f) {x y : ℝ}
    (hx : Surrounded w x) (hy : Surrounded h y) (default : Fin n → ℝ) :
    interpolate f32 image x y default = some (fun c => bicubic (fun i j => f i j c) x y) := by
  rw [interpolate_eq f32 hs, if_pos ⟨hx, hy⟩]
  congr 1
  funext c
  simp only [blendCubic, f32, cubicValue_eq, bicubic]

theorem catmull_quadratic (a b c i t : ℝ) :
    catmull (a + b * (i - 1) + c * (i - 1) ^ 2) (a + b * i + c * i ^ 2) (a + b * (i + 1) + c * (i + 1) ^ 2)
      (a + b * (i + 2) + c * (i + 2) ^ 2) t = a + b * (i + t) + c * (i + t) ^ 2 := by
  unfold catmull; ring

/-- **C58** Polynomials of degree two in each coordinate are reproduced, in particular constants and linear ramps. -/
theorem C58_quadratic {image : Img (Fin n → ℝ)} {w h : Nat} (q : Fin n → Fin 3 → Fin 3 → ℝ)
    (hs : image.Shows w h (fun i j c => ∑ k, ∑ l, q c k l * (i : ℝ) ^ (k : ℕ) * (j : ℝ) ^ (l : ℕ))) {x y : ℝ}
    (hx : Surrounded w x) (hy : Surrounded h y) (default : Fin n → ℝ) :
    interpolate f32 image x y default = some (fun c => ∑ k, ∑ l, q c k l * x ^ (k : ℕ) * y ^ (l : ℕ)) := by
  rw [C58_float hs hx hy]
  congr 1
  funext c
  have e : ∀ u v : ℝ, ∑ k, ∑ l, q c k l * u ^ (k : ℕ) * v ^ (l : ℕ) =
      (q c 0 0 + q c 0 1 * v + q c 0 2 * v ^ 2) + (q c 1 0 + q c 1 1 * v + q c 1 2 * v ^ 2) * u +
        (q c 2 0 + q c 2 1 * v + q c 2 2 * v ^ 2) * u ^ 2 := by
    intro u v
    simp only [Fin.sum_univ_three, Fin.val_zero, Fin.val_one, Fin.val_two]
    ring
  have cast : ∀ z : ℝ, 1 ≤ ⌊z⌋ → ((⌊z⌋.toNat : ℕ) : ℝ) = ⌊z⌋ ∧ ((⌊z⌋.toNat - 1 : ℕ) : ℝ) = ⌊z⌋ - 1 := by
    intro z hz
    constructor
    · exact_mod_cast Int.toNat_of_nonneg (by omega)
    · exact_mod_cast (by omega : ((⌊z⌋.toNat - 1 : ℕ) : ℤ) = ⌊z⌋ - 1)
  obtain ⟨cx, cx'⟩ := cast x hx.1
  obtain ⟨cy, cy'⟩ := cast y hy.1
  simp only [bicubic, e, Nat.cast_add, Nat.cast_one, Nat.cast_ofNat, cx, cx', cy, cy', catmull_quadratic,
    add_sub_cancel]
  have g : ∀ v : ℝ, (q c 0 0 + q c 0 1 * v + q c 0 2 * v ^ 2) + (q c 1 0 + q c 1 1 * v + q c 1 2 * v ^ 2) * x +
        (q c 2 0 + q c 2 1 * v + q c 2 2 * v ^ 2) * x ^ 2 = (q c 0 0 + q c 1 0 * x + q c 2 0 * x ^ 2) +
        (q c 0 1 + q c 1 1 * x + q c 2 1 * x ^ 2) * v + (q c 0 2 + q c 1 2 * x + q c 2 2 * x ^ 2) * v ^ 2 := by
    intro v; ring
  simp only [g, catmull_quadratic, add_sub_cancel]

example : ∃ image : Img (Fin 1 → ℝ), image.Shows 9 9 (fun i j _ => ∑ k, ∑ l, (if k = 1 ∧ l = 1 then 2 else 0 : ℝ) *
    (i : ℝ) ^ (k : Fin 3).val * (j : ℝ) ^ (l : Fin 3).val) ∧ Surrounded 9 (4.5 : ℝ) := by
  refine ⟨_, ofFn_shows _ _ _, ?_⟩
  have h1 : ⌊(4.5 : ℝ)⌋ = 4 := by rw [Int.floor_eq_iff]; norm_num
  unfold Surrounded
  rw [h1]; norm_num

theorem u8_clamp_le (v : ℝ) : u8.clamp v ≤ 255 := by
  unfold u8
  dsimp only
  split
  · rename_i h1
    split
    · rename_i h2
      have : ⌊v⌋₊ < 255 := (Nat.floor_lt h2.le).2 (by exact_mod_cast h1)
      omega
    · omega
  · omega

theorem u8_clamp_nat {m : Nat} (hm : m ≤ 255) : u8.clamp (m : ℝ) = m := by
  unfold u8
  dsimp only
  split
  · split
    · exact Nat.floor_natCast m
    · rename_i h
      have : (m : ℝ) ≤ 0 := not_lt.1 h
      have : m = 0 := by exact_mod_cast le_antisymm this (Nat.cast_nonneg m)
      exact this.symm
  · rename_i h
    have : (255 : ℝ) ≤ m := not_lt.1 h
    have : 255 ≤ m := by exact_mod_cast this
    omega

/-- Rounding a value of the range loses less than one. -/
theorem u8_clamp_near {v : ℝ} (h0 : 0 ≤ v) (h1 : v < 256) : (u8.clamp v : ℝ) ≤ v ∧ v < u8.clamp v + 1 := by
  unfold u8
  dsimp only
  split
  · split
    · exact ⟨Nat.floor_le h0, Nat.lt_floor_add_one v⟩
    · rename_i h
      have : v = 0 := le_antisymm (not_lt.1 h) h0
      subst this; norm_num
  · rename_i h
    constructor
    · push_cast; exact not_lt.1 h
    · push_cast; linarith

/-- **C58** Colours stay in the range 0 to 255. -/
theorem C58_range {image : Img (Fin n → Nat)} {w h : Nat} {f : Nat → Nat → Fin n → Nat} (hs : image.Shows w h f) {x y : ℝ}
    {default r : Fin n → Nat} (hd : ∀ c, default c ≤ 255) (hr : interpolate u8 image x y default = some r) (c : Fin n) :
    r c ≤ 255 := by
  rw [interpolate_eq u8 hs] at hr
  have hr := Option.some.inj hr
  split at hr
  · rw [← hr]; exact u8_clamp_le _
  · rw [← hr]; exact hd c

/-- **C58** At a pixel the sampled colour is the colour of the pixel. -/
theorem C58_pixel {image : Img (Fin n → Nat)} {w h : Nat} {f : Nat → Nat → Fin n → Nat} (hs : image.Shows w h f)
    (hb : ∀ x y c, f x y c ≤ 255) {i j : Nat} (hi : 1 ≤ i) (hi' : i + 3 < w) (hj : 1 ≤ j) (hj' : j + 3 < h)
    (default : Fin n → Nat) : interpolate u8 image i j default = some (f i j) := by
  rw [interpolate_eq u8 hs, if_pos]
  · have z : ∀ p0 p1 p2 p3 : ℝ, cubicValue p0 p1 p2 p3 0 = p1 := by intros; unfold cubicValue; ring
    congr 1
    funext c
    simp only [Int.floor_natCast, Int.cast_natCast, sub_self, blendCubic, z, Int.toNat_natCast]
    have : ∀ m : Nat, u8.cast m = m := fun m => rfl
    rw [this, this, u8_clamp_nat (hb i j c), u8_clamp_nat (hb i j c)]
  · unfold Surrounded
    simp only [Int.floor_natCast]
    omega

/-- **C58** An image of one colour has that colour everywhere. -/
theorem C58_constant {image : Img (Fin n → Nat)} {w h : Nat} {v : Fin n → Nat} (hs : image.Shows w h (fun _ _ => v))
    (hb : ∀ c, v c ≤ 255) {x y : ℝ} (hx : Surrounded w x) (hy : Surrounded h y) (default : Fin n → Nat) :
    interpolate u8 image x y default = some v := by
  rw [interpolate_eq u8 hs, if_pos ⟨hx, hy⟩]
  have z : ∀ p t : ℝ, cubicValue p p p p t = p := by intros; unfold cubicValue; ring
  congr 1
  funext c
  simp only [blendCubic, z]
  have : ∀ m : Nat, u8.cast m = m := fun m => rfl
  rw [this, this, u8_clamp_nat (hb c), u8_clamp_nat (hb c)]

theorem catmull_error {a0 a1 a2 a3 e0 e1 e2 e3 t : ℝ} (ht : 0 ≤ t) (ht' : t ≤ 1) (h0 : a0 ≤ e0 ∧ e0 < a0 + 1)
    (h1 : a1 ≤ e1 ∧ e1 < a1 + 1) (h2 : a2 ≤ e2 ∧ e2 < a2 + 1) (h3 : a3 ≤ e3 ∧ e3 < a3 + 1) :
    -1 / 8 ≤ catmull e0 e1 e2 e3 t - catmull a0 a1 a2 a3 t ∧ catmull e0 e1 e2 e3 t - catmull a0 a1 a2 a3 t ≤ 9 / 8 := by
  have e : catmull e0 e1 e2 e3 t - catmull a0 a1 a2 a3 t = -(t * (1 - t) ^ 2 / 2) * (e0 - a0) +
      ((1 + 2 * t) * (1 - t) ^ 2 + t ^ 2 * (1 - t) / 2) * (e1 - a1) +
      (t ^ 2 * (3 - 2 * t) + t * (1 - t) ^ 2 / 2) * (e2 - a2) - t ^ 2 * (1 - t) / 2 * (e3 - a3) := by
    unfold catmull; ring
  have s1 : 0 ≤ 1 - t := by linarith
  have w0 : 0 ≤ t * (1 - t) ^ 2 / 2 := by positivity
  have w3 : 0 ≤ t ^ 2 * (1 - t) / 2 := by positivity
  have w1 : 0 ≤ (1 + 2 * t) * (1 - t) ^ 2 + t ^ 2 * (1 - t) / 2 := by positivity
  have w2 : 0 ≤ t ^ 2 * (3 - 2 * t) + t * (1 - t) ^ 2 / 2 := by
    have : 0 ≤ 3 - 2 * t := by linarith
    positivity
  have sq : t * (1 - t) / 2 ≤ 1 / 8 := by nlinarith [sq_nonneg (2 * t - 1)]
  have k0 := mul_le_mul_of_nonneg_left (by linarith [h0.2] : e0 - a0 ≤ 1) w0
  have k3 := mul_le_mul_of_nonneg_left (by linarith [h3.2] : e3 - a3 ≤ 1) w3
  have k1 := mul_le_mul_of_nonneg_left (by linarith [h1.2] : e1 - a1 ≤ 1) w1
  have k2 := mul_le_mul_of_nonneg_left (by linarith [h2.2] : e2 - a2 ≤ 1) w2
  have n0 := mul_nonneg w0 (by linarith [h0.1] : 0 ≤ e0 - a0)
  have n1 := mul_nonneg w1 (by linarith [h1.1] : 0 ≤ e1 - a1)
  have n2 := mul_nonneg w2 (by linarith [h2.1] : 0 ≤ e2 - a2)
  have n3 := mul_nonneg w3 (by linarith [h3.1] : 0 ≤ e3 - a3)
  rw [e]
  constructor
  · have : t * (1 - t) ^ 2 / 2 + t ^ 2 * (1 - t) / 2 = t * (1 - t) / 2 := by ring
    linarith
  · have : ((1 + 2 * t) * (1 - t) ^ 2 + t ^ 2 * (1 - t) / 2) + (t ^ 2 * (3 - 2 * t) + t * (1 - t) ^ 2 / 2) =
      1 + t * (1 - t) / 2 := by ring
    linarith

theorem u8_clamp_low {v : ℝ} (h : v ≤ 0) : u8.clamp v = 0 := by
  unfold u8
  dsimp only
  rw [if_pos (by linarith), if_neg (by linarith)]

theorem u8_clamp_high {v : ℝ} (h : 255 ≤ v) : u8.clamp v = 255 := by
  unfold u8
  dsimp only
  rw [if_neg (by linarith)]

/-- **C58** Colours differ from the exact bicubic interpolation by little more than two, where the interpolation along
the rows and the whole one do not leave the range. -/
theorem C58_colour {image : Img (Fin n → Nat)} {w h : Nat} {f : Nat → Nat → Fin n → Nat} (hs : image.Shows w h f) {x y : ℝ}
    (hx : Surrounded w x) (hy : Surrounded h y) {default r : Fin n → Nat}
    (hr : interpolate u8 image x y default = some r) (c : Fin n)
    (hrange : ∀ j, ⌊y⌋.toNat - 1 ≤ j → j ≤ ⌊y⌋.toNat + 2 → 0 ≤ catmull (f (⌊x⌋.toNat - 1) j c) (f ⌊x⌋.toNat j c)
        (f (⌊x⌋.toNat + 1) j c) (f (⌊x⌋.toNat + 2) j c) (x - ⌊x⌋) ∧
      catmull (f (⌊x⌋.toNat - 1) j c) (f ⌊x⌋.toNat j c) (f (⌊x⌋.toNat + 1) j c) (f (⌊x⌋.toNat + 2) j c) (x - ⌊x⌋) < 256)
    (hrange' : 0 ≤ bicubic (fun i j => f i j c) x y ∧ bicubic (fun i j => f i j c) x y < 256) :
    (r c : ℝ) - 1 / 8 ≤ bicubic (fun i j => f i j c) x y ∧ bicubic (fun i j => f i j c) x y < r c + 2 + 1 / 8 := by
  rw [interpolate_eq u8 hs, if_pos ⟨hx, hy⟩] at hr
  have hr := Option.some.inj hr
  rw [← hr]
  have near := fun j h1 h2 => u8_clamp_near (hrange j h1 h2).1 (hrange j h1 h2).2
  have herr := catmull_error (t := y - ⌊y⌋) (by linarith [Int.floor_le y]) (by linarith [Int.lt_floor_add_one y])
    (near (⌊y⌋.toNat - 1) (by omega) (by omega)) (near ⌊y⌋.toNat (by omega) (by omega))
    (near (⌊y⌋.toNat + 1) (by omega) (by omega)) (near (⌊y⌋.toNat + 2) (by omega) (by omega))
  have hb : ∀ m : Nat, u8.cast m = m := fun m => rfl
  simp only [blendCubic, hb, cubicValue_eq]
  simp only [bicubic] at hrange' ⊢
  generalize catmull (u8.clamp _ : ℝ) _ _ _ (y - ⌊y⌋) = v at herr ⊢
  obtain ⟨g1, g2⟩ := herr
  by_cases h0 : v ≤ 0
  · rw [u8_clamp_low h0]
    push_cast
    constructor <;> linarith [hrange'.1]
  · by_cases h1 : 255 ≤ v
    · rw [u8_clamp_high h1]
      push_cast
      constructor <;> linarith [hrange'.2]
    · have fin := u8_clamp_near (v := v) (by linarith) (by linarith)
      constructor
      · linarith [fin.1]
      · linarith [fin.2]

/-- **C58** On a linear ramp of colours the colour found differs from that of the ramp by little more than two. -/
theorem C58_ramp {image : Img (Fin n → Nat)} {w h : Nat} {f : Nat → Nat → Fin n → Nat} (hs : image.Shows w h f) {x y : ℝ}
    (hx : Surrounded w x) (hy : Surrounded h y) {default r : Fin n → Nat}
    (hr : interpolate u8 image x y default = some r) (c : Fin n) (hb : ∀ i j, i < w → j < h → f i j c ≤ 255) {a b d : ℝ}
    (hf : ∀ i j, i < w → j < h → (f i j c : ℝ) = a * i + b * j + d) :
    (r c : ℝ) - 1 / 8 ≤ a * x + b * y + d ∧ a * x + b * y + d < r c + 2 + 1 / 8 := by
  have cast : ∀ z : ℝ, 1 ≤ ⌊z⌋ → ((⌊z⌋.toNat : ℕ) : ℝ) = ⌊z⌋ ∧ ((⌊z⌋.toNat - 1 : ℕ) : ℝ) = ⌊z⌋ - 1 := by
    intro z hz
    constructor
    · exact_mod_cast Int.toNat_of_nonneg (by omega)
    · exact_mod_cast (by omega : ((⌊z⌋.toNat - 1 : ℕ) : ℤ) = ⌊z⌋ - 1)
  obtain ⟨cx, cx'⟩ := cast x hx.1
  obtain ⟨cy, cy'⟩ := cast y hy.1
  have hx1 := hx.1
  have hx2 := hx.2
  have hy1 := hy.1
  have hy2 := hy.2
  have lin : ∀ A B I t : ℝ, catmull (B * (I - 1) + A) (B * I + A) (B * (I + 1) + A) (B * (I + 2) + A) t =
      B * (I + t) + A := by intros; unfold catmull; ring
  have row : ∀ j, j < h → catmull (f (⌊x⌋.toNat - 1) j c) (f ⌊x⌋.toNat j c)
        (f (⌊x⌋.toNat + 1) j c) (f (⌊x⌋.toNat + 2) j c) (x - ⌊x⌋) = a * x + (b * j + d) := by
    intro j hj
    rw [hf _ _ (by omega) hj, hf _ _ (by omega) hj, hf _ _ (by omega) hj, hf _ _ (by omega) hj]
    push_cast
    rw [cx, cx']
    simp only [add_assoc]
    rw [lin, add_sub_cancel]
  have whole : bicubic (fun i j => f i j c) x y = a * x + b * y + d := by
    simp only [bicubic]
    rw [row _ (by omega), row _ (by omega), row _ (by omega), row _ (by omega)]
    push_cast
    rw [cy, cy']
    have := lin (a * x + d) b ⌊y⌋ (y - ⌊y⌋)
    rw [add_sub_cancel] at this
    rw [show a * x + b * y + d = b * y + (a * x + d) by ring, ← this]
    congr 1 <;> ring
  have between : ∀ j, j < h → 0 ≤ a * x + (b * j + d) ∧ a * x + (b * j + d) ≤ 255 := by
    intro j hj
    have h1 : (0 : ℝ) ≤ f ⌊x⌋.toNat j c := Nat.cast_nonneg _
    have h2 : (0 : ℝ) ≤ f (⌊x⌋.toNat + 1) j c := Nat.cast_nonneg _
    have h3 : (f ⌊x⌋.toNat j c : ℝ) ≤ 255 := by exact_mod_cast hb _ _ (by omega) hj
    have h4 : (f (⌊x⌋.toNat + 1) j c : ℝ) ≤ 255 := by exact_mod_cast hb _ _ (by omega) hj
    rw [hf _ _ (by omega) hj] at h1 h2 h3 h4
    push_cast at h2 h4
    rw [cx] at h1 h2 h3 h4
    have t0 : 0 ≤ x - ⌊x⌋ := by linarith [Int.floor_le x]
    have t1 : 0 ≤ 1 - (x - ⌊x⌋) := by linarith [Int.lt_floor_add_one x]
    have e : a * x + (b * j + d) = (1 - (x - ⌊x⌋)) * (a * ⌊x⌋ + b * j + d) + (x - ⌊x⌋) * (a * (⌊x⌋ + 1) + b * j + d) := by
      ring
    rw [e]
    constructor
    · exact add_nonneg (mul_nonneg t1 h1) (mul_nonneg t0 h2)
    · nlinarith [mul_le_mul_of_nonneg_left h3 t1, mul_le_mul_of_nonneg_left h4 t0]
  have inside : 0 ≤ a * x + b * y + d ∧ a * x + b * y + d ≤ 255 := by
    have h1 := between ⌊y⌋.toNat (by omega)
    have h2 := between (⌊y⌋.toNat + 1) (by omega)
    push_cast at h2
    rw [cy] at h1 h2
    have t0 : 0 ≤ y - ⌊y⌋ := by linarith [Int.floor_le y]
    have t1 : 0 ≤ 1 - (y - ⌊y⌋) := by linarith [Int.lt_floor_add_one y]
    have e : a * x + b * y + d = (1 - (y - ⌊y⌋)) * (a * x + (b * ⌊y⌋ + d)) + (y - ⌊y⌋) * (a * x + (b * (⌊y⌋ + 1) + d)) := by
      ring
    rw [e]
    constructor
    · exact add_nonneg (mul_nonneg t1 h1.1) (mul_nonneg t0 h2.1)
    · nlinarith [mul_le_mul_of_nonneg_left h1.2 t1, mul_le_mul_of_nonneg_left h2.2 t0]
  have main := C58_colour hs hx hy hr c (fun j h1 h2 => by
      rw [row j (by omega)]
      have := between j (by omega)
      exact ⟨this.1, by linarith [this.2]⟩) (by rw [whole]; exact ⟨inside.1, by linarith [inside.2]⟩)
  rw [whole] at main
  exact main

/-- A ramp of colours; the values in between are not integers. -/
example : ∃ image : Img (Fin 3 → Nat), ∃ r : Fin 3 → Nat, interpolate u8 image 4.5 3.25 (fun _ => 0) = some r ∧
    (r 0 : ℝ) - 1 / 8 ≤ 11 * 4.5 + 9 * 3.25 + 5 ∧ 11 * 4.5 + 9 * 3.25 + 5 < (r 0 : ℝ) + 2 + 1 / 8 := by
  have hs := ofFn_shows 10 10 (fun i j (_ : Fin 3) => 11 * i + 9 * j + 5)
  obtain ⟨r, hr⟩ := C57_reads u8 hs.2.2.1 4.5 3.25 (fun _ => 0)
  refine ⟨_, r, hr, C58_ramp hs ?_ ?_ hr 0 (fun i j hi hj => by omega) (fun i j _ _ => by push_cast; ring)⟩
  · have h1 : ⌊(4.5 : ℝ)⌋ = 4 := by rw [Int.floor_eq_iff]; norm_num
    unfold Surrounded; rw [h1]; norm_num
  · have h1 : ⌊(3.25 : ℝ)⌋ = 3 := by rw [Int.floor_eq_iff]; norm_num
    unfold Surrounded; rw [h1]; norm_num

end Verif.Bicubic
