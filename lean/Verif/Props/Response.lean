import Verif.Props.Filter
import Verif.Model.Diffusion
import Verif.Lemmas.Diffusion

/-!
# The detector response (C73)
-/

namespace Verif.Akaze

variable {K : Type _} [Field K] [CharZero K]

/-- A quadratic polynomial with Hessian `a b; b c`. -/
def quadratic (a b c d e k : K) (x y : Nat) : K :=
  a / 2 * (x : K) ^ 2 + b * x * y + c / 2 * (y : K) ^ 2 + d * x + e * y + k

/-- The derivatives of an image that is quadratic near a pixel. -/
theorem derivative_quadratic {image : Img K} {sigma w h : Nat} {f : Nat → Nat → K} (hs : image.Shows w h f)
    (hw : 0 < w) (hh : 0 < h) (hsig : 2 ≤ sigma) : ∃ lx ly fx fy,
      scharrHorizontal image sigma = some lx ∧ scharrVertical image sigma = some ly ∧
      lx.Shows w h fx ∧ ly.Shows w h fy ∧ ∀ (a b c d e k : K) (x y : Nat), sigma ≤ x → x + sigma < w → sigma ≤ y →
        y + sigma < h → (∀ x' y', x ≤ x' + sigma → x' ≤ x + sigma → y ≤ y' + sigma → y' ≤ y + sigma →
          f x' y' = quadratic a b c d e k x' y') → fx x y = a * x + b * y + d ∧ fy x y = b * x + c * y + e := by
  obtain ⟨lx, e1, s1⟩ := C70_horizontal hs hw hh hsig
  obtain ⟨ly, e2, s2⟩ := C70_vertical hs hw hh hsig
  refine ⟨lx, ly, _, _, e1, e2, s1, s2, fun a b c d e k x y hx hx' hy hy' hf => ?_⟩
  have hsig' : (sigma : K) ≠ 0 := by exact_mod_cast (by omega : sigma ≠ 0)
  have c1 := clamp_inside (n := 0) hx hx' (by omega)
  have c2 := clamp_inside (n := sigma) hx hx' (by omega)
  have c3 := clamp_inside (n := 2 * sigma) hx hx' (by omega)
  have d1 := clamp_inside (n := 0) hy hy' (by omega)
  have d2 := clamp_inside (n := sigma) hy hy' (by omega)
  have d3 := clamp_inside (n := 2 * sigma) hy hy' (by omega)
  have ex : ∀ z : Nat, ((z + 2 * sigma - sigma : Nat) : K) = z + sigma := by
    intro z; rw [show z + 2 * sigma - sigma = z + sigma by omega]; push_cast; ring
  have em : ∀ z : Nat, ((z + sigma - sigma : Nat) : K) = z := by
    intro z; rw [Nat.add_sub_cancel]
  have ex0 : ((x + 0 - sigma : Nat) : K) = x - sigma := by rw [Nat.add_zero, Nat.cast_sub hx]
  have ey0 : ((y + 0 - sigma : Nat) : K) = y - sigma := by rw [Nat.add_zero, Nat.cast_sub hy]
  have p00 := hf (x + 0 - sigma) (y + 0 - sigma) (by omega) (by omega) (by omega) (by omega)
  have p01 := hf (x + 0 - sigma) (y + sigma - sigma) (by omega) (by omega) (by omega) (by omega)
  have p02 := hf (x + 0 - sigma) (y + 2 * sigma - sigma) (by omega) (by omega) (by omega) (by omega)
  have p10 := hf (x + sigma - sigma) (y + 0 - sigma) (by omega) (by omega) (by omega) (by omega)
  have p12 := hf (x + sigma - sigma) (y + 2 * sigma - sigma) (by omega) (by omega) (by omega) (by omega)
  have p20 := hf (x + 2 * sigma - sigma) (y + 0 - sigma) (by omega) (by omega) (by omega) (by omega)
  have p21 := hf (x + 2 * sigma - sigma) (y + sigma - sigma) (by omega) (by omega) (by omega) (by omega)
  have p22 := hf (x + 2 * sigma - sigma) (y + 2 * sigma - sigma) (by omega) (by omega) (by omega) (by omega)
  constructor
  · simp only [c1, c3, d1, d2, d3, p00, p01, p02, p20, p21, p22, quadratic, ex, em, ex0, ey0]
    field_simp
    ring
  · simp only [c1, c2, c3, d1, d3, p00, p10, p02, p20, p12, p22, quadratic, ex, em, ex0, ey0]
    field_simp
    ring

/-- **C73** The response of scale `sigma ≥ 2` has the size of the image. Where the image is a quadratic polynomial
within twice the scale of a pixel, the response there is the determinant of its Hessian times `sigma⁴`. -/
theorem C73_quadratic_partial {image : Img K} {sigma w h : Nat} {f : Nat → Nat → K} (hs : image.Shows w h f)
    (hw : 0 < w) (hh : 0 < h) (hsig : 2 ≤ sigma) : ∃ out r, response image sigma = some out ∧ out.Shows w h r ∧
      ∀ (a b c d e k : K) (x y : Nat), 2 * sigma ≤ x → x + 2 * sigma < w → 2 * sigma ≤ y → y + 2 * sigma < h →
        (∀ x' y', x ≤ x' + 2 * sigma → x' ≤ x + 2 * sigma → y ≤ y' + 2 * sigma → y' ≤ y + 2 * sigma →
          f x' y' = quadratic a b c d e k x' y') → r x y = (a * c - b ^ 2) * (sigma : K) ^ 4 := by
  obtain ⟨lx, ly, fx, fy, e1, e2, s1, s2, q⟩ := derivative_quadratic hs hw hh hsig
  obtain ⟨lxx, lxy, fxx, fxy, e3, e4, s3, s4, qx⟩ := derivative_quadratic s1 hw hh hsig
  obtain ⟨lyx, lyy, fyx, fyy, e5, e6, s5, s6, qy⟩ := derivative_quadratic s2 hw hh hsig
  have hget : ∀ x y, x < w → y < h → (do
      let a ← lxx.get x y
      let b ← lyy.get x y
      let c ← lxy.get x y
      pure ((a * b - c * c) * (sigma : K) ^ 4)) = some ((fxx x y * fyy x y - fxy x y * fxy x y) * (sigma : K) ^ 4) := by
    intro x y hx hy
    rw [s3.2.2.2 x y hx hy, s6.2.2.2 x y hx hy, s4.2.2.2 x y hx hy]
    rfl
  refine ⟨Img.ofFn w h (fun x y => (fxx x y * fyy x y - fxy x y * fxy x y) * (sigma : K) ^ 4), _, ?_, ofFn_shows w h _, ?_⟩
  · unfold response
    simp only [e1, e2, e3, e4, e6, Option.bind_eq_bind, Option.bind_some]
    unfold detectorImage
    rw [if_neg (by rw [s3.1, s3.2.1, s4.1, s4.2.1, s6.1, s6.2.1]; simp), s3.1, s3.2.1]
    exact ofFnM_eq hget
  · intro a b c d e k x y hx hx' hy hy' hf
    have hq : ∀ x' y', x ≤ x' + sigma → x' ≤ x + sigma → y ≤ y' + sigma → y' ≤ y + sigma →
        fx x' y' = quadratic 0 0 0 a b d x' y' ∧ fy x' y' = quadratic 0 0 0 b c e x' y' := by
      intro x' y' h1 h2 h3 h4
      obtain ⟨i1, i2⟩ := q a b c d e k x' y' (by omega) (by omega) (by omega) (by omega)
        (fun x'' y'' g1 g2 g3 g4 => hf x'' y'' (by omega) (by omega) (by omega) (by omega))
      rw [i1, i2]
      unfold quadratic
      constructor <;> ring
    obtain ⟨j1, j2⟩ := qx 0 0 0 a b d x y (by omega) (by omega) (by omega) (by omega)
      (fun x' y' h1 h2 h3 h4 => (hq x' y' h1 h2 h3 h4).1)
    obtain ⟨-, j3⟩ := qy 0 0 0 b c e x y (by omega) (by omega) (by omega) (by omega)
      (fun x' y' h1 h2 h3 h4 => (hq x' y' h1 h2 h3 h4).2)
    rw [j1, j2, j3]
    ring

/-- The derivatives of scale 1 are 32 times too large. -/
theorem derivative_one {image : Img K} {w h : Nat} {f : Nat → Nat → K} (hs : image.Shows w h f)
    (hw : 0 < w) (hh : 0 < h) : ∃ lx ly fx fy,
      scharrHorizontal image 1 = some lx ∧ scharrVertical image 1 = some ly ∧
      lx.Shows w h fx ∧ ly.Shows w h fy ∧ ∀ (a b c d e k : K) (x y : Nat), 1 ≤ x → x + 1 < w → 1 ≤ y →
        y + 1 < h → (∀ x' y', x ≤ x' + 1 → x' ≤ x + 1 → y ≤ y' + 1 → y' ≤ y + 1 →
          f x' y' = quadratic a b c d e k x' y') → fx x y = 32 * (a * x + b * y + d) ∧
            fy x y = 32 * (b * x + c * y + e) := by
  obtain ⟨lx, e1, s1⟩ := C24_correlation hs hw hh (hk := [-1, 0, 1]) (vk := [3, 10, 3]) (by simp) (by simp)
  obtain ⟨ly, e2, s2⟩ := C24_correlation hs hw hh (hk := [3, 10, 3]) (vk := [-1, 0, 1]) (by simp) (by simp)
  refine ⟨lx, ly, _, _, e1, e2, s1, s2, fun a b c d e k x y hx hx' hy hy' hf => ?_⟩
  have hpix : ∀ i j, i ≤ 2 → j ≤ 2 → f (clampAt w 1 x i) (clampAt h 1 y j) =
      a / 2 * ((x : K) + i - 1) ^ 2 + b * ((x : K) + i - 1) * ((y : K) + j - 1) + c / 2 * ((y : K) + j - 1) ^ 2 +
        d * ((x : K) + i - 1) + e * ((y : K) + j - 1) + k := by
    intro i j hi hj
    rw [clamp_inside (by omega) (by omega) (by omega), clamp_inside (by omega) (by omega) (by omega),
      hf _ _ (by omega) (by omega) (by omega) (by omega)]
    unfold quadratic
    rw [Nat.cast_sub (by omega), Nat.cast_sub (by omega)]
    push_cast
    ring
  simp only [List.length_cons, List.length_nil, Finset.sum_range_succ, Finset.sum_range_zero]
  constructor
  · norm_num only [hpix, List.getD_cons_zero, List.getD_cons_succ]
    ring
  · norm_num only [hpix, List.getD_cons_zero, List.getD_cons_succ]
    ring

/-- **C73, refuted for scale 1.** There the response is `32⁴` times too large. -/
theorem C73_scale_one {image : Img K} {w h : Nat} {f : Nat → Nat → K} (hs : image.Shows w h f)
    (hw : 0 < w) (hh : 0 < h) : ∃ out r, response image 1 = some out ∧ out.Shows w h r ∧
      ∀ (a b c d e k : K) (x y : Nat), 2 ≤ x → x + 2 < w → 2 ≤ y → y + 2 < h →
        (∀ x' y', x ≤ x' + 2 → x' ≤ x + 2 → y ≤ y' + 2 → y' ≤ y + 2 →
          f x' y' = quadratic a b c d e k x' y') → r x y = 32 ^ 4 * (a * c - b ^ 2) := by
  obtain ⟨lx, ly, fx, fy, e1, e2, s1, s2, q⟩ := derivative_one hs hw hh
  obtain ⟨lxx, lxy, fxx, fxy, e3, e4, s3, s4, qx⟩ := derivative_one s1 hw hh
  obtain ⟨lyx, lyy, fyx, fyy, e5, e6, s5, s6, qy⟩ := derivative_one s2 hw hh
  have hget : ∀ x y, x < w → y < h → (do
      let a ← lxx.get x y
      let b ← lyy.get x y
      let c ← lxy.get x y
      pure ((a * b - c * c) * ((1 : Nat) : K) ^ 4)) =
        some ((fxx x y * fyy x y - fxy x y * fxy x y) * ((1 : Nat) : K) ^ 4) := by
    intro x y hx hy
    rw [s3.2.2.2 x y hx hy, s6.2.2.2 x y hx hy, s4.2.2.2 x y hx hy]
    rfl
  refine ⟨Img.ofFn w h (fun x y => (fxx x y * fyy x y - fxy x y * fxy x y) * ((1 : Nat) : K) ^ 4), _, ?_,
    ofFn_shows w h _, ?_⟩
  · unfold response
    simp only [e1, e2, e3, e4, e6, Option.bind_eq_bind, Option.bind_some]
    unfold detectorImage
    rw [if_neg (by rw [s3.1, s3.2.1, s4.1, s4.2.1, s6.1, s6.2.1]; simp), s3.1, s3.2.1]
    exact ofFnM_eq hget
  · intro a b c d e k x y hx hx' hy hy' hf
    have hq : ∀ x' y', x ≤ x' + 1 → x' ≤ x + 1 → y ≤ y' + 1 → y' ≤ y + 1 →
        fx x' y' = quadratic 0 0 0 (32 * a) (32 * b) (32 * d) x' y' ∧
          fy x' y' = quadratic 0 0 0 (32 * b) (32 * c) (32 * e) x' y' := by
      intro x' y' h1 h2 h3 h4
      obtain ⟨i1, i2⟩ := q a b c d e k x' y' (by omega) (by omega) (by omega) (by omega)
        (fun x'' y'' g1 g2 g3 g4 => hf x'' y'' (by omega) (by omega) (by omega) (by omega))
      rw [i1, i2]
      unfold quadratic
      constructor <;> ring
    obtain ⟨j1, j2⟩ := qx 0 0 0 (32 * a) (32 * b) (32 * d) x y (by omega) (by omega) (by omega) (by omega)
      (fun x' y' h1 h2 h3 h4 => (hq x' y' h1 h2 h3 h4).1)
    obtain ⟨-, j3⟩ := qy 0 0 0 (32 * b) (32 * c) (32 * e) x y (by omega) (by omega) (by omega) (by omega)
      (fun x' y' h1 h2 h3 h4 => (hq x' y' h1 h2 h3 h4).2)
    rw [j1, j2, j3]
    push_cast
    ring

omit [CharZero K] in
/-- The response fails for scale zero (which happens when the scale times the derivative factor is less than half a
pixel of the octave). -/
theorem C73_zero (image : Img K) : response image 0 = none := by
  unfold response
  rw [(C70_zero image).1]
  rfl

/-- A saddle has a negative response, a bowl a positive one: a 30 by 30 image that is quadratic everywhere. -/
example : ∃ out r, response (Img.ofFn 30 30 (quadratic (2 : ℚ) 1 3 0 0 0)) 2 = some out ∧ out.Shows 30 30 r ∧
    r 10 12 = 80 := by
  obtain ⟨out, r, h1, h2, h3⟩ := C73_quadratic_partial (ofFn_shows 30 30 (quadratic (2 : ℚ) 1 3 0 0 0)) (by norm_num)
    (by norm_num) (le_refl 2)
  refine ⟨out, r, h1, h2, ?_⟩
  rw [h3 2 1 3 0 0 0 10 12 (by norm_num) (by norm_num) (by norm_num) (by norm_num) (fun _ _ _ _ _ _ => rfl)]
  norm_num

end Verif.Akaze
