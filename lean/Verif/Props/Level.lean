import Verif.Props.Extract

/-!
# What a level of the detector holds (C73)
-/

namespace Verif.Akaze

/-- **C73** A level of the detector: the images have the size of its smoothed image. Wherever that image is a quadratic
polynomial (around a pixel, as far as the filters reach), `lx` is its derivative to the right, `ly` its derivative
downwards and `ldet` its Hessian determinant times the fourth power of the filter scale, which is the scale of the level
in its own pixels times the derivative factor, rounded. Missing: a filter scale of one (`C73_scale_one`). -/
theorem C73_level_partial {df : ℝ} {s : Scale} {w h : Nat} {f : Nat → Nat → ℝ} (hs : s.lsmooth.Shows w h f)
    (hw : 0 < w) (hh : 0 < h) {sigma : Nat} (hsig : 2 ≤ sigma)
    (hr : |(sigma : ℝ) - s.level.esigma * df / 2 ^ s.level.octave| < 1 / 2) :
    ∃ l fx fy fd, detLevel df s = some l ∧ l.octave = s.level.octave ∧ l.esigma = s.level.esigma ∧ l.lt = s.lt ∧
      l.lx.Shows w h fx ∧ l.ly.Shows w h fy ∧ l.ldet.Shows w h fd ∧
      ∀ (a b c d e k : ℝ) (x y : Nat), 2 * sigma ≤ x → x + 2 * sigma < w → 2 * sigma ≤ y → y + 2 * sigma < h →
        (∀ x' y' : Nat, x ≤ x' + 2 * sigma → x' ≤ x + 2 * sigma → y ≤ y' + 2 * sigma → y' ≤ y + 2 * sigma →
          f x' y' = a / 2 * x' ^ 2 + b * x' * y' + c / 2 * y' ^ 2 + d * x' + e * y' + k) →
        fx x y = a * x + b * y + d ∧ fy x y = b * x + c * y + e ∧ fd x y = (a * c - b ^ 2) * (sigma : ℝ) ^ 4 := by
  have hscale : edgeScale df s.level.octave s.level.esigma = sigma := by
    rw [abs_lt] at hr
    unfold edgeScale
    have h2 : (2 : ℝ) ≤ sigma := by exact_mod_cast hsig
    rw [roundAway_nonneg (by linarith)]
    have : ⌊s.level.esigma * df / 2 ^ s.level.octave + 1 / 2⌋ = (sigma : ℤ) := by
      rw [Int.floor_eq_iff]
      push_cast
      constructor <;> linarith
    rw [this]; rfl
  obtain ⟨lx, ly, fx, fy, e1, e2, e3, e4, e5⟩ := derivative_quadratic hs hw hh hsig
  obtain ⟨ld, fd, e6, e7, e8⟩ := C73_quadratic_partial hs hw hh hsig
  refine ⟨⟨s.level.octave, s.level.esigma, s.lt, lx, ly, ld⟩, fx, fy, fd, ?_, rfl, rfl, rfl, e3, e4, e7, ?_⟩
  · unfold detLevel
    simp only [hscale, e1, e2, e6, Option.bind_eq_bind, Option.bind_some]; rfl
  · intro a b c d e k x y h1 h2 h3 h4 hq
    have hq' : ∀ x' y', x ≤ x' + 2 * sigma → x' ≤ x + 2 * sigma → y ≤ y' + 2 * sigma → y' ≤ y + 2 * sigma →
          f x' y' = quadratic a b c d e k x' y' := by
      intro x' y' g1 g2 g3 g4
      rw [hq x' y' g1 g2 g3 g4]
      unfold quadratic
      ring
    obtain ⟨r1, r2⟩ := e5 a b c d e k x y (by omega) (by omega) (by omega) (by omega)
      (fun x' y' g1 g2 g3 g4 => hq' x' y' (by omega) (by omega) (by omega) (by omega))
    exact ⟨r1, r2, e8 a b c d e k x y h1 h2 h3 h4 hq'⟩

/-- A smoothed image of 40 by 30 pixels that is a saddle, at scale 1.6 with the default derivative factor: the filter
scale is 2 and the response is negative. -/
example {image : Img ℝ} (hs : image.Shows 40 30 (fun x y => (x : ℝ) * y)) (lv : Level) (h1 : lv.esigma = 1.6)
    (h2 : lv.octave = 0) : ∃ l fx fy fd, detLevel 1.5 ⟨lv, image, image⟩ = some l ∧ l.lx.Shows 40 30 fx ∧
      l.ly.Shows 40 30 fy ∧ l.ldet.Shows 40 30 fd ∧ fx 10 7 = 7 ∧ fy 10 7 = 10 ∧ fd 10 7 = -16 := by
  obtain ⟨l, fx, fy, fd, e, -, -, -, s1, s2, s3, h⟩ := C73_level_partial (df := 1.5) (s := ⟨lv, image, image⟩) hs (by norm_num)
    (by norm_num) (sigma := 2) le_rfl (by simp only [h1, h2]; norm_num [abs_lt])
  obtain ⟨g1, g2, g3⟩ := h 0 1 0 0 0 0 10 7 (by norm_num) (by norm_num) (by norm_num) (by norm_num)
    (by intro x' y' _ _ _ _; ring)
  refine ⟨l, fx, fy, fd, e, s1, s2, s3, ?_, ?_, ?_⟩
  · rw [g1]; norm_num
  · rw [g2]; norm_num
  · rw [g3]; norm_num

end Verif.Akaze
