import Verif.Model.Pinhole
import Verif.Lemmas.Pose

/-!
# C38-C40: pinhole cameras
-/

namespace Verif.Geo

theorem cdiv_of_ne {a b : ℝ} (h : b ≠ 0) : cdiv a b = some (a / b) := by
  unfold cdiv; rw [if_neg h]

theorem csqrt_of_nonneg {a : ℝ} (h : 0 ≤ a) : csqrt a = some (Real.sqrt a) := by
  unfold csqrt; rw [if_neg (not_lt.mpr h)]

/-- The normalised bearing of an image point. -/
theorem normalize_image (x y : ℝ) : ∃ n : ℝ, 0 < n ∧ n * n = x * x + y * y + 1 ∧
    V3.normalize ⟨x, y, 1⟩ = some ⟨x / n, y / n, 1 / n⟩ := by
  have hz : (⟨x, y, 1⟩ : V3 ℝ) ≠ V3.zero := by
    intro e
    exact one_ne_zero (congrArg V3.z e)
  have hn := V3.norm_pos hz
  refine ⟨V3.norm ⟨x, y, 1⟩, hn, ?_, ?_⟩
  · rw [V3.norm_mul_self]
    simp only [lin]
    ring
  · unfold V3.normalize
    rw [if_neg hn.ne']
    congr 1
    ext <;> simp only [lin] <;> ring

theorem project_image {x y n : ℝ} (hn : 0 < n) :
    project ⟨x / n, y / n, 1 / n⟩ = some ⟨x, y⟩ := by
  unfold project
  have : (1 / n : ℝ) ≠ 0 := by positivity
  simp only [cdiv_of_ne this, Option.bind_eq_bind, Option.bind_some, Option.pure_def]
  congr 1
  ext <;> field_simp

theorem Intrinsics.normalised_eq {k : Intrinsics} (hx : k.focals.x ≠ 0) (hy : k.focals.y ≠ 0)
    (p : V2 ℝ) : k.normalised p = some
      ⟨(p.x - k.principal.x - k.skew * ((p.y - k.principal.y) / k.focals.y)) / k.focals.x,
        (p.y - k.principal.y) / k.focals.y⟩ := by
  unfold Intrinsics.normalised
  simp only [cdiv_of_ne hx, cdiv_of_ne hy, Option.bind_eq_bind, Option.bind_some, Option.pure_def]

/-! ## C38 -/

/-- **C38** With non-zero focal lengths: calibrating a pixel gives a forward unit bearing that
projects, by the intrinsic matrix, to the pixel, and uncalibrating it gives the pixel back. -/
theorem C38_calibrate_uncalibrate (k : Intrinsics) (hx : k.focals.x ≠ 0) (hy : k.focals.y ≠ 0)
    (p : V2 ℝ) :
    ∃ b, k.calibrate p = some b ∧ b.normSq = 1 ∧ 0 < b.z ∧
      k.matrix.mulVec (V3.smul (1 / b.z) b) = ⟨p.x, p.y, 1⟩ ∧ k.uncalibrate b = some (some p) := by
  unfold Intrinsics.calibrate
  rw [Intrinsics.normalised_eq hx hy]
  simp only [Option.bind_eq_bind, Option.bind_some]
  obtain ⟨n, hn, hnn, e⟩ := normalize_image
    ((p.x - k.principal.x - k.skew * ((p.y - k.principal.y) / k.focals.y)) / k.focals.x)
    ((p.y - k.principal.y) / k.focals.y)
  rw [e]
  have hz : (0 : ℝ) < 1 / n := by positivity
  refine ⟨_, rfl, ?_, hz, ?_, ?_⟩
  · simp only [lin]
    field_simp
    field_simp at hnn
    linarith
  · unfold Intrinsics.matrix
    ext
    · simp only [lin]; field_simp; ring
    · simp only [lin]; field_simp; ring
    · simp only [lin]; field_simp; ring
  · unfold Intrinsics.uncalibrate
    simp only [if_neg (not_lt.mpr hz.le), project_image hn, Option.bind_eq_bind, Option.bind_some,
      Option.pure_def]
    unfold Intrinsics.pixel
    congr 2
    ext
    · simp only; field_simp; ring
    · simp only; field_simp; ring

/-- **C38** Uncalibrating a forward unit bearing and calibrating the pixel gives the bearing back;
a backward bearing gives no pixel. -/
theorem C38_uncalibrate_calibrate (k : Intrinsics) (hx : k.focals.x ≠ 0) (hy : k.focals.y ≠ 0)
    (b : V3 ℝ) (hb : b.normSq = 1) :
    (b.z < 0 → k.uncalibrate b = some none) ∧
    (0 < b.z → ∃ p, k.uncalibrate b = some (some p) ∧ k.calibrate p = some b) := by
  refine ⟨?_, ?_⟩
  · intro h
    unfold Intrinsics.uncalibrate
    rw [if_pos h]
  · intro h
    have hz := h.ne'
    unfold Intrinsics.uncalibrate project
    simp only [if_neg (not_lt.mpr h.le), cdiv_of_ne hz, Option.bind_eq_bind, Option.bind_some,
      Option.pure_def]
    refine ⟨_, rfl, ?_⟩
    unfold Intrinsics.calibrate
    rw [Intrinsics.normalised_eq hx hy]
    simp only [Option.bind_eq_bind, Option.bind_some]
    have e1 : ((k.pixel ⟨b.x / b.z, b.y / b.z⟩).y - k.principal.y) / k.focals.y = b.y / b.z := by
      unfold Intrinsics.pixel; simp only; field_simp; ring
    have e2 : ((k.pixel ⟨b.x / b.z, b.y / b.z⟩).x - k.principal.x - k.skew * (b.y / b.z)) /
        k.focals.x = b.x / b.z := by
      unfold Intrinsics.pixel; simp only; field_simp; ring
    rw [e1, e2]
    obtain ⟨n, hn, hnn, e⟩ := normalize_image (b.x / b.z) (b.y / b.z)
    rw [e]
    simp only [lin] at hb
    have hnz : n * b.z = 1 := by
      have : (n * b.z) * (n * b.z) = 1 := by
        have h2 : n * n * (b.z * b.z) = b.x * b.x + b.y * b.y + b.z * b.z := by
          rw [hnn]; field_simp
        nlinarith
      nlinarith [mul_pos hn h]
    have hn' : n = 1 / b.z := by field_simp; exact hnz
    congr 1
    ext <;> simp only <;> rw [hn'] <;> field_simp

/-- Intrinsics of the documentation, and a forward unit bearing. -/
example : ((⟨⟨800, 900⟩, ⟨500, 600⟩, 17 / 10⟩ : Intrinsics).focals.x ≠ 0) ∧
    (⟨2 / 7, 3 / 7, 6 / 7⟩ : V3 ℝ).normSq = 1 := by
  refine ⟨by norm_num, by simp only [lin]; norm_num⟩

/-! ## C39 -/

/-- The distortion of a pixel: `k1` times the squared distance from the centre, in normalised image
coordinates. -/
noncomputable def IntrinsicsK1.distortion (k : IntrinsicsK1) (p : V2 ℝ) : ℝ :=
  let y := (p.y - k.simple.principal.y) / k.simple.focals.y
  let x := (p.x - k.simple.principal.x - k.simple.skew * y) / k.simple.focals.x
  k.k1 * (x * x + y * y)

/-- **C39** (partial: the exact range.) The bearing of a pixel exists unless the distortion is −1.
Then uncalibrating returns the pixel if and only if the distortion `s` satisfies `s ≠ 0` and
`-1 < s ≤ 1`. With `s = 0`, that is for zero `k1` or at the principal point, the result is not a
number. -/
theorem C39_round_trip_partial (k : IntrinsicsK1) (hx : k.simple.focals.x ≠ 0)
    (hy : k.simple.focals.y ≠ 0) (p : V2 ℝ) (hs : k.distortion p ≠ -1) :
    ∃ b, k.calibrate p = some b ∧ b.normSq = 1 ∧
      (k.uncalibrate b = some (some p) ↔
        k.distortion p ≠ 0 ∧ -1 < k.distortion p ∧ k.distortion p ≤ 1) ∧
      (k.distortion p = 0 → k.uncalibrate b = none) := by
  unfold IntrinsicsK1.calibrate
  rw [Intrinsics.normalised_eq hx hy]
  simp only [Option.bind_eq_bind, Option.bind_some]
  set y := (p.y - k.simple.principal.y) / k.simple.focals.y with hyd
  set x := (p.x - k.simple.principal.x - k.simple.skew * y) / k.simple.focals.x with hxd
  have hsd : k.distortion p = k.k1 * (x * x + y * y) := rfl
  have hnd : (V2.normSq ⟨x, y⟩ : ℝ) = x * x + y * y := rfl
  rw [hnd]
  set s := k.distortion p with hsdef
  rw [← hsd]
  have h1 : 1 + s ≠ 0 := fun e => hs (by linarith)
  rw [cdiv_of_ne h1, cdiv_of_ne h1]
  simp only [Option.bind_some]
  obtain ⟨n, hn, hnn, e⟩ := normalize_image (x / (1 + s)) (y / (1 + s))
  rw [e]
  have hz : (0 : ℝ) < 1 / n := by positivity
  refine ⟨_, rfl, ?_, ?_⟩
  · simp only [lin]
    field_simp
    field_simp at hnn
    linarith
  -- the pixel of the undistorted point times a factor
  have hpix : k.simple.pixel ⟨x, y⟩ = p := by
    unfold Intrinsics.pixel
    ext
    · simp only [hxd]; field_simp; ring
    · simp only [hyd]; field_simp; ring
  have hinj : ∀ c d, k.simple.pixel c = k.simple.pixel d → c = d := by
    intro c d h
    rw [V2.ext_iff] at h
    unfold Intrinsics.pixel at h
    obtain ⟨a1, a2⟩ := h
    simp only at a1 a2
    have hyy : c.y = d.y := by
      have : c.y * k.simple.focals.y = d.y * k.simple.focals.y := by linarith
      exact mul_right_cancel₀ hy this
    have hxx : c.x = d.x := by
      rw [hyy] at a1
      have : c.x * k.simple.focals.x = d.x * k.simple.focals.x := by linarith
      exact mul_right_cancel₀ hx this
    exact V2.ext hxx hyy
  have hu : (V2.normSq ⟨x / (1 + s), y / (1 + s)⟩ : ℝ) * k.k1 = s / ((1 + s) * (1 + s)) := by
    simp only [lin]
    field_simp
    rw [hsd]
    ring
  set u2 : ℝ := V2.normSq ⟨x / (1 + s), y / (1 + s)⟩ with hu2
  have hroot : 1 - 4 * k.k1 * u2 = ((1 - s) / (1 + s)) * ((1 - s) / (1 + s)) := by
    have : 4 * k.k1 * u2 = 4 * (s / ((1 + s) * (1 + s))) := by rw [← hu]; ring
    rw [this]
    field_simp
    ring
  have hun : k.uncalibrate ⟨x / (1 + s) / n, y / (1 + s) / n, 1 / n⟩ =
      (cdiv (-(2 * k.k1 * u2 + |(1 - s) / (1 + s)| - 1)) (2 * k.k1 * u2)).bind
        (fun m => some (some (k.simple.pixel
          ⟨x / (1 + s) * (1 + m), y / (1 + s) * (1 + m)⟩))) := by
    unfold IntrinsicsK1.uncalibrate
    simp only [if_neg (not_lt.mpr hz.le), project_image hn, Option.bind_eq_bind, Option.bind_some,
      Option.pure_def, ← hu2, hroot]
    rw [csqrt_of_nonneg (mul_self_nonneg _), Real.sqrt_mul_self_eq_abs]
    rfl
  rw [hun]
  have hden : 2 * k.k1 * u2 = 2 * (s / ((1 + s) * (1 + s))) := by rw [← hu]; ring
  rw [hden]
  by_cases h0 : s = 0
  · have : 2 * (s / ((1 + s) * (1 + s))) = 0 := by rw [h0]; ring
    rw [this]
    unfold cdiv
    rw [if_pos rfl]
    refine ⟨?_, fun _ => rfl⟩
    constructor
    · intro h; cases h
    · rintro ⟨h, _⟩; exact absurd h0 h
  · have hne : 2 * (s / ((1 + s) * (1 + s))) ≠ 0 :=
      mul_ne_zero two_ne_zero (div_ne_zero h0 (mul_ne_zero h1 h1))
    rw [cdiv_of_ne hne]
    refine ⟨?_, fun h => absurd h h0⟩
    simp only [Option.bind_some, Option.some.injEq]
    have hxy : ¬ (x = 0 ∧ y = 0) := by
      rintro ⟨a, b⟩
      apply h0
      rw [hsd, a, b]; ring
    by_cases hin : -1 < s ∧ s ≤ 1
    · have habs : |(1 - s) / (1 + s)| = (1 - s) / (1 + s) :=
        abs_of_nonneg (div_nonneg (by linarith [hin.2]) (by linarith [hin.1]))
      have hm : -(2 * (s / ((1 + s) * (1 + s))) + |(1 - s) / (1 + s)| - 1) /
          (2 * (s / ((1 + s) * (1 + s)))) = s := by
        rw [habs]; field_simp; ring
      rw [hm]
      constructor
      · intro _; exact ⟨h0, hin⟩
      · intro _
        rw [← hpix]
        congr 1
        ext
        · simp only; field_simp
        · simp only; field_simp
    · have habs : |(1 - s) / (1 + s)| = -((1 - s) / (1 + s)) := by
        apply abs_of_nonpos
        rcases lt_or_ge s 1 with h | h
        · have : s < -1 := by
            by_contra hc
            push Not at hc
            exact hin ⟨lt_of_le_of_ne hc (Ne.symm hs), h.le⟩
          exact (div_neg_of_pos_of_neg (by linarith) (by linarith)).le
        · have : 1 ≤ s := h
          exact div_nonpos_of_nonpos_of_nonneg (by linarith) (by linarith)
      have hm : -(2 * (s / ((1 + s) * (1 + s))) + |(1 - s) / (1 + s)| - 1) /
          (2 * (s / ((1 + s) * (1 + s)))) = 1 / s := by
        rw [habs]; field_simp; ring
      rw [hm]
      constructor
      · intro h
        exfalso
        rw [← hpix] at h
        have hc := hinj _ _ h
        rw [V2.ext_iff] at hc
        simp only at hc
        have hf : ∀ c : ℝ, c / (1 + s) * (1 + 1 / s) = c / s := by
          intro c
          have e1 : (1 + 1 / s) = (1 + s) / s := by field_simp; ring
          rw [e1, div_mul_div_comm, mul_comm (1 + s) s, mul_div_mul_right _ _ h1]
        rw [hf, hf] at hc
        have hs1 : s ≠ 1 := fun e => hin ⟨by rw [e]; norm_num, e.le⟩
        have hz0 : ∀ c : ℝ, c / s = c → c = 0 := by
          intro c h
          rw [div_eq_iff h0] at h
          have : c * (s - 1) = 0 := by linarith
          rcases mul_eq_zero.mp this with h | h
          · exact h
          · exact absurd (by linarith) hs1
        exact hxy ⟨hz0 _ hc.1, hz0 _ hc.2⟩
      · rintro ⟨_, h⟩
        exact absurd h hin

/-- The full statement is false: the principal point of the documentation's camera does not
survive. -/
theorem C39_principal_point_lost (k : IntrinsicsK1) (hx : k.simple.focals.x ≠ 0)
    (hy : k.simple.focals.y ≠ 0) :
    ∃ b, k.calibrate k.simple.principal = some b ∧ k.uncalibrate b = none := by
  have h0 : k.distortion k.simple.principal = 0 := by
    unfold IntrinsicsK1.distortion
    simp
  obtain ⟨b, h1, _, _, h3⟩ := C39_round_trip_partial k hx hy k.simple.principal
    (by rw [h0]; norm_num)
  exact ⟨b, h1, h3 h0⟩

/-- A pixel in the good range. -/
example : (⟨⟨⟨1, 1⟩, ⟨0, 0⟩, 0⟩, -1/2⟩ : IntrinsicsK1).distortion ⟨1, 0⟩ = -1/2 := by
  unfold IntrinsicsK1.distortion
  norm_num

/-! ## C40 -/

/-- The principal point lies at the centre of the pixel grid (pixel centres at integers). -/
def Centered (s : CameraSpec) (k : Intrinsics) : Prop :=
  k.principal.x = ((s.pixels.x : ℝ) - 1) / 2 ∧ k.principal.y = ((s.pixels.y : ℝ) - 1) / 2

/-- **C40** (partial) The centred intrinsics have the requested focal length and no skew, and the
principal point is centred exactly if the pixel dimensions, in metres, happen to equal the pixel
counts. -/
theorem C40_centered_partial (s : CameraSpec) (f : ℝ) :
    (s.intrinsicsCentered f).focals = ⟨f, f⟩ ∧ (s.intrinsicsCentered f).skew = 0 ∧
    (Centered s (s.intrinsicsCentered f) ↔
      s.pixelDimensions.x = s.pixels.x ∧ s.pixelDimensions.y = s.pixels.y) := by
  refine ⟨rfl, rfl, ?_⟩
  unfold Centered CameraSpec.intrinsicsCentered
  simp only
  constructor
  · rintro ⟨h1, h2⟩; exact ⟨by linarith, by linarith⟩
  · rintro ⟨h1, h2⟩; exact ⟨by rw [h1]; ring, by rw [h2]; ring⟩

/-- The full statement is false, for instance for a 640 by 480 sensor of 6.4 by 4.8 millimetres. -/
theorem C40_not_centered :
    ¬ Centered (CameraSpec.fromSensor ⟨640, 480⟩ ⟨0.0064, 0.0048⟩)
      ((CameraSpec.fromSensor ⟨640, 480⟩ ⟨0.0064, 0.0048⟩).intrinsicsCentered 500) := by
  rw [(C40_centered_partial _ _).2.2]
  rintro ⟨h, _⟩
  unfold CameraSpec.fromSensor at h
  norm_num at h

/-- **C40** The pixel size computed from a sensor, times the number of pixels, is the size of the sensor. -/
theorem C40_pixel_size {pixels : V2 Nat} (hx : pixels.x ≠ 0) (hy : pixels.y ≠ 0) (sensor : V2 ℝ) :
    (CameraSpec.fromSensor pixels sensor).pixels = pixels ∧
    (CameraSpec.fromSensor pixels sensor).pixelDimensions.x * pixels.x = sensor.x ∧
    (CameraSpec.fromSensor pixels sensor).pixelDimensions.y * pixels.y = sensor.y := by
  have h1 : (pixels.x : ℝ) ≠ 0 := Nat.cast_ne_zero.mpr hx
  have h2 : (pixels.y : ℝ) ≠ 0 := Nat.cast_ne_zero.mpr hy
  exact ⟨rfl, div_mul_cancel₀ _ h1, div_mul_cancel₀ _ h2⟩

/-- **C40** With the width alone the pixels are square, the width of the sensor is kept, and the result is that of the whole
size exactly if the sensor has the shape of the picture. -/
theorem C40_square_pixels {pixels : V2 Nat} (hx : pixels.x ≠ 0) (hy : pixels.y ≠ 0) (width height : ℝ) :
    (CameraSpec.fromSensorSquare pixels width).pixels = pixels ∧
    (CameraSpec.fromSensorSquare pixels width).pixelDimensions.x =
      (CameraSpec.fromSensorSquare pixels width).pixelDimensions.y ∧
    (CameraSpec.fromSensorSquare pixels width).pixelDimensions.x * pixels.x = width ∧
    (CameraSpec.fromSensorSquare pixels width = CameraSpec.fromSensor pixels ⟨width, height⟩ ↔
      width * pixels.y = height * pixels.x) := by
  have h1 : (pixels.x : ℝ) ≠ 0 := Nat.cast_ne_zero.mpr hx
  have h2 : (pixels.y : ℝ) ≠ 0 := Nat.cast_ne_zero.mpr hy
  refine ⟨rfl, rfl, div_mul_cancel₀ _ h1, ?_⟩
  unfold CameraSpec.fromSensorSquare CameraSpec.fromSensor
  simp only [CameraSpec.mk.injEq, V2.mk.injEq, true_and]
  exact div_eq_div_iff h1 h2

example : CameraSpec.fromSensorSquare ⟨640, 480⟩ 0.0064 = CameraSpec.fromSensor ⟨640, 480⟩ ⟨0.0064, 0.0048⟩ :=
  (C40_square_pixels (by decide) (by decide) _ _).2.2.2.mpr (by norm_num)

example : Centered ⟨⟨640, 480⟩, ⟨640, 480⟩⟩ (CameraSpec.intrinsicsCentered ⟨⟨640, 480⟩, ⟨640, 480⟩⟩ 1) :=
  ((C40_centered_partial _ _).2.2).mpr ⟨by norm_num, by norm_num⟩

end Verif.Geo
