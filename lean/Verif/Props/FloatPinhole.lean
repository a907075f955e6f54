import Verif.Lemmas.FloatPinhole

/-!
# C106: the pinhole camera with floating point numbers
-/

namespace Verif.Geo.Rounded

open Verif.Akaze
open Verif.Bicubic (Flt)
open Verif.Akaze.FloatOps (sqrt)
open Verif.Akaze.FloatBits (isSignNegative)
open P3P (fdot)

variable {D : Type} [FloatOps D] {J : Ieee D} {u η M : ℝ}

/-- **C106** `calibrate` gives finite numbers, a positive third coordinate, a length that is 1 up to 12 units of the last
place, and a direction that an exact camera would see within `24 u K β` of the pixel. -/
theorem C106_calibrate (A : Accurate J u η M) {k : FIntrinsics D} {px py : D} {fx fy cx cy s x y K β : ℝ}
    (S : Sees J k px py fx fy cx cy s x y K β) (E : Enough u η M K β) :
    ∃ p q r, J.val (k.calibrate px py).x = .num p ∧ J.val (k.calibrate px py).y = .num q ∧
      J.val (k.calibrate px py).z = .num r ∧ 0 < r ∧ |p * p + q * q + r * r - 1| ≤ 12 * u ∧
      |fx * (p / r) + s * (q / r) + cx - x| ≤ 24 * (u * (K * β)) ∧ |fy * (q / r) + cy - y| ≤ 24 * (u * (K * β)) := by
  obtain ⟨x1, y1, n, p, q, r, hp, hq, hr, bx, by1, d1, d2, d3, hn1, hn2, hnn, ep, eq, er⟩ := bearing_error A S E
  have hu := A.u_nonneg
  have hη := A.η_nonneg
  obtain ⟨f1, f2, f3, f4, f5, f6, f7, -, -, f8, f9⟩ := E.facts hu hη
  have K0 : 0 ≤ K := by linarith [E.one_le, E.le]
  have hβ := E.one_le
  have hE : 0 ≤ u * (K * β) := by positivity
  obtain ⟨hr0, -, e1, -⟩ := err_quotient (v := p / r) hu f1 hη f3 E.one_le hn1 hn2 bx ep er
    (by rw [sub_self, abs_zero]; positivity)
  obtain ⟨-, -, e2, -⟩ := err_quotient (v := q / r) hu f1 hη f3 E.one_le hn1 hn2 by1 eq er
    (by rw [sub_self, abs_zero]; positivity)
  have scale : ∀ c z w : ℝ, |c| ≤ K → |z - w| ≤ 3 * (u * β) → |c * z - c * w| ≤ 3 * (u * (K * β)) := by
    intro c z w hc h
    rw [← mul_sub, abs_mul]
    have := mul_le_mul hc h (abs_nonneg _) K0
    linarith
  have hfx : |fx| ≤ K := by rw [abs_of_pos (by linarith [S.fx_range.1])]; exact S.fx_range.2
  have hfy : |fy| ≤ K := by rw [abs_of_pos (by linarith [S.fy_range.1])]; exact S.fy_range.2
  refine ⟨p, q, r, hp, hq, hr, hr0, err_unit hu f1 hη f3 hn1 hn2 hnn ep eq er, ?_, ?_⟩
  · have g1 := abs_le.1 (scale _ _ _ hfx e1)
    have g2 := abs_le.1 (scale _ _ _ S.skew_range e2)
    have g3 := abs_le.1 d1
    have g4 := abs_le.1 d3
    rw [abs_le]
    constructor <;> linarith [g1.1, g1.2, g2.1, g2.2, g3.1, g3.2, g4.1, g4.2]
  · have g1 := abs_le.1 (scale _ _ _ hfy e2)
    have g3 := abs_le.1 d2
    rw [abs_le]
    constructor <;> linarith [g1.1, g1.2, g3.1, g3.2]

/-- **C106** `uncalibrate` after `calibrate` returns a pixel, at most `40 u K β` from the first one. -/
theorem C106_round_trip [FloatBits D] (B : IeeeBits J) (A : Accurate J u η M) {k : FIntrinsics D} {px py : D}
    {fx fy cx cy s x y K β : ℝ} (S : Sees J k px py fx fy cx cy s x y K β) (E : Enough u η M K β) :
    ∃ qx qy x' y', k.uncalibrate (k.calibrate px py) = some (qx, qy) ∧ J.val qx = .num x' ∧ J.val qy = .num y' ∧
      |x' - x| ≤ 40 * (u * (K * β)) ∧ |y' - y| ≤ 40 * (u * (K * β)) := by
  obtain ⟨x1, y1, n, p, q, r, hp, hq, hr, bx, by1, d1, d2, d3, hn1, hn2, hnn, ep, eq, er⟩ := bearing_error A S E
  have hu := A.u_nonneg
  have hη := A.η_nonneg
  obtain ⟨f1, f2, f3, f4, f5, f6, f7, -, -, f8, f9⟩ := E.facts hu hη
  have K0 : 0 ≤ K := by linarith [E.one_le, E.le]
  have hβ := E.one_le
  have hM := E.range
  have hE : 0 ≤ u * (K * β) := by positivity
  have hKβ : 0 ≤ K * β := by positivity
  have hEβ : u * (K * β) ≤ 1 / 1024 * (K * β) := mul_le_mul_of_nonneg_right f1 hKβ
  have hηE : 1024 * η ≤ u * (K * β) := by
    have : u ≤ u * (K * β) := by nlinarith
    linarith
  obtain ⟨hr0, bp, -, -⟩ := err_quotient (v := p / r) hu f1 hη f3 E.one_le hn1 hn2 bx ep er
    (by rw [sub_self, abs_zero]; positivity)
  obtain ⟨-, bq, -, -⟩ := err_quotient (v := q / r) hu f1 hη f3 E.one_le hn1 hn2 by1 eq er
    (by rw [sub_self, abs_zero]; positivity)
  obtain ⟨x2, hx2, ex2⟩ := A.div hp hr hr0.ne' (bp.trans (by linarith))
  obtain ⟨y2, hy2, ey2⟩ := A.div hq hr hr0.ne' (bq.trans (by linarith))
  obtain ⟨-, -, -, e1⟩ := err_quotient hu f1 hη f3 E.one_le hn1 hn2 bx ep er ex2
  obtain ⟨-, -, -, e2⟩ := err_quotient hu f1 hη f3 E.one_le hn1 hn2 by1 eq er ey2
  have hfx : |fx| ≤ K := by rw [abs_of_pos (by linarith [S.fx_range.1])]; exact S.fx_range.2
  have hfy : |fy| ≤ K := by rw [abs_of_pos (by linarith [S.fy_range.1])]; exact S.fy_range.2
  have scale : ∀ c z w : ℝ, |c| ≤ K → |z - w| ≤ 4 * (u * β) → |c * z - c * w| ≤ 4 * (u * (K * β)) := by
    intro c z w hc h
    rw [← mul_sub, abs_mul]
    have := mul_le_mul hc h (abs_nonneg _) K0
    linarith
  have size : ∀ c z : ℝ, |c| ≤ K → |z| ≤ 11 / 10 * β → |c * z| ≤ 11 / 10 * (K * β) := by
    intro c z hc h
    rw [abs_mul]
    have := mul_le_mul hc h (abs_nonneg _) K0
    linarith
  have product : ∀ {a b : D} {c z w : ℝ}, J.val a = .num c → J.val b = .num z → |c| ≤ K → |w| ≤ 11 / 10 * β →
      |z - w| ≤ 4 * (u * β) → ∃ v, J.val (a * b) = .num v ∧ |v - c * w| ≤ 6 * (u * (K * β)) := by
    intro a b c z w ha hb hc hw h
    have h1 := scale c z w hc h
    have h2 := size c w hc hw
    obtain ⟨v, hv, ev⟩ := A.mul ha hb ((abs_le_add h1 h2).trans (by linarith))
    refine ⟨v, hv, ?_⟩
    have := err_step hu ev h1 h2
    have e : u * (11 / 10 * (K * β) + 4 * (u * (K * β))) = 11 / 10 * (u * (K * β)) + 4 * (u * (u * (K * β))) := by ring
    linarith
  have hcomm : ∀ a b : D, J.val (a * b) = J.val (b * a) := by
    intro a b
    rw [J.mul, J.mul]
    congr 1
    generalize J.val a = v
    generalize J.val b = w
    rcases v with _ | s | x <;> rcases w with _ | t | y <;> simp [Flt.mul, mul_comm, Bool.xor_comm]
  obtain ⟨g, hg, eg⟩ := product S.val_fx hx2 hfx bx e1
  rw [hcomm] at hg
  obtain ⟨h, hh, eh⟩ := product S.val_skew hy2 S.skew_range by1 e2
  obtain ⟨j, hj, ej⟩ := product S.val_fy hy2 hfy by1 e2
  rw [hcomm] at hj
  -- x
  have dgh : |g + h - (fx * x1 + s * y1)| ≤ 12 * (u * (K * β)) := by
    have e : g + h - (fx * x1 + s * y1) = (g - fx * x1) + (h - s * y1) := by ring
    rw [e]
    have := abs_add_le (g - fx * x1) (h - s * y1)
    linarith
  have hw : |fx * x1 + s * y1| ≤ 22 / 10 * (K * β) := by
    have := abs_add_le (fx * x1) (s * y1)
    have h1 := size _ _ hfx bx
    have h2 := size _ _ S.skew_range by1
    linarith
  obtain ⟨i, hi, ei⟩ := A.add hg hh ((abs_le_add dgh hw).trans (by linarith))
  have di : |i - (fx * x1 + s * y1)| ≤ 15 * (u * (K * β)) := by
    have := err_step hu ei dgh hw
    have e : u * (22 / 10 * (K * β) + 12 * (u * (K * β))) = 22 / 10 * (u * (K * β)) + 12 * (u * (u * (K * β))) := by ring
    linarith
  have dix : |i + cx - x| ≤ 30 * (u * (K * β)) := by
    have g1 := abs_le.1 di
    have g3 := abs_le.1 d1
    have g4 := abs_le.1 d3
    rw [abs_le]
    constructor <;> linarith [g1.1, g1.2, g3.1, g3.2, g4.1, g4.2]
  obtain ⟨x', hx', ex'⟩ := A.add hi S.val_cx ((abs_le_add dix S.x_range).trans (by linarith))
  have fin : ∀ {v z w : ℝ}, |v - z| ≤ u * |z| + η → |z - w| ≤ 30 * (u * (K * β)) → |w| ≤ K →
      |v - w| ≤ 40 * (u * (K * β)) := by
    intro v z w h1 h2 h3
    have := err_step hu h1 h2 h3
    have e : u * (K + 30 * (u * (K * β))) = u * K + 30 * (u * (u * (K * β))) := by ring
    linarith
  -- y
  have djy : |j + cy - y| ≤ 30 * (u * (K * β)) := by
    have g1 := abs_le.1 ej
    have g3 := abs_le.1 d2
    rw [abs_le]
    constructor <;> linarith [g1.1, g1.2, g3.1, g3.2]
  obtain ⟨y', hy', ey'⟩ := A.add hj S.val_cy ((abs_le_add djy S.y_range).trans (by linarith))
  exact ⟨_, _, x', y', uncalibrate_front B k hr hr0, hx', hy', fin ex' dix S.x_range, fin ey' djy S.y_range⟩

/-- **C106** A bearing with a negative third coordinate has no pixel. -/
theorem C106_behind [FloatBits D] (B : IeeeBits J) (k : FIntrinsics D) {b : V3 D} {z : ℝ} (hz : J.val b.z = .num z)
    (h : z < 0) : k.uncalibrate b = none := by
  unfold FIntrinsics.uncalibrate
  rw [if_pos ((B.sign_num _ _ hz h.ne).2 h)]

/-- **C106** A bearing sideways (a third coordinate of positive zero) gives a pixel whose coordinates are not finite. -/
theorem C106_sideways [FloatBits D] (Z : ZeroOverZero J) (k : FIntrinsics D) {b : V3 D} {x y : ℝ}
    (hx : J.val b.x = .num x) (hy : J.val b.y = .num y) (hz : J.val b.z = .num 0) (hs : isSignNegative b.z = false) :
    ∃ qx qy, k.uncalibrate b = some (qx, qy) ∧ J.NotNumber qx ∧ J.NotNumber qy := by
  refine ⟨_, _, by unfold FIntrinsics.uncalibrate; rw [hs]; rfl, ?_, ?_⟩
  · exact not_add (.inl (not_add (.inl (not_mul (.inl (not_over_zero Z hx hz))))))
  · exact not_add (.inl (not_mul (.inl (not_over_zero Z hy hz))))

/-- **C106** Without distortion the principal point and the optical axis belong to each other exactly. -/
theorem C106_centre [FloatBits D] (B : IeeeBits J) (k : FIntrinsics D) {fx fy cx cy s : ℝ} (hfx : J.val k.fx = .num fx)
    (hfy : J.val k.fy = .num fy) (hcx : J.val k.cx = .num cx) (hcy : J.val k.cy = .num cy) (hs : J.val k.skew = .num s)
    (h1 : fx ≠ 0) (h2 : fy ≠ 0) :
    J.val (k.calibrate k.cx k.cy).x = .num 0 ∧ J.val (k.calibrate k.cx k.cy).y = .num 0 ∧
      J.val (k.calibrate k.cx k.cy).z = .num 1 ∧
      ∃ qx qy, k.uncalibrate (k.calibrate k.cx k.cy) = some (qx, qy) ∧ J.val qx = .num cx ∧ J.val qy = .num cy := by
  obtain ⟨n1, n2⟩ := normalised_centre k hfx hfy hcx hcy hs h1 h2
  obtain ⟨b1, b2, b3⟩ := normalise_axis n1 n2
  refine ⟨b1, b2, b3, _, _, uncalibrate_front B k b3 one_pos, ?_, ?_⟩
  · exact val_zero_add (val_zero_add (val_zero_mul (val_mul_one b1 b3) hfx) (val_mul_zero hs (val_mul_one b2 b3))) hcx
  · exact val_zero_add (val_zero_mul (val_mul_one b2 b3) hfy) hcy

/-- **C106** With radial distortion, whatever its coefficient, the principal point is seen along the optical axis, and
`uncalibrate` of this direction gives a pixel that is NaN in both coordinates. -/
theorem C106_k1_centre [FloatBits D] (B : IeeeBits J) (Z : ZeroOverZero J) (k : FIntrinsicsK1 D) {fx fy cx cy s k1 : ℝ}
    (hfx : J.val k.simple.fx = .num fx) (hfy : J.val k.simple.fy = .num fy) (hcx : J.val k.simple.cx = .num cx)
    (hcy : J.val k.simple.cy = .num cy) (hs : J.val k.simple.skew = .num s) (hk : J.val k.k1 = .num k1)
    (h1 : fx ≠ 0) (h2 : fy ≠ 0) :
    J.val (k.calibrate k.simple.cx k.simple.cy).x = .num 0 ∧ J.val (k.calibrate k.simple.cx k.simple.cy).y = .num 0 ∧
      J.val (k.calibrate k.simple.cx k.simple.cy).z = .num 1 ∧
      ∃ qx qy, k.uncalibrate (k.calibrate k.simple.cx k.simple.cy) = some (qx, qy) ∧ J.val qx = .nan ∧ J.val qy = .nan := by
  obtain ⟨n1, n2⟩ := normalised_centre k.simple hfx hfy hcx hcy hs h1 h2
  have hr := val_zero_add (val_mul_zero n1 n1) (val_mul_zero n2 n2)
  have hq := val_add_zero J.one (val_mul_zero hk hr)
  obtain ⟨b1, b2, b3⟩ := normalise_axis (val_mul_one n1 hq) (val_mul_one n2 hq)
  refine ⟨b1, b2, b3, _, _, uncalibrateK1_front B k b3 one_pos, ?_, ?_⟩
  · have x2 := val_mul_one b1 b3
    have y2 := val_mul_one b2 b3
    have := change_centre Z k (val_zero_add (val_mul_zero x2 x2) (val_mul_zero y2 y2))
    exact nan_add (.inl (nan_add (.inl (nan_mul (.inl (nan_mul (.inr (nan_add (.inr this)))))))))
  · have x2 := val_mul_one b1 b3
    have y2 := val_mul_one b2 b3
    have := change_centre Z k (val_zero_add (val_mul_zero x2 x2) (val_mul_zero y2 y2))
    exact nan_add (.inl (nan_mul (.inl (nan_mul (.inr (nan_add (.inr this)))))))

/-- **C106** Without distortion (`k1` zero) every direction in front of the camera gives a pixel that is NaN in both
coordinates. -/
theorem C106_k1_zero [FloatBits D] (B : IeeeBits J) (Z : ZeroOverZero J) (k : FIntrinsicsK1 D) (hk : J.val k.k1 = .num 0)
    {b : V3 D} {z : ℝ} (hz : J.val b.z = .num z) (h : 0 < z) :
    ∃ qx qy, k.uncalibrate b = some (qx, qy) ∧ J.val qx = .nan ∧ J.val qy = .nan := by
  have key : ∀ u2 : D, J.val (k.change u2) = .nan := by
    intro u2
    have two : ∃ x, J.val ((2 : D)) = .num x := by
      have := J.rnd_dyadic 2 0 (by norm_num) (by norm_num)
      rw [pow_zero, div_one] at this
      exact ⟨_, (J.natCast 2).trans (by exact_mod_cast this)⟩
    have four : ∃ x, J.val ((4 : D)) = .num x := by
      have := J.rnd_dyadic 4 0 (by norm_num) (by norm_num)
      rw [pow_zero, div_one] at this
      exact ⟨_, (J.natCast 4).trans (by exact_mod_cast this)⟩
    obtain ⟨x2, h2⟩ := two
    obtain ⟨x4, h4⟩ := four
    have m2 := val_mul_zero h2 hk
    have m4 := val_mul_zero h4 hk
    have zc : ∀ {c : D}, J.val c = .num 0 → J.val (c * u2) = .num 0 ∨ J.val (c * u2) = .nan := by
      intro c hc
      rw [J.mul, hc]
      rcases J.val u2 with _ | s | x
      · right; rfl
      · right; simp [Flt.mul, roundedBy]
      · left
        show roundedBy J.rnd (Flt.num (0 * x)) = _
        rw [zero_mul]
        exact J.rnd_val 0 0 J.zero
    unfold FIntrinsicsK1.change
    rcases zc m2 with h2 | h2
    · rcases zc m4 with h4 | h4
      · refine Z _ _ ?_ h2
        have h1 : J.val (1 - 4 * k.k1 * u2) = .num 1 := by
          rw [J.sub, J.one, h4]
          show roundedBy J.rnd (Flt.num (1 + -0)) = _
          rw [neg_zero, add_zero]
          exact J.rnd_val 1 1 J.one
        have h5 : J.val (sqrt (1 - 4 * k.k1 * u2)) = .num 1 := by
          rw [J.sqrt_num _ _ h1, if_neg (by norm_num), Real.sqrt_one]
          exact J.rnd_val 1 1 J.one
        have h6 : J.val (2 * k.k1 * u2 + sqrt (1 - 4 * k.k1 * u2) - 1) = .num 0 := by
          rw [J.sub, val_zero_add h2 h5, J.one]
          show roundedBy J.rnd (Flt.num (1 + -1)) = _
          rw [add_neg_cancel]
          exact J.rnd_val 0 0 J.zero
        rw [J.neg, h6]
        simp [Flt.neg]
      · exact nan_div (.inl (nan_neg (nan_sub (.inl (nan_add (.inr (nan_sqrt (nan_sub (.inr h4)))))))))
    · exact nan_div (.inr h2)
  refine ⟨_, _, uncalibrateK1_front B k hz h, ?_, ?_⟩
  · exact nan_add (.inl (nan_add (.inl (nan_mul (.inl (nan_mul (.inr (nan_add (.inr (key _))))))))))
  · exact nan_add (.inl (nan_mul (.inl (nan_mul (.inr (nan_add (.inr (key _))))))))

end Verif.Geo.Rounded
