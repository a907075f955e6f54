import Verif.Lemmas.FloatPinhole

/-!
# The rounding error of radial distortion
-/

namespace Verif.Geo.Rounded

open Verif.Akaze
open Verif.Bicubic (Flt)
open Verif.Akaze.FloatOps (sqrt)

variable {D : Type} [FloatOps D] {J : Ieee D} {u η M : ℝ}

theorem val_double : J.val (2 : D) = .num 2 := by
  have := J.rnd_dyadic 2 0 (by norm_num) (by norm_num)
  rw [pow_zero, div_one] at this
  exact (J.natCast 2).trans (by exact_mod_cast this)

theorem val_four : J.val (4 : D) = .num 4 := by
  have := J.rnd_dyadic 4 0 (by norm_num) (by norm_num)
  rw [pow_zero, div_one] at this
  exact (J.natCast 4).trans (by exact_mod_cast this)

/-- A constant times the coefficient times a squared distance. -/
theorem distort_part (A : Accurate J u η M) {c a b : D} {c0 k U κ : ℝ} (hc : J.val c = .num c0) (h2 : 2 ≤ c0) (h4 : c0 ≤ 4)
    (ha : J.val a = .num k) (hb : J.val b = .num U) (hU : 0 ≤ U) (hκ : κ = |k * U|) (hu : u ≤ 1 / 1024)
    (hη : 1024 * η ≤ u * κ) (hηU : 1024 * (η * U) ≤ u * κ) (hM : 8 * |k| ≤ M) (hM' : 8 * κ ≤ M) :
    ∃ q, J.val (c * a * b) = .num q ∧ |q - c0 * (k * U)| ≤ 21 / 10 * (c0 * (u * κ)) := by
  have hu0 := A.u_nonneg
  have hη0 := A.η_nonneg
  have κ0 : 0 ≤ κ := by rw [hκ]; exact abs_nonneg _
  have huκ : 0 ≤ u * κ := by positivity
  have hc0 : 0 ≤ c0 := by linarith
  have e1 : |c0 * k| = c0 * |k| := by rw [abs_mul, abs_of_nonneg hc0]
  obtain ⟨t, ht, et⟩ := A.mul hc ha (by rw [e1]; nlinarith [abs_nonneg k])
  have e2 : |t * U - c0 * (k * U)| ≤ c0 * (u * κ) + 1 / 1024 * (u * κ) := by
    have : t * U - c0 * (k * U) = (t - c0 * k) * U := by ring
    rw [this, abs_mul, abs_of_nonneg hU]
    have h := mul_le_mul_of_nonneg_right et hU
    have : (u * |c0 * k| + η) * U = c0 * (u * κ) + η * U := by
      rw [e1, hκ, abs_mul, abs_of_nonneg hU]; ring
    linarith
  have e3 : |c0 * (k * U)| ≤ c0 * κ := by rw [abs_mul, abs_of_nonneg hc0, hκ]
  have hs : u * (c0 * (u * κ) + 1 / 1024 * (u * κ)) ≤ 1 / 1024 * (c0 * (u * κ) + 1 / 1024 * (u * κ)) :=
    mul_le_mul_of_nonneg_right hu (by positivity)
  have hcκ : c0 * κ ≤ 4 * κ := mul_le_mul_of_nonneg_right h4 κ0
  have h2κ : 2 * (u * κ) ≤ c0 * (u * κ) := mul_le_mul_of_nonneg_right h2 huκ
  have h4κ : c0 * (u * κ) ≤ 4 * (u * κ) := mul_le_mul_of_nonneg_right h4 huκ
  have huκ' : u * κ ≤ 1 / 1024 * κ := mul_le_mul_of_nonneg_right hu κ0
  obtain ⟨q, hq, eq⟩ := A.mul ht hb ((abs_le_add e2 e3).trans (by linarith))
  refine ⟨q, hq, ?_⟩
  have := err_step hu0 eq e2 e3
  have h5 : u * (c0 * κ + (c0 * (u * κ) + 1 / 1024 * (u * κ))) = c0 * (u * κ) + u * (c0 * (u * κ) + 1 / 1024 * (u * κ)) := by ring
  linarith

/-- Nearby numbers have nearby roots. -/
theorem sqrt_near {z z' e : ℝ} (hz : 1 / 4 ≤ z) (hz' : 2401 / 10000 ≤ z') (h : |z' - z| ≤ e) : |√z' - √z| ≤ 100 / 99 * e := by
  have h1 : 1 / 2 ≤ √z := Real.le_sqrt_of_sq_le (by norm_num; linarith)
  have h2 : 49 / 100 ≤ √z' := Real.le_sqrt_of_sq_le (by norm_num; linarith)
  have h3 : (√z' - √z) * (√z' + √z) = z' - z := by
    have a := Real.mul_self_sqrt (by linarith : 0 ≤ z)
    have b := Real.mul_self_sqrt (by linarith : 0 ≤ z')
    nlinarith
  have h4 : |√z' - √z| * (√z' + √z) ≤ e := by
    rw [← abs_of_pos (by linarith : 0 < √z' + √z), ← abs_mul, h3]; exact h
  have h5 := mul_le_mul_of_nonneg_left (by linarith : (99 / 100 : ℝ) ≤ √z' + √z) (abs_nonneg (√z' - √z))
  linarith

/-- The exact relative change, for `κ` the coefficient times the squared undistorted distance. -/
noncomputable def exactChange (κ : ℝ) : ℝ := (1 - √(1 - 4 * κ)) / (1 + √(1 - 4 * κ))

theorem exactChange_of {s : ℝ} (h1 : -1 < s) (h2 : s ≤ 1) : exactChange (s / ((1 + s) * (1 + s))) = s := by
  have h0 : 0 < 1 + s := by linarith
  have : 1 - 4 * (s / ((1 + s) * (1 + s))) = ((1 - s) / (1 + s)) * ((1 - s) / (1 + s)) := by field_simp; ring
  unfold exactChange
  rw [this, Real.sqrt_mul_self (div_nonneg (by linarith) h0.le)]
  field_simp
  ring

theorem exactChange_near {κ κ' e : ℝ} (h : |κ| ≤ 3 / 16) (h' : |κ'| ≤ 3 / 16) (he : |κ' - κ| ≤ e) :
    |exactChange κ' - exactChange κ| ≤ 4 * e := by
  have b := abs_le.1 h
  have b' := abs_le.1 h'
  have e1 : |(1 - 4 * κ') - (1 - 4 * κ)| ≤ 4 * e := by
    rw [show (1 - 4 * κ') - (1 - 4 * κ) = -(4 * (κ' - κ)) by ring, abs_neg, abs_mul, abs_of_pos (by norm_num : (0 : ℝ) < 4)]
    linarith
  have e2 := sqrt_near (by linarith) (by linarith) e1
  have h1 : 1 / 2 ≤ √(1 - 4 * κ) := Real.le_sqrt_of_sq_le (by norm_num; linarith)
  have h2 : 1 / 2 ≤ √(1 - 4 * κ') := Real.le_sqrt_of_sq_le (by norm_num; linarith)
  unfold exactChange
  generalize √(1 - 4 * κ) = w at *
  generalize √(1 - 4 * κ') = w' at *
  have : (1 - w') / (1 + w') - (1 - w) / (1 + w) = -(2 * (w' - w)) / ((1 + w') * (1 + w)) := by
    have : 1 + w ≠ 0 := by linarith
    have : 1 + w' ≠ 0 := by linarith
    field_simp; ring
  have hp : 9 / 4 ≤ (1 + w') * (1 + w) := by nlinarith
  rw [this, abs_div, abs_neg, abs_mul, abs_of_pos (by norm_num : (0 : ℝ) < 2), abs_of_pos (by linarith : 0 < (1 + w') * (1 + w)),
    div_le_iff₀ (by linarith)]
  have he0 : 0 ≤ e := (abs_nonneg _).trans he
  nlinarith

theorem exactChange_abs {κ : ℝ} (h : |κ| ≤ 3 / 16) : |exactChange κ| ≤ 1 / 3 := by
  have b := abs_le.1 h
  have h1 : 1 / 2 ≤ √(1 - 4 * κ) := Real.le_sqrt_of_sq_le (by norm_num; linarith)
  have h2 : √(1 - 4 * κ) ≤ 4 / 3 := Real.sqrt_le_iff.2 ⟨by norm_num, by norm_num; linarith⟩
  unfold exactChange
  rw [abs_div, abs_of_pos (by linarith : 0 < 1 + √(1 - 4 * κ)), div_le_iff₀ (by linarith), abs_le]
  constructor <;> linarith

theorem exactChange_mul {κ : ℝ} (h : |κ| ≤ 3 / 16) : 2 * κ * exactChange κ = -(2 * κ + √(1 - 4 * κ) - 1) := by
  have b := abs_le.1 h
  have h1 : 1 / 2 ≤ √(1 - 4 * κ) := Real.le_sqrt_of_sq_le (by norm_num; linarith)
  have h2 := Real.mul_self_sqrt (by linarith : 0 ≤ 1 - 4 * κ)
  unfold exactChange
  rw [mul_div_assoc', div_eq_iff (by linarith)]
  nlinarith

/-- The rounded relative change. -/
theorem change_error (A : Accurate J u η M) (k : FIntrinsicsK1 D) {b : D} {k1 U κ : ℝ} (ha : J.val k.k1 = .num k1)
    (hb : J.val b = .num U) (hU : 0 ≤ U) (hκ : κ = k1 * U) (h0 : κ ≠ 0) (h1 : |κ| ≤ 3 / 16) (hu : u ≤ 1 / 1024)
    (hη1 : 1024 * η ≤ u) (hη : 1024 * η ≤ u * |κ|) (hηU : 1024 * (η * U) ≤ u * |κ|) (hM : 8 * |k1| ≤ M) (hM' : 16 ≤ M)
    (hMκ : 16 ≤ M * |κ|) :
    ∃ m, J.val (k.change b) = .num m ∧ |m - exactChange κ| ≤ 5 * (u / |κ|) := by
  have hu0 := A.u_nonneg
  have hp : 0 < |κ| := abs_pos.2 h0
  have hb' := abs_le.1 h1
  obtain ⟨q, hq, eq⟩ := distort_part A val_double (by norm_num) (by norm_num) ha hb hU (by rw [← hκ] : |κ| = |k1 * U|) hu hη hηU hM
    (by linarith)
  obtain ⟨r, hr, er⟩ := distort_part A val_four (by norm_num) (by norm_num) ha hb hU (by rw [← hκ] : |κ| = |k1 * U|) hu hη hηU hM
    (by linarith)
  rw [← hκ] at eq er
  have huκ : u * |κ| ≤ 3 / 16 * u := by nlinarith
  have er' : |r - 4 * κ| ≤ 16 / 10 * u := by linarith
  have eq' : |q - 2 * κ| ≤ 8 / 10 * u := by linarith
  have d1 : |(1 - r) - (1 - 4 * κ)| ≤ 16 / 10 * u := by
    rw [show (1 - r) - (1 - 4 * κ) = -(r - 4 * κ) by ring, abs_neg]; exact er'
  have b1 : |1 - 4 * κ| ≤ 7 / 4 := by rw [abs_le]; constructor <;> linarith
  have huu : u * u ≤ 1 / 1024 * u := mul_le_mul_of_nonneg_right hu hu0
  obtain ⟨z, hz, ez⟩ := A.sub J.one hr ((abs_le_add d1 b1).trans (by linarith))
  have ez' : |z - (1 - 4 * κ)| ≤ 34 / 10 * u := by
    have := err_step hu0 ez d1 b1
    linarith
  have bz := abs_le.1 ez'
  have z0 : 2401 / 10000 ≤ z := by linarith [bz.1]
  have ew := sqrt_near (by linarith : 1 / 4 ≤ 1 - 4 * κ) z0 ez'
  have w1 : 1 / 2 ≤ √(1 - 4 * κ) := Real.le_sqrt_of_sq_le (by norm_num; linarith)
  have w2 : √(1 - 4 * κ) ≤ 4 / 3 := Real.sqrt_le_iff.2 ⟨by norm_num, by norm_num; linarith⟩
  have key := exactChange_mul h1
  have km := exactChange_abs h1
  generalize exactChange κ = e at *
  generalize √(1 - 4 * κ) = w at *
  have bw : |w| ≤ 4 / 3 := by rw [abs_of_pos (by linarith)]; exact w2
  obtain ⟨v, hv, ev⟩ := A.sqrt hz (by linarith) (by
    have := le_of_abs_le (abs_le_add ew bw)
    linarith)
  have ev' : |v - w| ≤ 5 * u := by
    have h : |v - √z| ≤ u * |√z| + η := by rw [abs_of_nonneg (Real.sqrt_nonneg z)]; exact ev
    have := err_step hu0 h ew bw
    linarith
  have d2 : |(q + v) - (2 * κ + w)| ≤ 58 / 10 * u := by
    rw [show (q + v) - (2 * κ + w) = (q - 2 * κ) + (v - w) by ring]
    have := abs_add_le (q - 2 * κ) (v - w)
    linarith
  have b2 : |2 * κ + w| ≤ 171 / 100 := by rw [abs_le]; constructor <;> linarith
  obtain ⟨t, ht, et⟩ := A.add hq hv ((abs_le_add d2 b2).trans (by linarith))
  have et' : |t - (2 * κ + w)| ≤ 76 / 10 * u := by
    have := err_step hu0 et d2 b2
    linarith
  have d3 : |(t - 1) - (2 * κ + w - 1)| ≤ 76 / 10 * u := by
    rw [show (t - 1) - (2 * κ + w - 1) = t - (2 * κ + w) by ring]; exact et'
  have b3 : |2 * κ + w - 1| ≤ 9 / 10 := by rw [abs_le]; constructor <;> linarith
  obtain ⟨y, hy, ey⟩ := A.sub ht J.one ((abs_le_add d3 b3).trans (by linarith))
  have ey' : |y - (2 * κ + w - 1)| ≤ 87 / 10 * u := by
    have := err_step hu0 ey d3 b3
    linarith
  have hn : J.val (-(2 * k.k1 * b + FloatOps.sqrt (1 - 4 * k.k1 * b) - 1)) = .num (-y) := by rw [J.neg, hy]; rfl
  have q0 : 199 / 100 * |κ| ≤ |q| := by
    have h := abs_sub_abs_le_abs_sub (2 * κ) q
    rw [abs_sub_comm, abs_mul, abs_of_pos (by norm_num : (0 : ℝ) < 2)] at h
    have : u * |κ| ≤ 1 / 1024 * |κ| := mul_le_mul_of_nonneg_right hu hp.le
    linarith
  have qne : q ≠ 0 := abs_pos.1 (by linarith)
  have d4 : |(-y) / q - e| ≤ 48 / 10 * (u / |κ|) := by
    have e1 : (-y) / q - e = (-(y - (2 * κ + w - 1)) - e * (q - 2 * κ)) / q := by
      field_simp
      linarith
    rw [e1, abs_div, div_le_iff₀ (by linarith)]
    have h1 : |-(y - (2 * κ + w - 1)) - e * (q - 2 * κ)| ≤ |y - (2 * κ + w - 1)| + |e| * |q - 2 * κ| := by
      have := abs_sub (-(y - (2 * κ + w - 1))) (e * (q - 2 * κ))
      rwa [abs_neg, abs_mul] at this
    have h2 : |e| * |q - 2 * κ| ≤ 1 / 3 * (8 / 10 * u) := mul_le_mul km eq' (abs_nonneg _) (by norm_num)
    have h3 : 48 / 10 * (u / |κ|) * (199 / 100 * |κ|) ≤ 48 / 10 * (u / |κ|) * |q| :=
      mul_le_mul_of_nonneg_left q0 (by positivity)
    have h4 : 48 / 10 * (u / |κ|) * (199 / 100 * |κ|) = 48 / 10 * (199 / 100) * u := by field_simp
    linarith
  have hx : u ≤ 3 / 16 * (u / |κ|) := by
    have : u / |κ| * |κ| ≤ u / |κ| * (3 / 16) := mul_le_mul_of_nonneg_left h1 (by positivity)
    rw [div_mul_cancel₀ _ hp.ne'] at this
    linarith
  have hM2 : u / |κ| ≤ M / 16384 := by
    rw [div_le_iff₀ hp]
    linarith
  obtain ⟨m, hm, em⟩ := A.div hn hq qne ((abs_le_add d4 km).trans (by linarith))
  refine ⟨m, hm, ?_⟩
  have := err_step hu0 em d4 km
  have h5 : u * (1 / 3 + 48 / 10 * (u / |κ|)) ≤ 1 / 3 * u + 1 / 1024 * (48 / 10 * (u / |κ|)) := by
    have := mul_le_mul_of_nonneg_right hu (by positivity : 0 ≤ 48 / 10 * (u / |κ|))
    linarith
  have : 0 ≤ u / |κ| := by positivity
  linarith

/-- A rounded sum of two squares. -/
theorem sum2_error (A : Accurate J u η M) {a b : D} {x y R : ℝ} (ha : J.val a = .num x) (hb : J.val b = .num y)
    (hR : R = x * x + y * y) (hu : u ≤ 1 / 1024) (hη : 1024 * η ≤ u * R) (hM : 4 * R ≤ M) :
    ∃ r, J.val (a * a + b * b) = .num r ∧ |r - R| ≤ 3 * (u * R) := by
  have hu0 := A.u_nonneg
  have x0 := mul_self_nonneg x
  have y0 := mul_self_nonneg y
  have R0 : 0 ≤ R := by linarith
  have uR0 : 0 ≤ u * R := by positivity
  obtain ⟨p, hp, ep⟩ := A.mul ha ha (by rw [abs_of_nonneg x0]; linarith)
  obtain ⟨q, hq, eq⟩ := A.mul hb hb (by rw [abs_of_nonneg y0]; linarith)
  rw [abs_of_nonneg x0] at ep
  rw [abs_of_nonneg y0] at eq
  have d : |p + q - R| ≤ 1003 / 1000 * (u * R) := by
    have h1 := abs_add_le (p - x * x) (q - y * y)
    rw [show p - x * x + (q - y * y) = p + q - R by rw [hR]; ring] at h1
    have : u * R = u * (x * x) + u * (y * y) := by rw [hR]; ring
    linarith
  have huR : u * R ≤ 1 / 1024 * R := mul_le_mul_of_nonneg_right hu R0
  have b : |R| ≤ R := (abs_of_nonneg R0).le
  obtain ⟨r, hr, er⟩ := A.add hp hq ((abs_le_add d b).trans (by linarith))
  refine ⟨r, hr, ?_⟩
  have := err_step hu0 er d b
  have : u * (u * R) ≤ 1 / 1024 * (u * R) := mul_le_mul_of_nonneg_right hu (by positivity)
  linarith

/-- The rounded divisor of the undistortion. -/
theorem divisor_error (A : Accurate J u η M) {a b k : D} {x y R k1 s : ℝ} (ha : J.val a = .num x) (hb : J.val b = .num y)
    (hk : J.val k = .num k1) (hR : R = x * x + y * y) (hs : s = k1 * R) (hs1 : |s| ≤ 7 / 50) (hu : u ≤ 1 / 1024)
    (hη1 : 1024 * η ≤ u) (hη : 1024 * η ≤ u * R) (hM : 4 * R ≤ M) (hM1 : 16 ≤ M) :
    ∃ d, J.val (1 + k * (a * a + b * b)) = .num d ∧ |d - (1 + s)| ≤ 2 * u := by
  have hu0 := A.u_nonneg
  obtain ⟨r, hr, er⟩ := sum2_error A ha hb hR hu hη hM
  have R0 : 0 ≤ R := by rw [hR]; exact add_nonneg (mul_self_nonneg x) (mul_self_nonneg y)
  have d1 : |k1 * r - s| ≤ 3 * (u * |s|) := by
    rw [hs, ← mul_sub, abs_mul, abs_mul, abs_of_nonneg R0]
    have := mul_le_mul_of_nonneg_left er (abs_nonneg k1)
    linarith
  have hus : u * |s| ≤ 7 / 50 * u := by nlinarith
  obtain ⟨p, hp, ep⟩ := A.mul hk hr ((abs_le_add d1 hs1).trans (by linarith))
  have huu : u * u ≤ 1 / 1024 * u := mul_le_mul_of_nonneg_right hu hu0
  have huus : u * (u * |s|) ≤ 7 / 50 * (1 / 1024 * u) := by
    have := mul_le_mul_of_nonneg_left hus hu0
    linarith
  have d2 : |p - s| ≤ 58 / 100 * u := by
    have := err_step hu0 ep d1 le_rfl
    linarith
  have d3 : |1 + p - (1 + s)| ≤ 58 / 100 * u := by rw [add_sub_add_left_eq_sub]; exact d2
  have b3 : |1 + s| ≤ 57 / 50 := by have := abs_le.1 hs1; rw [abs_le]; constructor <;> linarith
  obtain ⟨d, hd, ed⟩ := A.add J.one hp ((abs_le_add d3 b3).trans (by linarith))
  refine ⟨d, hd, ?_⟩
  have := err_step hu0 ed d3 b3
  linarith

/-- A rounded undistorted coordinate. -/
theorem undistorted_error (A : Accurate J u η M) {a q : D} {x d s : ℝ} (ha : J.val a = .num x) (hq : J.val q = .num d)
    (hs1 : |s| ≤ 7 / 50) (hd : |d - (1 + s)| ≤ 2 * u) (hu : u ≤ 1 / 1024) (hM : 2 * |x| ≤ M) :
    ∃ z, J.val (a / q) = .num z ∧ |z - x / (1 + s)| ≤ 4 * (u * |x|) + η := by
  have hu0 := A.u_nonneg
  have bs := abs_le.1 hs1
  have bd := abs_le.1 hd
  have d0 : 857 / 1000 ≤ d := by linarith
  have s0 : 86 / 100 ≤ 1 + s := by linarith
  have e : |x / d - x / (1 + s)| ≤ 275 / 100 * (u * |x|) := by
    have : x / d - x / (1 + s) = -(x * (d - (1 + s))) / (d * (1 + s)) := by
      have : d ≠ 0 := by linarith
      have : 1 + s ≠ 0 := by linarith
      field_simp; ring
    have hp : 73 / 100 ≤ d * (1 + s) := by nlinarith
    rw [this, abs_div, abs_neg, abs_mul, abs_of_pos (by linarith : 0 < d * (1 + s)), div_le_iff₀ (by linarith)]
    have h1 := mul_le_mul_of_nonneg_left hd (abs_nonneg x)
    have h2 : 275 / 100 * (u * |x|) * (73 / 100) ≤ 275 / 100 * (u * |x|) * (d * (1 + s)) :=
      mul_le_mul_of_nonneg_left hp (by positivity)
    have : 0 ≤ u * |x| := by positivity
    linarith
  have b : |x / d| ≤ 117 / 100 * |x| := by
    rw [abs_div, abs_of_pos (by linarith : 0 < d), div_le_iff₀ (by linarith)]
    nlinarith [abs_nonneg x]
  obtain ⟨z, hz, ez⟩ := A.div ha hq (by linarith) (b.trans (by linarith [abs_nonneg x]))
  refine ⟨z, hz, ?_⟩
  have h1 := abs_sub_le z (x / d) (x / (1 + s))
  have h2 := mul_le_mul_of_nonneg_left b hu0
  have : 0 ≤ u * |x| := by positivity
  linarith

/-- Squares of inexact coordinates. -/
theorem squares_near {x y X Y ε ρ : ℝ} (hx : |x - X| ≤ ε) (hy : |y - Y| ≤ ε) (bX : |X| ≤ 23 / 20 * ρ) (bY : |Y| ≤ 23 / 20 * ρ)
    (hε : ε ≤ 1 / 100 * ρ) : |(x * x + y * y) - (X * X + Y * Y)| ≤ 47 / 10 * (ρ * ε) := by
  have ε0 : 0 ≤ ε := (abs_nonneg _).trans hx
  have ρ0 : 0 ≤ ρ := by linarith
  have one : ∀ {a b : ℝ}, |a - b| ≤ ε → |b| ≤ 23 / 20 * ρ → |a * a - b * b| ≤ 47 / 20 * (ρ * ε) := by
    intro a b h hb
    rw [show a * a - b * b = (a - b) * (a + b) by ring, abs_mul]
    have h1 : |a + b| ≤ 47 / 20 * ρ := by
      have h2 := abs_le_add h hb
      have := abs_add_le a b
      linarith
    have := mul_le_mul h h1 (abs_nonneg _) ε0
    linarith
  have h1 := one hx bX
  have h2 := one hy bY
  rw [show (x * x + y * y) - (X * X + Y * Y) = (x * x - X * X) + (y * y - Y * Y) by ring]
  have := abs_add_le (x * x - X * X) (y * y - Y * Y)
  linarith

/-- The strength of the distortion of inexact coordinates. -/
theorem strength_near {k1 U U0 ρ s ε : ℝ} (ρ0 : 0 < ρ) (hs : s = k1 * (ρ * ρ)) (hs1 : |s| ≤ 13 / 100)
    (hU0 : U0 = ρ * ρ / ((1 + s) * (1 + s))) (hU : |U - U0| ≤ 47 / 10 * (ρ * ε) + 43 / 10 * (u * (ρ * ρ)))
    (hε : ε ≤ 1 / 100 * ρ) (hu : u ≤ 1 / 1024) :
    |k1 * U - s / ((1 + s) * (1 + s))| ≤ 47 / 10 * (|s| * (ε / ρ)) + 43 / 10 * (u * |s|) ∧ |k1 * U| ≤ 3 / 16 ∧
      |s / ((1 + s) * (1 + s))| ≤ 3 / 16 ∧ 73 / 100 * |s| ≤ |k1 * U| := by
  have bs := abs_le.1 hs1
  have s0 := abs_nonneg s
  have p1 : 7569 / 10000 ≤ (1 + s) * (1 + s) := by nlinarith
  have p2 : (1 + s) * (1 + s) ≤ 12769 / 10000 := by nlinarith
  have e0 : s / ((1 + s) * (1 + s)) = k1 * U0 := by rw [hU0, hs]; ring
  have a1 : |k1| * (ρ * ρ) = |s| := by rw [hs, abs_mul, abs_of_pos (by positivity : 0 < ρ * ρ)]
  have e1 : |k1 * U - s / ((1 + s) * (1 + s))| ≤ 47 / 10 * (|s| * (ε / ρ)) + 43 / 10 * (u * |s|) := by
    rw [e0, ← mul_sub, abs_mul]
    have h := mul_le_mul_of_nonneg_left hU (abs_nonneg k1)
    have : |k1| * (47 / 10 * (ρ * ε) + 43 / 10 * (u * (ρ * ρ))) = 47 / 10 * (|s| * (ε / ρ)) + 43 / 10 * (u * |s|) := by
      rw [← a1]; field_simp
    linarith
  have hερ : ε / ρ ≤ 1 / 100 := by rw [div_le_iff₀ ρ0]; exact hε
  have h1 : |s| * (ε / ρ) ≤ |s| * (1 / 100) := mul_le_mul_of_nonneg_left hερ s0
  have h2 : u * |s| ≤ 1 / 1024 * |s| := mul_le_mul_of_nonneg_right hu s0
  have e2 : |k1 * U - s / ((1 + s) * (1 + s))| ≤ 52 / 1000 * |s| := by linarith
  have b0 : |s / ((1 + s) * (1 + s))| ≤ 1323 / 1000 * |s| := by
    rw [abs_div, abs_of_pos (by linarith : 0 < (1 + s) * (1 + s)), div_le_iff₀ (by linarith)]
    nlinarith
  have b1 : 782 / 1000 * |s| ≤ |s / ((1 + s) * (1 + s))| := by
    rw [abs_div, abs_of_pos (by linarith : 0 < (1 + s) * (1 + s)), le_div_iff₀ (by linarith)]
    nlinarith
  refine ⟨e1, ?_, b0.trans (by linarith), ?_⟩
  · have := abs_le_add e2 b0
    linarith
  · have := abs_sub_abs_le_abs_sub (s / ((1 + s) * (1 + s))) (k1 * U)
    rw [abs_sub_comm] at this
    linarith

set_option maxHeartbeats 1000000 in
/-- The rounded factor by which a point is distorted. -/
theorem factor_error (A : Accurate J u η M) (k : FIntrinsicsK1 D) {a b : D} {k1 x y X Y ε ρ s : ℝ} (hk : J.val k.k1 = .num k1)
    (ha : J.val a = .num x) (hb : J.val b = .num y) (ρ0 : 0 < ρ) (hs : s = k1 * (ρ * ρ)) (s0 : s ≠ 0) (hs1 : |s| ≤ 13 / 100)
    (hXY : X * X + Y * Y = ρ * ρ / ((1 + s) * (1 + s))) (bX : |X| ≤ 23 / 20 * ρ) (bY : |Y| ≤ 23 / 20 * ρ)
    (hx : |x - X| ≤ ε) (hy : |y - Y| ≤ ε) (hε : ε ≤ 1 / 100 * ρ) (hu : u ≤ 1 / 1024) (hus : 1000 * u ≤ |s|) (hη1 : 1024 * η ≤ u)
    (hηρ : 2048 * η ≤ u * (ρ * ρ)) (hηs : 2048 * η ≤ u * |s|) (hηk : 1024 * η ≤ u * |k1|) (hM1 : 16 ≤ M) (hMk : 8 * |k1| ≤ M)
    (hMρ : 8 * (ρ * ρ) ≤ M) (hMs : 32 ≤ M * |s|) :
    ∃ f, J.val (1 + k.change (a * a + b * b)) = .num f ∧ |f - (1 + s)| ≤ 74 / 10 * (u / |s|) + 25 / 10 * (ε / ρ) := by
  have hu0 := A.u_nonneg
  have hη0 := A.η_nonneg
  have ε0 : 0 ≤ ε := (abs_nonneg _).trans hx
  have sp : 0 < |s| := abs_pos.2 s0
  have bs := abs_le.1 hs1
  have ρρ : 0 < ρ * ρ := by positivity
  have sq := squares_near hx hy bX bY hε
  have hρε : ρ * ε ≤ 1 / 100 * (ρ * ρ) := by have := mul_le_mul_of_nonneg_left hε ρ0.le; linarith
  have p1 : 7569 / 10000 ≤ (1 + s) * (1 + s) := by nlinarith
  have p2 : (1 + s) * (1 + s) ≤ 12769 / 10000 := by nlinarith
  have u1 : ρ * ρ / ((1 + s) * (1 + s)) ≤ 1323 / 1000 * (ρ * ρ) := by
    rw [div_le_iff₀ (by linarith)]; nlinarith
  have u2 : 782 / 1000 * (ρ * ρ) ≤ ρ * ρ / ((1 + s) * (1 + s)) := by
    rw [le_div_iff₀ (by linarith)]; nlinarith
  have bsq := abs_le.1 sq
  have r1 : x * x + y * y ≤ 14 / 10 * (ρ * ρ) := by linarith
  have r2 : 7 / 10 * (ρ * ρ) ≤ x * x + y * y := by linarith
  obtain ⟨U, hU, eU⟩ := sum2_error A ha hb rfl hu (by
    have := mul_le_mul_of_nonneg_left r2 hu0
    linarith [mul_nonneg hu0 ρρ.le]) (by linarith)
  have ur := mul_le_mul_of_nonneg_left r1 hu0
  have huρ : u * (ρ * ρ) ≤ 1 / 1024 * (ρ * ρ) := mul_le_mul_of_nonneg_right hu ρρ.le
  have uρ0 : 0 ≤ u * (ρ * ρ) := by positivity
  have dU : |U - ρ * ρ / ((1 + s) * (1 + s))| ≤ 47 / 10 * (ρ * ε) + 43 / 10 * (u * (ρ * ρ)) := by
    have := abs_sub_le U (x * x + y * y) (ρ * ρ / ((1 + s) * (1 + s)))
    rw [hXY] at sq
    linarith
  have bU := abs_le.1 dU
  have U0 : 0 ≤ U := by linarith
  obtain ⟨k2, k3, k4, k5⟩ := strength_near ρ0 hs hs1 rfl dU hε hu
  have kne : k1 * U ≠ 0 := abs_pos.1 (by linarith)
  have aU : |k1 * U| = |k1| * U := by rw [abs_mul, abs_of_nonneg U0]
  have us0 : 0 ≤ u * |s| := by positivity
  obtain ⟨m, hm, em⟩ := change_error A k hk hU U0 rfl kne k3 hu hη1
    (by have := mul_le_mul_of_nonneg_left k5 hu0; linarith)
    (by have := mul_le_mul_of_nonneg_right hηk U0; rw [aU]; linarith) hMk hM1
    (by have := mul_le_mul_of_nonneg_left k5 (by linarith : 0 ≤ M); linarith)
  have ec := exactChange_near k4 k3 k2
  rw [exactChange_of (by linarith) (by linarith)] at ec
  have uk : u / |k1 * U| ≤ 137 / 100 * (u / |s|) := by
    rw [div_le_iff₀ (by linarith)]
    have : 137 / 100 * (u / |s|) * (73 / 100 * |s|) ≤ 137 / 100 * (u / |s|) * |k1 * U| :=
      mul_le_mul_of_nonneg_left k5 (by positivity)
    have e : 137 / 100 * (u / |s|) * (73 / 100 * |s|) = 137 / 100 * (73 / 100) * u := by field_simp
    linarith
  have ερ0 : 0 ≤ ε / ρ := by positivity
  have hερ : ε / ρ ≤ 1 / 100 := by rw [div_le_iff₀ ρ0]; exact hε
  have t1 : |s| * (ε / ρ) ≤ 13 / 100 * (ε / ρ) := mul_le_mul_of_nonneg_right hs1 ερ0
  have t2 : u * |s| ≤ 13 / 100 * u := by nlinarith
  have t3 : u ≤ 13 / 100 * (u / |s|) := by
    have : u / |s| * |s| ≤ u / |s| * (13 / 100) := mul_le_mul_of_nonneg_left hs1 (by positivity)
    rw [div_mul_cancel₀ _ sp.ne'] at this
    linarith
  have t4 : u / |s| ≤ 1 / 1000 := by rw [div_le_iff₀ sp]; linarith
  have dm : |m - s| ≤ 715 / 100 * (u / |s|) + 245 / 100 * (ε / ρ) := by
    have := abs_sub_le m (exactChange (k1 * U)) s
    linarith
  have d1 : |1 + m - (1 + s)| ≤ 715 / 100 * (u / |s|) + 245 / 100 * (ε / ρ) := by rw [add_sub_add_left_eq_sub]; exact dm
  have b1 : |1 + s| ≤ 113 / 100 := by rw [abs_le]; constructor <;> linarith
  obtain ⟨f, hf, ef⟩ := A.add J.one hm ((abs_le_add d1 b1).trans (by linarith))
  refine ⟨f, hf, ?_⟩
  have := err_step hu0 ef d1 b1
  have h5 : u * (113 / 100 + (715 / 100 * (u / |s|) + 245 / 100 * (ε / ρ))) ≤ u * (113 / 100 + 5 / 100) :=
    mul_le_mul_of_nonneg_left (by linarith) hu0
  linarith

/-- A rounded distorted coordinate. -/
theorem distorted_error (A : Accurate J u η M) {a q : D} {x1 x f s ε ρ : ℝ} (ha : J.val a = .num x) (hq : J.val q = .num f)
    (ρ0 : 0 < ρ) (s0 : s ≠ 0) (hs1 : |s| ≤ 13 / 100) (hx1 : |x1| ≤ ρ) (hx : |x - x1 / (1 + s)| ≤ ε) (hε : ε ≤ 1 / 100 * ρ)
    (hf : |f - (1 + s)| ≤ 74 / 10 * (u / |s|) + 25 / 10 * (ε / ρ)) (hus : 1000 * u ≤ |s|)
    (hη : 1024 * η ≤ u * ρ) (hM : 2 * ρ ≤ M) :
    ∃ g, J.val (a * q) = .num g ∧ |g - x1| ≤ 42 / 10 * ε + 9 * (u * (ρ / |s|)) := by
  have hu0 := A.u_nonneg
  have sp : 0 < |s| := abs_pos.2 s0
  have bs := abs_le.1 hs1
  have ε0 : 0 ≤ ε := (abs_nonneg _).trans hx
  have ερ0 : 0 ≤ ε / ρ := by positivity
  have hερ : ε / ρ ≤ 1 / 100 := by rw [div_le_iff₀ ρ0]; exact hε
  have t4 : u / |s| ≤ 1 / 1000 := by rw [div_le_iff₀ sp]; linarith
  have us0 : 0 ≤ u / |s| := by positivity
  have bX : |x1 / (1 + s)| ≤ 23 / 20 * ρ := by
    rw [abs_div, abs_of_pos (by linarith : 0 < 1 + s), div_le_iff₀ (by linarith)]
    nlinarith
  have bf : |f| ≤ 117 / 100 := by
    have b1 : |1 + s| ≤ 113 / 100 := by rw [abs_le]; constructor <;> linarith
    have := abs_le_add hf b1
    linarith
  have d : |x * f - x1| ≤ 41 / 10 * ε + 86 / 10 * (u * (ρ / |s|)) := by
    have e : x * f - x1 = (x - x1 / (1 + s)) * f + x1 / (1 + s) * (f - (1 + s)) := by
      have : 1 + s ≠ 0 := by linarith
      field_simp; ring
    have h1 : |(x - x1 / (1 + s)) * f| ≤ ε * (117 / 100) := by rw [abs_mul]; exact mul_le_mul hx bf (abs_nonneg _) ε0
    have h2 : |x1 / (1 + s) * (f - (1 + s))| ≤ 23 / 20 * ρ * (74 / 10 * (u / |s|) + 25 / 10 * (ε / ρ)) := by
      rw [abs_mul]; exact mul_le_mul bX hf (abs_nonneg _) (by positivity)
    have h3 : 23 / 20 * ρ * (74 / 10 * (u / |s|) + 25 / 10 * (ε / ρ)) =
        23 / 20 * (74 / 10) * (u * (ρ / |s|)) + 23 / 20 * (25 / 10) * ε := by field_simp
    have h4 : 0 ≤ u * (ρ / |s|) := by positivity
    rw [e]
    have := abs_add_le ((x - x1 / (1 + s)) * f) (x1 / (1 + s) * (f - (1 + s)))
    linarith
  have h6 : u * (ρ / |s|) ≤ 1 / 1000 * ρ := by
    have : u * (ρ / |s|) = u / |s| * ρ := by ring
    rw [this]; exact mul_le_mul_of_nonneg_right t4 ρ0.le
  have h7 : u * ρ ≤ 13 / 100 * (u * (ρ / |s|)) := by
    have e : u * ρ = u * (ρ / |s|) * |s| := by field_simp
    rw [e]
    have := mul_le_mul_of_nonneg_left hs1 (by positivity : 0 ≤ u * (ρ / |s|))
    linarith
  obtain ⟨g, hg, eg⟩ := A.mul ha hq ((abs_le_add d hx1).trans (by linarith))
  refine ⟨g, hg, ?_⟩
  have := err_step hu0 eg d hx1
  have h8 : u * (ρ + (41 / 10 * ε + 86 / 10 * (u * (ρ / |s|)))) ≤ u * (11 / 10 * ρ) := mul_le_mul_of_nonneg_left (by linarith) hu0
  have h4 : 0 ≤ u * (ρ / |s|) := by positivity
  linarith

/-- The pixel of inexact image coordinates. -/
theorem pixel_error (A : Accurate J u η M) {k : FIntrinsics D} {px py : D} {fx fy cx cy s x y K β : ℝ}
    (S : Sees J k px py fx fy cx cy s x y K β) (E : Enough u η M K β) {g h : D} {x1 y1 g' h' τ : ℝ}
    (hg : J.val g = .num g') (hh : J.val h = .num h') (bx : |x1| ≤ 11 / 10 * β) (by1 : |y1| ≤ 11 / 10 * β)
    (d1 : |fx * x1 - (x - cx - s * ((y - cy) / fy))| ≤ 12 * (u * (K * β))) (d2 : |fy * y1 - (y - cy)| ≤ 3 * (u * (K * β)))
    (d3 : |s * y1 - s * ((y - cy) / fy)| ≤ 3 * (u * (K * β))) (e1 : |g' - x1| ≤ τ) (e2 : |h' - y1| ≤ τ) (hτ : τ ≤ 1 / 10 * β) :
    ∃ x' y', J.val (k.pixel g h).1 = .num x' ∧ J.val (k.pixel g h).2 = .num y' ∧
      |x' - x| ≤ 2 * (K * τ) + 24 * (u * (K * β)) ∧ |y' - y| ≤ 2 * (K * τ) + 24 * (u * (K * β)) := by
  have hu := A.u_nonneg
  have hη := A.η_nonneg
  obtain ⟨f1, f2, f3, f4, f5, f6, f7, -, -, f8, f9⟩ := E.facts hu hη
  have K0 : 0 ≤ K := by linarith [E.one_le, E.le]
  have hβ := E.one_le
  have hM := E.range
  have τ0 : 0 ≤ τ := (abs_nonneg _).trans e1
  have hE : 0 ≤ u * (K * β) := by positivity
  have hKβ : 0 ≤ K * β := by positivity
  have hEβ : u * (K * β) ≤ 1 / 1024 * (K * β) := mul_le_mul_of_nonneg_right f1 hKβ
  have hηE : 1024 * η ≤ u * (K * β) := by
    have : u ≤ u * (K * β) := by nlinarith
    linarith
  have hKτ0 : 0 ≤ K * τ := by positivity
  have hKτ : K * τ ≤ 1 / 10 * (K * β) := by have := mul_le_mul_of_nonneg_left hτ K0; linarith
  have huτ : u * (K * τ) ≤ 1 / 10 * (u * (K * β)) := by have := mul_le_mul_of_nonneg_left hKτ hu; linarith
  have hfx : |fx| ≤ K := by rw [abs_of_pos (by linarith [S.fx_range.1])]; exact S.fx_range.2
  have hfy : |fy| ≤ K := by rw [abs_of_pos (by linarith [S.fy_range.1])]; exact S.fy_range.2
  have product : ∀ {a b : D} {c z w : ℝ}, J.val (a * b) = J.val (b * a) → J.val a = .num c → J.val b = .num z → |c| ≤ K →
      |w| ≤ 11 / 10 * β → |z - w| ≤ τ → ∃ v, J.val (b * a) = .num v ∧ |v - c * w| ≤ K * τ + 13 / 10 * (u * (K * β)) := by
    intro a b c z w hab ha hb hc hw h
    have h1 : |c * z - c * w| ≤ K * τ := by
      rw [← mul_sub, abs_mul]; exact mul_le_mul hc h (abs_nonneg _) K0
    have h2 : |c * w| ≤ 11 / 10 * (K * β) := by
      rw [abs_mul]; have := mul_le_mul hc hw (abs_nonneg _) K0; linarith
    obtain ⟨v, hv, ev⟩ := A.mul ha hb ((abs_le_add h1 h2).trans (by linarith))
    refine ⟨v, hab ▸ hv, ?_⟩
    have := err_step hu ev h1 h2
    have e : u * (11 / 10 * (K * β) + K * τ) = 11 / 10 * (u * (K * β)) + u * (K * τ) := by ring
    linarith
  have hcomm : ∀ a b : D, J.val (a * b) = J.val (b * a) := by
    intro a b
    rw [J.mul, J.mul]
    congr 1
    generalize J.val a = v
    generalize J.val b = w
    rcases v with _ | s | x <;> rcases w with _ | t | y <;> simp [Flt.mul, mul_comm, Bool.xor_comm]
  obtain ⟨i1, hi1, ei1⟩ := product (hcomm _ _) S.val_fx hg hfx bx e1
  obtain ⟨i2, hi2, ei2⟩ := product (hcomm _ _) S.val_skew hh S.skew_range by1 e2
  rw [← hcomm] at hi2
  obtain ⟨i3, hi3, ei3⟩ := product (hcomm _ _) S.val_fy hh hfy by1 e2
  have dgh : |i1 + i2 - (fx * x1 + s * y1)| ≤ 2 * (K * τ) + 26 / 10 * (u * (K * β)) := by
    rw [show i1 + i2 - (fx * x1 + s * y1) = (i1 - fx * x1) + (i2 - s * y1) by ring]
    have := abs_add_le (i1 - fx * x1) (i2 - s * y1)
    linarith
  have size : ∀ c z : ℝ, |c| ≤ K → |z| ≤ 11 / 10 * β → |c * z| ≤ 11 / 10 * (K * β) := by
    intro c z hc h
    rw [abs_mul]
    have := mul_le_mul hc h (abs_nonneg _) K0
    linarith
  have hw : |fx * x1 + s * y1| ≤ 22 / 10 * (K * β) := by
    have := abs_add_le (fx * x1) (s * y1)
    have h1 := size _ _ hfx bx
    have h2 := size _ _ S.skew_range by1
    linarith
  obtain ⟨i, hi, ei⟩ := A.add hi1 hi2 ((abs_le_add dgh hw).trans (by linarith))
  have di : |i - (fx * x1 + s * y1)| ≤ 2 * (K * τ) + 6 * (u * (K * β)) := by
    have := err_step hu ei dgh hw
    have e : u * (22 / 10 * (K * β) + (2 * (K * τ) + 26 / 10 * (u * (K * β)))) =
      22 / 10 * (u * (K * β)) + 2 * (u * (K * τ)) + 26 / 10 * (u * (u * (K * β))) := by ring
    linarith
  have dix : |i + cx - x| ≤ 2 * (K * τ) + 21 * (u * (K * β)) := by
    have g1 := abs_le.1 di
    have g3 := abs_le.1 d1
    have g4 := abs_le.1 d3
    rw [abs_le]
    constructor <;> linarith [g1.1, g1.2, g3.1, g3.2, g4.1, g4.2]
  have fin : ∀ {v z w : ℝ}, |v - z| ≤ u * |z| + η → |z - w| ≤ 2 * (K * τ) + 21 * (u * (K * β)) → |w| ≤ K →
      |v - w| ≤ 2 * (K * τ) + 24 * (u * (K * β)) := by
    intro v z w h1 h2 h3
    have := err_step hu h1 h2 h3
    have e : u * (K + (2 * (K * τ) + 21 * (u * (K * β)))) = u * K + 2 * (u * (K * τ)) + 21 * (u * (u * (K * β))) := by ring
    linarith
  obtain ⟨x', hx', ex'⟩ := A.add hi S.val_cx ((abs_le_add dix S.x_range).trans (by linarith))
  have djy : |i3 + cy - y| ≤ 2 * (K * τ) + 21 * (u * (K * β)) := by
    have g1 := abs_le.1 ei3
    have g3 := abs_le.1 d2
    rw [abs_le]
    constructor <;> linarith [g1.1, g1.2, g3.1, g3.2]
  obtain ⟨y', hy', ey'⟩ := A.add hi3 S.val_cy ((abs_le_add djy S.y_range).trans (by linarith))
  exact ⟨x', y', hx', hy', fin ex' dix S.x_range, fin ey' djy S.y_range⟩

end Verif.Geo.Rounded
