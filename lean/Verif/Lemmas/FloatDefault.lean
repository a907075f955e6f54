import Verif.Lemmas.FloatScale
import Mathlib.Analysis.SpecialFunctions.Pow.Real
import Mathlib.Tactic.IntervalCases

/-!
# Lemmas: the default settings with floating point numbers
-/

namespace Verif.Akaze

open FloatOps FloatCast
open Verif.Bicubic (Flt)

variable {D : Type} [FloatOps D] {J : Ieee D}

theorem exact_small {n : Nat} (h : n ≤ 2 ^ 24) {x : ℝ} (hx : x = n) : J.Exact x := hx ▸ exact_nat h

/-- Times that are neither very short nor very long need several steps. -/
theorem fstepCount_between {t : D} (ht : J.Between t (1 / 4) (2 ^ 12)) :
    2 ≤ fstepCount t (lit (1 / 4)) ∧ fstepCount t (lit (1 / 4)) ≤ 2 ^ 10 := by
  have h3 : J.val (3 : D) = .num 3 := by
    have := val_nat (I := J) (n := 3) (by norm_num)
    simpa using this
  have hq : J.val (lit (1 / 4) : D) = .num (1 / 4) := by
    rw [J.lit]; push_cast
    exact exact_dyadic 1 2 (by norm_num) (by norm_num) (by norm_num)
  have a1 : J.Between (3 * t) (3 / 4) (3 * 2 ^ 12) := by
    refine (between_val h3).mul ht (exact_dyadic 3 2 (by norm_num) (by norm_num) (by norm_num))
      (exact_small (n := 3 * 2 ^ 12) (by norm_num) (by norm_num)) ?_
    intro x y x1 x2 y1 y2
    rw [le_antisymm x2 x1]
    constructor <;> linarith
  have a2 : J.Between (3 * t / lit (1 / 4)) 3 (2 ^ 16) :=
    a1.div hq (by norm_num) (exact_small (n := 3) (by norm_num) (by norm_num))
      (exact_small (n := 2 ^ 16) (by norm_num) (by norm_num)) (by norm_num) (by norm_num)
  have a3 : J.Between (3 * t / lit (1 / 4) + lit (1 / 4)) 3 (2 ^ 18) :=
    a2.add (between_val hq) (exact_small (n := 3) (by norm_num) (by norm_num))
      (exact_small (n := 2 ^ 18) (by norm_num) (by norm_num)) (by norm_num) (by norm_num)
  have a4 : J.Between (sqrt (3 * t / lit (1 / 4) + lit (1 / 4))) (27 / 16) (2 ^ 9) := by
    obtain ⟨x, ex, x1, x2⟩ := a3
    unfold Ieee.Between
    rw [J.sqrt_num _ _ ex, if_neg (by linarith)]
    refine rnd_between (exact_dyadic 27 4 (by norm_num) (by norm_num) (by norm_num))
      (exact_small (n := 2 ^ 9) (by norm_num) (by norm_num)) ?_ ?_
    · exact Real.le_sqrt_of_sq_le (by norm_num; linarith)
    · rw [Real.sqrt_le_left (by norm_num)]; norm_num; linarith
  have a5 : J.Between (sqrt (3 * t / lit (1 / 4) + lit (1 / 4)) - lit (1 / 2)) (19 / 16) (2 ^ 9) :=
    a4.sub (between_val val_half) (exact_dyadic 19 4 (by norm_num) (by norm_num) (by norm_num))
      (exact_small (n := 2 ^ 9) (by norm_num) (by norm_num)) (by norm_num) (by norm_num)
  have hl : J.Between (lit (1 / 10 ^ 8) : D) 0 (1 / 16) := by
    unfold Ieee.Between
    rw [J.lit]
    refine rnd_between exact_zero (exact_dyadic 1 4 (by norm_num) (by norm_num) (by norm_num)) ?_ ?_ <;> norm_num
  have a6 : J.Between (sqrt (3 * t / lit (1 / 4) + lit (1 / 4)) - lit (1 / 2) - lit (1 / 10 ^ 8)) (9 / 8) (2 ^ 9) :=
    a5.sub hl (exact_dyadic 9 3 (by norm_num) (by norm_num) (by norm_num))
      (exact_small (n := 2 ^ 9) (by norm_num) (by norm_num)) (by norm_num) (by norm_num)
  obtain ⟨z, ez, z1, z2⟩ := a6
  have hc := J.ceil_num _ _ ez
  have c1 : 2 ≤ ⌈z⌉ := by
    have : (1 : ℤ) < ⌈z⌉ := Int.lt_ceil.2 (by push_cast; linarith)
    omega
  have c2 : ⌈z⌉ ≤ 2 ^ 9 := Int.ceil_le.2 (by norm_num at z2 ⊢; exact z2)
  have c1' : (2 : ℝ) ≤ ⌈z⌉ := by exact_mod_cast c1
  have c2' : (⌈z⌉ : ℝ) ≤ 2 ^ 9 := by exact_mod_cast c2
  have a7 : J.Between (ceil (sqrt (3 * t / lit (1 / 4) + lit (1 / 4)) - lit (1 / 2) - lit (1 / 10 ^ 8)) + lit (1 / 2))
      2 (2 ^ 10) :=
    (between_val hc).add (between_val val_half) (exact_small (n := 2) (by norm_num) (by norm_num))
      (exact_small (n := 2 ^ 10) (by norm_num) (by norm_num)) (by linarith) (by linarith)
  obtain ⟨y, ey, y1, y2⟩ := a7
  unfold fstepCount
  rw [J.toNat, ey]
  simp only [Flt.toNat]
  have f1 : 2 ≤ ⌊y⌋ := Int.le_floor.2 (by push_cast; exact y1)
  have f2 : ⌊y⌋ ≤ 2 ^ 10 := by
    have : (⌊y⌋ : ℝ) ≤ 2 ^ 10 := (Int.floor_le y).trans y2
    exact_mod_cast this
  omega

/-- Bounds of the scale of a sublevel of the first octave, in units of 1/256. -/
def lowScale : Nat → Nat
  | 0 => 407
  | 1 => 484
  | 2 => 576
  | _ => 686

/-- See `lowScale`. -/
def highScale : Nat → Nat
  | 0 => 412
  | 1 => 490
  | 2 => 582
  | _ => 692

theorem quarter_power {i : Nat} (hi : i < 4) : (lowScale i : ℝ) / 256 + 1 / 200 ≤ 1.6 * (2 : ℝ) ^ ((i : ℝ) / 4) ∧
    1.6 * (2 : ℝ) ^ ((i : ℝ) / 4) ≤ (highScale i : ℝ) / 256 - 1 / 200 := by
  have hc : ∀ i : Nat, (2 : ℝ) ^ ((i : ℝ) / 4) = ((2 : ℝ) ^ (1 / 4 : ℝ)) ^ i := by
    intro i
    rw [← Real.rpow_natCast, ← Real.rpow_mul (by norm_num)]
    congr 1; ring
  rw [hc]
  have h4 : ((2 : ℝ) ^ (1 / 4 : ℝ)) ^ 4 = 2 := by
    rw [← hc 4]; norm_num
  have h0 : (0 : ℝ) < (2 : ℝ) ^ (1 / 4 : ℝ) := by positivity
  generalize (2 : ℝ) ^ (1 / 4 : ℝ) = c at *
  have l1 : 1.189 < c := by
    by_contra hcn
    have : c ^ 4 ≤ 1.189 ^ 4 := pow_le_pow_left₀ h0.le (not_lt.1 hcn) 4
    norm_num at this
    linarith
  have l2 : c < 1.1893 := by
    by_contra hcn
    have : 1.1893 ^ 4 ≤ c ^ 4 := pow_le_pow_left₀ (by norm_num) (not_lt.1 hcn) 4
    norm_num at this
    linarith
  have s1 : c ^ 2 ≤ 1.1893 ^ 2 := pow_le_pow_left₀ h0.le l2.le 2
  have s2 : 1.189 ^ 2 ≤ c ^ 2 := pow_le_pow_left₀ (by norm_num) l1.le 2
  have s3 : c ^ 3 ≤ 1.1893 ^ 3 := pow_le_pow_left₀ h0.le l2.le 3
  have s4 : 1.189 ^ 3 ≤ c ^ 3 := pow_le_pow_left₀ (by norm_num) l1.le 3
  norm_num at s1 s2 s3 s4 l1 l2
  interval_cases i <;> norm_num [lowScale, highScale] <;> constructor <;> linarith

/-- The scale of a level with the default settings. -/
theorem default_scale (hp : PowAccurate J) {o i : Nat} (ho : o < 4) (hi : i < 4) :
    J.Between (fnewLevel (FSettings.default D) o i).esigma (lowScale i * 2 ^ o / 256) (highScale i * 2 ^ o / 256) := by
  have hlo : lowScale i ≤ 686 ∧ highScale i ≤ 692 ∧ 407 ≤ lowScale i := by interval_cases i <;> decide
  have h16 : 2 ^ o ≤ 2 ^ 4 := Nat.pow_le_pow_right (by norm_num) (by omega)
  have hbase : J.Between (FSettings.default D).baseScale (1.6 - 1 / 2 ^ 14) (1.6 + 1 / 2 ^ 14) := by
    have : J.Between (FSettings.default D).baseScale (26214 / 2 ^ 14) (26215 / 2 ^ 14) := by
      unfold Ieee.Between
      show ∃ x, J.val (lit (16 / 10) : D) = _ ∧ _
      rw [J.lit]
      refine rnd_between (exact_dyadic 26214 14 (by norm_num) (by norm_num) (by norm_num))
        (exact_dyadic 26215 14 (by norm_num) (by norm_num) (by norm_num)) ?_ ?_ <;> norm_num
    exact this.weaken (by norm_num) (by norm_num)
  have hdiv : J.val ((i : D) / ((FSettings.default D).numSublevels : D)) = .num ((i : ℝ) / 4) := by
    have h4 : J.val ((FSettings.default D).numSublevels : D) = .num 4 := by
      show J.val ((4 : Nat) : D) = _
      have := val_nat (I := J) (n := 4) (by norm_num)
      simpa using this
    have he : J.Exact ((i : ℝ) / 4) :=
      exact_dyadic i 2 (by rw [abs_le]; constructor <;> omega) (by norm_num) (by push_cast; norm_num)
    exact Ieee.Between.eq ((between_val (val_nat (by omega))).div h4 (by norm_num) he he (by linarith) (by linarith))
  have harg : J.val ((i : D) / ((FSettings.default D).numSublevels : D) + (o : D)) = .num ((i : ℝ) / 4 + o) := by
    have he : J.Exact ((i : ℝ) / 4 + o) :=
      exact_dyadic (i + 4 * o) 2 (by rw [abs_le]; constructor <;> omega) (by norm_num) (by push_cast; ring)
    exact Ieee.Between.eq ((between_val hdiv).add (between_val (val_nat (by omega))) he he le_rfl le_rfl)
  have hi' : (i : ℝ) ≤ 3 := by exact_mod_cast (show i ≤ 3 by omega)
  have ho' : (o : ℝ) ≤ 3 := by exact_mod_cast (show o ≤ 3 by omega)
  have hpow := hp _ _ harg (by positivity) (by linarith)
  rw [Real.rpow_add (by norm_num), Real.rpow_natCast] at hpow
  obtain ⟨q1, q2⟩ := quarter_power hi
  have hg : (0 : ℝ) < (2 : ℝ) ^ ((i : ℝ) / 4) := by positivity
  have h2o : (0 : ℝ) < 2 ^ o := by positivity
  show J.Between ((FSettings.default D).baseScale * pow 2 ((i : D) / ((FSettings.default D).numSublevels : D) + (o : D))) _ _
  have b1 : (lowScale i : ℝ) ≤ 686 := by exact_mod_cast hlo.1
  have b2 : (highScale i : ℝ) ≤ 692 := by exact_mod_cast hlo.2.1
  refine hbase.mul hpow ?_ ?_ ?_
  · refine exact_dyadic (lowScale i * 2 ^ o : Nat) 8 ?_ (by norm_num) (by push_cast; norm_num)
    rw [abs_le]
    have : lowScale i * 2 ^ o ≤ 686 * 2 ^ 4 := Nat.mul_le_mul hlo.1 h16
    constructor <;> omega
  · refine exact_dyadic (highScale i * 2 ^ o : Nat) 8 ?_ (by norm_num) (by push_cast; norm_num)
    rw [abs_le]
    have : highScale i * 2 ^ o ≤ 692 * 2 ^ 4 := Nat.mul_le_mul hlo.2.1 h16
    constructor <;> omega
  · intro x y x1 x2 y1 y2
    generalize (2 : ℝ) ^ ((i : ℝ) / 4) = c at *
    generalize (2 : ℝ) ^ o = e at *
    have hx0 : (0 : ℝ) < x := by norm_num at x1 ⊢; linarith
    constructor
    · have h1 : (lowScale i : ℝ) / 256 ≤ (1.6 - 1 / 2 ^ 14) * (c * (1 - 1 / 1000)) := by norm_num at q1 ⊢; linarith
      calc (lowScale i : ℝ) * e / 256 = (lowScale i : ℝ) / 256 * e := by ring
        _ ≤ (1.6 - 1 / 2 ^ 14) * (c * (1 - 1 / 1000)) * e := mul_le_mul_of_nonneg_right h1 h2o.le
        _ = (1.6 - 1 / 2 ^ 14) * (c * e * (1 - 1 / 1000)) := by ring
        _ ≤ x * (c * e * (1 - 1 / 1000)) := mul_le_mul_of_nonneg_right x1 (by positivity)
        _ ≤ x * y := mul_le_mul_of_nonneg_left y1 hx0.le
    · have h1 : (1.6 + 1 / 2 ^ 14) * (c * (1 + 1 / 1000)) ≤ (highScale i : ℝ) / 256 := by norm_num at q2 ⊢; linarith
      calc x * y ≤ x * (c * e * (1 + 1 / 1000)) := mul_le_mul_of_nonneg_left y2 hx0.le
        _ ≤ (1.6 + 1 / 2 ^ 14) * (c * e * (1 + 1 / 1000)) := mul_le_mul_of_nonneg_right x2 (by positivity)
        _ = (1.6 + 1 / 2 ^ 14) * (c * (1 + 1 / 1000)) * e := by ring
        _ ≤ (highScale i : ℝ) / 256 * e := mul_le_mul_of_nonneg_right h1 h2o.le
        _ = (highScale i : ℝ) * e / 256 := by ring

/-- Half of a square. -/
theorem half_square {a : D} {n m k : Nat} (hk : k ≤ 40) (hn : n ≤ 2 ^ 12) (hm : m ≤ 2 ^ 12)
    (h : J.Between a (n / 2 ^ k) (m / 2 ^ k)) :
    J.Between (lit (1 / 2) * (a * a)) ((n * n : Nat) / 2 ^ (2 * k + 1)) ((m * m : Nat) / 2 ^ (2 * k + 1)) := by
  have hn2 : n * n ≤ 2 ^ 12 * 2 ^ 12 := Nat.mul_le_mul hn hn
  have hm2 : m * m ≤ 2 ^ 12 * 2 ^ 12 := Nat.mul_le_mul hm hm
  have ex : ∀ (c j : Nat), c * c ≤ 2 ^ 12 * 2 ^ 12 → j ≤ 100 → J.Exact (((c * c : Nat) : ℝ) / 2 ^ j) := by
    intro c j hc hj
    refine exact_dyadic (c * c : Nat) j ?_ hj (by push_cast; ring)
    rw [abs_le]; constructor <;> omega
  have hsq : J.Between (a * a) ((n * n : Nat) / 2 ^ (2 * k)) ((m * m : Nat) / 2 ^ (2 * k)) := by
    obtain ⟨x, e, x1, x2⟩ := h
    unfold Ieee.Between
    rw [J.mul, e]
    have hx : (0 : ℝ) ≤ x := le_trans (by positivity) x1
    refine rnd_between (ex n _ hn2 (by omega)) (ex m _ hm2 (by omega)) ?_ ?_
    · have : ((n * n : Nat) : ℝ) / 2 ^ (2 * k) = n / 2 ^ k * (n / 2 ^ k) := by push_cast; rw [pow_mul']; field_simp
      rw [this]; exact mul_le_mul x1 x1 (by positivity) hx
    · have : ((m * m : Nat) : ℝ) / 2 ^ (2 * k) = m / 2 ^ k * (m / 2 ^ k) := by push_cast; rw [pow_mul']; field_simp
      rw [this]; exact mul_le_mul x2 x2 hx (by positivity)
  refine (between_val val_half).mul hsq (ex n _ hn2 (by omega)) (ex m _ hm2 (by omega)) ?_
  intro x y x1 x2 y1 y2
  rw [le_antisymm x2 x1]
  have e1 : ((n * n : Nat) : ℝ) / 2 ^ (2 * k + 1) = 1 / 2 * (((n * n : Nat) : ℝ) / 2 ^ (2 * k)) := by rw [pow_succ]; ring
  have e2 : ((m * m : Nat) : ℝ) / 2 ^ (2 * k + 1) = 1 / 2 * (((m * m : Nat) : ℝ) / 2 ^ (2 * k)) := by rw [pow_succ]; ring
  rw [e1, e2]
  constructor <;> linarith

theorem default_time_between (hp : PowAccurate J) {o i : Nat} (ho : o < 4) (hi : i < 4) :
    J.Between (fnewLevel (FSettings.default D) o i).etime ((lowScale i * lowScale i : Nat) / 2 ^ (2 * (8 - o) + 1))
      ((highScale i * highScale i : Nat) / 2 ^ (2 * (8 - o) + 1)) := by
  have hlo : lowScale i ≤ 2 ^ 12 ∧ highScale i ≤ 2 ^ 12 := by interval_cases i <;> decide
  have h := default_scale hp ho hi
  have e : (2 : ℝ) ^ o / 256 = 1 / 2 ^ (8 - o) := by interval_cases o <;> norm_num
  have h' : J.Between (fnewLevel (FSettings.default D) o i).esigma (lowScale i / 2 ^ (8 - o)) (highScale i / 2 ^ (8 - o)) := by
    refine h.weaken (le_of_eq ?_) (le_of_eq ?_)
    · rw [mul_div_assoc, e]; ring
    · rw [mul_div_assoc, e]; ring
  exact half_square (by omega) hlo.1 hlo.2 h'

/-- The default settings are usable, and their levels as well. -/
theorem default_usable (J : Ieee D) : FUsable J (FSettings.default D) := by
  refine ⟨by simp [FSettings.default], by simp [FSettings.default], ?_, by simp [FSettings.default],
    by simp [FSettings.default], by simp [FSettings.default], by simp [FSettings.default], by simp [FSettings.default]⟩
  show J.Between (lit (16 / 10) : D) _ _
  have : J.Between (lit (16 / 10) : D) 1 2 := by
    unfold Ieee.Between
    rw [J.lit]
    refine rnd_between exact_one (exact_small (n := 2) (by norm_num) (by norm_num)) ?_ ?_ <;> norm_num
  exact this.weaken (by norm_num) (by norm_num)

theorem default_levels (hp : PowAccurate J) (w h : Nat) : LevelsOk J (FSettings.default D) w h := by
  obtain ⟨full, extra, ho, hlist⟩ := plainLevels_eq (s := FSettings.default D) (by simp [FSettings.default]) w h
  have hN : full * 4 + extra ≤ 16 := by
    have h1 : full ≤ 4 := ho.le
    have h2 := ho.atMost
    have h3 : extra = 1 → full < 4 := fun h => (ho.one.1 h).1
    omega
  change plainLevels (FSettings.default D) w h = (List.range (full * 4 + extra)).map
    (fun i => fnewLevel (FSettings.default D) (i / 4) (i % 4)) at hlist
  constructor
  · intro l hl
    rw [hlist, List.mem_map] at hl
    obtain ⟨j, hj, rfl⟩ := hl
    rw [List.mem_range] at hj
    have hs := default_scale hp (o := j / 4) (i := j % 4) (by omega) (by omega)
    have hdf : J.val (FSettings.default D).derivativeFactor = .num (3 / 2) := by
      show J.val (lit (15 / 10) : D) = _
      rw [J.lit]; norm_num
      exact exact_dyadic 3 1 (by norm_num) (by norm_num) (by norm_num)
    have hb : 407 ≤ lowScale (j % 4) ∧ highScale (j % 4) ≤ 692 := by
      have : j % 4 < 4 := by omega
      interval_cases j % 4 <;> decide
    have b1 : (407 : ℝ) ≤ lowScale (j % 4) := by exact_mod_cast hb.1
    have b2 : (highScale (j % 4) : ℝ) ≤ 692 := by exact_mod_cast hb.2
    have p1 : (0 : ℝ) < 2 ^ (j / 4) := by positivity
    have p2 : (2 : ℝ) ^ (j / 4) ≤ 2 ^ 3 := pow_le_pow_right₀ (by norm_num) (by omega)
    show J.Between _ (2 ^ (j / 4)) _
    refine hs.mul (between_val hdf) (exact_power (by omega)) (exact_power (by norm_num)) ?_
    intro x y x1 x2 y1 y2
    rw [le_antisymm y2 y1]
    constructor
    · nlinarith
    · norm_num at p2 ⊢
      nlinarith
  · rw [hlist, List.isChain_map, List.isChain_iff_getElem]
    intro j hj
    simp only [List.length_range] at hj
    simp only [List.getElem_range]
    have t1 := default_time_between hp (o := j / 4) (i := j % 4) (by omega) (by omega)
    have t2 := default_time_between hp (o := (j + 1) / 4) (i := (j + 1) % 4) (by omega) (by omega)
    have hd : J.Between ((fnewLevel (FSettings.default D) ((j + 1) / 4) ((j + 1) % 4)).etime -
        (fnewLevel (FSettings.default D) (j / 4) (j % 4)).etime) (1 / 4) (2 ^ 12) := by
      refine t2.sub t1 (exact_dyadic 1 2 (by norm_num) (by norm_num) (by norm_num)) (exact_power (by norm_num)) ?_ ?_
      · have : j < 15 := by omega
        clear t1 t2 hj
        interval_cases j <;> norm_num [lowScale, highScale]
      · have : j < 15 := by omega
        clear t1 t2 hj
        interval_cases j <;> norm_num [lowScale, highScale]
    have hd1 := hd.div (lo := 1 / 4) (hi := 2 ^ 12) J.one one_pos (exact_dyadic 1 2 (by norm_num) (by norm_num) (by norm_num))
      (exact_power (by norm_num)) (by norm_num) (by norm_num)
    obtain ⟨s1, s2⟩ := fstepCount_between hd1
    exact ⟨by omega, by omega⟩

end Verif.Akaze
