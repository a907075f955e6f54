import Verif.Props.FloatExtract
import Verif.Lemmas.FloatDefault
import Mathlib.Order.ConditionallyCompleteLattice.Finset

/-!
# Floating point numbers with 24 bits, and extraction with the default settings (C102)

The assumptions about floating point numbers are met by numbers with 24 significant bits and the range of `f32`,
rounded down (a rounding mode of IEEE 754).
-/

namespace Verif.Akaze

open FloatOps FloatCast
open Verif.Bicubic (Flt)

section

variable {F D : Type} [FloatOps F] [FloatOps D] [FloatCast F D] {I : Ieee F} {J : Ieee D}

/-- **C102** With the default settings extraction never panics for pictures of 40 to 2²² pixels in each direction. -/
theorem C102_default (C : IeeeCast I J) (hp : PowAccurate J) {sort : List (FKeyPoint F) → List (FKeyPoint F)}
    (hsort : ∀ l, (sort l).Perm l) {image : Img F} (hi : image.WF) (hw : 40 ≤ image.w) (hh : 40 ≤ image.h)
    (hw' : image.w ≤ 2 ^ 22) (hh' : image.h ≤ 2 ^ 22) :
    ∃ ks ds, fextract (FSettings.default D) sort image = some (ks, ds) ∧ ks.length = ds.length ∧
      (∀ k ∈ ks, I.Between k.x 0 image.w ∧ I.Between k.y 0 image.h) ∧ ∀ d ∈ ds, d.length = 64 := by
  obtain ⟨ks, ds, h1, h2, -, h3, h4⟩ := C102_total C (default_usable J) hsort hi hw hh hw' hh' (default_levels hp _ _)
  exact ⟨ks, ds, h1, h2, h3, h4⟩

end

namespace ExFloat

/-- Numbers with 24 significant bits. -/
def Rep : Set ℝ := {x | ∃ m e : ℤ, |m| ≤ 2 ^ 24 ∧ -149 ≤ e ∧ e ≤ 104 ∧ x = m * (2 : ℝ) ^ e}

theorem rep_finite : Rep.Finite := by
  have : Rep ⊆ (fun p : ℤ × ℤ => (p.1 : ℝ) * (2 : ℝ) ^ p.2) '' (Set.Icc (-2 ^ 24) (2 ^ 24) ×ˢ Set.Icc (-149) 104) := by
    rintro x ⟨m, e, hm, h1, h2, rfl⟩
    rw [abs_le] at hm
    exact ⟨(m, e), ⟨hm, h1, h2⟩, rfl⟩
  exact (((Set.finite_Icc _ _).prod (Set.finite_Icc _ _)).image _).subset this

theorem rep_int {n : ℤ} (h : |n| ≤ 2 ^ 24) : (n : ℝ) ∈ Rep := ⟨n, 0, h, by norm_num, by norm_num, by simp⟩

theorem rep_dyadic {n : ℤ} {k : Nat} (h : |n| ≤ 2 ^ 24) (hk : k ≤ 100) : (n : ℝ) / 2 ^ k ∈ Rep :=
  ⟨n, -k, h, by omega, by omega, by rw [zpow_neg, zpow_natCast]; rfl⟩

/-- Integers and numbers below 2²⁴. -/
theorem rep_cases {x : ℝ} (h : x ∈ Rep) : (∃ n : ℤ, x = n) ∨ |x| ≤ 2 ^ 24 := by
  obtain ⟨m, e, hm, -, -, rfl⟩ := h
  rcases le_total 0 e with he | he
  · left
    obtain ⟨k, rfl⟩ := Int.eq_ofNat_of_zero_le he
    exact ⟨m * 2 ^ k, by push_cast; simp⟩
  · right
    rw [abs_mul, abs_of_pos (by positivity : (0 : ℝ) < (2 : ℝ) ^ e)]
    have h1 : (2 : ℝ) ^ e ≤ 1 := zpow_le_one_of_nonpos₀ (by norm_num) he
    have h2 : |(m : ℝ)| ≤ 2 ^ 24 := by exact_mod_cast hm
    have h3 : (0 : ℝ) < (2 : ℝ) ^ e := by positivity
    nlinarith [abs_nonneg (m : ℝ)]

/-- A function to integers that keeps integers and stays below 2²⁴. -/
theorem rep_of {g : ℝ → ℤ} (hi : ∀ n : ℤ, g n = n) (hm : ∀ x y, x ≤ y → g x ≤ g y) {x : ℝ} (h : x ∈ Rep) : (g x : ℝ) ∈ Rep := by
  rcases rep_cases h with ⟨n, rfl⟩ | hx
  · rw [hi]; exact h
  · rw [abs_le] at hx
    refine rep_int (abs_le.2 ⟨?_, ?_⟩)
    · have := hm _ _ hx.1
      have e := hi (-2 ^ 24)
      rw [show (((-2 ^ 24 : ℤ)) : ℝ) = -2 ^ 24 by norm_num] at e
      omega
    · have := hm _ _ hx.2
      have e := hi (2 ^ 24)
      rw [show (((2 ^ 24 : ℤ)) : ℝ) = 2 ^ 24 by norm_num] at e
      omega

open Classical in
/-- Rounding down. -/
noncomputable def lower (x : ℝ) : Flt := if ∃ y ∈ Rep, y ≤ x then .num (sSup {y | y ∈ Rep ∧ y ≤ x}) else .inf true

theorem lower_mem {x : ℝ} (h : ∃ y ∈ Rep, y ≤ x) : sSup {y | y ∈ Rep ∧ y ≤ x} ∈ {y | y ∈ Rep ∧ y ≤ x} :=
  Set.Nonempty.csSup_mem h (rep_finite.subset (fun _ hy => hy.1))

theorem le_lower {x y : ℝ} (hy : y ∈ Rep) (h : y ≤ x) : y ≤ sSup {y | y ∈ Rep ∧ y ≤ x} :=
  le_csSup (rep_finite.subset (fun _ hy => hy.1)).bddAbove ⟨hy, h⟩

theorem lower_rep {x : ℝ} (h : x ∈ Rep) : lower x = .num x := by
  have hex : ∃ y ∈ Rep, y ≤ x := ⟨x, h, le_rfl⟩
  unfold lower
  rw [if_pos hex, le_antisymm (lower_mem hex).2 (le_lower h le_rfl)]

theorem lower_num {x y : ℝ} (h : lower x = .num y) : y ∈ Rep ∧ y ≤ x := by
  unfold lower at h
  split at h
  · next hex =>
    obtain rfl : sSup {y | y ∈ Rep ∧ y ≤ x} = y := by injection h
    exact lower_mem hex
  · cases h

/-- `f32`, rounded down. -/
def F32 : Type := {v : Flt // ∀ x, v = .num x → x ∈ Rep}

/-- Rounding a result. -/
noncomputable def toF (v : Flt) : F32 := ⟨roundedBy lower v, by
  intro x h
  rcases v with _ | s | y
  · cases h
  · cases h
  · exact (lower_num h).1⟩

/-- A function of numbers, NaN for others. -/
noncomputable def lift1 (f : ℝ → ℝ) (a : F32) : F32 :=
  match a.1 with
  | .num x => toF (.num (f x))
  | _ => toF .nan

/-- A function of two numbers, NaN for others. -/
noncomputable def lift2 (f : ℝ → ℝ → ℝ) (a b : F32) : F32 :=
  match a.1, b.1 with
  | .num x, .num y => toF (.num (f x y))
  | _, _ => toF .nan

/-- A function from numbers to integers, which keeps other values. -/
noncomputable def liftInt (g : ℝ → ℤ) (hi : ∀ n : ℤ, g n = n) (hm : ∀ x y, x ≤ y → g x ≤ g y) (a : F32) : F32 :=
  ⟨match a.1 with
    | .num x => .num (g x)
    | v => v, by
    obtain ⟨v, hv⟩ := a
    rcases v with _ | s | y
    · intro x h; cases h
    · intro x h; cases h
    · intro x h
      injection h with h
      subst h
      exact rep_of hi hm (hv y rfl)⟩

open Classical in
/-- `/`. -/
noncomputable def fdiv : Flt → Flt → Flt
  | .nan, _ => .nan
  | _, .nan => .nan
  | .num x, .num y => if y = 0 then (if x = 0 then .nan else .inf (decide (x < 0))) else .num (x / y)
  | .num _, .inf _ => .num 0
  | .inf s, .num y => .inf (s != decide (y < 0))
  | .inf _, .inf _ => .nan

/-- `abs`. -/
noncomputable def fabs : Flt → Flt
  | .nan => .nan
  | .inf _ => .inf false
  | .num x => .num |x|

open Classical in
/-- `sqrt`. -/
noncomputable def fsqrt : Flt → Flt
  | .nan => .nan
  | .inf s => if s then .nan else .inf false
  | .num x => if x < 0 then .nan else .num √x

open Classical in
/-- `FloatOrd`, with all NaN above all numbers. -/
noncomputable def ordLeF (a b : Flt) : Bool :=
  match a, b with
  | _, .nan => true
  | .nan, _ => false
  | a, b => decide (a.Le b)

open Classical in
noncomputable instance : FloatOps F32 where
  zero := toF (.num 0)
  one := toF (.num 1)
  add a b := toF (a.1.add b.1)
  sub a b := toF (a.1.sub b.1)
  mul a b := toF (a.1.mul b.1)
  div a b := toF (fdiv a.1 b.1)
  neg a := toF a.1.neg
  natCast n := toF (.num n)
  lit q := toF (.num q)
  ofInt z := toF (.num z)
  pi := toF (.num Real.pi)
  lt a b := decide (a.1.Lt b.1)
  le a b := decide (a.1.Le b.1)
  ordLe a b := ordLeF a.1 b.1
  abs a := toF (fabs a.1)
  sqrt a := toF (fsqrt a.1)
  floor a := liftInt Int.floor (by simp) (fun _ _ h => Int.floor_mono h) a
  ceil a := liftInt Int.ceil (by simp) (fun _ _ h => Int.ceil_mono h) a
  round a := liftInt roundAway roundAway_int (fun _ _ h => roundAway_mono h) a
  exp := lift1 Real.exp
  sin := lift1 Real.sin
  cos := lift1 Real.cos
  atan2 := lift2 (fun y x => Complex.arg ⟨x, y⟩)
  remEuclid := lift2 remEuclid
  pow := lift2 (fun x y => x ^ y)
  toNat a := a.1.toNat (2 ^ 64 - 1)
  toInt a := match a.1 with
    | .num x => ⌊x⌋
    | _ => 0

noncomputable instance : FloatCast F32 F32 := ⟨id, id⟩

theorem toF_num {x : ℝ} (h : x ∈ Rep) : (toF (.num x)).1 = .num x := lower_rep h

theorem liftInt_num {g : ℝ → ℤ} {hi hm} {a : F32} {x : ℝ} (h : a.1 = .num x) : (liftInt g hi hm a).1 = .num (g x) := by
  unfold liftInt
  simp only [h]

theorem liftInt_rest {g : ℝ → ℤ} {hi hm} {a : F32} (h : ∀ x, a.1 ≠ .num x) : (liftInt g hi hm a).1 = a.1 := by
  obtain ⟨v, hv⟩ := a
  rcases v with _ | s | y
  · rfl
  · rfl
  · exact absurd rfl (h y)

theorem lift2_num {f : ℝ → ℝ → ℝ} {a b : F32} {x y : ℝ} (ha : a.1 = .num x) (hb : b.1 = .num y) :
    (lift2 f a b).1 = lower (f x y) := by
  unfold lift2
  simp only [ha, hb]; rfl

theorem rep_zero : (0 : ℝ) ∈ Rep := by simpa using rep_int (n := 0) (by norm_num)
theorem rep_one : (1 : ℝ) ∈ Rep := by simpa using rep_int (n := 1) (by norm_num)
theorem rep_nat {n : Nat} (h : n ≤ 2 ^ 24) : (n : ℝ) ∈ Rep := by
  simpa using rep_int (n := n) (by rw [abs_le]; constructor <;> omega)

theorem val_nat' {n : Nat} (h : n ≤ 2 ^ 24) : (n : F32).1 = .num n := toF_num (rep_nat h)

theorem le_trans' {a b c : Flt} (h1 : a.Le b) (h2 : b.Le c) : a.Le c := by
  rcases a with _ | s | x <;> rcases b with _ | t | y <;> rcases c with _ | u | z <;>
    (try cases s) <;> (try cases t) <;> (try cases u) <;> simp_all [Flt.Le, Flt.Ge]
  linarith

theorem le_total' {a b : Flt} (ha : a ≠ .nan) (hb : b ≠ .nan) : a.Le b ∨ b.Le a := by
  rcases a with _ | s | x <;> rcases b with _ | t | y <;>
    (try cases s) <;> (try cases t) <;> simp_all [Flt.Le, Flt.Ge]
  exact le_total x y

/-- The assumptions hold. -/
noncomputable def ieee : Ieee F32 where
  val a := a.1
  rnd := lower
  rnd_ne_nan x := by unfold lower; split <;> simp
  rnd_mono x y h := by
    unfold lower
    by_cases hx : ∃ z ∈ Rep, z ≤ x
    · have hy : ∃ z ∈ Rep, z ≤ y := by
        obtain ⟨z, hz, hzx⟩ := hx
        exact ⟨z, hz, hzx.trans h⟩
      rw [if_pos hx, if_pos hy]
      have := lower_mem hx
      exact le_lower this.1 (this.2.trans h)
    · rw [if_neg hx]
      split <;> simp [Flt.Le, Flt.Ge]
  rnd_val a x h := lower_rep (a.2 x h)
  rnd_dyadic n k hn hk := lower_rep (rep_dyadic hn hk)
  zero := toF_num rep_zero
  one := toF_num rep_one
  natCast _ := rfl
  ofInt _ := rfl
  lit _ := rfl
  pi := rfl
  lt a b := by simp [FloatOps.lt]
  le a b := by simp [FloatOps.le]
  ordLe_total a b := by
    show ordLeF a.1 b.1 = true ∨ ordLeF b.1 a.1 = true
    by_cases ha : a.1 = .nan
    · right; rw [ha]; unfold ordLeF; simp
    · by_cases hb : b.1 = .nan
      · left; rw [hb]; unfold ordLeF; simp
      · have := le_total' ha hb
        generalize a.1 = u at *
        generalize b.1 = v at *
        rcases u with _ | s | x <;> rcases v with _ | t | y <;> simp_all [ordLeF]
  ordLe_trans a b c h1 h2 := by
    change ordLeF a.1 b.1 = true at h1
    change ordLeF b.1 c.1 = true at h2
    show ordLeF a.1 c.1 = true
    have := @le_trans' a.1 b.1 c.1
    generalize a.1 = u at *
    generalize b.1 = v at *
    generalize c.1 = z at *
    rcases u with _ | s | x <;> rcases v with _ | t | y <;> rcases z with _ | r | z <;> simp_all [ordLeF]
  ordLe a b h := by
    change ordLeF a.1 b.1 = true at h
    generalize a.1 = u at *
    generalize b.1 = v at *
    rcases u with _ | s | x <;> rcases v with _ | t | y <;> simp_all [ordLeF]
  add _ _ := rfl
  sub _ _ := rfl
  mul _ _ := rfl
  neg a := by
    show roundedBy lower a.1.neg = _
    obtain ⟨v, hv⟩ := a
    rcases v with _ | s | x
    · rfl
    · rfl
    · refine lower_rep ?_
      obtain ⟨m, e, hm, h1, h2, rfl⟩ := hv x rfl
      exact ⟨-m, e, by simpa using hm, h1, h2, by push_cast; ring⟩
  div a b x y ha hb hy := by
    show roundedBy lower (fdiv a.1 b.1) = _
    rw [ha, hb]
    simp only [fdiv, if_neg hy]; rfl
  div_zero a b x ha hb hx := by
    refine ⟨decide (x < 0), ?_⟩
    show roundedBy lower (fdiv a.1 b.1) = _
    rw [ha, hb]
    simp [fdiv, hx, roundedBy]
  div_inf a b x s ha hb := by
    show roundedBy lower (fdiv a.1 b.1) = _
    rw [ha, hb]
    exact lower_rep rep_zero
  inf_div a b s y ha hb hy := by
    show roundedBy lower (fdiv a.1 b.1) = _
    rw [ha, hb]
    have : ¬ y < 0 := not_lt.2 hy.le
    simp [fdiv, this, roundedBy]
  inf_div_inf a b s t ha hb := by
    show roundedBy lower (fdiv a.1 b.1) = _
    rw [ha, hb]; rfl
  div_nan a b h := by
    show roundedBy lower (fdiv a.1 b.1) = _
    rcases h with h | h
    · rw [h]; rfl
    · rw [h]
      generalize a.1 = u
      rcases u with _ | s | x <;> rfl
  abs_num a x h := by
    show roundedBy lower (fabs a.1) = _
    rw [h]
    refine lower_rep ?_
    obtain ⟨m, e, hm, h1, h2, rfl⟩ := a.2 x h
    exact ⟨|m|, e, by simpa using hm, h1, h2, by
      rw [abs_mul, abs_of_pos (by positivity : (0 : ℝ) < (2 : ℝ) ^ e)]; push_cast; rfl⟩
  abs_nan a h := by
    show roundedBy lower (fabs a.1) = _
    rw [h]; rfl
  abs_inf a s h := by
    show roundedBy lower (fabs a.1) = _
    rw [h]; rfl
  sqrt_num a x h := by
    show roundedBy lower (fsqrt a.1) = _
    rw [h]
    simp only [fsqrt]
    split <;> rfl
  sqrt_nan a h := by
    show roundedBy lower (fsqrt a.1) = _
    rw [h]; rfl
  sqrt_inf a s h := by
    show roundedBy lower (fsqrt a.1) = _
    rw [h]
    cases s <;> rfl
  floor a := by
    show (liftInt _ _ _ a).1 = _
    by_cases h : ∃ x, a.1 = .num x
    · obtain ⟨x, h⟩ := h
      rw [liftInt_num h, h]; rfl
    · rw [liftInt_rest (fun x hx => h ⟨x, hx⟩)]
      generalize a.1 = u at *
      rcases u with _ | s | x
      · rfl
      · rfl
      · exact absurd ⟨x, rfl⟩ h
  ceil_num a x h := liftInt_num h
  round_num a x h := liftInt_num h
  round_rest a h := liftInt_rest h
  pow_two n hn := by
    show (lift2 _ _ _).1 = _
    have h2 : (2 : F32).1 = .num (2 : ℝ) := by
      have := val_nat' (n := 2) (by norm_num)
      exact_mod_cast this
    rw [lift2_num h2 (val_nat' (by omega)), Real.rpow_natCast]
    have hb : 2 ^ n ≤ 2 ^ 24 := Nat.pow_le_pow_right (by norm_num) (by omega)
    have := rep_nat hb
    push_cast at this
    exact lower_rep this
  toNat _ := rfl

theorem ieeeCast : IeeeCast ieee ieee where
  narrow d := by
    show d.1 = roundedBy lower d.1
    obtain ⟨v, hv⟩ := d
    rcases v with _ | s | x
    · rfl
    · rfl
    · exact (lower_rep (hv x rfl)).symm
  widen _ := rfl

theorem powAccurate : PowAccurate ieee := by
  intro a y ha h0 h4
  have h2 : (2 : F32).1 = .num (2 : ℝ) := by
    have := val_nat' (n := 2) (by norm_num)
    exact_mod_cast this
  have h1 : (1 : ℝ) ≤ (2 : ℝ) ^ y := Real.one_le_rpow (by norm_num) h0
  have h16 : (2 : ℝ) ^ y ≤ 16 := by
    calc (2 : ℝ) ^ y ≤ (2 : ℝ) ^ (4 : ℝ) := Real.rpow_le_rpow_of_exponent_le (by norm_num) h4
      _ = 16 := by norm_num
  have hv : ieee.val (pow 2 a) = lower ((2 : ℝ) ^ y) := lift2_num h2 ha
  generalize (2 : ℝ) ^ y = x at *
  have f1 := Int.floor_le (x * 2 ^ 12)
  have f2 := Int.lt_floor_add_one (x * 2 ^ 12)
  have hr : ((⌊x * 2 ^ 12⌋ : ℤ) : ℝ) / 2 ^ 12 ∈ Rep := by
    refine rep_dyadic (abs_le.2 ⟨?_, ?_⟩) (by norm_num)
    · have : 0 ≤ ⌊x * 2 ^ 12⌋ := Int.floor_nonneg.2 (by positivity)
      omega
    · have : (⌊x * 2 ^ 12⌋ : ℝ) ≤ ((2 ^ 24 : ℤ) : ℝ) := by push_cast; linarith
      exact_mod_cast this
  have hle : ((⌊x * 2 ^ 12⌋ : ℤ) : ℝ) / 2 ^ 12 ≤ x := by rw [div_le_iff₀ (by norm_num)]; exact f1
  have hex : ∃ y ∈ Rep, y ≤ x := ⟨_, hr, hle⟩
  refine ⟨sSup {y | y ∈ Rep ∧ y ≤ x}, ?_, ?_, ?_⟩
  · rw [hv]; unfold lower; rw [if_pos hex]
  · have h3 := le_lower hr hle
    have h5 : x - 1 / 2 ^ 12 ≤ ((⌊x * 2 ^ 12⌋ : ℤ) : ℝ) / 2 ^ 12 := by
      rw [le_div_iff₀ (by norm_num), sub_mul, one_div, inv_mul_cancel₀ (by norm_num)]; linarith
    norm_num at h3 h5 ⊢
    linarith
  · have := (lower_mem hex).2
    norm_num
    linarith

/-- A picture whose pixels are all NaN gives a result. -/
example : ∃ ks ds, fextract (FSettings.default F32) id (⟨100, 60, List.replicate 6000 (toF .nan)⟩ : Img F32) = some (ks, ds) := by
  obtain ⟨ks, ds, h, -⟩ := C102_default (I := ieee) ieeeCast powAccurate (sort := id) (fun _ => List.Perm.refl _)
    (image := (⟨100, 60, List.replicate 6000 (toF .nan)⟩ : Img F32)) List.length_replicate (by norm_num) (by norm_num)
    (by norm_num) (by norm_num)
  exact ⟨ks, ds, h⟩

/-- Rounding is not the identity: a third is not a number of the type. -/
example : ieee.rnd (1 / 3) ≠ .num (1 / 3) := by
  intro h
  obtain ⟨⟨m, e, hm, h1, h2, h3⟩, -⟩ := lower_num h
  have hk : (2 : ℝ) ^ e * 2 ^ 149 = ((2 ^ (e + 149).toNat : ℕ) : ℝ) := by
    rw [← zpow_natCast, ← zpow_add₀ (by norm_num)]
    push_cast
    rw [← zpow_natCast]
    congr 1
    omega
  have h4 : ((2 ^ 149 : ℤ) : ℝ) = ((3 * (m * 2 ^ (e + 149).toNat) : ℤ) : ℝ) := by
    have : (2 : ℝ) ^ 149 = 3 * (m * ((2 : ℝ) ^ e * 2 ^ 149)) := by
      rw [show (3 : ℝ) * (m * ((2 : ℝ) ^ e * 2 ^ 149)) = 3 * (m * (2 : ℝ) ^ e) * 2 ^ 149 by ring, ← h3]
      ring
    rw [hk] at this
    rw [Int.cast_mul, Int.cast_mul, Int.cast_pow, Int.cast_pow]
    rw [Nat.cast_pow] at this
    exact_mod_cast this
  have h5 : (2 ^ 149 : ℤ) = 3 * (m * 2 ^ (e + 149).toNat) := by exact_mod_cast h4
  have h6 : (3 : ℤ) ∣ 2 ^ 149 := ⟨_, h5⟩
  revert h6
  decide

end ExFloat

end Verif.Akaze
