import Verif.Props.FloatGeom
import Verif.Props.FloatExample

/-!
# Numbers with 24 bits: a loss that is infinite, and a triangulated point that is not a number (C105)
-/

namespace Verif.Akaze.ExFloat

open Verif.Bicubic (Flt)

open Classical in
noncomputable instance : FloatBits F32 where
  isFinite a := match a.1 with
    | .num _ => true
    | _ => false
  isNan a := match a.1 with
    | .nan => true
    | _ => false
  isSignNegative a := match a.1 with
    | .nan => false
    | .inf s => s
    | .num x => decide (x < 0)

theorem bits : IeeeBits ieee where
  isFinite a := by
    show (match a.1 with
      | .num _ => true
      | _ => false) = true ↔ ∃ x, a.1 = _
    generalize a.1 = v
    rcases v with _ | s | x <;> simp
  isNan a := by
    show (match a.1 with
      | .nan => true
      | _ => false) = true ↔ a.1 = _
    generalize a.1 = v
    rcases v with _ | s | x <;> simp
  sign_num a x h _ := by
    change a.1 = _ at h
    simp only [FloatBits.isSignNegative, h]
    exact decide_eq_true_iff
  sign_inf a s h := by
    change a.1 = _ at h
    simp only [FloatBits.isSignNegative, h]

/-- The number m · 2^e. -/
noncomputable def r (m e : ℤ) : F32 := toF (.num (m * (2 : ℝ) ^ e))

theorem rep_r {m e : ℤ} (hm : |m| ≤ 2 ^ 24) (h1 : -149 ≤ e) (h2 : e ≤ 104) : (m : ℝ) * (2 : ℝ) ^ e ∈ Rep :=
  ⟨m, e, hm, h1, h2, rfl⟩

/-- Bounds under which m · 2^e is a number of the type. -/
def Ok (m e : ℤ) : Prop := |m| ≤ 2 ^ 24 ∧ -149 ≤ e ∧ e ≤ 104

instance (m e : ℤ) : Decidable (Ok m e) := by unfold Ok; infer_instance

theorem r_val {m e : ℤ} (h : Ok m e) : (r m e).1 = .num (m * (2 : ℝ) ^ e) := toF_num (rep_r h.1 h.2.1 h.2.2)

theorem r_mul {m e n f : ℤ} (h1 : Ok m e) (h2 : Ok n f) : r m e * r n f = r (m * n) (e + f) := by
  show toF ((r m e).1.mul (r n f).1) = _
  rw [r_val h1, r_val h2]
  unfold r
  congr 1
  show Flt.num ((m : ℝ) * (2 : ℝ) ^ e * (n * (2 : ℝ) ^ f)) = _
  rw [zpow_add₀ (by norm_num)]
  push_cast
  ring_nf

theorem r_sub {m n e : ℤ} (h1 : Ok m e) (h2 : Ok n e) : r m e - r n e = r (m - n) e := by
  show toF ((r m e).1.sub (r n e).1) = _
  rw [r_val h1, r_val h2]
  unfold r
  congr 1
  show Flt.num ((m : ℝ) * (2 : ℝ) ^ e - n * (2 : ℝ) ^ e) = _
  push_cast
  ring_nf

theorem r_add {m n e : ℤ} (h1 : Ok m e) (h2 : Ok n e) : r m e + r n e = r (m + n) e := by
  show toF ((r m e).1.add (r n e).1) = _
  rw [r_val h1, r_val h2]
  unfold r
  congr 1
  show Flt.num ((m : ℝ) * (2 : ℝ) ^ e + n * (2 : ℝ) ^ e) = _
  push_cast
  ring_nf

theorem zero_eq : (0 : F32) = toF (.num 0) := rfl
theorem one_eq : (1 : F32) = toF (.num 1) := rfl

theorem zero_add_zero : (0 : F32) + 0 = 0 := by
  show toF ((toF (.num 0)).1.add (toF (.num 0)).1) = _
  rw [toF_num rep_zero]
  show toF (.num (0 + 0)) = _
  rw [add_zero]; rfl

/-- Positive numbers below the least one become zero. -/
theorem lower_tiny {x : ℝ} (h0 : 0 ≤ x) (h : x < (2 : ℝ) ^ (-149 : ℤ)) : lower x = .num 0 := by
  have hex : ∃ y ∈ Rep, y ≤ x := ⟨0, rep_zero, h0⟩
  unfold lower
  rw [if_pos hex]
  congr 1
  refine le_antisymm ?_ (le_lower rep_zero h0)
  obtain ⟨⟨m, e, -, h1, -, hy⟩, hx⟩ := lower_mem hex
  rw [hy] at hx ⊢
  by_contra hn
  have h2 : (0 : ℝ) < (2 : ℝ) ^ e := by positivity
  have hm : 1 ≤ m := by
    by_contra hm
    have : (m : ℝ) ≤ 0 := by exact_mod_cast (by omega : m ≤ 0)
    exact hn (mul_nonpos_of_nonpos_of_nonneg this h2.le)
  have hm' : (1 : ℝ) ≤ m := by exact_mod_cast hm
  have h3 : (2 : ℝ) ^ (-149 : ℤ) ≤ (2 : ℝ) ^ e := zpow_le_zpow_right₀ (by norm_num) h1
  nlinarith

theorem r_square {m : ℤ} (h : Ok m (-112)) : r m (-112) * r m (-112) = 0 := by
  rw [r_mul h h]
  unfold r
  refine Subtype.ext ?_
  show lower _ = (toF (.num 0)).1
  rw [toF_num rep_zero]
  have hm : (m * m : ℤ) ≤ 2 ^ 48 := by
    have := h.1
    rw [← abs_mul_abs_self m]
    calc |m| * |m| ≤ 2 ^ 24 * 2 ^ 24 := by gcongr
      _ = 2 ^ 48 := by norm_num
  have hm' : ((m * m : ℤ) : ℝ) ≤ 2 ^ 48 := by exact_mod_cast hm
  refine lower_tiny (mul_nonneg (by exact_mod_cast mul_self_nonneg m) (by positivity)) ?_
  calc ((m * m : ℤ) : ℝ) * (2 : ℝ) ^ (-112 + -112 : ℤ) ≤ 2 ^ 48 * (2 : ℝ) ^ (-112 + -112 : ℤ) := by gcongr
    _ = (2 : ℝ) ^ (-176 : ℤ) := by rw [← zpow_natCast (2 : ℝ) 48, ← zpow_add₀ (by norm_num)]; norm_num
    _ < (2 : ℝ) ^ (-149 : ℤ) := zpow_lt_zpow_right₀ (by norm_num) (by norm_num)

theorem r_sign {m e : ℤ} (h : Ok m e) (hm : 0 ≤ m) : FloatBits.isSignNegative (r m e) = false := by
  simp only [FloatBits.isSignNegative, r_val h]
  rw [decide_eq_false_iff_not, not_lt]
  exact mul_nonneg (by exact_mod_cast hm) (by positivity)

theorem r_neg {m e : ℤ} (h : Ok m e) : -r m e = r (-m) e := by
  show toF (r m e).1.neg = _
  rw [r_val h]
  unfold r
  congr 1
  show Flt.num (-((m : ℝ) * (2 : ℝ) ^ e)) = _
  push_cast
  ring_nf

theorem r_div_one {m e : ℤ} (h : Ok m e) : r m e / r 1 0 = r m e := by
  show toF (fdiv (r m e).1 (r 1 0).1) = _
  rw [r_val h, r_val (by decide)]
  simp [fdiv, r]

theorem r_sqrt_one : FloatOps.sqrt (r 1 0) = r 1 0 := by
  show toF (fsqrt (r 1 0).1) = _
  rw [r_val (by decide)]
  simp only [fsqrt, r, Int.cast_one, zpow_zero, mul_one, Real.sqrt_one]
  rw [if_neg (by norm_num)]

/-- Too large for the type. -/
theorem lower_huge {x : ℝ} (h : x < -(2 : ℝ) ^ 128) : lower x = .inf true := by
  unfold lower
  rw [if_neg]
  rintro ⟨y, ⟨m, e, hm, -, h2, rfl⟩, hy⟩
  have hm' : |(m : ℝ)| ≤ 2 ^ 24 := by exact_mod_cast hm
  have h3 : (2 : ℝ) ^ e ≤ (2 : ℝ) ^ (104 : ℤ) := zpow_le_zpow_right₀ (by norm_num) h2
  have h4 : (0 : ℝ) < (2 : ℝ) ^ e := by positivity
  have h5 : |(m : ℝ) * (2 : ℝ) ^ e| ≤ 2 ^ 24 * (2 : ℝ) ^ (104 : ℤ) := by
    rw [abs_mul, abs_of_pos h4]
    gcongr
  have h6 : (2 : ℝ) ^ 24 * (2 : ℝ) ^ (104 : ℤ) = 2 ^ 128 := by norm_num
  rw [h6] at h5
  have := (abs_le.1 h5).1
  linarith

end Verif.Akaze.ExFloat

namespace Verif.Geo.Rounded

open Verif.Akaze
open Verif.Akaze.ExFloat
open Verif.Bicubic (Flt)
open Verif.Akaze.FloatOps (lit lt le abs sqrt)
open Verif.Akaze.FloatBits (isFinite isNan isSignNegative)
open P3P (fsub fsmul fdot fcross fmulVec fpoint)

namespace ExRounded

/-- A translation of length 2^-100 · √21. -/
noncomputable def small : V3 F32 := ⟨r 1 (-100), r 2 (-100), r 4 (-100)⟩
/-- Directions: 1806² + 2450² + 2741² and 2306² + 1435² + 3066² differ from 4096² by at most 1. -/
noncomputable def left : V3 F32 := ⟨r 1806 (-12), r 2450 (-12), r 2741 (-12)⟩
noncomputable def right : V3 F32 := ⟨r 2306 (-12), r (-1435) (-12), r 3066 (-12)⟩

theorem cross_left : fcross left small = ⟨r 4318 (-112), r (-4483) (-112), r 1162 (-112)⟩ := by
  unfold fcross left small
  simp only
  repeat rw [r_mul (by decide) (by decide)]
  norm_num only
  repeat rw [r_sub (by decide) (by decide)]
  norm_num only

theorem cross_right : fcross right small = ⟨r (-11872) (-112), r (-6158) (-112), r 6047 (-112)⟩ := by
  unfold fcross right small
  simp only
  repeat rw [r_mul (by decide) (by decide)]
  norm_num only
  repeat rw [r_sub (by decide) (by decide)]
  norm_num only

theorem dot_left_right : fdot left right = r 9052792 (-24) := by
  unfold fdot left right
  simp only
  repeat rw [r_mul (by decide) (by decide)]
  norm_num only
  repeat rw [r_add (by decide) (by decide)]
  norm_num only

theorem normSq_small {a b c : ℤ} (ha : Ok a (-112)) (hb : Ok b (-112)) (hc : Ok c (-112)) :
    fnormSq (⟨r a (-112), r b (-112), r c (-112)⟩ : V3 F32) = 0 := by
  unfold fnormSq fdot
  simp only [r_square ha, r_square hb, r_square hc, zero_add_zero]

theorem infinite : (1 / sqrt (0 : F32)).1 = .inf false := by
  have h0 : (0 : F32).1 = .num 0 := toF_num rep_zero
  have hs : (sqrt (0 : F32)).1 = .num 0 := by
    show (toF (fsqrt (0 : F32).1)).1 = _
    rw [h0]
    simp only [fsqrt, lt_self_iff_false, if_false, Real.sqrt_zero]
    exact toF_num rep_zero
  show (toF (fdiv (1 : F32).1 _)).1 = _
  rw [hs, show (1 : F32).1 = .num 1 from toF_num rep_one]
  simp [fdiv, toF, roundedBy]

theorem inf_mul_pos {i : F32} {s : Bool} {m e : ℤ} (hi : i.1 = .inf s) (h : Ok m e) (hm : m ≠ 0) :
    (i * r m e).1 = .inf (s != decide (m < 0)) := by
  show roundedBy lower (i.1.mul (r m e).1) = _
  rw [hi, r_val h]
  have h2 : (0 : ℝ) < (2 : ℝ) ^ e := by positivity
  have h0 : (m : ℝ) * (2 : ℝ) ^ e ≠ 0 := mul_ne_zero (by exact_mod_cast hm) h2.ne'
  have h3 : (m : ℝ) * (2 : ℝ) ^ e < 0 ↔ m < 0 := by
    rw [mul_neg_iff]
    constructor
    · rintro (⟨-, h⟩ | ⟨h, -⟩)
      · exact absurd h (not_lt.2 h2.le)
      · exact_mod_cast h
    · exact fun h => .inr ⟨by exact_mod_cast h, h2⟩
  simp [Flt.mul, h0, h3, roundedBy]

theorem mul_inf_pos {i : F32} {s : Bool} {m e : ℤ} (hi : i.1 = .inf s) (h : Ok m e) (hm : m ≠ 0) :
    (r m e * i).1 = .inf (s != decide (m < 0)) := by
  rw [← inf_mul_pos hi h hm]
  show roundedBy lower ((r m e).1.mul i.1) = roundedBy lower (i.1.mul (r m e).1)
  rw [hi, r_val h]
  rfl

theorem inf_add {i j : F32} (hi : i.1 = .inf false) (hj : j.1 = .inf false) : (i + j).1 = .inf false := by
  show roundedBy lower (i.1.add j.1) = _
  rw [hi, hj]; rfl

end ExRounded

open ExRounded in
/-- **C105** The loss can be infinite, although every number it is computed from is finite and the bearings are unit vectors
up to rounding: the squares in the length of a normal are too small for the type, and the reciprocal of zero is infinite. -/
theorem C105_loss_infinite : (∀ v ∈ [small, left, right], ∃ x y z, ieee.val v.x = .num x ∧ ieee.val v.y = .num y ∧
      ieee.val v.z = .num z ∧ (v = small ∨ |x * x + y * y + z * z - 1| ≤ 1 / 2 ^ 24)) ∧
    ieee.val (floss small left right) = .inf false := by
  constructor
  · intro v hv
    simp only [List.mem_cons, List.not_mem_nil, or_false] at hv
    rcases hv with rfl | rfl | rfl
    · exact ⟨_, _, _, r_val (by decide), r_val (by decide), r_val (by decide), .inl rfl⟩
    · refine ⟨_, _, _, r_val (by decide), r_val (by decide), r_val (by decide), .inr ?_⟩
      rw [abs_le]
      constructor <;> norm_num [zpow_neg]
    · refine ⟨_, _, _, r_val (by decide), r_val (by decide), r_val (by decide), .inr ?_⟩
      rw [abs_le]
      constructor <;> norm_num [zpow_neg]
  have hd : isSignNegative (fdot left right) = false := by
    rw [dot_left_right]
    exact r_sign (by decide) (by decide)
  have hl : (fdot right (fsmul (1 / sqrt (0 : F32)) ⟨r 4318 (-112), r (-4483) (-112), r 1162 (-112)⟩)).1 =
      .inf false := by
    have h := infinite
    refine inf_add (inf_add ?_ ?_) ?_
    · exact mul_inf_pos (inf_mul_pos h (by decide) (by decide)) (by decide) (by decide)
    · exact mul_inf_pos (inf_mul_pos h (by decide) (by decide)) (by decide) (by decide)
    · exact mul_inf_pos (inf_mul_pos h (by decide) (by decide)) (by decide) (by decide)
  have ha := ieee.abs_inf (fdot right (fsmul (1 / sqrt (0 : F32)) ⟨r 4318 (-112), r (-4483) (-112), r 1162 (-112)⟩)) false hl
  have hlt : lt (0 : F32) 0 = false := by
    rw [← Bool.not_eq_true, ieee.lt, ieee.zero]
    exact lt_irrefl (0 : ℝ)
  have hn : isNan (abs (fdot right (fsmul (1 / sqrt (0 : F32)) ⟨r 4318 (-112), r (-4483) (-112), r 1162 (-112)⟩))) =
      false := by
    rw [← Bool.not_eq_true, bits.isNan, ha]
    simp
  unfold floss
  simp only [cross_left, cross_right]
  rw [normSq_small (by decide) (by decide) (by decide), normSq_small (by decide) (by decide) (by decide), hlt, hd]
  simp only [Bool.false_eq_true, if_false, hn, Bool.or_self]
  exact ha

/-! ### The hypotheses can be met -/

namespace ExRounded

/-- A pose that does not turn, with a translation. -/
noncomputable def unturned (t : V3 F32) : Iso F32 :=
  ⟨⟨r 1 0, r 0 0, r 0 0, r 0 0, r 1 0, r 0 0, r 0 0, r 0 0, r 1 0⟩, t⟩

/-- A bearing with an infinite coordinate. -/
noncomputable def broken : V3 F32 := ⟨toF (.inf true), r 1 0, r 0 0⟩

theorem broken_bad : BadV ieee broken := by
  left
  intro x h
  cases h

/-- With this bearing the triangulators find nothing. -/
example : fangularL1 (unturned small) left broken = none := (C105_not_a_number bits (.inr (.inr broken_bad))).1

example : floss small broken right = 1 := C105_loss_not_a_number bits (.inr (.inl broken_bad))

example : fmeanMean [⟨unturned small, left⟩, ⟨unturned small, broken⟩] = none :=
  C105_mean_not_a_number bits ⟨⟨unturned small, broken⟩, List.mem_cons_of_mem _ List.mem_cons_self, .inr broken_bad⟩

/-- Two cameras at the same place that look at a point far away. -/
noncomputable def far : FObservation F32 := ⟨unturned ⟨r 0 0, r 0 0, r 0 0⟩, ⟨r (-1) 0, r 0 0, r 0 0⟩⟩

/-- What the linear triangulator finds: a finite point in homogeneous coordinates. -/
theorem far_found : flinearEigen (fun _ => some ⟨r (-1) 0, r 0 0, r 0 0, r 1 (-149)⟩) [far, far] =
    some ⟨r (-1) 0, r 0 0, r 0 0, r 1 (-149)⟩ := by
  have hr : far.ray = ⟨r (-1) 0, r 0 0, r 0 0⟩ := by
    unfold FObservation.ray finv fmulVec fdot far unturned
    simp only
    repeat rw [r_mul (by decide) (by decide)]
    norm_num only
    repeat rw [r_add (by decide) (by decide)]
    norm_num only
  have hn : fnorm (⟨r (-1) 0, r 0 0, r 0 0⟩ : V3 F32) = r 1 0 := by
    unfold fnorm fnormSq fdot
    simp only
    repeat rw [r_mul (by decide) (by decide)]
    norm_num only
    repeat rw [r_add (by decide) (by decide)]
    norm_num only
    exact r_sqrt_one
  have hh : fhomogeneous (⟨r (-1) 0, r 0 0, r 0 0, r 1 (-149)⟩ : V4 F32) = ⟨r (-1) 0, r 0 0, r 0 0, r 1 (-149)⟩ := by
    unfold fhomogeneous
    simp only [r_sign (m := 1) (e := -149) (by decide) (by decide), Bool.false_eq_true, if_false, hn]
    rw [r_div_one (by decide), r_div_one (by decide), r_div_one (by decide)]
  have hf : allFinite (⟨r (-1) 0, r 0 0, r 0 0, r 1 (-149)⟩ : V4 F32) = true :=
    (allFinite_iff bits).2 ⟨⟨_, r_val (by decide)⟩, ⟨_, r_val (by decide)⟩, ⟨_, r_val (by decide)⟩, _, r_val (by decide)⟩
  have hd : isSignPositive (fdot far.ray (fbearing (⟨r (-1) 0, r 0 0, r 0 0, r 1 (-149)⟩ : V4 F32))) = true := by
    rw [hr]
    unfold fdot fbearing isSignPositive
    simp only
    repeat rw [r_mul (by decide) (by decide)]
    norm_num only
    repeat rw [r_add (by decide) (by decide)]
    norm_num only
    rw [r_sign (by decide) (by decide)]
    rfl
  unfold flinearEigen
  simp only [List.length_cons, List.length_nil, Nat.reduceAdd, lt_self_iff_false, if_false, Option.bind_eq_bind,
    Option.bind_some]
  rw [hh, hf]
  simp only [fcheiral, List.all_cons, List.all_nil, hd, Bool.and_self, if_true]

/-- Its position is infinite. -/
theorem far_position : ∃ x, fpoint (⟨r (-1) 0, r 0 0, r 0 0, r 1 (-149)⟩ : V4 F32) = some x ∧ BadV ieee x := by
  have he : FloatOps.eq (r 1 (-149)) 0 = false := by
    rw [← Bool.not_eq_true]
    unfold FloatOps.eq
    rw [Bool.and_eq_true, ieee.le, ieee.le, ieee.zero, show ieee.val (r 1 (-149)) = _ from r_val (by decide)]
    rintro ⟨h, -⟩
    change ((1 : ℤ) : ℝ) * (2 : ℝ) ^ (-149 : ℤ) ≤ 0 at h
    have : (0 : ℝ) < (2 : ℝ) ^ (-149 : ℤ) := by positivity
    push_cast at h
    linarith
  refine ⟨_, by unfold fpoint; rw [if_neg (by rw [he]; exact Bool.false_ne_true)], .inl ?_⟩
  intro y h
  change (toF (fdiv (r (-1) 0).1 (r 1 (-149)).1)).1 = _ at h
  rw [r_val (by decide), r_val (by decide)] at h
  have h0 : ((1 : ℤ) : ℝ) * (2 : ℝ) ^ (-149 : ℤ) ≠ 0 := by positivity
  simp only [fdiv, if_neg h0] at h
  change lower _ = _ at h
  rw [lower_huge] at h
  · cases h
  · norm_num

/-- The refining triangulator returns a point that is not a number. -/
example : ∃ q, fsineL1 (fun _ => some ⟨r (-1) 0, r 0 0, r 0 0, r 1 (-149)⟩) (r 1 0) (r 1 (-40)) 1000 [far, far] = some q ∧
    NanV ieee (fbearing q) := by
  obtain ⟨x, hx, hbad⟩ := far_position
  exact C105_sine_not_finite bits _ _ _ far_found hx hbad

end ExRounded

end Verif.Geo.Rounded
