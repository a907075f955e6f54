import Verif.Model.FloatGeom
import Verif.Lemmas.FloatTwist

/-!
# Lemmas: cv-geom with floating point numbers
-/

namespace Verif.Geo.Rounded

open Verif.Akaze
open Verif.Bicubic (Flt)
open Verif.Akaze.FloatOps (lit lt le abs sqrt)
open Verif.Akaze.FloatBits (isFinite isNan isSignNegative)
open P3P (fsub fsmul fdot fcross fmulVec fpoint)

section

variable {D : Type} [FloatOps D] (J : Ieee D)

/-- One of the coordinates is NaN. -/
def NanV (v : V3 D) : Prop := J.val v.x = .nan ∨ J.val v.y = .nan ∨ J.val v.z = .nan

/-- One of the coordinates is NaN or infinite. -/
def BadV (v : V3 D) : Prop := J.NotNumber v.x ∨ J.NotNumber v.y ∨ J.NotNumber v.z

/-- One of the entries is NaN or infinite. -/
def BadM (A : M3 D) : Prop :=
  BadV J ⟨A.m11, A.m12, A.m13⟩ ∨ BadV J ⟨A.m21, A.m22, A.m23⟩ ∨ BadV J ⟨A.m31, A.m32, A.m33⟩

/-- One of the numbers of the pose is NaN or infinite. -/
def BadIso (p : Iso D) : Prop := BadM J p.rot ∨ BadV J p.t

/-- All coordinates are NaN or infinite. -/
def WorstV (v : V3 D) : Prop := J.NotNumber v.x ∧ J.NotNumber v.y ∧ J.NotNumber v.z

variable {J}

theorem not_of_nan {a : D} (h : J.val a = .nan) : J.NotNumber a := by intro x; rw [h]; simp

theorem NanV.bad {v : V3 D} (h : NanV J v) : BadV J v :=
  h.imp not_of_nan (Or.imp not_of_nan not_of_nan)

theorem WorstV.bad {v : V3 D} (h : WorstV J v) : BadV J v := .inl h.1

theorem not_neg {a : D} (h : J.NotNumber a) : J.NotNumber (-a) := by
  unfold Ieee.NotNumber at *
  rw [J.neg]
  generalize J.val a = v at *
  rcases v with _ | s | x
  · intro y; simp [Flt.neg]
  · intro y; simp [Flt.neg]
  · exact absurd rfl (h x)

/-- The root of what is not a number is NaN or the positive infinity. -/
theorem sqrt_not {a : D} (h : J.NotNumber a) : J.val (sqrt a) = .nan ∨ J.val (sqrt a) = .inf false := by
  rcases notNumber_cases h with h | ⟨s, h⟩
  · exact .inl (J.sqrt_nan a h)
  · rw [J.sqrt_inf a s h]
    cases s
    · exact .inr rfl
    · exact .inl rfl

theorem not_sqrt {a : D} (h : J.NotNumber a) : J.NotNumber (sqrt a) := by
  intro x
  rcases sqrt_not h with h | h <;> rw [h] <;> simp

/-- Nothing is greater. -/
theorem lt_inf {a b : D} (h : J.val a = .nan ∨ J.val a = .inf false) : lt a b = false := by
  rw [← Bool.not_eq_true, J.lt]
  rcases h with h | h <;> rw [h] <;> generalize J.val b = v <;> rcases v with _ | s | x <;> simp [Flt.Lt]

/-! ### Vectors -/

theorem not_dot {a b : V3 D} (h : BadV J a ∨ BadV J b) : J.NotNumber (fdot a b) := by
  unfold fdot
  rcases h with (h | h | h) | (h | h | h)
  · exact not_add (.inl (not_add (.inl (not_mul (.inl h)))))
  · exact not_add (.inl (not_add (.inr (not_mul (.inl h)))))
  · exact not_add (.inr (not_mul (.inl h)))
  · exact not_add (.inl (not_add (.inl (not_mul (.inr h)))))
  · exact not_add (.inl (not_add (.inr (not_mul (.inr h)))))
  · exact not_add (.inr (not_mul (.inr h)))

theorem nan_fdot {a b : V3 D} (h : NanV J a ∨ NanV J b) : J.val (fdot a b) = .nan := by
  unfold fdot
  rcases h with (h | h | h) | (h | h | h)
  · exact nan_add (.inl (nan_add (.inl (nan_mul (.inl h)))))
  · exact nan_add (.inl (nan_add (.inr (nan_mul (.inl h)))))
  · exact nan_add (.inr (nan_mul (.inl h)))
  · exact nan_add (.inl (nan_add (.inl (nan_mul (.inr h)))))
  · exact nan_add (.inl (nan_add (.inr (nan_mul (.inr h)))))
  · exact nan_add (.inr (nan_mul (.inr h)))

theorem bad_cross {a b : V3 D} (h : BadV J a ∨ BadV J b) : BadV J (fcross a b) := by
  unfold fcross
  rcases h with (h | h | h) | (h | h | h)
  · exact .inr (.inl (not_sub (.inr (not_mul (.inl h)))))
  · exact .inl (not_sub (.inl (not_mul (.inl h))))
  · exact .inl (not_sub (.inr (not_mul (.inl h))))
  · exact .inr (.inl (not_sub (.inl (not_mul (.inr h)))))
  · exact .inl (not_sub (.inr (not_mul (.inr h))))
  · exact .inl (not_sub (.inl (not_mul (.inr h))))

theorem nan_cross {a b : V3 D} (h : NanV J a ∨ NanV J b) : NanV J (fcross a b) := by
  unfold fcross
  rcases h with (h | h | h) | (h | h | h)
  · exact .inr (.inl (nan_sub (.inr (nan_mul (.inl h)))))
  · exact .inl (nan_sub (.inl (nan_mul (.inl h))))
  · exact .inl (nan_sub (.inr (nan_mul (.inl h))))
  · exact .inr (.inl (nan_sub (.inl (nan_mul (.inr h)))))
  · exact .inl (nan_sub (.inr (nan_mul (.inr h))))
  · exact .inl (nan_sub (.inl (nan_mul (.inr h))))

theorem bad_add {a b : V3 D} (h : BadV J a ∨ BadV J b) : BadV J (fadd a b) := by
  rcases h with (h | h | h) | (h | h | h)
  · exact .inl (not_add (.inl h))
  · exact .inr (.inl (not_add (.inl h)))
  · exact .inr (.inr (not_add (.inl h)))
  · exact .inl (not_add (.inr h))
  · exact .inr (.inl (not_add (.inr h)))
  · exact .inr (.inr (not_add (.inr h)))

theorem bad_sub {a b : V3 D} (h : BadV J a ∨ BadV J b) : BadV J (fsub a b) := by
  rcases h with (h | h | h) | (h | h | h)
  · exact .inl (not_sub (.inl h))
  · exact .inr (.inl (not_sub (.inl h)))
  · exact .inr (.inr (not_sub (.inl h)))
  · exact .inl (not_sub (.inr h))
  · exact .inr (.inl (not_sub (.inr h)))
  · exact .inr (.inr (not_sub (.inr h)))

theorem nan_fsub {a b : V3 D} (h : NanV J a ∨ NanV J b) : NanV J (fsub a b) := by
  rcases h with (h | h | h) | (h | h | h)
  · exact .inl (nan_sub (.inl h))
  · exact .inr (.inl (nan_sub (.inl h)))
  · exact .inr (.inr (nan_sub (.inl h)))
  · exact .inl (nan_sub (.inr h))
  · exact .inr (.inl (nan_sub (.inr h)))
  · exact .inr (.inr (nan_sub (.inr h)))

theorem bad_neg {a : V3 D} (h : BadV J a) : BadV J (fneg a) := h.imp not_neg (Or.imp not_neg not_neg)

theorem nan_smul {s : D} {a : V3 D} (h : J.val s = .nan ∨ NanV J a) : NanV J (fsmul s a) := by
  rcases h with h | h | h | h
  · exact .inl (nan_mul (.inl h))
  · exact .inl (nan_mul (.inr h))
  · exact .inr (.inl (nan_mul (.inr h)))
  · exact .inr (.inr (nan_mul (.inr h)))

theorem not_normSq {a : V3 D} (h : BadV J a) : J.NotNumber (fnormSq a) := not_dot (.inl h)

theorem not_norm {a : V3 D} (h : BadV J a) : J.NotNumber (fnorm a) := not_sqrt (not_normSq h)

theorem norm_bad {a : V3 D} (h : BadV J a) : J.val (fnorm a) = .nan ∨ J.val (fnorm a) = .inf false :=
  sqrt_not (not_normSq h)

/-- Dividing by a length that is not a number. -/
theorem nan_unscale {a : V3 D} {s : D} (h : BadV J a) (hs : J.NotNumber s) : NanV J (funscale a s) := by
  rcases h with h | h | h
  · exact .inl (not_div h hs)
  · exact .inr (.inl (not_div h hs))
  · exact .inr (.inr (not_div h hs))

theorem nan_unscale' {a : V3 D} {s : D} (h : NanV J a ∨ J.val s = .nan) : NanV J (funscale a s) := by
  rcases h with (h | h | h) | h
  · exact .inl (nan_div (.inl h))
  · exact .inr (.inl (nan_div (.inl h)))
  · exact .inr (.inr (nan_div (.inl h)))
  · exact .inl (nan_div (.inr h))

theorem nan_normalize {a : V3 D} (h : BadV J a) : NanV J (fnormalize a) := nan_unscale h (not_norm h)

/-- A vector without its part along `n`, if `n` has a coordinate that is NaN. -/
theorem nan_reject {a n : V3 D} (h : NanV J n) : NanV J (fsub a (fsmul (fdot a n) n)) :=
  nan_fsub (.inr (nan_smul (.inr h)))

/-- A vector without its part along `n`, if the vector is not finite. -/
theorem bad_reject {a n : V3 D} (h : BadV J a) : BadV J (fsub a (fsmul (fdot a n) n)) := bad_sub (.inl h)

theorem worst_mulVec {A : M3 D} {v : V3 D} (h : BadV J v) : WorstV J (fmulVec A v) :=
  ⟨not_dot (.inr h), not_dot (.inr h), not_dot (.inr h)⟩

theorem bad_mulVec {A : M3 D} {v : V3 D} (h : BadM J A) : BadV J (fmulVec A v) := by
  rcases h with h | h | h
  · exact .inl (not_dot (.inl h))
  · exact .inr (.inl (not_dot (.inl h)))
  · exact .inr (.inr (not_dot (.inl h)))

theorem bad_transpose {p : Iso D} (h : BadM J p.rot) : BadM J (finv p).rot := by
  unfold finv
  rcases h with (h | h | h) | (h | h | h) | (h | h | h)
  · exact .inl (.inl h)
  · exact .inr (.inl (.inl h))
  · exact .inr (.inr (.inl h))
  · exact .inl (.inr (.inl h))
  · exact .inr (.inl (.inr (.inl h)))
  · exact .inr (.inr (.inr (.inl h)))
  · exact .inl (.inr (.inr h))
  · exact .inr (.inl (.inr (.inr h)))
  · exact .inr (.inr (.inr (.inr h)))

/-- The centre of a camera with a pose that is not finite. -/
theorem bad_inv {p : Iso D} (h : BadIso J p) : BadV J (finv p).t := by
  rcases h with h | h
  · exact bad_mulVec (bad_transpose h)
  · exact (worst_mulVec (bad_neg h)).bad

/-! ### Correcting the bearings -/

/-- The corrected bearings are NaN if something is not finite. -/
theorem correctL1_bad {t a b : V3 D} (h : BadV J t ∨ BadV J a ∨ BadV J b) :
    BadV J (fcorrectL1 t a b).1 ∨ BadV J (fcorrectL1 t a b).2 := by
  unfold fcorrectL1
  by_cases hc : lt (fnorm (fcross a t)) (fnorm (fcross b t)) = true
  · simp only [if_pos hc]
    rcases h with h | h | h
    · rw [lt_inf (norm_bad (bad_cross (.inr h)))] at hc; simp at hc
    · rw [lt_inf (norm_bad (bad_cross (.inl h)))] at hc; simp at hc
    · exact .inr h
  · simp only [if_neg hc]
    rcases h with h | h | h
    · right
      refine (nan_normalize (nan_reject ?_).bad).bad
      exact nan_unscale (bad_cross (.inr h)) (not_norm (bad_cross (.inr h)))
    · exact .inl h
    · exact .inr (nan_normalize (bad_reject h)).bad

theorem correctLInf_bad {t a b : V3 D} (h : BadV J t ∨ BadV J a ∨ BadV J b) :
    BadV J (fcorrectLInf t a b).1 := by
  have h1 : BadV J (fcross (fadd a b) t) := bad_cross (h.symm.imp bad_add id)
  have h2 : BadV J (fcross (fsub a b) t) := bad_cross (h.symm.imp bad_sub id)
  unfold fcorrectLInf
  refine (nan_normalize (nan_reject ?_).bad).bad
  split
  · exact nan_unscale h1 (not_sqrt (not_normSq h1))
  · exact nan_unscale h2 (not_sqrt (not_normSq h2))

/-! ### Sums -/

theorem foldl_bad {α : Type} (f : α → V3 D) (l : List α) (s : V3 D) (h : BadV J s ∨ ∃ o ∈ l, BadV J (f o)) :
    BadV J (l.foldl (fun s o => fadd s (f o)) s) := by
  induction l generalizing s with
  | nil =>
    rcases h with h | ⟨o, ho, -⟩
    · exact h
    · cases ho
  | cons o l ih =>
    apply ih
    rcases h with h | ⟨o', ho, h⟩
    · exact .inl (bad_add (.inl h))
    · rcases List.mem_cons.1 ho with rfl | ho
      · exact .inl (bad_add (.inr h))
      · exact .inr ⟨o', ho, h⟩

theorem foldl_not {α : Type} (f : α → D) (l : List α) (s : D) (h : J.NotNumber s ∨ ∃ o ∈ l, J.NotNumber (f o)) :
    J.NotNumber (l.foldl (fun s o => s + f o) s) := by
  induction l generalizing s with
  | nil =>
    rcases h with h | ⟨o, ho, -⟩
    · exact h
    · cases ho
  | cons o l ih =>
    apply ih
    rcases h with h | ⟨o', ho, h⟩
    · exact .inl (not_add (.inl h))
    · rcases List.mem_cons.1 ho with rfl | ho
      · exact .inl (not_add (.inr h))
      · exact .inr ⟨o', ho, h⟩

theorem foldl_nan {α : Type} (f : α → D) (l : List α) (s : D) (h : J.val s = .nan ∨ ∃ o ∈ l, J.val (f o) = .nan) :
    J.val (l.foldl (fun s o => s + f o) s) = .nan := by
  induction l generalizing s with
  | nil =>
    rcases h with h | ⟨o, ho, -⟩
    · exact h
    · cases ho
  | cons o l ih =>
    apply ih
    rcases h with h | ⟨o', ho, h⟩
    · exact .inl (nan_add (.inl h))
    · rcases List.mem_cons.1 ho with rfl | ho
      · exact .inl (nan_add (.inr h))
      · exact .inr ⟨o', ho, h⟩

/-- The number of observations is positive. -/
theorem count_pos {n : Nat} (h : 0 < n) : (Flt.num 0).Lt (J.val (n : D)) := by
  have := J.rnd_mono 1 n (by exact_mod_cast h)
  rw [J.rnd_val 1 1 J.one, ← J.natCast] at this
  generalize J.val (n : D) = v at *
  rcases v with _ | s | x
  · exact this.elim
  · cases s
    · trivial
    · exact this.elim
  · exact lt_of_lt_of_le one_pos this

theorem not_div_pos {a b : D} (h : J.NotNumber a) (hb : (Flt.num 0).Lt (J.val b)) : J.NotNumber (a / b) := by
  rcases notNumber_cases h with ha | ⟨s, ha⟩
  · exact not_of_nan (nan_div (.inl ha))
  · rcases e : J.val b with _ | t | y
    · rw [e] at hb; exact hb.elim
    · exact not_of_nan (J.inf_div_inf a b s t ha e)
    · rw [e] at hb
      intro x
      rw [J.inf_div a b s y ha e hb]
      simp

/-- One over what is not a number, times what is not a number. -/
theorem nan_recip_mul {a b : D} (h : J.NotNumber a) (hb : J.NotNumber b) : J.val (1 / a * b) = .nan := by
  rcases notNumber_cases h with ha | ⟨s, ha⟩
  · exact nan_mul (.inl (nan_div (.inr ha)))
  · rw [J.mul, J.div_inf 1 a 1 s J.one ha]
    rcases notNumber_cases hb with hb | ⟨t, hb⟩
    · rw [hb]; rfl
    · rw [hb]; simp [Flt.mul, roundedBy]

theorem square_val (a : D) : J.val (a * a) = .nan ∨ Flt.NonNeg (J.val (a * a)) := by
  rw [J.mul]
  generalize J.val a = v
  rcases v with _ | s | x
  · exact .inl rfl
  · right
    simp only [Flt.mul, bne_self_eq_false]
    trivial
  · right
    exact rnd_nonNeg (mul_self_nonneg x)

theorem add_val {a b : D} (ha : J.val a = .nan ∨ Flt.NonNeg (J.val a)) (hb : J.val b = .nan ∨ Flt.NonNeg (J.val b)) :
    J.val (a + b) = .nan ∨ Flt.NonNeg (J.val (a + b)) := by
  rcases ha with ha | ha
  · exact .inl (nan_add (.inl ha))
  rcases hb with hb | hb
  · exact .inl (nan_add (.inr hb))
  · exact .inr (nonNeg_add ha hb)

/-- A squared length is NaN or not negative. -/
theorem normSq_val (v : V3 D) : J.val (fnormSq v) = .nan ∨ Flt.NonNeg (J.val (fnormSq v)) :=
  add_val (add_val (square_val _) (square_val _)) (square_val _)

theorem normSq_bad {v : V3 D} (h : BadV J v) : J.val (fnormSq v) = .nan ∨ J.val (fnormSq v) = .inf false := by
  rcases normSq_val (J := J) v with h1 | h1
  · exact .inl h1
  · rcases notNumber_cases (not_normSq h) with h2 | ⟨s, h2⟩
    · exact .inl h2
    · rw [h2] at h1
      cases s
      · exact .inr h2
      · exact h1.elim

end

section

variable {D : Type} [FloatOps D] [FloatBits D] {J : Ieee D}

theorem allFinite_iff (B : IeeeBits J) {p : V4 D} :
    allFinite p = true ↔ (∃ x, J.val p.x = .num x) ∧ (∃ x, J.val p.y = .num x) ∧ (∃ x, J.val p.z = .num x) ∧
      ∃ x, J.val p.w = .num x := by
  unfold allFinite
  simp only [Bool.and_eq_true, B.isFinite, and_assoc]

/-- The homogeneous vector is not finite if one of its coordinates is not. -/
theorem homogeneous_bad (B : IeeeBits J) {p : V4 D} (h : BadV J ⟨p.x, p.y, p.z⟩ ∨ J.val p.w = .nan) :
    allFinite (fhomogeneous p) = false := by
  rw [← Bool.not_eq_true, allFinite_iff B]
  rintro ⟨⟨x, hx⟩, ⟨y, hy⟩, ⟨z, hz⟩, ⟨w, hw⟩⟩
  unfold fhomogeneous at hx hy hz hw
  by_cases hs : isSignNegative p.w = true
  · simp only [if_pos hs] at hx hy hz hw
    rcases h with h | h
    · have h' := bad_neg h
      rcases nan_normalize h' with e | e | e
      · exact absurd (hx.symm.trans e) (by simp)
      · exact absurd (hy.symm.trans e) (by simp)
      · exact absurd (hz.symm.trans e) (by simp)
    · exact absurd (hw.symm.trans (nan_div (.inl (nan_neg h)))) (by simp)
  · simp only [if_neg hs] at hx hy hz hw
    rcases h with h | h
    · rcases nan_normalize h with e | e | e
      · exact absurd (hx.symm.trans e) (by simp)
      · exact absurd (hy.symm.trans e) (by simp)
      · exact absurd (hz.symm.trans e) (by simp)
    · exact absurd (hw.symm.trans (nan_div (.inl h))) (by simp)

/-- No point is found with a bearing that is not finite. -/
theorem meet_bad (B : IeeeBits J) {t a b : V3 D} (h : BadV J a ∨ BadV J b) : fmeet t a b = none := by
  unfold fmeet
  simp only
  rw [homogeneous_bad B]
  · simp
  rcases h with h | h
  · have hz : BadV J (fcross b a) := bad_cross (.inr h)
    exact .inr (not_div (not_normSq hz) (not_dot (.inl hz)))
  · exact .inl h

theorem meet_finite {t a b : V3 D} {p : V4 D} (h : fmeet t a b = some p) : allFinite p = true := by
  unfold fmeet at h
  simp only at h
  split at h
  · next hf =>
    split at h
    · rw [← Option.some.inj h]; exact hf
    · cases h
  · cases h

end

end Verif.Geo.Rounded
