import Verif.Lemmas.FloatGeom

/-!
# C105: triangulation, losses and gradients with floating point numbers
-/

namespace Verif.Geo.Rounded

open Verif.Akaze
open Verif.Bicubic (Flt)
open Verif.Akaze.FloatOps (lit lt le abs sqrt)
open Verif.Akaze.FloatBits (isFinite isNan isSignNegative)
open P3P (fsub fsmul fdot fcross fmulVec fpoint)

variable {D : Type} [FloatOps D] [FloatBits D] {J : Ieee D}

/-- All coordinates are numbers. -/
def Finite4 (J : Ieee D) (p : V4 D) : Prop :=
  (∃ x, J.val p.x = .num x) ∧ (∃ x, J.val p.y = .num x) ∧ (∃ x, J.val p.z = .num x) ∧ ∃ x, J.val p.w = .num x

/-- **C105** The homogeneous coordinates of points from two views are numbers, whatever the pose and the bearings are. -/
theorem C105_finite_relative (B : IeeeBits J) (pose : Iso D) (a b : V3 D) (last : Iso D → V3 D → V3 D → Option (V4 D)) :
    (∀ p, fangularL1 pose a b = some p → Finite4 J p) ∧ (∀ p, fangularLInf pose a b = some p → Finite4 J p) ∧
    ∀ p, frelativeDlt last pose a b = some p → Finite4 J p := by
  refine ⟨fun p h => (allFinite_iff B).1 (meet_finite h), fun p h => (allFinite_iff B).1 (meet_finite h), fun p h => ?_⟩
  unfold frelativeDlt at h
  obtain ⟨v, -, h⟩ := Option.bind_eq_some_iff.1 h
  simp only at h
  split at h
  · next hf =>
    split at h
    · rw [← Option.some.inj h]; exact (allFinite_iff B).1 hf
    · cases h
  · cases h

/-- **C105** So are those of points from many views, except for the triangulator that refines the point. -/
theorem C105_finite_observations (B : IeeeBits J) (os : List (FObservation D))
    (vector : List (FObservation D) → Option (V4 D)) :
    (∀ p, flinearEigen vector os = some p → Finite4 J p) ∧ ∀ p, fmeanMean os = some p → Finite4 J p := by
  constructor
  · intro p h
    unfold flinearEigen at h
    split at h
    · cases h
    obtain ⟨v, -, h⟩ := Option.bind_eq_some_iff.1 h
    simp only at h
    split at h
    · next hf =>
      split at h
      · rw [← Option.some.inj h]; exact (allFinite_iff B).1 hf
      · cases h
    · cases h
  · intro p h
    unfold fmeanMean at h
    simp only at h
    split at h
    · next hf =>
      split at h
      · rw [← Option.some.inj h]; exact (allFinite_iff B).1 hf
      · cases h
    · cases h

/-- **C105** If a number of the pose or of a bearing is NaN or infinite, the angular triangulators find no point. -/
theorem C105_not_a_number (B : IeeeBits J) {pose : Iso D} {a b : V3 D} (h : BadIso J pose ∨ BadV J a ∨ BadV J b) :
    fangularL1 pose a b = none ∧ fangularLInf pose a b = none := by
  have key : BadV J (fnormalize (finv pose).t) ∨ BadV J (fmulVec (finv pose).rot b) ∨ BadV J a := by
    rcases h with h | h | h
    · exact .inl (nan_normalize (bad_inv h)).bad
    · exact .inr (.inr h)
    · exact .inr (.inl (worst_mulVec h).bad)
  exact ⟨meet_bad B (correctL1_bad key), meet_bad B (.inl (correctLInf_bad key))⟩

theorem sameSpace_bad (B : IeeeBits J) {t a b : V3 D} (h : BadV J t ∨ BadV J a ∨ BadV J b) :
    fsameSpace t a b = none := by
  unfold fsameSpace
  simp only
  rw [meet_bad B (correctL1_bad h).symm]
  rfl

/-! ### The mean of rays -/

/-- **C105** The same for the mean of rays: an observation that is not finite, and there is no point. -/
theorem C105_mean_not_a_number (B : IeeeBits J) {os : List (FObservation D)}
    (h : ∃ o ∈ os, BadIso J o.pose ∨ BadV J o.bearing) : fmeanMean os = none := by
  obtain ⟨o, ho, h⟩ := h
  have hpos : (Flt.num 0).Lt (J.val (os.length : D)) := count_pos (List.length_pos_of_mem ho)
  unfold fmeanMean
  simp only
  rw [homogeneous_bad B]
  · simp
  generalize hc : funscale (os.foldl (fun s o => fadd s o.centre) fzero) (os.length : D) = c
  generalize hm : fnormalize (os.foldl (fun s o => fadd s o.ray) fzero) = m
  rcases h with h | h
  · have hbad : BadV J (os.foldl (fun s o => fadd s o.centre) fzero) := foldl_bad _ _ _ (.inr ⟨o, ho, bad_inv h⟩)
    have hcb : BadV J c := by
      rw [← hc]
      exact hbad.imp (not_div_pos · hpos) (Or.imp (not_div_pos · hpos) (not_div_pos · hpos))
    have hd : J.NotNumber (os.foldl (fun s o => s + fnearestAlong c m o) 0 / (os.length : D)) := by
      refine not_div_pos (foldl_not _ _ _ (.inr ⟨o, ho, ?_⟩)) hpos
      exact not_dot (.inr (bad_cross (.inr (bad_sub (.inl hcb)))))
    left
    rcases hcb with h | h | h
    · exact .inl (not_of_nan (nan_add (.inr (nan_recip_mul hd h))))
    · exact .inr (.inl (not_of_nan (nan_add (.inr (nan_recip_mul hd h)))))
    · exact .inr (.inr (not_of_nan (nan_add (.inr (nan_recip_mul hd h)))))
  · have hbad : BadV J (os.foldl (fun s o => fadd s o.ray) fzero) := foldl_bad _ _ _ (.inr ⟨o, ho, (worst_mulVec h).bad⟩)
    have hmn : NanV J m := by rw [← hm]; exact nan_normalize hbad
    right
    refine nan_div (.inr (nan_div (.inl (foldl_nan _ _ _ (.inr ⟨o, ho, ?_⟩)))))
    exact nan_fdot (.inl (nan_smul (.inr (nan_cross (.inl hmn)))))

/-! ### Losses -/

/-- **C105** A loss is never NaN and never negative. -/
theorem C105_loss (B : IeeeBits J) (t a b : V3 D) : (Flt.num 0).Le (J.val (floss t a b)) := by
  have h1 : (Flt.num 0).Le (J.val (1 : D)) := by rw [J.one]; exact zero_le_one
  have key : ∀ (x : D) (s : Bool), (Flt.num 0).Le (J.val (if (isNan (abs x) || s) = true then 1 else abs x)) := by
    intro x s
    split
    · exact h1
    · next h =>
      simp only [Bool.or_eq_true, not_or, B.isNan] at h
      exact nonNeg_abs fun e => h.1 (nan_abs e)
  unfold floss
  by_cases hc : lt (fnormSq (fcross a t)) (fnormSq (fcross b t)) = true
  · simp only [if_pos hc]; exact key _ _
  · simp only [if_neg hc]; exact key _ _

/-- **C105** It is 1 if the translation or the first bearing is not finite, or if the second bearing has NaN in it. -/
theorem C105_loss_not_a_number (B : IeeeBits J) {t a b : V3 D} (h : BadV J t ∨ BadV J a ∨ NanV J b) :
    floss t a b = 1 := by
  have scaled : ∀ {v : V3 D}, BadV J v → NanV J (fsmul (1 / sqrt (fnormSq v)) v) := by
    intro v hv
    have hs : J.NotNumber (sqrt (fnormSq v)) := not_sqrt (not_normSq hv)
    exact hv.imp (nan_recip_mul hs) (Or.imp (nan_recip_mul hs) (nan_recip_mul hs))
  unfold floss
  simp only
  have hlt : lt (fnormSq (fcross a t)) (fnormSq (fcross b t)) = false := by
    rcases h with h | h | h
    · exact lt_inf (normSq_bad (bad_cross (.inr h)))
    · exact lt_inf (normSq_bad (bad_cross (.inl h)))
    · exact nan_lt (J := J) (.inr (nan_fdot (.inl (nan_cross (.inl h)))))
  have hnan : isNan (abs (fdot b (fsmul (1 / sqrt (fnormSq (fcross a t))) (fcross a t)))) = true := by
    rw [B.isNan]
    refine nan_abs (nan_fdot ?_)
    rcases h with h | h | h
    · exact .inr (scaled (bad_cross (.inr h)))
    · exact .inr (scaled (bad_cross (.inl h)))
    · exact .inl h
  simp only [hlt, Bool.false_eq_true, if_false, hnan, Bool.true_or, if_true]

/-! ### Gradients -/

theorem orZero_ne_nan (B : IeeeBits J) (v : V3 D) : ¬ NanV J (orZero v) := by
  unfold orZero
  split
  · rintro (h | h | h) <;> exact absurd (J.zero.symm.trans h) (by simp)
  · next h =>
    simp only [Bool.or_eq_true, B.isNan, not_or] at h
    rintro (e | e | e)
    · exact h.1.1 e
    · exact h.1.2 e
    · exact h.2 e

/-- **C105** The gradients of the three-view optimisation and of the pose optimisation contain no NaN, whatever the
bearings, the translations and the points are. -/
theorem C105_gradients (B : IeeeBits J) (c f ftoc s stoc t b : V3 D) :
    (∀ g, g = (fthreeViewGradients c f ftoc s stoc).1 ∨ g = (fthreeViewGradients c f ftoc s stoc).2 ∨
      g = fworldPoseGradient t b → ¬ NanV J g.translation ∧ ¬ NanV J g.rotation) := by
  rintro g (rfl | rfl | rfl) <;> exact ⟨orZero_ne_nan B _, orZero_ne_nan B _⟩

omit [FloatBits D] in
theorem refine_bad (scale eps : D) (os : List (FObservation D)) (n : Nat) {x : V3 D} (h : BadV J x) :
    BadV J (frefinePoint scale eps os n x) := by
  induction n generalizing x with
  | zero => exact h
  | succ n ih =>
    unfold frefinePoint
    simp only
    split
    · exact bad_add (.inl h)
    · exact ih (bad_add (.inl h))

/-- **C105** The refining triangulator does not check its result: where the point found by the linear triangulator is finite
in homogeneous coordinates but has a position that is not, a point with a coordinate that is not a number is returned. -/
theorem C105_sine_not_finite (B : IeeeBits J) {vector : List (FObservation D) → Option (V4 D)} (rate eps : D) (n : Nat)
    {os : List (FObservation D)} {p : V4 D} {x : V3 D} (h : flinearEigen vector os = some p) (hx : fpoint p = some x)
    (hbad : BadV J x) : ∃ q, fsineL1 vector rate eps n os = some q ∧ NanV J (fbearing q) := by
  refine ⟨_, by rw [fsineL1, h]; simp only [Option.bind_eq_bind, Option.bind_some, hx]; rfl, ?_⟩
  unfold ffromPoint fhomogeneous
  have hs : ¬ isSignNegative (1 : D) = true := by
    rw [B.sign_num 1 1 J.one one_ne_zero]
    norm_num
  simp only [if_neg hs]
  exact nan_normalize (refine_bad _ _ _ _ hbad)

end Verif.Geo.Rounded
