import Verif.Model.FloatResidual
import Verif.Props.FloatOptimize
import Verif.Props.FloatGeom

/-!
# Residuals and acceptance tests with floating point numbers (C109)

No test accepts a match with NaN in a bearing, a point or a pose; the filter of observations, which compares the other way
round, keeps it.
-/

namespace Verif.Geo.Rounded

open Verif.Akaze
open Verif.Bicubic (Flt)
open Verif.Akaze.FloatOps (lit lt le abs sqrt)
open Verif.Akaze.FloatBits (isFinite isNan isSignNegative)
open P3P

variable {D : Type} [FloatOps D] [FloatBits D] {J : Ieee D}

/-- One of the coordinates is NaN or infinite. -/
def Bad4 (J : Ieee D) (p : V4 D) : Prop := J.NotNumber p.x ∨ J.NotNumber p.y ∨ J.NotNumber p.z ∨ J.NotNumber p.w

/-- A point with a coordinate of its direction that is not finite has a bearing with NaN in it. -/
theorem homogeneous_nan {p : V4 D} (h : BadV J ⟨p.x, p.y, p.z⟩) : NanV J (fbearing (fhomogeneous p)) := by
  unfold fhomogeneous fbearing
  by_cases hs : isSignNegative p.w = true
  · simp only [if_pos hs]
    exact nan_normalize (a := ⟨-p.x, -p.y, -p.z⟩) (bad_neg h)
  · simp only [if_neg hs]
    exact nan_normalize (a := ⟨p.x, p.y, p.z⟩) h

omit [FloatBits D] in
theorem not_sum4 {a b c d : D} (h : J.NotNumber a ∨ J.NotNumber b ∨ J.NotNumber c ∨ J.NotNumber d) :
    J.NotNumber (a + b + c + d) := by
  rcases h with h | h | h | h
  · exact not_add (.inl (not_add (.inl (not_add (.inl h)))))
  · exact not_add (.inl (not_add (.inl (not_add (.inr h)))))
  · exact not_add (.inl (not_add (.inr h)))
  · exact not_add (.inr h)

/-- A pose or a point that is not finite gives a bearing with NaN in it. -/
theorem transform_nan {pose : Iso D} {w : V4 D} (h : BadIso J pose ∨ Bad4 J w) :
    NanV J (fbearing (ftransform pose w)) := by
  refine homogeneous_nan ?_
  rcases h with (h | h) | h
  · rcases h with h | h | h
    · rcases h with h | h | h
      · exact .inl (not_sum4 (.inl (not_mul (.inl h))))
      · exact .inl (not_sum4 (.inr (.inl (not_mul (.inl h)))))
      · exact .inl (not_sum4 (.inr (.inr (.inl (not_mul (.inl h))))))
    · rcases h with h | h | h
      · exact .inr (.inl (not_sum4 (.inl (not_mul (.inl h)))))
      · exact .inr (.inl (not_sum4 (.inr (.inl (not_mul (.inl h))))))
      · exact .inr (.inl (not_sum4 (.inr (.inr (.inl (not_mul (.inl h)))))))
    · rcases h with h | h | h
      · exact .inr (.inr (not_sum4 (.inl (not_mul (.inl h)))))
      · exact .inr (.inr (not_sum4 (.inr (.inl (not_mul (.inl h))))))
      · exact .inr (.inr (not_sum4 (.inr (.inr (.inl (not_mul (.inl h)))))))
  · rcases h with h | h | h
    · exact .inl (not_sum4 (.inr (.inr (.inr (not_mul (.inl h))))))
    · exact .inr (.inl (not_sum4 (.inr (.inr (.inr (not_mul (.inl h)))))))
    · exact .inr (.inr (not_sum4 (.inr (.inr (.inr (not_mul (.inl h)))))))
  · rcases h with h | h | h | h
    · exact .inl (not_sum4 (.inl (not_mul (.inr h))))
    · exact .inl (not_sum4 (.inr (.inl (not_mul (.inr h)))))
    · exact .inl (not_sum4 (.inr (.inr (.inl (not_mul (.inr h))))))
    · exact .inl (not_sum4 (.inr (.inr (.inr (not_mul (.inr h))))))

/-! ### Inliers of sample consensus -/

/-- **C109.** A pose with an entry that is NaN or infinite has no inlier, a point with such a coordinate or a bearing with NaN
is an inlier of no pose, for any threshold. -/
theorem C109_world {pose : Iso D} {b : V3 D} {w : V4 D} (h : BadIso J pose ∨ NanV J b ∨ Bad4 J w) (threshold : D) :
    J.val (fworldResidual pose b w) = .nan ∧ finlier (fworldResidual pose b w) threshold = false := by
  have hn : J.val (fworldResidual pose b w) = .nan := by
    refine nan_sub (.inr (nan_fdot ?_))
    rcases h with h | h | h
    · exact .inr (transform_nan (.inl h))
    · exact .inl h
    · exact .inr (transform_nan (.inr h))
  exact ⟨hn, nan_lt (.inl hn)⟩

/-- **C109.** For matches of two pictures the residual of such a pose or such bearings is NaN or two, whatever the eigenvalue
solver returns; only a threshold above two makes it an inlier. -/
theorem C109_camera (vector : Iso D → V3 D → V3 D → Option (V4 D)) {pose : Iso D} {a b : V3 D}
    (h : BadIso J pose ∨ NanV J a ∨ NanV J b) {threshold : D} (ht : ¬ (Flt.num 2).Lt (J.val threshold)) :
    finlier (fcameraResidual vector pose a b) threshold = false := by
  have h2 : lt (lit 2 : D) threshold = false := by
    rw [← Bool.not_eq_true, J.lt, J.lit]
    have : J.rnd ((2 : ℚ) : ℝ) = .num 2 := by
      have := J.rnd_dyadic 2 0 (by norm_num) (by norm_num)
      norm_num at this ⊢
      exact this
    rw [this]
    exact ht
  unfold finlier fcameraResidual
  cases vector pose a b with
  | none => exact h2
  | some v =>
    simp only
    by_cases hf : allFinite (fhomogeneous v) = true
    · rw [if_pos hf]
      refine nan_lt (J := J) (.inl (nan_mul (.inr ?_)))
      rcases h with h | h | h
      · exact nan_sub (.inr (nan_fdot (.inr (transform_nan (.inl h)))))
      · exact nan_sub (.inl (nan_add (.inl (nan_sub (.inr (nan_fdot (.inl h)))))))
      · exact nan_sub (.inr (nan_fdot (.inl h)))
    · rw [if_neg hf]
      exact h2

omit [FloatBits D] in
theorem abs_not {a b : D} (h : J.NotNumber a) : lt (abs a) b = false := by
  rcases notNumber_cases h with h | ⟨s, h⟩
  · exact lt_inf (.inl (nan_abs h))
  · exact lt_inf (.inr (J.abs_inf _ _ h))

omit [FloatBits D] in
/-- A bearing divided by its depth has NaN in it if the bearing has, or if the depth is zero or infinite. -/
theorem depth_nan (hz : ZeroOverZero J) {a : V3 D} (h : NanV J a ∨ J.NotNumber a.z ∨ J.val a.z = .num 0) :
    NanV J (funscale a a.z) := by
  rcases h with h | h | h
  · exact nan_unscale' (.inl h)
  · exact .inr (.inr (not_div h h))
  · exact .inr (.inr (hz _ _ h h))

omit [FloatBits D] in
/-- **C109.** An essential matrix with an entry that is NaN or infinite has no inlier; a bearing with NaN, or whose depth is
zero or infinite, is part of no inlier, for any threshold. -/
theorem C109_essential (hz : ZeroOverZero J) {E : M3 D} {a b : V3 D}
    (h : BadM J E ∨ (NanV J a ∨ J.NotNumber a.z ∨ J.val a.z = .num 0) ∨
      (NanV J b ∨ J.NotNumber b.z ∨ J.val b.z = .num 0)) (threshold : D) :
    finlier (fessentialResidual E a b) threshold = false := by
  refine abs_not (J := J) ?_
  rcases h with h | h | h
  · refine not_dot (.inl ?_)
    rcases h with h | h | h
    · rcases h with h | h | h
      · exact .inl (not_dot (.inr (.inl h)))
      · exact .inr (.inl (not_dot (.inr (.inl h))))
      · exact .inr (.inr (not_dot (.inr (.inl h))))
    · rcases h with h | h | h
      · exact .inl (not_dot (.inr (.inr (.inl h))))
      · exact .inr (.inl (not_dot (.inr (.inr (.inl h)))))
      · exact .inr (.inr (not_dot (.inr (.inr (.inl h)))))
    · rcases h with h | h | h
      · exact .inl (not_dot (.inr (.inr (.inr h))))
      · exact .inr (.inl (not_dot (.inr (.inr (.inr h)))))
      · exact .inr (.inr (not_dot (.inr (.inr (.inr h)))))
  · exact not_dot (.inr (NanV.bad (depth_nan hz h)))
  · exact not_dot (.inl (.inl (not_of_nan (nan_fdot (.inl (depth_nan hz h))))))

/-! ### The tests of landmarks -/

/-- **C109.** The test of a landmark with two observations fails for such poses and bearings, unless the limit is above one.
-/
theorem C109_two_views (B : IeeeBits J) {pose : Iso D} {a b : V3 D} (h : BadIso J pose ∨ BadV J a ∨ NanV J b) {m : D}
    (hm : ¬ (Flt.num 1).Lt (J.val m)) : fbiRobust pose a b m = false := by
  unfold fbiRobust
  rw [C105_loss_not_a_number B, ← Bool.not_eq_true, J.lt, J.one]
  · exact hm
  · rcases h with (h | h) | h | h
    · exact .inr (.inl (bad_mulVec h))
    · exact .inl h
    · exact .inr (.inl (worst_mulVec h).bad)
    · exact .inr (.inr h)

omit [FloatBits D] in
/-- **C109.** Two rays one of which has NaN in it do not meet at an angle large enough. -/
theorem C109_angle {a b : V3 D} (h : NanV J a ∨ NanV J b) (m : D) : fangular a b m = false :=
  nan_lt (.inr (nan_sub (.inr (nan_fdot h))))

/-- The distance between a point and an observation is NaN if one of them is not a number. -/
theorem distance_nan {p : V4 D} {o : FObservation D} (h : BadIso J o.pose ∨ NanV J o.bearing ∨ Bad4 J p) :
    J.val (fcosineDistance p o) = .nan := by
  refine nan_sub (.inr (nan_fdot ?_))
  rcases h with h | h | h
  · exact .inl (transform_nan (.inl h))
  · exact .inr h
  · exact .inl (transform_nan (.inr h))

/-- **C109.** The test of a landmark with three observations fails if a pose is not finite or a bearing has NaN in it,
whatever the triangulator returns, for any limits. -/
theorem C109_three_views (tri : List (FObservation D) → Option (V4 D)) {p q : Iso D} {c f s : V3 D}
    (h : BadIso J p ∨ BadIso J q ∨ NanV J c ∨ NanV J f ∨ NanV J s) (maxCosine minCosine : D) :
    ftriRobust tri p q c f s maxCosine minCosine = false := by
  unfold ftriRobust
  cases ftoCamera tri c [⟨p, f⟩, ⟨q, s⟩] with
  | none => rfl
  | some x =>
    simp only
    have : (lt (fcentreDistance x c) maxCosine && lt (fcosineDistance x ⟨p, f⟩) maxCosine &&
        lt (fcosineDistance x ⟨q, s⟩) maxCosine) = false := by
      rcases h with h | h | h | h | h
      · rw [nan_lt (.inl (distance_nan (o := ⟨p, f⟩) (.inl h)))]
        simp
      · rw [nan_lt (.inl (distance_nan (o := ⟨q, s⟩) (.inl h)))]
        simp
      · rw [nan_lt (a := fcentreDistance x c) (.inl (nan_sub (.inr (nan_fdot (.inr h)))))]
        simp
      · rw [nan_lt (.inl (distance_nan (o := ⟨p, f⟩) (.inr (.inl h))))]
        simp
      · rw [nan_lt (.inl (distance_nan (o := ⟨q, s⟩) (.inr (.inl h))))]
        simp
    rw [this, Bool.false_and]

/-- **C109.** An observation is consistent with the others of a landmark only if its pose and theirs are finite and no
bearing has NaN in it. -/
theorem C109_consistent (B : IeeeBits J) (tri : List (FObservation D) → Option (V4 D)) {maxSine : D} (maxCosine : D)
    (hm : ¬ (Flt.num 1).Lt (J.val maxSine)) {o : FObservation D} {others : List (FObservation D)}
    (h : ∃ y ∈ o :: others, BadIso J y.pose ∨ NanV J y.bearing) :
    fconsistent tri maxSine maxCosine o others = some true → False := by
  unfold fconsistent
  match others, h with
  | [], _ => simp
  | [x], h =>
    simp only [Option.some.injEq]
    rw [C109_two_views B _ hm]
    · simp
    · obtain ⟨y, hy, hb⟩ := h
      simp only [List.mem_cons, List.not_mem_nil, or_false] at hy
      rcases hy with rfl | rfl
      · rcases hb with hb | hb
        · refine .inl (.inr ?_)
          exact bad_add (.inr (worst_mulVec (bad_inv hb)).bad)
        · exact .inr (.inl hb.bad)
      · rcases hb with hb | hb
        · refine .inl ?_
          rcases hb with hb | hb
          · exact .inr (bad_add (.inr (bad_mulVec hb)))
          · exact .inr (bad_add (.inl hb))
        · exact .inr (.inr hb)
  | x :: x' :: rest, h =>
    simp only [Option.some.injEq]
    cases tri (x :: x' :: rest ++ [o]) with
    | none => simp
    | some p =>
      simp only [Option.map_some, Option.getD_some]
      intro ha
      rw [List.all_eq_true] at ha
      obtain ⟨y, hy, hb⟩ := h
      have hy' : y ∈ x :: x' :: rest ++ [o] := by
        rw [List.mem_append, List.mem_singleton]
        rcases List.mem_cons.1 hy with h | h
        · exact .inr h
        · exact .inl h
      have := ha y hy'
      rw [nan_lt (.inl (distance_nan (hb.imp_right .inl)))] at this
      exact Bool.false_ne_true this

omit [FloatBits D] in
theorem combinations_index (os : List (FObservation D)) {a b : V3 D}
    (h : (a, b) ∈ Sfm.combinations (os.map FObservation.ray)) :
    ∃ i j, ∃ (hi : i < os.length) (hj : j < os.length), i < j ∧ os[i].ray = a ∧ os[j].ray = b := by
  induction os with
  | nil => simp [Sfm.combinations] at h
  | cons o os ih =>
    simp only [List.map_cons, Sfm.combinations, List.mem_append, List.mem_map, Prod.mk.injEq] at h
    rcases h with ⟨c, ⟨x, hx, rfl⟩, rfl, rfl⟩ | h
    · obtain ⟨k, hk, rfl⟩ := List.mem_iff_getElem.1 hx
      exact ⟨0, k + 1, by simp, by simpa using hk, by omega, rfl, by simp⟩
    · obtain ⟨i, j, hi, hj, hij, h1, h2⟩ := ih h
      exact ⟨i + 1, j + 1, by simpa using hi, by simpa using hj, by omega, by simpa using h1, by simpa using h2⟩

omit [FloatBits D] in
/-- **C109.** A landmark is robust only if two of its observations without NaN in their bearings meet at an angle large
enough: observations with NaN do not help. -/
theorem C109_robust {minObservations views : Nat} {m : D} {os : List (FObservation D)}
    (h : fobservationsRobust minObservations views m os = true) :
    ∃ i j, ∃ (hi : i < os.length) (hj : j < os.length), i < j ∧ ¬ NanV J os[i].bearing ∧ ¬ NanV J os[j].bearing ∧
      fangular os[i].ray os[j].ray m = true := by
  unfold fobservationsRobust at h
  rw [Bool.and_eq_true, List.any_eq_true] at h
  obtain ⟨-, ⟨a, b⟩, ha, hab⟩ := h
  obtain ⟨i, j, hi, hj, hij, rfl, rfl⟩ := combinations_index os ha
  refine ⟨i, j, hi, hj, hij, fun hn => ?_, fun hn => ?_, hab⟩
  · have hr : NanV J os[i].ray := nan_mulVec hn
    rw [C109_angle (J := J) (.inl hr)] at hab
    exact Bool.false_ne_true hab
  · have hr : NanV J os[j].ray := nan_mulVec hn
    rw [C109_angle (J := J) (.inr hr)] at hab
    exact Bool.false_ne_true hab

/-! ### The filter of observations -/

/-- **C109.** The filter of observations removes what is too far, so it keeps every observation with NaN in its bearing or
whose pose is not finite, and every observation of a point that is not finite. -/
theorem C109_filter_keeps (maxCosine : D) {p : V4 D} {os : List (FObservation D)} {o : FObservation D} (ho : o ∈ os)
    (h : BadIso J o.pose ∨ NanV J o.bearing ∨ Bad4 J p) : o ∈ fkept maxCosine p os := by
  unfold fkept
  rw [List.mem_filter]
  exact ⟨ho, by rw [nan_lt (.inr (distance_nan h))]; rfl⟩

/-- **C109.** With the mean-mean triangulator no landmark with such an observation has a point, so the filter splits it. -/
theorem C109_filter_mean (B : IeeeBits J) {os : List (FObservation D)} {p : V4 D} (h : fmeanMean os = some p) :
    ∀ o ∈ os, ¬ BadIso J o.pose ∧ ¬ BadV J o.bearing := by
  intro o ho
  have := fun hb => C105_mean_not_a_number B ⟨o, ho, hb⟩
  constructor
  · intro hb
    rw [this (.inl hb)] at h
    simp at h
  · intro hb
    rw [this (.inr hb)] at h
    simp at h

/-- **C109.** An infinite bearing may be an inlier: the residual is negative infinity. -/
theorem C109_infinite {pose : Iso D} {b : V3 D} {w : V4 D}
    (h : J.val (fdot b (fbearing (ftransform pose w))) = .inf false) {threshold : D} {x : ℝ}
    (ht : J.val threshold = .num x) : finlier (fworldResidual pose b w) threshold = true := by
  unfold finlier fworldResidual
  rw [J.lt, J.sub, h, J.one, ht]
  trivial

/-! ### Examples -/

namespace ExResidual

open ExOptimize

/-- The bearing `(NaN, 0, 1)` is an inlier of no pose. -/
example (pose : Iso ExFloat.F32) (w : V4 ExFloat.F32) (t : ExFloat.F32) :
    finlier (fworldResidual pose nothing w) t = false :=
  (C109_world (J := ExFloat.ieee) (.inr (.inl (nothing_nan ExFloat.zero_over_zero))) t).2

/-- Nor of an essential matrix. -/
example (E : M3 ExFloat.F32) (b : V3 ExFloat.F32) (t : ExFloat.F32) : finlier (fessentialResidual E nothing b) t = false :=
  C109_essential (J := ExFloat.ieee) ExFloat.zero_over_zero (.inr (.inl (.inl (nothing_nan ExFloat.zero_over_zero)))) t

/-- A bearing in the plane of the picture is not an inlier of an essential matrix either. -/
example (E : M3 ExFloat.F32) (b : V3 ExFloat.F32) (t : ExFloat.F32) : finlier (fessentialResidual E ⟨1, 0, 0⟩ b) t = false :=
  C109_essential (J := ExFloat.ieee) ExFloat.zero_over_zero (.inr (.inl (.inr (.inr ExFloat.ieee.zero)))) t

/-- Nor of a relative pose, with threshold one. -/
example (vector : Iso ExFloat.F32 → V3 ExFloat.F32 → V3 ExFloat.F32 → Option (V4 ExFloat.F32)) (pose : Iso ExFloat.F32)
    (b : V3 ExFloat.F32) : finlier (fcameraResidual vector pose nothing b) 1 = false :=
  C109_camera (J := ExFloat.ieee) vector (.inr (.inl (nothing_nan ExFloat.zero_over_zero))) (by
    rw [ExFloat.ieee.one]
    show ¬ ((2 : ℝ) < 1)
    norm_num)

/-- A landmark with it is not accepted. -/
example (tri : List (FObservation ExFloat.F32) → Option (V4 ExFloat.F32)) (p q : Iso ExFloat.F32) (c f : V3 ExFloat.F32)
    (m k : ExFloat.F32) : ftriRobust tri p q c f nothing m k = false :=
  C109_three_views (J := ExFloat.ieee) tri (.inr (.inr (.inr (.inr (nothing_nan ExFloat.zero_over_zero))))) m k

/-- But the filter keeps it. -/
example (m : ExFloat.F32) (p : V4 ExFloat.F32) : fkept m p [⟨pose, nothing⟩] = [⟨pose, nothing⟩] := by
  have h := C109_filter_keeps (J := ExFloat.ieee) m (p := p) (os := [⟨pose, nothing⟩]) (List.mem_singleton.2 rfl)
    (.inr (.inl (nothing_nan ExFloat.zero_over_zero)))
  unfold fkept at h ⊢
  rw [List.filter_cons] at h ⊢
  split at h
  · rename_i hc
    rw [if_pos hc]
    rfl
  · simp at h

end ExResidual

end Verif.Geo.Rounded
