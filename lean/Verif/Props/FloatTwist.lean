import Verif.Lemmas.FloatTwist
import Verif.Props.FloatExample
import Verif.Props.LambdaTwist

/-!
# Three-point poses with floating point numbers (C103)

For every input, NaN and infinities included, the three-point solver returns at most four poses and does not panic;
values that are not numbers give no pose; the refinement of the depths never makes the computed error larger.
-/

namespace Verif.Geo.P3P

open Verif.Akaze
open Verif.Bicubic (Flt)
open Verif.Akaze.FloatOps (lit lt le abs sqrt)

section

variable {D : Type} [FloatOps D] {J : Ieee D}

/-- **C103** Three or more samples never panic and give at most four poses, whatever the values are. -/
theorem C103_total (inverse : M3 D → Option (M3 D)) (toRotation : M3 D → M3 D) (iterations : Nat)
    {samples : List (V3 D × V4 D)} (h : 3 ≤ samples.length) :
    ∃ poses, festimate inverse toRotation iterations samples = some poses ∧ poses.length ≤ 4 := by
  obtain ⟨s1, s2, s3, rest, rfl⟩ : ∃ s1 s2 s3 rest, samples = s1 :: s2 :: s3 :: rest := by
    match samples, h with
    | a :: b :: c :: r, _ => exact ⟨a, b, c, r, rfl⟩
  simp only [festimate, fcomputePoses]
  split
  · next x1 x2 x3 _ _ _ =>
    obtain ⟨ls, e, -, hn⟩ := FTri.depths_spec (P := fun _ => True) (k := FTri.of x1 x2 x3 s1.1 s2.1 s3.1)
      (fun _ _ _ _ _ _ _ => trivial)
    rw [e, Option.bind_some]
    split
    · exact ⟨[], rfl, by simp⟩
    · rw [if_pos (by simpa using hn)]
      exact ⟨_, rfl, by simpa using hn⟩
  · exact ⟨[], rfl, by simp⟩

/-- **C103** With fewer samples it panics. -/
theorem C103_too_few (inverse : M3 D → Option (M3 D)) (toRotation : M3 D → M3 D) (iterations : Nat)
    {samples : List (V3 D × V4 D)} (h : samples.length < 3) : festimate inverse toRotation iterations samples = none := by
  match samples, h with
  | [], _ => rfl
  | [_], _ => rfl
  | [_, _], _ => rfl

variable (J) in
/-- Some coordinate is NaN or infinite. -/
def Broken (v : V3 D) : Prop := J.NotNumber v.x ∨ J.NotNumber v.y ∨ J.NotNumber v.z

theorem not_dot_left {a b : V3 D} (h : Broken J a) : J.NotNumber (fdot a b) := by
  rcases h with h | h | h
  · exact not_add (.inl (not_add (.inl (not_mul (.inl h)))))
  · exact not_add (.inl (not_add (.inr (not_mul (.inl h)))))
  · exact not_add (.inr (not_mul (.inl h)))

theorem not_dot_right {a b : V3 D} (h : Broken J b) : J.NotNumber (fdot a b) := by
  rcases h with h | h | h
  · exact not_add (.inl (not_add (.inl (not_mul (.inr h)))))
  · exact not_add (.inl (not_add (.inr (not_mul (.inr h)))))
  · exact not_add (.inr (not_mul (.inr h)))

theorem not_fsub {a b : V3 D} (h : Broken J a ∨ Broken J b) : Broken J (fsub a b) := by
  rcases h with (h | h | h) | (h | h | h)
  · exact .inl (not_sub (.inl h))
  · exact .inr (.inl (not_sub (.inl h)))
  · exact .inr (.inr (not_sub (.inl h)))
  · exact .inl (not_sub (.inr h))
  · exact .inr (.inl (not_sub (.inr h)))
  · exact .inr (.inr (not_sub (.inr h)))

theorem not_polynomial {k : FTri D} (h : J.NotNumber k.a13 ∨ J.NotNumber k.a23 ∨ J.NotNumber k.c31 ∨ J.NotNumber k.c23) :
    J.NotNumber k.p2 ∧ J.NotNumber k.p3 := by
  rcases h with h | h | h | h
  · exact ⟨not_add (.inl (not_add (.inl (not_mul (.inr h))))), not_mul (.inl h)⟩
  · exact ⟨not_add (.inr (not_mul (.inl (not_mul (.inl h))))), not_mul (.inr (not_sub (.inl (not_mul (.inl h)))))⟩
  · have hs : J.NotNumber k.s31 := not_sub (.inr (not_mul (.inl h)))
    exact ⟨not_add (.inr (not_mul (.inr hs))), not_mul (.inr (not_sub (.inl (not_mul (.inr hs)))))⟩
  · have hs : J.NotNumber k.s23 := not_sub (.inr (not_mul (.inl h)))
    exact ⟨not_add (.inl (not_add (.inr (not_mul (.inr hs))))), not_mul (.inr (not_sub (.inr (not_mul (.inr hs)))))⟩

/-- **C103** If a coordinate of a bearing or of a world point is NaN or infinite, no pose is returned. -/
theorem C103_not_a_number (J : Ieee D) (inverse : M3 D → Option (M3 D)) (toRotation : M3 D → M3 D) (iterations : Nat)
    {s1 s2 s3 : V3 D × V4 D} (rest : List (V3 D × V4 D))
    (h : ∃ s ∈ [s1, s2, s3], Broken J s.1 ∨ ∀ x, fpoint s.2 = some x → Broken J x) :
    festimate inverse toRotation iterations (s1 :: s2 :: s3 :: rest) = some [] := by
  simp only [festimate, fcomputePoses]
  split
  · next x1 x2 x3 e1 e2 e3 =>
    have hk : J.NotNumber (FTri.of x1 x2 x3 s1.1 s2.1 s3.1).p2 ∧ J.NotNumber (FTri.of x1 x2 x3 s1.1 s2.1 s3.1).p3 := by
      refine not_polynomial ?_
      obtain ⟨s, hs, h⟩ := h
      rcases List.mem_cons.1 hs with rfl | hs
      · rcases h with h | h
        · exact .inr (.inr (.inl (not_dot_right h)))
        · exact .inl (not_dot_left (not_fsub (.inl (h _ e1))))
      · rcases List.mem_cons.1 hs with rfl | hs
        · rcases h with h | h
          · exact .inr (.inr (.inr (not_dot_left h)))
          · exact .inr (.inl (not_dot_left (not_fsub (.inl (h _ e2)))))
        · obtain rfl := List.mem_singleton.1 hs
          rcases h with h | h
          · exact .inr (.inr (.inl (not_dot_left h)))
          · exact .inl (not_dot_left (not_fsub (.inr (h _ e3))))
    rw [FTri.depths_nan hk.1 hk.2, Option.bind_some]
    split <;> rfl
  · rfl

/-- **C103** In particular for a homogeneous coordinate that is NaN. -/
theorem C103_nan_coordinate (J : Ieee D) (inverse : M3 D → Option (M3 D)) (toRotation : M3 D → M3 D) (iterations : Nat)
    {s1 s2 s3 : V3 D × V4 D} (rest : List (V3 D × V4 D))
    (h : ∃ s ∈ [s1, s2, s3], J.val s.2.x = .nan ∨ J.val s.2.y = .nan ∨ J.val s.2.z = .nan ∨ J.val s.2.w = .nan) :
    festimate inverse toRotation iterations (s1 :: s2 :: s3 :: rest) = some [] := by
  obtain ⟨s, hs, h⟩ := h
  refine C103_not_a_number J inverse toRotation iterations rest ⟨s, hs, .inr fun x hx => ?_⟩
  have nn : ∀ {a : D}, J.val a = .nan → J.NotNumber a := fun h x e => by rw [h] at e; cases e
  unfold fpoint at hx
  split at hx
  · cases hx
  · obtain rfl := Option.some.inj hx
    rcases h with h | h | h | h
    · exact .inl (nn (nan_div (.inl h)))
    · exact .inr (.inl (nn (nan_div (.inl h))))
    · exact .inr (.inr (nn (nan_div (.inl h))))
    · exact .inl (nn (nan_div (.inr h)))

/-- **C103** The depths before the refinement are not NaN and not negative, and the second is positive. -/
theorem C103_depths (J : Ieee D) (k : FTri D) : ∃ ls, k.depths = some ls ∧ ls.length ≤ 4 ∧
    ∀ l ∈ ls, (Flt.num 0).Le (J.val l.x) ∧ (Flt.num 0).Lt (J.val l.y) ∧ (Flt.num 0).Le (J.val l.z) := by
  obtain ⟨ls, e, h, hn⟩ := FTri.depths_spec (k := k)
    (P := fun l => (Flt.num 0).Le (J.val l.x) ∧ (Flt.num 0).Lt (J.val l.y) ∧ (Flt.num 0).Le (J.val l.z)) (by
      intro tau w0 w1 l ht hd hx
      rw [J.lt, J.zero] at ht
      rw [J.le, J.zero] at hx
      unfold FTri.possibleDepths at hd
      simp only at hd
      split at hd
      · next hpos =>
        rw [J.lt, J.zero] at hpos
        obtain rfl := Option.some.inj hd
        exact ⟨hx, pos_sqrt hpos, nonNeg_mul ht (pos_sqrt hpos)⟩
      · cases hd)
  exact ⟨ls, e, hn, h⟩

/-! ### The refinement -/

theorem error_nan {k : FTri D} {l : V3 D} (h : J.val (k.residual l).x = .nan ∨ J.val (k.residual l).y = .nan ∨
    J.val (k.residual l).z = .nan) : J.val (k.error l) = .nan := by
  rcases h with h | h | h
  · exact nan_add (.inl (nan_add (.inl (nan_abs h))))
  · exact nan_add (.inl (nan_add (.inr (nan_abs h))))
  · exact nan_add (.inr (nan_abs h))

theorem of_error_nan {k : FTri D} {l : V3 D} (h : J.val (k.error l) = .nan) :
    J.val (k.residual l).x = .nan ∨ J.val (k.residual l).y = .nan ∨ J.val (k.residual l).z = .nan := by
  by_contra hc
  push Not at hc
  obtain ⟨h1, h2, h3⟩ := hc
  exact nonNeg_ne_nan (nonNeg_add (nonNeg_add (nonNeg_abs h1) (nonNeg_abs h2)) (nonNeg_abs h3)) h

theorem nan_dot {a b : V3 D} (h : J.val b.x = .nan ∨ J.val b.y = .nan ∨ J.val b.z = .nan) : J.val (fdot a b) = .nan := by
  rcases h with h | h | h
  · exact nan_add (.inl (nan_add (.inl (nan_mul (.inr h)))))
  · exact nan_add (.inl (nan_add (.inr (nan_mul (.inr h)))))
  · exact nan_add (.inr (nan_mul (.inr h)))

theorem gaussStep_nan {k : FTri D} {l : V3 D} (h : J.val (k.error l) = .nan) : J.val (k.error (k.gaussStep l)) = .nan := by
  have hr := of_error_nan h
  refine error_nan (.inl ?_)
  have hx : J.val (k.gaussStep l).x = .nan := nan_sub (.inr (nan_mul (.inr (nan_dot hr))))
  exact nan_sub (.inl (nan_add (.inl (nan_add (.inl (nan_mul (.inl hx)))))))

theorem le_of_not_lt {a b : D} (h : lt a b = false) (ha : J.val a ≠ .nan) : J.val b = .nan ∨ (J.val b).Le (J.val a) := by
  have h' : ¬ (J.val a).Lt (J.val b) := by rw [← J.lt, h]; simp
  generalize J.val a = u at *
  generalize J.val b = v at *
  rcases u with _ | s | x <;> rcases v with _ | t | y <;> (try cases s) <;> (try cases t) <;>
    simp_all [Flt.Le, Flt.Ge, Flt.Lt]

/-- **C103** The refinement of the depths never makes the error (the sum of the magnitudes of the three residuals, as the
code computes it) larger: afterwards the error is at most what it was, or NaN; and an error that is NaN stays NaN. -/
theorem C103_refine (J : Ieee D) (k : FTri D) : ∀ (n : Nat) (l : V3 D),
    (J.val (k.error l) = .nan → J.val (k.error (k.refine n l)) = .nan) ∧
    (J.val (k.error (k.refine n l)) = .nan ∨ (J.val (k.error (k.refine n l))).Le (J.val (k.error l)))
  | 0, l => by
    refine ⟨id, ?_⟩
    show J.val (k.error l) = .nan ∨ (J.val (k.error l)).Le (J.val (k.error l))
    generalize J.val (k.error l) = v
    rcases v with _ | s | x
    · exact .inl rfl
    · cases s <;> exact .inr trivial
    · exact .inr (le_refl x)
  | n + 1, l => by
    have same : J.val (k.error l) = .nan ∨ (J.val (k.error l)).Le (J.val (k.error l)) :=
      (C103_refine J k 0 l).2
    unfold FTri.refine
    split
    · exact ⟨id, same⟩
    · simp only
      split
      · exact ⟨id, same⟩
      · next hlt =>
        obtain ⟨i1, i2⟩ := C103_refine J k n (k.gaussStep l)
        refine ⟨fun h => i1 (gaussStep_nan h), ?_⟩
        by_cases he : J.val (k.error l) = .nan
        · exact .inl (i1 (gaussStep_nan he))
        · rcases le_of_not_lt (by simpa using hlt) he with h | h
          · exact .inl (i1 h)
          · exact i2.imp_right (fun h2 => ExFloat.le_trans' h2 h)

/-- **C103** Depths that meet the stopping criterion are not changed. -/
theorem C103_refine_done (J : Ieee D) (k : FTri D) (n : Nat) {l : V3 D} {x : ℝ} (h : J.val (k.error l) = .num x)
    (hx : (Flt.num x).Lt (J.rnd (1 / 10 ^ 10))) : k.refine n l = l := by
  have : lt (k.error l) (lit (1 / 10 ^ 10)) = true := by
    rw [J.lt, h, J.lit]; push_cast; exact hx
  cases n with
  | zero => rfl
  | succ n => unfold FTri.refine; rw [if_pos this]

/-! ### NaN is accepted -/

theorem int_add {a b : D} {m n : ℤ} (ha : J.val a = .num m) (hb : J.val b = .num n) (h : |m + n| ≤ 2 ^ 24) :
    J.val (a + b) = .num ((m + n : ℤ) : ℝ) := by
  rw [J.add, ha, hb]
  show J.rnd (m + n) = _
  have := exact_int (I := J) h
  push_cast at this ⊢
  exact this

theorem int_sub {a b : D} {m n : ℤ} (ha : J.val a = .num m) (hb : J.val b = .num n) (h : |m - n| ≤ 2 ^ 24) :
    J.val (a - b) = .num ((m - n : ℤ) : ℝ) := by
  rw [J.sub, ha, hb]
  show J.rnd (m + -n) = _
  have := exact_int (I := J) h
  push_cast at this ⊢
  rw [← sub_eq_add_neg]
  exact this

theorem int_mul {a b : D} {m n : ℤ} (ha : J.val a = .num m) (hb : J.val b = .num n) (h : |m * n| ≤ 2 ^ 24) :
    J.val (a * b) = .num ((m * n : ℤ) : ℝ) := by
  rw [J.mul, ha, hb]
  show J.rnd (m * n) = _
  have := exact_int (I := J) h
  push_cast at this ⊢
  exact this

theorem int_neg {a : D} {m : ℤ} (ha : J.val a = .num m) : J.val (-a) = .num ((-m : ℤ) : ℝ) := by
  rw [J.neg, ha]
  push_cast
  rfl

theorem int_abs {a : D} {m : ℤ} (ha : J.val a = .num m) : J.val (abs a) = .num ((|m| : ℤ) : ℝ) := by
  rw [J.abs_num a _ ha]
  push_cast
  rfl

theorem inf_mul_zero {a b : D} {s : Bool} (ha : J.val a = .inf s) (hb : J.val b = .num 0) : J.val (a * b) = .nan := by
  rw [J.mul, ha, hb]
  simp [Flt.mul, roundedBy]

/-- Three bearings at angles of sixty degrees to each other, and three points at distance √2. -/
def sixty : FTri D := ⟨2, 2, 2, lit (1 / 2), lit (1 / 2), lit (1 / 2)⟩

/-- **C103 (negation)** A step of the refinement may divide by zero; the NaN is accepted. Positive depths become NaN
although all distances and angles are numbers. -/
theorem C103_refine_gives_nan (J : Ieee D) (n : Nat) :
    J.val ((sixty : FTri D).refine (n + 1) ⟨2, 1, 1⟩).x = .nan := by
  have one : J.val (1 : D) = .num ((1 : ℤ) : ℝ) := by simpa using J.one
  have two : J.val (2 : D) = .num ((2 : ℤ) : ℝ) := by simpa using val_two (I := J)
  have half : J.val (lit (1 / 2) : D) = .num (1 / 2) := val_half
  have hb : J.val (-2 * lit (1 / 2) : D) = .num ((-1 : ℤ) : ℝ) := by
    rw [J.mul, J.neg, two, half]
    show J.rnd (-((2 : ℤ) : ℝ) * (1 / 2)) = _
    have := exact_int (I := J) (n := -1) (by norm_num)
    rw [show (-((2 : ℤ) : ℝ) * (1 / 2)) = ((-1 : ℤ) : ℝ) by norm_num]
    exact this
  have b12 : J.val (sixty : FTri D).b12 = .num ((-1 : ℤ) : ℝ) := hb
  have b13 : J.val (sixty : FTri D).b13 = .num ((-1 : ℤ) : ℝ) := hb
  have b23 : J.val (sixty : FTri D).b23 = .num ((-1 : ℤ) : ℝ) := hb
  have r1 : J.val ((sixty : FTri D).residual ⟨2, 1, 1⟩).x = .num ((1 : ℤ) : ℝ) :=
    int_sub (int_add (int_add (int_mul two two (by norm_num)) (int_mul one one (by norm_num)) (by norm_num))
      (int_mul (int_mul b12 two (by norm_num)) one (by norm_num)) (by norm_num)) two (by norm_num)
  have r2 : J.val ((sixty : FTri D).residual ⟨2, 1, 1⟩).y = .num ((1 : ℤ) : ℝ) :=
    int_sub (int_add (int_add (int_mul two two (by norm_num)) (int_mul one one (by norm_num)) (by norm_num))
      (int_mul (int_mul b13 two (by norm_num)) one (by norm_num)) (by norm_num)) two (by norm_num)
  have r3 : J.val ((sixty : FTri D).residual ⟨2, 1, 1⟩).z = .num ((-1 : ℤ) : ℝ) :=
    int_sub (int_add (int_add (int_mul one one (by norm_num)) (int_mul one one (by norm_num)) (by norm_num))
      (int_mul (int_mul b23 one (by norm_num)) one (by norm_num)) (by norm_num)) two (by norm_num)
  have err : J.val ((sixty : FTri D).error ⟨2, 1, 1⟩) = .num ((3 : ℤ) : ℝ) :=
    int_add (int_add (int_abs r1) (int_abs r2) (by norm_num)) (int_abs r3) (by norm_num)
  have hx : J.val ((sixty : FTri D).gaussStep ⟨2, 1, 1⟩).x = .nan := by
    unfold FTri.gaussStep
    simp only
    have d11 := int_add (int_mul two two (by norm_num)) (int_mul b12 one (by norm_num)) (by norm_num)
    have d12 := int_add (int_mul two one (by norm_num)) (int_mul b12 two (by norm_num)) (by norm_num)
    have d21 := int_add (int_mul two two (by norm_num)) (int_mul b13 one (by norm_num)) (by norm_num)
    have d23 := int_add (int_mul two one (by norm_num)) (int_mul b13 two (by norm_num)) (by norm_num)
    have d32 := int_add (int_mul two one (by norm_num)) (int_mul b23 one (by norm_num)) (by norm_num)
    have d33 := int_add (int_mul two one (by norm_num)) (int_mul b23 one (by norm_num)) (by norm_num)
    have hdet := int_sub (int_mul (int_mul (int_neg d11) d23 (by norm_num)) d32 (by norm_num))
      (int_mul (int_mul d12 d21 (by norm_num)) d33 (by norm_num)) (by norm_num)
    obtain ⟨s, hs⟩ := J.div_zero 1 _ 1 J.one (hdet.trans (by norm_num)) one_ne_zero
    have hj := int_add (int_add
      (int_mul (int_mul (int_neg d23) d32 (by norm_num)) r1 (by norm_num))
      (int_mul (int_mul (int_neg d12) d33 (by norm_num)) r2 (by norm_num)) (by norm_num))
      (int_mul (int_mul d12 d23 (by norm_num)) r3 (by norm_num)) (by norm_num)
    exact nan_sub (.inr (inf_mul_zero hs (hj.trans (by norm_num))))
  have he : J.val ((sixty : FTri D).error ((sixty : FTri D).gaussStep ⟨2, 1, 1⟩)) = .nan :=
    error_nan (.inl (nan_sub (.inl (nan_add (.inl (nan_add (.inl (nan_mul (.inl hx)))))))))
  have small : lt ((sixty : FTri D).error ⟨2, 1, 1⟩) (lit (1 / 10 ^ 10)) = false := by
    rw [← Bool.not_eq_true, J.lt, err, J.lit]
    have h1 := J.rnd_mono ((1 / 10 ^ 10 : ℚ) : ℝ) 1 (by norm_num)
    rw [J.rnd_val 1 1 J.one] at h1
    generalize J.rnd ((1 / 10 ^ 10 : ℚ) : ℝ) = v at *
    rcases v with _ | s | x
    · exact id
    · cases s
      · exact h1.elim
      · exact id
    · have h1 : x ≤ 1 := h1
      show ¬ ((3 : ℤ) : ℝ) < x
      norm_num
      linarith
  have nanx : ∀ (m : Nat) (l : V3 D), J.val (FTri.error sixty l) = .nan → J.val l.x = .nan →
      J.val (FTri.refine sixty m l).x = .nan := by
    intro m
    induction m with
    | zero => exact fun _ _ h => h
    | succ m ih =>
      intro l h h'
      unfold FTri.refine
      rw [nan_lt (J := J) (.inl h)]
      simp only [Bool.false_eq_true, if_false]
      rw [nan_lt (J := J) (.inl h)]
      simp only [Bool.false_eq_true, if_false]
      exact ih _ (gaussStep_nan h) (nan_sub (.inr (nan_mul (.inr (nan_dot (of_error_nan h))))))
  unfold FTri.refine
  rw [small]
  simp only [Bool.false_eq_true, if_false]
  rw [nan_lt (J := J) (.inr he)]
  simp only [Bool.false_eq_true, if_false]
  exact nanx n _ he hx

end

open ExFloat in
/-- A point with a NaN coordinate, and bearings that are numbers: no pose. -/
example (inverse : M3 F32 → Option (M3 F32)) (toRotation : M3 F32 → M3 F32) :
    festimate inverse toRotation 5 [(⟨1, 0, 0⟩, ⟨1, 2, 3, 1⟩), (⟨0, 1, 0⟩, ⟨1, toF .nan, 3, 1⟩), (⟨0, 0, 1⟩, ⟨2, 2, 1, 1⟩)] =
      some [] :=
  C103_nan_coordinate ExFloat.ieee inverse toRotation 5 [] ⟨(⟨0, 1, 0⟩, ⟨1, toF .nan, 3, 1⟩), by simp, .inr (.inl rfl)⟩

/-- The hypothesis of `C103_refine_done` is met by depths 1 and distances and angles of an equilateral triangle. -/
example (J : Ieee ExFloat.F32) (hJ : (Flt.num 0).Lt (J.rnd (1 / 10 ^ 10))) (n : Nat) :
    (⟨1, 1, 1, lit (1 / 2), lit (1 / 2), lit (1 / 2)⟩ : FTri ExFloat.F32).refine n ⟨1, 1, 1⟩ = ⟨1, 1, 1⟩ := by
  have one : J.val (1 : ExFloat.F32) = .num ((1 : ℤ) : ℝ) := by simpa using J.one
  have two : J.val (2 : ExFloat.F32) = .num ((2 : ℤ) : ℝ) := by simpa using val_two (I := J)
  have hb : J.val (-2 * lit (1 / 2) : ExFloat.F32) = .num ((-1 : ℤ) : ℝ) := by
    rw [J.mul, J.neg, two, val_half]
    show J.rnd (-((2 : ℤ) : ℝ) * (1 / 2)) = _
    have := exact_int (I := J) (n := -1) (by norm_num)
    rw [show (-((2 : ℤ) : ℝ) * (1 / 2)) = ((-1 : ℤ) : ℝ) by norm_num]
    exact this
  have r := int_abs (int_sub (int_add (int_add (int_mul one one (by norm_num)) (int_mul one one (by norm_num)) (by norm_num))
    (int_mul (int_mul hb one (by norm_num)) one (by norm_num)) (by norm_num)) one (by norm_num))
  have e := int_add (int_add r r (by norm_num)) r (by norm_num)
  exact C103_refine_done J _ n (x := 0) (e.trans (by norm_num)) hJ

end Verif.Geo.P3P
