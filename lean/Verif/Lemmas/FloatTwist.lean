import Verif.Model.FloatTwist
import Mathlib.Tactic.Linarith

/-!
# Lemmas: lambda-twist with floating point numbers
-/

namespace Verif.Akaze

open Verif.Bicubic (Flt)

variable {D : Type} [FloatOps D] (J : Ieee D)

/-- NaN or infinite. -/
def Ieee.NotNumber (a : D) : Prop := ∀ x, J.val a ≠ .num x

variable {J}

section NaN

variable {a b : D}

theorem nan_add (h : J.val a = .nan ∨ J.val b = .nan) : J.val (a + b) = .nan := by
  rw [J.add]
  rcases h with h | h <;> rw [h]
  · generalize J.val b = v; rcases v with _ | s | x <;> rfl
  · generalize J.val a = v; rcases v with _ | s | x <;> rfl

theorem nan_neg (h : J.val a = .nan) : J.val (-a) = .nan := by rw [J.neg, h]; rfl

theorem nan_sub (h : J.val a = .nan ∨ J.val b = .nan) : J.val (a - b) = .nan := by
  rw [J.sub]
  rcases h with h | h <;> rw [h]
  · generalize J.val b = v; rcases v with _ | s | x <;> rfl
  · generalize J.val a = v; rcases v with _ | s | x <;> rfl

theorem nan_mul (h : J.val a = .nan ∨ J.val b = .nan) : J.val (a * b) = .nan := by
  rw [J.mul]
  rcases h with h | h <;> rw [h]
  · generalize J.val b = v; rcases v with _ | s | x <;> rfl
  · generalize J.val a = v; rcases v with _ | s | x <;> rfl

theorem nan_div (h : J.val a = .nan ∨ J.val b = .nan) : J.val (a / b) = .nan := J.div_nan a b h
theorem nan_sqrt (h : J.val a = .nan) : J.val (FloatOps.sqrt a) = .nan := J.sqrt_nan a h
theorem nan_abs (h : J.val a = .nan) : J.val (FloatOps.abs a) = .nan := J.abs_nan a h

theorem nan_lt (h : J.val a = .nan ∨ J.val b = .nan) : FloatOps.lt a b = false := by
  rw [← Bool.not_eq_true, J.lt]
  rcases h with h | h <;> rw [h]
  · exact id
  · generalize J.val a = v; rcases v with _ | s | x
    · exact id
    · cases s <;> exact id
    · exact id

theorem nan_le (h : J.val a = .nan ∨ J.val b = .nan) : FloatOps.le a b = false := by
  rw [← Bool.not_eq_true, J.le]
  rcases h with h | h <;> rw [h]
  · generalize J.val b = v; rcases v with _ | s | x
    · exact id
    · cases s <;> exact id
    · exact id
  · exact id

end NaN

section NotNumber

variable {a b : D}

theorem notNumber_cases (h : J.NotNumber a) : J.val a = .nan ∨ ∃ s, J.val a = .inf s := by
  unfold Ieee.NotNumber at h
  generalize J.val a = v at *
  rcases v with _ | s | x
  · exact .inl rfl
  · exact .inr ⟨s, rfl⟩
  · exact absurd rfl (h x)

theorem not_add (h : J.NotNumber a ∨ J.NotNumber b) : J.NotNumber (a + b) := by
  unfold Ieee.NotNumber at *
  rw [J.add]
  generalize J.val a = u at *
  generalize J.val b = v at *
  rcases u with _ | s | x <;> rcases v with _ | t | y <;> intro z <;>
    simp_all [Flt.add, roundedBy]
  split_ifs <;> simp

theorem not_sub (h : J.NotNumber a ∨ J.NotNumber b) : J.NotNumber (a - b) := by
  unfold Ieee.NotNumber at *
  rw [J.sub]
  generalize J.val a = u at *
  generalize J.val b = v at *
  rcases u with _ | s | x <;> rcases v with _ | t | y <;> intro z <;>
    simp_all [Flt.sub, Flt.neg, Flt.add, roundedBy]
  split_ifs <;> simp

theorem not_mul (h : J.NotNumber a ∨ J.NotNumber b) : J.NotNumber (a * b) := by
  unfold Ieee.NotNumber at *
  rw [J.mul]
  generalize J.val a = u at *
  generalize J.val b = v at *
  rcases u with _ | s | x <;> rcases v with _ | t | y <;> intro z <;>
    simp_all [Flt.mul, roundedBy] <;> split_ifs <;> simp

/-- The quotient of two values that are not numbers. -/
theorem not_div (h : J.NotNumber a) (h' : J.NotNumber b) : J.val (a / b) = .nan := by
  rcases notNumber_cases h with h | ⟨s, h⟩
  · exact nan_div (.inl h)
  · rcases notNumber_cases h' with h' | ⟨t, h'⟩
    · exact nan_div (.inr h')
    · exact J.inf_div_inf a b s t h h'

end NotNumber

/-- Neither NaN nor negative. -/
def Flt.NonNeg (v : Flt) : Prop := (Flt.num 0).Le v

theorem nonNeg_abs {a : D} (h : J.val a ≠ .nan) : Flt.NonNeg (J.val (FloatOps.abs a)) := by
  rcases e : J.val a with _ | s | x
  · exact absurd e h
  · rw [J.abs_inf a s e]; trivial
  · rw [J.abs_num a x e]; exact abs_nonneg x

theorem rnd_nonNeg {x : ℝ} (h : 0 ≤ x) : Flt.NonNeg (J.rnd x) := by
  have := J.rnd_mono 0 x h
  rw [J.rnd_val 0 0 J.zero] at this
  exact this

theorem nonNeg_add {a b : D} (ha : Flt.NonNeg (J.val a)) (hb : Flt.NonNeg (J.val b)) :
    Flt.NonNeg (J.val (a + b)) := by
  rw [J.add]
  generalize J.val a = u at *
  generalize J.val b = v at *
  unfold Flt.NonNeg at *
  rcases u with _ | s | x <;> rcases v with _ | t | y <;> (try cases s) <;> (try cases t) <;>
    simp_all [Flt.Le, Flt.Ge, Flt.add, roundedBy]
  exact rnd_nonNeg (add_nonneg ha hb)

theorem nonNeg_mul {a b : D} (ha : (Flt.num 0).Lt (J.val a)) (hb : (Flt.num 0).Lt (J.val b)) :
    Flt.NonNeg (J.val (a * b)) := by
  rw [J.mul]
  generalize J.val a = u at *
  generalize J.val b = v at *
  unfold Flt.NonNeg
  rcases u with _ | s | x <;> rcases v with _ | t | y <;> (try cases s) <;> (try cases t) <;>
    simp_all [Flt.Lt, Flt.mul, roundedBy]
  · trivial
  · rw [if_neg hb.ne', decide_eq_false (not_lt.2 hb.le)]; trivial
  · rw [if_neg ha.ne', decide_eq_false (not_lt.2 ha.le)]; trivial
  · exact rnd_nonNeg (mul_nonneg ha.le hb.le)

theorem pos_sqrt {a : D} (h : (Flt.num 0).Lt (J.val a)) : (Flt.num 0).Lt (J.val (FloatOps.sqrt a)) := by
  rcases e : J.val a with _ | s | x
  · rw [e] at h; exact h.elim
  · rw [e] at h
    cases s
    · rw [J.sqrt_inf a false e]; trivial
    · exact h.elim
  · rw [e] at h
    have hx : 0 < x := h
    rw [J.sqrt_num a x e, if_neg (not_lt.2 hx.le)]
    have key : ∀ y, 0 < y → J.rnd y = .num y → y ≤ √x → (Flt.num 0).Lt (J.rnd √x) := by
      intro y hy ey hle
      have := J.rnd_mono y _ hle
      rw [ey] at this
      generalize J.rnd √x = v at *
      rcases v with _ | s | z
      · exact this.elim
      · cases s
        · trivial
        · exact this.elim
      · exact lt_of_lt_of_le hy this
    rcases le_total x 1 with h1 | h1
    · refine key x hx (J.rnd_val a x e) ?_
      exact Real.le_sqrt_of_sq_le (by nlinarith)
    · refine key 1 one_pos (J.rnd_val 1 1 J.one) ?_
      rwa [Real.one_le_sqrt]

theorem nonNeg_ne_nan {v : Flt} (h : Flt.NonNeg v) : v ≠ .nan := by rintro rfl; exact h

end Verif.Akaze

namespace Verif.Geo.P3P

open Verif.Akaze
open Verif.Bicubic (Flt)
open Verif.Akaze.FloatOps (lit lt le abs sqrt)

variable {D : Type} [FloatOps D] {J : Ieee D}

/-! ### The cubic equation -/

theorem fcubeStart_nan {b c d : D} (h : J.val b = .nan) : J.val (fcubeStart b c d) = .nan := by
  unfold fcubeStart
  rw [nan_le (J := J) (.inr (nan_mul (.inl h)))]
  simp only [Bool.false_eq_true, if_false]
  have h0 : J.val (-b / 3) = .nan := nan_div (.inl (nan_neg h))
  split
  · exact nan_add (.inl h0)
  · exact h0

theorem fnewtonStep_nan {b c d r : D} (h : J.val r = .nan) : J.val (fnewtonStep b c d r) = .nan := nan_sub (.inl h)

theorem fnewtonFixed_nan {b c d : D} : ∀ (n : Nat) (r : D), J.val r = .nan → J.val (fnewtonFixed b c d n r) = .nan
  | 0, _, h => h
  | n + 1, _, h => fnewtonFixed_nan n _ (fnewtonStep_nan h)

theorem fnewtonUntil_nan {b c d : D} : ∀ (n : Nat) (r : D), J.val r = .nan → J.val (fnewtonUntil b c d n r) = .nan
  | 0, _, h => h
  | n + 1, r, h => by
    unfold fnewtonUntil
    split
    · exact fnewtonUntil_nan n _ (fnewtonStep_nan h)
    · exact h

theorem fcubeRoot_nan {b c d : D} (h : J.val b = .nan) : J.val (fcubeRoot b c d) = .nan :=
  fnewtonUntil_nan _ _ (fnewtonFixed_nan _ _ (fcubeStart_nan h))

/-! ### Nothing is pushed when the root is NaN -/

theorem froot2real_nan {b c : D} (h : J.val b = .nan) :
    J.val (froot2real b c).2.1 = .nan ∧ J.val (froot2real b c).2.2 = .nan := by
  simp only [froot2real]
  rw [nan_lt (J := J) (.inl (nan_sub (.inl (nan_mul (.inl h))))), nan_lt (J := J) (.inl h)]
  simp only [Bool.false_eq_true, if_false]
  exact ⟨nan_div (.inr (nan_add (.inl (nan_neg h)))), nan_div (.inr (nan_sub (.inl (nan_neg h))))⟩

theorem feigenVector_nan {x : M3 D} {e : D} (h : J.val e = .nan) : J.val (feigenVector x e).x = .nan := by
  have h1 : J.val (1 / (e * (x.m11 + x.m22) + -x.m11 * x.m22 - e * e + x.m12 * x.m12)) = .nan :=
    nan_div (.inr (nan_add (.inl (nan_sub (.inr (nan_mul (.inl h)))))))
  exact nan_mul (.inl (nan_mul (.inr h1)))

theorem feigenSingular_nan {x : M3 D} (h : J.val x.m11 = .nan) : J.val (feigenSingular x).1.x = .nan := by
  have hb : J.val (-x.m11 - x.m22 - x.m33) = .nan := nan_sub (.inl (nan_sub (.inl (nan_neg h))))
  obtain ⟨h1, h2⟩ := froot2real_nan (J := J)
    (c := -(x.m12 * x.m12) - x.m13 * x.m13 - x.m23 * x.m23 + x.m11 * (x.m22 + x.m33) + x.m22 * x.m33) hb
  refine feigenVector_nan (J := J) ?_
  split
  · exact h2
  · exact h1

namespace FTri

theorem pushSolutions_nan {k : FTri D} {v1 v2 : V3 D} {ls : List (V3 D)} {ratio : D} (h : J.val v1.x = .nan) :
    k.pushSolutions v1 v2 ls ratio = some ls := by
  have hw2 : J.val (1 / (ratio * v2.x - v1.x)) = .nan := nan_div (.inr (nan_sub (.inr h)))
  have hw1 : J.val (k.quadratic v1 v2 ratio).2.1 = .nan := nan_mul (.inl hw2)
  have hb : J.val (k.quadratic v1 v2 ratio).2.2.1 = .nan := by
    refine nan_mul (.inl (nan_div (.inr (nan_sub (.inl (nan_sub (.inl ?_)))))))
    exact nan_mul (.inr hw1)
  unfold pushSolutions
  simp only
  rw [nan_le (J := J) (.inr (nan_sub (.inl (nan_mul (.inl hb)))))]
  simp

theorem depths_nan {k : FTri D} (h : J.NotNumber k.p2) (h' : J.NotNumber k.p3) : k.depths = some [] := by
  have hg : J.val (fcubeRoot (k.p2 / k.p3) (k.p1 / k.p3) (k.p0 / k.p3)) = .nan := fcubeRoot_nan (not_div h h')
  generalize fcubeRoot (k.p2 / k.p3) (k.p1 / k.p3) (k.p0 / k.p3) = g at hg
  have hv : J.val (feigenSingular (k.d0 (fcubeRoot (k.p2 / k.p3) (k.p1 / k.p3) (k.p0 / k.p3)))).1.x = .nan :=
    feigenSingular_nan (J := J) (nan_mul (.inr (nan_sub (.inr (fcubeRoot_nan (not_div h h'))))))
  unfold depths
  simp only
  rw [pushSolutions_nan hv]
  exact pushSolutions_nan hv

/-! ### The depths -/

theorem pushSolution_spec {P : V3 D → Prop} {k : FTri D} {ls : List (V3 D)} {tau w0 w1 : D}
    (hP : ∀ l, lt 0 tau = true → k.possibleDepths tau w0 w1 = some l → le 0 l.x = true → P l)
    (hl : ∀ l ∈ ls, P l) (hn : ls.length < 4) :
    ∃ ls', k.pushSolution ls tau w0 w1 = some ls' ∧ (∀ l ∈ ls', P l) ∧ ls'.length ≤ ls.length + 1 := by
  unfold pushSolution
  by_cases ht : lt 0 tau = true
  · rw [if_pos ht]
    rcases e : k.possibleDepths tau w0 w1 with _ | l
    · exact ⟨ls, rfl, hl, by omega⟩
    · simp only
      by_cases hx : le 0 l.x = true
      · rw [if_pos hx]
        refine ⟨ls ++ [l], by simp [push4, hn], ?_, by simp⟩
        intro m hm
        rcases List.mem_append.1 hm with hm | hm
        · exact hl m hm
        · rw [List.mem_singleton.1 hm]; exact hP l ht e hx
      · rw [if_neg hx]
        exact ⟨ls, rfl, hl, by omega⟩
  · rw [if_neg ht]
    exact ⟨ls, rfl, hl, by omega⟩

theorem pushSolutions_spec {P : V3 D → Prop} {k : FTri D} {ls : List (V3 D)} {v1 v2 : V3 D} {ratio : D}
    (hP : ∀ tau w0 w1 l, lt 0 tau = true → k.possibleDepths tau w0 w1 = some l → le 0 l.x = true → P l)
    (hl : ∀ l ∈ ls, P l) (hn : ls.length < 3) :
    ∃ ls', k.pushSolutions v1 v2 ls ratio = some ls' ∧ (∀ l ∈ ls', P l) ∧ ls'.length ≤ ls.length + 2 := by
  unfold pushSolutions
  simp only
  split
  · obtain ⟨l1, e1, h1, n1⟩ := pushSolution_spec (k := k) (ls := ls) (fun l => hP
      (froot2real (k.quadratic v1 v2 ratio).2.2.1 (k.quadratic v1 v2 ratio).2.2.2).2.1 (k.quadratic v1 v2 ratio).1
      (k.quadratic v1 v2 ratio).2.1 l) hl (by omega)
    obtain ⟨l2, e2, h2, n2⟩ := pushSolution_spec (k := k) (ls := l1) (fun l => hP
      (froot2real (k.quadratic v1 v2 ratio).2.2.1 (k.quadratic v1 v2 ratio).2.2.2).2.2 (k.quadratic v1 v2 ratio).1
      (k.quadratic v1 v2 ratio).2.1 l) h1 (by omega)
    rw [e1, Option.bind_some]
    exact ⟨l2, e2, h2, by omega⟩
  · exact ⟨ls, rfl, hl, by omega⟩

theorem depths_spec {P : V3 D → Prop} {k : FTri D}
    (hP : ∀ tau w0 w1 l, lt 0 tau = true → k.possibleDepths tau w0 w1 = some l → le 0 l.x = true → P l) :
    ∃ ls, k.depths = some ls ∧ (∀ l ∈ ls, P l) ∧ ls.length ≤ 4 := by
  unfold depths
  simp only
  obtain ⟨l1, e1, h1, n1⟩ := pushSolutions_spec (k := k) (ls := [])
    (v1 := (feigenSingular (k.d0 (fcubeRoot (k.p2 / k.p3) (k.p1 / k.p3) (k.p0 / k.p3)))).1)
    (v2 := (feigenSingular (k.d0 (fcubeRoot (k.p2 / k.p3) (k.p1 / k.p3) (k.p0 / k.p3)))).2.1)
    (ratio := sqrt (maxZero
      (-(feigenSingular (k.d0 (fcubeRoot (k.p2 / k.p3) (k.p1 / k.p3) (k.p0 / k.p3)))).2.2.2 /
      (feigenSingular (k.d0 (fcubeRoot (k.p2 / k.p3) (k.p1 / k.p3) (k.p0 / k.p3)))).2.2.1))) hP (by simp) (by simp)
  obtain ⟨l2, e2, h2, n2⟩ := pushSolutions_spec (k := k) (ls := l1)
    (v1 := (feigenSingular (k.d0 (fcubeRoot (k.p2 / k.p3) (k.p1 / k.p3) (k.p0 / k.p3)))).1)
    (v2 := (feigenSingular (k.d0 (fcubeRoot (k.p2 / k.p3) (k.p1 / k.p3) (k.p0 / k.p3)))).2.1)
    (ratio := -sqrt (maxZero
      (-(feigenSingular (k.d0 (fcubeRoot (k.p2 / k.p3) (k.p1 / k.p3) (k.p0 / k.p3)))).2.2.2 /
      (feigenSingular (k.d0 (fcubeRoot (k.p2 / k.p3) (k.p1 / k.p3) (k.p0 / k.p3)))).2.2.1))) hP h1
      (by simp at n1; omega)
  rw [e1, Option.bind_some]
  exact ⟨l2, e2, h2, by simp at n1; omega⟩

end FTri

end Verif.Geo.P3P
