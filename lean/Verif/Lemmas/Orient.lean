import Verif.Spec.Orient
import Verif.Lemmas.Detect
import Mathlib.Analysis.Real.Pi.Bounds

/-!
# Lemmas: the orientation of keypoints
-/

namespace Verif.Akaze

open Real

/-! ## Angles -/

theorem remEuclid_spec (t : ℝ) {m : ℝ} (hm : 0 < m) :
    0 ≤ remEuclid t m ∧ remEuclid t m < m ∧ ∃ n : ℤ, remEuclid t m = t - m * n := by
  unfold remEuclid
  have h1 := Int.floor_le (t / m)
  have h2 := Int.lt_floor_add_one (t / m)
  rw [le_div_iff₀ hm] at h1
  rw [div_lt_iff₀ hm] at h2
  exact ⟨by linarith, by linarith, _, rfl⟩

theorem fastAtan2_range (y x : ℝ) : 0 ≤ fastAtan2 y x ∧ fastAtan2 y x < 2 * π :=
  ⟨(remEuclid_spec _ two_pi_pos).1, (remEuclid_spec _ two_pi_pos).2.1⟩

theorem fastAtan2_spec (y x : ℝ) : x = √(x ^ 2 + y ^ 2) * cos (fastAtan2 y x) ∧
    y = √(x ^ 2 + y ^ 2) * sin (fastAtan2 y x) := by
  obtain ⟨n, hn⟩ := (remEuclid_spec ((⟨x, y⟩ : ℂ).arg + 2 * π) two_pi_pos).2.2
  have e : fastAtan2 y x = (⟨x, y⟩ : ℂ).arg - ((n - 1 : ℤ) : ℝ) * (2 * π) := by
    unfold fastAtan2; rw [hn]; push_cast; ring
  have hnorm : ‖(⟨x, y⟩ : ℂ)‖ = √(x ^ 2 + y ^ 2) := by rw [Complex.norm_eq_sqrt_sq_add_sq]
  rw [e, cos_sub_int_mul_two_pi, sin_sub_int_mul_two_pi, ← hnorm, Complex.norm_mul_cos_arg, Complex.norm_mul_sin_arg]
  exact ⟨rfl, rfl⟩

theorem inWindow_iff {a θ : ℝ} (ha : 0 ≤ a) (ha' : a < 2 * π) (hθ : 0 < θ) (hθ' : θ < 2 * π) :
    inWindow a θ = true ↔ ∃ n : ℤ, a < θ + n * (2 * π) ∧ θ + n * (2 * π) < a + π / 3 := by
  have hpi := pi_pos
  unfold inWindow
  simp only [decide_eq_true_eq]
  constructor
  · split
    · rintro (⟨h1, _⟩ | ⟨_, h2 | h2⟩)
      · linarith
      · exact ⟨1, by push_cast; linarith, by push_cast; linarith⟩
      · exact ⟨0, by push_cast; linarith, by push_cast; linarith⟩
    · rintro (⟨_, h1, h2⟩ | ⟨h1, _⟩)
      · exact ⟨0, by push_cast; linarith, by push_cast; linarith⟩
      · linarith
  · rintro ⟨n, h1, h2⟩
    have hn : n = 0 ∨ n = 1 := by
      have h3 : (n : ℝ) < 2 := by
        by_contra hc
        have := mul_le_mul_of_nonneg_right (not_lt.1 hc) (by positivity : 0 ≤ 2 * π)
        linarith
      have h4 : (-1 : ℝ) < n := by
        by_contra hc
        have := mul_le_mul_of_nonneg_right (not_lt.1 hc) (by positivity : 0 ≤ 2 * π)
        linarith
      have h3' : n < 2 := by exact_mod_cast h3
      have h4' : -1 < n := by exact_mod_cast h4
      omega
    rcases hn with rfl | rfl
    · push_cast at h1 h2
      split
      · exact Or.inr ⟨by linarith, Or.inr ⟨by linarith, hθ'⟩⟩
      · exact Or.inl ⟨by linarith, by linarith, by linarith⟩
    · push_cast at h1 h2
      rw [if_pos (by linarith)]
      exact Or.inr ⟨by linarith, Or.inl ⟨hθ, by linarith⟩⟩

theorem sqrt_pos_of_ne {v : ℝ × ℝ} (hv : v ≠ (0, 0)) : 0 < √(v.1 ^ 2 + v.2 ^ 2) := by
  refine sqrt_pos.2 ?_
  by_contra hc
  have h1 : v.1 = 0 := by nlinarith [sq_nonneg v.1, sq_nonneg v.2]
  have h2 : v.2 = 0 := by nlinarith [sq_nonneg v.1, sq_nonneg v.2]
  exact hv (Prod.ext h1 h2)

/-- The test of the program is right for vectors other than those that point exactly to the right. -/
theorem inWindow_spec {a : ℝ} {v : ℝ × ℝ} (ha : 0 ≤ a) (ha' : a < 2 * π) (hv : v ≠ (0, 0))
    (hr : ¬ (0 < v.1 ∧ v.2 = 0)) : inWindow a (fastAtan2 v.2 v.1) = true ↔ InWindow a v := by
  obtain ⟨r1, r2⟩ := fastAtan2_range v.2 v.1
  obtain ⟨s1, s2⟩ := fastAtan2_spec v.2 v.1
  have hpos := sqrt_pos_of_ne hv
  have h0 : 0 < fastAtan2 v.2 v.1 := by
    refine lt_of_le_of_ne r1 (fun h => hr ?_)
    rw [← h, cos_zero, mul_one] at s1
    rw [← h, sin_zero, mul_zero] at s2
    exact ⟨by rw [s1]; exact hpos, s2⟩
  rw [inWindow_iff ha ha' h0 r2]
  constructor
  · rintro ⟨n, h1, h2⟩
    refine ⟨fastAtan2 v.2 v.1 + n * (2 * π), ?_, ?_, h1, h2⟩
    · rw [cos_add_int_mul_two_pi]; exact s1
    · rw [sin_add_int_mul_two_pi]; exact s2
  · rintro ⟨θ, c1, c2, h1, h2⟩
    have e1 : cos θ = cos (fastAtan2 v.2 v.1) := mul_left_cancel₀ hpos.ne' (c1.symm.trans s1)
    have e2 : sin θ = sin (fastAtan2 v.2 v.1) := mul_left_cancel₀ hpos.ne' (c2.symm.trans s2)
    have e3 : cos (θ - fastAtan2 v.2 v.1) = 1 := by
      rw [cos_sub, e1, e2, ← sq, ← sq]; exact cos_sq_add_sin_sq _
    obtain ⟨n, hn⟩ := (cos_eq_one_iff _).1 e3
    exact ⟨n, by rw [hn]; linarith, by rw [hn]; linarith⟩

/-! ## Sums over windows -/

theorem windowSum_aux {a : ℝ} {l : List (ℝ × ℝ)} (ha : 0 ≤ a) (ha' : a < 2 * π)
    (hr : ∀ v ∈ l, ¬ (0 < v.1 ∧ v.2 = 0)) : ∀ s : ℝ × ℝ,
    l.foldl (fun s r => if inWindow a (fastAtan2 r.2 r.1) then (s.1 + r.1, s.2 + r.2) else s) s = s + sumIn a l := by
  induction l with
  | nil => intro s; simp [sumIn]
  | cons v l ih =>
    intro s
    rw [List.foldl_cons, ih (fun u hu => hr u (List.mem_cons_of_mem _ hu))]
    have hv := hr v List.mem_cons_self
    by_cases h0 : v = (0, 0)
    · have e1 : (if inWindow a (fastAtan2 v.2 v.1) then (s.1 + v.1, s.2 + v.2) else s) = s := by
        rw [h0]; split <;> simp
      have e2 : sumIn a (v :: l) = sumIn a l := by
        unfold sumIn
        rw [List.filter_cons]
        split
        · rw [List.sum_cons, h0]; exact zero_add _
        · rfl
      rw [e1, e2]
    · by_cases hw : InWindow a v
      · rw [if_pos ((inWindow_spec ha ha' h0 hv).2 hw)]
        have e2 : sumIn a (v :: l) = v + sumIn a l := by
          unfold sumIn
          rw [List.filter_cons, if_pos (by simpa using hw), List.sum_cons]
        rw [e2, ← add_assoc]; rfl
      · rw [if_neg (fun h => hw ((inWindow_spec ha ha' h0 hv).1 h))]
        have e2 : sumIn a (v :: l) = sumIn a l := by
          unfold sumIn
          rw [List.filter_cons, if_neg (by simpa using hw)]
        rw [e2]

theorem windowSum_eq {a : ℝ} {l : List (ℝ × ℝ)} (ha : 0 ≤ a) (ha' : a < 2 * π)
    (hr : ∀ v ∈ l, ¬ (0 < v.1 ∧ v.2 = 0)) : windowSum l a = sumIn a l := by
  unfold windowSum
  rw [windowSum_aux ha ha' hr]
  exact zero_add _

theorem mem_windowStarts {a : ℝ} : a ∈ windowStarts ↔ ∃ k : Nat, a = k * 0.15 ∧ (k : ℝ) * 0.15 < 2 * π := by
  unfold windowStarts
  simp only [List.mem_map, List.mem_range, Nat.lt_ceil]
  constructor
  · rintro ⟨k, h1, rfl⟩
    exact ⟨k, rfl, by rwa [lt_div_iff₀ (by norm_num)] at h1⟩
  · rintro ⟨k, rfl, h1⟩
    exact ⟨k, by rwa [lt_div_iff₀ (by norm_num)], rfl⟩

/-- Keeping the largest value seen. -/
theorem foldl_best {α : Type _} (val g : α → ℝ) : ∀ (l : List α) (b : ℝ × ℝ), 0 ≤ b.1 →
    let r := l.foldl (fun b a => if val a > b.1 then (val a, g a) else b) b
    b.1 ≤ r.1 ∧ (∀ a ∈ l, val a ≤ r.1) ∧ (r = b ∨ ∃ a ∈ l, r = (val a, g a) ∧ b.1 < val a)
  | [], b, _ => by simp
  | a :: l, b, hb => by
    simp only [List.foldl_cons]
    by_cases h : val a > b.1
    · rw [if_pos h]
      obtain ⟨h1, h2, h3⟩ := foldl_best val g l (val a, g a) (hb.trans h.le)
      refine ⟨h.le.trans h1, ?_, ?_⟩
      · intro c hc
        rcases List.mem_cons.1 hc with rfl | hc
        · exact h1
        · exact h2 c hc
      · rcases h3 with h3 | ⟨c, hc, h3, h4⟩
        · exact Or.inr ⟨a, List.mem_cons_self, h3, h⟩
        · exact Or.inr ⟨c, List.mem_cons_of_mem _ hc, h3, lt_trans h h4⟩
    · rw [if_neg h]
      obtain ⟨h1, h2, h3⟩ := foldl_best val g l b hb
      refine ⟨h1, ?_, ?_⟩
      · intro c hc
        rcases List.mem_cons.1 hc with rfl | hc
        · exact (not_lt.1 h).trans h1
        · exact h2 c hc
      · rcases h3 with h3 | ⟨c, hc, h3, h4⟩
        · exact Or.inl h3
        · exact Or.inr ⟨c, List.mem_cons_of_mem _ hc, h3, h4⟩

theorem sqLen_eq_zero {v : ℝ × ℝ} (h : sqLen v ≤ 0) : v = (0, 0) := by
  unfold sqLen at h
  have h1 : v.1 = 0 := by nlinarith [sq_nonneg v.1, sq_nonneg v.2]
  have h2 : v.2 = 0 := by nlinarith [sq_nonneg v.1, sq_nonneg v.2]
  exact Prod.ext h1 h2

theorem bestAngle_dominant {l : List (ℝ × ℝ)} (hr : ∀ v ∈ l, ¬ (0 < v.1 ∧ v.2 = 0)) :
    IsDominant l (bestAngle l 0).2 := by
  have key := foldl_best (fun a => (windowSum l a).1 * (windowSum l a).1 + (windowSum l a).2 * (windowSum l a).2)
    (fun a => fastAtan2 (windowSum l a).2 (windowSum l a).1) windowStarts (0, 0) le_rfl
  change (0 : ℝ) ≤ (bestAngle l 0).1 ∧ (∀ a ∈ windowStarts, _ ≤ (bestAngle l 0).1) ∧ (bestAngle l 0 = _ ∨
    ∃ a ∈ windowStarts, bestAngle l 0 = _ ∧ _) at key
  obtain ⟨_, k2, k3⟩ := key
  have hlen : ∀ k : Nat, (k : ℝ) * 0.15 < 2 * π → sqLen (sumIn (k * 0.15) l) ≤ (bestAngle l 0).1 := by
    intro k hk
    have := k2 _ (mem_windowStarts.2 ⟨k, rfl, hk⟩)
    rw [windowSum_eq (by positivity) hk hr] at this
    unfold sqLen; rw [sq, sq]; exact this
  rcases k3 with k3 | ⟨a, ha, k3, k4⟩
  · refine Or.inl ⟨fun k hk => ?_, by rw [k3]⟩
    have := hlen k hk
    rw [k3] at this
    exact sqLen_eq_zero this
  · obtain ⟨k, rfl, hk⟩ := mem_windowStarts.1 ha
    rw [windowSum_eq (by positivity) hk hr] at k3 k4
    refine Or.inr ⟨k, hk, ?_, ?_, ?_⟩
    · intro h0; rw [h0] at k4; simp at k4
    · intro j hj
      refine (hlen j hj).trans (le_of_eq ?_)
      rw [k3]; unfold sqLen; ring
    · rw [k3]
      obtain ⟨r1, r2⟩ := fastAtan2_range (sumIn (k * 0.15) l).2 (sumIn (k * 0.15) l).1
      obtain ⟨s1, s2⟩ := fastAtan2_spec (sumIn (k * 0.15) l).2 (sumIn (k * 0.15) l).1
      exact ⟨r1, r2, Prod.ext s1 s2⟩

theorem bestAngle_range (l : List (ℝ × ℝ)) : 0 ≤ (bestAngle l 0).2 ∧ (bestAngle l 0).2 < 2 * π := by
  have key := foldl_best (fun a => (windowSum l a).1 * (windowSum l a).1 + (windowSum l a).2 * (windowSum l a).2)
    (fun a => fastAtan2 (windowSum l a).2 (windowSum l a).1) windowStarts (0, 0) le_rfl
  change (0 : ℝ) ≤ (bestAngle l 0).1 ∧ (∀ a ∈ windowStarts, _ ≤ (bestAngle l 0).1) ∧ (bestAngle l 0 = _ ∨
    ∃ a ∈ windowStarts, bestAngle l 0 = _ ∧ _) at key
  rcases key.2.2 with h | ⟨a, _, h, _⟩
  · rw [h]; exact ⟨le_rfl, two_pi_pos⟩
  · rw [h]; exact fastAtan2_range _ _

end Verif.Akaze
