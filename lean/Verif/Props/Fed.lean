import Verif.Lemmas.Fed
import Verif.Lemmas.FedSum

/-!
# C21, C22: the time steps of fast explicit diffusion

`fedInternal`, `fedByProcessTime` return `none` for a panic or an endless loop.
-/

namespace Verif.Akaze

theorem mapM_range {n : Nat} (f : Nat → ℝ) : ∀ (is : List Nat), (∀ i ∈ is, i < n) →
    is.mapM (fun i => ((List.range n).map f)[i]?) = some (is.map f) := by
  intro is
  induction is with
  | nil => intro _; rfl
  | cons i is ih =>
    intro h
    have hi := h i (by simp)
    rw [List.mapM_cons, ih (fun j hj => h j (by simp [hj]))]
    simp [hi]

theorem reordered_perm {n : Nat} (hn : n ≠ 1) (scale tauMax : ℝ) : ∃ l,
    fedInternal n scale tauMax true = some l ∧ l.Perm ((List.range n).map (tauStep n scale tauMax)) := by
  obtain ⟨hp1, hp2⟩ := nextPrime_spec n
  by_cases h0 : n = 0
  · subst h0
    exact ⟨[], by simp [fedInternal, collectIndices], by simp⟩
  have hperm := usable_perm hp2 (n := n) (kappa := n / 2) (by omega) (by omega) (by omega)
  have hc := collect_usable hp2 (n := n) (kappa := n / 2) (by omega) (by omega) n 0
    (by rw [hperm.length_eq, List.length_range])
  refine ⟨(usable n (n / 2) (nextPrime n) 0).map (tauStep n scale tauMax), ?_, hperm.map _⟩
  simp only [fedInternal, if_true, hc, Option.bind_some]
  exact mapM_range _ _ (fun i hi => List.mem_range.mp (hperm.subset hi))

/-- **C21.** Asking for the steps in the other order gives the same steps, each as often, except when there is
exactly one step. Missing for the full property: the case of one step, where it is false (`C21_one_step`). -/
theorem C21_permutation_partial (n : Nat) (hn : n ≠ 1) (scale tauMax : ℝ) : ∃ u l,
    fedInternal n scale tauMax false = some u ∧ fedInternal n scale tauMax true = some l ∧
      l.Perm u ∧ u.length = n := by
  obtain ⟨l, h1, h2⟩ := reordered_perm hn scale tauMax
  exact ⟨_, l, rfl, h1, h2, by simp⟩

/-- **C21 is false for one step.** A single step is never returned when reordering is asked for. -/
theorem C21_one_step (scale tauMax : ℝ) : fedInternal 1 scale tauMax true = none := by
  simp only [fedInternal, if_true]
  have : collectIndices 1 (1 / 2) (nextPrime 1) 1 0 = none := by
    have hp := (nextPrime_spec 1).1
    rw [collectIndices]
    have : searchIndex 1 (1 / 2) (nextPrime 1) (nextPrime 1) 0 = none := by
      obtain ⟨m, hm⟩ : ∃ m, nextPrime 1 = m + 1 := ⟨nextPrime 1 - 1, by omega⟩
      rw [hm, searchIndex]
      simp
    rw [this]; rfl
  rw [this]; rfl

theorem stepCount_spec {t tauMax : ℝ} {n : Nat} (h : stepCount t tauMax = n) (hn : 0 < n) :
    (n : ℝ) - 1 < Real.sqrt (3 * t / tauMax + 1 / 4) - 1 / 2 - 1 / 10 ^ 8 ∧
      Real.sqrt (3 * t / tauMax + 1 / 4) - 1 / 2 - 1 / 10 ^ 8 ≤ n := by
  unfold stepCount at h
  generalize Real.sqrt (3 * t / tauMax + 1 / 4) - 1 / 2 - 1 / 10 ^ 8 = x at h
  have h1 := (Nat.floor_eq_iff' hn.ne').mp h
  have hz : ⌈x⌉ = (n : ℤ) := by
    have a : ((n : ℤ) : ℝ) < (⌈x⌉ : ℝ) + 1 := by push_cast; linarith [h1.1]
    have b : (⌈x⌉ : ℝ) < ((n : ℤ) : ℝ) + 1 := by push_cast; linarith [h1.2]
    have a' : (n : ℤ) < ⌈x⌉ + 1 := by exact_mod_cast a
    have b' : ⌈x⌉ < (n : ℤ) + 1 := by exact_mod_cast b
    omega
  have h2 := Int.ceil_eq_iff.mp hz
  push_cast at h2
  exact h2

theorem stepCount_eq {t tauMax : ℝ} {n : Nat}
    (h1 : (n : ℝ) - 1 < Real.sqrt (3 * t / tauMax + 1 / 4) - 1 / 2 - 1 / 10 ^ 8)
    (h2 : Real.sqrt (3 * t / tauMax + 1 / 4) - 1 / 2 - 1 / 10 ^ 8 ≤ n) : stepCount t tauMax = n := by
  unfold stepCount
  have hz : ⌈Real.sqrt (3 * t / tauMax + 1 / 4) - 1 / 2 - 1 / 10 ^ 8⌉ = (n : ℤ) := by
    rw [Int.ceil_eq_iff]; push_cast; exact ⟨h1, h2⟩
  rw [hz]
  push_cast
  rw [Nat.floor_eq_iff (by positivity)]
  constructor <;> linarith

theorem internal_sum (n : Nat) (scale tauMax : ℝ) :
    ((List.range n).map (tauStep n scale tauMax)).sum = scale * tauMax * (n * (n + 1)) / 3 := by
  have e : ((List.range n).map (tauStep n scale tauMax)).sum =
      ∑ k ∈ Finset.range n, tauStep n scale tauMax k := by
    rw [Finset.sum_range]
    rw [← List.sum_ofFn, List.ofFn_eq_map]
    rw [← List.map_coe_finRange_eq_range, List.map_map]
    rfl
  rw [e]
  have : ∀ k, tauStep n scale tauMax k = (scale * tauMax / 2) *
      (1 / (Real.cos (Real.pi * (2 * (k : ℝ) + 1) * (1 / (4 * (n : ℝ) + 2))) *
        Real.cos (Real.pi * (2 * (k : ℝ) + 1) * (1 / (4 * (n : ℝ) + 2))))) := by
    intro k; simp only [tauStep]; ring
  simp only [this]
  rw [← Finset.mul_sum, sum_secants]
  ring

theorem cycle_result {t tauMax : ℝ} {r : Bool} {l : List ℝ} (h : fedByCycleTime t tauMax r = some l) :
    l.Perm ((List.range (stepCount t tauMax)).map (tauStep (stepCount t tauMax)
      (3 * t / (tauMax * (stepCount t tauMax * (stepCount t tauMax + 1) : Nat))) tauMax)) := by
  unfold fedByCycleTime at h
  simp only at h
  generalize stepCount t tauMax = n at h ⊢
  generalize 3 * t / (tauMax * (n * (n + 1) : Nat)) = s at h ⊢
  cases r with
  | false => simp only [fedInternal, Bool.false_eq_true, if_false, Option.some.injEq] at h; rw [h]
  | true =>
    by_cases h1 : n = 1
    · subst h1; rw [C21_one_step] at h; cases h
    · obtain ⟨l', e, hp⟩ := reordered_perm h1 s tauMax
      rw [e] at h
      obtain rfl := Option.some.inj h
      exact hp

/-- **C22.** If any steps are returned at all, `M` rounds of them take exactly the time `T` asked for, in
either order. Missing for the full property: for tiny times no step is returned (`C22_tiny_time`). -/
theorem C22_total_time_partial {T tauMax : ℝ} {M : Int} {r : Bool} {l : List ℝ} (hM : M ≠ 0)
    (ht : tauMax ≠ 0) (h : fedByProcessTime T M tauMax r = some l) (hl : l ≠ []) : M * l.sum = T := by
  have hp := cycle_result h
  have hn : stepCount (T / M) tauMax ≠ 0 := by
    intro e
    rw [e] at hp
    exact hl (List.Perm.eq_nil hp)
  rw [hp.sum_eq, internal_sum]
  generalize stepCount (T / M) tauMax = n at hn
  have hn' : (n : ℝ) ≠ 0 := by exact_mod_cast hn
  have hn2 : (n : ℝ) + 1 ≠ 0 := by positivity
  have hM' : (M : ℝ) ≠ 0 := by exact_mod_cast hM
  push_cast
  field_simp

/-- **C22, every step is positive** (for positive times and a positive stability limit). -/
theorem C22_steps_positive {T tauMax : ℝ} {M : Int} {r : Bool} {l : List ℝ} (hM : 0 < M) (hT : 0 < T)
    (ht : 0 < tauMax) (h : fedByProcessTime T M tauMax r = some l) : ∀ x ∈ l, 0 < x := by
  have hp := cycle_result h
  intro x hx
  have hx' := hp.subset hx
  obtain ⟨k, hk, rfl⟩ := List.mem_map.mp hx'
  rw [List.mem_range] at hk
  generalize stepCount (T / M) tauMax = n at hk
  have hM' : (0 : ℝ) < M := by exact_mod_cast hM
  have hn : (0 : ℝ) < (n * (n + 1) : Nat) := by
    have : 0 < n * (n + 1) := Nat.mul_pos (by omega) (by omega)
    exact_mod_cast this
  have hc : 0 < Real.cos (Real.pi * (2 * (k : ℝ) + 1) * (1 / (4 * (n : ℝ) + 2))) := by
    have hk' : (k : ℝ) + 1 ≤ n := by exact_mod_cast hk
    have hpi := Real.pi_pos
    have hk0 : (0 : ℝ) ≤ k := Nat.cast_nonneg k
    refine Real.cos_pos_of_mem_Ioo ⟨?_, ?_⟩
    · have : 0 < Real.pi * (2 * (k : ℝ) + 1) * (1 / (4 * (n : ℝ) + 2)) := by positivity
      linarith
    · rw [mul_one_div, div_lt_div_iff₀ (by positivity) (by norm_num)]
      nlinarith
  simp only [tauStep]
  have : 0 < 3 * (T / M) / (tauMax * (n * (n + 1) : Nat)) := by positivity
  positivity

/-- **C22, the number of steps is the least possible.** With `n` steps at most `tauMax·n(n+1)/3` of time can
pass stably. The number chosen suffices, up to the slack of `1e-8` in the code, and one fewer would not. -/
theorem C22_least_steps {T tauMax : ℝ} {M : Int} {r : Bool} {l : List ℝ} (hM : 0 < M) (hT : 0 < T)
    (ht : 0 < tauMax) (h : fedByProcessTime T M tauMax r = some l) (hl : l ≠ []) :
    tauMax * ((l.length - 1) * l.length) / 3 < T / M ∧
      T / M ≤ tauMax * ((l.length + 1 / 10 ^ 8) * (l.length + 1 + 1 / 10 ^ 8)) / 3 := by
  have hp := cycle_result h
  have hlen : l.length = stepCount (T / M) tauMax := by rw [hp.length_eq]; simp
  have hpos : 0 < l.length := List.length_pos_iff.mpr hl
  obtain ⟨h1, h2⟩ := stepCount_spec hlen.symm hpos
  have hM' : (0 : ℝ) < M := by exact_mod_cast hM
  have hq : 0 < T / M := by positivity
  generalize T / M = t at *
  have hn : (1 : ℝ) ≤ l.length := by exact_mod_cast hpos
  generalize (l.length : ℝ) = n at *
  have hs := Real.mul_self_sqrt (show 0 ≤ 3 * t / tauMax + 1 / 4 by positivity)
  have hs0 := Real.sqrt_nonneg (3 * t / tauMax + 1 / 4)
  generalize Real.sqrt (3 * t / tauMax + 1 / 4) = s at *
  have he : t = tauMax * (s * s - 1 / 4) / 3 := by
    rw [hs]; field_simp; ring
  rw [he]
  constructor
  · have : (n - 1) * n < s * s - 1 / 4 := by nlinarith
    have := mul_lt_mul_of_pos_left this ht
    linarith
  · have : s * s - 1 / 4 ≤ (n + 1 / 10 ^ 8) * (n + 1 + 1 / 10 ^ 8) := by nlinarith
    have := mul_le_mul_of_nonneg_left this ht.le
    linarith

/-- **C22, when steps are returned.** In the unreordered form, some step is returned exactly when the time of a
cycle exceeds about `tauMax·3.3e-9`. -/
theorem C22_some_step {T tauMax : ℝ} {M : Int} (hM : 0 < M) (hT : 0 < T) (ht : 0 < tauMax) :
    fedByProcessTime T M tauMax false ≠ some [] ↔
      tauMax * (1 / 10 ^ 8 * (1 + 1 / 10 ^ 8)) / 3 < T / M := by
  have hM' : (0 : ℝ) < M := by exact_mod_cast hM
  have hq : 0 < T / M := by positivity
  have hs := Real.mul_self_sqrt (show 0 ≤ 3 * (T / M) / tauMax + 1 / 4 by positivity)
  have hs0 := Real.sqrt_nonneg (3 * (T / M) / tauMax + 1 / 4)
  have he : T / M = tauMax * (Real.sqrt (3 * (T / M) / tauMax + 1 / 4) *
      Real.sqrt (3 * (T / M) / tauMax + 1 / 4) - 1 / 4) / 3 := by
    rw [hs]; field_simp; ring
  have hhalf : 1 / 2 < Real.sqrt (3 * (T / M) / tauMax + 1 / 4) := by
    rw [Real.lt_sqrt (by norm_num)]
    have : 0 < 3 * (T / M) / tauMax := by positivity
    linarith
  have key : fedByProcessTime T M tauMax false = some [] ↔ stepCount (T / M) tauMax = 0 := by
    simp only [fedByProcessTime, fedByCycleTime, fedInternal, Bool.false_eq_true, if_false,
      Option.some.injEq, List.map_eq_nil_iff, List.range_eq_nil]
  rw [Ne, key, ← not_le, not_iff_not]
  constructor
  · intro h
    by_contra hlt
    rw [not_le] at hlt
    unfold stepCount at h
    have h2 : ⌈Real.sqrt (3 * (T / M) / tauMax + 1 / 4) - 1 / 2 - 1 / 10 ^ 8⌉ ≤ 0 := by
      by_contra hc
      have hc' : (1 : ℝ) ≤ (⌈Real.sqrt (3 * (T / M) / tauMax + 1 / 4) - 1 / 2 - 1 / 10 ^ 8⌉ : ℝ) := by
        exact_mod_cast (by omega : 1 ≤ ⌈Real.sqrt (3 * (T / M) / tauMax + 1 / 4) - 1 / 2 - 1 / 10 ^ 8⌉)
      have := Nat.floor_eq_zero.mp h
      linarith
    have h3 := Int.ceil_le.mp h2
    push_cast at h3
    rw [he] at hlt
    generalize Real.sqrt (3 * (T / M) / tauMax + 1 / 4) = s at *
    have : s * s - 1 / 4 ≤ 1 / 10 ^ 8 * (1 + 1 / 10 ^ 8) := by nlinarith
    have := mul_le_mul_of_nonneg_left this ht.le
    linarith
  · intro h
    refine stepCount_eq ?_ ?_
    · push_cast
      norm_num at hhalf ⊢
      linarith
    · push_cast
      rw [he] at h
      generalize Real.sqrt (3 * (T / M) / tauMax + 1 / 4) = s at *
      by_contra hc
      rw [not_le] at hc
      have : 1 / 10 ^ 8 * (1 + 1 / 10 ^ 8) < s * s - 1 / 4 := by nlinarith
      have := mul_lt_mul_of_pos_left this ht
      linarith

/-- **C22 is false for tiny times.** A positive time for which no step is returned, so that no time passes. -/
theorem C22_tiny_time : ∃ T tauMax : ℝ, 0 < T ∧ 0 < tauMax ∧
    fedByProcessTime T 1 tauMax false = some [] ∧ fedByProcessTime T 1 tauMax true = some [] := by
  have h : fedByProcessTime (1 / 10 ^ 10) 1 (1 / 4) false = some [] := by
    by_contra hc
    have := (C22_some_step (T := 1 / 10 ^ 10) (M := 1) (tauMax := 1 / 4) (by norm_num) (by norm_num)
      (by norm_num)).mp hc
    norm_num at this
  refine ⟨1 / 10 ^ 10, 1 / 4, by norm_num, by norm_num, h, ?_⟩
  have h0 : stepCount (1 / 10 ^ 10 / ((1 : Int) : ℝ)) (1 / 4) = 0 := by
    simpa only [fedByProcessTime, fedByCycleTime, fedInternal, Bool.false_eq_true, if_false,
      Option.some.injEq, List.map_eq_nil_iff, List.range_eq_nil] using h
  simp only [fedByProcessTime, fedByCycleTime, h0, fedInternal, if_true, collectIndices]
  rfl

theorem oneStep {t : ℝ} (h1 : 1 / 10 ^ 8 ≤ t) (h2 : t ≤ 1 / 6) : stepCount t (1 / 4) = 1 := by
  refine stepCount_eq ?_ ?_
  · have : (1 / 2 + 2 / 10 ^ 8 : ℝ) < Real.sqrt (3 * t / (1 / 4) + 1 / 4) := by
      rw [Real.lt_sqrt (by norm_num)]
      linarith
    norm_num at this ⊢
    linarith
  · have : Real.sqrt (3 * t / (1 / 4) + 1 / 4) ≤ 3 / 2 := by
      rw [Real.sqrt_le_iff]
      constructor <;> linarith
    norm_num at this ⊢
    linarith

/-- **C21, the failing case is reached.** With the stability limit `0.25` used by the scale space and any time
between `10^-8` and a sixth, asking for reordered steps fails. -/
theorem C21_short_time {T : ℝ} (h1 : 1 / 10 ^ 8 ≤ T) (h2 : T ≤ 1 / 6) :
    fedByProcessTime T 1 (1 / 4) true = none := by
  have : stepCount (T / ((1 : Int) : ℝ)) (1 / 4) = 1 := by
    rw [Int.cast_one, div_one]; exact oneStep h1 h2
  simp only [fedByProcessTime, fedByCycleTime, this]
  exact C21_one_step _ _

/-- Five steps: the prime is 7, the order is 1, 3, 0, 2, 4. -/
example : collectIndices 5 2 7 5 0 = some [1, 3, 0, 2, 4] := by decide

/-- A time for which several steps are returned in both orders: the hypotheses of the theorems can be met. -/
example : ∃ l u, fedByProcessTime 1 1 (1 / 4) true = some l ∧ fedByProcessTime 1 1 (1 / 4) false = some u ∧
    l.length = 3 ∧ u.length = 3 := by
  have hs : stepCount (1 / ((1 : Int) : ℝ)) (1 / 4) = 3 := by
    rw [Int.cast_one, div_one]
    refine stepCount_eq ?_ ?_
    · have : (3.4 : ℝ) < Real.sqrt (3 * 1 / (1 / 4) + 1 / 4) := by
        rw [Real.lt_sqrt (by norm_num)]; norm_num
      norm_num at this ⊢
      linarith
    · have : Real.sqrt (3 * 1 / (1 / 4) + 1 / 4) ≤ 3.5 := by
        rw [Real.sqrt_le_iff]; norm_num
      norm_num at this ⊢
      linarith
  obtain ⟨u, l, h1, h2, h3, h4⟩ := C21_permutation_partial 3 (by norm_num)
    (3 * (1 / ((1 : Int) : ℝ)) / (1 / 4 * (3 * (3 + 1) : Nat))) (1 / 4)
  refine ⟨l, u, ?_, ?_, by rw [h3.length_eq, h4], h4⟩
  · simp only [fedByProcessTime, fedByCycleTime, hs]; exact h2
  · simp only [fedByProcessTime, fedByCycleTime, hs]; exact h1

end Verif.Akaze
