import Verif.Spec.Evolution
import Verif.Props.Fed
import Verif.Props.Contrast

/-!
# Lemmas about the levels of the scale space
-/

namespace Verif.Akaze

theorem div_atLeast {w h n o : Nat} : n ≤ min (w / 2 ^ o) (h / 2 ^ o) ↔ AtLeast w h n o := by
  unfold AtLeast
  rw [le_min_iff, Nat.le_div_iff_mul_le (by positivity), Nat.le_div_iff_mul_le (by positivity)]

theorem AtLeast.mono {w h n o o' : Nat} (ho : o ≤ o') (ha : AtLeast w h n o') : AtLeast w h n o :=
  ⟨le_trans (Nat.mul_le_mul_left _ (Nat.pow_le_pow_right (by norm_num) ho)) ha.1,
    le_trans (Nat.mul_le_mul_left _ (Nat.pow_le_pow_right (by norm_num) ho)) ha.2⟩

theorem AtLeast.weaken {w h n m o : Nat} (hn : m ≤ n) (ha : AtLeast w h n o) : AtLeast w h m o :=
  ⟨le_trans (Nat.mul_le_mul_right _ hn) ha.1, le_trans (Nat.mul_le_mul_right _ hn) ha.2⟩

theorem AtLeast.double {w h o : Nat} (ha : AtLeast w h 40 (o + 1)) : AtLeast w h 80 o := by
  unfold AtLeast at *
  rw [Nat.pow_succ] at ha
  omega

theorem sublevelsOf_spec (c : Config) (w h o : Nat) :
    (AtLeast w h 80 o → sublevelsOf c w h o = c.numSublevels) ∧
    (¬ AtLeast w h 80 o → AtLeast w h 40 o → sublevelsOf c w h o = 1) ∧
    (¬ AtLeast w h 40 o → sublevelsOf c w h o = 0) := by
  unfold sublevelsOf
  simp only [← div_atLeast]
  refine ⟨fun h1 => ?_, fun h1 h2 => ?_, fun h1 => ?_⟩
  · rw [if_neg (by omega), if_neg (by omega)]
  · rw [if_neg (by omega), if_pos (by omega)]
  · rw [if_pos (by omega)]

/-- The octaves up to `m`, with their number of full ones. -/
theorem levels_upto (c : Config) (hn : 0 < c.numSublevels) (w h : Nat) : ∀ m, ∃ full extra,
    Octaves m w h full extra ∧
    (List.range m).flatMap (fun o => (List.range (sublevelsOf c w h o)).map (fun s => (o, s))) =
      (List.range (full * c.numSublevels + extra)).map (fun i => (i / c.numSublevels, i % c.numSublevels)) := by
  intro m
  have seg : ∀ m k, k ≤ c.numSublevels →
      (List.range (m * c.numSublevels + k)).map (fun i => (i / c.numSublevels, i % c.numSublevels)) =
        (List.range (m * c.numSublevels)).map (fun i => (i / c.numSublevels, i % c.numSublevels)) ++
          (List.range k).map (fun s => (m, s)) := by
    intro m k hk
    rw [List.range_add, List.map_append, List.map_map]
    congr 1
    refine List.map_congr_left (fun s hs => ?_)
    rw [List.mem_range] at hs
    have hs' : s < c.numSublevels := by omega
    simp only [Function.comp]
    rw [Nat.mul_comm m, Nat.mul_add_div hn, Nat.mul_add_mod, Nat.div_eq_of_lt hs', Nat.mod_eq_of_lt hs', Nat.add_zero]
  induction m with
  | zero =>
    exact ⟨0, 0, ⟨le_refl _, fun o ho => absurd ho (Nat.not_lt_zero _), fun h => absurd h (Nat.lt_irrefl _),
      ⟨fun h => by omega, fun h => by omega⟩, by omega⟩, by simp⟩
  | succ m ih =>
    obtain ⟨full, extra, ho, e⟩ := ih
    obtain ⟨s1, s2, s3⟩ := sublevelsOf_spec c w h m
    rw [List.range_succ, List.flatMap_append, e]
    simp only [List.flatMap_cons, List.flatMap_nil, List.append_nil]
    by_cases h40 : AtLeast w h 40 m
    · have hfull : full = m := by
        by_contra hne
        have hlt : full < m := lt_of_le_of_ne ho.le hne
        refine ho.next hlt ?_
        obtain ⟨k, rfl⟩ : ∃ k, m = k + 1 := ⟨m - 1, by omega⟩
        exact AtLeast.mono (by omega) h40.double
      subst hfull
      have hextra : extra = 0 := by
        have := ho.one
        have := ho.atMost
        by_contra h0
        have : extra = 1 := by omega
        have := (ho.one.mp this).1
        omega
      subst hextra
      by_cases h80 : AtLeast w h 80 full
      · refine ⟨full + 1, 0, ⟨le_refl _, fun o ho' => ?_, fun h => absurd h (Nat.lt_irrefl _),
          ⟨fun h => by omega, fun h => by omega⟩, by omega⟩, ?_⟩
        · exact AtLeast.mono (by omega) h80
        · rw [s1 h80, Nat.add_zero, Nat.add_zero, Nat.succ_mul, seg _ _ (le_refl _)]
      · refine ⟨full, 1, ⟨by omega, ho.all, fun _ => h80, ⟨fun _ => ⟨by omega, h40⟩, fun _ => rfl⟩, le_refl _⟩, ?_⟩
        rw [s2 h80 h40, seg _ _ hn, Nat.add_zero]
    · refine ⟨full, extra, ⟨by have := ho.le; omega, ho.all, fun h => ?_, ?_, ho.atMost⟩, by rw [s3 h40]; simp⟩
      · by_cases hlt : full < m
        · exact ho.next hlt
        · have : full = m := by have := ho.le; omega
          rw [this]
          exact fun h80 => h40 (h80.weaken (by omega))
      · rw [ho.one]
        constructor
        · exact fun ⟨h1, h2⟩ => ⟨by omega, h2⟩
        · rintro ⟨h1, h2⟩
          refine ⟨?_, h2⟩
          by_contra hge
          have : full = m := by have := ho.le; omega
          rw [this] at h2
          exact h40 h2

theorem Octaves.unique {m w h f e f' e' : Nat} (a : Octaves m w h f e) (b : Octaves m w h f' e') :
    f = f' ∧ e = e' := by
  have hf : f = f' := by
    rcases Nat.lt_trichotomy f f' with h | h | h
    · exact absurd (b.all f h) (a.next (by have := b.le; omega))
    · exact h
    · exact absurd (a.all f' h) (b.next (by have := a.le; omega))
  subst hf
  refine ⟨rfl, ?_⟩
  have := a.atMost
  have := b.atMost
  have h1 := a.one
  have h2 := b.one
  by_cases he : e = 1
  · rw [he, h2.mpr (h1.mp he)]
  · have : e' ≠ 1 := fun h => he (h1.mpr (h2.mp h))
    omega

/-- Level number `i` without its time steps. -/
noncomputable def plainLevel (c : Config) (i : Nat) : Level :=
  ⟨i / c.numSublevels, i % c.numSublevels, scaleOf c i, 1 / 2 * (scaleOf c i * scaleOf c i),
    ⌊scaleOf c i + 1 / 2⌋₊, []⟩

theorem newLevel_eq (c : Config) (hn : 0 < c.numSublevels) (i : Nat) :
    newLevel c (i / c.numSublevels) (i % c.numSublevels) = some (plainLevel c i) := by
  have hn' : (c.numSublevels : ℝ) ≠ 0 := by positivity
  have : ((i % c.numSublevels : Nat) : ℝ) / c.numSublevels + ((i / c.numSublevels : Nat) : ℝ) =
      (i : ℝ) / c.numSublevels := by
    have h : ((i % c.numSublevels : Nat) : ℝ) + (c.numSublevels : ℝ) * ((i / c.numSublevels : Nat) : ℝ) = i := by
      exact_mod_cast Nat.mod_add_div i c.numSublevels
    rw [← h]
    field_simp
  unfold newLevel plainLevel scaleOf
  rw [if_neg (by omega), this]

/-- The time between level `i` and the next. -/
noncomputable def timeBetween (c : Config) (i : Nat) : ℝ := (plainLevel c (i + 1)).etime - (plainLevel c i).etime

theorem etime_eq (c : Config) (i : Nat) :
    (plainLevel c i).etime = c.baseScale ^ 2 / 2 * (4 : ℝ) ^ ((i : ℝ) / c.numSublevels) := by
  have h4 : (4 : ℝ) ^ ((i : ℝ) / c.numSublevels) =
      (2 : ℝ) ^ ((i : ℝ) / c.numSublevels) * (2 : ℝ) ^ ((i : ℝ) / c.numSublevels) := by
    rw [← Real.mul_rpow (by norm_num) (by norm_num)]
    norm_num
  simp only [plainLevel, scaleOf]
  rw [h4]
  ring

theorem timeBetween_eq (c : Config) (i : Nat) :
    timeBetween c i = (4 : ℝ) ^ ((i : ℝ) / c.numSublevels) * firstTime c := by
  unfold timeBetween firstTime
  rw [etime_eq, etime_eq]
  have : ((i + 1 : Nat) : ℝ) / c.numSublevels = (i : ℝ) / c.numSublevels + 1 / c.numSublevels := by
    push_cast; ring
  rw [this, Real.rpow_add (by norm_num)]
  ring

theorem firstTime_nonneg (c : Config) : 0 ≤ firstTime c := by
  have : (1 : ℝ) ≤ (4 : ℝ) ^ (1 / (c.numSublevels : ℝ)) := Real.one_le_rpow (by norm_num) (by positivity)
  have h1 : 0 ≤ (4 : ℝ) ^ (1 / (c.numSublevels : ℝ)) - 1 := by linarith
  unfold firstTime
  positivity

theorem timeBetween_ge (c : Config) (i : Nat) : firstTime c ≤ timeBetween c i := by
  rw [timeBetween_eq]
  have h1 : (1 : ℝ) ≤ (4 : ℝ) ^ ((i : ℝ) / c.numSublevels) := Real.one_le_rpow (by norm_num) (by positivity)
  have h2 := firstTime_nonneg c
  nlinarith

/-- Level number `i` with the given time steps. -/
noncomputable def levelWith (c : Config) (i : Nat) (steps : List ℝ) : Level :=
  { plainLevel c i with steps := steps }

theorem setSteps_spec (c : Config) : ∀ (n i : Nat) {ls : List Level},
    setSteps (plainLevel c i).etime ((List.range' (i + 1) n).map (plainLevel c)) = some ls →
      ls.length = n ∧ ∀ k < n, ∃ steps, fedByProcessTime (timeBetween c (i + k)) 1 (1 / 4) true = some steps ∧
        ls[k]? = some (levelWith c (i + 1 + k) steps) := by
  intro n
  induction n with
  | zero =>
    intro i ls h
    have : ls = [] := by
      simpa [setSteps] using h.symm
    subst this
    exact ⟨rfl, fun k hk => absurd hk (Nat.not_lt_zero _)⟩
  | succ n ih =>
    intro i ls h
    rw [List.range'_succ, List.map_cons, setSteps] at h
    simp only [Option.bind_eq_bind, Option.bind_eq_some_iff] at h
    obtain ⟨steps, hs, rest, hr, e⟩ := h
    obtain rfl := Option.some.inj e
    obtain ⟨h1, h2⟩ := ih (i + 1) hr
    refine ⟨by simp [h1], fun k hk => ?_⟩
    cases k with
    | zero => exact ⟨steps, hs, rfl⟩
    | succ k =>
      obtain ⟨st, a, b⟩ := h2 k (by omega)
      refine ⟨st, ?_, ?_⟩
      · rw [show i + (k + 1) = i + 1 + k by omega]; exact a
      · rw [List.getElem?_cons_succ, b, show i + 1 + 1 + k = i + 1 + (k + 1) by omega]

theorem setSteps_none (c : Config) : ∀ (n i : Nat),
    setSteps (plainLevel c i).etime ((List.range' (i + 1) n).map (plainLevel c)) = none ↔
      ∃ k < n, fedByProcessTime (timeBetween c (i + k)) 1 (1 / 4) true = none := by
  intro n
  induction n with
  | zero =>
    intro i
    simp [setSteps]
  | succ n ih =>
    intro i
    rw [List.range'_succ, List.map_cons, setSteps]
    change (fedByProcessTime (timeBetween c i) 1 (1 / 4) true).bind _ = none ↔ _
    cases hs : fedByProcessTime (timeBetween c i) 1 (1 / 4) true with
    | none => exact ⟨fun _ => ⟨0, by omega, hs⟩, fun _ => rfl⟩
    | some steps =>
      rw [Option.bind_some]
      have e : (setSteps (plainLevel c (i + 1)).etime ((List.range' (i + 1 + 1) n).map (plainLevel c)) >>=
          fun rest => (pure ({ plainLevel c (i + 1) with steps := steps } :: rest) : Option (List Level))) = none ↔
          setSteps (plainLevel c (i + 1)).etime ((List.range' (i + 1 + 1) n).map (plainLevel c)) = none := by
        cases setSteps (plainLevel c (i + 1)).etime ((List.range' (i + 1 + 1) n).map (plainLevel c)) <;> simp
      rw [e, ih (i + 1)]
      constructor
      · rintro ⟨k, hk, h⟩
        exact ⟨k + 1, by omega, by rw [show i + (k + 1) = i + 1 + k by omega]; exact h⟩
      · rintro ⟨k, hk, h⟩
        cases k with
        | zero => rw [Nat.add_zero, hs] at h; cases h
        | succ k => exact ⟨k, by omega, by rw [show i + 1 + k = i + (k + 1) by omega]; exact h⟩

theorem steps_none {T : ℝ} : fedByProcessTime T 1 (1 / 4) true = none ↔ stepCount T (1 / 4) = 1 := by
  have hT : T / ((1 : Int) : ℝ) = T := by rw [Int.cast_one, div_one]
  unfold fedByProcessTime fedByCycleTime
  rw [hT]
  constructor
  · intro h
    by_contra hne
    obtain ⟨l, hl, -⟩ := reordered_perm hne (3 * T / (1 / 4 * (stepCount T (1 / 4) * (stepCount T (1 / 4) + 1) : Nat))) (1 / 4)
    rw [hl] at h
    cases h
  · intro h
    simp only [h]
    exact C21_one_step _ _

theorem several_steps {T : ℝ} (h : 1 / 6 + 1 / 10 ^ 8 < T) : stepCount T (1 / 4) ≠ 1 := by
  intro h1
  have := (stepCount_spec h1 (by norm_num)).2
  have h2 : Real.sqrt (3 * T / (1 / 4) + 1 / 4) ≤ 3 / 2 + 1 / 10 ^ 8 := by
    push_cast at this
    linarith
  rw [Real.sqrt_le_iff] at h2
  norm_num at h2 h
  linarith

/-- What is allocated. -/
theorem allocate_eq (c : Config) (hn : 0 < c.numSublevels) {w h full extra : Nat}
    (ho : Octaves c.maxOctave w h full extra) : allocate c w h =
      if full * c.numSublevels + extra = 0 then some [] else
        (setSteps (plainLevel c 0).etime
          ((List.range' 1 (full * c.numSublevels + extra - 1)).map (plainLevel c))).map (plainLevel c 0 :: ·) := by
  obtain ⟨f', e', ho', e⟩ := levels_upto c hn w h c.maxOctave
  obtain ⟨rfl, rfl⟩ := ho.unique ho'
  have hm : ((levelNumbers c w h).mapM (fun p => newLevel c p.1 p.2)) =
      some ((List.range (full * c.numSublevels + extra)).map (plainLevel c)) := by
    unfold levelNumbers
    rw [e]
    rw [List.mapM_map]
    exact mapM_some (fun i _ => newLevel_eq c hn i)
  unfold allocate
  rw [hm]
  by_cases h0 : full * c.numSublevels + extra = 0
  · rw [if_pos h0, h0]; rfl
  · rw [if_neg h0]
    obtain ⟨k, hk⟩ : ∃ k, full * c.numSublevels + extra = k + 1 := ⟨_, (Nat.succ_pred_eq_of_ne_zero h0).symm⟩
    rw [hk, List.range_eq_range', List.range'_succ, List.map_cons, Nat.add_sub_cancel]
    simp only [Option.bind_eq_bind, Option.bind_some, Nat.zero_add]
    cases setSteps (plainLevel c 0).etime ((List.range' 1 k).map (plainLevel c)) <;> rfl

end Verif.Akaze
