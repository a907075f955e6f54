import Verif.Props.Orient

/-!
# Gradients that point exactly to the right are left out (C75)
-/

namespace Verif.Akaze

open Real

theorem inWindow_zero {a : ℝ} (ha : 0 ≤ a) : inWindow a 0 = false := by
  have hpi := pi_pos
  unfold inWindow
  simp only [decide_eq_false_iff_not]
  rintro (⟨_, h, _⟩ | ⟨_, ⟨h, _⟩ | ⟨h, _⟩⟩)
  · linarith
  · exact lt_irrefl _ h
  · linarith

theorem fastAtan2_right {x : ℝ} (hx : 0 < x) : fastAtan2 0 x = 0 := by
  obtain ⟨r1, r2⟩ := fastAtan2_range 0 x
  obtain ⟨s1, _⟩ := fastAtan2_spec 0 x
  have hs : √(x ^ 2 + 0 ^ 2) = x := by rw [zero_pow (by norm_num), add_zero, sqrt_sq hx.le]
  rw [hs] at s1
  have h1 : cos (fastAtan2 0 x) = 1 := by
    have : x * cos (fastAtan2 0 x) = x * 1 := by rw [mul_one]; exact s1.symm
    exact mul_left_cancel₀ hx.ne' this
  obtain ⟨n, hn⟩ := (cos_eq_one_iff _).1 h1
  have hpi := two_pi_pos
  have h2 : (n : ℝ) < 1 := by
    by_contra hc
    have := mul_le_mul_of_nonneg_right (not_lt.1 hc) hpi.le
    linarith
  have h3 : (-1 : ℝ) < n := by
    by_contra hc
    have := mul_le_mul_of_nonneg_right (not_lt.1 hc) hpi.le
    linarith
  have h2' : n < 1 := by exact_mod_cast h2
  have h3' : -1 < n := by exact_mod_cast h3
  have : n = 0 := by omega
  rw [← hn, this]; simp

/-- Vectors to the right, and others that are all the same and point down. -/
def RightOrDown (c : ℝ) (l : List (ℝ × ℝ)) : Prop := ∀ v ∈ l, (0 < v.1 ∧ v.2 = 0) ∨ v = (0, c)

theorem inWindow_right {a : ℝ} {v : ℝ × ℝ} (h1 : 0 < v.1) (h2 : v.2 = 0) :
    InWindow a v ↔ ∃ n : ℤ, a < n * (2 * π) ∧ n * (2 * π) < a + π / 3 := by
  have hs : √(v.1 ^ 2 + v.2 ^ 2) = v.1 := by rw [h2, zero_pow (by norm_num), add_zero, sqrt_sq h1.le]
  constructor
  · rintro ⟨θ, c1, _, h3, h4⟩
    rw [hs] at c1
    have : cos θ = 1 := by
      have : v.1 * cos θ = v.1 * 1 := by rw [mul_one]; exact c1.symm
      exact mul_left_cancel₀ h1.ne' this
    obtain ⟨n, hn⟩ := (cos_eq_one_iff _).1 this
    exact ⟨n, by rw [hn]; exact h3, by rw [hn]; exact h4⟩
  · rintro ⟨n, h3, h4⟩
    refine ⟨n * (2 * π), ?_, ?_, h3, h4⟩
    · rw [hs, show (n : ℝ) * (2 * π) = 0 + n * (2 * π) by ring, cos_add_int_mul_two_pi, cos_zero, mul_one]
    · rw [show (n : ℝ) * (2 * π) = 0 + n * (2 * π) by ring, sin_add_int_mul_two_pi, sin_zero, mul_zero, h2]

/-- What the program computes: vectors to the right do not count. -/
theorem windowSum_down {c a : ℝ} (ha : 0 ≤ a) : ∀ {l : List (ℝ × ℝ)} (s : ℝ × ℝ),
    RightOrDown c l → l.foldl (fun s r => if inWindow a (fastAtan2 r.2 r.1) then (s.1 + r.1, s.2 + r.2) else s) s =
      (s.1, s.2 + if inWindow a (fastAtan2 c 0) then (l.map Prod.snd).sum else 0)
  | [], s, _ => by simp
  | v :: l, s, h => by
    rw [List.foldl_cons, windowSum_down ha _ (fun u hu => h u (List.mem_cons_of_mem _ hu))]
    rcases h v List.mem_cons_self with ⟨h1, h2⟩ | rfl
    · rw [h2, fastAtan2_right h1, inWindow_zero ha]
      simp [h2]
    · by_cases hw : inWindow a (fastAtan2 c 0) = true
      · simp [hw]; ring
      · simp [hw]

open Classical in
theorem sumIn_eq {c a : ℝ} : ∀ {l : List (ℝ × ℝ)}, RightOrDown c l → sumIn a l =
    (if ∃ n : ℤ, a < n * (2 * π) ∧ n * (2 * π) < a + π / 3 then (l.map Prod.fst).sum else 0,
      if InWindow a (0, c) then (l.map Prod.snd).sum else 0)
  | [], _ => by simp [sumIn]; rfl
  | v :: l, h => by
    have ih := @sumIn_eq c a l (fun u hu => h u (List.mem_cons_of_mem _ hu))
    have e : sumIn a (v :: l) = (if InWindow a v then v else (0, 0)) + sumIn a l := by
      unfold sumIn
      rw [List.filter_cons]
      by_cases hw : InWindow a v
      · simp [hw]
      · simp only [hw, decide_false, Bool.false_eq_true, if_false]; exact (zero_add _).symm
    rw [e, ih]
    rcases h v List.mem_cons_self with ⟨h1, h2⟩ | rfl
    · simp only [inWindow_right h1 h2]
      refine Prod.ext ?_ ?_
      · by_cases hp : ∃ n : ℤ, a < n * (2 * π) ∧ n * (2 * π) < a + π / 3 <;> simp [hp]
      · by_cases hp : ∃ n : ℤ, a < n * (2 * π) ∧ n * (2 * π) < a + π / 3 <;> simp [hp, h2]
    · refine Prod.ext ?_ ?_
      · by_cases hp : InWindow a (0, c) <;> simp [hp]
      · by_cases hp : InWindow a (0, c) <;> simp [hp]

theorem fastAtan2_down {c : ℝ} (hc : 0 < c) : fastAtan2 c 0 = π / 2 := by
  obtain ⟨r1, r2⟩ := fastAtan2_range c 0
  obtain ⟨_, s2⟩ := fastAtan2_spec c 0
  have hpi := pi_pos
  have hs : √(0 ^ 2 + c ^ 2) = c := by rw [zero_pow (by norm_num), zero_add, sqrt_sq hc.le]
  rw [hs] at s2
  have h1 : cos (fastAtan2 c 0 - π / 2) = 1 := by
    rw [cos_sub_pi_div_two]
    have : c * sin (fastAtan2 c 0) = c * 1 := by rw [mul_one]; exact s2.symm
    exact mul_left_cancel₀ hc.ne' this
  obtain ⟨n, hn⟩ := (cos_eq_one_iff _).1 h1
  have hpi := two_pi_pos
  have h2 : (n : ℝ) < 1 := by
    by_contra hc
    have := mul_le_mul_of_nonneg_right (not_lt.1 hc) hpi.le
    linarith
  have h3 : (-1 : ℝ) < n := by
    by_contra hc
    have := mul_le_mul_of_nonneg_right (not_lt.1 hc) hpi.le
    linarith
  have h2' : n < 1 := by exact_mod_cast h2
  have h3' : -1 < n := by exact_mod_cast h3
  have : n = 0 := by omega
  rw [this] at hn
  simp only [Int.cast_zero, zero_mul] at hn
  linarith

/-- The program takes the weaker direction. -/
theorem bestAngle_down {c : ℝ} (hc : 0 < c) {l : List (ℝ × ℝ)} (hl : RightOrDown c l)
    (hU : 0 < (l.map Prod.snd).sum) : (bestAngle l 0).2 = π / 2 := by
  have hb1 := pi_gt_d2
  have hb2 := pi_lt_d2
  have hw : ∀ a, 0 ≤ a → windowSum l a = (0, if inWindow a (π / 2) then (l.map Prod.snd).sum else 0) := by
    intro a ha
    unfold windowSum
    rw [windowSum_down ha _ hl, fastAtan2_down hc]
    simp
  have key := foldl_best (fun a => (windowSum l a).1 * (windowSum l a).1 + (windowSum l a).2 * (windowSum l a).2)
    (fun a => fastAtan2 (windowSum l a).2 (windowSum l a).1) windowStarts (0, 0) le_rfl
  change (0 : ℝ) ≤ (bestAngle l 0).1 ∧ (∀ a ∈ windowStarts, _ ≤ (bestAngle l 0).1) ∧ (bestAngle l 0 = _ ∨
    ∃ a ∈ windowStarts, bestAngle l 0 = _ ∧ _) at key
  obtain ⟨_, k2, k3⟩ := key
  rcases k3 with k3 | ⟨a, ha, k3, k4⟩
  · exfalso
    have hm : (0.75 : ℝ) ∈ windowStarts := mem_windowStarts.2 ⟨5, by norm_num, by norm_num; linarith⟩
    have := k2 _ hm
    rw [hw _ (by norm_num), k3, if_pos ((inWindow_iff (by norm_num) (by linarith) (by linarith) (by linarith)).2
      ⟨0, by push_cast; linarith, by push_cast; linarith⟩)] at this
    simp only at this
    nlinarith
  · obtain ⟨j, rfl, hj⟩ := mem_windowStarts.1 ha
    rw [hw _ (by positivity)] at k3 k4
    by_cases hin : inWindow (j * 0.15) (π / 2) = true
    · rw [if_pos hin] at k3
      rw [k3]
      exact fastAtan2_down hU
    · rw [if_neg hin] at k4
      simp at k4

/-- If the sum to the right is longer, this is not the direction of the longest sum. -/
theorem not_dominant {c : ℝ} (hc : 0 < c) {l : List (ℝ × ℝ)} (hl : RightOrDown c l)
    (hU : 0 < (l.map Prod.snd).sum) (hR : (l.map Prod.snd).sum < (l.map Prod.fst).sum) :
    ¬ IsDominant l (bestAngle l 0).2 := by
  classical
  have hb1 := pi_gt_d2
  have hb2 := pi_lt_d2
  rw [bestAngle_down hc hl hU]
  rintro (⟨_, h⟩ | ⟨k, hk, _, h2, _, _, h5⟩)
  · linarith
  · have h6 := h2 40 (by norm_num; linarith)
    have e1 : (sumIn (k * 0.15) l).1 = 0 := by rw [h5, cos_pi_div_two]; simp
    have e2 : sqLen (sumIn (k * 0.15) l) ≤ (l.map Prod.snd).sum ^ 2 := by
      unfold sqLen
      rw [e1, sumIn_eq hl]
      simp only
      split <;> nlinarith
    have e3 : (l.map Prod.fst).sum ^ 2 ≤ sqLen (sumIn (((40 : ℕ) : ℝ) * 0.15) l) := by
      unfold sqLen
      rw [sumIn_eq hl]
      simp only
      rw [if_pos ⟨1, by push_cast; linarith, by push_cast; linarith⟩]
      nlinarith [sq_nonneg (if InWindow (((40 : ℕ) : ℝ) * 0.15) (0, c) then (List.map Prod.snd l).sum else 0)]
    nlinarith

namespace ExOrient

/-- One peak. -/
noncomputable def f (x y : Nat) : ℝ := if x = 40 ∧ y = 40 then 1 else 0

/-- The gradient points down at the peak and to the right everywhere else. -/
noncomputable def fx (x y : Nat) : ℝ := if x = 40 ∧ y = 40 then 0 else 1
noncomputable def fy (x y : Nat) : ℝ := if x = 40 ∧ y = 40 then 1 else 0

noncomputable def level : DetLevel := ⟨0, 1.6, Img.ofFn 80 80 f, Img.ofFn 80 80 fx, Img.ofFn 80 80 fy, Img.ofFn 80 80 f⟩

noncomputable def k : KeyPoint := ⟨40, 40, 1, 2.4, 0, 0, 0⟩

theorem sigma : ⌊(1.6 * 1.5 : ℝ) / 2 ^ 0 + 1 / 2⌋ = 2 := by rw [Int.floor_eq_iff]; norm_num

theorem complete : Complete 1.5 [level] := by
  intro l hl
  simp only [List.mem_singleton] at hl
  subst hl
  refine ⟨(ofFn_shows 80 80 f).2.2.1, by simp [level, Img.ofFn], by simp [level, Img.ofFn],
    ⟨(ofFn_shows 80 80 fx).2.2.1, rfl, rfl⟩, ⟨(ofFn_shows 80 80 fy).2.2.1, rfl, rfl⟩,
    ⟨(ofFn_shows 80 80 f).2.2.1, rfl, rfl⟩, ?_⟩
  change 1 ≤ ⌊(1.6 * 1.5 : ℝ) / 2 ^ 0 + 1 / 2⌋
  rw [sigma]; norm_num

theorem found : FoundAt 0.001 1.5 [level] k level 40 40 := by
  refine ⟨rfl, rfl, by norm_num [k, level], ⟨f, ofFn_shows 80 80 f, ?_, by norm_num [f], by norm_num [f, k]⟩, ?_,
    by norm_num [k, level], by norm_num [k, level], rfl⟩
  · refine ⟨by omega, by simp [level, Img.ofFn], by omega, by simp [level, Img.ofFn], fun x y _ _ _ _ hne => ?_⟩
    simp only [ne_eq, Prod.mk.injEq] at hne
    unfold f
    rw [if_neg hne, if_pos ⟨rfl, rfl⟩]; norm_num
  · have e : ⌊k.size / 2 ^ level.octave + 1 / 2⌋ = 2 := by
      rw [Int.floor_eq_iff]; norm_num [k, level]
    rw [e]
    have hw : (level.ldet.w : ℝ) = 80 := by simp [level, Img.ofFn]
    have hh : (level.ldet.h : ℝ) = 80 := by simp [level, Img.ofFn]
    have hq : √2 ≤ 3 / 2 := by rw [Real.sqrt_le_left (by norm_num)]; norm_num
    unfold InsideBy
    rw [hw, hh]
    push_cast
    refine ⟨?_, ?_, ?_, ?_⟩ <;> linarith

theorem pixel (i : ℤ) : ⌊(40 : ℝ) + (i : ℝ) * ((2 : ℤ) : ℝ) + 1 / 2⌋ = 40 + 2 * i := by
  rw [Int.floor_eq_iff]
  push_cast
  constructor <;> linarith

theorem weight_pos {i j : ℤ} (hi : i.natAbs ≤ 5) (hj : j.natAbs ≤ 5) : 0 < weightAt i j := by
  unfold weightAt
  generalize i.natAbs = a at *
  generalize j.natAbs = b at *
  interval_cases a <;> interval_cases b <;> norm_num [gauss25]

/-- The samples. -/
theorem samples : samplesAt fx fy 40 40 2 = offsets.map (fun p => if p = (0, 0) then (0, weightAt 0 0) else
    (weightAt p.1 p.2, 0)) := by
  unfold samplesAt
  refine List.map_congr_left ?_
  intro p hp
  obtain ⟨h1, h2⟩ := offsets_small p hp
  simp only [pixel]
  by_cases h0 : p = (0, 0)
  · subst h0
    simp [fx, fy]
  · have hne : ¬ ((40 + 2 * p.1).toNat = 40 ∧ (40 + 2 * p.2).toNat = 40) := by
      rintro ⟨a, b⟩
      exact h0 (Prod.ext (by simp only; omega) (by simp only; omega))
    rw [if_neg h0]
    unfold fx fy
    rw [if_neg hne, if_neg hne, mul_one, mul_zero]

theorem rightOrDown : RightOrDown (weightAt 0 0) (samplesAt fx fy 40 40 2) := by
  rw [samples]
  intro v hv
  obtain ⟨p, hp, rfl⟩ := List.mem_map.1 hv
  obtain ⟨h1, h2⟩ := offsets_small p hp
  by_cases h0 : p = (0, 0)
  · rw [if_pos h0]; exact Or.inr rfl
  · rw [if_neg h0]; exact Or.inl ⟨weight_pos h1 h2, rfl⟩

theorem sum_down : ((samplesAt fx fy 40 40 2).map Prod.snd).sum = weightAt 0 0 := by
  have hsplit : offsets = offsets.take 54 ++ (0, 0) :: offsets.drop 55 := by decide
  have hA : ∀ p ∈ offsets.take 54, p ≠ (0, 0) := by decide
  have hB : ∀ p ∈ offsets.drop 55, p ≠ (0, 0) := by decide
  rw [samples, List.map_map]
  have e : ∀ l : List (ℤ × ℤ), (∀ p ∈ l, p ≠ (0, 0)) → (l.map (Prod.snd ∘ fun p : ℤ × ℤ =>
      if p = (0, 0) then ((0 : ℝ), weightAt 0 0) else (weightAt p.1 p.2, 0))).sum = 0 := by
    intro l hl
    refine List.sum_eq_zero ?_
    intro x hx
    obtain ⟨p, hp, rfl⟩ := List.mem_map.1 hx
    simp [hl p hp]
  rw [hsplit, List.map_append, List.sum_append, List.map_cons, List.sum_cons, e _ hA, e _ hB]
  simp

theorem sum_right : weightAt 0 0 < ((samplesAt fx fy 40 40 2).map Prod.fst).sum := by
  rw [samples, List.map_map]
  have hs : ([(1, 0), (2, 0)] : List (ℤ × ℤ)).Sublist offsets := by decide
  have := (hs.map (Prod.fst ∘ fun p : ℤ × ℤ =>
      if p = (0, 0) then ((0 : ℝ), weightAt 0 0) else (weightAt p.1 p.2, 0))).sum_le_sum ?_
  · refine lt_of_lt_of_le ?_ this
    norm_num [weightAt, gauss25]
  · intro x hx
    obtain ⟨p, hp, rfl⟩ := List.mem_map.1 hx
    obtain ⟨h1, h2⟩ := offsets_small p hp
    simp only [Function.comp]
    split
    · exact le_rfl
    · exact (weight_pos h1 h2).le

theorem result : ∃ k', refineKeypoint [level] k = some (some k') ∧ k'.x = 40 ∧ k'.y = 40 ∧
    k'.angle = (bestAngle (samplesAt fx fy 40 40 2) 0).2 := by
  have hstep : newtonStep (f 40 40) (f (40 + 1) 40) (f (40 - 1) 40) (f 40 (40 + 1)) (f 40 (40 - 1)) (f (40 + 1) (40 + 1))
      (f (40 + 1) (40 - 1)) (f (40 - 1) (40 + 1)) (f (40 - 1) (40 - 1)) = some (0, 0) := by
    simp [f, newtonStep]
  have hs : ⌊k.size / 2 ^ level.octave + 1 / 2⌋ = 2 := by
    rw [Int.floor_eq_iff]; norm_num [k, level]
  have hx : (refined k level 40 40 0 0).x / 2 ^ level.octave = 40 := by norm_num [refined, level]
  have hy : (refined k level 40 40 0 0).y / 2 ^ level.octave = 40 := by norm_num [refined, level]
  rcases refine_eq complete found (ofFn_shows 80 80 f) (ofFn_shows 80 80 fx) (ofFn_shows 80 80 fy) with
    ⟨h, _⟩ | ⟨u, v, h, h2⟩
  · rw [hstep] at h; cases h
  · rw [hstep] at h
    obtain ⟨rfl, rfl⟩ := Prod.mk.inj (Option.some.inj h)
    refine ⟨_, h2, by norm_num [refined, level], by norm_num [refined, level], ?_⟩
    simp only [hs, hx, hy]

end ExOrient

open ExOrient in
/-- **C75** is false without the condition on the gradients: all but one of them point to the right, and the result is
the direction of that one. -/
theorem C75_false : ¬ ∀ (levels : List DetLevel), Complete 1.5 levels → ∀ (k k' : KeyPoint) (l : DetLevel) (x y : Nat),
    FoundAt 0.001 1.5 levels k l x y → refineKeypoint levels k = some (some k') → ∀ fx fy,
    l.lx.Shows l.ldet.w l.ldet.h fx → l.ly.Shows l.ldet.w l.ldet.h fy →
    IsDominant (samplesAt fx fy (k'.x / 2 ^ l.octave) (k'.y / 2 ^ l.octave) ⌊k.size / 2 ^ l.octave + 1 / 2⌋) k'.angle := by
  intro h
  obtain ⟨k', h1, h2, h3, h4⟩ := result
  have := h [level] complete k k' level 40 40 found h1 fx fy (ofFn_shows 80 80 fx) (ofFn_shows 80 80 fy)
  have hs : ⌊k.size / 2 ^ level.octave + 1 / 2⌋ = 2 := by
    rw [Int.floor_eq_iff]; norm_num [k, level]
  rw [hs, h2, h3, h4, show (40 : ℝ) / 2 ^ level.octave = 40 by norm_num [level]] at this
  refine not_dominant (weight_pos (by simp) (by simp)) rightOrDown ?_ ?_ this
  · rw [sum_down]; exact weight_pos (by simp) (by simp)
  · rw [sum_down]; exact sum_right

end Verif.Akaze
