import Verif.Lemmas.Image
import Mathlib.Algebra.Order.BigOperators.Ring.Finset
import Mathlib.Algebra.Order.Field.Basic
import Mathlib.Tactic.FieldSimp
import Mathlib.Tactic.NormNum

/-!
# C24: separable filters; C69: blurring; C70: derivatives

`none` stands for a panic. `Img.Shows` says what an image looks like, `correlate` is the sum of the products of a
kernel with a line of pixels extended by repeating its ends (both in Spec/Image).
-/

namespace Verif.Akaze

variable {K : Type _}

section

variable [CommRing K]

/-- **C24.** Filtering an image of any size from 1x1 on with kernels of any odd lengths gives an image of the same
size whose pixels are the correlation along the rows and then along the columns, with the border repeated. -/
theorem C24_correlation {image : Img K} {hk vk : List K} {w h : Nat} {f : Nat → Nat → K} (hs : image.Shows w h f)
    (hw : 0 < w) (hh : 0 < h) (h1 : hk.length % 2 = 1) (h2 : vk.length % 2 = 1) :
    ∃ out, separableFilter image hk vk = some out ∧ out.Shows w h (fun x y =>
      ∑ j ∈ Finset.range vk.length, ∑ i ∈ Finset.range hk.length,
        f (clampAt w (hk.length / 2) x i) (clampAt h (vk.length / 2) y j) * hk.getD i 0 * vk.getD j 0) := by
  obtain ⟨out, e, s⟩ := separable_shows hs hw hh h1 h2
  refine ⟨out, e, ?_⟩
  convert s using 3
  unfold correlate
  refine Finset.sum_congr rfl (fun j _ => ?_)
  rw [Finset.sum_mul]

/-- **C24, when filtering fails.** Exactly for empty images and kernels of even length. -/
theorem C24_fails {image : Img K} (hwf : image.WF) (hk vk : List K) : separableFilter image hk vk = none ↔
    image.w = 0 ∨ image.h = 0 ∨ hk.length % 2 ≠ 1 ∨ vk.length % 2 ≠ 1 := by
  constructor
  · intro h
    by_contra hc
    push Not at hc
    let _ : Inhabited K := ⟨0⟩
    obtain ⟨out, e, _⟩ := separable_shows hwf.exists_shows (Nat.pos_of_ne_zero hc.1)
      (Nat.pos_of_ne_zero hc.2.1) hc.2.2.1 hc.2.2.2
    rw [h] at e; cases e
  · intro h
    unfold separableFilter
    by_cases hk1 : hk.length % 2 = 1
    · by_cases hw : image.w = 0
      · simp [horizontalFilter, hk1, hw]
      · let _ : Inhabited K := ⟨0⟩
        obtain ⟨o, e, s⟩ := horizontal_shows hwf.exists_shows (Nat.pos_of_ne_zero hw) hk1
        rw [e, Option.bind_eq_bind, Option.bind_some]
        unfold verticalFilter
        by_cases hv : vk.length % 2 = 1
        · have h0 : image.h = 0 := by
            rcases h with h | h | h | h
            · exact absurd h hw
            · exact h
            · exact absurd hk1 h
            · exact absurd hv h
          simp only [if_neg (show ¬ vk.length % 2 ≠ 1 by omega), s.1, s.2.1]
          obtain ⟨m, hm⟩ : ∃ m, (image.w + 15) / 16 = m + 1 := ⟨(image.w + 15) / 16 - 1, by omega⟩
          rw [hm, List.range_succ_eq_map, List.map_cons, columnLoop]
          simp [h0]
        · simp [hv]
    · simp [horizontalFilter, hk1]

/-- Lines that agree where the kernel reaches have the same correlation. -/
theorem correlate_const (kernel : List K) (size : Nat) (c : K) (x : Nat) :
    correlate kernel size (fun _ => c) x = c * kernel.sum := by
  unfold correlate
  rw [← Finset.mul_sum]
  congr 1
  rw [← sum_range_map]
  congr 1
  refine List.ext_getElem (by simp) ?_
  intro i h1 h2
  simp at h1
  simp [List.getD_eq_getElem?_getD, h1]

/-- **C24, constants.** A filter multiplies a constant image by the sums of its kernels, up to the border. -/
theorem C24_constant {image : Img K} {hk vk : List K} {w h : Nat} {c : K} (hs : image.Shows w h (fun _ _ => c))
    (hw : 0 < w) (hh : 0 < h) (h1 : hk.length % 2 = 1) (h2 : vk.length % 2 = 1) :
    ∃ out, separableFilter image hk vk = some out ∧ out.Shows w h (fun _ _ => c * hk.sum * vk.sum) := by
  obtain ⟨out, e, s⟩ := separable_shows hs hw hh h1 h2
  refine ⟨out, e, ?_⟩
  simpa only [correlate_const] using s

end

/-! ## Blurring -/

section

variable [Field K] [LinearOrder K] [IsStrictOrderedRing K]

theorem kernel_spec {g : Int → K} (hg : ∀ i, 0 < g i) {radius : Nat} {kernel : List K}
    (h : gaussianKernel g (radius * 2 + 1) = some kernel) : kernel.length = radius * 2 + 1 ∧
      (∀ i, i < kernel.length → 0 < kernel.getD i 0) ∧ kernel.sum = 1 := by
  unfold gaussianKernel at h
  rw [if_neg (by omega)] at h
  obtain rfl := Option.some.inj h
  have hpos : 0 < ((List.range (radius * 2 + 1)).map
      (fun i : Nat => g ((i : Int) - (((radius * 2 + 1) / 2 : Nat) : Int)))).sum := by
    rw [sum_range_map]
    exact Finset.sum_pos (fun i _ => hg _) ⟨0, by simp⟩
  refine ⟨by simp, ?_, ?_⟩
  · intro i hi
    simp only [List.length_map, List.length_range] at hi
    simp only [List.getD_eq_getElem?_getD, List.getElem?_map, List.getElem?_range hi, Option.map_some,
      Option.getD_some]
    exact div_pos (hg _) hpos
  · simp only [div_eq_mul_inv]
    rw [List.sum_map_mul_right, List.map_id', mul_inv_cancel₀ hpos.ne']

theorem correlate_between {kernel : List K} (hpos : ∀ i, i < kernel.length → 0 < kernel.getD i 0)
    (hsum : kernel.sum = 1) {size : Nat} (hsize : 0 < size) {line : Nat → K} {lo hi : K}
    (hline : ∀ x, x < size → lo ≤ line x ∧ line x ≤ hi) (x : Nat) :
    lo ≤ correlate kernel size line x ∧ correlate kernel size line x ≤ hi := by
  have e : ∀ c : K, c = correlate kernel size (fun _ => c) x := by
    intro c; rw [correlate_const, hsum, mul_one]
  constructor
  · rw [e lo]
    refine Finset.sum_le_sum (fun n hn => ?_)
    exact mul_le_mul_of_nonneg_right (hline _ (clampAt_lt hsize _ _ _)).1
      (hpos n (Finset.mem_range.mp hn)).le
  · rw [e hi]
    refine Finset.sum_le_sum (fun n hn => ?_)
    exact mul_le_mul_of_nonneg_right (hline _ (clampAt_lt hsize _ _ _)).2
      (hpos n (Finset.mem_range.mp hn)).le

/-- **C69.** Blurring with any positive weights, of any radius, an image of any size gives an image of the same
size, and if all pixels lie between `lo` and `hi` so do those of the result. -/
theorem C69_range {g : Int → K} (hg : ∀ i, 0 < g i) (radius : Nat) {image : Img K} {w h : Nat}
    {f : Nat → Nat → K} (hs : image.Shows w h f) (hw : 0 < w) (hh : 0 < h) {lo hi : K}
    (hf : ∀ x y, x < w → y < h → lo ≤ f x y ∧ f x y ≤ hi) : ∃ out f',
      gaussianBlur g radius image = some out ∧ out.Shows w h f' ∧
        ∀ x y, x < w → y < h → lo ≤ f' x y ∧ f' x y ≤ hi := by
  obtain ⟨kernel, hk⟩ : ∃ k, gaussianKernel g (radius * 2 + 1) = some k := by
    unfold gaussianKernel; rw [if_neg (by omega)]; exact ⟨_, rfl⟩
  obtain ⟨hl, hpos, hsum⟩ := kernel_spec hg hk
  obtain ⟨out, e, s⟩ := separable_shows hs hw hh (hk := kernel) (vk := kernel) (by omega) (by omega)
  refine ⟨out, _, ?_, s, ?_⟩
  · unfold gaussianBlur
    simp only [hk, Option.bind_eq_bind, Option.bind_some]
    exact e
  · intro x y hx hy
    exact correlate_between hpos hsum hh
      (fun y hy => correlate_between hpos hsum hw (fun x hx => hf x y hx hy) x) y

/-- **C69, constants stay.** -/
theorem C69_constant {g : Int → K} (hg : ∀ i, 0 < g i) (radius : Nat) {image : Img K} {w h : Nat} {c : K}
    (hs : image.Shows w h (fun _ _ => c)) (hw : 0 < w) (hh : 0 < h) :
    ∃ out, gaussianBlur g radius image = some out ∧ out.Shows w h (fun _ _ => c) := by
  obtain ⟨kernel, hk⟩ : ∃ k, gaussianKernel g (radius * 2 + 1) = some k := by
    unfold gaussianKernel; rw [if_neg (by omega)]; exact ⟨_, rfl⟩
  obtain ⟨hl, hpos, hsum⟩ := kernel_spec hg hk
  obtain ⟨out, e, s⟩ := C24_constant hs hw hh (hk := kernel) (vk := kernel) (by omega) (by omega)
  refine ⟨out, ?_, by simpa only [hsum, mul_one] using s⟩
  unfold gaussianBlur
  simp only [hk, Option.bind_eq_bind, Option.bind_some]
  exact e

end

/-! ## Derivatives -/

section

variable [Field K]

/-- The derivative kernel takes the difference of the ends. -/
theorem correlate_main {sigma : Nat} {main : List K} (h : scharrMain sigma = some main) (size : Nat)
    (line : Nat → K) (x : Nat) : main.length = 2 * sigma + 1 ∧ correlate main size line x =
      line (clampAt size sigma x (2 * sigma)) - line (clampAt size sigma x 0) := by
  unfold scharrMain at h
  split at h
  · cases h
  rename_i h0
  obtain rfl := Option.some.inj h
  have hl : 3 + 2 * (sigma - 1) = 2 * sigma + 1 := by omega
  simp only [hl]
  refine ⟨by simp, ?_⟩
  unfold correlate
  simp only [List.length_set, List.length_replicate, Nat.add_sub_cancel,
    show (2 * sigma + 1) / 2 = sigma by omega]
  have hg : ∀ n, n < 2 * sigma + 1 →
      (((List.replicate (2 * sigma + 1) (0 : K)).set 0 (-1)).set (2 * sigma) 1).getD n 0 =
        if n = 2 * sigma then 1 else if n = 0 then -1 else 0 := by
    intro n hn
    simp only [List.getD_eq_getElem?_getD, List.getElem?_set, List.length_set, List.length_replicate,
      List.getElem?_replicate]
    by_cases h1 : n = 2 * sigma
    · subst h1; simp
    · by_cases h2 : n = 0
      · subst h2; simp [h0]
      · simp [h1, h2, hn, Ne.symm h1, Ne.symm h2]
  rw [Finset.sum_congr rfl (fun n hn => by rw [hg n (Finset.mem_range.mp hn)])]
  rw [Finset.sum_range_succ]
  obtain ⟨m, hm⟩ : ∃ m, 2 * sigma = m + 1 := ⟨2 * sigma - 1, by omega⟩
  rw [hm, Finset.sum_range_succ', Finset.sum_eq_zero]
  · simp; ring
  · intro n hn
    rw [Finset.mem_range] at hn
    rw [if_neg (by omega), if_neg (by omega), mul_zero]

/-- The smoothing kernel weighs the ends and the middle. -/
theorem correlate_off {sigma : Nat} {off : List K} (h : scharrOff sigma = some off) (size : Nat)
    (line : Nat → K) (x : Nat) : off.length = 2 * sigma + 1 ∧ correlate off size line x =
      1 / (2 * sigma * (10 / 3 + 2)) * (line (clampAt size sigma x 0) +
        10 / 3 * line (clampAt size sigma x sigma) + line (clampAt size sigma x (2 * sigma))) := by
  unfold scharrOff at h
  split at h
  · cases h
  rename_i h0
  obtain rfl := Option.some.inj h
  have hl : 3 + 2 * (sigma - 1) = 2 * sigma + 1 := by omega
  simp only [hl]
  refine ⟨by simp, ?_⟩
  unfold correlate
  simp only [List.length_set, List.length_replicate, Nat.add_sub_cancel,
    show (2 * sigma + 1) / 2 = sigma by omega]
  generalize (1 / (2 * (sigma : K) * (10 / 3 + 2))) = norm
  have hg : ∀ n, n < 2 * sigma + 1 →
      ((((List.replicate (2 * sigma + 1) (0 : K)).set 0 norm).set sigma (norm * (10 / 3))).set
        (2 * sigma) norm).getD n 0 =
        (if n = 2 * sigma then norm else 0) + (if n = 0 then norm else 0) +
          (if n = sigma then norm * (10 / 3) else 0) := by
    intro n hn
    simp only [List.getD_eq_getElem?_getD, List.getElem?_set, List.length_set, List.length_replicate,
      List.getElem?_replicate]
    by_cases h1 : n = 2 * sigma
    · subst h1; simp [h0, show 2 * sigma ≠ sigma by omega]
    · by_cases h2 : n = 0
      · subst h2; simp [h0, Ne.symm h0]
      · by_cases h3 : n = sigma
        · subst h3
          simp [h2, show ¬ 2 * n = n by omega, show ¬ n = 2 * n by omega, show n < 2 * n + 1 by omega]
        · simp [h1, h2, h3, hn, Ne.symm h1, Ne.symm h2, Ne.symm h3]
  rw [Finset.sum_congr rfl (fun n hn => by rw [hg n (Finset.mem_range.mp hn)])]
  simp only [mul_add, Finset.sum_add_distrib, mul_ite, mul_zero, Finset.sum_ite_eq', Finset.mem_range]
  rw [if_pos (by omega), if_pos (by omega), if_pos (by omega)]
  ring

/-- **C70.** The derivative filters of scale `sigma ≥ 2` applied to an image of any size: at each pixel the
horizontal one is the difference of the pixels `sigma` to the right and left divided by `2 sigma`, averaged over the
rows at distance `sigma` with weights 3 : 10 : 3. -/
theorem C70_horizontal [CharZero K] {image : Img K} {sigma w h : Nat} {f : Nat → Nat → K}
    (hs : image.Shows w h f) (hw : 0 < w) (hh : 0 < h) (hsig : 2 ≤ sigma) :
    ∃ out, scharrHorizontal image sigma = some out ∧ out.Shows w h (fun x y =>
      let d := fun y' => (f (clampAt w sigma x (2 * sigma)) y' - f (clampAt w sigma x 0) y') / (2 * sigma)
      (3 * d (clampAt h sigma y 0) + 10 * d (clampAt h sigma y sigma) +
        3 * d (clampAt h sigma y (2 * sigma))) / 16) := by
  obtain ⟨main, hm⟩ : ∃ m : List K, scharrMain sigma = some m := by
    unfold scharrMain; rw [if_neg (by omega)]; exact ⟨_, rfl⟩
  obtain ⟨off, ho⟩ : ∃ m : List K, scharrOff sigma = some m := by
    unfold scharrOff; rw [if_neg (by omega)]; exact ⟨_, rfl⟩
  obtain ⟨out, e, s⟩ := separable_shows hs hw hh (hk := main) (vk := off)
    (by rw [(correlate_main hm 0 (fun _ => 0) 0).1]; omega)
    (by rw [(correlate_off ho 0 (fun _ => 0) 0).1]; omega)
  refine ⟨out, ?_, ?_⟩
  · unfold scharrHorizontal
    rw [if_neg (by omega)]
    simp only [hm, ho, Option.bind_eq_bind, Option.bind_some]
    exact e
  · have hsig' : (sigma : K) ≠ 0 := by exact_mod_cast (by omega : sigma ≠ 0)
    convert s using 3
    rename_i x y
    rw [(correlate_off ho _ _ _).2]
    simp only [(correlate_main hm _ _ _).2]
    rw [show (10 / 3 + 2 : K) = 16 / 3 by norm_num]
    field_simp

/-- **C70, vertically.** -/
theorem C70_vertical [CharZero K] {image : Img K} {sigma w h : Nat} {f : Nat → Nat → K}
    (hs : image.Shows w h f) (hw : 0 < w) (hh : 0 < h) (hsig : 2 ≤ sigma) :
    ∃ out, scharrVertical image sigma = some out ∧ out.Shows w h (fun x y =>
      let d := fun x' => (f x' (clampAt h sigma y (2 * sigma)) - f x' (clampAt h sigma y 0)) / (2 * sigma)
      (3 * d (clampAt w sigma x 0) + 10 * d (clampAt w sigma x sigma) +
        3 * d (clampAt w sigma x (2 * sigma))) / 16) := by
  obtain ⟨main, hm⟩ : ∃ m : List K, scharrMain sigma = some m := by
    unfold scharrMain; rw [if_neg (by omega)]; exact ⟨_, rfl⟩
  obtain ⟨off, ho⟩ : ∃ m : List K, scharrOff sigma = some m := by
    unfold scharrOff; rw [if_neg (by omega)]; exact ⟨_, rfl⟩
  obtain ⟨out, e, s⟩ := separable_shows hs hw hh (hk := off) (vk := main)
    (by rw [(correlate_off ho 0 (fun _ => 0) 0).1]; omega)
    (by rw [(correlate_main hm 0 (fun _ => 0) 0).1]; omega)
  refine ⟨out, ?_, ?_⟩
  · unfold scharrVertical
    rw [if_neg (by omega)]
    simp only [hm, ho, Option.bind_eq_bind, Option.bind_some]
    exact e
  · have hsig' : (sigma : K) ≠ 0 := by exact_mod_cast (by omega : sigma ≠ 0)
    convert s using 3
    rename_i x y
    rw [(correlate_main hm _ _ _).2]
    simp only [(correlate_off ho _ _ _).2]
    rw [show (10 / 3 + 2 : K) = 16 / 3 by norm_num]
    field_simp
    ring

theorem clamp_inside {size r x n : Nat} (h1 : r ≤ x) (h2 : x + r < size) (h3 : n ≤ 2 * r) :
    clampAt size r x n = x + n - r := by
  rw [clampAt_eq]; omega

/-- **C70, ramps.** On an image that rises by `a` per column and `b` per row, the derivatives of scale `sigma ≥ 2`
are exactly `a` and `b` at every pixel at least `sigma` away from the border. -/
theorem C70_ramp [CharZero K] {image : Img K} {sigma w h : Nat} {a b c : K}
    (hs : image.Shows w h (fun x y => a * x + b * y + c)) (hsig : 2 ≤ sigma) {x y : Nat} (hx : sigma ≤ x)
    (hx' : x + sigma < w) (hy : sigma ≤ y) (hy' : y + sigma < h) :
    (scharrHorizontal image sigma).bind (·.get x y) = some a ∧
      (scharrVertical image sigma).bind (·.get x y) = some b := by
  have hsig' : (sigma : K) ≠ 0 := by exact_mod_cast (by omega : sigma ≠ 0)
  have c1 := clamp_inside (n := 0) hx hx' (by omega)
  have c2 := clamp_inside (n := sigma) hx hx' (by omega)
  have c3 := clamp_inside (n := 2 * sigma) hx hx' (by omega)
  have d1 := clamp_inside (n := 0) hy hy' (by omega)
  have d2 := clamp_inside (n := sigma) hy hy' (by omega)
  have d3 := clamp_inside (n := 2 * sigma) hy hy' (by omega)
  have ex1 : ((x + 2 * sigma - sigma : Nat) : K) = x + sigma := by
    rw [show x + 2 * sigma - sigma = x + sigma by omega]; push_cast; ring
  have ex0 : ((x + 0 - sigma : Nat) : K) = x - sigma := by
    rw [Nat.add_zero, Nat.cast_sub hx]
  have ey1 : ((y + 2 * sigma - sigma : Nat) : K) = y + sigma := by
    rw [show y + 2 * sigma - sigma = y + sigma by omega]; push_cast; ring
  have ey0 : ((y + 0 - sigma : Nat) : K) = y - sigma := by
    rw [Nat.add_zero, Nat.cast_sub hy]
  constructor
  · obtain ⟨out, e, s⟩ := C70_horizontal hs (by omega) (by omega) hsig
    rw [e, Option.bind_some, s.2.2.2 x y (by omega) (by omega)]
    congr 1
    simp only [c1, c3, ex1, ex0]
    field_simp
    ring
  · obtain ⟨out, e, s⟩ := C70_vertical hs (by omega) (by omega) hsig
    rw [e, Option.bind_some, s.2.2.2 x y (by omega) (by omega)]
    congr 1
    simp only [d1, d3, ey1, ey0]
    field_simp
    ring

/-- **C70 is false for scale 1.** There the result is 32 times the slope. -/
theorem C70_ramp_one {image : Img K} {w h : Nat} {a b c : K}
    (hs : image.Shows w h (fun x y => a * x + b * y + c)) {x y : Nat} (hx : 1 ≤ x)
    (hx' : x + 1 < w) (hy : 1 ≤ y) (hy' : y + 1 < h) :
    (scharrHorizontal image 1).bind (·.get x y) = some (32 * a) ∧
      (scharrVertical image 1).bind (·.get x y) = some (32 * b) := by
  have c1 := clamp_inside (n := 0) hx hx' (by omega)
  have c2 := clamp_inside (n := 1) hx hx' (by omega)
  have c3 := clamp_inside (n := 2) hx hx' (by omega)
  have d1 := clamp_inside (n := 0) hy hy' (by omega)
  have d2 := clamp_inside (n := 1) hy hy' (by omega)
  have d3 := clamp_inside (n := 2) hy hy' (by omega)
  have ex1 : ((x + 2 - 1 : Nat) : K) = x + 1 := by
    rw [show x + 2 - 1 = x + 1 by omega]; push_cast; ring
  have ex0 : ((x + 0 - 1 : Nat) : K) = x - 1 := by rw [Nat.add_zero, Nat.cast_sub hx, Nat.cast_one]
  have ey1 : ((y + 2 - 1 : Nat) : K) = y + 1 := by
    rw [show y + 2 - 1 = y + 1 by omega]; push_cast; ring
  have ey0 : ((y + 0 - 1 : Nat) : K) = y - 1 := by rw [Nat.add_zero, Nat.cast_sub hy, Nat.cast_one]
  constructor
  · obtain ⟨out, e, s⟩ := C24_correlation hs (by omega) (by omega) (hk := [-1, 0, 1]) (vk := [3, 10, 3]) (by simp) (by simp)
    rw [scharrHorizontal, if_pos rfl, simpleScharrHorizontal, e, Option.bind_some,
      s.2.2.2 x y (by omega) (by omega)]
    congr 1
    simp only [List.length_cons, List.length_nil, Finset.sum_range_succ, Finset.sum_range_zero]
    norm_num only [c1, c2, c3, d1, d2, d3, ex1, ex0, List.getD_cons_zero, List.getD_cons_succ]
    ring
  · obtain ⟨out, e, s⟩ := C24_correlation hs (by omega) (by omega) (hk := [3, 10, 3]) (vk := [-1, 0, 1]) (by simp) (by simp)
    rw [scharrVertical, if_pos rfl, simpleScharrVertical, e, Option.bind_some,
      s.2.2.2 x y (by omega) (by omega)]
    congr 1
    simp only [List.length_cons, List.length_nil, Finset.sum_range_succ, Finset.sum_range_zero]
    norm_num only [c1, c2, c3, d1, d2, d3, ey1, ey0, List.getD_cons_zero, List.getD_cons_succ]
    ring

/-- Scale zero panics. -/
theorem C70_zero (image : Img K) : scharrHorizontal image 0 = none ∧ scharrVertical image 0 = none :=
  ⟨rfl, rfl⟩

end

/-- Images meeting the hypotheses: any size, any pixels. -/
example (w h : Nat) (f : Nat → Nat → K) : ∃ i : Img K, i.Shows w h f := ⟨_, ofFn_shows w h f⟩

/-- A small image of whole numbers, filtered. -/
example : (separableFilter (⟨3, 2, [1, 2, 4, 0, 5, 1]⟩ : Img Int) [-1, 0, 1] [1, 2, 1]).map (·.data) =
    some [8, 10, 2, 16, 6, -10] := by decide

end Verif.Akaze
