import Verif.Props.Evolution

/-!
# Blurring keeps a ramp (C69), and a scale space that is built (C23, C72)
-/

namespace Verif.Akaze

section

variable {K : Type _} [Field K] [LinearOrder K] [IsStrictOrderedRing K]

omit [LinearOrder K] [IsStrictOrderedRing K] in
theorem kernel_symm {g : Int → K} (hs : ∀ i, g (-i) = g i) {radius : Nat} {kernel : List K}
    (h : gaussianKernel g (radius * 2 + 1) = some kernel) {n : Nat} (hn : n < radius * 2 + 1) :
    kernel.getD (radius * 2 - n) 0 = kernel.getD n 0 := by
  unfold gaussianKernel at h
  rw [if_neg (by omega)] at h
  obtain rfl := Option.some.inj h
  have h2 : radius * 2 - n < radius * 2 + 1 := by omega
  simp only [List.getD_eq_getElem?_getD, List.getElem?_map, List.getElem?_range hn, List.getElem?_range h2,
    Option.map_some, Option.getD_some]
  congr 1
  rw [← hs]
  congr 1
  omega

theorem correlate_ramp {g : Int → K} (hg : ∀ i, 0 < g i) (hs : ∀ i, g (-i) = g i) {radius : Nat} {kernel : List K}
    (h : gaussianKernel g (radius * 2 + 1) = some kernel) {size x : Nat} (hx : radius ≤ x) (hx' : x + radius < size)
    (a d : K) : correlate kernel size (fun x => a * x + d) x = a * x + d := by
  obtain ⟨hl, -, hsum⟩ := kernel_spec hg h
  have hsum' : ∑ n ∈ Finset.range (radius * 2 + 1), kernel.getD n 0 = 1 := by
    have := correlate_const kernel size (1 : K) x
    rw [hsum, mul_one] at this
    unfold correlate at this
    rw [hl] at this
    simpa using this
  have hodd : ∑ n ∈ Finset.range (radius * 2 + 1), ((n : K) - radius) * kernel.getD n 0 = 0 := by
    have h1 := Finset.sum_range_reflect (fun n => ((n : K) - radius) * kernel.getD n 0) (radius * 2 + 1)
    have h2 : ∑ n ∈ Finset.range (radius * 2 + 1),
        (((radius * 2 + 1 - 1 - n : Nat) : K) - radius) * kernel.getD (radius * 2 + 1 - 1 - n) 0 =
        - ∑ n ∈ Finset.range (radius * 2 + 1), ((n : K) - radius) * kernel.getD n 0 := by
      rw [← Finset.sum_neg_distrib]
      refine Finset.sum_congr rfl (fun n hn => ?_)
      rw [Finset.mem_range] at hn
      rw [Nat.add_sub_cancel, kernel_symm hs h hn, Nat.cast_sub (by omega)]
      push_cast
      ring
    rw [h2] at h1
    linarith
  unfold correlate
  rw [hl]
  have : ∀ n ∈ Finset.range (radius * 2 + 1), (a * ((clampAt size ((radius * 2 + 1) / 2) x n : Nat) : K) + d) *
      kernel.getD n 0 = (a * x + d) * kernel.getD n 0 + a * (((n : K) - radius) * kernel.getD n 0) := by
    intro n hn
    rw [Finset.mem_range] at hn
    have hr : (radius * 2 + 1) / 2 = radius := by omega
    rw [hr, clamp_inside hx hx' (by omega), Nat.cast_sub (by omega)]
    push_cast
    ring
  rw [Finset.sum_congr rfl this, Finset.sum_add_distrib, ← Finset.mul_sum, ← Finset.mul_sum, hsum', hodd]
  ring

/-- **C69** Blurring with symmetric weights does not change (in particular not shift) an image that rises evenly, except
within the radius of the border. -/
theorem C69_ramp {g : Int → K} (hg : ∀ i, 0 < g i) (hsym : ∀ i, g (-i) = g i) (radius : Nat) {image : Img K}
    {w h : Nat} {a b c : K} (hs : image.Shows w h (fun x y => a * x + b * y + c)) (hw : 0 < w) (hh : 0 < h) :
    ∃ out f, gaussianBlur g radius image = some out ∧ out.Shows w h f ∧ ∀ x y, radius ≤ x → x + radius < w →
      radius ≤ y → y + radius < h → f x y = a * x + b * y + c := by
  have hk : ∃ kernel, gaussianKernel g (radius * 2 + 1) = some kernel := by
    unfold gaussianKernel
    rw [if_neg (by omega)]
    exact ⟨_, rfl⟩
  obtain ⟨kernel, hk⟩ := hk
  obtain ⟨hl, -⟩ := kernel_spec hg hk
  obtain ⟨out, e, ho⟩ := separable_shows hs hw hh (hk := kernel) (vk := kernel) (by omega) (by omega)
  refine ⟨out, _, ?_, ho, fun x y hx hx' hy hy' => ?_⟩
  · unfold gaussianBlur
    rw [hk]
    exact e
  · have h1 : ∀ y' : Nat, correlate kernel w (fun x : Nat => a * (x : K) + b * (y' : K) + c) x =
        b * y' + (a * x + c) := by
      intro y'
      have := correlate_ramp hg hsym hk hx hx' a (b * (y' : K) + c)
      have e2 : (fun x : Nat => a * (x : K) + b * (y' : K) + c) = fun x : Nat => a * (x : K) + (b * (y' : K) + c) := by
        funext x; ring
      rw [e2, this]
      ring
    change correlate kernel h (fun y' : Nat => correlate kernel w (fun x : Nat => a * (x : K) + b * (y' : K) + c) x) y = _
    simp only [h1]
    rw [correlate_ramp hg hsym hk hy hy']
    ring

end

theorem gaussian_symm (r : ℝ) (i : Int) : gaussian r (-i) = gaussian r i := by
  unfold gaussian
  push_cast
  rw [neg_sq]

/-- **C69** The blurred pixel is the weighted mean of those up to `⌈2 r⌉` columns and rows away (repeating the border), and
the weight `k i * k j` of the pixel `i` columns and `j` rows away falls off as a Gaussian of standard deviation `r`. -/
theorem C69_weights {r : ℝ} (hr : 0 < r) {image : Img ℝ} {w h : Nat} {f : Nat → Nat → ℝ} (hs : image.Shows w h f)
    (hw : 0 < w) (hh : 0 < h) : ∃ out, ∃ k : Nat → ℝ, blur image r = some out ∧
      (∀ i, k i = k 0 * Real.exp (-(i : ℝ) ^ 2 / (2 * r ^ 2))) ∧
      ∑ i ∈ Finset.range (⌈2 * r⌉₊ * 2 + 1), k ((i : ℤ) - ⌈2 * r⌉₊).natAbs = 1 ∧
      out.Shows w h (fun x y =>
        ∑ j ∈ Finset.range (⌈2 * r⌉₊ * 2 + 1), ∑ i ∈ Finset.range (⌈2 * r⌉₊ * 2 + 1),
          f (clampAt w ⌈2 * r⌉₊ x i) (clampAt h ⌈2 * r⌉₊ y j) *
            (k ((i : ℤ) - ⌈2 * r⌉₊).natAbs * k ((j : ℤ) - ⌈2 * r⌉₊).natAbs)) := by
  set R := ⌈2 * r⌉₊ with hR
  have hk : ∃ kernel, gaussianKernel (gaussian r) (R * 2 + 1) = some kernel := by
    unfold gaussianKernel
    rw [if_neg (by omega)]
    exact ⟨_, rfl⟩
  obtain ⟨kernel, hk⟩ := hk
  obtain ⟨hl, -, hsum⟩ := kernel_spec (gaussian_pos hr) hk
  obtain ⟨out, e, ho⟩ := C24_correlation hs hw hh (hk := kernel) (vk := kernel) (by omega) (by omega)
  set S := ((List.range (R * 2 + 1)).map
    (fun i : Nat => gaussian r ((i : Int) - (((R * 2 + 1) / 2 : Nat) : Int)))).sum with hS
  have hget : ∀ i, i < R * 2 + 1 → kernel.getD i 0 = gaussian r (((i : ℤ) - R).natAbs : ℤ) / S := by
    intro i hi
    unfold gaussianKernel at hk
    rw [if_neg (by omega)] at hk
    obtain rfl := Option.some.inj hk
    simp only [List.getD_eq_getElem?_getD, List.getElem?_map, List.getElem?_range hi, Option.map_some,
      Option.getD_some]
    rw [← hS, show (((R * 2 + 1) / 2 : Nat) : Int) = R by omega]
    congr 1
    rcases Int.natAbs_eq ((i : ℤ) - R) with h | h
    · rw [← h]
    · conv_lhs => rw [h]
      rw [gaussian_symm]
  refine ⟨out, fun i => gaussian r (i : ℤ) / S, ?_, ?_, ?_, ?_⟩
  · unfold blur gaussianBlur
    rw [if_pos hr, hk]
    exact e
  · intro i
    unfold gaussian
    simp only [Int.cast_natCast, Nat.cast_zero, Int.cast_zero]
    norm_num
    ring
  · have h1 := correlate_const kernel 1 (1 : ℝ) 0
    rw [hsum, mul_one] at h1
    unfold correlate at h1
    rw [hl] at h1
    rw [← h1]
    refine Finset.sum_congr rfl (fun i hi => ?_)
    rw [hget i (Finset.mem_range.mp hi), one_mul]
  · convert ho using 3 with x y
    rw [hl]
    refine Finset.sum_congr rfl (fun j hj => Finset.sum_congr rfl (fun i hi => ?_))
    rw [hget i (Finset.mem_range.mp hi), hget j (Finset.mem_range.mp hj), show (R * 2 + 1) / 2 = R by omega]
    ring

/-- The gradient of the blurred ramp inside. -/
theorem ramp_gradient {image : Img ℝ} {w h : Nat} {a : ℝ} (hs : image.Shows w h (fun x _ => a * x)) (hw : 7 ≤ w)
    (hh : 7 ≤ h) : ∃ g lx ly fx fy, blur image 1 = some g ∧ simpleScharrHorizontal g = some lx ∧
      simpleScharrVertical g = some ly ∧ lx.Shows w h fx ∧ ly.Shows w h fy ∧ g.w = w ∧ g.h = h ∧
      ∀ x y, 3 ≤ x → x + 3 < w → 3 ≤ y → y + 3 < h → fx x y = 32 * a := by
  have hs' : image.Shows w h (fun x y => a * x + 0 * y + 0) := by simpa using hs
  obtain ⟨g, f, e, hg, hf⟩ := C69_ramp (g := gaussian 1) (gaussian_pos one_pos) (gaussian_symm 1) 2 hs' (by omega) (by omega)
  have e' : blur image 1 = some g := by
    unfold blur
    rw [if_pos one_pos, show ⌈(2 : ℝ) * 1⌉₊ = 2 by norm_num]
    exact e
  obtain ⟨lx, e1, s1⟩ := C24_correlation hg (by omega) (by omega) (hk := [-1, 0, 1]) (vk := [3, 10, 3]) (by simp) (by simp)
  obtain ⟨ly, e2, s2⟩ := C24_correlation hg (by omega) (by omega) (hk := [3, 10, 3]) (vk := [-1, 0, 1]) (by simp) (by simp)
  refine ⟨g, lx, ly, _, _, e', e1, e2, s1, s2, hg.1, hg.2.1, fun x y hx hx' hy hy' => ?_⟩
  have hpix : ∀ i j, i ≤ 2 → j ≤ 2 → f (clampAt w 1 x i) (clampAt h 1 y j) = a * ((x : ℝ) + i - 1) := by
    intro i j hi hj
    rw [clamp_inside (by omega) (by omega) (by omega), clamp_inside (by omega) (by omega) (by omega),
      hf _ _ (by omega) (by omega) (by omega) (by omega), Nat.cast_sub (by omega)]
    push_cast
    ring
  simp only [List.length_cons, List.length_nil, Finset.sum_range_succ, Finset.sum_range_zero]
  norm_num only [hpix, List.getD_cons_zero, List.getD_cons_succ]
  ring

theorem ramp_contrast {image : Img ℝ} {w h : Nat} {a k : ℝ} (ha : a ≠ 0) (hs : image.Shows w h (fun x _ => a * x))
    (hw : 80 ≤ w) (hh : 80 ≤ h) (hk : contrastFactor image 0.7 1 300 = some k) : k ≠ 0 := by
  obtain ⟨g, lx, ly, fx, fy, e1, e2, e3, s1, s2, gw, gh, hgrad⟩ := ramp_gradient hs (by omega) (by omega)
  have hco : contrastOf lx ly w h 0.7 300 = some k := by
    unfold contrastFactor at hk
    simpa only [e1, e2, e3, Option.bind_eq_bind, Option.bind_some, gw, gh] using hk
  have := (C28_positive s1 s2 (by omega) (by omega) (by norm_num) hco).mpr ?_
  · exact this.ne'
  · have h2 : 2 ≤ countInside w h (fun x y => gradient fx fy x y ≠ 0) := by
      have hg : ∀ x y, 3 ≤ x → x + 3 < w → 3 ≤ y → y + 3 < h → gradient fx fy x y ≠ 0 := by
        intro x y a1 a2 a3 a4
        unfold gradient
        rw [hgrad x y a1 a2 a3 a4]
        have : 0 < (32 * a) ^ 2 + fy x y ^ 2 := by positivity
        exact (Real.sqrt_pos.mpr this).ne'
      unfold countInside
      have hsub : ({(3, 3), (4, 3)} : Finset (Nat × Nat)) ⊆ ((Finset.range w ×ˢ Finset.range h).filter
          (fun p => Inside w h p.1 p.2 ∧ gradient fx fy p.1 p.2 ≠ 0)) := by
        intro p hp
        simp only [Finset.mem_insert, Finset.mem_singleton] at hp
        rw [Finset.mem_filter, Finset.mem_product, Finset.mem_range, Finset.mem_range]
        rcases hp with rfl | rfl
        · exact ⟨⟨by simp only; omega, by simp only; omega⟩, ⟨by omega, by omega, by omega, by omega⟩,
            hg _ _ (by omega) (by omega) (by omega) (by omega)⟩
        · exact ⟨⟨by simp only; omega, by simp only; omega⟩, ⟨by omega, by omega, by omega, by omega⟩,
            hg _ _ (by omega) (by omega) (by omega) (by omega)⟩
      have hc := Finset.card_le_card hsub
      rw [Finset.card_pair (by decide)] at hc
      convert hc
    have h3 : (2 : ℝ) ≤ countInside w h (fun x y => gradient fx fy x y ≠ 0) := by exact_mod_cast h2
    linarith

/-- An image meeting the hypotheses of C23 and C72: any ramp of at least 80 by 80 pixels. Its contrast factor is not
zero, and with the default settings its scale space is built and has at least four levels. -/
theorem ramp_scale_space {image : Img ℝ} {w h : Nat} {a : ℝ} (ha : a ≠ 0) (hs : image.Shows w h (fun x _ => a * x))
    (hw : 80 ≤ w) (hh : 80 ≤ h) : ∃ out, scaleSpace Config.default image = some out ∧ 4 ≤ out.length := by
  have hn : 0 < Config.default.numSublevels := by norm_num [Config.default]
  obtain ⟨k, hk, h1⟩ := C23_total_partial (c := Config.default) hn (by norm_num [Config.default])
    (by norm_num [Config.default]) default_time (by norm_num [Config.default]) hs.2.2.1 (by rw [hs.1]; omega)
    (by rw [hs.2.1]; omega)
  have hne : k ≠ 0 := ramp_contrast ha hs hw hh hk
  obtain ⟨out, ho, -⟩ := h1 hne
  refine ⟨out, ho, ?_⟩
  obtain ⟨hl, -⟩ := C23_sizes hn hs.2.2.1 ho
  obtain ⟨full, extra, hoct, hlen, -⟩ := C23_levels hn hl
  rw [List.length_map] at hlen
  have hf : 1 ≤ full := by
    by_contra hf
    obtain rfl : full = 0 := by omega
    exact hoct.next (by norm_num [Config.default]) ⟨by rw [hs.1]; simpa using hw, by rw [hs.2.1]; simpa using hh⟩
  have h4 : Config.default.numSublevels = 4 := rfl
  rw [hlen, h4]
  omega

example : ∃ image : Img ℝ, ∃ out, scaleSpace Config.default image = some out ∧ 4 ≤ out.length := by
  have hs := ofFn_shows 80 80 (fun x _ => (1 : ℝ) * (x : ℝ))
  exact ⟨_, ramp_scale_space one_ne_zero hs (le_refl _) (le_refl _)⟩

end Verif.Akaze
