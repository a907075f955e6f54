import Verif.Lemmas.Contrast
import Verif.Props.HalfSize
import Verif.Model.Diffusion

/-!
# C28: the contrast factor is a percentile of the gradients
-/

namespace Verif.Akaze

/-- What the contrast factor should be: `k` is at most the greatest gradient inside, at least the asked fraction of
the non-zero gradients inside is at most `k`, and less than that is below `k` by a bin or more. -/
structure IsPercentile (w h : Nat) (g : Nat → Nat → ℝ) (percentile : ℝ) (bins : Nat) (k : ℝ) : Prop where
  nonneg : 0 ≤ k
  le_max : ∃ x y, Inside w h x y ∧ k ≤ g x y
  enough : ⌊countInside w h (fun x y => g x y ≠ 0) * percentile⌋₊ ≤
    countInside w h (fun x y => g x y ≠ 0 ∧ g x y ≤ k)
  least : 0 < k → ∃ top, (∃ x y, Inside w h x y ∧ top = g x y) ∧ (∀ x y, Inside w h x y → g x y ≤ top) ∧
    countInside w h (fun x y => g x y ≠ 0 ∧ g x y < k - top / bins) <
      ⌊countInside w h (fun x y => g x y ≠ 0) * percentile⌋₊

open Classical in
theorem countInside_mono {w h : Nat} {P Q : Nat → Nat → Prop} (hpq : ∀ x y, Inside w h x y → P x y → Q x y) :
    countInside w h P ≤ countInside w h Q := by
  unfold countInside
  refine Finset.card_le_card ?_
  intro p hp
  rw [Finset.mem_filter] at hp ⊢
  exact ⟨hp.1, hp.2.1, hpq _ _ hp.2.1 hp.2.2⟩

open Classical in
theorem countInside_pos {w h : Nat} {P : Nat → Nat → Prop} (h0 : 0 < countInside w h P) :
    ∃ x y, Inside w h x y ∧ P x y := by
  unfold countInside at h0
  obtain ⟨p, hp⟩ := Finset.card_pos.mp h0
  exact ⟨p.1, p.2, (Finset.mem_filter.mp hp).2⟩

open Classical in
theorem countInside_pos_of {w h : Nat} {P : Nat → Nat → Prop} {x y : Nat} (hi : Inside w h x y) (hp : P x y) :
    0 < countInside w h P := by
  unfold countInside
  refine Finset.card_pos.mpr ⟨(x, y), Finset.mem_filter.mpr ⟨?_, hi, hp⟩⟩
  unfold Inside at hi
  rw [Finset.mem_product, Finset.mem_range, Finset.mem_range]
  omega

open Classical in
theorem countInside_three (P : Nat → Nat → Prop) : countInside 3 3 P ≤ 1 := by
  unfold countInside
  refine (Finset.card_le_card (t := {(1, 1)}) ?_).trans (by simp)
  intro p hp
  obtain ⟨_, hi, _⟩ := Finset.mem_filter.mp hp
  unfold Inside at hi
  rw [Finset.mem_singleton]
  exact Prod.ext (by simp only; omega) (by simp only; omega)

theorem countInside_congr {w h : Nat} {P Q : Nat → Nat → Prop} (hpq : ∀ x y, Inside w h x y → (P x y ↔ Q x y)) :
    countInside w h P = countInside w h Q :=
  le_antisymm (countInside_mono (fun x y hi => (hpq x y hi).mp)) (countInside_mono (fun x y hi => (hpq x y hi).mpr))

open Classical in
theorem count_map (w h : Nat) (s : Nat → Nat → ℝ) (P : ℝ → Prop) :
    ((interior w h).map (fun p => s p.1 p.2)).countP (fun t => decide (P t)) =
      countInside w h (fun x y => P (s x y)) := by
  rw [List.countP_map, ← count_interior]
  rfl

/-- What the code computes from the derivative images. -/
theorem contrastOf_spec {lx ly : Img ℝ} {w h : Nat} {fx fy : Nat → Nat → ℝ} (hx : lx.Shows w h fx)
    (hy : ly.Shows w h fy) (hw : 3 ≤ w) (hh : 3 ≤ h) {bins : Nat} (hb : 0 < bins) (percentile : ℝ) :
    ∃ top j, (∃ x y, Inside w h x y ∧ top = gradient fx fy x y) ∧
      (∀ x y, Inside w h x y → gradient fx fy x y ≤ top) ∧ j ≤ bins ∧
      (0 < j → countInside w h (fun x y => gradient fx fy x y ≠ 0 ∧ gradient fx fy x y < top * (j - 1 : Nat) / bins) <
        ⌊countInside w h (fun x y => gradient fx fy x y ≠ 0) * percentile⌋₊) ∧
      ((⌊countInside w h (fun x y => gradient fx fy x y ≠ 0) * percentile⌋₊ ≤
          countInside w h (fun x y => gradient fx fy x y ≠ 0 ∧ (j = bins ∨ gradient fx fy x y < top * j / bins)) ∧
        contrastOf lx ly w h percentile bins = some (top * j / bins)) ∨
       (countInside w h (fun x y => gradient fx fy x y ≠ 0) <
          ⌊countInside w h (fun x y => gradient fx fy x y ≠ 0) * percentile⌋₊ ∧
        contrastOf lx ly w h percentile bins = some 0.03)) := by
  have hsq := squares_eq hx hy
  obtain ⟨m, hm⟩ : ∃ m, maximum? ((interior w h).map (fun p => fx p.1 p.2 ^ 2 + fy p.1 p.2 ^ 2)) = some m := by
    have : (1, 1) ∈ interior w h := mem_interior.mpr (by unfold Inside; omega)
    cases hi : interior w h with
    | nil => rw [hi] at this; simp at this
    | cons p ps => exact ⟨_, rfl⟩
  obtain ⟨hmem, hmax⟩ := maximum_spec hm
  obtain ⟨⟨x0, y0⟩, hp0, hm0⟩ := List.mem_map.mp hmem
  have htop : ∀ x y, Inside w h x y → gradient fx fy x y ≤ Real.sqrt m := by
    intro x y hi
    exact Real.sqrt_le_sqrt (hmax _ (List.mem_map.mpr ⟨(x, y), mem_interior.mpr hi, rfl⟩))
  obtain ⟨hist, hf, hl, hc⟩ := fill_spec hb (hmax := Real.sqrt m)
    ((interior w h).map (fun p => fx p.1 p.2 ^ 2 + fy p.1 p.2 ^ 2))
    (fun s hs => Real.sqrt_le_sqrt (hmax s hs)) (List.replicate bins 0) 0 (by simp)
  have hrep : ∀ k, ((List.replicate bins 0).take k).sum = 0 := by intro k; simp [List.take_replicate]
  rw [Nat.zero_add] at hf
  have e1 : ((interior w h).map (fun p => fx p.1 p.2 ^ 2 + fy p.1 p.2 ^ 2)).countP (fun s => Real.sqrt s ≠ 0) =
      countInside w h (fun x y => gradient fx fy x y ≠ 0) := by
    have := count_map w h (fun x y => fx x y ^ 2 + fy x y ^ 2) (fun s => Real.sqrt s ≠ 0)
    refine (List.countP_congr (fun s _ => ?_)).trans this
    exact (@decide_eq_true_iff _ _).trans (@decide_eq_true_iff _ (Classical.propDecidable _)).symm
  have e2 : ∀ k : Nat, ((interior w h).map (fun p => fx p.1 p.2 ^ 2 + fy p.1 p.2 ^ 2)).countP
      (fun s => Real.sqrt s ≠ 0 ∧ (k = bins ∨ Real.sqrt s < Real.sqrt m * k / bins)) =
      countInside w h (fun x y => gradient fx fy x y ≠ 0 ∧ (k = bins ∨ gradient fx fy x y < Real.sqrt m * k / bins)) := by
    intro k
    have := count_map w h (fun x y => fx x y ^ 2 + fy x y ^ 2)
      (fun s => Real.sqrt s ≠ 0 ∧ (k = bins ∨ Real.sqrt s < Real.sqrt m * k / bins))
    refine (List.countP_congr (fun s _ => ?_)).trans this
    exact (@decide_eq_true_iff _ _).trans (@decide_eq_true_iff _ (Classical.propDecidable _)).symm
  have hc' : ∀ k, k ≤ bins → (hist.take k).sum =
      countInside w h (fun x y => gradient fx fy x y ≠ 0 ∧ (k = bins ∨ gradient fx fy x y < Real.sqrt m * k / bins)) := by
    intro k hk
    rw [hc k hk, hrep, Nat.zero_add, e2]
  rw [e1] at hf
  obtain ⟨j, j1, j2, j3, j4⟩ := walk_spec ⌊countInside w h (fun x y => gradient fx fy x y ≠ 0) * percentile⌋₊ hist 0 0
  rw [hl] at j1 j3
  rw [Nat.zero_add, Nat.zero_add, hc' j j1] at j2
  rw [Nat.zero_add, hc' j j1] at j3
  refine ⟨Real.sqrt m, j, ⟨x0, y0, mem_interior.mp hp0, by rw [← hm0]; rfl⟩, htop, j1, ?_, ?_⟩
  · intro hj
    have := j4 hj
    rw [Nat.zero_add, hc' (j - 1) (by omega)] at this
    refine lt_of_le_of_lt (countInside_mono ?_) this
    intro x y _ hxy
    exact ⟨hxy.1, Or.inr hxy.2⟩
  · have heq : contrastOf lx ly w h percentile bins =
        if ⌊countInside w h (fun x y => gradient fx fy x y ≠ 0) * percentile⌋₊ ≤
          countInside w h (fun x y => gradient fx fy x y ≠ 0 ∧ (j = bins ∨ gradient fx fy x y < Real.sqrt m * j / bins))
        then some (Real.sqrt m * j / bins) else some 0.03 := by
      unfold contrastOf
      simp only [hsq, Option.bind_eq_bind, Option.bind_some, hm, hf, j2]
      rw [if_neg (show ¬ bins = 0 by omega)]
    rw [heq]
    by_cases ht : ⌊countInside w h (fun x y => gradient fx fy x y ≠ 0) * percentile⌋₊ ≤
          countInside w h (fun x y => gradient fx fy x y ≠ 0 ∧ (j = bins ∨ gradient fx fy x y < Real.sqrt m * j / bins))
    · left; rw [if_pos ht]; exact ⟨ht, rfl⟩
    · right
      rw [if_neg ht]
      refine ⟨?_, rfl⟩
      have hj := j3.resolve_left ht
      rw [not_le] at ht
      refine lt_of_le_of_lt (countInside_mono ?_) ht
      intro x y _ hxy
      exact ⟨hxy, Or.inl hj⟩

/-- **C28.** For derivative images of at least three by three pixels, any positive number of bins and any percentile
up to 1, the factor is returned and is the percentile of the non-zero gradients, to within one bin. Missing for the full property: positivity, which is
false when the fraction is less than one pixel (`C28_zero_factor`). -/
theorem C28_percentile_partial {lx ly : Img ℝ} {w h : Nat} {fx fy : Nat → Nat → ℝ} (hx : lx.Shows w h fx)
    (hy : ly.Shows w h fy) (hw : 3 ≤ w) (hh : 3 ≤ h) {bins : Nat} (hb : 0 < bins) {percentile : ℝ}
    (hp : percentile ≤ 1) : ∃ k, contrastOf lx ly w h percentile bins = some k ∧
      IsPercentile w h (gradient fx fy) percentile bins k := by
  obtain ⟨top, j, ⟨x0, y0, h0, rfl⟩, htop, hj, h1, h2⟩ := contrastOf_spec hx hy hw hh hb percentile
  have hb' : (0 : ℝ) < bins := by exact_mod_cast hb
  have hg0 : 0 ≤ gradient fx fy x0 y0 := Real.sqrt_nonneg _
  rcases h2 with ⟨h2, h3⟩ | ⟨h2, _⟩
  · refine ⟨_, h3, by positivity, ⟨x0, y0, h0, ?_⟩, ?_, ?_⟩
    · rw [div_le_iff₀ hb']
      exact mul_le_mul_of_nonneg_left (by exact_mod_cast hj) hg0
    · refine h2.trans (countInside_mono ?_)
      rintro x y hi ⟨hn, h | h⟩
      · refine ⟨hn, ?_⟩
        rw [h, mul_div_assoc, div_self hb'.ne', mul_one]
        exact htop x y hi
      · exact ⟨hn, h.le⟩
    · intro hk
      have hj0 : 0 < j := by
        rcases Nat.eq_zero_or_pos j with rfl | h
        · simp at hk
        · exact h
      refine ⟨_, ⟨x0, y0, h0, rfl⟩, htop, ?_⟩
      refine lt_of_eq_of_lt (countInside_congr ?_) (h1 hj0)
      intro x y _
      have : gradient fx fy x0 y0 * j / bins - gradient fx fy x0 y0 / bins =
          gradient fx fy x0 y0 * (j - 1 : Nat) / bins := by
        rw [Nat.cast_sub hj0]; push_cast; ring
      rw [this]
  · exfalso
    have : ⌊(countInside w h (fun x y => gradient fx fy x y ≠ 0) : ℝ) * percentile⌋₊ ≤
        countInside w h (fun x y => gradient fx fy x y ≠ 0) := by
      have h4 : (countInside w h (fun x y => gradient fx fy x y ≠ 0) : ℝ) * percentile ≤
          countInside w h (fun x y => gradient fx fy x y ≠ 0) := by
        have := mul_le_mul_of_nonneg_left hp (Nat.cast_nonneg (α := ℝ) (countInside w h (fun x y => gradient fx fy x y ≠ 0)))
        linarith
      have := Nat.floor_le_floor h4
      rwa [Nat.floor_natCast] at this
    omega

/-- **C28, when the factor is positive.** Exactly if the asked fraction of the non-zero gradients amounts to at least
one pixel. -/
theorem C28_positive {lx ly : Img ℝ} {w h : Nat} {fx fy : Nat → Nat → ℝ} (hx : lx.Shows w h fx)
    (hy : ly.Shows w h fy) (hw : 3 ≤ w) (hh : 3 ≤ h) {bins : Nat} (hb : 0 < bins) {percentile : ℝ} {k : ℝ}
    (hk : contrastOf lx ly w h percentile bins = some k) :
    0 < k ↔ 1 ≤ countInside w h (fun x y => gradient fx fy x y ≠ 0) * percentile := by
  obtain ⟨top, j, ⟨x0, y0, h0, rfl⟩, htop, hj, h1, h2⟩ := contrastOf_spec hx hy hw hh hb percentile
  have hb' : (0 : ℝ) < bins := by exact_mod_cast hb
  have hg0 : 0 ≤ gradient fx fy x0 y0 := Real.sqrt_nonneg _
  rw [← Nat.one_le_floor_iff]
  rcases h2 with ⟨h2, h3⟩ | ⟨h2, h3⟩
  · rw [hk] at h3
    obtain rfl := Option.some.inj h3
    constructor
    · intro hpos
      have hj0 : 0 < j := by
        rcases Nat.eq_zero_or_pos j with rfl | h
        · simp at hpos
        · exact h
      have := h1 hj0
      omega
    · intro h1le
      have hn : 0 < countInside w h (fun x y => gradient fx fy x y ≠ 0 ∧
          (j = bins ∨ gradient fx fy x y < gradient fx fy x0 y0 * j / bins)) := by omega
      obtain ⟨x, y, hin, hne, hor⟩ := countInside_pos hn
      have hpp : 0 < gradient fx fy x y := lt_of_le_of_ne (Real.sqrt_nonneg _) (Ne.symm hne)
      rcases hor with rfl | hor
      · have := htop _ _ hin
        rw [mul_div_assoc, div_self hb'.ne', mul_one]
        linarith
      · linarith
  · rw [hk] at h3
    obtain rfl := Option.some.inj h3
    constructor
    · intro _; omega
    · intro _; norm_num

theorem scharr_shows {g : Img ℝ} {w h : Nat} {f : Nat → Nat → ℝ} (hg : g.Shows w h f) (hw : 0 < w) (hh : 0 < h) :
    ∃ lx ly fx fy, simpleScharrHorizontal g = some lx ∧ simpleScharrVertical g = some ly ∧ lx.Shows w h fx ∧
      ly.Shows w h fy := by
  obtain ⟨lx, e1, s1⟩ := separable_shows (hk := [-1, 0, 1]) (vk := [3, 10, 3]) hg hw hh (by simp) (by simp)
  obtain ⟨ly, e2, s2⟩ := separable_shows (hk := [3, 10, 3]) (vk := [-1, 0, 1]) hg hw hh (by simp) (by simp)
  exact ⟨lx, ly, _, _, e1, e2, s1, s2⟩

theorem blur_shows {r : ℝ} (hr : 0 < r) {image : Img ℝ} {w h : Nat} {f : Nat → Nat → ℝ}
    (hs : image.Shows w h f) (hw : 0 < w) (hh : 0 < h) : ∃ out f', blur image r = some out ∧ out.Shows w h f' := by
  unfold blur
  rw [if_pos hr]
  unfold gaussianBlur gaussianKernel
  rw [if_neg (by omega)]
  simp only [Option.bind_eq_bind, Option.bind_some]
  obtain ⟨out, e, s⟩ := separable_shows (hk := ((List.range (⌈2 * r⌉₊ * 2 + 1)).map (fun i : Nat =>
    gaussian r ((i : Int) - (((⌈2 * r⌉₊ * 2 + 1) / 2 : Nat) : Int)))).map (· / ((List.range (⌈2 * r⌉₊ * 2 + 1)).map (fun i : Nat =>
    gaussian r ((i : Int) - (((⌈2 * r⌉₊ * 2 + 1) / 2 : Nat) : Int)))).sum)) (vk := ((List.range (⌈2 * r⌉₊ * 2 + 1)).map (fun i : Nat =>
    gaussian r ((i : Int) - (((⌈2 * r⌉₊ * 2 + 1) / 2 : Nat) : Int)))).map (· / ((List.range (⌈2 * r⌉₊ * 2 + 1)).map (fun i : Nat =>
    gaussian r ((i : Int) - (((⌈2 * r⌉₊ * 2 + 1) / 2 : Nat) : Int)))).sum)) hs hw hh (by simp) (by simp)
  exact ⟨out, _, e, s⟩

/-- **C28, the whole computation.** On every image of at least three by three pixels the factor is returned; it is
the percentile of the gradients of the blurred image. -/
theorem C28_image {image : Img ℝ} (hwf : image.WF) (hw : 3 ≤ image.w) (hh : 3 ≤ image.h) {scale percentile : ℝ}
    (hs : 0 < scale) (hp : percentile ≤ 1) {bins : Nat} (hb : 0 < bins) :
    ∃ g lx ly fx fy k, blur image scale = some g ∧ simpleScharrHorizontal g = some lx ∧
      simpleScharrVertical g = some ly ∧ lx.Shows image.w image.h fx ∧ ly.Shows image.w image.h fy ∧
      contrastFactor image percentile scale bins = some k ∧
      IsPercentile image.w image.h (gradient fx fy) percentile bins k := by
  let _ : Inhabited ℝ := ⟨0⟩
  obtain ⟨g, f, e, sg⟩ := blur_shows hs hwf.exists_shows (by omega) (by omega)
  obtain ⟨lx, ly, fx, fy, e1, e2, s1, s2⟩ := scharr_shows sg (by omega) (by omega)
  obtain ⟨k, hk, hp⟩ := C28_percentile_partial s1 s2 hw hh hb hp
  refine ⟨g, lx, ly, fx, fy, k, e, e1, e2, s1, s2, ?_, hp⟩
  unfold contrastFactor
  rw [e]
  simp only [Option.bind_eq_bind, Option.bind_some, e1, e2, sg.1, sg.2.1]
  exact hk

/-- **C28, small images.** On images with a side of one or two pixels the computation panics. -/
theorem C28_small {image : Img ℝ} (hwf : image.WF) (h : image.w < 3 ∨ image.h < 3) (percentile scale : ℝ) (bins : Nat) :
    contrastFactor image percentile scale bins = none := by
  let _ : Inhabited ℝ := ⟨0⟩
  unfold contrastFactor
  by_cases hs : 0 < scale
  · by_cases h0 : image.w = 0 ∨ image.h = 0
    · have : blur image scale = none := by
        unfold blur gaussianBlur gaussianKernel
        rw [if_pos hs, if_neg (by omega)]
        simp only [Option.bind_eq_bind, Option.bind_some]
        rw [C24_fails hwf]
        rcases h0 with h0 | h0
        · exact Or.inl h0
        · exact Or.inr (Or.inl h0)
      rw [this]; rfl
    push Not at h0
    obtain ⟨g, f, e, sg⟩ := blur_shows hs hwf.exists_shows (Nat.pos_of_ne_zero h0.1) (Nat.pos_of_ne_zero h0.2)
    obtain ⟨lx, ly, fx, fy, e1, e2, s1, s2⟩ := scharr_shows sg (Nat.pos_of_ne_zero h0.1) (Nat.pos_of_ne_zero h0.2)
    rw [e]
    simp only [Option.bind_eq_bind, Option.bind_some, e1, e2, sg.1, sg.2.1]
    have hi : interior image.w image.h = [] := by
      rw [List.eq_nil_iff_forall_not_mem]
      rintro ⟨x, y⟩ hp
      rw [mem_interior] at hp
      unfold Inside at hp
      omega
    unfold contrastOf
    rw [hi]
    rfl
  · rw [C69_bad_sigma (by linarith)]; rfl

/-- **C28, flat images.** On a constant image the factor is zero, and the conductivities made from it are not
numbers. -/
theorem C28_flat {image : Img ℝ} {w h : Nat} {c : ℝ} (hc : image.Shows w h (fun _ _ => c)) (hw : 3 ≤ w) (hh : 3 ≤ h)
    {scale percentile : ℝ} (hs : 0 < scale) {bins : Nat} (hb : 0 < bins) :
    contrastFactor image percentile scale bins = some 0 ∧ ∀ lx ly : Img ℝ, pmG2 lx ly 0 = none := by
  refine ⟨?_, ?_⟩
  · obtain ⟨g, f, e, sg, hf⟩ := C69_gaussian hs hc (by omega) (by omega) (lo := c) (hi := c) (fun _ _ _ _ => ⟨le_rfl, le_rfl⟩)
    have sg' : g.Shows w h (fun _ _ => c) := by
      refine ⟨sg.1, sg.2.1, sg.2.2.1, ?_⟩
      intro x y hx hy
      rw [sg.2.2.2 x y hx hy]
      exact congrArg some (le_antisymm (hf x y hx hy).2 (hf x y hx hy).1)
    obtain ⟨lx, e1, s1⟩ := C24_constant (hk := [-1, 0, 1]) (vk := [3, 10, 3]) sg' (by omega) (by omega) (by simp) (by simp)
    obtain ⟨ly, e2, s2⟩ := C24_constant (hk := [3, 10, 3]) (vk := [-1, 0, 1]) sg' (by omega) (by omega) (by simp) (by simp)
    have e1' : simpleScharrHorizontal g = some lx := e1
    have e2' : simpleScharrVertical g = some ly := e2
    unfold contrastFactor
    rw [e]
    simp only [Option.bind_eq_bind, Option.bind_some, e1', e2', sg.1, sg.2.1]
    obtain ⟨top, j, ⟨x0, y0, h0, rfl⟩, htop, hj, h1, h2⟩ := contrastOf_spec s1 s2 hw hh hb percentile
    have hgrad : ∀ x y, gradient (fun _ _ => c * ([-1, 0, 1] : List ℝ).sum * ([3, 10, 3] : List ℝ).sum)
        (fun _ _ => c * ([3, 10, 3] : List ℝ).sum * ([-1, 0, 1] : List ℝ).sum) x y = 0 := by
      intro x y
      unfold gradient
      simp
    have hcount : countInside w h (fun x y => gradient (fun _ _ => c * ([-1, 0, 1] : List ℝ).sum * ([3, 10, 3] : List ℝ).sum)
        (fun _ _ => c * ([3, 10, 3] : List ℝ).sum * ([-1, 0, 1] : List ℝ).sum) x y ≠ 0) = 0 := by
      rw [← Nat.le_zero, ← not_lt]
      intro hlt
      obtain ⟨x, y, _, hne⟩ := countInside_pos hlt
      exact hne (hgrad x y)
    rcases h2 with ⟨_, h3⟩ | ⟨h2, _⟩
    · rw [h3, hgrad]; simp
    · rw [hcount] at h2
      simp at h2
  · intro lx ly
    unfold pmG2
    split
    · rfl
    · rw [if_pos rfl]

/-- **C28, positivity is false.** There are images with a non-zero gradient for which the factor at the default
percentile of 0.7 is zero. -/
theorem C28_zero_factor : ∃ lx ly : Img ℝ, ∃ fx fy, lx.Shows 3 3 fx ∧ ly.Shows 3 3 fy ∧
    (∃ x y, Inside 3 3 x y ∧ gradient fx fy x y ≠ 0) ∧ contrastOf lx ly 3 3 0.7 300 = some 0 := by
  have s1 := ofFn_shows 3 3 (fun _ _ => (32 : ℝ))
  have s2 := ofFn_shows 3 3 (fun _ _ => (0 : ℝ))
  obtain ⟨k, hk, hp⟩ := C28_percentile_partial s1 s2 (by norm_num) (by norm_num) (bins := 300) (by norm_num)
    (percentile := 0.7) (by norm_num)
  refine ⟨_, _, _, _, s1, s2, ⟨1, 1, by unfold Inside; omega, ?_⟩, ?_⟩
  · simp only [gradient]
    rw [ne_eq, Real.sqrt_eq_zero']
    norm_num
  · have hpos := C28_positive s1 s2 (by norm_num) (by norm_num) (by norm_num) hk
    have hone : countInside 3 3 (fun x y => gradient (fun _ _ => (32 : ℝ)) (fun _ _ => 0) x y ≠ 0) ≤ 1 :=
      countInside_three _
    have hone' : (countInside 3 3 (fun x y => gradient (fun _ _ => (32 : ℝ)) (fun _ _ => 0) x y ≠ 0) : ℝ) ≤ 1 := by
      exact_mod_cast hone
    have hn : ¬ 0 < k := by
      rw [hpos, not_le]
      nlinarith
    rw [hk, le_antisymm (not_lt.mp hn) hp.nonneg]

/-- A ramp of three by three pixels: the hypotheses can be met with a factor that is not zero. -/
example : ∃ lx ly : Img ℝ, ∃ fx fy, lx.Shows 3 3 fx ∧ ly.Shows 3 3 fy ∧ ∃ k, contrastOf lx ly 3 3 1 300 = some k ∧ 0 < k := by
  have s1 := ofFn_shows 3 3 (fun _ _ => (32 : ℝ))
  have s2 := ofFn_shows 3 3 (fun _ _ => (0 : ℝ))
  obtain ⟨k, hk, _⟩ := C28_percentile_partial s1 s2 (by norm_num) (by norm_num) (bins := 300) (by norm_num) (percentile := 1) le_rfl
  refine ⟨_, _, _, _, s1, s2, k, hk, ?_⟩
  rw [C28_positive s1 s2 (by norm_num) (by norm_num) (by norm_num) hk, mul_one]
  have : 0 < countInside 3 3 (fun x y => gradient (fun _ _ => (32 : ℝ)) (fun _ _ => 0) x y ≠ 0) := by
    refine countInside_pos_of (x := 1) (y := 1) (by unfold Inside; omega) ?_
    simp only [gradient]
    rw [ne_eq, Real.sqrt_eq_zero']
    norm_num
  exact_mod_cast this

end Verif.Akaze
