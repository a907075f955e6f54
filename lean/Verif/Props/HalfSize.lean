import Verif.Lemmas.Image
import Verif.Model.Blur
import Verif.Props.Filter
import Mathlib.Algebra.Order.Field.Basic
import Mathlib.Tactic.Linarith

/-!
# C25: halving an image; C69: blurring with a Gaussian
-/

namespace Verif.Akaze

variable {K : Type _}

section

variable [Field K]

/-- The pixels of the halved image, as the code computes them. -/
def halfPixel (w h : Nat) (f : Nat → Nat → K) (x y : Nat) : K :=
  if w / 2 * 2 ≠ w ∧ h / 2 * 2 ≠ h ∧ x = w / 2 - 1 ∧ y = h / 2 - 1 then f (w - 1) (h - 1)
  else if w / 2 * 2 ≠ w ∧ x = w / 2 - 1 then (f (w - 1) (2 * y) + f (w - 1) (2 * y + 1)) * (1 / 2)
  else if h / 2 * 2 ≠ h ∧ y = h / 2 - 1 then (f (2 * x) (h - 1) + f (2 * x + 1) (h - 1)) * (1 / 2)
  else (f (2 * x) (2 * y) + f (2 * x + 1) (2 * y) + f (2 * x) (2 * y + 1) + f (2 * x + 1) (2 * y + 1)) * (1 / 4)

theorem halfSize_shows {image : Img K} {w h : Nat} {f : Nat → Nat → K} (hs : image.Shows w h f) (hw : w ≠ 1)
    (hh : h ≠ 1) : ∃ out, halfSize image = some out ∧ out.Shows (w / 2) (h / 2) (halfPixel w h f) := by
  obtain ⟨rfl, rfl, _, hg⟩ := hs
  refine ⟨_, ?_, ofFn_shows (image.w / 2) (image.h / 2) (halfPixel image.w image.h f)⟩
  unfold halfSize
  simp only
  rw [if_neg (by omega), if_neg (by omega)]
  refine ofFnM_eq ?_
  intro x y hx hy
  unfold halfPixel
  split
  · exact hg _ _ (by omega) (by omega)
  split
  · rw [hg _ _ (by omega) (by omega), hg _ _ (by omega) (by omega)]; rfl
  split
  · rw [hg _ _ (by omega) (by omega), hg _ _ (by omega) (by omega)]; rfl
  · rw [hg _ _ (by omega) (by omega), hg _ _ (by omega) (by omega), hg _ _ (by omega) (by omega),
      hg _ _ (by omega) (by omega)]; rfl

/-- **C25, sizes.** Halving an image gives sides `⌊w/2⌋` and `⌊h/2⌋`; it fails exactly if a side is 1. -/
theorem C25_size {image : Img K} (hwf : image.WF) :
    (∀ out, halfSize image = some out → out.w = image.w / 2 ∧ out.h = image.h / 2 ∧ out.WF) ∧
      (halfSize image = none ↔ image.w = 1 ∨ image.h = 1) := by
  let _ : Inhabited K := ⟨0⟩
  by_cases hw : image.w = 1
  · have : halfSize image = none := by
      unfold halfSize
      simp only
      split
      · rfl
      · rw [if_pos (by omega)]
    rw [this]; simp [hw]
  by_cases hh : image.h = 1
  · have : halfSize image = none := by
      unfold halfSize
      simp only
      rw [if_pos (by omega)]
    rw [this]; simp [hh]
  obtain ⟨out, e, s⟩ := halfSize_shows hwf.exists_shows hw hh
  rw [e]
  refine ⟨?_, by simp [hw, hh]⟩
  rintro _ ⟨⟩
  exact ⟨s.1, s.2.1, s.2.2.1⟩

/-- **C25, even sides.** Each pixel of the halved image is the mean of its own block of two by two. Missing for the
full property: odd sides, where it is false (`C25_odd_height_ignores`, `C25_odd_width_ignores`). -/
theorem C25_mean_partial {image : Img K} {w h : Nat} {f : Nat → Nat → K} (hs : image.Shows w h f)
    (hw : w % 2 = 0) (hh : h % 2 = 0) : ∃ out, halfSize image = some out ∧ out.Shows (w / 2) (h / 2) (fun x y =>
      (f (2 * x) (2 * y) + f (2 * x + 1) (2 * y) + f (2 * x) (2 * y + 1) + f (2 * x + 1) (2 * y + 1)) / 4) := by
  obtain ⟨out, e, s⟩ := halfSize_shows hs (by omega) (by omega)
  refine ⟨out, e, ?_⟩
  convert s using 3
  unfold halfPixel
  rw [if_neg (by omega), if_neg (by omega), if_neg (by omega)]
  ring

/-- **C25, odd sides, away from the end.** All pixels but those of the last row (if the height is odd) and of the
last column (if the width is odd) are the means of their blocks. -/
theorem C25_inner {image : Img K} {w h : Nat} {f : Nat → Nat → K} (hs : image.Shows w h f) {x y : Nat}
    (hx : x < w / 2) (hy : y < h / 2) (hx' : w % 2 = 1 → x + 1 < w / 2) (hy' : h % 2 = 1 → y + 1 < h / 2) :
    (halfSize image).bind (·.get x y) = some
      ((f (2 * x) (2 * y) + f (2 * x + 1) (2 * y) + f (2 * x) (2 * y + 1) + f (2 * x + 1) (2 * y + 1)) / 4) := by
  obtain ⟨out, e, s⟩ := halfSize_shows hs (by omega) (by omega)
  rw [e, Option.bind_some, s.2.2.2 x y hx hy]
  congr 1
  unfold halfPixel
  rw [if_neg (by omega), if_neg (by omega), if_neg (by omega)]
  ring

/-- **C25 is false for odd heights.** The last output row is made from the last input row alone, so changing the two
rows before it in any way changes nothing. -/
theorem C25_odd_height_ignores {i j : Img K} {w h : Nat} {f g : Nat → Nat → K} (hi : i.Shows w h f)
    (hj : j.Shows w h g) (hw : w ≠ 1) (hh : h % 2 = 1) (h3 : 3 ≤ h)
    (hfg : ∀ x y, x < w → y < h → y ≠ h - 2 → y ≠ h - 3 → f x y = g x y) : halfSize i = halfSize j := by
  obtain ⟨oi, ei, si⟩ := halfSize_shows hi hw (by omega)
  obtain ⟨oj, ej, sj⟩ := halfSize_shows hj hw (by omega)
  rw [ei, ej]
  congr 1
  refine si.unique ⟨sj.1, sj.2.1, sj.2.2.1, ?_⟩
  intro x y hx hy
  rw [sj.2.2.2 x y hx hy]
  congr 1
  unfold halfPixel
  split_ifs
  · rw [hfg _ _ (by omega) (by omega) (by omega) (by omega)]
  · rw [hfg (w - 1) (2 * y) (by omega) (by omega) (by omega) (by omega), hfg (w - 1) (2 * y + 1) (by omega) (by omega) (by omega) (by omega)]
  · rw [hfg (2 * x) (h - 1) (by omega) (by omega) (by omega) (by omega), hfg (2 * x + 1) (h - 1) (by omega) (by omega) (by omega) (by omega)]
  · rw [hfg (2 * x) (2 * y) (by omega) (by omega) (by omega) (by omega),
      hfg (2 * x + 1) (2 * y) (by omega) (by omega) (by omega) (by omega),
      hfg (2 * x) (2 * y + 1) (by omega) (by omega) (by omega) (by omega),
      hfg (2 * x + 1) (2 * y + 1) (by omega) (by omega) (by omega) (by omega)]

/-- **C25 is false for odd widths.** -/
theorem C25_odd_width_ignores {i j : Img K} {w h : Nat} {f g : Nat → Nat → K} (hi : i.Shows w h f)
    (hj : j.Shows w h g) (hh : h ≠ 1) (hw : w % 2 = 1) (h3 : 3 ≤ w)
    (hfg : ∀ x y, x < w → y < h → x ≠ w - 2 → x ≠ w - 3 → f x y = g x y) : halfSize i = halfSize j := by
  obtain ⟨oi, ei, si⟩ := halfSize_shows hi (by omega) hh
  obtain ⟨oj, ej, sj⟩ := halfSize_shows hj (by omega) hh
  rw [ei, ej]
  congr 1
  refine si.unique ⟨sj.1, sj.2.1, sj.2.2.1, ?_⟩
  intro x y hx hy
  rw [sj.2.2.2 x y hx hy]
  congr 1
  unfold halfPixel
  split_ifs
  · rw [hfg _ _ (by omega) (by omega) (by omega) (by omega)]
  · rw [hfg (w - 1) (2 * y) (by omega) (by omega) (by omega) (by omega), hfg (w - 1) (2 * y + 1) (by omega) (by omega) (by omega) (by omega)]
  · rw [hfg (2 * x) (h - 1) (by omega) (by omega) (by omega) (by omega), hfg (2 * x + 1) (h - 1) (by omega) (by omega) (by omega) (by omega)]
  · rw [hfg (2 * x) (2 * y) (by omega) (by omega) (by omega) (by omega),
      hfg (2 * x + 1) (2 * y) (by omega) (by omega) (by omega) (by omega),
      hfg (2 * x) (2 * y + 1) (by omega) (by omega) (by omega) (by omega),
      hfg (2 * x + 1) (2 * y + 1) (by omega) (by omega) (by omega) (by omega)]

end

section

variable [Field K] [LinearOrder K] [IsStrictOrderedRing K]

/-- **C25, range.** Halving an image of any size keeps the pixels between the same bounds. -/
theorem C25_range {image : Img K} {w h : Nat} {f : Nat → Nat → K} (hs : image.Shows w h f) (hw : w ≠ 1)
    (hh : h ≠ 1) {lo hi : K} (hf : ∀ x y, x < w → y < h → lo ≤ f x y ∧ f x y ≤ hi) : ∃ out f',
      halfSize image = some out ∧ out.Shows (w / 2) (h / 2) f' ∧
        ∀ x y, x < w / 2 → y < h / 2 → lo ≤ f' x y ∧ f' x y ≤ hi := by
  obtain ⟨out, e, s⟩ := halfSize_shows hs hw hh
  refine ⟨out, _, e, s, ?_⟩
  intro x y hx hy
  unfold halfPixel
  split
  · exact hf _ _ (by omega) (by omega)
  split
  · have h1 := hf (w - 1) (2 * y) (by omega) (by omega)
    have h2 := hf (w - 1) (2 * y + 1) (by omega) (by omega)
    constructor <;> linarith [h1.1, h1.2, h2.1, h2.2]
  split
  · have h1 := hf (2 * x) (h - 1) (by omega) (by omega)
    have h2 := hf (2 * x + 1) (h - 1) (by omega) (by omega)
    constructor <;> linarith [h1.1, h1.2, h2.1, h2.2]
  · have h1 := hf (2 * x) (2 * y) (by omega) (by omega)
    have h2 := hf (2 * x + 1) (2 * y) (by omega) (by omega)
    have h3 := hf (2 * x) (2 * y + 1) (by omega) (by omega)
    have h4 := hf (2 * x + 1) (2 * y + 1) (by omega) (by omega)
    constructor <;> linarith [h1.1, h1.2, h2.1, h2.2, h3.1, h3.2, h4.1, h4.2]

end

/-- An image of height 3 where the middle row does not matter at all. -/
example : (halfSize (⟨2, 3, [1, 2, 3, 4, 5, 6]⟩ : Img ℚ)).map (·.data) = some [11 / 2] ∧
    (halfSize (⟨2, 3, [100, 2, 3, 400, 5, 6]⟩ : Img ℚ)).map (·.data) = some [11 / 2] := by decide +kernel

theorem gaussian_pos {r : ℝ} (hr : 0 < r) (x : Int) : 0 < gaussian r x := by
  unfold gaussian
  have := Real.pi_pos
  positivity

/-- **C69, the Gaussian.** Blurring with any positive sigma keeps the size and the range of the pixels. -/
theorem C69_gaussian {r : ℝ} (hr : 0 < r) {image : Img ℝ} {w h : Nat} {f : Nat → Nat → ℝ}
    (hs : image.Shows w h f) (hw : 0 < w) (hh : 0 < h) {lo hi : ℝ}
    (hf : ∀ x y, x < w → y < h → lo ≤ f x y ∧ f x y ≤ hi) : ∃ out f',
      blur image r = some out ∧ out.Shows w h f' ∧ ∀ x y, x < w → y < h → lo ≤ f' x y ∧ f' x y ≤ hi := by
  unfold blur
  rw [if_pos hr]
  exact C69_range (gaussian_pos hr) _ hs hw hh hf

/-- **C69, bad sigma.** -/
theorem C69_bad_sigma {r : ℝ} (hr : r ≤ 0) (image : Img ℝ) : blur image r = none := by
  unfold blur; rw [if_neg (by linarith)]

theorem gaussian_even (r : ℝ) (x : Int) : gaussian r (-x) = gaussian r x := by
  unfold gaussian; push_cast; ring_nf

end Verif.Akaze
