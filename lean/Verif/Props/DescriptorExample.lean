import Verif.Props.Extract
import Verif.Props.OrientExample
import Verif.Props.Ramp

/-!
# Examples for descriptors and extraction (C31, C32, C76, C77, C78)
-/

namespace Verif.Akaze

open Real ExOrient

/-- The keypoint of the example in the middle of an image of 80 by 80 pixels after its size was doubled. -/
noncomputable def exKey : KeyPoint := ⟨40, 40, 1, 4.8, 0, 0, 0⟩

theorem exFrame : patternFrame exKey = ⟨40, 40, 1, 0, 2⟩ := by
  unfold patternFrame exKey
  have : ⌊(4.8 : ℝ) / (2 * 2 ^ 0) + 1 / 2⌋ = 2 := by rw [Int.floor_eq_iff]; norm_num
  simp only [cos_zero, sin_zero, pow_zero, div_one]
  norm_num

theorem exInside : PatternInside 10 80 80 (patternFrame exKey) := by
  rw [exFrame]
  intro m hm k l h1 h2 h3 h4
  have hm' : (m : ℤ) * cellWidth 10 m ≤ 21 := by
    simp only [List.mem_cons, List.not_mem_nil, or_false] at hm
    rcases hm with rfl | rfl | rfl <;> decide
  have ex : patternX ⟨40, 40, 1, 0, 2⟩ k l = ((40 + 2 * k : ℤ) : ℝ) := by unfold patternX; push_cast; ring
  have ey : patternY ⟨40, 40, 1, 0, 2⟩ k l = ((40 + 2 * l : ℤ) : ℝ) := by unfold patternY; push_cast; ring
  have hround : ∀ z : ℤ, 0 ≤ z → roundAway (z : ℝ) = z := by
    intro z hz
    rw [roundAway_nonneg (by exact_mod_cast hz), Int.floor_eq_iff]
    constructor <;> norm_num
  unfold InImage
  push_cast at h1 h3
  rw [ex, ey, hround _ (by omega), hround _ (by omega)]
  push_cast
  refine ⟨by omega, by omega, by omega, by omega⟩

/-- The conditions of C31 hold and there is a descriptor. -/
example : ∃ d, mldbDescriptor 10 3 [level] exKey = .ok d ∧ d.length = 64 :=
  have h := (C31_descriptor (p := 10) (channels := 3) (k := exKey) (by norm_num) (by norm_num) (by norm_num [exKey])
    (levels := [level]) rfl (ofFn_shows 80 80 f) (ofFn_shows 80 80 fx) (ofFn_shows 80 80 fy)).1 exInside
  let ⟨d, h1, h2, _⟩ := h
  ⟨d, h1, h2⟩

/-- So do those of C76, for an image twice as bright and with an offset. -/
example : mldbDescriptor 10 3 [⟨0, 1.6, Img.ofFn 80 80 (fun x y => 2 * f x y + 3), Img.ofFn 80 80 (fun x y => 2 * fx x y),
    Img.ofFn 80 80 (fun x y => 2 * fy x y), Img.ofFn 80 80 f⟩] exKey = mldbDescriptor 10 3 [level] exKey :=
  C76_brightness (a := 2) (b := 3) (by norm_num) (by norm_num) (by norm_num) (by norm_num [exKey]) rfl
    (ofFn_shows 80 80 f) (ofFn_shows 80 80 fx) (ofFn_shows 80 80 fy) rfl (ofFn_shows _ _ _) (ofFn_shows _ _ _)
    (ofFn_shows _ _ _)

/-- And those of C77: a keypoint that was found and refined. -/
example : ∃ k' d, refineKeypoint [level] k = some (some k') ∧ mldbDescriptor 10 3 [level] k' = .ok d := by
  obtain ⟨k', h1, _⟩ := result
  obtain ⟨r, h2, h3, _⟩ := C74_refine complete found (ofFn_shows 80 80 f)
  rw [h1] at h2
  obtain ⟨u, v, hu, hv, _, _, hm⟩ := h3 k' (Option.some.inj h2).symm
  obtain ⟨d, hd⟩ := C77_descriptor (p := 10) (channels := 3) complete found hm hu hv (by norm_num) (by norm_num)
    (by norm_num) (Or.inl (by rw [hm.2.2.2.2.1]; rfl))
  exact ⟨k', d, h1, hd⟩

/-- A way to sort. -/
noncomputable def exSort (l : List KeyPoint) : List KeyPoint := l.mergeSort (fun a b => decide (b.response ≤ a.response))

theorem exSort_sorts : SortsByResponse exSort := by
  refine ⟨fun l => List.mergeSort_perm _ _, fun l => ?_⟩
  have := List.pairwise_mergeSort (le := fun a b : KeyPoint => decide (b.response ≤ a.response))
    (fun a b c h1 h2 => by
      simp only [decide_eq_true_eq] at *
      exact h2.trans h1)
    (fun a b => by
      simp only [Bool.or_eq_true, decide_eq_true_eq]
      exact le_total _ _) l
  simpa [exSort] using this

/-- Extraction succeeds on every ramp of at least 80 by 80 pixels, so C32 and C78 speak of something. -/
example {image : Img ℝ} (hs : image.Shows 100 90 (fun x _ => 3 * x)) : ∃ ks ds,
    extract Settings.default exSort image = some (ks, ds) ∧ ks.length = ds.length := by
  obtain ⟨k, hk, h⟩ := C78_default exSort_sorts hs.2.2.1 (by rw [hs.1]; norm_num) (by rw [hs.2.1]; norm_num)
  obtain ⟨ks, ds, e⟩ := h (ramp_contrast (by norm_num) hs (by norm_num) (by norm_num) hk)
  obtain ⟨_, _, _, _, _, _, hx⟩ := C32_extract exSort_sorts e
  exact ⟨ks, ds, e, hx.sameLength⟩

end Verif.Akaze
