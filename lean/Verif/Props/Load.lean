import Verif.Spec.Load
import Verif.Lemmas.Image
import Verif.Model.Descriptor
import Mathlib.Tactic.Linarith
import Mathlib.Tactic.NormNum

/-!
# C96: float images made from pictures
-/

namespace Verif.Akaze

theorem convert_shows {A B : Type} {i : Img A} {w h : Nat} {f : Nat → Nat → A} (hs : i.Shows w h f) (g : A → B) :
    ∃ out, i.convert g = some out ∧ out.Shows w h (fun x y => g (f x y)) := by
  obtain ⟨rfl, rfl, _, hg⟩ := hs
  refine ⟨_, ofFnM_eq (f := fun x y => g (f x y)) ?_, ofFn_shows _ _ _⟩
  intro x y hx hy
  rw [hg x y hx hy, Option.map_some]

variable {rnd : ℝ → ℝ} {luma : ℝ × ℝ × ℝ → ℝ} {lumaA : ℝ × ℝ × ℝ × ℝ → ℝ} {g g' : Gray} {w h top top' : Nat}
  {v v' : Nat → Nat → Nat}

theorem depicts_values (hd : g.Depicts w h top v) : (∀ x y, v x y ≤ top) ∧ (top = 255 ∨ top = 65535) := by
  cases g with
  | luma8 i =>
    obtain ⟨rfl, f, _, hv⟩ := hd
    exact ⟨fun x y => by rw [hv]; have := (f x y).isLt; omega, Or.inl rfl⟩
  | luma16 i =>
    obtain ⟨rfl, f, _, hv⟩ := hd
    exact ⟨fun x y => by rw [hv]; have := (f x y).isLt; omega, Or.inr rfl⟩
  | lumaA8 i =>
    obtain ⟨rfl, f, _, hv⟩ := hd
    exact ⟨fun x y => by rw [hv]; have := (f x y).1.isLt; omega, Or.inl rfl⟩
  | lumaA16 i =>
    obtain ⟨rfl, f, _, hv⟩ := hd
    exact ⟨fun x y => by rw [hv]; have := (f x y).1.isLt; omega, Or.inr rfl⟩
  | rgb32F i => cases hd
  | rgba32F i => cases hd
  | other => cases hd

theorem fromGray_shows (hd : g.Depicts w h top v) :
    ∃ out, fromGray rnd luma lumaA g = some out ∧ out.Shows w h (fun x y => rnd ((v x y : ℝ) / (top : ℝ))) := by
  cases g with
  | luma8 i =>
    obtain ⟨rfl, f, hs, hv⟩ := hd
    simp only [hv]
    exact convert_shows hs _
  | luma16 i =>
    obtain ⟨rfl, f, hs, hv⟩ := hd
    simp only [hv]
    exact convert_shows hs _
  | lumaA8 i =>
    obtain ⟨rfl, f, hs, hv⟩ := hd
    simp only [hv]
    exact convert_shows hs _
  | lumaA16 i =>
    obtain ⟨rfl, f, hs, hv⟩ := hd
    simp only [hv]
    exact convert_shows hs _
  | rgb32F i => cases hd
  | rgba32F i => cases hd
  | other => cases hd

/-- **C96** A picture with 8 or 16 bits, with or without transparency, gives an image of the same size with all values
between 0 and 1. Black is 0 and white is 1, and of two pixels the brighter one has the larger value: no two shades of gray
become the same. -/
theorem C96_values_partial (hr : Rounds rnd) (hd : g.Depicts w h top v) :
    ∃ out f, fromGray rnd luma lumaA g = some out ∧ out.Shows w h f ∧
      (∀ x y, 0 ≤ f x y ∧ f x y ≤ 1) ∧ (∀ x y, v x y = 0 → f x y = 0) ∧ (∀ x y, v x y = top → f x y = 1) ∧
      ∀ x y x' y', f x y < f x' y' ↔ v x y < v x' y' := by
  obtain ⟨out, h1, h2⟩ := fromGray_shows (rnd := rnd) (luma := luma) (lumaA := lumaA) hd
  obtain ⟨hv, ht⟩ := depicts_values hd
  have t0 : (0 : ℝ) < top := by
    rcases ht with rfl | rfl <;> norm_num
  have t1 : (top : ℝ) ≤ 65535 := by
    rcases ht with rfl | rfl <;> norm_num
  have hq : ∀ x y, (0 : ℝ) ≤ (v x y : ℝ) / top ∧ (v x y : ℝ) / top ≤ 1 := by
    intro x y
    refine ⟨by positivity, ?_⟩
    rw [div_le_one t0]
    exact_mod_cast hv x y
  have up : ∀ x y x' y', v x y < v x' y' → rnd ((v x y : ℝ) / top) < rnd ((v x' y' : ℝ) / top) := by
    intro x y x' y' hlt
    have a1 := abs_le.mp (hr.near _ (hq x y).1 (hq x y).2)
    have a2 := abs_le.mp (hr.near _ (hq x' y').1 (hq x' y').2)
    have a3 : (v x y : ℝ) / top + 1 / 65535 ≤ (v x' y' : ℝ) / top := by
      have b1 : ((v x y : ℝ) + 1) / top ≤ (v x' y' : ℝ) / top := by
        rw [div_le_div_iff_of_pos_right t0]
        exact_mod_cast hlt
      have b2 : (1 : ℝ) / 65535 ≤ 1 / top := one_div_le_one_div_of_le t0 t1
      rw [add_div] at b1
      linarith
    have a4 : (1 : ℝ) / 2 ^ 25 + 1 / 2 ^ 25 < 1 / 65535 := by norm_num
    linarith [a1.2, a2.1]
  refine ⟨out, _, h1, h2, ?_, ?_, ?_, ?_⟩
  · intro x y
    have e0 := hr.mono _ _ (hq x y).1
    have e1 := hr.mono _ _ (hq x y).2
    rw [hr.zero] at e0
    rw [hr.one] at e1
    exact ⟨e0, e1⟩
  · intro x y e
    simp only [e, Nat.cast_zero, zero_div, hr.zero]
  · intro x y e
    simp only [e, div_self (ne_of_gt t0), hr.one]
  · intro x y x' y'
    refine ⟨fun hlt => ?_, up x y x' y'⟩
    by_contra hn
    have : (v x' y' : ℝ) / top ≤ (v x y : ℝ) / top := by
      rw [div_le_div_iff_of_pos_right t0]
      exact_mod_cast Nat.le_of_not_lt hn
    exact absurd hlt (not_lt.mpr (hr.mono _ _ this))

/-- **C96** Transparency is ignored, and a picture with 8 bits gives the same image as the same picture with 16 bits, where a
value is repeated in both bytes. This holds whatever the rounding. -/
theorem C96_depth (hd : g.Depicts w h top v) (hd' : g'.Depicts w h top' v')
    (hv : ∀ x y, x < w → y < h → v x y * top' = v' x y * top) :
    fromGray rnd luma lumaA g = fromGray rnd luma lumaA g' := by
  obtain ⟨out, h1, h2⟩ := fromGray_shows (rnd := rnd) (luma := luma) (lumaA := lumaA) hd
  obtain ⟨out', h1', h2'⟩ := fromGray_shows (rnd := rnd) (luma := luma) (lumaA := lumaA) hd'
  have t0 : (top : ℝ) ≠ 0 := by
    rcases (depicts_values hd).2 with rfl | rfl <;> norm_num
  have t1 : (top' : ℝ) ≠ 0 := by
    rcases (depicts_values hd').2 with rfl | rfl <;> norm_num
  have : out = out' := by
    refine h2.unique ⟨h2'.1, h2'.2.1, h2'.2.2.1, ?_⟩
    intro x y hx hy
    rw [h2'.2.2.2 x y hx hy]
    have : (v x y : ℝ) / top = (v' x y : ℝ) / top' := by
      rw [div_eq_div_iff t0 t1]
      exact_mod_cast hv x y hx hy
    simp only [this]
  rw [h1, h1', this]

/-- **C96** The case of C96_depth with 8 and 16 bits: all keypoints and descriptors are the same. -/
theorem C96_same_features {i : Img (Fin 256)} {j : Img (Fin 65536)} {f : Nat → Nat → Fin 256} {f' : Nat → Nat → Fin 65536}
    (hi : i.Shows w h f) (hj : j.Shows w h f') (hv : ∀ x y, x < w → y < h → (f' x y).val = 257 * (f x y).val)
    (s : Settings) (sort : List KeyPoint → List KeyPoint) :
    (fromGray rnd luma lumaA (.luma8 i)).bind (extract s sort) = (fromGray rnd luma lumaA (.luma16 j)).bind (extract s sort) := by
  rw [C96_depth (g := .luma8 i) (g' := .luma16 j) (w := w) (h := h) (top := 255) (top' := 65535)
    (v := fun x y => (f x y).val) (v' := fun x y => (f' x y).val) ⟨rfl, f, hi, fun _ _ => rfl⟩ ⟨rfl, f', hj, fun _ _ => rfl⟩]
  intro x y hx hy
  simp only [hv x y hx hy]
  omega

/-- **C96** A gray float picture is taken over as it is. -/
theorem C96_float (hl : Luminance luma) {i : Img (ℝ × ℝ × ℝ)} {f : Nat → Nat → ℝ}
    (hi : i.Shows w h (fun x y => (f x y, f x y, f x y))) :
    ∃ out, fromGray rnd luma lumaA (.rgb32F i) = some out ∧ out.Shows w h f := by
  obtain ⟨out, h1, h2⟩ := convert_shows hi luma
  exact ⟨out, h1, by simpa only [hl.gray] using h2⟩

/-- **C96** The documentation promises values between 0 and 1. For float pictures this is false: larger values, which such
pictures are for, are kept. -/
theorem C96_range_false (hl : Luminance luma) : ∃ (i : Img (ℝ × ℝ × ℝ)) (out : Img ℝ), i.WF ∧
    fromGray rnd luma lumaA (.rgb32F i) = some out ∧ out.get 0 0 = some 2 := by
  obtain ⟨out, h1, h2⟩ := C96_float (rnd := rnd) (lumaA := lumaA) hl (i := Img.ofFn 1 1 (fun _ _ => (2, 2, 2)))
    (f := fun _ _ => 2) (ofFn_shows 1 1 _)
  exact ⟨_, out, (ofFn_shows 1 1 _).2.2.1, h1, h2.2.2.2 0 0 one_pos one_pos⟩

/-- The hypotheses of `C96_values_partial` and `C96_depth`: a gradient with 8 bits, and the same with 16 bits and
transparency. Exact numbers need no rounding. -/
example : Rounds id ∧ (Gray.luma8 (Img.ofFn 5 3 (fun x y => Fin.ofNat 256 (50 * x + y)))).Depicts 5 3 255
      (fun x y => (Fin.ofNat 256 (50 * x + y)).val) ∧
    (Gray.lumaA16 (Img.ofFn 5 3 (fun x y => (Fin.ofNat 65536 (257 * (Fin.ofNat 256 (50 * x + y)).val), 7)))).Depicts 5 3 65535
      (fun x y => (Fin.ofNat 65536 (257 * (Fin.ofNat 256 (50 * x + y)).val)).val) ∧
    ∀ x y, x < 5 → y < 3 → (Fin.ofNat 256 (50 * x + y)).val * 65535 =
      (Fin.ofNat 65536 (257 * (Fin.ofNat 256 (50 * x + y)).val)).val * 255 := by
  refine ⟨⟨fun _ _ e => e, rfl, rfl, fun x _ _ => by norm_num⟩, ⟨rfl, _, ofFn_shows 5 3 _, fun _ _ => rfl⟩,
    ⟨rfl, _, ofFn_shows 5 3 _, fun _ _ => rfl⟩, ?_⟩
  intro x y _ _
  simp only [Fin.val_ofNat]
  omega

/-- The luminance of the `image` crate. -/
example : Luminance (fun p => (2126 * p.1 + 7152 * p.2.1 + 722 * p.2.2) / 10000) := ⟨fun v => by
  show (2126 * v + 7152 * v + 722 * v) / 10000 = v
  linarith⟩

end Verif.Akaze
