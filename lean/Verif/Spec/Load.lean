import Verif.Model.Load
import Verif.Spec.Image

/-!
# Specification: float images made from pictures
-/

namespace Verif.Akaze

/-- What is used of rounding to the nearest `f32`: it respects the order, keeps 0 and 1, and changes a number between
them by at most 2^-25. -/
structure Rounds (rnd : ℝ → ℝ) : Prop where
  mono : ∀ x y, x ≤ y → rnd x ≤ rnd y
  zero : rnd 0 = 0
  one : rnd 1 = 1
  near : ∀ x, 0 ≤ x → x ≤ 1 → |rnd x - x| ≤ 1 / 2 ^ 25

/-- The picture is of this kind with `top` as its largest value, and `v x y` is the value of a pixel. -/
def Gray.Depicts : Gray → Nat → Nat → Nat → (Nat → Nat → Nat) → Prop
  | .luma8 i, w, h, top, v => top = 255 ∧ ∃ f, i.Shows w h f ∧ ∀ x y, v x y = (f x y).val
  | .luma16 i, w, h, top, v => top = 65535 ∧ ∃ f, i.Shows w h f ∧ ∀ x y, v x y = (f x y).val
  | .lumaA8 i, w, h, top, v => top = 255 ∧ ∃ f, i.Shows w h f ∧ ∀ x y, v x y = (f x y).1.val
  | .lumaA16 i, w, h, top, v => top = 65535 ∧ ∃ f, i.Shows w h f ∧ ∀ x y, v x y = (f x y).1.val
  | _, _, _, _, _ => False

/-- Weighted luminance of a float pixel. -/
structure Luminance (luma : ℝ × ℝ × ℝ → ℝ) : Prop where
  gray : ∀ v, luma (v, v, v) = v

end Verif.Akaze
