import Verif.Model.Image
import Mathlib.Algebra.Order.Archimedean.Real.Basic

/-!
# cv-sfm: bicubic sampling of colours

Source: /repo/cv-sfm/src/bicubic.rs. Coordinates and intermediate values are real numbers instead of `f32`, so NaN and
infinite coordinates are not modelled. `none` stands for an unchecked read outside the image (undefined behaviour) or
a panic.
-/

namespace Verif.Bicubic

open Verif.Akaze

/-- The `Subpixel` of a pixel: `cast` is `ValueInto<f32>`, `clamp` is `Clamp<f32>` of imageproc. -/
structure Sub (S : Type _) where
  cast : S → ℝ
  clamp : ℝ → S

/-- `u8`: values are cut off below at 0 and above at 255 and then truncated. -/
noncomputable def u8 : Sub Nat where
  cast n := n
  clamp v := if v < 255 then (if v > 0 then ⌊v⌋₊ else 0) else 255

/-- `f32`: nothing is cut off. -/
def f32 : Sub ℝ where
  cast v := v
  clamp v := v

variable {S : Type _} {n : Nat}

/-- bicubic.rs 22-27: one channel. -/
noncomputable def cubicValue (p0 p1 p2 p3 x : ℝ) : ℝ :=
  p1 + 0.5 * x * (p2 - p0 + x * (2 * p0 - 5 * p1 + 4 * p2 - p3 + x * (3 * (p1 - p2) + p3 - p0)))

/-- bicubic.rs 13-32 `blend_cubic`. A pixel with `n` channels is a function of the channel. -/
noncomputable def blendCubic (s : Sub S) (p0 p1 p2 p3 : Fin n → S) (x : ℝ) : Fin n → S :=
  fun i => s.clamp (cubicValue (s.cast (p0 i)) (s.cast (p1 i)) (s.cast (p2 i)) (s.cast (p3 i)) x)

/-- bicubic.rs 52-64: one row of the neighbourhood. -/
noncomputable def blendRow (s : Sub S) (image : Img (Fin n → S)) (left : ℝ) (weight : ℝ) (top : Nat)
    (col : List (Fin n → S)) (row : Nat) : Option (List (Fin n → S)) := do
  let x := ⌊left⌋.toNat
  let p0 ← image.get x row
  let p1 ← image.get (x + 1) row
  let p2 ← image.get (x + 2) row
  let p3 ← image.get (x + 3) row
  if row - top < col.length then some (col.set (row - top) (blendCubic s p0 p1 p2 p3 weight)) else none

/-- bicubic.rs 33-68 `interpolate_bicubic`. -/
noncomputable def interpolate (s : Sub S) (image : Img (Fin n → S)) (x y : ℝ) (default : Fin n → S) :
    Option (Fin n → S) := do
  let left : ℝ := ⌊x⌋ - 1
  let right := left + 4
  let top : ℝ := ⌊y⌋ - 1
  let bottom := top + 4
  let xWeight := x - (left + 1)
  let yWeight := y - (top + 1)
  if left < 0 ∨ right ≥ image.w ∨ top < 0 ∨ bottom ≥ image.h then some default
  else
    let first := ⌊top⌋.toNat
    let col ← (List.range' first (⌊bottom⌋.toNat - first)).foldlM (blendRow s image left xWeight first)
      [default, default, default, default]
    let c0 ← col[0]?
    let c1 ← col[1]?
    let c2 ← col[2]?
    let c3 ← col[3]?
    some (blendCubic s c0 c1 c2 c3 yWeight)

end Verif.Bicubic
