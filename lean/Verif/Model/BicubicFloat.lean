import Verif.Model.Bicubic

/-!
# cv-sfm: bicubic sampling at coordinates that are not numbers

Source: /repo/cv-sfm/src/bicubic.rs. Coordinates are NaN, infinite or real numbers; rounding and overflow are not modelled.
-/

namespace Verif.Bicubic

open Verif.Akaze

/-- A floating point value without rounding: NaN, an infinity (`true` for the negative one) or a number. -/
inductive Flt where
  | nan
  | inf (negative : Bool)
  | num (v : ℝ)

namespace Flt

/-- `-` of `f32`. -/
noncomputable def neg : Flt → Flt
  | nan => nan
  | inf s => inf (!s)
  | num v => num (-v)

/-- `+` of `f32`: infinities of different signs give NaN. -/
noncomputable def add : Flt → Flt → Flt
  | num a, num b => num (a + b)
  | nan, _ => nan
  | _, nan => nan
  | inf s, inf t => if s = t then inf s else nan
  | inf s, num _ => inf s
  | num _, inf t => inf t

/-- `*` of `f32`: an infinity times zero gives NaN. -/
noncomputable def mul : Flt → Flt → Flt
  | num a, num b => num (a * b)
  | nan, _ => nan
  | _, nan => nan
  | inf s, inf t => inf (s != t)
  | inf s, num a => if a = 0 then nan else inf (s != decide (a < 0))
  | num a, inf s => if a = 0 then nan else inf (s != decide (a < 0))

/-- `-` of two `f32`. -/
noncomputable def sub (a b : Flt) : Flt := a.add b.neg

/-- `f32::floor`. -/
noncomputable def floor : Flt → Flt
  | num v => num ⌊v⌋
  | a => a

/-- `<` of `f32`: false when one of the values is NaN. -/
def Lt : Flt → Flt → Prop
  | num a, num b => a < b
  | inf true, num _ => True
  | num _, inf false => True
  | inf true, inf false => True
  | _, _ => False

/-- `>=` of `f32`: false when one of the values is NaN. -/
def Ge : Flt → Flt → Prop
  | num a, num b => a ≥ b
  | nan, _ => False
  | _, nan => False
  | inf false, _ => True
  | _, inf true => True
  | _, _ => False

/-- `as u32` and `as usize`: saturating, NaN becomes 0. `largest` is the largest value of the type. -/
noncomputable def toNat (largest : Nat) : Flt → Nat
  | nan => 0
  | inf true => 0
  | inf false => largest
  | num v => min ⌊v⌋.toNat largest

end Flt

variable {S : Type _} {n : Nat}

/-- A subpixel, as `Sub`, for all values. -/
structure FltSub (S : Type _) where
  cast : S → ℝ
  clamp : Flt → S

/-- `u8`. `Clamp` of imageproc compares with 255 and then with 0; NaN is not less than 255. -/
noncomputable def fltU8 : FltSub Nat where
  cast n := n
  clamp
    | .num v => u8.clamp v
    | .inf true => 0
    | .inf false => 255
    | .nan => 255

/-- bicubic.rs 26. -/
noncomputable def fltCubicValue (p0 p1 p2 p3 x : Flt) : Flt :=
  let n := Flt.num
  p1.add (((n 0.5).mul x).mul ((p2.sub p0).add (x.mul
    ((((((n 2).mul p0).sub ((n 5).mul p1)).add ((n 4).mul p2)).sub p3).add
      (x.mul ((((n 3).mul (p1.sub p2)).add p3).sub p0))))))

/-- bicubic.rs 13-32 `blend_cubic`. -/
noncomputable def fltBlendCubic (s : FltSub S) (p0 p1 p2 p3 : Fin n → S) (x : Flt) : Fin n → S :=
  fun i => s.clamp (fltCubicValue (.num (s.cast (p0 i))) (.num (s.cast (p1 i))) (.num (s.cast (p2 i)))
    (.num (s.cast (p3 i))) x)

/-- A read without a check: the pixels are one after the other, row after row; `none` when the place is behind the last
pixel (undefined behaviour). A column outside the image may give a pixel of another row. -/
def uncheckedGet (image : Img (Fin n → S)) (x y : Nat) : Option (Fin n → S) := image.data[y * image.w + x]?

/-- bicubic.rs 52-64: one row of the neighbourhood. -/
noncomputable def fltBlendRow (s : FltSub S) (image : Img (Fin n → S)) (left weight top : Flt)
    (col : List (Fin n → S)) (row : Nat) : Option (List (Fin n → S)) := do
  let x := left.toNat (2 ^ 32 - 1)
  let p0 ← uncheckedGet image x row
  let p1 ← uncheckedGet image (x + 1) row
  let p2 ← uncheckedGet image (x + 2) row
  let p3 ← uncheckedGet image (x + 3) row
  let at_ := row - top.toNat (2 ^ 64 - 1)
  if at_ < col.length then some (col.set at_ (fltBlendCubic s p0 p1 p2 p3 weight)) else none

open Classical in
/-- bicubic.rs 33-68 `interpolate_bicubic`. -/
noncomputable def fltInterpolate (s : FltSub S) (image : Img (Fin n → S)) (x y : Flt) (default : Fin n → S) :
    Option (Fin n → S) := do
  let left := x.floor.sub (.num 1)
  let right := left.add (.num 4)
  let top := y.floor.sub (.num 1)
  let bottom := top.add (.num 4)
  let xWeight := x.sub (left.add (.num 1))
  let yWeight := y.sub (top.add (.num 1))
  if left.Lt (.num 0) ∨ right.Ge (.num image.w) ∨ top.Lt (.num 0) ∨ bottom.Ge (.num image.h) then some default
  else
    let first := top.toNat (2 ^ 32 - 1)
    let col ← (List.range' first (bottom.toNat (2 ^ 32 - 1) - first)).foldlM (fltBlendRow s image left xWeight top)
      [default, default, default, default]
    let c0 ← col[0]?
    let c1 ← col[1]?
    let c2 ← col[2]?
    let c3 ← col[3]?
    some (fltBlendCubic s c0 c1 c2 c3 yWeight)

end Verif.Bicubic
