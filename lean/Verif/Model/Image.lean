import Mathlib.Algebra.Field.Basic
import Mathlib.Algebra.BigOperators.Group.List.Basic

/-!
# akaze: images and filters

Source: /repo/akaze/src/image.rs and derivatives.rs. Pixels are of any type with arithmetic: elements
of a ring or field for what depends on exact values, `f32` with rounding and NaN for what does not.
`none` stands for a panic. `List.chunksExact`, `windows` and so on model the methods of slices.
-/

namespace Verif.Akaze

variable {K : Type _}

/-- image.rs 36-37 `GrayFloatImage`: a width, a height and the pixels row by row. -/
structure Img (K : Type _) where
  w : Nat
  h : Nat
  data : List K
deriving Repr, DecidableEq

/-- The image crate only makes images with as many pixels as they should have. -/
def Img.WF (i : Img K) : Prop := i.data.length = i.w * i.h

instance (i : Img K) : Decidable i.WF := by unfold Img.WF; infer_instance

/-- image.rs 146-148 `get`: reading outside the image panics. -/
def Img.get (i : Img K) (x y : Nat) : Option K :=
  if x < i.w ∧ y < i.h then i.data[y * i.w + x]? else none

/-- A new image given pixel by pixel (`Array2` filled by `azip!`, then image.rs 111-116 `from_array2`). -/
def Img.ofFn (w h : Nat) (f : Nat → Nat → K) : Img K :=
  ⟨w, h, (List.range h).flatMap (fun y => (List.range w).map (fun x => f x y))⟩

/-- The same, where computing a pixel may panic. -/
def Img.ofFnM (w h : Nat) (f : Nat → Nat → Option K) : Option (Img K) :=
  ((List.range h).mapM (fun y => (List.range w).mapM (fun x => f x y))).map (fun rows => ⟨w, h, rows.flatten⟩)

/-- `chunks_exact(n)` of a slice. -/
def chunksExact (n : Nat) (l : List K) : List (List K) :=
  (List.range (l.length / n)).map (fun i => (l.drop (i * n)).take n)

/-- `chunks(n)` of a slice. -/
def chunks (n : Nat) (l : List K) : List (List K) :=
  (List.range ((l.length + n - 1) / n)).map (fun i => (l.drop (i * n)).take n)

/-- `windows(n)` of a slice. -/
def windows (n : Nat) (l : List K) : List (List K) :=
  (List.range (l.length + 1 - n)).map (fun i => (l.drop i).take n)

/-- `f32x4`. -/
structure Lanes (K : Type _) where
  a : K
  b : K
  c : K
  d : K

section Filter

variable [Zero K] [One K] [Add K] [Mul K] [Neg K] [NatCast K]

/-- image.rs 215-222 (also 266-273): four numbers, with zeros for the missing ones. -/
def lanesOf (l : List K) : Lanes K := ⟨l.getD 0 0, l.getD 1 0, l.getD 2 0, l.getD 3 0⟩

/-- `f32x4::mul_add`. -/
def Lanes.mulAdd (a b acc : Lanes K) : Lanes K :=
  ⟨a.a * b.a + acc.a, a.b * b.b + acc.b, a.c * b.c + acc.c, a.d * b.d + acc.d⟩

/-- `f32x4::reduce_add`. -/
def Lanes.reduceAdd (v : Lanes K) : K := v.a + v.b + v.c + v.d

/-- image.rs 212-224 (also 263-275): the kernel in groups of four. -/
def simdKernel (kernel : List K) : List (Lanes K) := (chunks 4 kernel).map lanesOf

/-- image.rs 225 (also 276). In Rust `4 * (n + 3) / 4` is `(4 * (n + 3)) / 4`. -/
def simdSize (kernelSize : Nat) : Nat := 4 * (kernelSize + 3) / 4

/-- image.rs 242-247 (also 320-325): one output pixel from one window. -/
def windowValue (simd : List (Lanes K)) (window : List K) : K :=
  ((((chunksExact 4 window).map lanesOf).zip simd).foldl
    (fun acc (p : Lanes K × Lanes K) => p.1.mulAdd p.2 acc) ⟨0, 0, 0, 0⟩).reduceAdd

/-- image.rs 231-248: one row. Pixels that no window is left for stay zero. -/
def filterRow (kernel row : List K) : Option (List K) := do
  let half := kernel.length / 2
  let extra := simdSize kernel.length - kernel.length
  let first ← row.head?
  let last ← row.getLast?
  let scratch := List.replicate half first ++ row ++ List.replicate half last ++ List.replicate extra 0
  let out := ((windows (simdSize kernel.length) scratch).map (windowValue (simdKernel kernel))).take row.length
  pure (out ++ List.replicate (row.length - out.length) 0)

/-- image.rs 202-251 `horizontal_filter`, with the assertion on the kernel size checked. Rows of width zero
panic in `chunks_exact`. -/
def horizontalFilter (image : Img K) (kernel : List K) : Option (Img K) :=
  if kernel.length % 2 ≠ 1 then none
  else if image.w = 0 then none
  else ((chunksExact image.w image.data).mapM (filterRow kernel)).map
    (fun rows => ⟨image.w, image.h, rows.flatten⟩)

/-- Writing into a slice, one element after the other. A value of `none` is a read out of range. -/
def writeAll : List K → List (Nat × Option K) → Option (List K)
  | buf, [] => some buf
  | buf, (i, v) :: ws =>
    match v with
    | none => none
    | some v => if i < buf.length then writeAll (buf.set i v) ws else none

/-- image.rs 286-308: what is written into the scratch buffer for the columns from `xs` up to `xe`, in order. -/
def columnWrites (data : List K) (w h half extra : Nat) (xs xe : Nat) : List (Nat × Option K) :=
  let sh := h + half * 2 + extra
  (List.range' xs (xe - xs)).flatMap (fun x =>
      (List.range half).map (fun i => ((x - xs) * sh + i, data[x]?)) ++
      (List.range half).map (fun i => ((x - xs) * sh + half + h + i, data[(h - 1) * w + x]?)) ++
      (List.range extra).map (fun i => ((x - xs) * sh + half + h + half + i, some 0))) ++
    (List.range h).flatMap (fun y =>
      (List.range' xs (xe - xs)).map (fun x => ((x - xs) * sh + y + half, data[y * w + x]?)))

/-- image.rs 310-329: what is written into the output for these columns. -/
def outputWrites (scratch : List K) (kernel : List K) (w sh : Nat) (xs xe : Nat) : List (Nat × Option K) :=
  (List.range (xe - xs)).flatMap (fun dx =>
    ((windows (simdSize kernel.length) ((scratch.drop (dx * sh)).take sh)).map
        (windowValue (simdKernel kernel))).zipIdx.map
      (fun p => (p.2 * w + (xs + dx), some p.1)))

/-- image.rs 283-330: the loop over groups of sixteen columns. The scratch buffer is used again and again. -/
def columnLoop (data kernel : List K) (w h half extra : Nat) :
    List Nat → List K → List K → Option (List K)
  | [], _, output => some output
  | xs :: rest, scratch, output => do
    let xe := min (xs + 16) w
    if h = 0 then none
    else do
      let scratch ← writeAll scratch (columnWrites data w h half extra xs xe)
      let output ← writeAll output (outputWrites scratch kernel w (h + half * 2 + extra) xs xe)
      columnLoop data kernel w h half extra rest scratch output

/-- image.rs 253-331 `vertical_filter`. -/
def verticalFilter (image : Img K) (kernel : List K) : Option (Img K) :=
  let half := kernel.length / 2
  let extra := simdSize kernel.length - kernel.length
  let sh := image.h + half * 2 + extra
  if kernel.length % 2 ≠ 1 then none
  else (columnLoop image.data kernel image.w image.h half extra
      ((List.range ((image.w + 15) / 16)).map (· * 16)) (List.replicate (16 * sh) 0)
      (List.replicate (image.w * image.h) 0)).map
    (fun data => ⟨image.w, image.h, data⟩)

/-- image.rs 333-340 `separable_filter`. -/
def separableFilter (image : Img K) (hKernel vKernel : List K) : Option (Img K) := do
  let h ← horizontalFilter image hKernel
  verticalFilter h vKernel

/-- derivatives.rs 3-6 `simple_scharr_horizontal`. -/
def simpleScharrHorizontal (image : Img K) : Option (Img K) := separableFilter image [-1, 0, 1] [3, 10, 3]

/-- derivatives.rs 8-11 `simple_scharr_vertical`. -/
def simpleScharrVertical (image : Img K) : Option (Img K) := separableFilter image [3, 10, 3] [-1, 0, 1]

end Filter

section Field

variable [Zero K] [One K] [Add K] [Mul K] [Neg K] [Div K] [NatCast K]

/-- derivatives.rs 57-79 with `FilterOrder::Main`. `none`: the size would be negative. -/
def scharrMain (sigma : Nat) : Option (List K) :=
  if sigma = 0 then none
  else
    let ksize := 3 + 2 * (sigma - 1)
    some (((List.replicate ksize 0).set 0 (-1)).set (ksize - 1) 1)

/-- derivatives.rs 57-79 with `FilterOrder::Off`. -/
def scharrOff (sigma : Nat) : Option (List K) :=
  if sigma = 0 then none
  else
    let w : K := 10 / 3
    let norm := 1 / (2 * sigma * (w + 2))
    let middle := norm * w
    let ksize := 3 + 2 * (sigma - 1)
    some ((((List.replicate ksize 0).set 0 norm).set (ksize / 2) middle).set (ksize - 1) norm)

/-- derivatives.rs 23-30 `scharr_horizontal`. -/
def scharrHorizontal (image : Img K) (sigma : Nat) : Option (Img K) :=
  if sigma = 1 then simpleScharrHorizontal image
  else do
    let main ← scharrMain sigma
    let off ← scharrOff sigma
    separableFilter image main off

/-- derivatives.rs 42-49 `scharr_vertical`. -/
def scharrVertical (image : Img K) (sigma : Nat) : Option (Img K) :=
  if sigma = 1 then simpleScharrVertical image
  else do
    let main ← scharrMain sigma
    let off ← scharrOff sigma
    separableFilter image off main

/-- image.rs 360-374 `gaussian_kernel`, with the Gaussian as a parameter. -/
def gaussianKernel (g : Int → K) (size : Nat) : Option (List K) :=
  if size % 2 ≠ 1 then none
  else
    let raw := (List.range size).map (fun i : Nat => g ((i : Int) - ((size / 2 : Nat) : Int)))
    some (raw.map (· / raw.sum))

/-- image.rs 383-389 `gaussian_blur`, from the radius of the kernel on. -/
def gaussianBlur (g : Int → K) (radius : Nat) (image : Img K) : Option (Img K) := do
  let kernel ← gaussianKernel g (radius * 2 + 1)
  separableFilter image kernel kernel

/-- image.rs 154-199 `half_size`. The last row, then the last column, then the last pixel are written again when
the size is odd; here the passes are merged, the last one that writes a pixel first. `s![-1..]` panics on a side of length zero. -/
def halfSize (image : Img K) : Option (Img K) := do
  let width := image.w / 2
  let height := image.h / 2
  if height * 2 ≠ image.h ∧ height = 0 then none
  else if width * 2 ≠ image.w ∧ width = 0 then none
  else
    Img.ofFnM width height (fun x y =>
      if width * 2 ≠ image.w ∧ height * 2 ≠ image.h ∧ x = width - 1 ∧ y = height - 1 then
        image.get (image.w - 1) (image.h - 1)
      else if width * 2 ≠ image.w ∧ x = width - 1 then do
        let a ← image.get (image.w - 1) (2 * y)
        let b ← image.get (image.w - 1) (2 * y + 1)
        pure ((a + b) * (1 / 2))
      else if height * 2 ≠ image.h ∧ y = height - 1 then do
        let a ← image.get (2 * x) (image.h - 1)
        let b ← image.get (2 * x + 1) (image.h - 1)
        pure ((a + b) * (1 / 2))
      else do
        let a ← image.get (2 * x) (2 * y)
        let b ← image.get (2 * x + 1) (2 * y)
        let c ← image.get (2 * x) (2 * y + 1)
        let d ← image.get (2 * x + 1) (2 * y + 1)
        pure ((a + b + c + d) * (1 / 4)))

end Field

end Verif.Akaze
