import Verif.Model.Blur

/-!
# akaze: the contrast factor

Source: /repo/akaze/src/contrast_factor.rs, with exact real arithmetic. `none` stands for a panic, or for the
division `0 / 0` of an empty histogram.
-/

namespace Verif.Akaze

/-- contrast_factor.rs 27-28 (also 35-36): the pixels not at the border, row by row. -/
def interior (w h : Nat) : List (Nat × Nat) :=
  (List.range' 1 (h - 2)).flatMap (fun y => (List.range' 1 (w - 2)).map (fun x => (x, y)))

/-- contrast_factor.rs 29 (also 37): the squared gradients of these pixels. -/
noncomputable def squares (lx ly : Img ℝ) (ps : List (Nat × Nat)) : Option (List ℝ) :=
  ps.mapM (fun p => do
    let a ← lx.get p.1 p.2
    let b ← ly.get p.1 p.2
    pure (a ^ 2 + b ^ 2))

/-- contrast_factor.rs 30-34 `.max().unwrap()`. -/
noncomputable def maximum? : List ℝ → Option ℝ
  | [] => none
  | a :: l => some (l.foldl max a)

/-- contrast_factor.rs 39-42: the bin of a gradient. -/
noncomputable def binNumber (bins : Nat) (modg hmax : ℝ) : Option Nat :=
  let b := ⌊(bins : ℝ) * (modg / hmax)⌋₊
  if b = bins then (if b = 0 then none else some (b - 1)) else some b

/-- contrast_factor.rs 43 `histogram[bin_number] += 1`. -/
def bump (hist : List Nat) (b : Nat) : Option (List Nat) :=
  if b < hist.length then some (hist.set b (hist.getD b 0 + 1)) else none

open Classical in
/-- contrast_factor.rs 35-47: fill the histogram, counting the points. -/
noncomputable def fillHistogram (bins : Nat) (hmax : ℝ) : List ℝ → List Nat → Nat → Option (List Nat × Nat)
  | [], hist, points => some (hist, points)
  | sq :: rest, hist, points => do
    let modg := Real.sqrt sq
    if modg = 0 then fillHistogram bins hmax rest hist points
    else do
      let b ← binNumber bins modg hmax
      let hist ← bump hist b
      fillHistogram bins hmax rest hist (points + 1)

/-- contrast_factor.rs 49-54: walk through the bins; returns the number of elements and of bins passed. -/
def walkBins (threshold : Nat) : List Nat → Nat → Nat → Nat × Nat
  | [], elements, k => (elements, k)
  | b :: rest, elements, k =>
    if elements < threshold then walkBins threshold rest (elements + b) (k + 1) else (elements, k)

/-- contrast_factor.rs 26-63: from the derivative images to the factor. -/
noncomputable def contrastOf (lx ly : Img ℝ) (w h : Nat) (percentile : ℝ) (bins : Nat) : Option ℝ := do
  let sq ← squares lx ly (interior w h)
  let m ← maximum? sq
  let hmax := Real.sqrt m
  let (hist, points) ← fillHistogram bins hmax sq (List.replicate bins 0) 0
  let threshold := ⌊(points : ℝ) * percentile⌋₊
  let (elements, k) := walkBins threshold hist 0 0
  if threshold ≤ elements then
    if bins = 0 then none else some (hmax * k / bins)
  else some 0.03

/-- contrast_factor.rs 16-64 `compute_contrast_factor`. -/
noncomputable def contrastFactor (image : Img ℝ) (percentile scale : ℝ) (bins : Nat) : Option ℝ := do
  let g ← blur image scale
  let lx ← simpleScharrHorizontal g
  let ly ← simpleScharrVertical g
  contrastOf lx ly g.w g.h percentile bins

end Verif.Akaze
