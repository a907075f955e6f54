import Verif.Model.Descriptor
import Verif.Spec.Orient

/-!
# Specification: descriptors

The square of `2 p` by `2 p` points around a keypoint, turned by its angle and enlarged by its scale, is divided into
`m` by `m` cells, for `m` = 2, 3 and 4. The bits of the descriptor say which of two cells has the larger mean.
-/

namespace Verif.Akaze

/-- A keypoint seen in the image of its octave, where `2 ^ octave` pixels are one; the scale is half the size, rounded. -/
noncomputable def patternFrame (k : KeyPoint) : Frame where
  xf := k.x / 2 ^ k.octave
  yf := k.y / 2 ^ k.octave
  co := Real.cos k.angle
  si := Real.sin k.angle
  scale := ⌊k.size / (2 * 2 ^ k.octave) + 1 / 2⌋

/-- The position in the image of the point `k`, `l` of the pattern. -/
noncomputable def patternX (fr : Frame) (k l : ℤ) : ℝ := fr.xf + fr.scale * (k * fr.co - l * fr.si)
noncomputable def patternY (fr : Frame) (k l : ℤ) : ℝ := fr.yf + fr.scale * (k * fr.si + l * fr.co)

/-- The pixel nearest to that point is in the image. -/
def InImage (w h : Nat) (fr : Frame) (k l : ℤ) : Prop :=
  0 ≤ roundAway (patternX fr k l) ∧ roundAway (patternX fr k l) < w ∧
    0 ≤ roundAway (patternY fr k l) ∧ roundAway (patternY fr k l) < h

/-- The value of an image at that pixel. -/
noncomputable def atPattern (f : Nat → Nat → ℝ) (fr : Frame) (k l : ℤ) : ℝ :=
  f (roundAway (patternX fr k l)).toNat (roundAway (patternY fr k l)).toNat

/-- What is compared in channel `c`: the brightness, then the size of the gradient or, with three channels, its parts
across and along the direction of the keypoint. -/
noncomputable def channelValue (channels : Nat) (ft fx fy : Nat → Nat → ℝ) (fr : Frame) (c : Nat) (k l : ℤ) : ℝ :=
  if c = 0 then atPattern ft fr k l
  else if channels = 2 then √(atPattern fx fr k l ^ 2 + atPattern fy fr k l ^ 2)
  else if c = 1 then atPattern fy fr k l * fr.co - atPattern fx fr k l * fr.si
  else atPattern fx fr k l * fr.co + atPattern fy fr k l * fr.si

/-- The width of the cells, `2 p / m` rounded up. -/
def cellWidth (p m : Nat) : Nat := (2 * p + m - 1) / m

/-- The mean over the `n`-th of the `m * m` cells. -/
noncomputable def cellMean (p channels : Nat) (ft fx fy : Nat → Nat → ℝ) (fr : Frame) (m c n : Nat) : ℝ :=
  (∑ a ∈ Finset.range (cellWidth p m), ∑ b ∈ Finset.range (cellWidth p m),
    channelValue channels ft fx fy fr c (-(p : ℤ) + (n / m : ℕ) * cellWidth p m + a)
      (-(p : ℤ) + (n % m : ℕ) * cellWidth p m + b)) / (cellWidth p m : ℝ) ^ 2

/-- All pairs of numbers below `n`, smaller first, in order. -/
def pairs (n : Nat) : List (Nat × Nat) :=
  (List.range n).flatMap (fun i => (List.range' (i + 1) (n - (i + 1))).map (fun j => (i, j)))

/-- The bits of the descriptor in order. -/
noncomputable def descriptorBits (p channels : Nat) (ft fx fy : Nat → Nat → ℝ) (fr : Frame) : List Bool :=
  [2, 3, 4].flatMap (fun m => (List.range channels).flatMap (fun c => (pairs (m * m)).map (fun ij =>
    decide (cellMean p channels ft fx fy fr m c ij.2 < cellMean p channels ft fx fy fr m c ij.1))))

/-- The `n`-th bit of a descriptor, counted from the lowest bit of the first byte. -/
def bitAt (desc : List (BitVec 8)) (n : Nat) : Bool := (desc.getD (n / 8) 0).getLsbD (n % 8)

/-- All points of the pattern are in the image. -/
def PatternInside (p w h : Nat) (fr : Frame) : Prop := ∀ m ∈ [2, 3, 4], ∀ k l : ℤ, -(p : ℤ) ≤ k →
  k < -(p : ℤ) + m * cellWidth p m → -(p : ℤ) ≤ l → l < -(p : ℤ) + m * cellWidth p m → InImage w h fr k l

end Verif.Akaze
