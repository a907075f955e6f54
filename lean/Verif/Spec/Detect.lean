import Verif.Model.Detect
import Verif.Spec.Image

/-!
# Specification: keypoints
-/

namespace Verif.Akaze

/-- `f` is larger at `x`, `y` than at its eight neighbours, all of which are in the image. -/
def IsPeak (f : Nat → Nat → ℝ) (w h x y : Nat) : Prop :=
  1 ≤ x ∧ x + 1 < w ∧ 1 ≤ y ∧ y + 1 < h ∧
    ∀ x' y', x ≤ x' + 1 → x' ≤ x + 1 → y ≤ y' + 1 → y' ≤ y + 1 → (x', y') ≠ (x, y) → f x' y' < f x y

/-- The pixel at `x`, `y` and all points at a distance of at most `r` in each direction are in an image of this size,
with a margin of half a pixel on the left and top and of one and a half on the right and bottom. -/
def InsideBy (w h x y : Nat) (r : ℝ) : Prop :=
  (1 / 2 : ℝ) ≤ x - r ∧ (x : ℝ) + r < w - 3 / 2 ∧ (1 / 2 : ℝ) ≤ y - r ∧ (y : ℝ) + r < h - 3 / 2

/-- The keypoint was found at pixel `x`, `y` of the level. The pixels of the level are squares of `2 ^ octave` pixels
of the image; the keypoint is in the middle of one of them. -/
structure FoundAt (threshold derivativeFactor : ℝ) (levels : List DetLevel) (k : KeyPoint) (l : DetLevel) (x y : Nat) :
    Prop where
  level : levels[k.classId]? = some l
  octave : k.octave = l.octave
  size : k.size = l.esigma * derivativeFactor
  peak : ∃ f, l.ldet.Shows l.ldet.w l.ldet.h f ∧ IsPeak f l.ldet.w l.ldet.h x y ∧ threshold < f x y ∧
    k.response = |f x y|
  inside : InsideBy l.ldet.w l.ldet.h x y (10 * √2 * ⌊k.size / 2 ^ l.octave + 1 / 2⌋)
  atX : k.x = x * 2 ^ l.octave + (2 ^ l.octave - 1) / 2
  atY : k.y = y * 2 ^ l.octave + (2 ^ l.octave - 1) / 2
  angle : k.angle = 0

/-- The square of the distance of two keypoints. -/
def placeSqDist (k p : KeyPoint) : ℝ := (k.x - p.x) ^ 2 + (k.y - p.y) ^ 2

/-- The square of the distance from the top left pixel of the square of pixels that `k` stands for. -/
noncomputable def cornerDist (k p : KeyPoint) : ℝ :=
  (k.x - (2 ^ k.octave - 1) / 2 - p.x) ^ 2 + (k.y - (2 ^ k.octave - 1) / 2 - p.y) ^ 2

/-- Keypoints of the same or neighbouring levels that may suppress each other. When `k` is found it is its top left
pixel that is compared with keypoints of its level and the one below. -/
def Near (k p : KeyPoint) : Prop :=
  ((k.classId = p.classId ∨ k.classId = p.classId + 1) ∧ cornerDist k p ≤ k.size ^ 2) ∨
  ((p.classId = k.classId ∨ p.classId = k.classId + 1) ∧ cornerDist p k ≤ p.size ^ 2) ∨
  (p.classId = k.classId + 1 ∧ placeSqDist k p ≤ k.size ^ 2)

end Verif.Akaze
