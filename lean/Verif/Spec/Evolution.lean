import Verif.Model.Evolution

/-!
# Specification: the levels of the scale space
-/

namespace Verif.Akaze

/-- Both sides of a `w` by `h` image have at least `n` pixels after `o` halvings. -/
def AtLeast (w h n o : Nat) : Prop := n * 2 ^ o ≤ w ∧ n * 2 ^ o ≤ h

/-- `full` octaves with all sublevels and after them `extra` octaves (none or one) with one: of the first `maxOctave`
octaves those where both sides keep 80 pixels are full, and the one after them counts if both sides keep 40. -/
structure Octaves (maxOctave w h full extra : Nat) : Prop where
  le : full ≤ maxOctave
  all : ∀ o < full, AtLeast w h 80 o
  next : full < maxOctave → ¬ AtLeast w h 80 full
  one : extra = 1 ↔ full < maxOctave ∧ AtLeast w h 40 full
  atMost : extra ≤ 1

/-- The scale of level number `i`: the base scale is doubled every `numSublevels` levels, evenly. -/
noncomputable def scaleOf (c : Config) (i : Nat) : ℝ := c.baseScale * (2 : ℝ) ^ ((i : ℝ) / c.numSublevels)

/-- The time step up to the first level after the base. -/
noncomputable def firstTime (c : Config) : ℝ := c.baseScale ^ 2 / 2 * ((4 : ℝ) ^ (1 / (c.numSublevels : ℝ)) - 1)

/-- The sum of the squared distances of the pixels from `v`. -/
noncomputable def spread (i : Img ℝ) (v : ℝ) : ℝ := (i.data.map (fun p => (p - v) ^ 2)).sum

end Verif.Akaze
