import Mathlib.Analysis.Real.Sqrt

/-!
# Specification: gradients of an image
-/

namespace Verif.Akaze

/-- The pixel is not at the border. -/
def Inside (w h x y : Nat) : Prop := 1 ≤ x ∧ x + 1 < w ∧ 1 ≤ y ∧ y + 1 < h

instance (w h x y : Nat) : Decidable (Inside w h x y) := by unfold Inside; infer_instance

/-- The length of the gradient. -/
noncomputable def gradient (fx fy : Nat → Nat → ℝ) (x y : Nat) : ℝ := Real.sqrt (fx x y ^ 2 + fy x y ^ 2)

open Classical in
/-- How many pixels inside have a property. -/
noncomputable def countInside (w h : Nat) (P : Nat → Nat → Prop) : Nat :=
  ((Finset.range w ×ˢ Finset.range h).filter (fun p => Inside w h p.1 p.2 ∧ P p.1 p.2)).card

end Verif.Akaze
