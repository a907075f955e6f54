import Verif.Model.Diffusion
import Verif.Lemmas.Image

/-!
# Lemmas about one step of diffusion
-/

namespace Verif.Akaze

variable {K : Type _} [Field K]

/-- The flow into pixel `x` of a line from the pixel after it. -/
def flowFwd (s : K) (n : Nat) (f c : Nat → K) (x : Nat) : K :=
  if x + 1 < n then flowBetween s (f x) (f (x + 1)) (c x) (c (x + 1)) else 0

/-- The flow out of pixel `x` of a line to the pixel before it. -/
def flowBack (s : K) (f c : Nat → K) (x : Nat) : K :=
  if 1 ≤ x then flowBetween s (f (x - 1)) (f x) (c (x - 1)) (c x) else 0

/-- A pixel after one step. -/
def stepPixel (s : K) (w h : Nat) (f c : Nat → Nat → K) (x y : Nat) : K :=
  f x y + flowFwd s w (fun x => f x y) (fun x => c x y) x - flowBack s (fun x => f x y) (fun x => c x y) x +
    flowFwd s h (f x) (c x) y - flowBack s (f x) (c x) y

theorem step_shows {lt flow : Img K} {w h : Nat} {f c : Nat → Nat → K} (hl : lt.Shows w h f)
    (hc : flow.Shows w h c) (hw : 0 < w) (hh : 0 < h) (s : K) :
    ∃ out, calculateStep lt flow s = some out ∧ out.Shows w h (stepPixel s w h f c) := by
  have hlg := hl.2.2.2
  have hcg := hc.2.2.2
  have e1 : horizontalFlow lt flow s = some (Img.ofFn (w - 1) h (fun x y =>
      flowBetween s (f x y) (f (x + 1) y) (c x y) (c (x + 1) y))) := by
    unfold horizontalFlow
    rw [hl.1, hl.2.1]
    refine ofFnM_eq ?_
    intro x y hx hy
    rw [hlg _ _ (by omega) hy, hlg _ _ (by omega) hy, hcg _ _ (by omega) hy, hcg _ _ (by omega) hy]
    rfl
  have s1 := ofFn_shows (w - 1) h (fun x y => flowBetween s (f x y) (f (x + 1) y) (c x y) (c (x + 1) y))
  have e2 : verticalFlow lt flow s = some (Img.ofFn w (h - 1) (fun x y =>
      flowBetween s (f x y) (f x (y + 1)) (c x y) (c x (y + 1)))) := by
    unfold verticalFlow
    rw [hl.1, hl.2.1]
    refine ofFnM_eq ?_
    intro x y hx hy
    rw [hlg _ _ hx (by omega), hlg _ _ hx (by omega), hcg _ _ hx (by omega), hcg _ _ hx (by omega)]
    rfl
  have s2 := ofFn_shows w (h - 1) (fun x y => flowBetween s (f x y) (f x (y + 1)) (c x y) (c x (y + 1)))
  generalize Img.ofFn (w - 1) h _ = hf at e1 s1
  generalize Img.ofFn w (h - 1) _ = vf at e2 s2
  -- left
  have e3 : addLeft lt hf = some (Img.ofFn w h (fun x y => f x y + flowFwd s w (fun x => f x y) (fun x => c x y) x)) := by
    unfold addLeft
    rw [hl.1, hl.2.1]
    refine ofFnM_eq ?_
    intro x y hx hy
    rw [hlg _ _ hx hy]
    simp only [Option.bind_eq_bind, Option.bind_some, flowFwd]
    split
    · rw [s1.2.2.2 _ _ (by omega) hy]; rfl
    · simp
  have s3 := ofFn_shows w h (fun x y => f x y + flowFwd s w (fun x => f x y) (fun x => c x y) x)
  generalize Img.ofFn w h _ = a at e3 s3
  -- right
  have e4 : subRight a hf = some (Img.ofFn w h (fun x y => f x y + flowFwd s w (fun x => f x y) (fun x => c x y) x -
      flowBack s (fun x => f x y) (fun x => c x y) x)) := by
    unfold subRight
    rw [s3.1, s3.2.1]
    refine ofFnM_eq ?_
    intro x y hx hy
    rw [s3.2.2.2 _ _ hx hy]
    simp only [Option.bind_eq_bind, Option.bind_some, flowBack]
    split
    · rw [s1.2.2.2 _ _ (by omega) hy]
      simp only [Option.bind_some, Nat.sub_add_cancel (show 1 ≤ x by assumption)]
      rfl
    · simp
  have s4 := ofFn_shows w h (fun x y => f x y + flowFwd s w (fun x => f x y) (fun x => c x y) x -
      flowBack s (fun x => f x y) (fun x => c x y) x)
  generalize Img.ofFn w h _ = b at e4 s4
  -- up
  have e5 : addUp b vf = some (Img.ofFn w h (fun x y => f x y + flowFwd s w (fun x => f x y) (fun x => c x y) x -
      flowBack s (fun x => f x y) (fun x => c x y) x + flowFwd s h (f x) (c x) y)) := by
    unfold addUp
    rw [s4.1, s4.2.1]
    refine ofFnM_eq ?_
    intro x y hx hy
    rw [s4.2.2.2 _ _ hx hy]
    simp only [Option.bind_eq_bind, Option.bind_some]
    rw [flowFwd.eq_def s h]
    split
    · rw [s2.2.2.2 _ _ hx (by omega)]; rfl
    · simp
  have s5 := ofFn_shows w h (fun x y => f x y + flowFwd s w (fun x => f x y) (fun x => c x y) x -
      flowBack s (fun x => f x y) (fun x => c x y) x + flowFwd s h (f x) (c x) y)
  generalize Img.ofFn w h _ = d at e5 s5
  -- down
  have e6 : subDown d vf = some (Img.ofFn w h (stepPixel s w h f c)) := by
    unfold subDown
    rw [s5.1, s5.2.1]
    refine ofFnM_eq ?_
    intro x y hx hy
    rw [s5.2.2.2 _ _ hx hy]
    simp only [Option.bind_eq_bind, Option.bind_some, stepPixel]
    rw [flowBack.eq_def s (f x)]
    split
    · rw [s2.2.2.2 _ _ hx (by omega)]
      simp only [Option.bind_some, Nat.sub_add_cancel (show 1 ≤ y by assumption)]
      rfl
    · simp
  refine ⟨_, ?_, ofFn_shows w h (stepPixel s w h f c)⟩
  unfold calculateStep
  rw [hl.1, hl.2.1, hc.1, hc.2.1, if_neg (by omega), if_neg (by simp)]
  simp only [e1, e2, e3, e4, e5, Option.bind_eq_bind, Option.bind_some]
  exact e6

theorem shows_sum {i : Img K} {w h : Nat} {f : Nat → Nat → K} (hs : i.Shows w h f) :
    i.data.sum = ∑ y ∈ Finset.range h, ∑ x ∈ Finset.range w, f x y := by
  rw [hs.unique (ofFn_shows w h f)]
  unfold Img.ofFn
  simp only [List.flatMap_def, List.sum_flatten, List.map_map]
  rw [sum_range_map]
  refine Finset.sum_congr rfl (fun y _ => ?_)
  rw [Function.comp_apply, sum_range_map]

/-- What flows along a line is lost nowhere. -/
theorem line_flow (s : K) (n : Nat) (f c : Nat → K) :
    ∑ x ∈ Finset.range n, (flowFwd s n f c x - flowBack s f c x) = 0 := by
  cases n with
  | zero => simp
  | succ n =>
    rw [Finset.sum_sub_distrib, Finset.sum_range_succ, Finset.sum_range_succ' (flowBack s f c)]
    have h1 : flowFwd s (n + 1) f c n = 0 := by unfold flowFwd; rw [if_neg (by omega)]
    have h2 : flowBack s f c 0 = 0 := by unfold flowBack; rw [if_neg (by omega)]
    rw [h1, h2, add_zero, add_zero, sub_eq_zero]
    refine Finset.sum_congr rfl (fun x hx => ?_)
    rw [Finset.mem_range] at hx
    unfold flowFwd flowBack
    rw [if_pos (by omega), if_pos (by omega), Nat.add_sub_cancel]

end Verif.Akaze
