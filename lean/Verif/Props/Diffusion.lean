import Verif.Lemmas.Diffusion
import Mathlib.Algebra.Order.Field.Basic
import Mathlib.Tactic.NormNum

/-!
# C26, C27: diffusion conserves intensity and obeys the maximum principle
-/

namespace Verif.Akaze

variable {K : Type _} [Field K]

/-- Diffusion steps never fail on images of the same, non-zero size. -/
theorem diffuse_shows {w h : Nat} {c : Nat → Nat → K} {flow : Img K} (hc : flow.Shows w h c) (hw : 0 < w)
    (hh : 0 < h) (P : (Nat → Nat → K) → Prop)
    (hP : ∀ f s, P f → P (stepPixel s w h f c)) : ∀ (steps : List K) {lt : Img K} {f : Nat → Nat → K},
      lt.Shows w h f → P f → ∃ out f', diffuse lt flow steps = some out ∧ out.Shows w h f' ∧ P f' := by
  intro steps
  induction steps with
  | nil => intro lt f hl hf; exact ⟨lt, f, rfl, hl, hf⟩
  | cons s steps ih =>
    intro lt f hl hf
    obtain ⟨o, e, so⟩ := step_shows hl hc hw hh s
    obtain ⟨out, f', e', s', p'⟩ := ih so (hP f s hf)
    refine ⟨out, f', ?_, s', p'⟩
    rw [diffuse, e]
    exact e'

theorem step_sum (s : K) (w h : Nat) (f c : Nat → Nat → K) :
    ∑ y ∈ Finset.range h, ∑ x ∈ Finset.range w, stepPixel s w h f c x y =
      ∑ y ∈ Finset.range h, ∑ x ∈ Finset.range w, f x y := by
  have e : ∀ x y, stepPixel s w h f c x y = f x y +
      (flowFwd s w (fun x => f x y) (fun x => c x y) x - flowBack s (fun x => f x y) (fun x => c x y) x) +
      (flowFwd s h (f x) (c x) y - flowBack s (f x) (c x) y) := by
    intro x y; unfold stepPixel; ring
  simp only [e, Finset.sum_add_distrib, line_flow, add_zero]
  rw [Finset.sum_comm (f := fun y x => flowFwd s h (f x) (c x) y - flowBack s (f x) (c x) y)]
  simp only [line_flow, Finset.sum_const_zero, add_zero]

/-- **C26.** One step of diffusion, with any conductivities and step size, succeeds on images of the same size
from 1x1 on, keeps the size, and keeps the sum of all pixels. -/
theorem C26_step {lt flow : Img K} (hl : lt.WF) (hf : flow.WF) (hw : flow.w = lt.w) (hh : flow.h = lt.h)
    (hw0 : 0 < lt.w) (hh0 : 0 < lt.h) (s : K) : ∃ out, calculateStep lt flow s = some out ∧ out.w = lt.w ∧
      out.h = lt.h ∧ out.WF ∧ out.data.sum = lt.data.sum := by
  let _ : Inhabited K := ⟨0⟩
  have h1 := hl.exists_shows
  have h2 := hf.exists_shows
  rw [hw, hh] at h2
  obtain ⟨out, e, so⟩ := step_shows h1 h2 hw0 hh0 s
  exact ⟨out, e, so.1, so.2.1, so.2.2.1, by rw [shows_sum so, shows_sum h1, step_sum]⟩

/-- **C26, any number of steps.** -/
theorem C26_steps {lt flow : Img K} (hl : lt.WF) (hf : flow.WF) (hw : flow.w = lt.w) (hh : flow.h = lt.h)
    (hw0 : 0 < lt.w) (hh0 : 0 < lt.h) (steps : List K) : ∃ out, diffuse lt flow steps = some out ∧ out.w = lt.w ∧
      out.h = lt.h ∧ out.WF ∧ out.data.sum = lt.data.sum := by
  let _ : Inhabited K := ⟨0⟩
  have h1 := hl.exists_shows
  have h2 := hf.exists_shows
  rw [hw, hh] at h2
  obtain ⟨out, f', e, so, p⟩ := diffuse_shows h2 hw0 hh0
    (fun f => ∑ y ∈ Finset.range lt.h, ∑ x ∈ Finset.range lt.w, f x y = lt.data.sum)
    (fun f s hf => by rw [step_sum]; exact hf) steps h1 (shows_sum h1).symm
  exact ⟨out, e, so.1, so.2.1, so.2.2.1, by rw [shows_sum so]; exact p⟩

/-- **C26, when a step fails.** -/
theorem C26_fails {lt flow : Img K} (hl : lt.WF) (hf : flow.WF) (s : K) : calculateStep lt flow s = none ↔
    lt.w = 0 ∨ lt.h = 0 ∨ flow.w ≠ lt.w ∨ flow.h ≠ lt.h := by
  constructor
  · intro h
    by_contra hc
    push Not at hc
    obtain ⟨out, e, _⟩ := C26_step hl hf hc.2.2.1 hc.2.2.2 (Nat.pos_of_ne_zero hc.1)
      (Nat.pos_of_ne_zero hc.2.1) s
    rw [h] at e; cases e
  · intro h
    unfold calculateStep
    by_cases h0 : lt.w = 0 ∨ lt.h = 0
    · rw [if_pos h0]
    · rw [if_neg h0, if_pos]
      push Not at h0
      rcases h with h | h | h | h
      · exact absurd h h0.1
      · exact absurd h h0.2
      · exact Or.inl h
      · exact Or.inr h

/-- A flat image stays as it is. -/
theorem C26_flat {lt flow : Img K} {w h : Nat} {v : K} {c : Nat → Nat → K} (hl : lt.Shows w h (fun _ _ => v))
    (hc : flow.Shows w h c) (hw : 0 < w) (hh : 0 < h) (s : K) : calculateStep lt flow s = some lt := by
  obtain ⟨out, e, so⟩ := step_shows hl hc hw hh s
  rw [e]
  congr 1
  refine so.unique ?_
  convert hl using 3
  simp [stepPixel, flowFwd, flowBack, flowBetween]

section

variable [LinearOrder K] [IsStrictOrderedRing K]

theorem flow_bounds {s ca cb a b lo hi : K} (hs : 0 ≤ s) (hs' : s ≤ 1 / 4) (ha : 0 ≤ ca ∧ ca ≤ 1)
    (hb : 0 ≤ cb ∧ cb ≤ 1) (hlo : lo ≤ a ∧ lo ≤ b) (hhi : a ≤ hi ∧ b ≤ hi) :
    1 / 4 * (lo - a) ≤ flowBetween s a b ca cb ∧ flowBetween s a b ca cb ≤ 1 / 4 * (hi - a) := by
  have hg0 : 0 ≤ 1 / 2 * s * (ca + cb) := by
    have := add_nonneg ha.1 hb.1
    positivity
  have hg1 : 1 / 2 * s * (ca + cb) ≤ 1 / 4 := by
    have : s * (ca + cb) ≤ 1 / 4 * 2 :=
      mul_le_mul hs' (by linarith [ha.2, hb.2]) (add_nonneg ha.1 hb.1) (by norm_num)
    linarith
  unfold flowBetween
  generalize 1 / 2 * s * (ca + cb) = g at *
  constructor
  · have h1 : g * (lo - a) ≤ g * (b - a) := mul_le_mul_of_nonneg_left (by linarith [hlo.2]) hg0
    have h2 : 1 / 4 * (lo - a) ≤ g * (lo - a) :=
      mul_le_mul_of_nonpos_right hg1 (by linarith [hlo.1])
    linarith
  · have h1 : g * (b - a) ≤ g * (hi - a) := mul_le_mul_of_nonneg_left (by linarith [hhi.2]) hg0
    have h2 : g * (hi - a) ≤ 1 / 4 * (hi - a) := mul_le_mul_of_nonneg_right hg1 (by linarith [hhi.1])
    linarith

theorem flowBetween_swap (s a b ca cb : K) : flowBetween s a b ca cb = -flowBetween s b a cb ca := by
  unfold flowBetween; ring

theorem line_bounds {s : K} (hs : 0 ≤ s) (hs' : s ≤ 1 / 4) {n : Nat} {f c : Nat → K} {lo hi : K}
    (hc : ∀ x, x < n → 0 ≤ c x ∧ c x ≤ 1) (hf : ∀ x, x < n → lo ≤ f x ∧ f x ≤ hi) {x : Nat} (hx : x < n) :
    (1 / 4 * (lo - f x) ≤ flowFwd s n f c x ∧ flowFwd s n f c x ≤ 1 / 4 * (hi - f x)) ∧
      (1 / 4 * (lo - f x) ≤ -flowBack s f c x ∧ -flowBack s f c x ≤ 1 / 4 * (hi - f x)) := by
  have h0 : 1 / 4 * (lo - f x) ≤ 0 ∧ 0 ≤ 1 / 4 * (hi - f x) := by
    have := hf x hx
    constructor <;> linarith [this.1, this.2]
  constructor
  · unfold flowFwd
    split
    · rename_i h
      exact flow_bounds hs hs' (hc x hx) (hc _ h) ⟨(hf x hx).1, (hf _ h).1⟩ ⟨(hf x hx).2, (hf _ h).2⟩
    · exact h0
  · unfold flowBack
    split
    · rename_i h
      rw [flowBetween_swap, neg_neg]
      exact flow_bounds hs hs' (hc x hx) (hc _ (by omega)) ⟨(hf x hx).1, (hf _ (by omega)).1⟩
        ⟨(hf x hx).2, (hf _ (by omega)).2⟩
    · rw [neg_zero]; exact h0

theorem step_bounds {s : K} (hs : 0 ≤ s) (hs' : s ≤ 1 / 4) {w h : Nat} {f c : Nat → Nat → K} {lo hi : K}
    (hc : ∀ x y, x < w → y < h → 0 ≤ c x y ∧ c x y ≤ 1)
    (hf : ∀ x y, x < w → y < h → lo ≤ f x y ∧ f x y ≤ hi) :
    ∀ x y, x < w → y < h → lo ≤ stepPixel s w h f c x y ∧ stepPixel s w h f c x y ≤ hi := by
  intro x y hx hy
  obtain ⟨⟨a1, a2⟩, b1, b2⟩ := line_bounds hs hs' (n := w) (f := fun x => f x y) (c := fun x => c x y)
    (fun x hx => hc x y hx hy) (fun x hx => hf x y hx hy) hx
  obtain ⟨⟨c1, c2⟩, d1, d2⟩ := line_bounds hs hs' (n := h) (f := f x) (c := c x)
    (fun y hy => hc x y hx hy) (fun y hy => hf x y hx hy) hy
  unfold stepPixel
  constructor <;> linarith

/-- **C27.** With conductivities between 0 and 1, any number of steps each at most a quarter keep all pixels
between the least and the greatest of the image they started from. -/
theorem C27_maximum {lt flow : Img K} {w h : Nat} {f c : Nat → Nat → K} (hl : lt.Shows w h f)
    (hc : flow.Shows w h c) (hw : 0 < w) (hh : 0 < h) {lo hi : K}
    (hcond : ∀ x y, x < w → y < h → 0 ≤ c x y ∧ c x y ≤ 1)
    (hf : ∀ x y, x < w → y < h → lo ≤ f x y ∧ f x y ≤ hi) :
    ∀ (steps : List K), (∀ s ∈ steps, 0 ≤ s ∧ s ≤ 1 / 4) → ∃ out f', diffuse lt flow steps = some out ∧
      out.Shows w h f' ∧ ∀ x y, x < w → y < h → lo ≤ f' x y ∧ f' x y ≤ hi := by
  intro steps
  induction steps generalizing lt f with
  | nil => intro _; exact ⟨lt, f, rfl, hl, hf⟩
  | cons s steps ih =>
    intro hsteps
    obtain ⟨hs, hs'⟩ := hsteps s (by simp)
    obtain ⟨o, e, so⟩ := step_shows hl hc hw hh s
    obtain ⟨out, f', e', s', p'⟩ := ih so (step_bounds hs hs' hcond hf) (fun t ht => hsteps t (by simp [ht]))
    refine ⟨out, f', ?_, s', p'⟩
    rw [diffuse, e]
    exact e'

/-- **C27 needs the limit on the step.** Above a quarter, which the fast explicit steps are made to exceed, a bright
pixel among dark ones turns darker than all of them. -/
theorem C27_large_step {s : K} (hs : 1 / 4 < s) {lt flow : Img K}
    (hl : lt.Shows 3 3 (fun x y => if x = 1 ∧ y = 1 then 1 else 0)) (hc : flow.Shows 3 3 (fun _ _ => 1)) :
    ∃ v, (calculateStep lt flow s).bind (·.get 1 1) = some v ∧ v < 0 := by
  obtain ⟨out, e, so⟩ := step_shows hl hc (by norm_num) (by norm_num) s
  refine ⟨_, by rw [e, Option.bind_some, so.2.2.2 1 1 (by norm_num) (by norm_num)], ?_⟩
  norm_num [stepPixel, flowFwd, flowBack, flowBetween]
  linarith

/-- **C27, the conductivities.** Those computed from any gradients and any non-zero contrast factor lie between 0
and 1. -/
theorem C27_conductivity {lx ly : Img K} {w h : Nat} {fx fy : Nat → Nat → K} (hx : lx.Shows w h fx)
    (hy : ly.Shows w h fy) {k : K} (hk : k ≠ 0) : ∃ flow c, pmG2 lx ly k = some flow ∧ flow.Shows w h c ∧
      ∀ x y, x < w → y < h → 0 < c x y ∧ c x y ≤ 1 ∧
        c x y = 1 / (1 + (fx x y ^ 2 + fy x y ^ 2) / k ^ 2) := by
  refine ⟨_, fun x y => 1 / (1 + 1 / (k * k) * (fx x y * fx x y + fy x y * fy x y)), ?_,
    ofFn_shows w h _, ?_⟩
  · unfold pmG2
    rw [hx.1, hx.2.1, hy.1, hy.2.1, if_neg (by simp), if_neg hk]
    refine ofFnM_eq ?_
    intro x y h1 h2
    rw [hx.2.2.2 x y h1 h2, hy.2.2.2 x y h1 h2]
    rfl
  · intro x y _ _
    have h1 : 0 ≤ 1 / (k * k) * (fx x y * fx x y + fy x y * fy x y) :=
      mul_nonneg (by have := mul_self_nonneg k; positivity)
        (add_nonneg (mul_self_nonneg _) (mul_self_nonneg _))
    refine ⟨by positivity, ?_, ?_⟩
    · rw [div_le_one (by linarith)]; linarith
    · ring

end

/-- A step on a small image of fractions: hypotheses met, intensity kept. -/
example : (calculateStep (⟨2, 2, [4, 0, 0, 0]⟩ : Img ℚ) ⟨2, 2, [1, 1, 1, 1]⟩ (1 / 4)).map (·.data) =
    some [2, 1, 1, 0] := by decide +kernel

end Verif.Akaze
