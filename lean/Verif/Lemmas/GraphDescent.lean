import Mathlib.Data.Real.Basic
import Mathlib.Algebra.BigOperators.Group.List.Basic
import Mathlib.Algebra.Order.BigOperators.Group.List
import Mathlib.Tactic.Linarith
import Mathlib.Tactic.Ring
import Mathlib.Logic.Function.Iterate
import Mathlib.Tactic.LinearCombination
import Mathlib.Tactic.FieldSimp
import Mathlib.Tactic.Positivity

/-! Helper lemmas: descent on a graph whose edges ask for differences. An edge `(v, o, d)` asks for `x v = x o + d`; the
graph contains every edge also in the other direction. -/

namespace Verif.Graph

abbrev Edges := List (Nat × Nat × ℝ)

/-- What an edge asks for less what there is. -/
def res (x : Nat → ℝ) (e : Nat × Nat × ℝ) : ℝ := x e.2.1 + e.2.2 - x e.1

/-- The sum over the edges into a vertex. -/
def pull (es : Edges) (x : Nat → ℝ) (v : Nat) : ℝ := ((es.filter (fun e => e.1 == v)).map (res x)).sum

/-- The sum of the squared residuals. -/
def energy (es : Edges) (x : Nat → ℝ) : ℝ := (es.map (fun e => res x e * res x e)).sum

/-- One step. -/
def descend (r : ℝ) (es : Edges) (x : Nat → ℝ) (v : Nat) : ℝ := x v + r * pull es x v

/-- The sum over the vertices. -/
def over (vs : List Nat) (f : Nat → ℝ) : ℝ := (vs.map f).sum

/-- The edge in the other direction. -/
def flip (e : Nat × Nat × ℝ) : Nat × Nat × ℝ := (e.2.1, e.1, -e.2.2)

/-- The number of edges into a vertex. -/
def degree (es : Edges) (v : Nat) : Nat := (es.filter (fun e => e.1 == v)).length

theorem sum_map_add {α : Type} (l : List α) (f g : α → ℝ) :
    (l.map (fun a => f a + g a)).sum = (l.map f).sum + (l.map g).sum := by
  induction l with
  | nil => simp
  | cons a l ih => simp only [List.map_cons, List.sum_cons, ih]; ring

theorem sum_map_mul {α : Type} (l : List α) (c : ℝ) (f : α → ℝ) :
    (l.map (fun a => c * f a)).sum = c * (l.map f).sum := by
  induction l with
  | nil => simp
  | cons a l ih => simp only [List.map_cons, List.sum_cons, ih]; ring

theorem sum_map_le {α : Type} (l : List α) (f g : α → ℝ) (h : ∀ a ∈ l, f a ≤ g a) :
    (l.map f).sum ≤ (l.map g).sum := by
  induction l with
  | nil => simp
  | cons a l ih =>
    simp only [List.map_cons, List.sum_cons]
    have h1 := h a (by simp)
    have h2 := ih (fun b hb => h b (by simp [hb]))
    linarith

theorem sum_map_nonneg {α : Type} (l : List α) (f : α → ℝ) (h : ∀ a ∈ l, 0 ≤ f a) : 0 ≤ (l.map f).sum := by
  have := sum_map_le l (fun _ => 0) f h
  simpa using this

theorem over_single {vs : List Nat} (hn : vs.Nodup) {k : Nat} (hk : k ∈ vs) (c : ℝ) :
    over vs (fun v => if k = v then c else 0) = c := by
  unfold over
  induction vs with
  | nil => cases hk
  | cons a vs ih =>
    rw [List.nodup_cons] at hn
    rw [List.map_cons, List.sum_cons]
    rcases List.mem_cons.mp hk with rfl | hk'
    · have : (vs.map (fun v => if k = v then c else 0)).sum = 0 := by
        have h0 : vs.map (fun v => if k = v then c else 0) = vs.map (fun _ => (0 : ℝ)) := by
          apply List.map_congr_left
          intro v hv
          rw [if_neg]
          rintro rfl
          exact hn.1 hv
        rw [h0]
        simp
      rw [this]
      simp
    · rw [ih hn.2 hk', if_neg]
      · simp
      · rintro rfl
        exact hn.1 hk'

/-- Summing over the edges vertex by vertex. -/
theorem over_filter {vs : List Nat} (hn : vs.Nodup) (es : Edges) (hv : ∀ e ∈ es, e.1 ∈ vs) (y : Nat → ℝ)
    (g : Nat × Nat × ℝ → ℝ) :
    over vs (fun v => y v * ((es.filter (fun e => e.1 == v)).map g).sum) = (es.map (fun e => y e.1 * g e)).sum := by
  induction es with
  | nil =>
    unfold over
    simp
  | cons e es ih =>
    rw [List.map_cons, List.sum_cons, ← ih (fun e' he' => hv e' (by simp [he']))]
    rw [← over_single hn (hv e (by simp)) (y e.1 * g e)]
    unfold over
    rw [← sum_map_add]
    congr 1
    apply List.map_congr_left
    intro v _
    by_cases h : e.1 = v
    · rw [List.filter_cons_of_pos (by simp [h]), if_pos h, List.map_cons, List.sum_cons, h]
      ring
    · rw [List.filter_cons_of_neg (by simp [h]), if_neg h]
      ring

section
variable {vs : List Nat} (hn : vs.Nodup) {es : Edges} (hv : ∀ e ∈ es, e.1 ∈ vs) (hs : (es.map flip).Perm es)
include hs

theorem sum_flip (f : Nat × Nat × ℝ → ℝ) : (es.map (fun e => f (flip e))).sum = (es.map f).sum := by
  have h := (hs.map f).sum_eq
  rw [List.map_map] at h
  exact h

include hn hv

/-- The pull against a displacement. -/
theorem over_pull (x y : Nat → ℝ) :
    over vs (fun v => y v * pull es x v) = (es.map (fun e => (y e.1 - y e.2.1) * res x e)).sum / 2 := by
  unfold pull
  rw [over_filter hn es hv]
  have h := sum_flip hs (fun e => y e.1 * res x e)
  have h2 : (es.map (fun e => (y e.1 - y e.2.1) * res x e)).sum =
      (es.map (fun e => y e.1 * res x e)).sum + (es.map (fun e => y (flip e).1 * res x (flip e))).sum := by
    rw [← sum_map_add]
    congr 1
    apply List.map_congr_left
    intro e _
    unfold res flip
    ring
  rw [h2, h]
  ring

/-- The energy after a displacement. -/
theorem energy_add (x y : Nat → ℝ) : energy es (fun v => x v + y v) =
    energy es x - 4 * over vs (fun v => y v * pull es x v) +
      (es.map (fun e => (y e.1 - y e.2.1) * (y e.1 - y e.2.1))).sum := by
  rw [over_pull hn hv hs]
  have e0 : energy es x - 4 * ((es.map (fun e => (y e.1 - y e.2.1) * res x e)).sum / 2) =
      energy es x + (es.map (fun e => -2 * ((y e.1 - y e.2.1) * res x e))).sum := by
    rw [sum_map_mul]; ring
  rw [e0]
  unfold energy
  rw [← sum_map_add, ← sum_map_add]
  congr 1
  apply List.map_congr_left
  intro e _
  unfold res
  ring

theorem sum_differences_le {D : ℝ} (hD : ∀ v ∈ vs, (degree es v : ℝ) ≤ D) (y : Nat → ℝ) :
    (es.map (fun e => (y e.1 - y e.2.1) * (y e.1 - y e.2.1))).sum ≤ 4 * D * over vs (fun v => y v * y v) := by
  have h1 : (es.map (fun e => (y e.1 - y e.2.1) * (y e.1 - y e.2.1))).sum ≤
      (es.map (fun e => 2 * (y e.1 * y e.1) + 2 * (y (flip e).1 * y (flip e).1))).sum := by
    apply sum_map_le
    intro e _
    show _ ≤ 2 * (y e.1 * y e.1) + 2 * (y e.2.1 * y e.2.1)
    nlinarith [sq_nonneg (y e.1 + y e.2.1)]
  rw [sum_map_add, sum_flip hs (fun e => 2 * (y e.1 * y e.1)), sum_map_mul] at h1
  have h2 : (es.map (fun e => y e.1 * y e.1)).sum = over vs (fun v => y v * y v * degree es v) := by
    have h3 := over_filter hn es hv (fun v => y v * y v) (fun _ => 1)
    have h4 : (es.map (fun e => y e.1 * y e.1 * 1)) = es.map (fun e => y e.1 * y e.1) :=
      List.map_congr_left (fun e _ => mul_one _)
    rw [h4] at h3
    rw [← h3]
    unfold over
    congr 1
    apply List.map_congr_left
    intro v _
    unfold degree
    rw [List.map_const', List.sum_replicate, nsmul_eq_mul, mul_one]
  have h5 : over vs (fun v => y v * y v * degree es v) ≤ D * over vs (fun v => y v * y v) := by
    unfold over
    rw [← sum_map_mul]
    apply sum_map_le
    intro v hvs
    have := hD v hvs
    nlinarith [mul_self_nonneg (y v)]
  rw [h2] at h1
  linarith

/-- The pulls cancel. -/
theorem over_pull_zero (x : Nat → ℝ) : over vs (pull es x) = 0 := by
  have h := over_pull hn hv hs x (fun _ => 1)
  have h0 : (es.map (fun e => ((1 : ℝ) - 1) * res x e)).sum = 0 := by
    rw [show (fun e => ((1 : ℝ) - 1) * res x e) = fun _ => (0 : ℝ) by funext e; ring]
    simp
  rw [h0] at h
  simpa using h

/-- A step keeps the sum over the vertices. -/
theorem over_descend (r : ℝ) (x : Nat → ℝ) : over vs (descend r es x) = over vs x := by
  have h : over vs (descend r es x) = over vs x + r * over vs (pull es x) := by
    unfold over descend
    rw [sum_map_add, sum_map_mul]
  rw [h, over_pull_zero hn hv hs]
  ring

theorem energy_descend {D : ℝ} (r : ℝ) (hD : ∀ v ∈ vs, (degree es v : ℝ) ≤ D) (x : Nat → ℝ) :
    energy es (descend r es x) ≤ energy es x - 4 * r * (1 - r * D) * over vs (fun v => pull es x v * pull es x v) := by
  have h1 := energy_add hn hv hs x (fun v => r * pull es x v)
  have h2 := sum_differences_le hn hv hs hD (fun v => r * pull es x v)
  have e1 : over vs (fun v => r * pull es x v * pull es x v) = r * over vs (fun v => pull es x v * pull es x v) := by
    unfold over
    rw [← sum_map_mul]
    congr 1
    apply List.map_congr_left
    intro v _
    ring
  have e2 : over vs (fun v => r * pull es x v * (r * pull es x v)) =
      r * r * over vs (fun v => pull es x v * pull es x v) := by
    unfold over
    rw [← sum_map_mul]
    congr 1
    apply List.map_congr_left
    intro v _
    ring
  rw [e1] at h1
  rw [e2] at h2
  have h3 : energy es (descend r es x) = energy es (fun v => x v + r * pull es x v) := rfl
  rw [h3, h1]
  nlinarith

theorem energy_convex (x z : Nat → ℝ) :
    energy es x - energy es z ≤ 4 * over vs (fun v => (z v - x v) * pull es x v) := by
  have h1 := energy_add hn hv hs x (fun v => z v - x v)
  have h2 : (fun v => x v + (z v - x v)) = z := by funext v; ring
  rw [h2] at h1
  have h3 : 0 ≤ (es.map (fun e => (z e.1 - x e.1 - (z e.2.1 - x e.2.1)) * (z e.1 - x e.1 - (z e.2.1 - x e.2.1)))).sum :=
    sum_map_nonneg _ _ (fun e _ => mul_self_nonneg _)
  linarith

/-- One step brings the vertices closer to any better arrangement. -/
theorem step_closer {D r : ℝ} (hD : ∀ v ∈ vs, (degree es v : ℝ) ≤ D) (hr : 0 ≤ r) (hrD : 2 * (r * D) ≤ 1)
    (x z : Nat → ℝ) :
    r / 2 * (energy es (descend r es x) - energy es z) ≤
      over vs (fun v => (x v - z v) * (x v - z v)) -
        over vs (fun v => (descend r es x v - z v) * (descend r es x v - z v)) := by
  have h1 := energy_descend hn hv hs r hD x
  have h2 := energy_convex hn hv hs x z
  have hG : 0 ≤ over vs (fun v => pull es x v * pull es x v) := sum_map_nonneg _ _ (fun v _ => mul_self_nonneg _)
  have e1 : over vs (fun v => (descend r es x v - z v) * (descend r es x v - z v)) =
      over vs (fun v => (x v - z v) * (x v - z v)) - 2 * r * over vs (fun v => (z v - x v) * pull es x v) +
        r * r * over vs (fun v => pull es x v * pull es x v) := by
    unfold over
    have : over vs (fun v => (x v - z v) * (x v - z v)) - 2 * r * over vs (fun v => (z v - x v) * pull es x v) =
        over vs (fun v => (x v - z v) * (x v - z v)) + over vs (fun v => -2 * r * ((z v - x v) * pull es x v)) := by
      unfold over
      rw [sum_map_mul]
      ring
    unfold over at this
    rw [this, ← sum_map_mul, ← sum_map_add, ← sum_map_add]
    congr 1
    apply List.map_congr_left
    intro v _
    unfold descend
    ring
  rw [e1]
  generalize over vs (fun v => pull es x v * pull es x v) = G at *
  generalize over vs (fun v => (z v - x v) * pull es x v) = H at *
  have h3 : energy es (descend r es x) ≤ energy es x - 2 * r * G := by
    have : 0 ≤ r * G * (1 - 2 * (r * D)) := mul_nonneg (mul_nonneg hr hG) (by linarith)
    nlinarith
  have h4 := mul_le_mul_of_nonneg_left h3 (show 0 ≤ r / 2 by linarith)
  have h5 := mul_le_mul_of_nonneg_left h2 (show 0 ≤ r / 2 by linarith)
  nlinarith

theorem energy_antitone {D r : ℝ} (hD : ∀ v ∈ vs, (degree es v : ℝ) ≤ D) (hr : 0 ≤ r) (hrD : r * D ≤ 1) (x : Nat → ℝ) :
    energy es (descend r es x) ≤ energy es x := by
  have h1 := energy_descend hn hv hs r hD x
  have hG : 0 ≤ over vs (fun v => pull es x v * pull es x v) := sum_map_nonneg _ _ (fun v _ => mul_self_nonneg _)
  have : 0 ≤ r * (1 - r * D) * over vs (fun v => pull es x v * pull es x v) :=
    mul_nonneg (mul_nonneg hr (by linarith)) hG
  linarith

/-- After `n` steps the energy exceeds that of any other arrangement by at most a multiple of `1 / n`. -/
theorem energy_iterate {D r : ℝ} (hD : ∀ v ∈ vs, (degree es v : ℝ) ≤ D) (hr : 0 ≤ r) (hrD : 2 * (r * D) ≤ 1)
    (z : Nat → ℝ) (n : Nat) (x : Nat → ℝ) :
    n * (r / 2) * (energy es ((descend r es)^[n] x) - energy es z) ≤
      over vs (fun v => (x v - z v) * (x v - z v)) -
        over vs (fun v => ((descend r es)^[n] x v - z v) * ((descend r es)^[n] x v - z v)) := by
  induction n with
  | zero => simp
  | succ n ih =>
    rw [Function.iterate_succ_apply']
    have h1 := step_closer hn hv hs hD hr hrD ((descend r es)^[n] x) z
    have h2 := energy_antitone hn hv hs hD hr (by nlinarith [show 0 ≤ 1 - 2 * (r * D) by linarith]) ((descend r es)^[n] x)
    have h3 := mul_le_mul_of_nonneg_left h2 (show 0 ≤ n * (r / 2) by positivity)
    push_cast
    nlinarith

end

end Verif.Graph
