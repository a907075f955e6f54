import Verif.Lemmas.Quat
import Verif.Lemmas.GraphDescent
import Mathlib.Analysis.Real.Pi.Bounds

/-! Helper lemmas: quaternions that are turned towards each other along the edges of a graph. -/

namespace Verif.Geo.Quat

open Verif

/-! ## Numbers -/

/-- `sin x / x`. -/
noncomputable def sinc (x : ℝ) : ℝ := if x = 0 then 1 else Real.sin x / x

theorem sinc_bounds {x : ℝ} (h : 0 ≤ x) : 1 - x ^ 2 / 6 ≤ sinc x ∧ sinc x ≤ 1 := by
  unfold sinc
  by_cases h0 : x = 0
  · rw [if_pos h0, h0]; norm_num
  · have hp : 0 < x := lt_of_le_of_ne h (Ne.symm h0)
    rw [if_neg h0]
    constructor
    · rw [le_div_iff₀ hp]
      have := Real.sin_ge_sub_cube h
      nlinarith
    · rw [div_le_one hp]
      exact Real.sin_le h

theorem stretch_facts {c : ℝ} (h0 : 0 < c) (h1 : c ≤ 1) :
    stretch c * c ≤ 1 ∧ Real.arccos c ^ 2 / 2 ≤ stretch c * (1 - c) := by
  by_cases h : c = 1
  · subst h
    unfold stretch
    simp
  · have hp : 0 < Real.arccos c := Real.arccos_pos.mpr (lt_of_le_of_ne h1 h)
    have hl : Real.arccos c < Real.pi / 2 := Real.arccos_lt_pi_div_two.mpr h0
    have hc : Real.cos (Real.arccos c) = c := Real.cos_arccos (by linarith) h1
    unfold stretch
    rw [if_neg h]
    generalize Real.arccos c = θ at *
    subst hc
    have hs : 0 < Real.sin θ := Real.sin_pos_of_pos_of_lt_pi hp (by linarith [Real.pi_pos])
    constructor
    · rw [div_mul_eq_mul_div, div_le_one hs]
      have := Real.le_tan hp.le hl
      rw [Real.tan_eq_sin_div_cos, le_div_iff₀ h0] at this
      exact this
    · have hy : 0 < θ / 2 := by linarith
      have hy' : θ / 2 < Real.pi / 2 := by linarith
      have hcy : 0 < Real.cos (θ / 2) := Real.cos_pos_of_mem_Ioo ⟨by linarith, hy'⟩
      have hsy : 0 < Real.sin (θ / 2) := Real.sin_pos_of_pos_of_lt_pi hy (by linarith [Real.pi_pos])
      have t := Real.le_tan hy.le hy'
      rw [Real.tan_eq_sin_div_cos, le_div_iff₀ hcy] at t
      have e1 : Real.sin θ = 2 * Real.sin (θ / 2) * Real.cos (θ / 2) := by rw [← Real.sin_two_mul]; congr 1; ring
      have e2 : 1 - Real.cos θ = 2 * (Real.sin (θ / 2) * Real.sin (θ / 2)) := by
        have h1 : Real.cos θ = 2 * Real.cos (θ / 2) ^ 2 - 1 := by rw [← Real.cos_two_mul]; congr 1; ring
        have := sin_cos (θ / 2)
        rw [h1]
        nlinarith
      rw [e2, div_mul_eq_mul_div, le_div_iff₀ hs, e1]
      have h3 : θ ^ 2 / 2 * (2 * Real.sin (θ / 2) * Real.cos (θ / 2)) =
        2 * θ * Real.sin (θ / 2) * (θ / 2 * Real.cos (θ / 2)) := by ring
      have h4 : θ * (2 * (Real.sin (θ / 2) * Real.sin (θ / 2))) = 2 * θ * Real.sin (θ / 2) * Real.sin (θ / 2) := by ring
      rw [h3, h4]
      exact mul_le_mul_of_nonneg_left t (by positivity)

/-- The scalar part after a step is not smaller than `m`. -/
theorem number_near {m w C S K E x B : ℝ} (hm : 0 < m) (hw : m ≤ w) (hx : 0 ≤ x) (hx1 : x ≤ 1) (hE : x ^ 2 ≤ E / 2)
    (hC : C ≤ 1 / 2) (hS : m * K ≤ S) (hK : E / 2 ≤ K - C) (hB0 : 1 - x ^ 2 / 6 ≤ B) (hB1 : B ≤ 1) :
    m ≤ Real.cos x * w + B * (S - C * w) := by
  have hc := Real.one_sub_sq_div_two_le_cos (x := x)
  have hxx : x ^ 2 ≤ 1 := by nlinarith
  have hE0 : 0 ≤ E := by nlinarith [sq_nonneg x]
  have hB : 1 / 2 ≤ B := by linarith
  have hA : 0 ≤ Real.cos x - B * C := by nlinarith
  have h1 : (Real.cos x - B * C) * m ≤ (Real.cos x - B * C) * w := mul_le_mul_of_nonneg_left hw hA
  have h2 : B * (m * K) ≤ B * S := mul_le_mul_of_nonneg_left hS (by linarith)
  have h3 : 1 ≤ Real.cos x + B * (K - C) := by
    have : 1 / 2 * (E / 2) ≤ B * (K - C) := mul_le_mul hB hK (by linarith) (by linarith)
    linarith
  have h4 : m * 1 ≤ m * (Real.cos x + B * (K - C)) := mul_le_mul_of_nonneg_left h3 hm.le
  nlinarith

/-- How much the scalar part grows. -/
theorem number_growth {w G E x B : ℝ} (hw0 : 0 ≤ w) (hw1 : w ≤ 1) (hE : x ^ 2 ≤ E / 2)
    (hG : |G| ≤ Real.pi / 4) (hB0 : 1 - x ^ 2 / 6 ≤ B) (hB1 : B ≤ 1) :
    w + G - E * (1 / 4 + Real.pi / 48) ≤ Real.cos x * w + B * G := by
  have hc := Real.one_sub_sq_div_two_le_cos (x := x)
  have h1 : (1 - x ^ 2 / 2) * w ≤ Real.cos x * w := mul_le_mul_of_nonneg_right hc hw0
  have h2 : x ^ 2 * w ≤ x ^ 2 := by nlinarith [sq_nonneg x]
  have h3 : (1 - B) * |G| ≤ x ^ 2 / 6 * (Real.pi / 4) :=
    mul_le_mul (by linarith) hG (abs_nonneg _) (by nlinarith [sq_nonneg x])
  have h4 : (1 - B) * G ≤ (1 - B) * |G| := mul_le_mul_of_nonneg_left (le_abs_self G) (by linarith)
  have h5 : x ^ 2 / 6 * (Real.pi / 4) ≤ E / 2 / 6 * (Real.pi / 4) := by
    have := Real.pi_pos
    have : 0 ≤ Real.pi / 4 := by linarith
    exact mul_le_mul_of_nonneg_right (by linarith) this
  nlinarith

/-! ## Lists -/

theorem sum_sq_le {α : Type} (l : List α) (f : α → ℝ) :
    (l.map f).sum ^ 2 ≤ l.length * (l.map (fun a => f a ^ 2)).sum := by
  induction l with
  | nil => simp
  | cons a l ih =>
    simp only [List.map_cons, List.sum_cons, List.length_cons]
    push_cast
    have h0 : 0 ≤ (l.map (fun b => (f a - f b) ^ 2)).sum := Graph.sum_map_nonneg _ _ (fun _ _ => sq_nonneg _)
    have h1 : (l.map (fun b => (f a - f b) ^ 2)).sum =
        l.length * f a ^ 2 - 2 * f a * (l.map f).sum + (l.map (fun b => f b ^ 2)).sum := by
      clear ih h0
      induction l with
      | nil => simp
      | cons b l ih =>
        simp only [List.map_cons, List.sum_cons, List.length_cons, ih]
        push_cast
        ring
    nlinarith

/-- The sum of vectors. -/
def vsum (l : List (V3 ℝ)) : V3 ℝ := l.foldr V3.add V3.zero

theorem vsum_dot (l : List (V3 ℝ)) (b : V3 ℝ) : (vsum l).dot b = (l.map (fun a => a.dot b)).sum := by
  induction l with
  | nil => simp only [vsum, List.foldr_nil, List.map_nil, List.sum_nil, lin]; ring
  | cons a l ih =>
    rw [List.map_cons, List.sum_cons, ← ih]
    show (a.add (vsum l)).dot b = _
    simp only [lin]
    ring

theorem norm_add_le (a b : V3 ℝ) : (a.add b).norm ≤ a.norm + b.norm := by
  have h1 := cauchy_schwarz a b
  rw [← V3.norm_mul_self a, ← V3.norm_mul_self b] at h1
  have ha := V3.norm_nonneg a
  have hb := V3.norm_nonneg b
  have h2 : a.dot b ≤ a.norm * b.norm := by
    refine (le_abs_self _).trans (abs_le_of_sq_le_sq ?_ (mul_nonneg ha hb))
    nlinarith
  have h3 : (a.add b).norm * (a.add b).norm = a.norm * a.norm + 2 * a.dot b + b.norm * b.norm := by
    rw [V3.norm_mul_self, V3.norm_mul_self, V3.norm_mul_self]
    simp only [lin]
    ring
  have h4 := V3.norm_nonneg (a.add b)
  nlinarith

theorem vsum_norm_le (l : List (V3 ℝ)) : (vsum l).norm ≤ (l.map V3.norm).sum := by
  induction l with
  | nil => exact (V3.norm_eq_zero.mpr rfl).le
  | cons a l ih =>
    rw [List.map_cons, List.sum_cons]
    exact (norm_add_le a (vsum l)).trans (by linarith)

/-! ## One step -/

/-- The rotation vector by which a vertex is turned. -/
noncomputable def push (r : ℝ) (es : Graph.Edges) (q : Nat → Quat) (v : Nat) : V3 ℝ :=
  V3.smul (2 * r) (vsum ((es.filter (fun e => e.1 == v)).map
    (fun e => V3.smul (stretch ((q e.2.1).dot (q v))) ((q e.2.1).mul (q v).conj).v)))

/-- One step. -/
noncomputable def qstep (r : ℝ) (es : Graph.Edges) (q : Nat → Quat) (v : Nat) : Quat := (exp (push r es q v)).mul (q v)

theorem exp_mul_w (a : V3 ℝ) (q : Quat) :
    ((exp a).mul q).w = Real.cos (a.norm / 2) * q.w - sinc (a.norm / 2) * (a.dot q.v / 2) := by
  unfold exp sinc
  by_cases h : a.norm = 0
  · simp only [h, if_true, zero_div, lin]
    ring
  · have h2 : a.norm / 2 ≠ 0 := fun e => h (by linarith)
    simp only [if_neg h, if_neg h2]
    have : (V3.smul (Real.sin (a.norm / 2) / a.norm) a).dot q.v = Real.sin (a.norm / 2) / a.norm * a.dot q.v := by
      simp only [lin]; ring
    show _ * q.w - (V3.smul (Real.sin (a.norm / 2) / a.norm) a).dot q.v = _
    rw [this]
    field_simp

variable {r m : ℝ} {es : Graph.Edges} {q : Nat → Quat}

/-- All quaternions are near one. -/
structure Near (m : ℝ) (q : Nat → Quat) : Prop where
  unit : ∀ v, (q v).Unit
  near : ∀ v, m ≤ (q v).w

theorem near_dot (hm : 0 < m) (hm2 : 1 < 2 * m ^ 2) {p q : Quat} (hp : p.Unit) (hq : q.Unit) (h1 : m ≤ p.w) (h2 : m ≤ q.w) :
    0 < p.dot q ∧ p.dot q ≤ 1 := by
  have hpq := unit_w (unit_mul hp (unit_conj hq))
  rw [mul_conj_w] at hpq
  refine ⟨?_, hpq.2⟩
  have cs := cauchy_schwarz p.v q.v
  unfold Unit at hp hq
  have a1 : p.v.normSq ≤ 1 - m ^ 2 := by nlinarith
  have a2 : q.v.normSq ≤ 1 - m ^ 2 := by nlinarith
  have a3 := q.v.normSq_nonneg
  have a0 := p.v.normSq_nonneg
  have a4 : p.v.normSq * q.v.normSq ≤ (1 - m ^ 2) * (1 - m ^ 2) := mul_le_mul a1 a2 a3 (by linarith)
  have a5 : -(1 - m ^ 2) ≤ p.v.dot q.v := by
    by_contra hc
    push Not at hc
    nlinarith
  have a6 : m * m ≤ p.w * q.w := mul_le_mul h1 h2 hm.le (hm.le.trans h1)
  show 0 < p.w * q.w + p.v.dot q.v
  nlinarith

/-- How much a vertex is pushed. -/
noncomputable def gain (r : ℝ) (es : Graph.Edges) (q : Nat → Quat) (v : Nat) : ℝ :=
  r * ((es.filter (fun e => e.1 == v)).map (fun e => stretch ((q e.2.1).dot (q e.1)) *
    ((q e.2.1).w - (q e.2.1).dot (q e.1) * (q e.1).w))).sum

/-- The squared angles at a vertex. -/
noncomputable def bend (r : ℝ) (es : Graph.Edges) (q : Nat → Quat) (v : Nat) : ℝ :=
  r * ((es.filter (fun e => e.1 == v)).map (fun e => Real.arccos ((q e.2.1).dot (q e.1)) ^ 2)).sum

theorem step_w (hq : Near m q) (v : Nat) : (qstep r es q v).w =
    Real.cos ((push r es q v).norm / 2) * (q v).w + sinc ((push r es q v).norm / 2) * gain r es q v := by
  unfold qstep
  rw [exp_mul_w]
  have h : (push r es q v).dot (q v).v / 2 = -gain r es q v := by
    unfold push gain
    have h1 : ∀ (t : ℝ) (a b : V3 ℝ), (V3.smul t a).dot b = t * a.dot b := by intro t a b; simp only [lin]; ring
    rw [h1, vsum_dot, List.map_map]
    have h2 : ((es.filter (fun e => e.1 == v)).map ((fun a => a.dot (q v).v) ∘ fun e =>
        V3.smul (stretch ((q e.2.1).dot (q v))) ((q e.2.1).mul (q v).conj).v)).sum =
        -1 * ((es.filter (fun e => e.1 == v)).map (fun e => stretch ((q e.2.1).dot (q e.1)) *
          ((q e.2.1).w - (q e.2.1).dot (q e.1) * (q e.1).w))).sum := by
      rw [← Graph.sum_map_mul]
      congr 1
      apply List.map_congr_left
      intro e he
      have hev : e.1 = v := by simpa using (List.mem_filter.mp he).2
      show (V3.smul _ _).dot _ = _
      rw [h1, hev]
      have := w_quotient (q e.2.1) (hq.unit v)
      rw [show ((q e.2.1).mul (q v).conj).v.dot (q v).v = (q e.2.1).dot (q v) * (q v).w - (q e.2.1).w by linarith]
      ring
    rw [h2]
    ring
  rw [h]
  ring

theorem qstep_unit (hq : Near m q) (v : Nat) : (qstep r es q v).Unit := unit_mul (exp_unit _) (hq.unit v)

/-- What is known of the push at a vertex. -/
theorem push_facts (hm : 0 < m) (hm2 : 1 < 2 * m ^ 2) (hq : Near m q) (hr : 0 ≤ r) {v : Nat}
    (hD : 2 * (r * Graph.degree es v) ≤ 1) :
    (push r es q v).norm / 2 ≤ Real.pi / 4 ∧ ((push r es q v).norm / 2) ^ 2 ≤ bend r es q v / 2 ∧
      |gain r es q v| ≤ Real.pi / 4 := by
  have hl : ∀ e ∈ es.filter (fun e => e.1 == v), e.1 = v := fun e he => by simpa using (List.mem_filter.mp he).2
  have hdot := fun e : Nat × Nat × ℝ => near_dot hm hm2 (hq.unit e.2.1) (hq.unit e.1) (hq.near e.2.1) (hq.near e.1)
  have hang : ∀ e : Nat × Nat × ℝ, 0 ≤ Real.arccos ((q e.2.1).dot (q e.1)) ∧
      Real.arccos ((q e.2.1).dot (q e.1)) ≤ Real.pi / 2 :=
    fun e => ⟨Real.arccos_nonneg _, (Real.arccos_lt_pi_div_two.mpr (hdot e).1).le⟩
  have hp : ∀ e : Nat × Nat × ℝ, (V3.smul (stretch ((q e.2.1).dot (q e.1))) ((q e.2.1).mul (q e.1).conj).v).norm =
      Real.arccos ((q e.2.1).dot (q e.1)) := by
    intro e
    have hu := unit_mul (hq.unit e.2.1) (unit_conj (hq.unit e.1))
    rw [V3.norm_smul, abs_of_nonneg (stretch_nonneg (hdot e).1), norm_v hu, mul_conj_w, stretch_mul (hdot e).1 (hdot e).2]
  -- the sum of the angles
  obtain ⟨H, hH⟩ : ∃ H, H = ((es.filter (fun e => e.1 == v)).map (fun e => Real.arccos ((q e.2.1).dot (q e.1)))).sum := ⟨_, rfl⟩
  have hH0 : 0 ≤ H := by
    rw [hH]
    exact Graph.sum_map_nonneg _ _ (fun e _ => (hang e).1)
  have hHpi : r * H ≤ Real.pi / 4 := by
    have h1 : H ≤ Graph.degree es v * (Real.pi / 2) := by
      rw [hH]
      refine (Graph.sum_map_le _ _ (fun _ => Real.pi / 2) (fun e _ => (hang e).2)).trans ?_
      rw [List.map_const', List.sum_replicate, nsmul_eq_mul]
      exact le_refl _
    have h2 := mul_le_mul_of_nonneg_left h1 hr
    have h3 : r * (Graph.degree es v * (Real.pi / 2)) = (r * Graph.degree es v) * (Real.pi / 2) := by ring
    have := Real.pi_pos
    nlinarith
  have hHE : (r * H) ^ 2 ≤ bend r es q v / 2 := by
    have h1 := sum_sq_le (es.filter (fun e => e.1 == v)) (fun e => Real.arccos ((q e.2.1).dot (q e.1)))
    rw [← hH] at h1
    unfold bend
    have h0 : 0 ≤ ((es.filter (fun e => e.1 == v)).map (fun e => Real.arccos ((q e.2.1).dot (q e.1)) ^ 2)).sum :=
      Graph.sum_map_nonneg _ _ (fun e _ => sq_nonneg _)
    unfold Graph.degree at hD
    generalize ((es.filter (fun e => e.1 == v)).map (fun e => Real.arccos ((q e.2.1).dot (q e.1)) ^ 2)).sum = Q at *
    generalize ((es.filter (fun e => e.1 == v)).length : ℝ) = N at *
    have h2 : (r * H) ^ 2 ≤ r * r * (N * Q) := by nlinarith [mul_self_nonneg r]
    have h3 : r * r * (N * Q) = (r * N) * (r * Q) := by ring
    have h4 : (r * N) * (r * Q) ≤ 1 / 2 * (r * Q) := mul_le_mul_of_nonneg_right (by linarith) (mul_nonneg hr h0)
    linarith
  have hx : (push r es q v).norm / 2 ≤ r * H := by
    unfold push
    rw [V3.norm_smul, abs_of_nonneg (by linarith)]
    have h1 := vsum_norm_le ((es.filter (fun e => e.1 == v)).map
      (fun e => V3.smul (stretch ((q e.2.1).dot (q v))) ((q e.2.1).mul (q v).conj).v))
    rw [List.map_map] at h1
    have h2 : (es.filter (fun e => e.1 == v)).map (V3.norm ∘
        fun e => V3.smul (stretch ((q e.2.1).dot (q v))) ((q e.2.1).mul (q v).conj).v) =
        (es.filter (fun e => e.1 == v)).map (fun e => Real.arccos ((q e.2.1).dot (q e.1))) := by
      apply List.map_congr_left
      intro e he
      have := hp e
      rw [hl e he] at this
      show (V3.smul _ _).norm = _
      rw [this, hl e he]
    rw [h2, ← hH] at h1
    have := mul_le_mul_of_nonneg_left h1 hr
    linarith
  have hx0 : 0 ≤ (push r es q v).norm / 2 := by
    have := V3.norm_nonneg (push r es q v)
    linarith
  refine ⟨hx.trans hHpi, ?_, ?_⟩
  · refine le_trans ?_ hHE
    exact pow_le_pow_left₀ hx0 hx 2
  · refine le_trans ?_ hHpi
    unfold gain
    rw [abs_mul, abs_of_nonneg hr]
    apply mul_le_mul_of_nonneg_left _ hr
    rw [hH]
    have key : ∀ e : Nat × Nat × ℝ, |stretch ((q e.2.1).dot (q e.1)) * ((q e.2.1).w - (q e.2.1).dot (q e.1) * (q e.1).w)| ≤
        Real.arccos ((q e.2.1).dot (q e.1)) := by
      intro e
      have h1 := w_quotient (q e.2.1) (hq.unit e.1)
      have h2 : (q e.2.1).w - (q e.2.1).dot (q e.1) * (q e.1).w = -((q e.2.1).mul (q e.1).conj).v.dot (q e.1).v := by linarith
      have hu := unit_mul (hq.unit e.2.1) (unit_conj (hq.unit e.1))
      have hs := stretch_nonneg (hdot e).1
      have h3 := stretch_mul (hdot e).1 (hdot e).2
      have h4 := norm_v hu
      rw [mul_conj_w] at h4
      have h5 : |((q e.2.1).mul (q e.1).conj).v.dot (q e.1).v| ≤ ((q e.2.1).mul (q e.1).conj).v.norm := by
        have cs := cauchy_schwarz ((q e.2.1).mul (q e.1).conj).v (q e.1).v
        have hv : (q e.1).v.normSq ≤ 1 := by
          have := hq.unit e.1
          unfold Unit at this
          nlinarith [mul_self_nonneg (q e.1).w]
        have h0 := V3.norm_nonneg ((q e.2.1).mul (q e.1).conj).v
        apply abs_le_of_sq_le_sq _ h0
        rw [pow_two, pow_two, V3.norm_mul_self]
        have := ((q e.2.1).mul (q e.1).conj).v.normSq_nonneg
        nlinarith
      rw [h2, abs_mul, abs_of_nonneg hs, abs_neg, ← h3, ← h4]
      exact mul_le_mul_of_nonneg_left h5 hs
    have : ∀ l : List (Nat × Nat × ℝ), |(l.map (fun e => stretch ((q e.2.1).dot (q e.1)) *
        ((q e.2.1).w - (q e.2.1).dot (q e.1) * (q e.1).w))).sum| ≤
        (l.map (fun e => Real.arccos ((q e.2.1).dot (q e.1)))).sum := by
      intro l
      induction l with
      | nil => simp
      | cons e l ih =>
        simp only [List.map_cons, List.sum_cons]
        exact (abs_add_le _ _).trans (add_le_add (key e) ih)
    exact this _

/-- No quaternion gets further away from one than the furthest. -/
theorem qstep_near (hm : 0 < m) (hm2 : 1 < 2 * m ^ 2) (hq : Near m q) (hr : 0 ≤ r)
    (hD : ∀ v, 2 * (r * Graph.degree es v) ≤ 1) : Near m (qstep r es q) := by
  refine ⟨qstep_unit hq, ?_⟩
  intro v
  obtain ⟨h1, h2, _⟩ := push_facts hm hm2 hq hr (hD v)
  have hx0 : 0 ≤ (push r es q v).norm / 2 := by
    have := V3.norm_nonneg (push r es q v)
    linarith
  obtain ⟨hs0, hs1⟩ := sinc_bounds hx0
  have hdot := fun e : Nat × Nat × ℝ => near_dot hm hm2 (hq.unit e.2.1) (hq.unit e.1) (hq.near e.2.1) (hq.near e.1)
  rw [step_w hq]
  have hl : ∀ e ∈ es.filter (fun e => e.1 == v), e.1 = v := fun e he => by simpa using (List.mem_filter.mp he).2
  -- the gain, split
  obtain ⟨C, hC⟩ : ∃ C, C = r * ((es.filter (fun e => e.1 == v)).map
    (fun e => stretch ((q e.2.1).dot (q e.1)) * (q e.2.1).dot (q e.1))).sum := ⟨_, rfl⟩
  obtain ⟨S, hS⟩ : ∃ S, S = r * ((es.filter (fun e => e.1 == v)).map
    (fun e => stretch ((q e.2.1).dot (q e.1)) * (q e.2.1).w)).sum := ⟨_, rfl⟩
  obtain ⟨K, hK⟩ : ∃ K, K = r * ((es.filter (fun e => e.1 == v)).map
    (fun e => stretch ((q e.2.1).dot (q e.1)))).sum := ⟨_, rfl⟩
  have hg : gain r es q v = S - C * (q v).w := by
    rw [hS, hC]
    unfold gain
    have : ((es.filter (fun e => e.1 == v)).map (fun e => stretch ((q e.2.1).dot (q e.1)) *
        ((q e.2.1).w - (q e.2.1).dot (q e.1) * (q e.1).w))).sum =
        ((es.filter (fun e => e.1 == v)).map (fun e => stretch ((q e.2.1).dot (q e.1)) * (q e.2.1).w)).sum +
        (-(q v).w) * ((es.filter (fun e => e.1 == v)).map
          (fun e => stretch ((q e.2.1).dot (q e.1)) * (q e.2.1).dot (q e.1))).sum := by
      rw [← Graph.sum_map_mul, ← Graph.sum_map_add]
      congr 1
      apply List.map_congr_left
      intro e he
      rw [hl e he]
      ring
    rw [this]
    ring
  rw [hg]
  refine number_near (E := bend r es q v) (K := K) hm (hq.near v) hx0 ?_ h2 ?_ ?_ ?_ hs0 hs1
  · have := Real.pi_le_four
    linarith
  · rw [hC]
    have h3 : ((es.filter (fun e => e.1 == v)).map
        (fun e => stretch ((q e.2.1).dot (q e.1)) * (q e.2.1).dot (q e.1))).sum ≤ Graph.degree es v := by
      refine (Graph.sum_map_le _ _ (fun _ => 1) (fun e _ => (stretch_facts (hdot e).1 (hdot e).2).1)).trans ?_
      rw [List.map_const', List.sum_replicate, nsmul_eq_mul, mul_one]
      exact le_refl _
    have h4 := mul_le_mul_of_nonneg_left h3 hr
    have h5 := hD v
    linarith
  · rw [hK, hS, ← mul_assoc, mul_comm m r, mul_assoc]
    apply mul_le_mul_of_nonneg_left _ hr
    rw [← Graph.sum_map_mul]
    apply Graph.sum_map_le
    intro e _
    rw [mul_comm]
    exact mul_le_mul_of_nonneg_left (hq.near _) (stretch_nonneg (hdot e).1)
  · rw [hK, hC, ← mul_sub]
    unfold bend
    have h3 : ((es.filter (fun e => e.1 == v)).map (fun e => Real.arccos ((q e.2.1).dot (q e.1)) ^ 2 / 2)).sum ≤
        ((es.filter (fun e => e.1 == v)).map (fun e => stretch ((q e.2.1).dot (q e.1)) * (1 - (q e.2.1).dot (q e.1)))).sum :=
      Graph.sum_map_le _ _ _ (fun e _ => (stretch_facts (hdot e).1 (hdot e).2).2)
    have h4 : ((es.filter (fun e => e.1 == v)).map (fun e => Real.arccos ((q e.2.1).dot (q e.1)) ^ 2 / 2)).sum =
        1 / 2 * ((es.filter (fun e => e.1 == v)).map (fun e => Real.arccos ((q e.2.1).dot (q e.1)) ^ 2)).sum := by
      rw [← Graph.sum_map_mul]
      congr 1
      apply List.map_congr_left
      intro e _
      ring
    have h5 : ((es.filter (fun e => e.1 == v)).map (fun e => stretch ((q e.2.1).dot (q e.1)) * (1 - (q e.2.1).dot (q e.1)))).sum =
        ((es.filter (fun e => e.1 == v)).map (fun e => stretch ((q e.2.1).dot (q e.1)))).sum +
        -1 * ((es.filter (fun e => e.1 == v)).map
          (fun e => stretch ((q e.2.1).dot (q e.1)) * (q e.2.1).dot (q e.1))).sum := by
      rw [← Graph.sum_map_mul, ← Graph.sum_map_add]
      congr 1
      apply List.map_congr_left
      intro e _
      ring
    rw [h4, h5] at h3
    have := mul_le_mul_of_nonneg_left h3 hr
    linarith

/-- The sum of the scalar parts grows with the angles. -/
theorem qstep_growth (hm : 0 < m) (hm2 : 1 < 2 * m ^ 2) (hq : Near m q) (hr : 0 ≤ r)
    (hD : ∀ v, 2 * (r * Graph.degree es v) ≤ 1) {vs : List Nat} (hn : vs.Nodup) (hv : ∀ e ∈ es, e.1 ∈ vs)
    (hs : (es.map Graph.flip).Perm es) :
    Graph.over vs (fun v => (q v).w) + r / 32 * (es.map (fun e => Real.arccos ((q e.2.1).dot (q e.1)) ^ 2)).sum ≤
      Graph.over vs (fun v => (qstep r es q v).w) := by
  have hdot := fun e : Nat × Nat × ℝ => near_dot hm hm2 (hq.unit e.2.1) (hq.unit e.1) (hq.near e.2.1) (hq.near e.1)
  have h1 : Graph.over vs (fun v => (q v).w + gain r es q v - bend r es q v * (1 / 4 + Real.pi / 48)) ≤
      Graph.over vs (fun v => (qstep r es q v).w) := by
    apply Graph.sum_map_le
    intro v _
    obtain ⟨_, h2, h3⟩ := push_facts hm hm2 hq hr (hD v)
    have hx0 : 0 ≤ (push r es q v).norm / 2 := by
      have := V3.norm_nonneg (push r es q v)
      linarith
    obtain ⟨hs0, hs1⟩ := sinc_bounds hx0
    rw [step_w hq]
    exact number_growth (hm.le.trans (hq.near v)) (unit_w (hq.unit v)).2 h2 h3 hs0 hs1
  have h2 : Graph.over vs (fun v => (q v).w + gain r es q v - bend r es q v * (1 / 4 + Real.pi / 48)) =
      Graph.over vs (fun v => (q v).w) + Graph.over vs (gain r es q) - (1 / 4 + Real.pi / 48) * Graph.over vs (bend r es q) := by
    unfold Graph.over
    have : (vs.map (fun v => (q v).w + gain r es q v - bend r es q v * (1 / 4 + Real.pi / 48))) =
        vs.map (fun v => (q v).w + (gain r es q v + -(1 / 4 + Real.pi / 48) * bend r es q v)) := by
      apply List.map_congr_left
      intro v _
      ring
    rw [this, Graph.sum_map_add, Graph.sum_map_add, Graph.sum_map_mul]
    ring
  have hb : Graph.over vs (bend r es q) = r * (es.map (fun e => Real.arccos ((q e.2.1).dot (q e.1)) ^ 2)).sum := by
    have := Graph.over_filter hn es hv (fun _ => r) (fun e => Real.arccos ((q e.2.1).dot (q e.1)) ^ 2)
    rw [Graph.sum_map_mul] at this
    exact this
  have hg : Graph.over vs (gain r es q) = r * (es.map (fun e => stretch ((q e.2.1).dot (q e.1)) *
      ((1 - (q e.2.1).dot (q e.1)) * (q e.1).w))).sum := by
    have h3 := Graph.over_filter hn es hv (fun _ => r) (fun e => stretch ((q e.2.1).dot (q e.1)) *
      ((q e.2.1).w - (q e.2.1).dot (q e.1) * (q e.1).w))
    rw [Graph.sum_map_mul] at h3
    have h4 : Graph.over vs (gain r es q) = _ := h3
    rw [h4]
    congr 1
    have h5 := Graph.sum_flip hs (fun e => stretch ((q e.2.1).dot (q e.1)) * (q e.1).w)
    have h6 : (es.map (fun e => stretch ((q e.2.1).dot (q e.1)) * ((q e.2.1).w - (q e.2.1).dot (q e.1) * (q e.1).w))).sum =
        (es.map (fun e => stretch ((q (Graph.flip e).2.1).dot (q (Graph.flip e).1)) * (q (Graph.flip e).1).w)).sum +
        -1 * (es.map (fun e => stretch ((q e.2.1).dot (q e.1)) * ((q e.2.1).dot (q e.1) * (q e.1).w))).sum := by
      rw [← Graph.sum_map_mul, ← Graph.sum_map_add]
      congr 1
      apply List.map_congr_left
      intro e _
      show _ = stretch ((q e.1).dot (q e.2.1)) * (q e.2.1).w + _
      rw [dot_comm (q e.1)]
      ring
    rw [h6, h5, ← Graph.sum_map_mul, ← Graph.sum_map_add]
    congr 1
    apply List.map_congr_left
    intro e _
    ring
  have hge : m / 2 * (es.map (fun e => Real.arccos ((q e.2.1).dot (q e.1)) ^ 2)).sum ≤
      (es.map (fun e => stretch ((q e.2.1).dot (q e.1)) * ((1 - (q e.2.1).dot (q e.1)) * (q e.1).w))).sum := by
    rw [← Graph.sum_map_mul]
    apply Graph.sum_map_le
    intro e _
    have a1 := (stretch_facts (hdot e).1 (hdot e).2).2
    have a2 := hq.near e.1
    have a3 : 0 ≤ Real.arccos ((q e.2.1).dot (q e.1)) ^ 2 := sq_nonneg _
    have a4 := mul_le_mul a1 a2 hm.le (by linarith)
    linarith
  have h0 : 0 ≤ (es.map (fun e => Real.arccos ((q e.2.1).dot (q e.1)) ^ 2)).sum :=
    Graph.sum_map_nonneg _ _ (fun e _ => sq_nonneg _)
  have hpi : Real.pi < 3.15 := Real.pi_lt_d2
  have hm7 : 7 / 10 < m := by nlinarith
  rw [h2, hb, hg] at h1
  generalize (es.map (fun e => Real.arccos ((q e.2.1).dot (q e.1)) ^ 2)).sum = Q at *
  have a1 := mul_le_mul_of_nonneg_left hge hr
  have hrQ : 0 ≤ r * Q := mul_nonneg hr h0
  have a2 : 7 / 20 * (r * Q) ≤ r * (m / 2 * Q) := by nlinarith
  have a3 : (1 / 4 + Real.pi / 48) * (r * Q) ≤ (1 / 4 + 3.15 / 48) * (r * Q) :=
    mul_le_mul_of_nonneg_right (by linarith) hrQ
  have a4 : (7 / 20 - (1 / 4 + 3.15 / 48)) * (r * Q) ≥ 1 / 32 * (r * Q) :=
    mul_le_mul_of_nonneg_right (by norm_num) hrQ
  linarith

end Verif.Geo.Quat
