import Verif.Lemmas.EpipolarPlane

/-!
# C56, C66: the point gradient and the iterative triangulator
-/

namespace Verif.Geo

/-- **C56** A step of rate one along the gradient of one observation puts the point on its ray, at the
nearest place; the gradient is orthogonal to the ray, its length is the distance, and it is zero
exactly on the ray. -/
theorem C56_point_gradient {r : V3 ℝ} (hr : r.normSq = 1) (c x : V3 ℝ) :
    OnLine c r (x.add (pointGradient (c.sub x) r)) ∧
    (pointGradient (c.sub x) r).dot r = 0 ∧
    (pointGradient (c.sub x) r).normSq = lineDistSq c r x ∧
    (pointGradient (c.sub x) r = V3.zero ↔ OnLine c r x) ∧
    ∀ d, lineDistSq c r x ≤ (x.sub (c.add (V3.smul d r))).normSq := by
  refine ⟨⟨-(c.sub x).dot r, ?_⟩, ?_, ?_, ⟨fun h => ?_, ?_⟩, fun d => ?_⟩
  · unfold pointGradient
    generalize (c.sub x).dot r = k
    lin3
  · unfold pointGradient
    rw [V3.sub_dot, V3.smul_dot, V3.dot_self r, hr]; ring
  · have : (pointGradient (c.sub x) r).normSq =
        lineDistSq c r x + (x.sub c).dot r * (x.sub c).dot r * (r.normSq - 1) := by
      unfold lineDistSq; simp only [lin]; ring
    rw [this, hr]; ring
  · refine ⟨-(c.sub x).dot r, ?_⟩
    have e : x = (x.add (pointGradient (c.sub x) r)).sub (pointGradient (c.sub x) r) := by lin3
    refine e.trans ?_
    rw [h]
    have e' : x.add V3.zero = x.add (pointGradient (c.sub x) r) := by rw [h]
    rw [e']
    unfold pointGradient
    generalize (c.sub x).dot r = k
    lin3
  · rintro ⟨d, rfl⟩
    have : pointGradient (c.sub (c.add (V3.smul d r))) r = V3.smul (d * (r.normSq - 1)) r := by
      ext <;> simp only [lin] <;> ring
    rw [this, hr]
    lin3
  · unfold lineDistSq
    have : (x.sub (c.add (V3.smul d r))).normSq = (x.sub c).normSq - 2 * d * (x.sub c).dot r +
        d * d * r.normSq := by simp only [lin]; ring
    rw [this, hr]
    nlinarith [mul_self_nonneg (d - (x.sub c).dot r)]

/-- The sum of the gradients. -/
theorem foldl_gradient_dot (os : List Observation) (x : V3 ℝ) (s v : V3 ℝ) :
    (os.foldl (fun s o => s.add (pointGradient (o.centre.sub x) o.ray)) s).dot v =
      s.dot v + (os.map (fun o => (pointGradient (o.centre.sub x) o.ray).dot v)).sum := by
  induction os generalizing s with
  | nil => simp
  | cons o os ih =>
    rw [List.foldl_cons, ih]
    have : (s.add (pointGradient (o.centre.sub x) o.ray)).dot v =
        s.dot v + (pointGradient (o.centre.sub x) o.ray).dot v := by
      generalize pointGradient (o.centre.sub x) o.ray = g
      simp only [lin]; ring
    rw [this, List.map_cons, List.sum_cons, add_assoc]

/-- The gradient of the sum of squared distances (up to the factor -2). -/
noncomputable def totalGradient (os : List Observation) (x : V3 ℝ) : V3 ℝ :=
  os.foldl (fun s o => s.add (pointGradient (o.centre.sub x) o.ray)) V3.zero

theorem totalGradient_dot (os : List Observation) (x v : V3 ℝ) :
    (totalGradient os x).dot v =
      (os.map (fun o => (pointGradient (o.centre.sub x) o.ray).dot v)).sum := by
  unfold totalGradient
  rw [foldl_gradient_dot]
  have : (V3.zero : V3 ℝ).dot v = 0 := by simp only [lin]; ring
  rw [this, zero_add]

/-- How the sum of squared distances changes by a step: it is a convex quadratic function. -/
theorem rayError_step {os : List Observation} (ho : ∀ o ∈ os, o.ray.normSq = 1) (x d : V3 ℝ) :
    rayError os (x.add d) = rayError os x - 2 * (totalGradient os x).dot d +
      (os.map (fun o => d.normSq - d.dot o.ray * d.dot o.ray)).sum := by
  rw [totalGradient_dot]
  unfold rayError
  induction os with
  | nil => simp
  | cons o os ih =>
    have ih := ih (fun o h => ho o (List.mem_cons_of_mem _ h))
    simp only [List.map_cons, List.sum_cons]
    rw [ih]
    have hr := ho o List.mem_cons_self
    have : lineDistSq o.centre o.ray (x.add d) = lineDistSq o.centre o.ray x -
        2 * (pointGradient (o.centre.sub x) o.ray).dot d + (d.normSq - d.dot o.ray * d.dot o.ray) := by
      generalize o.centre = c
      generalize o.ray = r
      unfold lineDistSq
      simp only [lin]; ring
    rw [this]; ring

theorem quadratic_nonneg {os : List Observation} (ho : ∀ o ∈ os, o.ray.normSq = 1) (d : V3 ℝ) :
    0 ≤ (os.map (fun o => d.normSq - d.dot o.ray * d.dot o.ray)).sum ∧
    (os.map (fun o => d.normSq - d.dot o.ray * d.dot o.ray)).sum ≤ os.length * d.normSq := by
  induction os with
  | nil => simp
  | cons o os ih =>
    obtain ⟨h1, h2⟩ := ih (fun o h => ho o (List.mem_cons_of_mem _ h))
    have hc := cauchy_schwarz d o.ray
    rw [ho o List.mem_cons_self] at hc
    simp only [List.map_cons, List.sum_cons, List.length_cons]
    push_cast
    constructor <;> nlinarith [mul_self_nonneg (d.dot o.ray)]

theorem refineDelta_eq (rate : ℝ) (os : List Observation) (x : V3 ℝ) :
    refineDelta rate os x = V3.smul (rate / os.length) (totalGradient os x) := rfl

/-- **C66** One step of the iterative triangulator lowers the sum of squared distances from the rays by
at least `rate (2 - rate) / n` times the squared gradient. -/
theorem C66_step_descends {os : List Observation} (hne : os ≠ []) (ho : ∀ o ∈ os, o.ray.normSq = 1)
    (rate : ℝ) (x : V3 ℝ) :
    rayError os (x.add (refineDelta rate os x)) ≤
      rayError os x - rate * (2 - rate) / os.length * (totalGradient os x).normSq := by
  have hn : (0 : ℝ) < os.length := by
    have := List.length_pos_iff.mpr hne
    exact_mod_cast this
  rw [rayError_step ho, refineDelta_eq]
  have e1 : (os.length : ℝ) * (V3.smul (rate / os.length) (totalGradient os x)).normSq =
      rate * rate / os.length * (totalGradient os x).normSq := by
    rw [V3.normSq_smul]; field_simp
  have h2 := (quadratic_nonneg ho (V3.smul (rate / os.length) (totalGradient os x))).2.trans_eq e1
  rw [V3.dot_smul, V3.dot_self]
  have e2 : rate * (2 - rate) / os.length * (totalGradient os x).normSq =
      2 * (rate / os.length * (totalGradient os x).normSq) -
        rate * rate / os.length * (totalGradient os x).normSq := by ring
  rw [e2]
  linarith

/-- **C66** For a rate between 0 and 2 no run of the refinement makes the sum of squared distances
from the rays larger. -/
theorem C66_refinement_never_worse {os : List Observation} (hne : os ≠ [])
    (ho : ∀ o ∈ os, o.ray.normSq = 1) {rate : ℝ} (h0 : 0 ≤ rate) (h2 : rate ≤ 2) (eps : ℝ) (n : Nat)
    (x : V3 ℝ) : rayError os (refinePoint rate eps os n x) ≤ rayError os x := by
  have hn : (0 : ℝ) < os.length := by
    have := List.length_pos_iff.mpr hne
    exact_mod_cast this
  have step : ∀ x, rayError os (x.add (refineDelta rate os x)) ≤ rayError os x := by
    intro x
    have := C66_step_descends hne ho rate x
    have hg : 0 ≤ rate * (2 - rate) / os.length * (totalGradient os x).normSq :=
      mul_nonneg (div_nonneg (mul_nonneg h0 (by linarith)) hn.le) (V3.normSq_nonneg _)
    linarith
  induction n generalizing x with
  | zero => exact le_rfl
  | succ n ih =>
    rw [refinePoint]
    split
    · split
      · exact step x
      · exact (ih _).trans (step x)
    · exact (ih _).trans (step x)

/-- **C66** The refinement rests exactly at the points with the least sum of squared distances. -/
theorem C66_rest_iff_minimum {os : List Observation} (hne : os ≠ [])
    (ho : ∀ o ∈ os, o.ray.normSq = 1) {rate : ℝ} (hr : rate ≠ 0) (x : V3 ℝ) :
    refineDelta rate os x = V3.zero ↔ ∀ y, rayError os x ≤ rayError os y := by
  have hn : (0 : ℝ) < os.length := by
    have := List.length_pos_iff.mpr hne
    exact_mod_cast this
  have hz : refineDelta rate os x = V3.zero ↔ totalGradient os x = V3.zero := by
    rw [refineDelta_eq, ← V3.norm_eq_zero, V3.norm_smul, mul_eq_zero, V3.norm_eq_zero]
    exact ⟨fun h => h.resolve_left (abs_ne_zero.mpr (div_ne_zero hr hn.ne')), Or.inr⟩
  rw [hz]
  constructor
  · intro h y
    have e : y = x.add (y.sub x) := by lin3
    rw [e, rayError_step ho, h]
    have h1 := (quadratic_nonneg ho (y.sub x)).1
    have h2 : (V3.zero : V3 ℝ).dot (y.sub x) = 0 := by simp only [lin]; ring
    rw [h2]
    linarith
  · intro h
    have h1 := C66_step_descends hne ho 1 x
    have h2 := h (x.add (refineDelta 1 os x))
    have h3 := V3.normSq_nonneg (totalGradient os x)
    have h4 : 1 * (2 - 1) / (os.length : ℝ) * (totalGradient os x).normSq ≤ 0 := by linarith
    apply V3.normSq_eq_zero.mp
    by_contra h5
    have h6 : 0 < (totalGradient os x).normSq := lt_of_le_of_ne h3 (Ne.symm h5)
    have : 0 < 1 * (2 - 1) / (os.length : ℝ) * (totalGradient os x).normSq := by positivity
    linarith

/-- **C66** A rate above 2 can make it worse: one ray, rate 3. -/
theorem C66_large_rate_diverges : ∃ (os : List Observation) (x : V3 ℝ), os ≠ [] ∧
    (∀ o ∈ os, o.ray.normSq = 1) ∧ rayError os x < rayError os (refinePoint 3 (1 / 100) os 1 x) := by
  have hc : (⟨Iso.one, ⟨0, 0, 1⟩⟩ : Observation).centre = V3.zero := by lin3
  have hr : (⟨Iso.one, ⟨0, 0, 1⟩⟩ : Observation).ray = ⟨0, 0, 1⟩ := by
    ext <;> simp only [lin] <;> norm_num
  refine ⟨[⟨Iso.one, ⟨0, 0, 1⟩⟩], ⟨1, 0, 1⟩, by simp, ?_, ?_⟩
  · intro o ho
    obtain rfl := List.mem_singleton.mp ho
    rw [hr]; simp only [lin]; norm_num
  · have hE : ∀ y, rayError [⟨Iso.one, ⟨0, 0, 1⟩⟩] y = y.normSq - y.z * y.z := by
      intro y
      unfold rayError lineDistSq
      simp only [List.map_cons, List.map_nil, List.sum_cons, List.sum_nil, hc, hr]
      simp only [lin]
      ring
    have hd : refineDelta 3 [⟨Iso.one, ⟨0, 0, 1⟩⟩] ⟨1, 0, 1⟩ = ⟨-3, 0, 0⟩ := by
      unfold refineDelta
      simp only [List.foldl_cons, List.foldl_nil, hc, hr, List.length_singleton]
      ext <;> simp only [lin] <;> norm_num
    rw [refinePoint]
    simp only [hd]
    split
    · split <;>
      · simp only [refinePoint, hE]
        simp only [lin]
        norm_num
    · simp only [refinePoint, hE]
      simp only [lin]
      norm_num

/-- **C56** The refinement leaves a point that is on every ray where it is. -/
theorem C56_exact_point_kept {os : List Observation} (ho : ∀ o ∈ os, o.ray.normSq = 1) {x : V3 ℝ}
    (hx : ∀ o ∈ os, OnLine o.centre o.ray x) (rate eps : ℝ) (n : Nat) :
    refinePoint rate eps os n x = x := by
  have hd : refineDelta rate os x = V3.zero := by
    have hg : totalGradient os x = V3.zero := by
      rw [← V3.normSq_eq_zero, ← V3.dot_self, totalGradient_dot]
      apply List.sum_eq_zero
      intro r hr
      obtain ⟨o, ho', rfl⟩ := List.mem_map.mp hr
      rw [((C56_point_gradient (ho o ho') o.centre x).2.2.2.1).mpr (hx o ho')]
      simp only [lin]; ring
    rw [refineDelta_eq, hg]; lin3
  have ha : x.add V3.zero = x := V3.add_zero x
  induction n with
  | zero => rfl
  | succ n ih =>
    rw [refinePoint]
    simp only [hd, ha]
    split
    · split
      · rfl
      · exact ih
    · exact ih

/-- **C56** So the iterative triangulator returns the point of the linear one, if that is on all rays. -/
theorem C56_triangulator_keeps {solver : M4 → Option Eigen4} {os : List Observation} {p : V4 ℝ}
    {x : V3 ℝ} (hl : linearEigen solver os = some p) (hp : toPoint p = some x)
    (ho : ∀ o ∈ os, o.ray.normSq = 1) (hx : ∀ o ∈ os, OnLine o.centre o.ray x) (h0 : x ≠ V3.zero)
    (rate eps : ℝ) (n : Nat) : (sineL1 solver rate eps n os).bind toPoint = some x := by
  unfold sineL1
  simp only [hl, Option.bind_eq_bind, Option.bind_some, hp]
  rw [C56_exact_point_kept ho hx]
  obtain ⟨q, h1, h2, _⟩ := C33_round_trip x h0
  rw [h1, Option.bind_some, h2]

/-- Two cameras that look at `(0, 0, 4)` along different rays. -/
example : ∃ os : List Observation, os ≠ [] ∧ (∀ o ∈ os, o.ray.normSq = 1) ∧
    (∀ o ∈ os, OnLine o.centre o.ray ⟨0, 0, 4⟩) ∧ refineDelta 1 os ⟨1, 0, 4⟩ ≠ V3.zero := by
  have hc1 : (⟨Iso.one, ⟨0, 0, 1⟩⟩ : Observation).centre = V3.zero := by lin3
  have hr1 : (⟨Iso.one, ⟨0, 0, 1⟩⟩ : Observation).ray = ⟨0, 0, 1⟩ := by
    ext <;> simp only [lin] <;> norm_num
  have hc2 : (⟨⟨M3.one, ⟨-3, 0, 0⟩⟩, ⟨-3 / 5, 0, 4 / 5⟩⟩ : Observation).centre = ⟨3, 0, 0⟩ := by
    ext <;> simp only [lin] <;> norm_num
  have hr2 : (⟨⟨M3.one, ⟨-3, 0, 0⟩⟩, ⟨-3 / 5, 0, 4 / 5⟩⟩ : Observation).ray = ⟨-3 / 5, 0, 4 / 5⟩ := by
    ext <;> simp only [lin] <;> norm_num
  refine ⟨[⟨Iso.one, ⟨0, 0, 1⟩⟩, ⟨⟨M3.one, ⟨-3, 0, 0⟩⟩, ⟨-3 / 5, 0, 4 / 5⟩⟩], by simp, ?_, ?_, ?_⟩
  · simp only [List.mem_cons, List.not_mem_nil, or_false, forall_eq_or_imp, forall_eq, hr1, hr2]
    constructor <;> simp only [lin] <;> norm_num
  · simp only [List.mem_cons, List.not_mem_nil, or_false, forall_eq_or_imp, forall_eq, hr1, hr2, hc1, hc2]
    exact ⟨⟨4, by ext <;> simp only [lin] <;> norm_num⟩, ⟨5, by ext <;> simp only [lin] <;> norm_num⟩⟩
  · intro e
    have := congrArg V3.x e
    unfold refineDelta at this
    simp only [List.foldl_cons, List.foldl_nil, hc1, hr1, hc2, hr2, List.length_cons,
      List.length_nil] at this
    simp only [lin] at this
    norm_num at this

end Verif.Geo
