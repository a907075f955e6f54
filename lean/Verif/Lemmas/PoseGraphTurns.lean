import Verif.Spec.PoseGraphTurns
import Verif.Lemmas.PoseGraphCentres
import Mathlib.Tactic.LinearCombination
import Mathlib.Algebra.Order.ToIntervalMod

/-! Helper lemmas: with all cameras turned about one axis, the optimisation is a descent of their angles. -/

namespace Verif.Sfm

open Verif.Geo

/-! ## Rotations about one axis -/

theorem hat_products {n : V3 ℝ} (hn : n.normSq = 1) : (M3.hat n).mul (M3.hat n) = hat2 n ∧
    (M3.hat n).mul (hat2 n) = M3.smul (-1) (M3.hat n) ∧ (hat2 n).mul (M3.hat n) = M3.smul (-1) (M3.hat n) ∧
    (hat2 n).mul (hat2 n) = M3.smul (-1) (hat2 n) := by
  obtain ⟨x, y, z⟩ := n
  simp only [lin] at hn
  refine ⟨?_, ?_, ?_, ?_⟩
  · ext <;> simp only [lin] <;> ring
  · ext <;> simp only [lin]
    · ring
    · linear_combination (z) * hn
    · linear_combination (-y) * hn
    · linear_combination (-z) * hn
    · ring
    · linear_combination (x) * hn
    · linear_combination (y) * hn
    · linear_combination (-x) * hn
    · ring
  · ext <;> simp only [lin]
    · ring
    · linear_combination (z) * hn
    · linear_combination (-y) * hn
    · linear_combination (-z) * hn
    · ring
    · linear_combination (x) * hn
    · linear_combination (y) * hn
    · linear_combination (-x) * hn
    · ring
  · ext <;> simp only [lin]
    · linear_combination (y * y + z * z) * hn
    · linear_combination (-(x * y)) * hn
    · linear_combination (-(x * z)) * hn
    · linear_combination (-(x * y)) * hn
    · linear_combination (x * x + z * z) * hn
    · linear_combination (-(y * z)) * hn
    · linear_combination (-(x * z)) * hn
    · linear_combination (-(y * z)) * hn
    · linear_combination (x * x + y * y) * hn

theorem expand_product (H G : M3 ℝ) (s k t l : ℝ) :
    ((M3.one.add (M3.smul s H)).add (M3.smul k G)).mul ((M3.one.add (M3.smul t H)).add (M3.smul l G)) =
      (((((M3.one.add (M3.smul (s + t) H)).add (M3.smul (k + l) G)).add (M3.smul (s * t) (H.mul H))).add
        (M3.smul (s * l) (H.mul G))).add (M3.smul (k * t) (G.mul H))).add (M3.smul (k * l) (G.mul G)) := by
  lin3

theorem turn_add {n : V3 ℝ} (hn : n.normSq = 1) (a b : ℝ) : (turn n a).mul (turn n b) = turn n (a + b) := by
  obtain ⟨h1, h2, h3, h4⟩ := hat_products hn
  unfold turn rodrigues
  rw [expand_product, h1, h2, h3, h4, Real.sin_add, Real.cos_add]
  generalize M3.hat n = H
  generalize hat2 n = G
  lin3

theorem turn_zero (n : V3 ℝ) : turn n 0 = M3.one := by
  unfold turn
  rw [Real.sin_zero, Real.cos_zero]
  lin3

theorem turn_neg (n : V3 ℝ) (a : ℝ) : turn n (-a) = (turn n a).transpose := by
  unfold turn
  rw [Real.sin_neg, Real.cos_neg]
  lin3

theorem turn_isRot {n : V3 ℝ} (hn : n.normSq = 1) (a : ℝ) : (turn n a).IsRot := rodrigues_isRot hn (sin_cos a)

theorem norm_unit {n : V3 ℝ} (hn : n.normSq = 1) : n.norm = 1 := V3.norm_of_normSq zero_le_one (by rw [hn]; ring)

theorem expRot_axis {n : V3 ℝ} (hn : n.normSq = 1) (a : ℝ) : expRot (V3.smul a n) = turn n a := by
  have h1 := norm_unit hn
  have h0 : n ≠ V3.zero := by
    rintro rfl
    rw [V3.norm_eq_zero.mpr rfl] at h1
    exact zero_ne_one h1
  rw [expRot_path h0, h1]
  have : V3.smul (1 / 1) n = n := by lin3
  rw [this, mul_one]
  rfl

theorem logRot_turn {n : V3 ℝ} (hn : n.normSq = 1) {a : ℝ} (ha : |a| < Real.pi) : logRot (turn n a) = V3.smul a n := by
  rw [← expRot_axis hn]
  apply logRot_expRot
  rw [V3.norm_smul, norm_unit hn, mul_one]
  exact ha

theorem turn_trace {n : V3 ℝ} (hn : n.normSq = 1) (a : ℝ) : ((turn n a).trace - 1) / 2 = Real.cos a := by
  unfold turn
  rw [rodrigues_trace, hn]
  ring

theorem angleOf_turn {n : V3 ℝ} (hn : n.normSq = 1) {a : ℝ} (ha : |a| ≤ Real.pi) : angleOf (turn n a) = |a| := by
  unfold angleOf
  rw [turn_trace hn, ← Real.cos_abs, Real.arccos_cos (abs_nonneg a) ha]

theorem angleOf_transpose (A : M3 ℝ) : angleOf A.transpose = angleOf A := rfl

theorem logRot_transpose (A : M3 ℝ) : logRot A.transpose = (logRot A).neg := by
  have e : skewPart A.transpose = (skewPart A).neg := by lin3
  rw [logRot_eq, logRot_eq, e, V3.norm_neg]
  by_cases h : (skewPart A).norm = 0
  · rw [if_pos h, if_pos h]; lin3
  · rw [if_neg h, if_neg h]
    show V3.smul (Real.arccos ((A.trace - 1) / 2)) _ = _
    lin3

/-- The signed angle of a rotation about an axis. -/
noncomputable def signedAngle (n : V3 ℝ) (A : M3 ℝ) : ℝ := (logRot A).dot n

theorem signedAngle_transpose (n : V3 ℝ) (A : M3 ℝ) : signedAngle n A.transpose = -signedAngle n A := by
  unfold signedAngle
  rw [logRot_transpose]
  simp only [lin]
  ring

theorem signedAngle_turn {n : V3 ℝ} (hn : n.normSq = 1) {a : ℝ} (ha : |a| < Real.pi) : signedAngle n (turn n a) = a := by
  unfold signedAngle
  rw [logRot_turn hn ha]
  have : (V3.smul a n).dot n = a * n.normSq := by simp only [lin]; ring
  rw [this, hn, mul_one]

/-- An angle between minus a half turn and a half turn. -/
theorem turn_reduced (n : V3 ℝ) (a : ℝ) : ∃ b, |b| ≤ Real.pi ∧ turn n b = turn n a := by
  refine ⟨toIocMod Real.two_pi_pos (-Real.pi) a, ?_, ?_⟩
  · have h := toIocMod_mem_Ioc Real.two_pi_pos (-Real.pi) a
    rw [abs_le]
    exact ⟨h.1.le, by have := h.2; linarith⟩
  · have h := toIocMod_add_toIocDiv_zsmul Real.two_pi_pos (-Real.pi) a
    unfold turn
    conv_rhs => rw [← h, zsmul_eq_mul, Real.sin_add_int_mul_two_pi, Real.cos_add_int_mul_two_pi]

/-- A rotation about the axis that is not a half turn, from its signed angle. -/
theorem turn_signedAngle {n : V3 ℝ} (hn : n.normSq = 1) {a : ℝ} (h : angleOf (turn n a) < Real.pi) :
    turn n (signedAngle n (turn n a)) = turn n a ∧ |signedAngle n (turn n a)| = angleOf (turn n a) := by
  obtain ⟨b, hb, he⟩ := turn_reduced n a
  rw [← he] at h ⊢
  rw [angleOf_turn hn hb] at h ⊢
  rw [signedAngle_turn hn h]
  exact ⟨rfl, rfl⟩

/-! ## One round -/

theorem pull_edges (g : Nat × Nat × Iso ℝ → ℝ) (edges : List (Nat × Nat × Iso ℝ)) (x : Nat → ℝ) (v : Nat) :
    Graph.pull (edges.map (fun e => (e.1, e.2.1, g e))) x v =
    ((edges.filter (fun e => e.1 == v)).map (fun e => x e.2.1 + g e - x e.1)).sum := by
  unfold Graph.pull
  rw [List.filter_map, List.map_map]
  rfl

theorem sum_smul (n : V3 ℝ) (l : List Tangent) (g : Tangent → ℝ) (h : ∀ a ∈ l, a.rotation = V3.smul (g a) n) :
    (Tangent.sum l).rotation = V3.smul (l.map g).sum n := by
  obtain ⟨_, h4, h5, h6⟩ := Tangent.total_parts l
  have key : ∀ (f : V3 ℝ → ℝ) (c : ℝ), (∀ a, f (V3.smul a n) = a * c) → (l.map (fun a => f a.rotation)).sum = (l.map g).sum * c := by
    intro f c hf
    rw [mul_comm, ← Graph.sum_map_mul]
    congr 1
    apply List.map_congr_left
    intro a ha
    rw [h a ha, hf, mul_comm]
  ext
  · rw [h4]; exact key V3.x n.x (fun a => by simp only [lin])
  · rw [h5]; exact key V3.y n.y (fun a => by simp only [lin])
  · rw [h6]; exact key V3.z n.z (fun a => by simp only [lin])

variable {rate : ℝ} {edges : List (Nat × Nat × Iso ℝ)} {n : V3 ℝ} {δ : Nat × Nat × Iso ℝ → ℝ}

/-- One round for cameras turned about one axis. -/
theorem graphStep_turn (hn : n.normSq = 1) {X : Nat → Iso ℝ} {θ : Nat → ℝ} (hX : ∀ u, (X u).rot = turn n (θ u))
    (he : ∀ e ∈ edges, e.2.2.rot = turn n (δ e)) (hs : ∀ e ∈ edges, |θ e.2.1 + δ e - θ e.1| < Real.pi) (v : Nat) :
    (graphStep rate edges X v).rot = turn n (Graph.descend rate (edges.map (fun e => (e.1, e.2.1, δ e))) θ v) := by
  have hr : ∀ e ∈ edges.filter (fun e => e.1 == v),
      (((e.2.2.mul (X e.2.1)).mul (X v).inv).se3).rotation = V3.smul (θ e.2.1 + δ e - θ e.1) n := by
    intro e hmem
    obtain ⟨h1, h2⟩ := List.mem_filter.mp hmem
    have hev : e.1 = v := by simpa using h2
    show logRot ((e.2.2.rot.mul (X e.2.1).rot).mul (X v).rot.transpose) = _
    rw [he e h1, hX, hX, ← turn_neg, turn_add hn, turn_add hn, ← hev]
    rw [show δ e + θ e.2.1 + -θ e.1 = θ e.2.1 + δ e - θ e.1 by ring]
    exact logRot_turn hn (hs e h1)
  have hsum : (Tangent.sum ((edges.filter (fun e => e.1 == v)).map
      (fun e => ((e.2.2.mul (X e.2.1)).mul (X v).inv).se3))).rotation =
      V3.smul (Graph.pull (edges.map (fun e => (e.1, e.2.1, δ e))) θ v) n := by
    rw [pull_edges, sum_smul n _ (fun a => a.rotation.dot n), List.map_map]
    · congr 2
      apply List.map_congr_left
      intro e hmem
      show (((e.2.2.mul (X e.2.1)).mul (X v).inv).se3).rotation.dot n = _
      rw [hr e hmem]
      have : ∀ a : ℝ, (V3.smul a n).dot n = a * n.normSq := by intro a; simp only [lin]; ring
      rw [this, hn, mul_one]
    · intro a ha
      obtain ⟨e, hmem, rfl⟩ := List.mem_map.mp ha
      rw [hr e hmem]
      have : ∀ a : ℝ, (V3.smul a n).dot n = a * n.normSq := by intro a; simp only [lin]; ring
      rw [this, hn, mul_one]
  unfold graphStep
  generalize Tangent.sum _ = T at *
  show (expRot (V3.smul rate T.rotation)).mul (X v).rot = _
  rw [hsum, hX]
  have : V3.smul rate (V3.smul (Graph.pull (edges.map (fun e => (e.1, e.2.1, δ e))) θ v) n) =
      V3.smul (rate * Graph.pull (edges.map (fun e => (e.1, e.2.1, δ e))) θ v) n := by lin3
  rw [this, expRot_axis hn, turn_add hn]
  unfold Graph.descend
  rw [add_comm]

/-- Several rounds. -/
theorem iterate_turn (hn : n.normSq = 1) {X : Nat → Iso ℝ} {θ : Nat → ℝ} (hX : ∀ u, (X u).rot = turn n (θ u))
    (he : ∀ e ∈ edges, e.2.2.rot = turn n (δ e)) (m : Nat)
    (hs : ∀ k, k < m → ∀ e ∈ edges, |Graph.res ((Graph.descend rate (edges.map (fun e => (e.1, e.2.1, δ e))))^[k] θ)
      (e.1, e.2.1, δ e)| < Real.pi) (v : Nat) :
    ((graphStep rate edges)^[m] X v).rot = turn n ((Graph.descend rate (edges.map (fun e => (e.1, e.2.1, δ e))))^[m] θ v) := by
  induction m generalizing v with
  | zero => exact hX v
  | succ m ih =>
    rw [Function.iterate_succ_apply', Function.iterate_succ_apply']
    exact graphStep_turn hn (fun u => ih (fun k hk => hs k (by omega)) u) he (hs m (by omega)) v

/-- An edge and the one in the other direction are part of the energy. -/
theorem energy_edge {es : Graph.Edges} (hs : (es.map Graph.flip).Perm es) (x : Nat → ℝ) {e : Nat × Nat × ℝ} (he : e ∈ es)
    (hne : e.1 ≠ e.2.1) : 2 * (Graph.res x e * Graph.res x e) ≤ Graph.energy es x := by
  have hf : Graph.flip e ∈ es := (hs.mem_iff).mp (List.mem_map.mpr ⟨e, he, rfl⟩)
  have hr : Graph.res x (Graph.flip e) = -Graph.res x e := by
    unfold Graph.res Graph.flip
    ring
  have hd : Graph.flip e ≠ e := fun h => hne (congrArg Prod.fst h).symm
  have h1 : (Graph.flip e) ∈ es.erase e := (List.mem_erase_of_ne hd).mpr hf
  have p1 := List.perm_cons_erase he
  have p2 := List.perm_cons_erase h1
  have p := p1.trans (p2.cons e)
  unfold Graph.energy
  rw [(p.map (fun e => Graph.res x e * Graph.res x e)).sum_eq]
  simp only [List.map_cons, List.sum_cons, hr]
  have := Graph.sum_map_nonneg ((es.erase e).erase (Graph.flip e)) (fun e => Graph.res x e * Graph.res x e)
    (fun a _ => mul_self_nonneg _)
  linarith

/-- When the edges ask for what `z` has, no vertex gets further away from `z` than the furthest. -/
theorem descend_near {es : Graph.Edges} {r : ℝ} (hr : 0 ≤ r) {z : Nat → ℝ} (hz : ∀ e ∈ es, Graph.res z e = 0)
    (hD : ∀ v, r * Graph.degree es v ≤ 1) {x : Nat → ℝ} {b : ℝ} (hx : ∀ v, |x v - z v| ≤ b) (v : Nat) :
    |Graph.descend r es x v - z v| ≤ b := by
  have key : ∀ l : List (Nat × Nat × ℝ), (∀ e ∈ l, Graph.res z e = 0 ∧ e.1 = v) →
      |(l.map (Graph.res x)).sum + l.length * (x v - z v)| ≤ l.length * b := by
    intro l hl
    induction l with
    | nil => simp
    | cons e l ih =>
      have h1 := ih (fun e he => hl e (by simp [he]))
      obtain ⟨h2, h3⟩ := hl e (by simp)
      have h4 := hx e.2.1
      rw [List.map_cons, List.sum_cons, List.length_cons]
      push_cast
      have e1 : Graph.res x e = (x e.2.1 - z e.2.1) - (x v - z v) := by
        unfold Graph.res at h2 ⊢
        rw [h3] at h2 ⊢
        linarith
      rw [e1]
      rw [abs_le] at h1 h4 ⊢
      constructor <;> linarith [h1.1, h1.2, h4.1, h4.2]
  have h1 := key (es.filter (fun e => e.1 == v)) (fun e he => by
    obtain ⟨h1, h2⟩ := List.mem_filter.mp he
    exact ⟨hz e h1, by simpa using h2⟩)
  have h2 := hD v
  have h3 := hx v
  unfold Graph.descend Graph.pull
  unfold Graph.degree at h2
  generalize ((es.filter (fun e => e.1 == v)).map (Graph.res x)).sum = S at *
  generalize ((es.filter (fun e => e.1 == v)).length : ℝ) = m at *
  rw [abs_le] at h1 h3 ⊢
  have a1 := mul_le_mul_of_nonneg_left h1.1 hr
  have a2 := mul_le_mul_of_nonneg_left h1.2 hr
  have a3 : 0 ≤ 1 - r * m := by linarith
  have a4 := mul_le_mul_of_nonneg_left h3.1 a3
  have a5 := mul_le_mul_of_nonneg_left h3.2 a3
  constructor <;> nlinarith

end Verif.Sfm
