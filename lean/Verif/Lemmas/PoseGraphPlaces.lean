import Verif.Lemmas.PoseGraphJoint

/-! Helper lemmas: the disturbances vanish with the angles, and the cameras reach where they should be. -/

namespace Verif.Sfm

open Verif.Geo Filter

variable {rate m : ℝ} {es : Graph.Edges} {edges : List (Nat × Nat × Iso ℝ)} {X Y : Nat → Iso ℝ} {q : Nat → Quat} {v : Nat}

/-- The squared angles along all edges. -/
noncomputable def bends (es : Graph.Edges) (q : Nat → Quat) : ℝ :=
  (es.map (fun e => Real.arccos ((q e.2.1).dot (q e.1)) ^ 2)).sum

theorem bends_nonneg : 0 ≤ bends es q := Graph.sum_map_nonneg _ _ (fun _ _ => sq_nonneg _)

theorem bend_le {e : Nat × Nat × ℝ} (he : e ∈ es) : Real.arccos ((q e.2.1).dot (q e.1)) ^ 2 ≤ bends es q := by
  refine List.single_le_sum ?_ _ (List.mem_map.mpr ⟨e, he, rfl⟩)
  intro a ha
  obtain ⟨w, _, rfl⟩ := List.mem_map.mp ha
  exact sq_nonneg _

theorem filter_sum_le {α : Type} (l : List α) (p : α → Bool) (f : α → ℝ) (hf : ∀ a, 0 ≤ f a) :
    ((l.filter p).map f).sum ≤ (l.map f).sum := by
  induction l with
  | nil => simp
  | cons a l ih =>
    have := hf a
    by_cases h : p a = true
    · rw [List.filter_cons_of_pos h]
      simp only [List.map_cons, List.sum_cons]
      linarith
    · rw [List.filter_cons_of_neg h]
      simp only [List.map_cons, List.sum_cons]
      linarith

/-- How far a round turns a camera. -/
theorem qstep_apart (hm : 0 < m) (hm2 : 1 < 2 * m ^ 2) (hq : Quat.Near m q) (hr : 0 ≤ rate)
    (hD : 2 * (rate * Graph.degree es v) ≤ 1) : 1 - (q v).dot (Quat.qstep rate es q v) ^ 2 ≤ rate * bends es q := by
  obtain ⟨_, h, _⟩ := Quat.push_facts hm hm2 hq hr hD
  rw [Quat.dot_comm]
  unfold Quat.qstep
  rw [Quat.exp_dot _ (hq.unit v)]
  refine (Quat.sin_sq_le _).trans (h.trans ?_)
  unfold Quat.bend
  have h1 := filter_sum_le es (fun e => e.1 == v) (fun e => Real.arccos ((q e.2.1).dot (q e.1)) ^ 2) (fun _ => sq_nonneg _)
  have h2 := mul_le_mul_of_nonneg_left h1 hr
  have h3 : 0 ≤ rate * bends es q := mul_nonneg hr bends_nonneg
  have h4 : rate * ((es.filter (fun e => e.1 == v)).map (fun e => Real.arccos ((q e.2.1).dot (q e.1)) ^ 2)).sum ≤
    rate * bends es q := h2
  linarith

/-- The part of the disturbance that one edge makes. -/
theorem edge_disturbance {e : Nat × Nat × ℝ} {B : ℝ} (hq : ∀ u, (q u).Unit) {q' : Quat} (hq' : q'.Unit)
    (h1 : 1 - (q e.2.1).dot (q e.1) ^ 2 ≤ B) (h2 : 1 - (q e.1).dot q' ^ 2 ≤ B) :
    ((q'.rot.transpose.mulVec (missing X Y q e.1 e.2.1)).sub ((offset X Y e.2.1).sub (offset X Y e.1))).normSq ≤
      32 * B * (((offset X Y e.2.1).sub (offset X Y e.1)).normSq + (place Y e.1).normSq) := by
  unfold missing
  generalize (offset X Y e.2.1).sub (offset X Y e.1) = d
  generalize place Y e.1 = p
  have hR' := Quat.rot_isRot hq'
  have hRv := Quat.rot_isRot (hq e.1)
  have hd := V3.normSq_nonneg d
  have hp := V3.normSq_nonneg p
  have e1 : (q'.rot.transpose.mulVec (((q e.2.1).rot.mulVec d).add (p.sub ((q e.2.1).rot.mulVec
      ((q e.1).rot.transpose.mulVec p))))).sub d = q'.rot.transpose.mulVec
      ((((q e.2.1).rot.mulVec d).sub (q'.rot.mulVec d)).add (p.sub ((q e.2.1).rot.mulVec ((q e.1).rot.transpose.mulVec p)))) := by
    have h0 : q'.rot.transpose.mulVec (q'.rot.mulVec d) = d := by rw [M3.mulVec_mulVec, hR'.orth, M3.one_mulVec]
    generalize p.sub ((q e.2.1).rot.mulVec ((q e.1).rot.transpose.mulVec p)) = b
    generalize (q e.2.1).rot.mulVec d = a
    have h3 : ∀ (A : M3 ℝ) (a b c : V3 ℝ), A.mulVec ((a.sub b).add c) = (A.mulVec (a.add c)).sub (A.mulVec b) := by
      intro A a b c; lin3
    rw [h3, h0]
  rw [e1, hR'.transpose.normSq_mulVec]
  refine (Quat.normSq_add_le _ _).trans ?_
  -- the first part
  have a1 : (((q e.2.1).rot.mulVec d).sub (q'.rot.mulVec d)).normSq ≤ 16 * B * d.normSq := by
    have e2 : ((q e.2.1).rot.mulVec d).sub (q'.rot.mulVec d) = (((q e.2.1).rot.mulVec d).sub ((q e.1).rot.mulVec d)).add
        (((q e.1).rot.mulVec d).sub (q'.rot.mulVec d)) := by
      generalize (q e.2.1).rot.mulVec d = a
      generalize (q e.1).rot.mulVec d = b
      generalize q'.rot.mulVec d = c
      lin3
    rw [e2]
    refine (Quat.normSq_add_le _ _).trans ?_
    have b1 := Quat.rot_apart (hq e.2.1) (hq e.1) d
    have b2 := Quat.rot_apart (hq e.1) hq' d
    have b3 := mul_le_mul_of_nonneg_right h1 hd
    have b4 := mul_le_mul_of_nonneg_right h2 hd
    linarith
  -- the second part
  have a2 : (p.sub ((q e.2.1).rot.mulVec ((q e.1).rot.transpose.mulVec p))).normSq ≤ 4 * B * p.normSq := by
    have b1 := Quat.rot_apart (hq e.1) (hq e.2.1) ((q e.1).rot.transpose.mulVec p)
    have b2 : (q e.1).rot.mulVec ((q e.1).rot.transpose.mulVec p) = p := by rw [M3.mulVec_mulVec, hRv.orth', M3.one_mulVec]
    rw [b2, hRv.transpose.normSq_mulVec, Quat.dot_comm] at b1
    have b3 := mul_le_mul_of_nonneg_right h1 hp
    linarith
  have hB : 0 ≤ B := by
    have := Quat.quotient_v (hq e.2.1) (hq e.1)
    have := V3.normSq_nonneg ((q e.2.1).mul (q e.1).conj).v
    linarith
  have := mul_nonneg hB hp
  linarith

/-- The disturbances vanish with the angles. -/
theorem disturbance_le (hm : 0 < m) (hm2 : 1 < 2 * m ^ 2) (hq : Quat.Near m q) (hr : 0 ≤ rate)
    (hD : 2 * (rate * Graph.degree es v) ≤ 1) :
    (disturbance rate es X Y q v).normSq ≤
      32 * (1 + rate) ^ 2 * bends es q * (spread es (offset X Y) + (place Y v).normSq) := by
  have hB0 : 0 ≤ bends es q := bends_nonneg
  have hB : 0 ≤ (1 + rate) * bends es q := mul_nonneg (by linarith) hB0
  have hrB : 0 ≤ rate * bends es q := mul_nonneg hr hB0
  have hstep : 1 - (q v).dot (Quat.qstep rate es q v) ^ 2 ≤ (1 + rate) * bends es q := by
    have := qstep_apart hm hm2 hq hr hD
    linarith
  have hu := Quat.qstep_unit (r := rate) (es := es) hq v
  have hp := V3.normSq_nonneg (place Y v)
  have hS := spread_nonneg es (offset X Y)
  unfold disturbance
  generalize Quat.qstep rate es q v = q' at *
  refine (Quat.normSq_add_le _ _).trans ?_
  have a1 := Quat.rot_apart' (hq.unit v) hu (place Y v)
  have a2 := mul_le_mul_of_nonneg_right hstep hp
  -- the edges
  have a3 : (V3.smul rate (Quat.vsum ((es.filter (fun e => e.1 == v)).map (fun e =>
      (q'.rot.transpose.mulVec (missing X Y q e.1 e.2.1)).sub ((offset X Y e.2.1).sub (offset X Y e.1)))))).normSq ≤
      rate * rate * (Graph.degree es v * (32 * ((1 + rate) * bends es q) *
        (spread es (offset X Y) + Graph.degree es v * (place Y v).normSq))) := by
    have hs : ∀ (t : ℝ) (a : V3 ℝ), (V3.smul t a).normSq = t * t * a.normSq := by intro t a; simp only [lin]; ring
    rw [hs]
    apply mul_le_mul_of_nonneg_left _ (mul_self_nonneg _)
    refine (Quat.vsum_normSq_le _ _).trans ?_
    apply mul_le_mul_of_nonneg_left _ (Nat.cast_nonneg _)
    have b1 := Graph.sum_map_le (es.filter (fun e => e.1 == v)) (fun e =>
        ((q'.rot.transpose.mulVec (missing X Y q e.1 e.2.1)).sub ((offset X Y e.2.1).sub (offset X Y e.1))).normSq)
      (fun e => 32 * ((1 + rate) * bends es q) * (((offset X Y e.2.1).sub (offset X Y e.1)).normSq + (place Y v).normSq)) (by
        intro e he
        obtain ⟨c1, c2⟩ := List.mem_filter.mp he
        have hev : e.1 = v := by simpa using c2
        have c3 := Quat.apart_le (hq.unit e.2.1) (hq.unit e.1)
        have c4 := bend_le (q := q) c1
        have := edge_disturbance (X := X) (Y := Y) (e := e) (B := (1 + rate) * bends es q) hq.unit hu (by linarith)
          (by rw [hev]; exact hstep)
        rw [hev] at this ⊢
        exact this)
    refine b1.trans ?_
    rw [Graph.sum_map_mul, Graph.sum_map_add, List.map_const', List.sum_replicate, nsmul_eq_mul]
    apply mul_le_mul_of_nonneg_left _ (by linarith)
    have := filter_sum_le es (fun e => e.1 == v) (fun e => ((offset X Y e.2.1).sub (offset X Y e.1)).normSq)
      (fun _ => V3.normSq_nonneg _)
    have h2 : ((es.filter (fun e => e.1 == v)).map (fun e => ((offset X Y e.2.1).sub (offset X Y e.1)).normSq)).sum ≤
      spread es (offset X Y) := this
    unfold Graph.degree
    linarith
  have hN : 0 ≤ rate * (Graph.degree es v : ℝ) := mul_nonneg hr (Nat.cast_nonneg _)
  generalize (Graph.degree es v : ℝ) = N at *
  generalize (place Y v).normSq = p at *
  generalize spread es (offset X Y) = S at *
  have hN2 : rate * N ≤ 1 / 2 := by linarith
  have a4 : rate * rate * (N * (32 * ((1 + rate) * bends es q) * (S + N * p))) ≤
      (1 + rate) * bends es q * (16 * (rate * S) + 8 * p) := by
    have c1 : rate * rate * (N * (32 * ((1 + rate) * bends es q) * (S + N * p))) =
        (1 + rate) * bends es q * (32 * ((rate * N) * (rate * S)) + 32 * ((rate * N) * (rate * N) * p)) := by ring
    rw [c1]
    apply mul_le_mul_of_nonneg_left _ hB
    have c2 := mul_le_mul_of_nonneg_right hN2 (mul_nonneg hr hS)
    have c3 : (rate * N) * (rate * N) ≤ 1 / 2 * (1 / 2) := mul_le_mul hN2 hN2 hN (by norm_num)
    have c4 := mul_le_mul_of_nonneg_right c3 hp
    linarith
  have a5 : (1 + rate) * bends es q * (24 * p + 32 * (rate * S)) ≤ (1 + rate) * bends es q * (32 * (1 + rate) * (S + p)) := by
    apply mul_le_mul_of_nonneg_left _ hB
    have := mul_nonneg hr hp
    linarith
  linarith

/-- What is left of the disagreement along one edge. -/
theorem disagreement_edge (hYr : ∀ u, (Y u).Rigid) {e : Nat × Nat × Iso ℝ} (he : e.2.2.Rigid)
    (hY : Y e.1 = e.2.2.mul (Y e.2.1)) (hX : ∀ u, (X u).rot = (Y u).rot.mul (q u).rot) (hq : ∀ u, (q u).Unit) :
    ((centre (X e.1)).sub (centre (e.2.2.mul (X e.2.1)))).normSq ≤
      2 * ((offset X Y e.2.1).sub (offset X Y e.1)).normSq + 8 * (1 - (q e.2.1).dot (q e.1) ^ 2) * (place Y e.1).normSq := by
  have hY1 : (Y e.1).rot = e.2.2.rot.mul (Y e.2.1).rot := congrArg Iso.rot hY
  have hY2 : (Y e.1).t = (e.2.2.rot.mulVec (Y e.2.1).t).add e.2.2.t := congrArg Iso.t hY
  have hS : (Y e.1).rot.IsRot := hYr e.1
  have her : e.2.2.rot.IsRot := he
  have hp : ∀ u, (q u).rot.transpose.mulVec (place Y e.1) = ((Y e.1).rot.mul (q u).rot).transpose.mulVec (Y e.1).t := by
    intro u
    unfold place
    rw [M3.mulVec_mulVec, M3.transpose_mul]
  have hsub : ∀ (A : M3 ℝ) (a b : V3 ℝ), A.mulVec (a.sub b) = (A.mulVec a).sub (A.mulVec b) := by intro A a b; lin3
  have e1 : (centre (X e.1)).sub (centre (e.2.2.mul (X e.2.1))) = ((offset X Y e.2.1).sub (offset X Y e.1)).add
      (((q e.2.1).rot.transpose.mulVec (place Y e.1)).sub ((q e.1).rot.transpose.mulVec (place Y e.1))) := by
    rw [centre_eq, centre_eq, hp, hp, ← hX e.1, hY1, M3.mul_assoc, ← hX e.2.1, hY2]
    show (((X e.1).rot.transpose.mulVec (X e.1).t).neg).sub ((e.2.2.rot.mul (X e.2.1).rot).transpose.mulVec
      ((e.2.2.rot.mulVec (X e.2.1).t).add e.2.2.t)).neg = _
    unfold offset
    have k : ∀ a : V3 ℝ, (e.2.2.rot.mul (X e.2.1).rot).transpose.mulVec (e.2.2.rot.mulVec a) =
        (X e.2.1).rot.transpose.mulVec a := by
      intro a
      rw [M3.mulVec_mulVec, M3.transpose_mul, M3.mul_assoc, her.orth, M3.mul_one]
    rw [M3.mulVec_add, M3.mulVec_add, k, k, hsub, hsub, hY2]
    generalize (X e.1).rot.transpose.mulVec ((e.2.2.rot.mulVec (Y e.2.1).t).add e.2.2.t) = a
    generalize (X e.1).rot.transpose.mulVec (X e.1).t = b
    generalize (e.2.2.rot.mul (X e.2.1).rot).transpose.mulVec e.2.2.t = c
    generalize (X e.2.1).rot.transpose.mulVec (X e.2.1).t = d
    lin3
  rw [e1]
  refine (Quat.normSq_add_le _ _).trans ?_
  have := Quat.rot_apart' (hq e.2.1) (hq e.1) (place Y e.1)
  linarith

section
variable {vs : List Nat}

/-- One round brings the cameras closer together, apart from a disturbance that vanishes with the angles. -/
theorem spread_step (hn : vs.Nodup) (hv : ∀ e ∈ es, e.1 ∈ vs) (hs : (es.map Graph.flip).Perm es) (hw : ∀ e ∈ es, e.2.2 = 0)
    (hr : 0 < rate) (hD : ∀ v, 2 * (rate * Graph.degree es v) ≤ 1) (Y : Nat → Iso ℝ) :
    ∃ σ C, 0 < σ ∧ σ ≤ 1 ∧ ∀ (m : ℝ) (X : Nat → Iso ℝ) (q : Nat → Quat) (z : Nat → V3 ℝ), 0 < m → 1 < 2 * m ^ 2 →
      Quat.Near m q → (∀ v, z v = ((offset X Y v).add (V3.smul rate (Quat.vsum ((es.filter (fun e => e.1 == v)).map (fun e =>
        (offset X Y e.2.1).sub (offset X Y e.1)))))).add (disturbance rate es X Y q v)) →
      spread es z ≤ (1 - σ + C * bends es q) * spread es (offset X Y) + C * bends es q := by
  obtain ⟨σ, K, h1, h2, h3, h4⟩ := Graph.descend_disturbed hn hv hs hw (D := 1 / (2 * rate)) (r := rate) (fun v _ => by
    rw [le_div_iff₀ (by linarith)]
    have := hD v
    linarith) hr (by
    have : rate * (1 / (2 * rate)) = 1 / 2 := by field_simp
    rw [this]
    norm_num)
  have hP : 0 ≤ Graph.over vs (fun v => (place Y v).normSq) := Graph.sum_map_nonneg _ _ (fun _ _ => V3.normSq_nonneg _)
  refine ⟨σ, K * (32 * (1 + rate) ^ 2 * (vs.length + Graph.over vs (fun v => (place Y v).normSq))), h1, h2, ?_⟩
  intro m X q z hm hm2 hq hz
  have key : ∀ f : V3 ℝ → ℝ, (f = V3.x ∨ f = V3.y ∨ f = V3.z) → (∀ a b : V3 ℝ, f (a.add b) = f a + f b) →
      Graph.energy es (fun v => f (z v)) ≤ (1 - σ) * Graph.energy es (fun v => f (offset X Y v)) +
        K * Graph.over vs (fun v => f (disturbance rate es X Y q v) * f (disturbance rate es X Y q v)) := by
    intro f hf hadd
    have := h4 (fun v => f (offset X Y v)) (fun v => f (disturbance rate es X Y q v))
    have e : (fun v => f (z v)) = (fun v => Graph.descend rate es (fun v => f (offset X Y v)) v +
        f (disturbance rate es X Y q v)) := by
      funext v
      rw [hz v, hadd, coord_disturbed f hf hw]
    rw [e]
    exact this
  have kx := key V3.x (.inl rfl) (fun a b => by simp only [lin])
  have ky := key V3.y (.inr (.inl rfl)) (fun a b => by simp only [lin])
  have kz := key V3.z (.inr (.inr rfl)) (fun a b => by simp only [lin])
  have hsum : Graph.over vs (fun v => (disturbance rate es X Y q v).normSq) =
      Graph.over vs (fun v => (disturbance rate es X Y q v).x * (disturbance rate es X Y q v).x) +
      (Graph.over vs (fun v => (disturbance rate es X Y q v).y * (disturbance rate es X Y q v).y) +
      Graph.over vs (fun v => (disturbance rate es X Y q v).z * (disturbance rate es X Y q v).z)) := by
    unfold Graph.over
    rw [← Graph.sum_map_add, ← Graph.sum_map_add]
    congr 1
    apply List.map_congr_left
    intro v _
    simp only [lin]
    ring
  have hle : Graph.over vs (fun v => (disturbance rate es X Y q v).normSq) ≤ 32 * (1 + rate) ^ 2 * bends es q *
      (vs.length * spread es (offset X Y) + Graph.over vs (fun v => (place Y v).normSq)) := by
    have b1 := Graph.sum_map_le vs (fun v => (disturbance rate es X Y q v).normSq) (fun v =>
      32 * (1 + rate) ^ 2 * bends es q * (spread es (offset X Y) + (place Y v).normSq))
      (fun v _ => disturbance_le hm hm2 hq hr.le (hD v))
    rw [Graph.sum_map_mul, Graph.sum_map_add, List.map_const', List.sum_replicate, nsmul_eq_mul] at b1
    exact b1
  rw [spread_energy hw, spread_energy hw]
  rw [spread_energy hw] at hle
  have hE : ∀ x : Nat → ℝ, 0 ≤ Graph.energy es x := fun x => Graph.sum_map_nonneg _ _ (fun _ _ => mul_self_nonneg _)
  have hE1 := hE (fun v => (offset X Y v).x)
  have hE2 := hE (fun v => (offset X Y v).y)
  have hE3 := hE (fun v => (offset X Y v).z)
  have hle2 := mul_le_mul_of_nonneg_left hle h3
  rw [hsum] at hle2
  have hB : 0 ≤ bends es q := bends_nonneg
  have hL : (0 : ℝ) ≤ vs.length := Nat.cast_nonneg _
  have hP0 := hP
  obtain ⟨S, hS⟩ : ∃ S, S = Graph.energy es (fun v => (offset X Y v).x) + (Graph.energy es (fun v => (offset X Y v).y) +
    Graph.energy es (fun v => (offset X Y v).z)) := ⟨_, rfl⟩
  have hS0 : 0 ≤ S := by rw [hS]; linarith
  rw [← hS] at hle2 ⊢
  have hk : Graph.energy es (fun v => (z v).x) + (Graph.energy es (fun v => (z v).y) + Graph.energy es (fun v => (z v).z)) ≤
      (1 - σ) * S + K * (32 * (1 + rate) ^ 2 * bends es q * (vs.length * S + Graph.over vs (fun v => (place Y v).normSq))) := by
    have hS' : (1 - σ) * S = (1 - σ) * _ := congrArg (fun t => (1 - σ) * t) hS
    linarith
  refine hk.trans ?_
  generalize Graph.over vs (fun v => (place Y v).normSq) = P at *
  generalize (vs.length : ℝ) = L at *
  have hA : 0 ≤ K * (32 * (1 + rate) ^ 2 * bends es q) * (L + P * S) :=
    mul_nonneg (mul_nonneg h3 (mul_nonneg (by positivity) hB)) (add_nonneg hL (mul_nonneg hP hS0))
  linarith

end

/-- All rounds: when the angles vanish, so does the disagreement. -/
theorem places_vanish (hm : 0 < m) (hm2 : 1 < 2 * m ^ 2) (hr : 0 < rate)
    (hD : ∀ v, 2 * (rate * Graph.degree (bareEdges edges) v) ≤ 1) (hYr : ∀ u, (Y u).Rigid)
    (her : ∀ e ∈ edges, e.2.2.Rigid) (hY : ∀ e ∈ edges, Y e.1 = e.2.2.mul (Y e.2.1))
    (hX : ∀ u, (X u).rot = (Y u).rot.mul (q u).rot) (hq : Quat.Near m q) {vs : List Nat} (hn : vs.Nodup)
    (hv : ∀ e ∈ edges, e.1 ∈ vs) (hs : ((bareEdges edges).map Graph.flip).Perm (bareEdges edges))
    (hb : Tendsto (fun k => bends (bareEdges edges) ((Quat.qstep rate (bareEdges edges))^[k] q)) atTop (nhds 0)) :
    Tendsto (fun k => disagreement edges ((graphStep rate edges)^[k] X)) atTop (nhds 0) := by
  have hYo : ∀ e ∈ edges, (fun u => (Y u).rot) e.1 = e.2.2.rot.mul ((fun u => (Y u).rot) e.2.1) :=
    fun e he => congrArg Iso.rot (hY e he)
  have hit := iterate_quat (Y := fun u => (Y u).rot) hm hm2 hr.le hD hYr hYo hX hq
  have hv' : ∀ e ∈ bareEdges edges, e.1 ∈ vs := by
    intro e he
    obtain ⟨e0, h0, rfl⟩ := List.mem_map.mp he
    exact hv e0 h0
  have hw : ∀ e ∈ bareEdges edges, e.2.2 = 0 := by
    intro e he
    obtain ⟨e0, h0, rfl⟩ := List.mem_map.mp he
    rfl
  have hrig : ∀ k u, ((graphStep rate edges)^[k] X u).Rigid := by
    intro k u
    show M3.IsRot _
    rw [(hit k).2 u]
    exact M3.IsRot.mul (hYr u) (Quat.rot_isRot ((hit k).1.unit u))
  obtain ⟨σ, C, h1, h2, h3⟩ := spread_step hn hv' hs hw hr hD Y
  have hspread : Tendsto (fun k => spread (bareEdges edges) (offset ((graphStep rate edges)^[k] X) Y)) atTop (nhds 0) := by
    refine Graph.shrinks (C := C) h1 h2 (fun k => spread_nonneg _ _) hb ?_
    intro k
    obtain ⟨a1, a2⟩ := hit k
    have hdot : ∀ u v, 0 < ((Quat.qstep rate (bareEdges edges))^[k] q u).dot ((Quat.qstep rate (bareEdges edges))^[k] q v) :=
      fun u v => (Quat.near_dot hm hm2 (a1.unit u) (a1.unit v) (a1.near u) (a1.near v)).1
    refine h3 m _ _ _ hm hm2 a1 ?_
    intro v
    rw [Function.iterate_succ_apply']
    exact offset_disturbed (hrig k) hYr hY a2 a1.unit hdot v
  -- the disagreement is at most what the offsets and the angles make
  have hle : ∀ k, disagreement edges ((graphStep rate edges)^[k] X) ≤
      2 * spread (bareEdges edges) (offset ((graphStep rate edges)^[k] X) Y) +
      8 * (edges.map (fun e => (place Y e.1).normSq)).sum * bends (bareEdges edges) ((Quat.qstep rate (bareEdges edges))^[k] q) := by
    intro k
    obtain ⟨a1, a2⟩ := hit k
    have hr' := hrig k
    generalize (graphStep rate edges)^[k] X = X' at *
    generalize hp : (Quat.qstep rate (bareEdges edges))^[k] q = p at *
    have b1 := Graph.sum_map_le edges (fun e => ((centre (X' e.1)).sub (centre (e.2.2.mul (X' e.2.1)))).normSq)
      (fun e => 2 * ((offset X' Y e.2.1).sub (offset X' Y e.1)).normSq +
        8 * bends (bareEdges edges) p * (place Y e.1).normSq) (by
        intro e he
        refine (disagreement_edge hYr (her e he) (hY e he) a2 a1.unit).trans ?_
        have c1 := Quat.apart_le (a1.unit e.2.1) (a1.unit e.1)
        have c2 := bend_le (es := bareEdges edges) (q := p) (e := (e.1, e.2.1, 0)) (List.mem_map.mpr ⟨e, he, rfl⟩)
        have c3 := mul_le_mul_of_nonneg_right (c1.trans c2) (V3.normSq_nonneg (place Y e.1))
        linarith)
    rw [Graph.sum_map_add, Graph.sum_map_mul, Graph.sum_map_mul] at b1
    have b2 : spread (bareEdges edges) (offset X' Y) =
        (edges.map (fun e => ((offset X' Y e.2.1).sub (offset X' Y e.1)).normSq)).sum := by
      unfold spread bareEdges
      rw [List.map_map]
      rfl
    rw [b2]
    unfold disagreement
    linarith
  refine squeeze_zero (fun k => Graph.sum_map_nonneg _ _ (fun _ _ => V3.normSq_nonneg _)) hle ?_
  have := (hspread.const_mul 2).add (hb.const_mul (8 * (edges.map (fun e => (place Y e.1).normSq)).sum))
  rwa [mul_zero, mul_zero, add_zero] at this

/-- The angles in terms of the quaternions. -/
theorem turn_bends {Z : Nat → M3 ℝ} (hm : 0 < m) (hm2 : 1 < 2 * m ^ 2) (hZr : ∀ u, (Z u).IsRot)
    (hZ : ∀ e ∈ edges, Z e.1 = e.2.2.rot.mul (Z e.2.1)) (hX : ∀ u, (X u).rot = (Z u).mul (q u).rot) (hq : Quat.Near m q) :
    turnDisagreement edges X = 4 * bends (bareEdges edges) q := by
  unfold bends
  rw [← Graph.sum_map_mul]
  unfold turnDisagreement bareEdges
  rw [List.map_map]
  congr 1
  apply List.map_congr_left
  intro e he
  rw [angle_quat hm hm2 hZr hZ hX hq he]
  show (2 * Real.arccos _) ^ 2 = 4 * Real.arccos _ ^ 2
  ring

end Verif.Sfm
