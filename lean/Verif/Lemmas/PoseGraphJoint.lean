import Verif.Lemmas.PoseGraphQuat
import Verif.Lemmas.GraphGap
import Verif.Lemmas.PoseGraphCentres

/-! Helper lemmas: where the cameras move while they are still being turned. -/

namespace Verif.Geo.Quat

open Verif

/-! ## Rotations that are close -/

theorem normSq_add_le (a b : V3 ℝ) : (a.add b).normSq ≤ 2 * a.normSq + 2 * b.normSq := by
  have h := V3.normSq_nonneg (a.sub b)
  simp only [lin] at *
  nlinarith

theorem normSq_sub_le (a b : V3 ℝ) : (a.sub b).normSq ≤ 2 * a.normSq + 2 * b.normSq := by
  have h := V3.normSq_nonneg (a.add b)
  simp only [lin] at *
  nlinarith

theorem normSq_cross_le (a b : V3 ℝ) : (a.cross b).normSq ≤ a.normSq * b.normSq := by
  have := V3.lagrange a b
  nlinarith [mul_self_nonneg (a.dot b)]

theorem rot_near_one {d : Quat} (hd : d.Unit) (x : V3 ℝ) :
    ((d.rot.mulVec x).sub x).normSq = 4 * (d.v.cross x).normSq := by
  have e : (d.rot.mulVec x).sub x = (V3.smul 2 ((V3.smul d.w (d.v.cross x)).add (d.v.cross (d.v.cross x)))).add
      (V3.smul (d.w * d.w + d.v.normSq - 1) x) := by lin3
  unfold Unit at hd
  rw [e, show d.w * d.w + d.v.normSq - 1 = 0 by linarith]
  have : ((V3.smul 2 ((V3.smul d.w (d.v.cross x)).add (d.v.cross (d.v.cross x)))).add (V3.smul 0 x)).normSq =
      4 * ((d.w * d.w + d.v.normSq) * (d.v.cross x).normSq) := by
    simp only [lin]; ring
  rw [this, hd, one_mul]

theorem quotient_v {p q : Quat} (hp : p.Unit) (hq : q.Unit) : (p.mul q.conj).v.normSq = 1 - p.dot q ^ 2 := by
  have := unit_mul hp (unit_conj hq)
  unfold Unit at this
  rw [mul_conj_w] at this
  linarith

/-- How far apart two rotations take a point. -/
theorem rot_apart {p q : Quat} (hp : p.Unit) (hq : q.Unit) (x : V3 ℝ) :
    ((p.rot.mulVec x).sub (q.rot.mulVec x)).normSq ≤ 4 * (1 - p.dot q ^ 2) * x.normSq := by
  have e : p.rot.mulVec x = (p.mul q.conj).rot.mulVec (q.rot.mulVec x) := by
    rw [← rot_quotient, M3.mulVec_mulVec, M3.mul_assoc, (rot_isRot hq).orth, M3.mul_one]
  rw [e, rot_near_one (unit_mul hp (unit_conj hq))]
  have h := normSq_cross_le (p.mul q.conj).v (q.rot.mulVec x)
  rw [(rot_isRot hq).normSq_mulVec, quotient_v hp hq] at h
  linarith

theorem rot_apart' {p q : Quat} (hp : p.Unit) (hq : q.Unit) (x : V3 ℝ) :
    ((p.rot.transpose.mulVec x).sub (q.rot.transpose.mulVec x)).normSq ≤ 4 * (1 - p.dot q ^ 2) * x.normSq := by
  have h := rot_apart (unit_conj hp) (unit_conj hq) x
  rw [rot_conj, rot_conj] at h
  have : p.conj.dot q.conj = p.dot q := by simp only [lin]; ring
  rwa [this] at h

theorem sin_sq_le (x : ℝ) : 1 - Real.cos x ^ 2 ≤ x ^ 2 := by
  have h1 := Real.sin_sq_add_cos_sq x
  have h2 : Real.sin x ^ 2 ≤ x ^ 2 := sq_le_sq.mpr Real.abs_sin_le_abs
  linarith

theorem apart_le {p q : Quat} (hp : p.Unit) (hq : q.Unit) : 1 - p.dot q ^ 2 ≤ Real.arccos (p.dot q) ^ 2 := by
  have h := unit_w (unit_mul hp (unit_conj hq))
  rw [mul_conj_w] at h
  have := sin_sq_le (Real.arccos (p.dot q))
  rwa [Real.cos_arccos h.1 h.2] at this

theorem exp_dot (a : V3 ℝ) {q : Quat} (hq : q.Unit) : ((exp a).mul q).dot q = Real.cos (a.norm / 2) := by
  have : ((exp a).mul q).dot q = (exp a).w * (q.w * q.w + q.v.normSq) := by simp only [lin]; ring
  unfold Unit at hq
  rw [this, hq, mul_one]
  rfl

theorem vsum_normSq_le {α : Type} (l : List α) (f : α → V3 ℝ) :
    (vsum (l.map f)).normSq ≤ l.length * (l.map (fun a => (f a).normSq)).sum := by
  obtain ⟨h1, h2, h3⟩ := vsum_parts (l.map f)
  rw [List.map_map] at h1 h2 h3
  have e : (vsum (l.map f)).normSq = (vsum (l.map f)).x ^ 2 + (vsum (l.map f)).y ^ 2 + (vsum (l.map f)).z ^ 2 := by
    simp only [lin]; ring
  have s : (l.map (fun a => (f a).normSq)).sum = (l.map (fun a => (f a).x ^ 2)).sum +
      ((l.map (fun a => (f a).y ^ 2)).sum + (l.map (fun a => (f a).z ^ 2)).sum) := by
    rw [← Graph.sum_map_add, ← Graph.sum_map_add]
    congr 1
    apply List.map_congr_left
    intro a _
    simp only [lin]
    ring
  rw [e, h1, h2, h3, s]
  have b1 := sum_sq_le l (V3.x ∘ f)
  have b2 := sum_sq_le l (V3.y ∘ f)
  have b3 := sum_sq_le l (V3.z ∘ f)
  simp only [Function.comp_def] at *
  nlinarith

end Verif.Geo.Quat

namespace Verif.Sfm

open Verif.Geo Filter

/-- By how much points differ along the edges. -/
def spread (es : Graph.Edges) (z : Nat → V3 ℝ) : ℝ := (es.map (fun e => ((z e.2.1).sub (z e.1)).normSq)).sum

/-- Where a camera is, seen from where it should be. -/
noncomputable def offset (X Y : Nat → Iso ℝ) (v : Nat) : V3 ℝ := (X v).rot.transpose.mulVec ((X v).t.sub (Y v).t)

/-- Where a camera should be, negated. -/
noncomputable def place (Y : Nat → Iso ℝ) (v : Nat) : V3 ℝ := (Y v).rot.transpose.mulVec (Y v).t

theorem spread_nonneg (es : Graph.Edges) (z : Nat → V3 ℝ) : 0 ≤ spread es z :=
  Graph.sum_map_nonneg _ _ (fun _ _ => V3.normSq_nonneg _)

theorem spread_energy {es : Graph.Edges} (hw : ∀ e ∈ es, e.2.2 = 0) (z : Nat → V3 ℝ) :
    spread es z = Graph.energy es (fun v => (z v).x) + (Graph.energy es (fun v => (z v).y) + Graph.energy es (fun v => (z v).z)) := by
  unfold spread Graph.energy
  rw [← Graph.sum_map_add, ← Graph.sum_map_add]
  congr 1
  apply List.map_congr_left
  intro e he
  unfold Graph.res
  rw [hw e he]
  simp only [lin]
  ring

variable {rate : ℝ} {edges : List (Nat × Nat × Iso ℝ)} {X Y : Nat → Iso ℝ} {q : Nat → Quat}

theorem sum_translation (l : List Tangent) : (Tangent.sum l).translation = Quat.vsum (l.map Tangent.translation) := by
  obtain ⟨⟨h4, h5, h6⟩, _⟩ := Tangent.total_parts l
  obtain ⟨g1, g2, g3⟩ := Quat.vsum_parts (l.map Tangent.translation)
  rw [List.map_map] at g1 g2 g3
  ext
  · rw [h4, g1]; rfl
  · rw [h5, g2]; rfl
  · rw [h6, g3]; rfl

/-- The translation missing at an edge, turned. -/
noncomputable def missing (X Y : Nat → Iso ℝ) (q : Nat → Quat) (v o : Nat) : V3 ℝ :=
  ((q o).rot.mulVec ((offset X Y o).sub (offset X Y v))).add
    ((place Y v).sub ((q o).rot.mulVec ((q v).rot.transpose.mulVec (place Y v))))

theorem missing_eq (hXr : ∀ u, (X u).Rigid) (hYr : ∀ u, (Y u).Rigid) {e : Nat × Nat × Iso ℝ}
    (hY : Y e.1 = e.2.2.mul (Y e.2.1)) (hX : ∀ u, (X u).rot = (Y u).rot.mul (q u).rot) :
    (((e.2.2.mul (X e.2.1)).mul (X e.1).inv).se3).translation = (Y e.1).rot.mulVec (missing X Y q e.1 e.2.1) := by
  have hS : (Y e.1).rot.IsRot := hYr e.1
  have hR : (X e.2.1).rot.IsRot := hXr e.2.1
  have hY1 : (Y e.1).rot = e.2.2.rot.mul (Y e.2.1).rot := congrArg Iso.rot hY
  have hY2 : (Y e.1).t = (e.2.2.rot.mulVec (Y e.2.1).t).add e.2.2.t := congrArg Iso.t hY
  have h1 : (Y e.1).rot.mul (q e.2.1).rot = e.2.2.rot.mul (X e.2.1).rot := by rw [hX, hY1, M3.mul_assoc]
  have h2 : (Y e.1).rot.mulVec (place Y e.1) = (Y e.1).t := by
    unfold place
    rw [M3.mulVec_mulVec, hS.orth', M3.one_mulVec]
  have h3 : (q e.1).rot.transpose.mulVec (place Y e.1) = (X e.1).rot.transpose.mulVec (Y e.1).t := by
    unfold place
    rw [M3.mulVec_mulVec, hX, M3.transpose_mul]
  have h4 : (X e.2.1).rot.mulVec (offset X Y e.2.1) = (X e.2.1).t.sub (Y e.2.1).t := by
    unfold offset
    rw [M3.mulVec_mulVec, hR.orth', M3.one_mulVec]
  have hsub : ∀ (A : M3 ℝ) (a b : V3 ℝ), A.mulVec (a.sub b) = (A.mulVec a).sub (A.mulVec b) := by intro A a b; lin3
  unfold missing
  rw [M3.mulVec_add, hsub _ (place Y e.1), h2, M3.mulVec_mulVec, M3.mulVec_mulVec, h1, h3, hsub _ (offset X Y e.2.1),
    ← M3.mulVec_mulVec, h4]
  show ((e.2.2.rot.mul (X e.2.1).rot).mulVec ((X e.1).rot.transpose.mulVec (X e.1).t).neg).add
    ((e.2.2.rot.mulVec (X e.2.1).t).add e.2.2.t) = _
  unfold offset
  rw [hsub _ (X e.1).t, hsub _ _ ((X e.1).rot.transpose.mulVec (Y e.1).t), hsub _ (X e.2.1).t, hY2]
  generalize (X e.1).rot.transpose.mulVec ((e.2.2.rot.mulVec (Y e.2.1).t).add e.2.2.t) = a
  generalize (X e.1).rot.transpose.mulVec (X e.1).t = b
  generalize e.2.2.rot.mul (X e.2.1).rot = A
  lin3

/-- Where one round takes a camera. -/
theorem offset_step (hXr : ∀ u, (X u).Rigid) (hYr : ∀ u, (Y u).Rigid) (hY : ∀ e ∈ edges, Y e.1 = e.2.2.mul (Y e.2.1))
    (hX : ∀ u, (X u).rot = (Y u).rot.mul (q u).rot) (hq : ∀ u, (q u).Unit) (hp : ∀ u v, 0 < (q u).dot (q v)) (v : Nat) :
    offset (graphStep rate edges X) Y v = ((offset X Y v).add (((q v).rot.transpose.mulVec (place Y v)).sub
      ((Quat.qstep rate (bareEdges edges) q v).rot.transpose.mulVec (place Y v)))).add
      (V3.smul rate (Quat.vsum (((bareEdges edges).filter (fun e => e.1 == v)).map (fun e =>
        (Quat.qstep rate (bareEdges edges) q v).rot.transpose.mulVec (missing X Y q e.1 e.2.1))))) := by
  have hrot := graphStep_quat (rate := rate) (edges := edges) (X := X) (Y := fun u => (Y u).rot) hYr
    (fun e he => congrArg Iso.rot (hY e he)) hX hq hp v
  have hS : (Y v).rot.IsRot := hYr v
  have hR : (X v).rot.IsRot := hXr v
  have hqu : (Quat.qstep rate (bareEdges edges) q v).Unit := Quat.unit_mul (Quat.exp_unit _) (hq v)
  generalize hq' : Quat.qstep rate (bareEdges edges) q v = q' at *
  have hq'r := Quat.rot_isRot hqu
  have hsub : ∀ (A : M3 ℝ) (a b : V3 ℝ), A.mulVec (a.sub b) = (A.mulVec a).sub (A.mulVec b) := by intro A a b; lin3
  -- the sum of the translations
  have hsum : V3.smul rate (Quat.vsum (((bareEdges edges).filter (fun e => e.1 == v)).map (fun e =>
      q'.rot.transpose.mulVec (missing X Y q e.1 e.2.1)))) = ((Y v).rot.mul q'.rot).transpose.mulVec
      (V3.smul rate (Tangent.sum ((edges.filter (fun e => e.1 == v)).map
        (fun e => ((e.2.2.mul (X e.2.1)).mul (X v).inv).se3))).translation) := by
    rw [sum_translation, List.map_map]
    unfold bareEdges
    rw [List.filter_map, List.map_map]
    apply Quat.vsum_linear
    intro e hmem
    obtain ⟨h1, h2⟩ := List.mem_filter.mp hmem
    have hev : e.1 = v := by simpa using h2
    subst hev
    show V3.smul rate (q'.rot.transpose.mulVec (missing X Y q e.1 e.2.1)) = ((Y e.1).rot.mul q'.rot).transpose.mulVec
      (V3.smul rate (((e.2.2.mul (X e.2.1)).mul (X e.1).inv).se3).translation)
    rw [missing_eq hXr hYr (hY e h1) hX, M3.transpose_mul, M3.mulVec_smul, M3.mulVec_mulVec, M3.mul_assoc, hS.orth, M3.mul_one]
  rw [hsum]
  unfold offset
  rw [hrot]
  unfold graphStep at *
  generalize Tangent.sum ((edges.filter (fun e => e.1 == v)).map
        (fun e => ((e.2.2.mul (X e.2.1)).mul (X v).inv).se3)) = T at *
  have hA : (expRot (V3.smul rate T.rotation)).mul (X v).rot = (Y v).rot.mul q'.rot := hrot
  show ((Y v).rot.mul q'.rot).transpose.mulVec ((((expRot (V3.smul rate T.rotation)).mulVec (X v).t).add
    (V3.smul rate T.translation)).sub (Y v).t) = _
  have hE : expRot (V3.smul rate T.rotation) = ((Y v).rot.mul q'.rot).mul (X v).rot.transpose := by
    rw [← hA, M3.mul_assoc, hR.orth', M3.mul_one]
  have h1 : ((Y v).rot.mul q'.rot).transpose.mulVec ((expRot (V3.smul rate T.rotation)).mulVec (X v).t) =
      (X v).rot.transpose.mulVec (X v).t := by
    have : ((Y v).rot.mul q'.rot).IsRot := hS.mul hq'r
    rw [hE, M3.mulVec_mulVec, ← M3.mul_assoc, this.orth, M3.one_mul]
  have h2 : ((Y v).rot.mul q'.rot).transpose.mulVec (Y v).t = q'.rot.transpose.mulVec (place Y v) := by
    unfold place
    rw [M3.mulVec_mulVec, M3.transpose_mul]
  have h3 : (q v).rot.transpose.mulVec (place Y v) = (X v).rot.transpose.mulVec (Y v).t := by
    unfold place
    rw [M3.mulVec_mulVec, hX, M3.transpose_mul]
  rw [hsub, M3.mulVec_add, h1, h2, h3, hsub]
  lin3

/-- The disturbance of a camera in one round. -/
noncomputable def disturbance (rate : ℝ) (es : Graph.Edges) (X Y : Nat → Iso ℝ) (q : Nat → Quat) (v : Nat) : V3 ℝ :=
  (((q v).rot.transpose.mulVec (place Y v)).sub ((Quat.qstep rate es q v).rot.transpose.mulVec (place Y v))).add
    (V3.smul rate (Quat.vsum ((es.filter (fun e => e.1 == v)).map (fun e =>
      ((Quat.qstep rate es q v).rot.transpose.mulVec (missing X Y q e.1 e.2.1)).sub
        ((offset X Y e.2.1).sub (offset X Y e.1))))))

theorem vsum_split {α : Type} (l : List α) (f g : α → V3 ℝ) :
    Quat.vsum (l.map f) = (Quat.vsum (l.map (fun a => (f a).sub (g a)))).add (Quat.vsum (l.map g)) := by
  induction l with
  | nil => show V3.zero = V3.zero.add V3.zero; lin3
  | cons a l ih =>
    show (f a).add (Quat.vsum (l.map f)) = (((f a).sub (g a)).add (Quat.vsum (l.map (fun a => (f a).sub (g a))))).add
      ((g a).add (Quat.vsum (l.map g)))
    rw [ih]
    lin3

theorem offset_disturbed (hXr : ∀ u, (X u).Rigid) (hYr : ∀ u, (Y u).Rigid) (hY : ∀ e ∈ edges, Y e.1 = e.2.2.mul (Y e.2.1))
    (hX : ∀ u, (X u).rot = (Y u).rot.mul (q u).rot) (hq : ∀ u, (q u).Unit) (hp : ∀ u v, 0 < (q u).dot (q v)) (v : Nat) :
    offset (graphStep rate edges X) Y v =
      ((offset X Y v).add (V3.smul rate (Quat.vsum (((bareEdges edges).filter (fun e => e.1 == v)).map (fun e =>
        (offset X Y e.2.1).sub (offset X Y e.1)))))).add (disturbance rate (bareEdges edges) X Y q v) := by
  rw [offset_step hXr hYr hY hX hq hp v]
  unfold disturbance
  rw [vsum_split _ _ (fun e => (offset X Y e.2.1).sub (offset X Y e.1))]
  lin3

/-- One coordinate of one round. -/
theorem coord_disturbed (f : V3 ℝ → ℝ) (hf : f = V3.x ∨ f = V3.y ∨ f = V3.z) {es : Graph.Edges} (hw : ∀ e ∈ es, e.2.2 = 0)
    (z : Nat → V3 ℝ) (v : Nat) : f ((z v).add (V3.smul rate (Quat.vsum ((es.filter (fun e => e.1 == v)).map (fun e =>
      (z e.2.1).sub (z e.1)))))) = Graph.descend rate es (fun v => f (z v)) v := by
  obtain ⟨h1, h2, h3⟩ := Quat.vsum_parts ((es.filter (fun e => e.1 == v)).map (fun e => (z e.2.1).sub (z e.1)))
  have key : ∀ f : V3 ℝ → ℝ, (∀ a b : V3 ℝ, f (a.sub b) = f a - f b) →
      (((es.filter (fun e => e.1 == v)).map (fun e => (z e.2.1).sub (z e.1))).map f).sum = Graph.pull es (fun v => f (z v)) v := by
    intro f hf
    unfold Graph.pull
    rw [List.map_map]
    congr 1
    apply List.map_congr_left
    intro e he
    show f _ = _
    unfold Graph.res
    rw [hf, hw e (List.mem_filter.mp he).1, add_zero]
  rw [key V3.x (fun a b => by simp only [lin])] at h1
  rw [key V3.y (fun a b => by simp only [lin])] at h2
  rw [key V3.z (fun a b => by simp only [lin])] at h3
  unfold Graph.descend
  rcases hf with rfl | rfl | rfl
  · rw [← h1]; simp only [lin]
  · rw [← h2]; simp only [lin]
  · rw [← h3]; simp only [lin]

end Verif.Sfm
