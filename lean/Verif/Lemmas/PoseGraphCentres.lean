import Verif.Lemmas.PoseGraphMoves

/-! Helper lemmas: with the right orientations, the optimisation is a descent of the camera centres. -/

namespace Verif.Sfm

open Verif.Geo

/-- Where a motion asks the camera to be, relative to the camera it starts from. -/
noncomputable def askedOffset (X : Nat → Iso ℝ) (e : Nat × Nat × Iso ℝ) : V3 ℝ := ((X e.1).rot.transpose.mulVec e.2.2.t).neg

variable {rate : ℝ} {edges : List (Nat × Nat × Iso ℝ)} {X : Nat → Iso ℝ} {v : Nat}

theorem centre_eq (a : Iso ℝ) : centre a = (a.rot.transpose.mulVec a.t).neg := by
  unfold centre
  lin3

theorem centre_asked {e : Nat × Nat × Iso ℝ} (he : e.2.2.Rigid) (ho : (X e.1).rot = e.2.2.rot.mul (X e.2.1).rot) :
    centre (e.2.2.mul (X e.2.1)) = (centre (X e.2.1)).add (askedOffset X e) := by
  rw [centre_eq, centre_eq]
  unfold askedOffset
  rw [ho]
  show ((e.2.2.rot.mul (X e.2.1).rot).transpose.mulVec ((e.2.2.rot.mulVec (X e.2.1).t).add e.2.2.t)).neg = _
  rw [M3.mulVec_add, M3.mulVec_mulVec, M3.transpose_mul, M3.mul_assoc, he.orth, M3.mul_one]
  lin3

theorem askedOffset_inv {a b : Nat} {m : Iso ℝ} (ho : (X a).rot = m.rot.mul (X b).rot) :
    askedOffset X (b, a, m.inv) = (askedOffset X (a, b, m)).neg := by
  unfold askedOffset
  show ((X b).rot.transpose.mulVec (m.rot.transpose.mulVec m.t).neg).neg = ((X a).rot.transpose.mulVec m.t).neg.neg
  rw [ho, M3.transpose_mul, M3.mulVec_neg, M3.mulVec_mulVec]

/-- The translation still missing, seen in the world. -/
theorem missing_translation (hrig : (X v).Rigid) {e : Nat × Nat × Iso ℝ} (hev : e.1 = v) (he : e.2.2.Rigid)
    (ho : (X e.1).rot = e.2.2.rot.mul (X e.2.1).rot) :
    (((e.2.2.mul (X e.2.1)).mul (X v).inv).se3).rotation = V3.zero ∧
    ((X v).rot.transpose.mulVec (((e.2.2.mul (X e.2.1)).mul (X v).inv).se3).translation).neg =
      ((centre (X e.2.1)).add (askedOffset X e)).sub (centre (X v)) := by
  subst hev
  have h1 : ((e.2.2.mul (X e.2.1)).mul (X e.1).inv).rot = M3.one := by
    show (e.2.2.rot.mul (X e.2.1).rot).mul (X e.1).rot.transpose = M3.one
    rw [← ho]
    exact hrig.orth'
  refine ⟨?_, ?_⟩
  · show logRot _ = _
    rw [h1, logRot_one]
  · rw [← centre_asked he ho, centre_eq, centre_eq]
    show ((X e.1).rot.transpose.mulVec (((e.2.2.rot.mul (X e.2.1).rot).mulVec
      ((X e.1).rot.transpose.mulVec (X e.1).t).neg).add ((e.2.2.rot.mulVec (X e.2.1).t).add e.2.2.t))).neg =
      ((e.2.2.rot.mul (X e.2.1).rot).transpose.mulVec ((e.2.2.rot.mulVec (X e.2.1).t).add e.2.2.t)).neg.sub
        ((X e.1).rot.transpose.mulVec (X e.1).t).neg
    rw [← ho, M3.mulVec_neg, M3.mulVec_mulVec, hrig.orth', M3.one_mulVec, M3.mulVec_add]
    lin3

/-- One round with the right orientations. -/
theorem graphStep_oriented (hrig : (X v).Rigid) (he : ∀ e ∈ edges, e.2.2.Rigid) (ho : Oriented edges X) :
    (graphStep rate edges X v).rot = (X v).rot ∧
    (centre (graphStep rate edges X v)).x = (centre (X v)).x + rate * ((edges.filter (fun e => e.1 == v)).map
      (fun e => (centre (X e.2.1)).x + (askedOffset X e).x - (centre (X v)).x)).sum ∧
    (centre (graphStep rate edges X v)).y = (centre (X v)).y + rate * ((edges.filter (fun e => e.1 == v)).map
      (fun e => (centre (X e.2.1)).y + (askedOffset X e).y - (centre (X v)).y)).sum ∧
    (centre (graphStep rate edges X v)).z = (centre (X v)).z + rate * ((edges.filter (fun e => e.1 == v)).map
      (fun e => (centre (X e.2.1)).z + (askedOffset X e).z - (centre (X v)).z)).sum := by
  have hm : ∀ e ∈ edges.filter (fun e => e.1 == v), e.1 = v ∧ e ∈ edges := fun e h => by
    obtain ⟨h1, h2⟩ := List.mem_filter.mp h
    exact ⟨by simpa using h2, h1⟩
  unfold graphStep
  obtain ⟨⟨h1, h2, h3⟩, _⟩ := Tangent.total_parts ((edges.filter (fun e => e.1 == v)).map
    (fun e => ((e.2.2.mul (X e.2.1)).mul (X v).inv).se3))
  have hz : (Tangent.sum ((edges.filter (fun e => e.1 == v)).map
      (fun e => ((e.2.2.mul (X e.2.1)).mul (X v).inv).se3))).rotation = V3.zero := by
    apply Tangent.total_rotation_zero
    intro a ha
    obtain ⟨e, hmem, rfl⟩ := List.mem_map.mp ha
    obtain ⟨hev, hed⟩ := hm e hmem
    exact (missing_translation hrig hev (he e hed) (ho e hed)).1
  rw [List.map_map] at h1 h2 h3
  generalize Tangent.sum ((edges.filter (fun e => e.1 == v)).map
    (fun e => ((e.2.2.mul (X e.2.1)).mul (X v).inv).se3)) = T at *
  have hp : (T.scale rate).pose.mul (X v) = ⟨(X v).rot, (X v).t.add (V3.smul rate T.translation)⟩ := by
    unfold Tangent.scale Tangent.pose
    rw [hz]
    have : V3.smul rate V3.zero = V3.zero := by lin3
    simp only [this]
    rw [expRot_zero]
    show (⟨M3.one.mul (X v).rot, (M3.one.mulVec (X v).t).add _⟩ : Iso ℝ) = _
    rw [M3.one_mul, M3.one_mulVec]
  rw [hp]
  refine ⟨rfl, ?_⟩
  -- the sum of the missing translations, turned into the world
  have key : ∀ f : V3 ℝ → ℝ, (∀ a b c : V3 ℝ, f ((a.add b).sub c) = f a + f b - f c) →
      ((edges.filter (fun e => e.1 == v)).map (fun e => f (((X v).rot.transpose.mulVec
        (((e.2.2.mul (X e.2.1)).mul (X v).inv).se3).translation).neg))).sum =
      ((edges.filter (fun e => e.1 == v)).map
        (fun e => f (centre (X e.2.1)) + f (askedOffset X e) - f (centre (X v)))).sum := by
    intro f hf
    congr 1
    apply List.map_congr_left
    intro e hmem
    obtain ⟨hev, hed⟩ := hm e hmem
    rw [(missing_translation hrig hev (he e hed) (ho e hed)).2, hf]
  have kx := key V3.x (fun a b c => by simp only [lin])
  have ky := key V3.y (fun a b c => by simp only [lin])
  have kz := key V3.z (fun a b c => by simp only [lin])
  rw [← kx, ← ky, ← kz]
  have lin3sum : ∀ (l : List (Nat × Nat × Iso ℝ)) (p q r : ℝ) (f : Nat × Nat × Iso ℝ → V3 ℝ),
      (l.map (fun e => -(p * (f e).x + q * (f e).y + r * (f e).z))).sum =
        -(p * (l.map (fun e => (f e).x)).sum + q * (l.map (fun e => (f e).y)).sum + r * (l.map (fun e => (f e).z)).sum) := by
    intro l p q r f
    induction l with
    | nil => simp
    | cons a l ih => simp only [List.map_cons, List.sum_cons, ih]; ring
  have e1 := lin3sum (edges.filter (fun e => e.1 == v)) (X v).rot.m11 (X v).rot.m21 (X v).rot.m31
    (fun e => (((e.2.2.mul (X e.2.1)).mul (X v).inv).se3).translation)
  have e2 := lin3sum (edges.filter (fun e => e.1 == v)) (X v).rot.m12 (X v).rot.m22 (X v).rot.m32
    (fun e => (((e.2.2.mul (X e.2.1)).mul (X v).inv).se3).translation)
  have e3 := lin3sum (edges.filter (fun e => e.1 == v)) (X v).rot.m13 (X v).rot.m23 (X v).rot.m33
    (fun e => (((e.2.2.mul (X e.2.1)).mul (X v).inv).se3).translation)
  have t1 : T.translation.x = ((edges.filter (fun e => e.1 == v)).map
    (fun e => (((e.2.2.mul (X e.2.1)).mul (X v).inv).se3).translation.x)).sum := h1
  have t2 : T.translation.y = ((edges.filter (fun e => e.1 == v)).map
    (fun e => (((e.2.2.mul (X e.2.1)).mul (X v).inv).se3).translation.y)).sum := h2
  have t3 : T.translation.z = ((edges.filter (fun e => e.1 == v)).map
    (fun e => (((e.2.2.mul (X e.2.1)).mul (X v).inv).se3).translation.z)).sum := h3
  rw [← t1, ← t2, ← t3] at e1 e2 e3
  have g1 : ((edges.filter (fun e => e.1 == v)).map (fun e => (((X v).rot.transpose.mulVec
      (((e.2.2.mul (X e.2.1)).mul (X v).inv).se3).translation).neg).x)).sum = _ := e1
  have g2 : ((edges.filter (fun e => e.1 == v)).map (fun e => (((X v).rot.transpose.mulVec
      (((e.2.2.mul (X e.2.1)).mul (X v).inv).se3).translation).neg).y)).sum = _ := e2
  have g3 : ((edges.filter (fun e => e.1 == v)).map (fun e => (((X v).rot.transpose.mulVec
      (((e.2.2.mul (X e.2.1)).mul (X v).inv).se3).translation).neg).z)).sum = _ := e3
  rw [g1, g2, g3, centre_eq, centre_eq]
  simp only [lin]
  refine ⟨?_, ?_, ?_⟩ <;> ring

/-- The graph of one coordinate. -/
noncomputable def coordEdges (f : V3 ℝ → ℝ) (X : Nat → Iso ℝ) (edges : List (Nat × Nat × Iso ℝ)) : Graph.Edges :=
  edges.map (fun e => (e.1, e.2.1, f (askedOffset X e)))

theorem pull_coord (f : V3 ℝ → ℝ) (x : Nat → ℝ) : Graph.pull (coordEdges f X edges) x v =
    ((edges.filter (fun e => e.1 == v)).map (fun e => x e.2.1 + f (askedOffset X e) - x v)).sum := by
  unfold Graph.pull coordEdges
  rw [List.filter_map, List.map_map]
  congr 1
  apply List.map_congr_left
  intro e he
  have : e.1 = v := by simpa using (List.mem_filter.mp he).2
  show x e.2.1 + f (askedOffset X e) - x e.1 = _
  rw [this]

theorem degree_coord (f : V3 ℝ → ℝ) :
    Graph.degree (coordEdges f X edges) v = (edges.filter (fun e => e.1 == v)).length := by
  unfold Graph.degree coordEdges
  rw [List.filter_map, List.length_map]
  rfl

theorem coordEdges_congr (f : V3 ℝ → ℝ) {Y : Nat → Iso ℝ} (h : ∀ u, (Y u).rot = (X u).rot) :
    coordEdges f Y edges = coordEdges f X edges := by
  unfold coordEdges askedOffset
  simp only [h]

/-- The coordinates, one of which is meant. -/
def IsCoordinate (f : V3 ℝ → ℝ) : Prop := f = V3.x ∨ f = V3.y ∨ f = V3.z

theorem iterate_centre (hrig : ∀ u, (X u).Rigid) (he : ∀ e ∈ edges, e.2.2.Rigid) (ho : Oriented edges X) (n : Nat) :
    (∀ u, ((graphStep rate edges)^[n] X u).rot = (X u).rot) ∧
    ∀ f, IsCoordinate f → (fun u => f (centre ((graphStep rate edges)^[n] X u))) =
      (Graph.descend rate (coordEdges f X edges))^[n] (fun u => f (centre (X u))) := by
  induction n with
  | zero => exact ⟨fun _ => rfl, fun _ _ => rfl⟩
  | succ n ih =>
    obtain ⟨ih1, ih2⟩ := ih
    have ho' : Oriented edges ((graphStep rate edges)^[n] X) := by
      intro a ha
      rw [ih1, ih1]
      exact ho a ha
    have hs := fun u => graphStep_oriented (rate := rate) (v := u) (iterate_rigid (rate := rate) (edges := edges) hrig n u) he ho'
    refine ⟨?_, ?_⟩
    · intro u
      rw [Function.iterate_succ_apply', (hs u).1, ih1]
    · intro f hf
      rw [Function.iterate_succ_apply', Function.iterate_succ_apply', ← ih2 f hf]
      funext u
      unfold Graph.descend
      rw [← coordEdges_congr (X := X) (Y := (graphStep rate edges)^[n] X) f ih1, pull_coord]
      rcases hf with rfl | rfl | rfl
      · exact (hs u).2.1
      · exact (hs u).2.2.1
      · exact (hs u).2.2.2

/-- The disagreement, coordinate by coordinate. -/
theorem disagreement_eq (he : ∀ e ∈ edges, e.2.2.Rigid) (ho : Oriented edges X) : disagreement edges X =
    Graph.energy (coordEdges V3.x X edges) (fun u => (centre (X u)).x) +
    Graph.energy (coordEdges V3.y X edges) (fun u => (centre (X u)).y) +
    Graph.energy (coordEdges V3.z X edges) (fun u => (centre (X u)).z) := by
  unfold disagreement Graph.energy coordEdges
  simp only [List.map_map]
  rw [← Graph.sum_map_add, ← Graph.sum_map_add]
  congr 1
  apply List.map_congr_left
  intro e hmem
  rw [centre_asked (he e hmem) (ho e hmem)]
  show _ = Graph.res _ _ * Graph.res _ _ + Graph.res _ _ * Graph.res _ _ + Graph.res _ _ * Graph.res _ _
  unfold Graph.res
  simp only [lin]
  ring

/-- Every motion is also asked for in the other direction. -/
theorem asks_flip {R : Recon (Iso ℝ)} (hw : R.constraints.WF) (hrig : RigidConstraints R) :
    (R.asks.map (fun e => (e.2.1, e.1, e.2.2.inv))).Perm R.asks := by
  unfold Recon.asks
  have : ∀ l : List (Constraint (Iso ℝ)), (∀ c ∈ l, c.first.Rigid ∧ c.second.Rigid) →
      ((l.flatMap Constraint.asks).map (fun e => (e.2.1, e.1, e.2.2.inv))).Perm (l.flatMap Constraint.asks) := by
    intro l hl
    induction l with
    | nil => exact List.Perm.refl _
    | cons c l ih =>
      rw [List.flatMap_cons, List.map_append]
      refine List.Perm.append ?_ (ih (fun c hc => hl c (by simp [hc])))
      obtain ⟨h1, h2⟩ := hl c (by simp)
      have a : c.asks = [(c.v0, c.v1, c.first.inv), (c.v1, c.v0, c.first), (c.v0, c.v2, c.second.inv), (c.v2, c.v0, c.second),
          (c.v1, c.v2, c.first.mul c.second.inv), (c.v2, c.v1, c.second.mul c.first.inv)] := by
        unfold Constraint.asks
        simp only [Iso.one_mul, Iso.inv_one, Iso.mul_one]
      rw [a]
      simp only [List.map_cons, List.map_nil]
      rw [Iso.Rigid.mul_inv_rev h1 (Iso.Rigid.inv h2), Iso.Rigid.mul_inv_rev h2 (Iso.Rigid.inv h1), Iso.Rigid.inv_inv h1,
        Iso.Rigid.inv_inv h2]
      refine (List.Perm.swap _ _ _).trans ((List.Perm.cons _ (List.Perm.cons _ ?_)))
      refine (List.Perm.swap _ _ _).trans ((List.Perm.cons _ (List.Perm.cons _ ?_)))
      exact List.Perm.swap _ _ _
  apply this
  intro c hc
  obtain ⟨⟨k, c'⟩, hk, rfl⟩ := List.mem_map.mp hc
  exact hrig k c' (FMap.get_of_mem hw.nodup hk)

theorem asks_rigid {R : Recon (Iso ℝ)} (hw : R.constraints.WF) (hrig : RigidConstraints R) : ∀ e ∈ R.asks, e.2.2.Rigid := by
  intro e he
  unfold Recon.asks at he
  obtain ⟨c, hc, he⟩ := List.mem_flatMap.mp he
  obtain ⟨⟨k, c'⟩, hk, rfl⟩ := List.mem_map.mp hc
  obtain ⟨h1, h2⟩ := hrig k c' (FMap.get_of_mem hw.nodup hk)
  unfold Constraint.asks at he
  simp only [List.mem_cons, List.not_mem_nil, or_false] at he
  rcases he with rfl | rfl | rfl | rfl | rfl | rfl
  · exact Iso.Rigid.mul Iso.Rigid.one (Iso.Rigid.inv h1)
  · exact Iso.Rigid.mul h1 (Iso.Rigid.inv Iso.Rigid.one)
  · exact Iso.Rigid.mul Iso.Rigid.one (Iso.Rigid.inv h2)
  · exact Iso.Rigid.mul h2 (Iso.Rigid.inv Iso.Rigid.one)
  · exact Iso.Rigid.mul h1 (Iso.Rigid.inv h2)
  · exact Iso.Rigid.mul h2 (Iso.Rigid.inv h1)

theorem coordEdges_flip {R : Recon (Iso ℝ)} (hw : R.constraints.WF) (hrig : RigidConstraints R) (ho : Oriented R.asks X)
    {f : V3 ℝ → ℝ} (hf : IsCoordinate f) : ((coordEdges f X R.asks).map Graph.flip).Perm (coordEdges f X R.asks) := by
  have h := (asks_flip hw hrig).map (fun e => (e.1, e.2.1, f (askedOffset X e)))
  unfold coordEdges
  rw [List.map_map] at h ⊢
  have e1 : R.asks.map (Graph.flip ∘ fun e => (e.1, e.2.1, f (askedOffset X e))) =
      R.asks.map ((fun e => (e.1, e.2.1, f (askedOffset X e))) ∘ fun e => (e.2.1, e.1, e.2.2.inv)) := by
    apply List.map_congr_left
    rintro ⟨a, b, m⟩ he
    show (b, a, -f (askedOffset X (a, b, m))) = (b, a, f (askedOffset X (b, a, m.inv)))
    rw [askedOffset_inv (ho _ he)]
    rcases hf with rfl | rfl | rfl <;> rfl
  rw [e1]
  exact h

/-- The number of motions asked for that lead to a view. -/
theorem asks_count {R : Recon (Iso ℝ)} (hR : R.Consistent) (v : Nat) :
    (R.asks.filter (fun e => e.1 == v)).length = 2 * R.constraintCount v := by
  unfold Recon.asks Recon.constraintCount
  have : ∀ l : List (Constraint (Iso ℝ)), (∀ c ∈ l, c.v0 ≠ c.v1 ∧ c.v0 ≠ c.v2 ∧ c.v1 ≠ c.v2) →
      ((l.flatMap Constraint.asks).filter (fun e => e.1 == v)).length =
        2 * (l.filter (fun c => c.v0 = v ∨ c.v1 = v ∨ c.v2 = v)).length := by
    intro l hl
    induction l with
    | nil => rfl
    | cons c l ih =>
      rw [List.flatMap_cons, List.filter_append, List.length_append, ih (fun c hc => hl c (by simp [hc]))]
      obtain ⟨h1, h2, h3⟩ := hl c (by simp)
      unfold Constraint.asks
      by_cases e0 : c.v0 = v
      · subst e0
        rw [List.filter_cons_of_pos (p := fun c' : Constraint (Iso ℝ) => _) (by simp)]
        simp only [List.filter_cons, List.filter_nil, Ne.symm h1, Ne.symm h2, beq_self_eq_true, beq_iff_eq, if_true, if_false,
          List.length_cons, List.length_nil]
        omega
      · by_cases e1 : c.v1 = v
        · subst e1
          rw [List.filter_cons_of_pos (p := fun c' : Constraint (Iso ℝ) => _) (by simp)]
          simp only [List.filter_cons, List.filter_nil, h1, Ne.symm h3, beq_self_eq_true, beq_iff_eq, if_true, if_false,
            List.length_cons, List.length_nil]
          omega
        · by_cases e2 : c.v2 = v
          · subst e2
            rw [List.filter_cons_of_pos (p := fun c' : Constraint (Iso ℝ) => _) (by simp)]
            simp only [List.filter_cons, List.filter_nil, h2, h3, beq_self_eq_true, beq_iff_eq, if_true, if_false,
              List.length_cons, List.length_nil]
            omega
          · rw [List.filter_cons_of_neg (p := fun c' : Constraint (Iso ℝ) => _) (by simp [e0, e1, e2])]
            simp only [List.filter_cons, List.filter_nil, e0, e1, e2, beq_iff_eq, if_false, List.length_nil]
            omega
  apply this
  intro c hc
  obtain ⟨⟨k, c'⟩, hk, rfl⟩ := List.mem_map.mp hc
  obtain ⟨_, _, _, h⟩ := hR.constraintsLive k c' (FMap.get_of_mem hR.constraintsWF.nodup hk)
  exact h

end Verif.Sfm
