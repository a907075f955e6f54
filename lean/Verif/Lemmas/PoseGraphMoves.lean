import Verif.Lemmas.PoseGraph

/-! Helper lemmas: what one round of the optimisation does to the poses. -/

namespace Verif.Geo

/-! ## Sums in se(3) -/

theorem Tangent.total_eq (l : List Tangent) : Tangent.sum l =
    l.foldl (fun a b => ⟨a.translation.add b.translation, a.rotation.add b.rotation⟩) ⟨V3.zero, V3.zero⟩ := rfl

theorem Tangent.total_parts (l : List Tangent) :
    ((Tangent.sum l).translation.x = (l.map (fun a => a.translation.x)).sum ∧
      (Tangent.sum l).translation.y = (l.map (fun a => a.translation.y)).sum ∧
      (Tangent.sum l).translation.z = (l.map (fun a => a.translation.z)).sum) ∧
    (Tangent.sum l).rotation.x = (l.map (fun a => a.rotation.x)).sum ∧
      (Tangent.sum l).rotation.y = (l.map (fun a => a.rotation.y)).sum ∧
      (Tangent.sum l).rotation.z = (l.map (fun a => a.rotation.z)).sum := by
  rw [Tangent.total_eq]
  have key : ∀ (l : List Tangent) (a : Tangent),
      let s := l.foldl (fun a b => (⟨a.translation.add b.translation, a.rotation.add b.rotation⟩ : Tangent)) a
      (s.translation.x = a.translation.x + (l.map (fun a => a.translation.x)).sum ∧
        s.translation.y = a.translation.y + (l.map (fun a => a.translation.y)).sum ∧
        s.translation.z = a.translation.z + (l.map (fun a => a.translation.z)).sum) ∧
      s.rotation.x = a.rotation.x + (l.map (fun a => a.rotation.x)).sum ∧
        s.rotation.y = a.rotation.y + (l.map (fun a => a.rotation.y)).sum ∧
        s.rotation.z = a.rotation.z + (l.map (fun a => a.rotation.z)).sum := by
    intro l
    induction l with
    | nil => intro a; simp
    | cons b l ih =>
      intro a
      obtain ⟨⟨h1, h2, h3⟩, h4, h5, h6⟩ := ih ⟨a.translation.add b.translation, a.rotation.add b.rotation⟩
      simp only [List.foldl_cons, List.map_cons, List.sum_cons]
      refine ⟨⟨?_, ?_, ?_⟩, ?_, ?_, ?_⟩
      · rw [h1]; simp only [lin]; ring
      · rw [h2]; simp only [lin]; ring
      · rw [h3]; simp only [lin]; ring
      · rw [h4]; simp only [lin]; ring
      · rw [h5]; simp only [lin]; ring
      · rw [h6]; simp only [lin]; ring
  obtain ⟨⟨h1, h2, h3⟩, h4, h5, h6⟩ := key l ⟨V3.zero, V3.zero⟩
  simp only [V3.zero, zero_add] at h1 h2 h3 h4 h5 h6 ⊢
  exact ⟨⟨h1, h2, h3⟩, h4, h5, h6⟩

theorem Tangent.total_zero {l : List Tangent} (h : ∀ a ∈ l, a = ⟨V3.zero, V3.zero⟩) : Tangent.sum l = ⟨V3.zero, V3.zero⟩ := by
  rw [Tangent.total_eq]
  induction l with
  | nil => rfl
  | cons a l ih =>
    rw [List.foldl_cons, h a (by simp)]
    have : (⟨V3.zero.add V3.zero, V3.zero.add V3.zero⟩ : Tangent) = ⟨V3.zero, V3.zero⟩ := by
      rw [V3.zero_add]
    simp only [this]
    exact ih (fun b hb => h b (by simp [hb]))

theorem Tangent.total_rotation_zero {l : List Tangent} (h : ∀ a ∈ l, a.rotation = V3.zero) :
    (Tangent.sum l).rotation = V3.zero := by
  obtain ⟨_, h4, h5, h6⟩ := Tangent.total_parts l
  have z : ∀ f : V3 ℝ → ℝ, f V3.zero = 0 → (l.map (fun a => f a.rotation)).sum = 0 := by
    intro f hf
    have : l.map (fun a => f a.rotation) = l.map (fun _ => (0 : ℝ)) :=
      List.map_congr_left (fun a ha => by rw [h a ha, hf])
    rw [this]
    simp
  ext
  · rw [h4]; exact z V3.x rfl
  · rw [h5]; exact z V3.y rfl
  · rw [h6]; exact z V3.z rfl

theorem Tangent.pose_zero : (⟨V3.zero, V3.zero⟩ : Tangent).pose = Iso.one := by
  unfold Tangent.pose
  rw [expRot_zero]
  rfl

theorem Tangent.pose_rigid (v : Tangent) : v.pose.Rigid := expRot_isRot _

theorem Iso.se3_one : (Iso.one : Iso ℝ).se3 = ⟨V3.zero, V3.zero⟩ := by
  unfold Iso.se3
  show (⟨V3.zero, logRot M3.one⟩ : Tangent) = _
  rw [logRot_one]

/-! ## Poses -/

theorem Iso.Rigid.inv_inv {a : Iso ℝ} (h : a.Rigid) : a.inv.inv = a := by
  rw [← Iso.mul_one a.inv.inv, ← Iso.Rigid.inv_mul h, ← Iso.mul_assoc, Iso.Rigid.inv_mul (Iso.Rigid.inv h), Iso.one_mul]

theorem Iso.Rigid.mul_inv_rev {a b : Iso ℝ} (h : a.Rigid) (h' : b.Rigid) : (a.mul b).inv = b.inv.mul a.inv := by
  have h1 : (a.mul b).mul (b.inv.mul a.inv) = Iso.one := by
    rw [Iso.mul_assoc, ← Iso.mul_assoc b, Iso.Rigid.mul_inv h', Iso.one_mul, Iso.Rigid.mul_inv h]
  rw [← Iso.mul_one (a.mul b).inv, ← h1, ← Iso.mul_assoc, Iso.Rigid.inv_mul (Iso.Rigid.mul h h'), Iso.one_mul]

theorem Iso.inv_one : (Iso.one : Iso ℝ).inv = Iso.one := by lin3

theorem Iso.scale_mul' (s : ℝ) (a b : Iso ℝ) : (a.mul b).scale s = (a.scale s).mul (b.scale s) := by lin3

theorem Iso.scale_inv' (s : ℝ) (a : Iso ℝ) : a.inv.scale s = (a.scale s).inv := by lin3

end Verif.Geo

namespace Verif.Sfm

open Verif.Geo

/-! ## One round -/

variable {rate : ℝ} {edges : List (Nat × Nat × Iso ℝ)} {X : Nat → Iso ℝ} {v : Nat}

theorem graphStep_fixed (hv : (X v).Rigid) (h : ∀ e ∈ edges, e.2.2.mul (X e.2.1) = X e.1) :
    graphStep rate edges X v = X v := by
  unfold graphStep
  rw [Tangent.total_zero]
  · have : (⟨V3.zero, V3.zero⟩ : Tangent).scale rate = ⟨V3.zero, V3.zero⟩ := by
      unfold Tangent.scale
      have : V3.smul rate V3.zero = V3.zero := by lin3
      simp only [this]
    rw [this, Tangent.pose_zero, Iso.one_mul]
  · intro a ha
    obtain ⟨e, he, rfl⟩ := List.mem_map.mp ha
    obtain ⟨he, hev⟩ := List.mem_filter.mp he
    have hev : e.1 = v := by simpa using hev
    rw [h e he, hev, Iso.Rigid.mul_inv hv, Iso.se3_one]

theorem graphStep_rigid (hv : (X v).Rigid) : (graphStep rate edges X v).Rigid :=
  Iso.Rigid.mul (Tangent.pose_rigid _) hv

theorem graphStep_move {g : Iso ℝ} (hg : g.Rigid) (hv : (X v).Rigid) :
    graphStep rate edges (fun u => (X u).mul g) v = (graphStep rate edges X v).mul g := by
  unfold graphStep
  rw [Iso.mul_assoc]
  congr 4
  apply List.map_congr_left
  intro e _
  rw [Iso.Rigid.mul_inv_rev hv hg, ← Iso.mul_assoc e.2.2, Iso.mul_assoc _ g, ← Iso.mul_assoc g, Iso.Rigid.mul_inv hg,
    Iso.one_mul]

theorem graphStep_scale (s : ℝ) :
    graphStep rate (edges.map (fun e => (e.1, e.2.1, e.2.2.scale s))) (fun u => (X u).scale s) v =
      (graphStep rate edges X v).scale s := by
  unfold graphStep
  rw [Iso.scale_mul']
  congr 1
  have e1 : ((edges.map (fun e => (e.1, e.2.1, e.2.2.scale s))).filter (fun e => e.1 == v)) =
      (edges.filter (fun e => e.1 == v)).map (fun e => (e.1, e.2.1, e.2.2.scale s)) := by
    rw [List.filter_map]
    rfl
  rw [e1, List.map_map]
  have e2 : ((fun e : Nat × Nat × Iso ℝ => ((e.2.2.mul ((X e.2.1).scale s)).mul ((X v).scale s).inv).se3) ∘
      fun e : Nat × Nat × Iso ℝ => (e.1, e.2.1, e.2.2.scale s)) =
      fun e : Nat × Nat × Iso ℝ => (((e.2.2.mul (X e.2.1)).mul (X v).inv).scale s).se3 := by
    funext e
    show ((((e.2.2.scale s).mul ((X e.2.1).scale s)).mul ((X v).scale s).inv)).se3 = _
    rw [Iso.scale_mul', Iso.scale_mul', Iso.scale_inv']
  rw [e2]
  generalize (edges.filter (fun e => e.1 == v)) = l
  obtain ⟨⟨h1, h2, h3⟩, h4, h5, h6⟩ := Tangent.total_parts (l.map fun e => (((e.2.2.mul (X e.2.1)).mul (X v).inv).scale s).se3)
  obtain ⟨⟨g1, g2, g3⟩, g4, g5, g6⟩ := Tangent.total_parts (l.map fun e => ((e.2.2.mul (X e.2.1)).mul (X v).inv).se3)
  rw [List.map_map] at h1 h2 h3 h4 h5 h6 g1 g2 g3 g4 g5 g6
  have hr : (Tangent.sum (l.map fun e => (((e.2.2.mul (X e.2.1)).mul (X v).inv).scale s).se3)).rotation =
      (Tangent.sum (l.map fun e => ((e.2.2.mul (X e.2.1)).mul (X v).inv).se3)).rotation := by
    ext
    · rw [h4, g4]; rfl
    · rw [h5, g5]; rfl
    · rw [h6, g6]; rfl
  have ht : (Tangent.sum (l.map fun e => (((e.2.2.mul (X e.2.1)).mul (X v).inv).scale s).se3)).translation =
      V3.smul s (Tangent.sum (l.map fun e => ((e.2.2.mul (X e.2.1)).mul (X v).inv).se3)).translation := by
    ext
    · rw [h1]
      show _ = s * (Tangent.sum _).translation.x
      rw [g1, ← Graph.sum_map_mul]; rfl
    · rw [h2]
      show _ = s * (Tangent.sum _).translation.y
      rw [g2, ← Graph.sum_map_mul]; rfl
    · rw [h3]
      show _ = s * (Tangent.sum _).translation.z
      rw [g3, ← Graph.sum_map_mul]; rfl
  clear h1 h2 h3 h4 h5 h6 g1 g2 g3 g4 g5 g6
  generalize Tangent.sum (l.map fun e => (((e.2.2.mul (X e.2.1)).mul (X v).inv).scale s).se3) = A at *
  generalize Tangent.sum (l.map fun e => ((e.2.2.mul (X e.2.1)).mul (X v).inv).se3) = B at *
  unfold Tangent.scale Tangent.pose Iso.scale
  rw [hr, ht]
  congr 1
  lin3

/-! ## All rounds -/

theorem iterate_fixed (hrig : ∀ u, (X u).Rigid) (h : ∀ e ∈ edges, e.2.2.mul (X e.2.1) = X e.1) (n : Nat) :
    (graphStep rate edges)^[n] X = X := by
  have h1 : graphStep rate edges X = X := funext fun u => graphStep_fixed (hrig u) h
  exact Function.iterate_fixed h1 n

theorem iterate_rigid (hrig : ∀ u, (X u).Rigid) (n : Nat) : ∀ u, ((graphStep rate edges)^[n] X u).Rigid := by
  induction n with
  | zero => exact hrig
  | succ n ih =>
    intro u
    rw [Function.iterate_succ_apply']
    exact graphStep_rigid (ih u)

theorem iterate_move {g : Iso ℝ} (hg : g.Rigid) (hrig : ∀ u, (X u).Rigid) (n : Nat) :
    (graphStep rate edges)^[n] (fun u => (X u).mul g) = fun u => ((graphStep rate edges)^[n] X u).mul g := by
  induction n with
  | zero => rfl
  | succ n ih =>
    rw [Function.iterate_succ_apply', ih, Function.iterate_succ_apply']
    funext u
    exact graphStep_move hg (iterate_rigid hrig n u)

theorem iterate_scale (s : ℝ) (n : Nat) :
    (graphStep rate (edges.map (fun e => (e.1, e.2.1, e.2.2.scale s))))^[n] (fun u => (X u).scale s) =
      fun u => ((graphStep rate edges)^[n] X u).scale s := by
  induction n with
  | zero => rfl
  | succ n ih =>
    rw [Function.iterate_succ_apply', ih, Function.iterate_succ_apply']
    funext u
    exact graphStep_scale s

/-! ## The edges -/

theorem mem_flatten {R : Recon (Iso ℝ)} (hw : R.constraints.WF) {e : Nat × Nat × Iso ℝ} :
    e ∈ R.flattenConstraints ↔ ∃ k c, R.constraints.get k = some c ∧ e ∈ Recon.edgeConstraints c := by
  unfold Recon.flattenConstraints
  rw [List.mem_flatMap]
  constructor
  · rintro ⟨c, hc, he⟩
    obtain ⟨⟨k, c'⟩, hk, rfl⟩ := List.mem_map.mp hc
    exact ⟨k, c', FMap.get_of_mem hw.nodup hk, he⟩
  · rintro ⟨k, c, hc, he⟩
    exact ⟨c, List.mem_map.mpr ⟨(k, c), FMap.mem_of_get hc, rfl⟩, he⟩

theorem flatten_live {R : Recon (Iso ℝ)} (hR : R.Consistent) : ∀ e ∈ R.flattenConstraints, R.LiveView e.1 ∧ R.LiveView e.2.1 := by
  intro e he
  obtain ⟨k, c, hc, he⟩ := (mem_flatten hR.constraintsWF).mp he
  obtain ⟨h0, h1, h2, _⟩ := hR.constraintsLive k c hc
  obtain ⟨a, b, p⟩ := e
  simp only [Recon.edgeConstraints, List.mem_cons, Prod.mk.injEq, List.not_mem_nil, or_false] at he
  rcases he with ⟨rfl, rfl, _⟩ | ⟨rfl, rfl, _⟩ | ⟨rfl, rfl, _⟩ | ⟨rfl, rfl, _⟩ | ⟨rfl, rfl, _⟩ | ⟨rfl, rfl, _⟩ <;>
    exact ⟨by assumption, by assumption⟩

theorem flatten_reaches {R : Recon (Iso ℝ)} (hR : R.Consistent) (hc : R.Constrained) {v : Nat} (hv : R.LiveView v) :
    ∃ e ∈ R.flattenConstraints, e.1 = v := by
  obtain ⟨k, c, hk, h⟩ := hc.all v hv
  rcases h with h | h | h
  · exact ⟨(c.v0, c.v2, c.second⁻¹), (mem_flatten hR.constraintsWF).mpr ⟨k, c, hk, by simp [Recon.edgeConstraints]⟩, h⟩
  · exact ⟨(c.v1, c.v0, c.first), (mem_flatten hR.constraintsWF).mpr ⟨k, c, hk, by simp [Recon.edgeConstraints]⟩, h⟩
  · exact ⟨(c.v2, c.v0, c.second), (mem_flatten hR.constraintsWF).mpr ⟨k, c, hk, by simp [Recon.edgeConstraints]⟩, h⟩

/-- The optimisation as an iteration. -/
theorem Data.applyConstraints_graph (ω : Nat → Oracle (Iso ℝ)) (rate : ℝ) (s : Settings) {r : Nat} {d : Data (Iso ℝ)}
    {R : Recon (Iso ℝ)} (hw : d.recons.WF) (h : d.recons.get r = some R) (hR : R.Consistent) (hc : R.Constrained) :
    d.applyConstraints (fun i => (ω i).withRate rate) s r =
      some (d.withRecon r (R.placed ((graphStep rate R.flattenConstraints)^[s.optIterations] R.poseAt)), true) := by
  unfold Data.applyConstraints
  rw [h]
  exact Data.applyLoop_graph ω rate _ hw h hR.viewsWF hc.three (fun e he => (flatten_live hR e he).2)
    (fun v hv => flatten_reaches hR hc hv)

/-- The edges are the motions asked for. -/
theorem edges_perm_asks {R : Recon (Iso ℝ)} (hw : R.constraints.WF) (hrig : RigidConstraints R) :
    R.flattenConstraints.Perm R.asks := by
  unfold Recon.flattenConstraints Recon.asks
  have : ∀ l : List (Constraint (Iso ℝ)), (∀ c ∈ l, c.first.Rigid ∧ c.second.Rigid) →
      (l.flatMap Recon.edgeConstraints).Perm (l.flatMap Constraint.asks) := by
    intro l hl
    induction l with
    | nil => exact List.Perm.refl _
    | cons c l ih =>
      rw [List.flatMap_cons, List.flatMap_cons]
      refine List.Perm.append ?_ (ih (fun c hc => hl c (by simp [hc])))
      obtain ⟨h1, h2⟩ := hl c (by simp)
      have e : Recon.edgeConstraints c = [(c.v0, c.v2, c.second.inv), (c.v0, c.v1, c.first.inv), (c.v1, c.v0, c.first),
          (c.v1, c.v2, c.first.mul c.second.inv), (c.v2, c.v1, c.second.mul c.first.inv), (c.v2, c.v0, c.second)] := by
        have : (c.second * c.first⁻¹)⁻¹ = c.first.mul c.second.inv := by
          show (c.second.mul c.first.inv).inv = _
          rw [Iso.Rigid.mul_inv_rev h2 (Iso.Rigid.inv h1), Iso.Rigid.inv_inv h1]
        unfold Recon.edgeConstraints
        simp only [this]
        rfl
      have a : c.asks = [(c.v0, c.v1, c.first.inv), (c.v1, c.v0, c.first), (c.v0, c.v2, c.second.inv), (c.v2, c.v0, c.second),
          (c.v1, c.v2, c.first.mul c.second.inv), (c.v2, c.v1, c.second.mul c.first.inv)] := by
        unfold Constraint.asks
        simp only [Iso.one_mul, Iso.inv_one, Iso.mul_one]
      rw [e, a]
      generalize (c.v0, c.v2, c.second.inv) = x1
      generalize (c.v0, c.v1, c.first.inv) = x2
      generalize (c.v1, c.v0, c.first) = x3
      generalize (c.v1, c.v2, c.first.mul c.second.inv) = x4
      generalize (c.v2, c.v1, c.second.mul c.first.inv) = x5
      generalize (c.v2, c.v0, c.second) = x6
      -- 1 2 3 4 5 6 to 2 3 1 6 4 5
      have p1 : [x1, x2, x3].Perm [x2, x3, x1] := (List.perm_append_comm (l₁ := [x1]) (l₂ := [x2, x3]))
      have p2 : [x4, x5, x6].Perm [x6, x4, x5] := (List.perm_append_comm (l₁ := [x4, x5]) (l₂ := [x6]))
      exact p1.append p2
  apply this
  intro c hc
  obtain ⟨⟨k, c'⟩, hk, rfl⟩ := List.mem_map.mp hc
  exact hrig k c' (FMap.get_of_mem hw.nodup hk)

end Verif.Sfm
