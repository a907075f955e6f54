import Verif.Lemmas.SfmHistory
import Verif.Lemmas.PoseGraphCentres

/-!
# C85, C86: optimising the poses of a reconstruction with its constraints
-/

namespace Verif.Sfm

open Verif.Geo

variable {d : Data (Iso ℝ)} {r : Nat} {R : Recon (Iso ℝ)}

theorem poseAt_rigid (hrig : RigidPoses R) (u : Nat) : (R.poseAt u).Rigid := by
  unfold Recon.poseAt
  cases h : R.views.get u with
  | none => exact Iso.Rigid.one
  | some V => exact hrig u V h

theorem poseAt_get {u : Nat} {V : View (Iso ℝ)} (h : R.views.get u = some V) : R.poseAt u = V.pose := by
  unfold Recon.poseAt
  rw [h]
  rfl

theorem fulfils_rigid (hrig : RigidPoses R) (hf : ∀ k c, R.constraints.get k = some c → R.Fulfils c) : RigidConstraints R := by
  intro k c hc
  obtain ⟨V0, V1, V2, h0, h1, h2, e1, e2⟩ := hf k c hc
  rw [e1, e2]
  exact ⟨Iso.Rigid.mul (hrig _ _ h1) (Iso.Rigid.inv (hrig _ _ h0)), Iso.Rigid.mul (hrig _ _ h2) (Iso.Rigid.inv (hrig _ _ h0))⟩

/-- The motion between two poses relative to a third leads from one to the other. -/
theorem between_relative {a b c : Iso ℝ} (hb : b.Rigid) (hc : c.Rigid) :
    ((a.mul c.inv).mul (b.mul c.inv).inv).mul b = a := by
  rw [Iso.Rigid.mul_inv_rev hb (Iso.Rigid.inv hc), Iso.Rigid.inv_inv hc, Iso.mul_assoc, Iso.mul_assoc, Iso.mul_assoc,
    Iso.Rigid.inv_mul hb, Iso.mul_one, Iso.Rigid.inv_mul hc, Iso.mul_one]

theorem edges_fulfilled (hR : R.Consistent) (hrig : RigidPoses R)
    (hf : ∀ k c, R.constraints.get k = some c → R.Fulfils c) :
    ∀ e ∈ R.flattenConstraints, e.2.2.mul (R.poseAt e.2.1) = R.poseAt e.1 := by
  intro e he
  have he := ((edges_perm_asks hR.constraintsWF (fulfils_rigid hrig hf)).mem_iff).mp he
  unfold Recon.asks at he
  obtain ⟨c, hc, he⟩ := List.mem_flatMap.mp he
  obtain ⟨⟨k, c'⟩, hk, rfl⟩ := List.mem_map.mp hc
  obtain ⟨V0, V1, V2, h0, h1, h2, e1, e2⟩ := hf k c' (FMap.get_of_mem hR.constraintsWF.nodup hk)
  have r0 := hrig _ _ h0
  have r1 := hrig _ _ h1
  have r2 := hrig _ _ h2
  have p0 := poseAt_get h0
  have p1 := poseAt_get h1
  have p2 := poseAt_get h2
  have one : Iso.one = V0.pose.mul V0.pose.inv := (Iso.Rigid.mul_inv r0).symm
  unfold Constraint.asks at he
  simp only [e1, e2, relativePose, List.mem_cons, List.not_mem_nil, or_false] at he
  rw [one] at he
  rcases he with rfl | rfl | rfl | rfl | rfl | rfl <;> simp only [p0, p1, p2] <;> apply between_relative <;> assumption

/-- **C85** When all constraints hold, optimising changes nothing, whatever the rate and the number of iterations. -/
theorem C85_fixed_point (hd : Reachable d) (h : d.recons.get r = some R) (hc : R.Constrained) (hrig : RigidPoses R)
    (hf : ∀ k c, R.constraints.get k = some c → R.Fulfils c) (ω : Nat → Oracle (Iso ℝ)) (rate : ℝ) (s : Settings) :
    d.applyConstraints (fun i => (ω i).withRate rate) s r = some (d, true) := by
  have hcons := reachable_consistent hd
  have hR := hcons.recons r R h
  rw [Data.applyConstraints_graph ω rate s hcons.reconsWF h hR hc,
    iterate_fixed (poseAt_rigid hrig) (edges_fulfilled hR hrig hf), R.placed_self hR.viewsWF,
    Data.withRecon_self hcons.reconsWF h]

/-- **C85** Only poses change, and they remain rotations with translations: all views are kept, with their frames and
landmarks. -/
theorem C85_keeps (hd : Reachable d) (h : d.recons.get r = some R) (hc : R.Constrained) (hrig : RigidPoses R)
    (ω : Nat → Oracle (Iso ℝ)) (rate : ℝ) (s : Settings) :
    ∃ R', d.applyConstraints (fun i => (ω i).withRate rate) s r = some (d.withRecon r R', true) ∧
      R'.landmarks = R.landmarks ∧ R'.constraints = R.constraints ∧ R'.views.keys = R.views.keys ∧ RigidPoses R' ∧
      ∀ v V, R.views.get v = some V → ∃ V', R'.views.get v = some V' ∧ V'.frame = V.frame ∧ V'.landmarks = V.landmarks := by
  have hcons := reachable_consistent hd
  refine ⟨_, Data.applyConstraints_graph ω rate s hcons.reconsWF h (hcons.recons r R h) hc, rfl, rfl, R.placed_keys _, ?_, ?_⟩
  · intro v V hV
    rw [R.placed_views] at hV
    obtain ⟨V0, _, rfl⟩ := Option.map_eq_some_iff.mp hV
    exact iterate_rigid (poseAt_rigid hrig) _ v
  · intro v V hV
    have hV' := R.placed_views ((graphStep rate R.flattenConstraints)^[s.optIterations] R.poseAt) v
    rw [hV] at hV'
    exact ⟨_, hV', rfl, rfl⟩

theorem mapPoses_constrained (f g : Iso ℝ → Iso ℝ) (hc : R.Constrained) : (R.mapPoses f g).Constrained := by
  constructor
  · have : (R.mapPoses f g).views.size = R.views.size := by
      show (List.map _ _).length = _
      rw [List.length_map]
      rfl
    rw [this]
    exact hc.three
  · intro v hv
    obtain ⟨k, c, hk, hvc⟩ := hc.all v ((Recon.mapPoses_live f g R v).mp hv)
    have hk' := Recon.mapPoses_constraints f g R k
    rw [hk] at hk'
    exact ⟨k, _, hk', hvc⟩

theorem mapPoses_poseAt (f g : Iso ℝ → Iso ℝ) {u : Nat} (hu : R.LiveView u) :
    (R.mapPoses f g).poseAt u = f (R.poseAt u) := by
  obtain ⟨V, hV⟩ := hu
  rw [poseAt_get hV]
  apply poseAt_get (V := { V with pose := f V.pose })
  rw [Recon.mapPoses_views, hV]
  rfl

theorem mapPoses_placed (f g : Iso ℝ → Iso ℝ) (Y : Nat → Iso ℝ) :
    (R.placed Y).mapPoses f g = (R.mapPoses f g).placed (fun v => f (Y v)) := by
  unfold Recon.mapPoses Recon.placed
  simp only [List.map_map]
  rfl

theorem flatten_id (f : Iso ℝ → Iso ℝ) : (R.mapPoses f id).flattenConstraints = R.flattenConstraints := by
  unfold Recon.flattenConstraints Recon.mapPoses
  simp only [List.map_map]
  congr 1

theorem flatten_scale (f : Iso ℝ → Iso ℝ) (a : ℝ) : (R.mapPoses f (fun p => p.scale a)).flattenConstraints =
    R.flattenConstraints.map (fun e => (e.1, e.2.1, e.2.2.scale a)) := by
  unfold Recon.flattenConstraints Recon.mapPoses
  simp only [List.map_map, List.map_flatMap, List.flatMap_map]
  congr 1
  funext e
  unfold Recon.edgeConstraints
  have hm : ∀ x y : Iso ℝ, (x * y).scale a = (x.scale a) * (y.scale a) := fun x y => Iso.scale_mul' a x y
  have hi : ∀ x : Iso ℝ, (x⁻¹).scale a = (x.scale a)⁻¹ := fun x => Iso.scale_inv' a x
  simp only [List.map_cons, List.map_nil, hm, hi, Function.comp]

/-- **C85** The result does not depend on the coordinates of the world: moving the world, then optimising, is the same as
optimising, then moving the world. -/
theorem C85_world_frame (hd : Reachable d) (h : d.recons.get r = some R) (hc : R.Constrained) (hrig : RigidPoses R)
    {g : Iso ℝ} (hg : g.Rigid) (ω : Nat → Oracle (Iso ℝ)) (rate : ℝ) (s : Settings) :
    ∃ R', d.applyConstraints (fun i => (ω i).withRate rate) s r = some (d.withRecon r R', true) ∧
      (d.withRecon r (R.mapPoses (fun p => p.mul g) id)).applyConstraints (fun i => (ω i).withRate rate) s r =
        some (d.withRecon r (R'.mapPoses (fun p => p.mul g) id), true) := by
  have hcons := reachable_consistent hd
  have hR := hcons.recons r R h
  refine ⟨_, Data.applyConstraints_graph ω rate s hcons.reconsWF h hR hc, ?_⟩
  rw [Data.applyConstraints_graph ω rate s (SlotMap.wf_modify hcons.reconsWF _ _) (Data.withRecon_get h _)
    (Recon.mapPoses_consistent _ _ hR) (mapPoses_constrained _ _ hc), Data.withRecon_withRecon, mapPoses_placed, flatten_id]
  congr 3
  apply Recon.placed_congr
  intro v hv
  have hv := (Recon.mapPoses_live _ _ R v).mp hv
  rw [graphStep_iterate_congr rate _ (L := R.LiveView) (fun e he => (flatten_live hR e he).2) _
    (Y := fun u => (R.poseAt u).mul g) (fun u hu => mapPoses_poseAt _ _ hu) v hv, iterate_move hg (poseAt_rigid hrig)]

/-- **C85** The result does not depend on the unit of length: scaling all poses and constraints, then optimising, is the
same as optimising, then scaling. -/
theorem C85_unit_of_length (hd : Reachable d) (h : d.recons.get r = some R) (hc : R.Constrained) (a : ℝ)
    (ω : Nat → Oracle (Iso ℝ)) (rate : ℝ) (s : Settings) :
    ∃ R', d.applyConstraints (fun i => (ω i).withRate rate) s r = some (d.withRecon r R', true) ∧
      (d.withRecon r (R.mapPoses (fun p => p.scale a) (fun p => p.scale a))).applyConstraints
          (fun i => (ω i).withRate rate) s r =
        some (d.withRecon r (R'.mapPoses (fun p => p.scale a) (fun p => p.scale a)), true) := by
  have hcons := reachable_consistent hd
  have hR := hcons.recons r R h
  refine ⟨_, Data.applyConstraints_graph ω rate s hcons.reconsWF h hR hc, ?_⟩
  rw [Data.applyConstraints_graph ω rate s (SlotMap.wf_modify hcons.reconsWF _ _) (Data.withRecon_get h _)
    (Recon.mapPoses_consistent _ _ hR) (mapPoses_constrained _ _ hc), Data.withRecon_withRecon, mapPoses_placed, flatten_scale]
  congr 3
  apply Recon.placed_congr
  intro v hv
  have hv := (Recon.mapPoses_live _ _ R v).mp hv
  rw [graphStep_iterate_congr rate _ (L := R.LiveView) (by
      intro e he
      obtain ⟨e0, h0, rfl⟩ := List.mem_map.mp he
      exact (flatten_live hR e0 h0).2) _
    (Y := fun u => (R.poseAt u).scale a) (fun u hu => mapPoses_poseAt _ _ hu) v hv, iterate_scale]

/-! ## C86 -/

theorem disagreement_congr {asks : List (Nat × Nat × Iso ℝ)} {X Y : Nat → Iso ℝ}
    (h : ∀ e ∈ asks, X e.1 = Y e.1 ∧ X e.2.1 = Y e.2.1) : disagreement asks X = disagreement asks Y := by
  unfold disagreement
  congr 1
  apply List.map_congr_left
  intro e he
  rw [(h e he).1, (h e he).2]

theorem asks_live (hR : R.Consistent) (hcr : RigidConstraints R) : ∀ e ∈ R.asks, R.LiveView e.1 ∧ R.LiveView e.2.1 :=
  fun e he => flatten_live hR e (((edges_perm_asks hR.constraintsWF hcr).mem_iff).mpr he)

theorem keys_live (hR : R.Consistent) {v : Nat} : v ∈ R.views.keys ↔ R.LiveView v := by
  constructor
  · intro hv
    obtain ⟨⟨k, V⟩, hV, rfl⟩ := List.mem_map.mp hv
    exact ⟨V, FMap.get_of_mem hR.viewsWF.nodup hV⟩
  · rintro ⟨V, hV⟩
    exact List.mem_map.mpr ⟨(v, V), FMap.mem_of_get hV, rfl⟩

/-- What the optimisation does to the camera centres, coordinate by coordinate. -/
theorem descent_facts (hR : R.Consistent) (hcr : RigidConstraints R) {X : Nat → Iso ℝ} (ho : Oriented R.asks X)
    {f : V3 ℝ → ℝ} (hf : IsCoordinate f) :
    (∀ e ∈ coordEdges f X R.flattenConstraints, e.1 ∈ R.views.keys) ∧
    ((coordEdges f X R.flattenConstraints).map Graph.flip).Perm (coordEdges f X R.flattenConstraints) ∧
    ∀ v, Graph.degree (coordEdges f X R.flattenConstraints) v = 2 * R.constraintCount v := by
  have hp := edges_perm_asks hR.constraintsWF hcr
  have hpc : (coordEdges f X R.flattenConstraints).Perm (coordEdges f X R.asks) := hp.map _
  refine ⟨?_, ?_, ?_⟩
  · intro e he
    obtain ⟨e0, h0, rfl⟩ := List.mem_map.mp he
    exact (keys_live hR).mpr (flatten_live hR e0 h0).1
  · exact (hpc.map _).trans ((coordEdges_flip hR.constraintsWF hcr ho hf).trans hpc.symm)
  · intro v
    rw [degree_coord, ← asks_count hR v]
    exact (hp.filter _).length_eq

theorem oriented_flatten (hR : R.Consistent) (hcr : RigidConstraints R) {X : Nat → Iso ℝ} (ho : Oriented R.asks X) :
    Oriented R.flattenConstraints X :=
  fun e he => ho e (((edges_perm_asks hR.constraintsWF hcr).mem_iff).mp he)

theorem rigid_flatten (hR : R.Consistent) (hcr : RigidConstraints R) : ∀ e ∈ R.flattenConstraints, e.2.2.Rigid :=
  fun e he => asks_rigid hR.constraintsWF hcr e (((edges_perm_asks hR.constraintsWF hcr).mem_iff).mp he)

theorem disagreement_flatten (hR : R.Consistent) (hcr : RigidConstraints R) (X : Nat → Iso ℝ) :
    disagreement R.asks X = disagreement R.flattenConstraints X :=
  (((edges_perm_asks hR.constraintsWF hcr).map _).sum_eq).symm

theorem disagreement_placed (hR : R.Consistent) (hcr : RigidConstraints R) (X : Nat → Iso ℝ) :
    disagreement R.asks (R.placed X).poseAt = disagreement R.flattenConstraints X := by
  rw [← disagreement_flatten hR hcr]
  apply disagreement_congr
  intro e he
  obtain ⟨h1, h2⟩ := asks_live hR hcr e he
  exact ⟨R.placed_poseAt X h1, R.placed_poseAt X h2⟩

/-- The disagreement after some iterations, as energies of the three coordinates. -/
theorem disagreement_iterate (hR : R.Consistent) (hcr : RigidConstraints R) (hrig : RigidPoses R)
    (ho : Oriented R.asks R.poseAt) (rate : ℝ) (n : Nat) :
    disagreement R.asks (R.placed ((graphStep rate R.flattenConstraints)^[n] R.poseAt)).poseAt =
    Graph.energy (coordEdges V3.x R.poseAt R.flattenConstraints)
      ((Graph.descend rate (coordEdges V3.x R.poseAt R.flattenConstraints))^[n] (fun u => (centre (R.poseAt u)).x)) +
    Graph.energy (coordEdges V3.y R.poseAt R.flattenConstraints)
      ((Graph.descend rate (coordEdges V3.y R.poseAt R.flattenConstraints))^[n] (fun u => (centre (R.poseAt u)).y)) +
    Graph.energy (coordEdges V3.z R.poseAt R.flattenConstraints)
      ((Graph.descend rate (coordEdges V3.z R.poseAt R.flattenConstraints))^[n] (fun u => (centre (R.poseAt u)).z)) := by
  have ho' := oriented_flatten hR hcr ho
  have he := rigid_flatten hR hcr
  obtain ⟨hrot, hit⟩ := iterate_centre (rate := rate) (poseAt_rigid hrig) he ho' n
  rw [disagreement_placed hR hcr, disagreement_eq he (fun e hmem => by rw [hrot, hrot]; exact ho' e hmem),
    coordEdges_congr _ hrot, coordEdges_congr _ hrot, coordEdges_congr _ hrot, hit V3.x (Or.inl rfl),
    hit V3.y (Or.inr (Or.inl rfl)), hit V3.z (Or.inr (Or.inr rfl))]

theorem disagreement_start (hR : R.Consistent) (hcr : RigidConstraints R) {X : Nat → Iso ℝ}
    (ho : Oriented R.asks X) : disagreement R.asks X =
    Graph.energy (coordEdges V3.x X R.flattenConstraints) (fun u => (centre (X u)).x) +
    Graph.energy (coordEdges V3.y X R.flattenConstraints) (fun u => (centre (X u)).y) +
    Graph.energy (coordEdges V3.z X R.flattenConstraints) (fun u => (centre (X u)).z) := by
  rw [disagreement_flatten hR hcr, disagreement_eq (rigid_flatten hR hcr) (oriented_flatten hR hcr ho)]

theorem antitone_iterate {vs : List Nat} {es : Graph.Edges} (hn : vs.Nodup) (hv : ∀ e ∈ es, e.1 ∈ vs)
    (hs : (es.map Graph.flip).Perm es) {D r : ℝ} (hD : ∀ v ∈ vs, (Graph.degree es v : ℝ) ≤ D) (hr : 0 ≤ r) (hrD : r * D ≤ 1)
    (n : Nat) (x : Nat → ℝ) : Graph.energy es ((Graph.descend r es)^[n] x) ≤ Graph.energy es x ∧
      Graph.over vs ((Graph.descend r es)^[n] x) = Graph.over vs x := by
  induction n generalizing x with
  | zero => exact ⟨le_refl _, rfl⟩
  | succ n ih =>
    rw [Function.iterate_succ_apply]
    obtain ⟨h1, h2⟩ := ih (Graph.descend r es x)
    exact ⟨h1.trans (Graph.energy_antitone hn hv hs hD hr hrD x), h2.trans (Graph.over_descend hn hv hs r x)⟩

/-- **C86** When all cameras have the orientations asked for and the rate times the number of constraints of any view is
at most a half, optimising keeps the orientations and the mean of the camera centres, and never increases the
disagreement with the constraints. -/
theorem C86_descends_partial (hd : Reachable d) (h : d.recons.get r = some R) (hc : R.Constrained) (hrig : RigidPoses R)
    (hcr : RigidConstraints R) (ho : Oriented R.asks R.poseAt) {rate : ℝ} (hr : 0 < rate)
    (hrate : ∀ v, R.LiveView v → 2 * rate * R.constraintCount v ≤ 1) (ω : Nat → Oracle (Iso ℝ)) (s : Settings) :
    ∃ R', d.applyConstraints (fun i => (ω i).withRate rate) s r = some (d.withRecon r R', true) ∧
      R'.views.keys = R.views.keys ∧
      (∀ v, R.LiveView v → (R'.poseAt v).rot = (R.poseAt v).rot) ∧
      disagreement R.asks R'.poseAt ≤ disagreement R.asks R.poseAt ∧ R'.sumOfCentres = R.sumOfCentres := by
  have hcons := reachable_consistent hd
  have hR := hcons.recons r R h
  have ho' := oriented_flatten hR hcr ho
  have he := rigid_flatten hR hcr
  obtain ⟨hrot, hit⟩ := iterate_centre (rate := rate) (poseAt_rigid hrig) he ho' s.optIterations
  have key : ∀ f, IsCoordinate f → _ := fun f hf =>
    have hfacts := descent_facts hR hcr ho hf
    antitone_iterate (vs := R.views.keys) hR.viewsWF.nodup hfacts.1 hfacts.2.1 (D := 1 / rate) (r := rate) (by
      intro v hv
      rw [hfacts.2.2 v, le_div_iff₀ hr]
      have := hrate v ((keys_live hR).mp hv)
      push_cast
      linarith) hr.le (by rw [mul_one_div_cancel hr.ne']) s.optIterations (fun u => f (centre (R.poseAt u)))
  refine ⟨_, Data.applyConstraints_graph ω rate s hcons.reconsWF h hR hc, R.placed_keys _, ?_, ?_, ?_⟩
  · intro v hv
    rw [R.placed_poseAt _ hv]
    exact hrot v
  · rw [disagreement_iterate hR hcr hrig ho, disagreement_start hR hcr ho]
    linarith [(key _ (Or.inl rfl)).1, (key _ (Or.inr (Or.inl rfl))).1, (key _ (Or.inr (Or.inr rfl))).1]
  · have hsum : ∀ f : V3 ℝ → ℝ, IsCoordinate f → ((R.placed ((graphStep rate R.flattenConstraints)^[s.optIterations]
        R.poseAt)).views.keys.map (fun v => f (centre ((R.placed ((graphStep rate R.flattenConstraints)^[s.optIterations]
        R.poseAt)).poseAt v)))).sum = (R.views.keys.map (fun v => f (centre (R.poseAt v)))).sum := by
      intro f hf
      have h2 := (key f hf).2
      rw [← hit f hf] at h2
      rw [R.placed_keys]
      unfold Graph.over at h2
      rw [← h2]
      congr 1
      apply List.map_congr_left
      intro v hv
      rw [R.placed_poseAt _ ((keys_live hR).mp hv)]
    unfold Recon.sumOfCentres
    rw [hsum _ (Or.inl rfl), hsum _ (Or.inr (Or.inl rfl)), hsum _ (Or.inr (Or.inr rfl))]

/-- **C86** With half that rate, optimising comes as close as wanted to the best placement of the cameras: for every other
placement with the same orientations, the disagreement is at most that of the other placement plus a term that vanishes
with the number of iterations. -/
theorem C86_converges_partial (hd : Reachable d) (h : d.recons.get r = some R) (hc : R.Constrained) (hrig : RigidPoses R)
    (hcr : RigidConstraints R) (ho : Oriented R.asks R.poseAt) {rate : ℝ} (hr : 0 < rate)
    (hrate : ∀ v, R.LiveView v → 4 * rate * R.constraintCount v ≤ 1) (ω : Nat → Oracle (Iso ℝ)) (s : Settings)
    (hn : 0 < s.optIterations) (Y : Nat → Iso ℝ) (hY : ∀ v, R.LiveView v → (Y v).rot = (R.poseAt v).rot) :
    ∃ R', d.applyConstraints (fun i => (ω i).withRate rate) s r = some (d.withRecon r R', true) ∧
      disagreement R.asks R'.poseAt ≤ disagreement R.asks Y +
        2 * (R.views.keys.map (fun v => ((centre (R.poseAt v)).sub (centre (Y v))).normSq)).sum /
          (rate * s.optIterations) := by
  have hcons := reachable_consistent hd
  have hR := hcons.recons r R h
  refine ⟨_, Data.applyConstraints_graph ω rate s hcons.reconsWF h hR hc, ?_⟩
  -- outside the views the other placement does not matter
  classical
  let Z : Nat → Iso ℝ := fun v => if R.LiveView v then Y v else R.poseAt v
  have hZrot : ∀ v, (Z v).rot = (R.poseAt v).rot := by
    intro v
    by_cases hv : R.LiveView v
    · simp only [Z, if_pos hv, hY v hv]
    · simp only [Z, if_neg hv]
  have hZY : ∀ v, R.LiveView v → Z v = Y v := fun v hv => by simp only [Z, if_pos hv]
  have hZo : Oriented R.asks Z := fun e hmem => by rw [hZrot, hZrot]; exact ho e hmem
  have hdis : disagreement R.asks Y = disagreement R.asks Z := by
    apply disagreement_congr
    intro e hmem
    obtain ⟨h1, h2⟩ := asks_live hR hcr e hmem
    exact ⟨(hZY _ h1).symm, (hZY _ h2).symm⟩
  have hsum : (R.views.keys.map (fun v => ((centre (R.poseAt v)).sub (centre (Y v))).normSq)).sum =
      (R.views.keys.map (fun v => ((centre (R.poseAt v)).sub (centre (Z v))).normSq)).sum := by
    congr 1
    apply List.map_congr_left
    intro v hv
    rw [hZY v ((keys_live hR).mp hv)]
  have key : ∀ f, IsCoordinate f → _ := fun f hf =>
    have hfacts := descent_facts hR hcr ho hf
    Graph.energy_iterate (vs := R.views.keys) hR.viewsWF.nodup hfacts.1 hfacts.2.1 (D := 1 / (2 * rate)) (r := rate) (by
      intro v hv
      rw [hfacts.2.2 v, le_div_iff₀ (by linarith)]
      have := hrate v ((keys_live hR).mp hv)
      push_cast
      linarith) hr.le (by
      have : rate * (1 / (2 * rate)) = 1 / 2 := by field_simp
      rw [this]
      norm_num) (fun u => f (centre (Z u))) s.optIterations (fun u => f (centre (R.poseAt u)))
  have hsplit : (R.views.keys.map (fun v => ((centre (R.poseAt v)).sub (centre (Z v))).normSq)).sum =
      Graph.over R.views.keys (fun v => ((centre (R.poseAt v)).x - (centre (Z v)).x) * ((centre (R.poseAt v)).x - (centre (Z v)).x)) +
      Graph.over R.views.keys (fun v => ((centre (R.poseAt v)).y - (centre (Z v)).y) * ((centre (R.poseAt v)).y - (centre (Z v)).y)) +
      Graph.over R.views.keys (fun v => ((centre (R.poseAt v)).z - (centre (Z v)).z) * ((centre (R.poseAt v)).z - (centre (Z v)).z)) := by
    unfold Graph.over
    rw [← Graph.sum_map_add, ← Graph.sum_map_add]
    congr 1
  have hnonneg : ∀ g : Nat → ℝ, 0 ≤ Graph.over R.views.keys (fun v => g v * g v) :=
    fun g => Graph.sum_map_nonneg _ _ (fun v _ => mul_self_nonneg _)
  rw [hdis, hsum, disagreement_iterate hR hcr hrig ho, disagreement_start hR hcr hZo, coordEdges_congr _ hZrot,
    coordEdges_congr _ hZrot, coordEdges_congr _ hZrot, hsplit]
  have hn' : (0 : ℝ) < s.optIterations := by exact_mod_cast hn
  rw [← sub_le_iff_le_add', le_div_iff₀ (mul_pos hr hn')]
  have kx := (key _ (Or.inl rfl)).trans (sub_le_self _ (hnonneg _))
  have ky := (key _ (Or.inr (Or.inl rfl))).trans (sub_le_self _ (hnonneg _))
  have kz := (key _ (Or.inr (Or.inr rfl))).trans (sub_le_self _ (hnonneg _))
  linarith

/-! A single constraint. -/

theorem triangle_descend {v0 v1 v2 : Nat} (h01 : v0 ≠ v1) (h02 : v0 ≠ v2) (h12 : v1 ≠ v2) (a b r : ℝ) (x : Nat → ℝ) :
    let es : Graph.Edges := [(v0, v2, -b), (v0, v1, -a), (v1, v0, a), (v1, v2, -(b - a)), (v2, v1, b - a), (v2, v0, b)]
    Graph.energy es (Graph.descend r es x) = (1 - 3 * r) ^ 2 * Graph.energy es x := by
  intro es
  have e0 : Graph.pull es x v0 = x v2 - b - x v0 + (x v1 - a - x v0) := by
    simp [es, Graph.pull, Graph.res, h01.symm, h02.symm]
    ring
  have e1 : Graph.pull es x v1 = x v0 + a - x v1 + (x v2 - (b - a) - x v1) := by
    simp [es, Graph.pull, Graph.res, h01, h12.symm]
    ring
  have e2 : Graph.pull es x v2 = x v1 + (b - a) - x v2 + (x v0 + b - x v2) := by
    simp [es, Graph.pull, Graph.res, h02, h12]
  have en : ∀ y : Nat → ℝ, Graph.energy es y = 2 * ((y v0 + a - y v1) ^ 2 + (y v0 + b - y v2) ^ 2 + (y v1 + (b - a) - y v2) ^ 2) := by
    intro y
    simp only [es, Graph.energy, Graph.res, List.map_cons, List.map_nil, List.sum_cons, List.sum_nil]
    ring
  rw [en, en]
  unfold Graph.descend
  rw [e0, e1, e2]
  ring

theorem triangle_iterate {v0 v1 v2 : Nat} (h01 : v0 ≠ v1) (h02 : v0 ≠ v2) (h12 : v1 ≠ v2) (a b r : ℝ) (n : Nat)
    (x : Nat → ℝ) :
    let es : Graph.Edges := [(v0, v2, -b), (v0, v1, -a), (v1, v0, a), (v1, v2, -(b - a)), (v2, v1, b - a), (v2, v0, b)]
    Graph.energy es ((Graph.descend r es)^[n] x) = ((1 - 3 * r) ^ 2) ^ n * Graph.energy es x := by
  intro es
  induction n generalizing x with
  | zero => simp
  | succ n ih =>
    rw [Function.iterate_succ_apply, ih, triangle_descend h01 h02 h12]
    ring

/-- The offsets asked for by one constraint form a triangle. -/
theorem coordEdges_single {X : Nat → Iso ℝ} {c : Constraint (Iso ℝ)}
    (hs : c.second.Rigid) (ho : Oriented (Recon.edgeConstraints c) X) {f : V3 ℝ → ℝ} (hf : IsCoordinate f) :
    coordEdges f X (Recon.edgeConstraints c) =
      [(c.v0, c.v2, -f (askedOffset X (c.v2, c.v0, c.second))), (c.v0, c.v1, -f (askedOffset X (c.v1, c.v0, c.first))),
        (c.v1, c.v0, f (askedOffset X (c.v1, c.v0, c.first))),
        (c.v1, c.v2, -(f (askedOffset X (c.v2, c.v0, c.second)) - f (askedOffset X (c.v1, c.v0, c.first)))),
        (c.v2, c.v1, f (askedOffset X (c.v2, c.v0, c.second)) - f (askedOffset X (c.v1, c.v0, c.first))),
        (c.v2, c.v0, f (askedOffset X (c.v2, c.v0, c.second)))] := by
  have ho1 : (X c.v1).rot = c.first.rot.mul (X c.v0).rot := ho (c.v1, c.v0, c.first) (by simp [Recon.edgeConstraints])
  have ho2 : (X c.v2).rot = c.second.rot.mul (X c.v0).rot := ho (c.v2, c.v0, c.second) (by simp [Recon.edgeConstraints])
  have ho3 : (X c.v2).rot = (c.second.mul c.first.inv).rot.mul (X c.v1).rot :=
    ho (c.v2, c.v1, c.second * c.first⁻¹) (by simp [Recon.edgeConstraints])
  have i1 := askedOffset_inv (a := c.v1) (b := c.v0) ho1
  have i2 := askedOffset_inv (a := c.v2) (b := c.v0) ho2
  have i3 := askedOffset_inv (a := c.v2) (b := c.v1) ho3
  have i4 : askedOffset X (c.v2, c.v1, c.second.mul c.first.inv) =
      (askedOffset X (c.v2, c.v0, c.second)).sub (askedOffset X (c.v1, c.v0, c.first)) := by
    unfold askedOffset
    show ((X c.v2).rot.transpose.mulVec ((c.second.rot.mulVec (c.first.rot.transpose.mulVec c.first.t).neg).add c.second.t)).neg =
      ((X c.v2).rot.transpose.mulVec c.second.t).neg.sub ((X c.v1).rot.transpose.mulVec c.first.t).neg
    have e : (X c.v2).rot.transpose.mulVec (c.second.rot.mulVec (c.first.rot.transpose.mulVec c.first.t)) =
        (X c.v1).rot.transpose.mulVec c.first.t := by
      rw [M3.mulVec_mulVec, M3.mulVec_mulVec, ho2, ho1, M3.transpose_mul, M3.transpose_mul,
        M3.mul_assoc _ c.second.rot.transpose, hs.orth, M3.mul_one]
    rw [M3.mulVec_add, M3.mulVec_neg, M3.mulVec_neg, e]
    lin3
  have hneg : ∀ u : V3 ℝ, f u.neg = -f u := by rcases hf with rfl | rfl | rfl <;> intro u <;> rfl
  have hsub : ∀ u w : V3 ℝ, f (u.sub w) = f u - f w := by rcases hf with rfl | rfl | rfl <;> intro u w <;> rfl
  show [_, _, _, _, _, _] = _
  simp only [← hneg, ← hsub, ← i1, ← i2, ← i4, ← i3]
  rfl

/-- **C86** With a single constraint, as after the start of a reconstruction, every iteration multiplies the disagreement by
the square of one less three times the rate. -/
theorem C86_one_constraint (hd : Reachable d) (h : d.recons.get r = some R) (hc : R.Constrained) (hrig : RigidPoses R)
    (hcr : RigidConstraints R) (ho : Oriented R.asks R.poseAt) {k : Nat} {c : Constraint (Iso ℝ)}
    (hone : R.constraints.map.entries = [(k, c)]) (rate : ℝ) (ω : Nat → Oracle (Iso ℝ)) (s : Settings) :
    ∃ R', d.applyConstraints (fun i => (ω i).withRate rate) s r = some (d.withRecon r R', true) ∧
      disagreement R.asks R'.poseAt = ((1 - 3 * rate) ^ 2) ^ s.optIterations * disagreement R.asks R.poseAt := by
  have hcons := reachable_consistent hd
  have hR := hcons.recons r R h
  refine ⟨_, Data.applyConstraints_graph ω rate s hcons.reconsWF h hR hc, ?_⟩
  have hk : R.constraints.get k = some c := FMap.get_of_mem hR.constraintsWF.nodup (by rw [hone]; simp)
  obtain ⟨_, _, _, h01, h02, h12⟩ := hR.constraintsLive k c hk
  have hfl : R.flattenConstraints = Recon.edgeConstraints c := by
    unfold Recon.flattenConstraints
    rw [hone]
    simp
  have ho' := oriented_flatten hR hcr ho
  rw [disagreement_iterate hR hcr hrig ho, disagreement_start hR hcr ho]
  rw [hfl] at ho' ⊢
  rw [coordEdges_single (hcr k c hk).2 ho' (Or.inl rfl), coordEdges_single (hcr k c hk).2 ho' (Or.inr (Or.inl rfl)),
    coordEdges_single (hcr k c hk).2 ho' (Or.inr (Or.inr rfl)), triangle_iterate h01 h02 h12, triangle_iterate h01 h02 h12,
    triangle_iterate h01 h02 h12]
  ring

/-- **C86** What is missing: with a rate above two thirds, optimising a reconstruction with a single constraint only ever
makes it worse. -/
theorem C86_large_rate_diverges (hd : Reachable d) (h : d.recons.get r = some R) (hc : R.Constrained) (hrig : RigidPoses R)
    (hcr : RigidConstraints R) (ho : Oriented R.asks R.poseAt) {k : Nat} {c : Constraint (Iso ℝ)}
    (hone : R.constraints.map.entries = [(k, c)]) {rate : ℝ} (hr : 2 / 3 < rate) (ω : Nat → Oracle (Iso ℝ)) (s : Settings)
    (hn : 0 < s.optIterations) (hpos : 0 < disagreement R.asks R.poseAt) :
    ∃ R', d.applyConstraints (fun i => (ω i).withRate rate) s r = some (d.withRecon r R', true) ∧
      disagreement R.asks R.poseAt < disagreement R.asks R'.poseAt := by
  obtain ⟨R', h1, h2⟩ := C86_one_constraint hd h hc hrig hcr ho hone rate ω s
  refine ⟨R', h1, ?_⟩
  rw [h2]
  have : 1 < ((1 - 3 * rate) ^ 2) ^ s.optIterations := one_lt_pow₀ (by nlinarith) hn.ne'
  nlinarith

end Verif.Sfm
