import Verif.Props.PoseGraph
import Verif.Lemmas.PoseGraphTurns

/-!
# C86: optimising cameras that are turned away from what the constraints ask for

The cameras and the constraints are turned about one axis, as those of a vehicle on a plane are.
-/

namespace Verif.Sfm

open Verif.Geo

variable {d : Data (Iso ℝ)} {r : Nat} {R : Recon (Iso ℝ)} {n : V3 ℝ}

/-- What is left to turn. -/
noncomputable def leftToTurn (X : Nat → Iso ℝ) (e : Nat × Nat × Iso ℝ) : M3 ℝ :=
  (e.2.2.rot.mul (X e.2.1).rot).mul (X e.1).rot.transpose

theorem AboutAxis.rigidConstraints (ha : AboutAxis n R) : RigidConstraints R := by
  intro k c hc
  obtain ⟨⟨a, h1⟩, ⟨b, h2⟩⟩ := ha.constraints k c hc
  constructor
  · show M3.IsRot _
    rw [h1]
    exact turn_isRot ha.unit a
  · show M3.IsRot _
    rw [h2]
    exact turn_isRot ha.unit b

theorem AboutAxis.angles (ha : AboutAxis n R) : ∃ θ : Nat → ℝ, ∀ u, (R.poseAt u).rot = turn n (θ u) := by
  have key : ∀ u, ∃ a, (R.poseAt u).rot = turn n a := by
    intro u
    by_cases h : R.LiveView u
    · exact ha.poses u h
    · refine ⟨0, ?_⟩
      have : R.views.get u = none := by
        cases hv : R.views.get u with
        | none => rfl
        | some V => exact absurd ⟨V, hv⟩ h
      unfold Recon.poseAt
      rw [this, turn_zero]
      rfl
  choose θ hθ using key
  exact ⟨θ, hθ⟩

theorem AboutAxis.asks (ha : AboutAxis n R) (hw : R.constraints.WF) : ∀ e ∈ R.asks, ∃ a, e.2.2.rot = turn n a := by
  intro e he
  unfold Recon.asks at he
  obtain ⟨c, hc, he⟩ := List.mem_flatMap.mp he
  obtain ⟨⟨k, c'⟩, hk, rfl⟩ := List.mem_map.mp hc
  obtain ⟨⟨a, h1⟩, ⟨b, h2⟩⟩ := ha.constraints k c' (FMap.get_of_mem hw.nodup hk)
  have h0 : (Iso.one : Iso ℝ).rot = turn n 0 := (turn_zero n).symm
  have key : ∀ (p q : Iso ℝ) (x y : ℝ), p.rot = turn n x → q.rot = turn n y → (p.mul q.inv).rot = turn n (x + -y) := by
    intro p q x y hp hq
    show p.rot.mul q.rot.transpose = _
    rw [hp, hq, ← turn_neg, turn_add ha.unit]
  unfold Constraint.asks at he
  simp only [List.mem_cons, List.not_mem_nil, or_false] at he
  rcases he with rfl | rfl | rfl | rfl | rfl | rfl
  · exact ⟨_, key _ _ _ _ h0 h1⟩
  · exact ⟨_, key _ _ _ _ h1 h0⟩
  · exact ⟨_, key _ _ _ _ h0 h2⟩
  · exact ⟨_, key _ _ _ _ h2 h0⟩
  · exact ⟨_, key _ _ _ _ h1 h2⟩
  · exact ⟨_, key _ _ _ _ h2 h1⟩

theorem asks_distinct (hR : R.Consistent) : ∀ e ∈ R.asks, e.1 ≠ e.2.1 := by
  intro e he
  unfold Recon.asks at he
  obtain ⟨c, hc, he⟩ := List.mem_flatMap.mp he
  obtain ⟨⟨k, c'⟩, hk, rfl⟩ := List.mem_map.mp hc
  obtain ⟨_, _, _, h1, h2, h3⟩ := hR.constraintsLive k c' (FMap.get_of_mem hR.constraintsWF.nodup hk)
  unfold Constraint.asks at he
  simp only [List.mem_cons, List.not_mem_nil, or_false] at he
  rcases he with rfl | rfl | rfl | rfl | rfl | rfl
  · exact h1
  · exact h1.symm
  · exact h2
  · exact h2.symm
  · exact h3
  · exact h3.symm

/-- The angle an edge asks for, counted from the angles of the cameras. -/
noncomputable def askedTurn (n : V3 ℝ) (X : Nat → Iso ℝ) (θ : Nat → ℝ) (e : Nat × Nat × Iso ℝ) : ℝ :=
  signedAngle n (leftToTurn X e) + θ e.1 - θ e.2.1

/-- The graph of the angles. -/
noncomputable def turnEdges (n : V3 ℝ) (X : Nat → Iso ℝ) (θ : Nat → ℝ) (edges : List (Nat × Nat × Iso ℝ)) : Graph.Edges :=
  edges.map (fun e => (e.1, e.2.1, askedTurn n X θ e))

/-- What the angles have to do with the rotations. -/
theorem turn_facts (ha : AboutAxis n R) (hR : R.Consistent) {θ : Nat → ℝ} (hθ : ∀ u, (R.poseAt u).rot = turn n (θ u))
    (hs : ∀ e ∈ R.asks, angleOf (leftToTurn R.poseAt e) < Real.pi) :
    (∀ e ∈ R.flattenConstraints, e.2.2.rot = turn n (askedTurn n R.poseAt θ e)) ∧
    (∀ e ∈ turnEdges n R.poseAt θ R.flattenConstraints, e.1 ∈ R.views.keys) ∧
    ((turnEdges n R.poseAt θ R.flattenConstraints).map Graph.flip).Perm (turnEdges n R.poseAt θ R.flattenConstraints) ∧
    (∀ v, Graph.degree (turnEdges n R.poseAt θ R.flattenConstraints) v = 2 * R.constraintCount v) ∧
    ∀ e ∈ turnEdges n R.poseAt θ R.flattenConstraints, e.1 ≠ e.2.1 := by
  have hcr := ha.rigidConstraints
  have hp := edges_perm_asks hR.constraintsWF hcr
  have hpc : (turnEdges n R.poseAt θ R.flattenConstraints).Perm (turnEdges n R.poseAt θ R.asks) := hp.map _
  have hleft : ∀ e ∈ R.asks, ∃ a, e.2.2.rot = turn n a ∧ leftToTurn R.poseAt e = turn n (a + θ e.2.1 - θ e.1) := by
    intro e he
    obtain ⟨a, h1⟩ := ha.asks hR.constraintsWF e he
    refine ⟨a, h1, ?_⟩
    unfold leftToTurn
    rw [h1, hθ, hθ, ← turn_neg, turn_add ha.unit, turn_add ha.unit]
    rfl
  refine ⟨?_, ?_, ?_, ?_, ?_⟩
  · intro e he
    have he := hp.mem_iff.mp he
    obtain ⟨a, h1, h2⟩ := hleft e he
    have h3 := hs e he
    rw [h2] at h3
    have h4 := (turn_signedAngle ha.unit h3).1
    unfold askedTurn
    rw [h2, add_sub_assoc, ← turn_add ha.unit, h4, turn_add ha.unit, h1]
    congr 1
    ring
  · intro e he
    obtain ⟨e0, h0, rfl⟩ := List.mem_map.mp he
    exact (keys_live hR).mpr (flatten_live hR e0 h0).1
  · refine (hpc.map _).trans (List.Perm.trans ?_ hpc.symm)
    have h := (asks_flip hR.constraintsWF hcr).map (fun e => (e.1, e.2.1, askedTurn n R.poseAt θ e))
    unfold turnEdges
    rw [List.map_map] at h ⊢
    have e1 : R.asks.map (Graph.flip ∘ fun e => (e.1, e.2.1, askedTurn n R.poseAt θ e)) =
        R.asks.map ((fun e => (e.1, e.2.1, askedTurn n R.poseAt θ e)) ∘ fun e => (e.2.1, e.1, e.2.2.inv)) := by
      apply List.map_congr_left
      rintro ⟨p, q, m⟩ he
      show (q, p, -askedTurn n R.poseAt θ (p, q, m)) = (q, p, askedTurn n R.poseAt θ (q, p, m.inv))
      have : leftToTurn R.poseAt (q, p, m.inv) = (leftToTurn R.poseAt (p, q, m)).transpose := by
        obtain ⟨a, h1, h2⟩ := hleft _ he
        rw [h2, ← turn_neg]
        show (m.rot.transpose.mul (R.poseAt p).rot).mul (R.poseAt q).rot.transpose = _
        rw [show m.rot = turn n a from h1, hθ, hθ, ← turn_neg, ← turn_neg, turn_add ha.unit, turn_add ha.unit]
        congr 1
        ring
      unfold askedTurn
      rw [this, signedAngle_transpose]
      show (q, p, -(_ + θ p - θ q)) = (q, p, -_ + θ q - θ p)
      congr 2
      ring
    rw [e1]
    exact h
  · intro v
    have : Graph.degree (turnEdges n R.poseAt θ R.flattenConstraints) v =
        (R.flattenConstraints.filter (fun e => e.1 == v)).length := by
      unfold Graph.degree turnEdges
      rw [List.filter_map, List.length_map]
      rfl
    rw [this, ← asks_count hR v]
    exact (hp.filter _).length_eq
  · intro e he
    obtain ⟨e0, h0, rfl⟩ := List.mem_map.mp he
    exact asks_distinct hR e0 (hp.mem_iff.mp h0)

/-- The disagreement of the orientations is the energy of the angles. -/
theorem turnDisagreement_eq (ha : AboutAxis n R) (hR : R.Consistent) {θ : Nat → ℝ}
    (he : ∀ e ∈ R.flattenConstraints, e.2.2.rot = turn n (askedTurn n R.poseAt θ e)) {Y : Nat → Iso ℝ} {x : Nat → ℝ}
    (hY : ∀ v, R.LiveView v → (Y v).rot = turn n (x v))
    (hs : ∀ e ∈ turnEdges n R.poseAt θ R.flattenConstraints, |Graph.res x e| ≤ Real.pi) :
    turnDisagreement R.asks Y = Graph.energy (turnEdges n R.poseAt θ R.flattenConstraints) x := by
  have hp := edges_perm_asks hR.constraintsWF ha.rigidConstraints
  unfold turnDisagreement Graph.energy turnEdges
  rw [(hp.symm.map _).sum_eq, List.map_map]
  congr 1
  apply List.map_congr_left
  intro e hmem
  obtain ⟨h1, h2⟩ := flatten_live hR e hmem
  have h3 := hs _ (List.mem_map.mpr ⟨e, hmem, rfl⟩)
  rw [he e hmem, hY _ h1, hY _ h2, ← turn_neg, turn_add ha.unit, turn_add ha.unit]
  have e1 : askedTurn n R.poseAt θ e + x e.2.1 + -x e.1 = Graph.res x (e.1, e.2.1, askedTurn n R.poseAt θ e) := by
    unfold Graph.res
    ring
  rw [e1, angleOf_turn ha.unit h3, sq_abs, pow_two]
  rfl

/-- The first term of the sum that is the disagreement. -/
theorem angle_bound (hR : R.Consistent) (ha : AboutAxis n R) (h : turnDisagreement R.asks R.poseAt < 2 * Real.pi ^ 2) :
    ∀ e ∈ R.asks, angleOf (leftToTurn R.poseAt e) < Real.pi := by
  have hcr := ha.rigidConstraints
  obtain ⟨θ, hθ⟩ := ha.angles
  rintro ⟨p, q, m⟩ he
  have hf : (q, p, m.inv) ∈ R.asks :=
    (asks_flip hR.constraintsWF hcr).mem_iff.mp (List.mem_map.mpr ⟨_, he, rfl⟩)
  have hne : (q, p, m.inv) ≠ (p, q, m) := fun h => asks_distinct hR _ he (congrArg Prod.fst h).symm
  have hl : leftToTurn R.poseAt (q, p, m.inv) = (leftToTurn R.poseAt (p, q, m)).transpose := by
    obtain ⟨a, h1⟩ := ha.asks hR.constraintsWF _ he
    show (m.rot.transpose.mul (R.poseAt p).rot).mul (R.poseAt q).rot.transpose =
      ((m.rot.mul (R.poseAt q).rot).mul (R.poseAt p).rot.transpose).transpose
    rw [show m.rot = turn n a from h1, hθ, hθ]
    simp only [← turn_neg, turn_add ha.unit]
    congr 1
    ring
  have h1 := (List.mem_erase_of_ne hne).mpr hf
  have hp := (List.perm_cons_erase he).trans ((List.perm_cons_erase h1).cons _)
  unfold turnDisagreement at h
  rw [(hp.map _).sum_eq] at h
  simp only [List.map_cons, List.sum_cons] at h
  have h2 := Graph.sum_map_nonneg ((R.asks.erase (p, q, m)).erase (q, p, m.inv))
    (fun a => angleOf ((a.2.2.rot.mul (R.poseAt a.2.1).rot).mul (R.poseAt a.1).rot.transpose) ^ 2) (fun a _ => sq_nonneg _)
  have h3 : angleOf ((m.inv.rot.mul (R.poseAt p).rot).mul (R.poseAt q).rot.transpose) =
      angleOf (leftToTurn R.poseAt (p, q, m)) := by
    rw [← angleOf_transpose (leftToTurn R.poseAt (p, q, m)), ← hl]
    rfl
  rw [h3] at h
  have h4 : angleOf ((m.rot.mul (R.poseAt q).rot).mul (R.poseAt p).rot.transpose) =
      angleOf (leftToTurn R.poseAt (p, q, m)) := rfl
  rw [h4] at h
  have h5 : 0 ≤ angleOf (leftToTurn R.poseAt (p, q, m)) := Real.arccos_nonneg _
  by_contra hc
  push Not at hc
  have := mul_self_le_mul_self Real.pi_pos.le hc
  nlinarith

/-- The angles left at the start. -/
theorem res_start {θ : Nat → ℝ} (e : Nat × Nat × Iso ℝ) :
    Graph.res θ (e.1, e.2.1, askedTurn n R.poseAt θ e) = signedAngle n (leftToTurn R.poseAt e) := by
  unfold Graph.res askedTurn
  ring

theorem leftToTurn_axis (ha : AboutAxis n R) (hR : R.Consistent) {θ : Nat → ℝ} (hθ : ∀ u, (R.poseAt u).rot = turn n (θ u))
    {e : Nat × Nat × Iso ℝ} (he : e ∈ R.asks) : ∃ a, leftToTurn R.poseAt e = turn n a := by
  obtain ⟨a, h1⟩ := ha.asks hR.constraintsWF e he
  refine ⟨a + θ e.2.1 + -θ e.1, ?_⟩
  unfold leftToTurn
  rw [h1, hθ, hθ, ← turn_neg, turn_add ha.unit, turn_add ha.unit]

theorem placed_about (ha : AboutAxis n R) {X : Nat → Iso ℝ} {x : Nat → ℝ} (h : ∀ v, (X v).rot = turn n (x v)) :
    AboutAxis n (R.placed X) := by
  refine ⟨ha.unit, ?_, ha.constraints⟩
  intro v hv
  have hv' : R.LiveView v := by
    obtain ⟨V, hV⟩ := hv
    rw [R.placed_views] at hV
    obtain ⟨V0, h0, _⟩ := Option.map_eq_some_iff.mp hV
    exact ⟨V0, h0⟩
  rw [R.placed_poseAt _ hv']
  exact ⟨_, h v⟩

/-- **C86** Cameras turned about one axis need not have the orientations asked for: as long as the squared angles between
the orientations and those asked for sum up to less than `2 π²`, optimising never increases this sum. -/
theorem C86_turns_descend_partial (hd : Reachable d) (h : d.recons.get r = some R) (hc : R.Constrained) (ha : AboutAxis n R)
    (hs : turnDisagreement R.asks R.poseAt < 2 * Real.pi ^ 2) {rate : ℝ} (hr : 0 < rate)
    (hrate : ∀ v, R.LiveView v → 2 * rate * R.constraintCount v ≤ 1) (ω : Nat → Oracle (Iso ℝ)) (s : Settings) :
    ∃ R', d.applyConstraints (fun i => (ω i).withRate rate) s r = some (d.withRecon r R', true) ∧ AboutAxis n R' ∧
      turnDisagreement R.asks R'.poseAt ≤ turnDisagreement R.asks R.poseAt := by
  have hcons := reachable_consistent hd
  have hR := hcons.recons r R h
  obtain ⟨θ, hθ⟩ := ha.angles
  have hp := edges_perm_asks hR.constraintsWF ha.rigidConstraints
  have hlt := angle_bound hR ha hs
  obtain ⟨he, hv, hf, hdeg, hne⟩ := turn_facts ha hR hθ hlt
  have hD : ∀ v ∈ R.views.keys, (Graph.degree (turnEdges n R.poseAt θ R.flattenConstraints) v : ℝ) ≤ 1 / rate := by
    intro v hmem
    rw [hdeg v, le_div_iff₀ hr]
    have := hrate v ((keys_live hR).mp hmem)
    push_cast
    linarith
  have hstart : ∀ e ∈ turnEdges n R.poseAt θ R.flattenConstraints, |Graph.res θ e| < Real.pi := by
    intro e hmem
    obtain ⟨e0, h0, rfl⟩ := List.mem_map.mp hmem
    rw [res_start]
    obtain ⟨a, h1⟩ := leftToTurn_axis ha hR hθ (hp.mem_iff.mp h0)
    have h2 := hlt e0 (hp.mem_iff.mp h0)
    rw [h1] at h2 ⊢
    rw [(turn_signedAngle ha.unit h2).2]
    exact h2
  have e0 := turnDisagreement_eq ha hR he (fun v _ => hθ v) (fun e hmem => (hstart e hmem).le)
  have hen : ∀ k, Graph.energy (turnEdges n R.poseAt θ R.flattenConstraints)
      ((Graph.descend rate (turnEdges n R.poseAt θ R.flattenConstraints))^[k] θ) ≤ turnDisagreement R.asks R.poseAt := by
    intro k
    rw [e0]
    exact (antitone_iterate (vs := R.views.keys) hR.viewsWF.nodup hv hf hD hr.le (by rw [mul_one_div_cancel hr.ne']) k θ).1
  have hres : ∀ k, ∀ e ∈ turnEdges n R.poseAt θ R.flattenConstraints,
      |Graph.res ((Graph.descend rate (turnEdges n R.poseAt θ R.flattenConstraints))^[k] θ) e| < Real.pi := by
    intro k e hmem
    have h1 := energy_edge hf ((Graph.descend rate (turnEdges n R.poseAt θ R.flattenConstraints))^[k] θ) hmem (hne e hmem)
    have h2 := hen k
    apply abs_lt_of_sq_lt_sq _ Real.pi_pos.le
    nlinarith
  have hit := iterate_turn (rate := rate) ha.unit hθ he s.optIterations
    (fun k _ e hmem => hres k _ (List.mem_map.mpr ⟨e, hmem, rfl⟩))
  refine ⟨_, Data.applyConstraints_graph ω rate s hcons.reconsWF h hR hc, placed_about ha hit, ?_⟩
  rw [turnDisagreement_eq ha hR he (x := _) (fun v hv => by rw [R.placed_poseAt _ hv]; exact hit v)
    (fun e hmem => (hres _ e hmem).le)]
  exact hen _

/-- **C86** When turning each camera by at most an angle below a quarter turn would give all cameras the orientations asked
for, optimising turns them there: the squared angles that remain vanish with the number of iterations, no camera gets
further away than the furthest was, and the sum of the turns missing remains the same. -/
theorem C86_turns_converge_partial (hd : Reachable d) (h : d.recons.get r = some R) (hc : R.Constrained)
    (ha : AboutAxis n R) {φ : Nat → ℝ} {b : ℝ} (hφ : ∀ v, R.LiveView v → |φ v| ≤ b) (hb : b < Real.pi / 2)
    (hY : ∀ e ∈ R.asks, (turn n (φ e.1)).mul (R.poseAt e.1).rot =
      e.2.2.rot.mul ((turn n (φ e.2.1)).mul (R.poseAt e.2.1).rot))
    {rate : ℝ} (hr : 0 < rate) (hrate : ∀ v, R.LiveView v → 4 * rate * R.constraintCount v ≤ 1)
    (ω : Nat → Oracle (Iso ℝ)) (s : Settings) (hn : 0 < s.optIterations) :
    ∃ R', d.applyConstraints (fun i => (ω i).withRate rate) s r = some (d.withRecon r R', true) ∧ AboutAxis n R' ∧
      turnDisagreement R.asks R'.poseAt ≤
        2 * (R.views.keys.map (fun v => φ v * φ v)).sum / (rate * s.optIterations) ∧
      ∃ ψ : Nat → ℝ, (∀ v, R.LiveView v → |ψ v| ≤ b ∧
          (turn n (ψ v)).mul (R'.poseAt v).rot = (turn n (φ v)).mul (R.poseAt v).rot) ∧
        (R.views.keys.map ψ).sum = (R.views.keys.map φ).sum := by
  have hcons := reachable_consistent hd
  have hR := hcons.recons r R h
  obtain ⟨θ, hθ⟩ := ha.angles
  have hp := edges_perm_asks hR.constraintsWF ha.rigidConstraints
  have hlive := asks_live hR ha.rigidConstraints
  -- what is left to turn
  have hleft : ∀ e ∈ R.asks, leftToTurn R.poseAt e = turn n (φ e.1 - φ e.2.1) ∧ |φ e.1 - φ e.2.1| < Real.pi := by
    intro e hmem
    obtain ⟨a, h1⟩ := ha.asks hR.constraintsWF e hmem
    have h2 := hY e hmem
    rw [h1, hθ, hθ, turn_add ha.unit, turn_add ha.unit, turn_add ha.unit] at h2
    constructor
    · unfold leftToTurn
      rw [h1, hθ, hθ, ← turn_neg, turn_add ha.unit, turn_add ha.unit]
      have h3 := congrArg (fun A => M3.mul A (turn n (-φ e.2.1 - θ e.1))) h2
      simp only [turn_add ha.unit] at h3
      rw [show a + θ e.2.1 + -θ e.1 = a + (φ e.2.1 + θ e.2.1) + (-φ e.2.1 - θ e.1) by ring, ← h3]
      congr 1
      ring
    · have h3 := hφ _ (hlive e hmem).1
      have h4 := hφ _ (hlive e hmem).2
      rw [abs_le] at h3 h4
      rw [abs_lt]
      constructor <;> linarith [h3.1, h3.2, h4.1, h4.2]
  have hlt : ∀ e ∈ R.asks, angleOf (leftToTurn R.poseAt e) < Real.pi := by
    intro e hmem
    obtain ⟨h1, h2⟩ := hleft e hmem
    rw [h1, angleOf_turn ha.unit h2.le]
    exact h2
  obtain ⟨he, hv, hf, hdeg, hne⟩ := turn_facts ha hR hθ hlt
  -- the angles asked for
  classical
  let z : Nat → ℝ := fun v => θ v + if R.LiveView v then φ v else 0
  have hzl : ∀ v, R.LiveView v → z v = θ v + φ v := fun v hv => by simp only [z, if_pos hv]
  have hb0 : 0 ≤ b := by
    obtain ⟨p, hp'⟩ := List.exists_mem_of_ne_nil R.views.keys (fun hnil => by
      have h1 := congrArg List.length hnil
      have h2 : R.views.keys.length = R.views.size := List.length_map _
      have h3 := hc.three
      rw [h2, List.length_nil] at h1
      omega)
    exact (abs_nonneg _).trans (hφ p ((keys_live hR).mp hp'))
  have hz0 : ∀ e ∈ turnEdges n R.poseAt θ R.flattenConstraints, Graph.res z e = 0 := by
    intro e hmem
    obtain ⟨e0, h0, rfl⟩ := List.mem_map.mp hmem
    have h1 := hp.mem_iff.mp h0
    obtain ⟨h2, h3⟩ := hleft e0 h1
    obtain ⟨h4, h5⟩ := hlive e0 h1
    show z e0.2.1 + askedTurn n R.poseAt θ e0 - z e0.1 = 0
    rw [hzl _ h4, hzl _ h5]
    unfold askedTurn
    rw [h2, signedAngle_turn ha.unit h3]
    ring
  have hz : Graph.energy (turnEdges n R.poseAt θ R.flattenConstraints) z = 0 := by
    unfold Graph.energy
    have : (turnEdges n R.poseAt θ R.flattenConstraints).map (fun e => Graph.res z e * Graph.res z e) =
        (turnEdges n R.poseAt θ R.flattenConstraints).map (fun _ => (0 : ℝ)) := by
      apply List.map_congr_left
      intro e hmem
      rw [hz0 e hmem, mul_zero]
    rw [this]
    simp
  have hnear : ∀ k v, |(Graph.descend rate (turnEdges n R.poseAt θ R.flattenConstraints))^[k] θ v - z v| ≤ b := by
    intro k
    induction k with
    | zero =>
      intro v
      show |θ v - (θ v + if R.LiveView v then φ v else 0)| ≤ b
      by_cases hl : R.LiveView v
      · rw [if_pos hl, show θ v - (θ v + φ v) = -φ v by ring, abs_neg]
        exact hφ v hl
      · rw [if_neg hl, show θ v - (θ v + 0) = 0 by ring, abs_zero]
        exact hb0
    | succ k ih =>
      intro v
      rw [Function.iterate_succ_apply']
      refine descend_near hr.le hz0 ?_ ih v
      intro u
      by_cases hl : R.LiveView u
      · rw [hdeg u]
        have := hrate u hl
        have h0 : 0 ≤ rate * R.constraintCount u := mul_nonneg hr.le (Nat.cast_nonneg _)
        push_cast
        linarith
      · have : Graph.degree (turnEdges n R.poseAt θ R.flattenConstraints) u = 0 := by
          unfold Graph.degree
          rw [List.length_eq_zero_iff, List.filter_eq_nil_iff]
          intro e hmem he1
          have : e.1 = u := by simpa using he1
          exact hl (this ▸ (keys_live hR).mp (hv e hmem))
        rw [this]
        simp
  have hres : ∀ k, ∀ e ∈ turnEdges n R.poseAt θ R.flattenConstraints,
      |Graph.res ((Graph.descend rate (turnEdges n R.poseAt θ R.flattenConstraints))^[k] θ) e| < Real.pi := by
    intro k e hmem
    have h1 := hnear k e.1
    have h2 := hnear k e.2.1
    have h3 := hz0 e hmem
    unfold Graph.res at h3 ⊢
    rw [abs_le] at h1 h2
    rw [abs_lt]
    constructor <;> linarith [h1.1, h1.2, h2.1, h2.2]
  have hit := iterate_turn (rate := rate) ha.unit hθ he s.optIterations
    (fun k _ e hmem => hres k _ (List.mem_map.mpr ⟨e, hmem, rfl⟩))
  have hD : ∀ v ∈ R.views.keys, (Graph.degree (turnEdges n R.poseAt θ R.flattenConstraints) v : ℝ) ≤ 1 / (2 * rate) := by
    intro v hmem
    rw [hdeg v, le_div_iff₀ (by linarith)]
    have := hrate v ((keys_live hR).mp hmem)
    push_cast
    linarith
  have hhalf : rate * (1 / (2 * rate)) = 1 / 2 := by field_simp
  have hconv := Graph.energy_iterate (vs := R.views.keys) hR.viewsWF.nodup hv hf hD hr.le (by rw [hhalf]; norm_num) z s.optIterations θ
  have hmean := (antitone_iterate (vs := R.views.keys) hR.viewsWF.nodup hv hf hD hr.le (by rw [hhalf]; norm_num) s.optIterations θ).2
  refine ⟨_, Data.applyConstraints_graph ω rate s hcons.reconsWF h hR hc, placed_about ha hit, ?_, ?_⟩
  · rw [turnDisagreement_eq ha hR he (x := _) (fun v hv => by rw [R.placed_poseAt _ hv]; exact hit v)
      (fun e hmem => (hres _ e hmem).le)]
    have hn' : (0 : ℝ) < s.optIterations := by exact_mod_cast hn
    rw [le_div_iff₀ (mul_pos hr hn')]
    have e1 : Graph.over R.views.keys (fun v => (θ v - z v) * (θ v - z v)) = (R.views.keys.map (fun v => φ v * φ v)).sum := by
      unfold Graph.over
      congr 1
      apply List.map_congr_left
      intro v hmem
      rw [hzl v ((keys_live hR).mp hmem)]
      ring
    have h0 := Graph.sum_map_nonneg R.views.keys (fun v => ((Graph.descend rate (turnEdges n R.poseAt θ
      R.flattenConstraints))^[s.optIterations] θ v - z v) * ((Graph.descend rate (turnEdges n R.poseAt θ
      R.flattenConstraints))^[s.optIterations] θ v - z v)) (fun _ _ => mul_self_nonneg _)
    rw [e1, hz] at hconv
    unfold Graph.over at hconv
    unfold turnEdges at *
    linarith
  · refine ⟨fun v => z v - (Graph.descend rate (turnEdges n R.poseAt θ R.flattenConstraints))^[s.optIterations] θ v, ?_, ?_⟩
    · intro v hl
      refine ⟨by rw [abs_sub_comm]; exact hnear _ v, ?_⟩
      rw [R.placed_poseAt _ hl, hit v, hθ, turn_add ha.unit, turn_add ha.unit]
      congr 1
      have e1 := hzl v hl
      unfold turnEdges
      linarith
    · have h1 : (R.views.keys.map (fun v => z v - (Graph.descend rate (turnEdges n R.poseAt θ
          R.flattenConstraints))^[s.optIterations] θ v)).sum = (R.views.keys.map z).sum + -1 * (R.views.keys.map
          (fun v => (Graph.descend rate (turnEdges n R.poseAt θ R.flattenConstraints))^[s.optIterations] θ v)).sum := by
        rw [← Graph.sum_map_mul, ← Graph.sum_map_add]
        congr 1
        apply List.map_congr_left
        intro v _
        ring
      have h2 : (R.views.keys.map z).sum = (R.views.keys.map θ).sum + (R.views.keys.map φ).sum := by
        rw [← Graph.sum_map_add]
        congr 1
        apply List.map_congr_left
        intro v hmem
        exact hzl v ((keys_live hR).mp hmem)
      unfold Graph.over at hmean
      have h3 : (R.views.keys.map (fun v => (Graph.descend rate (turnEdges n R.poseAt θ
        R.flattenConstraints))^[s.optIterations] θ v)).sum = (R.views.keys.map θ).sum := hmean
      rw [h1, h2, h3]
      ring

end Verif.Sfm
