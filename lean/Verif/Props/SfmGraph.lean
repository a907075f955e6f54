import Mathlib.Algebra.Group.Basic
import Mathlib.Algebra.Group.Int.Defs
import Mathlib.Algebra.Group.TypeTags.Basic
import Verif.Lemmas.SfmHistory
import Verif.Props.SfmMerging

/-!
# C15, C16, C18: the constraint graph
-/

namespace Verif.Sfm

variable {P : Type}

/-! ## C15 -/

/-- **C15** The six edges of a constraint over three different views: one for every ordered pair of
its views; opposite edges are inverse; the edges around a path of the three views compose to the
direct edge; and if the constraint agrees with camera poses `X`, every edge maps the pose of its
source camera to the pose of its target camera. Poses form an arbitrary group. -/
theorem C15_three_view_edges [Group P] (c : Constraint P) (h01 : c.v0 ≠ c.v1) (h02 : c.v0 ≠ c.v2)
    (h12 : c.v1 ≠ c.v2) :
    -- exactly one edge for every ordered pair of different views of the constraint, no other edge
    (∀ a b, (∃ p, (a, b, p) ∈ Recon.edgeConstraints c) ↔
      a ≠ b ∧ (a = c.v0 ∨ a = c.v1 ∨ a = c.v2) ∧ (b = c.v0 ∨ b = c.v1 ∨ b = c.v2)) ∧
    (Recon.edgeConstraints c).length = 6 ∧
    (∀ a b p q, (a, b, p) ∈ Recon.edgeConstraints c → (a, b, q) ∈ Recon.edgeConstraints c → p = q) ∧
    -- inverse
    (∀ a b p q, (a, b, p) ∈ Recon.edgeConstraints c → (b, a, q) ∈ Recon.edgeConstraints c →
      q = p⁻¹) ∧
    -- composition: first from `x` to `b`, then from `b` to `a`
    (∀ a b x p q r, (a, b, p) ∈ Recon.edgeConstraints c → (b, x, q) ∈ Recon.edgeConstraints c →
      (a, x, r) ∈ Recon.edgeConstraints c → r = p * q) ∧
    -- prediction of camera poses
    (∀ X : Nat → P, c.first = X c.v1 * (X c.v0)⁻¹ → c.second = X c.v2 * (X c.v0)⁻¹ →
      ∀ a b p, (a, b, p) ∈ Recon.edgeConstraints c → p * X b = X a) := by
  obtain ⟨v0, v1, v2, f, s⟩ := c
  simp only at h01 h02 h12
  have hval : ∀ X : Nat → P, f = X v1 * (X v0)⁻¹ → s = X v2 * (X v0)⁻¹ → ∀ a b p,
      (a, b, p) ∈ Recon.edgeConstraints (⟨v0, v1, v2, f, s⟩ : Constraint P) →
      p = X a * (X b)⁻¹ := by
    rintro X rfl rfl a b p h
    simp only [Recon.edgeConstraints, List.mem_cons, Prod.mk.injEq, List.not_mem_nil,
      or_false] at h
    rcases h with ⟨rfl, rfl, rfl⟩ | ⟨rfl, rfl, rfl⟩ | ⟨rfl, rfl, rfl⟩ | ⟨rfl, rfl, rfl⟩ |
      ⟨rfl, rfl, rfl⟩ | ⟨rfl, rfl, rfl⟩ <;> simp [mul_assoc]
  obtain ⟨X, hf, hs⟩ : ∃ X : Nat → P, f = X v1 * (X v0)⁻¹ ∧ s = X v2 * (X v0)⁻¹ :=
    ⟨fun v => if v = v1 then f else if v = v2 then s else 1, by simp [h01, h02],
      by simp [h01, h02, Ne.symm h12]⟩
  have hX := hval X hf hs
  refine ⟨?_, rfl, ?_, ?_, ?_, ?_⟩
  · intro a b
    simp only [Recon.edgeConstraints, List.mem_cons, Prod.mk.injEq, List.not_mem_nil, or_false]
    constructor
    · rintro ⟨p, h⟩
      rcases h with ⟨rfl, rfl, _⟩ | ⟨rfl, rfl, _⟩ | ⟨rfl, rfl, _⟩ | ⟨rfl, rfl, _⟩ | ⟨rfl, rfl, _⟩ |
        ⟨rfl, rfl, _⟩ <;> refine ⟨?_, by simp, by simp⟩ <;>
        first | exact h01 | exact h02 | exact h12 | exact h01.symm | exact h02.symm | exact h12.symm
    · rintro ⟨hne, ha | ha | ha, hb | hb | hb⟩ <;> rw [ha, hb] at hne ⊢
      · exact absurd rfl hne
      · exact ⟨_, Or.inr (Or.inl ⟨rfl, rfl, rfl⟩)⟩
      · exact ⟨_, Or.inl ⟨rfl, rfl, rfl⟩⟩
      · exact ⟨_, Or.inr (Or.inr (Or.inl ⟨rfl, rfl, rfl⟩))⟩
      · exact absurd rfl hne
      · exact ⟨_, Or.inr (Or.inr (Or.inr (Or.inl ⟨rfl, rfl, rfl⟩)))⟩
      · exact ⟨_, Or.inr (Or.inr (Or.inr (Or.inr (Or.inr ⟨rfl, rfl, rfl⟩))))⟩
      · exact ⟨_, Or.inr (Or.inr (Or.inr (Or.inr (Or.inl ⟨rfl, rfl, rfl⟩))))⟩
      · exact absurd rfl hne
  · intro a b p q h h'
    rw [hX a b p h, hX a b q h']
  · intro a b p q h h'
    rw [hX a b p h, hX b a q h']
    simp
  · intro a b x p q r h h' h''
    rw [hX a b p h, hX b x q h', hX a x r h'']
    simp
  · intro Y h1 h2 a b p h
    rw [hval Y h1 h2 a b p h]
    simp

/-- A constraint between views 4, 7 and 9 with poses in the group of integer translations that
agrees with cameras at 10, 12 and 15. -/
example : let c : Constraint (Multiplicative Int) := ⟨4, 7, 9, .ofAdd 2, .ofAdd 5⟩
    let X : Nat → Multiplicative Int := fun v =>
      if v = 4 then .ofAdd 10 else if v = 7 then .ofAdd 12 else .ofAdd 15
    c.v0 ≠ c.v1 ∧ c.v0 ≠ c.v2 ∧ c.v1 ≠ c.v2 ∧ c.first = X c.v1 * (X c.v0)⁻¹ ∧
      c.second = X c.v2 * (X c.v0)⁻¹ := by decide

/-! ## C16 -/

variable [Mul P] [Inv P]

/-- **C16** What holds: when every pose update is finite, the optimisation of any reconstruction
of any reachable state, with any settings, any number of iterations and any answers of the
geometry, runs to the end without touching a removed view (or panicking otherwise), and leaves a
reachable state. Missing: non-finite updates, see `C16_optimisation_can_panic`. -/
theorem C16_finite_updates_safe_partial {d : Data P} (h : Reachable d) {r : Nat} {R : Recon P}
    (hR : d.recons.get r = some R) (ω : Nat → Nat → Oracle P) (ω' : Nat → Oracle P) (s : Settings)
    (hfin : ∀ i j, (ω i j).FiniteUpdates) :
    ∃ d', step d (.optimize ω ω' s r) = some d' ∧ Reachable d' := by
  obtain ⟨d', b, h'⟩ := Data.optimizeLoop_total ω ω' hfin s r s.reconIterations
    (reachable_consistent h) hR
  have hs : step d (.optimize ω ω' s r) = some d' := by
    show (d.optimizeReconstruction ω ω' s r).map Prod.fst = some d'
    unfold Data.optimizeReconstruction
    rw [h']
    rfl
  exact ⟨d', hs, .step (op := .optimize ω ω' s r) h ⟨R, hR⟩ hs⟩

/-- **C16** A single iteration is safe even with non-finite updates: the panic needs at least two
iterations over the same list of edges. -/
theorem C16_one_iteration_safe_partial {d : Data P} (h : Reachable d) {r : Nat} {R : Recon P}
    (hR : d.recons.get r = some R) (ω : Nat → Oracle P) (s : Settings) (h1 : s.optIterations ≤ 1) :
    ∃ d' b, d.applyConstraints ω s r = some (d', b) := by
  have hd := reachable_consistent h
  have hc := hd.recons r R hR
  unfold Data.applyConstraints
  rw [hR]
  show ∃ d' b, Data.applyLoop ω r R.flattenConstraints s.optIterations d = some (d', b)
  match hn : s.optIterations, h1 with
  | 0, _ => exact ⟨_, _, rfl⟩
  | 1, _ =>
    obtain ⟨us, rs, hu⟩ := Data.constrainViews_total (ω 0) (Data.flatten_good hc).live R.views.keys
    obtain ⟨hnd, h2, h3⟩ := Data.constrainLists_ok (ω 0) hc hu
    unfold Data.applyLoop
    rw [hR]
    simp only [hu]
    split
    · obtain ⟨d', R', h4, _⟩ := Data.applyBundleAdjust_ok hd hR hnd h2 h3
      rw [h4]
      exact ⟨_, _, rfl⟩
    · obtain ⟨d', h4, _⟩ := Data.removeReconstruction_spec hd hR
      rw [h4]
      exact ⟨_, _, rfl⟩

namespace Ex

/-- The example with four views after recording the constraints of the fourth view. -/
def d8 : Data Shift := (step d7 (.recordConstraints ω0 s0 0 3)).getD d1

theorem reach8 : Reachable d8 :=
  .step (op := .recordConstraints ω0 s0 0 3) reach7 ⟨fair0, R7, get7, ⟨_, rfl⟩⟩ rfl

/-- The pose update of view 3 is not finite. -/
def ωnan : Oracle Shift :=
  { ω0 with constrain := fun _ v _ => if v = 3 then none else some ⟨0⟩ }

end Ex

/-- **C16** (negation) A reachable state in which the optimisation with two iterations panics:
the update of view 3 is not finite in the first iteration, so the view is removed; the edges were
collected before, and the second iteration looks the removed view up. -/
theorem C16_optimisation_can_panic : ∃ (d : Data Ex.Shift) (op : Op Ex.Shift),
    op = .optimize (fun _ _ => Ex.ωnan) (fun _ => Ex.ω0) Ex.s0 0 ∧ Ex.s0.optIterations = 2 ∧
    Reachable d ∧ Valid d op ∧ step d op = none :=
  ⟨Ex.d8, _, rfl, rfl, Ex.reach8, ⟨_, rfl⟩, rfl⟩

/-- The same state with finite updates. -/
example : (step Ex.d8 (.optimize (fun _ _ => Ex.ω0) (fun _ => Ex.ω0) Ex.s0 0)).isSome := rfl

/-! ## C18 -/

/-- **C18** The constraints generated for a view: at most the configured number, no triple of views
twice, and each one names the view and two other live views, all three different and in increasing
order, that have at least the configured numbers of triangulated landmarks in common; its poses are
those optimised for this triple and these landmarks. -/
theorem C18_generated_constraints {d : Data P} (h : Reachable d) {r v : Nat} {R : Recon P}
    (hR : d.recons.get r = some R) (hv : R.LiveView v) (ω : Oracle P) (hω : ω.Fair)
    (s : Settings) :
    ∃ cs, R.generateViewConstraints ω s v = some cs ∧ cs.length ≤ s.maxConstraints ∧
      (cs.map (fun c => (c.v0, c.v1, c.v2))).Nodup ∧
      ∀ c, c ∈ cs → (v = c.v0 ∨ v = c.v1 ∨ v = c.v2) ∧ c.v0 < c.v1 ∧ c.v1 < c.v2 ∧
        R.LiveView c.v0 ∧ R.LiveView c.v1 ∧ R.LiveView c.v2 ∧
        ∃ ls : List Nat, ls.Nodup ∧ s.minCovisible ≤ ls.length ∧
          s.minOptLandmarks ≤ ls.length ∧
          ω.optimise R (c.v0, c.v1, c.v2) ls = some (c.first, c.second) ∧ ∀ l, l ∈ ls →
          ω.triangulates R l = true ∧ (∃ f, R.Observes l c.v0 f) ∧ (∃ f, R.Observes l c.v1 f) ∧
            ∃ f, R.Observes l c.v2 f := by
  obtain ⟨cs, h1, h2, h3, h4⟩ := Recon.generate_ok ω s ((reachable_consistent h).recons r R hR) hv
    hω.order hω.sort
  refine ⟨cs, h1, h2, h3, fun c hc => ?_⟩
  have g := h4 c hc
  refine ⟨?_, g.lt01, g.lt12, g.live0, g.live1, g.live2, g.covisible⟩
  have := g.mentions
  simp [Constraint.mentions] at this
  grind

/-- Three constraints for view 3 of the example. -/
example : (Ex.R7.generateViewConstraints Ex.ω0 Ex.s0 3).map
    (fun cs => cs.map (fun c => (c.v0, c.v1, c.v2))) = some [(0, 2, 3), (0, 1, 3), (1, 2, 3)] := by
  decide

end Verif.Sfm
