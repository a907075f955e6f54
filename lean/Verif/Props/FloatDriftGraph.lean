import Verif.Props.FloatDrift

/-!
# How far the poses drift in graph optimisation (C112)
-/

namespace Verif.Geo.Rounded

open Verif.Akaze
open Sfm (Data Recon Oracle)

variable {D : Type} [FloatOps D] [FloatBits D] {J : Ieee D} {u η M : ℝ}

section Graded

variable {P : Type} {Q : Nat → P → Prop}

/-- One round brings poses with `Q k` to poses with `Q (k + 1)`. -/
def Raises (Q : Nat → P → Prop) (ω : Oracle P) : Prop :=
  ∀ k R v es p, R.Poses (Q k) (fun _ => True) → ω.constrain R v es = some p → Q (k + 1) p

theorem poses_mono {Q Q' : P → Prop} (h : ∀ p, Q p → Q' p) {d : Data P} (hd : d.Poses Q fun _ => True) :
    d.Poses Q' fun _ => True := fun e he => ⟨fun x hx => h _ ((hd e he).views x hx), (hd e he).constraints⟩

theorem applyLoop_graded {ω : Nat → Oracle P} (hω : ∀ i, Raises Q (ω i)) (hmono : ∀ k p, Q k p → Q (k + 1) p) {r : Nat}
    {edges : List (Nat × Nat × P)} : ∀ {n k : Nat} {d d' : Data P} {b : Bool}, d.Poses (Q k) (fun _ => True) →
    d.applyLoop ω r edges n = some (d', b) → d'.Poses (Q (k + n)) fun _ => True := by
  have up : ∀ n k p, Q k p → Q (k + n) p := by
    intro n
    induction n with
    | zero => intro k p h; exact h
    | succ n ih => intro k p h; exact hmono _ _ (ih k p h)
  intro n
  induction n with
  | zero => intro k d d' b h hr; cases hr; exact h
  | succ n ih =>
    intro k d d' b h hr
    simp only [Data.applyLoop] at hr
    split at hr
    · cases hr
    · rename_i R hR
      split at hr
      · cases hr
      · rename_i us rs h1
        have hus : ∀ x ∈ us, Q (k + 1) x.2 := by
          intro x hx
          have hn := Sfm.constrainViews_updates (ω n) _ h1 x hx
          unfold Recon.constrainView at hn
          simp only at hn
          split at hn
          · cases hn
          · split at hn
            · exact hω n k R _ _ _ (h.get hR) (Option.some.inj hn)
            · cases hn
        split at hr
        · split at hr
          · cases hr
          · rename_i h2
            unfold Data.applyBundleAdjust at h2
            split at h2
            · cases h2
            · rename_i h3
              rw [show k + (n + 1) = k + 1 + n by omega]
              exact ih (Sfm.Data.removeViews_poses (Sfm.Data.updatePoses_poses (poses_mono (hmono k) h) hus h3) h2) hr
        · split at hr
          · cases hr
          · rename_i h2
            cases hr
            exact poses_mono (up _ _) (Sfm.Data.removeReconstruction_poses h h2)

theorem optimizeLoop_graded [Mul P] [Inv P] {ω : Nat → Nat → Oracle P} (hω : ∀ i j, Raises Q (ω i j))
    (hmono : ∀ k p, Q k p → Q (k + 1) p) {ω' : Nat → Oracle P} {s : Sfm.Settings} {r : Nat} :
    ∀ {n k : Nat} {d d' : Data P} {b : Bool}, d.Poses (Q k) (fun _ => True) →
      d.optimizeLoop ω ω' s r n = some (d', b) → d'.Poses (Q (k + n * s.optIterations)) fun _ => True := by
  have up : ∀ n k p, Q k p → Q (k + n) p := by
    intro n
    induction n with
    | zero => intro k p h; exact h
    | succ n ih => intro k p h; exact hmono _ _ (ih k p h)
  intro n
  induction n with
  | zero => intro k d d' b h hr; cases hr; simpa using h
  | succ n ih =>
    intro k d d' b h hr
    have apply : ∀ {d1 : Data P} {b : Bool}, d.applyConstraints (ω n) s r = some (d1, b) →
        d1.Poses (Q (k + s.optIterations)) fun _ => True := by
      intro d1 b h1
      unfold Data.applyConstraints at h1
      split at h1
      · cases h1
      · exact applyLoop_graded (hω n) hmono h h1
    have hk : k + (n + 1) * s.optIterations = k + s.optIterations + n * s.optIterations := by ring
    rw [hk]
    simp only [Data.optimizeLoop] at hr
    split at hr
    · cases hr
    · rename_i h1
      cases hr
      exact poses_mono (up _ _) (apply h1)
    · rename_i h1
      split at hr
      · cases hr
      · rename_i h2
        cases hr
        exact poses_mono (up _ _) (Sfm.Data.filterObservations_poses (apply h1) h2)
      · rename_i h2
        exact ih (Sfm.Data.filterObservations_poses (apply h1) h2) hr

end Graded

/-- The rotation is near a rotation, as long as the allowed error is small. -/
def Turned (J : Ieee D) (e c : ℝ) (k : Nat) (p : Iso D) : Prop := e + k * c ≤ 1 / 50 → RotWithin J (e + k * c) p.rot

/-- One round of graph optimisation. -/
theorem raises (A : Accurate J u η M) (B : IeeeBits J) (E : FineRot u η M) {log : M3 D → V3 D} {exp : V3 D → M3 D} {scale : D}
    {ε e : ℝ} (hx : ∀ w, ¬ BadV J w → RotWithin J ε (exp w)) (h0 : 0 ≤ ε) (hε : ε ≤ 1 / 50) {ω : Oracle (Iso D)}
    (hω : ω.constrain = fconstrain log exp scale) : Raises (Turned J e (102 / 100 * ε + 11 * u)) ω := by
  intro k R v es p hR hp hk
  have hu0 := A.u_nonneg
  rw [hω] at hp
  unfold fconstrain at hp
  simp only [Option.bind_eq_bind, Option.bind_eq_some_iff] at hp
  obtain ⟨V, hV, others, -, hp⟩ := hp
  obtain ⟨t, w, -, hw, rfl⟩ := C110_finite_step B hp
  push_cast at hk ⊢
  have hk' : e + k * (102 / 100 * ε + 11 * u) ≤ 1 / 50 := by nlinarith
  have := C112_rotations A E (hx w hw) (hR.views _ (FMap.mem_of_get hV) hk') h0 hε hk'
  exact this.mono (by linarith)

/-- **C112.** Graph optimisation, in any number of iterations: if before the call the poses of all views are rotations up to
`e`, afterwards the poses of all remaining views are rotations up to `e` plus the number of rounds times the error of one
round, where `ε` is that of the exponential. -/
theorem C112_optimise (A : Accurate J u η M) (B : IeeeBits J) (E : FineRot u η M) {log : M3 D → V3 D} {exp : V3 D → M3 D}
    {scale : D} {ε e : ℝ} (hx : ∀ w, ¬ BadV J w → RotWithin J ε (exp w)) (h0 : 0 ≤ ε) (hε : ε ≤ 1 / 50)
    {ω : Nat → Nat → Oracle (Iso D)} (hω : ∀ i j, (ω i j).constrain = fconstrain log exp scale) {ω' : Nat → Oracle (Iso D)}
    {s : Sfm.Settings} {d d' : Data (Iso D)} {r : Nat} {b : Bool}
    (hc : d.Consistent) (hd : ∀ r R, d.recons.get r = some R → ∀ v V, R.views.get v = some V → RotWithin J e V.pose.rot)
    (hn : e + (s.reconIterations * s.optIterations : Nat) * (102 / 100 * ε + 11 * u) ≤ 1 / 50)
    (h : d.optimizeReconstruction ω ω' s r = some (d', b)) :
    ∀ r R, d'.recons.get r = some R → ∀ v V, R.views.get v = some V →
      RotWithin J (e + (s.reconIterations * s.optIterations : Nat) * (102 / 100 * ε + 11 * u)) V.pose.rot := by
  have hu0 := A.u_nonneg
  have start : d.Poses (Turned J e (102 / 100 * ε + 11 * u) 0) fun _ => True := by
    intro x hx
    have hR := FMap.get_of_mem hc.reconsWF.nodup (k := x.1) (v := x.2) hx
    refine ⟨fun y hy _ => ?_, fun _ _ => ⟨trivial, trivial⟩⟩
    have hV := FMap.get_of_mem (hc.recons _ _ hR).viewsWF.nodup (k := y.1) (v := y.2) hy
    exact (hd _ _ hR _ _ hV).mono (by simp)
  have hend := optimizeLoop_graded (Q := Turned J e (102 / 100 * ε + 11 * u)) (fun i j => raises A B E hx h0 hε (hω i j))
    (fun k p hk h => by
      push_cast at h ⊢
      exact (hk (by nlinarith)).mono (by nlinarith)) start h
  rw [Nat.zero_add] at hend
  intro r' R hR v V hV
  exact (hend.get hR).views _ (FMap.mem_of_get hV) hn

end Verif.Geo.Rounded
