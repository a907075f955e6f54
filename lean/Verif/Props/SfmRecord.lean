import Verif.Props.SfmGraph

/-!
# C62: when a view is kept
-/

namespace Verif.Sfm

variable {P : Type}

theorem Recon.insertConstraints_entries (cs : List (Constraint P)) (R : Recon P) :
    (Recon.insertConstraints cs R).constraints.map.entries.map Prod.snd =
      R.constraints.map.entries.map Prod.snd ++ cs ∧
    ∀ k, k < R.constraints.next →
      (Recon.insertConstraints cs R).constraints.get k = R.constraints.get k := by
  induction cs generalizing R with
  | nil => simp [Recon.insertConstraints]
  | cons c cs ih =>
    unfold Recon.insertConstraints
    obtain ⟨h1, h2⟩ := ih { R with constraints := R.constraints.insert c }
    refine ⟨?_, ?_⟩
    · rw [h1]
      simp [SlotMap.insert, FMap.push]
    · intro k hk
      rw [h2 k (by show k < R.constraints.next + 1; omega)]
      show (R.constraints.map.push R.constraints.next c).get k = R.constraints.map.get k
      rw [FMap.get_push]
      have : k ≠ R.constraints.next := by omega
      simp [this]

/-- **C62** Recording the constraints of a live view in a reachable state: the view is accepted
exactly when at least the configured number of constraints was generated for it, or one for each
other view. If it is accepted the constraints are the old ones, under their old keys, followed by
exactly the generated ones; if it is refused nothing changes. Views and landmarks are never
touched. -/
theorem C62_record_decision [Mul P] [Inv P] {d : Data P} (h : Reachable d) {r v : Nat} {R : Recon P}
    (hR : d.recons.get r = some R) (hv : R.LiveView v) (ω : Oracle P) (hω : ω.Fair)
    (s : Settings) :
    ∃ cs R' x, R.generateViewConstraints ω s v = some cs ∧
      R.recordViewConstraints ω s v = some (R', x) ∧
      (x = true ↔ s.minNewConstraints ≤ cs.length ∨ R.views.size ≤ cs.length + 1) ∧
      R'.views = R.views ∧ R'.landmarks = R.landmarks ∧
      (x = true →
        R'.constraints.map.entries.map Prod.snd = R.constraints.map.entries.map Prod.snd ++ cs ∧
        ∀ k C, R.constraints.get k = some C → R'.constraints.get k = some C) ∧
      (x = false → R' = R) := by
  have hc := (reachable_consistent h).recons r R hR
  obtain ⟨cs, h1, _⟩ := Recon.generate_ok ω s hc hv hω.order hω.sort
  obtain ⟨R', x, e, _, hvw, hlm, hx⟩ := Recon.record_ok ω s hc hv hω.order hω.sort
  refine ⟨cs, R', x, h1, e, ?_, hvw, hlm, ?_, hx⟩
  · unfold Recon.recordViewConstraints at e
    simp only [h1] at e
    split at e <;> cases e <;> grind
  · intro hxt
    subst hxt
    unfold Recon.recordViewConstraints at e
    simp only [h1] at e
    split at e
    · cases e
    · cases e
      obtain ⟨g1, g2⟩ := Recon.insertConstraints_entries cs R
      refine ⟨g1, fun k C hk => ?_⟩
      rw [g2 k (hc.constraintsWF.fresh k C hk)]
      exact hk

/-- **C62** Incorporating a frame: the view is added, the frame points to it, and it stays exactly
when enough constraints were generated for it in the extended reconstruction. Otherwise the frame is
free again and the view is gone. -/
theorem C62_frame_kept [Mul P] [Inv P] {d : Data P} (h : Reachable d) {r frame n : Nat} {R : Recon P}
    (hR : d.recons.get r = some R) (hF : d.FreeFrame frame n) (pose : P)
    {ex : Nat → Option (List Nat)} (hex : R.ValidMatches n ex) (ω : Oracle P) (hω : ω.Fair)
    (s : Settings) :
    ∃ d1 R1 cs d' x, d.addView r frame pose ex = some d1 ∧ d1.recons.get r = some R1 ∧
      R1.generateViewConstraints ω s R.views.next = some cs ∧
      d.incorporateFrame ω s r frame pose ex = some (d', x) ∧
      (s.minNewConstraints ≤ cs.length ∨ R1.views.size ≤ cs.length + 1 →
        x = some R.views.next ∧
        (d'.frames.get frame).map Frame.view = some (some (r, R.views.next)) ∧
        ∃ R', d'.recons.get r = some R' ∧ R'.views = R1.views ∧ R'.landmarks = R1.landmarks ∧
          R'.constraints.map.entries.map Prod.snd =
            R.constraints.map.entries.map Prod.snd ++ cs) ∧
      (cs.length < s.minNewConstraints ∧ cs.length + 1 < R1.views.size →
        x = none ∧ (d'.frames.get frame).map Frame.view = some none ∧
        ∃ R', d'.recons.get r = some R' ∧ ¬ R'.LiveView R.views.next) := by
  obtain ⟨F, hF1, hF2, hF3⟩ := hF
  subst hF2
  have hd := reachable_consistent h
  obtain ⟨d', R', x, hrun, _, _, _, _, hR', _, _, _, _, hcase⟩ :=
    Data.incorporateFrame_spec ω hω s hd hR hF1 hF3 pose hex
  have hoff := hd.off (fun _ => False)
  obtain ⟨d1, R1, lms, hrun1, hd1, hav, hn1, hR1, hq1, hdv, hf1, hg1, hk1⟩ :=
    Data.addView_spec hoff id hR hF1 (by intro q v h; rw [hF3] at h; cases h) pose hex
  obtain ⟨R1', lms', hav', hc1, hcon1, _⟩ := Recon.addView_spec (hd.recons r R hR) frame pose hex
  rw [hav] at hav'
  cases hav'
  have hreach1 : Reachable d1 :=
    .step (op := .addView r frame pose ex) h ⟨R, F.nfeat, hR, ⟨F, hF1, rfl, hF3⟩, hex⟩ hrun1
  obtain ⟨cs, R2, y, g1, g2, g3, g4, g5, g6, g7⟩ :=
    C62_record_decision hreach1 hR1 ⟨_, hdv⟩ ω hω s
  have hrec : d1.recordViewConstraints ω s r R.views.next =
      some ({ d1 with recons := d1.recons.modify r (fun _ => R2) }, y) := by
    unfold Data.recordViewConstraints
    simp only [hR1, g2]
  refine ⟨d1, R1, cs, d', x, hrun1, hR1, g1, hrun, ?_, ?_⟩
  · intro hen
    have hy := g3.2 hen
    subst hy
    have hrun' := hrun
    unfold Data.incorporateFrame at hrun'
    simp only [hR, hrun1, hrec] at hrun'
    cases hrun'
    refine ⟨rfl, ?_, R2, ?_, g4, g5, ?_⟩
    · show (d1.frames.get frame).map Frame.view = _
      rw [hf1]; rfl
    · show (d1.recons.modify r _).get r = _
      rw [SlotMap.get_modify]; simp [hR1]
    · rw [(g6 rfl).1, hcon1]
  · intro hno
    have hy : y = false := by
      cases y with
      | false => rfl
      | true => have := g3.1 rfl; omega
    subst hy
    rcases hcase with ⟨hx, _⟩ | ⟨hx, hfr, hgone⟩
    · exfalso
      unfold Data.incorporateFrame at hrun
      simp only [hR, hrun1, hrec] at hrun
      split at hrun
      · cases hrun
      · subst hx; cases hrun
    · refine ⟨hx, ?_, R', hR', ?_⟩
      · rw [hfr]; simp [hF3]
      · rintro ⟨V, hV⟩
        rw [hgone] at hV
        cases hV

namespace Ex

/-- The example: view 3 gets three constraints in a reconstruction of four views. It is kept with
minimum 4, since there is one for each other view. -/
example : (R7.recordViewConstraints ω0 { s0 with minNewConstraints := 4 } 3).map Prod.snd =
    some true := by decide
/-- With at most two constraints and minimum 3 it is refused, with minimum 2 it is kept. -/
example : (R7.recordViewConstraints ω0 { s0 with minNewConstraints := 3, maxConstraints := 2 } 3).map
    Prod.snd = some false := by decide
example : (R7.recordViewConstraints ω0 { s0 with minNewConstraints := 2, maxConstraints := 2 } 3).map
    Prod.snd = some true := by decide
/-- The hypotheses of `C62_frame_kept` on the example; the frame is kept or refused by the
setting. -/
example : Reachable d6 ∧ d6.recons.get 0 = some R6 ∧ d6.FreeFrame 3 2 ∧ R6.ValidMatches 2 ex4 ∧
    ω0.Fair ∧
    (d6.incorporateFrame ω0 { s0 with minNewConstraints := 2, maxConstraints := 2 } 0 3 ⟨3⟩ ex4).map
      Prod.snd = some (some 3) ∧
    (d6.incorporateFrame ω0 { s0 with minNewConstraints := 3, maxConstraints := 2 } 0 3 ⟨3⟩ ex4).map
      Prod.snd = some none :=
  ⟨reach6, get6, ⟨_, rfl, rfl, rfl⟩, matches6, fair0, by decide, by decide⟩

end Ex

end Verif.Sfm
