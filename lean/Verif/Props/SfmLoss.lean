import Verif.Lemmas.SfmLoss
import Verif.Props.SfmExample

/-!
# C94: the loss of an observation and the observations a merge keeps
-/

namespace Verif.Sfm

open Verif.Geo

variable {C : Type} {W : World C} {R : Recon (Iso ℝ)}

/-- **C94** In every reachable state every observation has a loss: there is no panic, the loss is the one specified, the
specification admits no other, and it is between 0 and 2 if it is a number. -/
theorem C94_loss {d : Data (Iso ℝ)} (h : Reachable d) {r : Nat} (hR : d.recons.get r = some R)
    (hb : BearingsComplete W R) (hu : UnitBearings W) {l v f : Nat} {L : Landmark} (hL : R.landmarks.get l = some L)
    (hf : L.get v = some f) :
    ∃ x, observationLoss W R v f = some x ∧ Misfit W R L.entries (v, f) x ∧
      (∀ y, Misfit W R L.entries (v, f) y → y = x) ∧ ∀ y, x = some y → 0 ≤ y ∧ y ≤ 2 := by
  have hc := (reachable_consistent h).recons r R hR
  obtain ⟨x, h1, h2⟩ := observationLoss_some hc hb hL ((hc.agree v f l).mpr ⟨L, hL, hf⟩)
  refine ⟨x, h1, h2, fun y hy => hy.unique h2, ?_⟩
  rintro y rfl
  exact misfit_range hu h2

/-- **C94** The loss of a landmark with two observations is the same for both, does not depend on their order, which is
that of a hash map, and is at most 1. -/
theorem C94_pair (hr : RigidPoses R) {o₁ o₂ o o' : Nat × Nat} {x : Option ℝ} (h : Misfit W R [o₁, o₂] o x) :
    Misfit W R [o₂, o₁] o' x ∧ ∃ y, x = some y ∧ 0 ≤ y ∧ y ≤ 1 := by
  cases h with
  | single h => cases h
  | @pair a b s hs e =>
    refine ⟨?_, _, rfl, ?_⟩
    · obtain ⟨h1, hs'⟩ := List.forall₂_cons.mp hs
      obtain ⟨h2, _⟩ := List.forall₂_cons.mp hs'
      refine .pair (.cons h2 (.cons h1 .nil)) ?_
      rw [e]
      obtain ⟨V1, v1, e1, _⟩ := h1
      obtain ⟨V2, v2, e2, _⟩ := h2
      refine (pair_swap (a := a) (b := b) ?_ ?_).symm
      · rw [← e1]; exact hr _ _ v1
      · rw [← e2]; exact hr _ _ v2
    · have h0 := Real.sqrt_nonneg (1 - s ^ 2)
      have h1 : Real.sqrt (1 - s ^ 2) ≤ 1 := Real.sqrt_le_one.mpr (by nlinarith [sq_nonneg s])
      constructor <;> linarith
  | lost h => simp at h
  | far h => simp at h
  | nowhere h => simp at h

/-- **C94** Exact observations have no loss. -/
theorem C94_exact (hfind : CompleteTriangulator W.triangulate) {obs : List (Nat × Nat)} {x : V3 ℝ}
    (h : ShowsExactly W R obs x) {o : Nat × Nat} (ho : o ∈ obs) : Misfit W R obs o (some 0) := misfit_exact hfind h ho

theorem misfit_refines {R' : Recon (Iso ℝ)} (h : R.Refines R') {obs : List (Nat × Nat)} {o : Nat × Nat} {x : Option ℝ}
    (hx : Misfit W R' obs o x) : Misfit W R obs o x := by
  cases hx with
  | single h1 => exact .single h1
  | pair h1 e => exact .pair ((seenAs_refines h).mp h1) e
  | lost h1 h2 h3 => exact .lost h1 ((seenAs_refines h).mp h2) h3
  | far h1 h2 h3 h4 h5 => exact .far h1 ((seenAs_refines h).mp h2) h3 ((seenAs_refines h).mp h4) h5
  | nowhere h1 h2 h3 h4 h5 => exact .nowhere h1 ((seenAs_refines h).mp h2) h3 ((seenAs_refines h).mp h4) h5

/-- **C94** Merging two landmarks: of two observations by one view the one with the smaller loss is kept, and that of the
first landmark if they are equal. Each loss is with respect to observations of its own landmark, those not split off
before. -/
theorem C94_kept {d : Data (Iso ℝ)} (h : Reachable d) {r a b : Nat} {A B : Landmark} (hR : d.recons.get r = some R)
    (hb : BearingsComplete W R) (hab : a ≠ b) (hA : R.landmarks.get a = some A) (hB : R.landmarks.get b = some B)
    (high : Bool) :
    ∃ d' R' x, d.mergeDedup (lossRank W high) r a b = some (d', x) ∧ d'.recons.get r = some R' ∧
      (x = none ∨ x = some a) ∧
      (x = some a → ∀ v f g, A.get v = some f → B.get v = some g → ∃ OA OB lf lg,
        OA ⊆ A.entries ∧ OB ⊆ B.entries ∧ (v, f) ∈ OA ∧ (v, g) ∈ OB ∧
        Misfit W R OA (v, f) lf ∧ Misfit W R OB (v, g) lg ∧
        ((NotWorse high lf lg ∧ R'.Observes a v f) ∨ (¬ NotWorse high lf lg ∧ R'.Observes a v g))) := by
  have hd := reachable_consistent h
  have hc := hd.recons r R hR
  obtain ⟨d', x, R', h1, _, h2, _, _, _, _, h3, _⟩ :=
    Data.mergeDedup_ok (lossRank W high) hd hR ⟨A, hA⟩ ⟨B, hB⟩
  obtain ⟨R'', x', h4, hc', _, _, _, hv, ho, hx⟩ := Recon.mergeDedup_spec (lossRank W high) hc hab hA hB
  rw [h2] at h4
  cases h4
  refine ⟨d', R', x, h1, h3, ?_, ?_⟩
  · rcases hx with ⟨h, _⟩ | ⟨h, _⟩
    · exact Or.inl h
    · exact Or.inr h
  · intro hs v f g hf hg
    rcases hx with ⟨h, _⟩ | ⟨_, _, M, hM, _, _, m3, m4⟩
    · rw [hs] at h; cases h
    have hk : ∃ k, (k = f ∨ k = g) ∧ M.get v = some k := by
      rcases m3 v f g hf hg with e | e
      · exact ⟨f, Or.inl rfl, e⟩
      · exact ⟨g, Or.inr rfl, e⟩
    obtain ⟨k, hk, hMk⟩ := hk
    obtain ⟨Q, hQ, q1, q2, l1, l2, l3⟩ := m4 v f g k hf hg hMk
    obtain ⟨A', hA', hAf⟩ := (hQ.cons.agree v f a).mp q1
    obtain ⟨B', hB', hBg⟩ := (hQ.cons.agree v g b).mp q2
    have hbQ := complete_refines hQ hb
    obtain ⟨lf, _, hlf⟩ := observationLoss_some hQ.cons hbQ hA' q1
    obtain ⟨lg, _, hlg⟩ := observationLoss_some hQ.cons hbQ hB' q2
    have hiff := lossRank_le_iff hQ.cons hbQ high hA' hB' q1 q2 hlf hlg
    have hsub : ∀ (c : Nat) (C C' : Landmark), R.landmarks.get c = some C → Q.landmarks.get c = some C' →
        C'.entries ⊆ C.entries := by
      intro c C C' hC hC' e he
      have ha := hQ.old c e.1 e.2 (hc.landmarksWF.fresh _ _ hC) (Recon.entry_assigned hQ.cons hC' he)
      obtain ⟨C'', h, h'⟩ := (hc.agree _ _ _).mp ha
      rw [hC] at h
      cases h
      exact FMap.mem_of_get h'
    refine ⟨A'.entries, B'.entries, lf, lg, hsub a A A' hA hA', hsub b B B' hB hB', FMap.mem_of_get hAf,
      FMap.mem_of_get hBg, misfit_refines hQ hlf, misfit_refines hQ hlg, ?_⟩
    rcases hk with rfl | rfl
    · exact Or.inl ⟨hiff.mp l2, M, hM, hMk⟩
    · refine Or.inr ⟨fun h => ?_, M, hM, hMk⟩
      have := hiff.mpr h
      have := l3 rfl
      omega

/-- **C94** A landmark whose observations are exact keeps all of them when another is merged into it, whatever that one
contains. Where results that are not numbers count as the lowest, the triangulator must not return the centre of a camera. -/
theorem C94_exact_wins {d : Data (Iso ℝ)} (h : Reachable d) {r a b : Nat} {A B : Landmark}
    (hR : d.recons.get r = some R) (hb : BearingsComplete W R) (hu : UnitBearings W)
    (hfind : CompleteTriangulator W.triangulate) (high : Bool) (hn : high = true ∨ NeverCentre W.triangulate)
    (hab : a ≠ b) (hA : R.landmarks.get a = some A) (hB : R.landmarks.get b = some B) {x : V3 ℝ}
    (hx : ShowsExactly W R A.entries x) :
    ∃ d' R' y, d.mergeDedup (lossRank W high) r a b = some (d', y) ∧ d'.recons.get r = some R' ∧
      ∀ v f, A.get v = some f → R'.Observes a v f := by
  have hd := reachable_consistent h
  have hc := hd.recons r R hR
  obtain ⟨d', y, R', h1, _, h2, _, _, _, _, h3, _⟩ :=
    Data.mergeDedup_ok (lossRank W high) hd hR ⟨A, hA⟩ ⟨B, hB⟩
  refine ⟨d', R', y, h1, h3, ?_⟩
  intro v f hf
  have hAwf := hc.obsWF a A hA
  obtain ⟨R1, ok, A1, B1, hrun1, hr, _, hA1, hB1, hsame, hres, _, _⟩ :=
    Recon.dedupLoop_spec (lossRank W high) hab (Recon.dups A B) (ok := true) hc hA hB (Recon.dups_nodup hAwf)
      (fun v f g h => (Recon.mem_dups hAwf).mp h)
  have hkeep := Recon.dedupLoop_first (lossRank W high) hab (Recon.dups A B) (ok := true) hc hA hB
    (Recon.dups_nodup hAwf) (fun v f g h => (Recon.mem_dups hAwf).mp h) (by
      intro Q hQ hQA v f g hm hg
      obtain ⟨hf, _⟩ := (Recon.mem_dups hAwf).mp hm
      obtain ⟨B', hB', hBg⟩ := (hQ.cons.agree v g b).mp hg
      have hbQ := complete_refines hQ hb
      have ha : Q.Assigned v f a := (hQ.cons.agree v f a).mpr ⟨A, hQA, hf⟩
      have hxQ : ShowsExactly W Q A.entries x := by
        obtain ⟨pbs, hs, he⟩ := hx
        exact ⟨pbs, (seenAs_refines hQ).mpr hs, he⟩
      have h0 : Misfit W Q A.entries (v, f) (some 0) := misfit_exact hfind hxQ (FMap.mem_of_get hf)
      obtain ⟨lg, _, hlg⟩ := observationLoss_some hQ.cons hbQ hB' hg
      rw [lossRank_le_iff hQ.cons hbQ high hQA hB' ha hg h0 hlg]
      cases lg with
      | some z => exact (misfit_range hu hlg).1
      | none =>
        rcases hn with hn | hn
        · exact hn
        · exact absurd hlg (misfit_centre (FMap.mem_of_get hBg) hn)) hrun1
  rw [hkeep] at hA1
  cases hA1
  unfold Recon.mergeDedup at h2
  simp only [hA, hB, hrun1] at h2
  cases ok with
  | false =>
    cases h2
    exact ⟨A, hkeep, hf⟩
  | true =>
    have hdisj : ∀ v, A.get v = none ∨ B1.get v = none := by
      intro v
      by_cases hv : v ∈ (Recon.dups A B).map Prod.fst
      · obtain ⟨⟨w, f, k⟩, hm, rfl⟩ := List.mem_map.mp hv
        rcases hres rfl w f k hm with ⟨_, h⟩ | ⟨h, _⟩
        · exact Or.inr h
        · exact Or.inl h
      · obtain ⟨_, e2⟩ := hsame v hv
        rw [e2]
        cases ha : A.get v with
        | none => exact Or.inl rfl
        | some f =>
          cases hb : B.get v with
          | none => exact Or.inr rfl
          | some k => exact absurd (List.mem_map.mpr ⟨(v, f, k), (Recon.mem_dups hAwf).mpr ⟨ha, hb⟩, rfl⟩) hv
    obtain ⟨R2, hm, _, _, _, _, _, _, _, ⟨M, hM, hMg⟩, _⟩ := Recon.mergeLandmarks_spec hr.cons hab hkeep hB1 hdisj
    simp only [hm, Option.some.injEq, Prod.mk.injEq] at h2
    rw [← h2.1]
    refine ⟨M, hM, ?_⟩
    rw [hMg]
    rcases hdisj v with e | e
    · rw [hf] at e; cases e
    · rw [e, hf]
      rfl

end Verif.Sfm
