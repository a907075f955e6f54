import Verif.Lemmas.SfmGrows
import Verif.Lemmas.SfmOptimize
import Verif.Lemmas.SfmTryMerge

/-!
# One call, and whole histories
-/

namespace Verif.Sfm

variable {P : Type}

/-- Preservation, and progress for calls without non-finite pose updates. -/
def StepOk [Mul P] [Inv P] (d : Data P) (op : Op P) : Prop :=
  (Finite op → ∃ d', step d op = some d') ∧ ∀ d', step d op = some d' → d'.Consistent

theorem StepOk.of [Mul P] [Inv P] {d : Data P} {op : Op P}
    (h : ∃ d', step d op = some d' ∧ d'.Consistent) : StepOk d op := by
  obtain ⟨d', h, hc⟩ := h
  refine ⟨fun _ => ⟨d', h⟩, ?_⟩
  intro d'' h'
  rw [h] at h'
  cases h'
  exact hc

theorem OneToOne.good {n : Nat} {ps : List (Nat × Nat)} (h : OneToOne n ps) :
    Data.GoodPairs n ps := ⟨h.range, h.inj⟩

namespace Recon

theorem get_map {α β : Type} (m : FMap α) (f : α → β) (k : Nat) :
    (⟨m.entries.map (fun e => (e.1, f e.2))⟩ : FMap β).get k = (m.get k).map f := by
  obtain ⟨es⟩ := m
  simp only [FMap.get]
  induction es with
  | nil => rfl
  | cons e es ih =>
    obtain ⟨j, x⟩ := e
    simp only [List.map_cons, List.lookup_cons]
    cases h : (k == j) <;> simp [ih]

theorem wf_map {α β : Type} {m : SlotMap α} (f : α → β) (h : m.WF) :
    (⟨⟨m.map.entries.map (fun e => (e.1, f e.2))⟩, m.next⟩ : SlotMap β).WF := by
  refine ⟨?_, ?_⟩
  · have := h.nodup
    simpa [FMap.WF, FMap.keys, Function.comp_def] using this
  · intro k v hk
    have hk' : ((⟨m.map.entries.map (fun e => (e.1, f e.2))⟩ : FMap β).get k) = some v := hk
    rw [get_map] at hk'
    cases hm : m.map.get k with
    | none => rw [hm] at hk'; cases hk'
    | some x => exact h.fresh k x hm

theorem mapPoses_views (f g : P → P) (R : Recon P) (v : Nat) :
    (R.mapPoses f g).views.get v = (R.views.get v).map (fun V => { V with pose := f V.pose }) :=
  get_map R.views.map (fun V : View P => ({ V with pose := f V.pose } : View P)) v

theorem mapPoses_constraints (f g : P → P) (R : Recon P) (k : Nat) :
    (R.mapPoses f g).constraints.get k = (R.constraints.get k).map
      (fun c => { c with first := g c.first, second := g c.second }) :=
  get_map R.constraints.map
    (fun c : Constraint P => ({ c with first := g c.first, second := g c.second } : Constraint P)) k

theorem mapPoses_live (f g : P → P) (R : Recon P) (v : Nat) :
    (R.mapPoses f g).LiveView v ↔ R.LiveView v := by
  unfold LiveView
  rw [mapPoses_views]
  cases R.views.get v <;> simp

theorem mapPoses_assigned (f g : P → P) (R : Recon P) (v i l : Nat) :
    (R.mapPoses f g).Assigned v i l ↔ R.Assigned v i l := by
  unfold Assigned
  rw [mapPoses_views]
  cases R.views.get v <;> simp

theorem mapPoses_consistent (f g : P → P) {R : Recon P} (hR : R.Consistent) :
    (R.mapPoses f g).Consistent := by
  refine ⟨wf_map (fun V : View P => ({ V with pose := f V.pose } : View P)) hR.viewsWF, hR.landmarksWF, wf_map (fun c : Constraint P =>
      ({ c with first := g c.first, second := g c.second } : Constraint P)) hR.constraintsWF, hR.obsWF, hR.nonempty,
    ?_, ?_⟩
  · intro v i l
    rw [mapPoses_assigned]
    exact hR.agree v i l
  · intro k c hc
    rw [mapPoses_constraints] at hc
    cases hk : R.constraints.get k with
    | none => rw [hk] at hc; cases hc
    | some c0 =>
      rw [hk] at hc
      cases hc
      have := hR.constraintsLive k c0 hk
      simpa only [mapPoses_live] using this

end Recon

theorem onRecon_some {d : Data P} {r : Nat} {R R' : Recon P} {f : Recon P → Option (Recon P)}
    (hR : d.recons.get r = some R) (hf : f R = some R') :
    d.onRecon r f = some { d with recons := d.recons.modify r (fun _ => R') } := by
  unfold Data.onRecon
  simp only [hR, hf]

theorem step_ok [Mul P] [Inv P] {d : Data P} (hd : d.Consistent) {op : Op P} (hv : Valid d op) :
    StepOk d op := by
  cases op <;> simp only [Valid] at hv
  case addFeed =>
    exact .of ⟨_, rfl, (Data.addFeed_consistent (hd.off _)).on⟩
  case addFrame feed n =>
    obtain ⟨fs, hfs⟩ := hv
    obtain ⟨d', h, hc, _⟩ := Data.addFrame_spec (hd.off _) hfs n
    exact .of ⟨d', h, hc.on⟩
  case addReconstruction c f s idp p1 p2 cm m1 m2 =>
    obtain ⟨h1, h2, h3, ⟨_, F1, hF1, _, hv1⟩, ⟨_, F2, hF2, _, hv2⟩, nc, ⟨Fc, hFc, rfl, hvc⟩, g1, g2⟩ := hv
    obtain ⟨d', R, h, hc, _⟩ := Data.addReconstruction_spec hd h1 h2 h3 hFc hF1 hF2 hvc hv1 hv2
      idp p1 p2 g1.good g2.good
    exact .of ⟨d', h, hc⟩
  case addView r frame pose ex =>
    obtain ⟨R, n, hR, ⟨F, hF, rfl, hFv⟩, hex⟩ := hv
    obtain ⟨d', R', lms, h, hc, _⟩ := Data.addView_spec (hd.off (fun _ => False)) (fun h => h) hR hF
      (by intro q v h; rw [hFv] at h; cases h) pose hex
    exact .of ⟨d', h, hc.on⟩
  case incorporateFrame ω s r frame pose ex =>
    obtain ⟨hω, R, n, hR, ⟨F, hF, rfl, hFv⟩, hex⟩ := hv
    obtain ⟨d', R', x, h, hc, _⟩ := Data.incorporateFrame_spec ω hω s hd hR hF hFv pose hex
    exact .of ⟨d', by simp only [step, h, Option.map_some], hc⟩
  case tryMerge ω ω' s tr src sv dst pose ms =>
    obtain ⟨hω, hω', hne, hwf, S, D, V, hS, hD, hV, hdom, hms⟩ := hv
    obtain ⟨d', D', b, h, hc, _⟩ := Data.tryMerge_spec ω hω ω' hω' s tr hne hd hS hV hD pose hwf
      hdom hms
    exact .of ⟨d', by simp only [step, h, Option.map_some], hc⟩
  case incorporateReconstruction ω s tr src dst m =>
    obtain ⟨hω, hne, S, D, hS, hD, hinj, hlive⟩ := hv
    obtain ⟨d', D', m', h, hc, _⟩ := Data.incorporate_spec ω hω s tr hne (hd.off _)
      (Data.srcOk_of_consistent hd hS) hD ⟨hinj, hlive⟩
    exact .of ⟨d', h, hc⟩
  case removeView r v =>
    obtain ⟨R, hR, V, hV⟩ := hv
    obtain ⟨d', R', F, h, hc, _⟩ := Data.removeView_spec (hd.off (fun _ => False)) (fun h => h) hR hV
    exact .of ⟨d', h, hc.on⟩
  case splitObservation r v f =>
    obtain ⟨R, l, hR, ha⟩ := hv
    obtain ⟨R', b, h, hr⟩ := Recon.split_ok (hd.recons r R hR) ha
    refine .of ⟨_, ?_, Data.replace_shape hd hR hr.cons hr.views⟩
    simp only [step, Data.splitObservation, hR, h, Option.map_some]
  case splitLandmark r l order =>
    obtain ⟨R, L, hR, hL, hp⟩ := hv
    obtain ⟨R', h, hr⟩ := Recon.splitLandmark_ok (hd.recons r R hR) hL hp
    exact .of ⟨_, onRecon_some hR h, Data.replace_shape hd hR hr.cons hr.views⟩
  case mergeLandmarks r a b =>
    obtain ⟨R, hR, hab, ⟨A, hA⟩, ⟨B, hB⟩, hns⟩ := hv
    have hdis : ∀ v, A.get v = none ∨ B.get v = none := by
      intro v
      cases h1 : A.get v with
      | none => exact Or.inl rfl
      | some f =>
        cases h2 : B.get v with
        | none => exact Or.inr rfl
        | some g => exact absurd ⟨B, hB, h2⟩ (hns v f g ⟨A, hA, h1⟩)
    obtain ⟨R', h, hc, _, _, _, hvs, _⟩ :=
      Recon.mergeLandmarks_spec (hd.recons r R hR) hab hA hB hdis
    exact .of ⟨_, onRecon_some hR h, Data.replace_shape hd hR hc (Recon.merge_shape hvs)⟩
  case mergeDedup loss r a b =>
    obtain ⟨R, hR, ha, hb⟩ := hv
    obtain ⟨d', x, R', h, hc, _⟩ := Data.mergeDedup_ok loss hd hR ha hb
    exact .of ⟨d', by simp only [step, h, Option.map_some], hc⟩
  case recordConstraints ω s r v =>
    obtain ⟨hω, R, hR, hl⟩ := hv
    obtain ⟨d', R', x, h, hc, _⟩ := Data.record_spec ω hω s (hd.off (fun _ => False)) (fun h => h) hR hl
    exact .of ⟨d', by simp only [step, h, Option.map_some], hc.on⟩
  case regenerateConstraints ω s r =>
    obtain ⟨hω, R, hR⟩ := hv
    obtain ⟨d', R', h, hc, _⟩ := Data.regenerate_ok ω hω s hd hR
    exact .of ⟨d', h, hc⟩
  case filterObservations ω s r =>
    obtain ⟨R, hR⟩ := hv
    obtain ⟨d', b, R', h, hc, _⟩ := Data.filterObservations_ok ω s hd hR
    exact .of ⟨d', by simp only [step, h, Option.map_some], hc⟩
  case filterLandmarks ω r =>
    obtain ⟨R, hR⟩ := hv
    obtain ⟨d', R', h, hc, _⟩ := Data.filterLandmarks_ok ω hd hR
    exact .of ⟨d', h, hc⟩
  case optimize ω ω' s r =>
    obtain ⟨R, hR⟩ := hv
    refine ⟨?_, ?_⟩
    · intro hf
      obtain ⟨d', b, h⟩ := Data.optimizeLoop_total ω ω' hf s r s.reconIterations hd hR
      refine ⟨d', ?_⟩
      show (Data.optimizeLoop ω ω' s r s.reconIterations d).map Prod.fst = some d'
      rw [h]; rfl
    · intro d' h
      obtain ⟨b, h⟩ := map_fst h
      exact (Data.optimizeLoop_ok ω ω' s r s.reconIterations hd hR h).1
  case normalize f g r =>
    obtain ⟨R, v, hR, V, hV⟩ := hv
    have hne : R.views.size ≠ 0 := by
      have := FMap.size_pos_of_get (m := R.views.map) hV
      intro h0
      have : R.views.map.size = 0 := h0
      omega
    refine .of ⟨_, onRecon_some hR (R' := R.mapPoses f g) (by simp [hne]), ?_⟩
    refine (Data.replaceRecon (hd.off _) hR
      (Recon.mapPoses_consistent f g (hd.recons r R hR)) ?_).on
    intro w
    rw [Recon.mapPoses_views]
    cases R.views.get w <;> rfl
  case removeReconstruction r =>
    obtain ⟨R, hR⟩ := hv
    obtain ⟨d', h, hc, _⟩ := Data.removeReconstruction_spec hd hR
    exact .of ⟨d', h, hc⟩

theorem reachable_consistent [Mul P] [Inv P] {d : Data P} (h : Reachable d) : d.Consistent := by
  induction h with
  | init => exact Data.empty_consistent
  | step _ hv hs ih => exact (step_ok ih hv).2 _ hs

end Verif.Sfm
