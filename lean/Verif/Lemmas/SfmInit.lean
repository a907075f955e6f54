import Verif.Lemmas.SfmDataOps

/-! Helper lemmas: `add_reconstruction`, `apply_bundle_adjust`, splitting. -/

namespace Verif.Sfm
variable {P : Type}

namespace Recon

theorem empty_consistent : (Recon.empty : Recon P).Consistent := by
  refine ⟨SlotMap.wf_empty, SlotMap.wf_empty, SlotMap.wf_empty, ?_, ?_, ?_, ?_⟩
  · intro l L h; simp [Recon.empty] at h
  · intro l L h; simp [Recon.empty] at h
  · intro v f l
    constructor
    · rintro ⟨V, h, _⟩; simp [Recon.empty] at h
    · rintro ⟨V, h, _⟩; simp [Recon.empty] at h
  · intro l L h; simp [Recon.empty] at h

/-- Adding a constraint between three live views. -/
theorem addConstraint_consistent {R : Recon P} (hR : R.Consistent) (c : Constraint P)
    (h0 : R.LiveView c.v0) (h1 : R.LiveView c.v1) (h2 : R.LiveView c.v2)
    (h01 : c.v0 ≠ c.v1) (h02 : c.v0 ≠ c.v2) (h12 : c.v1 ≠ c.v2) :
    ({ R with constraints := R.constraints.insert c } : Recon P).Consistent := by
  refine ⟨hR.viewsWF, hR.landmarksWF, SlotMap.wf_insert hR.constraintsWF _, hR.obsWF,
    hR.nonempty, hR.agree, ?_⟩
  intro k c' hk
  have hk : (R.constraints.insert c).get k = some c' := hk
  rw [SlotMap.get_insert hR.constraintsWF] at hk
  split at hk
  · cases hk; exact ⟨h0, h1, h2, h01, h02, h12⟩
  · exact hR.constraintsLive k c' hk

/-- A landmark observed by a view at most once. -/
theorem assigned_inj {R : Recon P} (hR : R.Consistent) {v f g l : Nat} (h : R.Assigned v f l)
    (h' : R.Assigned v g l) : f = g :=
  observes_unique ((hR.agree v f l).mp h) ((hR.agree v g l).mp h')

theorem assigned_live {R : Recon P} (hR : R.Consistent) {v f l : Nat} (h : R.Assigned v f l) :
    R.LiveLandmark l := by
  obtain ⟨L, hL, _⟩ := (hR.agree v f l).mp h
  exact ⟨L, hL⟩

/-- Proposals with at most one landmark per feature rename nothing. -/
theorem renamed_single {fs : List Nat} {m : Nat → Option Nat} {l l' : Nat} :
    Renamed fs (fun f => (m f).map (fun l => [l])) l l' ↔ l' = l := by
  constructor
  · rintro (⟨f, a, _, h, _⟩ | ⟨_, h⟩)
    · cases hm : m f with
      | none => simp [hm] at h
      | some x => simp [hm] at h
    · exact h
  · intro h
    refine Or.inr ⟨?_, h⟩
    intro f a _ h
    cases hm : m f with
    | none => simp [hm] at h
    | some x => simp [hm] at h

end Recon

namespace Data

theorem collectLandmarks_spec (lms : List Nat) : ∀ (ps : List (Nat × Nat)),
    (∀ f c, (f, c) ∈ ps → c < lms.length) →
    ∃ m, collectLandmarks lms ps = some m ∧
      (∀ f l, m.get f = some l → ∃ c, (f, c) ∈ ps ∧ lms[c]? = some l) ∧
      (∀ f c, (f, c) ∈ ps → ∃ l, m.get f = some l) := by
  intro ps
  induction ps with
  | nil =>
    intro _
    exact ⟨FMap.empty, rfl, by intro f l h; simp at h, by intro f c h; simp at h⟩
  | cons p ps ih =>
    obtain ⟨f0, c0⟩ := p
    intro h
    obtain ⟨m, hm, h1, h2⟩ := ih (fun f c hfc => h f c (List.mem_cons_of_mem _ hfc))
    have hc0 := h f0 c0 (by simp)
    have hl0 : lms[c0]? = some lms[c0] := List.getElem?_eq_getElem hc0
    refine ⟨if (m.get f0).isSome then m else m.put f0 lms[c0], ?_, ?_, ?_⟩
    · unfold collectLandmarks
      simp only [hl0, hm]
    · intro f l hf
      by_cases hs : (m.get f0).isSome
      · rw [if_pos hs] at hf
        obtain ⟨c, hc, hl⟩ := h1 f l hf
        exact ⟨c, List.mem_cons_of_mem _ hc, hl⟩
      · rw [if_neg hs, FMap.get_put] at hf
        by_cases hff : f = f0
        · subst hff
          simp at hf
          exact ⟨c0, by simp, by rw [← hf]; exact hl0⟩
        · rw [if_neg hff] at hf
          obtain ⟨c, hc, hl⟩ := h1 f l hf
          exact ⟨c, List.mem_cons_of_mem _ hc, hl⟩
    · intro f c hfc
      by_cases hs : (m.get f0).isSome
      · rw [if_pos hs]
        rcases List.mem_cons.mp hfc with he | he
        · cases he; exact Option.isSome_iff_exists.mp hs
        · exact h2 f c he
      · rw [if_neg hs, FMap.get_put]
        by_cases hff : f = f0
        · subst hff; exact ⟨_, by simp; rfl⟩
        · rw [if_neg hff]
          rcases List.mem_cons.mp hfc with he | he
          · cases he; exact absurd rfl hff
          · exact h2 f c he

/-- A fresh reconstruction changes nothing else. -/
theorem insertRecon_consistent {d : Data P} (hd : d.Consistent) :
    ({ d with recons := d.recons.insert Recon.empty } : Data P).Consistent := by
  have hget : ∀ q, (d.recons.insert Recon.empty).get q =
      if q = d.recons.next then some Recon.empty else d.recons.get q :=
    SlotMap.get_insert hd.reconsWF _
  refine ⟨hd.feedsWF, hd.framesWF, SlotMap.wf_insert hd.reconsWF _, ?_, ?_, ?_,
    hd.feedFrames, hd.frameFeed⟩
  · intro q Q hQ
    replace hQ : (d.recons.insert Recon.empty).get q = some Q := hQ
    rw [hget] at hQ
    split at hQ
    · cases hQ; exact Recon.empty_consistent
    · exact hd.recons q Q hQ
  · intro q Q v V hQ hV
    replace hQ : (d.recons.insert Recon.empty).get q = some Q := hQ
    rw [hget] at hQ
    split at hQ
    · cases hQ; simp [Recon.empty] at hV
    · exact hd.viewFrame q Q v V hQ hV
  · intro f F q v hF hFv
    obtain ⟨Q, V, hQ, hV, hf⟩ := hd.frameView f F q v hF hFv
    refine ⟨Q, V, ?_, hV, hf⟩
    show (d.recons.insert Recon.empty).get q = _
    rw [hget]
    have : q ≠ d.recons.next := by
      have := hd.reconsWF.fresh _ _ hQ
      omega
    simp [this, hQ]

/-- The pairs (feature, center feature) handed to one `add_view` of `add_reconstruction`. -/
structure GoodPairs (nc : Nat) (ps : List (Nat × Nat)) : Prop where
  range : ∀ f c, (f, c) ∈ ps → c < nc
  inj : ∀ f g c, (f, c) ∈ ps → (g, c) ∈ ps → f = g

/-- The landmarks collected from the center view are usable as matches. -/
theorem validMatches_of_collect {R : Recon P} (hR : R.Consistent) {C : View P} {v n : Nat}
    (hC : R.views.get v = some C) {ps : List (Nat × Nat)} (hps : GoodPairs C.landmarks.length ps)
    {m : FMap Nat}
    (h1 : ∀ f l, m.get f = some l → ∃ c, (f, c) ∈ ps ∧ C.landmarks[c]? = some l) :
    R.ValidMatches n (fun f => (m.get f).map (fun l => [l])) := by
  constructor
  · intro f ls _ h
    cases hm : m.get f with
    | none => simp [hm] at h
    | some l =>
      simp only [hm, Option.map_some, Option.some.injEq] at h
      obtain ⟨c, _, hl⟩ := h1 f l hm
      exact Or.inl ⟨l, h.symm, Recon.assigned_live hR ⟨C, hC, hl⟩⟩
  · intro f g ls ms _ _ hfg hf hg l hl hl'
    cases hmf : m.get f with
    | none => simp [hmf] at hf
    | some a =>
      cases hmg : m.get g with
      | none => simp [hmg] at hg
      | some b =>
        simp only [hmf, Option.map_some, Option.some.injEq] at hf
        simp only [hmg, Option.map_some, Option.some.injEq] at hg
        subst hf hg
        simp at hl hl'
        subst hl hl'
        obtain ⟨c, hc, h⟩ := h1 f l hmf
        obtain ⟨c', hc', h'⟩ := h1 g l hmg
        have : c = c' := Recon.assigned_inj hR ⟨C, hC, h⟩ ⟨C, hC, h'⟩
        subst this
        exact hfg (hps.inj f g c hc hc')

/-- Effect of `add_reconstruction`. -/
theorem addReconstruction_spec {d : Data P} (hd : d.Consistent) {center first second : Nat}
    {Fc F1 F2 : Frame} (hcf : center ≠ first) (hcs : center ≠ second) (hfs : first ≠ second)
    (hFc : d.frames.get center = some Fc) (hF1 : d.frames.get first = some F1)
    (hF2 : d.frames.get second = some F2)
    (hvc : Fc.view = none) (hv1 : F1.view = none) (hv2 : F2.view = none)
    (idp p1 p2 : P) {combined : List (Nat × Nat × Nat)} {m1 m2 : List (Nat × Nat)}
    (hg1 : GoodPairs Fc.nfeat (m1.map (fun m => (m.2, m.1)) ++ combined.map (fun m => (m.2.1, m.1))))
    (hg2 : GoodPairs Fc.nfeat (m2.map (fun m => (m.2, m.1)) ++ combined.map (fun m => (m.2.2, m.1)))) :
    ∃ d' R, d.addReconstruction center first second idp p1 p2 combined m1 m2 = some d' ∧
      d'.Consistent ∧ d'.recons.next = d.recons.next + 1 ∧
      d'.recons.get d.recons.next = some R ∧
      (∀ q, q ≠ d.recons.next → d'.recons.get q = d.recons.get q) ∧
      d'.feeds = d.feeds ∧
      (∀ f, f ≠ center → f ≠ first → f ≠ second → d'.frames.get f = d.frames.get f) ∧
      d'.frames.get center = some { Fc with view := some (d.recons.next, 0) } ∧
      d'.frames.get first = some { F1 with view := some (d.recons.next, 1) } ∧
      d'.frames.get second = some { F2 with view := some (d.recons.next, 2) } ∧
      (∃ V, R.views.get 0 = some V ∧ V.frame = center ∧ V.pose = idp) ∧
      (∃ V, R.views.get 1 = some V ∧ V.frame = first ∧ V.pose = p1) ∧
      (∃ V, R.views.get 2 = some V ∧ V.frame = second ∧ V.pose = p2) ∧
      (∀ v V, R.views.get v = some V → v < 3) ∧
      R.constraints = SlotMap.empty.insert ⟨0, 1, 2, p1, p2⟩ ∧
      -- a landmark shared between the center and the first view comes from a match
      (∀ f l c, R.Assigned 1 f l → R.Assigned 0 c l →
        (f, c) ∈ m1.map (fun m => (m.2, m.1)) ++ combined.map (fun m => (m.2.1, m.1))) ∧
      (∀ f l c, R.Assigned 2 f l → R.Assigned 0 c l →
        (f, c) ∈ m2.map (fun m => (m.2, m.1)) ++ combined.map (fun m => (m.2.2, m.1))) ∧
      -- a feature with a match shares its landmark with the center view
      (∀ f c, (f, c) ∈ m1.map (fun m => (m.2, m.1)) ++ combined.map (fun m => (m.2.1, m.1)) →
        f < F1.nfeat → ∃ l c', R.Assigned 1 f l ∧ R.Assigned 0 c' l) ∧
      (∀ f c, (f, c) ∈ m2.map (fun m => (m.2, m.1)) ++ combined.map (fun m => (m.2.2, m.1)) →
        f < F2.nfeat → ∃ l c', R.Assigned 2 f l ∧ R.Assigned 0 c' l) := by
  let r := d.recons.next
  let d0 : Data P := { d with recons := d.recons.insert Recon.empty }
  have hd0 : d0.Consistent := insertRecon_consistent hd
  have hget0 : ∀ q, d0.recons.get q = if q = r then some Recon.empty else d.recons.get q :=
    SlotMap.get_insert hd.reconsWF _
  have hR0 : d0.recons.get r = some Recon.empty := by rw [hget0]; simp
  -- center
  have vm0 : (Recon.empty : Recon P).ValidMatches Fc.nfeat (fun _ => none) :=
    ⟨fun _ _ _ h => (by cases h), fun _ _ _ _ _ _ _ h => (by cases h)⟩
  obtain ⟨d1, R1, lms0, hrun1, hd1, hr1, hn1, hq1, hqo1, hv0, hfc1, hfo1, hfe1⟩ :=
    addView_spec (hd0.off (fun _ => False)) id hR0 (F := Fc) (frame := center) hFc
      (by intro q v h; rw [hvc] at h; cases h) idp vm0
  obtain ⟨R1', lms0', hr1', hc1, hcon1, hvn1, hln1, hgv1, hlen1, hnews1, hfr1, hass1⟩ :=
    Recon.addView_spec (Recon.empty_consistent (P := P)) center idp vm0
  rw [hr1] at hr1'
  cases hr1'
  have e0 : (Recon.empty : Recon P).views.next = 0 := rfl
  rw [e0] at hv0 hgv1 hvn1 hfr1 hass1
  rw [hv0] at hgv1
  cases hgv1
  -- first
  obtain ⟨fl, hfl, hfl1, hfl2⟩ := collectLandmarks_spec lms0
    (m1.map (fun m => (m.2, m.1)) ++ combined.map (fun m => (m.2.1, m.1)))
    (by rw [hlen1]; exact hg1.range)
  have vm1 : R1.ValidMatches F1.nfeat (fun f => (fl.get f).map (fun l => [l])) :=
    validMatches_of_collect hc1 hv0 (by show GoodPairs lms0.length _; rw [hlen1]; exact hg1) hfl1
  have hF1' : d1.frames.get first = some F1 := by rw [hfo1 first (Ne.symm hcf)]; exact hF1
  obtain ⟨d2, R2, lms1, hrun2, hd2, hr2, hn2, hq2, hqo2, hv1', hff2, hfo2, hfe2⟩ :=
    addView_spec hd1 id hq1 hF1' (by intro q v h; rw [hv1] at h; cases h) p1 vm1
  obtain ⟨R2', lms1', hr2', hc2, hcon2, hvn2, hln2, hgv2, hlen2, hnews2, hfr2, hass2⟩ :=
    Recon.addView_spec hc1 first p1 vm1
  rw [hr2] at hr2'
  cases hr2'
  rw [hvn1] at hv1' hgv2 hvn2 hfr2 hass2
  rw [hv1'] at hgv2
  cases hgv2
  simp only [Recon.renamed_single] at hass2
  -- second
  have hC2 : ∃ C2, R2.views.get 0 = some C2 ∧ C2.frame = center ∧ C2.pose = idp ∧
      C2.landmarks = lms0 := by
    have h := hfr2 0 (by omega)
    rw [hv0] at h
    cases hc : R2.views.get 0 with
    | none => rw [hc] at h; simp at h
    | some C2 =>
      rw [hc] at h
      simp only [Option.map_some, Option.some.injEq, Prod.mk.injEq] at h
      refine ⟨C2, rfl, h.1, h.2.1, List.ext_getElem? ?_⟩
      intro i
      have hi := hass2 0 i
      by_cases hlt : i < lms0.length
      · have h1 : R1.Assigned 0 i lms0[i] := ⟨_, hv0, List.getElem?_eq_getElem hlt⟩
        obtain ⟨C', hC', hl⟩ := (hi lms0[i] (by omega)).mpr ⟨_, h1, rfl⟩
        rw [hc] at hC'; cases hC'
        rw [hl, List.getElem?_eq_getElem hlt]
      · rw [List.getElem?_eq_none (by omega), List.getElem?_eq_none (by omega)]
  obtain ⟨C2, hC2, hC2f, hC2p, hC2l⟩ := hC2
  obtain ⟨sl, hsl, hsl1, hsl2⟩ := collectLandmarks_spec lms0
    (m2.map (fun m => (m.2, m.1)) ++ combined.map (fun m => (m.2.2, m.1)))
    (by rw [hlen1]; exact hg2.range)
  have vm2 : R2.ValidMatches F2.nfeat (fun f => (sl.get f).map (fun l => [l])) :=
    validMatches_of_collect hc2 hC2 (by rw [hC2l, hlen1]; exact hg2)
      (by rw [hC2l]; exact hsl1)
  have hF2' : d2.frames.get second = some F2 := by
    rw [hfo2 second (Ne.symm hfs), hfo1 second (Ne.symm hcs)]; exact hF2
  obtain ⟨d3, R3, lms2, hrun3, hd3, hr3, hn3, hq3, hqo3, hv2', hff3, hfo3, hfe3⟩ :=
    addView_spec hd2 id hq2 hF2' (by intro q v h; rw [hv2] at h; cases h) p2 vm2
  obtain ⟨R3', lms2', hr3', hc3, hcon3, hvn3, hln3, hgv3, hlen3, hnews3, hfr3, hass3⟩ :=
    Recon.addView_spec hc2 second p2 vm2
  rw [hr3] at hr3'
  cases hr3'
  rw [hvn2] at hv2' hgv3 hvn3 hfr3 hass3
  rw [hv2'] at hgv3
  cases hgv3
  simp only [Recon.renamed_single] at hass3
  -- views of the final reconstruction
  have g0 : ∃ V, R3.views.get 0 = some V ∧ V.frame = center ∧ V.pose = idp := by
    have h := hfr3 0 (by omega)
    rw [hC2] at h
    cases hc : R3.views.get 0 with
    | none => rw [hc] at h; simp at h
    | some V =>
      rw [hc] at h
      simp only [Option.map_some, Option.some.injEq, Prod.mk.injEq] at h
      exact ⟨V, rfl, h.1.trans hC2f, h.2.1.trans hC2p⟩
  have g1 : ∃ V, R3.views.get 1 = some V ∧ V.frame = first ∧ V.pose = p1 := by
    have h := hfr3 1 (by omega)
    have hv1' : R2.views.get 1 = some ⟨first, p1, lms1⟩ := hv1'
    rw [hv1'] at h
    cases hc : R3.views.get 1 with
    | none => rw [hc] at h; simp at h
    | some V =>
      rw [hc] at h
      simp only [Option.map_some, Option.some.injEq, Prod.mk.injEq] at h
      exact ⟨V, rfl, h.1, h.2.1⟩
  have g2 : R3.views.get 2 = some ⟨second, p2, lms2⟩ := hv2'
  have hcon : R3.constraints = SlotMap.empty := by
    rw [hcon3, hcon2, hcon1]; rfl
  let R : Recon P := { R3 with constraints := R3.constraints.insert ⟨0, 1, 2, p1, p2⟩ }
  have hRc : R.Consistent := Recon.addConstraint_consistent hc3 _
    ⟨_, g0.choose_spec.1⟩ ⟨_, g1.choose_spec.1⟩ ⟨_, g2⟩ (by simp) (by simp) (by simp)
  let d' : Data P := { d3 with recons := d3.recons.modify r (fun _ => R) }
  have hd' : d'.Consistent := (replaceRecon hd3 hq3 hRc (fun v => rfl)).on
  have gq : ∀ q, d'.recons.get q = if q = r then some R else d3.recons.get q := by
    intro q
    show (d3.recons.modify r _).get q = _
    rw [SlotMap.get_modify]
    by_cases h : q = r
    · subst h; simp [hq3]
    · simp [h]
  have hrun : d.addReconstruction center first second idp p1 p2 combined m1 m2 = some d' := by
    unfold addReconstruction
    show (match d0.addView r center idp (fun _ => none) with
      | none => none
      | some d1 => _) = _
    rw [hrun1]
    show (match (d1.recons.get r).bind (fun R => R.views.get 0) with
      | none => none
      | some C => _) = _
    rw [hq1]
    simp only [Option.bind_some, hv0, hfl]
    show (match d1.addView r first p1 (fun f => (fl.get f).map (fun l => [l])) with
      | none => none
      | some d2 => _) = _
    rw [hrun2]
    show (match (d2.recons.get r).bind (fun R => R.views.get 0) with
      | none => none
      | some C => _) = _
    rw [hq2]
    simp only [Option.bind_some, hC2, hC2l, hsl]
    show (match d2.addView r second p2 (fun f => (sl.get f).map (fun l => [l])) with
      | none => none
      | some d2 => _) = _
    rw [hrun3]
    show d3.onRecon r _ = _
    unfold onRecon
    rw [hq3]
    rfl
  -- assignments
  have hR3 : ∀ v f l, R.Assigned v f l ↔ R3.Assigned v f l := fun _ _ _ => Iff.rfl
  have a0 : ∀ c l, R.Assigned 0 c l ↔ lms0[c]? = some l := by
    intro c l
    rw [hR3, hass3 0 c l (by omega)]
    constructor
    · rintro ⟨_, ⟨V, hV, h⟩, rfl⟩
      rw [hC2] at hV; cases hV
      rw [← hC2l]; exact h
    · intro h
      exact ⟨l, ⟨C2, hC2, by rw [hC2l]; exact h⟩, rfl⟩
  have a1 : ∀ f l, R.Assigned 1 f l ↔ lms1[f]? = some l := by
    intro c l
    rw [hR3, hass3 1 c l (by omega)]
    have hv1' : R2.views.get 1 = some ⟨first, p1, lms1⟩ := hv1'
    constructor
    · rintro ⟨_, ⟨V, hV, h⟩, rfl⟩
      rw [hv1'] at hV; cases hV
      exact h
    · intro h
      exact ⟨l, ⟨_, hv1', h⟩, rfl⟩
  have a2 : ∀ f l, R.Assigned 2 f l ↔ lms2[f]? = some l := by
    intro c l
    rw [hR3]
    constructor
    · rintro ⟨V, hV, h⟩
      rw [g2] at hV; cases hV
      exact h
    · intro h
      exact ⟨_, g2, h⟩
  -- landmarks of the center view are older than the ones created later
  have old0 : ∀ c l : Nat, lms0[c]? = some l → l < R1.landmarks.next := by
    intro c l h
    obtain ⟨L, hL⟩ := Recon.assigned_live hc1 ⟨_, hv0, h⟩
    exact hc1.landmarksWF.fresh _ _ hL
  refine ⟨d', R, hrun, hd', ?_, (by rw [gq]; exact if_pos rfl), ?_, ?_, ?_, ?_, ?_, ?_, g0, g1, ⟨_, g2, rfl, rfl⟩,
    ?_, ?_, ?_, ?_, ?_, ?_⟩
  · show d3.recons.next = _
    rw [hn3, hn2, hn1]; rfl
  · intro q hq
    rw [gq, if_neg hq, hqo3 q hq, hqo2 q hq, hqo1 q hq, hget0, if_neg hq]
  · show d3.feeds = _
    rw [hfe3, hfe2, hfe1]
  · intro f h0 h1 h2
    show d3.frames.get f = _
    rw [hfo3 f h2, hfo2 f h1, hfo1 f h0]
  · show d3.frames.get center = _
    rw [hfo3 _ hcs, hfo2 _ hcf, hfc1]; rfl
  · show d3.frames.get first = _
    rw [hfo3 _ hfs, hff2, hvn1]
  · show d3.frames.get second = _
    rw [hff3, hvn2]
  · intro v V hV
    have := hRc.viewsWF.fresh _ _ hV
    have h3 : R.views.next = 3 := by show R3.views.next = 3; omega
    omega
  · show R3.constraints.insert _ = _
    rw [hcon]
  · intro f l c h1 h0
    rw [a1] at h1
    rw [a0] at h0
    have h := hnews2 f l h1
    cases hm : fl.get f with
    | none =>
      simp only [hm, Option.map_none] at h
      have := old0 c l h0
      omega
    | some x =>
      simp only [hm, Option.map_some, List.head?_cons, Option.some.injEq] at h
      subst h
      obtain ⟨c', hc', hl⟩ := hfl1 f x hm
      have : c = c' := Recon.assigned_inj hc1 ⟨_, hv0, h0⟩ ⟨_, hv0, hl⟩
      rw [this]; exact hc'
  · intro f l c h2 h0
    rw [a2] at h2
    rw [a0] at h0
    have h := hnews3 f l h2
    cases hm : sl.get f with
    | none =>
      simp only [hm, Option.map_none] at h
      have := old0 c l h0
      omega
    | some x =>
      simp only [hm, Option.map_some, List.head?_cons, Option.some.injEq] at h
      subst h
      obtain ⟨c', hc', hl⟩ := hsl1 f x hm
      have : c = c' := Recon.assigned_inj hc1 ⟨_, hv0, h0⟩ ⟨_, hv0, hl⟩
      rw [this]; exact hc'
  · intro f c hfc hlt
    obtain ⟨x, hx⟩ := hfl2 f c hfc
    have hlt : f < lms1.length := by omega
    have h1 : lms1[f]? = some lms1[f] := List.getElem?_eq_getElem hlt
    have h := hnews2 f _ h1
    simp only [hx, Option.map_some, List.head?_cons, Option.some.injEq] at h
    obtain ⟨c', _, hl⟩ := hfl1 f x hx
    exact ⟨x, c', (a1 _ _).mpr (by rw [h1, ← h]), (a0 _ _).mpr hl⟩
  · intro f c hfc hlt
    obtain ⟨x, hx⟩ := hsl2 f c hfc
    have hlt : f < lms2.length := by omega
    have h1 : lms2[f]? = some lms2[f] := List.getElem?_eq_getElem hlt
    have h := hnews3 f _ h1
    simp only [hx, Option.map_some, List.head?_cons, Option.some.injEq] at h
    obtain ⟨c', _, hl⟩ := hsl1 f x hx
    exact ⟨x, c', (a2 _ _).mpr (by rw [h1, ← h]), (a0 _ _).mpr hl⟩

end Data
end Verif.Sfm
