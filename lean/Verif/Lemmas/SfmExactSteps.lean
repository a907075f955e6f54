import Verif.Lemmas.SfmExactOps
import Verif.Lemmas.SfmHistory

/-! Helper lemmas: every call keeps true reconstructions true on exact data. -/

namespace Verif.Sfm

open Verif.Geo

variable {C : Type} {W : World C} {sc : Scene} {g h : Iso ℝ} {s : ℝ}

theorem viewed_one (hr : ∀ f, (sc.pose f).Rigid) (c : Nat) : sc.viewed (sc.pose c).inv s c = Iso.one := by
  unfold Scene.viewed
  rw [(hr c).mul_inv]
  unfold Iso.scale Iso.one
  simp [lin]

/-- The change of coordinates in a merger. -/
theorem viewed_moved (hr : ∀ f, (sc.pose f).Rigid) (hg : g.Rigid) (hh : h.Rigid) (f v : Nat) :
    (sc.viewed g s f).mul (fromCameraPoses (sc.viewed g s v) (sc.viewed h s v)).inv = sc.viewed h s f := by
  have r1 := Scene.viewed_rigid hr hg s v
  have r2 := Scene.viewed_rigid hr hh s v
  unfold fromCameraPoses
  rw [r2.inv.mul_inv_rev r1, r2.inv_inv]
  unfold Scene.viewed
  have key : ((sc.pose f).mul g).mul (((sc.pose v).mul g).inv.mul ((sc.pose v).mul h)) = (sc.pose f).mul h := by
    rw [(hr v).mul_inv_rev hg, Iso.mul_assoc, Iso.mul_assoc, ← Iso.mul_assoc (sc.pose v).inv, (hr v).inv_mul,
      Iso.one_mul, ← Iso.mul_assoc g, hg.mul_inv, Iso.one_mul]
  rw [← Iso.scale_inv', ← Iso.scale_mul', ← Iso.scale_mul', key]

namespace Data

theorem tryMerge_true (hsc : sc.Seen W) (hg : g.Rigid) (hh : h.Rigid) (hs : 0 < s) {ω : Oracle (Iso ℝ)} (hω : ω.Fair)
    (hW : ThreeViewBy W ω) {ω' : Nat → Oracle (Iso ℝ)} (hω' : ∀ i, (ω' i).Fair) (hW' : ∀ i, ThreeViewBy W (ω' i))
    (st : Settings) {src dst sv : Nat} (hne : src ≠ dst) {d d' : Data (Iso ℝ)} (hd : d.Consistent)
    {Sr D D' : Recon (Iso ℝ)} {V : View (Iso ℝ)} (hS : d.recons.get src = some Sr) (hV : Sr.views.get sv = some V)
    (hD : d.recons.get dst = some D) {ms : FMap (List Nat)} (hwf : ms.WF)
    (hdom : ∀ f ls, ms.get f = some ls → f < V.landmarks.length)
    (hms : D.ValidMatches V.landmarks.length ms.get) (htS : Sr.TrueIn sc g s) (htD : D.TrueIn sc h s)
    (hm : TrueMatches sc D V.frame ms.get) {x : Bool}
    (hrun : tryMerge ω ω' st (fun p => p.mul (fromCameraPoses V.pose (sc.viewed h s V.frame)).inv) d src sv dst
      (sc.viewed h s V.frame) ms = some (d', x)) (hD' : d'.recons.get dst = some D') : D'.TrueIn sc h s := by
  have hoff : d.ConsistentOff (fun q => q = src) := hd.off _
  obtain ⟨F, hF, hFv, hFn⟩ := hd.viewFrame src Sr sv V hS hV
  have hSc := hd.recons src Sr hS
  have hDc := hd.recons dst D hD
  rw [hFn] at hms hdom
  obtain ⟨d1, D1, lms, hrun1, hd1, hav, hn1, hD1, hq1, hdv, hf1, hg1, hk1⟩ :=
    addView_spec hoff (Ne.symm hne) hD hF (by
      intro q v h
      rw [hFv] at h
      simp only [Option.some.injEq, Prod.mk.injEq] at h
      exact h.1.symm) (sc.viewed h s V.frame) hms
  have ht1 := htD.addView hDc hms hm hav
  obtain ⟨D1', lms', hav', hc1, hcon1, hvn1, hln1, hdv', hlen, hnews, hfr1, hass1⟩ :=
    Recon.addView_spec hDc V.frame (sc.viewed h s V.frame) hms
  rw [hav] at hav'
  cases hav'
  rw [hdv] at hdv'
  cases hdv'
  obtain ⟨d2, D2, y, hrun2, hd2, hrec, hD2, hn2, hq2, hf2, hk2, hv2, hl2, hx2⟩ :=
    record_spec ω hω st hd1 (Ne.symm hne) hD1 ⟨_, hdv⟩
  have ht2 := ht1.record hsc hh hs hc1 hω hW ⟨_, hdv⟩ hrec
  have hc2 := hd2.recons dst D2 (Ne.symm hne) hD2
  have hS2 : d2.recons.get src = some Sr := by rw [hq2 src hne, hq1 src hne]; exact hS
  have hdv2 : D2.views.get D.views.next = some ⟨V.frame, sc.viewed h s V.frame, lms⟩ := by rw [hv2]; exact hdv
  have hstart : (d.recons.get src).bind (fun R => R.views.get sv) = some V := by rw [hS]; exact hV
  unfold tryMerge at hrun
  simp only [hstart, hD, hrun1, hrun2] at hrun
  cases y with
  | false =>
    obtain ⟨d3, D3, F3, hrun3, hd3, hrr, hn3, hD3, hq3, hF3, hFn3, hf3, hk3⟩ :=
      removeView_spec hd2 (Ne.symm hne) hD2 hdv2
    simp only [hrun3] at hrun
    simp only at hFn3
    have hrun4 : d3.setFrameView V.frame (some (src, sv)) = some { d3 with
        frames := d3.frames.modify V.frame (fun F => { F with view := some (src, sv) }) } := by
      unfold setFrameView; rw [hFn3]
    simp only [hrun4, Option.some.injEq, Prod.mk.injEq] at hrun
    rw [← hrun.1] at hD'
    change d3.recons.get dst = _ at hD'
    rw [hD3] at hD'
    cases hD'
    exact ht2.part hc2 (Recon.removeView_part hc2 hdv2 hrr)
  | true =>
    have hnd := Recon.view_landmarks_nodup hSc hV
    have hent : ∀ f ls, (f, ls) ∈ ms.entries ↔ ms.get f = some ls :=
      fun f ls => FMap.mem_iff_get hwf
    have hhead : ∀ f ls, ms.get f = some ls → ∃ x, ls.head? = some x := by
      intro f ls h
      rcases hms.shape f ls (hdom f ls h) h with ⟨l, rfl, _⟩ | ⟨a, b, rfl, _⟩
      · exact ⟨l, rfl⟩
      · exact ⟨a, rfl⟩
    obtain ⟨m, hm', hmg⟩ := landmarkMap_spec hnd ms.entries hwf (by
      rintro ⟨f, ls⟩ he
      have h := (hent f ls).mp he
      refine ⟨by rw [hFn]; exact hdom f ls h, ?_⟩
      rintro rfl
      obtain ⟨x, hx⟩ := hhead f _ h
      cases hx)
    have hmg' : ∀ t y, m.get t = some y ↔
        ∃ (f : Nat) (ls : List Nat), ms.get f = some ls ∧ V.landmarks[f]? = some t ∧
          ls.head? = some y := by
      intro t y
      rw [hmg]
      constructor
      · rintro ⟨f, ls, h1, h2⟩; exact ⟨f, ls, (hent f ls).mp h1, h2⟩
      · rintro ⟨f, ls, h1, h2⟩; exact ⟨f, ls, (hent f ls).mpr h1, h2⟩
    have hnewlm : ∀ f ls x, ms.get f = some ls → ls.head? = some x → lms[f]? = some x := by
      intro f ls x h1 h2
      have hflt : f < lms.length := by rw [hlen]; exact hdom f ls h1
      have h3 := List.getElem?_eq_getElem hflt
      have h4 := hnews f lms[f] h3
      rw [h1] at h4
      simp only at h4
      rw [h2] at h4
      rw [h3, h4]
    have hgm : GoodMap D2 m := by
      refine ⟨?_, ?_⟩
      · intro t t' y h h'
        obtain ⟨f, ls, h1, h2, h3⟩ := (hmg' t y).mp h
        obtain ⟨f', ls', h1', h2', h3'⟩ := (hmg' t' y).mp h'
        have : f = f' := by
          refine Decidable.byContradiction (fun hff => ?_)
          refine hms.disjoint f f' ls ls' (hdom _ _ h1) (hdom _ _ h1') hff h1 h1' y ?_ ?_
          · exact List.mem_of_head? h3
          · exact List.mem_of_head? h3'
        subst this
        rw [h2] at h2'
        exact Option.some.inj h2'
      · intro t y h
        obtain ⟨f, ls, h1, h2, h3⟩ := (hmg' t y).mp h
        have ha : D1.Assigned D.views.next f y := ⟨_, hdv, hnewlm f ls y h1 h3⟩
        obtain ⟨L, hL⟩ := Recon.assigned_live hc1 ha
        exact ⟨L, by rw [hl2]; exact hL⟩
    let Sr' : Recon (Iso ℝ) := { Sr with views := Sr.views.erase sv }
    let d3 : Data (Iso ℝ) := { d2 with recons := d2.recons.modify src (fun _ => Sr') }
    have hrun3 : d2.onRecon src (fun R => some { R with views := R.views.erase sv }) = some d3 := by
      unfold onRecon
      simp only [hS2]
      rfl
    have gq3 : ∀ q, d3.recons.get q = if q = src then some Sr' else d2.recons.get q := by
      intro q
      show (d2.recons.modify src _).get q = _
      rw [SlotMap.get_modify]
      by_cases h : q = src
      · subst h; simp [hS2]
      · simp [h]
    have hd3 : d3.ConsistentOff (fun q => q = src) :=
      ConsistentOff.congr hd2 rfl hd2.framesWF (fun _ => rfl) (SlotMap.wf_modify hd2.reconsWF _ _)
        (by intro q hq; rw [gq3, if_neg hq])
    have hge : ∀ v, Sr'.views.get v = if v = sv then none else Sr.views.get v :=
      fun v => SlotMap.get_erase _ _ _
    have hframes3 : ∀ f, f ≠ V.frame → d3.frames.get f = d.frames.get f := by
      intro f hf
      show d2.frames.get f = _
      rw [hf2, hg1 f hf]
    have hs3 : SrcOk d3 src Sr' Sr'.views.keys := by
      refine ⟨(SlotMap.wf_erase hSc.viewsWF _).nodup, by rw [gq3, if_pos rfl], ?_, ?_⟩
      · intro v hv
        obtain ⟨W, hW⟩ := (SlotMap.mem_keys_iff _ _).mp hv
        have hW' := hW
        rw [hge] at hW'
        split at hW'
        · cases hW'
        · rename_i hvs
          obtain ⟨G, h1, h2, h3⟩ := hd.viewFrame src Sr v W hS hW'
          have hfne : W.frame ≠ V.frame := by
            intro h
            rw [h, hF] at h1
            cases h1
            rw [hFv] at h2
            simp only [Option.some.injEq, Prod.mk.injEq] at h2
            exact hvs h2.2.symm
          exact ⟨W, G, hW, Recon.view_landmarks_nodup hSc hW', by rw [hframes3 _ hfne]; exact h1,
            h2, h3.symm⟩
      · intro f G v hG hGv
        by_cases hf : f = V.frame
        · subst hf
          have : d3.frames.get V.frame = some { F with view := some (dst, D.views.next) } := by
            show d2.frames.get V.frame = _
            rw [hf2, hf1]
          rw [this] at hG
          cases hG
          simp only [Option.some.injEq, Prod.mk.injEq] at hGv
          exact absurd hGv.1.symm hne
        · rw [hframes3 f hf] at hG
          obtain ⟨R, W, h1, h2, h3⟩ := hd.frameView f G src v hG hGv
          rw [hS] at h1
          cases h1
          have hvs : v ≠ sv := by
            rintro rfl
            rw [hV] at h2
            cases h2
            exact hf h3.symm
          have h4 : Sr'.views.get v = some W := by rw [hge, if_neg hvs]; exact h2
          exact ⟨(SlotMap.mem_keys_iff _ _).mpr ⟨W, h4⟩, W, h4, h3⟩
    simp only [hm', hrun3] at hrun
    have hsub : ∀ v U, Sr'.views.get v = some U → Sr.views.get v = some U := by
      intro v U hU
      rw [hge] at hU
      split at hU
      · cases hU
      · exact hU
    have hsubA : ∀ v f l, Sr'.Assigned v f l → Sr.Assigned v f l := by
      rintro v f l ⟨U, hU, hl⟩
      exact ⟨U, hsub v U hU, hl⟩
    have hM : Matching sc h s (fun p => p.mul (fromCameraPoses V.pose (sc.viewed h s V.frame)).inv) Sr' D2 m := by
      refine ⟨?_, ?_, ?_⟩
      · intro v U hU
        rw [htS.poses v U (hsub v U hU), htS.poses sv V hV]
        exact viewed_moved hsc.rigid hg hh _ _
      · intro l v f u k U X h1 h2 hU hX
        exact htS.assigned hSc (hsubA v f l h1) (hsubA u k l h2) (hsub v U hU) (hsub u X hX)
      · intro a b hab
        obtain ⟨f, ls, h1, h2, h3⟩ := (hmg' a b).1 hab
        refine ⟨sc.point V.frame f, ?_, ?_⟩
        · intro v k U hO hU
          have ha : D2.Assigned D.views.next f b := ⟨_, hdv2, hnewlm f ls b h1 h3⟩
          have := ht2.assigned hc2 ((hc2.agree v k b).2 hO) ha hU hdv2
          exact this
        · intro v k U hA hU
          exact htS.assigned hSc (hsubA v k a hA) ⟨V, hV, h2⟩ (hsub v U hU) hV
    cases hi : incorporateReconstruction ω' st (fun p => p.mul (fromCameraPoses V.pose (sc.viewed h s V.frame)).inv) d3
        src dst m with
    | none => simp [hi] at hrun
    | some d4 =>
      simp only [hi, Option.some.injEq, Prod.mk.injEq] at hrun
      rw [← hrun.1] at hD'
      exact incorporate_true hsc hh hs hω' hW' st hne hd3 hs3 (by rw [gq3, if_neg (Ne.symm hne)]; exact hD2) hgm ht2 hM
        hi hD'

/-! ## Starting a reconstruction -/

theorem trueMatches_of_collect {R : Recon (Iso ℝ)} (hR : R.Consistent) (ht : R.TrueIn sc g s) {v frame : Nat}
    {V : View (Iso ℝ)} (hV : R.views.get v = some V) {ps : List (Nat × Nat)} {m : FMap Nat}
    (h1 : ∀ f l, m.get f = some l → ∃ c, (f, c) ∈ ps ∧ V.landmarks[c]? = some l)
    (hp : ∀ f c, (f, c) ∈ ps → sc.point frame f = sc.point V.frame c) :
    TrueMatches sc R frame (fun f => (m.get f).map (fun l => [l])) := by
  intro f ls l hf hl w k X hO hX
  obtain ⟨l', hl', rfl⟩ := Option.map_eq_some_iff.1 hf
  have : l = l' := by simpa using hl
  subst this
  obtain ⟨c, hc, hcl⟩ := h1 f l hl'
  rw [hp f c hc]
  exact ht.assigned hR ((hR.agree w k l).2 hO) ⟨V, hV, hcl⟩ hX hV

theorem addReconstruction_true (hsc : ∀ f, (sc.pose f).Rigid) {d d' : Data (Iso ℝ)} (hd : d.Consistent)
    {center first second : Nat}
    {Fc F1 F2 : Frame} (hcf : center ≠ first) (hcs : center ≠ second) (hfs : first ≠ second)
    (hFc : d.frames.get center = some Fc) (hF1 : d.frames.get first = some F1)
    (hF2 : d.frames.get second = some F2)
    (hvc : Fc.view = none) (hv1 : F1.view = none) (hv2 : F2.view = none)
    {combined : List (Nat × Nat × Nat)} {m1 m2 : List (Nat × Nat)}
    (hg1 : GoodPairs Fc.nfeat (m1.map (fun m => (m.2, m.1)) ++ combined.map (fun m => (m.2.1, m.1))))
    (hg2 : GoodPairs Fc.nfeat (m2.map (fun m => (m.2, m.1)) ++ combined.map (fun m => (m.2.2, m.1))))
    (hcm : ∀ m ∈ combined, sc.point first m.2.1 = sc.point center m.1 ∧ sc.point second m.2.2 = sc.point center m.1)
    (hm1 : ∀ m ∈ m1, sc.point first m.2 = sc.point center m.1)
    (hm2 : ∀ m ∈ m2, sc.point second m.2 = sc.point center m.1) (a : ℝ)
    (hrun : d.addReconstruction center first second Iso.one (((sc.pose first).mul (sc.pose center).inv).scale a)
      (((sc.pose second).mul (sc.pose center).inv).scale a) combined m1 m2 = some d') {R' : Recon (Iso ℝ)}
    (hR' : d'.recons.get d.recons.next = some R') : R'.TrueIn sc (sc.pose center).inv a := by
  let r := d.recons.next
  let d0 : Data (Iso ℝ) := { d with recons := d.recons.insert Recon.empty }
  have hd0 : d0.Consistent := insertRecon_consistent hd
  have hget0 : ∀ q, d0.recons.get q = if q = r then some Recon.empty else d.recons.get q :=
    SlotMap.get_insert hd.reconsWF _
  have hR0 : d0.recons.get r = some Recon.empty := by rw [hget0]; simp
  have hidp : Iso.one = sc.viewed (sc.pose center).inv a center := (viewed_one hsc center).symm
  have hp1 : ((sc.pose first).mul (sc.pose center).inv).scale a = sc.viewed (sc.pose center).inv a first := rfl
  have hp2 : ((sc.pose second).mul (sc.pose center).inv).scale a = sc.viewed (sc.pose center).inv a second := rfl
  rw [hidp, hp1, hp2] at hrun
  have t0 : (Recon.empty : Recon (Iso ℝ)).TrueIn sc (sc.pose center).inv a := by
    refine ⟨?_, ?_, ?_⟩
    · intro v V hV
      simp [Recon.empty, SlotMap.empty, SlotMap.get, FMap.empty, FMap.get] at hV
    · intro l v f u k V U _ _ hV
      simp [Recon.empty, SlotMap.empty, SlotMap.get, FMap.empty, FMap.get] at hV
    · intro k c hk
      simp [Recon.empty, SlotMap.empty, SlotMap.get, FMap.empty, FMap.get] at hk
  -- center
  have vm0 : (Recon.empty : Recon (Iso ℝ)).ValidMatches Fc.nfeat (fun _ => none) :=
    ⟨fun _ _ _ h => (by cases h), fun _ _ _ _ _ _ _ h => (by cases h)⟩
  obtain ⟨d1, R1, lms0, hrun1, hd1, hr1, hn1, hq1, hqo1, hv0, hfc1, hfo1, hfe1⟩ :=
    addView_spec (hd0.off (fun _ => False)) id hR0 (F := Fc) (frame := center) hFc
      (by intro q v h; rw [hvc] at h; cases h) (sc.viewed (sc.pose center).inv a center) vm0
  obtain ⟨R1', lms0', hr1', hc1, hcon1, hvn1, hln1, hgv1, hlen1, hnews1, hfr1, hass1⟩ :=
    Recon.addView_spec (Recon.empty_consistent (P := Iso ℝ)) center (sc.viewed (sc.pose center).inv a center) vm0
  rw [hr1] at hr1'
  cases hr1'
  have t1 := t0.addView Recon.empty_consistent vm0 (by intro f ls l h; cases h) hr1
  have e0 : (Recon.empty : Recon (Iso ℝ)).views.next = 0 := rfl
  rw [e0] at hv0 hgv1 hvn1 hfr1 hass1
  rw [hv0] at hgv1
  cases hgv1
  -- first
  obtain ⟨fl, hfl, hfl1, hfl2⟩ := collectLandmarks_spec lms0
    (m1.map (fun m => (m.2, m.1)) ++ combined.map (fun m => (m.2.1, m.1)))
    (by rw [hlen1]; exact hg1.range)
  have vm1 : R1.ValidMatches F1.nfeat (fun f => (fl.get f).map (fun l => [l])) :=
    validMatches_of_collect hc1 hv0 (by show GoodPairs lms0.length _; rw [hlen1]; exact hg1) hfl1
  have tm1 : TrueMatches sc R1 first (fun f => (fl.get f).map (fun l => [l])) := by
    refine trueMatches_of_collect hc1 t1 hv0 hfl1 ?_
    intro f c hfc
    rcases List.mem_append.1 hfc with hfc | hfc
    · obtain ⟨m, hm, e⟩ := List.mem_map.1 hfc
      cases e
      exact hm1 m hm
    · obtain ⟨m, hm, e⟩ := List.mem_map.1 hfc
      cases e
      exact (hcm m hm).1
  have hF1' : d1.frames.get first = some F1 := by rw [hfo1 first (Ne.symm hcf)]; exact hF1
  obtain ⟨d2, R2, lms1, hrun2, hd2, hr2, hn2, hq2, hqo2, hv1', hff2, hfo2, hfe2⟩ :=
    addView_spec hd1 id hq1 hF1' (by intro q v h; rw [hv1] at h; cases h) (sc.viewed (sc.pose center).inv a first) vm1
  obtain ⟨R2', lms1', hr2', hc2, hcon2, hvn2, hln2, hgv2, hlen2, hnews2, hfr2, hass2⟩ :=
    Recon.addView_spec hc1 first (sc.viewed (sc.pose center).inv a first) vm1
  rw [hr2] at hr2'
  cases hr2'
  have t2 := t1.addView hc1 vm1 tm1 hr2
  rw [hvn1] at hv1' hgv2 hvn2 hfr2 hass2
  rw [hv1'] at hgv2
  cases hgv2
  simp only [Recon.renamed_single] at hass2
  -- second
  have hC2 : ∃ C2, R2.views.get 0 = some C2 ∧ C2.frame = center ∧
      C2.landmarks = lms0 := by
    have h := hfr2 0 (by omega)
    rw [hv0] at h
    cases hc : R2.views.get 0 with
    | none => rw [hc] at h; simp at h
    | some C2 =>
      rw [hc] at h
      simp only [Option.map_some, Option.some.injEq, Prod.mk.injEq] at h
      refine ⟨C2, rfl, h.1, List.ext_getElem? ?_⟩
      intro i
      have hi := hass2 0 i
      by_cases hlt : i < lms0.length
      · have h1 : R1.Assigned 0 i lms0[i] := ⟨_, hv0, List.getElem?_eq_getElem hlt⟩
        obtain ⟨C', hC', hl⟩ := (hi lms0[i] (by omega)).mpr ⟨_, h1, rfl⟩
        rw [hc] at hC'; cases hC'
        rw [hl, List.getElem?_eq_getElem hlt]
      · rw [List.getElem?_eq_none (by omega), List.getElem?_eq_none (by omega)]
  obtain ⟨C2, hC2, hC2f, hC2l⟩ := hC2
  obtain ⟨sl, hsl, hsl1, hsl2⟩ := collectLandmarks_spec lms0
    (m2.map (fun m => (m.2, m.1)) ++ combined.map (fun m => (m.2.2, m.1)))
    (by rw [hlen1]; exact hg2.range)
  have vm2 : R2.ValidMatches F2.nfeat (fun f => (sl.get f).map (fun l => [l])) :=
    validMatches_of_collect hc2 hC2 (by rw [hC2l, hlen1]; exact hg2)
      (by rw [hC2l]; exact hsl1)
  have tm2 : TrueMatches sc R2 second (fun f => (sl.get f).map (fun l => [l])) := by
    refine trueMatches_of_collect hc2 t2 hC2 (by rw [hC2l]; exact hsl1) ?_
    intro f c hfc
    rw [hC2f]
    rcases List.mem_append.1 hfc with hfc | hfc
    · obtain ⟨m, hm, e⟩ := List.mem_map.1 hfc
      cases e
      exact hm2 m hm
    · obtain ⟨m, hm, e⟩ := List.mem_map.1 hfc
      cases e
      exact (hcm m hm).2
  have hF2' : d2.frames.get second = some F2 := by
    rw [hfo2 second (Ne.symm hfs), hfo1 second (Ne.symm hcs)]; exact hF2
  obtain ⟨d3, R3, lms2, hrun3, hd3, hr3, hn3, hq3, hqo3, hv2', hff3, hfo3, hfe3⟩ :=
    addView_spec hd2 id hq2 hF2' (by intro q v h; rw [hv2] at h; cases h) (sc.viewed (sc.pose center).inv a second) vm2
  have t3 := t2.addView hc2 vm2 tm2 hr3
  obtain ⟨e, R, hrunE, _, _, hRE, _, _, _, _, _, _, ⟨V0, g0, f0, q0⟩, ⟨V1, g1, f1, q1⟩, ⟨V2, g2, f2, q2⟩, _, hcon, _⟩ :=
    addReconstruction_spec hd hcf hcs hfs hFc hF1 hF2 hvc hv1 hv2 (sc.viewed (sc.pose center).inv a center)
      (sc.viewed (sc.pose center).inv a first) (sc.viewed (sc.pose center).inv a second) hg1 hg2
  rw [hrun] at hrunE
  cases hrunE
  rw [hR'] at hRE
  cases hRE
  have hrunX : d.addReconstruction center first second (sc.viewed (sc.pose center).inv a center)
      (sc.viewed (sc.pose center).inv a first) (sc.viewed (sc.pose center).inv a second) combined m1 m2 =
      some { d3 with recons := d3.recons.modify r (fun _ => { R3 with constraints :=
          (R3.constraints.insert ⟨0, 1, 2, sc.viewed (sc.pose center).inv a first,
            sc.viewed (sc.pose center).inv a second⟩) }) } := by
    have e1 : ({ feeds := d.feeds, frames := d.frames, recons := d.recons.insert Recon.empty } : Data (Iso ℝ)).addView
      d.recons.next center (sc.viewed (sc.pose center).inv a center) (fun _ => none) = some d1 := hrun1
    have e2 : d1.recons.get d.recons.next = some R1 := hq1
    have e3 : d1.addView d.recons.next first (sc.viewed (sc.pose center).inv a first)
      (fun f => (fl.get f).map (fun l => [l])) = some d2 := hrun2
    have e4 : d2.recons.get d.recons.next = some R2 := hq2
    have e5 : d2.addView d.recons.next second (sc.viewed (sc.pose center).inv a second)
      (fun f => (sl.get f).map (fun l => [l])) = some d3 := hrun3
    have e6 : d3.recons.get d.recons.next = some R3 := hq3
    simp only [addReconstruction, e1, e2, e3, e4, e5, Option.bind_some, hv0, hfl, hC2, hC2l, hsl]
    exact onRecon_some e6 rfl
  rw [hrunX] at hrun
  cases hrun
  have := hR'
  change (d3.recons.modify r _).get r = _ at this
  rw [get_replace hq3, if_pos rfl] at this
  have hRR := Option.some.inj this
  have hvs : R'.views = R3.views := by rw [← hRR]
  have hls : R'.landmarks = R3.landmarks := by rw [← hRR]
  refine t3.constrained hvs hls ?_
  intro k c hk
  rw [hcon, SlotMap.get_insert ⟨by simp [SlotMap.empty, FMap.empty, FMap.WF, FMap.keys],
    by simp [SlotMap.empty, SlotMap.get, FMap.empty, FMap.get]⟩] at hk
  split at hk
  · cases hk
    rw [hvs] at g0 g1 g2
    refine ⟨V0, V1, V2, g0, g1, g2, ?_, ?_⟩
    · show _ = V1.pose.mul V0.pose.inv
      rw [q0, q1, ← hidp, Iso.inv_one, Iso.mul_one]
    · show _ = V2.pose.mul V0.pose.inv
      rw [q0, q2, ← hidp, Iso.inv_one, Iso.mul_one]
  · simp [SlotMap.empty, SlotMap.get, FMap.empty, FMap.get] at hk

end Data

/-! ## One call -/

/-- All reconstructions are true. -/
def AllTrue (sc : Scene) (d : Data (Iso ℝ)) : Prop := ∀ r R, d.recons.get r = some R → R.TrueTo sc

theorem AllTrue.change {d d' : Data (Iso ℝ)} (h : AllTrue sc d) {r : Nat}
    (hq : ∀ q, q ≠ r → d'.recons.get q = d.recons.get q) (hr : ∀ R, d'.recons.get r = some R → R.TrueTo sc) :
    AllTrue sc d' := by
  intro q R hR
  by_cases e : q = r
  · subst e; exact hr R hR
  · rw [hq q e] at hR; exact h q R hR

theorem AllTrue.replace {d : Data (Iso ℝ)} (h : AllTrue sc d) {r : Nat} {R R' : Recon (Iso ℝ)}
    (hR : d.recons.get r = some R) (hr : R'.TrueTo sc) :
    AllTrue sc { d with recons := d.recons.modify r (fun _ => R') } := by
  refine h.change (r := r) (fun q hq => ?_) (fun Q hQ => ?_)
  · exact (Data.get_replace hR q).trans (if_neg hq)
  · have := (Data.get_replace (R' := R') hR r).trans (if_pos rfl)
    change (d.recons.modify r _).get r = _ at hQ
    rw [this] at hQ
    cases hQ
    exact hr

theorem Recon.TrueTo.part {R R' : Recon (Iso ℝ)} (h : R.TrueTo sc) (hR : R.Consistent) (hp : Recon.Part R R') :
    R'.TrueTo sc := by
  obtain ⟨g, s, hg, hs, h⟩ := h
  exact ⟨g, s, hg, hs, h.part hR hp⟩

theorem step_true (hsc : sc.Seen W) {d d' : Data (Iso ℝ)} (hd : d.Consistent) (ht : AllTrue sc d) {op : Op (Iso ℝ)}
    (hv : Valid d op) (hh : Honest sc W d op) (hrun : step d op = some d') : AllTrue sc d' := by
  cases op <;> simp only [Valid] at hv
  case addFeed =>
    cases hrun
    exact ht
  case addFrame feed n =>
    obtain ⟨fs, hfs⟩ := hv
    obtain ⟨d'', h, _, hr, _⟩ := Data.addFrame_spec (hd.off (fun _ => False)) hfs n
    have h' : d.addFrame feed n = some d' := hrun
    rw [h] at h'
    cases h'
    intro r R hR
    rw [hr] at hR
    exact ht r R hR
  case addReconstruction c f s idp p1 p2 cm m1 m2 =>
    obtain ⟨h1, h2, h3, ⟨_, F1, hF1, _, hv1⟩, ⟨_, F2, hF2, _, hv2⟩, nc, ⟨Fc, hFc, rfl, hvc⟩, g1, g2⟩ := hv
    obtain ⟨rfl, ⟨a, ha, rfl, rfl⟩, hcm, hm1, hm2⟩ := hh
    obtain ⟨d'', R, h, _, _, _, hq, _⟩ := Data.addReconstruction_spec hd h1 h2 h3 hFc hF1 hF2 hvc hv1 hv2
      Iso.one (((sc.pose f).mul (sc.pose c).inv).scale a) (((sc.pose s).mul (sc.pose c).inv).scale a) g1.good g2.good
    have h' : d.addReconstruction c f s _ _ _ cm m1 m2 = some d' := hrun
    have h'' := h'
    rw [h] at h''
    cases h''
    refine ht.change hq (fun R hR => ⟨_, a, (hsc.rigid c).inv, ha, ?_⟩)
    exact Data.addReconstruction_true hsc.rigid hd h1 h2 h3 hFc hF1 hF2 hvc hv1 hv2 g1.good g2.good hcm hm1 hm2 a h' hR
  case addView r frame pose ex =>
    obtain ⟨R, n, hR, ⟨F, hF, rfl, hFv⟩, hex⟩ := hv
    obtain ⟨⟨g, s, hg, hs, hT, rfl⟩, hm⟩ := hh R hR
    obtain ⟨d'', R', lms, h, _, hav, _, hr, hq, _⟩ := Data.addView_spec (hd.off (fun _ => False)) (fun h => h) hR hF
      (by intro q v h; rw [hFv] at h; cases h) (sc.viewed g s frame) hex
    have h' : d.addView r frame _ ex = some d' := hrun
    rw [h] at h'
    cases h'
    refine ht.change hq (fun Q hQ => ⟨g, s, hg, hs, ?_⟩)
    rw [hr] at hQ
    cases hQ
    exact hT.addView (hd.recons r R hR) hex hm hav
  case incorporateFrame ω st r frame pose ex =>
    obtain ⟨hω, R, n, hR, ⟨F, hF, rfl, hFv⟩, hex⟩ := hv
    obtain ⟨hW, hh⟩ := hh
    obtain ⟨⟨g, s, hg, hs, hT, rfl⟩, hm⟩ := hh R hR
    obtain ⟨d'', R', x, h, _, _, _, hq, _⟩ := Data.incorporateFrame_spec ω hω st hd hR hF hFv (sc.viewed g s frame) hex
    obtain ⟨y, hr⟩ := map_fst hrun
    have hr' := hr
    rw [h] at hr'
    cases hr'
    exact ht.change hq (fun Q hQ => ⟨g, s, hg, hs,
      Data.incorporateFrame_true hsc hg hs hω hW st hd hR hF hFv hex hT hm hr hQ⟩)
  case tryMerge ω ω' st tr src sv dst pose ms =>
    obtain ⟨hω, hω', hne, hwf, S, D, V, hS, hD, hV, hdom, hms⟩ := hv
    obtain ⟨hW, hW', hh⟩ := hh
    obtain ⟨rfl, hm, g, h, s, hg, hrh, hs, hTS, hTD, rfl⟩ := hh S D V hS hD hV
    obtain ⟨d'', D', b, hr, _, _, _, _, hq, _, _, hb0, hb1⟩ := Data.tryMerge_spec ω hω ω' hω' st
      (fun p => p.mul (fromCameraPoses V.pose (sc.viewed h s V.frame)).inv) hne hd hS hV hD (sc.viewed h s V.frame) hwf
      hdom hms
    obtain ⟨y, hrun'⟩ := map_fst hrun
    have hr' := hrun'
    rw [hr] at hr'
    cases hr'
    intro q Q hQ
    by_cases e1 : q = dst
    · subst e1
      exact ⟨h, s, hrh, hs, Data.tryMerge_true hsc hg hrh hs hω hW hω' hW' st hne hd hS hV hD hwf hdom hms hTS hTD hm
        hrun' hQ⟩
    · by_cases e2 : q = src
      · subst e2
        cases b with
        | false =>
          rw [(hb0 rfl).1] at hQ
          cases hQ
          exact ht q _ hS
        | true =>
          rw [(hb1 rfl).1] at hQ
          cases hQ
      · rw [hq q e1 e2] at hQ
        exact ht q Q hQ
  case incorporateReconstruction ω st tr src dst m =>
    obtain ⟨hω, hne, S, D, hS, hD, hinj, hlive⟩ := hv
    obtain ⟨hW, hh⟩ := hh
    obtain ⟨hm, g, h, s, hg, hrh, hs, hTS, hTD, htr⟩ := hh S D hS hD
    obtain ⟨d'', D', m', hr, _, hsrc, _, _, hq, _⟩ := Data.incorporate_spec ω hω st tr hne (hd.off _)
      (Data.srcOk_of_consistent hd hS) hD ⟨hinj, hlive⟩
    have hr' : d.incorporateReconstruction ω st tr src dst m = some d' := hrun
    have hr'' := hr'
    rw [hr] at hr''
    cases hr''
    have hcS := hd.recons src S hS
    intro q Q hQ
    by_cases e1 : q = dst
    · subst e1
      refine ⟨h, s, hrh, hs, Data.incorporate_true hsc hrh hs hω hW st hne (hd.off _) (Data.srcOk_of_consistent hd hS) hD
        ⟨hinj, hlive⟩ hTD ⟨?_, ?_, ?_⟩ hr' hQ⟩
      · intro v V hV
        rw [hTS.poses v V hV]
        exact htr _
      · intro l v f u k V U h1 h2 hV hU
        exact hTS.assigned hcS h1 h2 hV hU
      · intro a b hab
        obtain ⟨x, hx, hy⟩ := hm a b hab
        exact ⟨x, hy, fun v f V hA hV => hx v f V ((hcS.agree v f a).1 hA) hV⟩
    · by_cases e2 : q = src
      · subst e2
        rw [hsrc] at hQ
        cases hQ
      · rw [hq q e1 e2] at hQ
        exact ht q Q hQ
  case removeView r v =>
    obtain ⟨R, hR, V, hV⟩ := hv
    obtain ⟨d'', R', F, h, _, hrem, _, hr, hq, _⟩ := Data.removeView_spec (hd.off (fun _ => False)) (fun h => h) hR hV
    have h' : d.removeView r v = some d' := hrun
    rw [h] at h'
    cases h'
    refine ht.change hq (fun Q hQ => ?_)
    rw [hr] at hQ
    cases hQ
    have hc := hd.recons r R hR
    exact (ht r R hR).part hc (Recon.removeView_part hc hV hrem)
  case splitObservation r v f =>
    obtain ⟨R, l, hR, ha⟩ := hv
    have hc := hd.recons r R hR
    obtain ⟨R', b, h, hr⟩ := Recon.split_ok hc ha
    simp only [step, Data.splitObservation, hR, h, Option.map_some, Option.some.injEq] at hrun
    rw [← hrun]
    exact ht.replace hR ((ht r R hR).part hc hr.part)
  case splitLandmark r l order =>
    obtain ⟨R, L, hR, hL, hp⟩ := hv
    have hc := hd.recons r R hR
    obtain ⟨R', h, hr⟩ := Recon.splitLandmark_ok hc hL hp
    have h' : d.onRecon r _ = some d' := hrun
    rw [onRecon_some hR h] at h'
    cases h'
    exact ht.replace hR ((ht r R hR).part hc hr.part)
  case mergeLandmarks r a b =>
    obtain ⟨R, hR, hab, ⟨A, hA⟩, ⟨B, hB⟩, hns⟩ := hv
    have hdis : ∀ v, A.get v = none ∨ B.get v = none := by
      intro v
      cases h1 : A.get v with
      | none => exact Or.inl rfl
      | some f =>
        cases h2 : B.get v with
        | none => exact Or.inr rfl
        | some g => exact absurd ⟨B, hB, h2⟩ (hns v f g ⟨A, hA, h1⟩)
    have hc := hd.recons r R hR
    obtain ⟨R', h, _⟩ := Recon.mergeLandmarks_spec hc hab hA hB hdis
    have h' : d.onRecon r _ = some d' := hrun
    rw [onRecon_some hR h] at h'
    cases h'
    obtain ⟨x, hxa, hxb⟩ := hh R hR
    obtain ⟨g, s, hg, hs, hT⟩ := ht r R hR
    exact ht.replace hR ⟨g, s, hg, hs, hT.merge hc hab hA hB hdis hxa hxb h⟩
  case mergeDedup loss r a b =>
    obtain ⟨R, hR, ha, hb⟩ := hv
    obtain ⟨d'', x, R', h, _, hm, _, _, _, hq, hr, _⟩ := Data.mergeDedup_ok loss hd hR ha hb
    obtain ⟨y, hrun'⟩ := map_fst hrun
    rw [h] at hrun'
    cases hrun'
    refine ht.change hq (fun Q hQ => ?_)
    rw [hr] at hQ
    cases hQ
    obtain ⟨x, hxa, hxb⟩ := hh R hR
    obtain ⟨g, s, hg, hs, hT⟩ := ht r R hR
    exact ⟨g, s, hg, hs, hT.dedup (hd.recons r R hR) loss ha hb hxa hxb hm⟩
  case recordConstraints ω st r v =>
    obtain ⟨hω, R, hR, hl⟩ := hv
    obtain ⟨d'', R', x, h, _, hrec, hr, _, hq, _⟩ :=
      Data.record_spec ω hω st (hd.off (fun _ => False)) (fun h => h) hR hl
    obtain ⟨y, hrun'⟩ := map_fst hrun
    rw [h] at hrun'
    cases hrun'
    refine ht.change hq (fun Q hQ => ?_)
    rw [hr] at hQ
    cases hQ
    obtain ⟨g, s, hg, hs, hT⟩ := ht r R hR
    exact ⟨g, s, hg, hs, hT.record hsc hg hs (hd.recons r R hR) hω hh hl hrec⟩
  case regenerateConstraints ω st r =>
    obtain ⟨hω, R, hR⟩ := hv
    obtain ⟨d'', R', h, _, _, _, _, _, hq, _⟩ := Data.regenerate_ok ω hω st hd hR
    have hrun' : d.regenerateConstraints ω st r = some d' := hrun
    have h' := hrun'
    rw [h] at h'
    cases h'
    refine ht.change hq (fun Q hQ => ?_)
    obtain ⟨g, s, hg, hs, hT⟩ := ht r R hR
    exact ⟨g, s, hg, hs, Data.regenerate_true hsc hg hs hω hh st hd hR hT hrun' hQ⟩
  case filterObservations ω st r =>
    obtain ⟨R, hR⟩ := hv
    obtain ⟨d'', b, R', h, _, _, _, hq, href, hb1, hb0⟩ := Data.filterObservations_ok ω st hd hR
    obtain ⟨y, hrun'⟩ := map_fst hrun
    rw [h] at hrun'
    cases hrun'
    refine ht.change hq (fun Q hQ => ?_)
    cases b with
    | true =>
      rw [(hb1 rfl).1] at hQ
      cases hQ
      exact (ht r R hR).part (hd.recons r R hR) href.part
    | false =>
      rw [(hb0 rfl).1] at hQ
      cases hQ
  case filterLandmarks ω r =>
    obtain ⟨R, hR⟩ := hv
    obtain ⟨d'', R', h, _, _, _, _, hq, hr, href⟩ := Data.filterLandmarks_ok ω hd hR
    have hrun' : d.filterLandmarks ω r = some d' := hrun
    rw [h] at hrun'
    cases hrun'
    refine ht.change hq (fun Q hQ => ?_)
    rw [hr] at hQ
    cases hQ
    exact (ht r R hR).part (hd.recons r R hR) href.part
  case optimize ω ω' st r =>
    obtain ⟨R, hR⟩ := hv
    obtain ⟨rate, hrate⟩ := hh
    obtain ⟨b, hrun'⟩ := map_fst hrun
    have hrun' : Data.optimizeLoop ω ω' st r st.reconIterations d = some (d', b) := hrun'
    obtain ⟨_, _, _, hq, _⟩ := Data.optimizeLoop_ok ω ω' st r st.reconIterations hd hR hrun'
    refine ht.change hq (fun Q hQ => ?_)
    obtain ⟨g, s, hg, hs, hT⟩ := ht r R hR
    exact ⟨g, s, hg, hs, Data.optimizeLoop_true hsc hg hrate ω' st r _ hd hR hT hrun' Q hQ⟩
  case normalize f k r =>
    obtain ⟨R, v, hR, V, hV⟩ := hv
    obtain ⟨a, ha, R2, u, U, hR2, hU, rfl, rfl⟩ := hh
    rw [hR] at hR2
    cases hR2
    have hne : R.views.size ≠ 0 := by
      have := FMap.size_pos_of_get (m := R.views.map) hV
      intro h0
      have : R.views.map.size = 0 := h0
      omega
    have hrun' : d.onRecon r _ = some d' := hrun
    rw [onRecon_some hR (R' := R.mapPoses (fun p => (p.mul U.pose.inv).scale a) (fun p => p.scale a))
      (by simp [hne])] at hrun'
    cases hrun'
    obtain ⟨g, s, hg, hs, hT⟩ := ht r R hR
    exact ht.replace hR ⟨_, _, (hsc.rigid _).inv, mul_pos ha hs, hT.normalize hsc.rigid hg hU a⟩
  case removeReconstruction r =>
    obtain ⟨R, hR⟩ := hv
    obtain ⟨d'', h, _, _, hr, hq, _⟩ := Data.removeReconstruction_spec hd hR
    have hrun' : d.removeReconstruction r = some d' := hrun
    rw [h] at hrun'
    cases hrun'
    refine ht.change hq (fun Q hQ => ?_)
    rw [hr] at hQ
    cases hQ

end Verif.Sfm
