import Verif.Lemmas.SfmMerge

/-! Helper lemmas: `try_merge_reconstructions`. -/

namespace Verif.Sfm
variable {P : Type}

namespace Data

variable {S : Nat → Prop}

/-- Consistency only depends on what can be looked up. -/
theorem ConsistentOff.congr {d d' : Data P} (hd : d.ConsistentOff S) (hk : d'.feeds = d.feeds)
    (hfw : d'.frames.WF) (hf : ∀ f, d'.frames.get f = d.frames.get f) (hrw : d'.recons.WF)
    (hr : ∀ q, ¬ S q → d'.recons.get q = d.recons.get q) : d'.ConsistentOff S := by
  refine ⟨by rw [hk]; exact hd.feedsWF, hfw, hrw, ?_, ?_, ?_, ?_, ?_⟩
  · intro q Q hq hQ; rw [hr q hq] at hQ; exact hd.recons q Q hq hQ
  · intro q Q v V hq hQ hV
    rw [hr q hq] at hQ
    obtain ⟨F, h⟩ := hd.viewFrame q Q v V hq hQ hV
    exact ⟨F, by rw [hf]; exact h.1, h.2⟩
  · intro f F q v hq hF hFv
    rw [hf] at hF
    obtain ⟨Q, V, h1, h2⟩ := hd.frameView f F q v hq hF hFv
    exact ⟨Q, V, by rw [hr q hq]; exact h1, h2⟩
  · intro k fs i f h1 h2
    rw [hk] at h1
    obtain ⟨F, h⟩ := hd.feedFrames k fs i f h1 h2
    exact ⟨F, by rw [hf]; exact h.1, h.2⟩
  · intro f F hF
    rw [hf] at hF
    rw [hk]
    exact hd.frameFeed f F hF

/-- A merge attempt on consistent data. -/
theorem tryMerge_spec (ω : Oracle P) (hω : ω.Fair) (ω' : Nat → Oracle P)
    (hω' : ∀ i, (ω' i).Fair) (s : Settings) (tr : P → P) {src dst sv : Nat} (hne : src ≠ dst)
    {d : Data P} (hd : d.Consistent) {Sr D : Recon P} {V : View P}
    (hS : d.recons.get src = some Sr) (hV : Sr.views.get sv = some V)
    (hD : d.recons.get dst = some D) (pose : P) {ms : FMap (List Nat)} (hwf : ms.WF)
    (hdom : ∀ f ls, ms.get f = some ls → f < V.landmarks.length)
    (hms : D.ValidMatches V.landmarks.length ms.get) :
    ∃ d' D' b, tryMerge ω ω' s tr d src sv dst pose ms = some (d', b) ∧ d'.Consistent ∧
      d'.recons.get dst = some D' ∧ d'.recons.next = d.recons.next ∧ d'.feeds = d.feeds ∧
      (∀ q, q ≠ dst → q ≠ src → d'.recons.get q = d.recons.get q) ∧
      (∀ w, w < D.views.next → (D'.views.get w).map (fun W => (W.frame, W.pose, W.landmarks.length)) =
        (D.views.get w).map (fun W => (W.frame, W.pose, W.landmarks.length))) ∧
      (∀ w f l', w < D.views.next → (D'.Assigned w f l' ↔
        ∃ l, D.Assigned w f l ∧ Renamed (List.range V.landmarks.length) ms.get l l')) ∧
      (b = false → d'.recons.get src = some Sr ∧ D'.views.get D.views.next = none ∧
        D'.views.next = D.views.next + 1 ∧
        ∀ f, d'.frames.get f = d.frames.get f) ∧
      (b = true → d'.recons.get src = none ∧
        (∃ lms, D'.views.get D.views.next = some ⟨V.frame, pose, lms⟩ ∧
          lms.length = V.landmarks.length ∧
          (∀ f l ls, lms[f]? = some l → ms.get f = some ls → ls.head? = some l)) ∧
        D'.views.next = D.views.next + 1 + (Sr.views.erase sv).keys.length ∧
        ∃ m' : FMap Nat,
          (∀ s s' x, m'.get s = some x → m'.get s' = some x → s = s') ∧
          (∀ f sl ls dl, V.landmarks[f]? = some sl → ms.get f = some ls → ls.head? = some dl →
            m'.get sl = some dl) ∧
          (∀ (i v : Nat) W, (Sr.views.erase sv).keys[i]? = some v → Sr.views.get v = some W →
            Moved tr m' D' (D.views.next + 1 + i) W ∨
            (D'.views.get (D.views.next + 1 + i) = none ∧
              (∃ F, d'.frames.get W.frame = some F ∧ F.view = none) ∧
              ∃ Q : Recon P, Q.recordViewConstraints (ω' (D.views.next + 1 + i)) s
                (D.views.next + 1 + i) = some (Q, false) ∧ Q.Consistent ∧
                Moved tr m' Q (D.views.next + 1 + i) W))) := by
  have hoff : d.ConsistentOff (fun q => q = src) := hd.off _
  obtain ⟨F, hF, hFv, hFn⟩ := hd.viewFrame src Sr sv V hS hV
  have hSc := hd.recons src Sr hS
  rw [hFn] at hms hdom
  obtain ⟨d1, D1, lms, hrun1, hd1, hav, hn1, hD1, hq1, hdv, hf1, hg1, hk1⟩ :=
    addView_spec hoff (Ne.symm hne) hD hF (by
      intro q v h
      rw [hFv] at h
      simp only [Option.some.injEq, Prod.mk.injEq] at h
      exact h.1.symm) pose hms
  obtain ⟨D1', lms', hav', hc1, hcon1, hvn1, hln1, hdv', hlen, hnews, hfr1, hass1⟩ :=
    Recon.addView_spec (hd.recons dst D hD) V.frame pose hms
  rw [hav] at hav'
  cases hav'
  rw [hdv] at hdv'
  cases hdv'
  obtain ⟨d2, D2, x, hrun2, hd2, _, hD2, hn2, hq2, hf2, hk2, hv2, hl2, hx2⟩ :=
    record_spec ω hω s hd1 (Ne.symm hne) hD1 ⟨_, hdv⟩
  have hS2 : d2.recons.get src = some Sr := by rw [hq2 src hne, hq1 src hne]; exact hS
  have hoth : ∀ w, w < D.views.next → w ≠ D.views.next := fun w h => by omega
  have hass : ∀ w f l', w < D.views.next → (D1.Assigned w f l' ↔
        ∃ l, D.Assigned w f l ∧ Renamed (List.range V.landmarks.length) ms.get l l') := by
    intro w f l' hw
    rw [hFn]
    exact hass1 w f l' (hoth w hw)
  have hstart : (d.recons.get src).bind (fun R => R.views.get sv) = some V := by rw [hS]; exact hV
  cases x with
  | false =>
    have hDD := hx2 rfl
    subst hDD
    obtain ⟨d3, D3, F3, hrun3, hd3, hrr, hn3, hD3, hq3, hF3, hFn3, hf3, hk3⟩ :=
      removeView_spec hd2 (Ne.symm hne) hD2 (by rw [hdv])
    obtain ⟨D3', hrr', hc3, hvn3, hln3, hgv, hgw, hO, _⟩ :=
      Recon.removeView_spec (hd2.recons dst D2 (Ne.symm hne) hD2) hdv
    rw [hrr] at hrr'
    cases hrr'
    simp only at hF3 hFn3 hf3
    let d4 : Data P := { d3 with
      frames := d3.frames.modify V.frame (fun F => { F with view := some (src, sv) }) }
    have hrun4 : d3.setFrameView V.frame (some (src, sv)) = some d4 := by
      unfold setFrameView; rw [hFn3]
    have g4 : ∀ f, d4.frames.get f = d.frames.get f := by
      intro f
      show (d3.frames.modify V.frame _).get f = _
      rw [SlotMap.get_modify]
      by_cases h : f = V.frame
      · subst h
        rw [hF, if_pos rfl, hFn3]
        rw [hf2, hf1] at hF3
        cases hF3
        simp only [Option.map_some]
        rw [← hFv]
      · rw [if_neg h, hf3 f h, hf2, hg1 f h]
    have hshape : ∀ w, (D3.views.get w).map (fun W => (W.frame, W.pose, W.landmarks.length)) =
        (D.views.get w).map (fun W => (W.frame, W.pose, W.landmarks.length)) := by
      intro w
      by_cases h : w = D.views.next
      · subst h
        rw [hgv, SlotMap.get_next (hd.recons dst D hD).viewsWF]
      · rw [hgw w h]; exact hfr1 w h
    have hcons : d4.Consistent := by
      apply ConsistentOff.on
      refine ConsistentOff.congr (replaceRecon (hd.off _) (R' := D3) hD hc3 ?_) ?_ ?_ g4 ?_ ?_
      · intro w
        have := hshape w
        cases h1 : D3.views.get w <;> cases h2 : D.views.get w <;> simp_all
      · show d3.feeds = d.feeds
        rw [hk3, hk2, hk1]
      · exact SlotMap.wf_modify hd3.framesWF _ _
      · exact hd3.reconsWF
      · intro q _
        show d3.recons.get q = (d.recons.modify dst _).get q
        rw [SlotMap.get_modify]
        by_cases h : q = dst
        · subst h; rw [if_pos rfl, hD, hD3]; rfl
        · rw [if_neg h, hq3 q h, hq2 q h, hq1 q h]
    refine ⟨d4, D3, false, ?_, hcons, hD3, (hn3.trans hn2).trans hn1, (hk3.trans hk2).trans hk1, ?_,
      fun w _ => hshape w, ?_, ?_, by simp⟩
    · unfold tryMerge
      simp only [hstart, hD, hrun1, hrun2, hrun3, hrun4]
    · intro q h _
      show d3.recons.get q = _
      rw [hq3 q h, hq2 q h, hq1 q h]
    · intro w f l' hw
      rw [← hass w f l' hw]
      unfold Recon.Assigned
      rw [hgw w (hoth w hw)]
    · intro _
      refine ⟨?_, hgv, by rw [hvn3, hvn1], g4⟩
      show d3.recons.get src = _
      rw [hq3 src hne]; exact hS2
  | true =>
    have hnd := Recon.view_landmarks_nodup hSc hV
    have hent : ∀ f ls, (f, ls) ∈ ms.entries ↔ ms.get f = some ls :=
      fun f ls => FMap.mem_iff_get hwf
    have hhead : ∀ f ls, ms.get f = some ls → ∃ x, ls.head? = some x := by
      intro f ls h
      rcases hms.shape f ls (hdom f ls h) h with ⟨l, rfl, _⟩ | ⟨a, b, rfl, _⟩
      · exact ⟨l, rfl⟩
      · exact ⟨a, rfl⟩
    obtain ⟨m, hm, hmg⟩ := landmarkMap_spec hnd ms.entries hwf (by
      rintro ⟨f, ls⟩ he
      have h := (hent f ls).mp he
      refine ⟨by rw [hFn]; exact hdom f ls h, ?_⟩
      rintro rfl
      obtain ⟨x, hx⟩ := hhead f _ h
      cases hx)
    have hmg' : ∀ t y, m.get t = some y ↔
        ∃ (f : Nat) (ls : List Nat), ms.get f = some ls ∧ V.landmarks[f]? = some t ∧
          ls.head? = some y := by
      intro t y
      rw [hmg]
      constructor
      · rintro ⟨f, ls, h1, h2⟩; exact ⟨f, ls, (hent f ls).mp h1, h2⟩
      · rintro ⟨f, ls, h1, h2⟩; exact ⟨f, ls, (hent f ls).mpr h1, h2⟩
    have hnewlm : ∀ f ls x, ms.get f = some ls → ls.head? = some x → lms[f]? = some x := by
      intro f ls x h1 h2
      have hflt : f < lms.length := by rw [hlen]; exact hdom f ls h1
      have h3 := List.getElem?_eq_getElem hflt
      have h4 := hnews f lms[f] h3
      rw [h1] at h4
      simp only at h4
      rw [h2] at h4
      rw [h3, h4]
    have hgm : GoodMap D2 m := by
      refine ⟨?_, ?_⟩
      · intro t t' y h h'
        obtain ⟨f, ls, h1, h2, h3⟩ := (hmg' t y).mp h
        obtain ⟨f', ls', h1', h2', h3'⟩ := (hmg' t' y).mp h'
        have : f = f' := by
          refine Decidable.byContradiction (fun hff => ?_)
          refine hms.disjoint f f' ls ls' (hdom _ _ h1) (hdom _ _ h1') hff h1 h1' y ?_ ?_
          · exact List.mem_of_head? h3
          · exact List.mem_of_head? h3'
        subst this
        rw [h2] at h2'
        exact Option.some.inj h2'
      · intro t y h
        obtain ⟨f, ls, h1, h2, h3⟩ := (hmg' t y).mp h
        have ha : D1.Assigned D.views.next f y := ⟨_, hdv, hnewlm f ls y h1 h3⟩
        obtain ⟨L, hL⟩ := Recon.assigned_live hc1 ha
        exact ⟨L, by rw [hl2]; exact hL⟩
    let Sr' : Recon P := { Sr with views := Sr.views.erase sv }
    let d3 : Data P := { d2 with recons := d2.recons.modify src (fun _ => Sr') }
    have hrun3 : d2.onRecon src (fun R => some { R with views := R.views.erase sv }) = some d3 := by
      unfold onRecon
      simp only [hS2]
      rfl
    have gq3 : ∀ q, d3.recons.get q = if q = src then some Sr' else d2.recons.get q := by
      intro q
      show (d2.recons.modify src _).get q = _
      rw [SlotMap.get_modify]
      by_cases h : q = src
      · subst h; simp [hS2]
      · simp [h]
    have hd3 : d3.ConsistentOff (fun q => q = src) :=
      ConsistentOff.congr hd2 rfl hd2.framesWF (fun _ => rfl) (SlotMap.wf_modify hd2.reconsWF _ _)
        (by intro q hq; rw [gq3, if_neg hq])
    have hge : ∀ v, Sr'.views.get v = if v = sv then none else Sr.views.get v :=
      fun v => SlotMap.get_erase _ _ _
    have hframes3 : ∀ f, f ≠ V.frame → d3.frames.get f = d.frames.get f := by
      intro f hf
      show d2.frames.get f = _
      rw [hf2, hg1 f hf]
    have hs3 : SrcOk d3 src Sr' Sr'.views.keys := by
      refine ⟨(SlotMap.wf_erase hSc.viewsWF _).nodup, by rw [gq3, if_pos rfl], ?_, ?_⟩
      · intro v hv
        obtain ⟨W, hW⟩ := (SlotMap.mem_keys_iff _ _).mp hv
        have hW' := hW
        rw [hge] at hW'
        split at hW'
        · cases hW'
        · rename_i hvs
          obtain ⟨G, h1, h2, h3⟩ := hd.viewFrame src Sr v W hS hW'
          have hfne : W.frame ≠ V.frame := by
            intro h
            rw [h, hF] at h1
            cases h1
            rw [hFv] at h2
            simp only [Option.some.injEq, Prod.mk.injEq] at h2
            exact hvs h2.2.symm
          exact ⟨W, G, hW, Recon.view_landmarks_nodup hSc hW', by rw [hframes3 _ hfne]; exact h1,
            h2, h3.symm⟩
      · intro f G v hG hGv
        by_cases hf : f = V.frame
        · subst hf
          have : d3.frames.get V.frame = some { F with view := some (dst, D.views.next) } := by
            show d2.frames.get V.frame = _
            rw [hf2, hf1]
          rw [this] at hG
          cases hG
          simp only [Option.some.injEq, Prod.mk.injEq] at hGv
          exact absurd hGv.1.symm hne
        · rw [hframes3 f hf] at hG
          obtain ⟨R, W, h1, h2, h3⟩ := hd.frameView f G src v hG hGv
          rw [hS] at h1
          cases h1
          have hvs : v ≠ sv := by
            rintro rfl
            rw [hV] at h2
            cases h2
            exact hf h3.symm
          have h4 : Sr'.views.get v = some W := by rw [hge, if_neg hvs]; exact h2
          exact ⟨(SlotMap.mem_keys_iff _ _).mpr ⟨W, h4⟩, W, h4, h3⟩
    obtain ⟨d4, D4, m4, hrun4, hc4, hsrc4, hD4, hn4, hq4, hk4, hinj4, hx4, hy4, hvn4, hln4, hw4, hmv4,
      hfr4⟩ := incorporate_spec ω' hω' s tr (Sr := Sr') (D := D2) hne hd3 hs3
        (by rw [gq3, if_neg (Ne.symm hne)]; exact hD2) hgm
    have hD2n : D2.views.next = D.views.next + 1 := by rw [hv2, hvn1]
    have hold : ∀ w, w < D.views.next + 1 → D4.views.get w = D1.views.get w := by
      intro w hw
      rw [hw4 w (by omega), hv2]
    refine ⟨d4, D4, true, ?_, hc4, hD4, ?_, ?_, ?_, ?_, ?_, by simp, ?_⟩
    · unfold tryMerge
      simp only [hstart, hD, hrun1, hrun2, hm, hrun3, hrun4]
    · rw [hn4]; show d2.recons.next = _; rw [hn2, hn1]
    · rw [hk4]; show d2.feeds = _; rw [hk2, hk1]
    · intro q h1 h2
      rw [hq4 q h1 h2, gq3, if_neg h2, hq2 q h1, hq1 q h1]
    · intro w hw
      rw [hold w (by omega)]
      exact hfr1 w (hoth w hw)
    · intro w f l' hw
      rw [← hass w f l' hw]
      unfold Recon.Assigned
      rw [hold w (by omega)]
    · intro _
      refine ⟨hsrc4, ⟨lms, by rw [hold _ (by omega)]; exact hdv, by rw [hlen, hFn], ?_⟩,
        by rw [hvn4, hD2n], m4, hinj4, ?_, ?_⟩
      · intro f l ls h1 h2
        have := hnews f l h1
        rw [h2] at this
        exact this
      · intro f sl ls dl h1 h2 h3
        exact hx4 _ _ ((hmg' _ _).mpr ⟨f, ls, h2, h1, h3⟩)
      · intro i v W hi hW
        have hvs : v ≠ sv := by
          rintro rfl
          have hmem : v ∈ Sr'.views.keys := List.mem_of_getElem? hi
          obtain ⟨W', hW'⟩ := (SlotMap.mem_keys_iff _ _).mp hmem
          rw [hge, if_pos rfl] at hW'
          cases hW'
        have := hmv4 i v W hi (by rw [hge, if_neg hvs]; exact hW)
        rw [hD2n] at this
        rcases this with h | ⟨h1, h2, Q, h3, h4, h5, _⟩
        · exact Or.inl h
        · exact Or.inr ⟨h1, h2, Q, h3, h4, h5⟩

end Data
end Verif.Sfm
