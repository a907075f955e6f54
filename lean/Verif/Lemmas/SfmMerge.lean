import Verif.Lemmas.SfmIncorporate
import Verif.Spec.SfmHistory

/-! Helper lemmas: whole-reconstruction merging and constraint recording on the data. -/

namespace Verif.Sfm
variable {P : Type}

namespace Data

variable {S : Nat → Prop}

theorem incorporateViews_spec (tr : P → P) {src dst : Nat} {Sr : Recon P} (hne : src ≠ dst)
    (svs : List Nat) : ∀ {d : Data P} {D : Recon P} {m : FMap Nat},
    d.ConsistentOff (fun q => q = src) → SrcOk d src Sr svs → d.recons.get dst = some D →
    GoodMap D m →
    ∃ d' D' m', incorporateViews tr src dst svs d m =
        some (d', m', List.range' D.views.next svs.length) ∧
      d'.ConsistentOff (fun q => q = src) ∧ SrcOk d' src Sr [] ∧
      d'.recons.get dst = some D' ∧ d'.recons.next = d.recons.next ∧
      (∀ q, q ≠ dst → d'.recons.get q = d.recons.get q) ∧ d'.feeds = d.feeds ∧
      GoodMap D' m' ∧ Extends m m' ∧
      (∀ s x, m'.get s = some x → m.get s = some x ∨ D.landmarks.next ≤ x) ∧
      D'.constraints = D.constraints ∧
      D'.views.next = D.views.next + svs.length ∧ D.landmarks.next ≤ D'.landmarks.next ∧
      (∀ w, w < D.views.next → D'.views.get w = D.views.get w) ∧
      (∀ l w f, w < D.views.next → (D'.Observes l w f ↔ D.Observes l w f)) ∧
      (∀ (i sv : Nat) V, svs[i]? = some sv → Sr.views.get sv = some V →
        Moved tr m' D' (D.views.next + i) V) ∧
      (∀ f, (d'.frames.get f).map (fun F => (F.feed, F.feedFrame, F.nfeat)) =
        (d.frames.get f).map (fun F => (F.feed, F.feedFrame, F.nfeat))) := by
  induction svs with
  | nil =>
    intro d D m hd hs hD hm
    exact ⟨d, D, m, rfl, hd, hs, hD, rfl, fun _ _ => rfl, rfl, hm, fun _ _ h => h,
      fun _ _ h => Or.inl h, rfl, rfl,
      Nat.le_refl _, fun _ _ => rfl, fun _ _ _ _ => Iff.rfl, by simp, fun _ => rfl⟩
  | cons sv svs ih =>
    intro d D m hd hs hD hm
    obtain ⟨d1, D1, m1, V, hrun1, hV, hd1, hs1, hD1, hn1, hq1, hf1, hm1, hx1, hy1, hc1, hvn1, hln1,
      hw1, ho1, hmv1, hfr1, _⟩ := incorporateView_spec tr hne hd hs hD hm
    obtain ⟨d2, D2, m2, hrun2, hd2, hs2, hD2, hn2, hq2, hf2, hm2, hx2, hy2, hc2, hvn2, hln2, hw2, ho2,
      hmv2, hfr2⟩ := ih hd1 hs1 hD1 hm1
    refine ⟨d2, D2, m2, ?_, hd2, hs2, hD2, hn2.trans hn1, ?_, hf2.trans hf1, hm2,
      fun s x h => hx2 s x (hx1 s x h), ?_, hc2.trans hc1, ?_, Nat.le_trans hln1 hln2, ?_, ?_, ?_, ?_⟩
    · simp only [incorporateViews, hrun1, hrun2, hvn1, List.length_cons, List.range'_succ]
    · intro q hq; rw [hq2 q hq, hq1 q hq]
    · intro s x h
      rcases hy2 s x h with h | h
      · exact hy1 s x h
      · exact Or.inr (Nat.le_trans hln1 h)
    · rw [hvn2, hvn1, List.length_cons]; omega
    · intro w hw; rw [hw2 w (by omega), hw1 w hw]
    · intro l w f hw; rw [ho2 l w f (by omega), ho1 l w f hw]
    · intro i sv' V' hi hV'
      cases i with
      | zero =>
        simp at hi
        subst hi
        rw [hV] at hV'
        cases hV'
        obtain ⟨W, h1, h2, h3, h4, h5⟩ := hmv1.view
        refine ⟨W, by rw [Nat.add_zero, hw2 _ (by omega)]; exact h1, h2, h3, h4, ?_⟩
        intro f sl hf
        obtain ⟨dl, h6, h7⟩ := h5 f sl hf
        exact ⟨dl, h6, hx2 _ _ h7⟩
      | succ i =>
        have := hmv2 i sv' V' (by simpa using hi) hV'
        rw [hvn1] at this
        have e : D.views.next + 1 + i = D.views.next + (i + 1) := by omega
        rwa [e] at this
    · intro f; rw [hfr2, hfr1]

theorem record_spec (ω : Oracle P) (hω : ω.Fair) (s : Settings) {d : Data P}
    (hd : d.ConsistentOff S) {r v : Nat} {R : Recon P} (hS : ¬ S r) (hR : d.recons.get r = some R)
    (hv : R.LiveView v) :
    ∃ d' R' x, d.recordViewConstraints ω s r v = some (d', x) ∧ d'.ConsistentOff S ∧
      R.recordViewConstraints ω s v = some (R', x) ∧
      d'.recons.get r = some R' ∧ d'.recons.next = d.recons.next ∧
      (∀ q, q ≠ r → d'.recons.get q = d.recons.get q) ∧ d'.frames = d.frames ∧
      d'.feeds = d.feeds ∧ R'.views = R.views ∧ R'.landmarks = R.landmarks ∧
      (x = false → R' = R) := by
  obtain ⟨R', x, hrun, hc, hvw, hlm, hx⟩ :=
    Recon.record_ok ω s (hd.recons r R hS hR) hv hω.order hω.sort
  refine ⟨{ d with recons := d.recons.modify r (fun _ => R') }, R', x, ?_, ?_, hrun, ?_, rfl, ?_,
    rfl, rfl, hvw, hlm, hx⟩
  · unfold recordViewConstraints
    simp only [hR, hrun]
  · exact replaceRecon hd hR hc (by intro v; rw [hvw])
  · show (d.recons.modify r _).get r = _
    rw [SlotMap.get_modify]; simp [hR]
  · intro q hq
    show (d.recons.modify r _).get q = _
    rw [SlotMap.get_modify]; simp [hq]

theorem constrainNew_spec (ω : Nat → Oracle P) (hω : ∀ i, (ω i).Fair) (s : Settings) {dst : Nat}
    (hS : ¬ S dst) (vs : List Nat) : ∀ {d : Data P} {D : Recon P}, d.ConsistentOff S →
    d.recons.get dst = some D → vs.Nodup → (∀ v, v ∈ vs → D.LiveView v) →
    ∃ d' D', constrainNew ω s dst vs d = some d' ∧ d'.ConsistentOff S ∧
      d'.recons.get dst = some D' ∧ d'.recons.next = d.recons.next ∧
      (∀ q, q ≠ dst → d'.recons.get q = d.recons.get q) ∧ d'.feeds = d.feeds ∧
      D'.views.next = D.views.next ∧ D'.landmarks.next = D.landmarks.next ∧
      (∀ w, D'.views.get w = D.views.get w ∨ (w ∈ vs ∧ D'.views.get w = none ∧
        ∃ Q : Recon P, Q.recordViewConstraints (ω w) s w = some (Q, false) ∧ Q.Consistent ∧
          Q.views.get w = D.views.get w ∧
          ∀ x, Q.views.get x = D.views.get x ∨ (x ∈ vs ∧ Q.views.get x = none))) ∧
      (∀ l w f, D'.Observes l w f ↔ D'.LiveView w ∧ D.Observes l w f) ∧
      (∀ f, (d'.frames.get f) = (d.frames.get f) ∨
        ∃ F v, d.frames.get f = some F ∧ F.view = some (dst, v) ∧ v ∈ vs ∧
          d'.frames.get f = some { F with view := none }) := by
  induction vs with
  | nil =>
    intro d D hd hD _ _
    refine ⟨d, D, rfl, hd, hD, rfl, fun _ _ => rfl, rfl, rfl, rfl, fun _ => Or.inl rfl, ?_,
      fun _ => Or.inl rfl⟩
    intro l w f
    refine ⟨fun h => ⟨?_, h⟩, fun h => h.2⟩
    obtain ⟨W, hW, _⟩ := ((hd.recons dst D hS hD).agree w f l).mpr h
    exact ⟨W, hW⟩
  | cons v vs ih =>
    intro d D hd hD hnd hlive
    have hnd' := List.nodup_cons.mp hnd
    obtain ⟨d1, D1, x, hrun1, hd1, hrec1, hD1, hn1, hq1, hf1, hk1, hv1, hl1, hx1⟩ :=
      record_spec (ω v) (hω v) s hd hS hD (hlive v (by simp))
    cases x with
    | true =>
      obtain ⟨d2, D2, hrun2, hd2, hD2, hn2, hq2, hk2, hvn2, hln2, hw2, ho2, hf2⟩ :=
        ih hd1 hD1 hnd'.2 (fun w hw => by
          unfold Recon.LiveView; rw [hv1]; exact hlive w (List.mem_cons_of_mem _ hw))
      refine ⟨d2, D2, ?_, hd2, hD2, hn2.trans hn1, ?_, hk2.trans hk1, by rw [hvn2, hv1],
        by rw [hln2, hl1], ?_, ?_, ?_⟩
      · simp only [constrainNew, hrun1, hrun2]
      · intro q hq; rw [hq2 q hq, hq1 q hq]
      · intro w
        rcases hw2 w with h | ⟨h, h'⟩
        · left; rw [h, hv1]
        · right
          obtain ⟨h1, Q, h2, h3, h4, h5⟩ := h'
          refine ⟨List.mem_cons_of_mem _ h, h1, Q, h2, h3, by rw [h4, hv1], ?_⟩
          intro x
          rcases h5 x with h | h
          · left; rw [h, hv1]
          · right; exact ⟨List.mem_cons_of_mem _ h.1, h.2⟩
      · intro l w f
        rw [ho2 l w f]
        unfold Recon.Observes
        rw [hl1]
      · intro f
        rw [← hf1]
        rcases hf2 f with h | ⟨F, u, h⟩
        · exact Or.inl h
        · exact Or.inr ⟨F, u, h.1, h.2.1, List.mem_cons_of_mem _ h.2.2.1, h.2.2.2⟩
    | false =>
      have hDD := hx1 rfl
      subst hDD
      obtain ⟨V, hV⟩ := hlive v (by simp)
      obtain ⟨d3, D3, F, hrun3, hd3, hrr, hn3, hD3, hq3, hF, hFn, hf3, hk3⟩ :=
        removeView_spec hd1 hS hD1 hV
      obtain ⟨D3', hrr', hc3, hvn3, hln3, hgv, hgw, hO, _⟩ :=
        Recon.removeView_spec (hd1.recons dst D1 hS hD1) hV
      rw [hrr] at hrr'
      cases hrr'
      obtain ⟨d2, D2, hrun2, hd2, hD2, hn2, hq2, hk2, hvn2, hln2, hw2, ho2, hf2⟩ :=
        ih hd3 hD3 hnd'.2 (fun w hw => by
          have hne : w ≠ v := fun h => hnd'.1 (h ▸ hw)
          unfold Recon.LiveView; rw [hgw w hne]; exact hlive w (List.mem_cons_of_mem _ hw))
      refine ⟨d2, D2, ?_, hd2, hD2, (hn2.trans hn3).trans hn1, ?_, (hk2.trans hk3).trans hk1,
        by rw [hvn2, hvn3], by rw [hln2, hln3], ?_, ?_, ?_⟩
      · simp only [constrainNew, hrun1, hrun3, hrun2]
      · intro q hq; rw [hq2 q hq, hq3 q hq, hq1 q hq]
      · intro w
        by_cases hwv : w = v
        · subst hwv
          right
          refine ⟨by simp, ?_, D1, hrec1, hd1.recons dst D1 hS hD1, rfl, fun _ => Or.inl rfl⟩
          rcases hw2 w with h | ⟨h, h', _⟩
          · rw [h, hgv]
          · exact h'
        · rcases hw2 w with h | ⟨h, h'⟩
          · left; rw [h, hgw w hwv]
          · right
            obtain ⟨h1, Q, h2, h3, h4, h5⟩ := h'
            refine ⟨List.mem_cons_of_mem _ h, h1, Q, h2, h3, by rw [h4, hgw w hwv], ?_⟩
            intro x
            rcases h5 x with h | h
            · by_cases hxv : x = v
              · subst hxv
                right; exact ⟨by simp, by rw [h, hgv]⟩
              · left; rw [h, hgw x hxv]
            · right; exact ⟨List.mem_cons_of_mem _ h.1, h.2⟩
      · intro l w f
        rw [ho2 l w f, hO l w f]
        constructor
        · rintro ⟨h1, _, h3⟩; exact ⟨h1, h3⟩
        · rintro ⟨h1, h3⟩
          refine ⟨h1, ?_, h3⟩
          rintro rfl
          obtain ⟨W, hW⟩ := h1
          rcases hw2 w with h | ⟨h, h'⟩
          · rw [h, hgv] at hW; cases hW
          · rw [h'.1] at hW; cases hW
      · intro f
        obtain ⟨F0, hF0, hFv0, _⟩ := hd1.viewFrame dst D1 v V hS hD1 hV
        rw [hF] at hF0
        cases hF0
        by_cases hfv : f = V.frame
        · subst hfv
          rw [hf1] at hF
          right
          refine ⟨F, v, hF, hFv0, by simp, ?_⟩
          rcases hf2 V.frame with h | ⟨G, u, h⟩
          · rw [h, hFn]
          · rw [hFn] at h
            have := h.1
            cases this
            exact absurd h.2.1 (by simp)
        · rcases hf2 f with h | ⟨G, u, h⟩
          · left; rw [h, hf3 f hfv, hf1]
          · right
            rw [hf3 f hfv, hf1] at h
            exact ⟨G, u, h.1, h.2.1, List.mem_cons_of_mem _ h.2.2.1, h.2.2.2⟩

theorem incorporate_spec (ω : Nat → Oracle P) (hω : ∀ i, (ω i).Fair) (s : Settings) (tr : P → P)
    {src dst : Nat} {Sr D : Recon P} (hne : src ≠ dst) {d : Data P} {m : FMap Nat}
    (hd : d.ConsistentOff (fun q => q = src)) (hs : SrcOk d src Sr Sr.views.keys)
    (hD : d.recons.get dst = some D) (hm : GoodMap D m) :
    ∃ d' D' m', incorporateReconstruction ω s tr d src dst m = some d' ∧
      d'.Consistent ∧ d'.recons.get src = none ∧ d'.recons.get dst = some D' ∧
      d'.recons.next = d.recons.next ∧
      (∀ q, q ≠ dst → q ≠ src → d'.recons.get q = d.recons.get q) ∧ d'.feeds = d.feeds ∧
      (∀ s s' x, m'.get s = some x → m'.get s' = some x → s = s') ∧ Extends m m' ∧
      (∀ s x, m'.get s = some x → m.get s = some x ∨ D.landmarks.next ≤ x) ∧
      D'.views.next = D.views.next + Sr.views.keys.length ∧
      D.landmarks.next ≤ D'.landmarks.next ∧
      (∀ w, w < D.views.next → D'.views.get w = D.views.get w) ∧
      (∀ (i sv : Nat) V, Sr.views.keys[i]? = some sv → Sr.views.get sv = some V →
        Moved tr m' D' (D.views.next + i) V ∨
        (D'.views.get (D.views.next + i) = none ∧
          (∃ F, d'.frames.get V.frame = some F ∧ F.view = none) ∧
          ∃ Q : Recon P, Q.recordViewConstraints (ω (D.views.next + i)) s (D.views.next + i) =
            some (Q, false) ∧ Q.Consistent ∧ Moved tr m' Q (D.views.next + i) V ∧
            ∀ w, w < D.views.next → Q.views.get w = D.views.get w)) ∧
      (∀ f, (d'.frames.get f).map (fun F => (F.feed, F.feedFrame, F.nfeat)) =
        (d.frames.get f).map (fun F => (F.feed, F.feedFrame, F.nfeat))) := by
  obtain ⟨d1, D1, m1, hrun1, hd1, hs1, hD1, hn1, hq1, hk1, hm1, hx1, hy1, hc1, hvn1, hln1, hw1, ho1,
    hmv1, hfr1⟩ := incorporateViews_spec tr hne Sr.views.keys hd hs hD hm
  have hlive : ∀ v, v ∈ List.range' D.views.next Sr.views.keys.length → D1.LiveView v := by
    intro v hv
    rw [List.mem_range'] at hv
    obtain ⟨i, hi, rfl⟩ := hv
    obtain ⟨V, _, hV, _⟩ := hs.view Sr.views.keys[i] (List.getElem_mem hi)
    obtain ⟨W, hW, _⟩ := (hmv1 i _ V (List.getElem?_eq_getElem hi) hV).view
    exact ⟨W, by simpa using hW⟩
  obtain ⟨d2, D2, hrun2, hd2, hD2, hn2, hq2, hk2, hvn2, hln2, hw2, ho2, hf2⟩ :=
    constrainNew_spec ω hω s (S := fun q => q = src) (Ne.symm hne)
      (List.range' D.views.next Sr.views.keys.length) hd1 hD1 List.nodup_range' hlive
  have hfr2 : ∀ f, (d2.frames.get f).map (fun F => (F.feed, F.feedFrame, F.nfeat)) =
      (d1.frames.get f).map (fun F => (F.feed, F.feedFrame, F.nfeat)) := by
    intro f
    rcases hf2 f with h | ⟨F, v, h1, _, _, h4⟩
    · rw [h]
    · rw [h1, h4]; rfl
  have hge : ∀ q, (d2.recons.erase src).get q = if q = src then none else d2.recons.get q :=
    fun q => SlotMap.get_erase _ _ _
  have hnosrc : ∀ f F v, d2.frames.get f = some F → F.view ≠ some (src, v) := by
    intro f F v hF hFv
    rcases hf2 f with h | ⟨F', v', h1, h2, _, h4⟩
    · rw [h] at hF
      have := (hs1.frames f F v hF hFv).1
      simp at this
    · rw [h4] at hF
      cases hF
      simp at hFv
  refine ⟨{ d2 with recons := d2.recons.erase src }, D2, m1, ?_, ?_, ?_, ?_, hn2.trans hn1, ?_,
    hk2.trans hk1, hm1.inj, hx1, hy1, by rw [hvn2, hvn1], by rw [hln2]; exact hln1, ?_, ?_, ?_⟩
  · unfold incorporateReconstruction
    simp only [hs.get, hrun1, hrun2]
  · refine ⟨hd2.feedsWF, hd2.framesWF, SlotMap.wf_erase hd2.reconsWF _, ?_, ?_, ?_,
      hd2.feedFrames, hd2.frameFeed⟩
    · intro q Q hQ
      rw [hge] at hQ
      split at hQ
      · cases hQ
      · rename_i h; exact hd2.recons q Q h hQ
    · intro q Q v V hQ hV
      rw [hge] at hQ
      split at hQ
      · cases hQ
      · rename_i h; exact hd2.viewFrame q Q v V h hQ hV
    · intro f F q v hF hFv
      have hqs : q ≠ src := by
        rintro rfl
        exact hnosrc f F v hF hFv
      obtain ⟨Q, V, h1, h2, h3⟩ := hd2.frameView f F q v hqs hF hFv
      exact ⟨Q, V, by rw [hge, if_neg hqs]; exact h1, h2, h3⟩
  · rw [hge, if_pos rfl]
  · rw [hge, if_neg (Ne.symm hne)]; exact hD2
  · intro q h1 h2; rw [hge, if_neg h2, hq2 q h1, hq1 q h1]
  · intro w hw
    rcases hw2 w with h | ⟨h, _⟩
    · rw [h, hw1 w hw]
    · rw [List.mem_range'] at h
      obtain ⟨i, _, rfl⟩ := h
      omega
  · intro i sv V hi hV
    obtain ⟨W, g1, g2, g3, g4, g5⟩ := (hmv1 i sv V hi hV).view
    rcases hw2 (D.views.next + i) with h | ⟨_, h, hQ⟩
    · left
      exact ⟨W, by rw [h]; exact g1, g2, g3, g4, g5⟩
    · right
      obtain ⟨Q, q1, q2, q3, q4⟩ := hQ
      have hold : ∀ w, w < D.views.next → Q.views.get w = D.views.get w := by
        intro w hw
        rcases q4 w with h | ⟨h, _⟩
        · rw [h, hw1 w hw]
        · rw [List.mem_range'] at h
          obtain ⟨i, _, rfl⟩ := h
          omega
      refine ⟨h, ?_, Q, q1, q2, ⟨W, by rw [q3]; exact g1, g2, g3, g4, g5⟩, hold⟩
      obtain ⟨F, hF, hFv, _⟩ := hd1.viewFrame dst D1 _ W (Ne.symm hne) hD1 g1
      rw [g2] at hF
      rcases hf2 V.frame with h' | ⟨F', v', h1, h2, _, h4⟩
      · exfalso
        rw [← h'] at hF
        obtain ⟨Q, V', k1, k2, _⟩ := hd2.frameView _ F dst _ (Ne.symm hne) hF hFv
        rw [hD2] at k1
        cases k1
        rw [h] at k2
        cases k2
      · exact ⟨_, h4, rfl⟩
  · intro f
    show (d2.frames.get f).map _ = _
    rw [hfr2, hfr1]

/-- A reconstruction of consistent data is a valid source. -/
theorem srcOk_of_consistent {d : Data P} (hd : d.Consistent) {src : Nat} {Sr : Recon P}
    (hS : d.recons.get src = some Sr) : SrcOk d src Sr Sr.views.keys := by
  have hc := hd.recons src Sr hS
  refine ⟨hc.viewsWF.nodup, hS, ?_, ?_⟩
  · intro v hv
    obtain ⟨V, hV⟩ := (SlotMap.mem_keys_iff _ _).mp hv
    obtain ⟨F, h1, h2, h3⟩ := hd.viewFrame src Sr v V hS hV
    exact ⟨V, F, hV, Recon.view_landmarks_nodup hc hV, h1, h2, h3.symm⟩
  · intro f F v hF hFv
    obtain ⟨R, V, h1, h2, h3⟩ := hd.frameView f F src v hF hFv
    rw [hS] at h1
    cases h1
    exact ⟨(SlotMap.mem_keys_iff _ _).mpr ⟨V, h2⟩, V, h2, h3⟩

/-- The landmark map built from the matches. -/
theorem landmarkMap_spec {lms : List Nat} (hnd : lms.Nodup) (es : List (Nat × List Nat)) :
    (es.map Prod.fst).Nodup → (∀ e, e ∈ es → e.1 < lms.length ∧ e.2 ≠ []) →
    ∃ m, landmarkMap lms es = some m ∧
      ∀ s x, m.get s = some x ↔
        ∃ (f : Nat) (ls : List Nat), (f, ls) ∈ es ∧ lms[f]? = some s ∧ ls.head? = some x := by
  induction es with
  | nil => intro _ _; exact ⟨FMap.empty, rfl, by intro s x; simp [FMap.empty, FMap.get]⟩
  | cons e es ih =>
    obtain ⟨f, ls⟩ := e
    intro hk hv
    simp only [List.map_cons] at hk
    have hk' := List.nodup_cons.mp hk
    obtain ⟨m, hm, hget⟩ := ih hk'.2 (fun e he => hv e (List.mem_cons_of_mem _ he))
    obtain ⟨hf, hls⟩ := hv (f, ls) (by simp)
    simp only at hf hls
    cases ls with
    | nil => exact absurd rfl hls
    | cons y ys =>
      have hgf : lms[f]? = some lms[f] := List.getElem?_eq_getElem hf
      have huniq : ∀ g : Nat, lms[g]? = some lms[f] → g = f := by
        intro g hg
        obtain ⟨hgl, hge⟩ := List.getElem?_eq_some_iff.mp hg
        unfold List.Nodup at hnd
        rw [List.pairwise_iff_getElem] at hnd
        rcases Nat.lt_trichotomy g f with h | h | h
        · exact absurd hge (hnd g f hgl hf h)
        · exact h
        · exact absurd hge.symm (hnd f g hf hgl h)
      have hnone : m.get lms[f] = none := by
        cases hc : m.get lms[f] with
        | none => rfl
        | some x =>
          obtain ⟨g, ks, h1, h2, _⟩ := (hget _ _).mp hc
          exfalso
          apply hk'.1
          rw [huniq g h2] at h1
          exact List.mem_map.mpr ⟨_, h1, rfl⟩
      refine ⟨m.put lms[f] y, ?_, ?_⟩
      · simp only [landmarkMap, hgf, hm, List.head?_cons, hnone]
        rfl
      · intro s x
        rw [FMap.get_put]
        by_cases h : s = lms[f]
        · subst h
          simp only [if_true]
          constructor
          · intro h
            cases h
            exact ⟨f, y :: ys, by simp, hgf, rfl⟩
          · rintro ⟨g, ks, h1, h2, h3⟩
            have := huniq g h2
            subst this
            rcases List.mem_cons.mp h1 with h | h
            · cases h
              simpa using h3
            · exact absurd (List.mem_map.mpr ⟨_, h, rfl⟩) hk'.1
        · simp only [h, if_false]
          rw [hget]
          constructor
          · rintro ⟨g, ks, h1, h2⟩
            exact ⟨g, ks, List.mem_cons_of_mem _ h1, h2⟩
          · rintro ⟨g, ks, h1, h2, h3⟩
            rcases List.mem_cons.mp h1 with h' | h'
            · cases h'
              rw [hgf] at h2
              exact absurd (Option.some.inj h2).symm h
            · exact ⟨g, ks, h', h2, h3⟩

end Data
end Verif.Sfm
