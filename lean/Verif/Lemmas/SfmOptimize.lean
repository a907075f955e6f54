import Verif.Lemmas.SfmTryMerge

/-! Helper lemmas: filtering and graph optimisation on the data. -/

namespace Verif.Sfm
variable {P : Type}

namespace Data

variable {S : Nat → Prop}

theorem get_replace {d : Data P} {r : Nat} {R R' : Recon P} (hR : d.recons.get r = some R)
    (q : Nat) : (d.recons.modify r (fun _ => R')).get q =
      if q = r then some R' else d.recons.get q := by
  rw [SlotMap.get_modify]
  by_cases h : q = r
  · subst h; simp [hR]
  · simp [h]

theorem replace_shape {d : Data P} (hd : d.Consistent) {r : Nat} {R R' : Recon P}
    (hR : d.recons.get r = some R) (hR' : R'.Consistent)
    (hv : ∀ v, (R'.views.get v).map (fun V => (V.frame, V.pose, V.landmarks.length)) =
      (R.views.get v).map (fun V => (V.frame, V.pose, V.landmarks.length))) :
    ({ d with recons := d.recons.modify r (fun _ => R') } : Data P).Consistent := by
  apply ConsistentOff.on
  refine replaceRecon (hd.off _) hR hR' ?_
  intro w
  have := hv w
  cases h1 : R'.views.get w <;> cases h2 : R.views.get w <;> simp_all

theorem filterObservations_ok (ω : Oracle P) (s : Settings) {d : Data P} (hd : d.Consistent)
    {r : Nat} {R : Recon P} (hR : d.recons.get r = some R) :
    ∃ d' b R', filterObservations ω s d r = some (d', b) ∧ d'.Consistent ∧
      d'.recons.next = d.recons.next ∧ d'.feeds = d.feeds ∧
      (∀ q, q ≠ r → d'.recons.get q = d.recons.get q) ∧ Recon.Refines R R' ∧
      (b = true → d'.recons.get r = some R' ∧ s.minRobust ≤ R'.robustCount ω ∧
        d'.frames = d.frames) ∧
      (b = false → d'.recons.get r = none ∧ R'.robustCount ω < s.minRobust) := by
  obtain ⟨R', hrun, href⟩ := Recon.filterLandmarks_ok ω R.landmarks.keys (hd.recons r R hR)
    (fun l hl => (SlotMap.mem_keys_iff _ _).mp hl)
  have hd1 := replace_shape hd hR href.cons href.views
  have hg := fun q => get_replace (R' := R') hR q
  unfold filterObservations
  simp only [hR, hrun]
  by_cases h : R'.robustCount ω < s.minRobust
  · rw [if_pos h]
    obtain ⟨d2, hrun2, hc2, hn2, hr2, hq2, _, hk2⟩ :=
      removeReconstruction_spec hd1 (r := r) (by rw [hg, if_pos rfl])
    refine ⟨d2, false, R', by rw [hrun2], hc2, hn2, hk2, ?_, href, by simp, fun _ => ⟨hr2, h⟩⟩
    intro q hq
    rw [hq2 q hq]
    exact (hg q).trans (if_neg hq)
  · rw [if_neg h]
    refine ⟨_, true, R', rfl, hd1, rfl, rfl, ?_, href, fun _ => ⟨?_, by omega, rfl⟩, by simp⟩
    · intro q hq; exact (hg q).trans (if_neg hq)
    · exact (hg r).trans (if_pos rfl)

theorem filterLandmarks_ok (ω : Oracle P) {d : Data P} (hd : d.Consistent)
    {r : Nat} {R : Recon P} (hR : d.recons.get r = some R) :
    ∃ d' R', filterLandmarks ω d r = some d' ∧ d'.Consistent ∧
      d'.recons.next = d.recons.next ∧ d'.feeds = d.feeds ∧ d'.frames = d.frames ∧
      (∀ q, q ≠ r → d'.recons.get q = d.recons.get q) ∧
      d'.recons.get r = some R' ∧ Recon.Refines R R' := by
  obtain ⟨R', hrun, href⟩ := Recon.splitNonRobust_ok ω R.landmarks.keys (hd.recons r R hR)
    (fun l hl => (SlotMap.mem_keys_iff _ _).mp hl)
  have hg := fun q => get_replace (R' := R') hR q
  refine ⟨_, R', ?_, replace_shape hd hR href.cons href.views, rfl, rfl, rfl,
    fun q hq => (hg q).trans (if_neg hq), (hg r).trans (if_pos rfl), href⟩
  unfold filterLandmarks onRecon
  simp only [hR, hrun]

theorem mergeDedup_ok (loss : Recon P → Nat → Nat → Nat) {d : Data P} (hd : d.Consistent)
    {r a b : Nat} {R : Recon P} (hR : d.recons.get r = some R) (ha : R.LiveLandmark a)
    (hb : R.LiveLandmark b) :
    ∃ d' x R', mergeDedup loss d r a b = some (d', x) ∧ d'.Consistent ∧
      R.mergeDedup loss a b = some (R', x) ∧
      d'.recons.next = d.recons.next ∧ d'.feeds = d.feeds ∧ d'.frames = d.frames ∧
      (∀ q, q ≠ r → d'.recons.get q = d.recons.get q) ∧ d'.recons.get r = some R' ∧
      R'.views.next = R.views.next ∧ R.landmarks.next ≤ R'.landmarks.next ∧
      R'.constraints = R.constraints := by
  obtain ⟨A, hA⟩ := ha
  obtain ⟨B, hB⟩ := hb
  have hc := hd.recons r R hR
  have key : ∃ R' x, R.mergeDedup loss a b = some (R', x) ∧ R'.Consistent ∧
      R'.constraints = R.constraints ∧ R'.views.next = R.views.next ∧
      R.landmarks.next ≤ R'.landmarks.next ∧
      (∀ v, (R'.views.get v).map (fun V => (V.frame, V.pose, V.landmarks.length)) =
        (R.views.get v).map (fun V => (V.frame, V.pose, V.landmarks.length))) := by
    by_cases hab : a = b
    · subst hab
      obtain ⟨R', h1, h2⟩ := Recon.mergeDedup_self loss hc hA
      exact ⟨R', none, h1, h2.cons, h2.constraints, h2.vnext, h2.lnext, h2.views⟩
    · obtain ⟨R', x, h1, h2, h3, h4, h5, h6, _⟩ := Recon.mergeDedup_spec loss hc hab hA hB
      exact ⟨R', x, h1, h2, h3, h4, h5, h6⟩
  obtain ⟨R', x, h1, h2, h3, h4, h5, h6⟩ := key
  have hg := fun q => get_replace (R' := R') hR q
  refine ⟨_, x, R', ?_, replace_shape hd hR h2 h6, h1, rfl, rfl, rfl,
    fun q hq => (hg q).trans (if_neg hq), (hg r).trans (if_pos rfl), h4, h5, h3⟩
  unfold mergeDedup
  simp only [hR, h1]

/-- `incorporate_frame` on consistent data. -/
theorem incorporateFrame_spec (ω : Oracle P) (hω : ω.Fair) (s : Settings) {d : Data P}
    (hd : d.Consistent) {r frame : Nat} {R : Recon P} {F : Frame}
    (hR : d.recons.get r = some R) (hF : d.frames.get frame = some F) (hFv : F.view = none)
    (pose : P) {ex : Nat → Option (List Nat)} (hex : R.ValidMatches F.nfeat ex) :
    ∃ d' R' x, incorporateFrame ω s d r frame pose ex = some (d', x) ∧ d'.Consistent ∧
      d'.recons.next = d.recons.next ∧ d'.feeds = d.feeds ∧
      (∀ q, q ≠ r → d'.recons.get q = d.recons.get q) ∧ d'.recons.get r = some R' ∧
      (∀ f, f ≠ frame → d'.frames.get f = d.frames.get f) ∧
      R'.views.next = R.views.next + 1 ∧ R.landmarks.next ≤ R'.landmarks.next ∧
      (∀ w, w ≠ R.views.next →
        (R'.views.get w).map (fun W => (W.frame, W.pose, W.landmarks.length)) =
        (R.views.get w).map (fun W => (W.frame, W.pose, W.landmarks.length))) ∧
      ((x = some R.views.next ∧ d'.frames.get frame = some { F with view := some (r, R.views.next) } ∧
          ∃ W, R'.views.get R.views.next = some W ∧ W.frame = frame ∧ W.pose = pose) ∨
       (x = none ∧ d'.frames.get frame = some F ∧ R'.views.get R.views.next = none)) := by
  have hoff := hd.off (fun _ => False)
  obtain ⟨d1, R1, lms, hrun1, hd1, hav, hn1, hR1, hq1, hdv, hf1, hg1, hk1⟩ :=
    addView_spec hoff id hR hF (by intro q v h; rw [hFv] at h; cases h) pose hex
  obtain ⟨R1', lms', hav', hc1, hcon1, hvn1, hln1, hdv', hlen, hnews, hfr1, hass1⟩ :=
    Recon.addView_spec (hd.recons r R hR) frame pose hex
  rw [hav] at hav'
  cases hav'
  obtain ⟨d2, R2, x, hrun2, hd2, _, hR2, hn2, hq2, hf2, hk2, hv2, hl2, hx2⟩ :=
    record_spec ω hω s hd1 id hR1 ⟨_, hdv⟩
  cases x with
  | true =>
    refine ⟨d2, R2, some R.views.next, ?_, hd2.on, hn2.trans hn1, hk2.trans hk1, ?_, hR2, ?_,
      by rw [hv2, hvn1], by rw [hl2]; exact hln1, ?_, Or.inl ⟨rfl, ?_, ?_⟩⟩
    · unfold incorporateFrame
      simp only [hR, hrun1, hrun2]
    · intro q hq; rw [hq2 q hq, hq1 q hq]
    · intro f hf; rw [hf2, hg1 f hf]
    · intro w hw; rw [hv2]; exact hfr1 w hw
    · rw [hf2]; exact hf1
    · exact ⟨_, by rw [hv2]; exact hdv, rfl, rfl⟩
  | false =>
    have hDD := hx2 rfl
    subst hDD
    obtain ⟨d3, R3, F3, hrun3, hd3, hrr, hn3, hR3, hq3, hF3, hFn3, hf3, hk3⟩ :=
      removeView_spec hd2 id hR2 (by rw [hdv])
    obtain ⟨R3', hrr', hc3, hvn3, hln3, hgv, hgw, hO, _⟩ :=
      Recon.removeView_spec hc1 hdv
    rw [hrr] at hrr'
    cases hrr'
    simp only at hF3 hFn3 hf3
    refine ⟨d3, R3, none, ?_, hd3.on, (hn3.trans hn2).trans hn1, (hk3.trans hk2).trans hk1, ?_, hR3,
      ?_, by rw [hvn3, hvn1], by rw [hln3]; exact hln1, ?_, Or.inr ⟨rfl, ?_, hgv⟩⟩
    · unfold incorporateFrame
      simp only [hR, hrun1, hrun2, hrun3]
    · intro q hq; rw [hq3 q hq, hq2 q hq, hq1 q hq]
    · intro f hf; rw [hf3 f hf, hf2, hg1 f hf]
    · intro w hw; rw [hgw w hw]; exact hfr1 w hw
    · rw [hFn3]
      rw [hf2, hf1] at hF3
      cases hF3
      simp only [← hFv]

/-! ## Bundle adjustment -/

theorem setPose_consistent {R : Recon P} (hR : R.Consistent) (v : Nat) (p : P) :
    ({ R with views := R.views.modify v (fun V => { V with pose := p }) } : Recon P).Consistent := by
  have hg : ∀ w, (R.views.modify v (fun V => { V with pose := p })).get w =
      (R.views.get w).map (fun V => if w = v then { V with pose := p } else V) := by
    intro w
    rw [SlotMap.get_modify]
    by_cases h : w = v
    · subst h; simp
    · simp [h]
  have hlive : ∀ w, R.LiveView w → ({ R with views := R.views.modify v (fun V => { V with pose := p }) } : Recon P).LiveView w := by
    rintro w ⟨V, hV⟩
    exact ⟨_, by show (R.views.modify v _).get w = _; rw [hg, hV]; rfl⟩
  refine ⟨SlotMap.wf_modify hR.viewsWF _ _, hR.landmarksWF, hR.constraintsWF, hR.obsWF, hR.nonempty,
    ?_, ?_⟩
  · intro w f l
    show _ ↔ R.Observes l w f
    rw [← hR.agree]
    constructor
    · rintro ⟨V, hV, hl⟩
      replace hV : (R.views.modify v (fun V => { V with pose := p })).get w = some V := hV
      rw [hg] at hV
      cases hW : R.views.get w with
      | none => rw [hW] at hV; cases hV
      | some W =>
        rw [hW] at hV
        simp only [Option.map_some, Option.some.injEq] at hV
        refine ⟨W, hW, ?_⟩
        subst hV
        split at hl <;> exact hl
    · rintro ⟨W, hW, hl⟩
      refine ⟨_, by show (R.views.modify v _).get w = _; rw [hg, hW]; rfl, ?_⟩
      split <;> exact hl
  · intro k c hk
    obtain ⟨h0, h1, h2, h3⟩ := hR.constraintsLive k c hk
    exact ⟨hlive _ h0, hlive _ h1, hlive _ h2, h3⟩

/-- The poses given by an update list (the last entry for a view wins). -/
def newPose (us : List (Nat × P)) (w : Nat) (old : P) : P :=
  us.foldl (fun p e => if e.1 = w then e.2 else p) old

theorem updatePoses_ok (r : Nat) (us : List (Nat × P)) : ∀ {d : Data P} {R : Recon P},
    d.Consistent → d.recons.get r = some R → (∀ e, e ∈ us → R.LiveView e.1) →
    ∃ d' R', updatePoses r us d = some d' ∧ d'.Consistent ∧ d'.recons.get r = some R' ∧
      d'.recons.next = d.recons.next ∧ d'.feeds = d.feeds ∧ d'.frames = d.frames ∧
      (∀ q, q ≠ r → d'.recons.get q = d.recons.get q) ∧
      R'.landmarks = R.landmarks ∧ R'.constraints = R.constraints ∧
      R'.views.next = R.views.next ∧
      (∀ w, R'.views.get w = (R.views.get w).map (fun V => { V with pose := newPose us w V.pose })) := by
  induction us with
  | nil =>
    intro d R hd hR _
    exact ⟨d, R, rfl, hd, hR, rfl, rfl, rfl, fun _ _ => rfl, rfl, rfl, rfl, fun w => by
      cases R.views.get w <;> rfl⟩
  | cons e us ih =>
    obtain ⟨v, p⟩ := e
    intro d R hd hR hlive
    obtain ⟨V, hV⟩ := hlive (v, p) (by simp)
    simp only at hV
    let R1 : Recon P := { R with views := R.views.modify v (fun V => { V with pose := p }) }
    have hg1 : ∀ w, R1.views.get w =
        (R.views.get w).map (fun V => if w = v then { V with pose := p } else V) := by
      intro w
      show (R.views.modify v _).get w = _
      rw [SlotMap.get_modify]
      by_cases h : w = v
      · subst h; simp
      · simp [h]
    have hd1 : ({ d with recons := d.recons.modify r (fun _ => R1) } : Data P).Consistent := by
      apply ConsistentOff.on
      refine replaceRecon (hd.off _) hR (setPose_consistent (hd.recons r R hR) v p) ?_
      intro w
      show (R1.views.get w).map _ = _
      rw [hg1]
      cases R.views.get w with
      | none => rfl
      | some W => simp only [Option.map_some]; split <;> rfl
    have hg := fun q => get_replace (R' := R1) hR q
    obtain ⟨d2, R2, hrun, hc, hR2, hn, hk, hf, hq, hl, hco, hvn, hv⟩ := ih hd1
      ((hg r).trans (if_pos rfl)) (by
        intro e he
        obtain ⟨W, hW⟩ := hlive e (List.mem_cons_of_mem _ he)
        exact ⟨_, by rw [hg1, hW]; rfl⟩)
    refine ⟨d2, R2, ?_, hc, hR2, hn, hk, hf, ?_, hl, hco, hvn, ?_⟩
    · unfold updatePoses onRecon
      simp only [hR, hV]
      exact hrun
    · intro q hne
      rw [hq q hne]
      exact (hg q).trans (if_neg hne)
    · intro w
      rw [hv w, hg1]
      cases R.views.get w with
      | none => rfl
      | some W =>
        simp only [Option.map_some, newPose, List.foldl_cons, Option.some.injEq]
        by_cases h : w = v
        · subst h; simp
        · have h' : ¬ v = w := fun e => h e.symm
          simp [h, h']

theorem removeViews_ok (r : Nat) (vs : List Nat) : ∀ {d : Data P} {R : Recon P},
    d.Consistent → d.recons.get r = some R → vs.Nodup → (∀ v, v ∈ vs → R.LiveView v) →
    ∃ d' R', removeViews r vs d = some d' ∧ d'.Consistent ∧ d'.recons.get r = some R' ∧
      d'.recons.next = d.recons.next ∧ d'.feeds = d.feeds ∧
      (∀ q, q ≠ r → d'.recons.get q = d.recons.get q) ∧
      R'.views.next = R.views.next ∧ R'.landmarks.next = R.landmarks.next ∧
      (∀ w, R'.views.get w = if w ∈ vs then none else R.views.get w) ∧
      (∀ l w f, R'.Observes l w f ↔ w ∉ vs ∧ R.Observes l w f) ∧
      (∀ e, e ∈ R'.constraints.map.entries ↔
        e ∈ R.constraints.map.entries ∧ ∀ v, v ∈ vs → e.2.mentions v = false) := by
  induction vs with
  | nil =>
    intro d R hd hR _ _
    exact ⟨d, R, rfl, hd, hR, rfl, rfl, fun _ _ => rfl, rfl, rfl, fun _ => by simp,
      fun _ _ _ => by simp, fun _ => by simp⟩
  | cons v vs ih =>
    intro d R hd hR hnd hlive
    have hnd' := List.nodup_cons.mp hnd
    obtain ⟨V, hV⟩ := hlive v (by simp)
    obtain ⟨d1, R1, F, hrun1, hd1, hrr, hn1, hR1, hq1, _, _, _, hk1⟩ :=
      removeView_spec (hd.off (fun _ => False)) id hR hV
    obtain ⟨R1', hrr', hc1, hvn1, hln1, hgv, hgw, hO, hC⟩ :=
      Recon.removeView_spec (hd.recons r R hR) hV
    rw [hrr] at hrr'
    cases hrr'
    obtain ⟨d2, R2, hrun2, hc2, hR2, hn2, hk2, hq2, hvn2, hln2, hw2, ho2, hC2⟩ :=
      ih hd1.on hR1 hnd'.2 (by
        intro w hw
        have hne : w ≠ v := fun h => hnd'.1 (h ▸ hw)
        unfold Recon.LiveView
        rw [hgw w hne]
        exact hlive w (List.mem_cons_of_mem _ hw))
    refine ⟨d2, R2, ?_, hc2, hR2, hn2.trans hn1, hk2.trans hk1, ?_, hvn2.trans hvn1,
      hln2.trans hln1, ?_, ?_, ?_⟩
    · simp only [removeViews, hrun1, hrun2]
    · intro q hq; rw [hq2 q hq, hq1 q hq]
    · intro w
      rw [hw2]
      by_cases h : w = v
      · subst h; simp [hgv]
      · simp only [List.mem_cons, h, false_or]; rw [hgw w h]
    · intro l w f
      rw [ho2, hO]
      simp only [List.mem_cons, not_or]
      constructor
      · rintro ⟨h1, h2, h3⟩; exact ⟨⟨h2, h1⟩, h3⟩
      · rintro ⟨⟨h1, h2⟩, h3⟩; exact ⟨h2, h1, h3⟩
    · intro e
      rw [hC2, hC]
      simp only [List.mem_cons]
      constructor
      · rintro ⟨⟨h1, h2⟩, h3⟩
        refine ⟨h1, ?_⟩
        rintro u (rfl | hu)
        · exact h2
        · exact h3 u hu
      · rintro ⟨h1, h2⟩
        exact ⟨⟨h1, h2 v (Or.inl rfl)⟩, fun u hu => h2 u (Or.inr hu)⟩

theorem constrainViews_ok (ω : Oracle P) {R : Recon P} {edges : List (Nat × Nat × P)}
    (vs : List Nat) : ∀ {us rs}, R.constrainViews ω edges vs = some (us, rs) →
    (∀ e, e ∈ us → e.1 ∈ vs) ∧ rs.Sublist vs ∧
      (∀ v, v ∈ vs → v ∈ us.map Prod.fst ∨ v ∈ rs) ∧
      (∀ v, v ∈ rs → R.constrainView ω edges v = some none) ∧
      us.length + rs.length = vs.length := by
  induction vs with
  | nil => intro us rs h; cases h; simp
  | cons v vs ih =>
    intro us rs h
    unfold Recon.constrainViews at h
    cases hv : R.constrainView ω edges v with
    | none => simp [hv] at h
    | some o =>
      cases hr : R.constrainViews ω edges vs with
      | none => cases o <;> simp [hv, hr] at h
      | some ur =>
        obtain ⟨us', rs'⟩ := ur
        obtain ⟨h1, h2, h3, h4, h5⟩ := ih hr
        cases o with
        | some p =>
          simp only [hv, hr, Option.some.injEq, Prod.mk.injEq] at h
          obtain ⟨rfl, rfl⟩ := h
          refine ⟨?_, h2.cons _, ?_, h4, by simp; omega⟩
          · intro e he
            rcases List.mem_cons.mp he with rfl | he
            · simp
            · exact List.mem_cons_of_mem _ (h1 e he)
          · intro w hw
            rcases List.mem_cons.mp hw with rfl | hw
            · left; simp
            · rcases h3 w hw with h | h
              · left; simp only [List.map_cons, List.mem_cons]; exact Or.inr h
              · right; exact h
        | none =>
          simp only [hv, hr, Option.some.injEq, Prod.mk.injEq] at h
          obtain ⟨rfl, rfl⟩ := h
          refine ⟨fun e he => List.mem_cons_of_mem _ (h1 e he), h2.cons_cons _, ?_, ?_, by simp; omega⟩
          · intro w hw
            rcases List.mem_cons.mp hw with rfl | hw
            · right; simp
            · rcases h3 w hw with h | h
              · left; exact h
              · right; exact List.mem_cons_of_mem _ h
          · intro w hw
            rcases List.mem_cons.mp hw with rfl | hw
            · exact hv
            · exact h4 w hw

/-- Effect of `apply_bundle_adjust` with the lists produced by `constrain_view`. -/
theorem applyBundleAdjust_ok {d : Data P} (hd : d.Consistent) {r : Nat} {R : Recon P}
    (hR : d.recons.get r = some R) {us : List (Nat × P)} {rs : List Nat} (hnd : rs.Nodup)
    (hus : ∀ e, e ∈ us → R.LiveView e.1) (hrs : ∀ v, v ∈ rs → R.LiveView v) :
    ∃ d' R', applyBundleAdjust d r us rs = some d' ∧ d'.Consistent ∧ d'.recons.get r = some R' ∧
      d'.recons.next = d.recons.next ∧ d'.feeds = d.feeds ∧
      (∀ q, q ≠ r → d'.recons.get q = d.recons.get q) ∧
      R'.views.next = R.views.next ∧ R'.landmarks.next = R.landmarks.next ∧
      (∀ w, R'.views.get w = if w ∈ rs then none else
        (R.views.get w).map (fun V => { V with pose := newPose us w V.pose })) ∧
      (∀ l w f, R'.Observes l w f ↔ w ∉ rs ∧ R.Observes l w f) ∧
      (∀ e, e ∈ R'.constraints.map.entries ↔
        e ∈ R.constraints.map.entries ∧ ∀ v, v ∈ rs → e.2.mentions v = false) := by
  obtain ⟨d1, R1, hrun1, hc1, hR1, hn1, hk1, hf1, hq1, hl1, hco1, hvn1, hv1⟩ :=
    updatePoses_ok r us hd hR hus
  obtain ⟨d2, R2, hrun2, hc2, hR2, hn2, hk2, hq2, hvn2, hln2, hw2, ho2, hC2⟩ :=
    removeViews_ok r rs hc1 hR1 hnd (by
      intro v hv
      obtain ⟨V, hV⟩ := hrs v hv
      exact ⟨_, by rw [hv1, hV]; rfl⟩)
  refine ⟨d2, R2, ?_, hc2, hR2, hn2.trans hn1, hk2.trans hk1, ?_, hvn2.trans hvn1, by rw [hln2, hl1],
    ?_, ?_, ?_⟩
  · simp only [applyBundleAdjust, hrun1, hrun2]
  · intro q hq; rw [hq2 q hq, hq1 q hq]
  · intro w; rw [hw2, hv1]
  · intro l w f
    rw [ho2]
    unfold Recon.Observes
    rw [hl1]
  · intro e; rw [hC2, hco1]

/-! ## The optimisation loops -/

theorem constrainLists_ok (ω : Oracle P) {R : Recon P} (hR : R.Consistent)
    {edges : List (Nat × Nat × P)} {us : List (Nat × P)} {rs : List Nat}
    (h : R.constrainViews ω edges R.views.keys = some (us, rs)) :
    rs.Nodup ∧ (∀ e, e ∈ us → R.LiveView e.1) ∧ (∀ v, v ∈ rs → R.LiveView v) := by
  obtain ⟨h1, h2, _, _, _⟩ := constrainViews_ok ω _ h
  exact ⟨h2.nodup hR.viewsWF.nodup, fun e he => (SlotMap.mem_keys_iff _ _).mp (h1 e he),
    fun v hv => (SlotMap.mem_keys_iff _ _).mp (h2.subset hv)⟩

/-- What every run of the loop of `apply_constraints` guarantees. -/
theorem applyLoop_ok (ω : Nat → Oracle P) (r : Nat) (edges : List (Nat × Nat × P)) (n : Nat) :
    ∀ {d : Data P} {R : Recon P}, d.Consistent → d.recons.get r = some R →
    ∀ {d' b}, applyLoop ω r edges n d = some (d', b) → d'.Consistent ∧
      d'.recons.next = d.recons.next ∧ d'.feeds = d.feeds ∧
      (∀ q, q ≠ r → d'.recons.get q = d.recons.get q) ∧
      (b = true → ∃ R', d'.recons.get r = some R' ∧
        (∀ w W', R'.views.get w = some W' → ∃ W, R.views.get w = some W ∧
          W'.frame = W.frame ∧ W'.landmarks = W.landmarks)) ∧
      (b = false → d'.recons.get r = none) := by
  induction n with
  | zero =>
    intro d R hd hR d' b h
    cases h
    exact ⟨hd, rfl, rfl, fun _ _ => rfl, fun _ => ⟨R, hR, fun w W' h => ⟨W', h, rfl, rfl⟩⟩, by simp⟩
  | succ n ih =>
    intro d R hd hR d' b h
    unfold applyLoop at h
    simp only [hR] at h
    cases hc : R.constrainViews (ω n) edges R.views.keys with
    | none => simp [hc] at h
    | some ur =>
      obtain ⟨us, rs⟩ := ur
      obtain ⟨hnd, hus, hrs⟩ := constrainLists_ok (ω n) (hd.recons r R hR) hc
      simp only [hc] at h
      by_cases h3 : 3 ≤ us.length
      · rw [if_pos h3] at h
        obtain ⟨d1, R1, hrun1, hd1, hR1, hn1, hk1, hq1, _, _, hv1, _⟩ :=
          applyBundleAdjust_ok hd hR hnd hus hrs
        simp only [hrun1] at h
        obtain ⟨g1, g2, g3, g4, g5, g6⟩ := ih hd1 hR1 h
        refine ⟨g1, g2.trans hn1, g3.trans hk1, fun q hq => (g4 q hq).trans (hq1 q hq), ?_, g6⟩
        intro hb
        obtain ⟨R', hR', hw⟩ := g5 hb
        refine ⟨R', hR', ?_⟩
        intro w W' hW'
        obtain ⟨W1, hW1, e1, e2⟩ := hw w W' hW'
        rw [hv1] at hW1
        split at hW1
        · cases hW1
        · cases hW : R.views.get w with
          | none => rw [hW] at hW1; cases hW1
          | some W =>
            rw [hW] at hW1
            cases hW1
            exact ⟨W, rfl, e1, e2⟩
      · rw [if_neg h3] at h
        obtain ⟨d1, hrun1, hc1, hn1, hr1, hq1, _, hk1⟩ := removeReconstruction_spec hd hR
        simp only [hrun1] at h
        cases h
        exact ⟨hc1, hn1, hk1, hq1, by simp, fun _ => hr1⟩

/-- Edges whose reverse is also present and whose views are live. -/
structure GoodEdges (R : Recon P) (edges : List (Nat × Nat × P)) : Prop where
  live : ∀ a b p, (a, b, p) ∈ edges → R.LiveView b
  sym : ∀ a b p, (a, b, p) ∈ edges → ∃ p', (b, a, p') ∈ edges

theorem constrainView_total (ω : Oracle P) {R : Recon P} {edges : List (Nat × Nat × P)}
    (he : ∀ a b p, (a, b, p) ∈ edges → R.LiveView b) (v : Nat) :
    ∃ o, R.constrainView ω edges v = some o ∧
      (o = none → (∀ b p, (v, b, p) ∉ edges) ∨
        ω.constrain R v ((edges.filter (fun e => e.1 == v)).map Prod.snd) = none) := by
  unfold Recon.constrainView
  simp only
  split
  · rename_i h
    refine ⟨none, rfl, fun _ => Or.inl ?_⟩
    intro b p hm
    rw [List.isEmpty_iff, List.map_eq_nil_iff, List.filter_eq_nil_iff] at h
    exact h (v, b, p) hm (by simp)
  · rw [if_pos]
    · exact ⟨_, rfl, fun h => Or.inr h⟩
    · rw [List.all_eq_true]
      intro e hm
      rw [List.mem_map] at hm
      obtain ⟨⟨a, b, p⟩, hm, rfl⟩ := hm
      obtain ⟨V, hV⟩ := he a b p (List.mem_filter.mp hm).1
      simp [hV]

theorem constrainViews_total (ω : Oracle P) {R : Recon P} {edges : List (Nat × Nat × P)}
    (he : ∀ a b p, (a, b, p) ∈ edges → R.LiveView b) (vs : List Nat) :
    ∃ us rs, R.constrainViews ω edges vs = some (us, rs) := by
  induction vs with
  | nil => exact ⟨[], [], rfl⟩
  | cons v vs ih =>
    obtain ⟨us, rs, h⟩ := ih
    obtain ⟨o, ho, _⟩ := constrainView_total ω he v
    cases o with
    | none => exact ⟨us, v :: rs, by simp only [Recon.constrainViews, ho, h]⟩
    | some p => exact ⟨(v, p) :: us, rs, by simp only [Recon.constrainViews, ho, h]⟩

/-- If no numeric update fails, the loop does not panic. -/
theorem applyLoop_total (ω : Nat → Oracle P) (hω : ∀ i, (ω i).FiniteUpdates)
    (r : Nat) (edges : List (Nat × Nat × P)) (n : Nat) :
    ∀ {d : Data P} {R : Recon P}, d.Consistent → d.recons.get r = some R → GoodEdges R edges →
    ∃ d' b, applyLoop ω r edges n d = some (d', b) := by
  induction n with
  | zero => intro d R _ _ _; exact ⟨d, true, rfl⟩
  | succ n ih =>
    intro d R hd hR he
    obtain ⟨us, rs, hc⟩ := constrainViews_total (ω n) he.live R.views.keys
    obtain ⟨hnd, hus, hrs⟩ := constrainLists_ok (ω n) (hd.recons r R hR) hc
    unfold applyLoop
    simp only [hR, hc]
    by_cases h3 : 3 ≤ us.length
    · rw [if_pos h3]
      obtain ⟨d1, R1, hrun1, hd1, hR1, hn1, hk1, hq1, _, _, hv1, _⟩ :=
        applyBundleAdjust_ok hd hR hnd hus hrs
      simp only [hrun1]
      refine ih hd1 hR1 ⟨?_, he.sym⟩
      intro a b p hm
      obtain ⟨V, hV⟩ := he.live a b p hm
      have hb : b ∉ rs := by
        intro hb
        obtain ⟨_, _, _, h4, _⟩ := constrainViews_ok (ω n) _ hc
        obtain ⟨o, ho, hno⟩ := constrainView_total (ω n) he.live b
        rw [h4 b hb] at ho
        cases ho
        obtain ⟨p', hp'⟩ := he.sym a b p hm
        rcases hno rfl with h | h
        · exact h a p' hp'
        · have := hω n R b ((edges.filter (fun e => e.1 == b)).map Prod.snd) ⟨V, hV⟩ (fun e hm => by
            obtain ⟨x, hx, rfl⟩ := List.mem_map.1 hm
            exact he.live _ _ _ (List.mem_filter.1 hx).1)
          rw [h] at this
          cases this
      exact ⟨_, by rw [hv1, if_neg hb, hV]; rfl⟩
    · rw [if_neg h3]
      obtain ⟨d1, hrun1, _⟩ := removeReconstruction_spec hd hR
      exact ⟨d1, false, by rw [hrun1]⟩

theorem flatten_good [Mul P] [Inv P] {R : Recon P} (hR : R.Consistent) :
    GoodEdges R R.flattenConstraints := by
  have hmem : ∀ e, e ∈ R.flattenConstraints ↔ ∃ k c, R.constraints.get k = some c ∧
      e ∈ Recon.edgeConstraints c := by
    intro e
    unfold Recon.flattenConstraints
    rw [List.mem_flatMap]
    constructor
    · rintro ⟨c, hc, he⟩
      obtain ⟨⟨k, c'⟩, hk, rfl⟩ := List.mem_map.mp hc
      exact ⟨k, c', FMap.get_of_mem hR.constraintsWF.nodup hk, he⟩
    · rintro ⟨k, c, hc, he⟩
      exact ⟨c, List.mem_map.mpr ⟨(k, c), FMap.mem_of_get hc, rfl⟩, he⟩
  constructor
  · intro a b p h
    obtain ⟨k, c, hc, he⟩ := (hmem _).mp h
    obtain ⟨h0, h1, h2, _⟩ := hR.constraintsLive k c hc
    simp only [Recon.edgeConstraints, List.mem_cons, Prod.mk.injEq, List.not_mem_nil, or_false] at he
    rcases he with ⟨_, rfl, _⟩ | ⟨_, rfl, _⟩ | ⟨_, rfl, _⟩ | ⟨_, rfl, _⟩ | ⟨_, rfl, _⟩ | ⟨_, rfl, _⟩ <;>
      assumption
  · intro a b p h
    obtain ⟨k, c, hc, he⟩ := (hmem _).mp h
    simp only [Recon.edgeConstraints, List.mem_cons, Prod.mk.injEq, List.not_mem_nil, or_false] at he
    rcases he with ⟨rfl, rfl, _⟩ | ⟨rfl, rfl, _⟩ | ⟨rfl, rfl, _⟩ | ⟨rfl, rfl, _⟩ | ⟨rfl, rfl, _⟩ |
      ⟨rfl, rfl, _⟩
    all_goals
      exact ⟨_, (hmem _).mpr ⟨k, c, hc, by
        simp only [Recon.edgeConstraints, List.mem_cons, Prod.mk.injEq, true_and]
        first
          | exact Or.inl rfl
          | exact Or.inr (Or.inl rfl)
          | exact Or.inr (Or.inr (Or.inl rfl))
          | exact Or.inr (Or.inr (Or.inr (Or.inl rfl)))
          | exact Or.inr (Or.inr (Or.inr (Or.inr (Or.inl rfl))))
          | exact Or.inr (Or.inr (Or.inr (Or.inr (Or.inr (Or.inl rfl)))))⟩⟩

/-- What every run of the optimisation guarantees. -/
theorem optimizeLoop_ok [Mul P] [Inv P] (ω : Nat → Nat → Oracle P) (ω' : Nat → Oracle P)
    (s : Settings) (r : Nat) (n : Nat) : ∀ {d : Data P} {R : Recon P}, d.Consistent →
    d.recons.get r = some R → ∀ {d' b}, optimizeLoop ω ω' s r n d = some (d', b) →
    d'.Consistent ∧ d'.recons.next = d.recons.next ∧ d'.feeds = d.feeds ∧
      (∀ q, q ≠ r → d'.recons.get q = d.recons.get q) ∧
      (b = true → ∃ R', d'.recons.get r = some R') ∧ (b = false → d'.recons.get r = none) := by
  induction n with
  | zero =>
    intro d R hd hR d' b h
    cases h
    exact ⟨hd, rfl, rfl, fun _ _ => rfl, fun _ => ⟨R, hR⟩, by simp⟩
  | succ n ih =>
    intro d R hd hR d' b h
    unfold optimizeLoop applyConstraints at h
    simp only [hR] at h
    cases ha : applyLoop (ω n) r R.flattenConstraints s.optIterations d with
    | none => simp [ha] at h
    | some x =>
      obtain ⟨d1, b1⟩ := x
      obtain ⟨g1, g2, g3, g4, g5, g6⟩ := applyLoop_ok (ω n) r _ _ hd hR ha
      simp only [ha] at h
      cases b1 with
      | false =>
        cases h
        exact ⟨g1, g2, g3, g4, by simp, g6⟩
      | true =>
        obtain ⟨R1, hR1, _⟩ := g5 rfl
        obtain ⟨d2, b2, R2, hrun2, hc2, hn2, hk2, hq2, _, ht, hf⟩ :=
          filterObservations_ok (ω' n) s g1 hR1
        simp only [hrun2] at h
        cases b2 with
        | false =>
          cases h
          exact ⟨hc2, hn2.trans g2, hk2.trans g3, fun q hq => (hq2 q hq).trans (g4 q hq), by simp,
            fun _ => (hf rfl).1⟩
        | true =>
          obtain ⟨k1, k2, k3, k4, k5, k6⟩ := ih hc2 (ht rfl).1 h
          exact ⟨k1, (k2.trans hn2).trans g2, (k3.trans hk2).trans g3,
            fun q hq => ((k4 q hq).trans (hq2 q hq)).trans (g4 q hq), k5, k6⟩

/-- If no numeric update fails, the optimisation does not panic. -/
theorem optimizeLoop_total [Mul P] [Inv P] (ω : Nat → Nat → Oracle P) (ω' : Nat → Oracle P)
    (hω : ∀ i j, (ω i j).FiniteUpdates)
    (s : Settings) (r : Nat) (n : Nat) : ∀ {d : Data P} {R : Recon P}, d.Consistent →
    d.recons.get r = some R → ∃ d' b, optimizeLoop ω ω' s r n d = some (d', b) := by
  induction n with
  | zero => intro d R _ _; exact ⟨d, true, rfl⟩
  | succ n ih =>
    intro d R hd hR
    obtain ⟨d1, b1, ha⟩ := applyLoop_total (ω n) (hω n) r R.flattenConstraints s.optIterations hd hR
      (flatten_good (hd.recons r R hR))
    obtain ⟨g1, g2, g3, g4, g5, g6⟩ := applyLoop_ok (ω n) r _ _ hd hR ha
    unfold optimizeLoop applyConstraints
    simp only [hR, ha]
    cases b1 with
    | false => exact ⟨d1, false, rfl⟩
    | true =>
      obtain ⟨R1, hR1, _⟩ := g5 rfl
      obtain ⟨d2, b2, R2, hrun2, hc2, hn2, hk2, hq2, _, ht, hf⟩ :=
        filterObservations_ok (ω' n) s g1 hR1
      simp only [hrun2]
      cases b2 with
      | false => exact ⟨d2, false, rfl⟩
      | true => exact ih hc2 (ht rfl).1

theorem regenerateLoop_ok (ω : Nat → Oracle P) (hω : ∀ i, (ω i).Fair) (s : Settings) (r : Nat)
    (vs : List Nat) : ∀ {d : Data P} {R : Recon P}, d.Consistent → d.recons.get r = some R →
    (∀ v, v ∈ vs → R.LiveView v) →
    ∃ d' R', regenerateLoop ω s r vs d = some d' ∧ d'.Consistent ∧ d'.recons.get r = some R' ∧
      d'.recons.next = d.recons.next ∧ d'.feeds = d.feeds ∧ d'.frames = d.frames ∧
      (∀ q, q ≠ r → d'.recons.get q = d.recons.get q) ∧ R'.views = R.views ∧
      R'.landmarks = R.landmarks := by
  induction vs with
  | nil => intro d R hd hR _; exact ⟨d, R, rfl, hd, hR, rfl, rfl, rfl, fun _ _ => rfl, rfl, rfl⟩
  | cons v vs ih =>
    intro d R hd hR hl
    obtain ⟨d1, R1, x, hrun1, hd1, _, hR1, hn1, hq1, hf1, hk1, hv1, hl1, _⟩ :=
      record_spec (ω v) (hω v) s (hd.off (fun _ => False)) id hR (hl v (by simp))
    obtain ⟨d2, R2, hrun2, hc2, hR2, hn2, hk2, hf2, hq2, hv2, hl2⟩ := ih hd1.on hR1 (by
      intro w hw
      unfold Recon.LiveView
      rw [hv1]
      exact hl w (List.mem_cons_of_mem _ hw))
    refine ⟨d2, R2, by simp only [regenerateLoop, hrun1, hrun2], hc2, hR2, hn2.trans hn1,
      hk2.trans hk1, hf2.trans hf1, fun q hq => (hq2 q hq).trans (hq1 q hq), hv2.trans hv1,
      hl2.trans hl1⟩

theorem regenerate_ok (ω : Nat → Oracle P) (hω : ∀ i, (ω i).Fair) (s : Settings) {d : Data P}
    (hd : d.Consistent) {r : Nat} {R : Recon P} (hR : d.recons.get r = some R) :
    ∃ d' R', regenerateConstraints ω s d r = some d' ∧ d'.Consistent ∧
      d'.recons.get r = some R' ∧ d'.recons.next = d.recons.next ∧ d'.feeds = d.feeds ∧
      d'.frames = d.frames ∧ (∀ q, q ≠ r → d'.recons.get q = d.recons.get q) ∧
      R'.views = R.views ∧ R'.landmarks = R.landmarks := by
  let R1 : Recon P := { R with constraints := R.constraints.clear }
  have hc := hd.recons r R hR
  have hR1 : R1.Consistent := by
    refine ⟨hc.viewsWF, hc.landmarksWF, ⟨by simp [R1, SlotMap.clear, FMap.empty, FMap.WF, FMap.keys],
      by simp [R1, SlotMap.clear, FMap.empty, SlotMap.get, FMap.get]⟩, hc.obsWF,
      hc.nonempty, hc.agree, ?_⟩
    intro k c hk
    simp [R1, SlotMap.clear, FMap.empty, SlotMap.get, FMap.get] at hk
  have hd1 := replace_shape hd hR hR1 (fun _ => rfl)
  have hg := fun q => get_replace (R' := R1) hR q
  obtain ⟨d2, R2, hrun2, hc2, hR2, hn2, hk2, hf2, hq2, hv2, hl2⟩ :=
    regenerateLoop_ok ω hω s r R.views.keys hd1 ((hg r).trans (if_pos rfl))
      (fun v hv => (SlotMap.mem_keys_iff _ _).mp hv)
  refine ⟨d2, R2, ?_, hc2, hR2, hn2, hk2, hf2, ?_, hv2, hl2⟩
  · unfold regenerateConstraints
    simp only [hR]
    exact hrun2
  · intro q hq
    rw [hq2 q hq]
    exact (hg q).trans (if_neg hq)

end Data
end Verif.Sfm
