import Verif.Lemmas.SfmConstraints

/-! Helper lemmas: moving the views of one reconstruction to another. -/

namespace Verif.Sfm
variable {P : Type}

namespace Data

/-- A landmark map that can be used: one-to-one, with live targets. -/
structure GoodMap (D : Recon P) (m : FMap Nat) : Prop where
  inj : ∀ s s' d, m.get s = some d → m.get s' = some d → s = s'
  live : ∀ s d, m.get s = some d → D.LiveLandmark d

/-- `m'` keeps the entries of `m`. -/
def Extends (m m' : FMap Nat) : Prop := ∀ s d, m.get s = some d → m'.get s = some d

theorem incorporateFeatures_spec (dv : Nat) (lms : List Nat) (hnd : lms.Nodup) (n : Nat) :
    ∀ (k : Nat) (R : Recon P) (V : View P) (m : FMap Nat), R.Consistent →
    R.views.get dv = some V → V.landmarks.length = k → k + n ≤ lms.length →
    GoodMap R m →
    (∀ s d f, m.get s = some d → R.Observes d dv f → lms[f]? = some s) →
    ∃ R' m' news, incorporateFeatures dv lms (List.range' k n) R m = some (R', m') ∧
      R'.Consistent ∧ R'.constraints = R.constraints ∧ R'.views.next = R.views.next ∧
      R.landmarks.next ≤ R'.landmarks.next ∧
      R'.views.get dv = some { V with landmarks := V.landmarks ++ news } ∧ news.length = n ∧
      (∀ w, w ≠ dv → R'.views.get w = R.views.get w) ∧
      (∀ l w f, w ≠ dv → (R'.Observes l w f ↔ R.Observes l w f)) ∧
      GoodMap R' m' ∧ Extends m m' ∧
      (∀ s d, m'.get s = some d → m.get s = some d ∨ R.landmarks.next ≤ d) ∧
      (∀ i d, news[i]? = some d → ∃ s, lms[k + i]? = some s ∧ m'.get s = some d) := by
  induction n with
  | zero =>
    intro k R V m hR hV hk hlen hm hobs
    exact ⟨R, m, [], rfl, hR, rfl, rfl, Nat.le_refl _, by simp [hV], rfl, fun _ _ => rfl,
      fun _ _ _ _ => Iff.rfl, hm, fun _ _ h => h, fun _ _ h => Or.inl h, by simp⟩
  | succ n ih =>
    intro k R V m hR hV hk hlen hm hobs
    have hklt : k < lms.length := by omega
    have hs : lms[k]? = some lms[k] := List.getElem?_eq_getElem hklt
    -- one feature
    have step : ∃ R1 m1 x, (incorporateFeatures dv lms [k] R m = some (R1, m1)) ∧
        R1.Consistent ∧ R1.constraints = R.constraints ∧ R1.views.next = R.views.next ∧
        R.landmarks.next ≤ R1.landmarks.next ∧
        R1.views.get dv = some { V with landmarks := V.landmarks ++ [x] } ∧
        (∀ w, w ≠ dv → R1.views.get w = R.views.get w) ∧
        (∀ l w f, w ≠ dv → (R1.Observes l w f ↔ R.Observes l w f)) ∧
        GoodMap R1 m1 ∧ Extends m m1 ∧
        (∀ s d, m1.get s = some d → m.get s = some d ∨ R.landmarks.next ≤ d) ∧
        m1.get lms[k] = some x ∧
        (∀ s d f, m1.get s = some d → R1.Observes d dv f → lms[f]? = some s) := by
      cases hms : m.get lms[k] with
      | some dl =>
        obtain ⟨L, hL⟩ := hm.live _ _ hms
        have hLv : L.get dv = none := by
          cases hg : L.get dv with
          | none => rfl
          | some f =>
            exfalso
            have h1 := hobs _ _ f hms ⟨L, hL, hg⟩
            obtain ⟨V', hV', hVf⟩ := (hR.agree dv f dl).mpr ⟨L, hL, hg⟩
            rw [hV] at hV'; cases hV'
            have hflt := (List.getElem?_eq_some_iff.mp hVf).1
            have hfl : f < lms.length := by omega
            rw [List.getElem?_eq_getElem hfl] at h1
            have h1 := Option.some.inj h1
            unfold List.Nodup at hnd
            rw [List.pairwise_iff_getElem] at hnd
            exact hnd f k hfl hklt (by omega) h1
        obtain ⟨R1, hrun, hc, hcon, hvn, hln, hv, hw, hl, hL'⟩ := Recon.attach_spec hR hV hL hLv
        have hlive : ∀ l, R.LiveLandmark l → R1.LiveLandmark l := by
          rintro l ⟨L0, hL0⟩
          by_cases h : l = dl
          · subst h; exact ⟨_, hL'⟩
          · exact ⟨L0, by rw [hl l h]; exact hL0⟩
        refine ⟨R1, m, dl, ?_, hc, hcon, hvn, by omega, hv, hw, ?_,
          ⟨hm.inj, fun s d h => hlive d (hm.live s d h)⟩, fun _ _ h => h, fun _ _ h => Or.inl h,
          hms, ?_⟩
        · rw [hk] at hrun
          simp only [incorporateFeatures, hs, hms, hrun]
        · intro l w f hwd
          by_cases h : l = dl
          · subst h
            unfold Recon.Observes
            rw [hL', hL]
            constructor
            · rintro ⟨L0, h0, h1⟩
              cases h0
              rw [FMap.get_put] at h1
              simp only [hwd, if_false] at h1
              exact ⟨L, rfl, h1⟩
            · rintro ⟨L0, h0, h1⟩
              cases h0
              exact ⟨_, rfl, by rw [FMap.get_put]; simp only [hwd, if_false]; exact h1⟩
          · exact Recon.observes_congr (hl l h) w f
        · intro s d f hsd ho
          by_cases h : d = dl
          · subst h
            obtain ⟨L0, h0, h1⟩ := ho
            rw [hL'] at h0; cases h0
            rw [FMap.get_put] at h1
            simp at h1
            rw [← h1, hk, hs]
            rw [hm.inj s lms[k] d hsd hms]
          · exact hobs s d f hsd ((Recon.observes_congr (hl d h) dv f).mp ho)
      | none =>
        obtain ⟨R1, hrun, hc, hcon, hvn, hln, hv, hw, hl, hL'⟩ := Recon.attachNew_spec hR hV
        have hlt : ∀ s d, m.get s = some d → d < R.landmarks.next := by
          intro s d h
          obtain ⟨L, hL⟩ := hm.live s d h
          exact hR.landmarksWF.fresh _ _ hL
        have hpg : ∀ s d, (m.push lms[k] R.landmarks.next).get s = some d ↔
            m.get s = some d ∨ (s = lms[k] ∧ d = R.landmarks.next) := by
          intro s d
          rw [FMap.get_push]
          by_cases h : s = lms[k]
          · subst h; simp [hms]; exact eq_comm
          · cases hg : m.get s <;> simp [h]
        refine ⟨R1, m.push lms[k] R.landmarks.next, R.landmarks.next, ?_, hc, hcon, hvn, by omega,
          hv, hw, ?_, ⟨?_, ?_⟩, fun s d h => (hpg s d).mpr (Or.inl h), ?_,
          (hpg _ _).mpr (Or.inr ⟨rfl, rfl⟩), ?_⟩
        · rw [hk] at hrun
          simp only [incorporateFeatures, hs, hms, hrun]
        · intro l w f hwd
          by_cases h : l = R.landmarks.next
          · subst h
            unfold Recon.Observes
            rw [hL', SlotMap.get_next hR.landmarksWF]
            constructor
            · rintro ⟨L0, h0, h1⟩
              cases h0
              rw [FMap.get_single] at h1
              simp [hwd] at h1
            · rintro ⟨L0, h0, h1⟩
              cases h0
          · exact Recon.observes_congr (hl l h) w f
        · intro s s' d h h'
          rcases (hpg s d).mp h with h | ⟨rfl, rfl⟩
          · rcases (hpg s' d).mp h' with h' | ⟨rfl, rfl⟩
            · exact hm.inj s s' d h h'
            · exact absurd (hlt _ _ h) (by omega)
          · rcases (hpg s' _).mp h' with h' | ⟨h', _⟩
            · exact absurd (hlt _ _ h') (by omega)
            · exact h'.symm
        · intro s d h
          rcases (hpg s d).mp h with h | ⟨rfl, rfl⟩
          · obtain ⟨L, hL⟩ := hm.live s d h
            exact ⟨L, by rw [hl d (by have := hlt s d h; omega)]; exact hL⟩
          · exact ⟨_, hL'⟩
        · intro s d h
          rcases (hpg s d).mp h with h | ⟨rfl, rfl⟩
          · exact Or.inl h
          · exact Or.inr (Nat.le_refl _)
        · intro s d f h ho
          rcases (hpg s d).mp h with h | ⟨rfl, rfl⟩
          · exact hobs s d f h ((Recon.observes_congr
              (hl d (by have := hlt s d h; omega)) dv f).mp ho)
          · obtain ⟨L0, h0, h1⟩ := ho
            rw [hL'] at h0; cases h0
            rw [FMap.get_single] at h1
            simp at h1
            rw [← h1, hk, hs]
    obtain ⟨R1, m1, x, hrun1, hc1, hcon1, hvn1, hln1, hv1, hw1, ho1, hm1, hex1, hnew1, hx1, hobs1⟩ :=
      step
    obtain ⟨R', m', news, hrun, hc, hcon, hvn, hln, hv, hlen', hw, ho, hm', hex, hnew, hres⟩ :=
      ih (k + 1) R1 _ m1 hc1 hv1 (by simp [hk]) (by omega) hm1 hobs1
    refine ⟨R', m', x :: news, ?_, hc, hcon.trans hcon1, hvn.trans hvn1, by omega, ?_, by simp [hlen'],
      ?_, ?_, hm', fun s d h => hex s d (hex1 s d h), ?_, ?_⟩
    · rw [List.range'_succ]
      -- a list is its head followed by its tail
      have happ : ∀ (fs : List Nat), incorporateFeatures dv lms (k :: fs) R m =
          incorporateFeatures dv lms fs R1 m1 := by
        intro fs
        simp only [incorporateFeatures, hs] at hrun1 ⊢
        cases hms : m.get lms[k] with
        | some dl =>
          simp only [hms] at hrun1 ⊢
          cases hb : (R.observe dl dv k).bind (fun R1 => R1.pushOwner dv dl) with
          | none => rw [hb] at hrun1; cases hrun1
          | some R2 =>
            rw [hb] at hrun1
            simp only [Option.some.injEq, Prod.mk.injEq] at hrun1
            obtain ⟨rfl, rfl⟩ := hrun1
            rfl
        | none =>
          simp only [hms] at hrun1 ⊢
          cases hb : (R.addLandmark dv k).pushOwner dv R.landmarks.next with
          | none => rw [hb] at hrun1; cases hrun1
          | some R2 =>
            rw [hb] at hrun1
            simp only [Option.some.injEq, Prod.mk.injEq] at hrun1
            obtain ⟨rfl, rfl⟩ := hrun1
            rfl
      rw [happ]
      exact hrun
    · rw [hv]; simp
    · intro w hwd; rw [hw w hwd, hw1 w hwd]
    · intro l w f hwd; rw [ho l w f hwd, ho1 l w f hwd]
    · intro s d h
      rcases hnew s d h with h | h
      · exact hnew1 s d h
      · right; omega
    · intro i d hi
      cases i with
      | zero =>
        simp at hi
        subst hi
        exact ⟨lms[k], by simp, hex _ _ hx1⟩
      | succ i =>
        simp at hi
        obtain ⟨s, h1, h2⟩ := hres i d hi
        exact ⟨s, by rw [← h1]; congr 1; omega, h2⟩

variable {S : Nat → Prop}

/-- Adding a view made from a frame that is free (or belongs to an ignored reconstruction). -/
theorem insertView_off {d : Data P} (hd : d.ConsistentOff S) {r frame : Nat} {R R' : Recon P}
    {F : Frame} {W : View P} (hS : ¬ S r) (hR : d.recons.get r = some R)
    (hF : d.frames.get frame = some F) (hFv : ∀ q v, F.view = some (q, v) → S q)
    (hR' : R'.Consistent) (hW : R'.views.get R.views.next = some W) (hWf : W.frame = frame)
    (hWl : W.landmarks.length = F.nfeat)
    (hfr : ∀ w, w ≠ R.views.next →
      (R'.views.get w).map (fun W => (W.frame, W.landmarks.length)) =
        (R.views.get w).map (fun W => (W.frame, W.landmarks.length))) :
    ({ d with
        frames := d.frames.modify frame (fun F => { F with view := some (r, R.views.next) })
        recons := d.recons.modify r (fun _ => R') } : Data P).ConsistentOff S := by
  let d' : Data P := { d with
        frames := d.frames.modify frame (fun F => { F with view := some (r, R.views.next) })
        recons := d.recons.modify r (fun _ => R') }
  have gf : ∀ f, d'.frames.get f =
      if f = frame then some { F with view := some (r, R.views.next) } else d.frames.get f := by
    intro f
    show (d.frames.modify frame _).get f = _
    rw [SlotMap.get_modify]
    by_cases h : f = frame
    · subst h; simp [hF]
    · simp [h]
  have gq : ∀ q, d'.recons.get q = if q = r then some R' else d.recons.get q := by
    intro q
    show (d.recons.modify r _).get q = _
    rw [SlotMap.get_modify]
    by_cases h : q = r
    · subst h; simp [hR]
    · simp [h]
  have hVnone : R.views.get R.views.next = none := SlotMap.get_next (hd.recons r R hS hR).viewsWF
  have hff := feeds_of_frames (d := d) (d' := d') rfl (by
      intro f
      rw [gf]
      by_cases h : f = frame
      · subst h; simp [hF]
      · simp [h]) hd
  show d'.ConsistentOff S
  refine ⟨hd.feedsWF, SlotMap.wf_modify hd.framesWF _ _, SlotMap.wf_modify hd.reconsWF _ _,
    ?_, ?_, ?_, hff.1, hff.2⟩
  · intro q Q hSq hQ
    rw [gq] at hQ
    split at hQ
    · cases hQ; exact hR'
    · exact hd.recons q Q hSq hQ
  · intro q Q v V hSq hQ hV
    rw [gf]
    rw [gq] at hQ
    split at hQ
    · rename_i hq
      subst hq
      cases hQ
      by_cases hv : v = R.views.next
      · subst hv
        rw [hW] at hV
        cases hV
        refine ⟨{ F with view := some (q, R.views.next) }, by simp [hWf], rfl, hWl⟩
      · have h := hfr v hv
        rw [hV] at h
        cases hV0 : R.views.get v with
        | none => rw [hV0] at h; simp at h
        | some V0 =>
          rw [hV0] at h
          simp only [Option.map_some, Option.some.injEq, Prod.mk.injEq] at h
          obtain ⟨F0, hF0, hFv0, hl0⟩ := hd.viewFrame q R v V0 hSq hR hV0
          have hne : V.frame ≠ frame := by
            rw [h.1]
            rintro hh
            rw [hh, hF] at hF0
            cases hF0
            exact hSq (hFv q v hFv0)
          simp only [hne, if_false]
          exact ⟨F0, by rw [h.1]; exact hF0, hFv0, by rw [h.2]; exact hl0⟩
    · obtain ⟨F0, hF0, hFv0, hl0⟩ := hd.viewFrame q Q v V hSq hQ hV
      have hne : V.frame ≠ frame := by
        rintro hh
        rw [hh, hF] at hF0
        cases hF0
        exact hSq (hFv q v hFv0)
      simp only [hne, if_false]
      exact ⟨F0, hF0, hFv0, hl0⟩
  · intro f G q v hSq hG hGv
    rw [gf] at hG
    rw [gq]
    split at hG
    · rename_i hf
      cases hG
      simp only [Option.some.injEq, Prod.mk.injEq] at hGv
      obtain ⟨rfl, rfl⟩ := hGv
      exact ⟨R', W, by simp, hW, hWf.trans hf.symm⟩
    · obtain ⟨Q, V, hQ, hV, hVf⟩ := hd.frameView f G q v hSq hG hGv
      by_cases hq : q = r
      · subst hq
        rw [hR] at hQ
        cases hQ
        have hv : v ≠ R.views.next := by rintro rfl; rw [hVnone] at hV; cases hV
        have h := hfr v hv
        rw [hV] at h
        cases hV1 : R'.views.get v with
        | none => rw [hV1] at h; simp at h
        | some V1 =>
          rw [hV1] at h
          simp only [Option.map_some, Option.some.injEq, Prod.mk.injEq] at h
          exact ⟨R', V1, by simp, hV1, h.1.trans hVf⟩
      · exact ⟨Q, V, by simp [hq, hQ], hV, hVf⟩

/-- The part of the source reconstruction that still has to be moved. -/
structure SrcOk (d : Data P) (src : Nat) (Sr : Recon P) (rem : List Nat) : Prop where
  nodup : rem.Nodup
  get : d.recons.get src = some Sr
  view : ∀ v, v ∈ rem → ∃ V F, Sr.views.get v = some V ∧ V.landmarks.Nodup ∧
    d.frames.get V.frame = some F ∧ F.view = some (src, v) ∧ F.nfeat = V.landmarks.length
  frames : ∀ f F v, d.frames.get f = some F → F.view = some (src, v) → v ∈ rem ∧
    ∃ V, Sr.views.get v = some V ∧ V.frame = f

/-- The new view `dv` of `D` is the image of the source view `V`. -/
structure Moved (tr : P → P) (m : FMap Nat) (D : Recon P) (dv : Nat) (V : View P) : Prop where
  view : ∃ W : View P, D.views.get dv = some W ∧ W.frame = V.frame ∧ W.pose = tr V.pose ∧
    W.landmarks.length = V.landmarks.length ∧
    ∀ (f sl : Nat), V.landmarks[f]? = some sl → ∃ dl, W.landmarks[f]? = some dl ∧ m.get sl = some dl

/-- Moving one view. -/
theorem incorporateView_spec (tr : P → P) {src dst sv : Nat} {rem : List Nat} {d : Data P}
    {Sr D : Recon P} {m : FMap Nat} (hne : src ≠ dst) (hd : d.ConsistentOff (fun q => q = src))
    (hs : SrcOk d src Sr (sv :: rem)) (hD : d.recons.get dst = some D) (hm : GoodMap D m) :
    ∃ d' D' m' V, incorporateView tr src dst sv d m = some (d', m', D.views.next) ∧
      Sr.views.get sv = some V ∧
      d'.ConsistentOff (fun q => q = src) ∧ SrcOk d' src Sr rem ∧
      d'.recons.get dst = some D' ∧ d'.recons.next = d.recons.next ∧
      (∀ q, q ≠ dst → d'.recons.get q = d.recons.get q) ∧ d'.feeds = d.feeds ∧
      GoodMap D' m' ∧ Extends m m' ∧
      (∀ s x, m'.get s = some x → m.get s = some x ∨ D.landmarks.next ≤ x) ∧
      D'.constraints = D.constraints ∧
      D'.views.next = D.views.next + 1 ∧ D.landmarks.next ≤ D'.landmarks.next ∧
      (∀ w, w < D.views.next → D'.views.get w = D.views.get w) ∧
      (∀ l w f, w < D.views.next → (D'.Observes l w f ↔ D.Observes l w f)) ∧
      Moved tr m' D' D.views.next V ∧
      (∀ f, (d'.frames.get f).map (fun F => (F.feed, F.feedFrame, F.nfeat)) =
        (d.frames.get f).map (fun F => (F.feed, F.feedFrame, F.nfeat))) ∧
      (∀ f, f ≠ V.frame → d'.frames.get f = d.frames.get f) := by
  obtain ⟨V, F, hV, hVnd, hF, hFv, hFn⟩ := hs.view sv (by simp)
  have hnd := List.nodup_cons.mp hs.nodup
  have hDc := hd.recons dst D (Ne.symm hne) hD
  let D0 : Recon P := { D with views := D.views.insert ⟨V.frame, tr V.pose, []⟩ }
  have hD0c : D0.Consistent := Recon.insertView_consistent hDc _ _
  have hD0g : ∀ w, D0.views.get w = if w = D.views.next then some ⟨V.frame, tr V.pose, []⟩ else
      D.views.get w := SlotMap.get_insert hDc.viewsWF _
  obtain ⟨D', m', news, hrun, hc, hcon, hvn, hln, hv, hlen, hw, ho, hm', hex, hnew, hres⟩ :=
    incorporateFeatures_spec D.views.next V.landmarks hVnd F.nfeat 0 D0
      ⟨V.frame, tr V.pose, []⟩ m hD0c (by rw [hD0g]; simp) rfl (by omega)
      ⟨hm.inj, hm.live⟩ (by
        rintro s x f hsx ⟨L, hL, hLf⟩
        exfalso
        have hob : D.Observes x D.views.next f := ⟨L, hL, hLf⟩
        obtain ⟨W, hW, _⟩ := (hDc.agree _ _ _).mpr hob
        rw [SlotMap.get_next hDc.viewsWF] at hW
        cases hW)
  let d1 : Data P := { d with
      frames := d.frames.modify V.frame (fun F => { F with view := some (dst, D.views.next) }) }
  let d' : Data P := { d with
      frames := d.frames.modify V.frame (fun F => { F with view := some (dst, D.views.next) })
      recons := d.recons.modify dst (fun _ => D') }
  have gf : ∀ f, d'.frames.get f = if f = V.frame then
      some { F with view := some (dst, D.views.next) } else d.frames.get f := by
    intro f
    show (d.frames.modify V.frame _).get f = _
    rw [SlotMap.get_modify]
    by_cases h : f = V.frame
    · subst h; simp [hF]
    · simp [h]
  have gq : ∀ q, d'.recons.get q = if q = dst then some D' else d.recons.get q := by
    intro q
    show (d.recons.modify dst _).get q = _
    rw [SlotMap.get_modify]
    by_cases h : q = dst
    · subst h; simp [hD]
    · simp [h]
  have hrun' : incorporateView tr src dst sv d m = some (d', m', D.views.next) := by
    unfold incorporateView
    simp only [hs.get, Option.bind_some, hV, hD]
    have h1 : d.setFrameView V.frame (some (dst, D.views.next)) = some d1 := by
      unfold setFrameView; rw [hF]
    have h2 : d1.frames.get V.frame = some { F with view := some (dst, D.views.next) } := by
      have := gf V.frame
      rw [if_pos rfl] at this
      exact this
    simp only [h1, h2]
    rw [List.range_eq_range']
    show (match incorporateFeatures D.views.next V.landmarks (List.range' 0 F.nfeat) D0 m with
      | none => none
      | some (D', m') =>
        some (({ d1 with recons := d1.recons.modify dst (fun _ => D') } : Data P), m',
          D.views.next)) = _
    rw [hrun]
  have hlt : ∀ w, w < D.views.next → D'.views.get w = D.views.get w := by
    intro w hwlt
    rw [hw w (by omega), hD0g, if_neg (by omega)]
  refine ⟨d', D', m', V, hrun', hV, ?_, ?_, by rw [gq]; simp, rfl,
    fun q hq => by rw [gq]; simp [hq], rfl, hm', hex, hnew, hcon, hvn, hln, hlt, ?_, ⟨?_⟩, ?_, ?_⟩
  · refine insertView_off hd (Ne.symm hne) hD hF ?_ hc hv rfl ?_ ?_
    · intro q v h
      rw [hFv] at h
      simp only [Option.some.injEq, Prod.mk.injEq] at h
      exact h.1.symm
    · simp [hlen]
    · intro w hwne
      rw [hw w hwne, hD0g, if_neg hwne]
  · refine ⟨hnd.2, by rw [gq, if_neg hne]; exact hs.get, ?_, ?_⟩
    · intro v hvr
      obtain ⟨V', F', hV', hnd', hF', hFv', hFn'⟩ := hs.view v (List.mem_cons_of_mem _ hvr)
      have hfne : V'.frame ≠ V.frame := by
        intro h
        rw [h, hF] at hF'
        cases hF'
        rw [hFv] at hFv'
        simp only [Option.some.injEq, Prod.mk.injEq] at hFv'
        exact hnd.1 (hFv'.2 ▸ hvr)
      exact ⟨V', F', hV', hnd', by rw [gf, if_neg hfne]; exact hF', hFv', hFn'⟩
    · intro f G v hG hGv
      rw [gf] at hG
      split at hG
      · cases hG
        simp only [Option.some.injEq, Prod.mk.injEq] at hGv
        exact absurd hGv.1.symm hne
      · rename_i hfne
        obtain ⟨hmem, V', hV', hVf'⟩ := hs.frames f G v hG hGv
        rcases List.mem_cons.mp hmem with rfl | h
        · rw [hV] at hV'
          cases hV'
          exact absurd hVf'.symm hfne
        · exact ⟨h, V', hV', hVf'⟩
  · intro l w f hwlt
    rw [ho l w f (by omega)]
    exact Iff.rfl
  · refine ⟨_, hv, rfl, rfl, by simp [hlen, hFn], ?_⟩
    intro f sl hfl
    have hflt := (List.getElem?_eq_some_iff.mp hfl).1
    have hflt' : f < news.length := by omega
    have h1 : news[f]? = some news[f] := List.getElem?_eq_getElem hflt'
    obtain ⟨s, h2, h3⟩ := hres f _ h1
    rw [Nat.zero_add, hfl] at h2
    cases h2
    exact ⟨news[f], by simp, h3⟩
  · intro f
    rw [gf]
    by_cases h : f = V.frame
    · subst h; simp [hF]
    · simp [h]
  · intro f hf
    rw [gf, if_neg hf]

end Data
end Verif.Sfm
