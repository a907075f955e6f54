import Verif.Lemmas.SfmAddView

/-! Helper lemmas: effect of each operation on the whole data. -/

namespace Verif.Sfm
namespace Data
variable {P : Type}

/-- Consistency that ignores the reconstructions in `S` (used while a reconstruction is being
merged into another one). -/
structure ConsistentOff (S : Nat → Prop) (d : Data P) : Prop where
  feedsWF : d.feeds.WF
  framesWF : d.frames.WF
  reconsWF : d.recons.WF
  recons : ∀ r R, ¬ S r → d.recons.get r = some R → R.Consistent
  viewFrame : ∀ r R v V, ¬ S r → d.recons.get r = some R → R.views.get v = some V →
    ∃ F, d.frames.get V.frame = some F ∧ F.view = some (r, v) ∧ V.landmarks.length = F.nfeat
  frameView : ∀ f F r v, ¬ S r → d.frames.get f = some F → F.view = some (r, v) →
    ∃ R V, d.recons.get r = some R ∧ R.views.get v = some V ∧ V.frame = f
  feedFrames : ∀ k fs i f, d.feeds.get k = some fs → fs[i]? = some f →
    ∃ F, d.frames.get f = some F ∧ F.feed = k ∧ F.feedFrame = i
  frameFeed : ∀ f F, d.frames.get f = some F →
    ∃ fs, d.feeds.get F.feed = some fs ∧ fs[F.feedFrame]? = some f

theorem Consistent.off {d : Data P} (h : d.Consistent) (S : Nat → Prop) : d.ConsistentOff S :=
  ⟨h.feedsWF, h.framesWF, h.reconsWF, fun r R _ => h.recons r R,
    fun r R v V _ => h.viewFrame r R v V, fun f F r v _ => h.frameView f F r v,
    h.feedFrames, h.frameFeed⟩

theorem ConsistentOff.on {d : Data P} (h : d.ConsistentOff (fun _ => False)) : d.Consistent :=
  ⟨h.feedsWF, h.framesWF, h.reconsWF, fun r R => h.recons r R id,
    fun r R v V => h.viewFrame r R v V id, fun f F r v => h.frameView f F r v id,
    h.feedFrames, h.frameFeed⟩

theorem empty_consistent : (Data.empty : Data P).Consistent := by
  refine ⟨SlotMap.wf_empty, SlotMap.wf_empty, SlotMap.wf_empty, ?_, ?_, ?_, ?_, ?_⟩ <;>
    intros <;> simp_all [Data.empty]

variable {S : Nat → Prop}

/-- Replacing a reconstruction by a consistent one with the same views (up to pose and
landmark names). -/
theorem replaceRecon {d : Data P} (hd : d.ConsistentOff S) {r : Nat} {R R' : Recon P}
    (hR : d.recons.get r = some R) (hR' : R'.Consistent)
    (hviews : ∀ v, (R'.views.get v).map (fun V => (V.frame, V.landmarks.length)) =
      (R.views.get v).map (fun V => (V.frame, V.landmarks.length))) :
    ({ d with recons := d.recons.modify r (fun _ => R') } : Data P).ConsistentOff S := by
  have hget : ∀ q, (d.recons.modify r (fun _ => R')).get q =
      if q = r then some R' else d.recons.get q := by
    intro q
    rw [SlotMap.get_modify]
    by_cases h : q = r
    · subst h; simp [hR]
    · simp [h]
  refine ⟨hd.feedsWF, hd.framesWF, SlotMap.wf_modify hd.reconsWF _ _, ?_, ?_, ?_,
    hd.feedFrames, hd.frameFeed⟩
  · intro q Q hS hQ
    replace hQ : (d.recons.modify r (fun _ => R')).get q = some Q := hQ
    rw [hget] at hQ
    split at hQ
    · exact Option.some.inj hQ ▸ hR'
    · exact hd.recons q Q hS hQ
  · intro q Q v V hS hQ hV
    replace hQ : (d.recons.modify r (fun _ => R')).get q = some Q := hQ
    rw [hget] at hQ
    split at hQ
    · rename_i hq; subst hq
      obtain rfl := Option.some.inj hQ
      have h := hviews v
      rw [hV] at h
      cases hV0 : R.views.get v with
      | none => rw [hV0] at h; simp at h
      | some V0 =>
        rw [hV0] at h
        simp only [Option.map_some, Option.some.injEq, Prod.mk.injEq] at h
        rw [h.1, h.2]
        exact hd.viewFrame q R v V0 hS hR hV0
    · exact hd.viewFrame q Q v V hS hQ hV
  · intro f F q v hS hF hFv
    obtain ⟨Q, V, hQ, hV, hf⟩ := hd.frameView f F q v hS hF hFv
    by_cases hq : q = r
    · subst hq
      rw [hR] at hQ; cases hQ
      have h := hviews v
      rw [hV] at h
      cases hV1 : R'.views.get v with
      | none => rw [hV1] at h; simp at h
      | some V1 =>
        rw [hV1] at h
        simp only [Option.map_some, Option.some.injEq, Prod.mk.injEq] at h
        refine ⟨R', V1, ?_, hV1, h.1.trans hf⟩
        show (d.recons.modify q _).get q = _
        rw [hget]; simp
    · refine ⟨Q, V, ?_, hV, hf⟩
      show (d.recons.modify r _).get q = _
      rw [hget]; simp [hq, hQ]

theorem addFeed_consistent {d : Data P} (hd : d.ConsistentOff S) :
    d.addFeed.ConsistentOff S := by
  have hget : ∀ k, (d.feeds.insert []).get k = if k = d.feeds.next then some [] else
      d.feeds.get k := SlotMap.get_insert hd.feedsWF []
  refine ⟨SlotMap.wf_insert hd.feedsWF _, hd.framesWF, hd.reconsWF, hd.recons, hd.viewFrame,
    hd.frameView, ?_, ?_⟩
  · intro k fs i f hk hi
    have hk : (d.feeds.insert []).get k = some fs := hk
    rw [hget] at hk
    split at hk
    · cases hk; simp at hi
    · exact hd.feedFrames k fs i f hk hi
  · intro f F hF
    obtain ⟨fs, hfs, hi⟩ := hd.frameFeed f F hF
    refine ⟨fs, ?_, hi⟩
    show (d.feeds.insert []).get _ = _
    rw [hget]
    have : F.feed ≠ d.feeds.next := by
      have := hd.feedsWF.fresh _ _ hfs
      omega
    simp [this, hfs]

theorem addFrame_spec {d : Data P} (hd : d.ConsistentOff S) {feed : Nat} {fs : List Nat}
    (hfs : d.feeds.get feed = some fs) (n : Nat) :
    ∃ d', d.addFrame feed n = some d' ∧ d'.ConsistentOff S ∧ d'.recons = d.recons ∧
      d'.frames.get d.frames.next = some ⟨feed, fs.length, n, none⟩ ∧
      (∀ f, f ≠ d.frames.next → d'.frames.get f = d.frames.get f) := by
  let d' : Data P := { d with
      frames := d.frames.insert ⟨feed, fs.length, n, none⟩
      feeds := d.feeds.modify feed (fun fs => fs ++ [d.frames.next]) }
  have hrun : d.addFrame feed n = some d' := by unfold addFrame; rw [hfs]
  have gf : ∀ f, d'.frames.get f = if f = d.frames.next then some ⟨feed, fs.length, n, none⟩
      else d.frames.get f := fun f => SlotMap.get_insert hd.framesWF _ f
  have gk : ∀ k, d'.feeds.get k = if k = feed then some (fs ++ [d.frames.next])
      else d.feeds.get k := by
    intro k
    show (d.feeds.modify feed _).get k = _
    rw [SlotMap.get_modify]
    by_cases h : k = feed
    · subst h; simp [hfs]
    · simp [h]
  have hfresh : ∀ f F, d.frames.get f = some F → f ≠ d.frames.next := by
    intro f F hF
    have := hd.framesWF.fresh _ _ hF
    omega
  refine ⟨d', hrun, ?_, rfl, by rw [gf]; simp, fun f hf => by rw [gf]; simp [hf]⟩
  refine ⟨SlotMap.wf_modify hd.feedsWF _ _, SlotMap.wf_insert hd.framesWF _, hd.reconsWF,
    hd.recons, ?_, ?_, ?_, ?_⟩
  · intro r R v V hS hR hV
    obtain ⟨F, hF, h⟩ := hd.viewFrame r R v V hS hR hV
    exact ⟨F, by rw [gf]; simp [hfresh _ _ hF, hF], h⟩
  · intro f F r v hS hF hv
    rw [gf] at hF
    split at hF
    · cases hF; cases hv
    · exact hd.frameView f F r v hS hF hv
  · intro k gs i f hk hi
    rw [gk] at hk
    split at hk
    · rename_i hkf
      subst hkf
      cases hk
      rw [List.getElem?_append] at hi
      split at hi
      · obtain ⟨F, hF, h⟩ := hd.feedFrames k fs i f hfs hi
        exact ⟨F, by rw [gf]; simp [hfresh _ _ hF, hF], h⟩
      · rename_i hlt
        have hi0 : i - fs.length = 0 := by
          have := (List.getElem?_eq_some_iff.mp hi).1
          simp at this; omega
        rw [hi0] at hi
        simp at hi
        subst hi
        refine ⟨⟨k, fs.length, n, none⟩, by rw [gf]; simp, rfl, ?_⟩
        show fs.length = i
        omega
    · obtain ⟨F, hF, h⟩ := hd.feedFrames k gs i f hk hi
      exact ⟨F, by rw [gf]; simp [hfresh _ _ hF, hF], h⟩
  · intro f F hF
    rw [gf] at hF
    split at hF
    · rename_i hf
      cases hF
      refine ⟨fs ++ [d.frames.next], by rw [gk]; simp, ?_⟩
      simp [hf]
    · obtain ⟨gs, hgs, hi⟩ := hd.frameFeed f F hF
      by_cases hk : F.feed = feed
      · rw [hk, hfs] at hgs
        cases hgs
        refine ⟨fs ++ [d.frames.next], by rw [gk]; simp [hk], ?_⟩
        rw [List.getElem?_append]
        have := (List.getElem?_eq_some_iff.mp hi).1
        simp only [this, if_true, hi]
      · exact ⟨gs, by rw [gk]; simp [hk, hgs], hi⟩

/-- The number of features and the feed data of a frame never depend on its back pointer. -/
theorem feeds_of_frames {d d' : Data P} (hfeeds : d'.feeds = d.feeds)
    (hfr : ∀ f, (d'.frames.get f).map (fun F => (F.feed, F.feedFrame)) =
      (d.frames.get f).map (fun F => (F.feed, F.feedFrame)))
    (hd : d.ConsistentOff S) :
    (∀ k fs i f, d'.feeds.get k = some fs → fs[i]? = some f →
      ∃ F, d'.frames.get f = some F ∧ F.feed = k ∧ F.feedFrame = i) ∧
    (∀ f F, d'.frames.get f = some F →
      ∃ fs, d'.feeds.get F.feed = some fs ∧ fs[F.feedFrame]? = some f) := by
  constructor
  · intro k fs i f hk hi
    rw [hfeeds] at hk
    obtain ⟨F, hF, h1, h2⟩ := hd.feedFrames k fs i f hk hi
    have h := hfr f
    rw [hF] at h
    cases hF' : d'.frames.get f with
    | none => rw [hF'] at h; simp at h
    | some F' =>
      rw [hF'] at h
      simp only [Option.map_some, Option.some.injEq, Prod.mk.injEq] at h
      exact ⟨F', rfl, h.1.trans h1, h.2.trans h2⟩
  · intro f F hF
    have h := hfr f
    rw [hF] at h
    cases hF0 : d.frames.get f with
    | none => rw [hF0] at h; simp at h
    | some F0 =>
      rw [hF0] at h
      simp only [Option.map_some, Option.some.injEq, Prod.mk.injEq] at h
      obtain ⟨fs, hfs, hi⟩ := hd.frameFeed f F0 hF0
      exact ⟨fs, by rw [hfeeds, h.1]; exact hfs, by rw [h.2]; exact hi⟩

/-- Effect of `add_view`. -/
theorem addView_spec {d : Data P} (hd : d.ConsistentOff S) {r frame : Nat} {R : Recon P}
    {F : Frame} (hS : ¬ S r) (hR : d.recons.get r = some R) (hF : d.frames.get frame = some F)
    (hFv : ∀ q v, F.view = some (q, v) → S q) (pose : P) {ex : Nat → Option (List Nat)}
    (hex : R.ValidMatches F.nfeat ex) :
    ∃ d' R' lms, d.addView r frame pose ex = some d' ∧ d'.ConsistentOff S ∧
      R.addView frame pose F.nfeat ex = some R' ∧
      d'.recons.next = d.recons.next ∧
      d'.recons.get r = some R' ∧ (∀ q, q ≠ r → d'.recons.get q = d.recons.get q) ∧
      R'.views.get R.views.next = some ⟨frame, pose, lms⟩ ∧
      d'.frames.get frame = some { F with view := some (r, R.views.next) } ∧
      (∀ f, f ≠ frame → d'.frames.get f = d.frames.get f) ∧
      d'.feeds = d.feeds := by
  obtain ⟨R', lms, hrun, hcons, hcon, hvn, hln, hgv, hlen, hnews, hfr, hass⟩ :=
    Recon.addView_spec (hd.recons r R hS hR) frame pose hex
  let d1 : Data P := { d with
      frames := d.frames.modify frame (fun F => { F with view := some (r, R.views.next) }) }
  have gf : ∀ f, d1.frames.get f =
      if f = frame then some { F with view := some (r, R.views.next) } else d.frames.get f := by
    intro f
    show (d.frames.modify frame _).get f = _
    rw [SlotMap.get_modify]
    by_cases h : f = frame
    · subst h; simp [hF]
    · simp [h]
  let d' : Data P := { d1 with recons := d.recons.modify r (fun _ => R') }
  have gq : ∀ q, d'.recons.get q = if q = r then some R' else d.recons.get q := by
    intro q
    show (d.recons.modify r _).get q = _
    rw [SlotMap.get_modify]
    by_cases h : q = r
    · subst h; simp [hR]
    · simp [h]
  have hrun' : d.addView r frame pose ex = some d' := by
    unfold addView
    simp only [hR]
    have h1 : d.setFrameView frame (some (r, R.views.next)) = some d1 := by
      unfold setFrameView; rw [hF]
    rw [h1]
    have h2 : d1.frames.get frame = some { F with view := some (r, R.views.next) } := by
      rw [gf]; simp
    simp only [h2]
    unfold onRecon
    have h3 : d1.recons.get r = some R := hR
    rw [h3]
    simp only [hrun]
    rfl
  have hVnone : R.views.get R.views.next = none := SlotMap.get_next (hd.recons r R hS hR).viewsWF
  have hff := feeds_of_frames (d := d) (d' := d') rfl (by
      intro f
      show (d1.frames.get f).map _ = _
      rw [gf]
      by_cases h : f = frame
      · subst h; simp [hF]
      · simp [h]) hd
  refine ⟨d', R', lms, hrun', ?_, hrun, rfl, by rw [gq]; simp, fun q hq => by rw [gq]; simp [hq], hgv,
    by show d1.frames.get frame = _; rw [gf]; simp,
    fun f hf => by show d1.frames.get f = _; rw [gf]; simp [hf], rfl⟩
  refine ⟨hd.feedsWF, SlotMap.wf_modify hd.framesWF _ _, SlotMap.wf_modify hd.reconsWF _ _,
    ?_, ?_, ?_, hff.1, hff.2⟩
  · intro q Q hSq hQ
    rw [gq] at hQ
    split at hQ
    · cases hQ; exact hcons
    · exact hd.recons q Q hSq hQ
  · intro q Q v V hSq hQ hV
    show ∃ F, d1.frames.get V.frame = some F ∧ _
    rw [gf]
    rw [gq] at hQ
    split at hQ
    · rename_i hq
      subst hq
      cases hQ
      by_cases hv : v = R.views.next
      · subst hv
        rw [hgv] at hV
        cases hV
        exact ⟨{ F with view := some (q, R.views.next) }, by simp, rfl, hlen⟩
      · have h := hfr v hv
        rw [hV] at h
        cases hV0 : R.views.get v with
        | none => rw [hV0] at h; simp at h
        | some V0 =>
          rw [hV0] at h
          simp only [Option.map_some, Option.some.injEq, Prod.mk.injEq] at h
          obtain ⟨F0, hF0, hFv0, hl0⟩ := hd.viewFrame q R v V0 hSq hR hV0
          have hne : V.frame ≠ frame := by
            rw [h.1]
            rintro hh
            rw [hh, hF] at hF0
            cases hF0
            exact hSq (hFv q v hFv0)
          simp only [hne, if_false]
          exact ⟨F0, by rw [h.1]; exact hF0, hFv0, by rw [h.2.2]; exact hl0⟩
    · obtain ⟨F0, hF0, hFv0, hl0⟩ := hd.viewFrame q Q v V hSq hQ hV
      have hne : V.frame ≠ frame := by
        rintro hh
        rw [hh, hF] at hF0
        cases hF0
        exact hSq (hFv q v hFv0)
      simp only [hne, if_false]
      exact ⟨F0, hF0, hFv0, hl0⟩
  · intro f G q v hSq hG hGv
    have hG : d1.frames.get f = some G := hG
    rw [gf] at hG
    rw [gq]
    split at hG
    · rename_i hf
      cases hG
      simp only [Option.some.injEq, Prod.mk.injEq] at hGv
      obtain ⟨rfl, rfl⟩ := hGv
      exact ⟨R', _, by simp, hgv, hf.symm⟩
    · obtain ⟨Q, V, hQ, hV, hVf⟩ := hd.frameView f G q v hSq hG hGv
      by_cases hq : q = r
      · subst hq
        rw [hR] at hQ
        cases hQ
        have hv : v ≠ R.views.next := by rintro rfl; rw [hVnone] at hV; cases hV
        have h := hfr v hv
        rw [hV] at h
        cases hV1 : R'.views.get v with
        | none => rw [hV1] at h; simp at h
        | some V1 =>
          rw [hV1] at h
          simp only [Option.map_some, Option.some.injEq, Prod.mk.injEq] at h
          exact ⟨R', V1, by simp, hV1, h.1.trans hVf⟩
      · exact ⟨Q, V, by simp [hq, hQ], hV, hVf⟩

/-- Effect of `remove_view`. -/
theorem removeView_spec {d : Data P} (hd : d.ConsistentOff S) {r v : Nat} {R : Recon P}
    {V : View P} (hS : ¬ S r) (hR : d.recons.get r = some R) (hV : R.views.get v = some V) :
    ∃ d' R' F, d.removeView r v = some d' ∧ d'.ConsistentOff S ∧
      R.removeView v = some R' ∧ d'.recons.next = d.recons.next ∧
      d'.recons.get r = some R' ∧ (∀ q, q ≠ r → d'.recons.get q = d.recons.get q) ∧
      d.frames.get V.frame = some F ∧
      d'.frames.get V.frame = some { F with view := none } ∧
      (∀ f, f ≠ V.frame → d'.frames.get f = d.frames.get f) ∧
      d'.feeds = d.feeds := by
  obtain ⟨R', hrun, hcons, hvn, hln, hgv, hgw, hO, hC⟩ :=
    Recon.removeView_spec (hd.recons r R hS hR) hV
  obtain ⟨F, hF, hFv, hFl⟩ := hd.viewFrame r R v V hS hR hV
  let d1 : Data P := { d with
      frames := d.frames.modify V.frame (fun F => { F with view := none }) }
  have gf : ∀ f, d1.frames.get f =
      if f = V.frame then some { F with view := none } else d.frames.get f := by
    intro f
    show (d.frames.modify V.frame _).get f = _
    rw [SlotMap.get_modify]
    by_cases h : f = V.frame
    · subst h; simp [hF]
    · simp [h]
  let d' : Data P := { d1 with recons := d.recons.modify r (fun _ => R') }
  have gq : ∀ q, d'.recons.get q = if q = r then some R' else d.recons.get q := by
    intro q
    show (d.recons.modify r _).get q = _
    rw [SlotMap.get_modify]
    by_cases h : q = r
    · subst h; simp [hR]
    · simp [h]
  have hrun' : d.removeView r v = some d' := by
    unfold removeView
    simp only [hR, Option.bind_some, hV]
    have h1 : d.setFrameView V.frame none = some d1 := by
      unfold setFrameView; rw [hF]
    rw [h1]
    unfold onRecon
    have h3 : d1.recons.get r = some R := hR
    simp only [h3, hrun]
    rfl
  have hff := feeds_of_frames (d := d) (d' := d') rfl (by
      intro f
      show (d1.frames.get f).map _ = _
      rw [gf]
      by_cases h : f = V.frame
      · rw [h]; simp [hF]
      · simp [h]) hd
  refine ⟨d', R', F, hrun', ?_, hrun, rfl, by rw [gq]; simp, fun q hq => by rw [gq]; simp [hq], hF,
    by show d1.frames.get V.frame = _; rw [gf]; simp,
    fun f hf => by show d1.frames.get f = _; rw [gf]; simp [hf], rfl⟩
  refine ⟨hd.feedsWF, SlotMap.wf_modify hd.framesWF _ _, SlotMap.wf_modify hd.reconsWF _ _,
    ?_, ?_, ?_, hff.1, hff.2⟩
  · intro q Q hSq hQ
    rw [gq] at hQ
    split at hQ
    · cases hQ; exact hcons
    · exact hd.recons q Q hSq hQ
  · intro q Q w W hSq hQ hW
    show ∃ F, d1.frames.get W.frame = some F ∧ _
    rw [gf]
    have key : ∃ Q0, d.recons.get q = some Q0 ∧ Q0.views.get w = some W ∧ ¬ (q = r ∧ w = v) := by
      rw [gq] at hQ
      split at hQ
      · rename_i hq
        subst hq
        cases hQ
        have hwv : w ≠ v := by rintro rfl; rw [hgv] at hW; cases hW
        exact ⟨R, hR, by rw [← hgw w hwv]; exact hW, fun h => hwv h.2⟩
      · rename_i hq
        exact ⟨Q, hQ, hW, fun h => hq h.1⟩
    obtain ⟨Q0, hQ0, hW0, hne⟩ := key
    obtain ⟨F0, hF0, hFv0, hl0⟩ := hd.viewFrame q Q0 w W hSq hQ0 hW0
    have hne : W.frame ≠ V.frame := by
      intro hh
      rw [hh, hF] at hF0
      cases hF0
      rw [hFv] at hFv0
      simp only [Option.some.injEq, Prod.mk.injEq] at hFv0
      exact hne ⟨hFv0.1.symm, hFv0.2.symm⟩
    simp only [hne, if_false]
    exact ⟨F0, hF0, hFv0, hl0⟩
  · intro f G q w hSq hG hGv
    have hG : d1.frames.get f = some G := hG
    rw [gf] at hG
    rw [gq]
    split at hG
    · cases hG; cases hGv
    · rename_i hfne
      obtain ⟨Q, W, hQ, hW, hWf⟩ := hd.frameView f G q w hSq hG hGv
      by_cases hq : q = r
      · subst hq
        rw [hR] at hQ
        cases hQ
        have hw : w ≠ v := by
          rintro rfl
          rw [hV] at hW; cases hW
          exact hfne hWf.symm
        exact ⟨R', W, by simp, by rw [hgw w hw]; exact hW, hWf⟩
      · exact ⟨Q, W, by simp [hq, hQ], hW, hWf⟩

/-- Clearing the back pointers of the frames of some views. -/
theorem clearFrames_spec (Vs : List (View P)) : ∀ (d : Data P),
    (∀ V, V ∈ Vs → ∃ F, d.frames.get V.frame = some F) →
    ∃ d', clearFrames Vs d = some d' ∧ d'.recons = d.recons ∧ d'.feeds = d.feeds ∧
      (d.frames.WF → d'.frames.WF) ∧
      (∀ f, d'.frames.get f = (d.frames.get f).map (fun F =>
        if f ∈ Vs.map View.frame then { F with view := none } else F)) := by
  induction Vs with
  | nil =>
    intro d _
    exact ⟨d, rfl, rfl, rfl, id, by intro f; simp⟩
  | cons V Vs ih =>
    intro d hlive
    obtain ⟨F, hF⟩ := hlive V (by simp)
    let d1 : Data P := { d with
      frames := d.frames.modify V.frame (fun F => { F with view := none }) }
    have h1 : d.setFrameView V.frame none = some d1 := by
      unfold setFrameView; rw [hF]
    have gf : ∀ f, d1.frames.get f = (d.frames.get f).map (fun F =>
        if f = V.frame then { F with view := none } else F) := by
      intro f
      show (d.frames.modify V.frame _).get f = _
      rw [SlotMap.get_modify]
      by_cases h : f = V.frame
      · simp [h]
      · simp [h]
    obtain ⟨d', hr, h2, h3, h4, h5⟩ := ih d1 (by
      intro W hW
      obtain ⟨G, hG⟩ := hlive W (List.mem_cons_of_mem _ hW)
      rw [gf, hG]
      simp)
    refine ⟨d', ?_, h2, h3, fun h => h4 (SlotMap.wf_modify h _ _), ?_⟩
    · show (match d.setFrameView V.frame none with
        | none => none
        | some d1 => clearFrames Vs d1) = _
      rw [h1]; exact hr
    · intro f
      rw [h5, gf]
      cases hg : d.frames.get f with
      | none => rfl
      | some G =>
        simp only [Option.map_some, Option.some.injEq, List.map_cons, List.mem_cons]
        by_cases ha : f = V.frame
        · simp [ha]
        · by_cases hb : f ∈ Vs.map View.frame
          · simp [ha, hb]
          · simp [ha, hb]

/-- Effect of `remove_reconstruction`. -/
theorem removeReconstruction_spec {d : Data P} (hd : d.Consistent) {r : Nat} {R : Recon P}
    (hR : d.recons.get r = some R) :
    ∃ d', d.removeReconstruction r = some d' ∧ d'.Consistent ∧
      d'.recons.next = d.recons.next ∧ d'.recons.get r = none ∧
      (∀ q, q ≠ r → d'.recons.get q = d.recons.get q) ∧
      (∀ f, d'.frames.get f = (d.frames.get f).map (fun F =>
        if F.view.map Prod.fst = some r then { F with view := none } else F)) ∧
      d'.feeds = d.feeds := by
  have hRw := (hd.recons r R hR).viewsWF
  obtain ⟨d1, hr, h2, h3, h4, h5⟩ := clearFrames_spec (R.views.map.entries.map Prod.snd) d (by
    intro V hV
    obtain ⟨⟨v, V'⟩, hm, rfl⟩ := List.mem_map.mp hV
    obtain ⟨F, hF, _⟩ := hd.viewFrame r R v V' hR (FMap.get_of_mem hRw.nodup hm)
    exact ⟨F, hF⟩)
  let d' : Data P := { d1 with recons := d1.recons.erase r }
  have hmem : ∀ f F, d.frames.get f = some F →
      (f ∈ (R.views.map.entries.map Prod.snd).map View.frame ↔ ∃ v, F.view = some (r, v)) := by
    intro f F hF
    constructor
    · intro h
      obtain ⟨V, hV, rfl⟩ := List.mem_map.mp h
      obtain ⟨⟨v, V'⟩, hm, rfl⟩ := List.mem_map.mp hV
      obtain ⟨F', hF', hFv, _⟩ := hd.viewFrame r R v V' hR (FMap.get_of_mem hRw.nodup hm)
      rw [hF] at hF'; cases hF'
      exact ⟨v, hFv⟩
    · rintro ⟨v, hv⟩
      obtain ⟨R', V, hR', hV, hf⟩ := hd.frameView f F r v hF hv
      rw [hR] at hR'; cases hR'
      have := FMap.mem_of_get hV
      exact List.mem_map.mpr ⟨V, List.mem_map.mpr ⟨(v, V), this, rfl⟩, hf⟩
  have gf : ∀ f, d1.frames.get f = (d.frames.get f).map (fun F =>
        if F.view.map Prod.fst = some r then { F with view := none } else F) := by
    intro f
    rw [h5]
    cases hF : d.frames.get f with
    | none => rfl
    | some F =>
      simp only [Option.map_some, Option.some.injEq]
      have hm := hmem f F hF
      have : (∃ v, F.view = some (r, v)) ↔ F.view.map Prod.fst = some r := by simp
      by_cases h : F.view.map Prod.fst = some r
      · rw [if_pos h, if_pos (hm.mpr (this.mpr h))]
      · rw [if_neg h, if_neg (fun hh => h (this.mp (hm.mp hh)))]
  have gq : ∀ q, d'.recons.get q = if q = r then none else d.recons.get q := by
    intro q
    show (d1.recons.erase r).get q = _
    rw [SlotMap.get_erase, h2]
  have hrun : d.removeReconstruction r = some d' := by
    unfold removeReconstruction
    simp only [hR, hr]
    rfl
  have hff := feeds_of_frames (S := fun _ => False) (d := d) (d' := d') h3 (by
      intro f
      show (d1.frames.get f).map _ = _
      rw [gf]
      cases hF : d.frames.get f with
      | none => rfl
      | some F =>
        simp only [Option.map_some]
        split <;> rfl) (hd.off _)
  refine ⟨d', hrun, ?_, by show d1.recons.next = _; rw [h2], by rw [gq]; simp,
    fun q hq => by rw [gq]; simp [hq], gf, h3⟩
  refine ⟨by show d1.feeds.WF; rw [h3]; exact hd.feedsWF, h4 hd.framesWF,
    by show (d1.recons.erase r).WF; rw [h2]; exact SlotMap.wf_erase hd.reconsWF _,
    ?_, ?_, ?_, hff.1, hff.2⟩
  · intro q Q hQ
    rw [gq] at hQ
    split at hQ
    · cases hQ
    · exact hd.recons q Q hQ
  · intro q Q v V hQ hV
    rw [gq] at hQ
    split at hQ
    · cases hQ
    · rename_i hq
      obtain ⟨F, hF, hFv, hl⟩ := hd.viewFrame q Q v V hQ hV
      refine ⟨F, ?_, hFv, hl⟩
      show d1.frames.get V.frame = _
      rw [gf, hF]
      simp only [Option.map_some, Option.some.injEq]
      rw [if_neg]
      intro hw
      rw [hFv] at hw
      simp only [Option.map_some, Option.some.injEq] at hw
      exact hq hw
  · intro f G q v hG hGv
    have hG : d1.frames.get f = some G := hG
    rw [gf] at hG
    cases hF : d.frames.get f with
    | none => rw [hF] at hG; cases hG
    | some F =>
      rw [hF] at hG
      simp only [Option.map_some, Option.some.injEq] at hG
      split at hG
      · subst hG; cases hGv
      · rename_i hne
        subst hG
        obtain ⟨Q, V, hQ, hV, hVf⟩ := hd.frameView f F q v hF hGv
        have hq : q ≠ r := by rintro rfl; exact hne (by rw [hGv]; rfl)
        exact ⟨Q, V, by rw [gq]; simp [hq, hQ], hV, hVf⟩

end Data
end Verif.Sfm
