import Verif.Spec.SfmExact
import Verif.Lemmas.SfmThree
import Verif.Props.SfmThree
import Verif.Lemmas.SfmTryMerge
import Verif.Lemmas.SfmOptimize

/-! Helper lemmas: reconstructions of exact data, one reconstruction at a time. -/

namespace Verif.Sfm

open Verif.Geo

variable {C : Type} {W : World C} {sc : Scene} {g : Iso ℝ} {s : ℝ}

theorem Scene.viewed_rigid (hr : ∀ f, (sc.pose f).Rigid) (hg : g.Rigid) (s : ℝ) (f : Nat) : (sc.viewed g s f).Rigid :=
  (hr f).mul hg

/-- In other coordinates and units the same bearings are seen. -/
theorem looks_viewed (hs : 0 < s) (hg : g.Rigid) {f : Nat} {b x : V3 ℝ} (h : Looks (sc.pose f) b x) :
    Looks (sc.viewed g s f) b (V3.smul s (g.inv.point x)) := by
  obtain ⟨hb, d, hd, e⟩ := h
  refine ⟨hb, s * d, mul_pos hs hd, ?_⟩
  have h1 : ∀ (a : Iso ℝ) (y : V3 ℝ), (a.scale s).point (V3.smul s y) = V3.smul s (a.point y) := by
    intro a y; lin3
  unfold Scene.viewed
  rw [h1, Iso.point_mul]
  have h2 : g.point (g.inv.point x) = x := by
    rw [← Iso.point_mul, hg.mul_inv]
    lin3
  rw [h2, e]
  lin3

namespace Recon

variable {R R' : Recon (Iso ℝ)}

theorem TrueIn.assigned (hR : R.Consistent) (h : R.TrueIn sc g s) {l v f u k : Nat} {V U : View (Iso ℝ)}
    (h1 : R.Assigned v f l) (h2 : R.Assigned u k l) (hV : R.views.get v = some V) (hU : R.views.get u = some U) :
    sc.point V.frame f = sc.point U.frame k :=
  h.landmarks l v f u k V U ((hR.agree v f l).1 h1) ((hR.agree u k l).1 h2) hV hU

theorem TrueIn.rigid (hsc : ∀ f, (sc.pose f).Rigid) (hg : g.Rigid) (h : R.TrueIn sc g s) : RigidPoses R := by
  intro v V hV
  rw [h.poses v V hV]
  exact Scene.viewed_rigid hsc hg s _

/-- Each landmark of a true reconstruction shows one point. -/
theorem TrueIn.depicts (hR : R.Consistent) (h : R.TrueIn sc g s) {l : Nat} (hl : R.LiveLandmark l) :
    ∃ x, R.Depicts sc l x := by
  obtain ⟨L, hL⟩ := hl
  obtain ⟨v, f, hf⟩ := hR.nonempty l L hL
  obtain ⟨V, hV, hVl⟩ := (hR.agree v f l).2 ⟨L, hL, hf⟩
  exact ⟨sc.point V.frame f, fun u k U hu hU => h.landmarks l u k v f U V hu ⟨L, hL, hf⟩ hU hV⟩

/-- A landmark shows at most one point. -/
theorem Depicts.unique (hR : R.Consistent) {l : Nat} (hl : R.LiveLandmark l) {x y : V3 ℝ} (hx : R.Depicts sc l x)
    (hy : R.Depicts sc l y) : x = y := by
  obtain ⟨L, hL⟩ := hl
  obtain ⟨v, f, hf⟩ := hR.nonempty l L hL
  obtain ⟨V, hV, hVl⟩ := (hR.agree v f l).2 ⟨L, hL, hf⟩
  rw [← hx v f V ⟨L, hL, hf⟩ hV, ← hy v f V ⟨L, hL, hf⟩ hV]

/-- The observations of a true reconstruction are exact. -/
theorem TrueIn.exact (hsc : sc.Seen W) (hg : g.Rigid) (hs : 0 < s) (hR : R.Consistent) (h : R.TrueIn sc g s) {l : Nat}
    (hl : R.LiveLandmark l) : ∃ x, ExactAt W R l x := by
  obtain ⟨x, hx⟩ := h.depicts hR hl
  refine ⟨V3.smul s (g.inv.point x), ?_⟩
  intro v f V b ho hV hb
  rw [h.poses v V hV]
  have := hsc.looks _ _ _ hb
  rw [hx v f V ho hV] at this
  exact looks_viewed hs hg this

/-- `R'` has only views, shared landmarks and constraints of `R`. -/
structure Part (R R' : Recon (Iso ℝ)) : Prop where
  cons : R'.Consistent
  views : ∀ v V', R'.views.get v = some V' → ∃ V, R.views.get v = some V ∧ V'.frame = V.frame ∧ V'.pose = V.pose
  shared : ∀ v f w k l, R'.Assigned v f l → R'.Assigned w k l → ∃ m, R.Assigned v f m ∧ R.Assigned w k m
  constraints : ∀ i c, R'.constraints.get i = some c → ∃ j, R.constraints.get j = some c

theorem Part.refl (h : R.Consistent) : Part R R :=
  ⟨h, fun _ V hV => ⟨V, hV, rfl, rfl⟩, fun _ _ _ _ l h1 h2 => ⟨l, h1, h2⟩, fun i _ h => ⟨i, h⟩⟩

theorem Part.trans {R'' : Recon (Iso ℝ)} (h : Part R R') (h' : Part R' R'') : Part R R'' := by
  refine ⟨h'.cons, ?_, ?_, ?_⟩
  · intro v V'' hV''
    obtain ⟨V', a, b, c⟩ := h'.views v V'' hV''
    obtain ⟨V, a', b', c'⟩ := h.views v V' a
    exact ⟨V, a', b.trans b', c.trans c'⟩
  · intro v f w k l h1 h2
    obtain ⟨m, a, b⟩ := h'.shared v f w k l h1 h2
    exact h.shared v f w k m a b
  · intro i c hc
    obtain ⟨j, hj⟩ := h'.constraints i c hc
    exact h.constraints j c hj

theorem fulfils_of {c : Constraint (Iso ℝ)} (h : R.Fulfils c)
    (hl : R'.LiveView c.v0 ∧ R'.LiveView c.v1 ∧ R'.LiveView c.v2)
    (hp : ∀ v V V', R.views.get v = some V → R'.views.get v = some V' → V'.pose = V.pose) : R'.Fulfils c := by
  obtain ⟨V0, V1, V2, h0, h1, h2, e1, e2⟩ := h
  obtain ⟨⟨U0, k0⟩, ⟨U1, k1⟩, ⟨U2, k2⟩⟩ := hl
  refine ⟨U0, U1, U2, k0, k1, k2, ?_, ?_⟩
  · rw [e1]; unfold relativePose; rw [hp _ _ _ h0 k0, hp _ _ _ h1 k1]
  · rw [e2]; unfold relativePose; rw [hp _ _ _ h0 k0, hp _ _ _ h2 k2]

theorem TrueIn.part (hR : R.Consistent) (hp : Part R R') (h : R.TrueIn sc g s) : R'.TrueIn sc g s := by
  refine ⟨?_, ?_, ?_⟩
  · intro v V' hV'
    obtain ⟨V, hV, e1, e2⟩ := hp.views v V' hV'
    rw [e1, e2]
    exact h.poses v V hV
  · intro l v f u k V' U' h1 h2 hV' hU'
    obtain ⟨V, hV, e1, _⟩ := hp.views v V' hV'
    obtain ⟨U, hU, e2, _⟩ := hp.views u U' hU'
    obtain ⟨m, a, b⟩ := hp.shared v f u k l ((hp.cons.agree v f l).2 h1) ((hp.cons.agree u k l).2 h2)
    rw [e1, e2]
    exact h.assigned hR a b hV hU
  · intro i c hc
    obtain ⟨j, hj⟩ := hp.constraints i c hc
    obtain ⟨l0, l1, l2, _⟩ := hp.cons.constraintsLive i c hc
    refine fulfils_of (h.constraints j c hj) ⟨l0, l1, l2⟩ ?_
    intro v V V' hV hV'
    obtain ⟨U, hU, _, e⟩ := hp.views v V' hV'
    rw [hV] at hU
    cases hU
    exact e

/-- Equal frames and poses, read off one view at a time. -/
theorem same_shape {v : Nat} {V' : View (Iso ℝ)} (h : (R'.views.get v).map (fun V => (V.frame, V.pose, V.landmarks.length)) =
    (R.views.get v).map (fun V => (V.frame, V.pose, V.landmarks.length))) (hV' : R'.views.get v = some V') :
    ∃ V, R.views.get v = some V ∧ V'.frame = V.frame ∧ V'.pose = V.pose := by
  rw [hV'] at h
  cases hV : R.views.get v with
  | none => rw [hV] at h; simp at h
  | some V =>
    rw [hV] at h
    simp only [Option.map_some, Option.some.injEq, Prod.mk.injEq] at h
    exact ⟨V, rfl, h.1, h.2.1⟩

theorem Refines.part (h : Refines R R') : Part R R' :=
  ⟨h.cons, fun v _ hV' => same_shape (h.views v) hV', h.shared, fun i c hc => ⟨i, by rw [← h.constraints]; exact hc⟩⟩

theorem removeView_part (hR : R.Consistent) {v : Nat} {V : View (Iso ℝ)} (hV : R.views.get v = some V)
    (hrun : R.removeView v = some R') : Part R R' := by
  obtain ⟨Q, h1, hc, _, _, hv, hw, ho, he⟩ := removeView_spec hR hV
  rw [hrun] at h1
  cases h1
  refine ⟨hc, ?_, ?_, ?_⟩
  · intro w W hW
    have hne : w ≠ v := by
      rintro rfl
      rw [hv] at hW
      cases hW
    rw [hw w hne] at hW
    exact ⟨W, hW, rfl, rfl⟩
  · intro a f b k l h1 h2
    exact ⟨l, (hR.agree a f l).2 ((ho l a f).1 ((hc.agree a f l).1 h1)).2,
      (hR.agree b k l).2 ((ho l b k).1 ((hc.agree b k l).1 h2)).2⟩
  · intro i c hi
    have := (he (i, c)).1 ((FMap.mem_iff_get hc.constraintsWF.nodup).2 hi)
    exact ⟨i, (FMap.mem_iff_get hR.constraintsWF.nodup).1 this.1⟩

/-- More constraints that hold. -/
theorem TrueIn.constrained (h : R.TrueIn sc g s) (hv : R'.views = R.views) (hl : R'.landmarks = R.landmarks)
    (hc : ∀ k c, R'.constraints.get k = some c → R.Fulfils c) : R'.TrueIn sc g s := by
  refine ⟨by rw [hv]; exact h.poses, ?_, ?_⟩
  · intro l v f u k V U h1 h2 hV hU
    rw [hv] at hV hU
    refine h.landmarks l v f u k V U ?_ ?_ hV hU
    · unfold Observes at h1 ⊢; rwa [hl] at h1
    · unfold Observes at h2 ⊢; rwa [hl] at h2
  · intro k c hk
    have := hc k c hk
    unfold Fulfils at this ⊢
    rwa [hv]

/-! ## The poses of three-view constraints -/

theorem mapM_from {α β : Type} {f : α → Option β} : ∀ {l : List α} {bs : List β}, l.mapM f = some bs →
    ∀ b ∈ bs, ∃ a ∈ l, f a = some b
  | [], bs, h, b, hb => by
    simp at h
    subst h
    simp at hb
  | a :: l, bs, h, b, hb => by
    rw [List.mapM_cons] at h
    cases ha : f a with
    | none => rw [ha] at h; simp at h
    | some c =>
      rw [ha] at h
      cases hl : l.mapM f with
      | none => rw [hl] at h; simp at h
      | some cs =>
        rw [hl] at h
        simp at h
        subst h
        rcases List.mem_cons.1 hb with rfl | hb
        · exact ⟨a, by simp, ha⟩
        · obtain ⟨x, hx, hfx⟩ := mapM_from hl b hb
          exact ⟨x, by simp [hx], hfx⟩

/-- On exact observations, three-view poses are the motions between the cameras. -/
theorem threeViewPoses_relative {v : Nat × Nat × Nat} {ls : List Nat} {t : ThreeSettings}
    {shuffle : List Nat → List Nat} (hs : ∀ l : List Nat, (shuffle l).Perm l) (hrig : RigidPoses R)
    (hx : ∀ l ∈ ls, ∃ x, ExactAt W R l x) {p : Iso ℝ × Iso ℝ} (hp : threeViewPoses W t shuffle R v ls = some (some p)) :
    ∃ V0 V1 V2, R.views.get v.1 = some V0 ∧ R.views.get v.2.1 = some V1 ∧ R.views.get v.2.2 = some V2 ∧
      p.1 = relativePose V0 V1 ∧ p.2 = relativePose V0 V2 := by
  unfold threeViewPoses at hp
  simp only [Option.bind_eq_bind, Option.bind_eq_some_iff] at hp
  obtain ⟨V0, h0, V1, h1, V2, h2, ms, hms, hp⟩ := hp
  refine ⟨V0, V1, V2, h0, h1, h2, ?_⟩
  have r1 : (relativePose V0 V1).Rigid := (hrig _ _ h1).mul (hrig _ _ h0).inv
  have r2 : (relativePose V0 V2).Rigid := (hrig _ _ h2).mul (hrig _ _ h0).inv
  have hfit : ∀ o ∈ ms, FitsThree (relativePose V0 V1, relativePose V0 V2) o := by
    intro o ho
    obtain ⟨l, hl, hlo⟩ := mapM_from hms o ho
    have hl' : l ∈ ls := by
      have := List.mem_of_mem_take hl
      rw [mostObserved] at this
      exact (hs ls).mem_iff.1 ((List.perm_insertionSort _ _).mem_iff.1 this)
    obtain ⟨x, hx⟩ := hx l hl'
    exact fitsThree_of_exact hrig h0 h1 h2 hx (threeBearings_iff.1 hlo)
  have hq := (C55_three_exact r1 r2 hfit 0 0 t.patience).2.2
  unfold relativePose at hq
  rw [hq] at hp
  split at hp
  · cases hp
  · split at hp
    · cases hp
    · rename_i hne
      dsimp only at hne hp
      rw [div_self hne] at hp
      have hone : ∀ a : Iso ℝ, a.scale 1 = a := by intro a; lin3
      rw [hone, hone] at hp
      cases hp
      exact ⟨rfl, rfl⟩

theorem insertConstraints_mem (cs : List (Constraint (Iso ℝ))) : ∀ {R : Recon (Iso ℝ)} {e},
    e ∈ (insertConstraints cs R).constraints.map.entries → e ∈ R.constraints.map.entries ∨ e.2 ∈ cs := by
  induction cs with
  | nil => intro R e h; exact Or.inl h
  | cons c cs ih =>
    intro R e h
    rcases ih h with h | h
    · have : e ∈ R.constraints.map.entries ++ [(R.constraints.next, c)] := h
      rcases List.mem_append.1 this with h | h
      · exact Or.inl h
      · right
        rw [List.mem_singleton.1 h]
        simp
    · exact Or.inr (List.mem_cons_of_mem _ h)

/-- Recording constraints on exact data. -/
theorem TrueIn.record (hsc : sc.Seen W) (hg : g.Rigid) (hs : 0 < s) (hR : R.Consistent) (h : R.TrueIn sc g s)
    {ω : Oracle (Iso ℝ)} (hω : ω.Fair) (hW : ThreeViewBy W ω) {st : Settings} {v : Nat} (hv : R.LiveView v) {x : Bool}
    (hrun : R.recordViewConstraints ω st v = some (R', x)) : R'.TrueIn sc g s := by
  obtain ⟨Q, y, h1, hc, hvw, hlm, _⟩ := record_ok ω st hR hv hω.order hω.sort
  rw [hrun] at h1
  cases h1
  refine h.constrained hvw hlm ?_
  intro k c hk
  obtain ⟨cs, hgen, _, _, hgood⟩ := generate_ok ω st hR hv hω.order hω.sort
  unfold recordViewConstraints at hrun
  rw [hgen] at hrun
  dsimp only at hrun
  split at hrun
  · cases hrun
    exact h.constraints k c hk
  · cases hrun
    rcases insertConstraints_mem cs ((FMap.mem_iff_get hc.constraintsWF.nodup).2 hk) with hm | hm
    · exact h.constraints k c ((FMap.mem_iff_get hR.constraintsWF.nodup).1 hm)
    · have gc := hgood c hm
      obtain ⟨ls, _, _, _, ho, hl⟩ := gc.covisible
      obtain ⟨t, shuffle, hsh, e⟩ := hW
      rw [e] at ho
      dsimp only at ho
      cases hp : threeViewPoses W t shuffle R (c.v0, c.v1, c.v2) ls with
      | none => rw [hp] at ho; simp at ho
      | some p =>
        rw [hp] at ho
        simp only [Option.getD_some] at ho
        rw [ho] at hp
        have hx : ∀ l ∈ ls, ∃ x, ExactAt W R l x := by
          intro l hm
          obtain ⟨f, L, hL, _⟩ := (hl l hm).2.1
          exact h.exact hsc hg hs hR ⟨L, hL⟩
        exact threeViewPoses_relative hsh (h.rigid hsc.rigid hg) hx hp

/-! ## New views and merged landmarks -/

theorem TrueIn.addView (hR : R.Consistent) (h : R.TrueIn sc g s) {frame n : Nat} {ex : Nat → Option (List Nat)}
    (hex : R.ValidMatches n ex) (hm : TrueMatches sc R frame ex)
    (hrun : R.addView frame (sc.viewed g s frame) n ex = some R') : R'.TrueIn sc g s := by
  obtain ⟨Q, lms, h1, hc, hcon, hvn, hln, hnew, hlen, hnews, hfr, hass⟩ :=
    addView_spec hR frame (sc.viewed g s frame) hex
  rw [hrun] at h1
  cases h1
  -- a landmark that was there before shows what its observations show
  have old : ∀ v f l V, R'.Assigned v f l → R'.views.get v = some V → R.LiveLandmark l →
      R.Depicts sc l (sc.point V.frame f) := by
    intro v f l V ha hV hl
    by_cases hvn' : v = R.views.next
    · subst hvn'
      obtain ⟨V', hV', hf⟩ := ha
      rw [hnew] at hV' hV
      cases hV'
      cases hV
      have := hnews f l hf
      cases he : ex f with
      | none =>
        rw [he] at this
        obtain ⟨L, hL⟩ := hl
        have := hR.landmarksWF.fresh _ _ hL
        simp only at *
        omega
      | some ls =>
        rw [he] at this
        exact hm f ls l he (List.mem_of_head? this)
    · obtain ⟨l0, h0, hren⟩ := (hass v f l hvn').1 ha
      obtain ⟨V0, hV0, e, _⟩ := same_shape (hfr v hvn') hV
      have hd : R.Depicts sc l0 (sc.point V0.frame f) := fun u k U hu hU =>
        h.landmarks l0 u k v f U V0 hu ((hR.agree v f l0).1 h0) hU hV0
      rw [e]
      rcases hren with ⟨f0, a, hf0, he, rfl⟩ | ⟨_, rfl⟩
      · have e1 := hm f0 _ l0 he (by simp)
        have e2 := hm f0 _ l he (by simp)
        rwa [hd.unique hR (assigned_live hR h0) e1]
      · exact hd
  have fresh : ∀ v f l, R'.Assigned v f l → ¬ R.LiveLandmark l → v = R.views.next := by
    intro v f l ha hl
    by_contra hvn'
    obtain ⟨l0, h0, hren⟩ := (hass v f l hvn').1 ha
    apply hl
    rcases hren with ⟨f0, a, hf0, he, rfl⟩ | ⟨_, rfl⟩
    · rcases hex.shape f0 _ (List.mem_range.1 hf0) he with ⟨x, hx, _⟩ | ⟨x, y, hx, _, hl, _⟩
      · simp at hx
      · simp only [List.cons.injEq] at hx
        rw [hx.1]
        exact hl
    · exact assigned_live hR h0
  refine ⟨?_, ?_, ?_⟩
  · intro v V hV
    by_cases hvn' : v = R.views.next
    · subst hvn'
      rw [hnew] at hV
      cases hV
      rfl
    · obtain ⟨V0, hV0, e1, e2⟩ := same_shape (hfr v hvn') hV
      rw [e1, e2]
      exact h.poses v V0 hV0
  · intro l v f u k V U o1 o2 hV hU
    have a1 := (hc.agree v f l).2 o1
    have a2 := (hc.agree u k l).2 o2
    by_cases hl : R.LiveLandmark l
    · exact (old v f l V a1 hV hl).unique hR hl (old u k l U a2 hU hl)
    · have e1 := fresh v f l a1 hl
      have e2 := fresh u k l a2 hl
      subst e1
      subst e2
      rw [hV] at hU
      cases hU
      rw [assigned_inj hc a1 a2]
  · intro k c hk
    obtain ⟨l0, l1, l2, _⟩ := hc.constraintsLive k c hk
    rw [hcon] at hk
    refine fulfils_of (h.constraints k c hk) ⟨l0, l1, l2⟩ ?_
    intro v V V' hV hV'
    have hne : v ≠ R.views.next := by
      rintro rfl
      rw [SlotMap.get_next hR.viewsWF] at hV
      cases hV
    obtain ⟨U, hU, _, e⟩ := same_shape (hfr v hne) hV'
    rw [hV] at hU
    cases hU
    exact e

theorem TrueIn.merge (hR : R.Consistent) (h : R.TrueIn sc g s) {a b : Nat} {A B : Landmark} (hab : a ≠ b)
    (hA : R.landmarks.get a = some A) (hB : R.landmarks.get b = some B) (hd : ∀ v, A.get v = none ∨ B.get v = none)
    {x : V3 ℝ} (ha : R.Depicts sc a x) (hb : R.Depicts sc b x) (hrun : R.mergeLandmarks a b = some R') :
    R'.TrueIn sc g s := by
  obtain ⟨Q, h1, hc, hcon, _, _, hv, _, _, _, hass⟩ := mergeLandmarks_spec hR hab hA hB hd
  rw [hrun] at h1
  cases h1
  have hsh := fun v => merge_shape hv v
  have hx : ∀ v f V, (R.Assigned v f a ∨ R.Assigned v f b) → R.views.get v = some V → sc.point V.frame f = x := by
    rintro v f V (h1 | h1) hV
    · exact ha v f V ((hR.agree v f a).1 h1) hV
    · exact hb v f V ((hR.agree v f b).1 h1) hV
  refine ⟨?_, ?_, ?_⟩
  · intro v V hV
    obtain ⟨V0, hV0, e1, e2⟩ := same_shape (hsh v) hV
    rw [e1, e2]
    exact h.poses v V0 hV0
  · intro l v f u k V U o1 o2 hV hU
    obtain ⟨V0, hV0, e1, _⟩ := same_shape (hsh v) hV
    obtain ⟨U0, hU0, e2, _⟩ := same_shape (hsh u) hU
    rw [e1, e2]
    rcases (hass v f l).1 ((hc.agree v f l).2 o1) with ⟨hl, h1⟩ | ⟨hl, hl', h1⟩
    · rcases (hass u k l).1 ((hc.agree u k l).2 o2) with ⟨_, h2⟩ | ⟨hl2, _⟩
      · rw [hx v f V0 h1 hV0, hx u k U0 h2 hU0]
      · exact absurd hl hl2
    · rcases (hass u k l).1 ((hc.agree u k l).2 o2) with ⟨hl2, _⟩ | ⟨_, _, h2⟩
      · exact absurd hl2 hl
      · exact h.assigned hR h1 h2 hV0 hU0
  · intro k c hk
    obtain ⟨l0, l1, l2, _⟩ := hc.constraintsLive k c hk
    rw [hcon] at hk
    refine fulfils_of (h.constraints k c hk) ⟨l0, l1, l2⟩ ?_
    intro v V V' hV hV'
    obtain ⟨U, hU, _, e⟩ := same_shape (hsh v) hV'
    rw [hV] at hU
    cases hU
    exact e

theorem Refines.depicts (hR : R.Consistent) (hr : Refines R R') {a : Nat} (ha : R.LiveLandmark a) {x : V3 ℝ}
    (h : R.Depicts sc a x) : R'.Depicts sc a x := by
  intro v f V ho hV
  obtain ⟨L, hL⟩ := ha
  obtain ⟨V0, hV0, e, _⟩ := same_shape (hr.views v) hV
  rw [e]
  exact h v f V0 ((hR.agree v f a).1 (hr.old a v f (hR.landmarksWF.fresh _ _ hL)
    ((hr.cons.agree v f a).2 ho))) hV0

theorem TrueIn.dedup (hR : R.Consistent) (h : R.TrueIn sc g s) (loss : Recon (Iso ℝ) → Nat → Nat → Nat) {a b : Nat}
    (hA : R.LiveLandmark a) (hB : R.LiveLandmark b) {x : V3 ℝ} (ha : R.Depicts sc a x) (hb : R.Depicts sc b x)
    {y : Option Nat} (hrun : R.mergeDedup loss a b = some (R', y)) : R'.TrueIn sc g s := by
  have hA' := hA
  have hB' := hB
  obtain ⟨A, hA⟩ := hA
  obtain ⟨B, hB⟩ := hB
  by_cases hab : a = b
  · subst hab
    obtain ⟨Q, h1, hr⟩ := mergeDedup_self loss hR hA
    rw [hrun] at h1
    cases h1
    exact h.part hR hr.part
  have hAwf := hR.obsWF a A hA
  obtain ⟨R1, ok, A1, B1, hrun1, hr, _, hA1, hB1, hsame, hres, _, _⟩ :=
    dedupLoop_spec loss hab (dups A B) (ok := true) hR hA hB (dups_nodup hAwf)
      (fun v f g h => (mem_dups hAwf).mp h)
  unfold mergeDedup at hrun
  simp only [hA, hB, hrun1] at hrun
  cases ok with
  | false =>
    cases hrun
    exact h.part hR hr.part
  | true =>
    have hdisj : ∀ v, A1.get v = none ∨ B1.get v = none := by
      intro v
      by_cases hv : v ∈ (dups A B).map Prod.fst
      · obtain ⟨⟨w, f, k⟩, hm, rfl⟩ := List.mem_map.mp hv
        rcases hres rfl w f k hm with ⟨_, h⟩ | ⟨h, _⟩
        · exact Or.inr h
        · exact Or.inl h
      · obtain ⟨h1, h2⟩ := hsame v hv
        rw [h1, h2]
        cases ha : A.get v with
        | none => exact Or.inl rfl
        | some f =>
          cases hb : B.get v with
          | none => exact Or.inr rfl
          | some k => exact absurd (List.mem_map.mpr ⟨(v, f, k), (mem_dups hAwf).mpr ⟨ha, hb⟩, rfl⟩) hv
    have ht := h.part hR hr.part
    dsimp only at hrun
    cases hm : R1.mergeLandmarks a b with
    | none => rw [hm] at hrun; simp at hrun
    | some R2 =>
      rw [hm] at hrun
      simp only [Option.some.injEq, Prod.mk.injEq] at hrun
      rw [← hrun.1]
      exact ht.merge hr.cons hab hA1 hB1 hdisj (hr.depicts hR hA' ha) (hr.depicts hR hB' hb) hm

/-! ## Normalising -/

theorem TrueIn.normalize (hsc : ∀ f, (sc.pose f).Rigid) (hg : g.Rigid) (h : R.TrueIn sc g s) {v : Nat}
    {V : View (Iso ℝ)} (hV : R.views.get v = some V) (a : ℝ) :
    (R.mapPoses (fun p => (p.mul V.pose.inv).scale a) (fun p => p.scale a)).TrueIn sc (sc.pose V.frame).inv (a * s) := by
  have hpose : ∀ f, ((sc.viewed g s f).mul (sc.viewed g s V.frame).inv).scale a =
      sc.viewed (sc.pose V.frame).inv (a * s) f := by
    intro f
    unfold Scene.viewed
    rw [← Iso.scale_inv', ← Iso.scale_mul', inv_of_mul (hsc V.frame), Iso.mul_assoc, ← Iso.mul_assoc g, hg.mul_inv,
      Iso.one_mul]
    generalize (sc.pose f).mul (sc.pose V.frame).inv = q
    lin3
  have hrel : ∀ A B : View (Iso ℝ), A.pose.Rigid → (relativePose A B).scale a =
      relativePose { A with pose := (A.pose.mul V.pose.inv).scale a } { B with pose := (B.pose.mul V.pose.inv).scale a } := by
    intro A B hA
    have hV' : V.pose.Rigid := h.rigid hsc hg _ _ hV
    dsimp only [relativePose]
    rw [← Iso.scale_inv', ← Iso.scale_mul', inv_of_mul hA, hV'.inv_inv, Iso.mul_assoc, ← Iso.mul_assoc V.pose.inv,
      hV'.inv_mul, Iso.one_mul]
  refine ⟨?_, ?_, ?_⟩
  · intro u U' hU'
    rw [mapPoses_views] at hU'
    obtain ⟨U, hU, rfl⟩ := Option.map_eq_some_iff.1 hU'
    dsimp only
    rw [h.poses u U hU, h.poses v V hV, hpose]
  · intro l u f w k U' X' h1 h2 hU' hX'
    rw [mapPoses_views] at hU' hX'
    obtain ⟨U, hU, rfl⟩ := Option.map_eq_some_iff.1 hU'
    obtain ⟨X, hX, rfl⟩ := Option.map_eq_some_iff.1 hX'
    exact h.landmarks l u f w k U X h1 h2 hU hX
  · intro k c' hk
    rw [mapPoses_constraints] at hk
    obtain ⟨c, hc, rfl⟩ := Option.map_eq_some_iff.1 hk
    obtain ⟨V0, V1, V2, h0, h1, h2, e1, e2⟩ := h.constraints k c hc
    refine ⟨_, _, _, by rw [mapPoses_views, h0]; rfl, by rw [mapPoses_views, h1]; rfl,
      by rw [mapPoses_views, h2]; rfl, ?_, ?_⟩
    · dsimp only
      rw [e1]
      exact hrel V0 V1 (h.rigid hsc hg _ _ h0)
    · dsimp only
      rw [e2]
      exact hrel V0 V2 (h.rigid hsc hg _ _ h0)

end Recon
end Verif.Sfm
