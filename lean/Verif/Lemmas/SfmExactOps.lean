import Verif.Lemmas.SfmExact
import Verif.Lemmas.PoseGraphMoves
import Verif.Lemmas.SfmInit
import Verif.Props.PoseGraph

/-! Helper lemmas: the operations on exact data. -/

namespace Verif.Sfm

open Verif.Geo

variable {C : Type} {W : World C} {sc : Scene} {g : Iso ℝ} {s : ℝ}

/-! ## Optimising -/

/-- All edges agree with the poses. -/
def EdgesHold (R : Recon (Iso ℝ)) (edges : List (Nat × Nat × Iso ℝ)) : Prop :=
  ∀ e ∈ edges, ∀ A B, R.views.get e.1 = some A → R.views.get e.2.1 = some B → e.2.2.mul B.pose = A.pose

theorem constrainPose_fixed {rate : ℝ} {R : Recon (Iso ℝ)} {v : Nat} {V : View (Iso ℝ)} {es : List (Nat × Iso ℝ)}
    (hV : R.views.get v = some V) (hr : V.pose.Rigid)
    (h : ∀ e ∈ es, ∀ O, R.views.get e.1 = some O → e.2.mul O.pose = V.pose) {p : Iso ℝ}
    (hp : constrainPose rate R v es = some p) : p = V.pose := by
  unfold constrainPose at hp
  simp only [Option.bind_eq_bind, Option.bind_eq_some_iff] at hp
  obtain ⟨V', hV', ds, hds, hp⟩ := hp
  rw [hV] at hV'
  cases hV'
  have hz : ∀ a ∈ ds, a = ⟨V3.zero, V3.zero⟩ := by
    intro a ha
    obtain ⟨e, he, hea⟩ := Recon.mapM_from hds a ha
    simp only [Option.bind_eq_some_iff] at hea
    obtain ⟨O, hO, hea⟩ := hea
    cases hea
    show ((e.2.mul O.pose).mul V.pose.inv).se3 = _
    rw [h e he O hO, hr.mul_inv, Iso.se3_one]
  cases hp
  rw [Tangent.total_zero hz]
  have : (⟨V3.zero, V3.zero⟩ : Tangent).scale rate = ⟨V3.zero, V3.zero⟩ := by
    unfold Tangent.scale
    simp [lin]
  rw [this, Tangent.pose_zero]
  exact Iso.one_mul _

namespace Data

theorem constrainViews_mem (ω : Oracle (Iso ℝ)) {R : Recon (Iso ℝ)} {edges : List (Nat × Nat × Iso ℝ)}
    (vs : List Nat) : ∀ {us rs}, R.constrainViews ω edges vs = some (us, rs) →
    ∀ e ∈ us, R.constrainView ω edges e.1 = some (some e.2) := by
  induction vs with
  | nil => intro us rs h e he; cases h; simp at he
  | cons v vs ih =>
    intro us rs h e he
    unfold Recon.constrainViews at h
    cases h1 : R.constrainView ω edges v with
    | none => simp [h1] at h
    | some o =>
      cases h2 : R.constrainViews ω edges vs with
      | none => cases o <;> simp [h1, h2] at h
      | some ur =>
        obtain ⟨us', rs'⟩ := ur
        cases o with
        | none =>
          simp only [h1, h2, Option.some.injEq, Prod.mk.injEq] at h
          rw [← h.1] at he
          exact ih h2 e he
        | some p =>
          simp only [h1, h2, Option.some.injEq, Prod.mk.injEq] at h
          rw [← h.1] at he
          rcases List.mem_cons.1 he with rfl | he
          · exact h1
          · exact ih h2 e he

theorem newPose_same {us : List (Nat × Iso ℝ)} {w : Nat} : ∀ {old : Iso ℝ}, (∀ e ∈ us, e.1 = w → e.2 = old) →
    newPose us w old = old := by
  induction us with
  | nil => intro _ _; rfl
  | cons e us ih =>
    intro old h
    show us.foldl (fun p e => if e.1 = w then e.2 else p) (if e.1 = w then e.2 else old) = old
    have : (if e.1 = w then e.2 else old) = old := by
      split
      · rename_i hw; exact h e (by simp) hw
      · rfl
    rw [this]
    exact ih (fun e he => h e (by simp [he]))

/-- The loop of `apply_constraints` only removes views when all edges agree with the poses. -/
theorem applyLoop_part {ω : Nat → Oracle (Iso ℝ)} {rate : ℝ} (hω : ∀ i, (ω i).constrain = constrainPose rate) (r : Nat)
    (edges : List (Nat × Nat × Iso ℝ)) (n : Nat) : ∀ {d : Data (Iso ℝ)} {R : Recon (Iso ℝ)}, d.Consistent →
    d.recons.get r = some R → RigidPoses R → EdgesHold R edges →
    ∀ {d' b}, applyLoop ω r edges n d = some (d', b) → ∀ R', d'.recons.get r = some R' → Recon.Part R R' := by
  induction n with
  | zero =>
    intro d R hd hR _ _ d' b h R' hR'
    cases h
    rw [hR] at hR'
    cases hR'
    exact Recon.Part.refl (hd.recons r R hR)
  | succ n ih =>
    intro d R hd hR hrig he d' b h R' hR'
    have hcR := hd.recons r R hR
    unfold applyLoop at h
    simp only [hR] at h
    cases hc : R.constrainViews (ω n) edges R.views.keys with
    | none => simp [hc] at h
    | some ur =>
      obtain ⟨us, rs⟩ := ur
      obtain ⟨hnd, hus, hrs⟩ := constrainLists_ok (ω n) hcR hc
      have hmem := constrainViews_mem (ω n) _ hc
      simp only [hc] at h
      by_cases h3 : 3 ≤ us.length
      · rw [if_pos h3] at h
        obtain ⟨d1, R1, hrun1, hd1, hR1, hn1, hk1, hq1, _, _, hv1, ho1, hc1⟩ :=
          applyBundleAdjust_ok hd hR hnd hus hrs
        simp only [hrun1] at h
        have hcR1 := hd1.recons r R1 hR1
        have hfix : ∀ w V, R.views.get w = some V → newPose us w V.pose = V.pose := by
          intro w V hV
          refine newPose_same ?_
          rintro ⟨u, p⟩ hu e
          simp only at e
          subst e
          have := hmem _ hu
          unfold Recon.constrainView at this
          dsimp only at this
          split at this
          · cases this
          · split at this
            · simp only [Option.some.injEq] at this
              rw [hω n] at this
              refine constrainPose_fixed hV (hrig _ _ hV) ?_ this
              intro e' he' O hO
              obtain ⟨e'', h1, rfl⟩ := List.mem_map.1 he'
              obtain ⟨h1, h2⟩ := List.mem_filter.1 h1
              have h2 : e''.1 = u := by simpa using h2
              exact he e'' h1 V O (by rw [h2]; exact hV) hO
            · cases this
        have hp1 : Recon.Part R R1 := by
          refine ⟨hcR1, ?_, ?_, ?_⟩
          · intro w W hW
            rw [hv1] at hW
            split at hW
            · cases hW
            · obtain ⟨V, hV, rfl⟩ := Option.map_eq_some_iff.1 hW
              exact ⟨V, hV, rfl, hfix w V hV⟩
          · intro a f b k l h1 h2
            exact ⟨l, (hcR.agree a f l).2 ((ho1 l a f).1 ((hcR1.agree a f l).1 h1)).2,
              (hcR.agree b k l).2 ((ho1 l b k).1 ((hcR1.agree b k l).1 h2)).2⟩
          · intro i c hi
            have := (hc1 (i, c)).1 ((FMap.mem_iff_get hcR1.constraintsWF.nodup).2 hi)
            exact ⟨i, (FMap.mem_iff_get hcR.constraintsWF.nodup).1 this.1⟩
        refine hp1.trans (ih hd1 hR1 ?_ ?_ h R' hR')
        · intro v V' hV'
          obtain ⟨V, hV, _, e⟩ := hp1.views v V' hV'
          rw [e]
          exact hrig v V hV
        · intro e he' A' B' hA' hB'
          obtain ⟨A, hA, _, eA⟩ := hp1.views _ A' hA'
          obtain ⟨B, hB, _, eB⟩ := hp1.views _ B' hB'
          rw [eA, eB]
          exact he e he' A B hA hB
      · rw [if_neg h3] at h
        obtain ⟨d1, hrun1, hc1, hn1, hr1, hq1, _, hk1⟩ := removeReconstruction_spec hd hR
        simp only [hrun1] at h
        cases h
        rw [hr1] at hR'
        cases hR'

theorem edgesHold_of {R : Recon (Iso ℝ)} (hR : R.Consistent) (hrig : RigidPoses R)
    (hf : ∀ k c, R.constraints.get k = some c → R.Fulfils c) : EdgesHold R R.flattenConstraints := by
  intro e he A B hA hB
  have := edges_fulfilled hR hrig hf e he
  rwa [poseAt_get hA, poseAt_get hB] at this

theorem optimizeLoop_true (hsc : sc.Seen W) (hg : g.Rigid) {ω : Nat → Nat → Oracle (Iso ℝ)} {rate : ℝ}
    (hω : ∀ i j, (ω i j).constrain = constrainPose rate) (ω' : Nat → Oracle (Iso ℝ)) (st : Settings) (r : Nat)
    (n : Nat) : ∀ {d : Data (Iso ℝ)} {R : Recon (Iso ℝ)}, d.Consistent → d.recons.get r = some R → R.TrueIn sc g s →
    ∀ {d' b}, optimizeLoop ω ω' st r n d = some (d', b) → ∀ R', d'.recons.get r = some R' → R'.TrueIn sc g s := by
  induction n with
  | zero =>
    intro d R hd hR ht d' b h R' hR'
    cases h
    rw [hR] at hR'
    cases hR'
    exact ht
  | succ n ih =>
    intro d R hd hR ht d' b h R' hR'
    have hcR := hd.recons r R hR
    unfold optimizeLoop applyConstraints at h
    simp only [hR] at h
    cases ha : applyLoop (ω n) r R.flattenConstraints st.optIterations d with
    | none => simp [ha] at h
    | some x =>
      obtain ⟨d1, b1⟩ := x
      obtain ⟨g1, g2, g3, g4, g5, g6⟩ := applyLoop_ok (ω n) r _ _ hd hR ha
      simp only [ha] at h
      cases b1 with
      | false =>
        cases h
        rw [g6 rfl] at hR'
        cases hR'
      | true =>
        obtain ⟨R1, hR1, _⟩ := g5 rfl
        have hrig := ht.rigid hsc.rigid hg
        have hp1 := applyLoop_part (hω n) r _ _ hd hR hrig (edgesHold_of hcR hrig ht.constraints) ha R1 hR1
        have ht1 := ht.part hcR hp1
        obtain ⟨d2, b2, R2, hrun2, hc2, hn2, hk2, hq2, hr2, ht', hf⟩ :=
          filterObservations_ok (ω' n) st g1 hR1
        simp only [hrun2] at h
        cases b2 with
        | false =>
          cases h
          rw [(hf rfl).1] at hR'
          cases hR'
        | true => exact ih hc2 (ht' rfl).1 (ht1.part hp1.cons hr2.part) h R' hR'

/-! ## Recording constraints -/

theorem regenerateLoop_true (hsc : sc.Seen W) (hg : g.Rigid) (hs : 0 < s) {ω : Nat → Oracle (Iso ℝ)}
    (hω : ∀ i, (ω i).Fair) (hW : ∀ i, ThreeViewBy W (ω i)) (st : Settings) (r : Nat) (vs : List Nat) :
    ∀ {d : Data (Iso ℝ)} {R : Recon (Iso ℝ)}, d.Consistent → d.recons.get r = some R → R.TrueIn sc g s →
    (∀ v, v ∈ vs → R.LiveView v) → ∀ {d'}, regenerateLoop ω st r vs d = some d' →
    ∀ R', d'.recons.get r = some R' → R'.TrueIn sc g s := by
  induction vs with
  | nil =>
    intro d R hd hR ht _ d' h R' hR'
    cases h
    rw [hR] at hR'
    cases hR'
    exact ht
  | cons v vs ih =>
    intro d R hd hR ht hl d' h R' hR'
    obtain ⟨d1, R1, x, hrun1, hd1, hrec, hR1, hn1, hq1, hf1, hk1, hv1, hl1, _⟩ :=
      record_spec (ω v) (hω v) st (hd.off (fun _ => False)) id hR (hl v (by simp))
    simp only [regenerateLoop, hrun1] at h
    refine ih hd1.on hR1 (ht.record hsc hg hs (hd.recons r R hR) (hω v) (hW v) (hl v (by simp)) hrec) ?_ h R' hR'
    intro w hw
    unfold Recon.LiveView
    rw [hv1]
    exact hl w (List.mem_cons_of_mem _ hw)

theorem regenerate_true (hsc : sc.Seen W) (hg : g.Rigid) (hs : 0 < s) {ω : Nat → Oracle (Iso ℝ)}
    (hω : ∀ i, (ω i).Fair) (hW : ∀ i, ThreeViewBy W (ω i)) (st : Settings) {r : Nat} {d d' : Data (Iso ℝ)}
    {R R' : Recon (Iso ℝ)} (hd : d.Consistent) (hR : d.recons.get r = some R) (ht : R.TrueIn sc g s)
    (h : regenerateConstraints ω st d r = some d') (hR' : d'.recons.get r = some R') : R'.TrueIn sc g s := by
  let R1 : Recon (Iso ℝ) := { R with constraints := R.constraints.clear }
  have hc := hd.recons r R hR
  have hnone : ∀ k c, R1.constraints.get k ≠ some c := by
    intro k c hk
    simp [R1, SlotMap.clear, FMap.empty, SlotMap.get, FMap.get] at hk
  have hR1 : R1.Consistent := by
    refine ⟨hc.viewsWF, hc.landmarksWF, ⟨by simp [R1, SlotMap.clear, FMap.empty, FMap.WF, FMap.keys],
      by simp [R1, SlotMap.clear, FMap.empty, SlotMap.get, FMap.get]⟩, hc.obsWF,
      hc.nonempty, hc.agree, fun k c hk => absurd hk (hnone k c)⟩
  have ht1 : R1.TrueIn sc g s := ht.constrained rfl rfl (fun k c hk => absurd hk (hnone k c))
  have hd1 := replace_shape hd hR hR1 (fun _ => rfl)
  have hget := fun q => get_replace (R' := R1) hR q
  unfold regenerateConstraints at h
  simp only [hR] at h
  exact regenerateLoop_true hsc hg hs hω hW st r R.views.keys hd1 ((hget r).trans (if_pos rfl)) ht1
    (fun v hv => (SlotMap.mem_keys_iff _ _).mp hv) h R' hR'

theorem incorporateFrame_true (hsc : sc.Seen W) (hg : g.Rigid) (hs : 0 < s) {ω : Oracle (Iso ℝ)} (hω : ω.Fair)
    (hW : ThreeViewBy W ω) (st : Settings) {d d' : Data (Iso ℝ)} (hd : d.Consistent) {r frame : Nat}
    {R : Recon (Iso ℝ)} {F : Frame} (hR : d.recons.get r = some R) (hF : d.frames.get frame = some F)
    (hFv : F.view = none) {ex : Nat → Option (List Nat)} (hex : R.ValidMatches F.nfeat ex) (ht : R.TrueIn sc g s)
    (hm : TrueMatches sc R frame ex) {x : Option Nat}
    (h : incorporateFrame ω st d r frame (sc.viewed g s frame) ex = some (d', x)) {R' : Recon (Iso ℝ)}
    (hR' : d'.recons.get r = some R') : R'.TrueIn sc g s := by
  obtain ⟨d1, R1, lms, hrun1, hd1, hav, hn1, hr1, hq1, hv0, _⟩ :=
    addView_spec (hd.off (fun _ => False)) id hR hF (by intro q v h; rw [hFv] at h; cases h) (sc.viewed g s frame) hex
  have ht1 := ht.addView (hd.recons r R hR) hex hm hav
  have hc1 := hd1.on.recons r R1 hr1
  obtain ⟨d2, R2, y, hrun2, hd2, hrec, hr2, _, _, _, _, hv2, _, hy⟩ :=
    record_spec ω hω st hd1 id hr1 ⟨_, hv0⟩
  have ht2 := ht1.record hsc hg hs hc1 hω hW ⟨_, hv0⟩ hrec
  unfold incorporateFrame at h
  simp only [hR, hrun1, hrun2] at h
  cases y with
  | true =>
    simp only [Option.some.injEq, Prod.mk.injEq] at h
    rw [← h.1, hr2] at hR'
    cases hR'
    exact ht2
  | false =>
    have hV2 : R2.views.get R.views.next = some ⟨frame, sc.viewed g s frame, lms⟩ := by rw [hv2]; exact hv0
    obtain ⟨d3, R3, F3, hrun3, _, hrem, _, hr3, _⟩ := removeView_spec hd2 id hr2 hV2
    simp only [hrun3, Option.some.injEq, Prod.mk.injEq] at h
    rw [← h.1, hr3] at hR'
    cases hR'
    have hc2 := hd2.on.recons r R2 hr2
    exact ht2.part hc2 (Recon.removeView_part hc2 hV2 hrem)

/-! ## Merging reconstructions -/

theorem constrainNew_true (hsc : sc.Seen W) (hg : g.Rigid) (hs : 0 < s) {ω : Nat → Oracle (Iso ℝ)}
    (hω : ∀ i, (ω i).Fair) (hW : ∀ i, ThreeViewBy W (ω i)) (st : Settings) {S : Nat → Prop} {dst : Nat} (hS : ¬ S dst)
    (vs : List Nat) : ∀ {d : Data (Iso ℝ)} {D : Recon (Iso ℝ)}, d.ConsistentOff S → d.recons.get dst = some D →
    D.TrueIn sc g s → vs.Nodup → (∀ v, v ∈ vs → D.LiveView v) → ∀ {d'}, constrainNew ω st dst vs d = some d' →
    ∀ D', d'.recons.get dst = some D' → D'.TrueIn sc g s := by
  induction vs with
  | nil =>
    intro d D hd hD ht _ _ d' h D' hD'
    cases h
    rw [hD] at hD'
    cases hD'
    exact ht
  | cons v vs ih =>
    intro d D hd hD ht hnd hlive d' h D' hD'
    have hnd' := List.nodup_cons.mp hnd
    obtain ⟨d1, D1, x, hrun1, hd1, hrec1, hD1, hn1, hq1, hf1, hk1, hv1, hl1, hx1⟩ :=
      record_spec (ω v) (hω v) st hd hS hD (hlive v (by simp))
    have ht1 := ht.record hsc hg hs (hd.recons dst D hS hD) (hω v) (hW v) (hlive v (by simp)) hrec1
    cases x with
    | true =>
      simp only [constrainNew, hrun1] at h
      refine ih hd1 hD1 ht1 hnd'.2 (fun w hw => ?_) h D' hD'
      unfold Recon.LiveView; rw [hv1]; exact hlive w (List.mem_cons_of_mem _ hw)
    | false =>
      have hDD := hx1 rfl
      subst hDD
      obtain ⟨V, hV⟩ := hlive v (by simp)
      obtain ⟨d3, D3, F, hrun3, hd3, hrr, hn3, hD3, hq3, hF, hFn, hf3, hk3⟩ :=
        removeView_spec hd1 hS hD1 hV
      have hc1 := hd1.recons dst D1 hS hD1
      obtain ⟨D3', hrr', hc3, hvn3, hln3, hgv, hgw, hO, _⟩ := Recon.removeView_spec hc1 hV
      rw [hrr] at hrr'
      cases hrr'
      simp only [constrainNew, hrun1, hrun3] at h
      refine ih hd3 hD3 (ht1.part hc1 (Recon.removeView_part hc1 hV hrr)) hnd'.2 (fun w hw => ?_) h D' hD'
      have hne : w ≠ v := fun h => hnd'.1 (h ▸ hw)
      unfold Recon.LiveView; rw [hgw w hne]; exact hlive w (List.mem_cons_of_mem _ hw)

/-- The views of a true reconstruction, seen in the coordinates of another one. -/
structure Matching (sc : Scene) (h : Iso ℝ) (s : ℝ) (tr : Iso ℝ → Iso ℝ) (Sr D : Recon (Iso ℝ)) (m : FMap Nat) : Prop where
  poses : ∀ v V, Sr.views.get v = some V → tr V.pose = sc.viewed h s V.frame
  pure : ∀ l v f u k V U, Sr.Assigned v f l → Sr.Assigned u k l → Sr.views.get v = some V → Sr.views.get u = some U →
    sc.point V.frame f = sc.point U.frame k
  maps : ∀ a b, m.get a = some b → ∃ x, D.Depicts sc b x ∧
    ∀ v f V, Sr.Assigned v f a → Sr.views.get v = some V → sc.point V.frame f = x

theorem incorporate_true (hsc : sc.Seen W) (hg : g.Rigid) (hs : 0 < s) {ω : Nat → Oracle (Iso ℝ)}
    (hω : ∀ i, (ω i).Fair) (hW : ∀ i, ThreeViewBy W (ω i)) (st : Settings) {tr : Iso ℝ → Iso ℝ}
    {src dst : Nat} {Sr D : Recon (Iso ℝ)} (hne : src ≠ dst) {d d' : Data (Iso ℝ)} {m : FMap Nat}
    (hd : d.ConsistentOff (fun q => q = src)) (hsrc : SrcOk d src Sr Sr.views.keys)
    (hD : d.recons.get dst = some D) (hm : GoodMap D m) (ht : D.TrueIn sc g s) (hM : Matching sc g s tr Sr D m)
    (h : incorporateReconstruction ω st tr d src dst m = some d') {D' : Recon (Iso ℝ)}
    (hD' : d'.recons.get dst = some D') : D'.TrueIn sc g s := by
  obtain ⟨d1, D1, m1, hrun1, hd1, hs1, hD1, hn1, hq1, hk1, hm1, hx1, hy1, hc1, hvn1, hln1, hw1, ho1,
    hmv1, hfr1⟩ := incorporateViews_spec tr hne Sr.views.keys hd hsrc hD hm
  have hlive : ∀ v, v ∈ List.range' D.views.next Sr.views.keys.length → D1.LiveView v := by
    intro v hv
    rw [List.mem_range'] at hv
    obtain ⟨i, hi, rfl⟩ := hv
    obtain ⟨V, _, hV, _⟩ := hsrc.view Sr.views.keys[i] (List.getElem_mem hi)
    obtain ⟨W, hW, _⟩ := (hmv1 i _ V (List.getElem?_eq_getElem hi) hV).view
    exact ⟨W, by simpa using hW⟩
  have hcD := hd.recons dst D (Ne.symm hne) hD
  have hcD1 := hd1.recons dst D1 (Ne.symm hne) hD1
  -- every view is an old one or comes from the source
  have hcases : ∀ v V', D1.views.get v = some V' → (v < D.views.next ∧ D.views.get v = some V') ∨
      ∃ u V, Sr.views.get u = some V ∧ D.views.next ≤ v ∧ V'.frame = V.frame ∧ V'.pose = tr V.pose ∧
        ∀ f l, V'.landmarks[f]? = some l → ∃ sl, Sr.Assigned u f sl ∧ m1.get sl = some l := by
    intro v V' hV'
    by_cases hv : v < D.views.next
    · left
      exact ⟨hv, by rw [← hw1 v hv]; exact hV'⟩
    · right
      have hlt := hcD1.viewsWF.fresh _ _ hV'
      rw [hvn1] at hlt
      obtain ⟨i, rfl⟩ : ∃ i, v = D.views.next + i := ⟨v - D.views.next, by omega⟩
      have hi : i < Sr.views.keys.length := by omega
      obtain ⟨V, _, hV, _⟩ := hsrc.view Sr.views.keys[i] (List.getElem_mem hi)
      obtain ⟨X, hX, e1, e2, e3, e4⟩ := (hmv1 i _ V (List.getElem?_eq_getElem hi) hV).view
      rw [hV'] at hX
      cases hX
      refine ⟨_, V, hV, by omega, e1, e2, ?_⟩
      intro f l hf
      have hflt : f < V.landmarks.length := by
        rw [← e3]
        exact (List.getElem?_eq_some_iff.1 hf).1
      obtain ⟨dl, a, b⟩ := e4 f _ (List.getElem?_eq_getElem hflt)
      rw [hf] at a
      cases a
      exact ⟨_, ⟨V, hV, List.getElem?_eq_getElem hflt⟩, b⟩
  have hoass : ∀ v f l, v < D.views.next → (D1.Assigned v f l ↔ D.Assigned v f l) := by
    intro v f l hv
    unfold Recon.Assigned
    rw [hw1 v hv]
  have ht1 : D1.TrueIn sc g s := by
    refine ⟨?_, ?_, ?_⟩
    · intro v V' hV'
      rcases hcases v V' hV' with ⟨_, hV⟩ | ⟨u, V, hV, _, e1, e2, _⟩
      · exact ht.poses v V' hV
      · rw [e1, e2]
        exact hM.poses u V hV
    · have mixed : ∀ l v f u k V' U', D1.Assigned v f l → D1.Assigned u k l → D1.views.get v = some V' →
          D1.views.get u = some U' → v < D.views.next → ¬ u < D.views.next →
          sc.point V'.frame f = sc.point U'.frame k := by
        intro l v f u k V' U' h1 h2 hV' hU' hv hu
        have h1' := (hoass v f l hv).1 h1
        rcases hcases u U' hU' with ⟨h, _⟩ | ⟨su, U, hU, _, e1, _, e3⟩
        · exact absurd h hu
        obtain ⟨Y, hY, hYl⟩ := h2
        rw [hU'] at hY
        cases hY
        obtain ⟨sl, ha, hml⟩ := e3 k l hYl
        rcases hy1 sl l hml with h | h
        · obtain ⟨x, hx, hx'⟩ := hM.maps sl l h
          rw [e1, hx' su k U ha hU]
          exact hx v f V' ((hcD.agree v f l).1 h1') (by rw [← hw1 v hv]; exact hV')
        · have := Recon.assigned_lt hcD h1'
          omega
      intro l v f u k V' U' o1 o2 hV' hU'
      have h1 := (hcD1.agree v f l).2 o1
      have h2 := (hcD1.agree u k l).2 o2
      by_cases hv : v < D.views.next
      · by_cases hu : u < D.views.next
        · exact ht.assigned hcD ((hoass v f l hv).1 h1) ((hoass u k l hu).1 h2) (by rw [← hw1 v hv]; exact hV')
            (by rw [← hw1 u hu]; exact hU')
        · exact mixed l v f u k V' U' h1 h2 hV' hU' hv hu
      · by_cases hu : u < D.views.next
        · exact (mixed l u k v f U' V' h2 h1 hU' hV' hu hv).symm
        · rcases hcases v V' hV' with ⟨h, _⟩ | ⟨sv, V, hV, _, e1, _, e3⟩
          · exact absurd h hv
          rcases hcases u U' hU' with ⟨h, _⟩ | ⟨su, U, hU, _, e1', _, e3'⟩
          · exact absurd h hu
          obtain ⟨X, hX, hXl⟩ := h1
          rw [hV'] at hX
          cases hX
          obtain ⟨Y, hY, hYl⟩ := h2
          rw [hU'] at hY
          cases hY
          obtain ⟨sl, ha, hml⟩ := e3 f l hXl
          obtain ⟨sl', ha', hml'⟩ := e3' k l hYl
          have := hm1.inj _ _ _ hml hml'
          subst this
          rw [e1, e1']
          exact hM.pure sl sv f su k V U ha ha' hV hU
    · intro k c hk
      obtain ⟨l0, l1, l2, _⟩ := hcD1.constraintsLive k c hk
      rw [hc1] at hk
      refine Recon.fulfils_of (ht.constraints k c hk) ⟨l0, l1, l2⟩ ?_
      intro v V V' hV hV'
      rw [hw1 v (hcD.viewsWF.fresh _ _ hV), hV] at hV'
      cases hV'
      rfl
  obtain ⟨d2, D2, hrun2, hd2, hD2, _⟩ :=
    constrainNew_spec ω hω st (S := fun q => q = src) (Ne.symm hne)
      (List.range' D.views.next Sr.views.keys.length) hd1 hD1 List.nodup_range' hlive
  have ht2 := constrainNew_true hsc hg hs hω hW st (S := fun q => q = src) (Ne.symm hne) _ hd1 hD1 ht1
    List.nodup_range' hlive hrun2 D2 hD2
  unfold incorporateReconstruction at h
  simp only [hsrc.get, hrun1, hrun2, Option.some.injEq] at h
  rw [← h] at hD'
  have hge : (d2.recons.erase src).get dst = d2.recons.get dst := by
    rw [SlotMap.get_erase, if_neg (Ne.symm hne)]
  rw [hge, hD2] at hD'
  cases hD'
  exact ht2

end Data
end Verif.Sfm
