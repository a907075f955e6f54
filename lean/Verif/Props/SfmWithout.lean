import Verif.Model.SfmWithout
import Verif.Props.Robust
import Verif.Props.SfmEdits
import Verif.Props.PoseGraphExample

/-!
# C100: a landmark without one of its views
-/

namespace Verif.Sfm

open Verif.Geo

variable {C : Type}

/-- Views other than `v` that see the landmark from sufficiently different directions. -/
def WideWithout (W : World C) (R : Recon (Iso ℝ)) (l v : Nat) : Prop :=
  ∃ w f w' f' a a', w ≠ v ∧ w' ≠ v ∧ R.Observes l w f ∧ R.Observes l w' f' ∧ SeenAlong W R (w, f) a ∧
    SeenAlong W R (w', f') a' ∧ 1 - a.dot a' > W.minCosine

theorem isRobustWithout_eq (W : World C) (R : Recon (Iso ℝ)) {l : Nat} (v : Nat) {L : Landmark}
    (hL : R.landmarks.get l = some L) :
    isRobustWithout W R l v = areObservationsRobust { W with minObservations := 0 } R (observationsWithout L v) := by
  unfold isRobustWithout areObservationsRobust
  rw [hL]
  simp only [Option.bind_eq_bind, Option.bind_some, Nat.zero_min, Nat.zero_le, decide_true, Bool.true_and]
  rfl

/-- **C100** What robust without a view means: two other views see the landmark from different directions. -/
theorem C100_wide {W : World C} {R : Recon (Iso ℝ)} (hc : R.Consistent) (hR : RigidPoses R) (hb : UnitBearings W)
    (h0 : 0 ≤ W.minCosine) (hf : FramesComplete W R) {l : Nat} (v : Nat) (hl : R.LiveLandmark l) :
    ∃ x, isRobustWithout W R l v = some x ∧ (x = true ↔ WideWithout W R l v) := by
  obtain ⟨L, hL⟩ := hl
  have mem : ∀ w f, (w, f) ∈ observationsWithout L v ↔ w ≠ v ∧ R.Observes l w f := by
    intro w f
    rw [observationsWithout, List.mem_filter, FMap.mem_iff_get (hc.obsWF l L hL)]
    constructor
    · rintro ⟨h1, h2⟩
      exact ⟨by simpa using h2, L, hL, h1⟩
    · rintro ⟨h1, L', hL', h2⟩
      rw [hL] at hL'
      cases hL'
      exact ⟨h2, by simpa using h1⟩
  rw [isRobustWithout_eq W R v hL]
  obtain ⟨x, h1, h2⟩ := C59_robust (W := { W with minObservations := 0 }) hR hb h0
    (obs := observationsWithout L v) (by
      rintro ⟨w, f⟩ ho
      have := (mem w f).1 ho
      obtain ⟨V, hV, hfV⟩ := (hc.agree w f l).2 this.2
      obtain ⟨hlt, _⟩ := List.getElem?_eq_some_iff.1 hfV
      obtain ⟨⟨b, hb⟩, _⟩ := hf w V f hV hlt
      exact ⟨V, b, hV, hb⟩)
  refine ⟨x, h1, h2.trans ⟨?_, ?_⟩⟩
  · rintro ⟨_, ⟨w, f⟩, ho, ⟨w', f'⟩, ho', a, a', s, s', h⟩
    obtain ⟨hw, g⟩ := (mem w f).1 ho
    obtain ⟨hw', g'⟩ := (mem w' f').1 ho'
    exact ⟨w, f, w', f', a, a', hw, hw', g, g', s, s', h⟩
  · rintro ⟨w, f, w', f', a, a', hw, hw', g, g', s, s', h⟩
    exact ⟨Or.inl (Nat.zero_le _), (w, f), (mem w f).2 ⟨hw, g⟩, (w', f'), (mem w' f').2 ⟨hw', g'⟩, a, a', s, s', h⟩

/-- What is left of a landmark when a view is removed: the observations in other views. -/
theorem left_perm {d : Data (Iso ℝ)} (h : Reachable d) {r v l : Nat} {R : Recon (Iso ℝ)} {V : View (Iso ℝ)} {L : Landmark}
    (hR : d.recons.get r = some R) (hV : R.views.get v = some V) (hL : R.landmarks.get l = some L)
    (hl : ∃ w f, w ≠ v ∧ R.Observes l w f) :
    ∃ d' R' L', step d (.removeView r v) = some d' ∧ d'.recons.get r = some R' ∧ R'.landmarks.get l = some L' ∧
      L'.entries.Perm (observationsWithout L v) ∧
      (∀ W : World C, L'.entries.mapM (poseBearing W R') = L'.entries.mapM (poseBearing W R)) := by
  obtain ⟨d', R', F, h1, h2, h3, h4, h5, h6, _⟩ := C07_remove_view h hR hV
  have hd' : Reachable d' := .step h (op := .removeView r v) ⟨R, hR, V, hV⟩ h1
  obtain ⟨L', hL'⟩ := (h6 l).2 hl
  have hc := (reachable_consistent h).recons r R hR
  have hc' := (reachable_consistent hd').recons r R' h2
  have wf := hc.obsWF l L hL
  have wf' := hc'.obsWF l L' hL'
  refine ⟨d', R', L', h1, h2, hL', ?_, ?_⟩
  · refine (List.perm_ext_iff_of_nodup (List.Nodup.of_map _ wf') ((List.Nodup.of_map _ wf).filter _)).2 ?_
    rintro ⟨w, f⟩
    rw [List.mem_filter, FMap.mem_iff_get wf, FMap.mem_iff_get wf']
    constructor
    · intro hg
      obtain ⟨hw, L2, hL2, hg2⟩ := (h5 l w f).1 ⟨L', hL', hg⟩
      rw [hL] at hL2
      cases hL2
      exact ⟨hg2, by simpa using hw⟩
    · rintro ⟨hg, hw⟩
      obtain ⟨L2, hL2, hg2⟩ := (h5 l w f).2 ⟨by simpa using hw, L, hL, hg⟩
      rw [hL'] at hL2
      cases hL2
      exact hg2
  · intro W
    have same : ∀ o ∈ L'.entries, poseBearing W R' o = poseBearing W R o := by
      rintro ⟨w, f⟩ ho
      have := (h5 l w f).1 ⟨L', hL', (FMap.mem_iff_get wf').1 ho⟩
      unfold poseBearing
      rw [h4 w this.1]
    have : ∀ es : List (Nat × Nat), (∀ o ∈ es, poseBearing W R' o = poseBearing W R o) →
        es.mapM (poseBearing W R') = es.mapM (poseBearing W R) := by
      intro es
      induction es with
      | nil => intro _; rfl
      | cons o es ih =>
        intro h
        rw [List.mapM_cons, List.mapM_cons, h o (by simp), ih (fun o ho => h o (List.mem_cons_of_mem _ ho))]
    exact this _ same

/-- **C100** After the view is removed, the landmark is robust exactly if it was robust without the view and enough
observations are left. -/
theorem C100_removed_partial {d : Data (Iso ℝ)} (h : Reachable d) {r v l : Nat} {R : Recon (Iso ℝ)} {V : View (Iso ℝ)}
    {L : Landmark} (W : World C) (hR : d.recons.get r = some R) (hV : R.views.get v = some V)
    (hL : R.landmarks.get l = some L) (hl : ∃ w f, w ≠ v ∧ R.Observes l w f) :
    ∃ d' R', step d (.removeView r v) = some d' ∧ d'.recons.get r = some R' ∧
      isLandmarkRobust W R' l = (isRobustWithout W R l v).map (fun b =>
        decide (min W.minObservations R'.views.size ≤ (observationsWithout L v).length) && b) ∧
      (W.minObservations ≤ (observationsWithout L v).length →
        isLandmarkRobust W R' l = isRobustWithout W R l v ∧
        ((∀ ps ps', ps.Perm ps' → W.triangulate ps = W.triangulate ps') →
          triangulateRobust W R' l = triangulateWithout W R l v)) := by
  obtain ⟨d', R', L', h1, h2, hL', hp, hm⟩ := left_perm (C := C) h hR hV hL hl
  have key : isLandmarkRobust W R' l = (isRobustWithout W R l v).map (fun b =>
      decide (min W.minObservations R'.views.size ≤ (observationsWithout L v).length) && b) := by
    unfold isLandmarkRobust isRobustWithout areObservationsRobust
    rw [hL, hL']
    simp only [Option.bind_eq_bind, Option.bind_some, hm, hp.length_eq]
    rcases mapM_perm (f := poseBearing W R) hp with ⟨g1, g2⟩ | ⟨s, s', g1, g2, g3⟩
    · rw [g1, g2]; rfl
    · rw [g1, g2]
      simp only [Option.bind_some, Option.pure_def, Option.map_some]
      rw [combinations_any_perm (angularlyRobust_comm W) (g3.map _)]
  have same : W.minObservations ≤ (observationsWithout L v).length → isLandmarkRobust W R' l = isRobustWithout W R l v := by
    intro hn
    rw [key]
    have : decide (min W.minObservations R'.views.size ≤ (observationsWithout L v).length) = true :=
      decide_eq_true ((min_le_left _ _).trans hn)
    simp only [this, Bool.true_and]
    exact Option.map_id'
  refine ⟨d', R', h1, h2, key, fun hn => ⟨same hn, fun ht => ?_⟩⟩
  have hs := same hn
  unfold isLandmarkRobust at hs
  rw [hL', Option.bind_eq_bind, Option.bind_some] at hs
  unfold triangulateRobust triangulateWithout
  rw [hL, hL']
  simp only [Option.bind_eq_bind, Option.bind_some, hs, hm]
  congr 1
  funext b
  rcases mapM_perm (f := poseBearing W R) hp with ⟨g1, g2⟩ | ⟨s, s', g1, g2, g3⟩
  · rw [g1, g2]
  · rw [g1, g2]
    simp only [Option.bind_some, ht _ _ g3]

namespace ExWithout

noncomputable section

/-- The reconstruction of `ExGraph` and a fourth view with landmarks of its own. -/
def e5 : Data (Iso ℝ) := (ExGraph.d4.addFrame 0 1).getD ExGraph.d1
def e6 : Data (Iso ℝ) := (step e5 ExGraph.init3).getD ExGraph.d1
def op7 : Op (Iso ℝ) := .addView 0 3 (ExGraph.shifted 3) (fun _ => none)
def e7 : Data (Iso ℝ) := (step e6 op7).getD ExGraph.d1

theorem reach_e5 : Reachable e5 := .step (op := .addFrame 0 1) ExGraph.reach4 ⟨[0, 1, 2], rfl⟩ rfl

theorem valid_e6 : Valid e5 ExGraph.init3 := by
  refine ⟨by decide, by decide, by decide, ⟨3, _, rfl, rfl, rfl⟩, ⟨2, _, rfl, rfl, rfl⟩,
    3, ⟨_, rfl, rfl, rfl⟩, ?_, ?_⟩
  all_goals
    constructor
    · intro f c h
      simp at h
      omega
    · intro f g c h h'
      simp at h h'
      omega

theorem reach_e6 : Reachable e6 := .step reach_e5 valid_e6 rfl

theorem reach_e7 : Reachable e7 := .step reach_e6 (op := op7) ⟨_, 1, rfl, ⟨_, rfl, rfl, rfl⟩,
  ⟨(fun _ _ _ h => by cases h), (fun _ _ _ _ _ _ _ h => by cases h)⟩⟩ rfl

def R7 : Recon (Iso ℝ) := (e7.recons.get 0).getD Recon.empty
theorem get_e7 : e7.recons.get 0 = some R7 := rfl

/-- Three observations are asked for; frame 2 sees everything at a right angle to the others. -/
def W : World Unit where
  bearing f _ := if f = 2 then some ⟨1, 0, 0⟩ else some ⟨0, 0, 1⟩
  colour _ _ := some ()
  triangulate _ := none
  minObservations := 3
  minCosine := 1 / 10

end

end ExWithout

open ExWithout in
/-- **C100** Robust without a view does not mean robust, and not robust once the view is removed: the number of
observations is not looked at. -/
theorem C100_few_false : ∃ (d : Data (Iso ℝ)) (R : Recon (Iso ℝ)) (l v : Nat) (d' : Data (Iso ℝ)) (R' : Recon (Iso ℝ)),
    Reachable d ∧ d.recons.get 0 = some R ∧ R.LiveView v ∧ R.LiveLandmark l ∧ isRobustWithout ExWithout.W R l v = some true ∧
    isLandmarkRobust ExWithout.W R l = some false ∧
    step d (.removeView 0 v) = some d' ∧ d'.recons.get 0 = some R' ∧ isLandmarkRobust ExWithout.W R' l = some false := by
  have hw : isRobustWithout ExWithout.W R7 2 1 = some true := by
    have : isRobustWithout ExWithout.W R7 2 1 = some ((combinations [(Iso.one : Iso ℝ).inv.rot.mulVec ⟨0, 0, 1⟩,
        (ExGraph.shifted 2).inv.rot.mulVec ⟨1, 0, 0⟩]).any (fun p => angularlyRobust ExWithout.W p.1 p.2)) := rfl
    rw [this, Option.some_inj, List.any_eq_true]
    refine ⟨_, List.mem_append_left _ (List.mem_map.2 ⟨_, List.mem_singleton_self _, rfl⟩), ?_⟩
    refine decide_eq_true ?_
    simp only [ExGraph.shifted, ExWithout.W, lin]
    norm_num
  obtain ⟨d', R', h1, h2, h3, _⟩ := C100_removed_partial reach_e7 (r := 0) (v := 1) (l := 2)
    (L := ⟨[(0, 2), (2, 1)]⟩) ExWithout.W get_e7 rfl rfl ⟨0, 2, by decide, ⟨_, rfl, rfl⟩⟩
  refine ⟨e7, R7, 2, 1, d', R', reach_e7, get_e7, ⟨_, rfl⟩, ⟨_, rfl⟩, hw, rfl, h1, h2, ?_⟩
  rw [h3, hw]
  have e : ∃ R2, (step e7 (.removeView 0 1)).bind (fun d => d.recons.get 0) = some R2 ∧ R2.views.size = 3 := ⟨_, rfl, rfl⟩
  obtain ⟨R2, hR2, hs⟩ := e
  rw [h1, Option.bind_some, h2, Option.some_inj] at hR2
  subst hR2
  rw [hs]
  rfl

open ExWithout in
/-- Landmark 0 is seen by three views; without the second it has two observations. -/
example : Reachable e7 ∧ e7.recons.get 0 = some R7 ∧ R7.LiveView 1 ∧
    R7.landmarks.get 0 = some ⟨[(0, 0), (1, 0), (2, 0)]⟩ ∧
    observationsWithout ⟨[(0, 0), (1, 0), (2, 0)]⟩ 1 = [(0, 0), (2, 0)] :=
  ⟨reach_e7, get_e7, ⟨_, rfl⟩, rfl, rfl⟩

end Verif.Sfm
