import Verif.Lemmas.SfmHistory
import Verif.Lemmas.SfmMergeFail
import Verif.Props.SfmExample

/-!
# C07-C10: what single edits of a reconstruction do, in every reachable state
-/

namespace Verif.Sfm

variable {P : Type} [Mul P] [Inv P]

/-- **C07** Removing a view removes its observations and constraints and nothing else. -/
theorem C07_remove_view {d : Data P} (h : Reachable d) {r v : Nat} {R : Recon P} {V : View P}
    (hR : d.recons.get r = some R) (hV : R.views.get v = some V) :
    ∃ d' R' F, step d (.removeView r v) = some d' ∧ d'.recons.get r = some R' ∧
      -- the view is gone, every other view is the same
      R'.views.get v = none ∧ (∀ w, w ≠ v → R'.views.get w = R.views.get w) ∧
      -- observations: those of the view are gone, all others stay
      (∀ l w f, R'.Observes l w f ↔ (w ≠ v ∧ R.Observes l w f)) ∧
      -- a landmark survives exactly if another view observes it
      (∀ l, R'.LiveLandmark l ↔ ∃ w f, w ≠ v ∧ R.Observes l w f) ∧
      -- constraints of other views stay
      (∀ k c, R'.constraints.get k = some c ↔
        R.constraints.get k = some c ∧ c.v0 ≠ v ∧ c.v1 ≠ v ∧ c.v2 ≠ v) ∧
      -- the frame is unassigned
      d.frames.get V.frame = some F ∧ d'.frames.get V.frame = some { F with view := none } ∧
      -- everything else is untouched
      (∀ f, f ≠ V.frame → d'.frames.get f = d.frames.get f) ∧
      (∀ q, q ≠ r → d'.recons.get q = d.recons.get q) ∧ d'.feeds = d.feeds := by
  have hd := reachable_consistent h
  obtain ⟨d', R', F, h1, hc, h2, _, h3, h4, h5, h6, h7, h8⟩ :=
    Data.removeView_spec (hd.off (fun _ => False)) (fun h => h) hR hV
  obtain ⟨R'', h2', hc', _, _, k1, k2, k3, k4⟩ := Recon.removeView_spec (hd.recons r R hR) hV
  rw [h2] at h2'
  cases h2'
  refine ⟨d', R', F, h1, h3, k1, k2, k3, ?_, ?_, h5, h6, h7, h4, h8⟩
  · intro l
    constructor
    · rintro ⟨L, hL⟩
      obtain ⟨w, f, hg⟩ := hc'.nonempty l L hL
      exact ⟨w, f, (k3 l w f).mp ⟨L, hL, hg⟩⟩
    · rintro ⟨w, f, hw⟩
      obtain ⟨L, hL, _⟩ := (k3 l w f).mpr hw
      exact ⟨L, hL⟩
  · intro k c
    have e1 : R'.constraints.get k = some c ↔ (k, c) ∈ R'.constraints.map.entries :=
      ⟨FMap.mem_of_get, FMap.get_of_mem hc'.constraintsWF.nodup⟩
    have e2 : R.constraints.get k = some c ↔ (k, c) ∈ R.constraints.map.entries :=
      ⟨FMap.mem_of_get, FMap.get_of_mem (hd.recons r R hR).constraintsWF.nodup⟩
    rw [e1, e2, k4]
    simp [Constraint.mentions, and_assoc]

/-- View 1 of the example; landmark 0 keeps two of its three observations, the constraint goes. -/
example : ∃ V, Ex.R7.views.get 1 = some V ∧ V.landmarks = [0, 2, 1] ∧
    Ex.R7.landmarks.get 0 = some ⟨[(0, 0), (1, 0), (2, 0)]⟩ := ⟨_, rfl, rfl, rfl⟩

/-- **C08** Splitting off an observation: true exactly when the landmark has another observation.
Then this observation alone becomes a landmark with a new key and nothing else changes. -/
theorem C08_split_observation {d : Data P} (h : Reachable d) {r v f l : Nat} {R : Recon P}
    {L : Landmark} (hR : d.recons.get r = some R) (ha : R.Assigned v f l)
    (hL : R.landmarks.get l = some L) :
    ∃ d' R' b, d.splitObservation r v f = some (d', b) ∧ d'.recons.get r = some R' ∧
      (b = true ↔ 2 ≤ L.entries.length) ∧
      (b = false → ∀ q, d'.recons.get q = d.recons.get q) ∧
      (b = true →
        (R.landmarks.get R.landmarks.next = none ∧
          R'.landmarks.get R.landmarks.next = some ⟨[(v, f)]⟩) ∧
        (∀ w g m, R'.Assigned w g m ↔
          if w = v ∧ g = f then m = R.landmarks.next else R.Assigned w g m) ∧
        (∀ m, m ≠ l → m ≠ R.landmarks.next → R'.landmarks.get m = R.landmarks.get m) ∧
        (∀ w g, R'.Observes l w g ↔ w ≠ v ∧ R.Observes l w g)) ∧
      (∀ w, (R'.views.get w).map (fun W => (W.frame, W.pose, W.landmarks.length)) =
        (R.views.get w).map (fun W => (W.frame, W.pose, W.landmarks.length))) ∧
      R'.constraints = R.constraints ∧
      (∀ q, q ≠ r → d'.recons.get q = d.recons.get q) ∧ d'.frames = d.frames ∧
      d'.feeds = d.feeds := by
  have hd := reachable_consistent h
  have hc := hd.recons r R hR
  by_cases h2 : 2 ≤ L.size
  · obtain ⟨R', hs, hr, hn, hold, hoth, hass⟩ := Recon.split_assigned hc ha hL h2
    obtain ⟨R'', hs', _, _, _, _, _, _, hnew, _⟩ := (Recon.splitObservation_spec hc ha hL).2 h2
    rw [hs] at hs'
    cases hs'
    refine ⟨{ d with recons := d.recons.modify r (fun _ => R') }, R', true, ?_, ?_, ?_, by simp, ?_,
      hr.views, hr.constraints, ?_, rfl, rfl⟩
    · simp only [Data.splitObservation, hR, hs]
    · rw [Data.get_replace hR, if_pos rfl]
    · simp only [true_iff]; exact h2
    · intro _
      refine ⟨⟨SlotMap.get_next hc.landmarksWF, hnew⟩, hass, hoth, ?_⟩
      intro w g
      unfold Recon.Observes
      rw [hold]
      constructor
      · rintro ⟨L', he, hg⟩
        cases he
        rw [FMap.get_erase] at hg
        split at hg
        · cases hg
        · rename_i hw; exact ⟨hw, L, hL, hg⟩
      · rintro ⟨hw, L', hL', hg⟩
        rw [hL] at hL'
        cases hL'
        exact ⟨_, rfl, by rw [FMap.get_erase, if_neg hw]; exact hg⟩
    · intro q hq; rw [Data.get_replace hR, if_neg hq]
  · have hs := (Recon.splitObservation_spec hc ha hL).1 (by omega)
    refine ⟨{ d with recons := d.recons.modify r (fun _ => R) }, R, false, ?_, ?_, ?_, ?_, by simp,
      fun _ => rfl, rfl, ?_, rfl, rfl⟩
    · simp only [Data.splitObservation, hR, hs]
    · rw [Data.get_replace hR, if_pos rfl]
    · simp only [Bool.false_eq_true, false_iff]; exact h2
    · intro _ q
      rw [Data.get_replace hR]
      split
      · rename_i hq; rw [hq, hR]
      · rfl
    · intro q hq; rw [Data.get_replace hR, if_neg hq]

/-- Feature 0 of view 1 is one of three observations of landmark 0; in the earlier state feature 1
of view 1 is the only observation of landmark 3. -/
example : Ex.R7.Assigned 1 0 0 ∧ Ex.R7.landmarks.get 0 = some ⟨[(0, 0), (1, 0), (2, 0)]⟩ ∧
    Ex.R6.Assigned 1 1 3 ∧ Ex.R6.landmarks.get 3 = some ⟨[(1, 1)]⟩ :=
  ⟨⟨_, rfl, rfl⟩, rfl, ⟨_, rfl, rfl⟩, rfl⟩

/-! ## C09 -/

/-- **C09** (the documented claim is false) `merge_landmarks` on two live landmarks of a reachable
state completes exactly if they are different and no view observes both; otherwise it panics,
although its documentation says that the best of the duplicate observations is kept. -/
theorem C09_merge_panics_iff {d : Data P} (h : Reachable d) {r a b : Nat} {R : Recon P}
    (hR : d.recons.get r = some R) (ha : R.LiveLandmark a) (hb : R.LiveLandmark b) :
    step d (.mergeLandmarks r a b) = none ↔ a = b ∨ ∃ v f g, R.Observes a v f ∧ R.Observes b v g := by
  have hi := Recon.merge_some_iff ((reachable_consistent h).recons r R hR) ha hb
  have hs : step d (.mergeLandmarks r a b) = none ↔ R.mergeLandmarks a b = none := by
    show d.onRecon r _ = none ↔ _
    unfold Data.onRecon
    rw [hR]
    simp only
    cases R.mergeLandmarks a b <;> simp
  rw [hs]
  constructor
  · intro hn
    by_cases hab : a = b
    · exact Or.inl hab
    · right
      apply Classical.byContradiction
      intro hno
      obtain ⟨R', h'⟩ := hi.mpr ⟨hab, fun v f g h1 h2 => hno ⟨v, f, g, h1, h2⟩⟩
      rw [hn] at h'
      cases h'
  · intro hor
    cases hm : R.mergeLandmarks a b with
    | none => rfl
    | some R' =>
      obtain ⟨hab, hns⟩ := hi.mp ⟨R', hm⟩
      rcases hor with h1 | ⟨v, f, g, h1, h2⟩
      · exact absurd h1 hab
      · exact absurd h2 (hns v f g h1)

/-- **C09** (negation of the documented claim) A reachable state with two different landmarks whose
merge panics: both are observed by view 0. -/
theorem C09_merge_panics_on_shared_view : ∃ (d : Data Ex.Shift) (R : Recon Ex.Shift) (a b : Nat),
    Reachable d ∧ d.recons.get 0 = some R ∧ a ≠ b ∧ R.LiveLandmark a ∧ R.LiveLandmark b ∧
      step d (.mergeLandmarks 0 a b) = none :=
  ⟨Ex.d6, Ex.R6, 0, 1, Ex.reach6, Ex.get6, by decide, Ex.live6 (by decide), Ex.live6 (by decide),
    rfl⟩

/-- **C09** What does hold: without a common view the observations are united under the first key,
the second key disappears, and nothing else changes. Missing: landmarks with a common view. -/
theorem C09_merge_landmarks_partial {d : Data P} (h : Reachable d) {r a b : Nat} {R : Recon P}
    (hR : d.recons.get r = some R) (hab : a ≠ b) (ha : R.LiveLandmark a) (hb : R.LiveLandmark b)
    (hns : R.NoSharedView a b) :
    ∃ d' R', step d (.mergeLandmarks r a b) = some d' ∧ d'.recons.get r = some R' ∧
      (∀ v f, R'.Observes a v f ↔ R.Observes a v f ∨ R.Observes b v f) ∧
      ¬ R'.LiveLandmark b ∧
      (∀ l, l ≠ a → l ≠ b → R'.landmarks.get l = R.landmarks.get l) ∧
      (∀ v f l, R'.Assigned v f l ↔
        (l = a ∧ (R.Assigned v f a ∨ R.Assigned v f b)) ∨
          (l ≠ a ∧ l ≠ b ∧ R.Assigned v f l)) ∧
      (∀ w, (R'.views.get w).map (fun W => (W.frame, W.pose, W.landmarks.length)) =
        (R.views.get w).map (fun W => (W.frame, W.pose, W.landmarks.length))) ∧
      R'.constraints = R.constraints ∧
      (∀ q, q ≠ r → d'.recons.get q = d.recons.get q) ∧ d'.frames = d.frames ∧
      d'.feeds = d.feeds := by
  have hd := reachable_consistent h
  have hc := hd.recons r R hR
  obtain ⟨A, hA⟩ := ha
  obtain ⟨B, hB⟩ := hb
  have hdis : ∀ v, A.get v = none ∨ B.get v = none := by
    intro v
    cases h1 : A.get v with
    | none => exact Or.inl rfl
    | some f =>
      cases h2 : B.get v with
      | none => exact Or.inr rfl
      | some g => exact absurd ⟨B, hB, h2⟩ (hns v f g ⟨A, hA, h1⟩)
  obtain ⟨R', hm, hc', hcon, _, _, hv, ho, hb', _, hass⟩ :=
    Recon.mergeLandmarks_spec hc hab hA hB hdis
  refine ⟨_, R', onRecon_some hR hm, ?_, ?_, ?_, ho, hass, Recon.merge_shape hv, hcon, ?_, rfl, rfl⟩
  · rw [Data.get_replace hR, if_pos rfl]
  · intro v f
    rw [← hc'.agree, hass, hc.agree, hc.agree]
    constructor
    · rintro (⟨_, h⟩ | ⟨h, _⟩)
      · exact h
      · exact absurd rfl h
    · intro h; exact Or.inl ⟨rfl, h⟩
  · rintro ⟨L, hL⟩
    rw [hb'] at hL
    cases hL
  · intro q hq; rw [Data.get_replace hR, if_neg hq]

example : Ex.R6.LiveLandmark 2 ∧ Ex.R6.LiveLandmark 3 ∧ Ex.R6.NoSharedView 2 3 :=
  ⟨Ex.live6 (by decide), Ex.live6 (by decide), Ex.noShared6⟩

/-! ## C10 -/

/-- **C10** The deduplicating merge of two different landmarks never panics, keeps the state
reachable, keeps every view with all its features, leaves all other landmarks alone, and returns
either nothing, having only split landmarks, or the first key: then the second key is gone and the
merged landmark has the observations of the views that saw one of the two, and for each view that
saw both the one whose loss was smaller when it was compared, or that of the first landmark if they were equal. -/
theorem C10_merge_dedup {d : Data P} (h : Reachable d) (loss : Recon P → Nat → Nat → Nat)
    {r a b : Nat} {R : Recon P} {A B : Landmark} (hR : d.recons.get r = some R) (hab : a ≠ b)
    (hA : R.landmarks.get a = some A) (hB : R.landmarks.get b = some B) :
    ∃ d' R' x, d.mergeDedup loss r a b = some (d', x) ∧ Reachable d' ∧
      d'.recons.get r = some R' ∧
      (∀ v, (R'.views.get v).map (fun V => (V.frame, V.pose, V.landmarks.length)) =
        (R.views.get v).map (fun V => (V.frame, V.pose, V.landmarks.length))) ∧
      (∀ v f, (∃ l, R.Assigned v f l) → ∃ l, R'.Assigned v f l ∧ R'.Observes l v f) ∧
      (∀ c, c ≠ a → c ≠ b → R.LiveLandmark c → R'.landmarks.get c = R.landmarks.get c) ∧
      (x = none ∨ x = some a) ∧
      -- no merge: two features share a landmark only if they did before
      (x = none → ∀ v f w g l, R'.Assigned v f l → R'.Assigned w g l →
        ∃ l0, R.Assigned v f l0 ∧ R.Assigned w g l0) ∧
      -- merge
      (x = some a → R'.landmarks.get b = none ∧ ∃ M, R'.landmarks.get a = some M ∧
        (∀ v, B.get v = none → M.get v = A.get v) ∧
        (∀ v, A.get v = none → M.get v = B.get v) ∧
        (∀ v f g, A.get v = some f → B.get v = some g →
          ∃ k, (k = f ∨ k = g) ∧ M.get v = some k ∧
            ∃ Q : Recon P, Q.Assigned v f a ∧ Q.Assigned v g b ∧
              loss Q v k ≤ loss Q v f ∧ loss Q v k ≤ loss Q v g ∧ (k = g → loss Q v g < loss Q v f))) := by
  have hd := reachable_consistent h
  have hc := hd.recons r R hR
  obtain ⟨d', x, R', h1, _, h2, _, _, _, _, h3, _⟩ := Data.mergeDedup_ok loss hd hR ⟨A, hA⟩ ⟨B, hB⟩
  obtain ⟨R'', x', h4, hc', _, _, _, hv, ho, hx⟩ := Recon.mergeDedup_spec loss hc hab hA hB
  rw [h2] at h4
  cases h4
  refine ⟨d', R', x, h1, ?_, h3, hv, ?_, ?_, ?_, ?_, ?_⟩
  · exact .step (op := .mergeDedup loss r a b) h ⟨R, hR, ⟨A, hA⟩, ⟨B, hB⟩⟩
      (by simp only [step, h1, Option.map_some])
  · rintro v f ⟨l, V, hV, hl⟩
    have hvv := hv v
    rw [hV] at hvv
    cases hV' : R'.views.get v with
    | none => rw [hV'] at hvv; simp at hvv
    | some V' =>
      rw [hV'] at hvv
      simp only [Option.map_some, Option.some.injEq, Prod.mk.injEq] at hvv
      have hlt : f < V.landmarks.length := by
        rcases Nat.lt_or_ge f V.landmarks.length with h | h
        · exact h
        · rw [List.getElem?_eq_none h] at hl; cases hl
      have hl' : V'.landmarks[f]? = some (V'.landmarks[f]'(by omega)) :=
        List.getElem?_eq_getElem (by omega)
      have ha : R'.Assigned v f _ := ⟨V', hV', hl'⟩
      exact ⟨_, ha, (hc'.agree _ _ _).mp ha⟩
  · rintro c h1 h2 ⟨C, hC⟩
    exact ho c h1 h2 (hc.landmarksWF.fresh c C hC)
  · rcases hx with ⟨h, _⟩ | ⟨h, _⟩
    · exact Or.inl h
    · exact Or.inr h
  · intro hn
    rcases hx with ⟨_, hr⟩ | ⟨h, _⟩
    · exact hr.shared
    · rw [hn] at h; cases h
  · intro hs
    rcases hx with ⟨h, _⟩ | ⟨_, hbn, M, hM, m1, m2, m3, m4⟩
    · rw [hs] at h; cases h
    · refine ⟨hbn, M, hM, m1, m2, ?_⟩
      intro v f g ha hb
      rcases m3 v f g ha hb with hk | hk
      · obtain ⟨Q, _, q1, q2, q3⟩ := m4 v f g f ha hb hk
        exact ⟨f, Or.inl rfl, hk, Q, q1, q2, q3⟩
      · obtain ⟨Q, _, q1, q2, q3⟩ := m4 v f g g ha hb hk
        exact ⟨g, Or.inr rfl, hk, Q, q1, q2, q3⟩

/-- Landmarks 0 and 1 of the example share views 0 and 1. -/
example : Ex.R7.landmarks.get 0 = some ⟨[(0, 0), (1, 0), (2, 0)]⟩ ∧
    Ex.R7.landmarks.get 1 = some ⟨[(0, 1), (1, 2), (3, 1)]⟩ ∧
    (Ex.d7.mergeDedup (fun _ _ f => f) 0 0 1).map Prod.snd = some (some 0) := ⟨rfl, rfl, rfl⟩

end Verif.Sfm
