import Verif.Spec.SfmPose
import Verif.Props.SfmFilter
import Verif.Lemmas.SfmStart
import Verif.Props.Optimize

/-!
# Lemmas on the pose estimation
-/

namespace Verif.Sfm

open Verif.Geo

variable {C : Type}

theorem mapM_pairs {α β : Type _} {f : α → Option β} {l : List α} {r : List β} :
    l.mapM f = some r ↔ List.Forall₂ (fun a b => f a = some b) l r := by
  induction l generalizing r with
  | nil => simp [List.forall₂_nil_left_iff, eq_comm]
  | cons a l ih =>
    rw [List.mapM_cons, List.forall₂_cons_left_iff]
    constructor
    · intro h
      cases ha : f a with
      | none => rw [ha] at h; cases h
      | some b =>
        cases hl : l.mapM f with
        | none => rw [ha, hl] at h; cases h
        | some r' => rw [ha, hl] at h; cases h; exact ⟨b, r', rfl, ih.1 hl, rfl⟩
    · rintro ⟨b, r', h1, h2, rfl⟩
      rw [h1, ih.2 h2]; rfl

theorem observedBy_iff {R : Recon (Iso ℝ)} {ls : List Nat} {obs : List (Nat × Nat)} :
    ObservedBy R ls obs ↔ ∃ Ls, ls.mapM R.landmarks.get = some Ls ∧ obs = Ls.flatMap (fun L => L.entries) := by
  unfold ObservedBy
  simp only [mapM_pairs]

theorem ObservedBy.unique {R : Recon (Iso ℝ)} {ls : List Nat} {a b : List (Nat × Nat)} (ha : ObservedBy R ls a)
    (hb : ObservedBy R ls b) : a = b := by
  obtain ⟨A, h1, rfl⟩ := observedBy_iff.1 ha
  obtain ⟨B, h2, rfl⟩ := observedBy_iff.1 hb
  rw [h1] at h2; cases h2; rfl

theorem SeenAs.unique {W : World C} {R : Recon (Iso ℝ)} {obs : List (Nat × Nat)} {a b : List (Iso ℝ × V3 ℝ)}
    (ha : SeenAs W R obs a) (hb : SeenAs W R obs b) : a = b := by
  rw [seenAs_iff] at ha hb
  rw [ha] at hb; cases hb; rfl

theorem gathered {W : World C} {R : Recon (Iso ℝ)} (hR : R.Consistent) (hb : BearingsComplete W R) {ls : List Nat}
    (hl : ∀ l ∈ ls, R.LiveLandmark l) : ∃ obs pbs, ObservedBy R ls obs ∧ SeenAs W R obs pbs ∧
      matchPoseBearings W R ls = some pbs ∧ (∀ o ∈ obs, HasBearing W R o) ∧ (ls ≠ [] → obs ≠ []) := by
  have key : ∃ Ls pbs, ls.mapM R.landmarks.get = some Ls ∧
      (Ls.flatMap (fun L => L.entries)).mapM (poseBearing W R) = some pbs ∧
      (∀ o ∈ Ls.flatMap (fun L => L.entries), HasBearing W R o) ∧
      (ls ≠ [] → Ls.flatMap (fun L => L.entries) ≠ []) := by
    induction ls with
    | nil => exact ⟨[], [], rfl, rfl, by simp, by simp⟩
    | cons l ls ih =>
      obtain ⟨Ls, pbs, h1, h2, h3, _⟩ := ih (fun x hx => hl x (List.mem_cons_of_mem _ hx))
      obtain ⟨L, hL⟩ := hl l (by simp)
      obtain ⟨h4, p, h5⟩ := bearings_of_complete hR hb hL
      refine ⟨L :: Ls, p ++ pbs, by rw [List.mapM_cons, hL, h1]; rfl, ?_, ?_, ?_⟩
      · rw [List.flatMap_cons, List.mapM_append, h5, h2]; rfl
      · intro o ho
        rw [List.flatMap_cons, List.mem_append] at ho
        exact ho.elim (h4 o) (h3 o)
      · intro _ h
        rw [List.flatMap_cons, List.append_eq_nil_iff] at h
        exact Recon.entries_ne_nil hR hL h.1
  obtain ⟨Ls, pbs, h1, h2, h3, h4⟩ := key
  refine ⟨_, pbs, observedBy_iff.2 ⟨Ls, h1, rfl⟩, (seenAs_iff ..).2 h2, ?_, h3, h4⟩
  unfold matchPoseBearings
  rw [h1]
  exact h2

theorem near_iff (lim : Limits) (p : V4 ℝ) (o : Iso ℝ × V3 ℝ) :
    (match cosineDistance p o with | none => false | some x => decide (x < lim.maxCosine)) = true ↔ Near lim p o := by
  unfold cosineDistance Near
  cases h : transform o.1 p with
  | none => simp
  | some q => simp

theorem observationConsistent_iff (W : World C) (lim : Limits) (pose : Iso ℝ) (b : V3 ℝ)
    {others : List (Iso ℝ × V3 ℝ)} (hne : others ≠ []) :
    ∃ c, observationConsistent W lim pose b others = some c ∧ (c = true ↔
      ((∃ o, others = [o] ∧ Meet lim (pose, b) o) ∨
       (2 ≤ others.length ∧ ∃ p, W.triangulate (others ++ [(pose, b)]) = some p ∧
        ∀ o ∈ others ++ [(pose, b)], Near lim p o))) := by
  match others with
  | [] => exact absurd rfl hne
  | [o] =>
    refine ⟨_, rfl, ?_⟩
    unfold biLandmarkRobust
    rw [decide_eq_true_iff]
    simp [Meet]
  | x :: y :: rest =>
    unfold observationConsistent
    generalize hO : x :: y :: rest = O
    have hlen : 2 ≤ O.length := by rw [← hO]; simp
    have hns : ¬ ∃ o, O = [o] ∧ Meet lim (pose, b) o := by
      rintro ⟨o, h, _⟩; rw [h] at hlen; simp at hlen
    cases ht : W.triangulate (O ++ [(pose, b)]) with
    | none =>
      subst hO
      exact ⟨false, rfl, by simp⟩
    | some p =>
      subst hO
      refine ⟨_, rfl, ?_⟩
      rw [List.all_eq_true]
      constructor
      · intro h
        exact Or.inr ⟨hlen, p, rfl, fun o ho => (near_iff lim p o).1 (h o ho)⟩
      · rintro (h | ⟨_, p', hp, h⟩)
        · exact absurd h hns
        · cases hp
          exact fun o ho => (near_iff lim p o).2 (h o ho)

theorem proper_live {W : World C} {R : Recon (Iso ℝ)} {frame : Nat} {ms : List (List Nat × Nat)}
    (hm : ProperMatches W R frame ms) {m : List Nat × Nat} (h : m ∈ ms) :
    (∀ l ∈ m.1, R.LiveLandmark l) ∧ m.1 ≠ [] := by
  obtain ⟨_, ⟨l, e, hl⟩ | ⟨a, b, e, ha, hb⟩⟩ := hm m h
  · rw [e]; exact ⟨by simpa using hl, by simp⟩
  · rw [e]; exact ⟨by simpa using ⟨ha, hb⟩, by simp⟩

theorem consistentMatch_iff {W : World C} {R : Recon (Iso ℝ)} (hR : R.Consistent) (hb : BearingsComplete W R)
    (lim : Limits) {frame : Nat} (pose : Iso ℝ) {m : List Nat × Nat} (hl : ∀ l ∈ m.1, R.LiveLandmark l) (hne : m.1 ≠ [])
    (hf : ∃ b, W.bearing frame m.2 = some b) :
    ∃ c, consistentMatch W lim R frame pose m = some c ∧ (c = true ↔ Agrees W lim R frame pose m.1 m.2) := by
  obtain ⟨obs, pbs, h1, h2, h3, _, h5⟩ := gathered hR hb hl
  obtain ⟨b, hf⟩ := hf
  have hp : pbs ≠ [] := by
    rintro rfl
    have := List.Forall₂.length_eq h2
    exact h5 hne (List.length_eq_zero_iff.1 this)
  obtain ⟨c, hc, hc'⟩ := observationConsistent_iff W lim pose b hp
  refine ⟨c, ?_, ?_⟩
  · unfold consistentMatch
    simp only [hf, h3, Option.bind_eq_bind, Option.bind_some, hc]
  · rw [hc']
    constructor
    · intro h; exact ⟨obs, pbs, b, h1, h2, hf, h⟩
    · rintro ⟨obs', pbs', b', g1, g2, g3, g4⟩
      obtain rfl := h1.unique g1
      obtain rfl := h2.unique g2
      rw [hf] at g3; cases g3
      exact g4

theorem worldPoint_iff {W : World C} {R : Recon (Iso ℝ)} (hR : R.Consistent) (hb : BearingsComplete W R)
    (hp : RigidPoses R) (hu : UnitBearings W) (hc : 0 ≤ W.minCosine) {ls : List Nat}
    (h : (∃ l, ls = [l] ∧ R.LiveLandmark l) ∨ ∃ a b, ls = [a, b] ∧ R.LiveLandmark a ∧ R.LiveLandmark b) :
    ∃ o, worldPoint W R ls = some o ∧ ∀ p, o = some p ↔ LocatedAt W R ls p := by
  have hl : ∀ l ∈ ls, R.LiveLandmark l := by
    rcases h with ⟨l, e, hl⟩ | ⟨a, b, e, ha, hb⟩
    · rw [e]; simpa using hl
    · rw [e]; simpa using ⟨ha, hb⟩
  obtain ⟨obs, pbs, h1, h2, h3, h4, _⟩ := gathered hR hb hl
  obtain ⟨x, hx, hx'⟩ := C59_robust hp hu hc h4
  refine ⟨if x = true then W.triangulate pbs else none, ?_, ?_⟩
  · rcases h with ⟨l, rfl, L, hL⟩ | ⟨a, b, rfl, ⟨A, hA⟩, B, hB⟩
    · obtain ⟨Ls, g1, g2⟩ := observedBy_iff.1 h1
      simp only [List.mapM_cons, List.mapM_nil, hL] at g1
      cases g1
      simp only [List.flatMap_cons, List.flatMap_nil, List.append_nil] at g2
      subst g2
      simp only [worldPoint, triangulateRobust, hL, Option.bind_eq_bind, Option.bind_some, hx, (seenAs_iff ..).1 h2]
      rfl
    · obtain ⟨Ls, g1, g2⟩ := observedBy_iff.1 h1
      simp only [List.mapM_cons, List.mapM_nil, hA, hB] at g1
      cases g1
      simp only [List.flatMap_cons, List.flatMap_nil, List.append_nil] at g2
      subst g2
      simp only [worldPoint, triangulateMergedRobust, isMergedRobust, hA, hB, Option.bind_eq_bind, Option.bind_some, hx,
        h3]
      rfl
  · intro p
    constructor
    · intro h
      split at h
      · rename_i hxt
        exact ⟨obs, pbs, h1, hx'.1 hxt, h2, h⟩
      · cases h
    · rintro ⟨obs', pbs', g1, g2, g3, g4⟩
      obtain rfl := h1.unique g1
      obtain rfl := h2.unique g3
      rw [if_pos (hx'.2 g2), g4]

theorem worldMatch_iff {W : World C} {R : Recon (Iso ℝ)} (H : PoseData W R) {frame : Nat} {ms : List (List Nat × Nat)}
    (hm : ProperMatches W R frame ms) {m : List Nat × Nat} (h : m ∈ ms) :
    ∃ o, worldMatch W R frame m = some o ∧ ∀ w, o = some w ↔ True ∧ Located W R frame m w := by
  obtain ⟨⟨b, hb⟩, hl⟩ := hm m h
  obtain ⟨o, ho, ho'⟩ := worldPoint_iff H.cons H.complete H.rigid H.unit H.cosine hl
  refine ⟨o.map (fun p => (b, p)), ?_, ?_⟩
  · unfold worldMatch
    simp only [hb, ho, Option.bind_eq_bind, Option.bind_some]; rfl
  · intro w
    unfold Located
    rw [Option.map_eq_some_iff, hb]
    constructor
    · rintro ⟨p, hp, rfl⟩
      exact ⟨trivial, rfl, (ho' p).1 hp⟩
    · rintro ⟨_, h1, h2⟩
      exact ⟨w.2, (ho' _).2 h2, by cases h1; rfl⟩

theorem robustMatch_iff {W : World C} {R : Recon (Iso ℝ)} (H : PoseData W R) (lim : Limits) {frame : Nat}
    {ms : List (List Nat × Nat)} (hm : ProperMatches W R frame ms) (pose : Iso ℝ) {m : List Nat × Nat} (h : m ∈ ms) :
    ∃ o, robustMatch W lim R frame pose m = some o ∧
      ∀ w, o = some w ↔ Agrees W lim R frame pose m.1 m.2 ∧ Located W R frame m w := by
  obtain ⟨o, ho, ho'⟩ := worldMatch_iff H hm h
  obtain ⟨c, hc, hc'⟩ := consistentMatch_iff H.cons H.complete lim pose (proper_live hm h).1 (proper_live hm h).2 (hm m h).1
  refine ⟨if c = true then o else none, ?_, ?_⟩
  · unfold robustMatch
    simp only [ho, hc, Option.bind_eq_bind, Option.bind_some]; rfl
  · intro w
    rw [← hc']
    cases c with
    | true =>
      rw [if_pos rfl, ho' w]
      simp
    | false => simp

theorem collectMatches_spec {W : World C} {R : Recon (Iso ℝ)} {frame : Nat} {Q : List Nat × Nat → Prop}
    {f : List Nat × Nat → Option (Option WorldMatch)} {ms : List (List Nat × Nat)}
    (h : ∀ m ∈ ms, ∃ o, f m = some o ∧ ∀ w, o = some w ↔ Q m ∧ Located W R frame m w) :
    ∃ ws, collectMatches f ms = some ws ∧ PointsOf W R frame Q ms ws := by
  unfold collectMatches
  induction ms with
  | nil => exact ⟨[], rfl, [], List.Sublist.refl _, .nil, by simp, by simp⟩
  | cons m ms ih =>
    obtain ⟨ws, h1, sub, h2, h3, h4, h5⟩ := ih (fun x hx => h x (List.mem_cons_of_mem _ hx))
    obtain ⟨o, h6, h7⟩ := h m (by simp)
    cases hm : ms.mapM f with
    | none => rw [hm] at h1; cases h1
    | some os =>
      rw [hm] at h1
      simp only [Option.map_some, Option.some.injEq] at h1
      have e : (m :: ms).mapM f = some (o :: os) := by rw [List.mapM_cons, h6, hm]; rfl
      rw [e]
      cases o with
      | none =>
        refine ⟨ws, by rw [← h1]; rfl, sub, h2.cons _, h3, h4, ?_⟩
        intro x hx hQ hw
        rcases List.mem_cons.1 hx with rfl | hx
        · obtain ⟨w, hw⟩ := hw
          exact absurd ((h7 w).2 ⟨hQ, hw⟩) (by simp)
        · exact h5 x hx hQ hw
      | some w =>
        obtain ⟨g1, g2⟩ := (h7 w).1 rfl
        refine ⟨w :: ws, by rw [← h1]; rfl, m :: sub, h2.cons_cons _, .cons g2 h3, ?_, ?_⟩
        · intro x hx
          rcases List.mem_cons.1 hx with rfl | hx
          · exact g1
          · exact h4 x hx
        · intro x hx hQ hw
          rcases List.mem_cons.1 hx with rfl | hx
          · simp
          · exact List.mem_cons_of_mem _ (h5 x hx hQ hw)

theorem singleViewL2_some (pose : Iso ℝ) (rate : ℝ) (n : Nat) (lms : List WorldMatch) :
    ∃ q, singleViewL2 pose rate n lms = some q := by
  by_cases h : lms = []
  · subst h; exact ⟨pose, rfl⟩
  · obtain ⟨k, _, hk, _⟩ := C55_single_l2_stops (pose := pose) h rate n
    exact ⟨_, hk⟩

theorem pick_forall₂ {α : Type} {l : List α} {is : List Nat} {xs : List α} (h : pick l is = some xs) :
    List.Forall₂ (fun i x => l[i]? = some x) is xs := by
  induction is generalizing xs with
  | nil => cases h; exact .nil
  | cons i is ih =>
    unfold pick at h
    split at h
    · rename_i x xs' h1 h2
      cases h
      exact .cons h1 (ih h2)
    · cases h

/-- The loop of the pose estimation. -/
theorem refinePose_spec {W : World C} {R : Recon (Iso ℝ)} (H : PoseData W R) (lim : Limits) (s : PoseSettings)
    {frame : Nat} {ms : List (List Nat × Nat)} (hm : ProperMatches W R frame ms) (half : Nat) (n : Nat) :
    ∀ (pose : Iso ℝ) (ws : List WorldMatch), ws.length ≤ s.cap →
    ∃ r, refinePose W lim s R frame ms half n pose ws = some r ∧ ∀ q ws', r = some (q, ws') →
      ∃ (poses : Nat → Iso ℝ) (data : Nat → List WorldMatch), poses 0 = pose ∧ data 0 = ws ∧ poses n = q ∧ data n = ws' ∧
        (∀ i ≤ n, (data i).length ≤ s.cap) ∧
        (∀ i < n, half < (data i).length ∧ singleViewL2 (poses i) s.rate s.patience (data i) = some (poses (i + 1)) ∧
          ∃ all, data (i + 1) = all.take s.cap ∧
            PointsOf W R frame (fun m => Agrees W lim R frame (poses (i + 1)) m.1 m.2) ms all) := by
  induction n with
  | zero =>
    intro pose ws hw
    refine ⟨_, rfl, ?_⟩
    intro q ws' h
    cases h
    exact ⟨fun _ => pose, fun _ => ws, rfl, rfl, rfl, rfl, fun _ _ => hw, by simp⟩
  | succ n ih =>
    intro pose ws hw
    unfold refinePose
    by_cases hlt : ws.length ≤ half
    · rw [if_pos hlt]
      exact ⟨none, rfl, by simp⟩
    · rw [if_neg hlt]
      obtain ⟨p', hp'⟩ := singleViewL2_some pose s.rate s.patience ws
      obtain ⟨all, h1, h2⟩ := collectMatches_spec (fun m h => robustMatch_iff H lim hm p' h)
      simp only [hp', h1]
      obtain ⟨r, g1, g2⟩ := ih p' (all.take s.cap) (by rw [List.length_take]; omega)
      refine ⟨r, g1, ?_⟩
      intro q ws' hr
      obtain ⟨poses, data, e1, e2, e3, e4, e5, e6⟩ := g2 q ws' hr
      refine ⟨fun i => match i with | 0 => pose | i + 1 => poses i, fun i => match i with | 0 => ws | i + 1 => data i,
        rfl, rfl, e3, e4, ?_, ?_⟩
      · intro i hi
        match i with
        | 0 => exact hw
        | i + 1 => exact e5 i (by omega)
      · intro i hi
        match i with
        | 0 =>
          refine ⟨by simpa using hlt, by simp only [e1]; exact hp', all, e2, ?_⟩
          simp only [e1]; exact h2
        | i + 1 => exact e6 i (by omega)

theorem estimatePose_spec {W : World C} {R : Recon (Iso ℝ)} (H : PoseData W R) (lim : Limits) (s : PoseSettings)
    {consensus : List WorldMatch → Option (Iso ℝ × List Nat)} (hcf : ConsensusFair consensus)
    {frame : Nat} {ms : List (List Nat × Nat)} (hm : ProperMatches W R frame ms) :
    ∃ r, estimatePose W lim s consensus R frame ms = some r ∧
      ∀ pose, r = some pose → FoundFrom W lim s consensus R frame ms pose := by
  obtain ⟨ws, h1, h2⟩ := collectMatches_spec (fun m h => worldMatch_iff H hm h)
  unfold estimatePose
  simp only [h1]
  by_cases hmin : ws.length < s.minLandmarks
  · rw [if_pos hmin]; exact ⟨none, rfl, by simp⟩
  rw [if_neg hmin]
  cases hc : consensus ws with
  | none => exact ⟨none, rfl, by simp⟩
  | some c =>
    obtain ⟨pose0, is⟩ := c
    obtain ⟨inl, hi, hil, _⟩ := pick_spec (l := ws) is (hcf.range ws pose0 is hc)
    simp only [hi]
    have hcap : (inl.take s.cap).length ≤ s.cap := by rw [List.length_take]; omega
    obtain ⟨r, g1, g2⟩ := refinePose_spec H lim s hm ((inl.take s.cap).length / 2) s.rounds pose0 (inl.take s.cap) hcap
    simp only [g1]
    match r, g2 with
    | none, _ => exact ⟨none, rfl, by simp⟩
    | some (q, ws'), g2 =>
      obtain ⟨poses, data, e1, e2, e3, e4, e5, e6⟩ := g2 q ws' rfl
      dsimp only
      by_cases hlt : ws'.length ≤ (inl.take s.cap).length / 2
      · rw [if_pos hlt]; exact ⟨none, rfl, by simp⟩
      rw [if_neg hlt]
      obtain ⟨pf, hpf⟩ := singleViewL2_some q s.rate s.patience ws'
      obtain ⟨fin, f1, f2⟩ := collectMatches_spec (fun m h => robustMatch_iff H lim hm pf h)
      simp only [hpf, f1]
      by_cases hfin : fin.length ≤ (inl.take s.cap).length / 2
      · rw [if_pos hfin]; exact ⟨none, rfl, by simp⟩
      rw [if_neg hfin]
      refine ⟨_, rfl, ?_⟩
      intro pose hpose
      cases hpose
      refine ⟨ws, is, fun i => if i = s.rounds + 1 then pf else poses i, data, h2, by omega, ?_, ?_, ?_, ?_, ?_, ?_⟩
      · simp only; rw [if_neg (by omega), e1]; exact hc
      · rw [e2]; exact List.forall₂_take s.cap (pick_forall₂ hi)
      · intro i hile
        simp only
        rw [if_neg (by omega), e2]
        rcases Nat.lt_or_eq_of_le hile with hlt' | rfl
        · rw [if_neg (by omega)]
          exact ⟨(e6 i hlt').1, e5 i hile, (e6 i hlt').2.1⟩
        · rw [if_pos rfl, e3, e4]
          refine ⟨by omega, ?_, hpf⟩
          have := e5 s.rounds le_rfl
          rwa [e4] at this
      · intro i hilt
        simp only
        rw [if_neg (by omega)]
        exact (e6 i hilt).2.2
      · exact ⟨fin, f2, by rw [e2]; omega⟩
      · simp

theorem observationCount_eq {R : Recon (Iso ℝ)} {m : List Nat × Nat} {obs : List (Nat × Nat)}
    (h : ObservedBy R m.1 obs) : observationCount R m = obs.length := by
  obtain ⟨Ls, h, rfl⟩ := h
  unfold observationCount
  generalize m.1 = ls at h
  induction h with
  | nil => rfl
  | cons hL _ ih =>
    rw [List.map_cons, List.sum_cons, ih, List.flatMap_cons, List.length_append, hL]
    rfl

theorem unique_landmark {ms : List (List Nat × Nat)} {l : Nat} (hc : (ms.flatMap Prod.fst).count l = 1)
    {m m' : List Nat × Nat} (h : m ∈ ms) (h' : m' ∈ ms) (hne : m ≠ m') (hl : l ∈ m.1) (hl' : l ∈ m'.1) : False := by
  induction ms with
  | nil => simp at h
  | cons x ms ih =>
    rw [List.flatMap_cons, List.count_append] at hc
    have pos : ∀ y ∈ ms, l ∈ y.1 → 0 < (ms.flatMap Prod.fst).count l := fun y hy hly =>
      List.count_pos_iff.2 (List.mem_flatMap.2 ⟨y, hy, hly⟩)
    rcases List.mem_cons.1 h with e | k
    · rcases List.mem_cons.1 h' with e' | k'
      · exact hne (e.trans e'.symm)
      · have := pos _ k' hl'
        have := List.count_pos_iff.2 (e ▸ hl)
        omega
    · rcases List.mem_cons.1 h' with e' | k'
      · have := pos _ k hl
        have := List.count_pos_iff.2 (e' ▸ hl')
        omega
      · have := pos _ k hl
        exact ih (by omega) k k'

theorem Located.unique {W : World C} {R : Recon (Iso ℝ)} {frame : Nat} {m : List Nat × Nat} {a b : WorldMatch}
    (ha : Located W R frame m a) (hb : Located W R frame m b) : a = b := by
  obtain ⟨h1, obs, pbs, h2, _, h3, h4⟩ := ha
  obtain ⟨g1, obs', pbs', g2, _, g3, g4⟩ := hb
  obtain rfl := h2.unique g2
  obtain rfl := h3.unique g3
  rw [h1] at g1; rw [h4] at g4
  exact Prod.ext (Option.some.inj g1) (Option.some.inj g4)

theorem sublist_eq {α : Type _} {l a b : List α} (hl : l.Nodup) (ha : a.Sublist l) (hb : b.Sublist l)
    (h : ∀ x, x ∈ a ↔ x ∈ b) : a = b := by
  induction l generalizing a b with
  | nil => rw [List.sublist_nil.1 ha, List.sublist_nil.1 hb]
  | cons x l ih =>
    have hx := (List.nodup_cons.1 hl).1
    have hl := (List.nodup_cons.1 hl).2
    rcases List.sublist_cons_iff.1 ha with ka | ⟨a', rfl, ka⟩
    · rcases List.sublist_cons_iff.1 hb with kb | ⟨b', rfl, kb⟩
      · exact ih hl ka kb h
      · exact absurd (ka.subset ((h x).2 (by simp))) hx
    · rcases List.sublist_cons_iff.1 hb with kb | ⟨b', rfl, kb⟩
      · exact absurd (kb.subset ((h x).1 (by simp))) hx
      · have e : a' = b' := by
          refine ih hl ka kb (fun y => ?_)
          have := h y
          simp only [List.mem_cons] at this
          constructor
          · intro hy
            rcases this.1 (Or.inr hy) with rfl | h
            · exact absurd (ka.subset hy) hx
            · exact h
          · intro hy
            rcases this.2 (Or.inr hy) with rfl | h
            · exact absurd (kb.subset hy) hx
            · exact h
        rw [e]

theorem PointsOf.unique {W : World C} {R : Recon (Iso ℝ)} {frame : Nat} {Q : List Nat × Nat → Prop}
    {ms : List (List Nat × Nat)} (hnd : ms.Nodup) {a b : List WorldMatch} (ha : PointsOf W R frame Q ms a)
    (hb : PointsOf W R frame Q ms b) : a = b := by
  obtain ⟨sa, h1, h2, h3, h4⟩ := ha
  obtain ⟨sb, g1, g2, g3, g4⟩ := hb
  have loc : ∀ {s : List (List Nat × Nat)} {ws : List WorldMatch}, List.Forall₂ (Located W R frame) s ws → ∀ m ∈ s,
      ∃ w, Located W R frame m w := by
    intro s ws h
    induction h with
    | nil => simp
    | cons hw _ ih =>
      intro m hm
      rcases List.mem_cons.1 hm with rfl | hm
      · exact ⟨_, hw⟩
      · exact ih m hm
  obtain rfl := sublist_eq hnd h1 g1 (fun m =>
    ⟨fun h => g4 m (h1.subset h) (h3 m h) (loc h2 m h), fun h => h4 m (g1.subset h) (g3 m h) (loc g2 m h)⟩)
  clear h1 h3 h4 g1 g3 g4 loc
  induction h2 generalizing b with
  | nil => cases g2; rfl
  | cons hw _ ih =>
    cases g2 with
    | cons hw' g2 => rw [hw.unique hw', ih g2]

end Verif.Sfm
