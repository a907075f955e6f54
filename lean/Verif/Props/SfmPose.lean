import Verif.Lemmas.SfmPose
import Verif.Props.SfmRegister

/-!
# C88: a frame is registered only with a verified pose
-/

namespace Verif.Sfm

open Verif.Geo

variable {C : Type}

theorem byObservations_perm (R : Recon (Iso ℝ)) (ms : List (List Nat × Nat)) : (byObservations R ms).Perm ms :=
  List.perm_insertionSort _ _

theorem byObservations_sorted (R : Recon (Iso ℝ)) (ms : List (List Nat × Nat)) :
    (byObservations R ms).Pairwise (fun a b => observationCount R b ≤ observationCount R a) := by
  have h1 : Std.Total (fun a b : List Nat × Nat => observationCount R b ≤ observationCount R a) :=
    ⟨fun a b => Nat.le_total _ _⟩
  have h2 : IsTrans (List Nat × Nat) (fun a b => observationCount R b ≤ observationCount R a) :=
    ⟨fun a b c h1 h2 => Nat.le_trans h2 h1⟩
  exact List.pairwise_insertionSort _ _

/-- **C88** The pose estimation never panics: no lookup fails, no index is out of range and no match has a number of
landmarks the program does not expect. -/
theorem C88_no_panic {W : World C} {R : Recon (Iso ℝ)} (H : PoseData W R) (lim : Limits) (s : PoseSettings)
    {consensus : List WorldMatch → Option (Iso ℝ × List Nat)} (hcf : ConsensusFair consensus)
    {frame : Nat} {ms : List (List Nat × Nat)} (hm : ProperMatches W R frame ms) :
    (∃ r, estimatePose W lim s consensus R frame ms = some r) ∧
    (∀ pose, ∀ m ∈ ms, ∃ c, consistentMatch W lim R frame pose m = some c) ∧
    ∀ m ∈ ms, ∀ l ∈ m.1, ∃ L, R.landmarks.get l = some L := by
  refine ⟨?_, ?_, fun m h l hl => (proper_live hm h).1 l hl⟩
  · obtain ⟨r, h, _⟩ := estimatePose_spec H lim s hcf hm
    exact ⟨r, h⟩
  · intro pose m h
    obtain ⟨c, hc, _⟩ := consistentMatch_iff H.cons H.complete lim pose (proper_live hm h).1 (proper_live hm h).2 (hm m h).1
    exact ⟨c, hc⟩

theorem FoundFrom.rigid {W : World C} {R : Recon (Iso ℝ)} {lim : Limits} {s : PoseSettings}
    {consensus : List WorldMatch → Option (Iso ℝ × List Nat)} (hcf : ConsensusFair consensus) {frame : Nat}
    {ms : List (List Nat × Nat)} {pose : Iso ℝ} (h : FoundFrom W lim s consensus R frame ms pose) : pose.Rigid := by
  obtain ⟨ws, is, poses, data, _, _, h3, _, h5, _, _, rfl⟩ := h
  have : ∀ i ≤ s.rounds + 1, (poses i).Rigid := by
    intro i
    induction i with
    | zero => intro _; exact hcf.rigid _ _ _ h3
    | succ i ih =>
      intro hi
      exact (C55_single_moves (eps := 0) (Or.inr (h5 i (by omega)).2.2)).2 (ih (by omega))
  exact this _ le_rfl

/-- The theorem below for a consistent reconstruction. -/
theorem verified_pose {frame n : Nat} {R : Recon (Iso ℝ)} (hR : R.Consistent) {W : World C} (hb : BearingsComplete W R) (hp : RigidPoses R) (hu : UnitBearings W)
    (hc : 0 ≤ W.minCosine) (hn : ∀ f < n, ∃ b, W.bearing frame f = some b)
    (lim : Limits) (s : PoseSettings) {consensus : List WorldMatch → Option (Iso ℝ × List Nat)}
    (hcf : ConsensusFair consensus) {ro : Nat → RegOrder} (hro : ∀ f, (ro f).Fair) {views : List Nat}
    {knn : Nat → Nat → List (Nat × Nat)} (hv : ∀ f, f < n → R.Searchable views (knn f))
    {betterBy minRobust initial rounds : Nat} {rs ms₀ pose matched}
    (hreg : registerFrame (registerSubset ro betterBy R views knn (byObservations R) (geoJudge W lim s consensus R frame)
      minRobust) initial n rounds [] = some (rs, ms₀, some (some (pose, matched)))) :
    ∃ ms : List (List Nat × Nat), (ms.map Prod.snd).Nodup ∧
      (∀ m ∈ ms, m.2 < n ∧ R.StandsOut views (knn m.2) betterBy m.1) ∧
      (∀ m ∈ ms, ∀ m' ∈ ms, m ≠ m' → ∀ l ∈ m.1, l ∉ m'.1) ∧
      ms.Pairwise (fun a b => ∀ oa ob, ObservedBy R a.1 oa → ObservedBy R b.1 ob → ob.length ≤ oa.length) ∧
      FoundFrom W lim s consensus R frame ms pose ∧ pose.Rigid ∧
      (∀ f ls, matched.get f = some ls ↔ (ls, f) ∈ ms ∧ Agrees W lim R frame pose ls f) ∧
      matched.WF ∧ minRobust ≤ matched.size := by
  have H : PoseData W R := ⟨hR, hb, hp, hu, hc⟩
  refine registerLoop_inv
    (I := RegState R (fun ls f => matchFeature (ro f) betterBy R views (knn f) = some (some ls)))
    (Q := fun a => ∀ pose matched, a = some (pose, matched) → ∃ ms : List (List Nat × Nat), (ms.map Prod.snd).Nodup ∧
      (∀ m ∈ ms, m.2 < n ∧ R.StandsOut views (knn m.2) betterBy m.1) ∧
      (∀ m ∈ ms, ∀ m' ∈ ms, m ≠ m' → ∀ l ∈ m.1, l ∉ m'.1) ∧
      ms.Pairwise (fun a b => ∀ oa ob, ObservedBy R a.1 oa → ObservedBy R b.1 ob → ob.length ≤ oa.length) ∧
      FoundFrom W lim s consensus R frame ms pose ∧ pose.Rigid ∧
      (∀ f ls, matched.get f = some ls ↔ (ls, f) ∈ ms ∧ Agrees W lim R frame pose ls f) ∧
      matched.WF ∧ minRobust ≤ matched.size) ?_ ?_ rounds 0 (min initial n) []
    (Nat.zero_le _) (Nat.min_le_right _ _) ⟨by simp, by simp⟩ hreg pose matched rfl
  · intro start stop st st' h1 h2 hI he
    rcases registerSubset_cases he with ⟨_, _, e⟩ | ⟨hm, _⟩
    · cases e
    · exact matchFeatures_state hro betterBy hR hv h1 h2 hI hm
  · intro start stop st st' a h1 h2 hI he pose fm ha
    rcases registerSubset_cases he with ⟨_, _, e⟩ | ⟨hm, e | ⟨p, keep, e, hj, hmin⟩⟩
    · cases e; cases ha
    · cases e
    · cases e
      cases ha
      have hs := matchFeatures_state hro betterBy hR hv h1 h2 hI hm
      have hperm := byObservations_perm R (retainUnique st')
      have hmem : ∀ m, m ∈ byObservations R (retainUnique st') ↔ m ∈ st' ∧ ∀ l ∈ m.1, (st'.flatMap Prod.fst).count l = 1 := by
        intro m
        rw [hperm.mem_iff, retainUnique, List.mem_filter, List.all_eq_true]
        simp only [beq_iff_eq]
      have hproper : ProperMatches W R frame (byObservations R (retainUnique st')) := by
        intro m h
        obtain ⟨h3, h4, _⟩ := hs.2 m ((hmem m).1 h).1
        refine ⟨hn _ (by omega), ?_⟩
        rcases h4 with ⟨l, e, hl⟩ | ⟨a, b, e, _, ha, hb, _⟩
        · exact Or.inl ⟨l, e, hl⟩
        · exact Or.inr ⟨a, b, e, ha, hb⟩
      have hnd : ((byObservations R (retainUnique st')).map Prod.snd).Nodup :=
        (hperm.map _).nodup_iff.mpr (List.Nodup.sublist (List.Sublist.map _ List.filter_sublist) hs.1)
      obtain ⟨r, he1, he2⟩ := estimatePose_spec H lim s hcf hproper
      unfold geoJudge at hj
      rw [he1, Option.getD_some, Option.map_eq_some_iff] at hj
      obtain ⟨q, hq, e⟩ := hj
      simp only [Prod.mk.injEq] at e
      obtain ⟨rfl, rfl⟩ := e
      have hf := he2 q hq
      obtain ⟨w, _, g⟩ := finalMatches_valid (R := R) (n := n) (fun l => byObservations_perm R l)
        (fun ls f => (consistentMatch W lim R frame q (ls, f)).getD false) hs.1 (fun m hm => (hs.2 m hm).2.1)
      refine ⟨_, hnd, ?_, ?_, ?_, hf, hf.rigid hcf, ?_, w, hmin⟩
      · intro m h
        obtain ⟨hlt, _, hmf⟩ := hs.2 m ((hmem m).1 h).1
        have hfn : m.2 < n := Nat.lt_of_lt_of_le hlt h2
        exact ⟨hfn, (matchFeature_spec (hro _) betterBy hR (hv _ hfn)).2 _ hmf⟩
      · intro m h m' h' hne l hl hl'
        have hc1 := ((hmem m).1 h).2 l hl
        exact unique_landmark hc1 ((hmem m).1 h).1 ((hmem m').1 h').1 hne hl hl'
      · refine (byObservations_sorted R _).imp_of_mem ?_
        intro a b ha hb hle oa ob hoa hob
        rwa [observationCount_eq hoa, observationCount_eq hob] at hle
      · intro f ls
        rw [g f ls, hmem]
        constructor
        · rintro ⟨k1, k2, k3⟩
          refine ⟨⟨k1, k3⟩, ?_⟩
          have hin := (hmem (ls, f)).2 ⟨k1, k3⟩
          obtain ⟨c, hc, hc'⟩ := consistentMatch_iff H.cons H.complete lim q (proper_live hproper hin).1
            (proper_live hproper hin).2 (hproper _ hin).1
          rw [hc, Option.getD_some] at k2
          exact hc'.1 k2
        · rintro ⟨⟨k1, k3⟩, k2⟩
          refine ⟨k1, ?_, k3⟩
          have hin := (hmem (ls, f)).2 ⟨k1, k3⟩
          obtain ⟨c, hc, hc'⟩ := consistentMatch_iff H.cons H.complete lim q (proper_live hproper hin).1
            (proper_live hproper hin).2 (hproper _ hin).1
          rw [hc, Option.getD_some]
          exact hc'.2 k2

/-- **C88** Let a registration of a frame with `n` features succeed. Then there are matches of features with landmarks that
stand out for them, no landmark in two of them, those with the most observations first, such that

* the pose is rigid and was found from them as described in `FoundFrom`,
* the matches returned are exactly those that agree with the pose,
* there are at least as many as required. -/
theorem C88_verified_pose {d : Data (Iso ℝ)} (h : Reachable d) {r frame n : Nat} {R : Recon (Iso ℝ)}
    (hr : d.recons.get r = some R) {W : World C} (hb : BearingsComplete W R) (hp : RigidPoses R) (hu : UnitBearings W)
    (hc : 0 ≤ W.minCosine) (hn : ∀ f < n, ∃ b, W.bearing frame f = some b)
    (lim : Limits) (s : PoseSettings) {consensus : List WorldMatch → Option (Iso ℝ × List Nat)}
    (hcf : ConsensusFair consensus) {ro : Nat → RegOrder} (hro : ∀ f, (ro f).Fair) {views : List Nat}
    {knn : Nat → Nat → List (Nat × Nat)} (hv : ∀ f, f < n → R.Searchable views (knn f))
    {betterBy minRobust initial rounds : Nat} {rs ms₀ pose matched}
    (hreg : registerFrame (registerSubset ro betterBy R views knn (byObservations R) (geoJudge W lim s consensus R frame)
      minRobust) initial n rounds [] = some (rs, ms₀, some (some (pose, matched)))) :
    ∃ ms : List (List Nat × Nat), (ms.map Prod.snd).Nodup ∧
      (∀ m ∈ ms, m.2 < n ∧ R.StandsOut views (knn m.2) betterBy m.1) ∧
      (∀ m ∈ ms, ∀ m' ∈ ms, m ≠ m' → ∀ l ∈ m.1, l ∉ m'.1) ∧
      ms.Pairwise (fun a b => ∀ oa ob, ObservedBy R a.1 oa → ObservedBy R b.1 ob → ob.length ≤ oa.length) ∧
      FoundFrom W lim s consensus R frame ms pose ∧ pose.Rigid ∧
      (∀ f ls, matched.get f = some ls ↔ (ls, f) ∈ ms ∧ Agrees W lim R frame pose ls f) ∧
      matched.WF ∧ minRobust ≤ matched.size :=
  verified_pose ((reachable_consistent h).recons r R hr) hb hp hu hc hn lim s hcf hro hv hreg

/-- **C88** The right pose is accepted: let the consensus over enough points return a pose that sees its inliers exactly,
and sees exactly all points of matches that agree with it. If these are more than half of the inliers, this pose is the
result. -/
theorem C88_right_pose {W : World C} {R : Recon (Iso ℝ)} (H : PoseData W R) (lim : Limits) (s : PoseSettings)
    {consensus : List WorldMatch → Option (Iso ℝ × List Nat)} (hcf : ConsensusFair consensus)
    {frame : Nat} {ms : List (List Nat × Nat)} (hm : ProperMatches W R frame ms) (hnd : ms.Nodup)
    {ws fin : List WorldMatch} {pose : Iso ℝ} {is : List Nat} (hws : PointsOf W R frame (fun _ => True) ms ws)
    (hmin : s.minLandmarks ≤ ws.length) (hcon : consensus ws = some (pose, is)) (hne : is ≠ []) (hcap : 0 < s.cap)
    (hfit : ∀ i ∈ is, ∀ w, ws[i]? = some w → Geo.Fits pose w)
    (hfin : PointsOf W R frame (fun m => Agrees W lim R frame pose m.1 m.2) ms fin)
    (hfits : ∀ w ∈ fin, Geo.Fits pose w) (hmany : min s.cap is.length / 2 < fin.length) :
    estimatePose W lim s consensus R frame ms = some (some pose) := by
  obtain ⟨ws', h1, h2⟩ := collectMatches_spec (fun m h => worldMatch_iff H hm h)
  obtain ⟨fin', h3, h4⟩ := collectMatches_spec (fun m h => robustMatch_iff H lim hm pose h)
  obtain rfl := h2.unique hnd hws
  obtain rfl := h4.unique hnd hfin
  obtain ⟨inl, hi, hil, him, _⟩ := pick_spec (l := ws') is (hcf.range ws' pose is hcon)
  have hlen : (inl.take s.cap).length = min s.cap is.length := by rw [List.length_take, hil]
  have hpos : 0 < is.length := List.length_pos_iff.2 hne
  have ffin : ∀ n, ∀ ws : List WorldMatch, (∀ w ∈ ws, Geo.Fits pose w) → min s.cap is.length / 2 < ws.length →
      ∃ ws', refinePose W lim s R frame ms (min s.cap is.length / 2) n pose ws = some (some (pose, ws')) ∧
        (∀ w ∈ ws', Geo.Fits pose w) ∧ min s.cap is.length / 2 < ws'.length := by
    intro n
    induction n with
    | zero => intro ws hw hl; exact ⟨ws, rfl, hw, hl⟩
    | succ n ih =>
      intro ws hw hl
      unfold refinePose
      rw [if_neg (by omega), (C55_single_exact_partial hw 0 s.rate s.patience).1]
      simp only [h3]
      exact ih _ (fun w h => hfits w (List.mem_of_mem_take h)) (by rw [List.length_take]; omega)
  obtain ⟨ws1, g1, g2, g3⟩ := ffin s.rounds (inl.take s.cap) (by
    intro w h
    obtain ⟨i, hi1, hi2⟩ := (him w).1 (List.mem_of_mem_take h)
    exact hfit i hi1 w hi2) (by rw [hlen]; omega)
  unfold estimatePose
  simp only [h1]
  rw [if_neg (by omega), hcon]
  simp only [hi, hlen, g1]
  rw [if_neg (by omega), (C55_single_exact_partial g2 0 s.rate s.patience).1]
  simp only [h3]
  rw [if_neg (by omega)]

end Verif.Sfm
