import Verif.Lemmas.SfmRegister
import Verif.Props.SfmExample

/-!
# C13, C14: registering a frame
-/

namespace Verif.Sfm

variable {P : Type}

/-! ## C13 -/

/-- **C13** For a positive number of initial features, and whatever the attempts answer, the
registration of a frame with `n` features ends after at most `k + 1` rounds as soon as
`n ≤ initial * 2 ^ k`. The ranges tried start at 0 with the initial number of features, follow each
other without gap or overlap, double their end until it is `n`, and if registration fails every
feature was tried. -/
theorem C13_progressive_registration {σ α : Type} (attempt : Nat → Nat → σ → σ × Option α)
    {initial n k : Nat} (hi : 0 < initial) (hk : n ≤ initial * 2 ^ k) (st : σ) :
    ∃ rs st' o, registerFrame attempt initial n (k + 1) st = some (rs, st', o) ∧
      rs.length ≤ k + 1 ∧
      rs[0]? = some (0, min initial n) ∧
      (∀ (i : Nat) r r', rs[i]? = some r → rs[i + 1]? = some r' →
        r'.1 = r.2 ∧ r'.2 = min (r.2 * 2) n) ∧
      (∀ r, r ∈ rs → r.1 ≤ r.2 ∧ r.2 ≤ n) ∧
      rs.Pairwise (fun r r' => ∀ f, r.1 ≤ f → f < r.2 → ¬ (r'.1 ≤ f ∧ f < r'.2)) ∧
      (o = none → ∀ f, f < n → ∃ r, r ∈ rs ∧ r.1 ≤ f ∧ f < r.2) := by
  unfold registerFrame
  by_cases hn : n = 0
  · subst hn
    unfold registerLoop
    have h0 : min initial 0 = 0 := by omega
    rw [h0]
    cases h : attempt 0 0 st with
    | mk st' o =>
      cases o with
      | some a => exact ⟨_, _, _, rfl, by simp, rfl, by simp, by simp, by simp, by simp⟩
      | none =>
        exact ⟨_, _, _, rfl, by simp, rfl, by simp, by simp, by simp, by simp⟩
  · have hb : n ≤ min initial n * 2 ^ k := by
      rcases Nat.le_total initial n with h | h
      · rw [Nat.min_eq_left h]; exact hk
      · rw [Nat.min_eq_right h]; exact Nat.le_mul_of_pos_right n Nat.one_le_two_pow
    obtain ⟨rs, ⟨st', o⟩, e1, e2, e3, e4⟩ := registerLoop_spec attempt n k 0 (min initial n) st
      (by omega) (Nat.min_le_right _ _) hb
    obtain ⟨c1, c2, c3⟩ := e2.cover (Nat.zero_le _) (Nat.min_le_right _ _)
    obtain ⟨s1, s2⟩ := e2.steps
    refine ⟨rs, st', o, e1, e3, s1, s2, fun r hr => (c1 r hr).2, ?_, ?_⟩
    · refine c2.imp ?_
      intro r r' h f h1 h2 h3
      omega
    · intro ho f hf
      obtain ⟨e, he, hen⟩ := e4 ho
      exact c3 e he f (Nat.zero_le _) (by omega)

/-- With the setting at zero and at least one feature, a registration that fails on the empty range
never ends: no number of rounds is enough. -/
theorem C13_zero_setting_never_ends {σ α : Type} (attempt : Nat → Nat → σ → σ × Option α) {n : Nat}
    (hn : 0 < n) (hf : ∀ st, (attempt 0 0 st).2 = none) (rounds : Nat) (st : σ) :
    registerFrame attempt 0 n rounds st = none := by
  unfold registerFrame
  have h0 : min 0 n = 0 := by omega
  rw [h0]
  induction rounds generalizing st with
  | zero => rfl
  | succ rounds ih =>
    rw [registerLoop]
    have := hf st
    cases h : attempt 0 0 st with
    | mk st' o =>
      rw [h] at this
      simp only at this
      subst this
      have hn0 : ¬ 0 = n := by omega
      simp only [if_neg hn0, Nat.zero_mul, Nat.zero_min]
      rw [ih]

/-- Twenty features from three on: the attempts on 0..3, 3..6, 6..12 and 12..20 fail, the feature
ranges are passed on. -/
example : registerFrame (α := Unit) (fun a b (st : List Nat) => (st ++ [b - a], none)) 3 20 4 [] =
    some ([(0, 3), (3, 6), (6, 12), (12, 20)], [3, 3, 6, 8], none) := rfl
example : 0 < 3 ∧ 20 ≤ 3 * 2 ^ 3 := by decide

/-! ## C14 -/

/-- The matches of a successful registration, for any consistent reconstruction. -/
theorem registration_matches {R : Recon P} (hR : R.Consistent) {n : Nat}
    {ro : Nat → RegOrder} (hro : ∀ f, (ro f).Fair) {views : List Nat}
    {knn : Nat → Nat → List (Nat × Nat)} (hv : ∀ f, f < n → R.Searchable views (knn f))
    {order : List (List Nat × Nat) → List (List Nat × Nat)} (ho : ∀ l, (order l).Perm l)
    {judge : List (List Nat × Nat) → Option (P × (List Nat → Nat → Bool))}
    {betterBy minRobust initial rounds : Nat} {rs ms pose matched}
    (hreg : registerFrame (registerSubset ro betterBy R views knn order judge minRobust) initial n
      rounds [] = some (rs, ms, some (some (pose, matched)))) :
    (∀ f ls, matched.get f = some ls → f < n ∧ R.StandsOut views (knn f) betterBy ls) ∧
    R.ValidMatches n matched.get ∧ matched.WF ∧ minRobust ≤ matched.size := by
  refine registerLoop_inv
    (I := RegState R (fun ls f => matchFeature (ro f) betterBy R views (knn f) = some (some ls)))
    (Q := fun a => ∀ pose fm, a = some (pose, fm) →
      (∀ f ls, fm.get f = some ls → f < n ∧ R.StandsOut views (knn f) betterBy ls) ∧
      R.ValidMatches n fm.get ∧ fm.WF ∧ minRobust ≤ fm.size) ?_ ?_ rounds 0 (min initial n) []
    (Nat.zero_le _) (Nat.min_le_right _ _) ⟨by simp, by simp⟩ hreg pose matched rfl
  · intro start stop st st' h1 h2 hI he
    rcases registerSubset_cases he with ⟨_, _, e⟩ | ⟨hm, _⟩
    · cases e
    · exact matchFeatures_state hro betterBy hR hv h1 h2 hI hm
  · intro start stop st st' a h1 h2 hI he pose fm ha
    rcases registerSubset_cases he with ⟨_, _, e⟩ | ⟨hm, e | ⟨p, keep, e, _, hmin⟩⟩
    · cases e; cases ha
    · cases e
    · cases e
      cases ha
      have hs := matchFeatures_state hro betterBy hR hv h1 h2 hI hm
      obtain ⟨w, v, g⟩ := finalMatches_valid (R := R) (n := n) ho keep hs.1
        (fun m hm => (hs.2 m hm).2.1)
      refine ⟨?_, v, w, hmin⟩
      intro f ls hf
      obtain ⟨hmem, _, _⟩ := (g f ls).mp hf
      obtain ⟨hlt, _, hmf⟩ := hs.2 _ hmem
      have hfn : f < n := Nat.lt_of_lt_of_le hlt h2
      exact ⟨hfn, (matchFeature_spec (hro f) betterBy hR (hv f hfn)).2 ls hmf⟩

/-- **C14** Let a registration of frame `frame` in reconstruction `r` succeed, in any reachable
state, with searched views that exist, any search answers and any pose estimation. Then

* every kept match names a feature of the frame and landmarks that stand out for it,
* the matches can be inserted: landmarks are live, no landmark is proposed for two features, a
  proposed pair has no view in common,
* at least the required number of matches is kept, and
* adding the view with these matches, and incorporating the frame, never panics. -/
theorem C14_matches_safe [Mul P] [Inv P] {d : Data P} (h : Reachable d) {r frame n : Nat}
    {R : Recon P} (hr : d.recons.get r = some R) (hfree : d.FreeFrame frame n)
    {ro : Nat → RegOrder} (hro : ∀ f, (ro f).Fair) {views : List Nat}
    {knn : Nat → Nat → List (Nat × Nat)} (hv : ∀ f, f < n → R.Searchable views (knn f))
    {order : List (List Nat × Nat) → List (List Nat × Nat)} (ho : ∀ l, (order l).Perm l)
    {judge : List (List Nat × Nat) → Option (P × (List Nat → Nat → Bool))}
    {betterBy minRobust initial rounds : Nat} {rs ms pose matched}
    (hreg : registerFrame (registerSubset ro betterBy R views knn order judge minRobust) initial n
      rounds [] = some (rs, ms, some (some (pose, matched)))) :
    (∀ f ls, matched.get f = some ls → f < n ∧ R.StandsOut views (knn f) betterBy ls) ∧
    R.ValidMatches n matched.get ∧ matched.WF ∧ minRobust ≤ matched.size ∧
    (∃ d', step d (.addView r frame pose matched.get) = some d') ∧
    ∀ ω s, Oracle.Fair ω → ∃ d', step d (.incorporateFrame ω s r frame pose matched.get) = some d' := by
  have hR : R.Consistent := (reachable_consistent h).recons r R hr
  have key := registration_matches hR hro hv ho hreg
  refine ⟨key.1, key.2.1, key.2.2.1, key.2.2.2, ?_, ?_⟩
  · exact (step_ok (op := .addView r frame pose matched.get) (reachable_consistent h)
      ⟨R, n, hr, hfree, key.2.1⟩).1 trivial
  · intro ω s hω
    exact (step_ok (op := .incorporateFrame ω s r frame pose matched.get) (reachable_consistent h)
      ⟨hω, R, n, hr, hfree, key.2.1⟩).1 trivial

/-- A registration panics only if the search found fewer than three different landmarks for some
feature. -/
theorem C14_registration_no_panic {R : Recon P} (hR : R.Consistent) {n : Nat}
    {ro : Nat → RegOrder} (hro : ∀ f, (ro f).Fair) {views : List Nat}
    {knn : Nat → Nat → List (Nat × Nat)} (hv : ∀ f, f < n → R.Searchable views (knn f))
    (h3 : ∀ f, f < n → R.ThreeCandidates views (knn f))
    {order : List (List Nat × Nat) → List (List Nat × Nat)}
    {judge : List (List Nat × Nat) → Option (P × (List Nat → Nat → Bool))}
    {betterBy minRobust initial rounds : Nat} {rs ms} :
    registerFrame (registerSubset ro betterBy R views knn order judge minRobust) initial n
      rounds [] ≠ some (rs, ms, some none) := by
  intro hreg
  refine registerLoop_inv (I := fun _ _ => True) (Q := fun a => a ≠ none) ?_ ?_ rounds 0
    (min initial n) [] (Nat.zero_le _) (Nat.min_le_right _ _) trivial hreg rfl
  · intros; trivial
  · intro start stop st st' a h1 h2 _ he ha
    rcases registerSubset_cases he with ⟨hm, _, _⟩ | ⟨_, e | ⟨p, keep, e, _, _⟩⟩
    · have hs : ∀ f, f ∈ List.range' start (stop - start) →
          ∃ r, matchFeature (ro f) betterBy R views (knn f) = some r := by
        intro f hf
        rw [List.mem_range'_1] at hf
        exact (matchFeature_spec (hro f) betterBy hR (hv f (by omega))).1.mpr (h3 f (by omega))
      obtain ⟨ms', hms⟩ := matchFeatures_some hs st
      rw [hms] at hm
      cases hm
    · cases e
    · cases e; cases ha

/-- It does panic if a feature of the first range has fewer than three candidate landmarks. -/
theorem C14_registration_panics {R : Recon P} (hR : R.Consistent) {n : Nat}
    {ro : Nat → RegOrder} (hro : ∀ f, (ro f).Fair) {views : List Nat}
    {knn : Nat → Nat → List (Nat × Nat)} (hv : ∀ f, f < n → R.Searchable views (knn f))
    {order : List (List Nat × Nat) → List (List Nat × Nat)}
    {judge : List (List Nat × Nat) → Option (P × (List Nat → Nat → Bool))}
    {betterBy minRobust initial rounds f : Nat} (hf : f < min initial n)
    (h3 : ¬ R.ThreeCandidates views (knn f)) :
    ∃ rs ms, registerFrame (registerSubset ro betterBy R views knn order judge minRobust) initial n
      (rounds + 1) [] = some (rs, ms, some none) := by
  have hnone : ∀ (fs : List Nat) ms, f ∈ fs →
      matchFeatures ro betterBy R views knn fs ms = none := by
    intro fs
    induction fs with
    | nil => intro ms h; simp at h
    | cons g fs ih =>
      intro ms h
      unfold matchFeatures
      rcases List.mem_cons.mp h with rfl | h
      · have : matchFeature (ro f) betterBy R views (knn f) = none := by
          cases hm : matchFeature (ro f) betterBy R views (knn f) with
          | none => rfl
          | some r =>
            exact absurd ((matchFeature_spec (hro f) betterBy hR (hv f (by omega))).1.mp ⟨r, hm⟩) h3
        rw [this]
      · split
        · rfl
        · exact ih _ h
        · exact ih _ h
  unfold registerFrame registerLoop registerSubset
  rw [hnone _ _ (by rw [List.mem_range'_1]; omega)]
  exact ⟨_, _, rfl⟩

/-- Searching one view that returns three different features is enough: they have three different
landmarks. -/
theorem C14_three_features_suffice {R : Recon P} (hR : R.Consistent) {views : List Nat}
    {knn : Nat → List (Nat × Nat)} (hv : R.Searchable views knn) {v i j k x y z : Nat}
    (hvm : v ∈ views) (hij : i ≠ j) (hik : i ≠ k) (hjk : j ≠ k) (hi : (i, x) ∈ knn v)
    (hj : (j, y) ∈ knn v) (hk : (k, z) ∈ knn v) : R.ThreeCandidates views knn := by
  obtain ⟨V, hV, hlen⟩ := hv v hvm
  have assigned : ∀ i x, (i, x) ∈ knn v → ∃ l, R.Assigned v i l := fun i x h =>
    ⟨V.landmarks[i]'(hlen _ h), V, hV, List.getElem?_eq_getElem _⟩
  have inj : ∀ i j l, R.Assigned v i l → R.Assigned v j l → i = j := by
    intro i j l h h'
    obtain ⟨L, hL, e⟩ := (hR.agree v i l).mp h
    obtain ⟨L', hL', e'⟩ := (hR.agree v j l).mp h'
    rw [hL] at hL'
    cases hL'
    rw [e] at e'
    exact Option.some.inj e'
  have best : ∀ i x l, (i, x) ∈ knn v → R.Assigned v i l → ∃ y, R.BestAt views knn l y := by
    intro i x l h ha
    have hex : ∃ m, ∃ w i, w ∈ views ∧ (i, m) ∈ knn w ∧ R.Assigned w i l := ⟨x, v, i, hvm, h, ha⟩
    -- the least distance
    have least : ∀ m, (∃ w i, w ∈ views ∧ (i, m) ∈ knn w ∧ R.Assigned w i l) →
        ∃ y, R.BestAt views knn l y := by
      intro m
      induction m using Nat.strongRecOn with
      | ind m ih =>
        intro hm
        by_cases hs : ∃ m', m' < m ∧ ∃ w i, w ∈ views ∧ (i, m') ∈ knn w ∧ R.Assigned w i l
        · obtain ⟨m', hlt, hm'⟩ := hs
          exact ih m' hlt hm'
        · refine ⟨m, hm, ?_⟩
          intro w i' y hw hi' ha'
          exact Nat.le_of_not_lt (fun hlt => hs ⟨y, hlt, w, i', hw, hi', ha'⟩)
    obtain ⟨m, hm⟩ := hex
    exact least m hm
  obtain ⟨l₁, a₁⟩ := assigned i x hi
  obtain ⟨l₂, a₂⟩ := assigned j y hj
  obtain ⟨l₃, a₃⟩ := assigned k z hk
  obtain ⟨y₁, b₁⟩ := best i x l₁ hi a₁
  obtain ⟨y₂, b₂⟩ := best j y l₂ hj a₂
  obtain ⟨y₃, b₃⟩ := best k z l₃ hk a₃
  refine ⟨l₁, l₂, l₃, y₁, y₂, y₃, ?_, ?_, ?_, b₁, b₂, b₃⟩
  · rintro rfl; exact hij (inj _ _ _ a₁ a₂)
  · rintro rfl; exact hik (inj _ _ _ a₁ a₃)
  · rintro rfl; exact hjk (inj _ _ _ a₂ a₃)

/-! The fourth frame of the example: feature 0 is equally close to landmarks 2 and 3, feature 1 is
close to landmark 1 only.  The search uses views 0 and 1. -/

namespace Ex

/-- Insert by distance. -/
def ins (x : Nat × Nat) : List (Nat × Nat) → List (Nat × Nat)
  | [] => [x]
  | y :: l => if x.2 ≤ y.2 then x :: y :: l else y :: ins x l

theorem ins_perm (x : Nat × Nat) (l : List (Nat × Nat)) : (ins x l).Perm (x :: l) := by
  induction l with
  | nil => exact List.Perm.refl _
  | cons y l ih =>
    unfold ins
    split
    · exact List.Perm.refl _
    · exact (ih.cons y).trans (List.Perm.swap x y l)

theorem ins_sorted (x : Nat × Nat) (l : List (Nat × Nat)) (h : l.Pairwise (fun x y => x.2 ≤ y.2)) :
    (ins x l).Pairwise (fun x y => x.2 ≤ y.2) := by
  induction l with
  | nil => simp [ins]
  | cons y l ih =>
    rw [List.pairwise_cons] at h
    unfold ins
    split
    · rename_i hle
      rw [List.pairwise_cons, List.pairwise_cons]
      refine ⟨?_, h.1, h.2⟩
      intro z hz
      rcases List.mem_cons.mp hz with rfl | hz
      · exact hle
      · exact Nat.le_trans hle (h.1 z hz)
    · rename_i hlt
      rw [List.pairwise_cons]
      refine ⟨?_, ih h.2⟩
      intro z hz
      rcases List.mem_cons.mp ((ins_perm x l).mem_iff.mp hz) with rfl | hz
      · omega
      · exact h.1 z hz

/-- Orders of the example: hash order as it comes, insertion sort by distance. -/
def roEx : RegOrder := ⟨id, fun l => l.foldr ins []⟩

theorem roEx_fair : roEx.Fair := by
  refine ⟨fun l => List.Perm.refl _, fun l => ?_, fun l => ?_⟩
  · induction l with
    | nil => exact List.Perm.refl _
    | cons x l ih => exact (ins_perm x _).trans (ih.cons x)
  · induction l with
    | nil => simp [roEx]
    | cons x l ih => exact ins_sorted x _ ih

def knnEx : Nat → Nat → List (Nat × Nat)
  | 0, 0 => [(2, 5), (0, 90), (1, 80)]
  | 0, 1 => [(1, 6), (0, 70), (2, 60)]
  | 1, 0 => [(1, 4), (0, 90), (2, 80)]
  | 1, 1 => [(2, 6), (0, 70), (1, 60)]
  | _, _ => []

def judgeEx : List (List Nat × Nat) → Option (Shift × (List Nat → Nat → Bool)) :=
  fun ms => if ms.length < 2 then none else some (⟨3⟩, fun _ _ => true)

theorem searchable6 (f : Nat) : R6.Searchable [0, 1] (knnEx f) := by
  intro v hv
  simp at hv
  rcases hv with rfl | rfl
  · refine ⟨_, rfl, ?_⟩
    intro e he
    match f with
    | 0 => simp [knnEx] at he; rcases he with rfl | rfl | rfl <;> decide
    | 1 => simp [knnEx] at he; rcases he with rfl | rfl | rfl <;> decide
    | _ + 2 => simp [knnEx] at he
  · refine ⟨_, rfl, ?_⟩
    intro e he
    match f with
    | 0 => simp [knnEx] at he; rcases he with rfl | rfl | rfl <;> decide
    | 1 => simp [knnEx] at he; rcases he with rfl | rfl | rfl <;> decide
    | _ + 2 => simp [knnEx] at he

theorem register6 : registerFrame (registerSubset (fun _ => roEx) 24 R6 [0, 1] knnEx id judgeEx 2) 1 2
    5 [] = some ([(0, 1), (1, 2)], [([2, 3], 0), ([1], 1)],
      some (some (⟨3⟩, ⟨[(0, [2, 3]), (1, [1])]⟩))) := rfl

/-- The hypotheses of C14 hold of this registration, so its result can be inserted. -/
example : ∃ d', step d6 (.addView 0 3 ⟨3⟩
    (FMap.get (⟨[(0, [2, 3]), (1, [1])]⟩ : FMap (List Nat)))) = some d' :=
  (C14_matches_safe (n := 2) reach6 get6 ⟨_, rfl, rfl, rfl⟩ (fun _ => roEx_fair)
    (fun f _ => searchable6 f) (fun _ => List.Perm.refl _) register6).2.2.2.2.1

/-- Three candidates by `C14_three_features_suffice`. -/
example : R6.ThreeCandidates [0, 1] (knnEx 0) :=
  C14_three_features_suffice (v := 0) (i := 2) (j := 0) (k := 1) (x := 5) (y := 90) (z := 80)
    ((reachable_consistent reach6).recons 0 R6 get6) (searchable6 0) (by simp) (by decide)
    (by decide) (by decide) (by simp [knnEx]) (by simp [knnEx]) (by simp [knnEx])

/-- A search without answers: no three candidates, the registration panics. -/
example : ¬ R6.ThreeCandidates [0, 1] (fun _ => []) := by
  rintro ⟨_, _, _, _, _, _, _, _, _, ⟨⟨_, _, _, h, _⟩, _⟩, _⟩
  simp at h

end Ex

end Verif.Sfm
