import Verif.Spec.SfmRegister
import Verif.Lemmas.SfmRecon
import Verif.Lemmas.SfmConstraints

/-!
# Lemmas about the registration of a frame
-/

namespace Verif.Sfm

variable {P : Type}

/-! ## The doubling loop -/

/-- The ranges tried are consecutive, the first is `start..stop`, each next one ends at twice the
end (or at `n`). -/
inductive Doubling (n : Nat) : Nat → Nat → List (Nat × Nat) → Prop where
  | one (start stop : Nat) : Doubling n start stop [(start, stop)]
  | more (start stop : Nat) (rs : List (Nat × Nat)) : stop ≠ n →
      Doubling n stop (min (stop * 2) n) rs → Doubling n start stop ((start, stop) :: rs)

theorem registerLoop_spec {σ α : Type} (attempt : Nat → Nat → σ → σ × Option α) (n : Nat)
    (fuel : Nat) : ∀ (start stop : Nat) (st : σ), 0 < stop → stop ≤ n → n ≤ stop * 2 ^ fuel →
    ∃ rs r, registerLoop attempt n (fuel + 1) start stop st = some (rs, r) ∧
      Doubling n start stop rs ∧ rs.length ≤ fuel + 1 ∧
      (r.2 = none → ∃ e, rs.getLast? = some e ∧ e.2 = n) := by
  induction fuel with
  | zero =>
    intro start stop st h0 h1 h2
    have hn : stop = n := by omega
    unfold registerLoop
    cases h : attempt start stop st with
    | mk st' o =>
      cases o with
      | some a => exact ⟨_, _, rfl, .one _ _, by simp, by simp⟩
      | none =>
        simp only [if_pos hn]
        exact ⟨_, _, rfl, .one _ _, by simp, fun _ => ⟨_, rfl, hn⟩⟩
  | succ fuel ih =>
    intro start stop st h0 h1 h2
    unfold registerLoop
    cases h : attempt start stop st with
    | mk st' o =>
      cases o with
      | some a => exact ⟨_, _, rfl, .one _ _, by simp, by simp⟩
      | none =>
        by_cases hn : stop = n
        · simp only [if_pos hn]
          exact ⟨_, _, rfl, .one _ _, by simp, fun _ => ⟨_, rfl, hn⟩⟩
        · have hb : n ≤ min (stop * 2) n * 2 ^ fuel := by
            rcases Nat.le_total (stop * 2) n with h | h
            · rw [Nat.min_eq_left h]
              rw [Nat.pow_succ] at h2
              rw [Nat.mul_assoc, Nat.mul_comm 2]
              exact h2
            · rw [Nat.min_eq_right h]
              exact Nat.le_mul_of_pos_right n Nat.one_le_two_pow
          obtain ⟨rs, r, e1, e2, e3, e4⟩ := ih stop (min (stop * 2) n) st' (by omega)
            (Nat.min_le_right _ _) hb
          simp only [if_neg hn, e1]
          refine ⟨_, _, rfl, .more _ _ _ hn e2, by simpa using e3, ?_⟩
          intro hr
          obtain ⟨e, h1, h2⟩ := e4 hr
          refine ⟨e, ?_, h2⟩
          rw [List.getLast?_cons, h1]
          rfl

/-- Whatever holds of the state before every attempt, and whatever every attempt ensures. -/
theorem registerLoop_inv {σ α : Type} {attempt : Nat → Nat → σ → σ × Option α} {n : Nat}
    {I : Nat → σ → Prop} {Q : α → Prop}
    (hI : ∀ start stop st st', start ≤ stop → stop ≤ n → I start st →
      attempt start stop st = (st', none) → I stop st')
    (hQ : ∀ start stop st st' a, start ≤ stop → stop ≤ n → I start st →
      attempt start stop st = (st', some a) → Q a) (fuel : Nat) :
    ∀ (start stop : Nat) (st : σ) {rs st' a}, start ≤ stop → stop ≤ n → I start st →
    registerLoop attempt n fuel start stop st = some (rs, st', some a) → Q a := by
  induction fuel with
  | zero => intro _ _ _ _ _ _ _ _ _ h; cases h
  | succ fuel ih =>
    intro start stop st rs st' a h1 h2 h3 h
    unfold registerLoop at h
    split at h
    · rename_i st₁ a' he
      cases h
      exact hQ _ _ _ _ _ h1 h2 h3 he
    · rename_i st₁ he
      split at h
      · cases h
      · split at h
        · cases h
        · rename_i rs' r' hr
          cases h
          exact ih _ _ _ (by omega) (Nat.min_le_right _ _) (hI _ _ _ _ h1 h2 h3 he) hr

theorem Doubling.cover {n start stop : Nat} {rs : List (Nat × Nat)} (h : Doubling n start stop rs)
    (hs : start ≤ stop) (hn : stop ≤ n) :
    (∀ r, r ∈ rs → start ≤ r.1 ∧ r.1 ≤ r.2 ∧ r.2 ≤ n) ∧
    rs.Pairwise (fun r r' => r.2 ≤ r'.1) ∧
    (∀ e, rs.getLast? = some e → ∀ k, start ≤ k → k < e.2 → ∃ r, r ∈ rs ∧ r.1 ≤ k ∧ k < r.2) := by
  induction h with
  | one start stop =>
    refine ⟨by simp [hs, hn], by simp, ?_⟩
    intro e he k h1 h2
    simp at he
    subst he
    exact ⟨_, by simp, h1, h2⟩
  | more start stop rs hne _ ih =>
    obtain ⟨i1, i2, i3⟩ := ih (by omega) (Nat.min_le_right _ _)
    refine ⟨?_, ?_, ?_⟩
    · intro r hr
      rcases List.mem_cons.mp hr with rfl | hr
      · exact ⟨Nat.le_refl _, hs, hn⟩
      · obtain ⟨h1, h2, h3⟩ := i1 r hr
        exact ⟨by omega, h2, h3⟩
    · refine List.pairwise_cons.mpr ⟨?_, i2⟩
      intro r hr
      exact (i1 r hr).1
    · intro e he k h1 h2
      rw [List.getLast?_cons] at he
      by_cases hk : k < stop
      · exact ⟨_, List.mem_cons_self, h1, hk⟩
      · cases hl : rs.getLast? with
        | none =>
          rw [hl] at he
          simp at he
          subst he
          exact absurd h2 hk
        | some e' =>
          rw [hl] at he
          simp at he
          subst he
          obtain ⟨r, hr, h3, h4⟩ := i3 e' hl k (by omega) h2
          exact ⟨r, List.mem_cons_of_mem _ hr, h3, h4⟩

theorem Doubling.steps {n start stop : Nat} {rs : List (Nat × Nat)} (h : Doubling n start stop rs) :
    rs[0]? = some (start, stop) ∧ ∀ (i : Nat) r r', rs[i]? = some r → rs[i + 1]? = some r' →
      r'.1 = r.2 ∧ r'.2 = min (r.2 * 2) n := by
  induction h with
  | one start stop => exact ⟨rfl, by intro i r r' _ h; simp at h⟩
  | more start stop rs hne _ ih =>
    refine ⟨rfl, ?_⟩
    intro i r r' h h'
    cases i with
    | zero =>
      simp at h h'
      rw [ih.1] at h'
      simp at h'
      subst h h'
      exact ⟨rfl, rfl⟩
    | succ i => exact ih.2 i r r' (by simpa using h) (by simpa using h')

/-! ## Candidates -/

theorem viewCandidates_spec (lms : List Nat) (ans : List (Nat × Nat)) :
    (∀ e, e ∈ ans → e.1 < lms.length) →
    ∃ cs, viewCandidates lms ans = some cs ∧ ∀ l x, (l, x) ∈ cs ↔
      ∃ i, (i, x) ∈ ans ∧ lms[i]? = some l := by
  induction ans with
  | nil => intro _; exact ⟨[], rfl, by simp⟩
  | cons e ans ih =>
    obtain ⟨i, y⟩ := e
    intro h
    obtain ⟨cs, h1, h2⟩ := ih (fun e he => h e (List.mem_cons_of_mem _ he))
    have hi : i < lms.length := h (i, y) (by simp)
    refine ⟨(lms[i], y) :: cs, by simp only [viewCandidates, h1, List.getElem?_eq_getElem hi], ?_⟩
    intro l x
    rw [List.mem_cons, h2]
    constructor
    · rintro (e | ⟨j, hj, hl⟩)
      · cases e
        exact ⟨i, by simp, List.getElem?_eq_getElem hi⟩
      · exact ⟨j, List.mem_cons_of_mem _ hj, hl⟩
    · rintro ⟨j, hj, hl⟩
      rcases List.mem_cons.mp hj with e | hj
      · cases e
        rw [List.getElem?_eq_getElem hi] at hl
        cases hl
        exact Or.inl rfl
      · exact Or.inr ⟨j, hj, hl⟩

theorem rawCandidates_spec {R : Recon P} (knn : Nat → List (Nat × Nat)) (vs : List Nat) :
    (∀ v, v ∈ vs → ∃ V, R.views.get v = some V ∧ ∀ e, e ∈ knn v → e.1 < V.landmarks.length) →
    ∃ cs, rawCandidates R knn vs = some cs ∧ ∀ l x, (l, x) ∈ cs ↔
      ∃ v i, v ∈ vs ∧ (i, x) ∈ knn v ∧ R.Assigned v i l := by
  induction vs with
  | nil => intro _; exact ⟨[], rfl, by simp⟩
  | cons v vs ih =>
    intro h
    obtain ⟨cs, h1, h2⟩ := ih (fun w hw => h w (List.mem_cons_of_mem _ hw))
    obtain ⟨V, hV, hr⟩ := h v (by simp)
    obtain ⟨cs', h3, h4⟩ := viewCandidates_spec V.landmarks (knn v) hr
    refine ⟨cs' ++ cs, by simp only [rawCandidates, hV, h3, h1], ?_⟩
    intro l x
    rw [List.mem_append, h2, h4]
    constructor
    · rintro (⟨i, hi, hl⟩ | ⟨w, i, hw, hi, hl⟩)
      · exact ⟨v, i, by simp, hi, V, hV, hl⟩
      · exact ⟨w, i, List.mem_cons_of_mem _ hw, hi, hl⟩
    · rintro ⟨w, i, hw, hi, hl⟩
      rcases List.mem_cons.mp hw with rfl | hw
      · obtain ⟨V', hV', hl⟩ := hl
        rw [hV] at hV'
        cases hV'
        exact Or.inl ⟨i, hi, hl⟩
      · exact Or.inr ⟨w, i, hw, hi, hl⟩

theorem bestDistances_spec (raw : List (Nat × Nat)) : ∀ (m : FMap Nat), m.WF →
    (bestDistances raw m).WF ∧ ∀ l x, (bestDistances raw m).get l = some x ↔
      ((m.get l = some x ∨ (l, x) ∈ raw) ∧ (∀ y, m.get l = some y → x ≤ y) ∧
        ∀ y, (l, y) ∈ raw → x ≤ y) := by
  induction raw with
  | nil =>
    intro m hm
    refine ⟨hm, ?_⟩
    intro l x
    simp only [bestDistances, List.not_mem_nil, or_false, false_imp_iff, implies_true, and_true]
    constructor
    · intro h; exact ⟨h, fun y hy => by rw [h] at hy; cases hy; exact Nat.le_refl _⟩
    · exact fun h => h.1
  | cons e raw ih =>
    obtain ⟨k, y0⟩ := e
    intro m hm
    have key : ∃ m', bestDistances ((k, y0) :: raw) m = bestDistances raw m' ∧ m'.WF ∧
        (∀ l, l ≠ k → m'.get l = m.get l) ∧
        ∃ z, m'.get k = some z ∧ z ≤ y0 ∧ (z = y0 ∨ m.get k = some z) ∧
          ∀ y, m.get k = some y → z ≤ y := by
      rw [bestDistances]
      cases hg : m.get k with
      | none =>
        refine ⟨_, rfl, FMap.wf_put hm _ _, ?_, y0, ?_, Nat.le_refl _, Or.inl rfl, by simp⟩
        · intro l hl; rw [FMap.get_put, if_neg hl]
        · rw [FMap.get_put, if_pos rfl]
      | some old =>
        by_cases hlt : y0 < old
        · simp only [if_pos hlt]
          refine ⟨_, rfl, FMap.wf_put hm _ _, ?_, y0, ?_, Nat.le_refl _, Or.inl rfl, ?_⟩
          · intro l hl; rw [FMap.get_put, if_neg hl]
          · rw [FMap.get_put, if_pos rfl]
          · intro y hy; cases hy; omega
        · simp only [if_neg hlt]
          exact ⟨m, rfl, hm, fun _ _ => rfl, old, hg, by omega, Or.inr rfl,
            fun y hy => by cases hy; exact Nat.le_refl _⟩
    obtain ⟨m', e1, e2, e3, z, e4, e5, e6, e7⟩ := key
    rw [e1]
    obtain ⟨i1, i2⟩ := ih m' e2
    refine ⟨i1, ?_⟩
    intro l x
    rw [i2]
    by_cases hl : l = k
    · subst hl
      rw [e4]
      simp only [List.mem_cons, Prod.mk.injEq, true_and, Option.some.injEq, forall_eq']
      constructor
      · rintro ⟨h1, h2, h3⟩
        refine ⟨?_, ?_, ?_⟩
        · rcases h1 with h1 | h1
          · subst h1
            rcases e6 with h | h
            · exact Or.inr (Or.inl h)
            · exact Or.inl h
          · exact Or.inr (Or.inr h1)
        · intro y hy
          have := e7 y hy
          omega
        · intro y hy
          rcases hy with rfl | hy
          · omega
          · exact h3 y hy
      · rintro ⟨h1, h2, h3⟩
        have hxz : x ≤ z := by
          rcases e6 with h | h
          · have := h3 y0 (Or.inl rfl); omega
          · exact h2 z h
        refine ⟨?_, hxz, fun y hy => h3 y (Or.inr hy)⟩
        rcases h1 with h1 | h1 | h1
        · have := e7 x h1
          left; omega
        · left; omega
        · exact Or.inr h1
    · rw [e3 l hl]
      simp only [List.mem_cons, Prod.mk.injEq, hl, false_and, false_or]

/-! ## The three best -/

theorem sort3 {ro : RegOrder} (h : ro.Fair) (x y z : Nat × Nat) :
    ∃ a b c, ro.sort [x, y, z] = [a, b, c] ∧ [a, b, c].Perm [x, y, z] ∧ a.2 ≤ b.2 ∧ b.2 ≤ c.2 := by
  have hp := h.sort [x, y, z]
  have hs := h.sorted [x, y, z]
  have hl := hp.length_eq
  match hm : ro.sort [x, y, z], hl with
  | [a, b, c], _ =>
    rw [hm] at hp hs
    simp at hs
    exact ⟨a, b, c, rfl, hp, hs.1.1, hs.2⟩

theorem improve_spec {ro : RegOrder} (h : ro.Fair) (cs : List (Nat × Nat)) :
    ∀ (x y z : Nat × Nat) (done : List (Nat × Nat)), x.2 ≤ y.2 → y.2 ≤ z.2 →
    (∃ rest, (x :: y :: z :: rest).Perm done ∧ ∀ e, e ∈ rest → z.2 ≤ e.2) →
    ∃ a b c rest, improve ro [x, y, z] cs = some [a, b, c] ∧ a.2 ≤ b.2 ∧ b.2 ≤ c.2 ∧
      (a :: b :: c :: rest).Perm (done ++ cs) ∧ ∀ e, e ∈ rest → c.2 ≤ e.2 := by
  induction cs with
  | nil =>
    intro x y z done h1 h2 ⟨rest, h3, h4⟩
    exact ⟨x, y, z, rest, rfl, h1, h2, by simpa using h3, h4⟩
  | cons e cs ih =>
    intro x y z done h1 h2 ⟨rest, h3, h4⟩
    unfold improve
    simp only
    by_cases hlt : e.2 < z.2
    · rw [if_pos hlt]
      obtain ⟨a, b, c, e1, e2, e3, e4⟩ := sort3 h x y e
      rw [e1]
      obtain ⟨a', b', c', rest', f1, f2, f3, f4, f5⟩ := ih a b c (done ++ [e]) e3 e4
        ⟨z :: rest, by
          have p1 : (a :: b :: c :: z :: rest).Perm (x :: y :: e :: z :: rest) :=
            e2.append_right (z :: rest)
          refine p1.trans ?_
          have p2 : (x :: y :: e :: z :: rest).Perm (e :: x :: y :: z :: rest) := by
            have : (x :: y :: e :: z :: rest) = [x, y] ++ e :: (z :: rest) := rfl
            rw [this]
            exact List.perm_middle
          refine p2.trans ?_
          refine (h3.cons e).trans ?_
          exact (List.perm_append_singleton e done).symm, by
          have hc : c.2 ≤ z.2 := by
            have : c ∈ [x, y, e] := e2.mem_iff.mp (by simp)
            simp at this
            rcases this with rfl | rfl | rfl <;> omega
          intro w hw
          rcases List.mem_cons.mp hw with rfl | hw
          · exact hc
          · have := h4 w hw; omega⟩
      exact ⟨a', b', c', rest', f1, f2, f3, by simpa using f4, f5⟩
    · rw [if_neg hlt]
      obtain ⟨a', b', c', rest', f1, f2, f3, f4, f5⟩ := ih x y z (done ++ [e]) h1 h2
        ⟨e :: rest, by
          have p2 : (x :: y :: z :: e :: rest).Perm (e :: x :: y :: z :: rest) := by
            have : (x :: y :: z :: e :: rest) = [x, y, z] ++ e :: rest := rfl
            rw [this]
            exact List.perm_middle
          refine p2.trans ?_
          refine (h3.cons e).trans ?_
          exact (List.perm_append_singleton e done).symm, by
          intro w hw
          rcases List.mem_cons.mp hw with rfl | hw
          · omega
          · exact h4 w hw⟩
      exact ⟨a', b', c', rest', f1, f2, f3, by simpa using f4, f5⟩

/-- The three best of at least three candidates; with fewer the code panics. -/
theorem bestThree_spec {ro : RegOrder} (h : ro.Fair) (cs : List (Nat × Nat)) :
    (cs.length < 3 → bestThree ro cs = none) ∧
    (3 ≤ cs.length → ∃ a b c rest, bestThree ro cs = some [a, b, c] ∧ a.2 ≤ b.2 ∧ b.2 ≤ c.2 ∧
      (a :: b :: c :: rest).Perm cs ∧ ∀ e, e ∈ rest → c.2 ≤ e.2) := by
  match cs with
  | [] => exact ⟨fun _ => rfl, by simp⟩
  | [_] => exact ⟨fun _ => rfl, by simp⟩
  | [_, _] => exact ⟨fun _ => rfl, by simp⟩
  | x :: y :: z :: rest =>
    refine ⟨by intro h; simp at h; omega, fun _ => ?_⟩
    obtain ⟨a, b, c, e1, e2, e3, e4⟩ := sort3 h x y z
    unfold bestThree
    simp only
    rw [e1]
    obtain ⟨a', b', c', rest', f1, f2, f3, f4, f5⟩ := improve_spec h rest a b c [x, y, z] e3 e4
      ⟨[], e2, by simp⟩
    exact ⟨a', b', c', rest', f1, f2, f3, f4, f5⟩

theorem sharingView_spec {R : Recon P} {a b : Nat} (ha : R.LiveLandmark a) (hb : R.LiveLandmark b) :
    ∃ x, R.sharingView a b = some x ∧ (x = false ↔ R.NoSharedView a b) := by
  obtain ⟨A, hA⟩ := ha
  obtain ⟨B, hB⟩ := hb
  refine ⟨B.keys.any (fun v => A.keys.contains v), by simp only [Recon.sharingView, hA, hB], ?_⟩
  rw [List.any_eq_false]
  constructor
  · rintro h v f g ⟨A', hA', h1⟩ ⟨B', hB', h2⟩
    rw [hA] at hA'
    rw [hB] at hB'
    cases hA'
    cases hB'
    have hv : v ∈ B.keys := (FMap.mem_keys_iff _ _).mpr ⟨g, h2⟩
    have := h v hv
    simp at this
    exact this ((FMap.mem_keys_iff _ _).mpr ⟨f, h1⟩)
  · intro h v hv
    simp
    intro hv'
    obtain ⟨g, hg⟩ := (FMap.mem_keys_iff _ _).mp hv
    obtain ⟨f, hf⟩ := (FMap.mem_keys_iff _ _).mp hv'
    exact h v f g ⟨A, hA, hf⟩ ⟨B, hB, hg⟩

/-! ## One feature -/

theorem Recon.BestAt.live {R : Recon P} (hR : R.Consistent) {views : List Nat}
    {knn : Nat → List (Nat × Nat)} {l x : Nat} (h : R.BestAt views knn l x) : R.LiveLandmark l := by
  obtain ⟨⟨v, i, _, _, ha⟩, _⟩ := h
  obtain ⟨L, hL, _⟩ := (hR.agree v i l).mp ha
  exact ⟨L, hL⟩

theorem matchFeature_spec {ro : RegOrder} (hro : ro.Fair) (k : Nat) {R : Recon P}
    (hR : R.Consistent) {views : List Nat} {knn : Nat → List (Nat × Nat)}
    (hv : R.Searchable views knn) :
    ((∃ r, matchFeature ro k R views knn = some r) ↔ R.ThreeCandidates views knn) ∧
    ∀ ls, matchFeature ro k R views knn = some (some ls) → R.StandsOut views knn k ls := by
  obtain ⟨raw, hraw, hmem⟩ := rawCandidates_spec knn views hv
  obtain ⟨hwf, hget⟩ := bestDistances_spec raw FMap.empty FMap.wf_empty
  have hbest : ∀ l x, (l, x) ∈ (bestDistances raw FMap.empty).entries ↔ R.BestAt views knn l x := by
    intro l x
    rw [FMap.mem_iff_get hwf, hget]
    have he : (FMap.empty : FMap Nat).get l = none := rfl
    rw [he, hmem]
    simp only [reduceCtorEq, false_or, false_imp_iff, implies_true, true_and]
    constructor
    · rintro ⟨h1, h2⟩
      exact ⟨h1, fun v i y hv hi ha => h2 y ((hmem l y).mpr ⟨v, i, hv, hi, ha⟩)⟩
    · rintro ⟨h1, h2⟩
      refine ⟨h1, fun y hy => ?_⟩
      obtain ⟨v, i, hv, hi, ha⟩ := (hmem l y).mp hy
      exact h2 v i y hv hi ha
  have hperm := hro.order (bestDistances raw FMap.empty).entries
  obtain ⟨hlt, hge⟩ := bestThree_spec hro (ro.order (bestDistances raw FMap.empty).entries)
  have hnd : ((bestDistances raw FMap.empty).entries.map Prod.fst).Nodup := hwf
  have hnd' : ((ro.order (bestDistances raw FMap.empty).entries).map Prod.fst).Nodup :=
    (hperm.map _).nodup_iff.mpr hnd
  -- every candidate is one of the listed entries
  have hmem' : ∀ l x, (l, x) ∈ ro.order (bestDistances raw FMap.empty).entries ↔
      R.BestAt views knn l x := fun l x => by rw [hperm.mem_iff]; exact hbest l x
  have heq : matchFeature ro k R views knn =
      match bestThree ro (ro.order (bestDistances raw FMap.empty).entries) with
      | none => none
      | some best => chooseMatch R k best := by
    unfold matchFeature
    rw [hraw]
    rfl
  by_cases h3 : 3 ≤ (ro.order (bestDistances raw FMap.empty).entries).length
  · obtain ⟨a, b, c, rest, e1, e2, e3, e4, e5⟩ := hge h3
    have hnd2 : ((a :: b :: c :: rest).map Prod.fst).Nodup := (e4.map _).nodup_iff.mpr hnd'
    simp only [List.map_cons, List.nodup_cons, List.mem_cons, not_or] at hnd2
    obtain ⟨⟨hab, hac, _⟩, ⟨hbc, _⟩, _⟩ := hnd2
    have hm : ∀ l x, R.BestAt views knn l x ↔ (l, x) ∈ a :: b :: c :: rest := by
      intro l x
      rw [e4.mem_iff, hmem']
    have hA : R.BestAt views knn a.1 a.2 := (hm a.1 a.2).mpr (by simp)
    have hB : R.BestAt views knn b.1 b.2 := (hm b.1 b.2).mpr (by simp)
    have hC : R.BestAt views knn c.1 c.2 := (hm c.1 c.2).mpr (by simp)
    obtain ⟨sh, hs1, hs2⟩ := sharingView_spec (hA.live hR) (hB.live hR)
    rw [heq, e1]
    simp only [chooseMatch, hs1]
    refine ⟨?_, ?_⟩
    · constructor
      · intro _
        exact ⟨a.1, b.1, c.1, a.2, b.2, c.2, hab, hac, hbc, hA, hB, hC⟩
      · intro _
        split
        · exact ⟨_, rfl⟩
        · split
          · cases sh <;> exact ⟨_, rfl⟩
          · exact ⟨_, rfl⟩
    · intro ls hls
      split at hls
      · rename_i hle
        cases hls
        refine Or.inl ⟨a.1, a.2, rfl, hA, ?_⟩
        intro l' y hl' hy
        have := (hm l' y).mp hy
        simp only [List.mem_cons] at this
        rcases this with h | h | h | h
        · rw [← h] at hl'; exact absurd rfl hl'
        · rw [← h] at hle; exact hle
        · rw [← h] at e3; simp only at e3; omega
        · have := e5 _ h; simp only at this; omega
      · rename_i hnle
        split at hls
        · rename_i hle
          cases sh with
          | true => cases hls
          | false =>
            cases hls
            refine Or.inr ⟨a.1, b.1, a.2, b.2, rfl, hab, hA, hB, e2, by omega, hs2.mp rfl, ?_⟩
            intro l' z h1 h2 hz
            have := (hm l' z).mp hz
            simp only [List.mem_cons] at this
            rcases this with h | h | h | h
            · rw [← h] at h1; exact absurd rfl h1
            · rw [← h] at h2; exact absurd rfl h2
            · rw [← h] at hle; exact hle
            · have := e5 _ h; simp only at this; omega
        · cases hls
  · have hn := hlt (by omega)
    rw [heq, hn]
    refine ⟨?_, by simp⟩
    constructor
    · rintro ⟨r, h⟩; cases h
    · rintro ⟨l₁, l₂, l₃, x₁, x₂, x₃, n1, n2, n3, h1, h2, h3'⟩
      exfalso
      have m1 := (hmem' l₁ x₁).mpr h1
      have m2 := (hmem' l₂ x₂).mpr h2
      have m3 := (hmem' l₃ x₃).mpr h3'
      match hc : ro.order (bestDistances raw FMap.empty).entries with
      | [] => rw [hc] at m1; simp at m1
      | [p] =>
        rw [hc] at m1 m2
        simp at m1 m2
        rw [← m1] at m2
        simp at m2
        exact n1 m2.1.symm
      | [p, q] =>
        rw [hc] at m1 m2 m3
        simp at m1 m2 m3
        have fst : ∀ {l x : Nat} {p : Nat × Nat}, (l, x) = p → l = p.1 := fun h => by rw [← h]
        rcases m1 with m1 | m1 <;> rcases m2 with m2 | m2 <;> rcases m3 with m3 | m3 <;>
          first
          | exact n1 ((fst m1).trans (fst m2).symm)
          | exact n2 ((fst m1).trans (fst m3).symm)
          | exact n3 ((fst m2).trans (fst m3).symm)
      | _ :: _ :: _ :: _ => rw [hc] at h3; simp at h3

/-! ## Many features -/

/-- What is known about each collected match. -/
def GoodMatch (R : Recon P) (ls : List Nat) : Prop :=
  (∃ l, ls = [l] ∧ R.LiveLandmark l) ∨
  (∃ a b, ls = [a, b] ∧ a ≠ b ∧ R.LiveLandmark a ∧ R.LiveLandmark b ∧ R.NoSharedView a b)

theorem matchFeatures_spec {ro : Nat → RegOrder} (hro : ∀ f, (ro f).Fair) (k : Nat) {R : Recon P}
    (hR : R.Consistent) {views : List Nat} {knn : Nat → Nat → List (Nat × Nat)} (fs : List Nat)
    (hv : ∀ f, f ∈ fs → R.Searchable views (knn f)) :
    ∀ {ms ms'}, matchFeatures ro k R views knn fs ms = some ms' →
    ∃ new, ms' = ms ++ new ∧ (new.map Prod.snd).Sublist fs ∧
      ∀ m, m ∈ new → GoodMatch R m.1 ∧ matchFeature (ro m.2) k R views (knn m.2) = some (some m.1) := by
  induction fs with
  | nil => intro ms ms' h; cases h; exact ⟨[], by simp, by simp, by simp⟩
  | cons f fs ih =>
    intro ms ms' h
    have ih := @ih (fun g hg => hv g (List.mem_cons_of_mem _ hg))
    unfold matchFeatures at h
    split at h
    · cases h
    · obtain ⟨new, h1, h2, h3⟩ := ih h
      exact ⟨new, h1, h2.cons _, h3⟩
    · rename_i ls hls
      obtain ⟨new, h1, h2, h3⟩ := ih h
      refine ⟨(ls, f) :: new, by rw [h1]; simp, by simpa using h2, ?_⟩
      intro m hm
      rcases List.mem_cons.mp hm with rfl | hm
      · refine ⟨?_, hls⟩
        rcases (matchFeature_spec (hro f) k hR (hv f (by simp))).2 ls hls with
          ⟨l, x, e, hb, _⟩ | ⟨a, b, x, y, e, hab, ha, hb, _, _, hs, _⟩
        · exact Or.inl ⟨l, e, hb.live hR⟩
        · exact Or.inr ⟨a, b, e, hab, ha.live hR, hb.live hR, hs⟩
      · exact h3 m hm

/-- A landmark counted once occurs in one match only. -/
theorem count_one_unique {ms : List (List Nat × Nat)} {l : Nat}
    (h : (ms.flatMap Prod.fst).count l = 1) : ∀ m m', m ∈ ms → m' ∈ ms → l ∈ m.1 → l ∈ m'.1 →
    m = m' := by
  induction ms with
  | nil => intro m m' hm; simp at hm
  | cons e ms ih =>
    intro m m' hm hm' hl hl'
    rw [List.flatMap_cons, List.count_append] at h
    have hpos : ∀ x, x ∈ ms → l ∈ x.1 → 1 ≤ (ms.flatMap Prod.fst).count l := by
      intro x hx hlx
      exact List.one_le_count_iff.mpr (List.mem_flatMap.mpr ⟨x, hx, hlx⟩)
    have hpos' : l ∈ e.1 → 1 ≤ e.1.count l := fun h => List.one_le_count_iff.mpr h
    rcases List.mem_cons.mp hm with e1 | h1 <;> rcases List.mem_cons.mp hm' with e2 | h2
    · rw [e1, e2]
    · rw [e1] at hl
      have := hpos _ h2 hl'; have := hpos' hl; omega
    · rw [e2] at hl'
      have := hpos _ h1 hl; have := hpos' hl'; omega
    · refine ih ?_ m m' h1 h2 hl hl'
      have := hpos _ h1 hl
      omega

theorem finalMatches_valid {R : Recon P} {n : Nat} {ms : List (List Nat × Nat)}
    {order : List (List Nat × Nat) → List (List Nat × Nat)} (ho : ∀ l, (order l).Perm l)
    (keep : List Nat → Nat → Bool) (hnd : (ms.map Prod.snd).Nodup)
    (hg : ∀ m, m ∈ ms → GoodMatch R m.1) :
    (finalMatches order keep ms).WF ∧ R.ValidMatches n (finalMatches order keep ms).get ∧
      ∀ f ls, (finalMatches order keep ms).get f = some ls ↔
        (ls, f) ∈ ms ∧ keep ls f = true ∧ ∀ l, l ∈ ls → (ms.flatMap Prod.fst).count l = 1 := by
  have hwf : (finalMatches order keep ms).WF := by
    unfold FMap.WF FMap.keys finalMatches
    rw [List.map_map]
    have hs : ((order (retainUnique ms)).filter (fun m => keep m.1 m.2)).Sublist
        (order (retainUnique ms)) := List.filter_sublist
    have : (((order (retainUnique ms))).map Prod.snd).Nodup := by
      refine ((ho _).map _).nodup_iff.mpr ?_
      exact List.Nodup.sublist (List.Sublist.map _ List.filter_sublist) hnd
    exact List.Nodup.sublist (List.Sublist.map _ hs) this
  have hget : ∀ f ls, (finalMatches order keep ms).get f = some ls ↔
        (ls, f) ∈ ms ∧ keep ls f = true ∧ ∀ l, l ∈ ls → (ms.flatMap Prod.fst).count l = 1 := by
    intro f ls
    rw [← FMap.mem_iff_get hwf]
    unfold finalMatches
    simp only [List.mem_map, List.mem_filter, (ho _).mem_iff, retainUnique, List.all_eq_true,
      beq_iff_eq, Prod.mk.injEq, Prod.exists]
    constructor
    · rintro ⟨ls', f', ⟨⟨h1, h2⟩, h3⟩, rfl, rfl⟩
      exact ⟨h1, h3, h2⟩
    · rintro ⟨h1, h2, h3⟩
      exact ⟨ls, f, ⟨⟨h1, h3⟩, h2⟩, rfl, rfl⟩
  refine ⟨hwf, ⟨?_, ?_⟩, hget⟩
  · intro f ls _ h
    exact hg _ ((hget f ls).mp h).1
  · intro f g ls ls' _ _ hne h h' l hl hl'
    obtain ⟨m1, _, c1⟩ := (hget f ls).mp h
    obtain ⟨m2, _, _⟩ := (hget g ls').mp h'
    have := count_one_unique (c1 l hl) _ _ m1 m2 hl hl'
    cases this
    exact hne rfl

/-! ## The whole registration -/

/-- The state between two attempts: matches for different features below `k`. -/
def RegState (R : Recon P) (good : List Nat → Nat → Prop) (k : Nat)
    (ms : List (List Nat × Nat)) : Prop :=
  (ms.map Prod.snd).Nodup ∧ ∀ m, m ∈ ms → m.2 < k ∧ GoodMatch R m.1 ∧ good m.1 m.2

theorem matchFeatures_state {ro : Nat → RegOrder} (hro : ∀ f, (ro f).Fair) (k : Nat) {R : Recon P}
    (hR : R.Consistent) {views : List Nat} {knn : Nat → Nat → List (Nat × Nat)} {n : Nat}
    (hv : ∀ f, f < n → R.Searchable views (knn f))
    {start stop : Nat} (h1 : start ≤ stop) (h2 : stop ≤ n) {ms ms' : List (List Nat × Nat)}
    (hs : RegState R (fun ls f => matchFeature (ro f) k R views (knn f) = some (some ls)) start ms)
    (h : matchFeatures ro k R views knn (List.range' start (stop - start)) ms = some ms') :
    RegState R (fun ls f => matchFeature (ro f) k R views (knn f) = some (some ls)) stop ms' := by
  obtain ⟨new, rfl, hsub, hnew⟩ := matchFeatures_spec hro k hR _
    (fun f hf => hv f (by rw [List.mem_range'_1] at hf; omega)) h
  have hin : ∀ m, m ∈ new → start ≤ m.2 ∧ m.2 < stop := by
    intro m hm
    have := hsub.subset (List.mem_map_of_mem (f := Prod.snd) hm)
    rw [List.mem_range'_1] at this
    omega
  refine ⟨?_, ?_⟩
  · rw [List.map_append, List.nodup_append]
    refine ⟨hs.1, List.Nodup.sublist hsub List.nodup_range', ?_⟩
    intro a ha b hb
    obtain ⟨m, hm, rfl⟩ := List.mem_map.mp ha
    obtain ⟨m', hm', rfl⟩ := List.mem_map.mp hb
    have := (hs.2 m hm).1
    have := (hin m' hm').1
    omega
  · intro m hm
    rcases List.mem_append.mp hm with hm | hm
    · obtain ⟨a, b, c⟩ := hs.2 m hm
      exact ⟨by omega, b, c⟩
    · exact ⟨(hin m hm).2, hnew m hm⟩

theorem registerSubset_cases {ro : Nat → RegOrder} {k : Nat} {R : Recon P} {views : List Nat}
    {knn : Nat → Nat → List (Nat × Nat)} {order : List (List Nat × Nat) → List (List Nat × Nat)}
    {judge : List (List Nat × Nat) → Option (P × (List Nat → Nat → Bool))} {minRobust start stop : Nat}
    {ms ms' : List (List Nat × Nat)} {o : Option (Option (P × FMap (List Nat)))}
    (h : registerSubset ro k R views knn order judge minRobust start stop ms = (ms', o)) :
    (matchFeatures ro k R views knn (List.range' start (stop - start)) ms = none ∧ ms' = ms ∧
      o = some none) ∨
    (matchFeatures ro k R views knn (List.range' start (stop - start)) ms = some ms' ∧
      (o = none ∨ ∃ pose keep, o = some (some (pose, finalMatches order keep ms')) ∧
        judge (order (retainUnique ms')) = some (pose, keep) ∧
        minRobust ≤ (finalMatches order keep ms').size)) := by
  unfold registerSubset at h
  split at h
  · rename_i hn
    cases h
    exact Or.inl ⟨hn, rfl, rfl⟩
  · rename_i ms₁ hn
    refine Or.inr ?_
    split at h
    · cases h
      exact ⟨hn, Or.inl rfl⟩
    · rename_i pose keep hj
      split at h
      · cases h
        exact ⟨hn, Or.inl rfl⟩
      · rename_i hlt
        cases h
        exact ⟨hn, Or.inr ⟨pose, keep, rfl, hj, by omega⟩⟩

theorem matchFeatures_some {ro : Nat → RegOrder} {k : Nat} {R : Recon P} {views : List Nat}
    {knn : Nat → Nat → List (Nat × Nat)} {fs : List Nat}
    (h : ∀ f, f ∈ fs → ∃ r, matchFeature (ro f) k R views (knn f) = some r) :
    ∀ ms, ∃ ms', matchFeatures ro k R views knn fs ms = some ms' := by
  induction fs with
  | nil => intro ms; exact ⟨ms, rfl⟩
  | cons f fs ih =>
    intro ms
    have ih := ih (fun g hg => h g (List.mem_cons_of_mem _ hg))
    obtain ⟨r, hr⟩ := h f (by simp)
    unfold matchFeatures
    rw [hr]
    cases r with
    | none => exact ih _
    | some ls => exact ih _

end Verif.Sfm
