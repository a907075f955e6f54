import Verif.Lemmas.Detect
import Mathlib.Analysis.Real.Sqrt
import Mathlib.Tactic.NormNum

/-!
# Detected keypoints (C29, C30)
-/

namespace Verif.Akaze

variable {threshold df : ℝ} {levels : List DetLevel}

/-- **C29** If the response of every level is an image with at least two rows, finding keypoints does not panic. -/
theorem C29_total (hu : Usable levels) : ∃ out, findExtrema threshold df levels = some out := by
  unfold findExtrema
  rw [candidates_eq hu]
  exact ⟨_, rfl⟩

theorem findExtrema_eq (hu : Usable levels) : findExtrema threshold df levels =
    some (filterUpper (((levels.zipIdx.map (levelCandidates threshold df)).flatten).foldl addCandidate [])) := by
  unfold findExtrema
  rw [candidates_eq hu]
  rfl

theorem found_of_mem (hu : Usable levels) (hs : SizesOk df levels) {k : KeyPoint}
    (hk : k ∈ ((levels.zipIdx.map (levelCandidates threshold df)).flatten).foldl addCandidate []) :
    ∃ l x y, FoundAt threshold df levels k l x y := by
  rcases mem_foldl hk with h | h
  · cases h
  · exact (stored_iff hu hs).1 h

/-- **C29** Every keypoint found is a pixel of its level that exceeds its eight neighbours and the threshold, far
enough from the border, and no pixel is reported twice. -/
theorem C29_sound (hu : Usable levels) (hs : SizesOk df levels) {out : List KeyPoint}
    (ho : findExtrema threshold df levels = some out) :
    (∀ k ∈ out, (∃ l x y, FoundAt threshold df levels k l x y) ∧ threshold < k.response) ∧ out.Nodup := by
  rw [findExtrema_eq hu] at ho
  obtain rfl := Option.some.inj ho
  refine ⟨fun k hk => ?_, ?_⟩
  · obtain ⟨l, x, y, h⟩ := found_of_mem hu hs (filterUpper_sublist.subset hk)
    refine ⟨⟨l, x, y, h⟩, ?_⟩
    obtain ⟨f, _, _, h1, h2⟩ := h.peak
    rw [h2]
    exact lt_of_lt_of_le h1 (le_abs_self _)
  · exact filterUpper_sublist.nodup (nodup_foldl List.nodup_nil (by simp) pairwise_candidates)

/-- **C29** All points within the radius of the keypoint, rounded to pixels, are in the image, even after moving by
up to a pixel. -/
theorem C29_neighbourhood {k : KeyPoint} {l : DetLevel} {x y : Nat} (h : FoundAt threshold df levels k l x y)
    {u v : ℝ} (hu : |u - x| ≤ 10 * √2 * ⌊k.size / 2 ^ l.octave + 1 / 2⌋)
    (hv : |v - y| ≤ 10 * √2 * ⌊k.size / 2 ^ l.octave + 1 / 2⌋) :
    1 ≤ roundAway u ∧ roundAway u + 1 < l.ldet.w ∧ 1 ≤ roundAway v ∧ roundAway v + 1 < l.ldet.h := by
  obtain ⟨a, b, c, d⟩ := h.inside
  rw [abs_le] at hu hv
  have e1 := @roundAway_lt u (by linarith) ((l.ldet.w : ℤ) - 1)
  have e2 := @roundAway_lt v (by linarith) ((l.ldet.h : ℤ) - 1)
  push_cast at e1 e2
  have := e1.2 (by linarith)
  have := e2.2 (by linarith)
  exact ⟨one_le_roundAway.2 (by linarith), by omega, one_le_roundAway.2 (by linarith), by omega⟩

/-- **C30** In the order of the result, a keypoint of the next level that is close to an earlier one is weaker.
The full claim, that of any two close keypoints only the stronger one is kept, does not hold: `C30_false`. -/
theorem C30_upper_partial (hu : Usable levels) {out : List KeyPoint}
    (ho : findExtrema threshold df levels = some out) :
    out.Pairwise (fun k p => p.classId = k.classId + 1 → placeSqDist k p ≤ k.size ^ 2 → p.response < k.response) := by
  rw [findExtrema_eq hu] at ho
  obtain rfl := Option.some.inj ho
  refine filterUpper_pairwise.imp ?_
  intro k p hb hc hd
  by_contra hr
  refine hb ⟨hc.symm, ?_, not_lt.1 hr⟩
  unfold placeSqDist at hd
  linarith

/-- **C30** A peak that is far enough from the border and stronger than all others near it is found. -/
theorem C30_strongest_partial (hu : Usable levels) (hs : SizesOk df levels) {out : List KeyPoint}
    (ho : findExtrema threshold df levels = some out) {k : KeyPoint} {l : DetLevel} {x y : Nat}
    (hk : FoundAt threshold df levels k l x y)
    (hmax : ∀ p l' x' y', FoundAt threshold df levels p l' x' y' → p ≠ k → Near k p → p.response < k.response) :
    k ∈ out := by
  rw [findExtrema_eq hu] at ho
  obtain rfl := Option.some.inj ho
  obtain ⟨c, hc, hout, rfl⟩ := (stored_iff hu hs).2 ⟨l, x, y, hk⟩
  have ratio : ∀ {c : Candidate}, c ∈ (levels.zipIdx.map (levelCandidates threshold df)).flatten →
      c.ratio = 2 ^ c.k.octave := by
    intro c hc
    obtain ⟨e, l, p, _, _, rfl⟩ := mem_candidates.1 hc
    rfl
  have close : ∀ {c : Candidate} {p : KeyPoint}, c ∈ (levels.zipIdx.map (levelCandidates threshold df)).flatten →
      tooClose c p = true → ((stored c).classId = p.classId ∨ (stored c).classId = p.classId + 1) ∧
        cornerDist (stored c) p ≤ (stored c).size ^ 2 := by
    intro c p hc ht
    unfold tooClose at ht
    simp only [decide_eq_true_eq] at ht
    obtain ⟨h1, h2⟩ := ht
    refine ⟨?_, ?_⟩
    · simp only [stored]; omega
    · unfold cornerDist stored
      simp only [← ratio hc]
      refine le_trans (le_of_eq ?_) (h2.trans (le_of_eq ?_)) <;> ring
  have weaker : ∀ c' ∈ (levels.zipIdx.map (levelCandidates threshold df)).flatten, isOut c' = false →
      stored c' ≠ stored c → Near (stored c) (stored c') → c'.k.response < c.k.response := by
    intro c' hc' ho' hne hn
    obtain ⟨l', x', y', h'⟩ := (stored_iff hu hs).1 ⟨c', hc', ho', rfl⟩
    exact hmax (stored c') l' x' y' h' hne hn
  refine mem_filterUpper (stored_mem_foldl hc hout ?_ ?_) ?_
  · intro c' hc' ho' hne ht
    exact weaker c' hc' ho' hne (Or.inl (close hc ht))
  · intro c' hc' ho' hne ht
    exact weaker c' hc' ho' hne (Or.inr (Or.inl (close hc' ht)))
  · rintro kj hj ⟨h1, h2, h3⟩
    obtain ⟨l', x', y', h'⟩ := found_of_mem hu hs hj
    have : kj.response < (stored c).response := by
      refine hmax kj l' x' y' h' ?_ (Or.inr (Or.inr ⟨h1.symm, ?_⟩))
      · rintro rfl; omega
      · unfold placeSqDist; refine le_trans (le_of_eq ?_) (h2.trans (le_of_eq ?_)) <;> ring
    linarith

end Verif.Akaze
