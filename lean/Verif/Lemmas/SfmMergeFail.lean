import Verif.Lemmas.SfmRecon

/-!
# When `merge_landmarks` panics
-/

namespace Verif.Sfm.Recon

variable {P : Type}

/-- If the loop succeeds, the target landmark had no observation from any view of the list. -/
theorem mergeLoop_disjoint (a : Nat) (obs : List (Nat × Nat)) : ∀ {R R' : Recon P} {A : Landmark},
    R.landmarks.get a = some A → mergeLoop a obs R = some R' →
    ∀ v f, (v, f) ∈ obs → A.get v = none := by
  induction obs with
  | nil => intro R R' A _ _ v f h; simp at h
  | cons e obs ih =>
    obtain ⟨w, g⟩ := e
    intro R R' A hA h v f hm
    unfold mergeLoop at h
    split at h
    · cases h
    · rename_i R1 h1
      have hl : R1.landmarks = R.landmarks := by
        unfold setOwner at h1
        split at h1
        · cases h1
        · split at h1
          · cases h1; rfl
          · cases h1
      rw [hl, hA] at h
      simp only at h
      split at h
      · rename_i hn
        rcases List.mem_cons.mp hm with he | he
        · cases he
          simpa using hn
        · have hget : ({ R1 with
              landmarks := R1.landmarks.modify a (fun A => A.put w g) } : Recon P).landmarks.get a = some (A.put w g) := by
            show (R1.landmarks.modify a _).get a = _
            rw [SlotMap.get_modify, hl]
            simp [hA]
          rw [← hl] at h
          have := ih hget h v f he
          rw [FMap.get_put] at this
          split at this
          · cases this
          · exact this
      · cases h

/-- If the loop succeeds on a non-empty list the target landmark exists. -/
theorem mergeLoop_live {a : Nat} {e : Nat × Nat} {obs : List (Nat × Nat)} {R R' : Recon P}
    (h : mergeLoop a (e :: obs) R = some R') : R.LiveLandmark a := by
  obtain ⟨w, g⟩ := e
  unfold mergeLoop at h
  split at h
  · cases h
  · rename_i R1 h1
    have hl : R1.landmarks = R.landmarks := by
      unfold setOwner at h1
      split at h1
      · cases h1
      · split at h1
        · cases h1; rfl
        · cases h1
    split at h
    · cases h
    · rename_i A hA
      exact ⟨A, by rw [← hl]; exact hA⟩

theorem merge_some_iff {R : Recon P} (hR : R.Consistent) {a b : Nat} (ha : R.LiveLandmark a)
    (hb : R.LiveLandmark b) :
    (∃ R', R.mergeLandmarks a b = some R') ↔ a ≠ b ∧ R.NoSharedView a b := by
  obtain ⟨A, hA⟩ := ha
  obtain ⟨B, hB⟩ := hb
  constructor
  · rintro ⟨R', h⟩
    unfold mergeLandmarks at h
    rw [hB] at h
    have hne : a ≠ b := by
      rintro rfl
      obtain ⟨v, f, hg⟩ := hR.nonempty a B hB
      have hm := FMap.mem_of_get hg
      cases he : B.entries with
      | nil => rw [he] at hm; simp at hm
      | cons e es =>
        simp only [he] at h
        obtain ⟨L, hL⟩ := mergeLoop_live h
        replace hL : (R.landmarks.erase a).get a = some L := hL
        rw [SlotMap.get_erase] at hL
        simp at hL
    refine ⟨hne, ?_⟩
    rintro v f g ⟨A', hA', h1⟩ ⟨B', hB', h2⟩
    rw [hA] at hA'
    rw [hB] at hB'
    cases hA'
    cases hB'
    have hA2 : ({ R with landmarks := R.landmarks.erase b } : Recon P).landmarks.get a = some A := by
      show (R.landmarks.erase b).get a = some A
      rw [SlotMap.get_erase, if_neg hne]
      exact hA
    have := mergeLoop_disjoint a B.entries hA2 h v g (FMap.mem_of_get h2)
    rw [h1] at this
    cases this
  · rintro ⟨hne, hs⟩
    have hdis : ∀ v, A.get v = none ∨ B.get v = none := by
      intro v
      cases h1 : A.get v with
      | none => exact Or.inl rfl
      | some f =>
        cases h2 : B.get v with
        | none => exact Or.inr rfl
        | some g => exact absurd ⟨B, hB, h2⟩ (hs v f g ⟨A, hA, h1⟩)
    obtain ⟨R', h, _⟩ := mergeLandmarks_spec hR hne hA hB hdis
    exact ⟨R', h⟩

end Verif.Sfm.Recon
