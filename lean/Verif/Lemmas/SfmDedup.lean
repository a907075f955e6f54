import Verif.Lemmas.SfmSplit

/-! Helper lemmas: `merge_landmarks_dedup`. -/

namespace Verif.Sfm
variable {P : Type}
namespace Recon

/-- Merging keeps the shape of every view. -/
theorem merge_shape {R R' : Recon P} {a : Nat} {B : Landmark}
    (hv : ∀ v, R'.views.get v = (R.views.get v).map (fun V =>
        match B.get v with
        | some f => { V with landmarks := V.landmarks.set f a }
        | none => V)) (v : Nat) :
    (R'.views.get v).map (fun V => (V.frame, V.pose, V.landmarks.length)) =
      (R.views.get v).map (fun V => (V.frame, V.pose, V.landmarks.length)) := by
  rw [hv v]
  cases R.views.get v with
  | none => rfl
  | some V =>
    simp only [Option.map_some]
    cases B.get v <;> simp

/-- Full effect of the deduplicating merge of two different landmarks. -/
theorem mergeDedup_spec (loss : Recon P → Nat → Nat → Nat) {R : Recon P} (hR : R.Consistent)
    {a b : Nat} {A B : Landmark} (hab : a ≠ b) (hA : R.landmarks.get a = some A)
    (hB : R.landmarks.get b = some B) :
    ∃ R' x, R.mergeDedup loss a b = some (R', x) ∧ R'.Consistent ∧
      R'.constraints = R.constraints ∧ R'.views.next = R.views.next ∧
      R.landmarks.next ≤ R'.landmarks.next ∧
      (∀ v, (R'.views.get v).map (fun V => (V.frame, V.pose, V.landmarks.length)) =
        (R.views.get v).map (fun V => (V.frame, V.pose, V.landmarks.length))) ∧
      (∀ c, c ≠ a → c ≠ b → c < R.landmarks.next →
        R'.landmarks.get c = R.landmarks.get c) ∧
      ((x = none ∧ Refines R R') ∨
       (x = some a ∧ R'.landmarks.get b = none ∧
        ∃ M, R'.landmarks.get a = some M ∧
          (∀ v, B.get v = none → M.get v = A.get v) ∧
          (∀ v, A.get v = none → M.get v = B.get v) ∧
          (∀ v f g, A.get v = some f → B.get v = some g → M.get v = some f ∨ M.get v = some g) ∧
          (∀ v f g h, A.get v = some f → B.get v = some g → M.get v = some h →
            ∃ Q, Refines R Q ∧ Q.Assigned v f a ∧ Q.Assigned v g b ∧
              loss Q v h ≤ loss Q v f ∧ loss Q v h ≤ loss Q v g ∧
              (h = g → loss Q v g < loss Q v f)))) := by
  have hAwf := hR.obsWF a A hA
  obtain ⟨R1, ok, A1, B1, hrun, hr, _, hA1, hB1, hsame, hres, hoth, hloss⟩ :=
    dedupLoop_spec loss hab (dups A B) (ok := true) hR hA hB (dups_nodup hAwf)
      (fun v f g h => (mem_dups hAwf).mp h)
  unfold mergeDedup
  simp only [hA, hB, hrun]
  cases ok with
  | false =>
    exact ⟨R1, none, rfl, hr.cons, hr.constraints, hr.vnext, hr.lnext, hr.views, hoth,
      Or.inl ⟨rfl, hr⟩⟩
  | true =>
    have hnot : ∀ v, v ∉ (dups A B).map Prod.fst ↔ (A.get v = none ∨ B.get v = none) := by
      intro v
      constructor
      · intro h
        cases ha : A.get v with
        | none => exact Or.inl rfl
        | some f =>
          cases hb : B.get v with
          | none => exact Or.inr rfl
          | some g =>
            exact absurd (List.mem_map.mpr ⟨(v, f, g), (mem_dups hAwf).mpr ⟨ha, hb⟩, rfl⟩) h
      · intro h hm
        obtain ⟨⟨w, f, g⟩, hm', rfl⟩ := List.mem_map.mp hm
        obtain ⟨h1, h2⟩ := (mem_dups hAwf).mp hm'
        simp only at h
        rcases h with h | h
        · rw [h] at h1; cases h1
        · rw [h] at h2; cases h2
    have hdisj : ∀ v, A1.get v = none ∨ B1.get v = none := by
      intro v
      by_cases hv : v ∈ (dups A B).map Prod.fst
      · obtain ⟨⟨w, f, g⟩, hm, rfl⟩ := List.mem_map.mp hv
        rcases hres rfl w f g hm with ⟨_, h⟩ | ⟨h, _⟩
        · exact Or.inr h
        · exact Or.inl h
      · obtain ⟨h1, h2⟩ := hsame v hv
        rw [h1, h2]
        exact (hnot v).mp hv
    obtain ⟨R2, hm, hc2, hcon2, hvn2, hln2, hv2, hoth2, hb2, ⟨M, hM, hMget⟩, _⟩ :=
      mergeLandmarks_spec hr.cons hab hA1 hB1 hdisj
    refine ⟨R2, some a, by simp [hm], hc2, hcon2.trans hr.constraints, hvn2.trans hr.vnext,
      by rw [hln2]; exact hr.lnext, fun v => (merge_shape hv2 v).trans (hr.views v), ?_,
      Or.inr ⟨rfl, hb2, M, hM, ?_, ?_, ?_, ?_⟩⟩
    · intro c h1 h2 h3
      rw [hoth2 c h1 h2, hoth c h1 h2 h3]
    · intro v hb
      obtain ⟨h1, h2⟩ := hsame v ((hnot v).mpr (Or.inr hb))
      rw [hMget, h1, h2, hb]; simp
    · intro v ha
      obtain ⟨h1, h2⟩ := hsame v ((hnot v).mpr (Or.inl ha))
      rw [hMget, h1, h2, ha]; simp
    · intro v f g ha hb
      rw [hMget]
      rcases hres rfl v f g ((mem_dups hAwf).mpr ⟨ha, hb⟩) with ⟨h1, h2⟩ | ⟨h1, h2⟩
      · left; rw [h1, h2]; rfl
      · right; rw [h1, h2]; rfl
    · intro v f g h ha hb hh
      rw [hMget] at hh
      obtain ⟨Q, q1, q2, q3, hl⟩ := hloss rfl v f g ((mem_dups hAwf).mpr ⟨ha, hb⟩)
      refine ⟨Q, q1, q2, q3, ?_⟩
      rcases hres rfl v f g ((mem_dups hAwf).mpr ⟨ha, hb⟩) with ⟨h1, h2⟩ | ⟨h1, h2⟩
      · rw [h1, h2] at hh
        simp at hh
        subst hh
        refine ⟨Nat.le_refl _, hl.1 h1, fun e => ?_⟩
        subst e
        exact absurd (assigned_unique q2 q3) hab
      · rw [h1, h2] at hh
        simp at hh
        subst hh
        exact ⟨Nat.le_of_lt (hl.2 h2), Nat.le_refl _, fun _ => hl.2 h2⟩

/-- Merging a landmark with itself: the loop splits it completely and gives up. -/
theorem dedupLoop_self (loss : Recon P → Nat → Nat → Nat) {a : Nat}
    (ds : List (Nat × Nat × Nat)) : ∀ {R : Recon P} {A : Landmark} {ok : Bool}, R.Consistent →
    R.landmarks.get a = some A → (ds.map Prod.fst).Nodup →
    (∀ v f g, (v, f, g) ∈ ds → A.get v = some f ∧ A.get v = some g) →
    (∀ v f, A.get v = some f → v ∈ ds.map Prod.fst) →
    ∃ R', dedupLoop loss ds R ok = some (R', false) ∧ Refines R R' := by
  induction ds with
  | nil =>
    intro R A ok hR hA _ _ hall
    obtain ⟨v, f, h⟩ := hR.nonempty a A hA
    have := hall v f h
    simp at this
  | cons e ds ih =>
    obtain ⟨v, f, g⟩ := e
    intro R A ok hR hA hnd hmem hall
    simp only [List.map_cons, List.nodup_cons] at hnd
    obtain ⟨hvn, hnd⟩ := hnd
    obtain ⟨hf, hg⟩ := hmem v f g (by simp)
    have hfg : f = g := by rw [hf] at hg; exact Option.some.inj hg
    subst hfg
    have ha : R.Assigned v f a := (hR.agree v f a).mpr ⟨A, hA, hf⟩
    have hw : worstOf loss R v f f = f := by unfold worstOf; split <;> rfl
    by_cases h2 : 2 ≤ A.size
    · obtain ⟨R1, hs, hr, _, hold, _⟩ := split_assigned hR ha hA h2
      obtain ⟨R', hrun, hr'⟩ := ih (ok := ok && true) hr.cons hold hnd (by
          intro w x y hm
          have hwv : w ≠ v := by
            rintro rfl
            exact hvn (List.mem_map.mpr ⟨_, hm, rfl⟩)
          rw [FMap.get_erase]
          simp only [hwv, if_false]
          exact hmem w x y (List.mem_cons_of_mem _ hm)) (by
          intro w x hwx
          rw [FMap.get_erase] at hwx
          split at hwx
          · cases hwx
          · rename_i hwv
            have := hall w x hwx
            simp only [List.map_cons, List.mem_cons] at this
            rcases this with h | h
            · exact absurd h hwv
            · exact h)
      refine ⟨R', ?_, hr.trans hr'⟩
      simp only [dedupLoop, hw, hs, hrun]
    · -- the last observation cannot be split off; nothing is left
      have hs := (splitObservation_spec hR ha hA).1 (by omega)
      have hds : ds = [] := by
        cases ds with
        | nil => rfl
        | cons e' ds' =>
          exfalso
          obtain ⟨w, x, y⟩ := e'
          obtain ⟨hx, _⟩ := hmem w x y (by simp)
          have hwv : w ≠ v := by rintro rfl; exact hvn (by simp)
          exact h2 (FMap.two_le_size hwv hx hf)
      subst hds
      exact ⟨R, by simp [dedupLoop, hw, hs], Refines.refl hR⟩

theorem mergeDedup_self (loss : Recon P → Nat → Nat → Nat) {R : Recon P} (hR : R.Consistent)
    {a : Nat} {A : Landmark} (hA : R.landmarks.get a = some A) :
    ∃ R', R.mergeDedup loss a a = some (R', none) ∧ Refines R R' := by
  have hAwf := hR.obsWF a A hA
  obtain ⟨R', hrun, hr⟩ := dedupLoop_self loss (dups A A) (ok := true) hR hA (dups_nodup hAwf)
    (fun v f g h => (mem_dups hAwf).mp h)
    (fun v f h => List.mem_map.mpr ⟨(v, f, f), (mem_dups hAwf).mpr ⟨h, h⟩, rfl⟩)
  refine ⟨R', ?_, hr⟩
  unfold mergeDedup
  simp only [hA, hrun]

end Recon
end Verif.Sfm
