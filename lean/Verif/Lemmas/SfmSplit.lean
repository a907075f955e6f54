import Verif.Lemmas.SfmInit
import Verif.Model.SfmOps

/-! Helper lemmas: operations built from `split_observation`. -/

namespace Verif.Sfm
variable {P : Type}

namespace Recon

/-- `R'` arises from `R` by splitting landmarks only. -/
structure Refines (R R' : Recon P) : Prop where
  cons : R'.Consistent
  constraints : R'.constraints = R.constraints
  vnext : R'.views.next = R.views.next
  lnext : R.landmarks.next ≤ R'.landmarks.next
  views : ∀ v, (R'.views.get v).map (fun V => (V.frame, V.pose, V.landmarks.length)) =
    (R.views.get v).map (fun V => (V.frame, V.pose, V.landmarks.length))
  live : ∀ l, R.LiveLandmark l → R'.LiveLandmark l
  shared : ∀ v f w g l, R'.Assigned v f l → R'.Assigned w g l →
    ∃ l0, R.Assigned v f l0 ∧ R.Assigned w g l0
  old : ∀ l v f, l < R.landmarks.next → R'.Assigned v f l → R.Assigned v f l

theorem Refines.refl {R : Recon P} (h : R.Consistent) : Refines R R :=
  ⟨h, rfl, rfl, Nat.le_refl _, fun _ => rfl, fun _ h => h,
    fun _ _ _ _ l h h' => ⟨l, h, h'⟩, fun _ _ _ _ h => h⟩

theorem Refines.trans {R R' R'' : Recon P} (h : Refines R R') (h' : Refines R' R'') :
    Refines R R'' := by
  refine ⟨h'.cons, h'.constraints.trans h.constraints, h'.vnext.trans h.vnext,
    Nat.le_trans h.lnext h'.lnext, fun v => (h'.views v).trans (h.views v),
    fun l hl => h'.live l (h.live l hl), ?_, ?_⟩
  · intro v f w g l h1 h2
    obtain ⟨l0, h3, h4⟩ := h'.shared v f w g l h1 h2
    exact h.shared v f w g l0 h3 h4
  · intro l v f hl ha
    exact h.old l v f hl (h'.old l v f (Nat.lt_of_lt_of_le hl h.lnext) ha)

/-- A feature stays assigned (to some landmark). -/
theorem Refines.assigned {R R' : Recon P} (h : Refines R R') {v f : Nat} :
    (∃ l, R.Assigned v f l) ↔ (∃ l, R'.Assigned v f l) := by
  have hv := h.views v
  constructor
  · rintro ⟨l, V, hV, hl⟩
    rw [hV] at hv
    cases hV' : R'.views.get v with
    | none => rw [hV'] at hv; simp at hv
    | some V' =>
      rw [hV'] at hv
      simp only [Option.map_some, Option.some.injEq, Prod.mk.injEq] at hv
      have := (List.getElem?_eq_some_iff.mp hl).1
      have hlt : f < V'.landmarks.length := by omega
      exact ⟨V'.landmarks[f], V', hV', List.getElem?_eq_getElem hlt⟩
  · rintro ⟨l, V, hV, hl⟩
    rw [hV] at hv
    cases hV' : R.views.get v with
    | none => rw [hV'] at hv; simp at hv
    | some V' =>
      rw [hV'] at hv
      simp only [Option.map_some, Option.some.injEq, Prod.mk.injEq] at hv
      have := (List.getElem?_eq_some_iff.mp hl).1
      have hlt : f < V'.landmarks.length := by omega
      exact ⟨V'.landmarks[f], V', hV', List.getElem?_eq_getElem hlt⟩

theorem assigned_lt {R : Recon P} (hR : R.Consistent) {v f l : Nat} (h : R.Assigned v f l) :
    l < R.landmarks.next := by
  obtain ⟨L, hL⟩ := assigned_live hR h
  exact hR.landmarksWF.fresh _ _ hL

/-- Assignments after a successful split. -/
theorem split_assigned {R : Recon P} (hR : R.Consistent) {v f old : Nat} {L : Landmark}
    (ha : R.Assigned v f old) (hL : R.landmarks.get old = some L) (h2 : 2 ≤ L.size) :
    ∃ R', R.splitObservation v f = some (R', true) ∧ Refines R R' ∧
      R'.landmarks.next = R.landmarks.next + 1 ∧
      R'.landmarks.get old = some (L.erase v) ∧
      (∀ l, l ≠ old → l ≠ R.landmarks.next → R'.landmarks.get l = R.landmarks.get l) ∧
      (∀ w g l, R'.Assigned w g l ↔
        if w = v ∧ g = f then l = R.landmarks.next else R.Assigned w g l) := by
  obtain ⟨R', hrun, hc, hcon, hvn, hln, hv, hold, hnew, hoth⟩ :=
    (splitObservation_spec hR ha hL).2 h2
  obtain ⟨V, hV, hVf⟩ := ha
  have hlt := (List.getElem?_eq_some_iff.mp hVf).1
  have hass : ∀ w g l, R'.Assigned w g l ↔
        if w = v ∧ g = f then l = R.landmarks.next else R.Assigned w g l := by
    intro w g l
    unfold Assigned
    rw [hv w]
    by_cases hw : w = v
    · subst hw
      simp only [hV, Option.map_some, if_true, true_and]
      by_cases hg : g = f
      · subst hg
        simp only [if_true]
        constructor
        · rintro ⟨V', h, h'⟩
          cases h
          simp [hlt] at h'
          exact h'.symm
        · rintro rfl
          exact ⟨_, rfl, by simp [hlt]⟩
      · simp only [hg, if_false]
        constructor
        · rintro ⟨V', h, h'⟩
          cases h
          rw [List.getElem?_set_ne (by omega)] at h'
          exact ⟨V, rfl, h'⟩
        · rintro ⟨V', h, h'⟩
          cases h
          exact ⟨_, rfl, by rw [List.getElem?_set_ne (by omega)]; exact h'⟩
    · simp only [hw, false_and, if_false]
      cases hw' : R.views.get w <;> simp
  refine ⟨R', hrun, ⟨hc, hcon, hvn, by omega, ?_, ?_, ?_, ?_⟩, hln, hold, hoth, hass⟩
  · intro w
    rw [hv w]
    cases R.views.get w with
    | none => rfl
    | some W =>
      simp only [Option.map_some]
      split <;> simp
  · rintro l ⟨L0, hL0⟩
    by_cases h1 : l = old
    · subst h1; exact ⟨_, hold⟩
    · by_cases h2 : l = R.landmarks.next
      · subst h2; exact ⟨_, hnew⟩
      · exact ⟨L0, by rw [hoth l h1 h2]; exact hL0⟩
  · intro w g x k l hwg hxk
    rw [hass] at hwg hxk
    by_cases h1 : w = v ∧ g = f
    · by_cases h2 : x = v ∧ k = f
      · obtain ⟨rfl, rfl⟩ := h1
        obtain ⟨rfl, rfl⟩ := h2
        exact ⟨old, ⟨V, hV, hVf⟩, ⟨V, hV, hVf⟩⟩
      · rw [if_pos h1] at hwg
        rw [if_neg h2] at hxk
        have := assigned_lt hR hxk
        omega
    · rw [if_neg h1] at hwg
      by_cases h2 : x = v ∧ k = f
      · rw [if_pos h2] at hxk
        have := assigned_lt hR hwg
        omega
      · rw [if_neg h2] at hxk
        exact ⟨l, hwg, hxk⟩
  · intro l w g hl hwg
    rw [hass] at hwg
    split at hwg
    · omega
    · exact hwg

/-- `split_observation` on an existing feature never panics. -/
theorem split_ok {R : Recon P} (hR : R.Consistent) {v f l : Nat} (ha : R.Assigned v f l) :
    ∃ R' b, R.splitObservation v f = some (R', b) ∧ Refines R R' := by
  obtain ⟨L, hL⟩ := assigned_live hR ha
  by_cases h : 2 ≤ L.size
  · obtain ⟨R', h1, h2, _⟩ := split_assigned hR ha hL h
    exact ⟨R', true, h1, h2⟩
  · exact ⟨R, false, (splitObservation_spec hR ha hL).1 (by omega), Refines.refl hR⟩

theorem splitAll_ok (es : List (Nat × Nat)) : ∀ {R : Recon P}, R.Consistent →
    (∀ e, e ∈ es → ∃ l, R.Assigned e.1 e.2 l) →
    ∃ R', splitAll es R = some R' ∧ Refines R R' := by
  induction es with
  | nil => intro R hR _; exact ⟨R, rfl, Refines.refl hR⟩
  | cons e es ih =>
    obtain ⟨v, f⟩ := e
    intro R hR h
    obtain ⟨l, hl⟩ := h (v, f) (by simp)
    obtain ⟨R1, b, hs, hr⟩ := split_ok hR hl
    obtain ⟨R2, hs2, hr2⟩ := ih hr.cons (fun e he =>
      hr.assigned.mp (h e (List.mem_cons_of_mem _ he)))
    refine ⟨R2, ?_, hr.trans hr2⟩
    simp only [splitAll, hs, hs2]

theorem entries_ne_nil {R : Recon P} (hR : R.Consistent) {l : Nat} {L : Landmark}
    (hL : R.landmarks.get l = some L) : L.entries ≠ [] := by
  obtain ⟨v, f, h⟩ := hR.nonempty l L hL
  have := FMap.mem_of_get h
  intro he
  rw [he] at this
  simp at this

theorem entry_assigned {R : Recon P} (hR : R.Consistent) {l : Nat} {L : Landmark}
    (hL : R.landmarks.get l = some L) {e : Nat × Nat} (he : e ∈ L.entries) :
    R.Assigned e.1 e.2 l :=
  (hR.agree _ _ _).mpr ⟨L, hL, FMap.get_of_mem (hR.obsWF l L hL) he⟩

theorem splitLandmark_ok {R : Recon P} (hR : R.Consistent) {l : Nat} {L : Landmark}
    (hL : R.landmarks.get l = some L) {order : List (Nat × Nat)} (hp : order.Perm L.entries) :
    ∃ R', R.splitLandmark order = some R' ∧ Refines R R' := by
  cases order with
  | nil => exact absurd (List.Perm.nil_eq hp).symm (entries_ne_nil hR hL)
  | cons e rest =>
    obtain ⟨R', h, hr⟩ := splitAll_ok rest hR (fun e' he' =>
      ⟨l, entry_assigned hR hL (hp.mem_iff.mp (List.mem_cons_of_mem _ he'))⟩)
    exact ⟨R', h, hr⟩

theorem filterLandmark_ok (ω : Oracle P) {R : Recon P} (hR : R.Consistent) {l : Nat}
    (hl : R.LiveLandmark l) : ∃ R', R.filterLandmark ω l = some R' ∧ Refines R R' := by
  obtain ⟨L, hL⟩ := hl
  unfold filterLandmark
  simp only [hL]
  have hne := entries_ne_nil hR hL
  split
  · rename_i h; exact absurd h hne
  · exact ⟨R, rfl, Refines.refl hR⟩
  · rename_i e₁ e₂ h
    split
    · exact ⟨R, rfl, Refines.refl hR⟩
    · exact splitLandmark_ok hR hL (by rw [h])
  · split
    · exact splitLandmark_ok hR hL (List.Perm.refl _)
    · exact splitAll_ok _ hR (fun e he => ⟨l, entry_assigned hR hL (List.mem_filter.mp he).1⟩)

theorem filterLandmarks_ok (ω : Oracle P) (ls : List Nat) : ∀ {R : Recon P}, R.Consistent →
    (∀ l, l ∈ ls → R.LiveLandmark l) →
    ∃ R', filterLandmarks ω ls R = some R' ∧ Refines R R' := by
  induction ls with
  | nil => intro R hR _; exact ⟨R, rfl, Refines.refl hR⟩
  | cons l ls ih =>
    intro R hR h
    obtain ⟨R1, h1, hr1⟩ := filterLandmark_ok ω hR (h l (by simp))
    obtain ⟨R2, h2, hr2⟩ := ih hr1.cons (fun l hl => hr1.live l (h l (List.mem_cons_of_mem _ hl)))
    exact ⟨R2, by simp only [filterLandmarks, h1, h2], hr1.trans hr2⟩

theorem splitNonRobust_ok (ω : Oracle P) (ls : List Nat) : ∀ {R : Recon P}, R.Consistent →
    (∀ l, l ∈ ls → R.LiveLandmark l) →
    ∃ R', splitNonRobust ω ls R = some R' ∧ Refines R R' := by
  induction ls with
  | nil => intro R hR _; exact ⟨R, rfl, Refines.refl hR⟩
  | cons l ls ih =>
    intro R hR h
    obtain ⟨L, hL⟩ := h l (by simp)
    by_cases ht : ω.triangulates R l
    · obtain ⟨R2, h2, hr2⟩ := ih hR (fun l hl => h l (List.mem_cons_of_mem _ hl))
      exact ⟨R2, by simp only [splitNonRobust, hL, ht, if_true, h2], hr2⟩
    · obtain ⟨R1, h1, hr1⟩ := splitLandmark_ok hR hL (List.Perm.refl _)
      obtain ⟨R2, h2, hr2⟩ :=
        ih hr1.cons (fun l hl => hr1.live l (h l (List.mem_cons_of_mem _ hl)))
      refine ⟨R2, ?_, hr1.trans hr2⟩
      simp only [splitNonRobust, hL, h1, h2]
      simp [ht]

/-! ## Deduplicating merge -/

theorem mem_dups {A B : Landmark} (hA : A.WF) {v f g : Nat} :
    (v, f, g) ∈ dups A B ↔ A.get v = some f ∧ B.get v = some g := by
  unfold dups
  rw [List.mem_filterMap]
  constructor
  · rintro ⟨⟨w, k⟩, hm, h⟩
    cases hb : B.get w with
    | none => simp [hb] at h
    | some x =>
      simp only [hb, Option.map_some, Option.some.injEq, Prod.mk.injEq] at h
      obtain ⟨rfl, rfl, rfl⟩ := h
      exact ⟨FMap.get_of_mem hA hm, hb⟩
  · rintro ⟨h1, h2⟩
    exact ⟨(v, f), FMap.mem_of_get h1, by simp [h2]⟩

theorem dups_nodup {A B : Landmark} (hA : A.WF) : ((dups A B).map Prod.fst).Nodup := by
  have h : ((dups A B).map Prod.fst).Sublist (A.entries.map Prod.fst) := by
    unfold dups
    generalize A.entries = es
    induction es with
    | nil => simp
    | cons e es ih =>
      rw [List.filterMap_cons]
      split
      · exact List.Sublist.cons _ ih
      · rename_i x hx
        cases hb : B.get e.1 with
        | none => simp [hb] at hx
        | some g =>
          simp only [hb, Option.map_some, Option.some.injEq] at hx
          subst hx
          exact List.Sublist.cons_cons _ ih
  exact h.nodup hA

/-- State of the two landmarks while the duplicates `ds` are still to be resolved: `KA`, `KB`
are the original observation tables. -/
theorem dedupLoop_spec (loss : Recon P → Nat → Nat → Nat) {a b : Nat} (hab : a ≠ b)
    (ds : List (Nat × Nat × Nat)) : ∀ {R : Recon P} {A B : Landmark} {ok : Bool}, R.Consistent →
    R.landmarks.get a = some A → R.landmarks.get b = some B →
    (ds.map Prod.fst).Nodup →
    (∀ v f g, (v, f, g) ∈ ds → A.get v = some f ∧ B.get v = some g) →
    ∃ R' ok' A' B', dedupLoop loss ds R ok = some (R', ok') ∧ Refines R R' ∧
      (ok = false → ok' = false) ∧
      R'.landmarks.get a = some A' ∧ R'.landmarks.get b = some B' ∧
      (∀ v, v ∉ ds.map Prod.fst → A'.get v = A.get v ∧ B'.get v = B.get v) ∧
      (ok' = true → ∀ v f g, (v, f, g) ∈ ds →
        (A'.get v = some f ∧ B'.get v = none) ∨ (A'.get v = none ∧ B'.get v = some g)) ∧
      (∀ c, c ≠ a → c ≠ b → c < R.landmarks.next → R'.landmarks.get c = R.landmarks.get c) ∧
      (ok' = true → ∀ v f g, (v, f, g) ∈ ds →
        ∃ Q, Refines R Q ∧ Q.Assigned v f a ∧ Q.Assigned v g b ∧
        (A'.get v = some f → loss Q v f ≤ loss Q v g) ∧
        (B'.get v = some g → loss Q v g < loss Q v f)) := by
  induction ds with
  | nil =>
    intro R A B ok hR hA hB _ _
    refine ⟨R, ok, A, B, rfl, Refines.refl hR, id, hA, hB, fun _ _ => ⟨rfl, rfl⟩, ?_,
      fun _ _ _ _ => rfl, ?_⟩
    · intro _ v f g h; simp at h
    · intro _ v f g h; simp at h
  | cons e ds ih =>
    obtain ⟨v, f, g⟩ := e
    intro R A B ok hR hA hB hnd hmem
    simp only [List.map_cons, List.nodup_cons] at hnd
    obtain ⟨hvn, hnd⟩ := hnd
    obtain ⟨hAv, hBv⟩ := hmem v f g (by simp)
    have ha : R.Assigned v f a := (hR.agree v f a).mpr ⟨A, hA, hAv⟩
    have hb : R.Assigned v g b := (hR.agree v g b).mpr ⟨B, hB, hBv⟩
    have haL : a < R.landmarks.next := assigned_lt hR ha
    have hbL : b < R.landmarks.next := assigned_lt hR hb
    have hne : ∀ w x y, (w, x, y) ∈ ds → w ≠ v := by
      rintro w x y hm rfl
      exact hvn (List.mem_map.mpr ⟨_, hm, rfl⟩)
    -- the split step
    have step : ∃ R1 did A1 B1, R.splitObservation v (worstOf loss R v f g) = some (R1, did) ∧
        Refines R R1 ∧ R1.landmarks.get a = some A1 ∧ R1.landmarks.get b = some B1 ∧
        (∀ w, w ≠ v → A1.get w = A.get w ∧ B1.get w = B.get w) ∧
        (did = true → (loss R v f ≤ loss R v g ∧ A1.get v = some f ∧ B1.get v = none) ∨
          (loss R v g < loss R v f ∧ A1.get v = none ∧ B1.get v = some g)) ∧
        (∀ c, c ≠ a → c ≠ b → c < R.landmarks.next →
          R1.landmarks.get c = R.landmarks.get c) := by
      unfold worstOf
      by_cases hl : loss R v f ≤ loss R v g
      · rw [if_pos hl]
        by_cases h2 : 2 ≤ B.size
        · obtain ⟨R1, h1, hr, _, hold, hoth, _⟩ := split_assigned hR hb hB h2
          refine ⟨R1, true, A, B.erase v, h1, hr, ?_, hold, ?_, ?_, ?_⟩
          · rw [hoth a hab (by omega)]; exact hA
          · intro w hw
            rw [FMap.get_erase]; simp [hw]
          · intro _
            refine Or.inl ⟨hl, hAv, ?_⟩
            rw [FMap.get_erase]; simp
          · intro c hca hcb hc
            exact hoth c hcb (by omega)
        · refine ⟨R, false, A, B, (splitObservation_spec hR hb hB).1 (by omega), Refines.refl hR,
            hA, hB, fun _ _ => ⟨rfl, rfl⟩, fun h => (by cases h), fun _ _ _ _ => rfl⟩
      · rw [if_neg hl]
        by_cases h2 : 2 ≤ A.size
        · obtain ⟨R1, h1, hr, _, hold, hoth, _⟩ := split_assigned hR ha hA h2
          refine ⟨R1, true, A.erase v, B, h1, hr, hold, ?_, ?_, ?_, ?_⟩
          · rw [hoth b (Ne.symm hab) (by omega)]; exact hB
          · intro w hw
            rw [FMap.get_erase]; simp [hw]
          · intro _
            refine Or.inr ⟨by omega, ?_, hBv⟩
            rw [FMap.get_erase]; simp
          · intro c hca hcb hc
            exact hoth c hca (by omega)
        · refine ⟨R, false, A, B, (splitObservation_spec hR ha hA).1 (by omega), Refines.refl hR,
            hA, hB, fun _ _ => ⟨rfl, rfl⟩, fun h => (by cases h), fun _ _ _ _ => rfl⟩
    obtain ⟨R1, did, A1, B1, hs, hr, hA1, hB1, hsame, hdid, hoth⟩ := step
    obtain ⟨R', ok', A', B', hrun, hr', hok, hA', hB', hsame', hres, hoth', hloss⟩ :=
      ih (ok := ok && did) hr.cons hA1 hB1 hnd (by
        intro w x y hm
        obtain ⟨h1, h2⟩ := hmem w x y (List.mem_cons_of_mem _ hm)
        obtain ⟨e1, e2⟩ := hsame w (hne w x y hm)
        exact ⟨e1.trans h1, e2.trans h2⟩)
    have hv' := hsame' v hvn
    have hd : ok' = true → did = true := by
      intro h
      cases hdd : did with
      | true => rfl
      | false =>
        have := hok (by simp [hdd])
        rw [this] at h; cases h
    refine ⟨R', ok', A', B', ?_, hr.trans hr', ?_, hA', hB', ?_, ?_, ?_, ?_⟩
    · simp only [dedupLoop, hs, hrun]
    · intro h; exact hok (by simp [h])
    · intro w hw
      simp only [List.map_cons, List.mem_cons, not_or] at hw
      obtain ⟨h1, h2⟩ := hsame' w hw.2
      obtain ⟨h3, h4⟩ := hsame w hw.1
      exact ⟨h1.trans h3, h2.trans h4⟩
    · intro h w x y hm
      rcases List.mem_cons.mp hm with he | he
      · cases he
        rcases hdid (hd h) with ⟨_, h1, h2⟩ | ⟨_, h1, h2⟩
        · exact Or.inl ⟨hv'.1.trans h1, hv'.2.trans h2⟩
        · exact Or.inr ⟨hv'.1.trans h1, hv'.2.trans h2⟩
      · exact hres h w x y he
    · intro c h1 h2 h3
      rw [hoth' c h1 h2 (Nat.lt_of_lt_of_le h3 hr.lnext), hoth c h1 h2 h3]
    · intro h w x y hm
      rcases List.mem_cons.mp hm with he | he
      · cases he
        refine ⟨R, Refines.refl hR, ha, hb, ?_⟩
        rw [hv'.1, hv'.2]
        rcases hdid (hd h) with ⟨hle, h1, h2⟩ | ⟨hle, h1, h2⟩
        · exact ⟨fun _ => hle, fun hh => by rw [h2] at hh; cases hh⟩
        · exact ⟨fun hh => (by rw [h1] at hh; cases hh), fun _ => hle⟩
      · obtain ⟨Q, h1, h2⟩ := hloss h w x y he
        exact ⟨Q, hr.trans h1, h2⟩

end Recon
end Verif.Sfm
