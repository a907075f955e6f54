import Verif.Lemmas.SfmRecon

/-! Helper lemmas: effect of `add_view` inside one reconstruction. -/

namespace Verif.Sfm
namespace Recon
variable {P : Type}

/-- The proposal for one feature is usable. -/
def GoodOption (R : Recon P) (v : Nat) : Option (List Nat) → Prop
  | none => True
  | some ls => ((∃ l, ls = [l] ∧ R.LiveLandmark l) ∨
      (∃ a b, ls = [a, b] ∧ a ≠ b ∧ R.LiveLandmark a ∧ R.LiveLandmark b ∧ R.NoSharedView a b)) ∧
      ∀ l, l ∈ ls → ∀ g, ¬ R.Observes l v g

theorem observes_congr {R R' : Recon P} {l : Nat} (h : R'.landmarks.get l = R.landmarks.get l)
    (v f : Nat) : R'.Observes l v f ↔ R.Observes l v f := by
  unfold Observes; rw [h]

theorem addFeature_spec {R : Recon P} (hR : R.Consistent) {v : Nat} {V : View P}
    (hV : R.views.get v = some V) (ex : Nat → Option (List Nat))
    (hex : R.GoodOption v (ex V.landmarks.length)) :
    ∃ R' x, R.addFeature v V.landmarks.length (ex V.landmarks.length) = some R' ∧
      R'.Consistent ∧ R'.constraints = R.constraints ∧ R'.views.next = R.views.next ∧
      R.landmarks.next ≤ R'.landmarks.next ∧
      R'.views.get v = some { V with landmarks := V.landmarks ++ [x] } ∧
      (match ex V.landmarks.length with
        | some ls => ls.head? = some x
        | none => x = R.landmarks.next) ∧
      (∀ w, w ≠ v → (R'.views.get w).map (fun W => (W.frame, W.pose, W.landmarks.length)) =
        (R.views.get w).map (fun W => (W.frame, W.pose, W.landmarks.length))) ∧
      (∀ w f l', w ≠ v → (R'.Assigned w f l' ↔
        ∃ l, R.Assigned w f l ∧ Renamed [V.landmarks.length] ex l l')) ∧
      (∀ m, m ≠ R.landmarks.next →
        (∀ ls, ex V.landmarks.length = some ls → m ∉ ls) →
        R'.landmarks.get m = R.landmarks.get m) := by
  cases hx : ex V.landmarks.length with
  | none =>
    obtain ⟨R', hr, hc, hcon, hvn, hln, hgv, hgw, hgm, hgl⟩ := attachNew_spec hR hV
    refine ⟨R', R.landmarks.next, hr, hc, hcon, hvn, by omega, hgv, rfl, ?_, ?_, ?_⟩
    · intro w hw; rw [hgw w hw]
    · intro w f l' hw
      have : R'.Assigned w f l' ↔ R.Assigned w f l' := by unfold Assigned; rw [hgw w hw]
      rw [this]
      constructor
      · intro h
        exact ⟨l', h, Or.inr ⟨by
          intro g a hg
          simp only [List.mem_singleton] at hg
          subst hg; rw [hx]; simp, rfl⟩⟩
      · rintro ⟨l, h, ⟨g, a, hg, he, _⟩ | ⟨_, rfl⟩⟩
        · simp only [List.mem_singleton] at hg
          subst hg; rw [hx] at he; cases he
        · exact h
    · intro m hm _; exact hgm m hm
  | some ls =>
    rw [hx] at hex
    obtain ⟨⟨l, rfl, L, hL⟩ | ⟨a, b, rfl, hab, ⟨A, hA⟩, ⟨B, hB⟩, hns⟩, hno⟩ := hex
    · have hLv : L.get v = none := by
        cases hg : L.get v with
        | none => rfl
        | some g => exact absurd ⟨L, hL, hg⟩ (hno l (by simp) g)
      obtain ⟨R', hr, hc, hcon, hvn, hln, hgv, hgw, hgm, hgl⟩ := attach_spec hR hV hL hLv
      refine ⟨R', l, ?_, hc, hcon, hvn, by omega, hgv, rfl, ?_, ?_, ?_⟩
      · unfold addFeature
        cases ho : R.observe l v V.landmarks.length with
        | none => rw [ho] at hr; simp at hr
        | some R1 => rw [ho] at hr; simp only [ho]; simpa using hr
      · intro w hw; rw [hgw w hw]
      · intro w f l' hw
        have : R'.Assigned w f l' ↔ R.Assigned w f l' := by unfold Assigned; rw [hgw w hw]
        rw [this]
        constructor
        · intro h
          exact ⟨l', h, Or.inr ⟨by
            intro g a hg
            simp only [List.mem_singleton] at hg
            subst hg; rw [hx]; simp, rfl⟩⟩
        · rintro ⟨l, h, ⟨g, a, hg, he, _⟩ | ⟨_, rfl⟩⟩
          · simp only [List.mem_singleton] at hg
            subst hg; rw [hx] at he; cases he
          · exact h
      · intro m _ hm
        exact hgm m (by rintro rfl; exact hm _ rfl (by simp))
    · have hd : ∀ w, A.get w = none ∨ B.get w = none := by
        intro w
        cases ha : A.get w with
        | none => exact Or.inl rfl
        | some f =>
          cases hb : B.get w with
          | none => exact Or.inr rfl
          | some g => exact absurd ⟨B, hB, hb⟩ (hns w f g ⟨A, hA, ha⟩)
      obtain ⟨R1, hr1, hc1, hcon1, hvn1, hln1, hviews1, hoth1, hb1, ⟨A', hA', hAg⟩, hAss1⟩ :=
        mergeLandmarks_spec hR hab hA hB hd
      have hBv : B.get v = none := by
        cases hg : B.get v with
        | none => rfl
        | some g => exact absurd ⟨B, hB, hg⟩ (hno b (by simp) g)
      have hAv : A.get v = none := by
        cases hg : A.get v with
        | none => rfl
        | some g => exact absurd ⟨A, hA, hg⟩ (hno a (by simp) g)
      have hV1 : R1.views.get v = some V := by rw [hviews1 v, hV, hBv]; rfl
      obtain ⟨R', hr, hc, hcon, hvn, hln, hgv, hgw, hgm, hgl⟩ :=
        attach_spec hc1 hV1 hA' (by rw [hAg v, hBv, hAv]; rfl)
      refine ⟨R', a, ?_, hc, hcon.trans hcon1, hvn.trans hvn1, by omega, hgv, rfl, ?_, ?_, ?_⟩
      · unfold addFeature
        simp only [hr1]
        cases ho : R1.observe a v V.landmarks.length with
        | none => rw [ho] at hr; simp at hr
        | some R2 => rw [ho] at hr; simpa using hr
      · intro w hw
        rw [hgw w hw, hviews1 w]
        cases hW : R.views.get w with
        | none => rfl
        | some W =>
          simp only [Option.map_some]
          cases B.get w <;> simp
      · intro w f l' hw
        have : R'.Assigned w f l' ↔ R1.Assigned w f l' := by unfold Assigned; rw [hgw w hw]
        rw [this, hAss1]
        constructor
        · rintro (⟨rfl, h | h⟩ | ⟨h1, h2, h⟩)
          · refine ⟨l', h, Or.inr ⟨?_, rfl⟩⟩
            intro g a' hg
            simp only [List.mem_singleton] at hg
            subst hg; rw [hx]
            intro he; simp at he; exact hab he.2.symm
          · refine ⟨b, h, Or.inl ⟨_, l', by simp, hx, rfl⟩⟩
          · refine ⟨l', h, Or.inr ⟨?_, rfl⟩⟩
            intro g a' hg
            simp only [List.mem_singleton] at hg
            subst hg; rw [hx]
            intro he; simp at he; exact h2 he.2.symm
        · rintro ⟨l, h, ⟨g, a', hg, he, rfl⟩ | ⟨hne, rfl⟩⟩
          · simp only [List.mem_singleton] at hg
            subst hg; rw [hx] at he; simp at he
            obtain ⟨rfl, rfl⟩ := he
            exact Or.inl ⟨rfl, Or.inr h⟩
          · have hlb : l' ≠ b := by
              rintro rfl
              exact hne _ a (by simp) hx
            by_cases hla : l' = a
            · subst hla; exact Or.inl ⟨rfl, Or.inl h⟩
            · exact Or.inr ⟨hla, hlb, h⟩
      · intro m _ hm
        have h := hm _ rfl
        simp only [List.mem_cons, List.not_mem_nil, or_false, not_or] at h
        rw [hgm m h.1, hoth1 m h.1 h.2]

/-- The loop over the features. -/
theorem addFeatures_spec (ex : Nat → Option (List Nat)) (v : Nat) (m : Nat) :
    ∀ (k : Nat) (R : Recon P) (V : View P), R.Consistent → R.views.get v = some V →
    V.landmarks.length = k →
    (∀ f, k ≤ f → f < k + m → R.GoodOption v (ex f)) →
    (∀ f g ls ms, k ≤ f → f < k + m → k ≤ g → g < k + m → f ≠ g → ex f = some ls →
      ex g = some ms → ∀ l, l ∈ ls → l ∉ ms) →
    ∃ R' news, addFeatures v ex (List.range' k m) R = some R' ∧
      R'.Consistent ∧ R'.constraints = R.constraints ∧ R'.views.next = R.views.next ∧
      R.landmarks.next ≤ R'.landmarks.next ∧
      R'.views.get v = some { V with landmarks := V.landmarks ++ news } ∧ news.length = m ∧
      (∀ i l, news[i]? = some l →
        match ex (k + i) with
        | some ls => ls.head? = some l
        | none => R.landmarks.next ≤ l ∧ l < R'.landmarks.next) ∧
      (∀ w, w ≠ v → (R'.views.get w).map (fun W => (W.frame, W.pose, W.landmarks.length)) =
        (R.views.get w).map (fun W => (W.frame, W.pose, W.landmarks.length))) ∧
      (∀ w f l', w ≠ v → (R'.Assigned w f l' ↔
        ∃ l, R.Assigned w f l ∧ Renamed (List.range' k m) ex l l')) := by
  induction m with
  | zero =>
    intro k R V hR hV hk _ _
    refine ⟨R, [], rfl, hR, rfl, rfl, Nat.le_refl _, by simpa using hV, rfl, by simp, ?_, ?_⟩
    · intro w _; rfl
    · intro w f l' _
      constructor
      · intro h; exact ⟨l', h, Or.inr ⟨by simp, rfl⟩⟩
      · rintro ⟨l, h, ⟨g, a, hg, _⟩ | ⟨_, rfl⟩⟩
        · simp at hg
        · exact h
  | succ m ih =>
    intro k R V hR hV hk hgood hdisj
    subst hk
    obtain ⟨R1, x, hr1, hc1, hcon1, hvn1, hln1, hgv1, hx, hfr1, hass1, hsame1⟩ :=
      addFeature_spec hR hV ex (hgood _ (Nat.le_refl _) (by omega))
    have hkeep : ∀ f ls, V.landmarks.length + 1 ≤ f → f < V.landmarks.length + 1 + m →
        ex f = some ls → ∀ l, l ∈ ls → R.LiveLandmark l →
        R1.landmarks.get l = R.landmarks.get l := by
      intro f ls h1 h2 hf l hl hlive
      apply hsame1
      · rintro rfl
        obtain ⟨L, hL⟩ := hlive
        rw [SlotMap.get_next hR.landmarksWF] at hL; cases hL
      · intro ms hms
        exact hdisj f V.landmarks.length ls ms (by omega) (by omega) (Nat.le_refl _) (by omega)
          (by omega) hf hms l hl
    obtain ⟨R', news, hr, hc, hcon, hvn, hln, hgv, hlen, hnews, hfr, hass⟩ :=
      ih (V.landmarks.length + 1) R1 { V with landmarks := V.landmarks ++ [x] } hc1 hgv1
        (by simp)
        (by
          intro f h1 h2
          have hg := hgood f (by omega) (by omega)
          cases hf : ex f with
          | none => trivial
          | some ls =>
            rw [hf] at hg
            obtain ⟨hshape, hno⟩ := hg
            have hlive : ∀ l, l ∈ ls → R.LiveLandmark l := by
              rcases hshape with ⟨l, rfl, hl⟩ | ⟨a, b, rfl, _, ha, hb, _⟩
              · intro l' hl'; simp at hl'; subst hl'; exact hl
              · intro l' hl'; simp at hl'
                rcases hl' with rfl | rfl
                · exact ha
                · exact hb
            have hk : ∀ l, l ∈ ls → R1.landmarks.get l = R.landmarks.get l :=
              fun l hl => hkeep f ls h1 h2 hf l hl (hlive l hl)
            refine ⟨?_, ?_⟩
            · rcases hshape with ⟨l, rfl, hl⟩ | ⟨a, b, rfl, hab, ha, hb, hns⟩
              · left
                obtain ⟨L, hL⟩ := hl
                exact ⟨l, rfl, L, by rw [hk l (by simp)]; exact hL⟩
              · right
                obtain ⟨A, hA⟩ := ha
                obtain ⟨B, hB⟩ := hb
                refine ⟨a, b, rfl, hab, ⟨A, by rw [hk a (by simp)]; exact hA⟩,
                  ⟨B, by rw [hk b (by simp)]; exact hB⟩, ?_⟩
                intro w p q h1 h2
                rw [observes_congr (hk a (by simp))] at h1
                rw [observes_congr (hk b (by simp))] at h2
                exact hns w p q h1 h2
            · intro l hl g ho
              rw [observes_congr (hk l hl)] at ho
              exact hno l hl g ho)
        (by
          intro f g ls ms h1 h2 h3 h4 hne hf hg
          exact hdisj f g ls ms (by omega) (by omega) (by omega) (by omega) hne hf hg)
    refine ⟨R', x :: news, ?_, hc, hcon.trans hcon1, hvn.trans hvn1, by omega, ?_, by simp [hlen],
      ?_, ?_, ?_⟩
    · rw [List.range'_succ]
      show (match R.addFeature v V.landmarks.length (ex V.landmarks.length) with
        | none => none
        | some R1 => _) = _
      rw [hr1]; exact hr
    · rw [hgv]; simp
    · intro i l hi
      cases i with
      | zero =>
        simp at hi
        subst hi
        simp only [Nat.add_zero]
        cases he : ex V.landmarks.length with
        | none =>
          rw [he] at hx
          simp only at hx ⊢
          rw [hx]
          refine ⟨Nat.le_refl _, ?_⟩
          -- the fresh key is live in R1, hence below R1's counter
          have : R1.Observes x v V.landmarks.length := by
            rw [← hc1.agree]
            exact ⟨_, hgv1, by simp⟩
          obtain ⟨L, hL, _⟩ := this
          rw [hx] at hL
          have := hc1.landmarksWF.fresh _ _ hL
          omega
        | some ls => rw [he] at hx; exact hx
      | succ i =>
        have hi : news[i]? = some l := by simpa using hi
        have := hnews i l hi
        have e : V.landmarks.length + 1 + i = V.landmarks.length + (i + 1) := by omega
        rw [e] at this
        cases he : ex (V.landmarks.length + (i + 1)) with
        | none => rw [he] at this; simp only at this ⊢; omega
        | some ls => rw [he] at this; exact this
    · intro w hw; rw [hfr w hw, hfr1 w hw]
    · intro w f l' hw
      rw [hass w f l' hw]
      constructor
      · rintro ⟨l1, h1, hren⟩
        rw [hass1 w f l1 hw] at h1
        obtain ⟨l, h, hren1⟩ := h1
        refine ⟨l, h, ?_⟩
        rw [List.range'_succ]
        rcases hren1 with ⟨g, a, hg, he, rfl⟩ | ⟨hne1, rfl⟩
        · simp only [List.mem_singleton] at hg
          subst hg
          rcases hren with ⟨g', a', hg', he', rfl⟩ | ⟨hne, rfl⟩
          · exfalso
            rw [List.mem_range'] at hg'
            obtain ⟨i, hi, rfl⟩ := hg'
            exact hdisj V.landmarks.length (V.landmarks.length + 1 + 1 * i) _ _ (Nat.le_refl _) (by omega)
              (by omega) (by omega) (by omega) he he' l1 (by simp) (by simp)
          · exact Or.inl ⟨_, l', by simp, he, rfl⟩
        · rcases hren with ⟨g', a', hg', he', rfl⟩ | ⟨hne, rfl⟩
          · exact Or.inl ⟨g', l', List.mem_cons_of_mem _ hg', he', rfl⟩
          · refine Or.inr ⟨?_, rfl⟩
            intro g a hg
            rcases List.mem_cons.mp hg with rfl | hg
            · exact hne1 _ a (by simp)
            · exact hne g a hg
      · rintro ⟨l, h, hren⟩
        rw [List.range'_succ] at hren
        rcases hren with ⟨g, a, hg, he, rfl⟩ | ⟨hne, rfl⟩
        · rcases List.mem_cons.mp hg with rfl | hg
          · refine ⟨l', ?_, Or.inr ⟨?_, rfl⟩⟩
            · rw [hass1 w f l' hw]
              exact ⟨l, h, Or.inl ⟨_, l', by simp, he, rfl⟩⟩
            · intro g' a' hg' he'
              rw [List.mem_range'] at hg'
              obtain ⟨i, hi, rfl⟩ := hg'
              exact hdisj V.landmarks.length (V.landmarks.length + 1 + 1 * i) _ _ (Nat.le_refl _)
                (by omega) (by omega) (by omega) (by omega) he he' l' (by simp) (by simp)
          · refine ⟨l, ?_, Or.inl ⟨g, l', hg, he, rfl⟩⟩
            rw [hass1 w f l hw]
            refine ⟨l, h, Or.inr ⟨?_, rfl⟩⟩
            intro g' a' hg' he'
            simp only [List.mem_singleton] at hg'
            subst hg'
            rw [List.mem_range'] at hg
            obtain ⟨i, hi, rfl⟩ := hg
            exact hdisj V.landmarks.length (V.landmarks.length + 1 + 1 * i) _ _ (Nat.le_refl _)
              (by omega) (by omega) (by omega) (by omega) he' he l (by simp) (by simp)
        · refine ⟨l', ?_, Or.inr ⟨?_, rfl⟩⟩
          · rw [hass1 w f l' hw]
            refine ⟨l', h, Or.inr ⟨?_, rfl⟩⟩
            intro g a hg
            simp only [List.mem_singleton] at hg
            subst hg
            exact hne _ a (by simp)
          · intro g a hg
            exact hne g a (List.mem_cons_of_mem _ hg)

/-- Effect of `add_view` inside its reconstruction. -/
theorem addView_spec {R : Recon P} (hR : R.Consistent) (frame : Nat) (pose : P) {n : Nat}
    {ex : Nat → Option (List Nat)} (hex : R.ValidMatches n ex) :
    ∃ R' lms, R.addView frame pose n ex = some R' ∧ R'.Consistent ∧
      R'.constraints = R.constraints ∧ R'.views.next = R.views.next + 1 ∧
      R.landmarks.next ≤ R'.landmarks.next ∧
      R'.views.get R.views.next = some ⟨frame, pose, lms⟩ ∧ lms.length = n ∧
      (∀ f l, lms[f]? = some l →
        match ex f with
        | some ls => ls.head? = some l
        | none => R.landmarks.next ≤ l ∧ l < R'.landmarks.next) ∧
      (∀ w, w ≠ R.views.next →
        (R'.views.get w).map (fun W => (W.frame, W.pose, W.landmarks.length)) =
        (R.views.get w).map (fun W => (W.frame, W.pose, W.landmarks.length))) ∧
      (∀ w f l', w ≠ R.views.next → (R'.Assigned w f l' ↔
        ∃ l, R.Assigned w f l ∧ Renamed (List.range n) ex l l')) := by
  let R0 : Recon P := { R with views := R.views.insert ⟨frame, pose, []⟩ }
  have hR0 : R0.Consistent := insertView_consistent hR frame pose
  have hV0 : R0.views.get R.views.next = some ⟨frame, pose, []⟩ := by
    show (R.views.insert _).get _ = _
    rw [SlotMap.get_insert hR.viewsWF]; simp
  have hnoobs : ∀ l g, ¬ R.Observes l R.views.next g := by
    intro l g h
    rw [← hR.agree] at h
    obtain ⟨V, hV, _⟩ := h
    rw [SlotMap.get_next hR.viewsWF] at hV; cases hV
  obtain ⟨R', news, hr, hc, hcon, hvn, hln, hgv, hlen, hnews, hfr, hass⟩ :=
    addFeatures_spec ex R.views.next n 0 R0 ⟨frame, pose, []⟩ hR0 hV0 rfl
      (by
        intro f _ hf
        cases he : ex f with
        | none => trivial
        | some ls =>
          refine ⟨hex.shape f ls (by omega) he, ?_⟩
          intro l _ g
          exact hnoobs l g)
      (by
        intro f g ls ms _ hf _ hg hne he1 he2
        exact hex.disjoint f g ls ms (by omega) (by omega) hne he1 he2)
  have hold : ∀ w, w ≠ R.views.next → R0.views.get w = R.views.get w := by
    intro w hw
    show (R.views.insert _).get w = _
    rw [SlotMap.get_insert hR.viewsWF]; simp [hw]
  refine ⟨R', news, ?_, hc, hcon, hvn, hln, ?_, hlen, ?_, ?_, ?_⟩
  · unfold addView; rw [List.range_eq_range']; exact hr
  · simpa using hgv
  · intro f l hf
    have := hnews f l hf
    simpa using this
  · intro w hw; rw [hfr w hw, hold w hw]
  · intro w f l' hw
    rw [hass w f l' hw, List.range_eq_range']
    have : ∀ l, R0.Assigned w f l ↔ R.Assigned w f l := by
      intro l; unfold Assigned; rw [hold w hw]
    simp only [this]

end Recon
end Verif.Sfm
