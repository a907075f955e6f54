import Verif.Spec.Sfm
import Verif.Lemmas.FMap

/-! Helper lemmas: effect of each operation inside one reconstruction. -/

namespace Verif.Sfm
namespace Recon
variable {P : Type}

theorem assigned_unique {R : Recon P} {v f l l' : Nat} (h : R.Assigned v f l)
    (h' : R.Assigned v f l') : l = l' := by
  obtain ⟨V, hV, hf⟩ := h
  obtain ⟨V', hV', hf'⟩ := h'
  rw [hV] at hV'; cases hV'; rw [hf] at hf'; exact Option.some.inj hf'

theorem observes_unique {R : Recon P} {v f f' l : Nat} (h : R.Observes l v f)
    (h' : R.Observes l v f') : f = f' := by
  obtain ⟨V, hV, hf⟩ := h
  obtain ⟨V', hV', hf'⟩ := h'
  rw [hV] at hV'; cases hV'; rw [hf] at hf'; exact Option.some.inj hf'

theorem mergeLoop_spec (a : Nat) (obs : List (Nat × Nat)) : ∀ (R : Recon P) (A : Landmark),
    R.landmarks.get a = some A → (obs.map Prod.fst).Nodup →
    (∀ v f, (v, f) ∈ obs → ∃ V, R.views.get v = some V ∧ f < V.landmarks.length) →
    (∀ v f, (v, f) ∈ obs → A.get v = none) →
    ∃ R', mergeLoop a obs R = some R' ∧ R'.constraints = R.constraints ∧
      R'.views.next = R.views.next ∧ R'.landmarks.next = R.landmarks.next ∧
      (R.views.WF → R'.views.WF) ∧ (R.landmarks.WF → R'.landmarks.WF) ∧
      (∀ v, R'.views.get v = (R.views.get v).map (fun V =>
        match obs.lookup v with
        | some f => { V with landmarks := V.landmarks.set f a }
        | none => V)) ∧
      (∀ l, l ≠ a → R'.landmarks.get l = R.landmarks.get l) ∧
      (∃ A', R'.landmarks.get a = some A' ∧ (A.WF → A'.WF) ∧
        ∀ v, A'.get v = (obs.lookup v).or (A.get v)) := by
  induction obs with
  | nil =>
    intro R A hA _ _ _
    refine ⟨R, rfl, rfl, rfl, rfl, id, id, ?_, fun _ _ => rfl, A, hA, id, ?_⟩
    · intro v; simp
    · intro v; simp
  | cons p obs ih =>
    obtain ⟨v, f⟩ := p
    intro R A hA hn hv hd
    obtain ⟨V, hV, hf⟩ := hv v f (by simp)
    simp only [List.map_cons, List.nodup_cons] at hn
    have hAv : A.get v = none := hd v f (by simp)
    let R1 : Recon P := { R with
      views := R.views.modify v (fun V => { V with landmarks := V.landmarks.set f a }) }
    let R2 : Recon P := { R1 with
      landmarks := R1.landmarks.modify a (fun A => A.put v f) }
    have hset : R.setOwner v f a = some R1 := by
      unfold setOwner; rw [hV]; simp [hf, R1]
    have hstep : mergeLoop a ((v, f) :: obs) R = mergeLoop a obs R2 := by
      show (match R.setOwner v f a with
        | none => none
        | some R1 => _) = _
      rw [hset]
      show (match R1.landmarks.get a with
        | none => none
        | some A => _) = _
      have : R1.landmarks.get a = some A := hA
      rw [this]
      simp [hAv, R2]
    have hA2 : R2.landmarks.get a = some (A.put v f) := by
      show (R.landmarks.modify a _).get a = _
      rw [SlotMap.get_modify]; simp [hA]
    have hnotin : ∀ f', (v, f') ∉ obs := fun f' hm =>
      hn.1 (List.mem_map.mpr ⟨(v, f'), hm, rfl⟩)
    obtain ⟨R', hr, hc, hvn, hln, hvw, hlw, hviews, hother, A', hA', hAw, hAg⟩ :=
      ih R2 (A.put v f) hA2 hn.2
        (by
          intro w g hm
          obtain ⟨W, hW, hg⟩ := hv w g (List.mem_cons_of_mem _ hm)
          have hwv : w ≠ v := by rintro rfl; exact hnotin _ hm
          refine ⟨W, ?_, hg⟩
          show (R.views.modify v _).get w = _
          rw [SlotMap.get_modify]; simp [hwv, hW])
        (by
          intro w g hm
          have hwv : w ≠ v := by rintro rfl; exact hnotin _ hm
          rw [FMap.get_put]; simp [hwv]
          exact hd w g (List.mem_cons_of_mem _ hm))
    refine ⟨R', by rw [hstep]; exact hr, hc, hvn, hln,
      fun h => hvw (SlotMap.wf_modify h _ _), fun h => hlw (SlotMap.wf_modify h _ _), ?_, ?_,
      A', hA', fun h => hAw (FMap.wf_put h _ _), ?_⟩
    · intro w
      rw [hviews w]
      show Option.map _ ((R.views.modify v _).get w) = _
      rw [SlotMap.get_modify]
      by_cases hwv : w = v
      · subst hwv
        have : obs.lookup w = none := by
          rw [FMap.lookup_eq_none_iff]; exact hn.1
        simp [hV, this]
      · have : (w == v) = false := by simpa using hwv
        simp [hwv, List.lookup_cons, this]
    · intro l hl
      rw [hother l hl]
      show (R.landmarks.modify a _).get l = _
      rw [SlotMap.get_modify]; simp [hl]
    · intro w
      rw [hAg w, FMap.get_put]
      by_cases hwv : w = v
      · subst hwv
        have : obs.lookup w = none := by
          rw [FMap.lookup_eq_none_iff]; exact hn.1
        simp [this]
      · have : (w == v) = false := by simpa using hwv
        simp [hwv, List.lookup_cons, this]

/-- Effect of `merge_landmarks` on a consistent reconstruction, when the landmarks are
different and share no view. -/
theorem mergeLandmarks_spec {R : Recon P} (hR : R.Consistent) {a b : Nat} {A B : Landmark}
    (hab : a ≠ b) (hA : R.landmarks.get a = some A) (hB : R.landmarks.get b = some B)
    (hd : ∀ v, A.get v = none ∨ B.get v = none) :
    ∃ R', R.mergeLandmarks a b = some R' ∧ R'.Consistent ∧
      R'.constraints = R.constraints ∧
      R'.views.next = R.views.next ∧ R'.landmarks.next = R.landmarks.next ∧
      (∀ v, R'.views.get v = (R.views.get v).map (fun V =>
        match B.get v with
        | some f => { V with landmarks := V.landmarks.set f a }
        | none => V)) ∧
      (∀ l, l ≠ a → l ≠ b → R'.landmarks.get l = R.landmarks.get l) ∧
      R'.landmarks.get b = none ∧
      (∃ A', R'.landmarks.get a = some A' ∧ ∀ v, A'.get v = (B.get v).or (A.get v)) ∧
      (∀ v f l, R'.Assigned v f l ↔
        (l = a ∧ (R.Assigned v f a ∨ R.Assigned v f b)) ∨
          (l ≠ a ∧ l ≠ b ∧ R.Assigned v f l)) := by
  have hBw : B.WF := hR.obsWF b B hB
  have hobs : ∀ v f, (v, f) ∈ B.entries → ∃ V, R.views.get v = some V ∧
      V.landmarks[f]? = some b := by
    intro v f hm
    exact (hR.agree v f b).mpr ⟨B, hB, FMap.get_of_mem hBw hm⟩
  let R0 : Recon P := { R with landmarks := R.landmarks.erase b }
  obtain ⟨R', hr, hc, hvn, hln, hvw, hlw, hviews, hother, A', hA', hAw, hAg⟩ :=
    mergeLoop_spec (P := P) a B.entries R0 A
      (by show (R.landmarks.erase b).get a = _; rw [SlotMap.get_erase]; simp [hab, hA])
      hBw
      (by
        intro v f hm
        obtain ⟨V, hV, hf⟩ := hobs v f hm
        exact ⟨V, hV, (List.getElem?_eq_some_iff.mp hf).1⟩)
      (by
        intro v f hm
        have := FMap.get_of_mem hBw hm
        rcases hd v with h | h
        · exact h
        · rw [this] at h; cases h)
  have hviews : ∀ v, R'.views.get v = (R.views.get v).map (fun V =>
        match B.get v with
        | some f => { V with landmarks := V.landmarks.set f a }
        | none => V) := hviews
  have hbnone : R'.landmarks.get b = none := by
    rw [hother b (Ne.symm hab)]
    show (R.landmarks.erase b).get b = none
    rw [SlotMap.get_erase]; simp
  have hoth : ∀ l, l ≠ a → l ≠ b → R'.landmarks.get l = R.landmarks.get l := by
    intro l h1 h2
    rw [hother l h1]
    show (R.landmarks.erase b).get l = _
    rw [SlotMap.get_erase]; simp [h2]
  have hAg : ∀ v, A'.get v = (B.get v).or (A.get v) := hAg
  have hAss : ∀ v f l, R'.Assigned v f l ↔
      (l = a ∧ (R.Assigned v f a ∨ R.Assigned v f b)) ∨ (l ≠ a ∧ l ≠ b ∧ R.Assigned v f l) := by
    intro v f l
    unfold Assigned
    rw [hviews v]
    cases hV : R.views.get v with
    | none => simp
    | some V =>
      simp only [Option.map_some, Option.some.injEq, exists_eq_left']
      cases hBv : B.get v with
      | none =>
        have hnb : V.landmarks[f]? ≠ some b := by
          intro h
          obtain ⟨L, hL, hLv⟩ := (hR.agree v f b).mp ⟨V, hV, h⟩
          rw [hB] at hL; cases hL; rw [hBv] at hLv; cases hLv
        simp only
        constructor
        · intro h
          by_cases hla : l = a
          · subst hla; exact Or.inl ⟨rfl, Or.inl h⟩
          · refine Or.inr ⟨hla, ?_, h⟩
            rintro rfl; exact hnb h
        · rintro (⟨rfl, h | h⟩ | ⟨_, _, h⟩)
          · exact h
          · exact absurd h hnb
          · exact h
      | some g =>
        obtain ⟨V2, hV2, hg⟩ := hobs v g (FMap.mem_of_get hBv)
        rw [hV] at hV2; cases hV2
        have hnb : ∀ f, V.landmarks[f]? = some b → f = g := by
          intro f h
          obtain ⟨L, hL, hLv⟩ := (hR.agree v f b).mp ⟨V, hV, h⟩
          rw [hB] at hL; cases hL; rw [hBv] at hLv; cases hLv; rfl
        simp only
        rw [List.getElem?_set]
        have hlen := (List.getElem?_eq_some_iff.mp hg).1
        by_cases hfg : g = f
        · subst hfg
          simp only [if_true, hlen, Option.some.injEq]
          constructor
          · rintro rfl; exact Or.inl ⟨rfl, Or.inr hg⟩
          · rintro (⟨rfl, _⟩ | ⟨_, h2, h⟩)
            · rfl
            · rw [hg] at h; exact absurd (Option.some.inj h).symm h2
        · simp only [hfg, if_false]
          constructor
          · intro h
            by_cases hla : l = a
            · subst hla; exact Or.inl ⟨rfl, Or.inl h⟩
            · refine Or.inr ⟨hla, ?_, h⟩
              rintro rfl; exact hfg (hnb f h).symm
          · rintro (⟨rfl, h | h⟩ | ⟨_, _, h⟩)
            · exact h
            · exact absurd (hnb f h).symm hfg
            · exact h
  refine ⟨R', ?_, ?_, hc, hvn, hln, hviews, hoth, hbnone, ⟨A', hA', hAg⟩, hAss⟩
  · unfold mergeLandmarks; rw [hB]; exact hr
  · -- consistency
    have hObs : ∀ l v f, R'.Observes l v f ↔
        (l = a ∧ (R.Observes a v f ∨ R.Observes b v f)) ∨ (l ≠ a ∧ l ≠ b ∧ R.Observes l v f) := by
      intro l v f
      unfold Observes
      by_cases hla : l = a
      · subst hla
        simp only [hA', hA, hB, Option.some.injEq, exists_eq_left', hAg v, true_and, ne_eq,
          not_true_eq_false, false_and, or_false]
        rcases hd v with h | h
        · simp [h]
        · simp [h]
      · by_cases hlb : l = b
        · subst hlb; simp [hbnone, hla]
        · simp [hla, hlb, hoth l hla hlb]
    refine ⟨hvw hR.viewsWF, hlw (SlotMap.wf_erase hR.landmarksWF _), ?_, ?_, ?_, ?_, ?_⟩
    · rw [hc]; exact hR.constraintsWF
    · intro l L hL
      by_cases hla : l = a
      · subst hla; rw [hA'] at hL; cases hL; exact hAw (hR.obsWF _ _ hA)
      · by_cases hlb : l = b
        · subst hlb; rw [hbnone] at hL; cases hL
        · rw [hoth l hla hlb] at hL; exact hR.obsWF _ _ hL
    · intro l L hL
      by_cases hla : l = a
      · subst hla; rw [hA'] at hL; cases hL
        obtain ⟨v, f, hvf⟩ := hR.nonempty _ _ hA
        rcases hd v with h | h
        · rw [hvf] at h; cases h
        · exact ⟨v, f, by rw [hAg v, h]; simpa using hvf⟩
      · by_cases hlb : l = b
        · subst hlb; rw [hbnone] at hL; cases hL
        · rw [hoth l hla hlb] at hL; exact hR.nonempty _ _ hL
    · intro v f l
      rw [hAss, hObs]
      simp only [hR.agree]
    · intro k c hk
      rw [hc] at hk
      have hlive : ∀ v, R.LiveView v → R'.LiveView v := by
        rintro v ⟨V, hV⟩
        unfold LiveView
        rw [hviews v, hV]; simp
      obtain ⟨h0, h1, h2, hne⟩ := hR.constraintsLive k c hk
      exact ⟨hlive _ h0, hlive _ h1, hlive _ h2, hne⟩


/-- A consistent reconstruction stays so when a view without features is added. -/
theorem insertView_consistent {R : Recon P} (hR : R.Consistent) (frame : Nat) (pose : P) :
    ({ R with views := R.views.insert ⟨frame, pose, []⟩ } : Recon P).Consistent := by
  refine ⟨SlotMap.wf_insert hR.viewsWF _, hR.landmarksWF, hR.constraintsWF, hR.obsWF,
    hR.nonempty, ?_, ?_⟩
  · intro v f l
    have hobs : ({ R with views := R.views.insert ⟨frame, pose, []⟩ } : Recon P).Observes l v f
        ↔ R.Observes l v f := Iff.rfl
    rw [hobs, ← hR.agree]
    unfold Assigned
    show (∃ V, (R.views.insert _).get v = some V ∧ _) ↔ _
    rw [SlotMap.get_insert hR.viewsWF]
    by_cases h : v = R.views.next
    · subst h
      rw [SlotMap.get_next hR.viewsWF]
      simp
    · simp [h]
  · intro k c hk
    have hlive : ∀ v, R.LiveView v →
        ({ R with views := R.views.insert ⟨frame, pose, []⟩ } : Recon P).LiveView v := by
      rintro v ⟨V, hV⟩
      refine ⟨V, ?_⟩
      show (R.views.insert _).get v = _
      rw [SlotMap.get_insert hR.viewsWF]
      have : v ≠ R.views.next := by
        rintro rfl; rw [SlotMap.get_next hR.viewsWF] at hV; cases hV
      simp [this, hV]
    obtain ⟨h0, h1, h2, hne⟩ := hR.constraintsLive k c hk
    exact ⟨hlive _ h0, hlive _ h1, hlive _ h2, hne⟩

/-- Attaching feature number `V.landmarks.length` of view `v` to a landmark not seen by `v`. -/
theorem attach_spec {R : Recon P} (hR : R.Consistent) {v l : Nat} {V : View P} {L : Landmark}
    (hV : R.views.get v = some V) (hL : R.landmarks.get l = some L) (hLv : L.get v = none) :
    ∃ R', (R.observe l v V.landmarks.length).bind (fun R1 => R1.pushOwner v l) = some R' ∧
      R'.Consistent ∧ R'.constraints = R.constraints ∧
      R'.views.next = R.views.next ∧ R'.landmarks.next = R.landmarks.next ∧
      R'.views.get v = some { V with landmarks := V.landmarks ++ [l] } ∧
      (∀ w, w ≠ v → R'.views.get w = R.views.get w) ∧
      (∀ m, m ≠ l → R'.landmarks.get m = R.landmarks.get m) ∧
      R'.landmarks.get l = some (L.put v V.landmarks.length) := by
  let f := V.landmarks.length
  let R1 : Recon P := { R with landmarks := R.landmarks.modify l (fun L => L.put v f) }
  let R2 : Recon P := { R1 with
    views := R1.views.modify v (fun V => { V with landmarks := V.landmarks ++ [l] }) }
  have h1 : R.observe l v V.landmarks.length = some R1 := by
    unfold observe; rw [hL]
  have h2 : R1.pushOwner v l = some R2 := by
    unfold pushOwner
    have : R1.views.get v = some V := hV
    rw [this]
  have gv : R2.views.get v = some { V with landmarks := V.landmarks ++ [l] } := by
    show (R.views.modify v _).get v = _
    rw [SlotMap.get_modify]; simp [hV]
  have gw : ∀ w, w ≠ v → R2.views.get w = R.views.get w := by
    intro w hw
    show (R.views.modify v _).get w = _
    rw [SlotMap.get_modify]; simp [hw]
  have gl : R2.landmarks.get l = some (L.put v f) := by
    show (R.landmarks.modify l _).get l = _
    rw [SlotMap.get_modify]; simp [hL]
  have gm : ∀ m, m ≠ l → R2.landmarks.get m = R.landmarks.get m := by
    intro m hm
    show (R.landmarks.modify l _).get m = _
    rw [SlotMap.get_modify]; simp [hm]
  refine ⟨R2, by rw [h1]; exact h2, ?_, rfl, rfl, rfl, gv, gw, gm, gl⟩
  refine ⟨SlotMap.wf_modify hR.viewsWF _ _, SlotMap.wf_modify hR.landmarksWF _ _,
    hR.constraintsWF, ?_, ?_, ?_, ?_⟩
  · intro m M hM
    by_cases hm : m = l
    · subst hm; rw [gl] at hM; cases hM; exact FMap.wf_put (hR.obsWF _ _ hL) _ _
    · rw [gm m hm] at hM; exact hR.obsWF _ _ hM
  · intro m M hM
    by_cases hm : m = l
    · subst hm; rw [gl] at hM; cases hM
      exact ⟨v, f, by rw [FMap.get_put]; simp⟩
    · rw [gm m hm] at hM; exact hR.nonempty _ _ hM
  · intro w g m
    have hA : R2.Assigned w g m ↔ (w = v ∧ g = f ∧ m = l) ∨ R.Assigned w g m := by
      unfold Assigned
      by_cases hw : w = v
      · subst hw
        simp only [gv, hV, Option.some.injEq, exists_eq_left']
        rw [List.getElem?_append]
        by_cases hg : g < V.landmarks.length
        · have : g ≠ f := by show g ≠ V.landmarks.length; omega
          simp [hg, this]
        · simp only [hg, if_false]
          have hnone : V.landmarks[g]? = none := List.getElem?_eq_none_iff.mpr (by omega)
          by_cases hgf : g = f
          · subst hgf
            simp only [hnone, true_and]
            simp [f, eq_comm]
          · have : g - V.landmarks.length ≠ 0 := by
              have : g ≠ V.landmarks.length := hgf
              omega
            have : [l][g - V.landmarks.length]? = none := by
              rw [List.getElem?_eq_none_iff]; simp; omega
            simp [this, hnone, hgf]
      · simp [gw w hw, hw]
    have hO : R2.Observes m w g ↔ (w = v ∧ g = f ∧ m = l) ∨ R.Observes m w g := by
      unfold Observes
      by_cases hm : m = l
      · subst hm
        simp only [gl, hL, Option.some.injEq, exists_eq_left']
        rw [FMap.get_put]
        by_cases hw : w = v
        · subst hw; simp [hLv, eq_comm]
        · simp [hw]
      · simp [gm m hm, hm]
    rw [hA, hO, hR.agree]
  · intro k c hk
    have hlive : ∀ w, R.LiveView w → R2.LiveView w := by
      rintro w ⟨W, hW⟩
      by_cases hw : w = v
      · subst hw; exact ⟨_, gv⟩
      · exact ⟨W, by rw [gw w hw]; exact hW⟩
    obtain ⟨h0, h1, h2, hne⟩ := hR.constraintsLive k c hk
    exact ⟨hlive _ h0, hlive _ h1, hlive _ h2, hne⟩

/-- Attaching feature number `V.landmarks.length` of view `v` to a fresh landmark. -/
theorem attachNew_spec {R : Recon P} (hR : R.Consistent) {v : Nat} {V : View P}
    (hV : R.views.get v = some V) :
    ∃ R', (R.addLandmark v V.landmarks.length).pushOwner v R.landmarks.next = some R' ∧
      R'.Consistent ∧ R'.constraints = R.constraints ∧
      R'.views.next = R.views.next ∧ R'.landmarks.next = R.landmarks.next + 1 ∧
      R'.views.get v = some { V with landmarks := V.landmarks ++ [R.landmarks.next] } ∧
      (∀ w, w ≠ v → R'.views.get w = R.views.get w) ∧
      (∀ m, m ≠ R.landmarks.next → R'.landmarks.get m = R.landmarks.get m) ∧
      R'.landmarks.get R.landmarks.next = some (FMap.single v V.landmarks.length) := by
  let f := V.landmarks.length
  let l := R.landmarks.next
  let R1 : Recon P := R.addLandmark v f
  let R2 : Recon P := { R1 with
    views := R1.views.modify v (fun V => { V with landmarks := V.landmarks ++ [l] }) }
  have h2 : R1.pushOwner v l = some R2 := by
    unfold pushOwner
    have : R1.views.get v = some V := hV
    rw [this]
  have gv : R2.views.get v = some { V with landmarks := V.landmarks ++ [l] } := by
    show (R.views.modify v _).get v = _
    rw [SlotMap.get_modify]; simp [hV]
  have gw : ∀ w, w ≠ v → R2.views.get w = R.views.get w := by
    intro w hw
    show (R.views.modify v _).get w = _
    rw [SlotMap.get_modify]; simp [hw]
  have gl : R2.landmarks.get l = some (FMap.single v f) := by
    show (R.landmarks.insert _).get l = _
    rw [SlotMap.get_insert hR.landmarksWF]; simp [l]
  have gm : ∀ m, m ≠ l → R2.landmarks.get m = R.landmarks.get m := by
    intro m hm
    show (R.landmarks.insert _).get m = _
    rw [SlotMap.get_insert hR.landmarksWF]
    have : m ≠ R.landmarks.next := hm
    simp [this]
  have hlnone : R.landmarks.get l = none := SlotMap.get_next hR.landmarksWF
  refine ⟨R2, h2, ?_, rfl, rfl, rfl, gv, gw, gm, gl⟩
  refine ⟨SlotMap.wf_modify hR.viewsWF _ _, SlotMap.wf_insert hR.landmarksWF _,
    hR.constraintsWF, ?_, ?_, ?_, ?_⟩
  · intro m M hM
    by_cases hm : m = l
    · subst hm; rw [gl] at hM; cases hM; exact FMap.wf_single _ _
    · rw [gm m hm] at hM; exact hR.obsWF _ _ hM
  · intro m M hM
    by_cases hm : m = l
    · subst hm; rw [gl] at hM; cases hM
      exact ⟨v, f, by rw [FMap.get_single]; simp⟩
    · rw [gm m hm] at hM; exact hR.nonempty _ _ hM
  · intro w g m
    have hA : R2.Assigned w g m ↔ (w = v ∧ g = f ∧ m = l) ∨ R.Assigned w g m := by
      unfold Assigned
      by_cases hw : w = v
      · subst hw
        simp only [gv, hV, Option.some.injEq, exists_eq_left']
        rw [List.getElem?_append]
        by_cases hg : g < V.landmarks.length
        · have : g ≠ f := by show g ≠ V.landmarks.length; omega
          simp [hg, this]
        · simp only [hg, if_false]
          have hnone : V.landmarks[g]? = none := List.getElem?_eq_none_iff.mpr (by omega)
          by_cases hgf : g = f
          · subst hgf
            simp only [hnone, true_and]
            simp [f, eq_comm]
          · have : g - V.landmarks.length ≠ 0 := by
              have : g ≠ V.landmarks.length := hgf
              omega
            have : [l][g - V.landmarks.length]? = none := by
              rw [List.getElem?_eq_none_iff]; simp; omega
            simp [this, hnone, hgf]
      · simp [gw w hw, hw]
    have hO : R2.Observes m w g ↔ (w = v ∧ g = f ∧ m = l) ∨ R.Observes m w g := by
      unfold Observes
      by_cases hm : m = l
      · subst hm
        simp only [gl, hlnone, Option.some.injEq, exists_eq_left', reduceCtorEq, false_and,
          exists_false, or_false]
        rw [FMap.get_single]
        by_cases hw : w = v
        · simp [hw, eq_comm]
        · simp [hw]
      · simp [gm m hm, hm]
    rw [hA, hO, hR.agree]
  · intro k c hk
    have hlive : ∀ w, R.LiveView w → R2.LiveView w := by
      rintro w ⟨W, hW⟩
      by_cases hw : w = v
      · subst hw; exact ⟨_, gv⟩
      · exact ⟨W, by rw [gw w hw]; exact hW⟩
    obtain ⟨h0, h1, h2, hne⟩ := hR.constraintsLive k c hk
    exact ⟨hlive _ h0, hlive _ h1, hlive _ h2, hne⟩

/-- Removing a list of observations of one view. -/
theorem removeObservations_spec (v : Nat) (ls : List Nat) : ∀ (R : Recon P), ls.Nodup →
    (∀ l, l ∈ ls → ∃ L, R.landmarks.get l = some L ∧ 0 < L.size) →
    ∃ R', removeObservations v ls R = some R' ∧ R'.views = R.views ∧
      R'.constraints = R.constraints ∧ R'.landmarks.next = R.landmarks.next ∧
      (R.landmarks.WF → R'.landmarks.WF) ∧
      (∀ l, l ∉ ls → R'.landmarks.get l = R.landmarks.get l) ∧
      (∀ l L, l ∈ ls → R.landmarks.get l = some L →
        R'.landmarks.get l = if L.size = 1 then none else some (L.erase v)) := by
  induction ls with
  | nil => intro R _ _; exact ⟨R, rfl, rfl, rfl, rfl, id, fun _ _ => rfl, by simp⟩
  | cons l ls ih =>
    intro R hn hl
    obtain ⟨L, hL, hs⟩ := hl l (by simp)
    rw [List.nodup_cons] at hn
    let R1 : Recon P := if L.size = 1 then { R with landmarks := R.landmarks.erase l }
      else { R with landmarks := R.landmarks.modify l (fun L => L.erase v) }
    have hstep : removeObservations v (l :: ls) R = removeObservations v ls R1 := by
      show (match R.landmarks.get l with
        | none => none
        | some L => _) = _
      rw [hL]
      simp only [R1]
      rw [if_neg (by omega)]
      split <;> rfl
    have gl : R1.landmarks.get l = if L.size = 1 then none else some (L.erase v) := by
      simp only [R1]
      split
      · show (R.landmarks.erase l).get l = _
        rw [SlotMap.get_erase]; simp
      · show (R.landmarks.modify l _).get l = _
        rw [SlotMap.get_modify]; simp [hL]
    have gm : ∀ m, m ≠ l → R1.landmarks.get m = R.landmarks.get m := by
      intro m hm
      simp only [R1]
      split
      · show (R.landmarks.erase l).get m = _
        rw [SlotMap.get_erase]; simp [hm]
      · show (R.landmarks.modify l _).get m = _
        rw [SlotMap.get_modify]; simp [hm]
    have hw1 : R.landmarks.WF → R1.landmarks.WF := by
      intro h
      simp only [R1]
      split
      · exact SlotMap.wf_erase h _
      · exact SlotMap.wf_modify h _ _
    have hv1 : R1.views = R.views ∧ R1.constraints = R.constraints ∧
        R1.landmarks.next = R.landmarks.next := by
      simp only [R1]; split <;> exact ⟨rfl, rfl, rfl⟩
    obtain ⟨R', hr, hv, hc, hnx, hw, hno, hyes⟩ := ih R1 hn.2 (by
      intro m hm
      have : m ≠ l := by rintro rfl; exact hn.1 hm
      rw [gm m this]
      exact hl m (List.mem_cons_of_mem _ hm))
    refine ⟨R', by rw [hstep]; exact hr, hv.trans hv1.1, hc.trans hv1.2.1, hnx.trans hv1.2.2,
      fun h => hw (hw1 h), ?_, ?_⟩
    · intro m hm
      simp only [List.mem_cons, not_or] at hm
      rw [hno m hm.2, gm m hm.1]
    · intro m M hm hM
      by_cases hml : m = l
      · subst hml
        rw [hL] at hM; cases hM
        rw [hno m hn.1, gl]
      · rcases List.mem_cons.mp hm with h | h
        · exact absurd h hml
        · exact hyes m M h (by rw [gm m hml]; exact hM)

/-- Effect of `remove_view`. -/
theorem removeView_spec {R : Recon P} (hR : R.Consistent) {v : Nat} {V : View P}
    (hV : R.views.get v = some V) :
    ∃ R', R.removeView v = some R' ∧ R'.Consistent ∧
      R'.views.next = R.views.next ∧ R'.landmarks.next = R.landmarks.next ∧
      R'.views.get v = none ∧ (∀ w, w ≠ v → R'.views.get w = R.views.get w) ∧
      (∀ l w f, R'.Observes l w f ↔ (w ≠ v ∧ R.Observes l w f)) ∧
      (∀ e, e ∈ R'.constraints.map.entries ↔
        e ∈ R.constraints.map.entries ∧ e.2.mentions v = false) := by
  have hobs : ∀ (f l : Nat), V.landmarks[f]? = some l → ∃ L, R.landmarks.get l = some L ∧
      L.get v = some f := by
    intro f l h
    exact (hR.agree v f l).mp ⟨V, hV, h⟩
  have hnodup : V.landmarks.Nodup := by
    unfold List.Nodup
    rw [List.pairwise_iff_getElem]
    intro i j hi hj hij heq
    have h1 : V.landmarks[i]? = some V.landmarks[i] := List.getElem?_eq_getElem hi
    have h2 : V.landmarks[j]? = some V.landmarks[i] := by
      rw [heq]; exact List.getElem?_eq_getElem hj
    obtain ⟨L, hL, hLi⟩ := hobs _ _ h1
    obtain ⟨L', hL', hLj⟩ := hobs _ _ h2
    rw [hL] at hL'; cases hL'
    rw [hLi] at hLj
    have := Option.some.inj hLj
    omega
  let R0 : Recon P := { R with
    views := R.views.modify v (fun V => { V with landmarks := [] }) }
  obtain ⟨R1, hr, hv1, hc1, hnx, hw, hno, hyes⟩ :=
    removeObservations_spec (P := P) v V.landmarks R0 hnodup (by
      intro l hl
      obtain ⟨i, hi, hli⟩ := List.mem_iff_getElem.mp hl
      obtain ⟨L, hL, hLv⟩ := hobs i l (by rw [List.getElem?_eq_getElem hi, hli])
      exact ⟨L, hL, FMap.size_pos_of_get hLv⟩)
  let R' : Recon P := { R1 with
    constraints := R1.constraints.retain (fun c => !c.mentions v)
    views := R1.views.erase v }
  have hrun : R.removeView v = some R' := by
    unfold removeView
    rw [hV]
    show (match removeObservations v V.landmarks R0 with
      | none => none
      | some R1 => _) = _
    rw [hr]
  have gv : R'.views.get v = none := by
    show (R1.views.erase v).get v = none
    rw [SlotMap.get_erase]; simp
  have gw : ∀ w, w ≠ v → R'.views.get w = R.views.get w := by
    intro w hw
    show (R1.views.erase v).get w = _
    rw [SlotMap.get_erase, hv1]
    simp only [hw, if_false]
    show (R.views.modify v _).get w = _
    rw [SlotMap.get_modify]; simp [hw]
  have hmem : ∀ l L f, R.landmarks.get l = some L → L.get v = some f → l ∈ V.landmarks := by
    intro l L f hL hf
    obtain ⟨V', hV', hl⟩ := (hR.agree v f l).mpr ⟨L, hL, hf⟩
    rw [hV] at hV'; cases hV'
    exact List.mem_of_getElem? hl
  have hin : ∀ l, l ∈ V.landmarks → ∃ L f, R.landmarks.get l = some L ∧ L.get v = some f := by
    intro l hl
    obtain ⟨i, hi, hli⟩ := List.mem_iff_getElem.mp hl
    obtain ⟨L, hL, hLv⟩ := hobs i l (by rw [List.getElem?_eq_getElem hi, hli])
    exact ⟨L, i, hL, hLv⟩
  have hO : ∀ l w f, R'.Observes l w f ↔ (w ≠ v ∧ R.Observes l w f) := by
    intro l w f
    unfold Observes
    by_cases hl : l ∈ V.landmarks
    · obtain ⟨L, g, hL, hLg⟩ := hin l hl
      have hy : R'.landmarks.get l = _ := hyes l L hl hL
      rw [hy, hL]
      simp only [Option.some.injEq, exists_eq_left']
      split
      · rename_i hs
        constructor
        · rintro ⟨_, h, _⟩; cases h
        · rintro ⟨hwv, hf⟩
          have := FMap.two_le_size hwv hf hLg
          omega
      · simp only [Option.some.injEq, exists_eq_left']
        rw [FMap.get_erase]
        by_cases hwv : w = v
        · simp [hwv]
        · simp [hwv]
    · have hn : R'.landmarks.get l = R.landmarks.get l := hno l hl
      rw [hn]
      constructor
      · rintro ⟨L, hL, hf⟩
        refine ⟨?_, L, hL, hf⟩
        rintro rfl
        exact hl (hmem l L f hL hf)
      · rintro ⟨_, h⟩; exact h
  refine ⟨R', hrun, ?_, by show R1.views.next = _; rw [hv1]; rfl, hnx, gv, gw, hO, ?_⟩
  · refine ⟨?_, hw hR.landmarksWF, ?_, ?_, ?_, ?_, ?_⟩
    · show (R1.views.erase v).WF
      rw [hv1]
      exact SlotMap.wf_erase (SlotMap.wf_modify hR.viewsWF _ _) _
    · show (R1.constraints.retain (fun c => !c.mentions v)).WF
      rw [hc1]; exact SlotMap.wf_retain hR.constraintsWF _
    · intro l L hL
      by_cases hl : l ∈ V.landmarks
      · obtain ⟨L0, g, hL0, hLg⟩ := hin l hl
        have hy : R'.landmarks.get l = _ := hyes l L0 hl hL0
        rw [hy] at hL
        split at hL
        · cases hL
        · cases hL; exact FMap.wf_erase (hR.obsWF _ _ hL0) _
      · have hn : R'.landmarks.get l = R.landmarks.get l := hno l hl
        rw [hn] at hL; exact hR.obsWF _ _ hL
    · intro l L hL
      by_cases hl : l ∈ V.landmarks
      · obtain ⟨L0, g, hL0, hLg⟩ := hin l hl
        have hy : R'.landmarks.get l = _ := hyes l L0 hl hL0
        rw [hy] at hL
        split at hL
        · cases hL
        · rename_i hs
          cases hL
          have hpos := FMap.size_pos_of_get hLg
          obtain ⟨j, x, hj, hx⟩ := FMap.exists_other (hR.obsWF _ _ hL0) (by omega) v
          exact ⟨j, x, by rw [FMap.get_erase]; simp [hj, hx]⟩
      · have hn : R'.landmarks.get l = R.landmarks.get l := hno l hl
        rw [hn] at hL; exact hR.nonempty _ _ hL
    · intro w f l
      rw [hO, ← hR.agree]
      unfold Assigned
      by_cases hwv : w = v
      · subst hwv; simp [gv]
      · simp [gw w hwv, hwv]
    · intro k c hk
      have hm := FMap.mem_of_get hk
      have hm : (k, c) ∈ (R1.constraints.retain (fun c => !c.mentions v)).map.entries := hm
      rw [SlotMap.mem_retain, hc1] at hm
      obtain ⟨hm, hnm⟩ := hm
      obtain ⟨h0, h1, h2, hne⟩ := hR.constraintsLive k c
        (FMap.get_of_mem hR.constraintsWF.nodup hm)
      simp only [Constraint.mentions, Bool.not_eq_true', Bool.or_eq_false_iff, beq_eq_false_iff_ne,
        ne_eq] at hnm
      have hlive : ∀ w, w ≠ v → R.LiveView w → R'.LiveView w := by
        rintro w hw ⟨W, hW⟩
        exact ⟨W, by rw [gw w hw]; exact hW⟩
      exact ⟨hlive _ hnm.1.1 h0, hlive _ hnm.1.2 h1, hlive _ hnm.2 h2, hne⟩
  · intro e
    show e ∈ (R1.constraints.retain (fun c => !c.mentions v)).map.entries ↔ _
    rw [SlotMap.mem_retain, hc1]
    simp [R0]

/-- Effect of `split_observation`. -/
theorem splitObservation_spec {R : Recon P} (hR : R.Consistent) {v f old : Nat} {L : Landmark}
    (ha : R.Assigned v f old) (hL : R.landmarks.get old = some L) :
    (L.size < 2 → R.splitObservation v f = some (R, false)) ∧
    (2 ≤ L.size → ∃ R', R.splitObservation v f = some (R', true) ∧ R'.Consistent ∧
      R'.constraints = R.constraints ∧ R'.views.next = R.views.next ∧
      R'.landmarks.next = R.landmarks.next + 1 ∧
      (∀ w, R'.views.get w = (R.views.get w).map (fun V =>
        if w = v then { V with landmarks := V.landmarks.set f R.landmarks.next } else V)) ∧
      R'.landmarks.get old = some (L.erase v) ∧
      R'.landmarks.get R.landmarks.next = some (FMap.single v f) ∧
      (∀ l, l ≠ old → l ≠ R.landmarks.next → R'.landmarks.get l = R.landmarks.get l)) := by
  obtain ⟨V, hV, hf⟩ := ha
  obtain ⟨L', hL', hLv⟩ := (hR.agree v f old).mp ⟨V, hV, hf⟩
  rw [hL] at hL'; cases hL'
  have hlen := (List.getElem?_eq_some_iff.mp hf).1
  constructor
  · intro hs
    unfold splitObservation
    rw [hV]; simp only [hf, hL]
    rw [if_neg (by omega)]
  · intro hs
    let new := R.landmarks.next
    have hnew : R.landmarks.get new = none := SlotMap.get_next hR.landmarksWF
    have holdnew : old ≠ new := by rintro rfl; rw [hL] at hnew; cases hnew
    let R1 : Recon P := { R with landmarks := R.landmarks.modify old (fun L => L.erase v) }
    let R2 : Recon P := { (R1.addLandmark v f) with
      views := R.views.modify v (fun V => { V with landmarks := V.landmarks.set f new }) }
    have hrun : R.splitObservation v f = some (R2, true) := by
      unfold splitObservation
      rw [hV]; simp only [hf, hL]
      rw [if_pos hs, if_pos hLv]
      have : (R1.addLandmark v f).setOwner v f new = some R2 := by
        unfold setOwner
        have : (R1.addLandmark v f).views.get v = some V := hV
        rw [this]; simp [hlen, R2, addLandmark, R1]
      show (match (R1.addLandmark v f).setOwner v f new with
        | none => none
        | some R2 => _) = _
      rw [this]
    have gw : ∀ w, R2.views.get w = (R.views.get w).map (fun V =>
        if w = v then { V with landmarks := V.landmarks.set f new } else V) := by
      intro w
      show (R.views.modify v _).get w = _
      rw [SlotMap.get_modify]
      by_cases hw : w = v
      · simp [hw]
      · simp [hw]
    have hw1 : R1.landmarks.WF := SlotMap.wf_modify hR.landmarksWF _ _
    have gl : ∀ l, R2.landmarks.get l = if l = new then some (FMap.single v f)
        else if l = old then some (L.erase v) else R.landmarks.get l := by
      intro l
      show (R1.landmarks.insert _).get l = _
      rw [SlotMap.get_insert hw1]
      show (if l = new then _ else (R.landmarks.modify old _).get l) = _
      rw [SlotMap.get_modify]
      by_cases hl : l = old
      · subst hl; simp [hL]
      · simp [hl]
    refine ⟨R2, hrun, ?_, rfl, rfl, rfl, gw, ?_, ?_, ?_⟩
    · refine ⟨SlotMap.wf_modify hR.viewsWF _ _, SlotMap.wf_insert hw1 _, hR.constraintsWF,
        ?_, ?_, ?_, ?_⟩
      · intro l M hM
        rw [gl l] at hM
        split at hM
        · cases hM; exact FMap.wf_single _ _
        · split at hM
          · cases hM; exact FMap.wf_erase (hR.obsWF _ _ hL) _
          · exact hR.obsWF _ _ hM
      · intro l M hM
        rw [gl l] at hM
        split at hM
        · cases hM; exact ⟨v, f, by rw [FMap.get_single]; simp⟩
        · split at hM
          · cases hM
            obtain ⟨j, x, hj, hx⟩ := FMap.exists_other (hR.obsWF _ _ hL) hs v
            exact ⟨j, x, by rw [FMap.get_erase]; simp [hj, hx]⟩
          · exact hR.nonempty _ _ hM
      · intro w g l
        have hA : R2.Assigned w g l ↔
            (w = v ∧ g = f ∧ l = new) ∨ (¬ (w = v ∧ g = f) ∧ R.Assigned w g l) := by
          unfold Assigned
          rw [gw w]
          cases hW : R.views.get w with
          | none =>
            have : w ≠ v := by rintro rfl; rw [hV] at hW; cases hW
            simp [this]
          | some W =>
            simp only [Option.map_some, Option.some.injEq, exists_eq_left']
            by_cases hw : w = v
            · subst hw
              rw [hV] at hW; cases hW
              simp only [if_true, List.getElem?_set, true_and]
              by_cases hg : f = g
              · subst hg; simp [hlen, eq_comm]
              · have : ¬ g = f := fun h => hg h.symm
                simp [hg, this]
            · simp [hw]
        have hO : R2.Observes l w g ↔
            (w = v ∧ g = f ∧ l = new) ∨ (¬ (w = v ∧ g = f) ∧ R.Observes l w g) := by
          unfold Observes
          rw [gl l]
          by_cases hl : l = new
          · subst hl
            simp only [if_true, Option.some.injEq, exists_eq_left', hnew]
            rw [FMap.get_single]
            by_cases hw : w = v
            · simp [hw, eq_comm]
            · simp [hw]
          · by_cases hlo : l = old
            · subst hlo
              simp only [hl, if_false, if_true, Option.some.injEq, exists_eq_left', hL]
              rw [FMap.get_erase]
              by_cases hw : w = v
              · subst hw
                simp only [if_true, hLv, Option.some.injEq, true_and]
                constructor
                · intro h; cases h
                · rintro (⟨_, h⟩ | ⟨h, h'⟩)
                  · exact absurd h (by simp)
                  · exact absurd h'.symm h
              · simp [hw]
            · simp only [hl, hlo, if_false, and_false, false_or]
              constructor
              · rintro ⟨M, hM, hMw⟩
                refine ⟨?_, M, hM, hMw⟩
                rintro ⟨rfl, rfl⟩
                obtain h := (hR.agree w g l).mpr ⟨M, hM, hMw⟩
                exact hlo (assigned_unique h ⟨V, hV, hf⟩)
              · rintro ⟨_, h⟩; exact h
        rw [hA, hO, hR.agree]
      · intro k c hk
        have hlive : ∀ w, R.LiveView w → R2.LiveView w := by
          rintro w ⟨W, hW⟩
          unfold LiveView
          rw [gw w, hW]; simp
        obtain ⟨h0, h1, h2, hne⟩ := hR.constraintsLive k c hk
        exact ⟨hlive _ h0, hlive _ h1, hlive _ h2, hne⟩
    · rw [gl old]; simp [holdnew]
    · show R2.landmarks.get new = _
      rw [gl new]; simp
    · intro l h1 h2
      have h2 : l ≠ new := h2
      rw [gl l]; simp [h1, h2]

end Recon
end Verif.Sfm
