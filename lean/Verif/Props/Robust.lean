import Verif.Spec.SfmGeometry
import Verif.Lemmas.SfmHistory
import Verif.Lemmas.Pose

/-!
# Robust observations (C59)
-/

namespace Verif.Sfm

open Verif.Geo

variable {C : Type}

theorem mem_combinations_or {α : Type _} {l : List α} {a b : α} (ha : a ∈ l) (hb : b ∈ l) :
    a = b ∨ (a, b) ∈ combinations l ∨ (b, a) ∈ combinations l := by
  induction l with
  | nil => exact absurd ha (by simp)
  | cons x l ih =>
    simp only [combinations, List.mem_append, List.mem_map, Prod.mk.injEq]
    rcases List.mem_cons.1 ha with rfl | ha'
    · rcases List.mem_cons.1 hb with rfl | hb'
      · exact Or.inl rfl
      · exact Or.inr (Or.inl (Or.inl ⟨b, hb', rfl, rfl⟩))
    · rcases List.mem_cons.1 hb with rfl | hb'
      · exact Or.inr (Or.inr (Or.inl ⟨a, ha', rfl, rfl⟩))
      · rcases ih ha' hb' with h | h | h
        · exact Or.inl h
        · exact Or.inr (Or.inl (Or.inr h))
        · exact Or.inr (Or.inr (Or.inr h))

theorem mem_of_combinations {α : Type _} {l : List α} {a b : α} (h : (a, b) ∈ combinations l) : a ∈ l ∧ b ∈ l := by
  induction l with
  | nil => exact absurd h (by simp [combinations])
  | cons x l ih =>
    simp only [combinations, List.mem_append, List.mem_map, Prod.mk.injEq] at h
    rcases h with ⟨c, hc, rfl, rfl⟩ | h
    · exact ⟨by simp, List.mem_cons_of_mem _ hc⟩
    · exact ⟨List.mem_cons_of_mem _ (ih h).1, List.mem_cons_of_mem _ (ih h).2⟩

theorem combinations_sublist {α : Type _} {l l' : List α} (h : l.Sublist l') :
    (combinations l).Sublist (combinations l') := by
  induction h with
  | slnil => exact List.Sublist.refl _
  | cons a _ ih => exact ih.trans (List.sublist_append_right _ _)
  | cons_cons a hs ih => exact List.Sublist.append (hs.map _) ih

theorem combinations_any_perm {α : Type _} {l l' : List α} {q : α → α → Bool} (hq : ∀ a b, q a b = q b a)
    (h : l.Perm l') : (combinations l).any (fun p => q p.1 p.2) = (combinations l').any (fun p => q p.1 p.2) := by
  induction h with
  | nil => rfl
  | cons a hp ih =>
    simp only [combinations, List.any_append, List.any_map, ih]
    congr 1
    rw [Bool.eq_iff_iff, List.any_eq_true, List.any_eq_true]
    exact ⟨fun ⟨x, h1, h2⟩ => ⟨x, hp.mem_iff.1 h1, h2⟩, fun ⟨x, h1, h2⟩ => ⟨x, hp.mem_iff.2 h1, h2⟩⟩
  | swap a b l =>
    simp only [combinations, List.any_append, List.any_map, List.map_cons, List.any_cons, Function.comp_def, hq b a]
    cases q a b <;> cases l.any (fun x => q a x) <;> cases l.any (fun x => q b x) <;> rfl
  | trans _ _ ih1 ih2 => exact ih1.trans ih2

theorem angularlyRobust_comm (W : World C) (a b : V3 ℝ) : angularlyRobust W a b = angularlyRobust W b a := by
  unfold angularlyRobust; rw [V3.dot_comm]

/-- A permutation of a list for which a computation succeeds. -/
theorem mapM_perm {α β : Type _} {f : α → Option β} {l l' : List α} (h : l.Perm l') :
    (l.mapM f = none ∧ l'.mapM f = none) ∨ ∃ r r', l.mapM f = some r ∧ l'.mapM f = some r' ∧ r.Perm r' := by
  induction h with
  | nil => exact Or.inr ⟨[], [], rfl, rfl, List.Perm.refl _⟩
  | cons a hp ih =>
    simp only [List.mapM_cons, Option.bind_eq_bind]
    rcases f a with _ | b
    · exact Or.inl ⟨rfl, rfl⟩
    · rcases ih with ⟨h1, h2⟩ | ⟨r, r', h1, h2, h3⟩
      · rw [h1, h2]; exact Or.inl ⟨rfl, rfl⟩
      · rw [h1, h2]; exact Or.inr ⟨b :: r, b :: r', rfl, rfl, h3.cons b⟩
  | swap a b l =>
    simp only [List.mapM_cons, Option.bind_eq_bind]
    rcases f a with _ | x <;> rcases f b with _ | y <;> rcases l.mapM f with _ | r <;>
      first
      | exact Or.inl ⟨rfl, rfl⟩
      | exact Or.inr ⟨y :: x :: r, x :: y :: r, rfl, rfl, List.Perm.swap _ _ _⟩
  | trans _ _ ih1 ih2 =>
    rcases ih1 with ⟨h1, h2⟩ | ⟨r, r', h1, h2, h3⟩
    · rcases ih2 with ⟨_, h4⟩ | ⟨s, _, h4, _⟩
      · exact Or.inl ⟨h1, h4⟩
      · rw [h2] at h4; exact absurd h4 (by simp)
    · rcases ih2 with ⟨h4, _⟩ | ⟨s, s', h4, h5, h6⟩
      · rw [h2] at h4; exact absurd h4 (by simp)
      · rw [h2] at h4; cases h4
        exact Or.inr ⟨r, s', h1, h5, h3.trans h6⟩

/-- **C59** The order of the observations does not matter. -/
theorem C59_order (W : World C) (R : Recon (Iso ℝ)) {obs obs' : List (Nat × Nat)} (h : obs.Perm obs') :
    areObservationsRobust W R obs = areObservationsRobust W R obs' := by
  unfold areObservationsRobust
  rcases mapM_perm (f := poseBearing W R) h with ⟨h1, h2⟩ | ⟨r, r', h1, h2, h3⟩
  · rw [h1, h2]; rfl
  · rw [h1, h2]
    simp only [Option.bind_eq_bind, Option.bind_some, h.length_eq]
    rw [combinations_any_perm (angularlyRobust_comm W) (h3.map _)]

theorem mapM_sublist {α β : Type _} {f : α → Option β} {l l' : List α} {r' : List β} (h : l.Sublist l')
    (h' : l'.mapM f = some r') : ∃ r, l.mapM f = some r ∧ r.Sublist r' := by
  induction h generalizing r' with
  | slnil => exact ⟨r', h', List.Sublist.refl _⟩
  | cons a _ ih =>
    simp only [List.mapM_cons, Option.bind_eq_bind, Option.bind_eq_some_iff] at h'
    obtain ⟨b, -, s, h2, h3⟩ := h'
    obtain ⟨r, g1, g2⟩ := ih h2
    cases h3
    exact ⟨r, g1, g2.cons b⟩
  | cons_cons a _ ih =>
    simp only [List.mapM_cons, Option.bind_eq_bind, Option.bind_eq_some_iff] at h'
    obtain ⟨b, h1, s, h2, h3⟩ := h'
    obtain ⟨r, g1, g2⟩ := ih h2
    cases h3
    exact ⟨b :: r, by simp only [List.mapM_cons, h1, g1]; rfl, g2.cons_cons b⟩

/-- **C59** More observations never make a robust set not robust. -/
theorem C59_more (W : World C) (R : Recon (Iso ℝ)) {obs obs' : List (Nat × Nat)} (h : obs.Subperm obs')
    (hr : areObservationsRobust W R obs = some true) {x : Bool} (hx : areObservationsRobust W R obs' = some x) :
    x = true := by
  obtain ⟨obs'', hp, hs⟩ := h
  rw [C59_order W R hp.symm] at hr
  unfold areObservationsRobust at hr hx
  simp only [Option.bind_eq_bind, Option.bind_eq_some_iff] at hr hx
  obtain ⟨r', h1, h2⟩ := hx
  obtain ⟨r, h3, h4⟩ := mapM_sublist hs h1
  rw [h3] at hr
  obtain ⟨_, h0, h5⟩ := hr
  cases h0
  have h5 := Option.some.inj h5
  rw [← Option.some.inj h2]
  rw [Bool.and_eq_true, decide_eq_true_eq] at h5 ⊢
  refine ⟨h5.1.trans hs.length_le, ?_⟩
  have h6 := h5.2
  rw [List.any_eq_true] at h6 ⊢
  obtain ⟨p, hp1, hp2⟩ := h6
  exact ⟨p, (combinations_sublist (h4.map _)).subset hp1, hp2⟩

theorem seen_of_poseBearing {W : World C} {R : Recon (Iso ℝ)} (hR : RigidPoses R) {o : Nat × Nat} {p : Iso ℝ × V3 ℝ}
    (h : poseBearing W R o = some p) : SeenAlong W R o (p.1.inv.rot.mulVec p.2) := by
  unfold poseBearing at h
  simp only [Option.bind_eq_bind, Option.bind_eq_some_iff] at h
  obtain ⟨V, h1, b, h2, h3⟩ := h
  cases h3
  refine ⟨V, h1, ?_⟩
  have hrot : V.pose.rot.IsRot := hR _ _ h1
  have : V.pose.rot.mulVec (V.pose.inv.rot.mulVec b) = b := by
    have e := (hR _ _ h1).mul_inv
    have e : V.pose.rot.mul V.pose.inv.rot = M3.one := congrArg Iso.rot e
    rw [M3.mulVec_mulVec, e, M3.one_mulVec]
  rw [this]
  exact h2

theorem poseBearing_of_seen {W : World C} {R : Recon (Iso ℝ)} (hR : RigidPoses R) {o : Nat × Nat} {v : V3 ℝ}
    (h : SeenAlong W R o v) : ∃ p, poseBearing W R o = some p ∧ p.1.inv.rot.mulVec p.2 = v := by
  obtain ⟨V, h1, h2⟩ := h
  refine ⟨(V.pose, V.pose.rot.mulVec v), ?_, ?_⟩
  · unfold poseBearing; rw [h1]; simp only [Option.bind_eq_bind, Option.bind_some, h2]; rfl
  · have e := (hR _ _ h1).inv_mul
    have e : V.pose.inv.rot.mul V.pose.rot = M3.one := congrArg Iso.rot e
    rw [M3.mulVec_mulVec, e, M3.one_mulVec]

theorem mem_mapM {α β : Type _} {f : α → Option β} {l : List α} {r : List β} (h : l.mapM f = some r) {b : β} :
    b ∈ r ↔ ∃ a ∈ l, f a = some b := by
  induction l generalizing r with
  | nil => cases h; simp
  | cons a l ih =>
    simp only [List.mapM_cons, Option.bind_eq_bind, Option.bind_eq_some_iff] at h
    obtain ⟨c, h1, s, h2, h3⟩ := h
    cases h3
    rw [List.mem_cons, ih h2, List.exists_mem_cons_iff, h1, Option.some_inj, eq_comm]

/-- **C59** What robust means. -/
theorem C59_robust {W : World C} {R : Recon (Iso ℝ)} (hR : RigidPoses R) (hb : UnitBearings W) (hc : 0 ≤ W.minCosine)
    {obs : List (Nat × Nat)} (hobs : ∀ o ∈ obs, HasBearing W R o) :
    ∃ x, areObservationsRobust W R obs = some x ∧ (x = true ↔ Robust W R obs) := by
  have hall : ∃ r, obs.mapM (poseBearing W R) = some r := by
    induction obs with
    | nil => exact ⟨[], rfl⟩
    | cons o obs ih =>
      obtain ⟨r, hr⟩ := ih (fun o ho => hobs o (List.mem_cons_of_mem _ ho))
      obtain ⟨V, b, h1, h2⟩ := hobs o (by simp)
      refine ⟨(V.pose, b) :: r, ?_⟩
      have : poseBearing W R o = some (V.pose, b) := by
        unfold poseBearing; rw [h1]; simp only [Option.bind_eq_bind, Option.bind_some, h2]; rfl
      simp only [List.mapM_cons, this, hr]
      rfl
  obtain ⟨r, hr⟩ := hall
  have mem : ∀ v, v ∈ r.map (fun p => p.1.inv.rot.mulVec p.2) ↔ ∃ o ∈ obs, SeenAlong W R o v := by
    intro v
    rw [List.mem_map]
    have key := fun p => mem_mapM hr (b := p)
    constructor
    · rintro ⟨p, hp, rfl⟩
      obtain ⟨o, ho, h1⟩ := (key p).1 hp
      exact ⟨o, ho, seen_of_poseBearing hR h1⟩
    · rintro ⟨o, ho, h1⟩
      obtain ⟨p, hp, h2⟩ := poseBearing_of_seen hR h1
      exact ⟨p, (key p).2 ⟨o, ho, hp⟩, h2⟩
  refine ⟨_, by unfold areObservationsRobust; rw [hr]; rfl, ?_⟩
  rw [Bool.and_eq_true, decide_eq_true_eq, min_le_iff, List.any_eq_true]
  unfold Robust
  refine and_congr Iff.rfl ⟨?_, ?_⟩
  · rintro ⟨⟨v, v'⟩, h1, h2⟩
    obtain ⟨g1, g2⟩ := mem_of_combinations h1
    obtain ⟨o, ho, s1⟩ := (mem v).1 g1
    obtain ⟨o', ho', s2⟩ := (mem v').1 g2
    exact ⟨o, ho, o', ho', v, v', s1, s2, of_decide_eq_true h2⟩
  · rintro ⟨o, ho, o', ho', v, v', s1, s2, h⟩
    rcases mem_combinations_or ((mem v).2 ⟨o, ho, s1⟩) ((mem v').2 ⟨o', ho', s2⟩) with rfl | h1 | h1
    · exfalso
      obtain ⟨V, hV, hv⟩ := s1
      have hu := hb _ _ _ hv
      have : v.dot v = 1 := by
        rw [V3.dot_self, ← hu]
        exact ((hR _ _ hV).normSq_mulVec v).symm
      linarith
    · exact ⟨_, h1, decide_eq_true h⟩
    · exact ⟨_, h1, decide_eq_true (by rw [V3.dot_comm]; exact h)⟩

/-- **C59** A landmark merged with a robust one is robust. -/
theorem C59_merged (W : World C) (R : Recon (Iso ℝ)) {a b : Nat} (hab : isLandmarkRobust W R a = some true ∨
    isLandmarkRobust W R b = some true) {x : Bool} (hx : isMergedRobust W R a b = some x) : x = true := by
  unfold isMergedRobust at hx
  simp only [Option.bind_eq_bind, Option.bind_eq_some_iff] at hx
  obtain ⟨A, hA, B, hB, h⟩ := hx
  unfold isLandmarkRobust at hab
  rw [hA, hB] at hab
  rcases hab with hab | hab
  · exact C59_more W R (List.sublist_append_left _ _).subperm hab h
  · exact C59_more W R (List.sublist_append_right _ _).subperm hab h

end Verif.Sfm
