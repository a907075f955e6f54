import Verif.Props.Normalize

/-!
# Examples for robust observations and normalising (C17, C59)
-/

namespace Verif.Sfm.ExGeo

open Verif.Geo Verif.Sfm

/-- Two cameras, the second three units to the right of the first, see the point 3, 0, 4. -/
noncomputable def pose0 : Iso ℝ := Iso.one
noncomputable def pose1 : Iso ℝ := ⟨M3.one, ⟨-3, 0, 0⟩⟩

noncomputable def R : Recon (Iso ℝ) :=
  { views := ⟨⟨[(0, ⟨0, pose0, [0]⟩), (1, ⟨1, pose1, [0]⟩)]⟩, 2⟩
    landmarks := ⟨⟨[(0, ⟨[(0, 0), (1, 0)]⟩)]⟩, 1⟩
    constraints := ⟨⟨[]⟩, 0⟩ }

open Classical in
/-- The triangulator that finds the point if exactly one fits. -/
noncomputable def exact (l : List (Iso ℝ × V3 ℝ)) : Option (V4 ℝ) :=
  if h : ∃! x : V3 ℝ, ∀ p ∈ l, ∃ t, 0 < t ∧ p.1.point x = V3.smul t p.2 then fromPoint h.choose else none

noncomputable def W : World Nat where
  bearing f n := if n = 0 then (if f = 0 then some ⟨0.6, 0, 0.8⟩ else if f = 1 then some ⟨0, 0, 1⟩ else none) else none
  colour f n := if n = 0 ∧ f < 2 then some (f + 7) else none
  triangulate := exact
  minObservations := 2
  minCosine := 0.1

theorem exact_eq {l : List (Iso ℝ × V3 ℝ)} {x : V3 ℝ} (h : ∀ p ∈ l, ∃ t, 0 < t ∧ p.1.point x = V3.smul t p.2)
    (hu : ∀ y : V3 ℝ, (∀ p ∈ l, ∃ t, 0 < t ∧ p.1.point y = V3.smul t p.2) → y = x) : exact l = fromPoint x := by
  have hx : ∃! x : V3 ℝ, ∀ p ∈ l, ∃ t, 0 < t ∧ p.1.point x = V3.smul t p.2 := ⟨x, h, hu⟩
  unfold exact
  rw [dif_pos hx]
  congr 1
  exact hu _ hx.choose_spec.1

theorem rigid : RigidPoses R := by
  intro v V h
  have h := FMap.mem_of_get h
  simp only [R, List.mem_cons, List.not_mem_nil, or_false, Prod.mk.injEq] at h
  rcases h with ⟨_, rfl⟩ | ⟨_, rfl⟩ <;> exact M3.IsRot.one

theorem units : UnitBearings W := by
  intro f n b h
  simp only [W] at h
  split at h
  · split at h
    · cases h; norm_num [V3.normSq]
    · split at h
      · cases h; norm_num [V3.normSq]
      · exact absurd h (by simp)
  · exact absurd h (by simp)

theorem bearing0 : poseBearing W R (0, 0) = some (pose0, ⟨0.6, 0, 0.8⟩) := rfl
theorem bearing1 : poseBearing W R (1, 0) = some (pose1, ⟨0, 0, 1⟩) := by
  simp [poseBearing, W, R, SlotMap.get, FMap.get, List.lookup]

theorem pbs : [(0, 0), (1, 0)].mapM (poseBearing W R) = some [(pose0, ⟨0.6, 0, 0.8⟩), (pose1, ⟨0, 0, 1⟩)] := by
  simp only [List.mapM_cons, List.mapM_nil, bearing0, bearing1]
  rfl

theorem robust : areObservationsRobust W R [(0, 0), (1, 0)] = some true := by
  unfold areObservationsRobust
  rw [pbs]
  simp only [Option.bind_eq_bind, Option.bind_some, List.map_cons, List.map_nil, combinations, List.append_nil]
  refine congrArg some ?_
  rw [Bool.and_eq_true, List.any_eq_true]
  refine ⟨by simp [W], _, List.mem_singleton.2 rfl, ?_⟩
  unfold angularlyRobust
  rw [decide_eq_true_eq]
  simp only [pose0, pose1, W, lin]
  norm_num

/-- The hypotheses of `C59_robust` hold. -/
example : Robust W R [(1, 0), (0, 0)] := by
  obtain ⟨x, h1, h2⟩ := C59_robust rigid units (by norm_num [W]) (obs := [(1, 0), (0, 0)]) (by
    intro o ho
    simp only [List.mem_cons, List.not_mem_nil, or_false] at ho
    rcases ho with rfl | rfl
    · exact ⟨⟨1, pose1, [0]⟩, ⟨0, 0, 1⟩, rfl, by simp [W]⟩
    · exact ⟨⟨0, pose0, [0]⟩, ⟨0.6, 0, 0.8⟩, rfl, by simp [W]⟩)
  rw [C59_order W R (List.Perm.swap (0, 0) (1, 0) []), robust] at h1
  exact h2.1 (Option.some.inj h1).symm

theorem found : exact [(pose0, ⟨0.6, 0, 0.8⟩), (pose1, ⟨0, 0, 1⟩)] = fromPoint ⟨3, 0, 4⟩ := by
  refine exact_eq ?_ ?_
  · intro p hp
    simp only [List.mem_cons, List.not_mem_nil, or_false] at hp
    rcases hp with rfl | rfl
    · refine ⟨5, by norm_num, ?_⟩
      ext <;> simp only [pose0, lin] <;> norm_num
    · refine ⟨4, by norm_num, ?_⟩
      ext <;> simp only [pose1, lin] <;> norm_num
  · intro y hy
    obtain ⟨t, -, h1⟩ := hy _ (by simp : (pose0, ⟨0.6, 0, 0.8⟩) ∈ _)
    obtain ⟨u, -, h2⟩ := hy _ (by simp : (pose1, ⟨0, 0, 1⟩) ∈ _)
    simp only [pose0, pose1, lin, V3.mk.injEq] at h1 h2
    ext <;> linarith [h1.1, h1.2.1, h1.2.2, h2.1]

theorem found' : exact ([(pose0, ⟨0.6, 0, 0.8⟩), (pose1, ⟨0, 0, 1⟩)].map
    (fun p => ((p.1.mul pose1.inv).scale (1 / 4), p.2))) = fromPoint ⟨0, 0, 1⟩ := by
  refine exact_eq ?_ ?_
  · intro p hp
    simp only [List.map_cons, List.map_nil, List.mem_cons, List.not_mem_nil, or_false] at hp
    rcases hp with rfl | rfl
    · refine ⟨5 / 4, by norm_num, ?_⟩
      ext <;> simp only [pose0, pose1, lin] <;> norm_num
    · refine ⟨1, by norm_num, ?_⟩
      ext <;> simp only [pose1, lin] <;> norm_num
  · intro y hy
    obtain ⟨t, -, h1⟩ := hy _ (List.mem_map_of_mem (by simp : (pose0, ⟨0.6, 0, 0.8⟩) ∈ _))
    obtain ⟨u, -, h2⟩ := hy _ (List.mem_map_of_mem (by simp : (pose1, ⟨0, 0, 1⟩) ∈ _))
    simp only [pose0, pose1, lin, V3.mk.injEq] at h1 h2
    ext <;> linarith [h1.1, h1.2.1, h1.2.2, h2.1]

theorem tri : triangulateRobust W R 0 = some (fromPoint ⟨3, 0, 4⟩) := by
  unfold triangulateRobust
  have : R.landmarks.get 0 = some ⟨[(0, 0), (1, 0)]⟩ := rfl
  rw [this]
  simp only [Option.bind_eq_bind, Option.bind_some, robust, pbs, if_true]
  exact congrArg some found

theorem pt : ∃ q, fromPoint ⟨3, 0, 4⟩ = some q ∧ toPoint q = some ⟨3, 0, 4⟩ := by
  obtain ⟨q, h1, h2, -⟩ := C33_round_trip ⟨3, 0, 4⟩ (by intro h; simp [lin] at h)
  exact ⟨q, h1, h2⟩

theorem pt' : ∃ q, fromPoint ⟨0, 0, 1⟩ = some q ∧ toPoint q = some ⟨0, 0, 1⟩ ∧ Normal q := by
  obtain ⟨q, h1, h2, -⟩ := C33_round_trip ⟨0, 0, 1⟩ (by intro h; simp [lin] at h)
  exact ⟨q, h1, h2, normal_of_some h1⟩

/-- The second camera is four units away from the landmark. -/
theorem mean : meanDistance W R ⟨1, pose1, [0]⟩ = some (some 4) := by
  obtain ⟨q, h1, h2⟩ := pt
  have hd : distanceFrom pose1 q = some (some 4) := by
    unfold distanceFrom
    rcases ht : transform pose1 q with _ | z
    · exfalso
      unfold transform at ht
      rw [(C33_from_homogeneous _).1] at ht
      unfold toPoint at h2
      split at h2
      · exact absurd h2 (by simp)
      · rename_i hw
        have h2 := Option.some.inj h2
        simp only [pose1, lin, V3.mk.injEq] at h2 ht
        obtain ⟨-, -, h3⟩ := h2
        have : q.z = 0 := by linarith [ht.2.2]
        rw [this] at h3
        norm_num at h3
    · have hi := C34_transform_infinity pose1 ht
      have hzw : z.w ≠ 0 := by
        intro h0
        have := hi.1.1 h0
        unfold toPoint at h2
        rw [if_pos this] at h2
        exact absurd h2 (by simp)
      obtain ⟨y, hy⟩ : ∃ y, toPoint z = some y := by unfold toPoint; rw [if_neg hzw]; exact ⟨_, rfl⟩
      have e := hi.2 _ y h2 hy
      simp only [hy, Option.map_some, Option.some.injEq]
      rw [e]
      unfold V3.norm
      rw [Real.sqrt_eq_iff_mul_self_eq_of_pos (by norm_num)]
      simp only [pose1, lin]; norm_num
  unfold meanDistance
  simp only [List.mapM_cons, List.mapM_nil, tri, h1]
  refine congrArg some ?_
  show meanOf ([q].filterMap (distanceFrom pose1)) = some 4
  rw [List.filterMap_cons, hd]
  unfold meanOf
  rw [if_neg (by simp)]
  simp

/-- The hypotheses of `C17_unit` hold. -/
example {R' : Recon (Iso ℝ)} (h : normalizeReconstruction W R 1 = some R') :
    ∃ V', R'.views.get 1 = some V' ∧ meanDistance W R' V' = some (some 1) := by
  refine C17_unit (V := ⟨1, pose1, [0]⟩) rigid rfl (m := 4) ?_ mean (by norm_num) h
  intro l hl L r hL hr
  have : l = 0 := by simpa using hl
  subst this
  cases hL
  rw [pbs] at hr
  cases hr
  obtain ⟨q, h1, h2⟩ := pt
  obtain ⟨q', h1', h2', h3'⟩ := pt'
  show Follows pose1 (1 / 4) (exact _) (exact _)
  rw [found, found', h1, h1']
  refine Or.inr ⟨q', rfl, h3'.1, h3'.2, ?_⟩
  rw [h2, h2', Option.map_some, Option.some.injEq]
  ext <;> simp only [pose1, lin] <;> norm_num

/-- Those of `C17_normalize` and `C17_total`. -/
example : ∃ R', normalizeReconstruction W R 1 = some R' ∧ NormalForm R R' 1 (1 / 4) := by
  have : ∃ R', normalizeReconstruction W R 1 = some R' := by
    unfold normalizeReconstruction
    have : R.views.get 1 = some ⟨1, pose1, [0]⟩ := rfl
    rw [this]
    simp only [Option.bind_eq_bind, Option.bind_some, mean]
    rw [if_neg (by norm_num)]
    exact ⟨_, rfl⟩
  obtain ⟨R', h⟩ := this
  obtain ⟨V, hV, ⟨m, hm, hn⟩ | ⟨-, hm | hm⟩⟩ := C17_normalize rigid h
  · cases hV; rw [mean] at hm; cases hm; exact ⟨R', h, hn⟩
  · cases hV; rw [mean] at hm; exact absurd hm (by simp)
  · cases hV; rw [mean] at hm; exact absurd hm (by simp)

end Verif.Sfm.ExGeo
