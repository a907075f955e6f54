import Verif.Props.SymmetryRefine
import Verif.Props.DetectExample

/-!
# C98: which of several near keypoints survives depends on the direction of the search

The level of `Props/DetectExample` with three peaks, mirrored and transposed.
-/

namespace Verif.Akaze

namespace ExMirror

/-- The three peaks, mirrored. -/
noncomputable def f (x y : Nat) : ℝ :=
  if x = 37 ∧ y = 40 then 3 else if x = 41 ∧ y = 40 then 1 else if x = 39 ∧ y = 41 then 2 else 0

noncomputable def img : Img ℝ := Img.ofFn 80 80 f

noncomputable def level : DetLevel := ⟨0, 1.6, mirror ExDet.img, negate (mirror ExDet.img), mirror ExDet.img, img⟩

noncomputable def kB : KeyPoint := ⟨37, 40, 3, 2.4, 0, 0, 0⟩
noncomputable def kA : KeyPoint := ⟨41, 40, 1, 2.4, 0, 0, 0⟩
noncomputable def kC : KeyPoint := ⟨39, 41, 2, 2.4, 0, 0, 0⟩

theorem shows_img : img.Shows 80 80 f := ofFn_shows 80 80 f

theorem usable : Usable [level] := by
  intro l hl
  simp only [List.mem_singleton] at hl
  subst hl
  exact ⟨shows_img.2.2.1, by simp [level, img, Img.ofFn], by simp [level, img, Img.ofFn]⟩

theorem f_zero {x y : Nat} (h1 : ¬ (x = 37 ∧ y = 40)) (h2 : ¬ (x = 41 ∧ y = 40)) (h3 : ¬ (x = 39 ∧ y = 41)) :
    f x y = 0 := by
  unfold f; rw [if_neg h1, if_neg h2, if_neg h3]

theorem fB : f 37 40 = 3 := by simp [f]
theorem fA : f 41 40 = 1 := by simp [f]
theorem fC : f 39 41 = 2 := by simp [f]

theorem peakB : IsPeak f 80 80 37 40 := by
  refine ⟨by omega, by omega, by omega, by omega, fun x y h1 h2 h3 h4 hne => ?_⟩
  simp only [ne_eq, Prod.mk.injEq] at hne
  rw [fB, f_zero hne (by omega) (by omega)]
  norm_num

theorem peakA : IsPeak f 80 80 41 40 := by
  refine ⟨by omega, by omega, by omega, by omega, fun x y h1 h2 h3 h4 hne => ?_⟩
  simp only [ne_eq, Prod.mk.injEq] at hne
  rw [fA, f_zero (by omega) hne (by omega)]
  norm_num

theorem peakC : IsPeak f 80 80 39 41 := by
  refine ⟨by omega, by omega, by omega, by omega, fun x y h1 h2 h3 h4 hne => ?_⟩
  simp only [ne_eq, Prod.mk.injEq] at hne
  rw [fC, f_zero (by omega) (by omega) hne]
  norm_num

theorem peakIf_none {i : Nat} (h1 : i ≠ 3237) (h2 : i ≠ 3241) (h3 : i ≠ 3319) : peakIf 0.001 f 80 80 i = none := by
  unfold peakIf
  rw [if_neg]
  rintro ⟨_, h⟩
  rw [f_zero (by omega) (by omega) (by omega)] at h
  norm_num at h

theorem peaks : peakList 0.001 f 80 80 = [⟨37, 40, 3⟩, ⟨41, 40, 1⟩, ⟨39, 41, 2⟩] := by
  unfold peakList
  have pB : peakIf 0.001 f 80 80 3237 = some ⟨37, 40, 3⟩ := by
    unfold peakIf
    norm_num only
    rw [fB, if_pos ⟨peakB, by norm_num⟩]
  have pA : peakIf 0.001 f 80 80 3241 = some ⟨41, 40, 1⟩ := by
    unfold peakIf
    norm_num only
    rw [fA, if_pos ⟨peakA, by norm_num⟩]
  have pC : peakIf 0.001 f 80 80 3319 = some ⟨39, 41, 2⟩ := by
    unfold peakIf
    norm_num only
    rw [fC, if_pos ⟨peakC, by norm_num⟩]
  rw [filterMap_range'_pick (g := peakIf 0.001 f 80 80) (i := 3237) (by omega) (by omega)
      (fun j _ _ => peakIf_none (by omega) (by omega) (by omega)) pB,
    filterMap_range'_pick (g := peakIf 0.001 f 80 80) (i := 3241) (by omega) (by omega)
      (fun j _ _ => peakIf_none (by omega) (by omega) (by omega)) pA,
    filterMap_range'_pick (g := peakIf 0.001 f 80 80) (i := 3319) (by omega) (by omega)
      (fun j _ _ => peakIf_none (by omega) (by omega) (by omega)) pC]
  rw [List.filterMap_eq_nil_iff.2]
  intro j hj
  rw [List.mem_range'_1] at hj
  exact peakIf_none (by omega) (by omega) (by omega)

theorem not_out (p : Peak) (h1 : 37 ≤ p.x) (h2 : p.x ≤ 42) (h3 : 37 ≤ p.y) (h4 : p.y ≤ 42) :
    isOut (candidate 1.5 level 0 p) = false := by
  rw [isOut_iff (by norm_num [level])]
  have hfl : ⌊level.esigma * 1.5 / 2 ^ level.octave + 1 / 2⌋ = (2 : ℤ) := by
    rw [Int.floor_eq_iff]; norm_num [level]
  rw [hfl]
  have hs : √2 ≤ 1.5 := by
    rw [Real.sqrt_le_left (by norm_num)]; norm_num
  have hs0 : 0 ≤ √2 := Real.sqrt_nonneg 2
  have a1 : (37 : ℝ) ≤ p.x := by exact_mod_cast h1
  have a2 : (p.x : ℝ) ≤ 42 := by exact_mod_cast h2
  have a3 : (37 : ℝ) ≤ p.y := by exact_mod_cast h3
  have a4 : (p.y : ℝ) ≤ 42 := by exact_mod_cast h4
  have hw : (level.ldet.w : ℝ) = 80 := by simp [level, img, Img.ofFn]
  have hh : (level.ldet.h : ℝ) = 80 := by simp [level, img, Img.ofFn]
  unfold InsideBy
  rw [hw, hh]
  push_cast
  norm_num at hs
  refine ⟨?_, ?_, ?_, ?_⟩ <;> linarith

theorem cands : [level].zipIdx.map (levelCandidates 0.001 1.5) =
    [[candidate 1.5 level 0 ⟨37, 40, 3⟩, candidate 1.5 level 0 ⟨41, 40, 1⟩, candidate 1.5 level 0 ⟨39, 41, 2⟩]] := by
  have hpix : peakList 0.001 level.ldet.pix level.ldet.w level.ldet.h = peakList 0.001 f 80 80 := by
    have h1 := peaksOf_eq (threshold := 0.001) (usable level (by simp)).1.shows_pix (usable level (by simp)).2.1
      (usable level (by simp)).2.2
    have h2 := peaksOf_eq (threshold := 0.001) shows_img (by norm_num : 0 < 80) (by norm_num : 2 ≤ 80)
    exact Option.some.inj (h1.symm.trans h2)
  simp only [List.zipIdx_cons, List.zipIdx_nil, List.map_cons, List.map_nil, levelCandidates, hpix, peaks]

theorem sB : stored (candidate 1.5 level 0 ⟨37, 40, 3⟩) = kB := by
  simp [stored, candidate, level, kB]; norm_num
theorem sA : stored (candidate 1.5 level 0 ⟨41, 40, 1⟩) = kA := by
  simp [stored, candidate, level, kA]; norm_num
theorem sC : stored (candidate 1.5 level 0 ⟨39, 41, 2⟩) = kC := by
  simp [stored, candidate, level, kC]; norm_num

theorem farA : tooClose (candidate 1.5 level 0 ⟨41, 40, 1⟩) kB = false := by
  simp [tooClose, candidate, level, kB]; norm_num
theorem closeC : tooClose (candidate 1.5 level 0 ⟨39, 41, 2⟩) kB = true := by
  simp [tooClose, candidate, level, kB]; norm_num

/-- The last peak is close to the first one, which is stronger. -/
theorem result : findExtrema 0.001 1.5 [level] = some [kB, kA] := by
  rw [findExtrema_eq usable, cands]
  have oA := not_out ⟨41, 40, 1⟩ (by simp) (by simp) (by simp) (by simp)
  have oB := not_out ⟨37, 40, 3⟩ (by simp) (by simp) (by simp) (by simp)
  have r : ¬ (candidate 1.5 level 0 ⟨39, 41, 2⟩).k.response > kB.response := by norm_num [candidate, kB]
  have a1 : addCandidate [] (candidate 1.5 level 0 ⟨37, 40, 3⟩) = [kB] := by
    simp [addCandidate, oB, sB]
  have a2 : addCandidate [kB] (candidate 1.5 level 0 ⟨41, 40, 1⟩) = [kB, kA] := by
    simp [addCandidate, oA, sA, List.findIdx?_cons, farA]
  have a3 : addCandidate [kB, kA] (candidate 1.5 level 0 ⟨39, 41, 2⟩) = [kB, kA] := by
    simp [addCandidate, List.findIdx?_cons, closeC, r]
  simp only [List.flatten_cons, List.flatten_nil, List.append_nil, List.foldl_cons, List.foldl_nil, a1, a2, a3]
  simp [filterUpper, kB, kA]

/-- The level is the mirrored one. -/
theorem mirrored : level = mirrorLevel ExDet.level := by
  have : img = mirror ExDet.img := eq_mirror ExDet.shows_img shows_img (fun x y hx hy => by
    unfold ExDet.f f
    have e1 : (80 - 1 - x = 38 ∧ y = 40) ↔ (x = 41 ∧ y = 40) := by omega
    have e2 : (80 - 1 - x = 42 ∧ y = 40) ↔ (x = 37 ∧ y = 40) := by omega
    have e3 : (80 - 1 - x = 40 ∧ y = 41) ↔ (x = 39 ∧ y = 41) := by omega
    simp only [e1, e2, e3]
    split_ifs <;> first | rfl | omega)
  unfold level
  rw [this]
  rfl

end ExMirror

/-- **C98, false for near keypoints, mirrored.** A keypoint of a picture need not be found in the mirrored picture,
although all responses are mirrored. -/
theorem C98_mirrored_survivors_false : ¬ ∀ (levels : List DetLevel) (w : Nat), Usable levels → SizesOk 1.5 levels →
    (∀ l ∈ levels, w = l.ldet.w * 2 ^ l.octave) → ∀ out out', findExtrema 0.001 1.5 levels = some out →
    findExtrema 0.001 1.5 (levels.map mirrorLevel) = some out' → ∀ k ∈ out, k.flip w ∈ out' := by
  intro h
  have h1 := h [ExDet.level] 80 ExDet.usable ExDet.sizesOk (by
    intro l hl
    rw [List.mem_singleton] at hl
    subst hl
    rfl) _ [ExMirror.kB, ExMirror.kA] ExDet.result (by
    rw [List.map_cons, List.map_nil, ← ExMirror.mirrored]
    exact ExMirror.result) ExDet.kC (by simp)
  simp only [List.mem_cons, List.not_mem_nil, or_false] at h1
  rcases h1 with h1 | h1
  · have := congrArg KeyPoint.response h1
    norm_num [KeyPoint.flip, ExDet.kC, ExMirror.kB] at this
  · have := congrArg KeyPoint.response h1
    norm_num [KeyPoint.flip, ExDet.kC, ExMirror.kA] at this

namespace ExTransposed

/-- The three peaks, transposed. -/
noncomputable def f (x y : Nat) : ℝ :=
  if x = 40 ∧ y = 38 then 1 else if x = 41 ∧ y = 40 then 2 else if x = 40 ∧ y = 42 then 3 else 0

noncomputable def img : Img ℝ := Img.ofFn 80 80 f

noncomputable def level : DetLevel := ⟨0, 1.6, transpose ExDet.img, transpose ExDet.img, transpose ExDet.img, img⟩

noncomputable def kA : KeyPoint := ⟨40, 38, 1, 2.4, 0, 0, 0⟩
noncomputable def kC : KeyPoint := ⟨41, 40, 2, 2.4, 0, 0, 0⟩
noncomputable def kB : KeyPoint := ⟨40, 42, 3, 2.4, 0, 0, 0⟩

theorem shows_img : img.Shows 80 80 f := ofFn_shows 80 80 f

theorem usable : Usable [level] := by
  intro l hl
  simp only [List.mem_singleton] at hl
  subst hl
  exact ⟨shows_img.2.2.1, by simp [level, img, Img.ofFn], by simp [level, img, Img.ofFn]⟩

theorem f_zero {x y : Nat} (h1 : ¬ (x = 40 ∧ y = 38)) (h2 : ¬ (x = 41 ∧ y = 40)) (h3 : ¬ (x = 40 ∧ y = 42)) :
    f x y = 0 := by
  unfold f; rw [if_neg h1, if_neg h2, if_neg h3]

theorem fA : f 40 38 = 1 := by simp [f]
theorem fC : f 41 40 = 2 := by simp [f]
theorem fB : f 40 42 = 3 := by simp [f]

theorem peakA : IsPeak f 80 80 40 38 := by
  refine ⟨by omega, by omega, by omega, by omega, fun x y h1 h2 h3 h4 hne => ?_⟩
  simp only [ne_eq, Prod.mk.injEq] at hne
  rw [fA, f_zero hne (by omega) (by omega)]
  norm_num

theorem peakC : IsPeak f 80 80 41 40 := by
  refine ⟨by omega, by omega, by omega, by omega, fun x y h1 h2 h3 h4 hne => ?_⟩
  simp only [ne_eq, Prod.mk.injEq] at hne
  rw [fC, f_zero (by omega) hne (by omega)]
  norm_num

theorem peakB : IsPeak f 80 80 40 42 := by
  refine ⟨by omega, by omega, by omega, by omega, fun x y h1 h2 h3 h4 hne => ?_⟩
  simp only [ne_eq, Prod.mk.injEq] at hne
  rw [fB, f_zero (by omega) (by omega) hne]
  norm_num

theorem peakIf_none {i : Nat} (h1 : i ≠ 3080) (h2 : i ≠ 3241) (h3 : i ≠ 3400) : peakIf 0.001 f 80 80 i = none := by
  unfold peakIf
  rw [if_neg]
  rintro ⟨_, h⟩
  rw [f_zero (by omega) (by omega) (by omega)] at h
  norm_num at h

theorem peaks : peakList 0.001 f 80 80 = [⟨40, 38, 1⟩, ⟨41, 40, 2⟩, ⟨40, 42, 3⟩] := by
  unfold peakList
  have pA : peakIf 0.001 f 80 80 3080 = some ⟨40, 38, 1⟩ := by
    unfold peakIf
    norm_num only
    rw [fA, if_pos ⟨peakA, by norm_num⟩]
  have pC : peakIf 0.001 f 80 80 3241 = some ⟨41, 40, 2⟩ := by
    unfold peakIf
    norm_num only
    rw [fC, if_pos ⟨peakC, by norm_num⟩]
  have pB : peakIf 0.001 f 80 80 3400 = some ⟨40, 42, 3⟩ := by
    unfold peakIf
    norm_num only
    rw [fB, if_pos ⟨peakB, by norm_num⟩]
  rw [filterMap_range'_pick (g := peakIf 0.001 f 80 80) (i := 3080) (by omega) (by omega)
      (fun j _ _ => peakIf_none (by omega) (by omega) (by omega)) pA,
    filterMap_range'_pick (g := peakIf 0.001 f 80 80) (i := 3241) (by omega) (by omega)
      (fun j _ _ => peakIf_none (by omega) (by omega) (by omega)) pC,
    filterMap_range'_pick (g := peakIf 0.001 f 80 80) (i := 3400) (by omega) (by omega)
      (fun j _ _ => peakIf_none (by omega) (by omega) (by omega)) pB]
  rw [List.filterMap_eq_nil_iff.2]
  intro j hj
  rw [List.mem_range'_1] at hj
  exact peakIf_none (by omega) (by omega) (by omega)

theorem not_out (p : Peak) (h1 : 37 ≤ p.x) (h2 : p.x ≤ 42) (h3 : 37 ≤ p.y) (h4 : p.y ≤ 42) :
    isOut (candidate 1.5 level 0 p) = false := by
  rw [isOut_iff (by norm_num [level])]
  have hfl : ⌊level.esigma * 1.5 / 2 ^ level.octave + 1 / 2⌋ = (2 : ℤ) := by
    rw [Int.floor_eq_iff]; norm_num [level]
  rw [hfl]
  have hs : √2 ≤ 1.5 := by
    rw [Real.sqrt_le_left (by norm_num)]; norm_num
  have hs0 : 0 ≤ √2 := Real.sqrt_nonneg 2
  have a1 : (37 : ℝ) ≤ p.x := by exact_mod_cast h1
  have a2 : (p.x : ℝ) ≤ 42 := by exact_mod_cast h2
  have a3 : (37 : ℝ) ≤ p.y := by exact_mod_cast h3
  have a4 : (p.y : ℝ) ≤ 42 := by exact_mod_cast h4
  have hw : (level.ldet.w : ℝ) = 80 := by simp [level, img, Img.ofFn]
  have hh : (level.ldet.h : ℝ) = 80 := by simp [level, img, Img.ofFn]
  unfold InsideBy
  rw [hw, hh]
  push_cast
  norm_num at hs
  refine ⟨?_, ?_, ?_, ?_⟩ <;> linarith

theorem cands : [level].zipIdx.map (levelCandidates 0.001 1.5) =
    [[candidate 1.5 level 0 ⟨40, 38, 1⟩, candidate 1.5 level 0 ⟨41, 40, 2⟩, candidate 1.5 level 0 ⟨40, 42, 3⟩]] := by
  have hpix : peakList 0.001 level.ldet.pix level.ldet.w level.ldet.h = peakList 0.001 f 80 80 := by
    have h1 := peaksOf_eq (threshold := 0.001) (usable level (by simp)).1.shows_pix (usable level (by simp)).2.1
      (usable level (by simp)).2.2
    have h2 := peaksOf_eq (threshold := 0.001) shows_img (by norm_num : 0 < 80) (by norm_num : 2 ≤ 80)
    exact Option.some.inj (h1.symm.trans h2)
  simp only [List.zipIdx_cons, List.zipIdx_nil, List.map_cons, List.map_nil, levelCandidates, hpix, peaks]

theorem sA : stored (candidate 1.5 level 0 ⟨40, 38, 1⟩) = kA := by
  simp [stored, candidate, level, kA]; norm_num
theorem sC : stored (candidate 1.5 level 0 ⟨41, 40, 2⟩) = kC := by
  simp [stored, candidate, level, kC]; norm_num
theorem sB : stored (candidate 1.5 level 0 ⟨40, 42, 3⟩) = kB := by
  simp [stored, candidate, level, kB]; norm_num

theorem closeCA : tooClose (candidate 1.5 level 0 ⟨41, 40, 2⟩) kA = true := by
  simp [tooClose, candidate, level, kA]; norm_num
theorem closeBC : tooClose (candidate 1.5 level 0 ⟨40, 42, 3⟩) kC = true := by
  simp [tooClose, candidate, level, kC]; norm_num

/-- Each peak replaces the one before. -/
theorem result : findExtrema 0.001 1.5 [level] = some [kB] := by
  rw [findExtrema_eq usable, cands]
  have oA := not_out ⟨40, 38, 1⟩ (by simp) (by simp) (by simp) (by simp)
  have oB := not_out ⟨40, 42, 3⟩ (by simp) (by simp) (by simp) (by simp)
  have oC := not_out ⟨41, 40, 2⟩ (by simp) (by simp) (by simp) (by simp)
  have r : (candidate 1.5 level 0 ⟨41, 40, 2⟩).k.response > kA.response := by norm_num [candidate, kA]
  have r' : (candidate 1.5 level 0 ⟨40, 42, 3⟩).k.response > kC.response := by norm_num [candidate, kC]
  have a1 : addCandidate [] (candidate 1.5 level 0 ⟨40, 38, 1⟩) = [kA] := by
    simp [addCandidate, oA, sA]
  have a2 : addCandidate [kA] (candidate 1.5 level 0 ⟨41, 40, 2⟩) = [kC] := by
    simp [addCandidate, oC, sC, List.findIdx?_cons, closeCA, r]
  have a3 : addCandidate [kC] (candidate 1.5 level 0 ⟨40, 42, 3⟩) = [kB] := by
    simp [addCandidate, oB, sB, List.findIdx?_cons, closeBC, r']
  simp only [List.flatten_cons, List.flatten_nil, List.append_nil, List.foldl_cons, List.foldl_nil, a1, a2, a3]
  simp [filterUpper]

/-- The level is the transposed one. -/
theorem transposed : TransposedLevels 0 ExDet.level level where
  octave := rfl
  esigma := rfl
  lt := rfl
  lx := rfl
  ly := rfl
  width := rfl
  height := rfl
  ldet x y _ hx _ hy := by
    have h1 := shows_img.2.2.2 y x hy hx
    have h2 := ExDet.shows_img.2.2.2 x y hx hy
    show img.get y x = ExDet.img.get x y
    rw [h1, h2]
    unfold ExDet.f f
    have e1 : (y = 40 ∧ x = 38) ↔ (x = 38 ∧ y = 40) := and_comm
    have e2 : (y = 40 ∧ x = 42) ↔ (x = 42 ∧ y = 40) := and_comm
    have e3 : (y = 41 ∧ x = 40) ↔ (x = 40 ∧ y = 41) := and_comm
    simp only [e1, e2, e3]
    congr 1
    split_ifs <;> first | rfl | omega

end ExTransposed

/-- **C98, false for near keypoints, transposed.** A keypoint of a picture need not be found in the transposed picture,
although all responses are transposed; not even the number of keypoints is the same. -/
theorem C98_transposed_survivors_false : ¬ ∀ (levels levels' : List DetLevel), List.Forall₂ (TransposedLevels 0) levels levels' →
    Usable levels → SizesOk 1.5 levels → ∀ out out', findExtrema 0.001 1.5 levels = some out →
    findExtrema 0.001 1.5 levels' = some out' → (∀ k ∈ out, k.swap ∈ out') ∨ out.length = out'.length := by
  intro h
  rcases h [ExDet.level] [ExTransposed.level] (.cons ExTransposed.transposed .nil) ExDet.usable ExDet.sizesOk _ _
    ExDet.result ExTransposed.result with h1 | h1
  · have h2 := h1 ExDet.kC (by simp)
    simp only [List.mem_cons, List.not_mem_nil, or_false] at h2
    have := congrArg KeyPoint.response h2
    norm_num [KeyPoint.swap, ExDet.kC, ExTransposed.kB] at this
  · simp at h1

end Verif.Akaze
