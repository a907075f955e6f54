import Verif.Props.Detect
import Mathlib.Tactic.IntervalCases

/-!
# Close keypoints that are both kept (C30), and an example for C29
-/

namespace Verif.Akaze

theorem filterMap_range'_pick {α : Type _} {g : Nat → Option α} {a n i : Nat} {v : α} (h1 : a ≤ i) (h2 : i < a + n)
    (hn : ∀ j, a ≤ j → j < i → g j = none) (hv : g i = some v) :
    (List.range' a n).filterMap g = v :: (List.range' (i + 1) (a + n - (i + 1))).filterMap g := by
  have e : List.range' a n = List.range' a (i - a) ++ i :: List.range' (i + 1) (a + n - (i + 1)) := by
    have h3 := @List.range'_append a (i - a) (n - (i - a)) 1
    rw [one_mul, show a + (i - a) = i by omega, show i - a + (n - (i - a)) = n by omega] at h3
    rw [← h3, show n - (i - a) = (a + n - (i + 1)) + 1 by omega, List.range'_succ]
  rw [e, List.filterMap_append, List.filterMap_cons_some hv]
  rw [List.filterMap_eq_nil_iff.2, List.nil_append]
  intro j hj
  rw [List.mem_range'_1] at hj
  exact hn j hj.1 (by omega)

namespace ExDet

/-- Three peaks, the last of which is close to the other two. -/
noncomputable def f (x y : Nat) : ℝ :=
  if x = 38 ∧ y = 40 then 1 else if x = 42 ∧ y = 40 then 3 else if x = 40 ∧ y = 41 then 2 else 0

noncomputable def img : Img ℝ := Img.ofFn 80 80 f

/-- The first level of the default settings. -/
noncomputable def level : DetLevel := ⟨0, 1.6, img, img, img, img⟩

noncomputable def kA : KeyPoint := ⟨38, 40, 1, 2.4, 0, 0, 0⟩
noncomputable def kB : KeyPoint := ⟨42, 40, 3, 2.4, 0, 0, 0⟩
noncomputable def kC : KeyPoint := ⟨40, 41, 2, 2.4, 0, 0, 0⟩

theorem shows_img : img.Shows 80 80 f := ofFn_shows 80 80 f

theorem usable : Usable [level] := by
  intro l hl
  simp only [List.mem_singleton] at hl
  subst hl
  exact ⟨shows_img.2.2.1, by simp [level, img, Img.ofFn], by simp [level, img, Img.ofFn]⟩

theorem sizesOk : SizesOk 1.5 [level] := by
  intro l hl
  simp only [List.mem_singleton] at hl
  subst hl
  norm_num [level]

theorem f_zero {x y : Nat} (h1 : ¬ (x = 38 ∧ y = 40)) (h2 : ¬ (x = 42 ∧ y = 40)) (h3 : ¬ (x = 40 ∧ y = 41)) :
    f x y = 0 := by
  unfold f; rw [if_neg h1, if_neg h2, if_neg h3]

theorem fA : f 38 40 = 1 := by simp [f]
theorem fB : f 42 40 = 3 := by simp [f]
theorem fC : f 40 41 = 2 := by simp [f]

theorem peakA : IsPeak f 80 80 38 40 := by
  refine ⟨by omega, by omega, by omega, by omega, fun x y h1 h2 h3 h4 hne => ?_⟩
  simp only [ne_eq, Prod.mk.injEq] at hne
  rw [fA, f_zero hne (by omega) (by omega)]
  norm_num

theorem peakB : IsPeak f 80 80 42 40 := by
  refine ⟨by omega, by omega, by omega, by omega, fun x y h1 h2 h3 h4 hne => ?_⟩
  simp only [ne_eq, Prod.mk.injEq] at hne
  rw [fB, f_zero (by omega) hne (by omega)]
  norm_num

theorem peakC : IsPeak f 80 80 40 41 := by
  refine ⟨by omega, by omega, by omega, by omega, fun x y h1 h2 h3 h4 hne => ?_⟩
  simp only [ne_eq, Prod.mk.injEq] at hne
  rw [fC, f_zero (by omega) (by omega) hne]
  norm_num

theorem peakIf_none {i : Nat} (h1 : i ≠ 3238) (h2 : i ≠ 3242) (h3 : i ≠ 3320) : peakIf 0.001 f 80 80 i = none := by
  unfold peakIf
  rw [if_neg]
  rintro ⟨_, h⟩
  rw [f_zero (by omega) (by omega) (by omega)] at h
  norm_num at h

theorem peaks : peakList 0.001 f 80 80 = [⟨38, 40, 1⟩, ⟨42, 40, 3⟩, ⟨40, 41, 2⟩] := by
  unfold peakList
  have pA : peakIf 0.001 f 80 80 3238 = some ⟨38, 40, 1⟩ := by
    unfold peakIf
    norm_num only
    rw [fA, if_pos ⟨peakA, by norm_num⟩]
  have pB : peakIf 0.001 f 80 80 3242 = some ⟨42, 40, 3⟩ := by
    unfold peakIf
    norm_num only
    rw [fB, if_pos ⟨peakB, by norm_num⟩]
  have pC : peakIf 0.001 f 80 80 3320 = some ⟨40, 41, 2⟩ := by
    unfold peakIf
    norm_num only
    rw [fC, if_pos ⟨peakC, by norm_num⟩]
  rw [filterMap_range'_pick (g := peakIf 0.001 f 80 80) (i := 3238) (by omega) (by omega) (fun j _ _ => peakIf_none (by omega) (by omega) (by omega)) pA,
    filterMap_range'_pick (g := peakIf 0.001 f 80 80) (i := 3242) (by omega) (by omega) (fun j _ _ => peakIf_none (by omega) (by omega) (by omega)) pB,
    filterMap_range'_pick (g := peakIf 0.001 f 80 80) (i := 3320) (by omega) (by omega) (fun j _ _ => peakIf_none (by omega) (by omega) (by omega)) pC]
  rw [List.filterMap_eq_nil_iff.2]
  intro j hj
  rw [List.mem_range'_1] at hj
  exact peakIf_none (by omega) (by omega) (by omega)

theorem not_out (p : Peak) (h1 : 38 ≤ p.x) (h2 : p.x ≤ 42) (h3 : 38 ≤ p.y) (h4 : p.y ≤ 42) :
    isOut (candidate 1.5 level 0 p) = false := by
  rw [isOut_iff (by norm_num [level])]
  have hfl : ⌊level.esigma * 1.5 / 2 ^ level.octave + 1 / 2⌋ = (2 : ℤ) := by
    rw [Int.floor_eq_iff]; norm_num [level]
  rw [hfl]
  have hs : √2 ≤ 1.5 := by
    rw [Real.sqrt_le_left (by norm_num)]; norm_num
  have hs0 : 0 ≤ √2 := Real.sqrt_nonneg 2
  have a1 : (38 : ℝ) ≤ p.x := by exact_mod_cast h1
  have a2 : (p.x : ℝ) ≤ 42 := by exact_mod_cast h2
  have a3 : (38 : ℝ) ≤ p.y := by exact_mod_cast h3
  have a4 : (p.y : ℝ) ≤ 42 := by exact_mod_cast h4
  have hw : (level.ldet.w : ℝ) = 80 := by simp [level, img, Img.ofFn]
  have hh : (level.ldet.h : ℝ) = 80 := by simp [level, img, Img.ofFn]
  unfold InsideBy
  rw [hw, hh]
  push_cast
  norm_num at hs
  refine ⟨?_, ?_, ?_, ?_⟩ <;> linarith

theorem cands : [level].zipIdx.map (levelCandidates 0.001 1.5) =
    [[candidate 1.5 level 0 ⟨38, 40, 1⟩, candidate 1.5 level 0 ⟨42, 40, 3⟩, candidate 1.5 level 0 ⟨40, 41, 2⟩]] := by
  have hpix : peakList 0.001 level.ldet.pix level.ldet.w level.ldet.h = peakList 0.001 f 80 80 := by
    have h1 := peaksOf_eq (threshold := 0.001) (usable level (by simp)).1.shows_pix (usable level (by simp)).2.1
      (usable level (by simp)).2.2
    have h2 := peaksOf_eq (threshold := 0.001) shows_img (by norm_num : 0 < 80) (by norm_num : 2 ≤ 80)
    exact Option.some.inj (h1.symm.trans h2)
  simp only [List.zipIdx_cons, List.zipIdx_nil, List.map_cons, List.map_nil, levelCandidates, hpix, peaks]

theorem sA : stored (candidate 1.5 level 0 ⟨38, 40, 1⟩) = kA := by
  simp [stored, candidate, level, kA]; norm_num
theorem sB : stored (candidate 1.5 level 0 ⟨42, 40, 3⟩) = kB := by
  simp [stored, candidate, level, kB]; norm_num
theorem sC : stored (candidate 1.5 level 0 ⟨40, 41, 2⟩) = kC := by
  simp [stored, candidate, level, kC]; norm_num

theorem farAB : tooClose (candidate 1.5 level 0 ⟨42, 40, 3⟩) kA = false := by
  simp [tooClose, candidate, level, kA]; norm_num
theorem closeCA : tooClose (candidate 1.5 level 0 ⟨40, 41, 2⟩) kA = true := by
  simp [tooClose, candidate, level, kA]; norm_num

/-- The last peak replaces the first one, although it is close to the second, which is stronger. -/
theorem result : findExtrema 0.001 1.5 [level] = some [kC, kB] := by
  rw [findExtrema_eq usable, cands]
  have oA := not_out ⟨38, 40, 1⟩ (by simp) (by simp) (by simp) (by simp)
  have oB := not_out ⟨42, 40, 3⟩ (by simp) (by simp) (by simp) (by simp)
  have oC := not_out ⟨40, 41, 2⟩ (by simp) (by simp) (by simp) (by simp)
  have r : (candidate 1.5 level 0 ⟨40, 41, 2⟩).k.response > kA.response := by norm_num [candidate, kA]
  have a1 : addCandidate [] (candidate 1.5 level 0 ⟨38, 40, 1⟩) = [kA] := by
    simp [addCandidate, oA, sA]
  have a2 : addCandidate [kA] (candidate 1.5 level 0 ⟨42, 40, 3⟩) = [kA, kB] := by
    simp [addCandidate, oB, sB, List.findIdx?_cons, farAB]
  have a3 : addCandidate [kA, kB] (candidate 1.5 level 0 ⟨40, 41, 2⟩) = [kC, kB] := by
    simp [addCandidate, oC, sC, List.findIdx?_cons, closeCA, r]
  simp only [List.flatten_cons, List.flatten_nil, List.append_nil, List.foldl_cons, List.foldl_nil, a1, a2, a3]
  simp [filterUpper, kB, kC]

end ExDet

open ExDet in
/-- **C30** is false: with the default settings two keypoints of the same level are found closer to each other than
their size. -/
theorem C30_false : ¬ ∀ (levels : List DetLevel), Usable levels → SizesOk 1.5 levels → ∀ out,
    findExtrema 0.001 1.5 levels = some out → ∀ k ∈ out, ∀ p ∈ out, k.response < p.response →
      k.classId = p.classId → ¬ placeSqDist k p ≤ (max k.size p.size) ^ 2 := by
  intro h
  refine h [level] usable sizesOk _ result kC (by simp) kB (by simp) (by norm_num [kB, kC]) rfl ?_
  norm_num [placeSqDist, kB, kC]

open ExDet in
theorem ExDet.foundB : FoundAt 0.001 1.5 [level] kB level 42 40 := by
  have := (C29_sound usable sizesOk result).1 kB (by simp)
  obtain ⟨⟨l, x, y, h⟩, _⟩ := this
  have hl : l = level := by have := h.level; simp [kB] at this; exact this.symm
  subst hl
  have hx := h.atX
  have hy := h.atY
  simp only [level, kB, pow_zero, mul_one, sub_self, zero_div, add_zero] at hx hy
  have hx' : x = 42 := by exact_mod_cast hx.symm
  have hy' : y = 40 := by exact_mod_cast hy.symm
  subst hx' hy'
  exact h

open ExDet in
/-- The stronger one of the two meets the conditions for being found. -/
example : FoundAt 0.001 1.5 [level] kB level 42 40 ∧ ∃ out, findExtrema 0.001 1.5 [level] = some out ∧ kB ∈ out ∧
    kC ∈ out :=
  ⟨foundB, _, result, by simp, by simp⟩

open ExDet in
theorem ExDet.strongestB : ∀ p l x y, FoundAt 0.001 1.5 [level] p l x y → p ≠ kB → p.response < kB.response := by
  intro p l x y h hne
  have hc : p.classId = 0 := by
    have := h.level
    by_contra hc
    rw [List.getElem?_eq_none (by simp; omega)] at this
    cases this
  have hl : l = level := by have := h.level; rw [hc] at this; simpa using this.symm
  subst hl
  obtain ⟨f', hf', hp, ht, hr⟩ := h.peak
  have hw : level.ldet.w = 80 := rfl
  have hh : level.ldet.h = 80 := rfl
  obtain ⟨_, h1, _, h2, _⟩ := hp
  have hv : f' x y = f x y := Option.some.inj ((hf'.2.2.2 x y (by omega) (by omega)).symm.trans
    (shows_img.2.2.2 x y (by omega) (by omega)))
  rw [hr, hv]
  by_cases hB : x = 42 ∧ y = 40
  · exfalso
    apply hne
    obtain ⟨rfl, rfl⟩ := hB
    obtain ⟨kx, ky, kr, ks, ko, kc, ka⟩ := p
    have a1 := h.atX
    have a2 := h.atY
    have a3 := h.octave
    have a4 := h.size
    have a5 := h.angle
    simp only [level] at a1 a2 a3 a4 a5 hr hc
    rw [hv, fB] at hr
    simp only [kB, KeyPoint.mk.injEq]
    refine ⟨by rw [a1]; norm_num, by rw [a2]; norm_num, by rw [hr]; norm_num, by rw [a4]; norm_num, a3, hc, a5⟩
  · unfold f kB
    split_ifs <;> norm_num

open ExDet in
/-- It is stronger than all other peaks, as `C30_strongest_partial` asks for. -/
example : ∀ p l x y, FoundAt 0.001 1.5 [level] p l x y → p ≠ kB → p.response < kB.response := strongestB

end Verif.Akaze
