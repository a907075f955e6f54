import Verif.Lemmas.FloatDetectExact

/-!
# Place, orientation and descriptors without rounding
-/

namespace Verif.Akaze

open Verif.Bicubic (Flt)
open FloatOps

namespace Unrounded

/-! ### Orientation -/

theorem gauss25_num : (fgauss25 : List (List Unrounded)) = gauss25.map (List.map num) := by
  simp only [fgauss25, gauss25, List.map_cons, List.map_nil, num_lit]
  norm_num

theorem gweight_num {i j : ℤ} {g : ℝ} (h : gweight i j = some g) : fgweight i j = some (num g) := by
  obtain ⟨row, hr, h⟩ := Option.bind_eq_some_iff.1 h
  rw [fgweight, gauss25_num, List.getElem?_map, hr]
  show (row.map num)[i.natAbs]? = _
  exact data_some h

theorem fastAtan2_num (y x : ℝ) : ffastAtan2 (num y) (num x) = num (fastAtan2 y x) := by
  rw [ffastAtan2, fastAtan2, num_atan2, num_two, num_pi, num_mul, num_add, num_rem]

theorem toNat_eq {z : ℤ} {n : Nat} (h : z.toNat < n) (hn : n < 2 ^ 64) : toNat (num (z : ℝ)) = z.toNat := by
  rw [num_toNat_int]; omega

theorem get_lt {K : Type} {i : Img K} {x y : Nat} {v : K} (h : i.get x y = some v) : x < i.w ∧ y < i.h := by
  unfold Img.get at h
  split at h
  · assumption
  · cases h

/-- The sizes of the images of a level fit 64 bits. -/
def Fits (l : DetLevel) : Prop := l.lx.w < 2 ^ 64 ∧ l.lx.h < 2 ^ 64 ∧ l.ldet.w < 2 ^ 64 ∧ l.ldet.h < 2 ^ 64

theorem gradientSample_num {l : DetLevel} (hl : Fits l) {xf yf s : ℝ} {p : ℤ × ℤ} {r : ℝ × ℝ}
    (h : gradientSample l xf yf s p = some r) :
    fgradientSample (numDet l) (num xf) (num yf) (num s) p = some (num r.1, num r.2) := by
  obtain ⟨g, hg, h⟩ := Option.bind_eq_some_iff.1 h
  obtain ⟨rx, hx, h⟩ := Option.bind_eq_some_iff.1 h
  obtain ⟨ry, hy, h⟩ := Option.bind_eq_some_iff.1 h
  cases h
  have hb := get_lt hx
  simp only [fgradientSample, num_ofInt, num_mul, num_add, num_round]
  rw [toNat_eq hb.1 hl.1, toNat_eq hb.2 hl.2.1, gweight_num hg]
  show ((l.lx.map num).get _ _).bind (fun rx => ((l.ly.map num).get _ _).bind _) = _
  rw [Transfer.get_some hx, Option.bind_some, Transfer.get_some hy, Option.bind_some, num_mul, num_mul]
  rfl

theorem inWindow_num (a b : ℝ) : finWindow (num a) (num b) = inWindow a b := by
  rw [Bool.eq_iff_iff]
  have h5 : num a - 5 * pi / 3 = num (a - 5 * Real.pi / 3) := by
    rw [num_five, num_pi, num_three, num_mul, num_div (by norm_num), num_sub]
  have h3 : num a + pi / 3 = num (a + Real.pi / 3) := by
    rw [num_pi, num_three, num_div (by norm_num), num_add]
  have h2 : (2 * pi : Unrounded) = num (2 * Real.pi) := by rw [num_two, num_pi, num_mul]
  have hi : (if lt (2 * pi) (num a + pi / 3) = true then num a - 5 * pi / 3 else num a + pi / 3)
      = num (if a + Real.pi / 3 > 2 * Real.pi then a - 5 * Real.pi / 3 else a + Real.pi / 3) := by
    rw [h5, h3, h2]
    by_cases c : a + Real.pi / 3 > 2 * Real.pi
    · rw [if_pos c, if_pos ((num_lt _ _).2 c)]
    · rw [if_neg c, if_neg (fun h => c ((num_lt _ _).1 h))]
  simp only [finWindow, inWindow, hi]
  generalize (if a + Real.pi / 3 > 2 * Real.pi then a - 5 * Real.pi / 3 else a + Real.pi / 3) = c
  rw [h2, num_zero]
  simp only [Bool.or_eq_true, Bool.and_eq_true, num_lt, decide_eq_true_eq, gt_iff_lt, and_assoc]

/-- A pair of unrounded numbers. -/
def num2 (p : ℝ × ℝ) : Unrounded × Unrounded := (num p.1, num p.2)

theorem windowSum_num (a : ℝ) : ∀ (samples : List (ℝ × ℝ)) (s : ℝ × ℝ),
    (samples.map num2).foldl (fun s r => if finWindow (num a) (ffastAtan2 r.2 r.1) then (s.1 + r.1, s.2 + r.2) else s) (num2 s)
      = num2 (samples.foldl (fun s r => if inWindow a (fastAtan2 r.2 r.1) then (s.1 + r.1, s.2 + r.2) else s) s)
  | [], _ => rfl
  | r :: samples, s => by
    rw [List.map_cons, List.foldl_cons, List.foldl_cons, ← windowSum_num a samples]
    congr 1
    show (if finWindow (num a) (ffastAtan2 (num r.2) (num r.1)) = true then _ else _) = _
    rw [fastAtan2_num, inWindow_num]
    split <;> rfl

/-- scale_space_extrema.rs 259-287: one round of the loop over the windows. -/
noncomputable def round1 (samples : List (ℝ × ℝ)) (b : ℝ × ℝ) (ang1 : ℝ) : ℝ × ℝ :=
  let s := windowSum samples ang1
  let val := s.1 * s.1 + s.2 * s.2
  if val > b.1 then (val, fastAtan2 s.2 s.1) else b

theorem windows_le : ⌈2 * Real.pi / 0.15⌉₊ ≤ 64 := by
  rw [Nat.ceil_le, div_le_iff₀ (by norm_num)]
  have := Real.pi_lt_d2
  norm_num at this ⊢
  linarith

theorem windowLoop_num (samples : List (ℝ × ℝ)) : ∀ (m k fuel : Nat) (b : ℝ × ℝ), k + m = ⌈2 * Real.pi / 0.15⌉₊ → m ≤ fuel →
    fwindowLoop (samples.map num2) fuel (num (k * 0.15)) (num2 b)
      = some (num (((List.range' k m).map (fun i : Nat => (i : ℝ) * 0.15)).foldl (round1 samples) b).2) := by
  have h2 : (2 * pi : Unrounded) = num (2 * Real.pi) := by rw [num_two, num_pi, num_mul]
  have hl : (lit (15 / 100) : Unrounded) = num 0.15 := by rw [num_lit]; norm_num
  intro m
  induction m with
  | zero =>
    intro k fuel b hk _
    have : ¬ lt (num (k * 0.15)) (2 * pi) = true := by
      rw [h2, num_lt, not_lt]
      have := Nat.ceil_le.1 (show ⌈2 * Real.pi / 0.15⌉₊ ≤ k by omega)
      rwa [div_le_iff₀ (by norm_num)] at this
    rw [fwindowLoop.eq_def]
    simp only [this, Bool.false_eq_true, if_false]
    rfl
  | succ m ih =>
    intro k fuel b hk hf
    have : lt (num (k * 0.15)) (2 * pi) = true := by
      rw [h2, num_lt]
      have := Nat.lt_ceil.1 (show k < ⌈2 * Real.pi / 0.15⌉₊ by omega)
      rwa [lt_div_iff₀ (by norm_num)] at this
    obtain ⟨fuel, rfl⟩ : ∃ f, fuel = f + 1 := ⟨fuel - 1, by omega⟩
    have hs : fwindowSum (samples.map num2) (num (k * 0.15)) = num2 (windowSum samples (k * 0.15)) := by
      have := windowSum_num (k * 0.15) samples (0, 0)
      exact this
    have hb : (if lt (num2 b).1 ((num2 (windowSum samples (k * 0.15))).1 * (num2 (windowSum samples (k * 0.15))).1
        + (num2 (windowSum samples (k * 0.15))).2 * (num2 (windowSum samples (k * 0.15))).2) = true then
          ((num2 (windowSum samples (k * 0.15))).1 * (num2 (windowSum samples (k * 0.15))).1
        + (num2 (windowSum samples (k * 0.15))).2 * (num2 (windowSum samples (k * 0.15))).2,
          ffastAtan2 (num2 (windowSum samples (k * 0.15))).2 (num2 (windowSum samples (k * 0.15))).1) else num2 b)
        = num2 (round1 samples b (k * 0.15)) := by
      simp only [num2, num_mul, num_add, fastAtan2_num, num_lt, round1, gt_iff_lt]
      split <;> rfl
    have hk1 : num ((k : ℝ) * 0.15) + lit (15 / 100) = num (((k + 1 : Nat) : ℝ) * 0.15) := by
      rw [hl, num_add]; push_cast; ring_nf
    rw [fwindowLoop, if_pos this]
    simp only
    rw [hs, hb, hk1, ih (k + 1) fuel _ (by omega) (by omega), List.range'_succ, List.map_cons, List.foldl_cons]

theorem bestAngle_num (samples : List (ℝ × ℝ)) (angle : ℝ) :
    fwindowLoop (samples.map num2) 64 0 (0, num angle) = some (num (bestAngle samples angle).2) := by
  have := windowLoop_num samples ⌈2 * Real.pi / 0.15⌉₊ 0 64 (0, angle) (by omega) windows_le
  rw [Nat.cast_zero, zero_mul, ← List.range_eq_range'] at this
  exact this

theorem mainOrientation_num {levels : List DetLevel} (hl : ∀ l ∈ levels, Fits l) {k k' : KeyPoint}
    (h : mainOrientation levels k = some k') :
    fmainOrientation (levels.map numDet) (numKey k) = some (numKey k') := by
  obtain ⟨l, h1, h⟩ := Option.bind_eq_some_iff.1 h
  obtain ⟨samples, h2, h⟩ := Option.bind_eq_some_iff.1 h
  cases h
  have hp : (2 : ℝ) ^ l.octave ≠ 0 := by positivity
  have hs := Transfer.mapM_some_map (φ := num2) h2 (fun p _ r hr =>
    gradientSample_num (hl l (List.mem_of_getElem? h1)) hr)
  have h1' : (levels.map numDet)[(numKey k).classId]? = some (numDet l) := by
    show (levels.map numDet)[k.classId]? = _
    rw [List.getElem?_map, h1]; rfl
  have ho : (((2 ^ (numDet l).octave : Nat) : Nat) : Unrounded) = num (2 ^ l.octave) := num_natPow _
  have hsz : round (lit (1 / 2) * (numKey k).size / num (2 ^ l.octave)) = num (roundAway (1 / 2 * k.size / 2 ^ l.octave)) := by
    show round (lit (1 / 2) * num k.size / num (2 ^ l.octave)) = _
    rw [lit_half, num_mul, num_div hp, num_round]
  have hx : (numKey k).x / num (2 ^ l.octave) = num (k.x / 2 ^ l.octave) := num_div hp
  have hy : (numKey k).y / num (2 ^ l.octave) = num (k.y / 2 ^ l.octave) := num_div hp
  simp only [fmainOrientation, h1', Option.bind_eq_bind, Option.bind_some]
  rw [ho, hsz, hx, hy, hs, Option.bind_some]
  show (fwindowLoop (samples.map num2) 64 0 (0, num k.angle)).bind _ = _
  rw [bestAngle_num]
  rfl

/-! ### The step to the stationary point -/

/-- Neither of the values is a number. -/
def NoNum (v : Unrounded) : Prop := ∀ x, v ≠ num x

theorem noNum_inv : NoNum (1 / num 0) := by
  intro x h
  have : ∃ s, (1 / num 0 : Unrounded) = Flt.inf s := ieee.div_zero 1 (num 0) 1 rfl rfl one_ne_zero
  obtain ⟨s, hs⟩ := this
  rw [hs] at h
  cases h

theorem noNum_mul {v : Unrounded} (h : NoNum v) (x : ℝ) : NoNum (v * num x) := by
  intro y hy
  change Flt.mul v (Flt.num x) = Flt.num y at hy
  rcases v with _ | s | z
  · cases hy
  · simp only [Flt.mul] at hy
    split at hy <;> cases hy
  · exact h z rfl

theorem noNum_mul' {v : Unrounded} (h : NoNum v) (x : ℝ) : NoNum (num x * v) := by
  intro y hy
  change Flt.mul (Flt.num x) v = Flt.num y at hy
  rcases v with _ | s | z
  · cases hy
  · simp only [Flt.mul] at hy
    split at hy <;> cases hy
  · exact h z rfl

theorem noNum_add {v w : Unrounded} (h : NoNum v) (h' : NoNum w) : NoNum (v + w) := by
  intro y hy
  change Flt.add v w = Flt.num y at hy
  rcases v with _ | s | z
  · cases hy
  · rcases w with _ | t | z
    · cases hy
    · simp only [Flt.add] at hy
      split at hy <;> cases hy
    · exact h' z rfl
  · exact h z rfl

theorem noNum_le {v : Unrounded} (h : NoNum v) : ¬ le (abs v) 1 = true := by
  intro hc
  rcases v with _ | s | z
  · have := (ieee.le _ _).1 hc
    exact this
  · have := (ieee.le _ _).1 hc
    exact this
  · exact h z rfl

theorem newtonStep_num (xi xp xm yp ym a b c d : ℝ) :
    match newtonStep xi xp xm yp ym a b c d with
    | none => ¬ (le (abs (fnewtonStep (num xi) (num xp) (num xm) (num yp) (num ym) (num a) (num b) (num c) (num d)).1) 1 &&
        le (abs (fnewtonStep (num xi) (num xp) (num xm) (num yp) (num ym) (num a) (num b) (num c) (num d)).2) 1) = true
    | some s => fnewtonStep (num xi) (num xp) (num xm) (num yp) (num ym) (num a) (num b) (num c) (num d) = num2 s ∧
        (le (abs (num2 s).1) 1 && le (abs (num2 s).2) 1) = true := by
  have e : fnewtonStep (num xi) (num xp) (num xm) (num yp) (num ym) (num a) (num b) (num c) (num d) =
      (let dx := 1 / 2 * (xp - xm)
       let dy := 1 / 2 * (yp - ym)
       let dxx := xp + xm - 2 * xi
       let dyy := yp + ym - 2 * xi
       let dxy := 1 / 4 * (a + d) - 1 / 4 * (b + c)
       let inv := 1 / num (dxx * dyy - dxy * dxy)
       (num (-dx) * (inv * num dyy) + num (-dy) * (inv * num (-dxy)), num (-dx) * (inv * num (-dxy)) + num (-dy) * (inv * num dxx))) := by
    simp only [fnewtonStep, lit_half, lit_quarter, num_two, num_sub, num_add, num_mul, num_neg]
  rw [e]
  simp only [newtonStep]
  generalize 1 / 2 * (xp - xm) = dx
  generalize 1 / 2 * (yp - ym) = dy
  generalize xp + xm - 2 * xi = dxx
  generalize yp + ym - 2 * xi = dyy
  generalize 1 / 4 * (a + d) - 1 / 4 * (b + c) = dxy
  by_cases h0 : dxx * dyy - dxy * dxy = 0
  · rw [if_pos h0]
    simp only [h0, Bool.and_eq_true]
    exact fun hc => noNum_le (noNum_add (noNum_mul' (noNum_mul noNum_inv _) _) (noNum_mul' (noNum_mul noNum_inv _) _)) hc.1
  · rw [if_neg h0]
    simp only [num_one, num_div h0, num_mul, num_add]
    generalize -dx * (1 / (dxx * dyy - dxy * dxy) * dyy) + -dy * (1 / (dxx * dyy - dxy * dxy) * -dxy) = u
    generalize -dx * (1 / (dxx * dyy - dxy * dxy) * -dxy) + -dy * (1 / (dxx * dyy - dxy * dxy) * dxx) = v
    by_cases hc : |u| ≤ 1 ∧ |v| ≤ 1
    · rw [if_pos hc]
      refine ⟨rfl, ?_⟩
      simp only [num2, num_abs, Bool.and_eq_true, num_le]
      exact hc
    · rw [if_neg hc]
      simp only [num_abs, Bool.and_eq_true, num_le]
      exact hc

theorem refineKeypoint_num {levels : List DetLevel} (hl : ∀ l ∈ levels, Fits l) {k : KeyPoint} {r : Option KeyPoint}
    (h : refineKeypoint levels k = some r) :
    frefineKeypoint (levels.map numDet) (numKey k) = some (r.map numKey) := by
  obtain ⟨l, h1, h⟩ := Option.bind_eq_some_iff.1 h
  have hp : (2 : ℝ) ^ k.octave ≠ 0 := by positivity
  have h1' : (levels.map numDet)[(numKey k).classId]? = some (numDet l) := by
    show (levels.map numDet)[k.classId]? = _
    rw [List.getElem?_map, h1]; rfl
  obtain ⟨-, -, f1, f2⟩ := hl l (List.mem_of_getElem? h1)
  have hx : round ((numKey k).x / num (2 ^ k.octave)) = num (roundAway (k.x / 2 ^ k.octave)) := by
    show round (num k.x / _) = _
    rw [num_div hp, num_round]
  have hy : round ((numKey k).y / num (2 ^ k.octave)) = num (roundAway (k.y / 2 ^ k.octave)) := by
    show round (num k.y / _) = _
    rw [num_div hp, num_round]
  have ho : (pow 2 ((numKey k).octave : Unrounded) : Unrounded) = num (2 ^ k.octave) := num_powPow _
  have hq : (pow 2 ((numDet l).octave : Unrounded) : Unrounded) = num (2 ^ l.octave) := num_powPow _
  simp only [frefineKeypoint, h1', Option.bind_eq_bind, Option.bind_some]
  rw [ho, hx, hy]
  split at h
  · cases h
  rename_i hxy
  obtain ⟨xi, g1, h⟩ := Option.bind_eq_some_iff.1 h
  obtain ⟨xp, g2, h⟩ := Option.bind_eq_some_iff.1 h
  obtain ⟨xm, g3, h⟩ := Option.bind_eq_some_iff.1 h
  obtain ⟨yp, g4, h⟩ := Option.bind_eq_some_iff.1 h
  obtain ⟨ym, g5, h⟩ := Option.bind_eq_some_iff.1 h
  obtain ⟨xpyp, g6, h⟩ := Option.bind_eq_some_iff.1 h
  obtain ⟨xpym, g7, h⟩ := Option.bind_eq_some_iff.1 h
  obtain ⟨xmyp, g8, h⟩ := Option.bind_eq_some_iff.1 h
  obtain ⟨xmym, g9, h⟩ := Option.bind_eq_some_iff.1 h
  have hb := get_lt g1
  rw [toNat_eq hb.1 f1, toNat_eq hb.2 f2, if_neg hxy]
  generalize (roundAway (k.x / 2 ^ k.octave)).toNat = x at *
  generalize (roundAway (k.y / 2 ^ k.octave)).toNat = y at *
  show ((l.ldet.map num).get x y).bind _ = _
  rw [Transfer.get_some g1, Option.bind_some]
  show ((l.ldet.map num).get (x + 1) y).bind _ = _
  rw [Transfer.get_some g2, Option.bind_some]
  show ((l.ldet.map num).get (x - 1) y).bind _ = _
  rw [Transfer.get_some g3, Option.bind_some]
  show ((l.ldet.map num).get x (y + 1)).bind _ = _
  rw [Transfer.get_some g4, Option.bind_some]
  show ((l.ldet.map num).get x (y - 1)).bind _ = _
  rw [Transfer.get_some g5, Option.bind_some]
  show ((l.ldet.map num).get (x + 1) (y + 1)).bind _ = _
  rw [Transfer.get_some g6, Option.bind_some]
  show ((l.ldet.map num).get (x + 1) (y - 1)).bind _ = _
  rw [Transfer.get_some g7, Option.bind_some]
  show ((l.ldet.map num).get (x - 1) (y + 1)).bind _ = _
  rw [Transfer.get_some g8, Option.bind_some]
  show ((l.ldet.map num).get (x - 1) (y - 1)).bind _ = _
  rw [Transfer.get_some g9, Option.bind_some]
  have hn := newtonStep_num xi xp xm yp ym xpyp xpym xmyp xmym
  cases hs : newtonStep xi xp xm yp ym xpyp xpym xmyp xmym with
  | none =>
    rw [hs] at h hn
    cases h
    rw [if_neg hn]
    rfl
  | some d =>
    rw [hs] at h hn
    simp only at h hn
    rw [hn.1, if_pos hn.2]
    split at h
    · cases h
    · rename_i ha
      rw [not_not] at ha
      obtain ⟨k', hk, h⟩ := Option.map_eq_some_iff.1 h
      subst h
      have := mainOrientation_num hl hk
      rw [if_pos (show FloatOps.eq (numKey k).angle 0 = true by
        show FloatOps.eq (num k.angle) 0 = true
        rw [num_zero]; exact (num_eq _ _).2 ha)]
      rw [hq]
      simp only [num2, numKey, num_cast, num_add, num_mul, lit_half, num_one, num_sub, num_two] at this ⊢
      rw [this]
      rfl

theorem detectKeypoints_num {levels : List DetLevel} (hl : ∀ l ∈ levels, Fits l) {t df : ℝ} {ks : List KeyPoint}
    (h : detectKeypoints t df levels = some ks) :
    fdetectKeypoints (num t) (num df) (levels.map numDet) = some (ks.map numKey) := by
  obtain ⟨es, he, h⟩ := Option.bind_eq_some_iff.1 h
  obtain ⟨r, hr, h⟩ := Option.map_eq_some_iff.1 h
  subst h
  rw [fdetectKeypoints, findExtrema_num he]
  show ((es.map numKey).mapM (frefineKeypoint (levels.map numDet))).map _ = _
  rw [Transfer.mapM_map_map hr (fun k _ r hr => refineKeypoint_num hl hr)]
  simp only [Option.map_some, filterMap_map]

end Unrounded

end Verif.Akaze
