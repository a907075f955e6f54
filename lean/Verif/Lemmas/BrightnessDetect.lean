import Verif.Lemmas.Brightness
import Verif.Props.Orient

/-!
# Detection and description follow a change of brightness and contrast
-/

namespace Verif.Akaze

variable {a b : ℝ}

theorem peakAt_scale {c : ℝ} (hc : 0 < c) (threshold : ℝ) (w : Nat) (data : List ℝ) (i : Nat) :
    peakAt (c * threshold) w (data.map (fun v => c * v)) i =
      (peakAt threshold w data i).map (Option.map (fun p => { p with v := c * p.v })) := by
  unfold peakAt
  simp only [List.getElem?_map]
  generalize data[i - (w + 1)]? = o1
  generalize data[1 + (i - (w + 1))]? = o2
  generalize data[2 + (i - (w + 1))]? = o3
  generalize data[w + (i - (w + 1))]? = o4
  generalize data[w + 1 + (i - (w + 1))]? = o5
  generalize data[w + 2 + (i - (w + 1))]? = o6
  generalize data[2 * w + (i - (w + 1))]? = o7
  generalize data[2 * w + 1 + (i - (w + 1))]? = o8
  generalize data[2 * w + 2 + (i - (w + 1))]? = o9
  rcases o1 with _ | v1 <;> [rfl; skip]
  rcases o2 with _ | v2 <;> [rfl; skip]
  rcases o3 with _ | v3 <;> [rfl; skip]
  rcases o4 with _ | v4 <;> [rfl; skip]
  rcases o5 with _ | v5 <;> [rfl; skip]
  rcases o6 with _ | v6 <;> [rfl; skip]
  rcases o7 with _ | v7 <;> [rfl; skip]
  rcases o8 with _ | v8 <;> [rfl; skip]
  rcases o9 with _ | v9 <;> [rfl; skip]
  simp only [Option.map_some, Option.bind_eq_bind, Option.bind_some, Option.pure_def, gt_iff_lt, mul_lt_mul_iff_right₀ hc]
  split <;> rfl

theorem peaksOf_relight (ha : 0 < a) (threshold : ℝ) (ldet : Img ℝ) :
    peaksOf (a ^ 2 * threshold) (relight (a ^ 2) 0 ldet) =
      (peaksOf threshold ldet).map (List.map (fun p => { p with v := a ^ 2 * p.v })) := by
  have hd : (relight (a ^ 2) 0 ldet).data = ldet.data.map (fun v => a ^ 2 * v) := by
    unfold relight; simp
  have hw : (relight (a ^ 2) 0 ldet).w = ldet.w := rfl
  unfold peaksOf
  rw [hd, hw, List.length_map]
  split
  · rfl
  · have : peakAt (a ^ 2 * threshold) ldet.w (ldet.data.map (fun v => a ^ 2 * v)) =
        fun i => (peakAt threshold ldet.w ldet.data i).map (Option.map (fun p => { p with v := a ^ 2 * p.v })) :=
      funext (fun i => peakAt_scale (by positivity) threshold ldet.w ldet.data i)
    rw [this, mapM_then_map]
    rw [Option.map_map, Option.map_map]
    congr 1
    funext l
    simp only [Function.comp]
    induction l with
    | nil => rfl
    | cons x l ih => rcases x with _ | x <;> simp_all

/-- A candidate with its response multiplied by `c`. -/
noncomputable def Candidate.amplify (c : ℝ) (q : Candidate) : Candidate := { q with k := q.k.amplify c }

theorem candidate_relight (ha : 0 < a) (df : ℝ) (l : DetLevel) (e : Nat) (p : Peak) :
    candidate df (relightDet a b l) e { p with v := a ^ 2 * p.v } = (candidate df l e p).amplify (a ^ 2) := by
  unfold candidate Candidate.amplify KeyPoint.amplify relightDet relight
  simp only [abs_mul, abs_of_pos (by positivity : (0 : ℝ) < a ^ 2)]

theorem candidates_relight (ha : 0 < a) (threshold df : ℝ) (levels : List DetLevel) :
    candidates (a ^ 2 * threshold) df (levels.map (relightDet a b)) =
      (candidates threshold df levels).map (List.map (Candidate.amplify (a ^ 2))) := by
  unfold candidates
  rw [List.zipIdx_map, List.mapM_map]
  have : (fun p : DetLevel × Nat => (peaksOf (a ^ 2 * threshold) (Prod.map (relightDet a b) id p).1.ldet).map
      (fun ps => ps.map (candidate df (Prod.map (relightDet a b) id p).1 (Prod.map (relightDet a b) id p).2))) =
      fun p => ((peaksOf threshold p.1.ldet).map (fun ps => ps.map (candidate df p.1 p.2))).map
        (List.map (Candidate.amplify (a ^ 2))) := by
    funext p
    have h := peaksOf_relight ha threshold p.1.ldet
    simp only [Prod.map_fst, Prod.map_snd, id]
    rw [show (relightDet a b p.1).ldet = relight (a ^ 2) 0 p.1.ldet from rfl, h, Option.map_map, Option.map_map]
    congr 1
    funext ps
    simp only [Function.comp, List.map_map]
    refine List.map_congr_left (fun q _ => ?_)
    exact candidate_relight ha df p.1 p.2 q
  have e : ((fun p : DetLevel × Nat => (peaksOf (a ^ 2 * threshold) p.1.ldet).map
      (fun ps => ps.map (candidate df p.1 p.2))) ∘ Prod.map (relightDet a b) id) = _ := this
  rw [e, mapM_then_map, Option.map_map, Option.map_map]
  congr 1
  funext l
  simp only [Function.comp, List.map_flatten]

theorem addCandidate_scale {c : ℝ} (hc : 0 < c) (cache : List KeyPoint) (q : Candidate) :
    addCandidate (cache.map (KeyPoint.amplify c)) (q.amplify c) = (addCandidate cache q).map (KeyPoint.amplify c) := by
  have h1 : ∀ p, tooClose (q.amplify c) (KeyPoint.amplify c p) = tooClose q p := fun p => rfl
  have h2 : isOut (q.amplify c) = isOut q := rfl
  have h3 : stored (q.amplify c) = (stored q).amplify c := rfl
  have h4 : (cache.map (KeyPoint.amplify c)).findIdx? (tooClose (q.amplify c)) = cache.findIdx? (tooClose q) := by
    rw [List.findIdx?_map]; rfl
  unfold addCandidate
  rw [h4, h2, h3]
  rcases cache.findIdx? (tooClose q) with _ | id
  · simp only; split <;> simp
  · simp only [List.getElem?_map]
    rcases cache[id]? with _ | prev
    · rfl
    · simp only [Option.map_some]
      have h5 : (q.amplify c).k.response > (prev.amplify c).response ↔ q.k.response > prev.response :=
        mul_lt_mul_iff_right₀ hc
      by_cases h : q.k.response > prev.response
      · rw [if_pos (h5.2 h), if_pos h]
        split
        · rfl
        · rw [List.map_set]
      · rw [if_neg (fun g => h (h5.1 g)), if_neg h]

theorem addCandidates_scale {c : ℝ} (hc : 0 < c) : ∀ (qs : List Candidate) (cache : List KeyPoint),
    (qs.map (Candidate.amplify c)).foldl addCandidate (cache.map (KeyPoint.amplify c)) =
      (qs.foldl addCandidate cache).map (KeyPoint.amplify c)
  | [], _ => rfl
  | q :: qs, cache => by rw [List.map_cons, List.foldl_cons, List.foldl_cons, addCandidate_scale hc, addCandidates_scale hc]

theorem filterUpper_scale {c : ℝ} (hc : 0 < c) : ∀ (ks : List KeyPoint),
    filterUpper (ks.map (KeyPoint.amplify c)) = (filterUpper ks).map (KeyPoint.amplify c)
  | [] => rfl
  | k :: ks => by
    rw [List.map_cons]
    unfold filterUpper
    rw [filterUpper_scale hc ks, List.any_map]
    have : ((fun kj : KeyPoint => decide ((k.amplify c).classId + 1 = kj.classId ∧
        ((k.amplify c).x - kj.x) * ((k.amplify c).x - kj.x) + ((k.amplify c).y - kj.y) * ((k.amplify c).y - kj.y) ≤
          (k.amplify c).size * (k.amplify c).size ∧ (k.amplify c).response ≤ kj.response)) ∘ KeyPoint.amplify c) =
        fun kj => decide (k.classId + 1 = kj.classId ∧ (k.x - kj.x) * (k.x - kj.x) + (k.y - kj.y) * (k.y - kj.y) ≤
          k.size * k.size ∧ k.response ≤ kj.response) := by
      funext kj
      simp only [Function.comp, KeyPoint.amplify, mul_le_mul_iff_right₀ hc]
    rw [this]
    split <;> simp

theorem findExtrema_relight (ha : 0 < a) (threshold df : ℝ) (levels : List DetLevel) :
    findExtrema (a ^ 2 * threshold) df (levels.map (relightDet a b)) =
      (findExtrema threshold df levels).map (List.map (KeyPoint.amplify (a ^ 2))) := by
  unfold findExtrema
  rw [candidates_relight ha, Option.map_map, Option.map_map]
  congr 1
  funext cs
  simp only [Function.comp]
  have := addCandidates_scale (c := a ^ 2) (by positivity) cs []
  rw [List.map_nil] at this
  rw [this, filterUpper_scale (by positivity)]

/-! ## Refinement and orientation -/

theorem newtonStep_scale {c : ℝ} (hc : c ≠ 0) (xi xp xm yp ym xpyp xpym xmyp xmym : ℝ) :
    newtonStep (c * xi) (c * xp) (c * xm) (c * yp) (c * ym) (c * xpyp) (c * xpym) (c * xmyp) (c * xmym) =
      newtonStep xi xp xm yp ym xpyp xpym xmyp xmym := by
  unfold newtonStep
  simp only
  have hdet : (c * xp + c * xm - 2 * (c * xi)) * (c * yp + c * ym - 2 * (c * xi)) -
      (1 / 4 * (c * xpyp + c * xmym) - 1 / 4 * (c * xpym + c * xmyp)) *
        (1 / 4 * (c * xpyp + c * xmym) - 1 / 4 * (c * xpym + c * xmyp)) =
      c ^ 2 * ((xp + xm - 2 * xi) * (yp + ym - 2 * xi) -
        (1 / 4 * (xpyp + xmym) - 1 / 4 * (xpym + xmyp)) * (1 / 4 * (xpyp + xmym) - 1 / 4 * (xpym + xmyp))) := by ring
  rw [hdet]
  generalize hD : (xp + xm - 2 * xi) * (yp + ym - 2 * xi) -
        (1 / 4 * (xpyp + xmym) - 1 / 4 * (xpym + xmyp)) * (1 / 4 * (xpyp + xmym) - 1 / 4 * (xpym + xmyp)) = D
  by_cases h0 : D = 0
  · rw [if_pos h0, if_pos (by rw [h0, mul_zero])]
  · rw [if_neg h0, if_neg (mul_ne_zero (pow_ne_zero 2 hc) h0)]
    have e1 : -(1 / 2 * (c * xp - c * xm)) * (1 / (c ^ 2 * D) * (c * yp + c * ym - 2 * (c * xi))) +
        -(1 / 2 * (c * yp - c * ym)) * (1 / (c ^ 2 * D) * -(1 / 4 * (c * xpyp + c * xmym) - 1 / 4 * (c * xpym + c * xmyp))) =
        -(1 / 2 * (xp - xm)) * (1 / D * (yp + ym - 2 * xi)) +
        -(1 / 2 * (yp - ym)) * (1 / D * -(1 / 4 * (xpyp + xmym) - 1 / 4 * (xpym + xmyp))) := by
      field_simp
    have e2 : -(1 / 2 * (c * xp - c * xm)) * (1 / (c ^ 2 * D) * -(1 / 4 * (c * xpyp + c * xmym) - 1 / 4 * (c * xpym + c * xmyp))) +
        -(1 / 2 * (c * yp - c * ym)) * (1 / (c ^ 2 * D) * (c * xp + c * xm - 2 * (c * xi))) =
        -(1 / 2 * (xp - xm)) * (1 / D * -(1 / 4 * (xpyp + xmym) - 1 / 4 * (xpym + xmyp))) +
        -(1 / 2 * (yp - ym)) * (1 / D * (xp + xm - 2 * xi)) := by
      field_simp
    rw [e1, e2]

theorem fastAtan2_scale (ha : 0 < a) (y x : ℝ) : fastAtan2 (a * y) (a * x) = fastAtan2 y x := by
  unfold fastAtan2
  have : (⟨a * x, a * y⟩ : ℂ) = (a : ℂ) * ⟨x, y⟩ := by
    apply Complex.ext <;> simp
  rw [this, Complex.arg_real_mul _ ha]

theorem windowSum_scale (ha : 0 < a) (ang1 : ℝ) (samples : List (ℝ × ℝ)) :
    windowSum (samples.map (fun r => (a * r.1, a * r.2))) ang1 =
      (a * (windowSum samples ang1).1, a * (windowSum samples ang1).2) := by
  unfold windowSum
  have : ∀ (l : List (ℝ × ℝ)) (s : ℝ × ℝ),
      (l.map (fun r => (a * r.1, a * r.2))).foldl
        (fun s r => if inWindow ang1 (fastAtan2 r.2 r.1) then (s.1 + r.1, s.2 + r.2) else s) (a * s.1, a * s.2) =
      (a * (l.foldl (fun s r => if inWindow ang1 (fastAtan2 r.2 r.1) then (s.1 + r.1, s.2 + r.2) else s) s).1,
        a * (l.foldl (fun s r => if inWindow ang1 (fastAtan2 r.2 r.1) then (s.1 + r.1, s.2 + r.2) else s) s).2) := by
    intro l
    induction l with
    | nil => intro s; rfl
    | cons r l ih =>
      intro s
      rw [List.map_cons, List.foldl_cons, List.foldl_cons]
      simp only [fastAtan2_scale ha]
      split
      · rw [← ih, mul_add, mul_add]
      · rw [← ih]
  simpa using this samples (0, 0)

theorem bestAngle_scale (ha : 0 < a) (samples : List (ℝ × ℝ)) (angle : ℝ) :
    (bestAngle (samples.map (fun r => (a * r.1, a * r.2))) angle).2 = (bestAngle samples angle).2 := by
  unfold bestAngle
  simp only [windowSum_scale ha, fastAtan2_scale ha]
  have : ∀ (l : List ℝ) (s : ℝ × ℝ),
      l.foldl (fun b ang1 => if a * (windowSum samples ang1).1 * (a * (windowSum samples ang1).1) +
          a * (windowSum samples ang1).2 * (a * (windowSum samples ang1).2) > b.1 then
        (a * (windowSum samples ang1).1 * (a * (windowSum samples ang1).1) +
          a * (windowSum samples ang1).2 * (a * (windowSum samples ang1).2),
          fastAtan2 (windowSum samples ang1).2 (windowSum samples ang1).1) else b) (a ^ 2 * s.1, s.2) =
      (a ^ 2 * (l.foldl (fun b ang1 => if (windowSum samples ang1).1 * (windowSum samples ang1).1 +
          (windowSum samples ang1).2 * (windowSum samples ang1).2 > b.1 then
        ((windowSum samples ang1).1 * (windowSum samples ang1).1 + (windowSum samples ang1).2 * (windowSum samples ang1).2,
          fastAtan2 (windowSum samples ang1).2 (windowSum samples ang1).1) else b) s).1,
        (l.foldl (fun b ang1 => if (windowSum samples ang1).1 * (windowSum samples ang1).1 +
          (windowSum samples ang1).2 * (windowSum samples ang1).2 > b.1 then
        ((windowSum samples ang1).1 * (windowSum samples ang1).1 + (windowSum samples ang1).2 * (windowSum samples ang1).2,
          fastAtan2 (windowSum samples ang1).2 (windowSum samples ang1).1) else b) s).2) := by
    intro l
    induction l with
    | nil => intro s; rfl
    | cons r l ih =>
      intro s
      rw [List.foldl_cons, List.foldl_cons]
      have e : a * (windowSum samples r).1 * (a * (windowSum samples r).1) +
          a * (windowSum samples r).2 * (a * (windowSum samples r).2) =
          a ^ 2 * ((windowSum samples r).1 * (windowSum samples r).1 + (windowSum samples r).2 * (windowSum samples r).2) := by
        ring
      simp only [e, gt_iff_lt, mul_lt_mul_iff_right₀ (by positivity : (0 : ℝ) < a ^ 2)]
      split
      · rw [← ih]
      · rw [← ih]
  have h := congrArg Prod.snd (this windowStarts (0, angle))
  simpa using h

theorem mainOrientation_relight (ha : 0 < a) (levels : List DetLevel) (k : KeyPoint) (c : ℝ) :
    mainOrientation (levels.map (relightDet a b)) (k.amplify c) =
      (mainOrientation levels k).map (KeyPoint.amplify c) := by
  unfold mainOrientation
  have h1 : (k.amplify c).classId = k.classId := rfl
  rw [h1, List.getElem?_map]
  rcases levels[k.classId]? with _ | l
  · rfl
  simp only [Option.map_some, Option.bind_eq_bind, Option.bind_some]
  have h2 : (relightDet a b l).octave = l.octave := rfl
  have h3 : (k.amplify c).x = k.x := rfl
  have h4 : (k.amplify c).y = k.y := rfl
  have h5 : (k.amplify c).size = k.size := rfl
  have h6 : (k.amplify c).angle = k.angle := rfl
  rw [h2, h3, h4, h5, h6]
  have : ∀ xf yf s, gradientSample (relightDet a b l) xf yf s =
      fun p => (gradientSample l xf yf s p).map (fun r => (a * r.1, a * r.2)) := by
    intro xf yf s
    funext p
    unfold gradientSample
    have e1 : (relightDet a b l).lx = relight a 0 l.lx := rfl
    have e2 : (relightDet a b l).ly = relight a 0 l.ly := rfl
    simp only [e1, e2, relight_get]
    rcases gweight p.1 p.2 with _ | g
    · rfl
    rcases l.lx.get _ _ with _ | rx
    · rfl
    rcases l.ly.get _ _ with _ | ry
    · rfl
    simp only [Option.map_some, Option.bind_eq_bind, Option.bind_some, Option.pure_def, Option.some.injEq, Prod.mk.injEq]
    constructor <;> ring
  rw [this, mapM_then_map]
  rcases offsets.mapM _ with _ | samples
  · rfl
  simp only [Option.map_some, Option.bind_some, bestAngle_scale ha]
  rfl

theorem refineKeypoint_relight (ha : 0 < a) (levels : List DetLevel) (k : KeyPoint) :
    refineKeypoint (levels.map (relightDet a b)) (k.amplify (a ^ 2)) =
      (refineKeypoint levels k).map (Option.map (KeyPoint.amplify (a ^ 2))) := by
  unfold refineKeypoint
  have h1 : (k.amplify (a ^ 2)).classId = k.classId := rfl
  have h2 : (k.amplify (a ^ 2)).octave = k.octave := rfl
  have h3 : (k.amplify (a ^ 2)).x = k.x := rfl
  have h4 : (k.amplify (a ^ 2)).y = k.y := rfl
  have h5 : (k.amplify (a ^ 2)).size = k.size := rfl
  have h6 : (k.amplify (a ^ 2)).angle = k.angle := rfl
  simp only [h1, h2, h3, h4, h5, h6, List.getElem?_map]
  generalize (roundAway (k.x / 2 ^ k.octave)).toNat = x
  generalize (roundAway (k.y / 2 ^ k.octave)).toNat = y
  rcases levels[k.classId]? with _ | l
  · rfl
  simp only [Option.map_some, Option.bind_eq_bind, Option.bind_some]
  by_cases hz : x = 0 ∨ y = 0
  · rw [if_pos hz, if_pos hz]; rfl
  rw [if_neg hz, if_neg hz]
  have h7 : (relightDet a b l).octave = l.octave := rfl
  have h8 : (relightDet a b l).ldet = relight (a ^ 2) 0 l.ldet := rfl
  simp only [h7, h8, relight_get, add_zero]
  generalize l.ldet.get x y = o1
  generalize l.ldet.get (x + 1) y = o2
  generalize l.ldet.get (x - 1) y = o3
  generalize l.ldet.get x (y + 1) = o4
  generalize l.ldet.get x (y - 1) = o5
  generalize l.ldet.get (x + 1) (y + 1) = o6
  generalize l.ldet.get (x + 1) (y - 1) = o7
  generalize l.ldet.get (x - 1) (y + 1) = o8
  generalize l.ldet.get (x - 1) (y - 1) = o9
  rcases o1 with _ | v1 <;> [rfl; skip]
  rcases o2 with _ | v2 <;> [rfl; skip]
  rcases o3 with _ | v3 <;> [rfl; skip]
  rcases o4 with _ | v4 <;> [rfl; skip]
  rcases o5 with _ | v5 <;> [rfl; skip]
  rcases o6 with _ | v6 <;> [rfl; skip]
  rcases o7 with _ | v7 <;> [rfl; skip]
  rcases o8 with _ | v8 <;> [rfl; skip]
  rcases o9 with _ | v9 <;> [rfl; skip]
  simp only [Option.map_some, Option.bind_some, newtonStep_scale (pow_ne_zero 2 ha.ne')]
  rcases newtonStep v1 v2 v3 v4 v5 v6 v7 v8 v9 with _ | ⟨dx, dy⟩
  · rfl
  simp only
  split
  · rfl
  · have := mainOrientation_relight (b := b) ha levels { k with
      x := (x + dx) * 2 ^ l.octave + 1 / 2 * (2 ^ l.octave - 1)
      y := (y + dy) * 2 ^ l.octave + 1 / 2 * (2 ^ l.octave - 1)
      size := k.size * 2 } (a ^ 2)
    rw [Option.map_map]
    refine (congrArg (Option.map some) this).trans ?_
    rw [Option.map_map]
    rfl

theorem detectKeypoints_relight (ha : 0 < a) (threshold df : ℝ) (levels : List DetLevel) :
    detectKeypoints (a ^ 2 * threshold) df (levels.map (relightDet a b)) =
      (detectKeypoints threshold df levels).map (List.map (KeyPoint.amplify (a ^ 2))) := by
  unfold detectKeypoints
  rw [findExtrema_relight ha]
  rcases findExtrema threshold df levels with _ | ks
  · rfl
  simp only [Option.map_some, Option.bind_eq_bind, Option.bind_some]
  unfold subpixelRefinement
  rw [List.mapM_map]
  have : (refineKeypoint (levels.map (relightDet a b)) ∘ KeyPoint.amplify (a ^ 2)) =
      fun k => (refineKeypoint levels k).map (Option.map (KeyPoint.amplify (a ^ 2))) :=
    funext (fun k => refineKeypoint_relight ha levels k)
  rw [this, mapM_then_map, Option.map_map, Option.map_map]
  congr 1
  funext l
  simp only [Function.comp]
  induction l with
  | nil => rfl
  | cons x l ih => rcases x with _ | x <;> simp_all

end Verif.Akaze
