import Verif.Props.Optimize
import Mathlib.Analysis.SpecialFunctions.Trigonometric.Bounds

/-!
# C68: the gradients used by the pose optimisers lead towards the observations
-/

namespace Verif.Geo

open Real

/-- Rotating the unit vector `n` about `n × b`, by a multiple of that vector, brings it closer to `b`. -/
theorem turn_towards {n b : V3 ℝ} (hn : n.normSq = 1) (hb : b.normSq = 1) (s : ℝ) :
    ((expRot (V3.smul s (n.cross b))).mulVec n).dot b =
      cos (arccos (n.dot b) - s * sin (arccos (n.dot b))) := by
  have hl := V3.lagrange n b
  rw [hn, hb] at hl
  have hsq : 0 ≤ (n.cross b).normSq := V3.normSq_nonneg _
  have hd1 : -1 ≤ n.dot b := by nlinarith
  have hd2 : n.dot b ≤ 1 := by nlinarith
  have hsin : sin (arccos (n.dot b)) = (n.cross b).norm := by
    rw [sin_arccos]
    unfold V3.norm
    congr 1
    rw [hl]
    ring
  rw [hsin]
  by_cases h0 : n.cross b = V3.zero
  · rw [h0]
    have e1 : V3.smul s (V3.zero : V3 ℝ) = V3.zero := by lin3
    rw [e1, expRot_zero, M3.one_mulVec, V3.norm_eq_zero.mpr rfl, mul_zero, sub_zero, cos_arccos hd1 hd2]
  · have hpos := V3.norm_pos h0
    rw [expRot_path h0, rodrigues_mulVec, cos_sub, cos_arccos hd1 hd2, hsin]
    have hmm := V3.norm_mul_self (n.cross b)
    set w := n.cross b with hw
    set l := w.norm
    generalize sin (s * l) = S
    generalize cos (s * l) = C
    have e1 : (V3.smul (1 / l) w).cross ((V3.smul (1 / l) w).cross n) = n.neg := by
      have h1 : w.cross (w.cross n) = V3.smul (-w.normSq) n := by
        have : w.cross (w.cross n) = (V3.smul (w.dot n) w).sub (V3.smul w.normSq n) := by lin3
        rw [this, V3.dot_comm, hw, V3.dot_cross_left]
        lin3
      have h2 : (V3.smul (1 / l) w).cross ((V3.smul (1 / l) w).cross n) =
          V3.smul (1 / l * (1 / l)) (w.cross (w.cross n)) := by lin3
      rw [h2, h1, ← hmm]
      have h3 : V3.smul (1 / l * (1 / l)) (V3.smul (-(l * l)) n) =
          V3.smul (-((1 / l * l) * (1 / l * l))) n := by lin3
      rw [h3, one_div_mul_cancel hpos.ne']
      lin3
    have e2 : ((V3.smul (1 / l) w).cross n).dot b = l := by
      have : ((V3.smul (1 / l) w).cross n).dot b = 1 / l * w.dot w := by
        rw [hw]; simp only [lin]; ring
      rw [this, V3.dot_self, ← hmm, ← mul_assoc, one_div_mul_cancel hpos.ne', one_mul]
    rw [e1]
    have : ((n.add (V3.smul S ((V3.smul (1 / l) w).cross n))).add (V3.smul (1 - C) n.neg)).dot b =
        C * n.dot b + S * ((V3.smul (1 / l) w).cross n).dot b := by
      simp only [lin]; ring
    rw [this, e2]
    ring

/-- The angle between two directions of length one. -/
noncomputable def angle (a b : V3 ℝ) : ℝ := arccos (a.dot b)

theorem angle_after {n b : V3 ℝ} (hn : n.normSq = 1) (hb : b.normSq = 1) {s : ℝ} (h0 : 0 ≤ s)
    (h1 : s ≤ 1) : angle ((expRot (V3.smul s (n.cross b))).mulVec n) b =
      angle n b - s * sin (angle n b) := by
  unfold angle
  rw [turn_towards hn hb]
  have ha := arccos_nonneg (n.dot b)
  have hp := arccos_le_pi (n.dot b)
  have hs : 0 ≤ sin (arccos (n.dot b)) := sin_nonneg_of_nonneg_of_le_pi ha hp
  have hle : sin (arccos (n.dot b)) ≤ arccos (n.dot b) := sin_le ha
  refine arccos_cos ?_ ?_
  · nlinarith
  · nlinarith [mul_nonneg h0 hs]

/-- **C68** The gradient of a landmark in one view, for the point at `x` in the camera's frame and the
observed bearing `b`. Moving the point by `s` times the translation multiplies its distance from the line
of the bearing by `1 - s`. Turning it by `s` times the rotation, `s` at most one, reduces its angle `θ` to
the bearing by `s sin θ`, so never beyond the bearing. -/
theorem C68_single_view {x b : V3 ℝ} (hx : x ≠ V3.zero) (hb : b.normSq = 1) :
    (∀ s, lineDistSq V3.zero b (x.add (V3.smul s (worldPoseGradient x b).translation)) =
      (1 - s) * (1 - s) * lineDistSq V3.zero b x) ∧
    ∃ n, x.normalize = some n ∧ ∀ s, 0 ≤ s → s ≤ 1 →
      angle ((expRot (V3.smul s (worldPoseGradient x b).rotation)).mulVec n) b =
        angle n b - s * sin (angle n b) := by
  constructor
  · intro s
    have e : (worldPoseGradient x b).translation = (V3.smul (x.dot b) b).sub x := rfl
    rw [e]
    have : ∀ d : ℝ, d = x.dot b → lineDistSq V3.zero b (x.add (V3.smul s ((V3.smul d b).sub x))) =
        (1 - s) * (1 - s) * lineDistSq V3.zero b x := by
      intro d hd
      have h1 : (x.add (V3.smul s ((V3.smul d b).sub x))).sub V3.zero =
          (V3.smul (1 - s) x).add (V3.smul (s * d) b) := by lin3
      have h2 : x.sub V3.zero = x := by lin3
      unfold lineDistSq
      rw [h1, h2]
      have h3 : ((V3.smul (1 - s) x).add (V3.smul (s * d) b)).normSq =
          (1 - s) * (1 - s) * x.normSq + 2 * (1 - s) * (s * d) * x.dot b +
            s * d * (s * d) * b.normSq := by simp only [lin]; ring
      have h4 : ((V3.smul (1 - s) x).add (V3.smul (s * d) b)).dot b =
          (1 - s) * x.dot b + s * d * b.normSq := by simp only [lin]; ring
      rw [h3, h4, hb, ← hd]
      ring
    exact this _ rfl
  · refine ⟨V3.smul (1 / x.norm) x, normalize_of_ne hx, fun s h0 h1 => ?_⟩
    have e : (worldPoseGradient x b).rotation = (V3.smul (1 / x.norm) x).cross b := by
      unfold worldPoseGradient Tangent.new
      simp only [normalize_of_ne hx, Option.map_some, Option.getD_some]
    rw [e]
    exact angle_after (V3.normalize_normSq hx) hb h0 h1

theorem expRot_fixes {w t : V3 ℝ} (h : w.cross t = V3.zero) : (expRot w).mulVec t = t := by
  by_cases h0 : w = V3.zero
  · rw [h0, expRot_zero, M3.one_mulVec]
  · rw [expRot_of_ne h0, rodrigues_mulVec]
    have e : (V3.smul (1 / w.norm) w).cross t = V3.zero := by
      have : (V3.smul (1 / w.norm) w).cross t = V3.smul (1 / w.norm) (w.cross t) := by lin3
      rw [this, h]; lin3
    rw [e]
    generalize sin w.norm = S
    generalize cos w.norm = C
    lin3

/-- The angle between the planes through the translation `t` and the directions `a` and `b`. -/
noncomputable def planeAngle (t a b : V3 ℝ) : ℝ :=
  angle (V3.smul (1 / (b.cross t).norm) (b.cross t)) (V3.smul (1 / (a.cross t).norm) (a.cross t))

/-- **C68** The rotation gradient of two views: turning the direction `b` by `s` times the gradient, `s` at
most one, leaves the translation alone and reduces the angle `θ` between the two epipolar planes by
`s sin θ`, never beyond. There is no gradient exactly if a direction is parallel to the translation. -/
theorem C68_two_views {t a b : V3 ℝ} :
    (rotationGradient t a b = none ↔ a.cross t = V3.zero ∨ b.cross t = V3.zero) ∧
    ∀ r, rotationGradient t a b = some r → ∀ s, 0 ≤ s → s ≤ 1 →
      (expRot (V3.smul s r)).mulVec t = t ∧
      planeAngle t a ((expRot (V3.smul s r)).mulVec b) =
        planeAngle t a b - s * sin (planeAngle t a b) := by
  constructor
  · unfold rotationGradient
    by_cases hb : b.cross t = V3.zero
    · have hz : (b.cross t).normalize = none := if_pos (V3.norm_eq_zero.mpr hb)
      exact ⟨fun _ => Or.inr hb, fun _ => by simp [hz]⟩
    · by_cases ha : a.cross t = V3.zero
      · have hz : (a.cross t).normalize = none := if_pos (V3.norm_eq_zero.mpr ha)
        exact ⟨fun _ => Or.inl ha, fun _ => by simp [hz]⟩
      · simp [normalize_of_ne hb, normalize_of_ne ha, hb, ha]
  · intro r hr s h0 h1
    unfold rotationGradient at hr
    simp only [Option.bind_eq_bind, Option.bind_eq_some_iff] at hr
    obtain ⟨nb, hnb, na, hna, hr⟩ := hr
    obtain rfl := Option.some.inj hr
    obtain ⟨hb0, rfl⟩ := normalize_some hnb
    obtain ⟨ha0, rfl⟩ := normalize_some hna
    have hfix : (expRot (V3.smul s ((V3.smul (1 / (b.cross t).norm) (b.cross t)).cross
        (V3.smul (1 / (a.cross t).norm) (a.cross t))))).mulVec t = t := by
      refine expRot_fixes ?_
      generalize 1 / (b.cross t).norm = k
      generalize 1 / (a.cross t).norm = k'
      lin3
    refine ⟨hfix, ?_⟩
    set R := expRot (V3.smul s ((V3.smul (1 / (b.cross t).norm) (b.cross t)).cross
        (V3.smul (1 / (a.cross t).norm) (a.cross t)))) with hR
    have hrot : R.IsRot := expRot_isRot _
    have hc : (R.mulVec b).cross t = R.mulVec (b.cross t) := by
      conv_lhs => rw [← hfix]
      rw [M3.IsRot.cross_mulVec hrot]
    have hnorm : (R.mulVec (b.cross t)).norm = (b.cross t).norm := by
      unfold V3.norm
      rw [M3.IsRot.normSq_mulVec hrot]
    unfold planeAngle
    rw [hc, hnorm, ← M3.mulVec_smul, hR]
    exact angle_after (V3.normalize_normSq hb0) (V3.normalize_normSq ha0) h0 h1

/-- Exchanging the two directions gives the opposite rotation. -/
theorem rotationGradient_swap {t a b r : V3 ℝ} (h : rotationGradient t a b = some r) :
    rotationGradient t b a = some r.neg := by
  unfold rotationGradient at h ⊢
  simp only [Option.bind_eq_bind, Option.bind_eq_some_iff] at h
  obtain ⟨nb, hnb, na, hna, hr⟩ := h
  obtain rfl := Option.some.inj hr
  simp only [hna, hnb, Option.bind_eq_bind, Option.bind_some]
  change some _ = some _
  congr 1
  lin3

/-- `d` is the shortest translation that brings the line from `o` along `b` to the point `p`. -/
def Offset (o b p d : V3 ℝ) : Prop := d.dot b = 0 ∧ ∃ k, p = (o.add d).add (V3.smul k b)

theorem offset_away {o b p : V3 ℝ} (hb : b.normSq = 1) : Offset o b p (awayFrom (p.sub o) b) := by
  refine ⟨?_, (p.sub o).dot b, ?_⟩
  · have : (awayFrom (p.sub o) b).dot b = (p.sub o).dot b * (1 - b.normSq) := by
      unfold awayFrom
      simp only [lin]; ring
    rw [this, hb]; ring
  · unfold awayFrom
    generalize (p.sub o).dot b = d
    lin3

/-- **C68** What the two gradients of three views consist of. If no bearing is parallel to the baseline of
a pair, each rotation is two thirds of the rotation of that view towards the centre view and a third of its
rotation towards the other view (see `C68_two_views` for what these do); else it is zero. Each translation
is two thirds of the shortest one that brings the ray of that view to the point triangulated from the
other two, less a third of the one that would bring the ray of the centre view to the point triangulated
from the first and second (zero where no point is found). -/
theorem C68_three_views {c f ftoc s stoc : V3 ℝ} (hc : c.normSq = 1) (hf : f.normSq = 1)
    (hs : s.normSq = 1) :
    (∀ x y z, rotationGradient ftoc c f = some x → rotationGradient (stoc.sub ftoc) s f = some y →
      rotationGradient stoc c s = some z →
      (threeViewGradients c f ftoc s stoc).1.rotation = (V3.smul (2 / 3) x).add (V3.smul (1 / 3) y) ∧
      ∃ y', rotationGradient (stoc.sub ftoc) f s = some y' ∧
      (threeViewGradients c f ftoc s stoc).2.rotation =
        (V3.smul (2 / 3) z).add (V3.smul (1 / 3) y')) ∧
    ∃ df ds dc, (threeViewGradients c f ftoc s stoc).1.translation =
        (V3.smul (2 / 3) df).sub (V3.smul (1 / 3) dc) ∧
      (threeViewGradients c f ftoc s stoc).2.translation =
        (V3.smul (2 / 3) ds).sub (V3.smul (1 / 3) dc) ∧
      (∀ p, sineL1SameSpace stoc.neg c s = some p → Offset ftoc f p df) ∧
      (sineL1SameSpace stoc.neg c s = none → df = V3.zero) ∧
      (∀ p, sineL1SameSpace ftoc.neg c f = some p → Offset stoc s p ds) ∧
      (sineL1SameSpace ftoc.neg c f = none → ds = V3.zero) ∧
      (∀ p, sineL1SameSpace (stoc.sub ftoc).neg f s = some p → Offset V3.zero c (p.add ftoc) dc) ∧
      (sineL1SameSpace (stoc.sub ftoc).neg f s = none → dc = V3.zero) := by
  constructor
  · intro x y z hx hy hz
    have hy' := rotationGradient_swap hy
    have hn : y.neg.neg = y := by lin3
    refine ⟨?_, y.neg, hy', ?_⟩
    · unfold threeViewGradients Tangent.new
      simp only [hx, hy', Option.bind_eq_bind, Option.bind_some, hn]
      rfl
    · unfold threeViewGradients Tangent.new
      simp only [hz, hy', Option.bind_eq_bind, Option.bind_some]
      rfl
  · refine ⟨((sineL1SameSpace stoc.neg c s).map (fun p => awayFrom (p.sub ftoc) f)).getD V3.zero,
      ((sineL1SameSpace ftoc.neg c f).map (fun p => awayFrom (p.sub stoc) s)).getD V3.zero,
      ((sineL1SameSpace (stoc.sub ftoc).neg f s).map
        (fun p => awayFrom ((p.add ftoc).sub V3.zero) c)).getD V3.zero, ?_, ?_, ?_, ?_, ?_, ?_, ?_, ?_⟩
    · unfold threeViewGradients Tangent.new
      simp only [Option.getD_some]
      cases sineL1SameSpace (stoc.sub ftoc).neg f s with
      | none => simp only [Option.map_none, Option.getD_none]; lin3
      | some p =>
        simp only [Option.map_some, Option.getD_some]
        have : (p.add ftoc).sub V3.zero = p.add ftoc := by lin3
        rw [this]
        generalize awayFrom (p.add ftoc) c = u
        lin3
    · unfold threeViewGradients Tangent.new
      simp only [Option.getD_some]
      cases sineL1SameSpace (stoc.sub ftoc).neg f s with
      | none => simp only [Option.map_none, Option.getD_none]; lin3
      | some p =>
        simp only [Option.map_some, Option.getD_some]
        have : (p.add ftoc).sub V3.zero = p.add ftoc := by lin3
        rw [this]
        generalize awayFrom (p.add ftoc) c = u
        lin3
    all_goals intros
    · rename_i p h; rw [h]; exact offset_away hf
    · rename_i h; rw [h]; rfl
    · rename_i p h; rw [h]; exact offset_away hs
    · rename_i h; rw [h]; rfl
    · rename_i p h; rw [h]; exact offset_away hc
    · rename_i h; rw [h]; rfl

/-- Three bearings of length one, no bearing parallel to a baseline, and a point is found. -/
example : (⟨0, 0, 1⟩ : V3 ℝ).normSq = 1 ∧ (⟨3 / 5, 0, 4 / 5⟩ : V3 ℝ).normSq = 1 ∧
    (rotationGradient ⟨3, 0, 0⟩ ⟨0, 0, 1⟩ ⟨3 / 5, 0, 4 / 5⟩).isSome = true := by
  refine ⟨by simp only [lin]; norm_num, by simp only [lin]; norm_num, ?_⟩
  rw [Option.isSome_iff_ne_none, Ne, C68_two_views.1, not_or]
  constructor <;>
  · intro e
    rw [V3.ext_iff] at e
    simp only [lin] at e
    norm_num at e

/-! ## The steps -/

/-- Sum of vectors. -/
def vsum (vs : List (V3 ℝ)) : V3 ℝ := vs.foldr V3.add V3.zero

theorem sum_parts (gs : List Tangent) :
    (Tangent.sum gs).translation = vsum (gs.map (fun g => g.translation)) ∧
    (Tangent.sum gs).rotation = vsum (gs.map (fun g => g.rotation)) := by
  have : ∀ (gs : List Tangent) (a : Tangent), gs.foldl Tangent.add a =
      ⟨a.translation.add (vsum (gs.map (fun g => g.translation))),
        a.rotation.add (vsum (gs.map (fun g => g.rotation)))⟩ := by
    intro gs
    induction gs with
    | nil =>
      intro a
      cases a
      simp only [List.foldl_nil, List.map_nil, vsum, List.foldr_nil, V3.add_zero]
    | cons g gs ih =>
      intro a
      rw [List.foldl_cons, ih]
      simp only [Tangent.add, List.map_cons, vsum, List.foldr_cons, V3.add_assoc]
  unfold Tangent.sum
  rw [this]
  exact ⟨V3.zero_add _, V3.zero_add _⟩

/-- **C68** The step of the second single-view optimiser: with all landmarks finite, at the points `x` in the
camera's frame, it first moves everything by the mean, times the rate, of the shifts onto the lines of the
bearings, then turns everything by the mean, times the rate, of the rotations towards the bearings. -/
theorem C68_l2_step {pose : Iso ℝ} {lms : List WorldMatch} {xs : List (V3 ℝ × V3 ℝ)} (rate : ℝ)
    (hx : lms.map (fun lm => (transform pose lm.2).bind toPoint) = xs.map (fun x => some x.1))
    (hb : lms.map (fun lm => lm.1) = xs.map (fun x => x.2)) (y : V3 ℝ) :
    let m := vsum (xs.map (fun x => (V3.smul (x.1.dot x.2) x.2).sub x.1))
    let r := vsum (xs.map (fun x => (V3.smul (1 / x.1.norm) x.1).cross x.2))
    (singleStepL2 rate lms pose).point y =
      (expRot (V3.smul (rate / xs.length) r)).mulVec
        ((pose.point y).add (V3.smul (rate / xs.length) m)) := by
  have hlen : lms.length = xs.length := by simpa using congrArg List.length hb
  have hd : landmarkDeltas pose lms = xs.map (fun x => worldPoseGradient x.1 x.2) := by
    unfold landmarkDeltas
    clear hlen
    induction lms generalizing xs with
    | nil =>
      cases xs with
      | nil => rfl
      | cons _ _ => simp at hx
    | cons lm lms ih =>
      cases xs with
      | nil => simp at hx
      | cons x xs =>
        simp only [List.map_cons, List.cons.injEq] at hx hb
        obtain ⟨q, hq, hq'⟩ := Option.bind_eq_some_iff.mp hx.1
        rw [List.filterMap_cons_some (b := worldPoseGradient x.1 x.2), List.map_cons, ih hx.2 hb.2]
        unfold landmarkDelta
        simp only [hq, hq', Option.map_some, hb.1]
  have hrot : ∀ x : V3 ℝ × V3 ℝ, (worldPoseGradient x.1 x.2).rotation =
      (V3.smul (1 / x.1.norm) x.1).cross x.2 := by
    intro x
    unfold worldPoseGradient Tangent.new V3.normalize
    split
    · rename_i h
      rw [V3.norm_eq_zero.mp h]
      simp only [Option.map_none, Option.getD_none]
      generalize 1 / (V3.zero : V3 ℝ).norm = k
      lin3
    · rfl
  intro m r
  obtain ⟨h1, h2⟩ := sum_parts (landmarkDeltas pose lms)
  have h1 : (Tangent.sum (landmarkDeltas pose lms)).translation = m := by
    rw [h1, hd, List.map_map]; rfl
  have h2 : (Tangent.sum (landmarkDeltas pose lms)).rotation = r := by
    rw [h2, hd, List.map_map]
    change vsum (xs.map (fun x => (worldPoseGradient x.1 x.2).rotation)) = _
    simp only [hrot]; rfl
  unfold singleStepL2
  rw [hlen, Iso.point_mul]
  have e : (((Tangent.sum (landmarkDeltas pose lms)).scale (1 / (xs.length : ℝ))).scale rate) =
      ⟨V3.smul (rate / xs.length) m, V3.smul (rate / xs.length) r⟩ := by
    unfold Tangent.scale
    rw [h1, h2]
    congr 1 <;> ext <;> simp only [lin] <;> ring
  rw [e]
  unfold Tangent.isometry
  generalize expRot (V3.smul (rate / xs.length) r) = R
  generalize V3.smul (rate / xs.length) m = u
  generalize pose.point y = z
  lin3

/-- **C68** The step of the first optimisers is that of Weiszfeld's algorithm: the translation, times the sum of
the reciprocal distances, is the rate times the sum of the unit gradients; likewise the rotation. -/
theorem C68_l1_step {gs : List Tangent} {tscale eps rate : ℝ} {d : Tangent}
    (ht : ∀ g ∈ gs, 0 < g.translation.norm) (hr : ∀ g ∈ gs, 0 < g.rotation.norm)
    (hs : 0 ≤ tscale) (he : 0 ≤ eps) (h : stepL1 tscale eps rate gs = some d) :
    V3.smul ((gs.map (fun g => 1 / (g.translation.norm + tscale * eps))).sum) d.translation =
      V3.smul rate (vsum (gs.map (fun g => V3.smul (1 / g.translation.norm) g.translation))) ∧
    V3.smul ((gs.map (fun g => 1 / (g.rotation.norm + eps))).sum) d.rotation =
      V3.smul rate (vsum (gs.map (fun g => V3.smul (1 / g.rotation.norm) g.rotation))) := by
  have harm : ∀ {ws : List ℝ} {s : ℝ}, (∀ w ∈ ws, 0 < w) → harmonic ws = some s →
      (ws.map (fun w => 1 / w)).sum * s = 1 := by
    intro ws s hw h
    unfold harmonic at h
    rw [if_neg (fun h0 => lt_irrefl _ (hw 0 h0))] at h
    obtain ⟨h0, rfl⟩ := P3P.cdiv_some h
    exact mul_one_div_cancel h0
  unfold stepL1 at h
  simp only [Option.bind_eq_bind, Option.bind_eq_some_iff] at h
  obtain ⟨s, hs1, r, hr1, hd⟩ := h
  obtain rfl := Option.some.inj hd
  have a1 := harm (by
    intro w hw
    obtain ⟨g, hg, rfl⟩ := List.mem_map.mp hw
    exact add_pos_of_pos_of_nonneg (ht g hg) (mul_nonneg hs he)) hs1
  have a2 := harm (by
    intro w hw
    obtain ⟨g, hg, rfl⟩ := List.mem_map.mp hw
    exact add_pos_of_pos_of_nonneg (hr g hg) he) hr1
  rw [List.map_map] at a1 a2
  have a1 : (gs.map (fun g => 1 / (g.translation.norm + tscale * eps))).sum * s = 1 := a1
  have a2 : (gs.map (fun g => 1 / (g.rotation.norm + eps))).sum * r = 1 := a2
  obtain ⟨h1, h2⟩ := sum_parts (gs.map Tangent.l1)
  rw [List.map_map] at h1 h2
  have b1 : (Tangent.sum (gs.map Tangent.l1)).translation =
      vsum (gs.map (fun g => V3.smul (1 / g.translation.norm) g.translation)) := by
    rw [h1]
    congr 1
    refine List.map_congr_left fun g hg => ?_
    have : g.translation ≠ V3.zero := fun e => (ht g hg).ne' (V3.norm_eq_zero.mpr e)
    simp only [Function.comp, Tangent.l1, Tangent.new, normalize_of_ne this, Option.getD_some]
  have b2 : (Tangent.sum (gs.map Tangent.l1)).rotation =
      vsum (gs.map (fun g => V3.smul (1 / g.rotation.norm) g.rotation)) := by
    rw [h2]
    congr 1
    refine List.map_congr_left fun g hg => ?_
    have : g.rotation ≠ V3.zero := fun e => (hr g hg).ne' (V3.norm_eq_zero.mpr e)
    simp only [Function.comp, Tangent.l1, Tangent.new, normalize_of_ne this, Option.getD_some]
  have sm : ∀ (a b c : ℝ) (v : V3 ℝ), a * b = 1 → V3.smul a (V3.smul b (V3.smul c v)) = V3.smul c v := by
    intro a b c v hab
    have : V3.smul a (V3.smul b (V3.smul c v)) = V3.smul (a * b) (V3.smul c v) := by lin3
    rw [this, hab]
    lin3
  rw [← b1, ← b2]
  exact ⟨sm _ _ _ _ a1, sm _ _ _ _ a2⟩

/-- A direction and a bearing at a right angle, turned by the whole gradient: the angle falls by one. -/
example : (⟨1, 0, 0⟩ : V3 ℝ) ≠ V3.zero ∧ (⟨0, 1, 0⟩ : V3 ℝ).normSq = 1 := by
  refine ⟨fun e => ?_, by simp [lin]⟩
  rw [V3.ext_iff] at e
  simp [lin] at e

/-- Two views that are not in one plane with the translation. -/
example : ∃ r, rotationGradient ⟨1, 0, 0⟩ ⟨0, 0, 1⟩ (⟨0, 1, 0⟩ : V3 ℝ) = some r := by
  rw [← Option.ne_none_iff_exists']
  rw [Ne, C68_two_views.1]
  push Not
  constructor <;> intro e <;> rw [V3.ext_iff] at e <;> simp [lin] at e

end Verif.Geo
