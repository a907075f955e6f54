import Verif.Model.MeanMean
import Verif.Props.LinearTriangulate

/-!
# C104: triangulation by the mean of rays
-/

namespace Verif.Geo

/-- The sum of vectors. -/
def vecSum (vs : List (V3 ℝ)) : V3 ℝ := vs.foldr V3.add V3.zero

/-- The point of the line through `c` with direction `m` that is `s` along it. -/
def alongLine (c m : V3 ℝ) (s : ℝ) : V3 ℝ := c.add (V3.smul s m)

/-- No point of the line through `c` with direction `m` is nearer to the ray of `o` than the one at `s`. -/
def NearestAt (c m : V3 ℝ) (o : Observation) (s : ℝ) : Prop :=
  ∀ s', lineDistSq o.centre o.ray (alongLine c m s) ≤ lineDistSq o.centre o.ray (alongLine c m s')

theorem foldl_vecSum {α : Type} (f : α → V3 ℝ) (l : List α) (a : V3 ℝ) :
    l.foldl (fun s o => s.add (f o)) a = a.add (vecSum (l.map f)) := by
  induction l generalizing a with
  | nil => simp only [List.foldl_nil, List.map_nil, vecSum, List.foldr_nil]; lin3
  | cons o l ih =>
    rw [List.foldl_cons, ih]
    simp only [List.map_cons, vecSum, List.foldr_cons]
    generalize List.foldr V3.add V3.zero (l.map f) = b
    lin3

theorem sumRays_eq (os : List Observation) : sumRays os = vecSum (os.map Observation.ray) := by
  unfold sumRays; rw [foldl_vecSum]; generalize vecSum _ = b; lin3

theorem sumCentres_eq (os : List Observation) : sumCentres os = vecSum (os.map Observation.centre) := by
  unfold sumCentres; rw [foldl_vecSum]; generalize vecSum _ = b; lin3

/-- **C104** The distance computed for an observation: no point of the mean ray is nearer to the observation's ray. -/
theorem C104_nearest {c m : V3 ℝ} {o : Observation} {s : ℝ} (hr : o.ray.normSq = 1)
    (h : nearestAlong c m o = some s) : NearestAt c m o s := by
  unfold nearestAlong at h
  simp only [cdiv, Option.bind_eq_bind] at h
  by_cases hq : (m.cross o.ray).normSq = 0
  · rw [if_pos hq] at h; simp at h
  rw [if_neg hq] at h
  simp only [Option.bind_some, Option.pure_def, Option.some.injEq] at h
  intro s'
  generalize o.ray = r at *
  generalize o.centre = k at *
  have key : ∀ s, lineDistSq k r (alongLine c m s) =
      (((c.sub k).cross r).add (V3.smul s (m.cross r))).normSq := by
    intro s
    have e : ∀ v : V3 ℝ, v.normSq - v.dot r * v.dot r = (v.cross r).normSq + v.normSq * (1 - r.normSq) := by
      intro v; simp only [lin]; ring
    unfold lineDistSq
    rw [e, hr, sub_self, mul_zero, add_zero]
    congr 1
    unfold alongLine
    lin3
  rw [key, key]
  have hu : ((c.sub k).cross r) = (r.cross (c.sub k)).neg := by lin3
  rw [hu]
  generalize r.cross (c.sub k) = u at *
  generalize m.cross r = q at *
  have hs : s * q.normSq = q.dot u := by
    rw [← h, V3.smul_dot]; field_simp
  have e : ∀ s, (u.neg.add (V3.smul s q)).normSq = u.normSq - 2 * s * q.dot u + s * s * q.normSq := by
    intro s; simp only [lin]; ring
  rw [e, e, ← hs]
  have h0 : 0 ≤ q.normSq := V3.normSq_nonneg q
  nlinarith [mul_nonneg (mul_self_nonneg (s - s')) h0]

theorem mapM_forall₂ {α β : Type} {f : α → Option β} {l : List α} {bs : List β} (h : l.mapM f = some bs) :
    List.Forall₂ (fun a b => f a = some b) l bs := by
  induction l generalizing bs with
  | nil => simp at h; subst h; exact .nil
  | cons a l ih =>
    rw [List.mapM_cons] at h
    simp only [Option.bind_eq_bind, Option.bind_eq_some_iff, Option.pure_def, Option.some.injEq] at h
    obtain ⟨b, hb, bs', hbs, rfl⟩ := h
    exact .cons hb (ih hbs)

theorem forall₂_nearest {c m : V3 ℝ} {os : List Observation} {ss : List ℝ} (hray : ∀ o ∈ os, o.ray.normSq = 1)
    (h : List.Forall₂ (fun o s => nearestAlong c m o = some s) os ss) : List.Forall₂ (NearestAt c m) os ss := by
  induction h with
  | nil => exact .nil
  | cons ha _ ih =>
    exact .cons (C104_nearest (hray _ List.mem_cons_self) ha) (ih fun o ho => hray o (List.mem_cons_of_mem _ ho))

/-- A point at `w = 1 / k` along the ray from `c`. -/
theorem toPoint_along {c m : V3 ℝ} {k w : ℝ} {p : V4 ℝ} (hw : cdiv 1 k = some w)
    (hp : fromHomogeneous ⟨(m.add (V3.smul w c)).x, (m.add (V3.smul w c)).y, (m.add (V3.smul w c)).z, w⟩ = some p) :
    toPoint p = some (alongLine c m k) := by
  have hk : k ≠ 0 := by intro h; rw [h, cdiv, if_pos rfl] at hw; simp at hw
  rw [cdiv, if_neg hk, Option.some.injEq] at hw
  have hw0 : w ≠ 0 := by rw [← hw]; exact div_ne_zero one_ne_zero hk
  have e : (⟨(m.add (V3.smul w c)).x, (m.add (V3.smul w c)).y, (m.add (V3.smul w c)).z, w⟩ : V4 ℝ) =
      V4.smul w (hom (alongLine c m k)) := by
    unfold hom alongLine
    rw [← hw]
    ext <;> simp only [lin] <;> field_simp
    all_goals ring
  rw [e, fromHomogeneous_hom hw0] at hp
  have hx : alongLine c m k ≠ V3.zero := by
    intro h0
    rw [h0] at hp
    unfold fromPoint at hp
    rw [fromHomogeneous_eq, if_pos (by unfold V3.norm; simp [lin])] at hp
    simp at hp
  obtain ⟨q, hq1, hq2, -⟩ := C33_round_trip _ hx
  rw [hq1] at hp
  rw [← Option.some.inj hp]; exact hq2

/-- **C104** What is returned: from the mean of the centres in the direction of the sum of the rays, as far as the points
of this line nearest to the single rays are on average. -/
theorem C104_returned {os : List Observation} (hr : Proper os) {p : V4 ℝ} (h : meanMean os = some p) :
    ∃ m ss, m.normSq = 1 ∧ vecSum (os.map Observation.ray) = V3.smul (vecSum (os.map Observation.ray)).norm m ∧
      List.Forall₂ (NearestAt (V3.smul (1 / os.length) (vecSum (os.map Observation.centre))) m) os ss ∧
      toPoint p = some (alongLine (V3.smul (1 / os.length) (vecSum (os.map Observation.centre))) m
        (ss.sum / os.length)) := by
  have hray : ∀ o ∈ os, o.ray.normSq = 1 := by
    intro o ho
    unfold Observation.ray
    rw [M3.IsRot.normSq_mulVec (hr.rigid o ho).inv, hr.unit o ho]
  unfold meanMean at h
  split at h
  · simp at h
  simp only [Option.bind_eq_bind, Option.bind_eq_some_iff] at h
  obtain ⟨m, hm, ds, hds, w, hw, q, hq, hc⟩ := h
  have hc' : q = p := by
    split at hc
    · exact Option.some.inj hc
    · simp at hc
  subst hc'
  rw [sumRays_eq] at hm
  unfold averageCentre at hds hq
  rw [sumCentres_eq] at hds hq
  obtain ⟨h0, rfl⟩ := normalize_some hm
  refine ⟨_, ds, V3.normalize_normSq h0, ?_, ?_, toPoint_along hw hq⟩
  · have hn := (V3.norm_pos h0).ne'
    ext <;> simp only [lin] <;> field_simp
  · exact forall₂_nearest hray (mapM_forall₂ hds)

/-- **C104** Fewer than two observations give nothing. -/
theorem C104_too_few {os : List Observation} (h : os.length < 2) : meanMean os = none := by
  unfold meanMean
  match os, h with
  | [], _ => rfl
  | [o], _ =>
    rw [if_neg (by simp)]
    have e : sumRays [o] = o.ray := by unfold sumRays; simp only [List.foldl_cons, List.foldl_nil]; lin3
    rw [e]
    cases hm : o.ray.normalize with
    | none => rfl
    | some m =>
      obtain ⟨h0, rfl⟩ := normalize_some hm
      have hq : ((V3.smul (1 / o.ray.norm) o.ray).cross o.ray).normSq = 0 := by
        simp only [lin]; ring
      have hd : nearestAlong (averageCentre [o]) (V3.smul (1 / o.ray.norm) o.ray) o = none := by
        unfold nearestAlong
        simp only [cdiv, hq, if_true]
        rfl
      simp only [List.mapM_cons, hd, Option.bind_eq_bind, Option.bind_none, Option.bind_some]

theorem sums_of_sighted {os : List Observation} {x : V3 ℝ} {d : ℝ}
    (h : ∀ o ∈ os, x.sub o.centre = V3.smul d o.ray) :
    (vecSum (os.map Observation.centre)).add (V3.smul d (vecSum (os.map Observation.ray))) =
      V3.smul (os.length : ℝ) x := by
  induction os with
  | nil => simp only [List.map_nil, vecSum, List.foldr_nil, List.length_nil, Nat.cast_zero]; lin3
  | cons o os ih =>
    have h1 := h o List.mem_cons_self
    have h2 := ih fun o ho => h o (List.mem_cons_of_mem _ ho)
    simp only [vecSum] at h2 ⊢
    simp only [List.map_cons, List.foldr_cons, List.length_cons]
    generalize List.foldr V3.add V3.zero (os.map Observation.centre) = a at *
    generalize List.foldr V3.add V3.zero (os.map Observation.ray) = b at *
    generalize o.centre = c at *
    generalize o.ray = r at *
    push_cast
    rw [V3.ext_iff] at h1 h2 ⊢
    simp only [lin] at h1 h2 ⊢
    refine ⟨?_, ?_, ?_⟩ <;> linarith [h1.1, h1.2.1, h1.2.2, h2.1, h2.2.1, h2.2.2]

theorem sub_centre {o : Observation} (hR : o.pose.Rigid) {x : V3 ℝ} {d : ℝ}
    (h : o.pose.point x = V3.smul d o.bearing) : x.sub o.centre = V3.smul d o.ray := by
  have e1 : o.pose.inv.rot.mulVec (o.pose.point x) =
      ((o.pose.rot.transpose.mul o.pose.rot).mulVec x).sub o.centre := by lin3
  rw [hR.orth, M3.one_mulVec] at e1
  rw [← e1, h]
  unfold Observation.ray
  lin3

open Classical in
/-- **C104** (partial) On exact data, with all cameras equally far from the point, the point is returned, provided no ray
has the direction of the mean ray and the cheirality test lets it through (as in C51, this test compares the directions of
the rays with the direction of the point from the world's origin). -/
theorem C104_exact_partial {os : List Observation} (hp : Proper os) {x : V3 ℝ} {d : ℝ} (hd : d ≠ 0)
    (h : ∀ o ∈ os, o.pose.point x = V3.smul d o.bearing) (hne : os ≠ [])
    (hq : ∀ o ∈ os, (vecSum (os.map Observation.ray)).cross o.ray ≠ V3.zero) (hx : x ≠ V3.zero) :
    (meanMean os).bind toPoint = if ∀ o ∈ os, 0 ≤ o.ray.dot x then some x else none := by
  have hs : ∀ o ∈ os, x.sub o.centre = V3.smul d o.ray := fun o ho => sub_centre (hp.rigid o ho) (h o ho)
  have hsum := sums_of_sighted hs
  have hn : (os.length : ℝ) ≠ 0 := by simpa using hne
  have hS : vecSum (os.map Observation.ray) ≠ V3.zero := by
    intro h0
    obtain ⟨o, ho⟩ := List.exists_mem_of_ne_nil os hne
    apply hq o ho
    rw [h0]
    lin3
  have hN := (V3.norm_pos hS).ne'
  have hk : d * (vecSum (os.map Observation.ray)).norm / os.length ≠ 0 := div_ne_zero (mul_ne_zero hd hN) hn
  have hxc : x = alongLine (averageCentre os) (V3.smul (1 / (vecSum (os.map Observation.ray)).norm)
      (vecSum (os.map Observation.ray))) (d * (vecSum (os.map Observation.ray)).norm / os.length) := by
    unfold alongLine averageCentre
    rw [sumCentres_eq]
    generalize vecSum (os.map Observation.centre) = a at *
    generalize vecSum (os.map Observation.ray) = b at *
    rw [V3.ext_iff] at hsum ⊢
    simp only [lin] at hsum ⊢
    field_simp
    refine ⟨?_, ?_, ?_⟩ <;> linarith [hsum.1, hsum.2.1, hsum.2.2]
  have hnear : ∀ o ∈ os, nearestAlong (averageCentre os) (V3.smul (1 / (vecSum (os.map Observation.ray)).norm)
      (vecSum (os.map Observation.ray))) o = some (d * (vecSum (os.map Observation.ray)).norm / os.length) := by
    intro o ho
    have h1 := hs o ho
    have h2 := hq o ho
    generalize d * (vecSum (os.map Observation.ray)).norm / os.length = k at *
    have hqm : (V3.smul (1 / (vecSum (os.map Observation.ray)).norm) (vecSum (os.map Observation.ray))).cross o.ray =
        V3.smul (1 / (vecSum (os.map Observation.ray)).norm) ((vecSum (os.map Observation.ray)).cross o.ray) := by
      lin3
    have hm0 : ((V3.smul (1 / (vecSum (os.map Observation.ray)).norm)
        (vecSum (os.map Observation.ray))).cross o.ray).normSq ≠ 0 := by
      rw [hqm, V3.normSq_smul]
      refine mul_ne_zero (by positivity) ?_
      intro e
      exact h2 (V3.normSq_eq_zero.mp e)
    generalize V3.smul (1 / (vecSum (os.map Observation.ray)).norm) (vecSum (os.map Observation.ray)) = m at *
    unfold nearestAlong
    simp only [cdiv, Option.bind_eq_bind]
    rw [if_neg hm0]
    simp only [Option.bind_some, Option.pure_def, Option.some.injEq]
    have ht : o.ray.cross ((averageCentre os).sub o.centre) = V3.smul k (m.cross o.ray) := by
      have : (averageCentre os).sub o.centre = (V3.smul d o.ray).sub (V3.smul k m) := by
        rw [← h1]
        conv_rhs => rw [hxc]
        unfold alongLine
        lin3
      rw [this]
      lin3
    rw [ht, V3.dot_smul, V3.smul_dot, V3.dot_self]
    field_simp
  have hmap : os.mapM (nearestAlong (averageCentre os) (V3.smul (1 / (vecSum (os.map Observation.ray)).norm)
      (vecSum (os.map Observation.ray)))) =
      some (List.replicate os.length (d * (vecSum (os.map Observation.ray)).norm / os.length)) := by
    revert hnear
    generalize nearestAlong _ _ = f
    generalize d * (vecSum (os.map Observation.ray)).norm / (os.length : ℝ) = k
    clear * -
    induction os with
    | nil => intro _; rfl
    | cons o os ih =>
      intro hf
      rw [List.mapM_cons, hf o List.mem_cons_self, ih fun o ho => hf o (List.mem_cons_of_mem _ ho)]
      rfl
  unfold meanMean
  rw [if_neg (by simpa using hne), sumRays_eq, normalize_of_ne hS]
  simp only [Option.bind_eq_bind, Option.bind_some]
  rw [hmap]
  simp only [Option.bind_some, List.sum_replicate, nsmul_eq_mul]
  rw [mul_div_cancel_left₀ _ hn]
  generalize V3.smul (1 / (vecSum (os.map Observation.ray)).norm) (vecSum (os.map Observation.ray)) = m at *
  generalize d * (vecSum (os.map Observation.ray)).norm / (os.length : ℝ) = k at *
  have hw0 : 1 / k ≠ 0 := div_ne_zero one_ne_zero hk
  rw [cdiv, if_neg hk, Option.bind_some]
  have e : (⟨(m.add (V3.smul (1 / k) (averageCentre os))).x, (m.add (V3.smul (1 / k) (averageCentre os))).y,
      (m.add (V3.smul (1 / k) (averageCentre os))).z, 1 / k⟩ : V4 ℝ) = V4.smul (1 / k) (hom x) := by
    conv_rhs => rw [hxc]
    unfold hom alongLine
    ext <;> simp only [lin] <;> field_simp
    all_goals ring
  obtain ⟨q, hq1, hq2, hq3, hq4⟩ := C33_round_trip x hx
  rw [e, fromHomogeneous_hom hw0, hq1, Option.bind_some]
  have hch : cheiral os q ↔ ∀ o ∈ os, 0 ≤ o.ray.dot x := by
    unfold cheiral
    have hpos := V3.norm_pos hx
    refine forall₂_congr fun o _ => ?_
    conv_rhs => rw [← hq3, V3.dot_smul]
    exact (mul_nonneg_iff_of_pos_left hpos).symm
  by_cases hc : ∀ o ∈ os, 0 ≤ o.ray.dot x
  · rw [if_pos (hch.mpr hc), if_pos hc, Option.bind_some, hq2]
  · rw [if_neg (fun h' => hc (hch.mp h')), if_neg hc, Option.bind_none]

theorem nearestAlong_scaled {c S : V3 ℝ} {o : Observation} {N t : ℝ} (hN : N ≠ 0) (hq : (S.cross o.ray).normSq ≠ 0)
    (ht : t * (S.cross o.ray).normSq = (S.cross o.ray).dot (o.ray.cross (c.sub o.centre))) :
    nearestAlong c (V3.smul (1 / N) S) o = some (N * t) := by
  have e : (V3.smul (1 / N) S).cross o.ray = V3.smul (1 / N) (S.cross o.ray) := by lin3
  unfold nearestAlong
  simp only [cdiv, Option.bind_eq_bind, e]
  rw [V3.normSq_smul, if_neg (mul_ne_zero (by positivity) hq)]
  simp only [Option.bind_some, Option.pure_def, Option.some.injEq]
  rw [V3.smul_dot, V3.smul_dot, ← ht]
  field_simp

namespace ExMean

/-- A camera that is not turned. -/
def seen (c b : V3 ℝ) : Observation := ⟨⟨M3.one, c.neg⟩, b⟩

theorem seen_ray (c b : V3 ℝ) : (seen c b).ray = b := by unfold seen; lin3
theorem seen_centre (c b : V3 ℝ) : (seen c b).centre = c := by unfold seen; lin3

theorem seen_rigid (c b : V3 ℝ) : (seen c b).pose.Rigid := (Iso.Rigid.one : (Iso.one : Iso ℝ).Rigid)

/-- Two cameras, both five units away from (0, 0, 4). -/
noncomputable def equal : List Observation := [seen ⟨-3, 0, 0⟩ ⟨3 / 5, 0, 4 / 5⟩, seen ⟨3, 0, 0⟩ ⟨-3 / 5, 0, 4 / 5⟩]

/-- Two cameras, four and five units away from (0, 0, 4). -/
noncomputable def unequal : List Observation := [seen ⟨0, 0, 0⟩ ⟨0, 0, 1⟩, seen ⟨-3, 0, 0⟩ ⟨3 / 5, 0, 4 / 5⟩]

theorem equal_proper : Proper equal := by
  constructor
  · intro o ho
    simp only [equal, List.mem_cons, List.not_mem_nil, or_false] at ho
    rcases ho with rfl | rfl <;> exact seen_rigid _ _
  · intro o ho
    simp only [equal, List.mem_cons, List.not_mem_nil, or_false] at ho
    rcases ho with rfl | rfl <;> simp only [seen, lin] <;> norm_num

theorem unequal_proper : Proper unequal := by
  constructor
  · intro o ho
    simp only [unequal, List.mem_cons, List.not_mem_nil, or_false] at ho
    rcases ho with rfl | rfl <;> exact seen_rigid _ _
  · intro o ho
    simp only [unequal, List.mem_cons, List.not_mem_nil, or_false] at ho
    rcases ho with rfl | rfl <;> simp only [seen, lin] <;> norm_num

/-- Equally far cameras: the point is found. -/
example : (meanMean equal).bind toPoint = some ⟨0, 0, 4⟩ := by
  have hsum : vecSum (equal.map Observation.ray) = ⟨0, 0, 8 / 5⟩ := by
    simp only [equal, List.map_cons, List.map_nil, seen_ray, vecSum, List.foldr_cons, List.foldr_nil]
    ext <;> simp only [lin] <;> norm_num
  have h1 : ∀ o ∈ equal, 0 ≤ o.ray.dot ⟨0, 0, 4⟩ := by
    intro o ho
    simp only [equal, List.mem_cons, List.not_mem_nil, or_false] at ho
    rcases ho with rfl | rfl <;> rw [seen_ray] <;> simp only [lin] <;> norm_num
  rw [C104_exact_partial equal_proper (x := ⟨0, 0, 4⟩) (d := 5) (by norm_num) ?_ (by simp [equal]) ?_
    (by intro h; rw [V3.ext_iff] at h; simp [lin] at h), if_pos h1]
  · intro o ho
    simp only [equal, List.mem_cons, List.not_mem_nil, or_false] at ho
    rcases ho with rfl | rfl <;> ext <;> simp only [seen, lin] <;> norm_num
  · rw [hsum]
    intro o ho h
    simp only [equal, List.mem_cons, List.not_mem_nil, or_false] at ho
    rcases ho with rfl | rfl <;> rw [seen_ray, V3.ext_iff] at h <;> simp only [lin] at h <;> norm_num at h

/-- Unequally far cameras: another point is found. -/
theorem meanMean_unequal : (meanMean unequal).bind toPoint = some ⟨-3 / 20, 0, 81 / 20⟩ := by
  have hS : vecSum (unequal.map Observation.ray) = ⟨3 / 5, 0, 9 / 5⟩ := by
    simp only [unequal, List.map_cons, List.map_nil, seen_ray, vecSum, List.foldr_cons, List.foldr_nil]
    ext <;> simp only [lin] <;> norm_num
  have hC : averageCentre unequal = ⟨-3 / 2, 0, 0⟩ := by
    unfold averageCentre
    rw [sumCentres_eq]
    simp only [unequal, List.map_cons, List.map_nil, seen_centre, vecSum, List.foldr_cons, List.foldr_nil,
      List.length_cons, List.length_nil]
    ext <;> simp only [lin] <;> norm_num
  have h0 : (⟨3 / 5, 0, 9 / 5⟩ : V3 ℝ) ≠ V3.zero := by
    intro h; rw [V3.ext_iff] at h; simp [lin] at h
  have hN := (V3.norm_pos h0).ne'
  have hmap : unequal.mapM (nearestAlong ⟨-3 / 2, 0, 0⟩ (V3.smul (1 / (⟨3 / 5, 0, 9 / 5⟩ : V3 ℝ).norm)
      ⟨3 / 5, 0, 9 / 5⟩)) = some [(⟨3 / 5, 0, 9 / 5⟩ : V3 ℝ).norm * (5 / 2), (⟨3 / 5, 0, 9 / 5⟩ : V3 ℝ).norm * 2] := by
    unfold unequal
    rw [List.mapM_cons, nearestAlong_scaled (t := 5 / 2) hN, List.mapM_cons, nearestAlong_scaled (t := 2) hN]
    · rfl
    all_goals
      rw [seen_ray]
      try rw [seen_centre]
      simp only [lin]
      norm_num
  unfold meanMean
  rw [if_neg (by simp [unequal]), sumRays_eq, hS, normalize_of_ne h0]
  simp only [Option.bind_eq_bind, Option.bind_some]
  rw [hC, hmap]
  simp only [Option.bind_some]
  generalize (⟨3 / 5, 0, 9 / 5⟩ : V3 ℝ).norm = N at hN ⊢
  have hk : [N * (5 / 2), N * 2].sum / (unequal.length : ℝ) = N * (9 / 4) := by
    simp [unequal]; ring
  rw [hk]
  have hk0 : N * (9 / 4) ≠ 0 := mul_ne_zero hN (by norm_num)
  rw [cdiv, if_neg hk0, Option.bind_some]
  have hx : (⟨-3 / 20, 0, 81 / 20⟩ : V3 ℝ) ≠ V3.zero := by
    intro h; rw [V3.ext_iff] at h; simp [lin] at h
  have e : ∀ v : V3 ℝ, v = (V3.smul (1 / N) ⟨3 / 5, 0, 9 / 5⟩).add (V3.smul (1 / (N * (9 / 4))) ⟨-3 / 2, 0, 0⟩) →
      (⟨v.x, v.y, v.z, 1 / (N * (9 / 4))⟩ : V4 ℝ) = V4.smul (1 / (N * (9 / 4))) (hom ⟨-3 / 20, 0, 81 / 20⟩) := by
    rintro v rfl
    unfold hom
    ext <;> simp only [lin] <;> field_simp <;> norm_num
  rw [e _ rfl, fromHomogeneous_hom (div_ne_zero one_ne_zero hk0)]
  obtain ⟨q, hq1, hq2, hq3, -⟩ := C33_round_trip _ hx
  rw [hq1, Option.bind_some, if_pos, Option.bind_some, hq2]
  intro o ho
  have hpos := V3.norm_pos hx
  refine (mul_nonneg_iff_of_pos_left hpos).mp ?_
  rw [← V3.dot_smul, hq3]
  simp only [unequal, List.mem_cons, List.not_mem_nil, or_false] at ho
  rcases ho with rfl | rfl <;> rw [seen_ray] <;> simp only [lin] <;> norm_num

end ExMean

/-- **C104** In general the point is not returned, although each camera sees it exactly: with two cameras, four and five
units away from the point (0, 0, 4) and looking at it, the result is (-3/20, 0, 81/20). -/
theorem C104_exact_false : ∃ (os : List Observation) (x y : V3 ℝ), Proper os ∧
    (∀ o ∈ os, Looks o.pose o.bearing x) ∧ (∀ o ∈ os, 0 ≤ o.ray.dot x) ∧
    (meanMean os).bind toPoint = some y ∧ y ≠ x := by
  refine ⟨ExMean.unequal, ⟨0, 0, 4⟩, _, ExMean.unequal_proper, ?_, ?_, ExMean.meanMean_unequal, ?_⟩
  · intro o ho
    simp only [ExMean.unequal, List.mem_cons, List.not_mem_nil, or_false] at ho
    rcases ho with rfl | rfl
    · refine ⟨by simp only [ExMean.seen, lin]; norm_num, 4, by norm_num, ?_⟩
      ext <;> simp only [ExMean.seen, lin] <;> norm_num
    · refine ⟨by simp only [ExMean.seen, lin]; norm_num, 5, by norm_num, ?_⟩
      ext <;> simp only [ExMean.seen, lin] <;> norm_num
  · intro o ho
    simp only [ExMean.unequal, List.mem_cons, List.not_mem_nil, or_false] at ho
    rcases ho with rfl | rfl <;> rw [ExMean.seen_ray] <;> simp only [lin] <;> norm_num
  · intro h
    rw [V3.ext_iff] at h
    norm_num at h

end Verif.Geo
