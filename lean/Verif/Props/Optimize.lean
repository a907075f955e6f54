import Verif.Lemmas.Optimize
import Verif.Props.Pose
import Verif.Props.ThreeView

/-!
# C55: the pose optimisers
-/

namespace Verif.Geo

/-! ## One view -/

theorem landmarkDelta_exact {pose : Iso ℝ} {lm : WorldMatch} (h : Fits pose lm) :
    (lm.2.w = 0 ∧ landmarkDelta pose lm = none) ∨
    (lm.2.w ≠ 0 ∧ landmarkDelta pose lm = some Tangent.zero) := by
  unfold Fits at h
  rw [Option.map_eq_some_iff] at h
  obtain ⟨q, hq, hb⟩ := h
  have hw := (C34_transform_infinity pose hq).1
  unfold landmarkDelta
  rw [hq]
  simp only
  by_cases h0 : q.w = 0
  · left
    refine ⟨hw.mp h0, ?_⟩
    unfold toPoint
    rw [if_pos h0]
    rfl
  · right
    refine ⟨fun e => h0 (hw.mpr e), ?_⟩
    have hn := (normal_of_some hq).1
    rw [hb] at hn
    unfold toPoint
    rw [if_neg h0, Option.map_some]
    congr 1
    have e : V3.smul (1 / q.w) q.xyz = V3.smul (1 / q.w) lm.1 := by rw [← hb]; rfl
    rw [e]
    generalize 1 / q.w = k
    have h1 : (V3.smul ((V3.smul k lm.1).dot lm.1) lm.1).sub (V3.smul k lm.1) = V3.zero := by
      have : (V3.smul k lm.1).dot lm.1 = k * lm.1.normSq := by simp only [lin]; ring
      rw [this, hn, mul_one]
      lin3
    unfold worldPoseGradient Tangent.new
    simp only [h1, Option.getD_some]
    unfold Tangent.zero
    congr 1
    unfold V3.normalize
    split
    · rfl
    · simp only [Option.map_some, Option.getD_some]
      generalize 1 / (V3.smul k lm.1).norm = l
      lin3

theorem landmarkDeltas_exact {pose : Iso ℝ} {lms : List WorldMatch} (h : ∀ lm ∈ lms, Fits pose lm) :
    ∀ g ∈ landmarkDeltas pose lms, g = Tangent.zero := by
  intro g hg
  obtain ⟨lm, hlm, e⟩ := List.mem_filterMap.mp hg
  rcases landmarkDelta_exact (h lm hlm) with ⟨_, h⟩ | ⟨_, h⟩
  · rw [h] at e; cases e
  · rw [h] at e; exact (Option.some.inj e).symm

theorem landmarkDeltas_ne {pose : Iso ℝ} {lms : List WorldMatch} {lm : WorldMatch} (hlm : lm ∈ lms)
    (hw : lm.2.w ≠ 0) : landmarkDeltas pose lms ≠ [] := by
  intro e
  have hn : landmarkDelta pose lm ≠ none := by
    unfold landmarkDelta
    cases hq : transform pose lm.2 with
    | none => simp
    | some q =>
      have := (C34_transform_infinity pose hq).1
      simp only
      unfold toPoint
      rw [if_neg (fun h => hw (this.mp h))]
      simp
  obtain ⟨g, hg⟩ := Option.ne_none_iff_exists'.mp hn
  have : g ∈ landmarkDeltas pose lms := List.mem_filterMap.mpr ⟨lm, hlm, hg⟩
  rw [e] at this
  cases this

theorem singleStepL2_exact {pose : Iso ℝ} {lms : List WorldMatch} (h : ∀ lm ∈ lms, Fits pose lm)
    (rate : ℝ) : singleStepL2 rate lms pose = pose := by
  unfold singleStepL2
  rw [sum_zero (landmarkDeltas_exact h), scale_zero, scale_zero, isometry_zero, Iso.one_mul]

/-- **C55** A pose that fits all landmarks exactly is left as it is by both single-view optimisers, for
every rate and number of iterations. The first needs a landmark that is not at infinity. -/
theorem C55_single_exact_partial {pose : Iso ℝ} {lms : List WorldMatch} (h : ∀ lm ∈ lms, Fits pose lm)
    (eps rate : ℝ) (n : Nat) :
    singleViewL2 pose rate n lms = some pose ∧
    ((∃ lm ∈ lms, lm.2.w ≠ 0) → singleViewL1 pose eps rate n lms = some pose) := by
  constructor
  · unfold singleViewL2
    split
    · rfl
    · exact optimizeLoop_fixed (by rw [singleStepL2_exact h]) _ _ _
  · rintro ⟨lm, hlm, hw⟩
    unfold singleViewL1
    split
    · rfl
    · refine optimizeLoop_fixed ?_ _ _ _
      rw [stepL1_zero (landmarkDeltas_exact h) (landmarkDeltas_ne hlm hw), Option.map_some,
        isometry_zero, Iso.one_mul]

theorem harmonic_nonneg {ws : List ℝ} (h : ∀ w ∈ ws, 0 ≤ w) (hne : ws ≠ []) :
    ∃ s, harmonic ws = some s := by
  unfold harmonic
  by_cases h0 : (0 : ℝ) ∈ ws
  · exact ⟨0, by rw [if_pos h0]⟩
  · rw [if_neg h0]
    have hpos : ∀ w ∈ ws, 0 < w := fun w hw =>
      lt_of_le_of_ne (h w hw) (fun e => h0 (by rw [e]; exact hw))
    have : 0 < (ws.map (fun w => 1 / w)).sum := by
      obtain ⟨w, l, rfl⟩ := List.exists_cons_of_ne_nil hne
      rw [List.map_cons, List.sum_cons]
      have h1 : 0 < 1 / w := one_div_pos.mpr (hpos w List.mem_cons_self)
      have h2 : 0 ≤ (l.map (fun w => 1 / w)).sum := by
        refine List.sum_nonneg fun x hx => ?_
        obtain ⟨y, hy, rfl⟩ := List.mem_map.mp hx
        exact (one_div_pos.mpr (hpos y (List.mem_cons_of_mem _ hy))).le
      linarith
    exact ⟨_, P3P.cdiv_of_ne this.ne'⟩

theorem stepL1_some {gs : List Tangent} (hne : gs ≠ []) {tscale eps : ℝ} (ht : 0 ≤ tscale)
    (he : 0 ≤ eps) (rate : ℝ) : ∃ d, stepL1 tscale eps rate gs = some d := by
  obtain ⟨s, hs⟩ := harmonic_nonneg (ws := gs.map (fun g => g.translation.norm + tscale * eps)) (by
      intro w hw
      obtain ⟨g, _, rfl⟩ := List.mem_map.mp hw
      exact add_nonneg (V3.norm_nonneg _) (mul_nonneg ht he)) (by simpa using hne)
  obtain ⟨r, hr⟩ := harmonic_nonneg (ws := gs.map (fun g => g.rotation.norm + eps)) (by
      intro w hw
      obtain ⟨g, _, rfl⟩ := List.mem_map.mp hw
      exact add_nonneg (V3.norm_nonneg _) he) (by simpa using hne)
  unfold stepL1
  rw [hs, hr]
  exact ⟨_, rfl⟩

/-- **C55** The first single-view optimiser, given a landmark that is not at infinity, repeats its step until
the first time that for fifty steps neither length of the sum of the unit gradients fell below all former
values, but at most the given number of times; every step is a number. -/
theorem C55_single_l1_stops {pose : Iso ℝ} {lms : List WorldMatch} (hf : ∃ lm ∈ lms, lm.2.w ≠ 0)
    {eps : ℝ} (he : 0 ≤ eps) (rate : ℝ) (n : Nat) :
    ∃ seq : Nat → Iso ℝ, seq 0 = pose ∧
      (∀ k, ∃ d, stepL1 (seq k).t.norm eps rate (landmarkDeltas (seq k) lms) = some d ∧
        seq (k + 1) = d.isometry.mul (seq k)) ∧
      ∃ k ≤ n, singleViewL1 pose eps rate n lms = some (seq k) ∧
        (let hist := fun k => (Tangent.sum ((landmarkDeltas (seq k) lms).map Tangent.l1)).sizes
         (∀ j < k, ¬ Stalled hist j) ∧ (k < n → Stalled hist k ∧ 50 ≤ k)) := by
  obtain ⟨lm, hlm, hw⟩ := hf
  have hd : ∀ p : Iso ℝ, ∃ d, stepL1 p.t.norm eps rate (landmarkDeltas p lms) = some d := fun p =>
    stepL1_some (landmarkDeltas_ne hlm hw) (V3.norm_nonneg _) he rate
  choose d hd using hd
  let seq : Nat → Iso ℝ := fun k => (fun p => (d p).isometry.mul p)^[k] pose
  have hs : ∀ k, seq (k + 1) = (d (seq k)).isometry.mul (seq k) := fun k =>
    Function.iterate_succ_apply' _ _ _
  refine ⟨seq, rfl, fun k => ⟨d (seq k), hd _, hs k⟩, ?_⟩
  have hne : lms.isEmpty = false := by
    cases lms with
    | nil => cases hlm
    | cons _ _ => rfl
  obtain ⟨k, h1, h2, h3, h4⟩ := optimizeLoop_start (seq := seq)
    (sizes := fun p => (Tangent.sum ((landmarkDeltas p lms).map Tangent.l1)).sizes)
    (update := fun p => (stepL1 p.t.norm eps rate (landmarkDeltas p lms)).map
      (fun d => d.isometry.mul p)) (fun k => by rw [hd, hs]; rfl) 2 (fun p => rfl) n
  refine ⟨k, h1, ?_, h3, fun h => ⟨h4 h, stalled_fifty (fun k => by simp [Tangent.sizes]) (h4 h)⟩⟩
  unfold singleViewL1
  rw [hne]
  exact h2

/-- **C55** The second single-view optimiser repeats its step until the first time that for fifty steps
neither length of the summed gradient fell below all former values, but at most the given number of
times. So it makes all the steps up to fifty. -/
theorem C55_single_l2_stops {pose : Iso ℝ} {lms : List WorldMatch} (hne : lms ≠ []) (rate : ℝ)
    (n : Nat) :
    let seq := fun k => (singleStepL2 rate lms)^[k] pose
    let hist := fun k => (Tangent.sum (landmarkDeltas (seq k) lms)).sizes
    ∃ k ≤ n, singleViewL2 pose rate n lms = some (seq k) ∧
      (∀ j < k, ¬ Stalled hist j) ∧ (k < n → Stalled hist k ∧ 50 ≤ k) := by
  intro seq hist
  obtain ⟨k, h1, h2, h3, h4⟩ := optimizeLoop_start (seq := seq)
    (sizes := fun p => (Tangent.sum (landmarkDeltas p lms)).sizes)
    (update := fun p => some (singleStepL2 rate lms p))
    (fun k => by rw [show seq (k + 1) = _ from Function.iterate_succ_apply' _ _ _]) 2 (fun p => rfl) n
  refine ⟨k, h1, ?_, h3, fun h => ⟨h4 h, stalled_fifty (fun k => by simp [Tangent.sizes]) (h4 h)⟩⟩
  unfold singleViewL2
  rw [if_neg (by simpa using hne)]
  exact h2

/-- **C55** When the first single-view optimiser returns a number: always, except if it gets landmarks and all
of them are at infinity. -/
theorem C55_single_l1_number {pose : Iso ℝ} (hp : pose.Rigid) {lms : List WorldMatch}
    (hn : ∀ lm ∈ lms, Normal lm.2) {eps : ℝ} (he : 0 ≤ eps) (rate : ℝ) (n : Nat) :
    singleViewL1 pose eps rate (n + 1) lms = none ↔ lms ≠ [] ∧ ∀ lm ∈ lms, lm.2.w = 0 := by
  constructor
  · intro h
    constructor
    · rintro rfl
      cases h
    · intro lm hlm
      by_contra hw
      obtain ⟨seq, _, _, k, _, hk, _⟩ := C55_single_l1_stops (pose := pose) ⟨lm, hlm, hw⟩ he rate (n + 1)
      rw [h] at hk
      cases hk
  · rintro ⟨hne, hw⟩
    have hd : landmarkDeltas pose lms = [] := by
      unfold landmarkDeltas
      rw [List.filterMap_eq_nil_iff]
      intro lm hlm
      unfold landmarkDelta
      cases hq : transform pose lm.2 with
      | none =>
        exfalso
        have h1 := (C33_from_homogeneous (pose.homMul lm.2)).1.mp hq
        have h2 : (pose.homMul lm.2).xyz = pose.rot.mulVec lm.2.xyz := by
          have h0 := hw lm hlm
          ext <;> simp only [lin, h0] <;> ring
        rw [h2] at h1
        have h3 : (pose.rot.mulVec lm.2.xyz).normSq = 1 := by
          rw [M3.IsRot.normSq_mulVec hp]
          exact (hn lm hlm).1
        rw [h1] at h3
        simp [lin] at h3
      | some q =>
        have := (C34_transform_infinity pose hq).1.mpr (hw lm hlm)
        simp only
        unfold toPoint
        rw [if_pos this]
        rfl
    unfold singleViewL1
    rw [if_neg (by simpa using hne), optimizeLoop]
    have e : stepL1 pose.t.norm eps rate (landmarkDeltas pose lms) = none := by
      rw [hd]
      simp [stepL1, harmonic, cdiv]
    simp only [e, Option.map_none, Option.bind_none]
    simp [track, Tangent.sizes]

/-- The full statement is false: with one landmark at infinity, seen exactly, the first optimiser
returns a pose that is not a number. -/
theorem C55_l1_infinity : ∃ (pose : Iso ℝ) (lm : WorldMatch), pose.Rigid ∧ Normal lm.2 ∧ Fits pose lm ∧
    ∀ eps ≥ 0, ∀ rate n, singleViewL1 pose eps rate (n + 1) [lm] = none := by
  have hN : Normal (⟨0, 0, 1, 0⟩ : V4 ℝ) := ⟨by simp [bearing, lin], le_rfl⟩
  refine ⟨Iso.one, (⟨0, 0, 1⟩, ⟨0, 0, 1, 0⟩), Iso.Rigid.one, hN, ?_, fun eps he rate n => ?_⟩
  · unfold Fits
    rw [C34_transform_one hN]
    rfl
  · rw [C55_single_l1_number Iso.Rigid.one (by simpa using hN) he]
    simp

/-! ## Three views -/

theorem consistent_of_fits {p : Iso ℝ × Iso ℝ} (h1 : p.1.Rigid) (h2 : p.2.Rigid) {o : Bearings}
    (h : FitsThree p o) : ∃ x, Consistent o.center ((invPoses p).1.rot.mulVec o.first) (invPoses p).1.t
      ((invPoses p).2.rot.mulVec o.second) (invPoses p).2.t x := by
  have key : ∀ {a : Iso ℝ} {b x : V3 ℝ}, a.Rigid → Looks a b x → Ahead a.inv.t (a.inv.rot.mulVec b) x := by
    rintro a b x ha ⟨hb, d, hd, e⟩
    refine ⟨by rw [M3.IsRot.normSq_mulVec ha.inv, hb], d, hd, ?_⟩
    have e1 : a.inv.point (a.point x) = x := by
      rw [← Iso.point_mul, ha.inv_mul]
      lin3
    rw [← e1, e]
    lin3
  obtain ⟨x, hc, hf, hs⟩ := h
  refine ⟨x, ⟨?_, key h1 hf, key h2 hs⟩⟩
  obtain ⟨hb, d, hd, e⟩ := hc
  refine ⟨hb, d, hd, ?_⟩
  rw [← e]
  lin3

theorem landmarkGradients_exact {p : Iso ℝ × Iso ℝ} (h1 : p.1.Rigid) (h2 : p.2.Rigid) {o : Bearings}
    (h : FitsThree p o) : landmarkGradients (invPoses p) o = (Tangent.zero, Tangent.zero) := by
  obtain ⟨x, hx⟩ := consistent_of_fits h1 h2 h
  exact C54_gradients_vanish hx

theorem gradients_exact {p : Iso ℝ × Iso ℝ} (h1 : p.1.Rigid) (h2 : p.2.Rigid) {os : List Bearings}
    (h : ∀ o ∈ os, FitsThree p o) :
    (∀ g ∈ firstGradients (invPoses p) os, g = Tangent.zero) ∧
    (∀ g ∈ secondGradients (invPoses p) os, g = Tangent.zero) := by
  constructor
  · intro g hg
    obtain ⟨o, ho, rfl⟩ := List.mem_map.mp hg
    rw [landmarkGradients_exact h1 h2 (h o ho)]
  · intro g hg
    obtain ⟨o, ho, rfl⟩ := List.mem_map.mp hg
    rw [landmarkGradients_exact h1 h2 (h o ho)]

theorem inv_inv {a : Iso ℝ} (h : a.Rigid) : a.inv.inv = a := by
  have := M3.IsRot.orth' h
  have e : a.inv.inv = ⟨a.rot, (a.rot.mul a.rot.transpose).mulVec a.t⟩ := by lin3
  rw [e, this, M3.one_mulVec]

theorem invPoses_inv {p : Iso ℝ × Iso ℝ} (h1 : p.1.Rigid) (h2 : p.2.Rigid) :
    invPoses (invPoses p) = p := by
  unfold invPoses
  rw [inv_inv h1, inv_inv h2]

theorem movePoses_zero (p : Iso ℝ × Iso ℝ) : movePoses p Tangent.zero Tangent.zero = p := by
  unfold movePoses
  rw [isometry_zero, Iso.one_mul, Iso.one_mul]

theorem adaptiveStep_zero {gs : List Tangent} (h : ∀ g ∈ gs, g = Tangent.zero) :
    adaptiveStep gs = Tangent.zero := by
  unfold adaptiveStep
  simp only [sum_zero h, scale_zero, scaleTranslation_zero, scaleRotation_zero]

/-- **C55** Relative poses that fit all landmarks exactly are left as they are by the three-view
optimisers, for every rate and number of iterations. -/
theorem C55_three_exact {p : Iso ℝ × Iso ℝ} (h1 : p.1.Rigid) (h2 : p.2.Rigid) {os : List Bearings}
    (h : ∀ o ∈ os, FitsThree p o) (eps rate : ℝ) (n : Nat) :
    threeViewL1 p eps rate n os = some p ∧ threeViewL2 p rate n os = some p ∧
    threeViewAdaptive p n os = p := by
  obtain ⟨hf, hs⟩ := gradients_exact h1 h2 h
  by_cases he : os = []
  · subst he
    exact ⟨rfl, rfl, rfl⟩
  have hne : ¬ os.isEmpty = true := by simpa using he
  have hf0 : firstGradients (invPoses p) os ≠ [] := by simpa [firstGradients] using he
  have hs0 : secondGradients (invPoses p) os ≠ [] := by simpa [secondGradients] using he
  refine ⟨?_, ?_, ?_⟩
  · unfold threeViewL1
    rw [if_neg hne, optimizeLoop_fixed, Option.map_some, invPoses_inv h1 h2]
    unfold threeStepL1
    simp only [stepL1_zero hf hf0, stepL1_zero hs hs0, Option.bind_eq_bind, Option.bind_some,
      movePoses_zero]
    rfl
  · unfold threeViewL2
    rw [if_neg hne, optimizeLoop_fixed, Option.map_some, invPoses_inv h1 h2]
    unfold threeStepL2
    rw [sum_zero hf, sum_zero hs, scale_zero, movePoses_zero]
  · unfold threeViewAdaptive
    rw [if_neg hne]
    have hstep : threeStepAdaptive os (invPoses p) = invPoses p := by
      unfold threeStepAdaptive
      rw [adaptiveStep_zero hf, adaptiveStep_zero hs, movePoses_zero]
    have : (List.replicate n ()).foldl (fun p _ => threeStepAdaptive os p) (invPoses p) =
        invPoses p := by
      induction n with
      | zero => rfl
      | succ n ih => rw [List.replicate_succ, List.foldl_cons, hstep, ih]
    rw [this, invPoses_inv h1 h2]

/-- **C55** Without landmarks, or without iterations, the optimisers return what they got. -/
theorem C55_nothing_to_do (pose : Iso ℝ) {p : Iso ℝ × Iso ℝ} (h1 : p.1.Rigid) (h2 : p.2.Rigid)
    (eps rate : ℝ) (n : Nat) (lms : List WorldMatch) (os : List Bearings) :
    singleViewL1 pose eps rate n [] = some pose ∧ singleViewL1 pose eps rate 0 lms = some pose ∧
    singleViewL2 pose rate n [] = some pose ∧ singleViewL2 pose rate 0 lms = some pose ∧
    threeViewL1 p eps rate n [] = some p ∧ threeViewL1 p eps rate 0 os = some p ∧
    threeViewL2 p rate n [] = some p ∧ threeViewL2 p rate 0 os = some p ∧
    threeViewAdaptive p n [] = p ∧ threeViewAdaptive p 0 os = p := by
  refine ⟨rfl, ?_, rfl, ?_, rfl, ?_, rfl, ?_, rfl, ?_⟩
  · unfold singleViewL1; split <;> rfl
  · unfold singleViewL2; split <;> rfl
  · unfold threeViewL1
    split
    · rfl
    · simp only [optimizeLoop, Option.map_some, invPoses_inv h1 h2]
  · unfold threeViewL2
    split
    · rfl
    · simp only [optimizeLoop, Option.map_some, invPoses_inv h1 h2]
  · unfold threeViewAdaptive
    split
    · rfl
    · simp only [List.replicate_zero, List.foldl_nil, invPoses_inv h1 h2]

theorem Moved.rigid {k : Nat} {p q : Iso ℝ} (h : Moved k p q) (hp : p.Rigid) : q.Rigid := by
  induction h with
  | refl => exact hp
  | step d _ ih => exact (Tangent.isometry_rigid d).mul (ih hp)

/-- **C55** Whatever a single-view optimiser returns is reached by at most the given number of rigid
motions, so a rigid pose stays rigid. -/
theorem C55_single_moves {pose q : Iso ℝ} {lms : List WorldMatch} {eps rate : ℝ} {n : Nat}
    (h : singleViewL1 pose eps rate n lms = some q ∨ singleViewL2 pose rate n lms = some q) :
    (∃ k ≤ n, Moved k pose q) ∧ (pose.Rigid → q.Rigid) := by
  have main : ∃ k ≤ n, Moved k pose q := by
    rcases h with h | h
    · unfold singleViewL1 at h
      split at h
      · obtain rfl := Option.some.inj h
        exact ⟨0, Nat.zero_le _, .refl _⟩
      · obtain ⟨m, _, h2, h3⟩ := optimizeLoop_induct (I := fun k q => Moved k pose q) (k := 0)
          (fun k p q hI hu => by
            obtain ⟨d, _, rfl⟩ := Option.map_eq_some_iff.mp hu
            exact .step d hI) (.refl _) h
        exact ⟨m, by omega, h3⟩
    · unfold singleViewL2 at h
      split at h
      · obtain rfl := Option.some.inj h
        exact ⟨0, Nat.zero_le _, .refl _⟩
      · obtain ⟨m, _, h2, h3⟩ := optimizeLoop_induct (I := fun k q => Moved k pose q) (k := 0)
          (fun k p q hI hu => by
            obtain rfl := Option.some.inj hu
            exact .step _ hI) (.refl _) h
        exact ⟨m, by omega, h3⟩
  obtain ⟨k, hk, hm⟩ := main
  exact ⟨⟨k, hk, hm⟩, hm.rigid⟩

/-- **C55** Whatever a three-view optimiser returns is reached by at most the given number of rigid motions
of the inverse poses, the same number for both, and both stay rigid. -/
theorem C55_three_moves {p q : Iso ℝ × Iso ℝ} (h1 : p.1.Rigid) (h2 : p.2.Rigid) {os : List Bearings}
    {eps rate : ℝ} {n : Nat}
    (h : threeViewL1 p eps rate n os = some q ∨ threeViewL2 p rate n os = some q ∨
      threeViewAdaptive p n os = q) :
    (∃ k ≤ n, Moved k p.1.inv q.1.inv ∧ Moved k p.2.inv q.2.inv) ∧ q.1.Rigid ∧ q.2.Rigid := by
  let I : Nat → Iso ℝ × Iso ℝ → Prop := fun k r => Moved k p.1.inv r.1 ∧ Moved k p.2.inv r.2
  have fin : ∀ {k : Nat} {r : Iso ℝ × Iso ℝ}, k ≤ n → I k r → q = invPoses r →
      (∃ k ≤ n, Moved k p.1.inv q.1.inv ∧ Moved k p.2.inv q.2.inv) ∧ q.1.Rigid ∧ q.2.Rigid := by
    rintro k r hk ⟨ha, hb⟩ rfl
    have r1 := ha.rigid h1.inv
    have r2 := hb.rigid h2.inv
    refine ⟨⟨k, hk, ?_, ?_⟩, r1.inv, r2.inv⟩
    · rw [show (invPoses r).1.inv = r.1 from inv_inv r1]; exact ha
    · rw [show (invPoses r).2.inv = r.2 from inv_inv r2]; exact hb
  have h0 : I 0 (invPoses p) := ⟨.refl _, .refl _⟩
  rcases h with h | h | h
  · unfold threeViewL1 at h
    split at h
    · obtain rfl := Option.some.inj h
      exact fin (Nat.zero_le _) h0 (invPoses_inv h1 h2).symm
    · obtain ⟨r, hr, rfl⟩ := Option.map_eq_some_iff.mp h
      obtain ⟨m, _, h4, h5⟩ := optimizeLoop_induct (I := I) (k := 0) (fun k s t hI hu => by
        unfold threeStepL1 at hu
        simp only [Option.bind_eq_bind, Option.bind_eq_some_iff] at hu
        obtain ⟨d, _, e, _, hu⟩ := hu
        obtain rfl := Option.some.inj hu
        exact ⟨.step d hI.1, .step e hI.2⟩) h0 hr
      exact fin (by omega) h5 rfl
  · unfold threeViewL2 at h
    split at h
    · obtain rfl := Option.some.inj h
      exact fin (Nat.zero_le _) h0 (invPoses_inv h1 h2).symm
    · obtain ⟨r, hr, rfl⟩ := Option.map_eq_some_iff.mp h
      obtain ⟨m, _, h4, h5⟩ := optimizeLoop_induct (I := I) (k := 0) (fun k s t hI hu => by
        obtain rfl := Option.some.inj hu
        exact ⟨.step _ hI.1, .step _ hI.2⟩) h0 hr
      exact fin (by omega) h5 rfl
  · unfold threeViewAdaptive at h
    split at h
    · subst h
      exact fin (Nat.zero_le _) h0 (invPoses_inv h1 h2).symm
    · have : ∀ (m k : Nat) (r : Iso ℝ × Iso ℝ), I k r →
          I (k + m) ((List.replicate m ()).foldl (fun p _ => threeStepAdaptive os p) r) := by
        intro m
        induction m with
        | zero => intro k r hr; exact hr
        | succ m ih =>
          intro k r hr
          rw [List.replicate_succ, List.foldl_cons]
          have := ih (k + 1) (threeStepAdaptive os r) ⟨.step _ hr.1, .step _ hr.2⟩
          rwa [show k + 1 + m = k + (m + 1) by omega] at this
      have h3 := this n 0 _ h0
      rw [Nat.zero_add] at h3
      exact fin le_rfl h3 h.symm

/-- **C55** The second three-view optimiser repeats its step until the first time that for fifty steps none
of the four lengths of the summed gradients fell below all former values, but at most the given number of
times. -/
theorem C55_three_l2_stops (p : Iso ℝ × Iso ℝ) {os : List Bearings} (hne : os ≠ []) (rate : ℝ)
    (n : Nat) :
    let seq := fun k => (threeStepL2 rate os)^[k] (invPoses p)
    let hist := fun k => (Tangent.sum (firstGradients (seq k) os)).sizes ++
      (Tangent.sum (secondGradients (seq k) os)).sizes
    ∃ k ≤ n, threeViewL2 p rate n os = some (invPoses (seq k)) ∧
      (∀ j < k, ¬ Stalled hist j) ∧ (k < n → Stalled hist k ∧ 50 ≤ k) := by
  intro seq hist
  obtain ⟨k, h1, h2, h3, h4⟩ := optimizeLoop_start (seq := seq)
    (sizes := fun p => (Tangent.sum (firstGradients p os)).sizes ++
      (Tangent.sum (secondGradients p os)).sizes)
    (update := fun p => some (threeStepL2 rate os p))
    (fun k => by rw [show seq (k + 1) = _ from Function.iterate_succ_apply' _ _ _]) 4 (fun p => rfl) n
  refine ⟨k, h1, ?_, h3, fun h => ⟨h4 h, stalled_fifty (fun k => by simp [Tangent.sizes]) (h4 h)⟩⟩
  unfold threeViewL2
  rw [if_neg (by simpa using hne)]
  have h2 : optimizeLoop (fun p => (Tangent.sum (firstGradients p os)).sizes ++
      (Tangent.sum (secondGradients p os)).sizes) (fun p => some (threeStepL2 rate os p)) n
      [none, none, none, none] 0 (invPoses p) = some (seq k) := h2
  rw [h2]
  rfl

/-- **C55** The first three-view optimiser never returns a pose that is not a number. -/
theorem C55_three_l1_number (p : Iso ℝ × Iso ℝ) (os : List Bearings) {eps : ℝ} (he : 0 ≤ eps)
    (rate : ℝ) (n : Nat) : ∃ q, threeViewL1 p eps rate n os = some q := by
  unfold threeViewL1
  split
  · exact ⟨_, rfl⟩
  · rename_i hne
    have hstep : ∀ r, ∃ s, threeStepL1 eps rate os r = some s := by
      intro r
      have ht : 0 ≤ r.1.t.norm + r.2.t.norm := add_nonneg (V3.norm_nonneg _) (V3.norm_nonneg _)
      have hne : os ≠ [] := by simpa using hne
      obtain ⟨d, hd⟩ := stepL1_some (gs := firstGradients r os) (by simpa [firstGradients] using hne)
        ht he rate
      obtain ⟨e, he⟩ := stepL1_some (gs := secondGradients r os) (by simpa [secondGradients] using hne)
        ht he rate
      unfold threeStepL1
      simp only [hd, he]
      exact ⟨_, rfl⟩
    have : ∀ (n : Nat) (bests : List (Option ℝ)) (idle : Nat) (r : Iso ℝ × Iso ℝ)
        (sizes : Iso ℝ × Iso ℝ → List ℝ),
        ∃ q, optimizeLoop sizes (threeStepL1 eps rate os) n bests idle r = some q := by
      intro n
      induction n with
      | zero => intro bests idle r sizes; exact ⟨_, rfl⟩
      | succ n ih =>
        intro bests idle r sizes
        obtain ⟨s, hs⟩ := hstep r
        rw [optimizeLoop]
        generalize (if (List.zipWith track bests (sizes r)).any (fun x => x.2) then 0 else idle + 1) = i
        split
        · exact ⟨_, rfl⟩
        · rw [hs, Option.bind_some]
          exact ih _ _ _ _
    obtain ⟨q, hq⟩ := this n [none, none, none, none] 0 (invPoses p) _
    rw [hq]
    exact ⟨_, rfl⟩

/-! ## The hypotheses can be met -/

/-- A camera five units before the origin sees the origin straight ahead. -/
example : Fits ⟨M3.one, ⟨0, 0, 5⟩⟩ (⟨0, 0, 1⟩, ⟨0, 0, 0, 1⟩) := by
  have e : (⟨M3.one, ⟨0, 0, 5⟩⟩ : Iso ℝ).homMul ⟨0, 0, 0, 1⟩ = ⟨0, 0, 5, 1⟩ := by
    ext <;> simp only [lin] <;> norm_num
  have hn : (⟨0, 0, 5⟩ : V3 ℝ).norm = 5 := V3.norm_of_normSq (by norm_num) (by simp only [lin]; norm_num)
  unfold Fits transform
  rw [e, fromHomogeneous_eq]
  have hx : (⟨0, 0, 5, 1⟩ : V4 ℝ).xyz = ⟨0, 0, 5⟩ := rfl
  rw [hx, hn, if_neg (by norm_num), sgn_of_nonneg (by norm_num)]
  simp only [Option.map_some, Option.some.injEq]
  ext <;> simp [bearing, lin]

/-- Three cameras in a row see `(0, 0, 4)`. -/
example : FitsThree (⟨M3.one, ⟨3, 0, 0⟩⟩, ⟨M3.one, ⟨-3, 0, 0⟩⟩)
    ⟨⟨0, 0, 1⟩, ⟨3 / 5, 0, 4 / 5⟩, ⟨-3 / 5, 0, 4 / 5⟩⟩ :=
  ⟨⟨0, 0, 4⟩,
    ⟨by simp only [lin]; norm_num, 4, by norm_num, by ext <;> simp only [lin] <;> norm_num⟩,
    ⟨by simp only [lin]; norm_num, 5, by norm_num, by ext <;> simp only [lin] <;> norm_num⟩,
    ⟨by simp only [lin]; norm_num, 5, by norm_num, by ext <;> simp only [lin] <;> norm_num⟩⟩

/-- A history that does not change is stalled from step fifty on. -/
example : Stalled (fun _ => [1, 2]) 50 ∧ ¬ Stalled (fun _ => [1, 2]) 49 := by
  refine ⟨fun d hd => ⟨by omega, fun i t h => ⟨0, by omega, t, h, le_rfl⟩⟩, fun h => ?_⟩
  have := stalled_fifty (fun k => by simp) h
  omega

end Verif.Geo
