import Verif.Model.FloatOptimize
import Verif.Props.FloatGeomExact

/-!
# The pose optimisers without rounding (C108)

With exact numbers in place of rounded ones the floating point optimisers are the exact models, so what C55 says holds
for them.
-/

namespace Verif.Geo.Rounded

open Verif.Akaze
open Verif.Akaze.Unrounded
open Verif.Bicubic (Flt)
open Verif.Akaze.ExFloat (fdiv)
open Verif.Akaze.FloatBits (isFinite isNan isSignNegative)
open P3P

/-- `f64::INFINITY`. -/
def infinity : Unrounded := Flt.inf false

theorem eq_num (x y : ℝ) : FloatOps.eq (num x) (num y) = true ↔ x = y := by
  simp only [FloatOps.eq, Bool.and_eq_true, num_le]
  exact ⟨fun h => le_antisymm h.1 h.2, fun h => ⟨h.le, h.ge⟩⟩

theorem faxisAngle_num {u : V3 ℝ} (hu : u.normSq = 1) (a : ℝ) :
    faxisAngle (numV u) (num a) = numM (rodrigues u (Real.sin a) (Real.cos a)) := by
  have hs : FloatOps.sin (num a) = num (Real.sin a) := rfl
  have hc : FloatOps.cos (num a) = num (Real.cos a) := rfl
  unfold faxisAngle numV numM
  simp only [hs, hc, num_one, num_mul, num_add, num_sub]
  generalize Real.sin a = s
  generalize Real.cos a = c
  have h : u.x * u.x + u.y * u.y + u.z * u.z = 1 := by rw [← hu]; simp only [lin]
  have e1 : u.x * u.x = 1 - u.y * u.y - u.z * u.z := by linarith
  have e2 : u.y * u.y = 1 - u.x * u.x - u.z * u.z := by linarith
  have e3 : u.z * u.z = 1 - u.x * u.x - u.y * u.y := by linarith
  simp only [lin]
  congr 2
  · linear_combination (1 - c) * e1
  · ring
  · ring
  · ring
  · linear_combination (1 - c) * e2
  · ring
  · ring
  · ring
  · linear_combination (1 - c) * e3

theorem fexpRot_num (w : V3 ℝ) : fexpRot (numV w) = numM (expRot w) := by
  unfold fexpRot expRot
  rw [fnorm_num, num_zero]
  by_cases h : w.norm = 0
  · rw [if_pos h, if_pos ((eq_num _ _).2 h)]
    rfl
  · rw [if_neg h, if_neg (fun h' => h ((eq_num _ _).1 h')), funscale_num h, faxisAngle_num]
    rw [V3.normSq_smul, ← V3.norm_mul_self w]
    field_simp

theorem fisometry_num (g : Tangent) : (numT g).isometry = numIso g.isometry := by
  unfold FTangent.isometry
  rw [show (numT g).rotation = numV g.rotation from rfl, show (numT g).translation = numV g.translation from rfl,
    fexpRot_num, fmulVec_num]
  rfl

theorem fisoMul_num (a b : Iso ℝ) : fisoMul (numIso a) (numIso b) = numIso (a.mul b) := by
  unfold fisoMul
  rw [show (numIso a).rot = numM a.rot from rfl, show (numIso b).rot = numM b.rot from rfl,
    show (numIso a).t = numV a.t from rfl, show (numIso b).t = numV b.t from rfl, fmul_num, fmulVec_num, fadd_num]
  unfold numIso
  congr 2
  lin3

theorem fscale_num (s : ℝ) (g : Tangent) : (numT g).scale (num s) = numT (g.scale s) := rfl
theorem fscaleT_num (s : ℝ) (g : Tangent) : (numT g).scaleTranslation (num s) = numT (g.scaleTranslation s) := rfl
theorem fscaleR_num (s : ℝ) (g : Tangent) : (numT g).scaleRotation (num s) = numT (g.scaleRotation s) := rfl

theorem fl1_num (g : Tangent) : (numT g).l1 = numT g.l1 := by
  have h : ∀ v : V3 ℝ, SameV v.normalize (fnormalize (numV v)) := by
    intro v
    cases hv : v.normalize with
    | none => rw [normalize_none hv]; exact fnormalize_zero
    | some n => exact fnormalize_num hv
  unfold FTangent.l1 FTangent.new Tangent.l1 Tangent.new
  rw [show (numT g).rotation = numV g.rotation from rfl, show (numT g).translation = numV g.translation from rfl,
    (h _).orZero, (h _).orZero]
  rfl

theorem fsum_num (gs : List Tangent) : fsum (gs.map numT) = numT (Tangent.sum gs) := by
  unfold fsum Tangent.sum
  rw [show (FTangent.zero : FTangent Unrounded) = numT Tangent.zero from rfl]
  generalize Tangent.zero = z
  induction gs generalizing z with
  | nil => rfl
  | cons g gs ih => exact ih (z.add g)

theorem map_l1_num (gs : List Tangent) : (gs.map numT).map FTangent.l1 = (gs.map Tangent.l1).map numT := by
  simp only [List.map_map]
  exact List.map_congr_left (fun g _ => fl1_num g)

theorem fsizes_num (g : Tangent) : (numT g).sizes = g.sizes.map num := by
  unfold FTangent.sizes Tangent.sizes
  rw [show (numT g).rotation = numV g.rotation from rfl, show (numT g).translation = numV g.translation from rfl,
    fnorm_num, fnorm_num]
  rfl

theorem lengths_num {α β : Type} (f : α → ℝ) (c : α → β) (h : β → Unrounded) (hh : ∀ g, h (c g) = num (f g)) (gs : List α) :
    (gs.map c).foldl (fun s g => s + h g) 0 = num (gs.map f).sum := by
  have key : ∀ z : ℝ, (gs.map c).foldl (fun s g => s + h g) (num z) = num (z + (gs.map f).sum) := by
    induction gs with
    | nil => intro z; simp
    | cons g gs ih =>
      intro z
      simp only [List.map_cons, List.foldl_cons, List.sum_cons]
      rw [hh, num_add, ih, add_assoc]
  rw [num_zero, key, zero_add]

/-! ### The loop -/

/-- The best value so far. -/
def best : Option ℝ → Unrounded
  | none => infinity
  | some b => num b

theorem ftrack_num (b : Option ℝ) (t : ℝ) : ftrack (best b) (num t) = (best (track b t).1, (track b t).2) := by
  cases b with
  | none =>
    show ftrack infinity (num t) = (num t, true)
    unfold ftrack
    rw [if_pos]
    exact (ieee.lt _ _).2 trivial
  | some b =>
    unfold ftrack track best
    by_cases h : t < b
    · rw [if_pos ((num_lt _ _).2 h)]; simp only [if_pos h]
    · rw [if_neg (fun h' => h ((num_lt _ _).1 h'))]; simp only [if_neg h]

theorem zipWith_track_num (bs : List (Option ℝ)) (ts : List ℝ) :
    List.zipWith ftrack (bs.map best) (ts.map num) = (List.zipWith track bs ts).map (fun x => (best x.1, x.2)) := by
  induction bs generalizing ts with
  | nil => rfl
  | cons b bs ih =>
    cases ts with
    | nil => rfl
    | cons t ts => simp only [List.map_cons, List.zipWith_cons_cons, ftrack_num, ih]

theorem foptimizeLoop_num {P Q : Type} (c : P → Q) {sizes : P → List ℝ} {fsizes : Q → List Unrounded}
    {update : P → Option P} {fupdate : Q → Q} (hs : ∀ p, fsizes (c p) = (sizes p).map num)
    (hu : ∀ p q, update p = some q → fupdate (c p) = c q) (n : Nat) (bs : List (Option ℝ)) (idle : Nat) {p q : P}
    (h : optimizeLoop sizes update n bs idle p = some q) :
    foptimizeLoop fsizes fupdate n (bs.map best) idle (c p) = c q := by
  induction n generalizing bs idle p with
  | zero => rw [Option.some.inj h]; rfl
  | succ n ih =>
    unfold optimizeLoop at h
    unfold foptimizeLoop
    simp only at h ⊢
    rw [hs, zipWith_track_num]
    have e : ((List.zipWith track bs (sizes p)).map (fun x => (best x.1, x.2))).any (fun x => x.2) =
        (List.zipWith track bs (sizes p)).any (fun x => x.2) := by rw [List.any_map]; rfl
    have e' : ((List.zipWith track bs (sizes p)).map (fun x => (best x.1, x.2))).map (fun x => x.1) =
        ((List.zipWith track bs (sizes p)).map (fun x => x.1)).map best := by simp only [List.map_map]; rfl
    rw [e, e']
    generalize (if ((List.zipWith track bs (sizes p)).any fun x => x.2) = true then 0 else idle + 1) = k at h ⊢
    by_cases hk : 50 ≤ k
    · rw [if_pos hk] at h ⊢
      rw [Option.some.inj h]
    · rw [if_neg hk] at h ⊢
      cases hq : update p with
      | none => rw [hq] at h; cases h
      | some r =>
        rw [hq] at h
        rw [hu p r hq]
        exact ih _ _ h

/-! ### The steps -/

/-- Reciprocals of weights that are not negative. -/
theorem harmonic_num {α β : Type} (f : α → ℝ) (c : α → β) (h : β → Unrounded) (hh : ∀ g, h (c g) = num (f g)) (gs : List α)
    (h0 : ∀ g ∈ gs, 0 ≤ f g) {s : ℝ} (hs : harmonic (gs.map f) = some s) :
    1 / (gs.map c).foldl (fun s g => s + 1 / h g) 0 = num s := by
  unfold harmonic at hs
  by_cases hz : 0 ∈ gs.map f
  · rw [if_pos hz] at hs
    have key : ∀ (gs : List α) (z : Unrounded), (∀ g ∈ gs, 0 ≤ f g) → (z = infinity ∨ (∃ x, z = num x) ∧ 0 ∈ gs.map f) →
        (gs.map c).foldl (fun s g => s + 1 / h g) z = infinity := by
      intro gs
      induction gs with
      | nil =>
        rintro z - (h | ⟨-, h⟩)
        · exact h
        · simp at h
      | cons g gs ih =>
        intro z hg hz
        simp only [List.map_cons, List.foldl_cons]
        apply ih _ (fun g' h' => hg g' (List.mem_cons_of_mem _ h'))
        have one : 1 / h (c g) = infinity ∧ f g = 0 ∨ 1 / h (c g) = num (1 / f g) ∧ f g ≠ 0 := by
          rw [hh, num_one]
          by_cases hf : f g = 0
          · left
            refine ⟨?_, hf⟩
            rw [hf]
            show fdiv (.num 1) (.num 0) = _
            simp [fdiv, infinity]
          · exact .inr ⟨num_div hf, hf⟩
        rcases hz with rfl | ⟨⟨x, rfl⟩, hz⟩
        · left
          rcases one with ⟨h1, -⟩ | ⟨h1, -⟩ <;> rw [h1] <;> rfl
        · rcases one with ⟨h1, -⟩ | ⟨h1, hf⟩
          · left; rw [h1]; rfl
          · right
            refine ⟨⟨x + 1 / f g, by rw [h1]; rfl⟩, ?_⟩
            rw [List.map_cons, List.mem_cons] at hz
            exact hz.resolve_left (fun e => hf e.symm)
    rw [key gs 0 h0 (.inr ⟨⟨0, rfl⟩, hz⟩), ← Option.some.inj hs]
    rfl
  · rw [if_neg hz] at hs
    have hf : ∀ g ∈ gs, f g ≠ 0 := fun g hg e => hz (List.mem_map.2 ⟨g, hg, e⟩)
    have key : ∀ (gs : List α) (z : ℝ), (∀ g ∈ gs, f g ≠ 0) →
        (gs.map c).foldl (fun s g => s + 1 / h g) (num z) = num (z + ((gs.map f).map (fun w => 1 / w)).sum) := by
      intro gs
      induction gs with
      | nil => intro z _; simp
      | cons g gs ih =>
        intro z hf
        simp only [List.map_cons, List.foldl_cons, List.sum_cons]
        rw [hh, show (1 : Unrounded) / num (f g) = num (1 / f g) from num_div (hf g (by simp)), num_add, ih _ (fun g' h' => hf g' (List.mem_cons_of_mem _ h')), add_assoc]
    rw [num_zero, key gs 0 hf, zero_add]
    unfold cdiv at hs
    split at hs
    · cases hs
    · rename_i hne
      rw [num_one, num_div hne, Option.some.inj hs]

theorem fstepL1_num {tscale eps : ℝ} (ht : 0 ≤ tscale) (he : 0 ≤ eps) (rate : ℝ) (gs : List Tangent) {d : Tangent}
    (h : stepL1 tscale eps rate gs = some d) :
    fstepL1 (num tscale) (num eps) (num rate) (gs.map numT) = numT d := by
  unfold stepL1 at h
  obtain ⟨ts, hts, h⟩ := Option.bind_eq_some_iff.1 h
  obtain ⟨rs, hrs, h⟩ := Option.bind_eq_some_iff.1 h
  rw [← Option.some.inj h]
  unfold fstepL1
  simp only
  rw [harmonic_num (fun g : Tangent => g.translation.norm + tscale * eps) numT
      (fun g => fnorm g.translation + num tscale * num eps) (fun g => by
        rw [show (numT g).translation = numV g.translation from rfl, fnorm_num]; rfl) gs
      (fun g _ => add_nonneg (V3.norm_nonneg _) (mul_nonneg ht he)) hts,
    harmonic_num (fun g : Tangent => g.rotation.norm + eps) numT
      (fun g => fnorm g.rotation + num eps) (fun g => by
        rw [show (numT g).rotation = numV g.rotation from rfl, fnorm_num]; rfl) gs
      (fun g _ => add_nonneg (V3.norm_nonneg _) he) hrs,
    map_l1_num, fsum_num, fscale_num, fscaleT_num, fscaleR_num]

/-! ### One view -/

/-- The match with unrounded numbers. -/
def numW (m : WorldMatch) : V3 Unrounded × V4 Unrounded := (numV m.1, numV4 m.2)

theorem ftransform_num (p : Iso ℝ) (v : V4 ℝ) : ftransform (numIso p) (numV4 v) = fhomogeneous (numV4 (p.homMul v)) := by
  unfold ftransform
  congr 1
  unfold numIso numM numV numV4
  simp only [num_zero, num_one, num_mul, num_add]
  simp only [lin]
  congr 2
  ring

theorem fcentre {p : V4 ℝ} (h : p.xyz.norm = 0) :
    ∃ x, fpoint (fhomogeneous (numV4 p)) = some x ∧ NanV ieee x := by
  have h0 := V3.norm_eq_zero.1 h
  obtain ⟨x, y, z, w⟩ := p
  have hx : x = 0 := congrArg V3.x h0
  have hy : y = 0 := congrArg V3.y h0
  have hz : z = 0 := congrArg V3.z h0
  subst hx hy hz
  have hn : fnorm (numV V3.zero) = num 0 := by rw [fnorm_num, norm_zero]
  have hneg : (-(num 0) : Unrounded) = num 0 := by rw [num_neg, neg_zero]
  have key : ∀ w : ℝ, ∃ x, fpoint (⟨num 0 / num 0, num 0 / num 0, num 0 / num 0, num w / num 0⟩ : V4 Unrounded) = some x ∧
      NanV ieee x := by
    intro w
    unfold fpoint
    rw [if_neg]
    · refine ⟨_, rfl, .inl ?_⟩
      simp only [zero_div_zero]
      exact ieee.div_nan _ _ (.inl rfl)
    · intro h
      simp only [FloatOps.eq, Bool.and_eq_true, ieee.le] at h
      have hd := not_div_zero w
      revert h hd
      generalize (num w / num 0 : Unrounded) = u
      rcases u with _ | s | x
      · rintro ⟨h, -⟩ -; exact h
      · rintro ⟨h, h'⟩ -
        cases s
        · exact h
        · exact h'
      · intro _ hd; exact absurd rfl (hd x)
  unfold fhomogeneous
  simp only
  by_cases hs : isSignNegative (num w) = true
  · rw [if_pos (show isSignNegative (numV4 ⟨0, 0, 0, w⟩).w = true from hs)]
    simp only [numV4, hneg]
    rw [show fnorm (⟨num 0, num 0, num 0⟩ : V3 Unrounded) = num 0 from hn, num_neg]
    exact key (-w)
  · rw [if_neg (show ¬isSignNegative (numV4 ⟨0, 0, 0, w⟩).w = true from hs)]
    simp only [numV4]
    rw [show fnorm (⟨num 0, num 0, num 0⟩ : V3 Unrounded) = num 0 from hn]
    exact key w

theorem flandmarkDelta_num (p : Iso ℝ) (m : WorldMatch) :
    flandmarkDelta (numIso p) (numW m) = (landmarkDelta p m).map numT := by
  unfold flandmarkDelta landmarkDelta transform
  rw [show (numW m).2 = numV4 m.2 from rfl, show (numW m).1 = numV m.1 from rfl, ftransform_num]
  cases hq : fromHomogeneous (p.homMul m.2) with
  | some q =>
    rw [(fhomogeneous_num _).1 q hq, fpoint_num]
    simp only [Option.map_map]
    congr 1
    funext x
    exact C105_unrounded_pose_gradient x m.1
  | none =>
    have h0 : (p.homMul m.2).xyz.norm = 0 := by
      unfold fromHomogeneous at hq
      simp only at hq
      have hv : ∀ v : V4 ℝ, (if v.xyz.norm = 0 then none else some (V4.smul (1 / v.xyz.norm) v)) = none → v.xyz.norm = 0 := by
        intro v hv
        by_contra h
        rw [if_neg h] at hv
        cases hv
      have h := hv _ hq
      split at h
      · rw [V3.norm_eq_zero] at h ⊢
        generalize p.homMul m.2 = v at h ⊢
        have hx := congrArg V3.x h
        have hy := congrArg V3.y h
        have hz := congrArg V3.z h
        simp only [lin, neg_eq_zero] at hx hy hz
        ext <;> simpa [lin]
      · exact h
    obtain ⟨x, hx, hn⟩ := fcentre h0
    rw [hx]
    show some (fworldPoseGradient x (numV m.1)) = some (numT Tangent.zero)
    unfold fworldPoseGradient FTangent.new
    rw [orZero_nan (nan_fsub (.inr hn)), orZero_nan (nan_cross (.inl (nan_normalize hn.bad)))]
    rfl

theorem flandmarkDeltas_num (p : Iso ℝ) (ms : List WorldMatch) :
    flandmarkDeltas (numIso p) (ms.map numW) = (landmarkDeltas p ms).map numT := by
  unfold flandmarkDeltas landmarkDeltas
  rw [List.filterMap_map, List.map_filterMap]
  congr 1
  funext m
  exact flandmarkDelta_num p m

/-- **C108** Without rounding, the first optimiser of one view is the exact one (C55). -/
theorem C108_unrounded_single_l1 {pose q : Iso ℝ} {eps : ℝ} (he : 0 ≤ eps) (rate : ℝ) (n : Nat) (ms : List WorldMatch)
    (h : singleViewL1 pose eps rate n ms = some q) :
    fsingleViewL1 infinity (numIso pose) (num eps) (num rate) n (ms.map numW) = numIso q := by
  unfold singleViewL1 at h
  unfold fsingleViewL1
  rw [List.isEmpty_map]
  split at h
  · rw [if_pos (by assumption), Option.some.inj h]
  · rw [if_neg (by assumption)]
    refine foptimizeLoop_num numIso (fun p => ?_) (fun p r hr => ?_) n [none, none] 0 h
    · rw [flandmarkDeltas_num, map_l1_num, fsum_num, fsizes_num]
    · obtain ⟨d, hd, rfl⟩ := Option.map_eq_some_iff.1 hr
      rw [flandmarkDeltas_num, show fnorm (numIso p).t = num p.t.norm from fnorm_num _,
        fstepL1_num (V3.norm_nonneg _) he rate _ hd, fisometry_num, fisoMul_num]

theorem count_num (n : ℕ) : ((n : ℕ) : Unrounded) = num n := rfl

theorem inv_count_num {n : ℕ} (h : n ≠ 0) : (1 / (n : Unrounded)) = num (1 / n) := by
  rw [count_num, num_one, num_div (Nat.cast_ne_zero.2 h)]

/-- **C108** So is the second one. -/
theorem C108_unrounded_single_l2 {pose q : Iso ℝ} (rate : ℝ) (n : Nat) (ms : List WorldMatch)
    (h : singleViewL2 pose rate n ms = some q) :
    fsingleViewL2 infinity (numIso pose) (num rate) n (ms.map numW) = numIso q := by
  unfold singleViewL2 at h
  unfold fsingleViewL2
  rw [List.isEmpty_map]
  split at h
  · rw [if_pos (by assumption), Option.some.inj h]
  · rename_i hne
    rw [if_neg hne]
    refine foptimizeLoop_num numIso (fun p => ?_) (fun p r hr => ?_) n [none, none] 0 h
    · rw [flandmarkDeltas_num, fsum_num, fsizes_num]
    · rw [← Option.some.inj hr]
      unfold fsingleStepL2 singleStepL2
      rw [flandmarkDeltas_num, fsum_num, List.length_map, inv_count_num (by
        intro h0; exact hne (List.isEmpty_iff.2 (List.length_eq_zero_iff.1 h0))), fscale_num, fscale_num, fisometry_num,
        fisoMul_num]

/-! ### Three views -/

/-- The bearings with unrounded numbers. -/
def numB (o : Bearings) : FBearings Unrounded := ⟨numV o.center, numV o.first, numV o.second⟩

/-- The poses with unrounded numbers. -/
def numIso2 (p : Iso ℝ × Iso ℝ) : Iso Unrounded × Iso Unrounded := (numIso p.1, numIso p.2)

theorem flandmarkGradients_num (p : Iso ℝ × Iso ℝ) (o : Bearings) :
    flandmarkGradients (numIso2 p) (numB o) = (numT (landmarkGradients p o).1, numT (landmarkGradients p o).2) := by
  have h := C105_unrounded_gradients o.center (p.1.rot.mulVec o.first) p.1.t (p.2.rot.mulVec o.second) p.2.t
  rw [← fmulVec_num, ← fmulVec_num] at h
  exact h

theorem ffirstGradients_num (p : Iso ℝ × Iso ℝ) (os : List Bearings) :
    ffirstGradients (numIso2 p) (os.map numB) = (firstGradients p os).map numT := by
  unfold ffirstGradients firstGradients
  simp only [List.map_map]
  exact List.map_congr_left (fun o _ => by simp only [Function.comp, flandmarkGradients_num])

theorem fsecondGradients_num (p : Iso ℝ × Iso ℝ) (os : List Bearings) :
    fsecondGradients (numIso2 p) (os.map numB) = (secondGradients p os).map numT := by
  unfold fsecondGradients secondGradients
  simp only [List.map_map]
  exact List.map_congr_left (fun o _ => by simp only [Function.comp, flandmarkGradients_num])

theorem fmovePoses_num (p : Iso ℝ × Iso ℝ) (d e : Tangent) :
    fmovePoses (numIso2 p) (numT d) (numT e) = numIso2 (movePoses p d e) := by
  unfold fmovePoses movePoses numIso2
  simp only [fisometry_num, fisoMul_num]

theorem finvPoses_num (p : Iso ℝ × Iso ℝ) : finvPoses (numIso2 p) = numIso2 (invPoses p) := by
  unfold finvPoses invPoses numIso2
  simp only [finv_num]

/-- **C108** So is the first optimiser of three views. -/
theorem C108_unrounded_three_l1 {poses q : Iso ℝ × Iso ℝ} {eps : ℝ} (he : 0 ≤ eps) (rate : ℝ) (n : Nat) (os : List Bearings)
    (h : threeViewL1 poses eps rate n os = some q) :
    fthreeViewL1 infinity (numIso2 poses) (num eps) (num rate) n (os.map numB) = numIso2 q := by
  unfold threeViewL1 at h
  unfold fthreeViewL1
  rw [List.isEmpty_map]
  split at h
  · rw [if_pos (by assumption), Option.some.inj h]
  · rw [if_neg (by assumption)]
    obtain ⟨r, hr, rfl⟩ := Option.map_eq_some_iff.1 h
    rw [← finvPoses_num, finvPoses_num]
    congr 1
    refine foptimizeLoop_num numIso2 (fun p => ?_) (fun p r hr => ?_) n [none, none, none, none] 0 hr
    · rw [ffirstGradients_num, fsecondGradients_num, map_l1_num, map_l1_num, fsum_num, fsum_num, fsizes_num, fsizes_num,
        List.map_append]
    · unfold threeStepL1 at hr
      obtain ⟨d, hd, hr⟩ := Option.bind_eq_some_iff.1 hr
      obtain ⟨e, he', hr⟩ := Option.bind_eq_some_iff.1 hr
      have hn : 0 ≤ p.1.t.norm + p.2.t.norm := add_nonneg (V3.norm_nonneg _) (V3.norm_nonneg _)
      unfold fthreeStepL1
      simp only
      rw [show fnorm (numIso2 p).1.t = num p.1.t.norm from fnorm_num _,
        show fnorm (numIso2 p).2.t = num p.2.t.norm from fnorm_num _, num_zero, num_add, num_add, zero_add,
        ffirstGradients_num, fsecondGradients_num, fstepL1_num hn he rate _ hd, fstepL1_num hn he rate _ he', fmovePoses_num,
        ← Option.some.inj hr]

theorem not_empty {α : Type} {l : List α} (h : ¬l.isEmpty = true) : l.length ≠ 0 :=
  fun h0 => h (List.isEmpty_iff.2 (List.length_eq_zero_iff.1 h0))

/-- **C108** So is the second one. -/
theorem C108_unrounded_three_l2 {poses q : Iso ℝ × Iso ℝ} (rate : ℝ) (n : Nat) (os : List Bearings)
    (h : threeViewL2 poses rate n os = some q) :
    fthreeViewL2 infinity (numIso2 poses) (num rate) n (os.map numB) = numIso2 q := by
  unfold threeViewL2 at h
  unfold fthreeViewL2
  rw [List.isEmpty_map]
  split at h
  · rw [if_pos (by assumption), Option.some.inj h]
  · rename_i hne
    rw [if_neg hne]
    obtain ⟨r, hr, rfl⟩ := Option.map_eq_some_iff.1 h
    rw [← finvPoses_num, finvPoses_num]
    congr 1
    refine foptimizeLoop_num numIso2 (fun p => ?_) (fun p r hr => ?_) n [none, none, none, none] 0 hr
    · rw [ffirstGradients_num, fsecondGradients_num, fsum_num, fsum_num, fsizes_num, fsizes_num, List.map_append]
    · rw [← Option.some.inj hr]
      unfold fthreeStepL2 threeStepL2
      rw [ffirstGradients_num, fsecondGradients_num, fsum_num, fsum_num, List.length_map, inv_count_num (not_empty hne), num_mul,
        fscale_num, fscale_num, fmovePoses_num]

theorem quotient_num (a b : ℝ) : finiteOrZero (num a / num b) = num ((cdiv a b).getD 0) := by
  unfold finiteOrZero cdiv
  by_cases hb : b = 0
  · rw [if_pos hb, hb, if_neg]
    · rfl
    · rw [bits.isFinite]
      rintro ⟨x, hx⟩
      exact not_div_zero a x hx
  · rw [if_neg hb, num_div hb]
    rfl

theorem fadaptiveStep_num {gs : List Tangent} (h : gs.length ≠ 0) : fadaptiveStep (gs.map numT) = numT (adaptiveStep gs) := by
  unfold fadaptiveStep adaptiveStep
  simp only
  rw [List.length_map, inv_count_num h, fsum_num, fscale_num,
    lengths_num (fun g : Tangent => g.translation.norm) numT (fun g => fnorm g.translation) (fun g => fnorm_num _) gs,
    lengths_num (fun g : Tangent => g.rotation.norm) numT (fun g => fnorm g.rotation) (fun g => fnorm_num _) gs,
    num_mul, num_mul]
  generalize (Tangent.sum gs).scale (1 / (gs.length : ℝ)) = g
  rw [show fnorm (numT g).translation = num g.translation.norm from fnorm_num _,
    show fnorm (numT g).rotation = num g.rotation.norm from fnorm_num _, quotient_num, quotient_num, fscaleT_num, fscaleR_num]

/-- **C108** So is the adaptive one. -/
theorem C108_unrounded_adaptive (poses : Iso ℝ × Iso ℝ) (n : Nat) (os : List Bearings) :
    fthreeViewAdaptive (numIso2 poses) n (os.map numB) = numIso2 (threeViewAdaptive poses n os) := by
  unfold fthreeViewAdaptive threeViewAdaptive
  rw [List.isEmpty_map]
  split
  · rfl
  · rename_i hne
    rw [← finvPoses_num, finvPoses_num]
    congr 1
    generalize invPoses poses = p
    induction n generalizing p with
    | zero => rfl
    | succ n ih =>
      rw [List.replicate_succ, List.foldl_cons, List.foldl_cons]
      rw [show fthreeStepAdaptive (os.map numB) (numIso2 p) = numIso2 (threeStepAdaptive os p) by
        unfold fthreeStepAdaptive threeStepAdaptive
        rw [ffirstGradients_num, fsecondGradients_num,
          fadaptiveStep_num (by unfold firstGradients; rw [List.length_map]; exact not_empty hne),
          fadaptiveStep_num (by unfold secondGradients; rw [List.length_map]; exact not_empty hne), fmovePoses_num]]
      exact ih _

end Verif.Geo.Rounded
