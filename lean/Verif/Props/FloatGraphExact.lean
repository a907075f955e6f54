import Verif.Model.FloatGraph
import Verif.Props.FloatGraph
import Verif.Props.FloatResidualExact
import Verif.Props.PoseGraphExample
import Verif.Props.FloatPinholeExample

/-!
# Graph optimisation, normalisation and relative scales without rounding (C110), and examples

With exact numbers in place of rounded ones the floating point functions are the exact models.
-/

namespace Verif.Geo.Rounded

open Verif.Akaze
open Verif.Akaze.Unrounded
open Verif.Bicubic (Flt)
open Verif.Akaze.FloatOps (lit lt le abs sqrt)
open Verif.Akaze.FloatBits (isFinite isNan isSignNegative)
open P3P

theorem allFinite_num (g : Tangent) : (numT g).allFinite = true := by
  have h : ∀ x : ℝ, isFinite (num x) = true := fun x => (bits.isFinite _).2 ⟨x, rfl⟩
  unfold FTangent.allFinite
  simp [numT, numV, h]

/-- **C110.** Without rounding the new pose of a view is that of C85, if the logarithm and the exponential are exact. -/
theorem C110_unrounded_pose {log : M3 Unrounded → V3 Unrounded} {exp : V3 Unrounded → M3 Unrounded}
    (hl : ∀ A, log (numM A) = numV (logRot A)) (he : ∀ w, exp (numV w) = numM (expRot w)) (rate : ℝ) (pose : Iso ℝ)
    (es : List (Iso ℝ × Iso ℝ)) :
    fmovedPose log exp (num rate) (numIso pose) (es.map fun e => (numIso e.1, numIso e.2)) =
      some (numIso (((Tangent.sum (es.map fun e => ((e.1 * e.2) * pose⁻¹).se3)).scale rate).pose * pose)) := by
  have hn : fnetDelta log (num rate) (numIso pose) (es.map fun e => (numIso e.1, numIso e.2)) =
      numT ((Tangent.sum (es.map fun e => ((e.1 * e.2) * pose⁻¹).se3)).scale rate) := by
    unfold fnetDelta
    rw [List.map_map, ← fscale_num, ← fsum_num, List.map_map]
    congr 2
    refine List.map_congr_left fun e _ => ?_
    show fse3 log (fisoMul (fisoMul (numIso e.1) (numIso e.2)) (finv (numIso pose))) = _
    rw [fisoMul_num, finv_num, fisoMul_num]
    unfold fse3
    rw [show (numIso ((e.1.mul e.2).mul pose.inv)).rot = numM ((e.1.mul e.2).mul pose.inv).rot from rfl, hl, orZero_num]
    rfl
  unfold fmovedPose
  simp only [hn, allFinite_num, if_true]
  rw [show (numT ((Tangent.sum (es.map fun e => ((e.1 * e.2) * pose⁻¹).se3)).scale rate)).rotation =
    numV ((Tangent.sum (es.map fun e => ((e.1 * e.2) * pose⁻¹).se3)).scale rate).rotation from rfl, he]
  exact congrArg some (fisoMul_num (Tangent.pose _) pose)

theorem fmeanLoop_num (l : List ℝ) : ∀ (n : Nat) (avg : ℝ), 
    fmeanLoop n (num avg) (l.map num) = num (if n + l.length = 0 then avg else (n * avg + l.sum) / (n + l.length : ℕ)) := by
  induction l with
  | nil =>
    intro n avg
    unfold fmeanLoop
    by_cases h : n = 0
    · simp [h]
    · have : (n : ℝ) ≠ 0 := by exact_mod_cast h
      simp [h]
  | cons x l ih =>
    intro n avg
    have hn : ((n + 1 : ℕ) : ℝ) ≠ 0 := by positivity
    rw [List.map_cons, fmeanLoop]
    rw [show ((n + 1 : ℕ) : Unrounded) = num ((n + 1 : ℕ) : ℝ) from rfl, num_sub, num_div hn, num_add, ih]
    congr 1
    rw [if_neg (by omega), if_neg (by simp), List.sum_cons, List.length_cons]
    rw [show n + 1 + l.length = n + (l.length + 1) from by omega]
    congr 1
    push_cast at hn ⊢
    field_simp
    ring

theorem fmean_num (empty : Unrounded) {l : List ℝ} (h : l ≠ []) : fmean empty (l.map num) = num (l.sum / l.length) := by
  unfold fmean
  rw [if_neg (by simpa using h), num_zero, fmeanLoop_num, if_neg (by simpa using h)]
  simp

theorem fmeanLoop_nan : ∀ (l : List Unrounded) (n : Nat) (avg : Unrounded),
    (ieee.val avg = .nan ∨ ∃ x ∈ l, ieee.val x = .nan) → ieee.val (fmeanLoop n avg l) = .nan := by
  intro l
  induction l with
  | nil =>
    rintro n avg (h | ⟨x, hx, -⟩)
    · exact h
    · cases hx
  | cons x l ih =>
    rintro n avg (h | ⟨y, hy, h⟩)
    · exact ih _ _ (.inl (nan_add (.inl h)))
    · rcases List.mem_cons.1 hy with rfl | hy
      · exact ih _ _ (.inl (nan_add (.inr (nan_div (.inl (nan_sub (.inl h)))))))
      · exact ih _ _ (.inr ⟨y, hy, h⟩)

/-- The distance of a point is there in both models or in neither, and the same. -/
theorem fdistance_num (pose : Iso ℝ) (w : V4 ℝ) :
    (Sfm.distanceFrom pose w = none ∧ (fpoint (ftransform (numIso pose) (numV4 w))).map fnorm = none) ∨
      ∃ o x, Sfm.distanceFrom pose w = some o ∧ (fpoint (ftransform (numIso pose) (numV4 w))).map fnorm = some x ∧
        SameR o x := by
  have ht := transform_num pose w
  unfold Sfm.distanceFrom
  cases hq : transform pose w with
  | some q =>
    rw [ht.1 q hq, fpoint_num]
    cases hp : toPoint q with
    | none => exact .inl ⟨by simp [hp], rfl⟩
    | some x =>
      refine .inr ⟨some x.norm, num x.norm, by simp [hp], ?_, fun r hr => by cases hr; rfl, by simp⟩
      simp [fnorm_num]
  | none =>
    refine .inr ⟨none, ?_⟩
    have hn := ht.2 hq
    have hz := fromHomogeneous_none hq
    have hw : FloatOps.eq (ftransform (numIso pose) (numV4 w)).w 0 = false := by
      rw [ftransform_num]
      generalize pose.homMul w = p at hz
      obtain ⟨x, y, z, w⟩ := p
      have h1 : x = 0 := congrArg V3.x hz
      have h2 : y = 0 := congrArg V3.y hz
      have h3 : z = 0 := congrArg V3.z hz
      subst h1 h2 h3
      have hneg : (-(num 0) : Unrounded) = num 0 := by rw [num_neg, neg_zero]
      have hzero : fnorm (⟨num 0, num 0, num 0⟩ : V3 Unrounded) = num 0 := by
        rw [show (⟨num 0, num 0, num 0⟩ : V3 Unrounded) = numV V3.zero from rfl, fnorm_num]
        congr 1
        simp [V3.norm, lin]
      have hd : ∀ v : ℝ, FloatOps.eq (num v / num 0) 0 = false := by
        intro v
        have : ieee.val (num v / num 0) = .nan ∨ ∃ s, ieee.val (num v / num 0) = .inf s := by
          by_cases hv : v = 0
          · left; rw [hv, zero_div_zero]; rfl
          · exact .inr (ieee.div_zero _ _ v rfl rfl hv)
        rw [← Bool.not_eq_true]
        unfold FloatOps.eq
        rw [Bool.and_eq_true, ieee.le, ieee.le, ieee.zero]
        rintro ⟨h1, h2⟩
        rcases this with h | ⟨s, h⟩
        · rw [h] at h1; simp [Flt.Le, Flt.Ge] at h1
        · rw [h] at h1 h2; cases s <;> simp [Flt.Le, Flt.Ge] at h1 h2
      unfold fhomogeneous numV4
      simp only
      split
      · simp only [hneg, hzero, num_neg]; exact hd _
      · simp only [hzero]; exact hd _
    refine ⟨fnorm (funscale (fbearing (ftransform (numIso pose) (numV4 w))) (ftransform (numIso pose) (numV4 w)).w), rfl, ?_,
      by simp, fun _ => ieee.sqrt_nan _ (nan_fdot (.inl (nan_unscale' (.inl hn))))⟩
    unfold fpoint
    rw [if_neg (by rw [hw]; simp)]
    rfl

/-- **C110.** Without rounding the mean distance of the points is that of C17, with NaN where the exact model has none. -/
theorem C110_unrounded_mean (pose : Iso ℝ) (ps : List (V4 ℝ)) {empty : Unrounded} (he : ieee.val empty = .nan) :
    SameR (Sfm.meanOf (ps.filterMap (Sfm.distanceFrom pose))) (fmean empty (fdistances (numIso pose) (ps.map numV4))) := by
  have key : ∀ ps : List (V4 ℝ),
      (∃ l : List ℝ, ps.filterMap (Sfm.distanceFrom pose) = l.map some ∧
        fdistances (numIso pose) (ps.map numV4) = l.map num) ∨
      (none ∈ ps.filterMap (Sfm.distanceFrom pose) ∧
        ∃ x ∈ fdistances (numIso pose) (ps.map numV4), ieee.val x = .nan) := by
    intro ps
    unfold fdistances
    induction ps with
    | nil => exact .inl ⟨[], rfl, rfl⟩
    | cons w ps ih =>
      rcases fdistance_num pose w with ⟨h1, h2⟩ | ⟨o, x, h1, h2, h3⟩
      · simp only [List.map_cons, List.filterMap_cons, h1, h2]
        exact ih
      · simp only [List.map_cons, List.filterMap_cons, h1, h2]
        cases o with
        | none => exact .inr ⟨by simp, x, by simp, h3.2 rfl⟩
        | some r =>
          rcases ih with ⟨l, e1, e2⟩ | ⟨e1, y, e2, e3⟩
          · exact .inl ⟨r :: l, by rw [e1]; rfl, by rw [e2, h3.1 r rfl]; rfl⟩
          · exact .inr ⟨List.mem_cons_of_mem _ e1, y, List.mem_cons_of_mem _ e2, e3⟩
  unfold Sfm.meanOf
  rcases key ps with ⟨l, e1, e2⟩ | ⟨e1, x, e2, e3⟩
  · rw [e1, e2]
    by_cases hl : l = []
    · subst hl
      exact ⟨by simp, fun _ => he⟩
    · rw [if_neg (by simpa using hl), fmean_num _ hl]
      have : (l.map some).mapM id = some l := by
        clear e1 e2 hl
        induction l with
        | nil => rfl
        | cons a l ih => simp [ih]
      rw [this]
      exact ⟨fun r hr => by simpa using congrArg num (Option.some.inj hr), by simp⟩
  · have hne : ps.filterMap (Sfm.distanceFrom pose) ≠ [] := List.ne_nil_of_mem e1
    have hnone : (ps.filterMap (Sfm.distanceFrom pose)).mapM id = none := by
      generalize ps.filterMap (Sfm.distanceFrom pose) = l at e1
      clear hne
      induction l with
      | nil => cases e1
      | cons a l ih =>
        rcases List.mem_cons.1 e1 with h | h
        · subst h; simp
        · cases a <;> simp [ih h]
    rw [if_neg hne, hnone]
    refine ⟨by simp, fun _ => ?_⟩
    unfold fmean
    rw [if_neg (by rw [List.isEmpty_iff]; exact List.ne_nil_of_mem e2)]
    exact fmeanLoop_nan _ _ _ (.inr ⟨x, e2, e3⟩)

/-- **C110.** Without rounding every pose is moved and scaled as in C17. -/
theorem C110_unrounded_normalize (p first : Iso ℝ) {m : ℝ} (hm : m ≠ 0) :
    (⟨(fisoMul (numIso p) (finv (numIso first))).rot, fsmul (1 / num m) (fisoMul (numIso p) (finv (numIso first))).t⟩ :
      Iso Unrounded) = numIso ((p.mul first.inv).scale (1 / m)) := by
  rw [finv_num, fisoMul_num, num_one, num_div hm]
  rfl

/-- The same reconstruction, with its poses as unrounded numbers. -/
def numView (V : Sfm.View (Iso ℝ)) : Sfm.View (Iso Unrounded) := ⟨V.frame, numIso V.pose, V.landmarks⟩
def numConstraint (c : Sfm.Constraint (Iso ℝ)) : Sfm.Constraint (Iso Unrounded) :=
  ⟨c.v0, c.v1, c.v2, numIso c.first, numIso c.second⟩
def numRecon (R : Sfm.Recon (Iso ℝ)) : Sfm.Recon (Iso Unrounded) :=
  ⟨⟨⟨R.views.map.entries.map fun e => (e.1, numView e.2)⟩, R.views.next⟩, R.landmarks,
    ⟨⟨R.constraints.map.entries.map fun e => (e.1, numConstraint e.2)⟩, R.constraints.next⟩⟩

theorem numRecon_views (R : Sfm.Recon (Iso ℝ)) (v : Nat) :
    (numRecon R).views.get v = (R.views.get v).map numView :=
  Sfm.Recon.get_map R.views.map numView v

/-- **C110.** Without rounding a whole reconstruction is normalised as in C17: if the triangulated points are those of the
exact model, so are the poses of all views and constraints, and everything else. -/
theorem C110_unrounded_recon {C : Type} {W : Sfm.World C} {R : Sfm.Recon (Iso ℝ)} {first : Nat} {normal : Unrounded → Bool}
    {empty : Unrounded} {points : Sfm.Recon (Iso Unrounded) → Sfm.View (Iso Unrounded) → Option (List (V4 Unrounded))}
    (hn : ∀ a, normal a = true ↔ ∃ x, a = num x ∧ x ≠ 0) (he : ieee.val empty = .nan)
    (hp : ∀ V, R.views.get first = some V → points (numRecon R) (numView V) =
      (V.landmarks.mapM (Sfm.triangulateRobust W R)).map fun l => (l.filterMap id).map numV4) :
    fnormalizeRecon normal empty points (numRecon R) first = (Sfm.normalizeReconstruction W R first).map numRecon := by
  unfold fnormalizeRecon Sfm.normalizeReconstruction
  rw [numRecon_views]
  cases hV : R.views.get first with
  | none => rfl
  | some V =>
    simp only [Option.map_some, Option.bind_eq_bind, Option.bind_some, hp V hV]
    unfold Sfm.meanDistance
    cases hl : V.landmarks.mapM (Sfm.triangulateRobust W R) with
    | none => rfl
    | some l =>
      simp only [Option.map_some, Option.bind_eq_bind, Option.bind_some, Option.pure_def]
      have hm := C110_unrounded_mean V.pose (l.filterMap id) he
      show (if normal (fmean empty (fdistances (numIso V.pose) ((l.filterMap id).map numV4))) = true then _ else _) = _
      change (if normal (fmean empty (fdistances (numIso V.pose) ((l.filterMap id).map numV4))) = true then
        some ((numRecon R).mapPoses (fun p => ⟨(fisoMul p (finv (numIso V.pose))).rot, fsmul
          (1 / fmean empty (fdistances (numIso V.pose) ((l.filterMap id).map numV4)))
            (fisoMul p (finv (numIso V.pose))).t⟩) (fun p => ⟨p.rot, fsmul
              (1 / fmean empty (fdistances (numIso V.pose) ((l.filterMap id).map numV4))) p.t⟩))
        else some (numRecon R)) = _
      generalize fmean empty (fdistances (numIso V.pose) ((l.filterMap id).map numV4)) = mean at hm ⊢
      cases ho : Sfm.meanOf ((l.filterMap id).filterMap (Sfm.distanceFrom V.pose)) with
      | none =>
        have : normal mean = false := by
          rw [← Bool.not_eq_true, hn]
          rintro ⟨x, rfl, -⟩
          cases hm.2 ho
        rw [this]
        rfl
      | some m =>
        have hmean := hm.1 m ho
        subst hmean
        by_cases h0 : m = 0
        · have : normal (num m) = false := by
            rw [← Bool.not_eq_true, hn]
            rintro ⟨x, hx, hx0⟩
            exact hx0 ((Flt.num.inj hx).symm.trans h0)
          rw [this]
          simp [h0]
        · rw [if_pos ((hn _).2 ⟨m, rfl, h0⟩)]
          simp only [h0, if_false, Option.map_some, Option.some.injEq]
          have hs : ∀ p : Iso ℝ, (⟨(numIso p).rot, fsmul (1 / num m) (numIso p).t⟩ : Iso Unrounded) =
              numIso (p.scale (1 / m)) := by
            intro p
            rw [num_one, num_div h0]
            rfl
          unfold Sfm.Recon.mapPoses numRecon
          simp only [List.map_map, Function.comp_def, numView, numConstraint, C110_unrounded_normalize _ _ h0, hs]

/-- **C110.** Without rounding a relative scale is that of C81: the ratio of the squared distances. -/
theorem C110_unrounded_scale (fp sp : V4 ℝ) {normal : Unrounded → Bool} (hn : ∀ a, normal a = true ↔ ∃ x, a = num x ∧ x ≠ 0) :
    frelativeScale normal (numV4 fp) (numV4 sp) =
      ((do
        let f ← toPoint fp
        let s ← toPoint sp
        let ratio ← cdiv f.normSq s.normSq
        if ratio = 0 then none else some ratio) : Option ℝ).map num := by
  unfold frelativeScale
  rw [fpoint_num, fpoint_num]
  cases toPoint fp with
  | none => rfl
  | some f =>
    cases toPoint sp with
    | none => rfl
    | some s =>
      simp only [Option.map_some, Option.bind_eq_bind, Option.bind_some]
      show (if normal (num f.normSq / num s.normSq) = true then some (num f.normSq / num s.normSq) else none) = _
      unfold cdiv
      by_cases hs : s.normSq = 0
      · rw [if_pos hs, hs]
        have : normal (num f.normSq / num 0) = false := by
          rw [← Bool.not_eq_true, hn]
          rintro ⟨x, hx, -⟩
          by_cases hf : f.normSq = 0
          · rw [hf, zero_div_zero] at hx; cases hx
          · obtain ⟨t, ht⟩ := ieee.div_zero (num f.normSq) (num 0) f.normSq rfl rfl hf
            rw [hx] at ht
            cases ht
        rw [this]
        rfl
      · rw [if_neg hs, num_div hs]
        by_cases hr : f.normSq / s.normSq = 0
        · have : normal (num (f.normSq / s.normSq)) = false := by
            rw [← Bool.not_eq_true, hn]
            rintro ⟨x, hx, h0⟩
            rw [hr] at hx
            cases hx
            exact h0 rfl
          rw [this]
          simp [hr]
        · rw [(hn _).2 ⟨_, rfl, hr⟩]
          simp [hr]

/-! ### Examples -/

namespace ExGraph

open Sfm (Data Op step Reachable Valid Recon Oracle)
open Sfm.ExGraph (turned shifted)

noncomputable section

/-- A pose is a pose of numbers. -/
def IsNum (p : Iso Unrounded) : Prop := ∃ q, p = numIso q

theorem IsNum.mul {a b : Iso Unrounded} (ha : IsNum a) (hb : IsNum b) : IsNum (a * b) := by
  obtain ⟨a, rfl⟩ := ha
  obtain ⟨b, rfl⟩ := hb
  exact ⟨_, fisoMul_num a b⟩
theorem IsNum.inv {a : Iso Unrounded} (ha : IsNum a) : IsNum a⁻¹ := by
  obtain ⟨a, rfl⟩ := ha
  exact ⟨_, finv_num a⟩

open Classical in
/-- The exact logarithm. -/
def log (A : M3 Unrounded) : V3 Unrounded := if h : ∃ B, A = numM B then numV (logRot h.choose) else fzero

theorem log_num (A : M3 ℝ) : log (numM A) = numV (logRot A) := by
  have h : ∃ B, numM A = numM B := ⟨A, rfl⟩
  unfold log
  rw [dif_pos h]
  have hB : numM A = numM h.choose := h.choose_spec
  have inj : ∀ {x y : ℝ}, num x = num y → x = y := fun h => Flt.num.inj h
  have : h.choose = A := by
    ext
    · exact (inj (congrArg M3.m11 hB)).symm
    · exact (inj (congrArg M3.m12 hB)).symm
    · exact (inj (congrArg M3.m13 hB)).symm
    · exact (inj (congrArg M3.m21 hB)).symm
    · exact (inj (congrArg M3.m22 hB)).symm
    · exact (inj (congrArg M3.m23 hB)).symm
    · exact (inj (congrArg M3.m31 hB)).symm
    · exact (inj (congrArg M3.m32 hB)).symm
    · exact (inj (congrArg M3.m33 hB)).symm
  rw [this]

/-- If all numbers are finite there is a new pose. -/
theorem moved {rate : ℝ} {pose : Iso Unrounded} (hp : IsNum pose) {es : List (Iso Unrounded × Iso Unrounded)}
    (he : ∀ e ∈ es, IsNum e.1 ∧ IsNum e.2) : ∃ q, fmovedPose log fexpRot (num rate) pose es = some q := by
  obtain ⟨p, rfl⟩ := hp
  have : ∃ l : List (Iso ℝ × Iso ℝ), es = l.map fun e => (numIso e.1, numIso e.2) := by
    clear p
    induction es with
    | nil => exact ⟨[], rfl⟩
    | cons e es ih =>
      obtain ⟨l, rfl⟩ := ih (fun e h => he e (List.mem_cons_of_mem _ h))
      obtain ⟨⟨a, ha⟩, b, hb⟩ := he e (by simp)
      exact ⟨(a, b) :: l, by rw [List.map_cons, ← ha, ← hb]⟩
  obtain ⟨l, rfl⟩ := this
  exact ⟨_, C110_unrounded_pose log_num fexpRot_num rate p l⟩

/-- The start of the example of C85, with these numbers. -/
def d1 : Data (Iso Unrounded) := Data.empty.addFeed
def d2 : Data (Iso Unrounded) := (d1.addFrame 0 3).getD d1
def d3 : Data (Iso Unrounded) := (d2.addFrame 0 3).getD d1
def d4 : Data (Iso Unrounded) := (d3.addFrame 0 2).getD d1
/-- The start with any pose for the second view. -/
def start (p : Iso Unrounded) : Op (Iso Unrounded) :=
  .addReconstruction 0 1 2 (numIso Iso.one) p (numIso (shifted 2)) [(0, 0, 0)] [(1, 2)] [(2, 1)]
def d5 (p : Iso Unrounded) : Data (Iso Unrounded) := (step d4 (start p)).getD d1

theorem reach5 (p : Iso Unrounded) : Reachable (d5 p) := by
  have h1 : Reachable d1 := .step (op := .addFeed) .init trivial rfl
  have h2 : Reachable d2 := .step (op := .addFrame 0 3) h1 ⟨[], rfl⟩ rfl
  have h3 : Reachable d3 := .step (op := .addFrame 0 3) h2 ⟨[0], rfl⟩ rfl
  have h4 : Reachable d4 := .step (op := .addFrame 0 2) h3 ⟨[0, 1], rfl⟩ rfl
  refine .step (op := start p) h4 ?_ rfl
  refine ⟨by decide, by decide, by decide, ⟨3, _, rfl, rfl, rfl⟩, ⟨2, _, rfl, rfl, rfl⟩,
    3, ⟨_, rfl, rfl, rfl⟩, ?_, ?_⟩
  all_goals
    constructor
    · intro f c h
      simp at h
      omega
    · intro f g c h h'
      simp at h h'
      omega

def R5 (p : Iso Unrounded) : Recon (Iso Unrounded) := ((d5 p).recons.get 0).getD Recon.empty
theorem get5 (p : Iso Unrounded) : (d5 p).recons.get 0 = some (R5 p) := rfl

/-- Any answers, with the numeric part of `constrain_view`. -/
def oracle (ω : Oracle (Iso Unrounded)) : Oracle (Iso Unrounded) := { ω with constrain := fconstrain log fexpRot (num 0.001) }

theorem edges5 (p : Iso Unrounded) : (R5 p).flattenConstraints =
    [(0, 2, (numIso (shifted 2))⁻¹), (0, 1, p⁻¹), (1, 0, p), (1, 2, (numIso (shifted 2) * p⁻¹)⁻¹),
      (2, 1, numIso (shifted 2) * p⁻¹), (2, 0, numIso (shifted 2))] := rfl

theorem keys5 (p : Iso Unrounded) : (R5 p).views.keys = [0, 1, 2] := rfl

/-- All three views get a new pose. -/
theorem updates5 (ω : Oracle (Iso Unrounded)) : ∃ a b c,
    (R5 (numIso (turned 1))).constrainViews (oracle ω) (R5 (numIso (turned 1))).flattenConstraints [0, 1, 2] =
      some ([(0, a), (1, b), (2, c)], []) := by
  have n1 : IsNum (numIso (turned 1)) := ⟨_, rfl⟩
  have n2 : IsNum (numIso (shifted 2)) := ⟨_, rfl⟩
  have n0 : IsNum (numIso Iso.one) := ⟨_, rfl⟩
  obtain ⟨a, ha⟩ := moved (rate := 0.001) n0 (es := [((numIso (shifted 2))⁻¹, numIso (shifted 2)), ((numIso (turned 1))⁻¹, numIso (turned 1))])
    (by simp [n1, n2, n1.inv, n2.inv])
  obtain ⟨b, hb⟩ := moved (rate := 0.001) n1 (es := [(numIso (turned 1), numIso Iso.one),
    ((numIso (shifted 2) * (numIso (turned 1))⁻¹)⁻¹, numIso (shifted 2))])
    (by simp [n0, n1, n2, (n2.mul n1.inv).inv])
  obtain ⟨c, hc⟩ := moved (rate := 0.001) n2 (es := [(numIso (shifted 2) * (numIso (turned 1))⁻¹, numIso (turned 1)),
    (numIso (shifted 2), numIso Iso.one)])
    (by simp [n0, n1, n2, n2.mul n1.inv])
  have v0 : (R5 (numIso (turned 1))).constrainView (oracle ω) (R5 (numIso (turned 1))).flattenConstraints 0 = some (some a) :=
    congrArg some ha
  have v1 : (R5 (numIso (turned 1))).constrainView (oracle ω) (R5 (numIso (turned 1))).flattenConstraints 1 = some (some b) :=
    congrArg some hb
  have v2 : (R5 (numIso (turned 1))).constrainView (oracle ω) (R5 (numIso (turned 1))).flattenConstraints 2 = some (some c) :=
    congrArg some hc
  refine ⟨a, b, c, ?_⟩
  simp only [Recon.constrainViews, v0, v1, v2]

/-- **C110** A round of optimisation that keeps the reconstruction, as in the hypotheses of `C110_round`. -/
example (ω : Oracle (Iso Unrounded)) : ∃ d', (d5 (numIso (turned 1))).applyLoop (fun _ => oracle ω) 0
    (R5 (numIso (turned 1))).flattenConstraints 1 = some (d', true) := by
  obtain ⟨a, b, c, h⟩ := updates5 ω
  have hd := Sfm.reachable_consistent (reach5 (numIso (turned 1)))
  rw [← keys5 (numIso (turned 1))] at h
  obtain ⟨hnd, hus, hrs⟩ := Sfm.Data.constrainLists_ok _ (hd.recons 0 _ (get5 _)) h
  obtain ⟨d1, R1, hrun, -⟩ := Sfm.Data.applyBundleAdjust_ok hd (get5 _) hnd hus hrs
  refine ⟨d1, ?_⟩
  unfold Data.applyLoop
  simp only [get5, h]
  rw [if_pos (by simp)]
  simp only [hrun]
  rfl

/-- **C110** The steps of the three views are made of finite numbers, as in `C110_finite_step`. -/
example : ∃ (p : Iso Unrounded) (v w : V3 Unrounded), fmovedPose log fexpRot (num 0.001) (numIso Iso.one)
    [((numIso (turned 1))⁻¹, numIso (turned 1))] = some p ∧ ¬ BadV ieee v ∧ ¬ BadV ieee w ∧
      p = fisoMul ⟨fexpRot w, v⟩ (numIso Iso.one) := by
  have n1 : IsNum (numIso (turned 1)) := ⟨_, rfl⟩
  obtain ⟨p, hp⟩ := moved (rate := 0.001) ⟨Iso.one, rfl⟩ (es := [((numIso (turned 1))⁻¹, numIso (turned 1))]) (by simp [n1, n1.inv])
  obtain ⟨v, w, hv, hw, h⟩ := C110_finite_step bits hp
  exact ⟨p, v, w, hp, hv, hw, h⟩

/-- A pose with NaN. -/
def broken : Iso Unrounded := ⟨fone, ⟨Flt.nan, num 0, num 0⟩⟩
theorem broken_bad : BadIso ieee broken := .inr (.inl (by intro x; show Flt.nan ≠ _; simp))

/-- **C110** With NaN in the pose of the second view no view gets a new pose: the round removes all three. -/
example (ω : Oracle (Iso Unrounded)) :
    (R5 broken).constrainViews (oracle ω) (R5 broken).flattenConstraints [0, 1, 2] = some ([], [0, 1, 2]) := by
  have h0 : fmovedPose log fexpRot (num 0.001) (numIso Iso.one)
      [((numIso (shifted 2))⁻¹, numIso (shifted 2)), (broken⁻¹, broken)] = none :=
    C110_no_pose bits _ _ _ ⟨(broken⁻¹, broken), by simp, .inr (.inl broken_bad)⟩
  have h1 : fmovedPose log fexpRot (num 0.001) broken
      [(broken, numIso Iso.one), ((numIso (shifted 2) * broken⁻¹)⁻¹, numIso (shifted 2))] = none :=
    C110_no_pose bits _ _ _ ⟨(broken, numIso Iso.one), by simp, .inl broken_bad⟩
  have h2 : fmovedPose log fexpRot (num 0.001) (numIso (shifted 2))
      [(numIso (shifted 2) * broken⁻¹, broken), (numIso (shifted 2), numIso Iso.one)] = none :=
    C110_no_pose bits _ _ _ ⟨(numIso (shifted 2) * broken⁻¹, broken), by simp, .inr (.inl broken_bad)⟩
  have v0 : (R5 broken).constrainView (oracle ω) (R5 broken).flattenConstraints 0 = some none := congrArg some h0
  have v1 : (R5 broken).constrainView (oracle ω) (R5 broken).flattenConstraints 1 = some none := congrArg some h1
  have v2 : (R5 broken).constrainView (oracle ω) (R5 broken).flattenConstraints 2 = some none := congrArg some h2
  simp only [Recon.constrainViews, v0, v1, v2]

open Classical in
/-- `is_normal` for these numbers. -/
def normal (a : Unrounded) : Bool := decide (∃ x, a = num x ∧ x ≠ 0)
theorem normal_iff (a : Unrounded) : normal a = true ↔ ∃ x, a = num x ∧ x ≠ 0 := by simp [normal]
theorem normal_test : NormalTest ieee normal := fun a h => by
  obtain ⟨x, rfl, hx⟩ := (normal_iff a).1 h
  exact ⟨x, rfl, hx⟩

/-- **C110** A first view with NaN in its pose, and a point that has NaN in it: normalisation does nothing. -/
example : fnormalizeRecon normal Flt.nan (fun _ _ => some [numV4 ⟨0, 0, 1, 1⟩]) (R5 broken) 1 = some (R5 broken) ∧
    fnormalizeRecon normal Flt.nan (fun _ _ => some [numV4 ⟨0, 0, 1, 1⟩, ⟨num 0, Flt.nan, num 1, num 1⟩]) (R5 broken) 0 =
      some (R5 broken) :=
  ⟨C110_normalize normal_test (.inl (by intro x; show Flt.nan ≠ _; simp)) rfl rfl (.inl broken_bad),
    C110_normalize normal_test (.inl (by intro x; show Flt.nan ≠ _; simp)) rfl rfl
      (.inr ⟨_, List.mem_cons_of_mem _ (List.mem_singleton_self _), .inr (.inl rfl)⟩)⟩

/-- **C110** Any reconstruction can be normalised with the points of the exact model, as in `C110_unrounded_recon`. -/
example {C : Type} (W : Sfm.World C) (R : Recon (Iso ℝ)) (first : Nat) :
    fnormalizeRecon normal Flt.nan (fun _ _ => (R.views.get first).bind fun V =>
      (V.landmarks.mapM (Sfm.triangulateRobust W R)).map fun l => (l.filterMap id).map numV4) (numRecon R) first =
        (Sfm.normalizeReconstruction W R first).map numRecon :=
  C110_unrounded_recon normal_iff rfl (fun V hV => by rw [hV, Option.bind_some])

/-- **C110** One relative scale: the points are at distances two and one. -/
example : frelativeScale normal (numV4 ⟨0, 0, 2, 1⟩) (numV4 ⟨0, 0, 1, 1⟩) = some (num 4) := by
  rw [C110_unrounded_scale _ _ normal_iff]
  simp only [toPoint, V4.xyz, cdiv, lin]
  norm_num

end

end ExGraph

end Verif.Geo.Rounded
