import Verif.Props.FloatGeom
import Verif.Props.FloatTwistExact
import Verif.Props.MeanMean

/-!
# Triangulation, losses and gradients without rounding (C105)

With exact numbers in place of rounded ones the floating point programs are the exact models, so what C50, C52, C53, C54,
C67 and C104 say holds for them.
-/

namespace Verif.Akaze.Unrounded

open Verif.Bicubic (Flt)
open ExFloat (fdiv)

open Classical in
noncomputable instance : FloatBits Unrounded where
  isFinite
    | .num _ => true
    | _ => false
  isNan
    | .nan => true
    | _ => false
  isSignNegative
    | .nan => false
    | .inf s => s
    | .num x => decide (x < 0)

theorem bits : IeeeBits ieee where
  isFinite a := by
    rcases a with _ | s | x
    · exact ⟨fun h => (by cases h), fun ⟨x, h⟩ => (by cases h)⟩
    · exact ⟨fun h => (by cases h), fun ⟨x, h⟩ => (by cases h)⟩
    · exact ⟨fun _ => ⟨x, rfl⟩, fun _ => rfl⟩
  isNan a := by
    rcases a with _ | s | x
    · exact ⟨fun _ => rfl, fun _ => rfl⟩
    · exact ⟨fun h => (by cases h), fun h => (by cases h)⟩
    · exact ⟨fun h => (by cases h), fun h => (by cases h)⟩
  sign_num a x h _ := by
    change a = Flt.num x at h
    subst h
    exact decide_eq_true_iff
  sign_inf a s h := by
    change a = Flt.inf s at h
    subst h
    rfl

theorem num_sign (x : ℝ) : FloatBits.isSignNegative (num x) = true ↔ x < 0 := decide_eq_true_iff
theorem num_finite (x : ℝ) : FloatBits.isFinite (num x) = true := rfl
theorem num_isNan (x : ℝ) : FloatBits.isNan (num x) = false := rfl
theorem zero_div_zero : num 0 / num 0 = (Flt.nan : Flt) := by
  show fdiv (.num 0) (.num 0) = _
  simp [fdiv]

theorem not_div_zero (x : ℝ) : ieee.NotNumber (num x / num 0) := by
  intro y
  show fdiv (.num x) (.num 0) ≠ _
  simp only [fdiv, if_true]
  split_ifs <;> simp

end Verif.Akaze.Unrounded

namespace Verif.Geo.Rounded

open Verif.Akaze
open Verif.Akaze.Unrounded
open Verif.Bicubic (Flt)
open Verif.Akaze.FloatBits (isFinite isNan isSignNegative)
open P3P

theorem fadd_num (a b : V3 ℝ) : fadd (numV a) (numV b) = numV (a.add b) := rfl
theorem fneg_num (a : V3 ℝ) : fneg (numV a) = numV a.neg := rfl
theorem fnormSq_num (a : V3 ℝ) : fnormSq (numV a) = num a.normSq := rfl
theorem fzero_num : (fzero : V3 Unrounded) = numV V3.zero := rfl

theorem fnorm_num (a : V3 ℝ) : fnorm (numV a) = num a.norm := by
  unfold fnorm
  rw [fnormSq_num, num_sqrt (V3.normSq_nonneg a)]
  rfl

theorem finv_num (p : Iso ℝ) : finv (numIso p) = numIso p.inv := by
  have e : p.rot.transpose.mulVec p.t.neg = p.inv.t := by lin3
  unfold finv
  show (⟨numM p.rot.transpose, fmulVec (numM p.rot.transpose) (numV p.t.neg)⟩ : Iso Unrounded) = _
  rw [fmulVec_num, e]
  rfl

theorem funscale_num {s : ℝ} (hs : s ≠ 0) (a : V3 ℝ) : funscale (numV a) (num s) = numV (V3.smul (1 / s) a) := by
  unfold funscale numV V3.smul
  simp only [num_div hs]
  congr 2 <;> ring

theorem normalize_none {a : V3 ℝ} (h : a.normalize = none) : a = V3.zero := by
  by_contra h0
  rw [normalize_of_ne h0] at h
  cases h

theorem normalize_zero : V3.normalize (V3.zero : V3 ℝ) = none := by
  cases h : V3.normalize (V3.zero : V3 ℝ) with
  | none => rfl
  | some n => exact absurd rfl (normalize_some h).1

theorem fnormalize_num {a n : V3 ℝ} (h : a.normalize = some n) : fnormalize (numV a) = numV n := by
  obtain ⟨h0, rfl⟩ := normalize_some h
  unfold fnormalize
  rw [fnorm_num, funscale_num (V3.norm_pos h0).ne']

theorem norm_zero : (V3.zero : V3 ℝ).norm = 0 := by unfold V3.norm; simp [lin]

theorem fnormalize_zero : NanV ieee (fnormalize (numV V3.zero)) := by
  left
  show (fnormalize (numV V3.zero)).x = (Flt.nan : Flt)
  unfold fnormalize
  rw [fnorm_num, norm_zero]
  exact zero_div_zero

theorem funscale_norm (a : V3 ℝ) : funscale (numV a) (fnorm (numV a)) = fnormalize (numV a) := rfl

/-- Either the exact result, or something that is not finite. -/
def Same (o : Option (V3 ℝ × V3 ℝ)) (c : V3 Unrounded × V3 Unrounded) : Prop :=
  match o with
  | some (a, b) => c = (numV a, numV b)
  | none => BadV ieee c.1 ∨ BadV ieee c.2

theorem correctL1_num (t a b : V3 ℝ) : Same (correctL1 t a b) (fcorrectL1 (numV t) (numV a) (numV b)) := by
  unfold correctL1 fcorrectL1
  simp only [fcross_num, funscale_norm]
  rw [fnorm_num, fnorm_num]
  by_cases hc : (a.cross t).norm < (b.cross t).norm
  · rw [if_pos hc, if_pos ((num_lt _ _).2 hc)]
    cases hn : (b.cross t).normalize with
    | none =>
      rw [normalize_none hn, norm_zero] at hc
      exact absurd hc (not_lt.2 (V3.norm_nonneg _))
    | some n =>
      simp only [Option.bind_eq_bind, Option.bind_some, fnormalize_num hn, fdot_num, fsmul_num, fsub_num]
      cases hm : (a.sub (V3.smul (a.dot n) n)).normalize with
      | none => exact .inl (by rw [normalize_none hm]; exact fnormalize_zero.bad)
      | some m => simp only [fnormalize_num hm, Option.bind_some, Option.pure_def, Same]
  · rw [if_neg hc, if_neg (fun h => hc ((num_lt _ _).1 h))]
    cases hn : (a.cross t).normalize with
    | none =>
      right
      simp only
      rw [normalize_none hn]
      exact (nan_normalize (nan_reject fnormalize_zero).bad).bad
    | some n =>
      simp only [Option.bind_eq_bind, Option.bind_some, fnormalize_num hn, fdot_num, fsmul_num, fsub_num]
      cases hm : (b.sub (V3.smul (b.dot n) n)).normalize with
      | none => exact .inr (by rw [normalize_none hm]; exact fnormalize_zero.bad)
      | some m => simp only [fnormalize_num hm, Option.bind_some, Option.pure_def, Same]

theorem correctLInf_num (t a b : V3 ℝ) : Same (correctLInf t a b) (fcorrectLInf (numV t) (numV a) (numV b)) := by
  unfold correctLInf fcorrectLInf
  simp only [fcross_num, fadd_num, fsub_num, fnormSq_num, num_lt]
  have key : ∀ v : V3 ℝ, Same (do
      let n ← v.normalize
      let a' ← (a.sub (V3.smul (a.dot n) n)).normalize
      let b' ← (b.sub (V3.smul (b.dot n) n)).normalize
      pure (a', b'))
      (fnormalize (fsub (numV a) (fsmul (fdot (numV a) (fnormalize (numV v))) (fnormalize (numV v)))),
        fnormalize (fsub (numV b) (fsmul (fdot (numV b) (fnormalize (numV v))) (fnormalize (numV v))))) := by
    intro v
    cases hv : v.normalize with
    | none =>
      left
      rw [normalize_none hv]
      exact (nan_normalize (nan_reject fnormalize_zero).bad).bad
    | some n =>
      simp only [Option.bind_eq_bind, Option.bind_some, fnormalize_num hv, fdot_num, fsmul_num, fsub_num]
      cases hm : (a.sub (V3.smul (a.dot n) n)).normalize with
      | none => exact .inl (by rw [normalize_none hm]; exact fnormalize_zero.bad)
      | some m =>
        simp only [fnormalize_num hm, Option.bind_some]
        cases hk : (b.sub (V3.smul (b.dot n) n)).normalize with
        | none => exact .inr (by rw [normalize_none hk]; exact fnormalize_zero.bad)
        | some k => simp only [fnormalize_num hk, Option.bind_some, Option.pure_def, Same]
  by_cases hc : ((a.sub b).cross t).normSq < ((a.add b).cross t).normSq
  · simp only [if_pos hc]; exact key _
  · simp only [if_neg hc]; exact key _

/-- Homogeneous coordinates without rounding. -/
theorem fhomogeneous_num (p : V4 ℝ) :
    (∀ q, fromHomogeneous p = some q → fhomogeneous (numV4 p) = numV4 q) ∧
    (fromHomogeneous p = none → allFinite (fhomogeneous (numV4 p)) = false) := by
  have hn : ∀ q : V4 ℝ, fnorm ⟨num q.x, num q.y, num q.z⟩ = num q.xyz.norm := fun q => fnorm_num q.xyz
  have hs : (if isSignNegative (numV4 p).w = true then
      (⟨-(numV4 p).x, -(numV4 p).y, -(numV4 p).z, -(numV4 p).w⟩ : V4 Unrounded) else numV4 p) =
      numV4 (if p.w < 0 then p.neg else p) := by
    by_cases h : p.w < 0
    · rw [if_pos h, if_pos (show isSignNegative (numV4 p).w = true from (num_sign _).2 h)]; rfl
    · rw [if_neg h, if_neg (show ¬isSignNegative (numV4 p).w = true from fun h' => h ((num_sign _).1 h'))]
  unfold fromHomogeneous fhomogeneous
  simp only [hs]
  generalize (if p.w < 0 then p.neg else p) = q
  rw [show fnorm ⟨(numV4 q).x, (numV4 q).y, (numV4 q).z⟩ = num q.xyz.norm from hn q]
  by_cases h0 : q.xyz.norm = 0
  · simp only [if_pos h0]
    refine ⟨fun _ h => (by cases h), fun _ => ?_⟩
    rw [← Bool.not_eq_true, allFinite_iff bits, h0]
    rintro ⟨⟨x, hx⟩, -⟩
    exact not_div_zero _ _ hx
  · simp only [if_neg h0]
    refine ⟨fun _ h => ?_, fun h => by cases h⟩
    rw [← Option.some.inj h]
    unfold numV4 V4.smul
    simp only [num_div h0]
    congr 2 <;> ring

/-- With `w` infinite or NaN there is no point. -/
theorem fhomogeneous_bad (b : V3 ℝ) {w : Unrounded} (hw : ieee.NotNumber w) :
    allFinite (fhomogeneous ⟨num b.x, num b.y, num b.z, w⟩) = false := by
  rw [← Bool.not_eq_true, allFinite_iff bits]
  rintro ⟨⟨x, hx⟩, -, -, ⟨y, hy⟩⟩
  have key : ∀ (v : V3 ℝ) (w : Unrounded), ieee.NotNumber w → ieee.val (num v.x / fnorm (numV v)) = .num x →
      ieee.val (w / fnorm (numV v)) = .num y → False := by
    intro v w hw h1 h2
    rw [fnorm_num] at h1 h2
    by_cases h0 : v.norm = 0
    · rw [h0] at h1; exact not_div_zero _ _ h1
    · exact not_div_pos (J := ieee) hw (show (Flt.num 0).Lt (Flt.num v.norm) from
        lt_of_le_of_ne (V3.norm_nonneg v) (Ne.symm h0)) y h2
  unfold fhomogeneous at hx hy
  by_cases hs : isSignNegative w = true
  · simp only [if_pos hs] at hx hy
    exact key b.neg (-w) (not_neg hw) hx hy
  · simp only [if_neg hs] at hx hy
    exact key b w hw hx hy

theorem positive_num (x : ℝ) : isSignPositive (num x) = true ↔ 0 ≤ x := by
  unfold isSignPositive
  rw [Bool.not_eq_true', ← Bool.not_eq_true, num_sign, not_lt]

theorem finite_num (p : V4 ℝ) : allFinite (numV4 p) = true := rfl

theorem fmeet_num (t a b : V3 ℝ) : fmeet (numV t) (numV a) (numV b) = (meet t a b).map numV4 := by
  unfold fmeet meet
  simp only [fcross_num, fnormSq_num, fdot_num]
  cases hw : cdiv (b.cross a).normSq ((b.cross a).dot (t.cross a)) with
  | none =>
    have h0 : (b.cross a).dot (t.cross a) = 0 := by
      by_contra h; unfold cdiv at hw; rw [if_neg h] at hw; cases hw
    rw [h0]
    rw [if_neg (show ¬allFinite (fhomogeneous ⟨(numV b).x, (numV b).y, (numV b).z, num (b.cross a).normSq / num 0⟩) = true
      from Bool.not_eq_true _ ▸ fhomogeneous_bad b (not_div_zero (b.cross a).normSq))]
    rfl
  | some w =>
    rw [cdiv_num hw]
    have hp := fhomogeneous_num ⟨b.x, b.y, b.z, w⟩
    simp only [Option.bind_eq_bind, Option.bind_some]
    cases hq : fromHomogeneous ⟨b.x, b.y, b.z, w⟩ with
    | none =>
      rw [if_neg (show ¬allFinite (fhomogeneous ⟨(numV b).x, (numV b).y, (numV b).z, num w⟩) = true
        from Bool.not_eq_true _ ▸ hp.2 hq)]
      rfl
    | some p =>
      rw [show fhomogeneous ⟨(numV b).x, (numV b).y, (numV b).z, num w⟩ = numV4 p from hp.1 p hq]
      have ha : ∀ v, fdot (fbearing (numV4 p)) (numV v) = num ((bearing p).dot v) := fun _ => rfl
      rw [finite_num, ha, ha, if_pos rfl, Option.bind_some]
      simp only [Bool.and_eq_true, positive_num]
      split <;> rfl

theorem meet_same {o : Option (V3 ℝ × V3 ℝ)} {c : V3 Unrounded × V3 Unrounded} (h : Same o c) (t : V3 ℝ) :
    fmeet (numV t) c.1 c.2 = (o.bind fun c => meet t c.1 c.2).map numV4 := by
  cases o with
  | none => exact meet_bad bits h
  | some p =>
    obtain ⟨a, b⟩ := p
    change c = _ at h
    subst h
    exact fmeet_num t a b

/-- **C105** Without rounding the floating point program of the L1 triangulator is the exact model. -/
theorem C105_unrounded_angularL1 (pose : Iso ℝ) (a b : V3 ℝ) :
    fangularL1 (numIso pose) (numV a) (numV b) = (angularL1 pose a b).map numV4 := by
  unfold fangularL1 angularL1
  rw [finv_num]
  simp only [numIso, fmulVec_num]
  cases hn : pose.inv.t.normalize with
  | none =>
    have h0 := normalize_none hn
    rw [meet_bad bits (correctL1_bad (.inl (by rw [h0]; exact fnormalize_zero.bad)))]
    rfl
  | some n =>
    rw [fnormalize_num hn, meet_same (correctL1_num n _ _)]
    rfl

/-- **C105** So is that of the L∞ triangulator. -/
theorem C105_unrounded_angularLInf (pose : Iso ℝ) (a b : V3 ℝ) :
    fangularLInf (numIso pose) (numV a) (numV b) = (angularLInf pose a b).map numV4 := by
  unfold fangularLInf angularLInf
  rw [finv_num]
  simp only [numIso, fmulVec_num]
  cases hn : pose.inv.t.normalize with
  | none =>
    have h0 := normalize_none hn
    rw [meet_bad bits (.inl (correctLInf_bad (.inl (by rw [h0]; exact fnormalize_zero.bad))))]
    rfl
  | some n =>
    rw [fnormalize_num hn, meet_same (correctLInf_num n _ _)]
    rfl

theorem Same.swap {o : Option (V3 ℝ × V3 ℝ)} {c : V3 Unrounded × V3 Unrounded} (h : Same o c) :
    Same (o.map Prod.swap) c.swap := by
  cases o with
  | none => exact Or.symm h
  | some p =>
    obtain ⟨a, b⟩ := p
    change c = _ at h
    subst h
    rfl

theorem fsameSpace_num (t a b : V3 ℝ) :
    fsameSpace (numV t) (numV a) (numV b) = (sineL1SameSpace t a b).map numV := by
  unfold fsameSpace sineL1SameSpace
  have h := meet_same (correctL1_num t a b).swap t
  simp only [Prod.fst_swap, Prod.snd_swap] at h
  simp only [h]
  cases correctL1 t a b with
  | none => rfl
  | some c =>
    simp only [Option.map_some, Option.bind_some, Option.bind_eq_bind, Prod.fst_swap, Prod.snd_swap]
    cases meet t c.2 c.1 with
    | none => rfl
    | some p => simp only [Option.map_some, Option.bind_some, fpoint_num]

/-- **C105** So is the loss. -/
theorem C105_unrounded_loss (t a b : V3 ℝ) : floss (numV t) (numV a) (numV b) = num (epipolarLoss t a b) := by
  unfold floss epipolarLoss
  simp only [fcross_num, fnormSq_num, num_lt]
  have key : ∀ (v c : V3 ℝ), (if (isNan (FloatOps.abs (fdot (numV v) (fsmul (1 / FloatOps.sqrt (num c.normSq)) (numV c)))) ||
      isSignNegative (fdot (numV a) (numV b))) = true then 1
      else FloatOps.abs (fdot (numV v) (fsmul (1 / FloatOps.sqrt (num c.normSq)) (numV c)))) =
      num (match (cdiv 1 (Real.sqrt c.normSq)).map (fun r => |v.dot (V3.smul r c)|) with
        | none => 1
        | some r => if a.dot b < 0 then 1 else r) := by
    intro v c
    rw [num_sqrt (V3.normSq_nonneg c)]
    by_cases h0 : c.norm = 0
    · have hz : Real.sqrt c.normSq = 0 := h0
      have hc0 : c = V3.zero := by
        by_contra h; exact (V3.norm_pos h).ne' h0
      have hnan : isNan (FloatOps.abs (fdot (numV v) (fsmul (1 / num 0) (numV V3.zero)))) = true := by
        rw [bits.isNan]
        refine nan_abs (nan_fdot (.inr (.inl ?_)))
        show (Flt.mul (ExFloat.fdiv (.num 1) (.num 0)) (.num 0)) = _
        simp [ExFloat.fdiv, Flt.mul]
      rw [hz, hc0, hnan]
      simp only [cdiv, if_true, Bool.true_or, Option.map_none]
      rfl
    · have hz : Real.sqrt c.normSq ≠ 0 := h0
      rw [num_one, num_div hz, fsmul_num, fdot_num, fdot_num, num_abs, num_isNan]
      simp only [cdiv, if_neg hz, Option.map_some, Bool.false_or, num_sign]
      split <;> rfl
  by_cases hc : (a.cross t).normSq < (b.cross t).normSq
  · simp only [if_pos hc]; exact key a _
  · simp only [if_neg hc]; exact key b _

/-! ### Gradients -/

/-- The tangent with unrounded numbers. -/
def numT (g : Tangent) : FTangent Unrounded := ⟨numV g.translation, numV g.rotation⟩

theorem orZero_num (v : V3 ℝ) : orZero (numV v) = numV v := rfl

theorem orZero_nan {v : V3 Unrounded} (h : NanV ieee v) : orZero v = fzero := by
  unfold orZero
  rw [if_pos]
  simp only [Bool.or_eq_true, bits.isNan]
  rcases h with h | h | h
  · exact .inl (.inl h)
  · exact .inl (.inr h)
  · exact .inr h

theorem nan_fadd {a b : V3 Unrounded} (h : NanV ieee a ∨ NanV ieee b) : NanV ieee (fadd a b) := by
  rcases h with (h | h | h) | (h | h | h)
  · exact .inl (nan_add (.inl h))
  · exact .inr (.inl (nan_add (.inl h)))
  · exact .inr (.inr (nan_add (.inl h)))
  · exact .inl (nan_add (.inr h))
  · exact .inr (.inl (nan_add (.inr h)))
  · exact .inr (.inr (nan_add (.inr h)))

theorem nan_fneg {a : V3 Unrounded} (h : NanV ieee a) : NanV ieee (fneg a) := h.imp nan_neg (Or.imp nan_neg nan_neg)

/-- The exact vector, or NaN. -/
def SameV (o : Option (V3 ℝ)) (v : V3 Unrounded) : Prop :=
  match o with
  | some x => v = numV x
  | none => NanV ieee v

theorem SameV.orZero {o : Option (V3 ℝ)} {v : V3 Unrounded} (h : SameV o v) :
    Rounded.orZero v = numV (o.getD V3.zero) := by
  cases o with
  | none => exact orZero_nan h
  | some x => change v = _ at h; subst h; rfl

theorem rotationGradient_num (t a b : V3 ℝ) :
    SameV (rotationGradient t a b) (frotationGradient (numV t) (numV a) (numV b)) := by
  unfold rotationGradient frotationGradient
  simp only [fcross_num]
  cases hb : (b.cross t).normalize with
  | none =>
    rw [normalize_none hb]
    exact nan_cross (.inl fnormalize_zero)
  | some n =>
    rw [fnormalize_num hb]
    cases ha : (a.cross t).normalize with
    | none =>
      rw [normalize_none ha]
      exact nan_cross (.inr fnormalize_zero)
    | some m =>
      rw [fnormalize_num ha, fcross_num]
      rfl

theorem fawayFrom_num (p b : V3 ℝ) : fawayFrom (numV p) (numV b) = numV (awayFrom p b) := by
  unfold fawayFrom awayFrom
  rw [fdot_num, fsmul_num, fsub_num]

theorem third_num : (1 / 3 : Unrounded) = num (1 / 3) := by rw [num_one, num_three, num_div three_ne_zero]
theorem twoThirds_num : (2 / 3 : Unrounded) = num (2 / 3) := by rw [num_two, num_three, num_div three_ne_zero]

/-- **C105** So are the gradients of three views. -/
theorem C105_unrounded_gradients (c f ftoc s stoc : V3 ℝ) :
    fthreeViewGradients (numV c) (numV f) (numV ftoc) (numV s) (numV stoc) =
      (numT (threeViewGradients c f ftoc s stoc).1, numT (threeViewGradients c f ftoc s stoc).2) := by
  have hcf := rotationGradient_num ftoc c f
  have hcs := rotationGradient_num stoc c s
  have hfs := rotationGradient_num (stoc.sub ftoc) f s
  have hrot : ∀ {x y : Option (V3 ℝ)} {u v : V3 Unrounded}, SameV x u → SameV y v →
      SameV (do let x ← x; let y ← y; pure ((V3.smul (2 / 3) x).add (V3.smul (1 / 3) y)))
        (fadd (fsmul (num (2 / 3)) u) (fsmul (num (1 / 3)) v)) ∧
      SameV (do let x ← x; let y ← y; pure ((V3.smul (2 / 3) x).add (V3.smul (1 / 3) y.neg)))
        (fadd (fsmul (num (2 / 3)) u) (fsmul (num (1 / 3)) (fneg v))) := by
    intro x y u v hx hy
    cases x with
    | none => exact ⟨nan_fadd (.inl (nan_smul (.inr hx))), nan_fadd (.inl (nan_smul (.inr hx)))⟩
    | some x =>
      change u = _ at hx
      subst hx
      cases y with
      | none => exact ⟨nan_fadd (.inr (nan_smul (.inr hy))), nan_fadd (.inr (nan_smul (.inr (nan_fneg hy))))⟩
      | some y => change v = _ at hy; subst hy; exact ⟨rfl, rfl⟩
  have hgetD : ∀ (o : Option (V3 ℝ)) (g : V3 ℝ → V3 ℝ) (g' : V3 Unrounded → V3 Unrounded),
      (∀ p, g' (numV p) = numV (g p)) → ((o.map numV).map g').getD fzero = numV ((o.map g).getD V3.zero) := by
    intro o g g' h
    cases o with
    | none => rfl
    | some p => exact h p
  unfold fthreeViewGradients threeViewGradients
  simp only [fneg_num, fsub_num, fsameSpace_num, third_num, twoThirds_num]
  rw [hgetD _ (fun p => awayFrom (p.sub ftoc) f) _ (fun p => by rw [fsub_num, fawayFrom_num]),
    hgetD _ (fun p => (awayFrom (p.add ftoc) c).neg) _ (fun p => by
      rw [fadd_num, fdot_num, fsmul_num, fsub_num]
      congr 1
      unfold awayFrom
      lin3),
    hgetD _ (fun p => awayFrom (p.sub stoc) s) _ (fun p => by rw [fsub_num, fawayFrom_num])]
  unfold FTangent.new Tangent.new numT
  rw [(hrot hcf hfs).2.orZero, (hrot hcs hfs).1.orZero]
  simp only [fsmul_num, fadd_num, orZero_num, Option.getD_some]

/-- **C105** And the gradient of a pose. -/
theorem C105_unrounded_pose_gradient (t b : V3 ℝ) :
    fworldPoseGradient (numV t) (numV b) = numT (worldPoseGradient t b) := by
  unfold fworldPoseGradient worldPoseGradient FTangent.new Tangent.new numT
  have h : SameV (t.normalize.map fun n => n.cross b) (fcross (fnormalize (numV t)) (numV b)) := by
    cases hn : t.normalize with
    | none => rw [normalize_none hn]; exact nan_cross (.inl fnormalize_zero)
    | some n => rw [fnormalize_num hn, fcross_num]; rfl
  rw [h.orZero, fdot_num, fsmul_num, fsub_num, orZero_num]
  rfl

/-! ### The mean of rays -/

/-- An observation with unrounded numbers. -/
def numO (o : Observation) : FObservation Unrounded := ⟨numIso o.pose, numV o.bearing⟩

theorem ray_num (o : Observation) : (numO o).ray = numV o.ray := by
  unfold FObservation.ray numO
  rw [finv_num]
  exact fmulVec_num _ _

theorem centre_num (o : Observation) : (numO o).centre = numV o.centre := by
  unfold FObservation.centre numO
  rw [finv_num]
  rfl

theorem foldl_num (f : FObservation Unrounded → V3 Unrounded) (g : Observation → V3 ℝ) (h : ∀ o, f (numO o) = numV (g o))
    (os : List Observation) (s : V3 ℝ) :
    (os.map numO).foldl (fun s o => fadd s (f o)) (numV s) = numV (os.foldl (fun s o => s.add (g o)) s) := by
  induction os generalizing s with
  | nil => rfl
  | cons o os ih => rw [List.map_cons, List.foldl_cons, List.foldl_cons, h, fadd_num, ih]

theorem nearestAlong_num {c m : V3 ℝ} {o : Observation} :
    (∀ d, nearestAlong c m o = some d → fnearestAlong (numV c) (numV m) (numO o) = num d) ∧
    (nearestAlong c m o = none → ieee.val (fnearestAlong (numV c) (numV m) (numO o)) = .nan) := by
  unfold nearestAlong fnearestAlong
  simp only [ray_num, centre_num, fsub_num, fcross_num, fnormSq_num]
  by_cases h0 : (m.cross o.ray).normSq = 0
  · have hz := V3.normSq_eq_zero.mp h0
    refine ⟨fun d h => ?_, fun _ => ?_⟩
    · rw [cdiv, if_pos h0] at h; simp at h
    · refine nan_fdot (.inl (.inl ?_))
      rw [hz]
      show (Flt.mul (ExFloat.fdiv (.num 1) (.num (V3.zero : V3 ℝ).normSq)) (.num 0)) = _
      simp [ExFloat.fdiv, Flt.mul, lin]
  · refine ⟨fun d h => ?_, fun h => ?_⟩
    · rw [cdiv, if_neg h0] at h
      simp only [Option.bind_eq_bind, Option.bind_some, Option.pure_def, Option.some.injEq] at h
      rw [num_one, num_div h0, fsmul_num, fdot_num, h]
    · rw [cdiv, if_neg h0] at h; simp at h

theorem mapM_missing {α β : Type} {f : α → Option β} {l : List α} (h : l.mapM f = none) : ∃ a ∈ l, f a = none := by
  induction l with
  | nil => simp at h
  | cons a l ih =>
    cases ha : f a with
    | none => exact ⟨a, List.mem_cons_self, ha⟩
    | some b =>
      rw [List.mapM_cons, ha] at h
      cases hl : l.mapM f with
      | none =>
        obtain ⟨x, hx, hn⟩ := ih hl
        exact ⟨x, List.mem_cons_of_mem _ hx, hn⟩
      | some bs => rw [hl] at h; cases h

theorem distances_num (c m : V3 ℝ) (os : List Observation) :
    (∀ ds, os.mapM (nearestAlong c m) = some ds → ∀ s, (os.map numO).foldl (fun s o => s +
      fnearestAlong (numV c) (numV m) o) (num s) = num (s + ds.sum)) ∧
    (os.mapM (nearestAlong c m) = none → ∀ s, ieee.val ((os.map numO).foldl (fun s o => s +
      fnearestAlong (numV c) (numV m) o) s) = .nan) := by
  constructor
  · induction os with
    | nil =>
      intro ds h s
      simp at h
      subst h
      simp
    | cons o os ih =>
      intro ds h s
      rw [List.mapM_cons] at h
      simp only [Option.bind_eq_bind, Option.bind_eq_some_iff, Option.pure_def, Option.some.injEq] at h
      obtain ⟨d, hd, ds', hds, rfl⟩ := h
      rw [List.map_cons, List.foldl_cons, nearestAlong_num.1 d hd, num_add, ih ds' hds, List.sum_cons, add_assoc]
  · intro h s
    refine foldl_nan _ _ _ (.inr ?_)
    obtain ⟨o, ho, h⟩ := mapM_missing h
    exact ⟨numO o, List.mem_map_of_mem ho, nearestAlong_num.2 h⟩

theorem fcheiral_num (os : List Observation) (p : V4 ℝ) :
    fcheiral (os.map numO) (numV4 p) = true ↔ cheiral os p := by
  unfold fcheiral cheiral
  rw [List.all_map, List.all_eq_true]
  refine forall₂_congr fun o _ => ?_
  have e : fdot (numO o).ray (fbearing (numV4 p)) = num (o.ray.dot (bearing p)) := by
    rw [ray_num]; rfl
  show isSignPositive (fdot (numO o).ray (fbearing (numV4 p))) = true ↔ _
  rw [e, positive_num]

/-- **C105** And the mean of rays. -/
theorem C105_unrounded_mean (os : List Observation) : fmeanMean (os.map numO) = (meanMean os).map numV4 := by
  have hbad : ∀ p : V4 Unrounded, allFinite (fhomogeneous p) = false →
      (if allFinite (fhomogeneous p) = true then
        if fcheiral (os.map numO) (fhomogeneous p) = true then some (fhomogeneous p) else none else none) = none := by
    intro p h
    rw [if_neg (by rw [h]; exact Bool.false_ne_true)]
  unfold fmeanMean meanMean
  simp only [fzero_num, foldl_num _ _ ray_num, foldl_num _ _ centre_num, List.length_map]
  rw [show (os.foldl (fun s o => s.add o.ray) V3.zero) = sumRays os from rfl,
    show (os.foldl (fun s o => s.add o.centre) V3.zero) = sumCentres os from rfl,
    show ((os.length : ℕ) : Unrounded) = num (os.length : ℝ) from rfl]
  by_cases hl : os.length = 0
  · rw [if_pos hl]
    refine hbad _ (homogeneous_bad bits (.inl ?_))
    refine bad_add (.inr (.inl (not_mul (.inr ?_))))
    rw [hl, Nat.cast_zero]
    exact not_div_zero _
  rw [if_neg hl]
  have hl' : (os.length : ℝ) ≠ 0 := by exact_mod_cast hl
  rw [funscale_num hl', show V3.smul (1 / (os.length : ℝ)) (sumCentres os) = averageCentre os from rfl]
  cases hm : (sumRays os).normalize with
  | none =>
    rw [normalize_none hm]
    exact hbad _ (homogeneous_bad bits (.inl (bad_add (.inl fnormalize_zero.bad))))
  | some m =>
    rw [fnormalize_num hm]
    simp only [Option.bind_eq_bind, Option.bind_some]
    cases hd : os.mapM (nearestAlong (averageCentre os) m) with
    | none =>
      refine hbad _ (homogeneous_bad bits (.inr ?_))
      exact nan_div (.inr (nan_div (.inl ((distances_num _ _ os).2 hd _))))
    | some ds =>
      rw [num_zero, (distances_num _ _ os).1 ds hd 0, zero_add, num_div hl', num_one]
      simp only [Option.bind_some]
      cases hw : cdiv 1 (ds.sum / os.length) with
      | none =>
        have h0 : ds.sum / os.length = 0 := by
          by_contra h; unfold cdiv at hw; rw [if_neg h] at hw; cases hw
        rw [h0]
        exact hbad _ (homogeneous_bad bits (.inl (bad_add (.inr (.inl (not_mul (.inl (not_div_zero _))))))))
      | some w =>
        rw [cdiv_num hw, fsmul_num, fadd_num]
        simp only [Option.bind_some]
        have hp := fhomogeneous_num ⟨(m.add (V3.smul w (averageCentre os))).x, (m.add (V3.smul w (averageCentre os))).y,
          (m.add (V3.smul w (averageCentre os))).z, w⟩
        cases hq : fromHomogeneous ⟨(m.add (V3.smul w (averageCentre os))).x,
            (m.add (V3.smul w (averageCentre os))).y, (m.add (V3.smul w (averageCentre os))).z, w⟩ with
        | none => exact hbad _ (hp.2 hq)
        | some p =>
          rw [show fhomogeneous ⟨(numV (m.add (V3.smul w (averageCentre os)))).x,
            (numV (m.add (V3.smul w (averageCentre os)))).y, (numV (m.add (V3.smul w (averageCentre os)))).z,
            num w⟩ = numV4 p from hp.1 p hq, finite_num, if_pos rfl]
          rw [Option.bind_some]
          by_cases hc : cheiral os p
          · rw [if_pos hc, if_pos ((fcheiral_num os p).2 hc)]; rfl
          · rw [if_neg hc, if_neg (fun h => hc ((fcheiral_num os p).1 h))]; rfl

end Verif.Geo.Rounded
