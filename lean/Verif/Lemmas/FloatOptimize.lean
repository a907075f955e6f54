import Verif.Spec.FloatOptimize
import Verif.Props.FloatGeom
import Verif.Lemmas.FloatArith

/-!
# Lemmas on the pose optimisers with floating point numbers
-/

namespace Verif.Geo.Rounded

open Verif.Akaze
open Verif.Bicubic (Flt)
open Verif.Akaze.FloatOps (lit lt le abs sqrt)
open Verif.Akaze.FloatBits (isFinite isNan isSignNegative)
open P3P

variable {D : Type} [FloatOps D] {J : Ieee D}

/-! ### Zero -/

theorem add_zero_val {a z : D} (h : J.val z = .num 0) : J.val (a + z) = J.val a := by
  rw [J.add, h]
  cases ha : J.val a with
  | nan => rfl
  | inf s => rfl
  | num x =>
    show J.rnd (x + 0) = _
    rw [add_zero, J.rnd_val a x ha]

theorem zero_add_val {a z : D} (h : J.val z = .num 0) : J.val (z + a) = J.val a := by
  rw [J.add, h]
  cases ha : J.val a with
  | nan => rfl
  | inf s => rfl
  | num x =>
    show J.rnd (0 + x) = _
    rw [zero_add, J.rnd_val a x ha]

theorem rnd_zero : J.rnd 0 = .num 0 := J.rnd_val 0 0 J.zero

theorem mul_zero_val {a z : D} (ha : ∃ x, J.val a = .num x) (h : J.val z = .num 0) : J.val (a * z) = .num 0 := by
  obtain ⟨x, hx⟩ := ha
  rw [J.mul, h, hx]
  show J.rnd (x * 0) = _
  rw [mul_zero, rnd_zero]

theorem zero_mul_val {a z : D} (ha : ∃ x, J.val a = .num x) (h : J.val z = .num 0) : J.val (z * a) = .num 0 := by
  obtain ⟨x, hx⟩ := ha
  rw [J.mul, h, hx]
  show J.rnd (0 * x) = _
  rw [zero_mul, rnd_zero]

theorem one_mul_val {a o : D} (h : J.val o = .num 1) (ha : ∃ x, J.val a = .num x) : J.val (o * a) = J.val a := by
  obtain ⟨x, hx⟩ := ha
  rw [J.mul, h, hx]
  show J.rnd (1 * x) = _
  rw [one_mul, J.rnd_val a x hx]

variable (J) in
/-- All coordinates are zero (of either sign). -/
def ZeroV (v : V3 D) : Prop := J.val v.x = .num 0 ∧ J.val v.y = .num 0 ∧ J.val v.z = .num 0

variable (J) in
/-- Both parts are zero. -/
def ZeroT (g : FTangent D) : Prop := ZeroV J g.translation ∧ ZeroV J g.rotation

theorem zeroV_zero : ZeroV J fzero := ⟨J.zero, J.zero, J.zero⟩
theorem zeroT_zero : ZeroT J FTangent.zero := ⟨zeroV_zero, zeroV_zero⟩

theorem ZeroV.add {a b : V3 D} (ha : ZeroV J a) (hb : ZeroV J b) : ZeroV J (fadd a b) :=
  ⟨(add_zero_val hb.1).trans ha.1, (add_zero_val hb.2.1).trans ha.2.1, (add_zero_val hb.2.2).trans ha.2.2⟩

theorem ZeroV.smul {s : D} {a : V3 D} (hs : ∃ x, J.val s = .num x) (ha : ZeroV J a) : ZeroV J (fsmul s a) :=
  ⟨mul_zero_val hs ha.1, mul_zero_val hs ha.2.1, mul_zero_val hs ha.2.2⟩

theorem ZeroV.norm {a : V3 D} (h : ZeroV J a) : J.val (fnorm a) = .num 0 := by
  have hz : ∃ x, J.val a.x = .num x := ⟨0, h.1⟩
  have h1 : J.val (fnormSq a) = .num 0 := by
    show J.val (a.x * a.x + a.y * a.y + a.z * a.z) = _
    rw [add_zero_val (mul_zero_val ⟨0, h.2.2⟩ h.2.2), add_zero_val (mul_zero_val ⟨0, h.2.1⟩ h.2.1)]
    exact mul_zero_val ⟨0, h.1⟩ h.1
  unfold fnorm
  rw [J.sqrt_num _ 0 h1, if_neg (lt_irrefl _), Real.sqrt_zero, rnd_zero]

theorem ZeroT.add {a b : FTangent D} (ha : ZeroT J a) (hb : ZeroT J b) : ZeroT J (a.add b) :=
  ⟨ha.1.add hb.1, ha.2.add hb.2⟩
theorem ZeroT.scale {s : D} {a : FTangent D} (hs : ∃ x, J.val s = .num x) (h : ZeroT J a) : ZeroT J (a.scale s) :=
  ⟨h.1.smul hs, h.2.smul hs⟩
theorem ZeroT.scaleTranslation {s : D} {a : FTangent D} (hs : ∃ x, J.val s = .num x) (h : ZeroT J a) :
    ZeroT J (a.scaleTranslation s) := ⟨h.1.smul hs, h.2⟩
theorem ZeroT.scaleRotation {s : D} {a : FTangent D} (hs : ∃ x, J.val s = .num x) (h : ZeroT J a) :
    ZeroT J (a.scaleRotation s) := ⟨h.1, h.2.smul hs⟩

theorem zeroT_sum {gs : List (FTangent D)} (h : ∀ g ∈ gs, ZeroT J g) : ZeroT J (fsum gs) := by
  have key : ∀ (gs : List (FTangent D)) (z : FTangent D), (∀ g ∈ gs, ZeroT J g) → ZeroT J z →
      ZeroT J (gs.foldl FTangent.add z) := by
    intro gs
    induction gs with
    | nil => intro z _ hz; exact hz
    | cons g gs ih =>
      intro z h hz
      exact ih _ (fun g' h' => h g' (List.mem_cons_of_mem _ h')) (hz.add (h g (by simp)))
  exact key gs _ h zeroT_zero

/-! ### Equal values -/

theorem SameVal.symm {a b : V3 D} (h : SameVal J a b) : SameVal J b a := ⟨h.1.symm, h.2.1.symm, h.2.2.symm⟩
theorem SameVal.trans {a b c : V3 D} (h : SameVal J a b) (h' : SameVal J b c) : SameVal J a c :=
  ⟨h.1.trans h'.1, h.2.1.trans h'.2.1, h.2.2.trans h'.2.2⟩
theorem SameVal.refl (a : V3 D) : SameVal J a a := ⟨rfl, rfl, rfl⟩
theorem SameMat.refl (A : M3 D) : SameMat J A A := ⟨rfl, rfl, rfl, rfl, rfl, rfl, rfl, rfl, rfl⟩
theorem SameIso.refl (p : Iso D) : SameIso J p p := ⟨SameMat.refl _, SameVal.refl _⟩

theorem SameIso.trans {p q r : Iso D} (h : SameIso J p q) (h' : SameIso J q r) : SameIso J p r := by
  obtain ⟨⟨a1, a2, a3, a4, a5, a6, a7, a8, a9⟩, ht⟩ := h
  obtain ⟨⟨b1, b2, b3, b4, b5, b6, b7, b8, b9⟩, ht'⟩ := h'
  exact ⟨⟨a1.trans b1, a2.trans b2, a3.trans b3, a4.trans b4, a5.trans b5, a6.trans b6, a7.trans b7, a8.trans b8,
    a9.trans b9⟩, ht.trans ht'⟩

theorem FiniteIso.same {p q : Iso D} (h : FiniteIso J q) (hs : SameIso J p q) : FiniteIso J p := by
  obtain ⟨⟨a1, a2, a3, a4, a5, a6, a7, a8, a9⟩, t1, t2, t3⟩ := hs
  obtain ⟨⟨b1, b4, b7⟩, ⟨b2, b5, b8⟩, ⟨b3, b6, b9⟩, c1, c2, c3⟩ := h
  simp only [FiniteIso, FiniteV, a1, a2, a3, a4, a5, a6, a7, a8, a9, t1, t2, t3]
  exact ⟨⟨b1, b4, b7⟩, ⟨b2, b5, b8⟩, ⟨b3, b6, b9⟩, c1, c2, c3⟩

theorem same_add {a b a' b' : D} (ha : J.val a = J.val a') (hb : J.val b = J.val b') : J.val (a + b) = J.val (a' + b') := by
  rw [J.add, J.add, ha, hb]
theorem same_mul {a b a' b' : D} (ha : J.val a = J.val a') (hb : J.val b = J.val b') : J.val (a * b) = J.val (a' * b') := by
  rw [J.mul, J.mul, ha, hb]
theorem same_neg {a a' : D} (ha : J.val a = J.val a') : J.val (-a) = J.val (-a') := by rw [J.neg, J.neg, ha]

theorem same_sqrt {a a' : D} (h : J.val a = J.val a') : J.val (sqrt a) = J.val (sqrt a') := by
  cases ha : J.val a with
  | nan => rw [J.sqrt_nan a ha, J.sqrt_nan a' (h ▸ ha)]
  | inf s => rw [J.sqrt_inf a s ha, J.sqrt_inf a' s (h ▸ ha)]
  | num x => rw [J.sqrt_num a x ha, J.sqrt_num a' x (h ▸ ha)]

theorem same_dot {a b a' b' : V3 D} (ha : SameVal J a a') (hb : SameVal J b b') : J.val (fdot a b) = J.val (fdot a' b') :=
  same_add (same_add (same_mul ha.1 hb.1) (same_mul ha.2.1 hb.2.1)) (same_mul ha.2.2 hb.2.2)

theorem same_norm {a a' : V3 D} (h : SameVal J a a') : J.val (fnorm a) = J.val (fnorm a') := same_sqrt (same_dot h h)

theorem same_fadd {a b a' b' : V3 D} (ha : SameVal J a a') (hb : SameVal J b b') : SameVal J (fadd a b) (fadd a' b') :=
  ⟨same_add ha.1 hb.1, same_add ha.2.1 hb.2.1, same_add ha.2.2 hb.2.2⟩

theorem same_inv {p q : Iso D} (h : SameIso J p q) : SameIso J (finv p) (finv q) := by
  obtain ⟨⟨a1, a2, a3, a4, a5, a6, a7, a8, a9⟩, ht⟩ := h
  have hn : SameVal J (fneg p.t) (fneg q.t) := ⟨same_neg ht.1, same_neg ht.2.1, same_neg ht.2.2⟩
  exact ⟨⟨a1, a4, a7, a2, a5, a8, a3, a6, a9⟩, same_dot ⟨a1, a4, a7⟩ hn, same_dot ⟨a2, a5, a8⟩ hn, same_dot ⟨a3, a6, a9⟩ hn⟩

/-! ### A step of length zero -/

theorem mulVec_one {v : V3 D} (h : FiniteV J v) : SameVal J (fmulVec fone v) v := by
  obtain ⟨hx, hy, hz⟩ := h
  refine ⟨?_, ?_, ?_⟩
  · show J.val (1 * v.x + 0 * v.y + 0 * v.z) = _
    rw [add_zero_val (zero_mul_val hz J.zero), add_zero_val (zero_mul_val hy J.zero), one_mul_val J.one hx]
  · show J.val (0 * v.x + 1 * v.y + 0 * v.z) = _
    rw [add_zero_val (zero_mul_val hz J.zero), zero_add_val (zero_mul_val hx J.zero), one_mul_val J.one hy]
  · show J.val (0 * v.x + 0 * v.y + 1 * v.z) = _
    rw [zero_add_val, one_mul_val J.one hz]
    rw [add_zero_val (zero_mul_val hy J.zero)]
    exact zero_mul_val hx J.zero

theorem ZeroV.finite {v : V3 D} (h : ZeroV J v) : FiniteV J v := ⟨⟨0, h.1⟩, ⟨0, h.2.1⟩, ⟨0, h.2.2⟩⟩

theorem exp_zero {w : V3 D} (h : ZeroV J w) : fexpRot w = fone := by
  unfold fexpRot
  rw [if_pos]
  simp only [FloatOps.eq, Bool.and_eq_true, J.le, h.norm, J.zero]
  exact ⟨le_refl (0 : ℝ), le_refl (0 : ℝ)⟩

theorem step_zero {g : FTangent D} {p : Iso D} (hg : ZeroT J g) (hp : FiniteIso J p) :
    SameIso J (fisoMul g.isometry p) p := by
  obtain ⟨h1, h2, h3, ht⟩ := hp
  have e : g.isometry = ⟨fone, fmulVec fone g.translation⟩ := by unfold FTangent.isometry; rw [exp_zero hg.2]
  rw [e]
  have c1 := mulVec_one h1
  have c2 := mulVec_one h2
  have c3 := mulVec_one h3
  refine ⟨⟨c1.1, c2.1, c3.1, c1.2.1, c2.2.1, c3.2.1, c1.2.2, c2.2.2, c3.2.2⟩, ?_⟩
  have hz : SameVal J (fmulVec fone g.translation) fzero := by
    refine (mulVec_one hg.1.finite).trans ⟨?_, ?_, ?_⟩
    · rw [hg.1.1]; exact J.zero.symm
    · rw [hg.1.2.1]; exact J.zero.symm
    · rw [hg.1.2.2]; exact J.zero.symm
  exact ⟨(zero_add_val (hz.1.trans J.zero)).trans (mulVec_one ht).1,
    (zero_add_val (hz.2.1.trans J.zero)).trans (mulVec_one ht).2.1,
    (zero_add_val (hz.2.2.trans J.zero)).trans (mulVec_one ht).2.2⟩

/-! ### The loop -/

omit [FloatOps D] in
theorem optimizeLoop_inv [FloatOps D] {P : Type} {sizes : P → List D} {update : P → P} {inv : P → Prop}
    (h : ∀ p, inv p → inv (update p)) (n : Nat) (bs : List D) (idle : Nat) {p : P} (hp : inv p) :
    inv (foptimizeLoop sizes update n bs idle p) := by
  induction n generalizing bs idle p with
  | zero => exact hp
  | succ n ih =>
    unfold foptimizeLoop
    simp only
    generalize (if ((List.zipWith ftrack bs (sizes p)).any fun x => x.2) = true then 0 else idle + 1) = k
    split
    · exact hp
    · exact ih _ _ (h p hp)

/-! ### Rates -/

/-- One over a count is a number between zero and one. -/
theorem inv_count {n : Nat} (h : 0 < n) : ∃ k, J.val (1 / (n : D)) = .num k ∧ 0 ≤ k ∧ k ≤ 1 := by
  have h1 : (1 : ℝ) ≤ n := by exact_mod_cast h
  have hm := J.rnd_mono 1 n h1
  rw [J.rnd_val 1 1 J.one, ← J.natCast] at hm
  cases hn : J.val (n : D) with
  | nan => rw [hn] at hm; exact hm.elim
  | inf s => exact ⟨0, J.div_inf _ _ 1 s J.one hn, le_refl _, zero_le_one⟩
  | num x =>
    rw [hn] at hm
    have hx : (1 : ℝ) ≤ x := hm
    rw [J.div _ _ 1 x J.one hn (by positivity)]
    exact rnd_between exact_zero exact_one (by positivity) ((div_le_one (by positivity)).2 hx)

/-- A number times a number between zero and one is a number. -/
theorem mul_fraction {k r : D} {x : ℝ} (hk : J.val k = .num x) (h0 : 0 ≤ x) (h1 : x ≤ 1) (hr : ∃ y, J.val r = .num y) :
    ∃ z, J.val (k * r) = .num z := by
  obtain ⟨y, hy⟩ := hr
  have hn : J.val (-r) = .num (-y) := by rw [J.neg, hy]; rfl
  rw [J.mul, hk, hy]
  show ∃ z, J.rnd (x * y) = .num z
  rcases le_total 0 y with h | h
  · obtain ⟨z, hz, -⟩ := rnd_between (I := J) (x := x * y) exact_zero (exact_val hy) (by positivity)
      (by nlinarith)
    exact ⟨z, hz⟩
  · obtain ⟨z, hz, -⟩ := rnd_between (I := J) (x := x * y) (exact_val hy) exact_zero (by nlinarith)
      (mul_nonpos_of_nonneg_of_nonpos h0 h)
    exact ⟨z, hz⟩

theorem finiteOrZero_num [FloatBits D] (B : IeeeBits J) (a : D) : ∃ x, J.val (finiteOrZero a) = .num x := by
  unfold finiteOrZero
  split
  · rename_i h; exact (B.isFinite a).1 h
  · exact ⟨0, J.zero⟩

/-- What is at least a number stays at least this number when something that is not negative is added. -/
theorem le_add {a b : D} {c : ℝ} (hc : J.Exact c) (ha : (Flt.num c).Le (J.val a)) (hb : Flt.NonNeg (J.val b)) :
    (Flt.num c).Le (J.val (a + b)) ∧ (Flt.num c).Le (J.val (b + a)) := by
  have key : ∀ x y : ℝ, c ≤ x → 0 ≤ y → (Flt.num c).Le (J.rnd (x + y)) := by
    intro x y hx hy
    have := J.rnd_mono c (x + y) (by linarith)
    rwa [hc] at this
  rw [J.add, J.add]
  cases ea : J.val a with
  | nan => rw [ea] at ha; exact ha.elim
  | inf s =>
    rw [ea] at ha
    cases s with
    | true => exact ha.elim
    | false =>
      cases eb : J.val b with
      | nan => rw [eb] at hb; exact hb.elim
      | inf t =>
        rw [eb] at hb
        cases t with
        | true => exact hb.elim
        | false => exact ⟨trivial, trivial⟩
      | num y => exact ⟨trivial, trivial⟩
  | num x =>
    rw [ea] at ha
    cases eb : J.val b with
    | nan => rw [eb] at hb; exact hb.elim
    | inf t =>
      rw [eb] at hb
      cases t with
      | true => exact hb.elim
      | false => exact ⟨trivial, trivial⟩
    | num y =>
      rw [eb] at hb
      refine ⟨key x y ha hb, ?_⟩
      show (Flt.num c).Le (J.rnd (y + x))
      rw [add_comm]
      exact key x y ha hb

theorem exact_small : J.Exact (1 / 2 ^ 24) := exact_dyadic 1 24 (by norm_num) (by norm_num) (by norm_num)
theorem exact_large : J.Exact (2 ^ 24) := by
  have := exact_nat (I := J) (n := 2 ^ 24) (le_refl _)
  rwa [Nat.cast_pow, Nat.cast_ofNat] at this

/-- The reciprocal of the sum of the reciprocals of weights. -/
theorem harmonic_val {α : Type} (w : α → D) {x : ℝ} (h0 : 0 < x) (h1 : x ≤ 2 ^ 24) {gs : List α} (hne : gs ≠ [])
    (hw : ∀ g ∈ gs, J.val (w g) = .num x) :
    ∃ y, J.val (1 / gs.foldl (fun s g => s + 1 / w g) 0) = .num y := by
  have one : ∀ g ∈ gs, (Flt.num (1 / 2 ^ 24)).Le (J.val (1 / w g)) := by
    intro g hg
    rw [J.div _ _ 1 x J.one (hw g hg) h0.ne']
    have := J.rnd_mono (1 / 2 ^ 24) (1 / x) (one_div_le_one_div_of_le h0 h1)
    rwa [exact_small] at this
  have pos : ∀ {v : Flt}, (Flt.num (1 / 2 ^ 24)).Le v → Flt.NonNeg v := by
    intro v hv
    cases v with
    | nan => exact hv.elim
    | inf s => cases s with
      | true => exact hv.elim
      | false => trivial
    | num x =>
      show (0 : ℝ) ≤ x
      have : (1 / 2 ^ 24 : ℝ) ≤ x := hv
      linarith [show (0 : ℝ) < 1 / 2 ^ 24 by positivity]
  have key : ∀ (l : List α) (z : D), (∀ g ∈ l, (Flt.num (1 / 2 ^ 24)).Le (J.val (1 / w g))) →
      (Flt.NonNeg (J.val z) ∧ l ≠ [] ∨ (Flt.num (1 / 2 ^ 24)).Le (J.val z)) →
      (Flt.num (1 / 2 ^ 24)).Le (J.val (l.foldl (fun s g => s + 1 / w g) z)) := by
    intro l
    induction l with
    | nil => rintro z - (h | h); exacts [absurd rfl h.2, h]
    | cons g l ih =>
      intro z hl hz
      refine ih _ (fun g' h' => hl g' (List.mem_cons_of_mem _ h')) (.inr ?_)
      rcases hz with ⟨hz, -⟩ | hz
      · exact (le_add exact_small (hl g (by simp)) hz).2
      · exact (le_add exact_small hz (pos (hl g (by simp)))).1
  have hs := key gs 0 one (.inl ⟨by rw [J.zero]; exact le_refl (0 : ℝ), hne⟩)
  generalize gs.foldl (fun s g => s + 1 / w g) 0 = s at hs
  cases e : J.val s with
  | nan => rw [e] at hs; exact hs.elim
  | inf t => exact ⟨0, J.div_inf _ _ 1 t J.one e⟩
  | num t =>
    rw [e] at hs
    have ht : (1 / 2 ^ 24 : ℝ) ≤ t := hs
    have ht0 : 0 < t := lt_of_lt_of_le (by positivity) ht
    rw [J.div _ _ 1 t J.one e ht0.ne']
    obtain ⟨y, hy, -⟩ := rnd_between (I := J) (x := 1 / t) exact_zero exact_large (by positivity) (by
      rw [div_le_iff₀ ht0]
      calc (1 : ℝ) = 2 ^ 24 * (1 / 2 ^ 24) := by norm_num
        _ ≤ 2 ^ 24 * t := by gcongr)
    exact ⟨y, hy⟩

/-! ### NaN -/

variable [FloatBits D]

theorem orZero_of_nan (B : IeeeBits J) {v : V3 D} (h : NanV J v) : orZero v = fzero := by
  unfold orZero
  rw [if_pos]
  simp only [Bool.or_eq_true, B.isNan]
  rcases h with h | h | h
  · exact .inl (.inl h)
  · exact .inl (.inr h)
  · exact .inr h

theorem zero_orZero {v : V3 D} (h : ZeroV J v) : ZeroV J (orZero v) := by
  unfold orZero
  split
  · exact zeroV_zero
  · exact h

theorem zero_normalize (B : IeeeBits J) (hz : ∀ a b : D, J.val a = .num 0 → J.val b = .num 0 → J.val (a / b) = .nan)
    {v : V3 D} (h : ZeroV J v) : orZero (fnormalize v) = fzero :=
  orZero_of_nan B (.inl (hz _ _ h.1 h.norm))

theorem zero_l1 (B : IeeeBits J) (hz : ∀ a b : D, J.val a = .num 0 → J.val b = .num 0 → J.val (a / b) = .nan)
    {g : FTangent D} (h : ZeroT J g) : ZeroT J g.l1 := by
  unfold FTangent.l1 FTangent.new
  rw [zero_normalize B hz h.1, zero_normalize B hz h.2]
  exact zeroT_zero

omit [FloatBits D] in
theorem nan_vadd {a b : V3 D} (h : NanV J a ∨ NanV J b) : NanV J (fadd a b) := by
  rcases h with (h | h | h) | (h | h | h)
  · exact .inl (nan_add (.inl h))
  · exact .inr (.inl (nan_add (.inl h)))
  · exact .inr (.inr (nan_add (.inl h)))
  · exact .inl (nan_add (.inr h))
  · exact .inr (.inl (nan_add (.inr h)))
  · exact .inr (.inr (nan_add (.inr h)))

omit [FloatBits D] in
theorem nan_vneg {a : V3 D} (h : NanV J a) : NanV J (fneg a) := h.imp nan_neg (Or.imp nan_neg nan_neg)

omit [FloatBits D] in
theorem nan_mulVec {A : M3 D} {v : V3 D} (h : NanV J v) : NanV J (fmulVec A v) := .inl (nan_fdot (.inr h))

/-- The gradient of a landmark with NaN in its bearing is zero. -/
theorem nan_delta (B : IeeeBits J) (p : Iso D) {m : V3 D × V4 D} (h : NanV J m.1) :
    flandmarkDelta p m = none ∨ flandmarkDelta p m = some FTangent.zero := by
  unfold flandmarkDelta
  cases fpoint (ftransform p m.2) with
  | none => exact .inl rfl
  | some x =>
    right
    simp only [Option.map_some]
    unfold fworldPoseGradient FTangent.new
    rw [orZero_of_nan B (nan_fsub (.inl (nan_smul (.inr h)))), orZero_of_nan B (nan_cross (.inr h))]
    rfl

/-- The gradients of a landmark with NaN in one of its bearings are zero. -/
theorem nan_gradients (B : IeeeBits J) {c f s : V3 D} (ftoc stoc : V3 D) (h : NanV J c ∨ NanV J f ∨ NanV J s)
    (h3 : ∃ x, J.val (1 / 3 : D) = .num x) (h2 : ∃ x, J.val (2 / 3 : D) = .num x) :
    ZeroT J (fthreeViewGradients c f ftoc s stoc).1 ∧ ZeroT J (fthreeViewGradients c f ftoc s stoc).2 := by
  have rot : ∀ {t a b : V3 D}, NanV J a ∨ NanV J b → NanV J (frotationGradient t a b) := by
    intro t a b h
    unfold frotationGradient
    rcases h with h | h
    · exact nan_cross (.inr (nan_normalize (nan_cross (.inl h)).bad))
    · exact nan_cross (.inl (nan_normalize (nan_cross (.inl h)).bad))
  have two : ∀ {a b : V3 D}, NanV J a ∨ NanV J b → NanV J (fadd (fsmul (2 / 3) a) (fsmul (1 / 3) b)) := fun h =>
    nan_vadd (h.imp (fun h => nan_smul (.inr h)) fun h => nan_smul (.inr h))
  have away : ∀ {p b : V3 D}, NanV J b → NanV J (fawayFrom p b) := fun h => nan_reject h
  have away' : ∀ {q c : V3 D}, NanV J c → NanV J (fsub (fsmul (fdot q c) c) q) := fun h =>
    nan_fsub (.inl (nan_smul (.inr h)))
  -- NaN or zero
  have getD : ∀ (o : Option (V3 D)) (g : V3 D → V3 D), (∀ p, NanV J (g p)) →
      NanV J ((o.map g).getD fzero) ∨ ZeroV J ((o.map g).getD fzero) := by
    intro o g hg
    cases o with
    | none => exact .inr zeroV_zero
    | some p => exact .inl (hg p)
  have both : ∀ {a b : V3 D}, NanV J a ∨ ZeroV J a → NanV J b ∨ ZeroV J b →
      ZeroV J (orZero (fadd (fsmul (2 / 3) a) (fsmul (1 / 3) b))) := by
    intro a b ha hb
    rcases ha with ha | ha
    · rw [orZero_of_nan B (two (.inl ha))]; exact zeroV_zero
    · rcases hb with hb | hb
      · rw [orZero_of_nan B (two (.inr hb))]; exact zeroV_zero
      · exact zero_orZero ((ha.smul h2).add (hb.smul h3))
  have gone : ∀ {t a b : V3 D} (g : V3 D → V3 D), NanV J a ∨ NanV J b →
      NanV J (((fsameSpace t a b).map g).getD fzero) ∨ ZeroV J (((fsameSpace t a b).map g).getD fzero) := by
    intro t a b g h
    rw [sameSpace_bad B (.inr (h.imp (fun h => h.bad) fun h => h.bad))]
    exact .inr zeroV_zero
  have zr : ∀ {v : V3 D}, NanV J v → ZeroV J (orZero v) := by
    intro v h
    rw [orZero_of_nan B h]; exact zeroV_zero
  unfold fthreeViewGradients FTangent.new
  simp only
  refine ⟨⟨both ?_ ?_, zr (two ?_)⟩, ⟨both ?_ ?_, zr (two ?_)⟩⟩
  · rcases h with h | h | h
    · exact gone _ (.inl h)
    · exact getD _ _ fun p => away h
    · exact gone _ (.inr h)
  · rcases h with h | h | h
    · exact getD _ _ fun p => away' h
    · exact gone _ (.inl h)
    · exact gone _ (.inr h)
  · rcases h with h | h | h
    · exact .inl (rot (.inl h))
    · exact .inl (rot (.inr h))
    · exact .inr (nan_vneg (rot (.inr h)))
  · rcases h with h | h | h
    · exact gone _ (.inl h)
    · exact gone _ (.inr h)
    · exact getD _ _ fun p => away h
  · rcases h with h | h | h
    · exact getD _ _ fun p => away' h
    · exact gone _ (.inl h)
    · exact gone _ (.inr h)
  · rcases h with h | h | h
    · exact .inl (rot (.inl h))
    · exact .inr (rot (.inl h))
    · exact .inl (rot (.inr h))

omit [FloatBits D] in
theorem val_three : J.val (3 : D) = .num 3 := by
  have := val_nat (I := J) (n := 3) (by norm_num)
  exact_mod_cast this

omit [FloatBits D] in
theorem val_fraction {n : D} {x : ℝ} (hn : J.val n = .num x) (h0 : 0 ≤ x) (h3 : x ≤ 3) : ∃ y, J.val (n / 3) = .num y := by
  rw [J.div n 3 x 3 hn val_three (by norm_num)]
  obtain ⟨y, hy, -⟩ := rnd_between (I := J) (x := x / 3) exact_zero exact_one (by positivity) (by linarith)
  exact ⟨y, hy⟩

omit [FloatBits D] in
theorem third_val : ∃ x, J.val (1 / 3 : D) = .num x := val_fraction J.one (by norm_num) (by norm_num)
omit [FloatBits D] in
theorem twoThirds_val : ∃ x, J.val (2 / 3 : D) = .num x := val_fraction val_two (by norm_num) (by norm_num)

end Verif.Geo.Rounded
