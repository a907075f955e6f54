import Verif.Lemmas.FloatDriftPose
import Verif.Lemmas.FloatDriftExp
import Verif.Lemmas.SfmPoses
import Verif.Props.FloatGraph
import Verif.Props.FloatOptimize
import Verif.Props.SfmGraphNext

/-!
# How far the poses drift from rigid motions (C112)

`Near e F X` says that the matrix `F` moves every vector as `X` does, up to `e` times its length; `RotWithin J e A` that the
floating point matrix `A` is finite and near some rotation in this sense. For `f64` the `u` below is 2⁻⁵³.
-/

namespace Verif.Geo.Rounded

open Verif.Akaze
open P3P (fdot fmulVec fmul)

variable {D : Type} [FloatOps D] {J : Ieee D} {u η M : ℝ}

/-- **C112.** The product of two poses is the exact product, up to the errors of the factors and a rounding error; `L` is a
bound for the translations. -/
theorem C112_product (A : Accurate J u η M) (E : FineRot u η M) {a b : Iso D} {P Q X Y : Iso ℝ} {ε e δ d L : ℝ}
    (ha : HasIso J a P) (hb : HasIso J b Q) (hX : X.Rigid) (hY : Y.Rigid) (hP : NearIso ε δ P X) (hQ : NearIso e d Q Y)
    (h0 : 0 ≤ ε) (hε : ε ≤ 1 / 50) (he : e ≤ 1 / 50) (hη : 1024 * η ≤ u * L) (hM : 16 * L ≤ M) (hPt : P.t.norm ≤ L)
    (hQt : Q.t.norm ≤ L) :
    ∃ S, HasIso J (fisoMul a b) S ∧
      NearIso (e + 102 / 100 * ε + 11 * u) (d + δ + ε * L + 10 * (u * L)) S (X.mul Y) :=
  compose_error A E ha hb hX hY hP hQ h0 hε he hη hM hPt hQt

/-- **C112.** The inverse of a pose is the exact inverse; the rotation has no further error. -/
theorem C112_inverse (A : Accurate J u η M) (E : FineRot u η M) {a : Iso D} {P X : Iso ℝ} {e d L : ℝ}
    (ha : HasIso J a P) (hX : X.Rigid) (hP : NearIso e d P X) (he0 : 0 ≤ e) (he : e ≤ 1 / 50) (hη : 1024 * η ≤ u * L)
    (hM : 16 * L ≤ M) (hPt : P.t.norm ≤ L) :
    ∃ S, HasIso J (finv a) S ∧ NearIso e (d + e * L + 6 * (u * L)) S X.inv :=
  inverse_error A E ha hX hP he0 he hη hM hPt

/-- **C112.** A pose times its inverse, which is what normalisation makes of the first view, is the identity up to rounding:
for a pose that is a rigid motion up to `e`, and whose translation is at most `L` long. -/
theorem C112_identity (A : Accurate J u η M) (E : FineRot u η M) {a : Iso D} {P X : Iso ℝ} {e L : ℝ}
    (ha : HasIso J a P) (hX : X.Rigid) (hR : Near e P.rot X.rot) (he0 : 0 ≤ e) (he : e ≤ 1 / 50) (hη : 1024 * η ≤ u * L)
    (hM : 32 * L ≤ M) (hPt : P.t.norm ≤ L) :
    ∃ S, HasIso J (fisoMul a (finv a)) S ∧ NearIso (203 / 100 * e + 11 * u) (3 * (e * L) + 26 * (u * L)) S Iso.one := by
  have hL : 0 ≤ L := (V3.norm_nonneg _).trans hPt
  have hu0 := A.u_nonneg
  have huL : 0 ≤ u * L := mul_nonneg hu0 hL
  have heL : 0 ≤ e * L := mul_nonneg he0 hL
  have hX' : (⟨X.rot, P.t⟩ : Iso ℝ).Rigid := hX
  have hP : NearIso e 0 P ⟨X.rot, P.t⟩ := ⟨hR, by
    show (P.t.sub P.t).norm ≤ 0
    have : P.t.sub P.t = V3.zero := by lin3
    rw [this]
    exact (V3.norm_eq_zero.2 rfl).le⟩
  obtain ⟨I, hI, nI⟩ := C112_inverse A E ha hX' hP he0 he hη (by linarith) hPt
  have hIt : I.t.norm ≤ 2 * L := by
    have h1 : I.t = (I.t.sub (⟨X.rot, P.t⟩ : Iso ℝ).inv.t).add (⟨X.rot, P.t⟩ : Iso ℝ).inv.t := by lin3
    rw [h1]
    have h2 := Quat.norm_add_le (I.t.sub (⟨X.rot, P.t⟩ : Iso ℝ).inv.t) (⟨X.rot, P.t⟩ : Iso ℝ).inv.t
    have h3 : (⟨X.rot, P.t⟩ : Iso ℝ).inv.t.norm = P.t.norm := by
      have : (⟨X.rot, P.t⟩ : Iso ℝ).inv.t = X.rot.transpose.mulVec P.t.neg := by
        simp only [Iso.inv]; try lin3
      rw [this, norm_rotated (M3.IsRot.transpose hX), V3.norm_neg]
    have h4 := nI.2
    have h5 : e * L ≤ 1 / 50 * L := mul_le_mul_of_nonneg_right he hL
    have h6 : u * L ≤ 1 / 1024 * L := mul_le_mul_of_nonneg_right E.precise hL
    linarith
  obtain ⟨S, hS, nS⟩ := C112_product A E ha hI hX' (Iso.Rigid.inv hX') hP nI he0 he he (L := 2 * L) (by linarith) (by linarith)
    (by linarith) hIt
  refine ⟨S, hS, ?_⟩
  rw [Iso.Rigid.mul_inv hX'] at nS
  exact ⟨nS.1.mono (by linarith), nS.2.trans (by linarith)⟩

/-! ### Many steps -/

/-- The exact poses after each of the exact steps. -/
noncomputable def exactChain (start : Iso ℝ) (steps : Nat → Iso ℝ) : Nat → Iso ℝ
  | 0 => start
  | n + 1 => (steps n).mul (exactChain start steps n)

/-- The computed poses. -/
def chain (start : Iso D) (steps : Nat → Iso D) : Nat → Iso D
  | 0 => start
  | n + 1 => fisoMul (steps n) (chain start steps n)

theorem exactChain_rigid {start : Iso ℝ} {steps : Nat → Iso ℝ} (h0 : start.Rigid) (hs : ∀ k, (steps k).Rigid) (n : Nat) :
    (exactChain start steps n).Rigid := by
  induction n with
  | zero => exact h0
  | succ n ih => exact (hs n).mul ih

/-- **C112.** A pose moved in `n` steps is where exact arithmetic would have brought it; the error grows by a fixed amount with
each step, not by a factor. -/
theorem C112_steps (A : Accurate J u η M) (E : FineRot u η M) {start : Iso D} {steps : Nat → Iso D} {P0 X0 : Iso ℝ}
    {P X : Nat → Iso ℝ} {e ε d δ L : ℝ} (h0 : HasIso J start P0) (hX0 : X0.Rigid) (n0 : NearIso e d P0 X0)
    (hs : ∀ k, HasIso J (steps k) (P k)) (hX : ∀ k, (X k).Rigid) (hn : ∀ k, NearIso ε δ (P k) (X k))
    (hε0 : 0 ≤ ε) (hε : ε ≤ 1 / 50) (hδ : 0 ≤ δ) (hη : 1024 * η ≤ u * L) (hM : 32 * L ≤ M) (hPt : ∀ k, (P k).t.norm ≤ L)
    (n : Nat) (hpos : ∀ k ≤ n, (exactChain X0 X k).t.norm ≤ L) (hrot : e + n * (102 / 100 * ε + 11 * u) ≤ 1 / 50)
    (htrans : d + n * (δ + 2 * (ε * L) + 20 * (u * L)) ≤ L) :
    ∃ S, HasIso J (chain start steps n) S ∧ NearIso (e + n * (102 / 100 * ε + 11 * u))
      (d + n * (δ + 2 * (ε * L) + 20 * (u * L))) S (exactChain X0 X n) := by
  have hu0 := A.u_nonneg
  have hL : 0 ≤ L := (V3.norm_nonneg _).trans (hpos 0 (Nat.zero_le _))
  have huL : 0 ≤ u * L := mul_nonneg hu0 hL
  have hεL : 0 ≤ ε * L := mul_nonneg hε0 hL
  induction n with
  | zero => exact ⟨P0, h0, n0.1.mono (by simp), n0.2.trans (by simp)⟩
  | succ n ih =>
    push_cast at hrot htrans ⊢
    obtain ⟨S, hS, nS⟩ := ih (fun k hk => hpos k (Nat.le_succ_of_le hk)) (by nlinarith) (by nlinarith)
    have hSt : S.t.norm ≤ 2 * L := by
      have h1 : S.t = (S.t.sub (exactChain X0 X n).t).add (exactChain X0 X n).t := by lin3
      rw [h1]
      have h2 := Quat.norm_add_le (S.t.sub (exactChain X0 X n).t) (exactChain X0 X n).t
      have h3 := hpos n (Nat.le_succ n)
      have h4 := nS.2
      have : 0 ≤ δ + 2 * (ε * L) + 20 * (u * L) := by positivity
      nlinarith
    obtain ⟨T, hT, nT⟩ := C112_product A E (hs n) hS (hX n) (exactChain_rigid hX0 hX n) (hn n) nS hε0 hε
      (by nlinarith) (L := 2 * L) (by linarith) (by linarith) (by linarith [hPt n]) hSt
    exact ⟨T, hT, nT.1.mono (by linarith), nT.2.trans (by linarith)⟩

/-! ### The loops of the program -/

/-- **C112.** The product of matrices near rotations. -/
theorem C112_rotations (A : Accurate J u η M) (E : FineRot u η M) {a b : M3 D} {ε e : ℝ} (ha : RotWithin J ε a)
    (hb : RotWithin J e b) (h0 : 0 ≤ ε) (hε : ε ≤ 1 / 50) (he : e ≤ 1 / 50) :
    RotWithin J (e + 102 / 100 * ε + 11 * u) (fmul a b) := by
  obtain ⟨F, X, hF, hX, nF⟩ := ha
  obtain ⟨G, Y, hG, hY, nG⟩ := hb
  obtain ⟨H, hH, nH⟩ := product_error A E hF hG hX hY nF nG h0 hε he
  exact ⟨H, X.mul Y, hH, M3.IsRot.mul hX hY, nH⟩

theorem RotWithin.mono {e e' : ℝ} {a : M3 D} (h : RotWithin J e a) (he : e ≤ e') : RotWithin J e' a := by
  obtain ⟨F, X, hF, hX, n⟩ := h
  exact ⟨F, X, hF, hX, n.mono he⟩

theorem RotWithin.inv {e : ℝ} {p : Iso D} (h : RotWithin J e p.rot) : RotWithin J e (finv p).rot := by
  obtain ⟨F, X, hF, hX, n⟩ := h
  exact ⟨_, _, hF.transpose, M3.IsRot.transpose hX, n.transpose⟩

/-- Rows of at most 1 % more than 1, as the theorems of C111 ask for. -/
theorem RotWithin.nearRot {e : ℝ} {a : M3 D} (h : RotWithin J e a) (he : e ≤ 1 / 100) :
    ∃ F, HasM J a F ∧ NearRot F := by
  obtain ⟨F, X, hF, hX, n⟩ := h
  have r := n.rows hX
  exact ⟨F, hF, r.1.trans (by linarith), r.2.1.trans (by linarith), r.2.2.trans (by linarith)⟩

/-- **C112** The rotation computed from a rotation vector is a rotation up to 560 units of rounding, and is the exact
exponential up to that and 32 units for each radian. -/
theorem C112_exp (A : Accurate J u η M) (T : SinCos J u) {w : V3 D} {W : V3 ℝ} (hw : HasV J w W)
    (E : FineTurn u η M W.norm) :
    RotWithin J (560 * u) (fexpRot w) ∧ ∃ F, HasM J (fexpRot w) F ∧ Near ((560 + 32 * W.norm) * u) F (expRot W) := by
  obtain ⟨n, hn, n0, F, X, hF, hX, nX, ne⟩ := turn_error A T hw E
  have h : fexpRot w = faxisAngle (funscale w (fnorm w)) (fnorm w) := by
    unfold fexpRot
    rw [if_neg]
    intro h
    simp only [FloatOps.eq, Bool.and_eq_true, J.le, hn, J.zero] at h
    exact n0 (le_antisymm h.1 h.2)
  rw [h]
  exact ⟨⟨F, X, hF, hX, nX⟩, F, hF, ne⟩

section Loops

variable [FloatBits D]

/-- Every exponential that is a finite matrix is a rotation up to `ε`. -/
def ExpWithin (J : Ieee D) (ε : ℝ) : Prop := ∀ w : V3 D, ¬ BadM J (fexpRot w) → RotWithin J ε (fexpRot w)

omit [FloatBits D] in
theorem move_within (A : Accurate J u η M) (E : FineRot u η M) {ε e : ℝ} (hx : ExpWithin J ε) (h0 : 0 ≤ ε) (hε : ε ≤ 1 / 50)
    (he : e ≤ 1 / 50) (g : FTangent D) {p : Iso D} (hp : ¬ BadIso J p → RotWithin J e p.rot)
    (hf : ¬ BadIso J (fisoMul g.isometry p)) :
    RotWithin J (e + (102 / 100 * ε + 11 * u)) (fisoMul g.isometry p).rot := by
  have h1 : ¬ BadIso J p := fun h => hf (bad_isoMul h)
  have h2 : ¬ BadM J (fexpRot g.rotation) := fun h => hf (bad_isoMul_left (.inl h))
  have := C112_rotations A E (hx _ h2) (hp h1) h0 hε he
  exact this.mono (by linarith)

omit [FloatBits D] in
/-- The loops keep what holds after each step. -/
theorem foptimizeLoop_graded {P : Type} {sizes : P → List D} {update : P → P} {Q : Nat → P → Prop}
    (hup : ∀ k p, Q k p → Q (k + 1) (update p)) (hmono : ∀ k p, Q k p → Q (k + 1) p) :
    ∀ (n : Nat) (bests : List D) (idle k : Nat) (p : P), Q k p → Q (k + n) (foptimizeLoop sizes update n bests idle p) := by
  have up : ∀ n k p, Q k p → Q (k + n) p := by
    intro n
    induction n with
    | zero => intro k p h; exact h
    | succ n ih => intro k p h; exact hmono _ _ (ih k p h)
  intro n
  induction n with
  | zero => intro bests idle k p h; exact h
  | succ n ih =>
    intro bests idle k p h
    unfold foptimizeLoop
    simp only
    generalize (if (List.zipWith ftrack bests (sizes p)).any (fun x => x.2) = true then 0 else idle + 1) = m
    by_cases hm : 50 ≤ m
    · rw [if_pos hm]
      exact up _ _ _ h
    · rw [if_neg hm]
      have := ih ((List.zipWith ftrack bests (sizes p)).map fun x => x.1) m (k + 1) _ (hup k p h)
      rwa [show k + (n + 1) = k + 1 + n by omega]

/-- What the loops keep of one pose: if it is finite, it is a rotation up to an error that grows with the steps. -/
def Drifts (J : Ieee D) (e c : ℝ) (k : Nat) (p : Iso D) : Prop :=
  e + k * c ≤ 1 / 50 → ¬ BadIso J p → RotWithin J (e + k * c) p.rot

omit [FloatBits D] in
theorem Drifts.step (A : Accurate J u η M) (E : FineRot u η M) {ε e : ℝ} (hx : ExpWithin J ε) (h0 : 0 ≤ ε) (hε : ε ≤ 1 / 50)
    {k : Nat} {p : Iso D} (h : Drifts J e (102 / 100 * ε + 11 * u) k p) (g : FTangent D) :
    Drifts J e (102 / 100 * ε + 11 * u) (k + 1) (fisoMul g.isometry p) := by
  intro hk hf
  have hu0 := A.u_nonneg
  push_cast at hk ⊢
  have hk' : e + k * (102 / 100 * ε + 11 * u) ≤ 1 / 50 := by nlinarith
  exact (move_within A E hx h0 hε hk' g (h hk') hf).mono (by linarith)

omit [FloatBits D] in
theorem Drifts.mono {c e : ℝ} (hc : 0 ≤ c) {k : Nat} {p : Iso D} (h : Drifts J e c k p) : Drifts J e c (k + 1) p := by
  intro hk hf
  push_cast at hk ⊢
  exact (h (by linarith) hf).mono (by linarith)

/-- **C112.** After `n` rounds of the single-view optimisers, a pose of finite numbers is a rotation up to the error it had,
plus `n` times that of one round. -/
theorem C112_single_view (A : Accurate J u η M) (E : FineRot u η M) {ε e : ℝ} (hx : ExpWithin J ε) (h0 : 0 ≤ ε)
    (hε : ε ≤ 1 / 50) {pose : Iso D} (hp : RotWithin J e pose.rot) (top eps rate : D) (n : Nat)
    (lms : List (V3 D × V4 D)) (hn : e + n * (102 / 100 * ε + 11 * u) ≤ 1 / 50) :
    (¬ BadIso J (fsingleViewL1 top pose eps rate n lms) →
      RotWithin J (e + n * (102 / 100 * ε + 11 * u)) (fsingleViewL1 top pose eps rate n lms).rot) ∧
    (¬ BadIso J (fsingleViewL2 top pose rate n lms) →
      RotWithin J (e + n * (102 / 100 * ε + 11 * u)) (fsingleViewL2 top pose rate n lms).rot) := by
  have hc : 0 ≤ 102 / 100 * ε + 11 * u := by have := A.u_nonneg; positivity
  have start : Drifts J e (102 / 100 * ε + 11 * u) 0 pose := fun _ _ => hp.mono (by simp)
  have same : RotWithin J (e + n * (102 / 100 * ε + 11 * u)) pose.rot := hp.mono (by
    have : 0 ≤ (n : ℝ) * (102 / 100 * ε + 11 * u) := by positivity
    linarith)
  constructor
  · unfold fsingleViewL1
    split
    · exact fun _ => same
    · have := foptimizeLoop_graded (Q := Drifts J e (102 / 100 * ε + 11 * u))
        (sizes := fun p => (fsum ((flandmarkDeltas p lms).map FTangent.l1)).sizes)
        (update := fun p => fisoMul (fstepL1 (fnorm p.t) eps rate (flandmarkDeltas p lms)).isometry p)
        (fun k p h => h.step A E hx h0 hε _) (fun k p h => h.mono hc) n [top, top] 0 0 pose start
      rw [Nat.zero_add] at this
      exact this hn
  · unfold fsingleViewL2
    split
    · exact fun _ => same
    · have := foptimizeLoop_graded (Q := Drifts J e (102 / 100 * ε + 11 * u))
        (sizes := fun p => (fsum (flandmarkDeltas p lms)).sizes) (update := fsingleStepL2 rate lms)
        (fun k p h => h.step A E hx h0 hε _) (fun k p h => h.mono hc) n [top, top] 0 0 pose start
      rw [Nat.zero_add] at this
      exact this hn

/-- Both poses. -/
def Drifts2 (J : Ieee D) (e c : ℝ) (k : Nat) (p : Iso D × Iso D) : Prop := Drifts J e c k p.1 ∧ Drifts J e c k p.2

omit [FloatBits D] in
/-- The inverse of a pose that is not finite is not finite. -/
theorem finite_of_inv {p : Iso D} (h : ¬ BadIso J (finv p)) : ¬ BadIso J p := fun h' => h (.inr (bad_inv h'))

omit [FloatBits D] in
theorem Drifts2.inverses {e c : ℝ} {n : Nat} {p : Iso D × Iso D} (h : Drifts2 J e c n p) (hn : e + n * c ≤ 1 / 50) :
    (¬ BadIso J (finvPoses p).1 → RotWithin J (e + n * c) (finvPoses p).1.rot) ∧
      (¬ BadIso J (finvPoses p).2 → RotWithin J (e + n * c) (finvPoses p).2.rot) :=
  ⟨fun hf => (h.1 hn (finite_of_inv hf)).inv, fun hf => (h.2 hn (finite_of_inv hf)).inv⟩

/-- **C112.** The same for both poses of the three-view optimisers. -/
theorem C112_three_views (A : Accurate J u η M) (E : FineRot u η M) {ε e : ℝ} (hx : ExpWithin J ε) (h0 : 0 ≤ ε)
    (hε : ε ≤ 1 / 50) {poses : Iso D × Iso D} (h1 : RotWithin J e poses.1.rot) (h2 : RotWithin J e poses.2.rot)
    (top eps rate : D) (n : Nat) (os : List (FBearings D)) (hn : e + n * (102 / 100 * ε + 11 * u) ≤ 1 / 50) :
    ∀ q ∈ [fthreeViewL1 top poses eps rate n os, fthreeViewL2 top poses rate n os, fthreeViewAdaptive poses n os],
      (¬ BadIso J q.1 → RotWithin J (e + n * (102 / 100 * ε + 11 * u)) q.1.rot) ∧
      (¬ BadIso J q.2 → RotWithin J (e + n * (102 / 100 * ε + 11 * u)) q.2.rot) := by
  have hc : 0 ≤ 102 / 100 * ε + 11 * u := by have := A.u_nonneg; positivity
  have hnn : 0 ≤ (n : ℝ) * (102 / 100 * ε + 11 * u) := by positivity
  have start : Drifts2 J e (102 / 100 * ε + 11 * u) 0 (finvPoses poses) :=
    ⟨fun _ _ => h1.inv.mono (by simp), fun _ _ => h2.inv.mono (by simp)⟩
  have same : (¬ BadIso J poses.1 → RotWithin J (e + n * (102 / 100 * ε + 11 * u)) poses.1.rot) ∧
      (¬ BadIso J poses.2 → RotWithin J (e + n * (102 / 100 * ε + 11 * u)) poses.2.rot) :=
    ⟨fun _ => h1.mono (by linarith), fun _ => h2.mono (by linarith)⟩
  have move : ∀ k (p : Iso D × Iso D) (d f : FTangent D), Drifts2 J e (102 / 100 * ε + 11 * u) k p →
      Drifts2 J e (102 / 100 * ε + 11 * u) (k + 1) (fmovePoses p d f) :=
    fun k p d f h => ⟨h.1.step A E hx h0 hε d, h.2.step A E hx h0 hε f⟩
  have mono : ∀ k (p : Iso D × Iso D), Drifts2 J e (102 / 100 * ε + 11 * u) k p →
      Drifts2 J e (102 / 100 * ε + 11 * u) (k + 1) p := fun k p h => ⟨h.1.mono hc, h.2.mono hc⟩
  intro q hq
  simp only [List.mem_cons, List.not_mem_nil, or_false] at hq
  rcases hq with rfl | rfl | rfl
  · unfold fthreeViewL1
    split
    · exact same
    · have := foptimizeLoop_graded (Q := Drifts2 J e (102 / 100 * ε + 11 * u))
        (sizes := fun p => (fsum ((ffirstGradients p os).map FTangent.l1)).sizes ++
          (fsum ((fsecondGradients p os).map FTangent.l1)).sizes) (update := fthreeStepL1 eps rate os)
        (fun k p h => move k p _ _ h) mono n [top, top, top, top] 0 0 _ start
      rw [Nat.zero_add] at this
      exact this.inverses hn
  · unfold fthreeViewL2
    split
    · exact same
    · have := foptimizeLoop_graded (Q := Drifts2 J e (102 / 100 * ε + 11 * u))
        (sizes := fun p => (fsum (ffirstGradients p os)).sizes ++ (fsum (fsecondGradients p os)).sizes)
        (update := fthreeStepL2 rate os)
        (fun k p h => move k p _ _ h) mono n [top, top, top, top] 0 0 _ start
      rw [Nat.zero_add] at this
      exact this.inverses hn
  · unfold fthreeViewAdaptive
    split
    · exact same
    · have : ∀ m k p, Drifts2 J e (102 / 100 * ε + 11 * u) k p → Drifts2 J e (102 / 100 * ε + 11 * u) (k + m)
          ((List.replicate m ()).foldl (fun p _ => fthreeStepAdaptive os p) p) := by
        intro m
        induction m with
        | zero => intro k p h; exact h
        | succ m ih =>
          intro k p h
          have := ih (k + 1) (fthreeStepAdaptive os p)
            (move k p (fadaptiveStep (ffirstGradients p os)) (fadaptiveStep (fsecondGradients p os)) h)
          rw [show k + (m + 1) = k + 1 + m by omega]
          exact this
      have := this n 0 _ start
      rw [Nat.zero_add] at this
      exact this.inverses hn

end Loops

end Verif.Geo.Rounded
