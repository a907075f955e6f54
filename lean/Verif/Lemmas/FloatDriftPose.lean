import Verif.Lemmas.FloatDrift
import Verif.Lemmas.FloatRoundingEssential

/-!
# Products and inverses of poses near rigid motions
-/

namespace Verif.Geo.Rounded

open Verif.Akaze
open P3P (fdot fmulVec fmul)

variable {D : Type} [FloatOps D] {J : Ieee D} {u η M : ℝ}

/-- A rounded product of a matrix and a vector. -/
theorem mulVec_error (A : Accurate J u η M) {a : M3 D} {b : V3 D} {F : M3 ℝ} {y : V3 ℝ} {L : ℝ} (ha : HasM J a F)
    (hb : HasV J b y) (hu : u ≤ 1 / 1024) (hη : 1024 * η ≤ u * L) (hM : 16 * L ≤ M) (hy : y.norm ≤ L)
    (r1 : (⟨F.m11, F.m12, F.m13⟩ : V3 ℝ).norm ≤ 102 / 100) (r2 : (⟨F.m21, F.m22, F.m23⟩ : V3 ℝ).norm ≤ 102 / 100)
    (r3 : (⟨F.m31, F.m32, F.m33⟩ : V3 ℝ).norm ≤ 102 / 100) :
    ∃ z, HasV J (fmulVec a b) z ∧ |z.x - (F.mulVec y).x| ≤ 327 / 100 * (u * L) ∧
      |z.y - (F.mulVec y).y| ≤ 327 / 100 * (u * L) ∧ |z.z - (F.mulVec y).z| ≤ 327 / 100 * (u * L) := by
  have hL : 0 ≤ L := (V3.norm_nonneg y).trans hy
  have hu0 := A.u_nonneg
  have huL : 0 ≤ u * L := mul_nonneg hu0 hL
  obtain ⟨⟨a11, a12, a13⟩, ⟨a21, a22, a23⟩, a31, a32, a33⟩ := ha
  have key : ∀ {p : V3 D} {x : V3 ℝ}, HasV J p x → x.norm ≤ 102 / 100 →
      ∃ z, J.val (fdot p b) = .num z ∧ |z - x.dot y| ≤ 327 / 100 * (u * L) := by
    intro p x hp hx
    have hs : |x.x * y.x| + |x.y * y.y| + |x.z * y.z| ≤ 102 / 100 * L :=
      (abs_products x y).trans (mul_le_mul hx hy (V3.norm_nonneg y) (by norm_num))
    obtain ⟨z, hz, h, -⟩ := val_sum3 A hu (s := 102 / 100 * L) (by linarith) (by linarith) hp.1 hp.2.1 hp.2.2 hb.1 hb.2.1 hb.2.2 hs
    exact ⟨z, hz, h.trans (by linarith)⟩
  obtain ⟨z1, v1, w1⟩ := key (p := ⟨a.m11, a.m12, a.m13⟩) ⟨a11, a12, a13⟩ r1
  obtain ⟨z2, v2, w2⟩ := key (p := ⟨a.m21, a.m22, a.m23⟩) ⟨a21, a22, a23⟩ r2
  obtain ⟨z3, v3, w3⟩ := key (p := ⟨a.m31, a.m32, a.m33⟩) ⟨a31, a32, a33⟩ r3
  exact ⟨⟨z1, z2, z3⟩, ⟨v1, v2, v3⟩, by simpa only [lin] using w1, by simpa only [lin] using w2, by simpa only [lin] using w3⟩

/-- A rounded sum of two coordinates. -/
theorem add_error (A : Accurate J u η M) {a b : D} {x z w L : ℝ} (ha : J.val a = .num x) (hb : J.val b = .num z)
    (hu : u ≤ 1 / 1024) (hη : 1024 * η ≤ u * L) (hM : 16 * L ≤ M) (hL : 0 ≤ L) (hx : |x| ≤ L) (hw : |w| ≤ 102 / 100 * L)
    (hz : |z - w| ≤ 327 / 100 * (u * L)) : ∃ y, J.val (a + b) = .num y ∧ |y - (w + x)| ≤ 53 / 10 * (u * L) := by
  have hu0 := A.u_nonneg
  have huL : 0 ≤ u * L := mul_nonneg hu0 hL
  have huL' : u * L ≤ 1 / 1024 * L := mul_le_mul_of_nonneg_right hu hL
  have h1 : |x + z - (w + x)| ≤ 327 / 100 * (u * L) := by rwa [show x + z - (w + x) = z - w by ring]
  have h2 : |w + x| ≤ 202 / 100 * L := (abs_add_le _ _).trans (by linarith)
  have h3 := abs_le_add h1 h2
  obtain ⟨y, hy, he⟩ := A.add ha hb (by linarith)
  refine ⟨y, hy, ?_⟩
  have h4 := err_step hu0 he h1 h2
  have h5 : u * (202 / 100 * L + 327 / 100 * (u * L)) ≤ 2024 / 1000 * (u * L) := by
    have : u * (u * L) ≤ 1 / 1024 * (u * L) := mul_le_mul_of_nonneg_right hu huL
    nlinarith
  linarith

/-- A rounded sum of a vector and a product. -/
theorem shift_error (A : Accurate J u η M) {a b : V3 D} {x z w : V3 ℝ} {L : ℝ} (ha : HasV J a x) (hb : HasV J b z)
    (hu : u ≤ 1 / 1024) (hη : 1024 * η ≤ u * L) (hM : 16 * L ≤ M) (hx : x.norm ≤ L) (hw : w.norm ≤ 102 / 100 * L)
    (h1 : |z.x - w.x| ≤ 327 / 100 * (u * L)) (h2 : |z.y - w.y| ≤ 327 / 100 * (u * L)) (h3 : |z.z - w.z| ≤ 327 / 100 * (u * L)) :
    ∃ y, HasV J (fadd a b) y ∧ (y.sub (w.add x)).norm ≤ 10 * (u * L) := by
  have hL : 0 ≤ L := (V3.norm_nonneg x).trans hx
  have huL : 0 ≤ u * L := mul_nonneg A.u_nonneg hL
  have cx := abs_coord_le x
  have cw := abs_coord_le w
  obtain ⟨y1, v1, w1⟩ := add_error A ha.1 hb.1 hu hη hM hL (cx.1.trans hx) (cw.1.trans hw) h1
  obtain ⟨y2, v2, w2⟩ := add_error A ha.2.1 hb.2.1 hu hη hM hL (cx.2.1.trans hx) (cw.2.1.trans hw) h2
  obtain ⟨y3, v3, w3⟩ := add_error A ha.2.2 hb.2.2 hu hη hM hL (cx.2.2.trans hx) (cw.2.2.trans hw) h3
  refine ⟨⟨y1, y2, y3⟩, ⟨v1, v2, v3⟩, ?_⟩
  have := norm_le_of_coords (e := (⟨y1, y2, y3⟩ : V3 ℝ).sub (w.add x)) w1 w2 w3
  linarith

/-- A rounded product of poses. -/
theorem compose_error (A : Accurate J u η M) (E : FineRot u η M) {a b : Iso D} {P Q X Y : Iso ℝ} {ε e δ d L : ℝ}
    (ha : HasIso J a P) (hb : HasIso J b Q) (hX : X.Rigid) (hY : Y.Rigid) (hP : NearIso ε δ P X) (hQ : NearIso e d Q Y)
    (h0 : 0 ≤ ε) (hε : ε ≤ 1 / 50) (he : e ≤ 1 / 50) (hη : 1024 * η ≤ u * L) (hM : 16 * L ≤ M) (hPt : P.t.norm ≤ L)
    (hQt : Q.t.norm ≤ L) :
    ∃ S, HasIso J (fisoMul a b) S ∧
      NearIso (e + 102 / 100 * ε + 11 * u) (d + δ + ε * L + 10 * (u * L)) S (X.mul Y) := by
  obtain ⟨H, hH, nH⟩ := product_error A E ha.1 hb.1 hX hY hP.1 hQ.1 h0 hε he
  have r := hP.1.rows hX
  have b1 : 1 + ε ≤ 102 / 100 := by linarith
  obtain ⟨z, hz, z1, z2, z3⟩ := mulVec_error A ha.1 hb.2 E.precise hη hM hQt (r.1.trans b1) (r.2.1.trans b1) (r.2.2.trans b1)
  have hw : (P.rot.mulVec Q.t).norm ≤ 102 / 100 * L := by
    have := hP.1.length hX Q.t
    have := mul_le_mul b1 hQt (V3.norm_nonneg _) (by norm_num)
    linarith
  obtain ⟨y, hy, ny⟩ := shift_error A ha.2 hz E.precise hη hM hPt hw z1 z2 z3
  refine ⟨⟨H, y⟩, ⟨hH, hy⟩, nH, ?_⟩
  show (y.sub ((X.rot.mulVec Y.t).add X.t)).norm ≤ _
  have e1 : y.sub ((X.rot.mulVec Y.t).add X.t) = ((y.sub ((P.rot.mulVec Q.t).add P.t)).add
      (((P.rot.mulVec Q.t).sub (X.rot.mulVec Q.t)).add (X.rot.mulVec (Q.t.sub Y.t)))).add (P.t.sub X.t) := by lin3
  rw [e1]
  have h1 := Quat.norm_add_le ((y.sub ((P.rot.mulVec Q.t).add P.t)).add
      (((P.rot.mulVec Q.t).sub (X.rot.mulVec Q.t)).add (X.rot.mulVec (Q.t.sub Y.t)))) (P.t.sub X.t)
  have h2 := Quat.norm_add_le (y.sub ((P.rot.mulVec Q.t).add P.t))
      (((P.rot.mulVec Q.t).sub (X.rot.mulVec Q.t)).add (X.rot.mulVec (Q.t.sub Y.t)))
  have h3 := Quat.norm_add_le ((P.rot.mulVec Q.t).sub (X.rot.mulVec Q.t)) (X.rot.mulVec (Q.t.sub Y.t))
  rw [norm_rotated hX] at h3
  have h4 := hP.1 Q.t
  have h5 := mul_le_mul_of_nonneg_left hQt h0
  have h6 := hP.2
  have h7 := hQ.2
  linarith

theorem HasM.transpose {a : M3 D} {F : M3 ℝ} (h : HasM J a F) :
    HasM J ⟨a.m11, a.m21, a.m31, a.m12, a.m22, a.m32, a.m13, a.m23, a.m33⟩ F.transpose := by
  obtain ⟨⟨a11, a12, a13⟩, ⟨a21, a22, a23⟩, a31, a32, a33⟩ := h
  exact ⟨⟨a11, a21, a31⟩, ⟨a12, a22, a32⟩, a13, a23, a33⟩

/-- A rounded inverse of a pose. -/
theorem inverse_error (A : Accurate J u η M) (E : FineRot u η M) {a : Iso D} {P X : Iso ℝ} {e d L : ℝ}
    (ha : HasIso J a P) (hX : X.Rigid) (hP : NearIso e d P X) (he0 : 0 ≤ e) (he : e ≤ 1 / 50) (hη : 1024 * η ≤ u * L)
    (hM : 16 * L ≤ M) (hPt : P.t.norm ≤ L) :
    ∃ S, HasIso J (finv a) S ∧ NearIso e (d + e * L + 6 * (u * L)) S X.inv := by
  have hT : X.rot.transpose.IsRot := M3.IsRot.transpose hX
  have nT := hP.1.transpose
  have r := nT.rows hT
  have b1 : 1 + e ≤ 102 / 100 := by linarith
  have hn : HasV J (fneg a.t) P.t.neg := by
    refine ⟨?_, ?_, ?_⟩
    · show J.val (-a.t.x) = _; rw [J.neg, ha.2.1]; rfl
    · show J.val (-a.t.y) = _; rw [J.neg, ha.2.2.1]; rfl
    · show J.val (-a.t.z) = _; rw [J.neg, ha.2.2.2]; rfl
  obtain ⟨z, hz, z1, z2, z3⟩ := mulVec_error A ha.1.transpose hn E.precise hη hM (by rw [V3.norm_neg]; exact hPt)
    (r.1.trans b1) (r.2.1.trans b1) (r.2.2.trans b1)
  refine ⟨⟨P.rot.transpose, z⟩, ⟨ha.1.transpose, hz⟩, nT, ?_⟩
  have hi : X.inv.t = X.rot.transpose.mulVec X.t.neg := by
    simp only [Iso.inv]
    try lin3
  show (z.sub X.inv.t).norm ≤ _
  rw [hi]
  have e1 : z.sub (X.rot.transpose.mulVec X.t.neg) = (z.sub (P.rot.transpose.mulVec P.t.neg)).add
      (((P.rot.transpose.mulVec P.t.neg).sub (X.rot.transpose.mulVec P.t.neg)).add
        (X.rot.transpose.mulVec (P.t.sub X.t).neg)) := by lin3
  rw [e1]
  have h2 := Quat.norm_add_le (z.sub (P.rot.transpose.mulVec P.t.neg))
    (((P.rot.transpose.mulVec P.t.neg).sub (X.rot.transpose.mulVec P.t.neg)).add (X.rot.transpose.mulVec (P.t.sub X.t).neg))
  have h3 := Quat.norm_add_le ((P.rot.transpose.mulVec P.t.neg).sub (X.rot.transpose.mulVec P.t.neg))
    (X.rot.transpose.mulVec (P.t.sub X.t).neg)
  rw [norm_rotated hT, V3.norm_neg] at h3
  have h4 := nT P.t.neg
  rw [V3.norm_neg] at h4
  have h5 := mul_le_mul_of_nonneg_left hPt he0
  have h6 := hP.2
  have h7 := norm_le_of_coords (e := z.sub (P.rot.transpose.mulVec P.t.neg)) z1 z2 z3
  have huL : 0 ≤ u * L := mul_nonneg A.u_nonneg ((V3.norm_nonneg _).trans hPt)
  linarith

end Verif.Geo.Rounded
