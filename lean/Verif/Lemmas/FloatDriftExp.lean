import Verif.Lemmas.FloatDrift
import Verif.Lemmas.FloatRoundingLoss

/-!
# The rounding error of the exponential
-/

namespace Verif.Geo.Rounded

open Verif.Akaze
open P3P (fdot fmulVec fmul)

variable {D : Type} [FloatOps D] {J : Ieee D} {u η M : ℝ}

/-- The number is `X` up to `k` units of rounding. -/
def App (J : Ieee D) (u k : ℝ) (a : D) (X : ℝ) : Prop := ∃ x, J.val a = .num x ∧ |x - X| ≤ k * u

theorem App.mul (A : Accurate J u η M) (hu : u ≤ 1 / 8192) (hη : 1024 * η ≤ u) (hM : 16 ≤ M) {a b : D} {k l X Y B C : ℝ}
    (ha : App J u k a X) (hb : App J u l b Y) (hX : |X| ≤ B) (hY : |Y| ≤ C) (hk0 : 0 ≤ k) (hk : k ≤ 256) (hl0 : 0 ≤ l)
    (hl : l ≤ 256) (hB : 1 ≤ B) (hB2 : B ≤ 2) (hC : 1 ≤ C) (hC2 : C ≤ 2) :
    App J u (11 / 10 * (k * C + l * B) + 5) (a * b) (X * Y) := by
  obtain ⟨x, hx, ex⟩ := ha
  obtain ⟨y, hy, ey⟩ := hb
  have hu0 := A.u_nonneg
  have ku : k * u ≤ 1 / 32 := by nlinarith
  have lu : l * u ≤ 1 / 32 := by nlinarith
  have hy' := abs_le_add ey hY
  have hx' := abs_le_add ex hX
  have e1 : |x * y - X * Y| ≤ 33 / 32 * (k * C * u) + l * B * u := by
    have : x * y - X * Y = (x - X) * y + X * (y - Y) := by ring
    rw [this]
    have h1 : |(x - X) * y| ≤ k * u * (C + 1 / 32) := by
      rw [abs_mul]
      exact mul_le_mul ex (hy'.trans (by linarith)) (abs_nonneg _) (by positivity)
    have h2 : |X * (y - Y)| ≤ B * (l * u) := by
      rw [abs_mul]
      exact mul_le_mul hX ey (abs_nonneg _) (by linarith)
    have h3 : k * u * (C + 1 / 32) ≤ 33 / 32 * (k * C * u) := by
      have : k * u * (1 / 32) ≤ k * u * (1 / 32) * C := le_mul_of_one_le_right (by positivity) hC
      nlinarith
    have := abs_add_le ((x - X) * y) (X * (y - Y))
    linarith
  have hxy : |x * y| ≤ 42 / 10 := by
    rw [abs_mul]
    have := mul_le_mul (hx'.trans (by linarith : B + k * u ≤ 2 + 1 / 32)) (hy'.trans (by linarith : C + l * u ≤ 2 + 1 / 32))
      (abs_nonneg _) (by norm_num)
    linarith
  obtain ⟨z, hz, ez⟩ := A.mul hx hy (hxy.trans (by linarith))
  refine ⟨z, hz, ?_⟩
  have h1 : |z - X * Y| ≤ |z - x * y| + |x * y - X * Y| := abs_sub_le _ _ _
  have h2 := mul_le_mul_of_nonneg_left hxy hu0
  have h3 : 0 ≤ k * C * u := by positivity
  have h4 : 0 ≤ l * B * u := by positivity
  linarith

theorem App.add (A : Accurate J u η M) (hu : u ≤ 1 / 8192) (hη : 1024 * η ≤ u) (hM : 16 ≤ M) {a b : D} {k l X Y : ℝ}
    (ha : App J u k a X) (hb : App J u l b Y) (hX : |X| ≤ 2) (hY : |Y| ≤ 2) (hk : k ≤ 256) (hl : l ≤ 256) :
    App J u (k + l + 5) (a + b) (X + Y) := by
  obtain ⟨x, hx, ex⟩ := ha
  obtain ⟨y, hy, ey⟩ := hb
  have hu0 := A.u_nonneg
  have ku : k * u ≤ 1 / 32 := by nlinarith
  have lu : l * u ≤ 1 / 32 := by nlinarith
  have hxy : |x + y| ≤ 42 / 10 := by
    have := abs_le_add ey hY
    have := abs_le_add ex hX
    have := abs_add_le x y
    linarith
  obtain ⟨z, hz, ez⟩ := A.add hx hy (hxy.trans (by linarith))
  refine ⟨z, hz, ?_⟩
  have h1 : |z - (X + Y)| ≤ |z - (x + y)| + |x + y - (X + Y)| := abs_sub_le _ _ _
  have h2 := mul_le_mul_of_nonneg_left hxy hu0
  have h3 : |x + y - (X + Y)| ≤ |x - X| + |y - Y| := by
    rw [show x + y - (X + Y) = (x - X) + (y - Y) by ring]; exact abs_add_le _ _
  linarith

theorem App.sub (A : Accurate J u η M) (hu : u ≤ 1 / 8192) (hη : 1024 * η ≤ u) (hM : 16 ≤ M) {a b : D} {k l X Y : ℝ}
    (ha : App J u k a X) (hb : App J u l b Y) (hX : |X| ≤ 2) (hY : |Y| ≤ 2) (hk : k ≤ 256) (hl : l ≤ 256) :
    App J u (k + l + 5) (a - b) (X - Y) := by
  obtain ⟨x, hx, ex⟩ := ha
  obtain ⟨y, hy, ey⟩ := hb
  have hu0 := A.u_nonneg
  have ku : k * u ≤ 1 / 32 := by nlinarith
  have lu : l * u ≤ 1 / 32 := by nlinarith
  have hxy : |x - y| ≤ 42 / 10 := by
    have := abs_le_add ey hY
    have := abs_le_add ex hX
    have := abs_sub x y
    linarith
  obtain ⟨z, hz, ez⟩ := A.sub hx hy (hxy.trans (by linarith))
  refine ⟨z, hz, ?_⟩
  have h1 : |z - (X - Y)| ≤ |z - (x - y)| + |x - y - (X - Y)| := abs_sub_le _ _ _
  have h2 := mul_le_mul_of_nonneg_left hxy hu0
  have h3 : |x - y - (X - Y)| ≤ |x - X| + |y - Y| := by
    rw [show x - y - (X - Y) = (x - X) - (y - Y) by ring]; exact abs_sub _ _
  linarith

theorem App.mono {k l : ℝ} {a : D} {X : ℝ} (h : App J u k a X) (hu : 0 ≤ u) (hkl : k ≤ l) : App J u l a X := by
  obtain ⟨x, hx, ex⟩ := h
  exact ⟨x, hx, ex.trans (mul_le_mul_of_nonneg_right hkl hu)⟩

/-- A rounded rotation about an axis. -/
theorem axisAngle_error (A : Accurate J u η M) (T : SinCos J u) (hu : u ≤ 1 / 8192) (hη : 1024 * η ≤ u) (hM : 16 ≤ M)
    {d : V3 D} {n : V3 ℝ} {a : D} {t : ℝ} (hn : n.normSq = 1) (h1 : App J u 24 d.x n.x) (h2 : App J u 24 d.y n.y)
    (h3 : App J u 24 d.z n.z) (ha : J.val a = .num t) :
    ∃ F, HasM J (faxisAngle d a) F ∧ Near (560 * u) F (rodrigues n (Real.sin t) (Real.cos t)) := by
  have hu0 := A.u_nonneg
  have hs := T.sin a t ha
  have hc := T.cos a t ha
  have bs := Real.abs_sin_le_one t
  have bc := Real.abs_cos_le_one t
  set s := Real.sin t
  set c := Real.cos t
  have hs' : App J u 2 (FloatOps.sin a) s := hs
  have hc' : App J u 2 (FloatOps.cos a) c := hc
  have hone : App J u 0 (1 : D) 1 := ⟨1, J.one, by simp⟩
  have hsum : n.x * n.x + n.y * n.y + n.z * n.z = 1 := by rw [← hn]; simp only [lin]
  have bx : |n.x| ≤ 1 := by rw [abs_le]; constructor <;> nlinarith [mul_self_nonneg n.x, mul_self_nonneg n.y, mul_self_nonneg n.z]
  have by' : |n.y| ≤ 1 := by rw [abs_le]; constructor <;> nlinarith [mul_self_nonneg n.x, mul_self_nonneg n.y, mul_self_nonneg n.z]
  have bz : |n.z| ≤ 1 := by rw [abs_le]; constructor <;> nlinarith [mul_self_nonneg n.x, mul_self_nonneg n.y, mul_self_nonneg n.z]
  have bprod : ∀ {x y : ℝ}, |x| ≤ 1 → |y| ≤ 1 → |x * y| ≤ 1 := fun hx hy => by
    rw [abs_mul]; exact mul_le_one₀ hx (abs_nonneg _) hy
  have hk : App J u 7 (1 - FloatOps.cos a) (1 - c) :=
    (App.sub A hu hη hM hone hc' (by norm_num) (bc.trans (by norm_num)) (by norm_num) (by norm_num)).mono hu0 (by norm_num)
  have bk : |1 - c| ≤ 2 := by have := abs_le.1 bc; rw [abs_le]; constructor <;> linarith
  have b1 : |(1 : ℝ)| ≤ 2 := by norm_num
  have two : ∀ {x : ℝ}, |x| ≤ 1 → |x| ≤ 2 := fun h => h.trans (by norm_num)
  -- products of two coordinates of the axis
  have pr : ∀ {p q : D} {x y : ℝ}, App J u 24 p x → App J u 24 q y → |x| ≤ 1 → |y| ≤ 1 → App J u 58 (p * q) (x * y) :=
    fun hp hq hx hy => (App.mul A hu hη hM hp hq hx hy (by norm_num) (by norm_num) (by norm_num) (by norm_num) le_rfl
      (by norm_num) le_rfl (by norm_num)).mono hu0 (by norm_num)
  have prk : ∀ {p q : D} {x y : ℝ}, App J u 24 p x → App J u 24 q y → |x| ≤ 1 → |y| ≤ 1 →
      App J u 141 (p * q * (1 - FloatOps.cos a)) (x * y * (1 - c)) :=
    fun hp hq hx hy => (App.mul A hu hη hM (pr hp hq hx hy) hk (bprod hx hy) bk (by norm_num) (by norm_num) (by norm_num)
      (by norm_num) le_rfl (by norm_num) (by norm_num) le_rfl).mono hu0 (by norm_num)
  have prs : ∀ {p : D} {x : ℝ}, App J u 24 p x → |x| ≤ 1 → App J u 34 (p * FloatOps.sin a) (x * s) :=
    fun hp hx => (App.mul A hu hη hM hp hs' hx bs (by norm_num) (by norm_num) (by norm_num) (by norm_num) le_rfl
      (by norm_num) le_rfl (by norm_num)).mono hu0 (by norm_num)
  have bprk : ∀ {x y : ℝ}, |x| ≤ 1 → |y| ≤ 1 → |x * y * (1 - c)| ≤ 2 := fun {x y} hx hy => by
    rw [abs_mul]
    have := mul_le_mul (bprod hx hy) bk (abs_nonneg _) zero_le_one
    linarith
  have bprs : ∀ {x : ℝ}, |x| ≤ 1 → |x * s| ≤ 2 := fun hx => two (bprod hx bs)
  have offP : ∀ {p q r : D} {x y z : ℝ}, App J u 24 p x → App J u 24 q y → App J u 24 r z → |x| ≤ 1 → |y| ≤ 1 → |z| ≤ 1 →
      App J u 180 (p * q * (1 - FloatOps.cos a) + r * FloatOps.sin a) (x * y * (1 - c) + z * s) :=
    fun hp hq hr hx hy hz => (App.add A hu hη hM (prk hp hq hx hy) (prs hr hz) (bprk hx hy) (bprs hz) (by norm_num)
      (by norm_num)).mono hu0 (by norm_num)
  have offM : ∀ {p q r : D} {x y z : ℝ}, App J u 24 p x → App J u 24 q y → App J u 24 r z → |x| ≤ 1 → |y| ≤ 1 → |z| ≤ 1 →
      App J u 180 (p * q * (1 - FloatOps.cos a) - r * FloatOps.sin a) (x * y * (1 - c) - z * s) :=
    fun hp hq hr hx hy hz => (App.sub A hu hη hM (prk hp hq hx hy) (prs hr hz) (bprk hx hy) (bprs hz) (by norm_num)
      (by norm_num)).mono hu0 (by norm_num)
  have dia : ∀ {p : D} {x : ℝ}, App J u 24 p x → |x| ≤ 1 →
      App J u 180 (p * p + (1 - p * p) * FloatOps.cos a) (x * x + (1 - x * x) * c) := by
    intro p x hp hx
    have q := pr hp hp hx hx
    have bq : |1 - x * x| ≤ 1 := by
      have := mul_self_nonneg x
      have := le_of_abs_le (bprod hx hx)
      rw [abs_le]; constructor <;> linarith
    have q1 := (App.sub A hu hη hM hone q b1 (two (bprod hx hx)) (by norm_num) (by norm_num)).mono hu0
      (show (0 : ℝ) + 58 + 5 ≤ 63 by norm_num)
    have q2 := (App.mul A hu hη hM q1 hc' bq bc (by norm_num) (by norm_num) (by norm_num) (by norm_num) le_rfl
      (by norm_num) le_rfl (by norm_num)).mono hu0 (show (11 / 10 * (63 * 1 + 2 * 1) + 5 : ℝ) ≤ 77 by norm_num)
    exact (App.add A hu hη hM q q2 (two (bprod hx hx)) (two (bprod bq bc)) (by norm_num) (by norm_num)).mono hu0 (by norm_num)
  obtain ⟨f11, v11, w11⟩ := dia h1 bx
  obtain ⟨f22, v22, w22⟩ := dia h2 by'
  obtain ⟨f33, v33, w33⟩ := dia h3 bz
  obtain ⟨f12, v12, w12⟩ := offM h1 h2 h3 bx by' bz
  obtain ⟨f13, v13, w13⟩ := offP h1 h3 h2 bx bz by'
  obtain ⟨f21, v21, w21⟩ := offP h1 h2 h3 bx by' bz
  obtain ⟨f23, v23, w23⟩ := offM h2 h3 h1 by' bz bx
  obtain ⟨f31, v31, w31⟩ := offM h1 h3 h2 bx bz by'
  obtain ⟨f32, v32, w32⟩ := offP h2 h3 h1 by' bz bx
  refine ⟨⟨f11, f12, f13, f21, f22, f23, f31, f32, f33⟩, ⟨⟨v11, v12, v13⟩, ⟨v21, v22, v23⟩, v31, v32, v33⟩, ?_⟩
  have hR : rodrigues n s c = ⟨n.x * n.x + (1 - n.x * n.x) * c, n.x * n.y * (1 - c) - n.z * s, n.x * n.z * (1 - c) + n.y * s,
      n.x * n.y * (1 - c) + n.z * s, n.y * n.y + (1 - n.y * n.y) * c, n.y * n.z * (1 - c) - n.x * s,
      n.x * n.z * (1 - c) - n.y * s, n.y * n.z * (1 - c) + n.x * s, n.z * n.z + (1 - n.z * n.z) * c⟩ := by
    clear_value s c
    have e1 : n.x * n.x = 1 - n.y * n.y - n.z * n.z := by linarith
    have e2 : n.y * n.y = 1 - n.x * n.x - n.z * n.z := by linarith
    have e3 : n.z * n.z = 1 - n.x * n.x - n.y * n.y := by linarith
    simp only [lin]
    congr 1
    · linear_combination -(1 - c) * e1
    · ring
    · ring
    · ring
    · linear_combination -(1 - c) * e2
    · ring
    · ring
    · ring
    · linear_combination -(1 - c) * e3
  rw [hR]
  exact (near_of_entries ⟨w11, w12, w13⟩ ⟨w21, w22, w23⟩ ⟨w31, w32, w33⟩).mono (by linarith)

/-- Turning about the same axis by nearly the same angle. -/
theorem rodrigues_near {n : V3 ℝ} (hn : n.normSq = 1) (a b : ℝ) :
    Near (2 * |a - b|) (rodrigues n (Real.sin a) (Real.cos a)) (rodrigues n (Real.sin b) (Real.cos b)) := by
  intro v
  have e : (((rodrigues n (Real.sin a) (Real.cos a)).mulVec v).sub ((rodrigues n (Real.sin b) (Real.cos b)).mulVec v)) =
      (V3.smul (Real.sin a - Real.sin b) (n.cross v)).add (V3.smul (Real.cos b - Real.cos a) (n.cross (n.cross v))) := by
    lin3
  have h1 : n.norm = 1 := by
    have := V3.norm_mul_self n
    rw [hn] at this
    have h0 := V3.norm_nonneg n
    nlinarith
  have c1 : (n.cross v).norm ≤ v.norm := by have := norm_cross_le n v; rwa [h1, one_mul] at this
  have c2 : (n.cross (n.cross v)).norm ≤ v.norm := by
    have := norm_cross_le n (n.cross v); rw [h1, one_mul] at this; exact this.trans c1
  have s1 : |Real.sin a - Real.sin b| ≤ |a - b| := Real.abs_sin_sub_sin_le a b
  have s2 : |Real.cos b - Real.cos a| ≤ |a - b| := by rw [abs_sub_comm]; exact Real.abs_cos_sub_cos_le a b
  have t := Quat.norm_add_le (V3.smul (Real.sin a - Real.sin b) (n.cross v))
    (V3.smul (Real.cos b - Real.cos a) (n.cross (n.cross v)))
  rw [V3.norm_smul, V3.norm_smul] at t
  rw [e]
  have m1 := mul_le_mul s1 c1 (V3.norm_nonneg _) (abs_nonneg _)
  have m2 := mul_le_mul s2 c2 (V3.norm_nonneg _) (abs_nonneg _)
  linarith

/-- A rounded exponential. -/
theorem turn_error (A : Accurate J u η M) (T : SinCos J u) {w : V3 D} {W : V3 ℝ} (hw : HasV J w W)
    (E : FineTurn u η M W.norm) :
    ∃ n, J.val (fnorm w) = .num n ∧ n ≠ 0 ∧ ∃ F X, HasM J (faxisAngle (funscale w (fnorm w)) (fnorm w)) F ∧ X.IsRot ∧
      Near (560 * u) F X ∧ Near ((560 + 32 * W.norm) * u) F (expRot W) := by
  obtain ⟨r, hr⟩ : ∃ r, r = W.norm := ⟨_, rfl⟩
  rw [← hr] at E ⊢
  have hu0 := A.u_nonneg
  have hz : ∀ x : ℝ, |x - x| ≤ 6 * (u * r) := fun x => by
    rw [sub_self, abs_zero]; exact mul_nonneg (by norm_num) (mul_nonneg hu0 E.pos.le)
  have hu : u ≤ 1 / 1024 := E.precise.trans (by norm_num)
  have hM2 : 2 ≤ M := le_trans (by norm_num) E.range
  obtain ⟨n, hn, en⟩ := norm_near A hr.symm E.pos le_rfl hu E.tiny_length E.tiny_square E.range_length E.range_square hw
    (hz _) (hz _) (hz _)
  obtain ⟨d, ⟨d1, d2, d3⟩, e1, e2, e3⟩ := direction_error A hr.symm E.pos le_rfl hu E.tiny E.tiny_length E.tiny_square hM2
    E.range_length E.range_square hw (hz _) (hz _) (hz _)
  have hunit : (⟨W.x / r, W.y / r, W.z / r⟩ : V3 ℝ).normSq = 1 := by
    have h1 : W.normSq = r * r := by rw [hr, V3.norm_mul_self]
    have h2 : W.x * W.x + W.y * W.y + W.z * W.z = r * r := by rw [← h1]; simp only [lin]
    have := E.pos
    simp only [lin]
    field_simp
    nlinarith
  obtain ⟨F, hF, nF⟩ := axisAngle_error A T E.precise E.tiny E.range hunit ⟨_, d1, e1⟩ ⟨_, d2, e2⟩ ⟨_, d3, e3⟩ hn
  refine ⟨n, hn, ?_, F, _, hF, rodrigues_isRot hunit (sin_cos _), nF, ?_⟩
  · rintro rfl
    rw [zero_sub, abs_neg, abs_of_pos E.pos] at en
    have := mul_le_mul_of_nonneg_right E.precise E.pos.le
    linarith [E.pos]
  · have hx : expRot W = rodrigues ⟨W.x / r, W.y / r, W.z / r⟩ (Real.sin r) (Real.cos r) := by
      unfold expRot
      rw [← hr, if_neg E.pos.ne']
      congr 1
      show (⟨_, _, _⟩ : V3 ℝ) = _
      congr 1 <;> ring
    rw [hx]
    refine (nF.trans (rodrigues_near hunit n r)).mono ?_
    linarith

end Verif.Geo.Rounded
