import Verif.Lemmas.FloatRoundingEssential
import Verif.Model.Triangulate

/-!
# Rounding errors of the epipolar loss
-/

namespace Verif.Geo.Rounded

open Verif.Akaze
open Verif.Akaze.FloatOps (sqrt lt abs)
open Verif.Akaze.FloatBits (isSignNegative isNan)
open P3P (fdot fcross fsmul)

/-- A rounded difference of two products of factors known up to rounding. -/
theorem err_cross {u η τ x y p q x' p' f g z : ℝ} (hu0 : 0 ≤ u) (hu : u ≤ 1 / 1024) (hτ : 0 ≤ τ) (hη : 1024 * η ≤ u * τ)
    (hx : |x| ≤ 102 / 100) (hp : |p| ≤ 102 / 100) (hy : |y| ≤ τ) (hq : |q| ≤ τ) (ex : |x' - x| ≤ 7 / 2 * u)
    (ep : |p' - p| ≤ 7 / 2 * u) (hf : |f - x' * y| ≤ u * |x' * y| + η) (hg : |g - p' * q| ≤ u * |p' * q| + η)
    (hz : |z - (f - g)| ≤ u * |f - g| + η) :
    |x' * y| ≤ 103 / 100 * τ ∧ |p' * q| ≤ 103 / 100 * τ ∧ |f - g| ≤ 21 / 10 * τ ∧ |z - (x * y - p * q)| ≤ 12 * (u * τ) := by
  have bx := abs_le_add ex hx
  have bp := abs_le_add ep hp
  have m1 : |x' * y| ≤ 103 / 100 * τ := by
    rw [abs_mul]; exact mul_le_mul (by linarith) hy (abs_nonneg _) (by norm_num)
  have m2 : |p' * q| ≤ 103 / 100 * τ := by
    rw [abs_mul]; exact mul_le_mul (by linarith) hq (abs_nonneg _) (by norm_num)
  have n1 := mul_le_mul_of_nonneg_left m1 hu0
  have n2 := mul_le_mul_of_nonneg_left m2 hu0
  have huτ : u * τ ≤ 1 / 1024 * τ := mul_le_mul_of_nonneg_right hu hτ
  have huτ0 : 0 ≤ u * τ := by positivity
  have d1 : |x' * y - x * y| ≤ 7 / 2 * (u * τ) := by
    rw [← sub_mul, abs_mul]
    have := mul_le_mul ex hy (abs_nonneg _) (by positivity)
    linarith
  have d2 : |p' * q - p * q| ≤ 7 / 2 * (u * τ) := by
    rw [← sub_mul, abs_mul]
    have := mul_le_mul ep hq (abs_nonneg _) (by positivity)
    linarith
  have e1 : |f - g - (x * y - p * q)| ≤ 91 / 10 * (u * τ) := by
    have : f - g - (x * y - p * q) = ((f - x' * y) + (x' * y - x * y)) - ((g - p' * q) + (p' * q - p * q)) := by ring
    rw [this]
    have a1 := abs_sub ((f - x' * y) + (x' * y - x * y)) ((g - p' * q) + (p' * q - p * q))
    have a2 := abs_add_le (f - x' * y) (x' * y - x * y)
    have a3 := abs_add_le (g - p' * q) (p' * q - p * q)
    linarith
  have e0 : |x * y - p * q| ≤ 204 / 100 * τ := by
    have a1 := abs_sub (x * y) (p * q)
    rw [abs_mul, abs_mul] at a1
    have a2 := mul_le_mul hx hy (abs_nonneg _) (by norm_num)
    have a3 := mul_le_mul hp hq (abs_nonneg _) (by norm_num)
    linarith
  have e2 := err_step hu0 hz e1 e0
  have b := abs_le_add e1 e0
  have h5 : u * (204 / 100 * τ + 91 / 10 * (u * τ)) ≤ u * (21 / 10 * τ) := mul_le_mul_of_nonneg_left (by linarith) hu0
  exact ⟨m1, m2, by linarith, by linarith⟩

/-- A coordinate of a direction, scaled by the rounded inverse of a rounded length. -/
theorem err_scaled {u η ε r x x' n q z : ℝ} (hu0 : 0 ≤ u) (huε : u ≤ ε) (hε : ε ≤ 1 / 1024) (hη0 : 0 ≤ η)
    (hη : 1024 * η ≤ u) (hηr : 1024 * (η * r) ≤ u) (hr : 0 < r) (hx : |x| ≤ r) (hx' : |x' - x| ≤ 6 * (ε * r))
    (hn : |n - r| ≤ 16 * (ε * r)) (hq : |q - 1 / n| ≤ u * |1 / n| + η) (hz : |z - q * x'| ≤ u * |q * x'| + η) :
    |q * x'| ≤ 2 ∧ |z - x / r| ≤ 25 * ε := by
  have hε0 : 0 ≤ ε := hu0.trans huε
  have hεr : ε * r ≤ 1 / 1024 * r := mul_le_mul_of_nonneg_right hε hr.le
  obtain ⟨l1, l2⟩ := abs_le.1 hn
  have hn0 : 0 < n := by linarith
  have hw : |x / r| ≤ 1 := by
    rw [abs_div, abs_of_pos hr]; exact (div_le_one hr).2 hx
  have e1 : |x' / n - x / r| ≤ 225 / 10 * ε := by
    have : x' / n - x / r = ((x' - x) - x / r * (n - r)) / n := by field_simp; ring
    rw [this, abs_div, abs_of_pos hn0, div_le_iff₀ hn0]
    have h1 := abs_sub (x' - x) (x / r * (n - r))
    rw [abs_mul] at h1
    have h2 : |x / r| * |n - r| ≤ 1 * |n - r| := mul_le_mul_of_nonneg_right hw (abs_nonneg _)
    have h3 : 225 / 10 * ε * (98 / 100 * r) ≤ 225 / 10 * ε * n :=
      mul_le_mul_of_nonneg_left (by linarith) (by positivity)
    have : 0 ≤ ε * r := by positivity
    nlinarith
  have hd : |n * q - 1| ≤ 101 / 100 * u := by
    have : n * q - 1 = n * (q - 1 / n) := by field_simp
    rw [this, abs_mul, abs_of_pos hn0]
    have h2 : n * |q - 1 / n| ≤ n * (u * |1 / n| + η) := mul_le_mul_of_nonneg_left hq hn0.le
    have h3 : n * (u * |1 / n| + η) = u + n * η := by
      rw [abs_div, abs_of_pos hn0, abs_one]; field_simp
    have h4 : n * η ≤ 102 / 100 * r * η := mul_le_mul_of_nonneg_right (by linarith) hη0
    nlinarith
  have b1 := abs_le_add e1 hw
  have e2 : |q * x' - x / r| ≤ 236 / 10 * ε := by
    have : q * x' - x / r = (x' / n - x / r) + x' / n * (n * q - 1) := by field_simp; ring
    rw [this]
    have a1 := abs_add_le (x' / n - x / r) (x' / n * (n * q - 1))
    rw [abs_mul] at a1
    have a2 : |x' / n| * |n * q - 1| ≤ 103 / 100 * (101 / 100 * u) :=
      mul_le_mul (by linarith) hd (abs_nonneg _) (by norm_num)
    linarith
  have e3 := err_step hu0 hz e2 hw
  have b2 := abs_le_add e2 hw
  have h4 : u * (1 + 236 / 10 * ε) ≤ u * (103 / 100) := mul_le_mul_of_nonneg_left (by linarith) hu0
  exact ⟨by linarith, by linarith⟩

variable {D : Type} [FloatOps D] {J : Ieee D} {u η M : ℝ}

/-- Coordinates known up to rounding. -/
def Close (u : ℝ) (a' a : V3 ℝ) : Prop := |a'.x - a.x| ≤ 7 / 2 * u ∧ |a'.y - a.y| ≤ 7 / 2 * u ∧ |a'.z - a.z| ≤ 7 / 2 * u

/-- A rounded cross product. -/
theorem cross_error (A : Accurate J u η M) {a t : V3 D} {a' x y : V3 ℝ} (ha : HasV J a a') (ht : HasV J t y)
    (hc : Close u a' x) (hx : x.norm ≤ 102 / 100) (hu : u ≤ 1 / 1024) (hη : 1024 * η ≤ u * y.norm)
    (hM : 4 * y.norm ≤ M) :
    ∃ c, HasV J (fcross a t) c ∧ |c.x - (x.cross y).x| ≤ 12 * (u * y.norm) ∧
      |c.y - (x.cross y).y| ≤ 12 * (u * y.norm) ∧ |c.z - (x.cross y).z| ≤ 12 * (u * y.norm) := by
  have hu0 := A.u_nonneg
  have hη0 := A.η_nonneg
  obtain ⟨a1, a2, a3⟩ := ha
  obtain ⟨t1, t2, t3⟩ := ht
  obtain ⟨c1, c2, c3⟩ := hc
  obtain ⟨x1, x2, x3⟩ := abs_coord_le x
  obtain ⟨y1, y2, y3⟩ := abs_coord_le y
  have hτ := V3.norm_nonneg y
  have key : ∀ {d e f g : D} {p q v w p' v' : ℝ}, J.val d = .num p' → J.val e = .num q → J.val f = .num v' →
      J.val g = .num w → |p| ≤ 102 / 100 → |v| ≤ 102 / 100 → |q| ≤ y.norm → |w| ≤ y.norm → |p' - p| ≤ 7 / 2 * u →
      |v' - v| ≤ 7 / 2 * u → ∃ z, J.val (d * e - f * g) = .num z ∧ |z - (p * q - v * w)| ≤ 12 * (u * y.norm) := by
    intro d e f g p q v w p' v' h1 h2 h3 h4 k1 k2 k3 k4 k5 k6
    have triv : ∀ s : ℝ, |s - s| ≤ u * |s| + η := fun s => by rw [sub_self, abs_zero]; positivity
    obtain ⟨b1, b2, -, -⟩ := err_cross hu0 hu hτ hη k1 k2 k3 k4 k5 k6 (triv _) (triv _) (triv _)
    obtain ⟨r, hr, er⟩ := A.mul h1 h2 (by linarith)
    obtain ⟨s, hs, es⟩ := A.mul h3 h4 (by linarith)
    obtain ⟨-, -, b3, -⟩ := err_cross hu0 hu hτ hη k1 k2 k3 k4 k5 k6 er es (triv _)
    obtain ⟨z, hz, ez⟩ := A.sub hr hs (by linarith)
    exact ⟨z, hz, (err_cross hu0 hu hτ hη k1 k2 k3 k4 k5 k6 er es ez).2.2.2⟩
  obtain ⟨z1, h1, e1⟩ := key a2 t3 a3 t2 (x2.trans hx) (x3.trans hx) y3 y2 c2 c3
  obtain ⟨z2, h2, e2⟩ := key a3 t1 a1 t3 (x3.trans hx) (x1.trans hx) y1 y3 c3 c1
  obtain ⟨z3, h3, e3⟩ := key a1 t2 a2 t1 (x1.trans hx) (x2.trans hx) y2 y1 c1 c2
  exact ⟨⟨z1, z2, z3⟩, ⟨h1, h2, h3⟩, e1, e2, e3⟩

/-- The rounded squared length of a vector of length at most `m` known up to `12 μ m`. -/
theorem normSq_error (A : Accurate J u η M) {c : V3 D} {c' x : V3 ℝ} {m μ : ℝ} (hc : HasV J c c') (hm : 0 < m)
    (hx : x.norm ≤ m) (huμ : u ≤ μ) (hμ : μ ≤ 1 / 4096) (hη : 1024 * η ≤ u * (m * m)) (hM : 16 * (m * m) ≤ M)
    (e1 : |c'.x - x.x| ≤ 12 * (μ * m)) (e2 : |c'.y - x.y| ≤ 12 * (μ * m)) (e3 : |c'.z - x.z| ≤ 12 * (μ * m)) :
    ∃ z, J.val (fnormSq c) = .num z ∧ |z - x.norm * x.norm| ≤ 46 * (μ * (m * m)) := by
  have hu0 := A.u_nonneg
  have hμ0 : 0 ≤ μ := hu0.trans huμ
  have hμm : μ * m ≤ 1 / 4096 * m := mul_le_mul_of_nonneg_right hμ hm.le
  have hμm0 : 0 ≤ μ * m := by positivity
  have nx := V3.norm_nonneg x
  have nc := V3.norm_nonneg c'
  have d1 : |c'.norm - x.norm| ≤ 21 * (μ * m) := by
    have h7 := norm_le_of_coords (e := c'.sub x) e1 e2 e3
    have h8 := abs_norm_sub c' x
    linarith
  have hb : c'.norm ≤ 1006 / 1000 * m := by have := (abs_le.1 d1).2; linarith
  have d2 : |c'.norm * c'.norm - x.norm * x.norm| ≤ 422 / 10 * (μ * (m * m)) := by
    have : c'.norm * c'.norm - x.norm * x.norm = (c'.norm - x.norm) * (c'.norm + x.norm) := by ring
    rw [this, abs_mul, abs_of_nonneg (by linarith : 0 ≤ c'.norm + x.norm)]
    have := mul_le_mul d1 (show c'.norm + x.norm ≤ 2006 / 1000 * m by linarith) (by linarith) (by positivity)
    nlinarith [mul_nonneg hμm0 hm.le]
  have hsq : c'.norm * c'.norm = c'.x * c'.x + c'.y * c'.y + c'.z * c'.z := by
    rw [V3.norm_mul_self]; simp only [lin]
  have hle : c'.norm * c'.norm ≤ 11 / 10 * (m * m) := by nlinarith
  have n1 := mul_self_nonneg c'.x
  have n2 := mul_self_nonneg c'.y
  have n3 := mul_self_nonneg c'.z
  obtain ⟨h1, h2, h3⟩ := hc
  have hum : 0 ≤ u * (m * m) := by positivity
  obtain ⟨z, hz, ez, -⟩ := val_sum3 A (s := 11 / 10 * (m * m)) (by linarith) (by linarith) (by linarith) h1 h2 h3 h1 h2 h3
    (by rw [abs_of_nonneg n1, abs_of_nonneg n2, abs_of_nonneg n3]; linarith)
  refine ⟨z, hz, ?_⟩
  rw [← hsq] at ez
  have := abs_sub_le z (c'.norm * c'.norm) (x.norm * x.norm)
  have h9 : u * (m * m) ≤ μ * (m * m) := mul_le_mul_of_nonneg_right huμ (by positivity)
  linarith

/-- One branch of the loss: a bearing times the rounded direction of a vector. -/
theorem branch_error (A : Accurate J u η M) {c o : V3 D} {c' x o' b : V3 ℝ} {r ε : ℝ} (hc : HasV J c c') (ho : HasV J o o')
    (hr : x.norm = r) (hr0 : 0 < r) (huε : u ≤ ε) (hε : ε ≤ 1 / 1024) (h1 : 1024 * η ≤ u) (h2 : 1024 * η ≤ u * r)
    (h3 : 2048 * η ≤ u * (r * r)) (h4 : 1024 * (η * r) ≤ u) (m1 : 16 ≤ M) (m2 : 2 * r ≤ M) (m3 : 16 * (r * r) ≤ M)
    (m4 : 2 ≤ M * r) (e1 : |c'.x - x.x| ≤ 6 * (ε * r)) (e2 : |c'.y - x.y| ≤ 6 * (ε * r))
    (e3 : |c'.z - x.z| ≤ 6 * (ε * r)) (hob : Close u o' b) (hb : b.norm ≤ 102 / 100) :
    ∃ z, J.val (abs (fdot o (fsmul (1 / sqrt (fnormSq c)) c))) = .num z ∧
      |z - |b.dot x| / r| ≤ 23 * u + 77 * ε := by
  have hu0 := A.u_nonneg
  have hη0 := A.η_nonneg
  have hε0 : 0 ≤ ε := hu0.trans huε
  have hu := huε.trans hε
  obtain ⟨n, hn, en⟩ := norm_near A hr hr0 huε hε h2 h3 m2 m3 hc e1 e2 e3
  obtain ⟨l1, l2⟩ := abs_le.1 en
  have hεr : ε * r ≤ 1 / 1024 * r := mul_le_mul_of_nonneg_right hε hr0.le
  have hn0 : 0 < n := by linarith
  have hinv : |1 / n| ≤ M := by
    rw [abs_of_pos (by positivity), div_le_iff₀ hn0]
    have : M * (1 / 2 * r) ≤ M * n := mul_le_mul_of_nonneg_left (by linarith) (by linarith)
    linarith
  obtain ⟨q, hq, eq⟩ := A.div J.one hn hn0.ne' hinv
  obtain ⟨c1, c2, c3⟩ := hc
  obtain ⟨x1, x2, x3⟩ := abs_coord_le x
  rw [hr] at x1 x2 x3
  have key : ∀ {d : D} {y y' : ℝ}, J.val d = .num y' → |y| ≤ r → |y' - y| ≤ 6 * (ε * r) →
      ∃ z, J.val (1 / sqrt (fnormSq c) * d) = .num z ∧ |z - y / r| ≤ 25 * ε := by
    intro d y y' hd hy he
    obtain ⟨b1, -⟩ := err_scaled hu0 huε hε hη0 h1 h4 hr0 hy he en eq (z := q * y')
      (by rw [sub_self, abs_zero]; positivity)
    obtain ⟨z, hz, ez⟩ := A.mul hq hd (b1.trans (by linarith))
    exact ⟨z, hz, (err_scaled hu0 huε hε hη0 h1 h4 hr0 hy he en eq ez).2⟩
  obtain ⟨z1, k1, f1⟩ := key c1 x1 e1
  obtain ⟨z2, k2, f2⟩ := key c2 x2 e2
  obtain ⟨z3, k3, f3⟩ := key c3 x3 e3
  obtain ⟨o1, o2, o3⟩ := ho
  obtain ⟨g1, g2, g3⟩ := hob
  obtain ⟨b1, b2, b3⟩ := abs_coord_le b
  have unit : ∀ {y : ℝ}, |y| ≤ r → |y / r| ≤ 1 := by
    intro y hy
    rw [abs_div, abs_of_pos hr0]; exact (div_le_one hr0).2 hy
  have u1 : |z1| ≤ 103 / 100 := by have := abs_le_add f1 (unit x1); linarith
  have u2 : |z2| ≤ 103 / 100 := by have := abs_le_add f2 (unit x2); linarith
  have u3 : |z3| ≤ 103 / 100 := by have := abs_le_add f3 (unit x3); linarith
  have hsum : |o'.x * z1| + |o'.y * z2| + |o'.z * z3| ≤ 2 := by
    have ho' : o'.norm ≤ 103 / 100 := by
      have h7 := norm_le_of_coords (e := o'.sub b) g1 g2 g3
      have h8 := abs_le.1 (abs_norm_sub o' b)
      linarith [h8.2]
    have hd' : (⟨z1, z2, z3⟩ : V3 ℝ).norm ≤ 11 / 10 := by
      set y : V3 ℝ := ⟨x.x / r, x.y / r, x.z / r⟩ with hy
      have hyn : y.norm = 1 := by
        have := V3.norm_mul_self x
        rw [hr] at this
        unfold V3.norm
        rw [Real.sqrt_eq_one]
        simp only [lin, hy] at this ⊢
        field_simp
        linarith
      have h7 := norm_le_of_coords (e := (⟨z1, z2, z3⟩ : V3 ℝ).sub y) f1 f2 f3
      have h8 := abs_le.1 (abs_norm_sub ⟨z1, z2, z3⟩ y)
      linarith [h8.2]
    have := abs_products o' ⟨z1, z2, z3⟩
    have h9 := mul_le_mul ho' hd' (V3.norm_nonneg _) (by norm_num)
    linarith
  obtain ⟨z, hz, ez, -⟩ := val_sum3 A (s := 2) hu (by linarith) (by linarith) o1 o2 o3 k1 k2 k3 hsum
  refine ⟨|z|, J.abs_num _ _ hz, ?_⟩
  have hd := err_dot (X := 102 / 100) (Q := 103 / 100) (b1.trans hb) (b2.trans hb) (b3.trans hb) u1 u2 u3 g1 g2 g3 f1 f2 f3
  have hdot : |b.dot x| / r = |b.x * (x.x / r) + b.y * (x.y / r) + b.z * (x.z / r)| := by
    rw [← abs_of_pos hr0, ← abs_div, abs_of_pos hr0]
    congr 1
    simp only [lin]
    ring
  rw [hdot]
  refine (abs_abs_sub_abs_le _ _).trans ?_
  have := abs_sub_le z (o'.x * z1 + o'.y * z2 + o'.z * z3) (b.x * (x.x / r) + b.y * (x.y / r) + b.z * (x.z / r))
  linarith

theorem norm_cross_le (a b : V3 ℝ) : (a.cross b).norm ≤ a.norm * b.norm := by
  have h1 := V3.norm_mul_self a
  have h2 := V3.norm_mul_self b
  have h3 := V3.norm_mul_self (a.cross b)
  have h4 := mul_nonneg (V3.norm_nonneg a) (V3.norm_nonneg b)
  have h5 : (a.cross b).normSq = a.normSq * b.normSq - a.dot b * a.dot b := by simp only [lin]; ring
  refine le_of_abs_le (abs_le_of_sq_le_sq ?_ h4)
  have : (a.norm * b.norm) ^ 2 = (a.norm * a.norm) * (b.norm * b.norm) := by ring
  rw [this, h1, h2, sq, h3, h5]
  linarith [mul_self_nonneg (a.dot b)]

/-- The vector chosen by the rounded comparison is nearly the longer one. -/
theorem chosen {μ m r s S S' : ℝ} (hμ : μ ≤ 1 / 4096) (hm : 0 < m) (hr0 : 0 ≤ r) (hr : r ≤ m)
    (hs : |S - r * r| ≤ 46 * (μ * (m * m))) (hs' : |S' - s * s| ≤ 46 * (μ * (m * m))) (hS : S' ≤ S)
    (hmax : r = m ∨ s = m) : 98 / 100 * m ≤ r ∧ m - r ≤ 465 / 10 * (μ * m) := by
  have hμ0 : 0 ≤ μ := by
    have : 0 ≤ 46 * (μ * (m * m)) := (abs_nonneg _).trans hs
    by_contra h
    push Not at h
    nlinarith [mul_pos hm hm]
  have hmm := mul_pos hm hm
  have h2 : m * m - 92 * (μ * (m * m)) ≤ r * r := by
    rcases hmax with h | h
    · rw [h]
      have : 0 ≤ μ * (m * m) := by positivity
      linarith
    · rw [h] at hs'
      linarith [(abs_le.1 hs).2, (abs_le.1 hs').1]
  have h3 : μ * (m * m) ≤ 1 / 4096 * (m * m) := mul_le_mul_of_nonneg_right hμ hmm.le
  have h4 : 98 / 100 * m ≤ r := by
    by_contra h
    push Not at h
    nlinarith
  refine ⟨h4, ?_⟩
  have h5 : (m - r) * (198 / 100 * m) ≤ 465 / 10 * (μ * m) * (198 / 100 * m) := by
    have : (m - r) * (198 / 100 * m) ≤ (m - r) * (m + r) := mul_le_mul_of_nonneg_left (by linarith) (by linarith)
    have : 0 ≤ μ * (m * m) := by positivity
    nlinarith
  exact le_of_mul_le_mul_right h5 (by linarith)

/-- One branch of the loss, against the exact loss. -/
theorem loss_branch (A : Accurate J u η M) {c o : V3 D} {c' x o' b : V3 ℝ} {m κ Δ : ℝ} (E : FineBase u η M m κ) (hm : 0 < m)
    (hc : HasV J c c') (ho : HasV J o o') (h98 : 98 / 100 * m ≤ x.norm) (hxm : x.norm ≤ m)
    (h46 : m - x.norm ≤ 465 / 10 * (u * κ * m)) (hΔ : |b.dot x| = Δ)
    (e1 : |c'.x - x.x| ≤ 12 * (u * κ * m)) (e2 : |c'.y - x.y| ≤ 12 * (u * κ * m)) (e3 : |c'.z - x.z| ≤ 12 * (u * κ * m))
    (hob : Close u o' b) (hb : b.norm ≤ 102 / 100) :
    ∃ z, J.val (abs (fdot o (fsmul (1 / sqrt (fnormSq c)) c))) = .num z ∧ |z - Δ / m| ≤ 256 * (u * κ) := by
  have hu0 := A.u_nonneg
  have hη0 := A.η_nonneg
  have hκ := E.one_le
  have huκ : u ≤ u * κ := by nlinarith
  have hpre := E.precise
  have hμ0 : 0 ≤ u * κ := by positivity
  have hM0 : 0 ≤ M := by linarith [E.range]
  set μ := u * κ with hμ
  set r := x.norm with hr
  have hr0 : 0 < r := by linarith
  have hrr : 1 / 2 * (m * m) ≤ r * r := by nlinarith
  have hrm : r * r ≤ m * m := by nlinarith
  have t1 := mul_le_mul_of_nonneg_left h98 hu0
  have t2 := mul_le_mul_of_nonneg_left hrr hu0
  have t3 := mul_le_mul_of_nonneg_left hxm hη0
  have t4 := mul_le_mul_of_nonneg_left h98 hM0
  have t5 := mul_le_mul_of_nonneg_left h98 hμ0
  have hκm : m ≤ κ * m := by nlinarith
  obtain ⟨z, hz, ez⟩ := branch_error A (ε := 21 / 10 * μ) hc ho hr.symm hr0 (by linarith) (by linarith) E.tiny
    (by linarith [E.tiny_base]) (by linarith [E.tiny_square]) (by linarith [E.tiny_product]) E.range
    (by linarith [E.range_base]) (by linarith [E.range_square]) (by linarith [E.range_inverse]) (by linarith) (by linarith)
    (by linarith) hob hb
  refine ⟨z, hz, ?_⟩
  rw [hΔ] at ez
  have hΔ0 : 0 ≤ Δ := by rw [← hΔ]; exact abs_nonneg _
  have hΔr : Δ / r ≤ 102 / 100 := by
    rw [div_le_iff₀ hr0, ← hΔ]
    have h1 := abs_products b x
    have h2 : |b.dot x| ≤ |b.x * x.x| + |b.y * x.y| + |b.z * x.z| := by
      simp only [lin]
      linarith [abs_add_le (b.x * x.x + b.y * x.y) (b.z * x.z), abs_add_le (b.x * x.x) (b.y * x.y)]
    have := mul_le_mul_of_nonneg_right hb hr0.le
    linarith
  have hdiff : |Δ / r - Δ / m| ≤ 475 / 10 * μ := by
    have : Δ / r - Δ / m = Δ / r * ((m - r) / m) := by field_simp
    rw [this, abs_of_nonneg (by have := sub_nonneg.2 hxm; positivity)]
    have h1 : (m - r) / m ≤ 465 / 10 * μ := by
      rw [div_le_iff₀ hm]; linarith
    have h2 : Δ / r * ((m - r) / m) ≤ 102 / 100 * (465 / 10 * μ) :=
      mul_le_mul hΔr h1 (by have := sub_nonneg.2 hxm; positivity) (by norm_num)
    linarith
  have := abs_sub_le z (Δ / r) (Δ / m)
  linarith

theorem exact_loss {t a b : V3 ℝ} {m κ : ℝ} (S : Baseline t a b m κ) :
    epipolarLoss t a b = if a.dot b < 0 then 1 else |b.dot (a.cross t)| / m := by
  have hab : |a.dot (b.cross t)| = |b.dot (a.cross t)| := by
    rw [← abs_neg]
    congr 1
    simp only [lin]; ring
  have hsm : ∀ (v w : V3 ℝ) (s : ℝ), 0 < s → |v.dot (V3.smul (1 / s) w)| = |v.dot w| / s := by
    intro v w s hs
    have : v.dot (V3.smul (1 / s) w) = v.dot w / s := by simp only [lin]; ring
    rw [this, abs_div, abs_of_pos hs]
  have na := V3.norm_nonneg (a.cross t)
  have nb := V3.norm_nonneg (b.cross t)
  have qa := V3.norm_mul_self (a.cross t)
  have qb := V3.norm_mul_self (b.cross t)
  have hp := S.pos
  unfold epipolarLoss
  by_cases h : (a.cross t).normSq < (b.cross t).normSq
  · have hm : (b.cross t).norm = m := by
      rcases S.attained with h1 | h1
      · have := S.b_le
        rw [← qa, ← qb, h1] at h
        nlinarith
      · exact h1
    have hm' : √(b.cross t).normSq = m := hm
    simp only [if_pos h, hm', cdiv, if_neg hp.ne', Option.map_some, hsm _ _ _ hp, hab]
  · have hm : (a.cross t).norm = m := by
      rcases S.attained with h1 | h1
      · exact h1
      · have := S.a_le
        rw [← qa, ← qb, h1] at h
        push Not at h
        nlinarith
    have hm' : √(a.cross t).normSq = m := hm
    simp only [if_neg h, hm', cdiv, if_neg hp.ne', Option.map_some, hsm _ _ _ hp]

/-- The rounded product of two bearings known up to rounding. -/
theorem dot_close (A : Accurate J u η M) {a b : V3 D} {a' b' x y : V3 ℝ} (ha : HasV J a a') (hb : HasV J b b')
    (hax : Close u a' x) (hby : Close u b' y) (hx : x.norm ≤ 102 / 100) (hy : y.norm ≤ 102 / 100) (hu : u ≤ 1 / 4096)
    (hη : 1024 * η ≤ u) (hM : 16 ≤ M) : ∃ s, J.val (fdot a b) = .num s ∧ |s - x.dot y| ≤ 48 * u := by
  have hu0 := A.u_nonneg
  obtain ⟨g1, g2, g3⟩ := ha
  obtain ⟨h1, h2, h3⟩ := hb
  obtain ⟨c1, c2, c3⟩ := hax
  obtain ⟨d1, d2, d3⟩ := hby
  obtain ⟨x1, x2, x3⟩ := abs_coord_le x
  obtain ⟨y1, y2, y3⟩ := abs_coord_le y
  have near : ∀ {w v n : ℝ}, |w - v| ≤ 7 / 2 * u → |v| ≤ n → n ≤ 102 / 100 → |w| ≤ 103 / 100 := by
    intro w v n p1 p2 p3
    have := abs_le_add p1 p2
    linarith
  have prod : ∀ {w v : ℝ}, |w| ≤ 103 / 100 → |v| ≤ 103 / 100 → |w * v| ≤ 11 / 10 := by
    intro w v p1 p2
    rw [abs_mul]
    have := mul_le_mul p1 p2 (abs_nonneg _) (by norm_num)
    linarith
  obtain ⟨s, hs, es, -⟩ := val_sum3 A (s := 33 / 10) (by linarith) (by linarith) (by linarith) g1 g2 g3 h1 h2 h3
    (by linarith [prod (near c1 x1 hx) (near d1 y1 hy), prod (near c2 x2 hx) (near d2 y2 hy),
      prod (near c3 x3 hx) (near d3 y3 hy)])
  refine ⟨s, hs, ?_⟩
  have := err_dot (x1.trans hx) (x2.trans hx) (x3.trans hx) (near d1 y1 hy) (near d2 y2 hy) (near d3 y3 hy)
    c1 c2 c3 d1 d2 d3
  have := abs_sub_le s (a'.x * b'.x + a'.y * b'.y + a'.z * b'.z) (x.x * y.x + x.y * y.y + x.z * y.z)
  show |s - (x.x * y.x + x.y * y.y + x.z * y.z)| ≤ _
  linarith

/-- One minus that product. -/
theorem angle_close (A : Accurate J u η M) {a b : V3 D} {a' b' x y : V3 ℝ} (ha : HasV J a a') (hb : HasV J b b')
    (hax : Close u a' x) (hby : Close u b' y) (hx : x.norm ≤ 102 / 100) (hy : y.norm ≤ 102 / 100) (hu : u ≤ 1 / 4096)
    (hη : 1024 * η ≤ u) (hM : 16 ≤ M) : ∃ s, J.val (1 - fdot a b) = .num s ∧ |s - (1 - x.dot y)| ≤ 64 * u := by
  have hu0 := A.u_nonneg
  obtain ⟨s, hs, es⟩ := dot_close A ha hb hax hby hx hy hu hη hM
  have hd : |1 - x.dot y| ≤ 3 := by
    have h1 := abs_products x y
    have h2 := mul_le_mul hx hy (V3.norm_nonneg _) (by norm_num)
    have h3 : |x.dot y| ≤ |x.x * y.x| + |x.y * y.y| + |x.z * y.z| := by
      simp only [lin]
      linarith [abs_add_le (x.x * y.x + x.y * y.y) (x.z * y.z), abs_add_le (x.x * y.x) (x.y * y.y)]
    have h4 := abs_le.1 (h3.trans h1)
    rw [abs_le]
    constructor <;> linarith [h4.1, h4.2]
  have e1 : |1 - s - (1 - x.dot y)| ≤ 48 * u := by
    rw [show 1 - s - (1 - x.dot y) = -(s - x.dot y) by ring, abs_neg]; exact es
  have b := abs_le_add e1 hd
  obtain ⟨t, ht, et⟩ := A.sub J.one hs (by linarith)
  refine ⟨t, ht, ?_⟩
  have e2 := err_step hu0 et e1 hd
  have := mul_le_mul_of_nonneg_left (show 3 + 48 * u ≤ 4 by linarith) hu0
  linarith

/-- A bearing turned by a rotation. -/
theorem turn_close (A : Accurate J u η M) {R : M3 D} {a : V3 D} {X : M3 ℝ} {x : V3 ℝ} (hR : HasM J R X) (ha : HasV J a x)
    (hX : NearRot X) (hx : x.norm ≤ 101 / 100) (hu : u ≤ 1 / 4096) (hη : 1024 * η ≤ u) (hM : 16 ≤ M) :
    ∃ y, HasV J (P3P.fmulVec R a) y ∧ Close u y (X.mulVec x) := by
  have hu0 := A.u_nonneg
  obtain ⟨⟨a11, a12, a13⟩, ⟨a21, a22, a23⟩, a31, a32, a33⟩ := hR
  obtain ⟨r1, r2, r3⟩ := hX
  obtain ⟨h1, h2, h3⟩ := ha
  have key : ∀ {m1 m2 m3 : D} {m : V3 ℝ}, J.val m1 = .num m.x → J.val m2 = .num m.y → J.val m3 = .num m.z →
      m.norm ≤ 101 / 100 → ∃ z, J.val (fdot ⟨m1, m2, m3⟩ a) = .num z ∧
        |z - (m.x * x.x + m.y * x.y + m.z * x.z)| ≤ 7 / 2 * u := by
    intro m1 m2 m3 m k1 k2 k3 hm
    have p := abs_products m x
    have q := mul_le_mul hm hx (V3.norm_nonneg _) (by norm_num)
    obtain ⟨z, hz, ez, -⟩ := val_sum3 A (s := 103 / 100) (by linarith) (by linarith) (by linarith) k1 k2 k3 h1 h2 h3
      (by linarith)
    exact ⟨z, hz, ez.trans (by linarith)⟩
  obtain ⟨z1, k1, e1⟩ := key (m := ⟨X.m11, X.m12, X.m13⟩) a11 a12 a13 r1
  obtain ⟨z2, k2, e2⟩ := key (m := ⟨X.m21, X.m22, X.m23⟩) a21 a22 a23 r2
  obtain ⟨z3, k3, e3⟩ := key (m := ⟨X.m31, X.m32, X.m33⟩) a31 a32 a33 r3
  refine ⟨⟨z1, z2, z3⟩, ⟨k1, k2, k3⟩, ?_, ?_, ?_⟩
  · simpa only [lin] using e1
  · simpa only [lin] using e2
  · simpa only [lin] using e3

theorem Close.refl (hu : 0 ≤ u) (x : V3 ℝ) : Close u x x := by
  unfold Close
  simp only [sub_self, abs_zero]
  exact ⟨by positivity, by positivity, by positivity⟩

/-- The rounded epipolar loss. -/
theorem loss_error [FloatBits D] (A : Accurate J u η M) (B : IeeeBits J) {t a b : V3 D} {t' a' b' x y : V3 ℝ} {m κ : ℝ}
    (ht : HasV J t t') (ha : HasV J a a') (hb : HasV J b b') (hax : Close u a' x) (hby : Close u b' y)
    (S : Baseline t' x y m κ) (E : FineBase u η M m κ) (hsign : 64 * u < |x.dot y|) :
    ∃ z, J.val (floss t a b) = .num z ∧ |z - epipolarLoss t' x y| ≤ 256 * (u * κ) := by
  have hu0 := A.u_nonneg
  have hη0 := A.η_nonneg
  have hκ := E.one_le
  have huκ : u ≤ u * κ := by nlinarith
  have hpre := E.precise
  have hm := S.pos
  have hu : u ≤ 1 / 4096 := by linarith
  have hτ : m ≤ 102 / 100 * t'.norm := by
    have nt := V3.norm_nonneg t'
    rcases S.attained with h | h
    · have := norm_cross_le x t'
      have := mul_le_mul_of_nonneg_right S.a_unit nt
      linarith
    · have := norm_cross_le y t'
      have := mul_le_mul_of_nonneg_right S.b_unit nt
      linarith
  have hτκ := mul_le_mul_of_nonneg_left S.ratio hu0
  have hτu := mul_le_mul_of_nonneg_left hτ hu0
  obtain ⟨ca, hca, a1, a2, a3⟩ := cross_error A ha ht hax S.a_unit (by linarith) (by linarith [E.tiny_base])
    (by linarith [E.range_base, S.ratio])
  obtain ⟨cb, hcb, b1, b2, b3⟩ := cross_error A hb ht hby S.b_unit (by linarith) (by linarith [E.tiny_base])
    (by linarith [E.range_base, S.ratio])
  have hassoc : u * (κ * m) = u * κ * m := by ring
  rw [hassoc] at hτκ
  have a1 := a1.trans (mul_le_mul_of_nonneg_left hτκ (by norm_num))
  have a2 := a2.trans (mul_le_mul_of_nonneg_left hτκ (by norm_num))
  have a3 := a3.trans (mul_le_mul_of_nonneg_left hτκ (by norm_num))
  have b1 := b1.trans (mul_le_mul_of_nonneg_left hτκ (by norm_num))
  have b2 := b2.trans (mul_le_mul_of_nonneg_left hτκ (by norm_num))
  have b3 := b3.trans (mul_le_mul_of_nonneg_left hτκ (by norm_num))
  have hsq := E.tiny_square
  obtain ⟨Sa, hSa, eSa⟩ := normSq_error A hca hm S.a_le huκ hpre (by linarith) E.range_square a1 a2 a3
  obtain ⟨Sb, hSb, eSb⟩ := normSq_error A hcb hm S.b_le huκ hpre (by linarith) E.range_square b1 b2 b3
  have hdot : |x.dot (y.cross t')| = |y.dot (x.cross t')| := by
    rw [← abs_neg]
    congr 1
    simp only [lin]; ring
  set residual := if lt (fnormSq (fcross a t)) (fnormSq (fcross b t)) then
      abs (fdot a (fsmul (1 / sqrt (fnormSq (fcross b t))) (fcross b t)))
    else abs (fdot b (fsmul (1 / sqrt (fnormSq (fcross a t))) (fcross a t))) with hres
  have hval : ∃ z, J.val residual = .num z ∧ |z - |y.dot (x.cross t')| / m| ≤ 256 * (u * κ) := by
    by_cases hl : lt (fnormSq (fcross a t)) (fnormSq (fcross b t)) = true
    · have hlt : Sa < Sb := by
        have := (J.lt _ _).1 hl
        rw [hSa, hSb] at this
        exact this
      obtain ⟨k1, k2⟩ := chosen hpre hm (V3.norm_nonneg _) S.b_le eSb eSa hlt.le S.attained.symm
      rw [hres, if_pos hl]
      exact loss_branch A E hm hcb ha k1 S.b_le k2 hdot b1 b2 b3 hax S.a_unit
    · have hle : Sb ≤ Sa := by
        by_contra h
        push Not at h
        apply hl
        rw [J.lt, hSa, hSb]
        exact h
      obtain ⟨k1, k2⟩ := chosen hpre hm (V3.norm_nonneg _) S.a_le eSa eSb hle S.attained
      rw [hres, if_neg hl]
      exact loss_branch A E hm hca hb k1 S.a_le k2 rfl a1 a2 a3 hby S.b_unit
  obtain ⟨z, hz, ez⟩ := hval
  have hnan : ¬ isNan residual = true := by
    rw [B.isNan, hz]
    exact fun h => by cases h
  have hfl : floss t a b = if isNan residual || isSignNegative (fdot a b) then 1 else residual := rfl
  have hsgn := dot_close A ha hb hax hby S.a_unit S.b_unit hu E.tiny E.range
  obtain ⟨s, hs, es⟩ := hsgn
  obtain ⟨s1, s2⟩ := abs_le.1 es
  rw [hfl, exact_loss S, Bool.eq_false_iff.2 hnan, Bool.false_or]
  rcases lt_or_ge (x.dot y) 0 with hneg | hpos
  · rw [abs_of_neg hneg] at hsign
    have hs0 : s < 0 := by linarith
    rw [if_pos ((B.sign_num _ _ hs hs0.ne).2 hs0), if_pos hneg]
    exact ⟨1, J.one, by rw [sub_self, abs_zero]; positivity⟩
  · rw [abs_of_nonneg hpos] at hsign
    have hs0 : 0 < s := by linarith
    rw [if_neg (fun h => not_lt.2 hs0.le ((B.sign_num _ _ hs hs0.ne').1 h)), if_neg (not_lt.2 hpos)]
    exact ⟨z, hz, ez⟩

end Verif.Geo.Rounded
