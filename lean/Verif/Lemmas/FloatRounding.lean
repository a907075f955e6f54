import Verif.Model.FloatResidual
import Verif.Spec.FloatRounding
import Verif.Lemmas.FloatPinhole
import Verif.Lemmas.EpipolarPlane

/-!
# Rounding errors of sums of products, lengths and directions
-/

namespace Verif.Geo.Rounded

open Verif.Akaze
open Verif.Bicubic (Flt)
open Verif.Akaze.FloatOps (sqrt)
open Verif.Akaze.FloatBits (isSignNegative)
open P3P (fdot)

/-- Three products and two sums, each rounded. -/
theorem err_sum3 {u η s a b c p q r d z : ℝ} (hu0 : 0 ≤ u) (hu : u ≤ 1 / 1024) (hη : 1024 * η ≤ u * s)
    (hs : |a| + |b| + |c| ≤ s) (hp : |p - a| ≤ u * |a| + η) (hq : |q - b| ≤ u * |b| + η) (hr : |r - c| ≤ u * |c| + η)
    (hd : |d - (p + q)| ≤ u * |p + q| + η) (hz : |z - (d + r)| ≤ u * |d + r| + η) :
    |z - (a + b + c)| ≤ 16 / 5 * (u * s) := by
  have ha := abs_nonneg a
  have hb := abs_nonneg b
  have hc := abs_nonneg c
  have hs0 : 0 ≤ s := by linarith
  have hus : 0 ≤ u * s := by positivity
  have huus : u * (u * s) ≤ 1 / 1024 * (u * s) := mul_le_mul_of_nonneg_right hu hus
  have e1 : |p + q - (a + b)| ≤ u * |a| + u * |b| + 2 * η := by
    have : p + q - (a + b) = (p - a) + (q - b) := by ring
    rw [this]
    linarith [abs_add_le (p - a) (q - b)]
  have hua : u * |a| + u * |b| + u * |c| ≤ u * s := by
    have := mul_le_mul_of_nonneg_left hs hu0
    linarith
  have huc : 0 ≤ u * |c| := by positivity
  have e2 := err_step hu0 hd e1 (show |a + b| ≤ s by linarith [abs_add_le a b])
  have f2 : u * (s + (u * |a| + u * |b| + 2 * η)) ≤ 101 / 100 * (u * s) := by
    have : u * (s + (u * |a| + u * |b| + 2 * η)) ≤ u * (s + 1003 / 1000 * (u * s)) := by
      apply mul_le_mul_of_nonneg_left _ hu0
      linarith
    linarith
  have e3 : |d + r - (a + b + c)| ≤ u * s + 101 / 100 * (u * s) + 4 * η := by
    have : d + r - (a + b + c) = (d - (a + b)) + (r - c) := by ring
    rw [this]
    linarith [abs_add_le (d - (a + b)) (r - c)]
  have e4 := err_step hu0 hz e3 (show |a + b + c| ≤ s by linarith [abs_add_le (a + b) c, abs_add_le a b])
  have f4 : u * (s + (u * s + 101 / 100 * (u * s) + 4 * η)) ≤ 101 / 100 * (u * s) := by
    have : u * (s + (u * s + 101 / 100 * (u * s) + 4 * η)) ≤ u * (s + 3 * (u * s)) := by
      apply mul_le_mul_of_nonneg_left _ hu0
      linarith
    linarith
  linarith

/-- Four products and three sums, each rounded. -/
theorem err_sum4 {u η s a b c e p q r t d f z : ℝ} (hu0 : 0 ≤ u) (hu : u ≤ 1 / 1024) (hη : 1024 * η ≤ u * s)
    (hs : |a| + |b| + |c| + |e| ≤ s) (hp : |p - a| ≤ u * |a| + η) (hq : |q - b| ≤ u * |b| + η)
    (hr : |r - c| ≤ u * |c| + η) (ht : |t - e| ≤ u * |e| + η)
    (hd : |d - (p + q)| ≤ u * |p + q| + η) (hf : |f - (d + r)| ≤ u * |d + r| + η)
    (hz : |z - (f + t)| ≤ u * |f + t| + η) :
    |z - (a + b + c + e)| ≤ 11 / 2 * (u * s) := by
  have ha := abs_nonneg a
  have hb := abs_nonneg b
  have hc := abs_nonneg c
  have he := abs_nonneg e
  have hs0 : 0 ≤ s := by linarith
  have hus : 0 ≤ u * s := by positivity
  have huus : u * (u * s) ≤ 1 / 1024 * (u * s) := mul_le_mul_of_nonneg_right hu hus
  have e1 := err_sum3 hu0 hu hη (by linarith) hp hq hr hd hf
  have hue : u * |e| ≤ u * s := mul_le_mul_of_nonneg_left (by linarith) hu0
  have e3 : |f + t - (a + b + c + e)| ≤ 43 / 10 * (u * s) := by
    have : f + t - (a + b + c + e) = (f - (a + b + c)) + (t - e) := by ring
    rw [this]
    linarith [abs_add_le (f - (a + b + c)) (t - e)]
  have e4 := err_step hu0 hz e3
    (show |a + b + c + e| ≤ s by linarith [abs_add_le (a + b + c) e, abs_add_le (a + b) c, abs_add_le a b])
  have f4 : u * (s + 43 / 10 * (u * s)) ≤ 101 / 100 * (u * s) := by linarith
  linarith

variable {D : Type} [FloatOps D] {J : Ieee D} {u η M : ℝ}

/-- The value of a rounded sum of three products. -/
theorem val_sum3 (A : Accurate J u η M) {a1 a2 a3 b1 b2 b3 : D} {x1 x2 x3 y1 y2 y3 s : ℝ} (hu : u ≤ 1 / 1024)
    (hη : 1024 * η ≤ u * s) (hM : 4 * s ≤ M) (h1 : J.val a1 = .num x1) (h2 : J.val a2 = .num x2)
    (h3 : J.val a3 = .num x3) (k1 : J.val b1 = .num y1) (k2 : J.val b2 = .num y2) (k3 : J.val b3 = .num y3)
    (hs : |x1 * y1| + |x2 * y2| + |x3 * y3| ≤ s) :
    ∃ z, J.val (a1 * b1 + a2 * b2 + a3 * b3) = .num z ∧ |z - (x1 * y1 + x2 * y2 + x3 * y3)| ≤ 16 / 5 * (u * s) ∧
      ((0 ≤ x1 * y1 ∧ 0 ≤ x2 * y2 ∧ 0 ≤ x3 * y3) → 0 ≤ z) := by
  have hu0 := A.u_nonneg
  have n1 := abs_nonneg (x1 * y1)
  have n2 := abs_nonneg (x2 * y2)
  have n3 := abs_nonneg (x3 * y3)
  have hs0 : 0 ≤ s := by linarith
  have hus : u * s ≤ 1 / 1024 * s := mul_le_mul_of_nonneg_right hu hs0
  have sm : ∀ x : ℝ, |x| ≤ s → u * |x| ≤ 1 / 1024 * s := fun x hx =>
    (mul_le_mul_of_nonneg_left hx hu0).trans hus
  obtain ⟨p, hp, ep⟩ := A.mul h1 k1 (by linarith)
  obtain ⟨q, hq, eq⟩ := A.mul h2 k2 (by linarith)
  obtain ⟨r, hr, er⟩ := A.mul h3 k3 (by linarith)
  have bp := abs_le_add ep le_rfl
  have bq := abs_le_add eq le_rfl
  have br := abs_le_add er le_rfl
  have s1 := sm (x1 * y1) (by linarith)
  have s2 := sm (x2 * y2) (by linarith)
  have s3 := sm (x3 * y3) (by linarith)
  have bpq := abs_add_le p q
  obtain ⟨d, hd, ed⟩ := A.add hp hq (by linarith)
  have bd := abs_le_add ed le_rfl
  have sd : u * |p + q| ≤ 2 / 1024 * s := by
    have := mul_le_mul_of_nonneg_left (show |p + q| ≤ 2 * s by linarith) hu0
    linarith
  have bdr := abs_add_le d r
  obtain ⟨z, hz, ez⟩ := A.add hd hr (by linarith)
  refine ⟨z, hz, err_sum3 hu0 hu hη hs ep eq er ed ez, fun ⟨p1, p2, p3⟩ => ?_⟩
  have hp0 : 0 ≤ p := J.rnd_ge J.zero p1 (by rw [J.mul, h1, k1] at hp; exact hp)
  have hq0 : 0 ≤ q := J.rnd_ge J.zero p2 (by rw [J.mul, h2, k2] at hq; exact hq)
  have hr0 : 0 ≤ r := J.rnd_ge J.zero p3 (by rw [J.mul, h3, k3] at hr; exact hr)
  have hd0 : 0 ≤ d := J.rnd_ge J.zero (by linarith : 0 ≤ p + q) (by rw [J.add, hp, hq] at hd; exact hd)
  exact J.rnd_ge J.zero (by linarith : 0 ≤ d + r) (by rw [J.add, hd, hr] at hz; exact hz)

/-- The value of a rounded sum of four products. -/
theorem val_sum4 (A : Accurate J u η M) {a1 a2 a3 a4 b1 b2 b3 b4 : D} {x1 x2 x3 x4 y1 y2 y3 y4 s : ℝ}
    (hu : u ≤ 1 / 1024) (hη : 1024 * η ≤ u * s) (hM : 4 * s ≤ M) (h1 : J.val a1 = .num x1) (h2 : J.val a2 = .num x2)
    (h3 : J.val a3 = .num x3) (h4 : J.val a4 = .num x4) (k1 : J.val b1 = .num y1) (k2 : J.val b2 = .num y2)
    (k3 : J.val b3 = .num y3) (k4 : J.val b4 = .num y4)
    (hs : |x1 * y1| + |x2 * y2| + |x3 * y3| + |x4 * y4| ≤ s) :
    ∃ z, J.val (a1 * b1 + a2 * b2 + a3 * b3 + a4 * b4) = .num z ∧
      |z - (x1 * y1 + x2 * y2 + x3 * y3 + x4 * y4)| ≤ 11 / 2 * (u * s) := by
  have hu0 := A.u_nonneg
  have n1 := abs_nonneg (x1 * y1)
  have n2 := abs_nonneg (x2 * y2)
  have n3 := abs_nonneg (x3 * y3)
  have n4 := abs_nonneg (x4 * y4)
  have hs0 : 0 ≤ s := by linarith
  have hus : u * s ≤ 1 / 1024 * s := mul_le_mul_of_nonneg_right hu hs0
  have sm : ∀ x : ℝ, |x| ≤ s → u * |x| ≤ 1 / 1024 * s := fun x hx =>
    (mul_le_mul_of_nonneg_left hx hu0).trans hus
  obtain ⟨p, hp, ep⟩ := A.mul h1 k1 (by linarith)
  obtain ⟨q, hq, eq⟩ := A.mul h2 k2 (by linarith)
  obtain ⟨r, hr, er⟩ := A.mul h3 k3 (by linarith)
  obtain ⟨t, ht, et⟩ := A.mul h4 k4 (by linarith)
  have bp := abs_le_add ep le_rfl
  have bq := abs_le_add eq le_rfl
  have br := abs_le_add er le_rfl
  have bt := abs_le_add et le_rfl
  have s1 := sm (x1 * y1) (by linarith)
  have s2 := sm (x2 * y2) (by linarith)
  have s3 := sm (x3 * y3) (by linarith)
  have s4 := sm (x4 * y4) (by linarith)
  have bpq := abs_add_le p q
  obtain ⟨d, hd, ed⟩ := A.add hp hq (by linarith)
  have bd := abs_le_add ed le_rfl
  have sd : u * |p + q| ≤ 2 / 1024 * s := by
    have := mul_le_mul_of_nonneg_left (show |p + q| ≤ 2 * s by linarith) hu0
    linarith
  have bdr := abs_add_le d r
  obtain ⟨f, hf, ef⟩ := A.add hd hr (by linarith)
  have bf := abs_le_add ef le_rfl
  have sf : u * |d + r| ≤ 2 / 1024 * s := by
    have := mul_le_mul_of_nonneg_left (show |d + r| ≤ 2 * s by linarith) hu0
    linarith
  have bft := abs_add_le f t
  obtain ⟨z, hz, ez⟩ := A.add hf ht (by linarith)
  exact ⟨z, hz, err_sum4 hu0 hu hη hs ep eq er et ed ef ez⟩

theorem abs_norm_sub (a b : V3 ℝ) : |a.norm - b.norm| ≤ (a.sub b).norm := by
  have ha := V3.norm_mul_self a
  have hb := V3.norm_mul_self b
  have hc := V3.norm_mul_self (a.sub b)
  have na := V3.norm_nonneg a
  have nb := V3.norm_nonneg b
  have nc := V3.norm_nonneg (a.sub b)
  have cs := cauchy_schwarz a b
  have hd : a.dot b ≤ a.norm * b.norm := by
    rw [← ha, ← hb] at cs
    have : |a.dot b| ≤ |a.norm * b.norm| := sq_le_sq.1 (by nlinarith)
    rw [abs_of_nonneg (mul_nonneg na nb)] at this
    exact (le_abs_self _).trans this
  have he : (a.sub b).normSq = a.normSq + b.normSq - 2 * a.dot b := by simp only [lin]; ring
  have : |a.norm - b.norm| ≤ |(a.sub b).norm| := by
    apply sq_le_sq.1
    nlinarith
  rwa [abs_of_nonneg nc] at this

theorem norm_le_of_coords {e : V3 ℝ} {m : ℝ} (h1 : |e.x| ≤ m) (h2 : |e.y| ≤ m) (h3 : |e.z| ≤ m) :
    e.norm ≤ 7 / 4 * m := by
  have hm : 0 ≤ m := (abs_nonneg _).trans h1
  have sq : ∀ x : ℝ, |x| ≤ m → x * x ≤ m * m := by
    intro x hx
    rw [← abs_mul_abs_self x]
    exact mul_le_mul hx hx (abs_nonneg _) hm
  have := V3.norm_mul_self e
  have hn := V3.norm_nonneg e
  have e1 : e.normSq ≤ 3 * (m * m) := by
    have := sq _ h1
    have := sq _ h2
    have := sq _ h3
    simp only [lin]
    linarith
  by_contra hcon
  push Not at hcon
  nlinarith

theorem abs_coord_le (e : V3 ℝ) : |e.x| ≤ e.norm ∧ |e.y| ≤ e.norm ∧ |e.z| ≤ e.norm := by
  have h := V3.norm_mul_self e
  have hn := V3.norm_nonneg e
  have hx := mul_self_nonneg e.x
  have hy := mul_self_nonneg e.y
  have hz := mul_self_nonneg e.z
  have hh : e.normSq = e.x * e.x + e.y * e.y + e.z * e.z := by simp only [lin]
  have key : ∀ t : ℝ, t * t ≤ e.norm * e.norm → |t| ≤ e.norm := by
    intro t ht
    have := sq_le_sq.1 (show t ^ 2 ≤ e.norm ^ 2 by nlinarith)
    rwa [abs_of_nonneg hn] at this
  exact ⟨key _ (by linarith), key _ (by linarith), key _ (by linarith)⟩

/-- A rounded length. -/
theorem err_norm {u η N S n : ℝ} (hu0 : 0 ≤ u) (hu : u ≤ 1 / 1024) (hN : 0 < N) (hη : 1000 * η ≤ u * N)
    (hS0 : 0 ≤ S) (hS : |S - N * N| ≤ 16 / 5 * (u * (N * N))) (hn : |n - √S| ≤ u * √S + η) :
    |n - N| ≤ 44 / 10 * (u * N) := by
  have hs0 := Real.sqrt_nonneg S
  have hss : √S * √S = S := Real.mul_self_sqrt hS0
  set s := √S
  have huN : 0 ≤ u * N := by positivity
  have e1 : |s - N| ≤ 16 / 5 * (u * N) := by
    have h1 : |s - N| * (s + N) = |S - N * N| := by
      rw [← abs_of_nonneg (by linarith : 0 ≤ s + N), ← abs_mul]
      congr 1
      rw [← hss]
      ring
    have h2 : |s - N| * N ≤ 16 / 5 * (u * N) * N := by
      have : |s - N| * N ≤ |s - N| * (s + N) := mul_le_mul_of_nonneg_left (by linarith) (abs_nonneg _)
      linarith
    exact le_of_mul_le_mul_right h2 hN
  have e2 := err_step hu0 (z := s) (v := n) (η := η) (by rw [abs_of_nonneg hs0]; exact hn) e1
    (show |N| ≤ N by rw [abs_of_pos hN])
  have : u * (u * N) ≤ 1 / 1024 * (u * N) := mul_le_mul_of_nonneg_right hu huN
  linarith

/-- A rounded coordinate of a direction. -/
theorem err_direction {u η ε r x x' n z : ℝ} (hu0 : 0 ≤ u) (huε : u ≤ ε) (hε : ε ≤ 1 / 1024) (hη : 1024 * η ≤ u)
    (hr : 0 < r) (hx : |x| ≤ r) (hx' : |x' - x| ≤ 6 * (ε * r)) (hn : |n - r| ≤ 16 * (ε * r))
    (hz : |z - x' / n| ≤ u * |x' / n| + η) : |x' / n| ≤ 2 ∧ |z - x / r| ≤ 24 * ε := by
  have hε0 : 0 ≤ ε := hu0.trans huε
  have hεr : ε * r ≤ 1 / 1024 * r := mul_le_mul_of_nonneg_right hε hr.le
  have hn1 : 98 / 100 * r ≤ n := by have := (abs_le.1 hn).1; linarith
  have hn0 : 0 < n := by linarith
  have hw : |x / r| ≤ 1 := by
    rw [abs_div, abs_of_pos hr]; exact (div_le_one hr).2 hx
  have e1 : |x' / n - x / r| ≤ 225 / 10 * ε := by
    have : x' / n - x / r = ((x' - x) - x / r * (n - r)) / n := by field_simp; ring
    rw [this, abs_div, abs_of_pos hn0, div_le_iff₀ hn0]
    have h1 := abs_sub (x' - x) (x / r * (n - r))
    rw [abs_mul] at h1
    have h2 : |x / r| * |n - r| ≤ 1 * |n - r| := mul_le_mul_of_nonneg_right hw (abs_nonneg _)
    have h3 : 225 / 10 * ε * (98 / 100 * r) ≤ 225 / 10 * ε * n := mul_le_mul_of_nonneg_left hn1 (by positivity)
    have : 0 ≤ ε * r := by positivity
    nlinarith
  have e2 := err_step hu0 hz e1 hw
  have h4 : u * (1 + 225 / 10 * ε) ≤ 103 / 100 * ε := by
    have : u * (1 + 225 / 10 * ε) ≤ u * (103 / 100) := mul_le_mul_of_nonneg_left (by linarith) hu0
    linarith
  exact ⟨by have := abs_le_add e1 hw; linarith, by linarith⟩

/-- A rounded length of a vector known up to rounding. -/
theorem norm_near (A : Accurate J u η M) {ε r : ℝ} {a : V3 D} {v v' : V3 ℝ} (hr : v.norm = r) (hr0 : 0 < r)
    (huε : u ≤ ε) (hε : ε ≤ 1 / 1024) (h2 : 1024 * η ≤ u * r) (h3 : 2048 * η ≤ u * (r * r))
    (m2 : 2 * r ≤ M) (m3 : 16 * (r * r) ≤ M)
    (ha : HasV J a v') (e1 : |v'.x - v.x| ≤ 6 * (ε * r)) (e2 : |v'.y - v.y| ≤ 6 * (ε * r))
    (e3 : |v'.z - v.z| ≤ 6 * (ε * r)) :
    ∃ n, J.val (fnorm a) = .num n ∧ |n - r| ≤ 16 * (ε * r) := by
  have hu0 := A.u_nonneg
  have hε0 : 0 ≤ ε := hu0.trans huε
  have hu := huε.trans hε
  obtain ⟨h4, h5, h6⟩ := ha
  have hεr : ε * r ≤ 1 / 1024 * r := mul_le_mul_of_nonneg_right hε hr0.le
  have hεr0 : 0 ≤ ε * r := by positivity
  have d1 : |v'.norm - r| ≤ 105 / 10 * (ε * r) := by
    have h7 := norm_le_of_coords (e := v'.sub v) e1 e2 e3
    have h8 := abs_norm_sub v' v
    rw [hr] at h8
    linarith
  obtain ⟨l1, l2⟩ := abs_le.1 d1
  have hN : 98 / 100 * r ≤ v'.norm := by linarith
  have hN2 : v'.norm ≤ 102 / 100 * r := by linarith
  have hsq : v'.norm * v'.norm = v'.x * v'.x + v'.y * v'.y + v'.z * v'.z := by
    rw [V3.norm_mul_self]; simp only [lin]
  have q1 : 1 / 2 * (r * r) ≤ v'.norm * v'.norm := by nlinarith
  have q2 : v'.norm * v'.norm ≤ 2 * (r * r) := by nlinarith
  have nx := mul_self_nonneg v'.x
  have ny := mul_self_nonneg v'.y
  have nz := mul_self_nonneg v'.z
  have q3 := mul_le_mul_of_nonneg_left q1 hu0
  obtain ⟨S, hS, eS, pS⟩ := val_sum3 A (s := v'.norm * v'.norm) hu (by linarith) (by linarith) h4 h5 h6 h4 h5 h6
    (by rw [abs_of_nonneg nx, abs_of_nonneg ny, abs_of_nonneg nz, hsq])
  have S0 := pS ⟨nx, ny, nz⟩
  rw [← hsq] at eS
  have hn0 : 0 < v'.norm := by linarith
  have hsqrt : √S ≤ 2 * r := by
    rw [Real.sqrt_le_left (by linarith)]
    have := (abs_le.1 eS).2
    have h9 : u * (v'.norm * v'.norm) ≤ 1 / 1024 * (v'.norm * v'.norm) := mul_le_mul_of_nonneg_right hu (by positivity)
    nlinarith
  obtain ⟨n, hn, en⟩ := A.sqrt hS S0 (hsqrt.trans m2)
  have q4 := mul_le_mul_of_nonneg_left hN hu0
  have d2 := err_norm hu0 hu hn0 (by linarith [A.η_nonneg]) S0 eS en
  refine ⟨n, hn, ?_⟩
  have h8 := abs_sub_le n v'.norm r
  have q5 := mul_le_mul_of_nonneg_left hN2 hu0
  have q6 := mul_le_mul_of_nonneg_right huε hr0.le
  linarith

/-- A rounded direction of a vector known up to rounding. -/
theorem direction_error (A : Accurate J u η M) {ε r : ℝ} {a : V3 D} {v v' : V3 ℝ} (hr : v.norm = r) (hr0 : 0 < r)
    (huε : u ≤ ε) (hε : ε ≤ 1 / 1024) (h1 : 1024 * η ≤ u) (h2 : 1024 * η ≤ u * r) (h3 : 2048 * η ≤ u * (r * r))
    (m1 : 2 ≤ M) (m2 : 2 * r ≤ M) (m3 : 16 * (r * r) ≤ M)
    (ha : HasV J a v') (e1 : |v'.x - v.x| ≤ 6 * (ε * r)) (e2 : |v'.y - v.y| ≤ 6 * (ε * r))
    (e3 : |v'.z - v.z| ≤ 6 * (ε * r)) :
    ∃ d, HasV J (fnormalize a) d ∧ |d.x - v.x / r| ≤ 24 * ε ∧ |d.y - v.y / r| ≤ 24 * ε ∧ |d.z - v.z / r| ≤ 24 * ε := by
  obtain ⟨n, hn, en⟩ := norm_near A hr hr0 huε hε h2 h3 m2 m3 ha e1 e2 e3
  have hu0 := A.u_nonneg
  obtain ⟨h4, h5, h6⟩ := ha
  obtain ⟨c1, c2, c3⟩ := abs_coord_le v
  rw [hr] at c1 c2 c3
  have hεr : ε * r ≤ 1 / 1024 * r := mul_le_mul_of_nonneg_right hε hr0.le
  have hn0 : n ≠ 0 := by have := (abs_le.1 en).1; intro h; rw [h] at this; linarith
  have key : ∀ {b : D} {x x' : ℝ}, J.val b = .num x' → |x| ≤ r → |x' - x| ≤ 6 * (ε * r) →
      ∃ z, J.val (b / fnorm a) = .num z ∧ |z - x / r| ≤ 24 * ε := by
    intro b x x' hb hx he
    obtain ⟨b1, -⟩ := err_direction hu0 huε hε h1 hr0 hx he en (z := x' / n)
      (by rw [sub_self, abs_zero]; have := A.η_nonneg; positivity)
    obtain ⟨z, hz, ez⟩ := A.div hb hn hn0 (b1.trans m1)
    exact ⟨z, hz, (err_direction hu0 huε hε h1 hr0 hx he en ez).2⟩
  obtain ⟨x, hx, ex⟩ := key h4 c1 e1
  obtain ⟨y, hy, ey⟩ := key h5 c2 e2
  obtain ⟨z, hz, ez⟩ := key h6 c3 e3
  exact ⟨⟨x, y, z⟩, ⟨hx, hy, hz⟩, ex, ey, ez⟩

theorem abs_products (a b : V3 ℝ) : |a.x * b.x| + |a.y * b.y| + |a.z * b.z| ≤ a.norm * b.norm := by
  have h := cauchy_schwarz ⟨|a.x|, |a.y|, |a.z|⟩ ⟨|b.x|, |b.y|, |b.z|⟩
  have ha := V3.norm_mul_self a
  have hb := V3.norm_mul_self b
  have na := V3.norm_nonneg a
  have nb := V3.norm_nonneg b
  simp only [lin, abs_mul_abs_self] at h ha hb
  rw [← ha, ← hb] at h
  rw [abs_mul, abs_mul, abs_mul]
  have := abs_le_of_sq_le_sq (show (|a.x| * |b.x| + |a.y| * |b.y| + |a.z| * |b.z|) ^ 2 ≤ (a.norm * b.norm) ^ 2 by
    nlinarith) (mul_nonneg na nb)
  exact (le_abs_self _).trans this

/-- The direction in which a camera sees a point. -/
theorem transform_error [FloatBits D] (A : Accurate J u η M) (B : IeeeBits J) {p : Iso D} {w : V4 D} {P : Iso ℝ}
    {W : V4 ℝ} {r κ : ℝ} (hp : HasIso J p P) (hw : Has4 J w W) (S : InSight P W r κ) (E : Fine u η M r κ) :
    ∃ d q, HasV J (fbearing (ftransform p w)) d ∧ transform P W = some q ∧ (bearing q).norm = 1 ∧
      |d.x - (bearing q).x| ≤ 24 * (u * κ) ∧ |d.y - (bearing q).y| ≤ 24 * (u * κ) ∧
      |d.z - (bearing q).z| ≤ 24 * (u * κ) := by
  obtain ⟨⟨⟨a11, a12, a13⟩, ⟨a21, a22, a23⟩, a31, a32, a33⟩, t1, t2, t3⟩ := hp
  obtain ⟨w1, w2, w3, w4⟩ := hw
  obtain ⟨⟨r1, r2, r3⟩, hfin, hr0, hr, hratio⟩ := S
  have hu0 := A.u_nonneg
  have hκ := E.one_le
  have huκ : u ≤ u * κ := by nlinarith
  have hu : u ≤ 1 / 1024 := huκ.trans E.precise
  have hκr : r ≤ κ * r := by nlinarith
  obtain ⟨c1, c2, c3⟩ := abs_coord_le P.t
  have nW := V3.norm_nonneg W.xyz
  have nt := V3.norm_nonneg P.t
  have coord : ∀ {a1 a2 a3 t : D} {m : V3 ℝ} {τ : ℝ}, J.val a1 = .num m.x → J.val a2 = .num m.y →
      J.val a3 = .num m.z → J.val t = .num τ → m.norm ≤ 101 / 100 → |τ| ≤ P.t.norm →
      ∃ z, J.val (a1 * w.x + a2 * w.y + a3 * w.z + t * w.w) = .num z ∧
        |z - (m.x * W.x + m.y * W.y + m.z * W.z + τ * W.w)| ≤ 6 * (u * κ * r) := by
    intro a1 a2 a3 t m τ h1 h2 h3 h4 hm hτ
    have k1 : |m.x * W.x| + |m.y * W.y| + |m.z * W.z| ≤ 101 / 100 * W.xyz.norm :=
      (abs_products m W.xyz).trans (mul_le_mul_of_nonneg_right hm nW)
    have k2 : |τ * W.w| ≤ P.t.norm * W.w := by
      rw [abs_mul, abs_of_pos hfin]; exact mul_le_mul_of_nonneg_right hτ hfin.le
    have k3 : 0 ≤ P.t.norm * W.w := by positivity
    have h5 := mul_le_mul_of_nonneg_left hκr hu0
    have h6 := E.tiny_dist
    have h7 := E.range_dist
    have h8 : 0 ≤ u * (κ * r) := by positivity
    obtain ⟨z, hz, ez⟩ := val_sum4 A (s := 101 / 100 * (κ * r)) hu (by linarith) (by linarith) h1 h2 h3 h4 w1 w2 w3 w4
      (by linarith)
    exact ⟨z, hz, ez.trans (by linarith)⟩
  obtain ⟨x, hx, ex⟩ := coord (m := ⟨P.rot.m11, P.rot.m12, P.rot.m13⟩) a11 a12 a13 t1 r1 c1
  obtain ⟨y, hy, ey⟩ := coord (m := ⟨P.rot.m21, P.rot.m22, P.rot.m23⟩) a21 a22 a23 t2 r2 c2
  obtain ⟨z, hz, ez⟩ := coord (m := ⟨P.rot.m31, P.rot.m32, P.rot.m33⟩) a31 a32 a33 t3 r3 c3
  have h0 : J.val (0 * w.x + 0 * w.y + 0 * w.z + 1 * w.w) = .num W.w := by
    have z1 := val_zero_mul J.zero w1
    have z2 := val_zero_mul J.zero w2
    have z3 := val_zero_mul J.zero w3
    have o : J.val (1 * w.w) = .num W.w := by
      rw [J.mul, J.one, w4]
      show roundedBy J.rnd (Flt.num (1 * W.w)) = _
      rw [one_mul]
      exact J.rnd_val _ _ w4
    exact val_zero_add (val_zero_add (val_zero_add z1 z2) z3) o
  have hsign : ¬ isSignNegative (0 * w.x + 0 * w.y + 0 * w.z + 1 * w.w) = true := fun h =>
    not_lt.2 hfin.le ((B.sign_num _ _ h0 hfin.ne').1 h)
  obtain ⟨d, hd, e1, e2, e3⟩ := direction_error A (ε := u * κ) (a := ⟨_, _, _⟩) (v := (P.homMul W).xyz)
    (v' := ⟨x, y, z⟩) hr hr0 huκ E.precise E.tiny E.tiny_dist E.tiny_square (by linarith [E.range])
    (by linarith [E.range_dist]) E.range_square ⟨hx, hy, hz⟩ ex ey ez
  have hq : transform P W = some (V4.smul (1 / r) (P.homMul W)) := by
    unfold transform fromHomogeneous
    have : ¬ (P.homMul W).w < 0 := not_lt.2 hfin.le
    simp only [if_neg this, hr, if_neg hr0.ne']
  refine ⟨d, _, ?_, hq, ?_, ?_, ?_, ?_⟩
  · unfold ftransform fhomogeneous fbearing
    simp only [if_neg hsign]
    exact hd
  · have h1 := V3.norm_mul_self (P.homMul W).xyz
    rw [hr] at h1
    unfold V3.norm
    rw [Real.sqrt_eq_one]
    simp only [lin, bearing] at h1 ⊢
    field_simp
    linarith
  · have : (bearing (V4.smul (1 / r) (P.homMul W))).x = (P.homMul W).xyz.x / r := by
      simp only [lin, bearing]; ring
    rw [this]; exact e1
  · have : (bearing (V4.smul (1 / r) (P.homMul W))).y = (P.homMul W).xyz.y / r := by
      simp only [lin, bearing]; ring
    rw [this]; exact e2
  · have : (bearing (V4.smul (1 / r) (P.homMul W))).z = (P.homMul W).xyz.z / r := by
      simp only [lin, bearing]; ring
    rw [this]; exact e3

/-- One minus the rounded product of a bearing and a direction. -/
theorem err_cosine {u η ε x1 x2 x3 y1 y2 y3 d1 d2 d3 z t : ℝ} (hu0 : 0 ≤ u) (huε : u ≤ ε) (hε : ε ≤ 1 / 1024)
    (hη : 1024 * η ≤ u) (hb : |x1| + |x2| + |x3| ≤ 9 / 5) (hxy : |x1 * y1 + x2 * y2 + x3 * y3| ≤ 101 / 100)
    (h1 : |d1 - y1| ≤ 24 * ε) (h2 : |d2 - y2| ≤ 24 * ε) (h3 : |d3 - y3| ≤ 24 * ε)
    (hz : |z - (x1 * d1 + x2 * d2 + x3 * d3)| ≤ 16 / 5 * (u * 2)) (ht : |t - (1 - z)| ≤ u * |1 - z| + η) :
    |1 - z| ≤ 4 ∧ |t - (1 - (x1 * y1 + x2 * y2 + x3 * y3))| ≤ 64 * ε := by
  have hε0 : 0 ≤ ε := hu0.trans huε
  have e1 : |x1 * d1 + x2 * d2 + x3 * d3 - (x1 * y1 + x2 * y2 + x3 * y3)| ≤ 9 / 5 * (24 * ε) := by
    have : x1 * d1 + x2 * d2 + x3 * d3 - (x1 * y1 + x2 * y2 + x3 * y3) =
        x1 * (d1 - y1) + x2 * (d2 - y2) + x3 * (d3 - y3) := by ring
    rw [this]
    have a1 := abs_add_le (x1 * (d1 - y1) + x2 * (d2 - y2)) (x3 * (d3 - y3))
    have a2 := abs_add_le (x1 * (d1 - y1)) (x2 * (d2 - y2))
    rw [abs_mul] at a1 a2
    rw [abs_mul] at a2
    have b1 := mul_le_mul_of_nonneg_left h1 (abs_nonneg x1)
    have b2 := mul_le_mul_of_nonneg_left h2 (abs_nonneg x2)
    have b3 := mul_le_mul_of_nonneg_left h3 (abs_nonneg x3)
    have b4 := mul_le_mul_of_nonneg_right hb (by positivity : 0 ≤ 24 * ε)
    linarith
  have e2 : |1 - z - (1 - (x1 * y1 + x2 * y2 + x3 * y3))| ≤ 50 * ε := by
    have : 1 - z - (1 - (x1 * y1 + x2 * y2 + x3 * y3)) = -((z - (x1 * d1 + x2 * d2 + x3 * d3)) +
      (x1 * d1 + x2 * d2 + x3 * d3 - (x1 * y1 + x2 * y2 + x3 * y3))) := by ring
    rw [this, abs_neg]
    have := abs_add_le (z - (x1 * d1 + x2 * d2 + x3 * d3))
      (x1 * d1 + x2 * d2 + x3 * d3 - (x1 * y1 + x2 * y2 + x3 * y3))
    linarith
  have e3 : |1 - (x1 * y1 + x2 * y2 + x3 * y3)| ≤ 201 / 100 := by
    have := abs_le.1 hxy
    rw [abs_le]; constructor <;> linarith [this.1, this.2]
  have e4 := err_step hu0 ht e2 e3
  have := abs_le_add e2 e3
  have h5 : u * (201 / 100 + 50 * ε) ≤ u * 3 := mul_le_mul_of_nonneg_left (by linarith) hu0
  exact ⟨by linarith, by linarith⟩

/-- One minus the rounded product of a bearing and a direction, in either order. -/
theorem cosine_error (A : Accurate J u η M) {ε : ℝ} {a c : V3 D} {b d y : V3 ℝ} (ha : HasV J a b) (hc : HasV J c d)
    (huε : u ≤ ε) (hε : ε ≤ 1 / 1024) (hη : 1024 * η ≤ u) (hM : 16 ≤ M) (hb : b.norm ≤ 101 / 100) (hy : y.norm = 1)
    (h1 : |d.x - y.x| ≤ 24 * ε) (h2 : |d.y - y.y| ≤ 24 * ε) (h3 : |d.z - y.z| ≤ 24 * ε) :
    (∃ z, J.val (1 - fdot a c) = .num z ∧ |z - (1 - b.dot y)| ≤ 64 * ε) ∧
      ∃ z, J.val (1 - fdot c a) = .num z ∧ |z - (1 - b.dot y)| ≤ 64 * ε := by
  have hu0 := A.u_nonneg
  have hε0 : 0 ≤ ε := hu0.trans huε
  have hu := huε.trans hε
  have nb := V3.norm_nonneg b
  have hsum : |b.x| + |b.y| + |b.z| ≤ 9 / 5 := by
    have h := V3.norm_mul_self b
    simp only [lin] at h
    have k1 := abs_mul_abs_self b.x
    have k2 := abs_mul_abs_self b.y
    have k3 := abs_mul_abs_self b.z
    by_contra hcon
    push Not at hcon
    nlinarith [sq_nonneg (|b.x| - |b.y|), sq_nonneg (|b.x| - |b.z|), sq_nonneg (|b.y| - |b.z|)]
  have hxy : |b.x * y.x + b.y * y.y + b.z * y.z| ≤ 101 / 100 := by
    have := abs_products b y
    rw [hy, mul_one] at this
    linarith [abs_add_le (b.x * y.x + b.y * y.y) (b.z * y.z), abs_add_le (b.x * y.x) (b.y * y.y)]
  obtain ⟨c1, c2, c3⟩ := abs_coord_le y
  rw [hy] at c1 c2 c3
  have prod : ∀ {x z w : ℝ}, |z - w| ≤ 24 * ε → |w| ≤ 1 → |x * z| ≤ 11 / 10 * |x| := by
    intro x z w h hw
    rw [abs_mul, mul_comm (11 / 10)]
    exact mul_le_mul_of_nonneg_left (by have := abs_le_add h hw; linarith) (abs_nonneg _)
  have p1 := prod (x := b.x) h1 c1
  have p2 := prod (x := b.y) h2 c2
  have p3 := prod (x := b.z) h3 c3
  obtain ⟨a1, a2, a3⟩ := ha
  obtain ⟨g1, g2, g3⟩ := hc
  have fin : ∀ {e : D} {z : ℝ}, J.val e = .num z → |z - (b.x * d.x + b.y * d.y + b.z * d.z)| ≤ 16 / 5 * (u * 2) →
      ∃ t, J.val (1 - e) = .num t ∧ |t - (1 - b.dot y)| ≤ 64 * ε := by
    intro e z he hz
    obtain ⟨b1, -⟩ := err_cosine hu0 huε hε hη hsum hxy h1 h2 h3 hz (t := 1 - z)
      (by rw [sub_self, abs_zero]; have := A.η_nonneg; positivity)
    obtain ⟨t, ht, et⟩ := A.sub J.one he (b1.trans (by linarith))
    refine ⟨t, ht, ?_⟩
    have := (err_cosine hu0 huε hε hη hsum hxy h1 h2 h3 hz et).2
    simpa only [lin] using this
  constructor
  · obtain ⟨z, hz, ez, -⟩ := val_sum3 A (s := 2) hu (by linarith) (by linarith) a1 a2 a3 g1 g2 g3 (by linarith)
    exact fin hz ez
  · obtain ⟨z, hz, ez, -⟩ := val_sum3 A (s := 2) hu (by linarith) (by linarith) g1 g2 g3 a1 a2 a3
      (by rw [mul_comm d.x, mul_comm d.y, mul_comm d.z]; linarith)
    refine fin hz ?_
    rw [mul_comm b.x, mul_comm b.y, mul_comm b.z]; exact ez

end Verif.Geo.Rounded
