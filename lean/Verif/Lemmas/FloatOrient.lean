import Verif.Lemmas.FloatDetect
import Verif.Props.Orient

/-!
# Lemmas: place and orientation with floating point numbers
-/

namespace Verif.Akaze

open FloatOps FloatCast
open Verif.Bicubic (Flt)

variable {F D : Type} [FloatOps F] [FloatOps D] [FloatCast F D] {I : Ieee F} {J : Ieee D}

/-! ## The loop over the windows -/

omit [FloatOps D] [FloatCast F D] in
theorem two_pi_between (I : Ieee F) : I.Between (2 * pi : F) 6 8 := by
  have hpi : I.Between (pi : F) 3 4 := by
    unfold Ieee.Between
    rw [I.pi]
    exact rnd_between (by exact_mod_cast exact_nat (I := I) (n := 3) (by norm_num))
      (by exact_mod_cast exact_nat (I := I) (n := 4) (by norm_num)) Real.pi_gt_three.le (by linarith [Real.pi_lt_d2])
  refine (between_val val_two).mul hpi (by exact_mod_cast exact_nat (I := I) (n := 6) (by norm_num))
    (by exact_mod_cast exact_nat (I := I) (n := 8) (by norm_num)) ?_
  intro x y x1 x2 y1 y2
  have : x = 2 := le_antisymm x2 x1
  subst this
  constructor <;> linarith

omit [FloatOps D] [FloatCast F D] in
theorem fwindowLoop_total (I : Ieee F) (samples : List (F × F)) : ∀ (fuel k : Nat) (ang1 : F) (b : F × F), fuel + k = 64 →
    I.Between ang1 (k / 8) 9 → ∃ a, fwindowLoop samples fuel ang1 b = some a
  | fuel, k, ang1, b, hk, ha => by
    obtain ⟨t, et, t1, t2⟩ := two_pi_between I
    obtain ⟨x, ex, x1, x2⟩ := ha
    unfold fwindowLoop
    by_cases hlt : FloatOps.lt ang1 (2 * pi) = true
    · rw [if_pos hlt]
      have hxt : x < t := by
        rw [I.lt, ex, et] at hlt; exact hlt
      cases fuel with
      | zero =>
        have : k = 64 := by omega
        subst this
        norm_num at x1
        linarith
      | succ fuel =>
        simp only []
        refine fwindowLoop_total I samples fuel (k + 1) _ _ (by omega) ?_
        have hlit : I.Between (lit (15 / 100) : F) (1 / 8) 1 := by
          unfold Ieee.Between
          rw [I.lit]
          refine rnd_between (exact_dyadic 1 3 (by norm_num) (by norm_num) (by norm_num)) exact_one ?_ ?_ <;> norm_num
        refine (show I.Between ang1 x x from ⟨x, ex, le_rfl, le_rfl⟩).add hlit
          (exact_dyadic (k + 1) 3 (by rw [abs_le]; constructor <;> omega) (by norm_num) (by push_cast; norm_num))
          (by exact_mod_cast exact_nat (I := I) (n := 9) (by norm_num)) ?_ ?_
        · push_cast; linarith
        · linarith
    · rw [if_neg hlt]
      exact ⟨_, rfl⟩

/-! ## Places of samples -/

omit [FloatOps D] [FloatCast F D] in
/-- A sample of the surroundings is in the image. -/
theorem sample_lt {xf s : F} {x n m W : Nat} {i : ℤ} (hxf : I.Between xf (x - 1) (x + 2)) (hs : I.val s = .num m)
    (hm : m ≤ n + 1) (hn : 1 ≤ n) (hi : i.natAbs ≤ 5) (hl : 14 * n + 1 ≤ x) (hr : x + 14 * n + 1 < W) (hW : W ≤ 2 ^ 22) :
    toNat (FloatOps.round (xf + ofInt i * s)) < W := by
  have hb1 : -(5 * (n + 1) : ℤ) ≤ i * m := by
    have h1 : -5 ≤ i := by omega
    nlinarith
  have hb2 : i * m ≤ 5 * (n + 1) := by
    have h1 : i ≤ 5 := by omega
    nlinarith
  have hp : I.val (ofInt i * s) = .num ((i * m : ℤ) : ℝ) := by
    have he : I.Exact ((i * m : ℤ) : ℝ) := exact_int (by rw [abs_le]; constructor <;> omega)
    refine Ieee.Between.eq ((between_val (val_ofInt (n := i) (by rw [abs_le]; constructor <;> omega))).mul
      (between_val hs) he he ?_)
    intro a b a1 a2 b1 b2
    rw [le_antisymm a2 a1, le_antisymm b2 b1]
    push_cast
    exact ⟨le_rfl, le_rfl⟩
  have hsum : I.Between (xf + ofInt i * s) ((x - 1 + i * m : ℤ) : ℝ) ((x + 2 + i * m : ℤ) : ℝ) := by
    refine hxf.add (between_val hp) (exact_int (by rw [abs_le]; constructor <;> omega))
      (exact_int (by rw [abs_le]; constructor <;> omega)) ?_ ?_ <;> push_cast <;> linarith
  obtain ⟨z, ez, z1, z2⟩ := hsum.round
  rw [roundAway_int] at z1 z2
  rw [toNat_of_val ez (by omega)]
  omega

omit [FloatOps D] [FloatCast F D] in
theorem fgweight_total {i j : ℤ} (hi : i.natAbs ≤ 5) (hj : j.natAbs ≤ 5) : ∃ g : F, fgweight i j = some g := by
  unfold fgweight fgauss25
  generalize i.natAbs = a at *
  generalize j.natAbs = b at *
  interval_cases b <;> interval_cases a <;> exact ⟨_, rfl⟩

/-- A keypoint whose samples are in the images of its level, inside the picture. -/
structure FPlaced (I : Ieee F) (levels : List (FDetLevel F D)) (w h : Nat) (k : FKeyPoint F) : Prop where
  level : ∃ l ∈ levels, levels[k.classId]? = some l ∧ k.octave = l.octave
  px : I.Between k.x 0 w
  py : I.Between k.y 0 h

omit [FloatCast F D] in
theorem fmainOrientation_total {levels : List (FDetLevel F D)} {df : D} {w h : Nat} (hw : w ≤ 2 ^ 22) (hh : h ≤ 2 ^ 22)
    {l : FDetLevel F D} (hl : DetOk J df w h l) {k : FKeyPoint F} {x y n : Nat} (he : levels[k.classId]? = some l)
    (hx : I.Between k.x ((x - 1) * 2 ^ l.octave + (2 ^ l.octave - 1) / 2) ((x + 1) * 2 ^ l.octave + (2 ^ l.octave - 1) / 2))
    (hy : I.Between k.y ((y - 1) * 2 ^ l.octave + (2 ^ l.octave - 1) / 2) ((y + 1) * 2 ^ l.octave + (2 ^ l.octave - 1) / 2))
    (hs : I.Between k.size 0 ((2 * n + 1) * 2 ^ l.octave)) (hn : 1 ≤ n) (hsmall : (2 * n + 1) * 2 ^ l.octave ≤ 2 ^ 22)
    (left : 14 * n + 1 ≤ x) (right : x + 14 * n + 1 < w / 2 ^ l.octave) (up : 14 * n + 1 ≤ y)
    (down : y + 14 * n + 1 < h / 2 ^ l.octave) : ∃ a, fmainOrientation levels k = some { k with angle := a } := by
  have ho := octave_small hl.large hw
  have hr := val_power (I := I) ho
  have hp1 : (1 : ℝ) ≤ 2 ^ l.octave := one_le_pow₀ (by norm_num)
  have hp0 : (0 : ℝ) < 2 ^ l.octave := by positivity
  have hW : w / 2 ^ l.octave ≤ w := Nat.div_le_self _ _
  have hH : h / 2 ^ l.octave ≤ h := Nat.div_le_self _ _
  -- the step between samples
  have hhalf : I.Between (lit (1 / 2) * k.size) 0 (((2 * n + 1) * 2 ^ l.octave : Nat) / 2 : ℝ) := by
    refine (between_val val_half).mul hs exact_zero (exact_dyadic (((2 * n + 1) * 2 ^ l.octave : Nat) : ℤ) 1 ?_ (by norm_num) (by push_cast; ring)) ?_
    · rw [abs_le]; constructor <;> omega
    · intro a b a1 a2 b1 b2
      rw [le_antisymm a2 a1]
      push_cast
      constructor <;> linarith
  have hq : I.Between (lit (1 / 2) * k.size / ((2 ^ l.octave : Nat) : F)) 0 (((2 * n + 1 : ℤ) : ℝ) / 2) := by
    refine hhalf.div hr hp0 exact_zero (exact_dyadic (2 * n + 1) 1 ?_ (by norm_num) (by push_cast; ring)) (by simp) ?_
    · rw [abs_le]; constructor <;> omega
    · push_cast; linarith
  obtain ⟨m, em, m1, m2⟩ := hq.round
  have m1' : 0 ≤ m := by
    have := roundAway_int 0
    push_cast at this; omega
  have m2' : m ≤ n + 1 := by
    have : roundAway (((2 * n + 1 : ℤ) : ℝ) / 2) = n + 1 := by
      unfold roundAway
      rw [if_pos (by positivity), Int.floor_eq_iff]
      push_cast
      constructor <;> linarith
    omega
  obtain ⟨m, rfl⟩ := Int.eq_ofNat_of_zero_le m1'
  have em' : I.val (FloatOps.round (lit (1 / 2) * k.size / ((2 ^ l.octave : Nat) : F))) = .num (m : ℝ) := by simpa using em
  -- the place in the level
  have place : ∀ {c : F} {x W : Nat}, I.Between c ((x - 1) * 2 ^ l.octave + (2 ^ l.octave - 1) / 2)
      ((x + 1) * 2 ^ l.octave + (2 ^ l.octave - 1) / 2) → 14 * n + 1 ≤ x → x + 14 * n + 1 < W → W ≤ 2 ^ 22 →
      I.Between (c / ((2 ^ l.octave : Nat) : F)) (x - 1) (x + 2) := by
    intro c x W hc h1 h2 h3
    refine hc.div hr hp0 ?_ ?_ ?_ ?_
    · have := exact_int (I := I) (n := (x : ℤ) - 1) (by rw [abs_le]; constructor <;> omega)
      push_cast at this; exact this
    · have := exact_int (I := I) (n := (x : ℤ) + 2) (by rw [abs_le]; constructor <;> omega)
      push_cast at this; exact this
    · linarith
    · nlinarith
  have hsamples : ∀ p ∈ offsets, ∃ r, fgradientSample l (k.x / ((2 ^ l.octave : Nat) : F)) (k.y / ((2 ^ l.octave : Nat) : F))
      (FloatOps.round (lit (1 / 2) * k.size / ((2 ^ l.octave : Nat) : F))) p = some r := by
    intro p hp
    obtain ⟨p1, p2⟩ := offsets_small p hp
    have ix := sample_lt (I := I) (place hx left right (by omega)) em' (n := n) (by omega) hn p1 left right (by omega)
    have iy := sample_lt (I := I) (place hy up down (by omega)) em' (n := n) (by omega) hn p2 up down (by omega)
    obtain ⟨g, hg⟩ := fgweight_total (F := F) p1 p2
    obtain ⟨a, ha⟩ := hl.lx.get ix iy
    obtain ⟨b, hb⟩ := hl.ly.get ix iy
    unfold fgradientSample
    exact ⟨_, by simp only [hg, ha, hb, Option.bind_eq_bind, Option.bind_some]; rfl⟩
  obtain ⟨samples, es⟩ := mapM_ok hsamples
  obtain ⟨a, ea⟩ := fwindowLoop_total I samples 64 0 0 (0, k.angle) rfl ⟨0, I.zero, by simp, by norm_num⟩
  refine ⟨a, ?_⟩
  unfold fmainOrientation
  simp only [he, es, ea, Option.bind_eq_bind, Option.bind_some]; rfl

omit [FloatOps D] [FloatCast F D] in
theorem between_of_abs {d : F} (h : FloatOps.le (FloatOps.abs d) 1 = true) : I.Between d (-1) 1 := by
  rw [I.le, I.one] at h
  rcases e : I.val d with _ | s | x
  · rw [I.abs_nan d e] at h; simp [Flt.Le, Flt.Ge] at h
  · rw [I.abs_inf d s e] at h; simp [Flt.Le, Flt.Ge] at h
  · rw [I.abs_num d x e] at h
    have : |x| ≤ 1 := h
    rw [abs_le] at this
    exact ⟨x, e, this.1, this.2⟩

omit [FloatOps D] [FloatCast F D] in
/-- The coordinate of a refined keypoint. -/
theorem refined_between {power d : F} {x o w : Nat} (ho : o ≤ 16) (hp : I.val power = .num (2 ^ o)) (hd : I.Between d (-1) 1)
    (hx : 1 ≤ x) (hw : (x + 2) * 2 ^ o ≤ w) (hw' : w ≤ 2 ^ 22) :
    I.Between (((x : F) + d) * power + lit (1 / 2) * (power - 1)) ((x - 1) * 2 ^ o + (2 ^ o - 1) / 2)
      ((x + 1) * 2 ^ o + (2 ^ o - 1) / 2) := by
  have hpos : 1 ≤ 2 ^ o := Nat.one_le_two_pow
  obtain ⟨y, rfl⟩ : ∃ y, x = y + 1 := ⟨x - 1, by omega⟩
  have hx22 : y + 3 ≤ 2 ^ 22 := by nlinarith
  have hexp : (y + 1 + 2) * 2 ^ o = y * 2 ^ o + 3 * 2 ^ o := by ring
  have hexp2 : (y + 2) * 2 ^ o = y * 2 ^ o + 2 * 2 ^ o := by ring
  have hr0 : (0 : ℝ) ≤ 2 ^ o := by positivity
  have h1 : I.Between (((y + 1 : Nat) : F) + d) (y : ℝ) ((y + 2 : Nat) : ℝ) := by
    refine (between_val (val_nat (by omega))).add hd (exact_nat (by omega)) (exact_nat (by omega)) ?_ ?_ <;>
      push_cast <;> linarith
  have b1 : y * 2 ^ o ≤ 2 ^ 22 := by generalize 2 ^ o = c at *; omega
  have b2 : (y + 2) * 2 ^ o ≤ 2 ^ 22 := by generalize 2 ^ o = c at *; omega
  have b3 : 2 ^ o ≤ 2 ^ 22 := by generalize 2 ^ o = c at *; omega
  have h2 : I.Between ((((y + 1 : Nat) : F) + d) * power) ((y * 2 ^ o : Nat) : ℝ) (((y + 2) * 2 ^ o : Nat) : ℝ) := by
    refine h1.mul (between_val hp) (exact_nat (by omega)) (exact_nat (by omega)) ?_
    intro a b a1 a2 c1 c2
    rw [le_antisymm c2 c1]
    push_cast at a2 ⊢
    constructor
    · exact mul_le_mul_of_nonneg_right a1 hr0
    · exact mul_le_mul_of_nonneg_right a2 hr0
  refine h2.add (between_val (val_half_power ho hp)) ?_ ?_ ?_ ?_
  · refine exact_dyadic (2 * (y * 2 ^ o : Nat) + ((2 ^ o : Nat) - 1)) 1 ?_ (by norm_num) (by push_cast; ring)
    rw [abs_le]
    generalize y * 2 ^ o = a at *
    generalize 2 ^ o = c at *
    constructor <;> omega
  · refine exact_dyadic (2 * ((y + 2) * 2 ^ o : Nat) + ((2 ^ o : Nat) - 1)) 1 ?_ (by norm_num) (by push_cast; ring)
    rw [abs_le]
    generalize (y + 2) * 2 ^ o = a at *
    generalize 2 ^ o = c at *
    constructor <;> omega
  · push_cast; linarith
  · push_cast; linarith

omit [FloatOps D] [FloatCast F D] in
/-- The pixel of a stored keypoint is found again. -/
theorem pixel_again {c ratio : F} {x o w : Nat} (hr : I.val ratio = .num (2 ^ o)) (ho : o ≤ 16)
    (hc : I.val c = .num (x * 2 ^ o + (2 ^ o - 1) / 2)) (hw : (x + 1) * 2 ^ o ≤ w) (hw' : w ≤ 2 ^ 22) :
    toNat (FloatOps.round (c / ratio)) = x := by
  have hpos : 1 ≤ 2 ^ o := Nat.one_le_two_pow
  have hp0 : (0 : ℝ) < 2 ^ o := by positivity
  have hp1 : (1 : ℝ) ≤ 2 ^ o := one_le_pow₀ (by norm_num)
  have hexp : (x + 1) * 2 ^ o = x * 2 ^ o + 2 ^ o := by ring
  have hx22 : x ≤ 2 ^ 22 := by nlinarith
  have hq : (x * 2 ^ o + (2 ^ o - 1) / 2 : ℝ) / 2 ^ o = ((2 * (x * 2 ^ o : Nat) + ((2 ^ o : Nat) - 1) : ℤ) : ℝ) / 2 ^ (o + 1) := by
    push_cast
    rw [pow_succ]
    field_simp
  have hv : I.val (c / ratio) = .num ((x * 2 ^ o + (2 ^ o - 1) / 2 : ℝ) / 2 ^ o) := by
    rw [I.div _ _ _ _ hc hr hp0.ne', hq]
    refine I.rnd_dyadic _ _ ?_ (by omega)
    rw [abs_le]
    generalize x * 2 ^ o = a at *
    generalize 2 ^ o = c at *
    constructor <;> omega
  have hround := I.round_num _ _ hv
  have : roundAway ((x * 2 ^ o + (2 ^ o - 1) / 2 : ℝ) / 2 ^ o) = x := by
    have hx0 : (0 : ℝ) ≤ x := by positivity
    unfold roundAway
    rw [if_pos (by apply div_nonneg <;> nlinarith), Int.floor_eq_iff]
    have e : (x * 2 ^ o + (2 ^ o - 1) / 2 : ℝ) / 2 ^ o = x + 1 / 2 - 1 / (2 * 2 ^ o) := by
      field_simp
      ring
    have h1 : (0 : ℝ) < 1 / (2 * 2 ^ o) := by positivity
    have h2 : (1 : ℝ) / (2 * 2 ^ o) ≤ 1 / 2 := by
      rw [div_le_div_iff₀ (by positivity) (by norm_num)]; linarith
    rw [e]
    push_cast
    constructor <;> linarith
  rw [this] at hround
  rw [toNat_of_val hround (by omega)]
  omega

omit [FloatCast F D] in
theorem frefineKeypoint_total {levels : List (FDetLevel F D)} {df : D} {w h : Nat} (hw : w ≤ 2 ^ 22) (hh : h ≤ 2 ^ 22)
    {l : FDetLevel F D} (hm : l ∈ levels) (hl : DetOk J df w h l) {k : FKeyPoint F} {x y n : Nat}
    (hk : FStored I levels w h k l x y n) : ∃ r, frefineKeypoint levels k = some r ∧
      ∀ k', r = some k' → FPlaced I levels w h k' := by
  have ho := octave_small hl.large hw
  have hr := val_ratio (I := I) ho
  have hr' := hr
  rw [← hk.octave] at hr'
  have p1 := hk.pos
  have hx1 := hk.left
  have hx2 := hk.right
  have hy1 := hk.up
  have hy2 := hk.down
  have wx : (x + 2) * 2 ^ l.octave ≤ w := le_of_mul_div (by omega)
  have wy : (y + 2) * 2 ^ l.octave ≤ h := le_of_mul_div (by omega)
  have wx1 : (x + 1) * 2 ^ l.octave ≤ w := le_of_mul_div (by omega)
  have wy1 : (y + 1) * 2 ^ l.octave ≤ h := le_of_mul_div (by omega)
  have ex := pixel_again (I := I) hr ho hk.px wx1 hw
  have ey := pixel_again (I := I) hr ho hk.py wy1 hh
  obtain ⟨xi, e0⟩ := hl.ldet.get (x := x) (y := y) (by omega) (by omega)
  obtain ⟨xp, e1⟩ := hl.ldet.get (x := x + 1) (y := y) (by omega) (by omega)
  obtain ⟨xm, e2⟩ := hl.ldet.get (x := x - 1) (y := y) (by omega) (by omega)
  obtain ⟨yp, e3⟩ := hl.ldet.get (x := x) (y := y + 1) (by omega) (by omega)
  obtain ⟨ym, e4⟩ := hl.ldet.get (x := x) (y := y - 1) (by omega) (by omega)
  obtain ⟨xpyp, e5⟩ := hl.ldet.get (x := x + 1) (y := y + 1) (by omega) (by omega)
  obtain ⟨xpym, e6⟩ := hl.ldet.get (x := x + 1) (y := y - 1) (by omega) (by omega)
  obtain ⟨xmyp, e7⟩ := hl.ldet.get (x := x - 1) (y := y + 1) (by omega) (by omega)
  obtain ⟨xmym, e8⟩ := hl.ldet.get (x := x - 1) (y := y - 1) (by omega) (by omega)
  unfold frefineKeypoint
  simp only [hk.octave, ex, ey, hk.level, e0, e1, e2, e3, e4, e5, e6, e7, e8, Option.bind_eq_bind, Option.bind_some]
  rw [if_neg (by omega)]
  generalize fnewtonStep xi xp xm yp ym xpyp xpym xmyp xmym = dst
  by_cases hd : (FloatOps.le (FloatOps.abs dst.1) 1 && FloatOps.le (FloatOps.abs dst.2) 1) = true
  · rw [if_pos hd]
    rw [Bool.and_eq_true] at hd
    have d1 := between_of_abs (I := I) hd.1
    have d2 := between_of_abs (I := I) hd.2
    have hzero : FloatOps.eq k.angle 0 = true := by
      unfold FloatOps.eq
      rw [hk.angle, Bool.and_eq_true, I.le, I.zero]
      exact ⟨le_rfl, le_rfl⟩
    rw [if_pos hzero]
    have rx := refined_between (I := I) ho hr d1 (x := x) (w := w) (by omega) wx hw
    have ry := refined_between (I := I) ho hr d2 (x := y) (w := h) (by omega) wy hh
    have rs : I.Between (k.size * 2) 0 ((2 * n + 1) * 2 ^ l.octave) := by
      refine hk.size.mul (between_val val_two) exact_zero ?_ ?_
      · have := exact_nat (I := I) (n := (2 * n + 1) * 2 ^ l.octave) (by have := hk.small; omega)
        push_cast at this; exact this
      · intro a b a1 a2 b1 b2
        rw [le_antisymm b2 b1]
        constructor <;> linarith
    obtain ⟨a, ea⟩ := fmainOrientation_total (I := I) (levels := levels) hw hh hl (k := { k with
          x := ((x : F) + dst.1) * pow 2 (l.octave : F) + lit (1 / 2) * (pow 2 (l.octave : F) - 1)
          y := ((y : F) + dst.2) * pow 2 (l.octave : F) + lit (1 / 2) * (pow 2 (l.octave : F) - 1)
          size := k.size * 2, octave := l.octave }) hk.level rx ry rs p1 hk.small hx1 hx2 hy1 hy2
    have hrec : ∀ {k' : FKeyPoint F}, k' = { k with
          x := ((x : F) + dst.1) * pow 2 (l.octave : F) + lit (1 / 2) * (pow 2 (l.octave : F) - 1)
          y := ((y : F) + dst.2) * pow 2 (l.octave : F) + lit (1 / 2) * (pow 2 (l.octave : F) - 1)
          size := k.size * 2, octave := l.octave, angle := a } → FPlaced I levels w h k' := by
      rintro k' rfl
      have hp1 : (1 : ℝ) ≤ 2 ^ l.octave := one_le_pow₀ (by norm_num)
      refine ⟨⟨l, hm, hk.level, rfl⟩, rx.weaken ?_ ?_, ry.weaken ?_ ?_⟩
      · have : (1 : ℝ) ≤ x := by exact_mod_cast (show 1 ≤ x by omega)
        nlinarith
      · have : ((x : ℝ) + 2) * 2 ^ l.octave ≤ w := by exact_mod_cast wx
        linarith
      · have : (1 : ℝ) ≤ y := by exact_mod_cast (show 1 ≤ y by omega)
        nlinarith
      · have : ((y : ℝ) + 2) * 2 ^ l.octave ≤ h := by exact_mod_cast wy
        linarith
    rw [ea]
    refine ⟨_, rfl, ?_⟩
    intro k' hk'
    exact hrec (Option.some.inj hk').symm
  · rw [if_neg hd]
    exact ⟨none, rfl, by intro k' h; cases h⟩

theorem fdetectKeypoints_total (C : IeeeCast I J) {threshold df : D} {levels : List (FDetLevel F D)} {w h : Nat}
    (hw : w ≤ 2 ^ 22) (hh : h ≤ 2 ^ 22) (hl : ∀ l ∈ levels, DetOk J df w h l) :
    ∃ ks, fdetectKeypoints threshold df levels = some ks ∧ ∀ k ∈ ks, FPlaced I levels w h k := by
  obtain ⟨ks, ek, hk⟩ := ffindExtrema_spec (I := I) C (threshold := threshold) hw hh hl
  have hall : ∀ k ∈ ks, ∃ r, frefineKeypoint levels k = some r ∧ ∀ k', r = some k' → FPlaced I levels w h k' := by
    intro k hm
    obtain ⟨l, hlm, x, y, n, hs⟩ := hk k hm
    exact frefineKeypoint_total hw hh hlm (hl l hlm) hs
  obtain ⟨r, hr⟩ := mapM_ok (fun k hm => (hall k hm).imp (fun _ h => h.1))
  refine ⟨r.filterMap id, ?_, ?_⟩
  · unfold fdetectKeypoints
    simp only [ek, hr, Option.bind_eq_bind, Option.bind_some]; rfl
  · intro k hkm
    rw [List.mem_filterMap] at hkm
    obtain ⟨q, hq, rfl⟩ := hkm
    obtain ⟨k0, h0, e0⟩ := memMapM hr hq
    obtain ⟨r', er', h⟩ := hall k0 h0
    rw [e0] at er'
    obtain rfl := Option.some.inj er'
    exact h k rfl

end Verif.Akaze
