import Verif.Lemmas.Orient
import Verif.Props.DetectExample
import Verif.Props.Response
import Mathlib.Tactic.FieldSimp

/-!
# The exact place and the orientation of keypoints (C74, C75)
-/

namespace Verif.Akaze

open Real

variable {threshold df : ℝ} {levels : List DetLevel}

/-- All images of a level have the same size, and the scale of its edge filter is at least one. -/
def Complete (df : ℝ) (levels : List DetLevel) : Prop := ∀ l ∈ levels, l.ldet.WF ∧ 0 < l.ldet.w ∧ 2 ≤ l.ldet.h ∧
  (l.lx.WF ∧ l.lx.w = l.ldet.w ∧ l.lx.h = l.ldet.h) ∧ (l.ly.WF ∧ l.ly.w = l.ldet.w ∧ l.ly.h = l.ldet.h) ∧
  (l.lt.WF ∧ l.lt.w = l.ldet.w ∧ l.lt.h = l.ldet.h) ∧ 1 ≤ ⌊l.esigma * df / 2 ^ l.octave + 1 / 2⌋

theorem Complete.usable (h : Complete df levels) : Usable levels := fun l hl => ⟨(h l hl).1, (h l hl).2.1, (h l hl).2.2.1⟩

theorem Complete.sizesOk (h : Complete df levels) : SizesOk df levels := by
  intro l hl
  have h1 := (h l hl).2.2.2.2.2.2
  have h2 : (1 : ℝ) ≤ (⌊l.esigma * df / 2 ^ l.octave + 1 / 2⌋ : ℤ) := by exact_mod_cast h1
  have h3 := Int.floor_le (l.esigma * df / 2 ^ l.octave + 1 / 2)
  have h4 : 0 ≤ l.esigma * df / 2 ^ l.octave := by linarith
  by_contra hc
  have := div_neg_of_neg_of_pos (not_le.1 hc) (by positivity : (0 : ℝ) < 2 ^ l.octave)
  linarith

theorem roundAway_center (x o : Nat) : roundAway (((x : ℝ) * 2 ^ o + (2 ^ o - 1) / 2) / 2 ^ o) = x := by
  have hr : (0 : ℝ) < 2 ^ o := by positivity
  have h1 : (1 : ℝ) ≤ 2 ^ o := one_le_pow₀ (by norm_num)
  have e : ((x : ℝ) * 2 ^ o + (2 ^ o - 1) / 2) / 2 ^ o = x + (1 / 2 - 1 / (2 * 2 ^ o)) := by field_simp
  have h2 : (0 : ℝ) < 1 / (2 * 2 ^ o) := by positivity
  have h3 : (1 : ℝ) / (2 * 2 ^ o) ≤ 1 / 2 := by
    apply one_div_le_one_div_of_le <;> linarith
  rw [e, roundAway_nonneg (by have : (0 : ℝ) ≤ x := Nat.cast_nonneg x; linarith), Int.floor_eq_iff]
  push_cast
  constructor <;> linarith

theorem newtonStep_some {xi xp xm yp ym a b c d u v : ℝ} (h : newtonStep xi xp xm yp ym a b c d = some (u, v)) :
    |u| ≤ 1 ∧ |v| ≤ 1 ∧
    ((xp - xm) / 2 + (xp + xm - 2 * xi) * u + (a + d - b - c) / 4 * v = 0 ∧
      (yp - ym) / 2 + (a + d - b - c) / 4 * u + (yp + ym - 2 * xi) * v = 0) ∧
    ∀ u' v', (xp - xm) / 2 + (xp + xm - 2 * xi) * u' + (a + d - b - c) / 4 * v' = 0 →
      (yp - ym) / 2 + (a + d - b - c) / 4 * u' + (yp + ym - 2 * xi) * v' = 0 → u' = u ∧ v' = v := by
  unfold newtonStep at h
  simp only at h
  split at h
  · cases h
  · rename_i hdet
    split at h
    · rename_i hb
      obtain ⟨rfl, rfl⟩ := Prod.mk.inj (Option.some.inj h)
      set D := (xp + xm - 2 * xi) * (yp + ym - 2 * xi) -
        (1 / 4 * (a + d) - 1 / 4 * (b + c)) * (1 / 4 * (a + d) - 1 / 4 * (b + c)) with hD
      have hDD : D * (1 / D) = 1 := by field_simp
      refine ⟨hb.1, hb.2, ⟨?_, ?_⟩, ?_⟩
      · linear_combination (-(xp - xm) / 2) * hDD + (xp - xm) / 2 * (1 / D) * hD
      · linear_combination (-(yp - ym) / 2) * hDD + (yp - ym) / 2 * (1 / D) * hD
      · intro u' v' h1 h2
        constructor
        · linear_combination (-u') * hDD + u' * (1 / D) * hD + (1 / D) * (yp + ym - 2 * xi) * h1 -
            (1 / D) * ((a + d - b - c) / 4) * h2
        · linear_combination (-v') * hDD + v' * (1 / D) * hD + (1 / D) * (xp + xm - 2 * xi) * h2 -
            (1 / D) * ((a + d - b - c) / 4) * h1
    · cases h

theorem newtonStep_none {xi xp xm yp ym a b c d : ℝ} (h : newtonStep xi xp xm yp ym a b c d = none) {u v : ℝ}
    (h1 : (xp - xm) / 2 + (xp + xm - 2 * xi) * u + (a + d - b - c) / 4 * v = 0)
    (h2 : (yp - ym) / 2 + (a + d - b - c) / 4 * u + (yp + ym - 2 * xi) * v = 0) :
    (xp + xm - 2 * xi) * (yp + ym - 2 * xi) = ((a + d - b - c) / 4) ^ 2 ∨ 1 < |u| ∨ 1 < |v| := by
  unfold newtonStep at h
  simp only at h
  split at h
  · rename_i hdet
    exact Or.inl (by linear_combination hdet)
  · rename_i hdet
    split at h
    · cases h
    · rename_i hb
      set D := (xp + xm - 2 * xi) * (yp + ym - 2 * xi) -
        (1 / 4 * (a + d) - 1 / 4 * (b + c)) * (1 / 4 * (a + d) - 1 / 4 * (b + c)) with hD
      have hDD : D * (1 / D) = 1 := by field_simp
      have e1 : -(1 / 2 * (xp - xm)) * (1 / D * (yp + ym - 2 * xi)) +
          -(1 / 2 * (yp - ym)) * (1 / D * -(1 / 4 * (a + d) - 1 / 4 * (b + c))) = u := by
        linear_combination u * hDD - u * (1 / D) * hD - (1 / D) * (yp + ym - 2 * xi) * h1 +
            (1 / D) * ((a + d - b - c) / 4) * h2
      have e2 : -(1 / 2 * (xp - xm)) * (1 / D * -(1 / 4 * (a + d) - 1 / 4 * (b + c))) +
          -(1 / 2 * (yp - ym)) * (1 / D * (xp + xm - 2 * xi)) = v := by
        linear_combination v * hDD - v * (1 / D) * hD - (1 / D) * (xp + xm - 2 * xi) * h2 +
            (1 / D) * ((a + d - b - c) / 4) * h1
      rw [e1, e2] at hb
      by_contra hc
      push Not at hc
      exact hb hc.2

theorem offsets_small : ∀ p ∈ offsets, p.1.natAbs ≤ 5 ∧ p.2.natAbs ≤ 5 := by decide

theorem gweight_eq {i j : ℤ} (hi : i.natAbs ≤ 5) (hj : j.natAbs ≤ 5) : gweight i j = some (weightAt i j) := by
  unfold gweight weightAt
  generalize i.natAbs = a at *
  generalize j.natAbs = b at *
  interval_cases a <;> interval_cases b <;> rfl

theorem abs_le_five {i : ℤ} (hi : i.natAbs ≤ 5) : (-5 : ℝ) ≤ i ∧ (i : ℝ) ≤ 5 := by
  have h1 : -5 ≤ i := by omega
  have h2 : i ≤ 5 := by omega
  exact ⟨by exact_mod_cast h1, by exact_mod_cast h2⟩

/-- A pixel near the middle of the neighbourhood of a keypoint. -/
theorem near_pixel {w x : Nat} {s : ℤ} {u t i : ℝ} (hs : 1 ≤ s) (h1 : (1 / 2 : ℝ) ≤ x - 10 * √2 * s)
    (h2 : (x : ℝ) + 10 * √2 * s < w - 3 / 2) (hu : |u| ≤ 1) (ht : 0 ≤ t) (ht' : t ≤ 1 / 2) (hi : -5 ≤ i) (hi' : i ≤ 5) :
    roundAway (x + u + t + i * s) = ⌊x + u + t + i * s + 1 / 2⌋ ∧
      (⌊(x : ℝ) + u + t + i * s + 1 / 2⌋).toNat < w := by
  have hs' : (1 : ℝ) ≤ s := by exact_mod_cast hs
  have hq : (1.4 : ℝ) ≤ √2 := by exact Real.le_sqrt_of_sq_le (by norm_num)
  rw [abs_le] at hu
  have g1 : 14 * (s : ℝ) ≤ 10 * √2 * s := by
    refine mul_le_mul_of_nonneg_right ?_ (by linarith); linarith
  have g2 : -(5 * (s : ℝ)) ≤ i * s := by nlinarith
  have g3 : i * (s : ℝ) ≤ 5 * s := by nlinarith
  have hpos : (0 : ℝ) ≤ x + u + t + i * s := by linarith
  refine ⟨roundAway_nonneg hpos, ?_⟩
  have : ⌊(x : ℝ) + u + t + i * s + 1 / 2⌋ < (w : ℤ) := by
    rw [Int.floor_lt]; push_cast; linarith
  have h0 : 0 ≤ ⌊(x : ℝ) + u + t + i * s + 1 / 2⌋ := Int.floor_nonneg.2 (by linarith)
  omega

/-- The keypoint `k'` is the keypoint `k`, found at `x`, `y`, moved by `u`, `v` pixels of its level. -/
def Moved (k k' : KeyPoint) (l : DetLevel) (x y : Nat) (u v : ℝ) : Prop :=
  k'.x = (x + u) * 2 ^ l.octave + (2 ^ l.octave - 1) / 2 ∧ k'.y = (y + v) * 2 ^ l.octave + (2 ^ l.octave - 1) / 2 ∧
  k'.size = 2 * k.size ∧ k'.response = k.response ∧ k'.octave = k.octave ∧ k'.classId = k.classId

theorem orientation_some {k k' : KeyPoint} {l : DetLevel} {x y : Nat} {u v : ℝ} (hc : Complete df levels)
    (hk : FoundAt threshold df levels k l x y) (hm : Moved k k' l x y u v) (hu : |u| ≤ 1) (hv : |v| ≤ 1)
    (ha : k'.angle = 0) {fx fy : Nat → Nat → ℝ} (hfx : l.lx.Shows l.ldet.w l.ldet.h fx)
    (hfy : l.ly.Shows l.ldet.w l.ldet.h fy) :
    mainOrientation levels k' = some { k' with angle := (bestAngle (samplesAt fx fy (k'.x / 2 ^ l.octave)
      (k'.y / 2 ^ l.octave) ⌊k.size / 2 ^ l.octave + 1 / 2⌋) 0).2 } := by
  have hmem := List.mem_of_getElem? hk.level
  have hsig := (hc l hmem).2.2.2.2.2.2
  obtain ⟨m1, m2, m3, m4, m5, m6⟩ := hm
  have hr : (0 : ℝ) < 2 ^ l.octave := by positivity
  have hr1 : (1 : ℝ) ≤ 2 ^ l.octave := one_le_pow₀ (by norm_num)
  have hsz : 0 ≤ k.size / 2 ^ l.octave := by
    rw [hk.size]; exact div_nonneg (hc.sizesOk l hmem) hr.le
  rw [← hk.size] at hsig
  have ht0 : (0 : ℝ) ≤ 1 / 2 - 1 / (2 * 2 ^ l.octave) := by
    have : (1 : ℝ) / (2 * 2 ^ l.octave) ≤ 1 / 2 := by apply one_div_le_one_div_of_le <;> linarith
    linarith
  have ht1 : (1 / 2 - 1 / (2 * 2 ^ l.octave) : ℝ) ≤ 1 / 2 := by
    have : (0 : ℝ) < 1 / (2 * 2 ^ l.octave) := by positivity
    linarith
  have ex : k'.x / 2 ^ l.octave = x + u + (1 / 2 - 1 / (2 * 2 ^ l.octave)) := by rw [m1]; field_simp
  have ey : k'.y / 2 ^ l.octave = y + v + (1 / 2 - 1 / (2 * 2 ^ l.octave)) := by rw [m2]; field_simp
  have es : roundAway (1 / 2 * k'.size / 2 ^ l.octave) = ⌊k.size / 2 ^ l.octave + 1 / 2⌋ := by
    rw [m3, show 1 / 2 * (2 * k.size) / 2 ^ l.octave = k.size / 2 ^ l.octave by ring, roundAway_nonneg hsz]
  unfold mainOrientation
  rw [m6, hk.level]
  simp only [Option.bind_eq_bind, Option.bind_some, es]
  obtain ⟨i1, i2, i3, i4⟩ := hk.inside
  have hsm : offsets.mapM (gradientSample l (k'.x / 2 ^ l.octave) (k'.y / 2 ^ l.octave)
      ((⌊k.size / 2 ^ l.octave + 1 / 2⌋ : ℤ) : ℝ)) = some (samplesAt fx fy (k'.x / 2 ^ l.octave)
      (k'.y / 2 ^ l.octave) ⌊k.size / 2 ^ l.octave + 1 / 2⌋) := by
    unfold samplesAt
    refine mapM_some ?_
    intro p hp
    obtain ⟨hp1, hp2⟩ := offsets_small p hp
    obtain ⟨n1, n2⟩ := near_pixel (t := 1 / 2 - 1 / (2 * 2 ^ l.octave)) hsig i1 i2 hu ht0 ht1
      (abs_le_five hp1).1 (abs_le_five hp1).2
    obtain ⟨n3, n4⟩ := near_pixel (t := 1 / 2 - 1 / (2 * 2 ^ l.octave)) hsig i3 i4 hv ht0 ht1
      (abs_le_five hp2).1 (abs_le_five hp2).2
    rw [← ex] at n1 n2
    rw [← ey] at n3 n4
    unfold gradientSample
    simp only [n1, n3, gweight_eq hp1 hp2, hfx.2.2.2 _ _ n2 n4, hfy.2.2.2 _ _ n2 n4, Option.bind_eq_bind,
      Option.bind_some, Option.pure_def]
  rw [hsm, ha]
  rfl

/-- The refined keypoint. -/
noncomputable def refined (k : KeyPoint) (l : DetLevel) (x y : Nat) (u v : ℝ) : KeyPoint :=
  { k with
    x := (x + u) * 2 ^ l.octave + 1 / 2 * (2 ^ l.octave - 1)
    y := (y + v) * 2 ^ l.octave + 1 / 2 * (2 ^ l.octave - 1)
    size := k.size * 2 }

theorem refined_moved {k : KeyPoint} {l : DetLevel} {x y : Nat} {u v : ℝ} : Moved k (refined k l x y u v) l x y u v := by
  refine ⟨?_, ?_, ?_, rfl, rfl, rfl⟩ <;> simp only [refined] <;> ring

theorem refine_eq {k : KeyPoint} {l : DetLevel} {x y : Nat} (hc : Complete df levels)
    (hk : FoundAt threshold df levels k l x y) {f fx fy : Nat → Nat → ℝ} (hf : l.ldet.Shows l.ldet.w l.ldet.h f)
    (hfx : l.lx.Shows l.ldet.w l.ldet.h fx) (hfy : l.ly.Shows l.ldet.w l.ldet.h fy) :
    (newtonStep (f x y) (f (x + 1) y) (f (x - 1) y) (f x (y + 1)) (f x (y - 1)) (f (x + 1) (y + 1)) (f (x + 1) (y - 1))
        (f (x - 1) (y + 1)) (f (x - 1) (y - 1)) = none ∧ refineKeypoint levels k = some none) ∨
    ∃ u v, newtonStep (f x y) (f (x + 1) y) (f (x - 1) y) (f x (y + 1)) (f x (y - 1)) (f (x + 1) (y + 1))
        (f (x + 1) (y - 1)) (f (x - 1) (y + 1)) (f (x - 1) (y - 1)) = some (u, v) ∧
      refineKeypoint levels k = some (some { refined k l x y u v with
        angle := (bestAngle (samplesAt fx fy ((refined k l x y u v).x / 2 ^ l.octave)
          ((refined k l x y u v).y / 2 ^ l.octave) ⌊k.size / 2 ^ l.octave + 1 / 2⌋) 0).2 }) := by
  have hmem := List.mem_of_getElem? hk.level
  obtain ⟨h1, h2, h3, -⟩ := hc l hmem
  obtain ⟨_, _, ⟨p1, p2, p3, p4, _⟩, _, _⟩ := hk.peak
  have hx : (roundAway (k.x / 2 ^ k.octave)).toNat = x := by
    rw [hk.atX, hk.octave, roundAway_center]; rfl
  have hy : (roundAway (k.y / 2 ^ k.octave)).toNat = y := by
    rw [hk.atY, hk.octave, roundAway_center]; rfl
  unfold refineKeypoint
  simp only [hx, hy, hk.level, Option.bind_eq_bind, Option.bind_some]
  rw [if_neg (by omega), hf.2.2.2 x y (by omega) (by omega), hf.2.2.2 (x + 1) y (by omega) (by omega),
    hf.2.2.2 (x - 1) y (by omega) (by omega), hf.2.2.2 x (y + 1) (by omega) (by omega),
    hf.2.2.2 x (y - 1) (by omega) (by omega), hf.2.2.2 (x + 1) (y + 1) (by omega) (by omega),
    hf.2.2.2 (x + 1) (y - 1) (by omega) (by omega), hf.2.2.2 (x - 1) (y + 1) (by omega) (by omega),
    hf.2.2.2 (x - 1) (y - 1) (by omega) (by omega)]
  simp only [Option.bind_some]
  split
  · rename_i hn
    exact Or.inl ⟨hn, rfl⟩
  · rename_i u v hn
    obtain ⟨n1, n2, -⟩ := newtonStep_some hn
    rw [if_neg (by simp [hk.angle])]
    refine Or.inr ⟨u, v, hn, ?_⟩
    have := orientation_some hc hk refined_moved n1 n2 (show (refined k l x y u v).angle = 0 from hk.angle) hfx hfy
    unfold refined at this
    rw [this]
    rfl

theorem Complete.shows (hc : Complete df levels) {l : DetLevel} (hl : l ∈ levels) :
    l.ldet.Shows l.ldet.w l.ldet.h l.ldet.pix ∧ l.lx.Shows l.ldet.w l.ldet.h l.lx.pix ∧
      l.ly.Shows l.ldet.w l.ldet.h l.ly.pix ∧ l.lt.Shows l.ldet.w l.ldet.h l.lt.pix := by
  obtain ⟨h1, _, _, ⟨g1, g2, g3⟩, ⟨g4, g5, g6⟩, ⟨g7, g8, g9⟩, _⟩ := hc l hl
  refine ⟨h1.shows_pix, ?_, ?_, ?_⟩
  · have := g1.shows_pix; rwa [g2, g3] at this
  · have := g4.shows_pix; rwa [g5, g6] at this
  · have := g7.shows_pix; rwa [g8, g9] at this

/-- **C74** Refinement looks at the pixel where the keypoint was found. It keeps the keypoint exactly if the quadratic
polynomial through the response around it has one stationary point and that is at most one pixel of the level away in
each direction; then it moves the keypoint there. It never panics. -/
theorem C74_refine {k : KeyPoint} {l : DetLevel} {x y : Nat} (hc : Complete df levels)
    (hk : FoundAt threshold df levels k l x y) {f : Nat → Nat → ℝ} (hf : l.ldet.Shows l.ldet.w l.ldet.h f) :
    ∃ r, refineKeypoint levels k = some r ∧
      (∀ k', r = some k' → ∃ u v, |u| ≤ 1 ∧ |v| ≤ 1 ∧ Stationary f x y u v ∧
        (∀ u' v', Stationary f x y u' v' → u' = u ∧ v' = v) ∧ Moved k k' l x y u v) ∧
      (r = none → ∀ u v, Stationary f x y u v → (∀ u' v', Stationary f x y u' v' → u' = u ∧ v' = v) →
        1 < |u| ∨ 1 < |v|) := by
  obtain ⟨_, hfx, hfy, _⟩ := hc.shows (List.mem_of_getElem? hk.level)
  rcases refine_eq hc hk hf hfx hfy with ⟨hn, hr⟩ | ⟨u, v, hn, hr⟩
  · refine ⟨none, hr, by simp, fun _ u v hs hu => ?_⟩
    rcases newtonStep_none hn hs.1 hs.2 with hd | h
    · exfalso
      have k1 := hu (u + (f (x + 1) (y + 1) + f (x - 1) (y - 1) - f (x + 1) (y - 1) - f (x - 1) (y + 1)) / 4)
        (v - (f (x + 1) y + f (x - 1) y - 2 * f x y)) ⟨by linear_combination hs.1, by linear_combination hs.2 - hd⟩
      have k3 := hu (u + 1) v ⟨by linear_combination hs.1 - k1.2, by linear_combination hs.2 + k1.1⟩
      linarith [k3.1]
    · exact h
  · obtain ⟨n1, n2, n3, n4⟩ := newtonStep_some hn
    refine ⟨_, hr, ?_, by simp⟩
    intro k' hk'
    obtain rfl := Option.some.inj hk'
    exact ⟨u, v, n1, n2, n3, fun u' v' h => n4 u' v' h.1 h.2, refined_moved⟩

/-- **C74** Where the response is a quadratic polynomial around the pixel, a keypoint that is kept is moved to the place
where that is stationary. -/
theorem C74_quadratic {k : KeyPoint} {l : DetLevel} {x y : Nat} (hc : Complete df levels)
    (hk : FoundAt threshold df levels k l x y) {f : Nat → Nat → ℝ} (hf : l.ldet.Shows l.ldet.w l.ldet.h f)
    {a b c d e q : ℝ} (hq : ∀ x' y', x ≤ x' + 1 → x' ≤ x + 1 → y ≤ y' + 1 → y' ≤ y + 1 →
      f x' y' = quadratic a b c d e q x' y') {k' : KeyPoint} (hr : refineKeypoint levels k = some (some k')) :
    ∃ u v, Moved k k' l x y u v ∧ a * (x + u) + b * (y + v) + d = 0 ∧ b * (x + u) + c * (y + v) + e = 0 := by
  obtain ⟨r, h1, h2, _⟩ := C74_refine hc hk hf
  rw [hr] at h1
  obtain rfl := Option.some.inj h1
  obtain ⟨u, v, _, _, h3, _, h5⟩ := h2 k' rfl
  obtain ⟨_, _, ⟨p1, _, p3, _, _⟩, _, _⟩ := hk.peak
  refine ⟨u, v, h5, ?_, ?_⟩
  · have := h3.1
    rw [hq (x + 1) y (by omega) (by omega) (by omega) (by omega), hq (x - 1) y (by omega) (by omega) (by omega) (by omega),
      hq x y (by omega) (by omega) (by omega) (by omega), hq (x + 1) (y + 1) (by omega) (by omega) (by omega) (by omega),
      hq (x + 1) (y - 1) (by omega) (by omega) (by omega) (by omega),
      hq (x - 1) (y + 1) (by omega) (by omega) (by omega) (by omega),
      hq (x - 1) (y - 1) (by omega) (by omega) (by omega) (by omega)] at this
    unfold quadratic at this
    push_cast [Nat.cast_sub p1, Nat.cast_sub p3] at this
    linear_combination this
  · have := h3.2
    rw [hq x (y + 1) (by omega) (by omega) (by omega) (by omega), hq x (y - 1) (by omega) (by omega) (by omega) (by omega),
      hq x y (by omega) (by omega) (by omega) (by omega), hq (x + 1) (y + 1) (by omega) (by omega) (by omega) (by omega),
      hq (x + 1) (y - 1) (by omega) (by omega) (by omega) (by omega),
      hq (x - 1) (y + 1) (by omega) (by omega) (by omega) (by omega),
      hq (x - 1) (y - 1) (by omega) (by omega) (by omega) (by omega)] at this
    unfold quadratic at this
    push_cast [Nat.cast_sub p1, Nat.cast_sub p3] at this
    linear_combination this

/-- **C75** The orientation of a keypoint is between zero and two pi. It is computed from gradients at the pixels nearest
to the positions of the samples, all of which are in the image. If none of these gradients points exactly to the right,
it is the direction of the longest sum over a window. -/
theorem C75_orientation_partial {k k' : KeyPoint} {l : DetLevel} {x y : Nat} (hc : Complete df levels)
    (hk : FoundAt threshold df levels k l x y) {fx fy : Nat → Nat → ℝ} (hfx : l.lx.Shows l.ldet.w l.ldet.h fx)
    (hfy : l.ly.Shows l.ldet.w l.ldet.h fy) (hr : refineKeypoint levels k = some (some k')) :
    0 ≤ k'.angle ∧ k'.angle < 2 * π ∧
      ((∀ v ∈ samplesAt fx fy (k'.x / 2 ^ l.octave) (k'.y / 2 ^ l.octave) ⌊k.size / 2 ^ l.octave + 1 / 2⌋,
          ¬ (0 < v.1 ∧ v.2 = 0)) →
        IsDominant (samplesAt fx fy (k'.x / 2 ^ l.octave) (k'.y / 2 ^ l.octave) ⌊k.size / 2 ^ l.octave + 1 / 2⌋)
          k'.angle) := by
  have hang : k'.angle = (bestAngle (samplesAt fx fy (k'.x / 2 ^ l.octave) (k'.y / 2 ^ l.octave)
      ⌊k.size / 2 ^ l.octave + 1 / 2⌋) 0).2 := by
    obtain ⟨hf, _⟩ := hc.shows (List.mem_of_getElem? hk.level)
    rcases refine_eq hc hk hf hfx hfy with ⟨_, h⟩ | ⟨u, v, _, h⟩
    · rw [hr] at h; cases h
    · rw [hr] at h
      obtain rfl := Option.some.inj (Option.some.inj h)
      rfl
  rw [hang]
  exact ⟨(bestAngle_range _).1, (bestAngle_range _).2, fun h => bestAngle_dominant h⟩

/-- **C74** Finding and refining keypoints never panics, and every keypoint returned is one found by
`find_scale_space_extrema`, moved by at most one pixel of its level. -/
theorem C74_detect (hc : Complete df levels) : ∃ out, detectKeypoints threshold df levels = some out ∧
    ∀ k' ∈ out, ∃ k l x y u v, FoundAt threshold df levels k l x y ∧ Moved k k' l x y u v ∧ |u| ≤ 1 ∧ |v| ≤ 1 ∧
      Stationary l.ldet.pix x y u v ∧ 0 ≤ k'.angle ∧ k'.angle < 2 * π := by
  obtain ⟨ks, hks⟩ := C29_total (threshold := threshold) (df := df) hc.usable
  obtain ⟨hfound, _⟩ := C29_sound hc.usable hc.sizesOk hks
  have hall : ∀ k ∈ ks, ∃ r, refineKeypoint levels k = some r := by
    intro k hk
    obtain ⟨⟨l, x, y, h⟩, _⟩ := hfound k hk
    obtain ⟨r, h1, _⟩ := C74_refine hc h (hc.shows (List.mem_of_getElem? h.level)).1
    exact ⟨r, h1⟩
  have hm : ks.mapM (refineKeypoint levels) = some (ks.map (fun k => (refineKeypoint levels k).getD none)) :=
    mapM_some (fun k hk => by obtain ⟨r, hr⟩ := hall k hk; rw [hr]; rfl)
  refine ⟨(ks.map (fun k => (refineKeypoint levels k).getD none)).filterMap id, ?_, ?_⟩
  · unfold detectKeypoints subpixelRefinement
    rw [hks]
    simp only [Option.bind_eq_bind, Option.bind_some, hm, Option.map_some]
  · intro k' hk'
    obtain ⟨r, hr, hrk⟩ := List.mem_filterMap.1 hk'
    obtain ⟨k, hk, rfl⟩ := List.mem_map.1 hr
    obtain ⟨⟨l, x, y, h⟩, _⟩ := hfound k hk
    obtain ⟨s1, s2, s3, _⟩ := hc.shows (List.mem_of_getElem? h.level)
    obtain ⟨r, h1, h2, _⟩ := C74_refine hc h s1
    simp only [h1, Option.getD_some, id] at hrk
    subst hrk
    obtain ⟨u, v, h3, h4, h5, _, h6⟩ := h2 k' rfl
    have h7 := C75_orientation_partial hc h s2 s3 h1
    exact ⟨k, l, x, y, u, v, h, h6, h3, h4, h5, h7.1, h7.2.1⟩

end Verif.Akaze
