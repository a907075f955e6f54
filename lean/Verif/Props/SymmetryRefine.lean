import Verif.Props.Symmetry
import Verif.Props.OrientExample
import Mathlib.Tactic.IntervalCases

/-!
# C98: refined keypoints of transposed and mirrored pictures
-/

namespace Verif.Akaze

variable {c : Config} {threshold df : ℝ} {image : Img ℝ}

theorem newtonStep_swap (xi xp xm yp ym a b c d : ℝ) :
    newtonStep xi yp ym xp xm a c b d = (newtonStep xi xp xm yp ym a b c d).map Prod.swap := by
  unfold newtonStep
  have e : 1 / 4 * (a + d) - 1 / 4 * (c + b) = 1 / 4 * (a + d) - 1 / 4 * (b + c) := by ring
  simp only [e]
  generalize 1 / 4 * (a + d) - 1 / 4 * (b + c) = q
  rw [show (yp + ym - 2 * xi) * (xp + xm - 2 * xi) - q * q = (xp + xm - 2 * xi) * (yp + ym - 2 * xi) - q * q by ring]
  generalize (xp + xm - 2 * xi) * (yp + ym - 2 * xi) - q * q = det
  by_cases hd : det = 0
  · simp [hd]
  · simp only [if_neg hd]
    rw [add_comm (-(1 / 2 * (yp - ym)) * _), add_comm (-(1 / 2 * (yp - ym)) * _)]
    split <;> split <;> first | rfl | (exfalso; tauto)

theorem newtonStep_flip (xi xp xm yp ym a b c d : ℝ) :
    newtonStep xi xm xp yp ym c d a b = (newtonStep xi xp xm yp ym a b c d).map (fun s => (-s.1, s.2)) := by
  unfold newtonStep
  have e : 1 / 4 * (c + b) - 1 / 4 * (d + a) = -(1 / 4 * (a + d) - 1 / 4 * (b + c)) := by ring
  have e2 : 1 / 2 * (xm - xp) = -(1 / 2 * (xp - xm)) := by ring
  simp only [e, e2, add_comm xm xp]
  generalize 1 / 4 * (a + d) - 1 / 4 * (b + c) = q
  rw [show -q * -q = q * q by ring]
  generalize (xp + xm - 2 * xi) * (yp + ym - 2 * xi) - q * q = det
  generalize 1 / 2 * (xp - xm) = u
  generalize 1 / 2 * (yp - ym) = v
  generalize xp + xm - 2 * xi = m
  generalize yp + ym - 2 * xi = n
  by_cases hd : det = 0
  · simp [hd]
  · simp only [if_neg hd]
    rw [show - -u * (1 / det * n) + -v * (1 / det * - -q) = -(-u * (1 / det * n) + -v * (1 / det * -q)) by ring,
      show - -u * (1 / det * - -q) + -v * (1 / det * m) = -u * (1 / det * -q) + -v * (1 / det * m) by ring, abs_neg]
    split <;> rfl

/-- The keypoint with another orientation. -/
def KeyPoint.turned (k : KeyPoint) (angle : ℝ) : KeyPoint := { k with angle := angle }

/-- Levels of pictures are complete. -/
theorem pairs_complete {levels levels' : List DetLevel} (hp : List.Forall₂ (LevelPair df) levels levels')
    (h : ∀ l ∈ levels, 2 ≤ l.ldet.h) : Complete df levels := by
  intro l hl
  obtain ⟨n, hn, rfl⟩ := List.mem_iff_getElem.mp hl
  obtain ⟨l', _, p⟩ := forall₂_some hp (List.getElem?_eq_getElem hn)
  obtain ⟨w, hgt, _, _, _, _, hw, hh, s1, s2, s3, s4⟩ := p.left
  refine ⟨s4.2.2.1, by rw [s4.1]; exact hw, h _ hl, ⟨s2.2.2.1, by rw [s2.1, s4.1], by rw [s2.2.1, s4.2.1]⟩,
    ⟨s3.2.2.1, by rw [s3.1, s4.1], by rw [s3.2.1, s4.2.1]⟩, ⟨s1.2.2.1, by rw [s1.1, s4.1], by rw [s1.2.1, s4.2.1]⟩, ?_⟩
  have := edgeScale_eq p.scale
  have := p.scale
  omega

/-- The response around a place of a keypoint is that of the other picture. -/
theorem pair_response {levels : List DetLevel} {l l' : DetLevel} (p : LevelPair df l l') {k : KeyPoint}
    {x y : Nat} (hk : FoundAt threshold df levels k l x y) {f f' : Nat → Nat → ℝ}
    (hf : l.ldet.Shows l.ldet.w l.ldet.h f) (hf' : l'.ldet.Shows l'.ldet.w l'.ldet.h f') {x' y' : Nat}
    (h1 : x ≤ x' + 1) (h2 : x' ≤ x + 1) (h3 : y ≤ y' + 1) (h4 : y' ≤ y + 1) : f' y' x' = f x' y' := by
  have hs := p.scale
  have he := edgeScale_eq hs
  obtain ⟨_, _, hpk, _⟩ := hk.peak
  obtain ⟨i1, i2, i3, i4⟩ := hk.inside
  rw [hk.size, ← he, Int.cast_natCast] at i1 i2 i3 i4
  set n := edgeScale df l.octave l.esigma with hn
  have m1 : 2 * n + 1 ≤ x := found_margin hs i1 le_rfl
  have m3 : 2 * n + 1 ≤ y := found_margin hs i3 le_rfl
  obtain ⟨p1, p2, p3, p4, p5⟩ := hpk
  have m2 : x + (2 * n + 1) < l.ldet.w := by
    have : 2 * n + 1 ≤ l.ldet.w - 1 - x := by
      refine found_margin (b := l.ldet.w - 1 - x) hs (by linarith) ?_
      rw [Nat.cast_sub (by omega), Nat.cast_sub (by omega)]
      norm_num
    omega
  have m4 : y + (2 * n + 1) < l.ldet.h := by
    have : 2 * n + 1 ≤ l.ldet.h - 1 - y := by
      refine found_margin (b := l.ldet.h - 1 - y) hs (by linarith) ?_
      rw [Nat.cast_sub (by omega), Nat.cast_sub (by omega)]
      norm_num
    omega
  have hw := p.width
  have hh := p.height
  have := p.ldet x' y' (by omega) (by omega) (by omega) (by omega)
  rw [hf'.2.2.2 y' x' (by omega) (by omega), hf.2.2.2 x' y' (by omega) (by omega)] at this
  exact Option.some.inj this

/-- **C98** A keypoint is dropped by refinement in both lists of levels, or moved to exchanged coordinates. -/
theorem C98_levels_refined {levels levels' : List DetLevel} (hp : List.Forall₂ (LevelPair df) levels levels')
    (hsz : ∀ l ∈ levels, 2 ≤ l.ldet.w ∧ 2 ≤ l.ldet.h) {k : KeyPoint} {l : DetLevel} {x y : Nat}
    (hk : FoundAt threshold df levels k l x y) :
    (refineKeypoint levels k = some none ∧ refineKeypoint levels' k.swap = some none) ∨
    ∃ r r', refineKeypoint levels k = some (some r) ∧ refineKeypoint levels' k.swap = some (some r') ∧
      r' = r.swap.turned r'.angle := by
  have hp2 : List.Forall₂ (LevelPair df) levels' levels := hp.flip.imp (fun _ _ h => h.symm)
  have c1 := pairs_complete hp (fun l hl => (hsz l hl).2)
  have c2 : Complete df levels' := pairs_complete hp2 (by
    intro l hl
    obtain ⟨n, hn, rfl⟩ := List.mem_iff_getElem.mp hl
    obtain ⟨l', e, p⟩ := forall₂_some hp2 (List.getElem?_eq_getElem hn)
    have := (hsz l' (List.mem_of_getElem? e)).1
    have := p.width
    omega)
  obtain ⟨m, hk'⟩ := found_transpose hp hk
  obtain ⟨l', hl', p⟩ := forall₂_some hp hk.level
  obtain rfl : l' = m := Option.some.inj (hl'.symm.trans hk'.level)
  obtain ⟨s1, s2, s3, -⟩ := c1.shows (List.mem_of_getElem? hk.level)
  obtain ⟨t1, t2, t3, -⟩ := c2.shows (List.mem_of_getElem? hk'.level)
  obtain ⟨_, _, ⟨p1, _, p3, _⟩, _⟩ := hk.peak
  have ag : ∀ x' y', x ≤ x' + 1 → x' ≤ x + 1 → y ≤ y' + 1 → y' ≤ y + 1 → l'.ldet.pix y' x' = l.ldet.pix x' y' :=
    fun x' y' => pair_response p hk s1 t1
  have r1 := refine_eq c1 hk s1 s2 s3
  have r2 := refine_eq c2 hk' t1 t2 t3
  rw [ag x y (by omega) (by omega) (by omega) (by omega), ag x (y + 1) (by omega) (by omega) (by omega) (by omega),
    ag x (y - 1) (by omega) (by omega) (by omega) (by omega), ag (x + 1) y (by omega) (by omega) (by omega) (by omega),
    ag (x - 1) y (by omega) (by omega) (by omega) (by omega),
    ag (x + 1) (y + 1) (by omega) (by omega) (by omega) (by omega),
    ag (x + 1) (y - 1) (by omega) (by omega) (by omega) (by omega),
    ag (x - 1) (y + 1) (by omega) (by omega) (by omega) (by omega),
    ag (x - 1) (y - 1) (by omega) (by omega) (by omega) (by omega), newtonStep_swap] at r2
  rcases r1 with ⟨n1, e1⟩ | ⟨u, v, n1, e1⟩
  · rw [n1] at r2
    rcases r2 with ⟨-, e2⟩ | ⟨u, v, n2, e2⟩
    · exact Or.inl ⟨e1, e2⟩
    · cases n2
  · rw [n1] at r2
    rcases r2 with ⟨n2, e2⟩ | ⟨u', v', n2, e2⟩
    · cases n2
    · cases n2
      refine Or.inr ⟨_, _, e1, e2, ?_⟩
      simp only [KeyPoint.turned, KeyPoint.swap, refined, p.octave]

/-- **C98** A keypoint of the picture is dropped by refinement exactly if the same place of the transposed picture is; if
not, the two refined keypoints have exchanged coordinates, and the same size and response. -/
theorem C98_transposed_refined (hn : 0 < c.numSublevels) (hi : image.WF) (hw : 0 < image.w) (hh : 0 < image.h)
    {levels levels' : List DetLevel} (h : levelsOf c df image = some levels)
    (h' : levelsOf c df (transpose image) = some levels') {k : KeyPoint} {l : DetLevel} {x y : Nat}
    (hk : FoundAt threshold df levels k l x y) :
    (refineKeypoint levels k = some none ∧ refineKeypoint levels' k.swap = some none) ∨
    ∃ r r', refineKeypoint levels k = some (some r) ∧ refineKeypoint levels' k.swap = some (some r') ∧
      r' = r.swap.turned r'.angle := by
  have hs1 := levelsOf_sizes hn ⟨hi, hw, hh⟩ h
  obtain ⟨_, e, hp⟩ := levelsOf_transpose ⟨hi, hw, hh⟩ h
  rw [h'] at e
  cases e
  refine C98_levels_refined (hp.imp (fun _ _ h => h.1)) (fun l hl => ?_) hk
  have := (hs1 l hl).2.2.2.2
  omega

theorem weightAt_swap {p : ℤ × ℤ} (hp : p ∈ offsets) : weightAt p.2 p.1 = weightAt p.1 p.2 := by
  obtain ⟨h1, h2⟩ := offsets_small p hp
  unfold weightAt
  generalize p.1.natAbs = a at *
  generalize p.2.natAbs = b at *
  have ha : a < 7 := by omega
  have hb : b < 7 := by omega
  interval_cases a <;> interval_cases b <;> rfl

/-- **C98** The gradients that the orientation is computed from (C75) are those of the other picture with exchanged
parts. -/
theorem C98_transposed_gradients {m w hgt : Nat} {l l' : DetLevel} (t : TransposedLevels m l l') {fx fy : Nat → Nat → ℝ}
    (hfx : l.lx.Shows w hgt fx) (hfy : l.ly.Shows w hgt fy) :
    l'.lx.Shows hgt w (fun x y => fy y x) ∧ l'.ly.Shows hgt w (fun x y => fx y x) ∧
      ∀ xf yf s, (samplesAt (fun x y => fy y x) (fun x y => fx y x) yf xf s).Perm
        ((samplesAt fx fy xf yf s).map Prod.swap) := by
  refine ⟨by rw [t.lx]; exact transpose_shows hfy, by rw [t.ly]; exact transpose_shows hfx, fun xf yf s => ?_⟩
  have ho : (offsets.map Prod.swap).Perm offsets := by decide +kernel
  unfold samplesAt
  refine (ho.symm.map _).trans ?_
  rw [List.map_map, List.map_map]
  refine List.Perm.of_eq (List.map_congr_left (fun p hp => ?_))
  simp only [Function.comp, Prod.swap, weightAt_swap hp]

theorem mapM_image {α β : Type _} {f : α → Option β} : ∀ {l : List α} {r : List β} {a : α}, l.mapM f = some r → a ∈ l →
    ∃ b ∈ r, f a = some b
  | [], _, _, _, ha => by cases ha
  | x :: l, r, a, h, ha => by
    rw [List.mapM_cons] at h
    simp only [Option.bind_eq_bind, Option.bind_eq_some_iff] at h
    obtain ⟨b, hb, r, hr, h⟩ := h
    cases h
    rcases List.mem_cons.mp ha with rfl | ha
    · exact ⟨b, List.mem_cons_self, hb⟩
    · obtain ⟨b, hb, e⟩ := mapM_image hr ha
      exact ⟨b, List.mem_cons_of_mem _ hb, e⟩

theorem detect_mem {levels : List DetLevel} {ks out : List KeyPoint} (hks : findExtrema threshold df levels = some ks)
    (ho : detectKeypoints threshold df levels = some out) {k r : KeyPoint} (hk : k ∈ ks)
    (hr : refineKeypoint levels k = some (some r)) : r ∈ out := by
  unfold detectKeypoints subpixelRefinement at ho
  rw [hks] at ho
  simp only [Option.bind_eq_bind, Option.bind_some, Option.map_eq_some_iff] at ho
  obtain ⟨rs, hrs, rfl⟩ := ho
  obtain ⟨b, hb, e⟩ := mapM_image hrs hk
  rw [hr] at e
  cases e
  exact List.mem_filterMap.mpr ⟨_, hb, rfl⟩


theorem detect_extrema {levels : List DetLevel} {out : List KeyPoint} (ho : detectKeypoints threshold df levels = some out) :
    ∃ ks, findExtrema threshold df levels = some ks := by
  unfold detectKeypoints at ho
  rw [Option.bind_eq_bind, Option.bind_eq_some_iff] at ho
  obtain ⟨ks, h, -⟩ := ho
  exact ⟨ks, h⟩

/-- **C98** A keypoint that is stronger than all places near it, and not dropped by refinement, is detected in the
picture and in the transposed picture, with exchanged coordinates. -/
theorem C98_transposed_detected (hn : 0 < c.numSublevels) (hi : image.WF) (hw : 0 < image.w) (hh : 0 < image.h)
    {levels levels' : List DetLevel} (h : levelsOf c df image = some levels)
    (h' : levelsOf c df (transpose image) = some levels') {out out' : List KeyPoint}
    (ho : detectKeypoints threshold df levels = some out) (ho' : detectKeypoints threshold df levels' = some out')
    {k r : KeyPoint} {l : DetLevel} {x y : Nat} (hk : FoundAt threshold df levels k l x y)
    (hmax : ∀ p l' x' y', FoundAt threshold df levels p l' x' y' → p ≠ k → Near k p → p.response < k.response)
    (hr : refineKeypoint levels k = some (some r)) : r ∈ out ∧ ∃ angle, r.swap.turned angle ∈ out' := by
  obtain ⟨ks, hks⟩ := detect_extrema ho
  obtain ⟨ks', hks'⟩ := detect_extrema ho'
  obtain ⟨m1, m2⟩ := C98_transposed_strongest hn hi hw hh h h' hks hks' hk hmax
  refine ⟨detect_mem hks ho m1 hr, ?_⟩
  rcases C98_transposed_refined hn hi hw hh h h' hk with ⟨e, -⟩ | ⟨_, r', e, e', hs⟩
  · rw [hr] at e; cases e
  · rw [hr] at e
    cases e
    exact ⟨r'.angle, hs ▸ detect_mem hks' ho' m2 e'⟩

/-! ## Mirrored pictures -/

/-- **C98** Refinement of a keypoint and of the mirrored keypoint, for all levels whose widths are those of a picture of
width `W`. -/
theorem C98_mirrored_levels_refined {levels : List DetLevel} (hc : Complete df levels) {W : Nat}
    (hW : ∀ l ∈ levels, W = l.ldet.w * 2 ^ l.octave) {k : KeyPoint} {l : DetLevel} {x y : Nat}
    (hk : FoundAt threshold df levels k l x y) :
    (refineKeypoint levels k = some none ∧ refineKeypoint (levels.map mirrorLevel) (k.flip W) = some none) ∨
    ∃ r r', refineKeypoint levels k = some (some r) ∧
      refineKeypoint (levels.map mirrorLevel) (k.flip W) = some (some r') ∧ r' = (r.flip W).turned r'.angle := by
  have c2 : Complete df (levels.map mirrorLevel) := by
    intro m hm
    obtain ⟨l, hl, rfl⟩ := List.mem_map.mp hm
    obtain ⟨s1, s2, s3, s4⟩ := hc.shows hl
    obtain ⟨g1, g2, g3, g4, g5, g6, g7⟩ := hc l hl
    have t1 := mirror_shows s1
    have t2 := mirror_shows s2
    have t3 := mirror_shows s3
    have t4 := mirror_shows s4
    refine ⟨t1.2.2.1, g2, g3, ⟨?_, g4.2.1, g4.2.2⟩, ⟨t3.2.2.1, g5.2.1, g5.2.2⟩, ⟨t4.2.2.1, g6.2.1, g6.2.2⟩, g7⟩
    have := t2.2.2.1
    simp only [mirrorLevel, negate, Img.WF, List.length_map] at this ⊢
    exact this
  have hk' := found_mirror hW hk
  have hmem := List.mem_of_getElem? hk.level
  obtain ⟨s1, s2, s3, -⟩ := hc.shows hmem
  obtain ⟨-, t2, t3, -⟩ := c2.shows (List.mem_of_getElem? hk'.level)
  obtain ⟨_, _, ⟨p1, p2, p3, p4, -⟩, _⟩ := hk.peak
  have r1 := refine_eq hc hk s1 s2 s3
  have r2 := refine_eq c2 hk' (mirror_shows s1) t2 t3
  have e0 : l.ldet.w - 1 - (l.ldet.w - 1 - x) = x := by omega
  have e1 : l.ldet.w - 1 - (l.ldet.w - 1 - x + 1) = x - 1 := by omega
  have e2 : l.ldet.w - 1 - (l.ldet.w - 1 - x - 1) = x + 1 := by omega
  have mw : (mirrorLevel l).ldet.w = l.ldet.w := rfl
  simp only [mw, e0, e1, e2] at r2
  rw [newtonStep_flip] at r2
  rcases r1 with ⟨n1, f1⟩ | ⟨u, v, n1, f1⟩
  · rw [n1] at r2
    rcases r2 with ⟨-, f2⟩ | ⟨u, v, n2, f2⟩
    · exact Or.inl ⟨f1, f2⟩
    · cases n2
  · rw [n1] at r2
    rcases r2 with ⟨n2, f2⟩ | ⟨u', v', n2, f2⟩
    · cases n2
    · cases n2
      refine Or.inr ⟨_, _, f1, f2, ?_⟩
      have hw := hW l hmem
      have : ((l.ldet.w - 1 - x : Nat) : ℝ) = l.ldet.w - 1 - x := by
        rw [Nat.cast_sub (by omega), Nat.cast_sub (by omega)]
        norm_num
      have hx : (((l.ldet.w - 1 - x : Nat) : ℝ) + -u) * 2 ^ l.octave + 1 / 2 * (2 ^ l.octave - 1) =
          (W : ℝ) - 1 - ((x + u) * 2 ^ l.octave + 1 / 2 * (2 ^ l.octave - 1)) := by
        rw [this, hw]
        push_cast
        ring
      simp only [KeyPoint.turned, KeyPoint.flip, refined, mirrorLevel, hx]

theorem levels_complete (hn : 0 < c.numSublevels) (hi : image.WF) (hw : 0 < image.w) (hh : 0 < image.h)
    {levels : List DetLevel} (h : levelsOf c df image = some levels) : Complete df levels := by
  have hs1 := levelsOf_sizes hn ⟨hi, hw, hh⟩ h
  obtain ⟨_, -, hp⟩ := levelsOf_transpose ⟨hi, hw, hh⟩ h
  refine pairs_complete (hp.imp (fun _ _ h => h.1)) (fun l hl => ?_)
  have := (hs1 l hl).2.2.2.2
  omega

theorem levels_width (hn : 0 < c.numSublevels) (hi : image.WF) (hw : 0 < image.w) (hh : 0 < image.h)
    (hd : 2 ^ (c.maxOctave - 1) ∣ image.w) {levels : List DetLevel} (h : levelsOf c df image = some levels) :
    ∀ l ∈ levels, image.w = l.ldet.w * 2 ^ l.octave := by
  intro l hl
  obtain ⟨-, ho, e, -⟩ := levelsOf_sizes hn ⟨hi, hw, hh⟩ h l hl
  rw [e, Nat.div_mul_cancel ((pow_dvd_pow 2 (by omega)).trans hd)]

/-- **C98** A keypoint of the picture is dropped by refinement exactly if the mirrored one is; if not, the refined
keypoints are mirror images of each other, with the same size and response. -/
theorem C98_mirrored_refined (hn : 0 < c.numSublevels) (hi : image.WF) (hw : 0 < image.w) (hh : 0 < image.h)
    (hd : 2 ^ (c.maxOctave - 1) ∣ image.w) {levels levels' : List DetLevel} (h : levelsOf c df image = some levels)
    (h' : levelsOf c df (mirror image) = some levels') {k : KeyPoint} {l : DetLevel} {x y : Nat}
    (hk : FoundAt threshold df levels k l x y) :
    (refineKeypoint levels k = some none ∧ refineKeypoint levels' (k.flip image.w) = some none) ∨
    ∃ r r', refineKeypoint levels k = some (some r) ∧ refineKeypoint levels' (k.flip image.w) = some (some r') ∧
      r' = (r.flip image.w).turned r'.angle := by
  rw [C98_mirrored_partial hn hi hw hh hd, h] at h'
  cases h'
  exact C98_mirrored_levels_refined (levels_complete hn hi hw hh h) (levels_width hn hi hw hh hd h) hk

theorem KeyPoint.flip_flip (W : Nat) (k : KeyPoint) : (k.flip W).flip W = k := by
  cases k
  simp [KeyPoint.flip]

/-- **C98** A keypoint that is stronger than all places near it in the picture and in the mirrored picture, and not
dropped by refinement, is detected in both, mirrored. -/
theorem C98_mirrored_detected (hn : 0 < c.numSublevels) (hi : image.WF) (hw : 0 < image.w) (hh : 0 < image.h)
    (hd : 2 ^ (c.maxOctave - 1) ∣ image.w) {levels levels' : List DetLevel} (h : levelsOf c df image = some levels)
    (h' : levelsOf c df (mirror image) = some levels') {out out' : List KeyPoint}
    (ho : detectKeypoints threshold df levels = some out) (ho' : detectKeypoints threshold df levels' = some out')
    {k r : KeyPoint} {l : DetLevel} {x y : Nat} (hk : FoundAt threshold df levels k l x y)
    (hmax : ∀ p l' x' y', FoundAt threshold df levels p l' x' y' → p ≠ k →
      Near k p ∨ Near (k.flip image.w) (p.flip image.w) → p.response < k.response)
    (hr : refineKeypoint levels k = some (some r)) :
    r ∈ out ∧ ∃ angle, (r.flip image.w).turned angle ∈ out' := by
  obtain ⟨ks, hks⟩ := detect_extrema ho
  obtain ⟨ks', hks'⟩ := detect_extrema ho'
  have c1 := levels_complete hn hi hw hh h
  have c2 : Complete df levels' := levels_complete hn (mirror_shows hi.shows_pix).2.2.1 hw hh h'
  have m1 : k ∈ ks := C30_strongest_partial c1.usable c1.sizesOk hks hk
    (fun p l' x' y' hf hne hnear => hmax p l' x' y' hf hne (Or.inl hnear))
  obtain ⟨l', x', hk'⟩ := (C98_mirrored_places hn hi hw hh hd h h' k y).mp ⟨l, x, hk⟩
  have m2 : k.flip image.w ∈ ks' := C30_strongest_partial c2.usable c2.sizesOk hks' hk' (fun p l2 x2 y2 hf hne hnear => by
    have hf' : FoundAt threshold df levels' ((p.flip image.w).flip image.w) l2 x2 y2 := by
      rw [KeyPoint.flip_flip]; exact hf
    obtain ⟨l3, x3, hf3⟩ := (C98_mirrored_places hn hi hw hh hd h h' (p.flip image.w) y2).mpr ⟨l2, x2, hf'⟩
    refine hmax (p.flip image.w) l3 x3 y2 hf3 (fun e => hne ?_) (Or.inr ?_)
    · rw [← e, KeyPoint.flip_flip]
    · rw [KeyPoint.flip_flip]; exact hnear)
  refine ⟨detect_mem hks ho m1 hr, ?_⟩
  rcases C98_mirrored_refined hn hi hw hh hd h h' hk with ⟨e, -⟩ | ⟨_, r', e, e', hs⟩
  · rw [hr] at e; cases e
  · rw [hr] at e
    cases e
    exact ⟨r'.angle, hs ▸ detect_mem hks' ho' m2 e'⟩

/-! ## Orientations -/

open Real

/-- Vectors to the right, and others that point down. -/
def RightDown (l : List (ℝ × ℝ)) : Prop := ∀ v ∈ l, v.2 = 0 ∧ 0 < v.1 ∨ v.1 = 0 ∧ 0 < v.2

theorem windowSum_rightDown {a : ℝ} (ha : 0 ≤ a) : ∀ {l : List (ℝ × ℝ)} (s : ℝ × ℝ),
    RightDown l → l.foldl (fun s r => if inWindow a (fastAtan2 r.2 r.1) then (s.1 + r.1, s.2 + r.2) else s) s =
      (s.1, s.2 + if inWindow a (π / 2) then (l.map Prod.snd).sum else 0)
  | [], s, _ => by simp
  | v :: l, s, h => by
    rw [List.foldl_cons, windowSum_rightDown ha _ (fun u hu => h u (List.mem_cons_of_mem _ hu))]
    rcases h v List.mem_cons_self with ⟨h1, h2⟩ | ⟨h1, h2⟩
    · rw [h1, fastAtan2_right h2, inWindow_zero ha]
      simp [h1]
    · rw [h1, fastAtan2_down h2]
      by_cases hw : inWindow a (π / 2) = true
      · simp [hw]; ring
      · simp [hw]

/-- The program gives the direction down, however few gradients have it. -/
theorem bestAngle_rightDown {l : List (ℝ × ℝ)} (hl : RightDown l) (hU : 0 < (l.map Prod.snd).sum) :
    (bestAngle l 0).2 = π / 2 := by
  have hb1 := pi_gt_d2
  have hb2 := pi_lt_d2
  have hw : ∀ a, 0 ≤ a → windowSum l a = (0, if inWindow a (π / 2) then (l.map Prod.snd).sum else 0) := by
    intro a ha
    unfold windowSum
    rw [windowSum_rightDown ha _ hl]
    simp
  have key := foldl_best (fun a => (windowSum l a).1 * (windowSum l a).1 + (windowSum l a).2 * (windowSum l a).2)
    (fun a => fastAtan2 (windowSum l a).2 (windowSum l a).1) windowStarts (0, 0) le_rfl
  change (0 : ℝ) ≤ (bestAngle l 0).1 ∧ (∀ a ∈ windowStarts, _ ≤ (bestAngle l 0).1) ∧ (bestAngle l 0 = _ ∨
    ∃ a ∈ windowStarts, bestAngle l 0 = _ ∧ _) at key
  obtain ⟨_, k2, k3⟩ := key
  rcases k3 with k3 | ⟨a, ha, k3, k4⟩
  · exfalso
    have hm : (0.75 : ℝ) ∈ windowStarts := mem_windowStarts.2 ⟨5, by norm_num, by norm_num; linarith⟩
    have := k2 _ hm
    rw [hw _ (by norm_num), k3, if_pos ((inWindow_iff (by norm_num) (by linarith) (by linarith) (by linarith)).2
      ⟨0, by push_cast; linarith, by push_cast; linarith⟩)] at this
    simp only at this
    nlinarith
  · obtain ⟨j, rfl, hj⟩ := mem_windowStarts.1 ha
    rw [hw _ (by positivity)] at k3 k4
    by_cases hin : inWindow (j * 0.15) (π / 2) = true
    · rw [if_pos hin] at k3
      rw [k3]
      exact fastAtan2_down hU
    · rw [if_neg hin] at k4
      simp at k4

namespace ExOrient

/-- The level of the transposed picture. -/
noncomputable def turnedOver : DetLevel :=
  ⟨0, 1.6, transpose level.lt, transpose level.ly, transpose level.lx, transpose level.ldet⟩

theorem transposed : TransposedLevels 0 level turnedOver := by
  refine ⟨rfl, rfl, rfl, rfl, rfl, rfl, rfl, fun x y _ hx _ hy => ?_⟩
  have s := ofFn_shows 80 80 f
  exact ((transpose_shows s).2.2.2 y x hy hx).trans (s.2.2.2 x y hx hy).symm

theorem pair : LevelPair 1.5 level turnedOver := by
  have s := ofFn_shows 80 80 f
  have sx := ofFn_shows 80 80 fx
  have sy := ofFn_shows 80 80 fy
  refine ⟨⟨80, 80, f, fx, fy, f, by norm_num, by norm_num, s, sx, sy, s⟩,
    ⟨80, 80, _, _, _, _, by norm_num, by norm_num, transpose_shows s, transpose_shows sy, transpose_shows sx,
      transpose_shows s⟩, rfl, rfl, ?_, rfl, rfl, fun x y _ h2 _ h4 => ?_⟩
  · have : roundAway (1.6 * 1.5 / 2 ^ 0 : ℝ) = 2 := by
      unfold roundAway
      rw [if_pos (by norm_num), Int.floor_eq_iff]
      norm_num
    simp only [edgeScale, level, this]
    decide
  · exact transposed.ldet x y (Nat.zero_le _) (lt_of_le_of_lt (Nat.le_add_right _ _) h2) (Nat.zero_le _)
      (lt_of_le_of_lt (Nat.le_add_right _ _) h4)

end ExOrient

open ExOrient in
/-- One peak in both pictures: refinement keeps it. -/
example : ∃ r r', refineKeypoint [level] k = some (some r) ∧ refineKeypoint [turnedOver] k.swap = some (some r') ∧
    r' = r.swap.turned r'.angle := by
  obtain ⟨k', h, -⟩ := result
  rcases C98_levels_refined (List.Forall₂.cons pair .nil) (fun l hl => by
    rw [List.mem_singleton] at hl; subst hl; exact (by norm_num : 2 ≤ 80 ∧ 2 ≤ 80)) found with ⟨e, -⟩ | h'
  · rw [h] at e; cases e
  · exact h'

open ExOrient in
/-- One peak in both pictures: the mirrored keypoint is refined to the mirrored place. -/
example : ∃ r r', refineKeypoint [level] k = some (some r) ∧ refineKeypoint [mirrorLevel level] (k.flip 80) = some (some r') ∧
    r' = (r.flip 80).turned r'.angle := by
  obtain ⟨k', h, -⟩ := result
  rcases C98_mirrored_levels_refined complete (W := 80) (fun l hl => by
    rw [List.mem_singleton] at hl; subst hl; rfl) found with ⟨e, -⟩ | h'
  · rw [h] at e; cases e
  · exact h'

open ExOrient in
/-- **C98, false for orientations.** The orientation of the transposed keypoint is not the transposed orientation:
gradients to the right are left out (C75), gradients down are not. -/
theorem C98_orientation_false : ¬ ∀ (levels levels' : List DetLevel), List.Forall₂ (TransposedLevels 0) levels levels' →
    Complete 1.5 levels → Complete 1.5 levels' → ∀ (k r r' : KeyPoint) (l : DetLevel) (x y : Nat),
    FoundAt 0.001 1.5 levels k l x y → refineKeypoint levels k = some (some r) →
    refineKeypoint levels' k.swap = some (some r') → ∃ n : ℤ, r'.angle = π / 2 - r.angle + n * (2 * π) := by
  intro h
  obtain ⟨r, h1, h2, h3, h4⟩ := result
  have pairs := List.Forall₂.cons pair .nil
  have c2 : Complete 1.5 [turnedOver] := pairs_complete (pairs.flip.imp (fun _ _ h => h.symm)) (fun l hl => by
    rw [List.mem_singleton] at hl; subst hl; exact (by norm_num : 2 ≤ 80))
  obtain ⟨g1, g2, g3⟩ := C98_transposed_gradients transposed (ofFn_shows 80 80 fx) (ofFn_shows 80 80 fy)
  have hs : ⌊k.size / 2 ^ level.octave + 1 / 2⌋ = 2 := by
    rw [Int.floor_eq_iff]; norm_num [k, level]
  rcases C98_levels_refined pairs (fun l hl => by
    rw [List.mem_singleton] at hl; subst hl; exact (by norm_num : 2 ≤ 80 ∧ 2 ≤ 80)) found with ⟨e, -⟩ | ⟨r0, r', e1, e2, e3⟩
  · rw [h1] at e; cases e
  rw [h1] at e1
  cases e1
  obtain ⟨m, found'⟩ := found_transpose pairs found
  obtain rfl : turnedOver = m := Option.some.inj found'.level
  have hr' : r'.angle = π / 2 := by
    have key : r'.angle = (bestAngle (samplesAt (fun x y => fy y x) (fun x y => fx y x) 40 40 2) 0).2 := by
      obtain ⟨t1, -, -, -⟩ := c2.shows (List.mem_singleton_self _)
      rcases refine_eq c2 found' t1 g1 g2 with ⟨_, q⟩ | ⟨u, v, _, q⟩
      · rw [e2] at q; cases q
      · rw [e2] at q
        have q := Option.some.inj (Option.some.inj q)
        have qx : (refined k.swap turnedOver 40 40 u v).x = 40 := by
          have : r'.x = 40 := by rw [e3]; exact h3
          rw [← this, q]
        have qy : (refined k.swap turnedOver 40 40 u v).y = 40 := by
          have : r'.y = 40 := by rw [e3]; exact h2
          rw [← this, q]
        rw [q]
        have hs' : ⌊k.swap.size / 2 ^ turnedOver.octave + 1 / 2⌋ = 2 := hs
        have h40 : (40 : ℝ) / 2 ^ turnedOver.octave = 40 := by norm_num [turnedOver]
        simp only [qx, qy, hs', h40]
    rw [key]
    have hperm := g3 40 40 2
    refine bestAngle_rightDown (fun v hv => ?_) ?_
    · obtain ⟨u, hu, rfl⟩ := List.mem_map.mp (hperm.mem_iff.mp hv)
      rcases rightOrDown u hu with ⟨a, b⟩ | rfl
      · exact Or.inr ⟨b, a⟩
      · exact Or.inl ⟨rfl, (weight_pos (by simp) (by simp) : 0 < weightAt 0 0)⟩
    · rw [(hperm.map Prod.snd).sum_eq, List.map_map]
      refine lt_trans (weight_pos (i := 0) (j := 0) (by simp) (by simp)) ?_
      exact sum_right
  have hr : r.angle = π / 2 := by
    rw [h4]
    exact bestAngle_down (weight_pos (by simp) (by simp)) rightOrDown (by rw [sum_down]; exact weight_pos (by simp) (by simp))
  obtain ⟨n, hn⟩ := h [level] [turnedOver] (.cons transposed .nil) complete c2 k r r' level 40 40 found h1 e2
  rw [hr, hr'] at hn
  have hpi := pi_pos
  have h5 : (1 : ℝ) = 4 * n := by
    have : π * (1 - 4 * n) = 0 := by linarith
    rcases mul_eq_zero.mp this with h | h
    · exact absurd h hpi.ne'
    · linarith
  have h6 : (1 : ℤ) = 4 * n := by exact_mod_cast h5
  omega

end Verif.Akaze
