import Verif.Lemmas.Mirror
import Verif.Props.Ramp
import Verif.Props.DetectExample
import Verif.Props.Brightness

/-!
# C98: transposed and mirrored pictures
-/

namespace Verif.Akaze

variable {c : Config} {threshold df : ℝ} {image : Img ℝ}

/-- The levels of a picture and of the transposed picture, as far as the detector looks at them. -/
structure LevelPair (df : ℝ) (l l' : DetLevel) : Prop where
  left : GoodDet l
  right : GoodDet l'
  octave : l'.octave = l.octave
  esigma : l'.esigma = l.esigma
  scale : 0 < edgeScale df l.octave l.esigma
  width : l'.ldet.w = l.ldet.h
  height : l'.ldet.h = l.ldet.w
  ldet : ∀ x y, 2 * edgeScale df l.octave l.esigma ≤ x → x + 2 * edgeScale df l.octave l.esigma < l.ldet.w →
    2 * edgeScale df l.octave l.esigma ≤ y → y + 2 * edgeScale df l.octave l.esigma < l.ldet.h →
    l'.ldet.get y x = l.ldet.get x y

theorem LevelPair.symm {l l' : DetLevel} (h : LevelPair df l l') : LevelPair df l' l where
  left := h.right
  right := h.left
  octave := h.octave.symm
  esigma := h.esigma.symm
  scale := by rw [h.octave, h.esigma]; exact h.scale
  width := h.height.symm
  height := h.width.symm
  ldet x y h1 h2 h3 h4 := by
    rw [h.octave, h.esigma] at h1 h2 h3 h4
    rw [h.width] at h2
    rw [h.height] at h4
    exact (h.ldet y x h3 h4 h1 h2).symm

theorem detLevels_transpose : ∀ {l : List Scale}, (∀ s ∈ l, GoodScale s) → ∀ {levels}, l.mapM (detLevel df) = some levels →
    ∃ levels', (l.map transposeScale).mapM (detLevel df) = some levels' ∧
      List.Forall₂ (fun l l' => LevelPair df l l' ∧ TransposedLevels (2 * edgeScale df l.octave l.esigma) l l') levels levels'
  | [], _, levels, h => by cases h; exact ⟨[], rfl, .nil⟩
  | s :: l, hs, levels, h => by
    rw [List.mapM_cons] at h
    simp only [Option.bind_eq_bind, Option.bind_eq_some_iff] at h
    obtain ⟨d, hd, r, hr, h⟩ := h
    cases h
    obtain ⟨r', hr', h2⟩ := detLevels_transpose (fun s h => hs s (List.mem_cons_of_mem _ h)) hr
    obtain ⟨e, -⟩ | ⟨l1, l2, e, e', g, g', ht⟩ := detLevel_transpose df (hs s List.mem_cons_self)
    · rw [e] at hd; cases hd
    · rw [e] at hd
      obtain rfl := Option.some.inj hd
      refine ⟨l2 :: r', ?_, .cons ⟨⟨g, g', ht.octave, ht.esigma, ?_, ht.width, ht.height, ht.ldet⟩, ht⟩ h2⟩
      · rw [List.map_cons, List.mapM_cons, e', hr']
        rfl
      · by_contra h0
        have h1 : l1.octave = s.level.octave ∧ l1.esigma = s.level.esigma := by
          unfold detLevel at e
          simp only [Option.bind_eq_bind, Option.bind_eq_some_iff] at e
          obtain ⟨_, _, _, _, _, _, e⟩ := e
          cases e
          exact ⟨rfl, rfl⟩
        rw [h1.1, h1.2] at h0
        rw [detLevel_zero (by omega)] at e
        cases e

theorem levelsOf_transpose (hi : image.Good) {levels : List DetLevel} (h : levelsOf c df image = some levels) :
    ∃ levels', levelsOf c df (transpose image) = some levels' ∧
      List.Forall₂ (fun l l' => LevelPair df l l' ∧ TransposedLevels (2 * edgeScale df l.octave l.esigma) l l') levels levels' := by
  unfold levelsOf at h ⊢
  rw [Option.bind_eq_some_iff] at h
  obtain ⟨scales, hs, h⟩ := h
  have good : ∀ s ∈ scales, GoodScale s := (scaleSpace_relight one_pos 0 (Or.inr rfl) hi).2 _ hs
  rw [scaleSpace_transpose c hi, hs]
  exact detLevels_transpose good h

theorem forall₂_some {α β : Type _} {R : α → β → Prop} {l : List α} {l' : List β} (h : List.Forall₂ R l l') :
    ∀ {n : Nat} {a : α}, l[n]? = some a → ∃ b, l'[n]? = some b ∧ R a b := by
  induction h with
  | nil => intro n a h; simp at h
  | cons hr _ ih =>
    intro n a h
    cases n with
    | zero => simp at h; subst h; exact ⟨_, by simp, hr⟩
    | succ n => simpa using ih (by simpa using h)

theorem transpose_transpose (hi : image.Good) : transpose (transpose image) = image := by
  obtain ⟨f, hf⟩ := hi.shows
  exact (eq_transpose (transpose_shows hf) hf).symm

/-- **C98** The scale space of the transposed picture is the transposed scale space: every picture of every level, for
pictures of any size. -/
theorem C98_transposed_scales (hi : image.WF) (hw : 0 < image.w) (hh : 0 < image.h) :
    scaleSpace c (transpose image) = (scaleSpace c image).map (List.map transposeScale) :=
  scaleSpace_transpose c ⟨hi, hw, hh⟩

/-- **C98** The derivatives of the transposed picture are the transposed derivatives of the other direction, and the
responses are transposed, except within twice the scale of the edge filter from the border. -/
theorem C98_transposed_partial (hi : image.WF) (hw : 0 < image.w) (hh : 0 < image.h) {levels : List DetLevel}
    (h : levelsOf c df image = some levels) : ∃ levels', levelsOf c df (transpose image) = some levels' ∧
      List.Forall₂ (fun l l' => TransposedLevels (2 * edgeScale df l.octave l.esigma) l l') levels levels' := by
  obtain ⟨levels', h1, h2⟩ := levelsOf_transpose ⟨hi, hw, hh⟩ h
  exact ⟨levels', h1, h2.imp (fun _ _ h => h.2)⟩

/-- The scale of the edge filter is the number used for the margin of keypoints. -/
theorem edgeScale_eq {o : Nat} {s : ℝ} (h : 0 < edgeScale df o s) : ((edgeScale df o s : Nat) : ℤ) = ⌊s * df / 2 ^ o + 1 / 2⌋ := by
  unfold edgeScale at h ⊢
  have h1 : 0 < roundAway (s * df / 2 ^ o) := by omega
  rw [Int.toNat_of_nonneg h1.le]
  unfold roundAway at h1 ⊢
  split
  · rfl
  · rename_i hn
    rw [if_neg hn] at h1
    exfalso
    have := Int.ceil_lt_add_one (s * df / 2 ^ o - 1 / 2)
    have h2 : (1 : ℝ) ≤ (⌈s * df / 2 ^ o - 1 / 2⌉ : ℤ) := by exact_mod_cast h1
    linarith

theorem found_margin {x n : Nat} {b : ℝ} (hn : 0 < n) (h : (1 / 2 : ℝ) ≤ b - 10 * √2 * n) (hb : b ≤ x) : 2 * n + 1 ≤ x := by
  have h2 : (1.4 : ℝ) ≤ √2 := by
    rw [Real.le_sqrt (by norm_num) (by norm_num)]
    norm_num
  have h1 : (1 : ℝ) ≤ n := by exact_mod_cast hn
  have : ((2 * n + 1 : Nat) : ℝ) ≤ x := by
    push_cast
    nlinarith
  exact_mod_cast this

theorem found_transpose {levels levels' : List DetLevel} (hp : List.Forall₂ (LevelPair df) levels levels') {k : KeyPoint}
    {l : DetLevel} {x y : Nat} (h : FoundAt threshold df levels k l x y) : ∃ l', FoundAt threshold df levels' k.swap l' y x := by
  obtain ⟨l', hl', p⟩ := forall₂_some hp h.level
  have hs := p.scale
  have he := edgeScale_eq hs
  obtain ⟨f, sf, hpk, hth, hre⟩ := h.peak
  obtain ⟨w, hgt, _, _, _, g, hw, hh, _, _, _, sg⟩ := p.right
  obtain ⟨i1, i2, i3, i4⟩ := h.inside
  rw [h.size, ← he, Int.cast_natCast] at i1 i2 i3 i4
  set n := edgeScale df l.octave l.esigma with hn
  have m1 : 2 * n + 1 ≤ x := found_margin hs i1 le_rfl
  have m3 : 2 * n + 1 ≤ y := found_margin hs i3 le_rfl
  obtain ⟨p1, p2, p3, p4, p5⟩ := hpk
  have m2 : x + (2 * n + 1) < l.ldet.w := by
    have : 2 * n + 1 ≤ l.ldet.w - 1 - x := by
      refine found_margin (b := l.ldet.w - 1 - x) hs (by linarith) ?_
      rw [Nat.cast_sub (by omega), Nat.cast_sub (by omega)]
      norm_num
    omega
  have m4 : y + (2 * n + 1) < l.ldet.h := by
    have : 2 * n + 1 ≤ l.ldet.h - 1 - y := by
      refine found_margin (b := l.ldet.h - 1 - y) hs (by linarith) ?_
      rw [Nat.cast_sub (by omega), Nat.cast_sub (by omega)]
      norm_num
    omega
  have w' : w = l.ldet.h := by rw [← sg.1, p.width]
  have h' : hgt = l.ldet.w := by rw [← sg.2.1, p.height]
  subst w' h'
  have agree : ∀ x' y', x ≤ x' + 1 → x' ≤ x + 1 → y ≤ y' + 1 → y' ≤ y + 1 → g y' x' = f x' y' := by
    intro x' y' a1 a2 a3 a4
    have := p.ldet x' y' (by omega) (by omega) (by omega) (by omega)
    rw [sg.2.2.2 y' x' (by omega) (by omega), sf.2.2.2 x' y' (by omega) (by omega)] at this
    exact Option.some.inj this
  have a0 := agree x y (by omega) (by omega) (by omega) (by omega)
  refine ⟨l', ⟨hl', ?_, ?_, ⟨g, ?_, ?_, ?_, ?_⟩, ?_, ?_, ?_, h.angle⟩⟩
  · rw [p.octave]; exact h.octave
  · rw [p.esigma]; exact h.size
  · rw [p.width, p.height]; exact sg
  · rw [p.width, p.height]
    refine ⟨p3, p4, p1, p2, fun y' x' b1 b2 b3 b4 hne => ?_⟩
    rw [agree x' y' b3 b4 b1 b2, a0]
    refine p5 x' y' b3 b4 b1 b2 (fun e => hne ?_)
    cases e
    rfl
  · rw [a0]; exact hth
  · rw [a0]; exact hre
  · rw [p.width, p.height, p.octave]
    obtain ⟨j1, j2, j3, j4⟩ := h.inside
    exact ⟨j3, j4, j1, j2⟩
  · rw [p.octave]; exact h.atY
  · rw [p.octave]; exact h.atX

theorem KeyPoint.swap_swap (k : KeyPoint) : k.swap.swap = k := rfl

/-- **C98** The places where keypoints may be found in the transposed picture are the transposed places, with the same
sizes and responses. -/
theorem C98_transposed_places (hi : image.WF) (hw : 0 < image.w) (hh : 0 < image.h) {levels levels' : List DetLevel}
    (h : levelsOf c df image = some levels) (h' : levelsOf c df (transpose image) = some levels') (k : KeyPoint) (x y : Nat) :
    (∃ l, FoundAt threshold df levels k l x y) ↔ ∃ l', FoundAt threshold df levels' k.swap l' y x := by
  obtain ⟨_, e, hp⟩ := levelsOf_transpose ⟨hi, hw, hh⟩ h
  rw [h'] at e
  cases e
  have hp1 := hp.imp (fun _ _ h => h.1)
  have hp2 : List.Forall₂ (LevelPair df) levels' levels := hp1.flip.imp (fun _ _ h => h.symm)
  refine ⟨fun ⟨l, hf⟩ => found_transpose hp1 hf, fun ⟨l, hf⟩ => ?_⟩
  obtain ⟨l', hf'⟩ := found_transpose hp2 hf
  exact ⟨l', hf'⟩

theorem near_swap {k p : KeyPoint} : Near k.swap p.swap ↔ Near k p := by
  have e1 : ∀ a b : KeyPoint, cornerDist a.swap b.swap = cornerDist a b := fun a b => by
    simp only [cornerDist, KeyPoint.swap]; ring
  have e2 : ∀ a b : KeyPoint, placeSqDist a.swap b.swap = placeSqDist a b := fun a b => by
    simp only [placeSqDist, KeyPoint.swap]; ring
  unfold Near
  rw [e1, e1, e2]
  rfl

theorem pairs_usable {levels levels' : List DetLevel} (hp : List.Forall₂ (LevelPair df) levels levels')
    (h : ∀ l ∈ levels, 2 ≤ l.ldet.h) : Usable levels ∧ SizesOk df levels := by
  have key : ∀ l ∈ levels, ∃ l', LevelPair df l l' := by
    intro l hl
    obtain ⟨n, hn, rfl⟩ := List.mem_iff_getElem.mp hl
    obtain ⟨l', _, p⟩ := forall₂_some hp (List.getElem?_eq_getElem hn)
    exact ⟨l', p⟩
  refine ⟨fun l hl => ?_, fun l hl => ?_⟩
  · obtain ⟨l', p⟩ := key l hl
    obtain ⟨w, hgt, _, _, _, g, hw, hh, _, _, _, sg⟩ := p.left
    exact ⟨sg.2.2.1, by rw [sg.1]; exact hw, h l hl⟩
  · obtain ⟨l', p⟩ := key l hl
    have hs := p.scale
    have he := edgeScale_eq hs
    have h1 : (1 : ℝ) ≤ (⌊l.esigma * df / 2 ^ l.octave + 1 / 2⌋ : ℤ) := by
      rw [← he]
      exact_mod_cast hs
    have h2 := Int.floor_le (l.esigma * df / 2 ^ l.octave + 1 / 2)
    have h3 : 0 < l.esigma * df / 2 ^ l.octave := by linarith
    rcases div_pos_iff.mp h3 with h | h
    · exact h.1.le
    · exact absurd h.2 (not_lt.mpr (by positivity))

theorem mem_levels : ∀ {l : List Scale} {levels}, l.mapM (detLevel df) = some levels → ∀ d ∈ levels, ∃ s ∈ l, detLevel df s = some d
  | [], levels, h => by cases h; simp
  | s :: l, levels, h => by
    rw [List.mapM_cons] at h
    simp only [Option.bind_eq_bind, Option.bind_eq_some_iff] at h
    obtain ⟨d, hd, r, hr, h⟩ := h
    cases h
    intro e he
    rcases List.mem_cons.mp he with rfl | he
    · exact ⟨s, List.mem_cons_self, hd⟩
    · obtain ⟨t, ht, h⟩ := mem_levels hr e he
      exact ⟨t, List.mem_cons_of_mem _ ht, h⟩

/-- The sizes of the levels. -/
theorem levelsOf_sizes (hn : 0 < c.numSublevels) (hi : image.Good) {levels : List DetLevel}
    (h : levelsOf c df image = some levels) : ∀ l ∈ levels, GoodDet l ∧ l.octave < c.maxOctave ∧
      l.ldet.w = image.w / 2 ^ l.octave ∧ l.ldet.h = image.h / 2 ^ l.octave ∧ 40 ≤ l.ldet.w ∧ 40 ≤ l.ldet.h := by
  unfold levelsOf at h
  rw [Option.bind_eq_some_iff] at h
  obtain ⟨scales, hs, h⟩ := h
  have good : ∀ s ∈ scales, GoodScale s := (scaleSpace_relight one_pos 0 (Or.inr rfl) hi).2 _ hs
  intro l hl
  obtain ⟨s, hmem, hd⟩ := mem_levels h l hl
  have hg := (detLevel_relight df (good s hmem) 1 0).2 l hd
  obtain ⟨ha, hsz⟩ := C23_sizes hn hi.1 hs
  obtain ⟨n, hlt, rfl⟩ := List.mem_iff_getElem.mp hmem
  obtain ⟨-, -, ⟨-, w1, w2⟩, -⟩ := hsz n _ (List.getElem?_eq_getElem hlt)
  obtain ⟨full, extra, -, -, hlev⟩ := C23_levels hn ha
  obtain ⟨-, -, -, -, -, ⟨a1, a2⟩, -⟩ := hlev n scales[n].level (by simp [List.getElem?_map, List.getElem?_eq_getElem hlt])
  have hoct := (allocate_octaves hn ha).1 scales[n].level (List.mem_map_of_mem hmem)
  unfold detLevel at hd
  simp only [Option.bind_eq_bind, Option.bind_eq_some_iff] at hd
  obtain ⟨_, _, _, _, _, _, e⟩ := hd
  cases e
  obtain ⟨w, hgt, _, _, _, _, _, _, s1, _, _, s4⟩ := id hg
  have e1 := s1.1
  have e2 := s1.2.1
  have e3 := s4.1
  have e4 := s4.2.1
  simp only at e1 e2 e3 e4 ⊢
  refine ⟨hg, hoct, by rw [e3, ← e1, w1], by rw [e4, ← e2, w2], ?_, ?_⟩
  · rw [e3, ← e1, w1]
    exact (Nat.le_div_iff_mul_le (by positivity)).mpr a1
  · rw [e4, ← e2, w2]
    exact (Nat.le_div_iff_mul_le (by positivity)).mpr a2

/-- **C98** A keypoint that is stronger than all places near it is found in both lists of levels, whatever picture they
come from. -/
theorem C98_levels_strongest {levels levels' : List DetLevel} (hp : List.Forall₂ (LevelPair df) levels levels')
    (hsz : ∀ l ∈ levels, 2 ≤ l.ldet.w ∧ 2 ≤ l.ldet.h) {out out' : List KeyPoint}
    (ho : findExtrema threshold df levels = some out) (ho' : findExtrema threshold df levels' = some out')
    {k : KeyPoint} {l : DetLevel} {x y : Nat} (hk : FoundAt threshold df levels k l x y)
    (hmax : ∀ p l' x' y', FoundAt threshold df levels p l' x' y' → p ≠ k → Near k p → p.response < k.response) :
    k ∈ out ∧ k.swap ∈ out' := by
  have hp2 : List.Forall₂ (LevelPair df) levels' levels := hp.flip.imp (fun _ _ h => h.symm)
  obtain ⟨u1, z1⟩ := pairs_usable hp (fun l hl => (hsz l hl).2)
  have hh2 : ∀ l ∈ levels', 2 ≤ l.ldet.h := by
    intro l hl
    obtain ⟨n, hn, rfl⟩ := List.mem_iff_getElem.mp hl
    obtain ⟨l', e, p⟩ := forall₂_some hp2 (List.getElem?_eq_getElem hn)
    have := (hsz l' (List.mem_of_getElem? e)).1
    have := p.width
    omega
  obtain ⟨u2, z2⟩ := pairs_usable hp2 hh2
  refine ⟨C30_strongest_partial u1 z1 ho hk hmax, ?_⟩
  obtain ⟨l', hk'⟩ := found_transpose hp hk
  refine C30_strongest_partial u2 z2 ho' hk' (fun p l2 x2 y2 hf hne hnear => ?_)
  obtain ⟨l3, hf3⟩ := found_transpose hp2 hf
  refine hmax p.swap l3 y2 x2 hf3 (fun e => hne ?_) (near_swap.mp hnear)
  rw [← e]
  rfl

/-- **C98** A keypoint that is stronger than all places near it is found in the picture and in the transposed picture. -/
theorem C98_transposed_strongest (hn : 0 < c.numSublevels) (hi : image.WF) (hw : 0 < image.w) (hh : 0 < image.h)
    {levels levels' : List DetLevel} (h : levelsOf c df image = some levels)
    (h' : levelsOf c df (transpose image) = some levels') {out out' : List KeyPoint}
    (ho : findExtrema threshold df levels = some out) (ho' : findExtrema threshold df levels' = some out')
    {k : KeyPoint} {l : DetLevel} {x y : Nat} (hk : FoundAt threshold df levels k l x y)
    (hmax : ∀ p l' x' y', FoundAt threshold df levels p l' x' y' → p ≠ k → Near k p → p.response < k.response) :
    k ∈ out ∧ k.swap ∈ out' := by
  have hs1 := levelsOf_sizes hn ⟨hi, hw, hh⟩ h
  obtain ⟨_, e, hp⟩ := levelsOf_transpose ⟨hi, hw, hh⟩ h
  rw [h'] at e
  cases e
  refine C98_levels_strongest (hp.imp (fun _ _ h => h.1)) (fun l hl => ?_) ho ho' hk hmax
  have := (hs1 l hl).2.2.2.2
  omega

open ExDet in
/-- Three peaks and the transposed picture of them: the strongest is found in both. -/
example : ∃ out out', findExtrema 0.001 1.5 [level] = some out ∧
    findExtrema 0.001 1.5 [⟨0, 1.6, transpose img, transpose img, transpose img, transpose img⟩] = some out' ∧
    kB ∈ out ∧ (⟨40, 42, 3, 2.4, 0, 0, 0⟩ : KeyPoint) ∈ out' := by
  have st := transpose_shows shows_img
  have pair : LevelPair 1.5 level ⟨0, 1.6, transpose img, transpose img, transpose img, transpose img⟩ := by
    refine ⟨⟨80, 80, f, f, f, f, by norm_num, by norm_num, shows_img, shows_img, shows_img, shows_img⟩,
      ⟨80, 80, _, _, _, _, by norm_num, by norm_num, st, st, st, st⟩, rfl, rfl, ?_, rfl, rfl, fun x y _ h2 _ h4 => ?_⟩
    · have : roundAway (1.6 * 1.5 / 2 ^ 0 : ℝ) = 2 := by
        unfold roundAway
        rw [if_pos (by norm_num), Int.floor_eq_iff]
        norm_num
      simp only [edgeScale, level, this]
      decide
    · have hx : x < 80 := lt_of_le_of_lt (Nat.le_add_right _ _) h2
      have hy : y < 80 := lt_of_le_of_lt (Nat.le_add_right _ _) h4
      exact (st.2.2.2 y x hy hx).trans (shows_img.2.2.2 x y hx hy).symm
  have pairs := List.Forall₂.cons pair .nil
  obtain ⟨out', ho'⟩ := C29_total (threshold := 0.001) (df := 1.5) (pairs_usable (df := 1.5)
    (pairs.flip.imp (fun _ _ h => h.symm)) (fun l hl => by
      rw [List.mem_singleton] at hl; subst hl; exact (by norm_num : 2 ≤ 80))).1
  have := C98_levels_strongest pairs (fun l hl => by
      rw [List.mem_singleton] at hl; subst hl; exact (by norm_num : 2 ≤ 80 ∧ 2 ≤ 80)) result ho' foundB
    (fun p l x y h hne _ => strongestB p l x y h hne)
  exact ⟨_, out', result, ho', this.1, this.2⟩

/-- A picture whose responses at the border are not those of the transposed picture. -/
def exCross : Img ℚ := Img.ofFn 4 4 (fun x y => ((x * x * y + 3 * y * y + x * 7) % 11 : Nat))

/-- **C98, false at the border.** The mixed derivative is taken in a fixed order, which matters at the border. -/
theorem C98_transposed_border_false : ¬ ∀ (image : Img ℚ) (sigma : Nat), image.WF → 0 < image.w → 0 < image.h →
    response (transpose image) sigma = (response image sigma).map transpose := by
  intro h
  have := h exCross 2 (by decide +kernel) (by decide +kernel) (by decide +kernel)
  revert this
  decide +kernel

/-! ## Mirrored pictures -/

theorem detLevels_mirror : ∀ {l : List Scale}, (∀ s ∈ l, GoodScale s) →
    (l.map mirrorScale).mapM (detLevel df) = (l.mapM (detLevel df)).map (List.map mirrorLevel)
  | [], _ => rfl
  | s :: l, hs => by
    rw [List.map_cons, List.mapM_cons, List.mapM_cons, detLevel_mirror df (hs s List.mem_cons_self),
      detLevels_mirror (fun s h => hs s (List.mem_cons_of_mem _ h))]
    rcases detLevel df s with _ | d
    · rfl
    rcases l.mapM (detLevel df) with _ | r <;> rfl

/-- **C98** When the width can be halved as often as there are octaves, the scale space of the mirrored picture is the
mirrored scale space. -/
theorem C98_mirrored_scales (hn : 0 < c.numSublevels) (hi : image.WF) (hw : 0 < image.w) (hh : 0 < image.h)
    (hd : 2 ^ (c.maxOctave - 1) ∣ image.w) : scaleSpace c (mirror image) = (scaleSpace c image).map (List.map mirrorScale) :=
  scaleSpace_mirror hn ⟨hi, hw, hh⟩ hd

/-- **C98** Then the derivatives and the responses are mirrored too, up to the border, and the derivative to the right
changes its sign. -/
theorem C98_mirrored_partial (hn : 0 < c.numSublevels) (hi : image.WF) (hw : 0 < image.w) (hh : 0 < image.h)
    (hd : 2 ^ (c.maxOctave - 1) ∣ image.w) :
    levelsOf c df (mirror image) = (levelsOf c df image).map (List.map mirrorLevel) := by
  have good := (scaleSpace_relight one_pos 0 (c := c) (Or.inr rfl) (i := image) ⟨hi, hw, hh⟩).2
  unfold levelsOf
  rw [C98_mirrored_scales hn hi hw hh hd]
  rcases hs : scaleSpace c image with _ | scales
  · rfl
  exact detLevels_mirror (good _ hs)

/-- The margins of keypoints on the left and on the right differ by a pixel, but no keypoint lies between them. -/
theorem margin_mirror {w x : Nat} {n : ℤ} (hx : x < w) :
    ((1 / 2 : ℝ) ≤ x - 10 * √2 * n ∧ (x : ℝ) + 10 * √2 * n < w - 3 / 2) →
      ((1 / 2 : ℝ) ≤ ((w - 1 - x : Nat) : ℝ) - 10 * √2 * n ∧ ((w - 1 - x : Nat) : ℝ) + 10 * √2 * n < w - 3 / 2) := by
  rintro ⟨h1, h2⟩
  rw [Nat.cast_sub (by omega), Nat.cast_sub (by omega)]
  push_cast
  refine ⟨by linarith, ?_⟩
  refine lt_of_le_of_ne (by linarith) (fun e => ?_)
  have e1 : 10 * √2 * n = x - 1 / 2 := by linarith
  have e2 : (800 : ℝ) * n ^ 2 = (2 * x - 1) ^ 2 := by
    have h3 : (√2 : ℝ) ^ 2 = 2 := Real.sq_sqrt (by norm_num)
    have : (10 * √2 * n) ^ 2 = (x - 1 / 2 : ℝ) ^ 2 := by rw [e1]
    nlinarith
  have e3 : (800 : ℤ) * n ^ 2 = (2 * x - 1) ^ 2 := by exact_mod_cast e2
  have e4 : ((2 * (x : ℤ) - 1) ^ 2) % 2 = 1 := by
    have : (2 * (x : ℤ) - 1) ^ 2 = 2 * (2 * x ^ 2 - 2 * x) + 1 := by ring
    omega
  omega

theorem found_mirror {levels : List DetLevel} {W : Nat}
    (hW : ∀ l ∈ levels, W = l.ldet.w * 2 ^ l.octave) {k : KeyPoint} {l : DetLevel} {x y : Nat}
    (h : FoundAt threshold df levels k l x y) :
    FoundAt threshold df (levels.map mirrorLevel) (k.flip W) (mirrorLevel l) (l.ldet.w - 1 - x) y := by
  obtain ⟨f, sf, ⟨p1, p2, p3, p4, p5⟩, hth, hre⟩ := h.peak
  have sm := mirror_shows sf
  have mw : (mirror l.ldet).w = l.ldet.w := rfl
  have mh : (mirror l.ldet).h = l.ldet.h := rfl
  have back : l.ldet.w - 1 - (l.ldet.w - 1 - x) = x := by omega
  have hWl := hW l (List.mem_of_getElem? h.level)
  refine ⟨?_, h.octave, h.size, ⟨fun x y => f (l.ldet.w - 1 - x) y, sm, ⟨?_, ?_, p3, p4, ?_⟩, ?_, ?_⟩, ?_, ?_, h.atY, h.angle⟩
  · change (levels.map mirrorLevel)[k.classId]? = _
    rw [List.getElem?_map, h.level]
    rfl
  · omega
  · change l.ldet.w - 1 - x + 1 < l.ldet.w
    omega
  · intro x' y' b1 b2 b3 b4 hne
    simp only [back]
    refine p5 _ y' (by omega) (by omega) b3 b4 (fun e => hne ?_)
    simp only [Prod.mk.injEq] at e ⊢
    omega
  · simp only [back]; exact hth
  · simp only [back]; exact hre
  · obtain ⟨i1, i2, i3, i4⟩ := h.inside
    obtain ⟨j1, j2⟩ := margin_mirror (by omega) ⟨i1, i2⟩
    exact ⟨j1, j2, i3, i4⟩
  · change (W : ℝ) - 1 - k.x = ((l.ldet.w - 1 - x : Nat) : ℝ) * 2 ^ l.octave + (2 ^ l.octave - 1) / 2
    rw [h.atX, hWl, Nat.cast_sub (by omega), Nat.cast_sub (by omega)]
    push_cast
    ring

theorem mirror_mirror {i : Img ℝ} {w h : Nat} {f : Nat → Nat → ℝ} (hs : i.Shows w h f) : mirror (mirror i) = i := by
  refine (eq_mirror (mirror_shows hs) hs (fun x y hx _ => ?_)).symm
  congr 1
  omega

/-- **C98** The places where keypoints may be found in the mirrored picture are the mirrored places, with the same sizes
and responses. -/
theorem C98_mirrored_places (hn : 0 < c.numSublevels) (hi : image.WF) (hw : 0 < image.w) (hh : 0 < image.h)
    (hd : 2 ^ (c.maxOctave - 1) ∣ image.w) {levels levels' : List DetLevel} (h : levelsOf c df image = some levels)
    (h' : levelsOf c df (mirror image) = some levels') (k : KeyPoint) (y : Nat) :
    (∃ l x, FoundAt threshold df levels k l x y) ↔ ∃ l' x', FoundAt threshold df levels' (k.flip image.w) l' x' y := by
  have hsz := levelsOf_sizes hn ⟨hi, hw, hh⟩ h
  have width : ∀ l ∈ levels, image.w = l.ldet.w * 2 ^ l.octave := by
    intro l hl
    obtain ⟨-, ho, e, -⟩ := hsz l hl
    rw [e, Nat.div_mul_cancel ((pow_dvd_pow 2 (by omega)).trans hd)]
  rw [C98_mirrored_partial hn hi hw hh hd, h] at h'
  cases h'
  refine ⟨fun ⟨l, x, hf⟩ => ⟨_, _, found_mirror width hf⟩, fun ⟨l, x, hf⟩ => ?_⟩
  have width' : ∀ l ∈ levels.map mirrorLevel, image.w = l.ldet.w * 2 ^ l.octave := by
    intro l hl
    obtain ⟨m, hm, rfl⟩ := List.mem_map.mp hl
    exact width m hm
  have hb := found_mirror width' hf
  have hk : (k.flip image.w).flip image.w = k := by
    cases k
    simp [KeyPoint.flip]
  rw [hk] at hb
  -- the peaks and places are those of the picture mirrored twice
  have hlev : ∀ l ∈ levels, (mirrorLevel (mirrorLevel l)).ldet = l.ldet := by
    intro m hm
    obtain ⟨w, hgt, f1, f2, f3, f4, a, b, s1, s2, s3, s4⟩ := (hsz m hm).1
    exact mirror_mirror s4
  have hl := hb.level
  rw [List.map_map, List.getElem?_map, Option.map_eq_some_iff] at hl
  obtain ⟨m, hm, e⟩ := hl
  have e2 := hlev m (List.mem_of_getElem? hm)
  simp only [Function.comp] at e
  have e3 : (mirrorLevel l).ldet = m.ldet := by rw [← e, e2]
  have e4 : (mirrorLevel l).octave = m.octave := by rw [← e]; rfl
  have e5 : (mirrorLevel l).esigma = m.esigma := by rw [← e]; rfl
  refine ⟨m, l.ldet.w - 1 - x, ⟨hm, ?_, ?_, ?_, ?_, ?_, ?_, hb.angle⟩⟩
  · rw [← e4]; exact hb.octave
  · rw [← e5]; exact hb.size
  · rw [← e3]; exact hb.peak
  · rw [← e3, ← e4]; exact hb.inside
  · rw [← e4]; exact hb.atX
  · rw [← e4]; exact hb.atY

/-- **C98, false for other widths.** Half the size of a mirrored picture of odd width is not the mirrored half. -/
theorem C98_mirrored_odd_false : ¬ ∀ (image : Img ℚ), image.WF → 2 ≤ image.w → 2 ≤ image.h →
    halfSize (mirror image) = (halfSize image).map mirror := by
  intro h
  have := h ⟨3, 2, [1, 2, 3, 4, 5, 7]⟩ (by decide +kernel) (by decide +kernel) (by decide +kernel)
  revert this
  decide +kernel

/-- A ramp of 104 by 90 pixels with the default settings: there are levels of it, of the transposed and of the mirrored
picture. -/
example {image : Img ℝ} (hs : image.Shows 104 90 (fun x _ => 3 * x)) : ∃ levels levels',
    levelsOf Settings.default.toConfig 1.5 image = some levels ∧
    levelsOf Settings.default.toConfig 1.5 (transpose image) = some levels' ∧
    levelsOf Settings.default.toConfig 1.5 (mirror image) = some (levels.map mirrorLevel) := by
  have w0 : 0 < image.w := by rw [hs.1]; norm_num
  have h0 : 0 < image.h := by rw [hs.2.1]; norm_num
  obtain ⟨k, hk, h⟩ := C78_default exSort_sorts hs.2.2.1 (by rw [hs.1]; norm_num) (by rw [hs.2.1]; norm_num)
  obtain ⟨ks, ds, e⟩ := h (ramp_contrast (by norm_num) hs (by norm_num) (by norm_num) hk)
  unfold extract at e
  simp only [Option.bind_eq_bind, Option.bind_eq_some_iff] at e
  obtain ⟨scales, e1, levels, e2, -⟩ := e
  have hl : levelsOf Settings.default.toConfig 1.5 image = some levels := by
    unfold levelsOf
    rw [e1]
    exact e2
  obtain ⟨levels', hl', -⟩ := C98_transposed_partial hs.2.2.1 w0 h0 hl
  refine ⟨levels, levels', hl, hl', ?_⟩
  rw [C98_mirrored_partial (by decide) hs.2.2.1 w0 h0 (by rw [hs.1]; decide), hl]
  rfl

end Verif.Akaze
