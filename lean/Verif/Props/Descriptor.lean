import Verif.Lemmas.Descriptor
import Verif.Props.Orient
import Mathlib.NumberTheory.Real.Irrational

/-!
# Descriptors (C31, C76, C77)
-/

namespace Verif.Akaze

open Real

/-- **C31** A descriptor has 64 bytes. Its bits are, in order, the comparisons of the means of all pairs of cells, one
grid after the other and within a grid one channel after the other; the rest is zero. There is a descriptor exactly if
all points of the pattern are in the image, and the computation never panics. -/
theorem C31_descriptor {p channels : Nat} {levels : List DetLevel} {k : KeyPoint} {lv : DetLevel} {w h : Nat}
    {ft fx fy : Nat → Nat → ℝ} (hp : 4 ≤ p) (hch : channels ≤ 3) (hk : 0 ≤ k.size)
    (hl : levels[k.classId]? = some lv) (ht : lv.lt.Shows w h ft) (hx : lv.lx.Shows w h fx)
    (hy : lv.ly.Shows w h fy) :
    (PatternInside p w h (patternFrame k) → ∃ d, mldbDescriptor p channels levels k = .ok d ∧ d.length = 64 ∧
      ∀ n < 512, bitAt d n = (descriptorBits p channels ft fx fy (patternFrame k)).getD n false) ∧
    (¬ PatternInside p w h (patternFrame k) → mldbDescriptor p channels levels k = .error .outOfBounds) := by
  obtain ⟨d, bits, e, hd, -, hb⟩ := mldb_eq hl ht hx hy hch (by omega : 1 ≤ p)
  rw [frame_eq hk] at e hb
  refine ⟨fun hin => ?_, fun hin => ?_⟩
  · have ha := (allInside_iff hp).2 hin
    rw [if_pos ha] at e
    exact ⟨d, e, hd.1, by rw [← hb hp ha]; exact hd.2⟩
  · rw [if_neg (fun ha => hin ((allInside_iff hp).1 ha))] at e
    exact e

/-- **C31** There are 162 comparisons for each channel. -/
theorem C31_count (p channels : Nat) (ft fx fy : Nat → Nat → ℝ) (fr : Frame) :
    (descriptorBits p channels ft fx fy fr).length = 162 * channels := by
  have h : ∀ m, (pairs (m * m)).length = ((List.range (m * m)).map (fun i => m * m - (i + 1))).sum := by
    intro m; simp [pairs, List.length_flatMap]
  have h2 : (pairs (2 * 2)).length = 6 := h 2
  have h3 : (pairs (3 * 3)).length = 36 := h 3
  have h4 : (pairs (4 * 4)).length = 120 := h 4
  simp only [descriptorBits, List.flatMap_cons, List.flatMap_nil, List.append_nil, List.length_append,
    List.length_flatMap, List.length_map, h2, h3, h4, List.map_const', List.sum_replicate, List.length_range,
    smul_eq_mul]
  ring

/-- **C31** For every pattern size but zero: no panic, and no bit after the comparisons is set. -/
theorem C31_rest {p channels : Nat} {levels : List DetLevel} {k : KeyPoint} {lv : DetLevel} {w h : Nat}
    {ft fx fy : Nat → Nat → ℝ} (hp : 1 ≤ p) (hch : channels ≤ 3)
    (hl : levels[k.classId]? = some lv) (ht : lv.lt.Shows w h ft) (hx : lv.lx.Shows w h fx)
    (hy : lv.ly.Shows w h fy) : mldbDescriptor p channels levels k = .error .outOfBounds ∨
      ∃ d, mldbDescriptor p channels levels k = .ok d ∧ d.length = 64 ∧
        ∀ n, 162 * channels ≤ n → n < 512 → bitAt d n = false := by
  obtain ⟨d, bits, e, hd, hb, -⟩ := mldb_eq hl ht hx hy hch hp
  split at e
  · refine Or.inr ⟨d, e, hd.1, fun n h1 h2 => ?_⟩
    rw [hd.2 n h2, List.getD_eq_getElem?_getD, List.getElem?_eq_none (by omega)]; rfl
  · exact Or.inl e

/-- **C31** With more than three channels, or an empty pattern, there is no descriptor but a panic. -/
theorem C31_invalid {p channels : Nat} {levels : List DetLevel} {k : KeyPoint} (h : 3 < channels ∨ p = 0) :
    mldbDescriptor p channels levels k = .error .panic := by
  unfold mldbDescriptor
  by_cases hch : 3 < channels
  · rw [if_pos hch]
  · rw [if_neg hch]
    obtain rfl := h.resolve_left hch
    rcases levels[k.classId]? with _ | lv
    · rfl
    · simp [orPanic, sizeMult, fillValues, bind, Except.bind]

theorem bits_ext {d d' : List (BitVec 8)} (h : d.length = 64) (h' : d'.length = 64)
    (hb : ∀ n < 512, bitAt d n = bitAt d' n) : d = d' := by
  refine List.ext_getElem (by omega) ?_
  intro i h1 h2
  refine BitVec.eq_of_getLsbD_eq ?_
  intro j hj
  have := hb (8 * i + j) (by omega)
  unfold bitAt at this
  rw [show (8 * i + j) / 8 = i by omega, show (8 * i + j) % 8 = j by omega] at this
  simpa [List.getD_eq_getElem?_getD, List.getElem?_eq_getElem h1, List.getElem?_eq_getElem h2] using this

/-- The bits do not depend on brightness and contrast. -/
theorem descriptorBits_affine {p channels : Nat} {a b : ℝ} (ha : 0 < a) (hp : 1 ≤ p) (ft fx fy : Nat → Nat → ℝ)
    (fr : Frame) : descriptorBits p channels (fun x y => a * ft x y + b) (fun x y => a * fx x y) (fun x y => a * fy x y) fr =
      descriptorBits p channels ft fx fy fr := by
  have hch : ∀ c k l, channelValue channels (fun x y => a * ft x y + b) (fun x y => a * fx x y)
      (fun x y => a * fy x y) fr c k l =
      a * channelValue channels ft fx fy fr c k l + if c = 0 then b else 0 := by
    intro c k l
    unfold channelValue atPattern
    split
    · rfl
    · split
      · rw [mul_pow, mul_pow, ← mul_add, Real.sqrt_mul (by positivity), Real.sqrt_sq ha.le, add_zero]
      · split <;> ring
  have hmean : ∀ m ∈ [2, 3, 4], ∀ c n, cellMean p channels (fun x y => a * ft x y + b) (fun x y => a * fx x y)
      (fun x y => a * fy x y) fr m c n =
      a * cellMean p channels ft fx fy fr m c n + if c = 0 then b else 0 := by
    intro m hm c n
    have hw := (cell_count_le hp hm).2.1
    have hw' : (cellWidth p m : ℝ) ≠ 0 := by exact_mod_cast hw.ne'
    unfold cellMean
    simp only [hch, Finset.sum_add_distrib, ← Finset.mul_sum, Finset.sum_const, Finset.card_range, nsmul_eq_mul]
    rw [add_div, mul_div_assoc]
    congr 1
    field_simp
  unfold descriptorBits
  refine List.flatMap_congr (fun m hm => List.flatMap_congr (fun c _ => List.map_congr_left (fun ij _ => ?_)))
  rw [hmean m hm, hmean m hm]
  congr 1
  simp [ha]

/-- **C76** Descriptors do not depend on brightness and contrast: if every pixel is replaced by `a` times its value plus
`b`, and the gradients by `a` times theirs, the descriptor of a keypoint remains the same, and so does whether it has
one. -/
theorem C76_brightness {p channels : Nat} {levels levels' : List DetLevel} {k : KeyPoint} {lv lv' : DetLevel} {w h : Nat}
    {ft fx fy : Nat → Nat → ℝ} {a b : ℝ} (ha : 0 < a) (hp : 4 ≤ p) (hch : channels ≤ 3) (hk : 0 ≤ k.size)
    (hl : levels[k.classId]? = some lv) (ht : lv.lt.Shows w h ft) (hx : lv.lx.Shows w h fx)
    (hy : lv.ly.Shows w h fy) (hl' : levels'[k.classId]? = some lv')
    (ht' : lv'.lt.Shows w h (fun x y => a * ft x y + b)) (hx' : lv'.lx.Shows w h (fun x y => a * fx x y))
    (hy' : lv'.ly.Shows w h (fun x y => a * fy x y)) :
    mldbDescriptor p channels levels' k = mldbDescriptor p channels levels k := by
  obtain ⟨g1, g2⟩ := C31_descriptor hp hch hk hl ht hx hy
  obtain ⟨g1', g2'⟩ := C31_descriptor hp hch hk hl' ht' hx' hy'
  by_cases hin : PatternInside p w h (patternFrame k)
  · obtain ⟨d, e, l1, b1⟩ := g1 hin
    obtain ⟨d', e', l2, b2⟩ := g1' hin
    rw [e, e', bits_ext l2 l1]
    intro n hn
    rw [b1 n hn, b2 n hn]
    congr 1
    exact descriptorBits_affine ha (by omega) ft fx fy _
  · rw [g2 hin, g2' hin]

/-- A turned vector of the pattern is not longer than the diagonal. -/
theorem turned_le {c s : ℝ} (h : c ^ 2 + s ^ 2 = 1) {k l : ℝ} (hk : |k| ≤ 10) (hl : |l| ≤ 10) :
    |k * c + l * s| ≤ 10 * √2 := by
  have h2 : 0 ≤ √2 := Real.sqrt_nonneg 2
  have h3 : √2 ^ 2 = 2 := Real.sq_sqrt (by norm_num)
  refine abs_le_of_sq_le_sq ?_ (by positivity)
  have hk2 : k ^ 2 ≤ 100 := by have := sq_abs k; nlinarith [abs_nonneg k]
  have hl2 : l ^ 2 ≤ 100 := by have := sq_abs l; nlinarith [abs_nonneg l]
  rw [mul_pow, h3]
  nlinarith [sq_nonneg (k * s - l * c)]

theorem round_inside {z n : Nat} {q t s off r : ℝ} (hs : 1 ≤ s) (h0 : 0 ≤ off) (h1 : 1 / 2 < z - r * s)
    (h2 : z + r * s + off < n - 3 / 2) (h3 : -1 ≤ q) (h4 : q ≤ 1) (h5 : -r ≤ t) (h6 : t ≤ r) :
    0 ≤ roundAway (z + q + off + s * t) ∧ roundAway (z + q + off + s * t) < n := by
  have hst1 : s * -r ≤ s * t := mul_le_mul_of_nonneg_left h5 (by linarith)
  have hst2 : s * t ≤ s * r := mul_le_mul_of_nonneg_left h6 (by linarith)
  have lo : -(1 / 2) < z + q + off + s * t := by linarith
  have hi : z + q + off + s * t < n - 1 / 2 := by linarith
  have hr0 : 0 ≤ r * s := mul_nonneg (by linarith) (by linarith)
  have hn : (0 : ℝ) < n := by linarith
  generalize z + q + off + s * t = x at lo hi ⊢
  unfold roundAway
  split
  · refine ⟨Int.floor_nonneg.2 (by linarith), ?_⟩
    rw [Int.floor_lt]; push_cast; linarith
  · next hx =>
    have : ⌈x - 1 / 2⌉ = 0 := by rw [Int.ceil_eq_iff]; constructor <;> push_cast <;> linarith
    rw [this]
    exact ⟨le_rfl, by exact_mod_cast hn⟩

/-- **C77** A keypoint that was found and refined has a descriptor, for patterns of at most the default size, if it is
in the first octave, or if the pixel where it was found is half a pixel further from the right and the bottom border
than the search asks for. -/
theorem C77_descriptor {threshold df : ℝ} {levels : List DetLevel} {k k' : KeyPoint} {l : DetLevel} {x y : Nat} {u v : ℝ}
    {p channels : Nat} (hc : Complete df levels) (hk : FoundAt threshold df levels k l x y) (hm : Moved k k' l x y u v)
    (hu : |u| ≤ 1) (hv : |v| ≤ 1) (hp : 1 ≤ p) (hp' : p ≤ 10) (hch : channels ≤ 3)
    (ho : k'.octave = 0 ∨ ((x : ℝ) + 10 * √2 * ⌊k.size / 2 ^ l.octave + 1 / 2⌋ < l.ldet.w - 2 ∧
      (y : ℝ) + 10 * √2 * ⌊k.size / 2 ^ l.octave + 1 / 2⌋ < l.ldet.h - 2)) :
    ∃ d, mldbDescriptor p channels levels k' = .ok d := by
  have hmem := List.mem_of_getElem? hk.level
  obtain ⟨_, hx, hy, ht⟩ := hc.shows hmem
  have hsig := (hc l hmem).2.2.2.2.2.2
  obtain ⟨m1, m2, m3, m4, m5, m6⟩ := hm
  have hl' : levels[k'.classId]? = some l := by rw [m6]; exact hk.level
  obtain ⟨d, bits, e, -⟩ := mldb_eq hl' ht hx hy hch hp
  have hpos : (0 : ℝ) < 2 ^ l.octave := by positivity
  have hscale : (patternFrame k').scale = ⌊k.size / 2 ^ l.octave + 1 / 2⌋ := by
    unfold patternFrame
    simp only [m3, m5, hk.octave]
    congr 2
    field_simp
  have hsize : 0 ≤ k'.size := by
    have := hc.sizesOk l hmem
    rw [m3, hk.size]; linarith
  rw [frame_eq hsize] at e
  have hs1 : (1 : ℝ) ≤ ⌊k.size / 2 ^ l.octave + 1 / 2⌋ := by rw [hk.size]; exact_mod_cast hsig
  have hxf : (patternFrame k').xf = x + u + (1 - 1 / 2 ^ l.octave) / 2 := by
    unfold patternFrame
    simp only [m5, hk.octave, m1]; field_simp
  have hyf : (patternFrame k').yf = y + v + (1 - 1 / 2 ^ l.octave) / 2 := by
    unfold patternFrame
    simp only [m5, hk.octave, m2]; field_simp
  obtain ⟨i1, i2, i3, i4⟩ := hk.inside
  generalize hs : ⌊k.size / 2 ^ l.octave + 1 / 2⌋ = s at *
  have hs0 : s ≠ 0 := by rintro rfl; norm_num at hs1
  have hirr : ∀ z : ℕ, (z : ℝ) - 10 * √2 * s ≠ 1 / 2 := by
    intro z hz
    have hi : Irrational (√2 * (((10 : ℤ) * s : ℤ) : ℚ)) := irrational_sqrt_two.mul_ratCast (by
      exact_mod_cast (mul_ne_zero (by norm_num) hs0))
    refine hi ⟨(z : ℚ) - 1 / 2, ?_⟩
    push_cast
    linarith
  have hoff : 0 ≤ (1 - 1 / (2 : ℝ) ^ l.octave) / 2 ∧ (1 - 1 / (2 : ℝ) ^ l.octave) / 2 < 1 / 2 := by
    have h1 : (1 : ℝ) ≤ 2 ^ l.octave := one_le_pow₀ (by norm_num)
    have h2 : 1 / (2 : ℝ) ^ l.octave ≤ 1 := by rw [div_le_one hpos]; exact h1
    have h3 : 0 < 1 / (2 : ℝ) ^ l.octave := by positivity
    constructor <;> linarith
  have hright : (x : ℝ) + 10 * √2 * s + (1 - 1 / (2 : ℝ) ^ l.octave) / 2 < l.ldet.w - 3 / 2 ∧
      (y : ℝ) + 10 * √2 * s + (1 - 1 / (2 : ℝ) ^ l.octave) / 2 < l.ldet.h - 3 / 2 := by
    rcases ho with ho | ⟨o1, o2⟩
    · have : l.octave = 0 := by rw [← hk.octave, ← m5, ho]
      rw [this]; constructor <;> norm_num <;> linarith
    · constructor <;> linarith [hoff.2]
  have hall : AllInside p l.ldet.w l.ldet.h (patternFrame k') := by
    refine allInside_of_small hp' ?_
    intro a b a1 a2 b1 b2
    have ha : |(a : ℝ)| ≤ 10 := abs_le.2 ⟨by exact_mod_cast a1, by exact_mod_cast a2⟩
    have hb : |(b : ℝ)| ≤ 10 := abs_le.2 ⟨by exact_mod_cast b1, by exact_mod_cast b2⟩
    have hb' : |(-b : ℝ)| ≤ 10 := by rwa [abs_neg]
    have hcs : (patternFrame k').co ^ 2 + (patternFrame k').si ^ 2 = 1 := Real.cos_sq_add_sin_sq _
    have hcs' : (patternFrame k').si ^ 2 + (patternFrame k').co ^ 2 = 1 := Real.sin_sq_add_cos_sq _
    have t1 := abs_le.1 (turned_le hcs ha hb')
    have t2 := abs_le.1 (turned_le hcs' ha hb)
    have u1 := abs_le.1 hu
    have v1 := abs_le.1 hv
    have k1 := round_inside hs1 hoff.1 (lt_of_le_of_ne i1 (Ne.symm (hirr x))) hright.1 u1.1 u1.2 t1.1 t1.2
    have k2 := round_inside hs1 hoff.1 (lt_of_le_of_ne i3 (Ne.symm (hirr y))) hright.2 v1.1 v1.2 t2.1 t2.2
    have ex : patternX (patternFrame k') a b = x + u + (1 - 1 / 2 ^ l.octave) / 2 +
        s * ((a : ℝ) * (patternFrame k').co + -b * (patternFrame k').si) := by
      unfold patternX; rw [hxf, hscale]; ring
    have ey : patternY (patternFrame k') a b = y + v + (1 - 1 / 2 ^ l.octave) / 2 +
        s * ((a : ℝ) * (patternFrame k').si + b * (patternFrame k').co) := by
      unfold patternY; rw [hyf, hscale]
    unfold InImage
    rw [ex, ey]
    exact ⟨k1.1, k1.2, k2.1, k2.2⟩
  rw [if_pos hall] at e
  exact ⟨d, e⟩

end Verif.Akaze
