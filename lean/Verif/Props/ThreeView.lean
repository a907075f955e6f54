import Verif.Model.Optimize
import Verif.Props.TriangulateOptimal

/-!
# C54: the gradients of the three-view optimiser
-/

namespace Verif.Geo

/-- `x` is in front of the camera at `centre`, in the unit direction `r`. -/
def Ahead (centre r x : V3 ℝ) : Prop := r.normSq = 1 ∧ ∃ d > 0, x = centre.add (V3.smul d r)

/-- Three rays `c`, `f`, `s` from the origin, from `ftoc` and from `stoc` meet in front of the three
cameras. -/
structure Consistent (c f ftoc s stoc : V3 ℝ) (x : V3 ℝ) : Prop where
  center : Ahead V3.zero c x
  first : Ahead ftoc f x
  second : Ahead stoc s x

theorem smul_eq_zero {s : ℝ} {v : V3 ℝ} (hs : s ≠ 0) (h : V3.smul s v = V3.zero) : v = V3.zero := by
  rw [← V3.norm_eq_zero, V3.norm_smul, mul_eq_zero] at h
  exact V3.norm_eq_zero.mp (h.resolve_left (abs_ne_zero.mpr hs))

/-- With lines that meet at depth `l`, the triangulation of the gradient gives the point if `l` is
positive and nothing if it is negative. -/
theorem sineL1SameSpace_exact {t a b : V3 ℝ} {l m : ℝ} (ha : a.normSq = 1) (hb : b.normSq = 1)
    (hl : l ≠ 0) (hm : m ≠ 0) (ht : t = (V3.smul l a).sub (V3.smul m b)) :
    sineL1SameSpace t a b =
      if 0 < l ∧ 0 ≤ a.dot b ∧ a.cross b ≠ V3.zero then some (V3.smul l a) else none := by
  by_cases hn : a.cross b = V3.zero
  · rw [if_neg (fun h => h.2.2 hn)]
    have e1 : a.cross t = V3.zero := by
      rw [ht]
      have : a.cross ((V3.smul l a).sub (V3.smul m b)) = V3.smul (-m) (a.cross b) := by lin3
      rw [this, hn]; lin3
    have e2 : b.cross t = V3.zero := by
      rw [ht]
      have : b.cross ((V3.smul l a).sub (V3.smul m b)) = V3.smul (-l) (a.cross b) := by lin3
      rw [this, hn]; lin3
    unfold sineL1SameSpace correctL1 V3.normalize
    have hz : (V3.zero : V3 ℝ).norm = 0 := V3.norm_eq_zero.mpr rfl
    simp [e1, e2, hz]
  · have hat : a.cross t ≠ V3.zero := by
      intro e
      apply hn
      have : V3.smul (-m) (a.cross b) = a.cross t := by rw [ht]; lin3
      rw [e] at this
      exact smul_eq_zero (neg_ne_zero.mpr hm) this
    have hc : a.dot (b.cross t) = 0 := by rw [ht]; simp only [lin]; ring
    unfold sineL1SameSpace
    simp only [Option.bind_eq_bind, correctL1_exact ha hb hc hat, Option.bind_some]
    rw [meet_exact ha hl ht hn]
    by_cases h : 0 < l ∧ 0 ≤ a.dot b
    · rw [if_pos h, if_pos ⟨h.1, h.2, hn⟩, Option.bind_some, toPoint_ray h.1]
    · rw [if_neg h, if_neg (fun h' => h ⟨h'.1, h'.2.1⟩)]
      rfl

/-- **C54** The property is false, in every case: for rays that meet in front of both cameras, the
triangulation as it is called by the three-view gradient (with the negated translation) finds
nothing. -/
theorem C54_never_found {c s stoc x : V3 ℝ} (hc : Ahead V3.zero c x) (hs : Ahead stoc s x) :
    sineL1SameSpace stoc.neg c s = none := by
  obtain ⟨hc1, l, hl, hx⟩ := hc
  obtain ⟨hs1, m, hm, hx'⟩ := hs
  have ht : stoc.neg = (V3.smul (-l) c).sub (V3.smul (-m) s) := by
    have : V3.zero.add (V3.smul l c) = stoc.add (V3.smul m s) := hx ▸ hx'
    rw [V3.ext_iff] at this ⊢
    simp only [lin] at this ⊢
    obtain ⟨h1, h2, h3⟩ := this
    refine ⟨?_, ?_, ?_⟩ <;> linarith
  rw [sineL1SameSpace_exact hc1 hs1 (neg_ne_zero.mpr hl.ne') (neg_ne_zero.mpr hm.ne') ht,
    if_neg (fun h => absurd h.1 (not_lt.mpr (neg_neg_of_pos hl).le))]

/-- **C54** (partial) With the translation not negated it would find the point, for rays that are not
parallel and at most a right angle apart. -/
theorem C54_found_partial {c s stoc x : V3 ℝ} (hc : Ahead V3.zero c x) (hs : Ahead stoc s x)
    (hn : c.cross s ≠ V3.zero) (hcs : 0 ≤ c.dot s) : sineL1SameSpace stoc c s = some x := by
  obtain ⟨hc1, l, hl, hx⟩ := hc
  obtain ⟨hs1, m, hm, hx'⟩ := hs
  have ht : stoc = (V3.smul l c).sub (V3.smul m s) := by
    have : V3.zero.add (V3.smul l c) = stoc.add (V3.smul m s) := hx ▸ hx'
    rw [V3.ext_iff] at this ⊢
    simp only [lin] at this ⊢
    obtain ⟨h1, h2, h3⟩ := this
    refine ⟨?_, ?_, ?_⟩ <;> linarith
  rw [sineL1SameSpace_exact hc1 hs1 hl.ne' hm.ne' ht, if_pos ⟨hl, hcs, hn⟩, hx]
  congr 1
  lin3

/-- **C54** Whatever the bearings: what the triangulation finds, as it is called, is the mirror image
of an intersection behind the camera. -/
theorem C54_mirror_image {c s stoc p : V3 ℝ} (hc : c.normSq = 1) (hs : s.normSq = 1)
    (h : sineL1SameSpace stoc.neg c s = some p) :
    ∃ c' s', Coplanar stoc c' s' ∧ (∃ l > 0, p = V3.smul l c') ∧ OnLine stoc s' p.neg := by
  unfold sineL1SameSpace at h
  simp only [Option.bind_eq_bind, Option.bind_eq_some_iff] at h
  obtain ⟨⟨c', s'⟩, h1, q, h2, h3⟩ := h
  have hcop := (C67_l1_optimal hc hs h1).1
  have hpl : stoc.neg.dot (c'.cross s') = 0 := by
    have := hcop.plane
    rw [show stoc.neg.dot (c'.cross s') = -stoc.neg.dot (s'.cross c') by simp only [lin]; ring, this,
      neg_zero]
  obtain ⟨l, m, hl, hd, ht, rfl⟩ := meet_some hcop.unit_a hpl h2
  rw [toPoint_ray hl] at h3
  obtain rfl := Option.some.inj h3
  refine ⟨c', s', ⟨hcop.unit_a, hcop.unit_b, ?_⟩, ⟨l, hl, rfl⟩, ⟨-m, ?_⟩⟩
  · have := hcop.plane
    rw [show stoc.dot (s'.cross c') = -stoc.neg.dot (s'.cross c') by simp only [lin]; ring, this,
      neg_zero]
  · have e : stoc = stoc.neg.neg := by lin3
    rw [e, ht]
    lin3

theorem rotationGradient_exact {t a b : V3 ℝ} {l m : ℝ}
    (ht : t = (V3.smul l a).sub (V3.smul m b)) :
    rotationGradient t a b = none ∨ rotationGradient t a b = some V3.zero := by
  unfold rotationGradient
  cases hb : (b.cross t).normalize with
  | none => left; rfl
  | some nb =>
    cases ha : (a.cross t).normalize with
    | none => left; rfl
    | some na =>
      right
      obtain ⟨_, rfl⟩ := normalize_some hb
      obtain ⟨_, rfl⟩ := normalize_some ha
      change some _ = some _
      congr 1
      generalize 1 / (b.cross t).norm = k
      generalize 1 / (a.cross t).norm = k'
      rw [ht]
      lin3


/-- **C54** For a consistent configuration both gradients vanish, so an exact solution is a fixed point
of the optimisers. -/
theorem C54_gradients_vanish {c f ftoc s stoc x : V3 ℝ} (h : Consistent c f ftoc s stoc x) :
    threeViewGradients c f ftoc s stoc = (Tangent.zero, Tangent.zero) := by
  obtain ⟨hc, hf, hs⟩ := h
  have hfs1 : Ahead V3.zero f (x.sub ftoc) := by
    obtain ⟨h1, d, hd, e⟩ := hf
    exact ⟨h1, d, hd, by rw [e]; lin3⟩
  have hfs2 : Ahead (stoc.sub ftoc) s (x.sub ftoc) := by
    obtain ⟨h1, d, hd, e⟩ := hs
    exact ⟨h1, d, hd, by rw [e]; lin3⟩
  have hrot : ∀ {a b t y : V3 ℝ}, Ahead V3.zero a y → Ahead t b y →
      rotationGradient t a b = none ∨ rotationGradient t a b = some V3.zero := by
    rintro a b t y ⟨_, l, _, h1⟩ ⟨_, m, _, h2⟩
    refine rotationGradient_exact (l := l) (m := m) ?_
    have : V3.zero.add (V3.smul l a) = t.add (V3.smul m b) := h1 ▸ h2
    rw [V3.ext_iff] at this ⊢
    simp only [lin] at this ⊢
    obtain ⟨h1, h2, h3⟩ := this
    refine ⟨?_, ?_, ?_⟩ <;> linarith
  unfold threeViewGradients
  simp only [C54_never_found hc hs, C54_never_found hc hf, C54_never_found hfs1 hfs2,
    Option.map_none, Option.getD_none]
  have hz : ∀ p q : ℝ, (V3.smul p (V3.zero : V3 ℝ)).add (V3.smul q V3.zero) = V3.zero := by
    intro p q; lin3
  have hz' : (V3.zero : V3 ℝ).neg = V3.zero := by lin3
  rcases hrot hc hf with h1 | h1 <;> rcases hrot hc hs with h2 | h2 <;>
    rcases hrot hfs1 hfs2 with h3 | h3 <;>
    simp [h1, h2, h3, Tangent.new, Tangent.zero, hz, hz']

/-- A consistent configuration: three cameras in a row look at `(0, 0, 4)`. -/
example : Consistent ⟨0, 0, 1⟩ ⟨3 / 5, 0, 4 / 5⟩ ⟨-3, 0, 0⟩ ⟨-3 / 5, 0, 4 / 5⟩ ⟨3, 0, 0⟩ ⟨0, 0, 4⟩ ∧
    (⟨0, 0, 1⟩ : V3 ℝ).cross ⟨-3 / 5, 0, 4 / 5⟩ ≠ V3.zero ∧
    0 ≤ (⟨0, 0, 1⟩ : V3 ℝ).dot ⟨-3 / 5, 0, 4 / 5⟩ := by
  refine ⟨⟨⟨by simp only [lin]; norm_num, 4, by norm_num, by ext <;> simp only [lin] <;> norm_num⟩,
    ⟨by simp only [lin]; norm_num, 5, by norm_num, by ext <;> simp only [lin] <;> norm_num⟩,
    ⟨by simp only [lin]; norm_num, 5, by norm_num, by ext <;> simp only [lin] <;> norm_num⟩⟩,
    fun e => ?_, by simp only [lin]; norm_num⟩
  rw [V3.ext_iff] at e
  simp only [lin] at e
  norm_num at e

/-- Rays for which the triangulation as called does find something: they meet at `(0, 0, -4)`. -/
example : sineL1SameSpace (V3.neg ⟨3, 0, 0⟩) ⟨0, 0, 1⟩ ⟨3 / 5, 0, 4 / 5⟩ = some ⟨0, 0, 4⟩ := by
  have hn : (⟨0, 0, 1⟩ : V3 ℝ).cross ⟨3 / 5, 0, 4 / 5⟩ ≠ V3.zero := by
    intro e
    rw [V3.ext_iff] at e
    simp only [lin] at e
    norm_num at e
  rw [sineL1SameSpace_exact (l := 4) (m := 5) (by simp only [lin]; norm_num)
    (by simp only [lin]; norm_num) (by norm_num) (by norm_num)
    (by ext <;> simp only [lin] <;> norm_num),
    if_pos ⟨by norm_num, by simp only [lin]; norm_num, hn⟩]
  congr 1
  ext <;> simp only [lin] <;> norm_num

end Verif.Geo
