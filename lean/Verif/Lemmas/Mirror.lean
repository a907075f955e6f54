import Verif.Lemmas.Transpose

/-!
# Every stage of the detector follows a reflection of the picture
-/

namespace Verif.Akaze

theorem mirror_shows {i : Img ℝ} {w h : Nat} {f : Nat → Nat → ℝ} (hs : i.Shows w h f) :
    (mirror i).Shows w h (fun x y => f (w - 1 - x) y) := by
  obtain ⟨rfl, rfl, h1, h2⟩ := hs
  obtain ⟨a, b, c, d⟩ := ofFn_shows i.w i.h (fun x y => (i.get (i.w - 1 - x) y).getD 0)
  refine ⟨a, b, c, fun x y hx hy => ?_⟩
  have := d x y hx hy
  simp only [h2 (i.w - 1 - x) y (by omega) hy] at this
  exact this

theorem mirror_good {i : Img ℝ} (h : i.Good) : (mirror i).Good := by
  obtain ⟨f, hf⟩ := h.shows
  exact (mirror_shows hf).good h.2.1 h.2.2

theorem Img.Shows.congr {i : Img ℝ} {w h : Nat} {f g : Nat → Nat → ℝ} (hs : i.Shows w h f)
    (hfg : ∀ x y, x < w → y < h → g x y = f x y) : i.Shows w h g :=
  ⟨hs.1, hs.2.1, hs.2.2.1, fun x y hx hy => by rw [hs.2.2.2 x y hx hy, hfg x y hx hy]⟩

theorem eq_mirror {i j : Img ℝ} {w h : Nat} {f g : Nat → Nat → ℝ} (hi : i.Shows w h f) (hj : j.Shows w h g)
    (hfg : ∀ x y, x < w → y < h → f (w - 1 - x) y = g x y) : j = mirror i :=
  (hj.congr hfg).unique (mirror_shows hi)

theorem mirror_w (i : Img ℝ) : (mirror i).w = i.w := rfl
theorem mirror_h (i : Img ℝ) : (mirror i).h = i.h := rfl

theorem negate_eq (i : Img ℝ) : negate i = relight (-1) 0 i := by
  unfold negate relight
  simp

theorem negate_shows {i : Img ℝ} {w h : Nat} {f : Nat → Nat → ℝ} (hs : i.Shows w h f) :
    (negate i).Shows w h (fun x y => -f x y) := by
  rw [negate_eq]
  exact (relight_shows hs (-1) 0).congr (fun x y _ _ => by ring)

theorem negate_good {i : Img ℝ} (h : i.Good) : (negate i).Good := by
  rw [negate_eq]
  exact relight_good h

theorem negate_negate (i : Img ℝ) : negate (negate i) = i := by
  unfold negate
  simp

/-- The sign that a kernel takes when it is reversed. -/
def Reverses (k : List ℝ) (r : Nat) (e : ℝ) : Prop :=
  k.length = 2 * r + 1 ∧ ∀ n ≤ 2 * r, k.getD (2 * r - n) 0 = e * k.getD n 0

theorem clampAt_mirror {w r x n : Nat} (hx : x < w) (hn : n ≤ 2 * r) :
    w - 1 - clampAt w r x n = clampAt w r (w - 1 - x) (2 * r - n) := by
  unfold clampAt
  omega

theorem correlate_mirror {k : List ℝ} {r : Nat} {e : ℝ} (hk : Reverses k r e) {w x : Nat} (hx : x < w) (line : Nat → ℝ) :
    correlate k w (fun x => line (w - 1 - x)) x = e * correlate k w line (w - 1 - x) := by
  unfold correlate
  rw [hk.1, ← Finset.sum_range_reflect, Finset.mul_sum]
  refine Finset.sum_congr rfl (fun n hn => ?_)
  rw [Finset.mem_range] at hn
  have e1 : (2 * r + 1) / 2 = r := by omega
  have e2 : 2 * r + 1 - 1 - n = 2 * r - n := by omega
  rw [e1, e2, hk.2 n (by omega)]
  beta_reduce
  rw [clampAt_mirror hx (by omega)]
  have e3 : 2 * r - (2 * r - n) = n := by omega
  rw [e3]
  ring

theorem correlate_congr {k : List ℝ} {size : Nat} (hs : 0 < size) {f g : Nat → ℝ} (h : ∀ x < size, f x = g x) (x : Nat) :
    correlate k size f x = correlate k size g x := by
  unfold correlate
  refine Finset.sum_congr rfl (fun n _ => ?_)
  rw [h _ (clampAt_lt hs _ _ _)]

theorem correlate_mul (k : List ℝ) (size : Nat) (e : ℝ) (f : Nat → ℝ) (x : Nat) :
    correlate k size (fun x => e * f x) x = e * correlate k size f x := by
  unfold correlate
  rw [Finset.mul_sum]
  refine Finset.sum_congr rfl (fun n _ => ?_)
  ring

theorem separable_mirror {i : Img ℝ} (hi : i.Good) {hk vk : List ℝ} {r : Nat} {e : ℝ} (h1 : Reverses hk r e)
    (h2 : vk.length % 2 = 1) : ∃ o o' f, separableFilter i hk vk = some o ∧ separableFilter (mirror i) hk vk = some o' ∧
      o.Shows i.w i.h f ∧ o'.Shows i.w i.h (fun x y => e * f (i.w - 1 - x) y) := by
  obtain ⟨f, hf⟩ := hi.shows
  have hl : hk.length % 2 = 1 := by have := h1.1; omega
  obtain ⟨o, e1, s⟩ := separable_shows hf hi.2.1 hi.2.2 hl h2
  obtain ⟨o', e2, s'⟩ := separable_shows (mirror_shows hf) hi.2.1 hi.2.2 hl h2
  refine ⟨o, o', _, e1, e2, s, s'.congr (fun x y hx hy => ?_)⟩
  rw [← correlate_mul]
  refine congrArg (fun q => correlate vk i.h q y) ?_
  funext y
  exact (correlate_mirror h1 hx (fun x => f x y)).symm

theorem separable_mirror_even {i : Img ℝ} (hi : i.Good) {hk vk : List ℝ} {r : Nat} (h1 : Reverses hk r 1)
    (h2 : vk.length % 2 = 1) : ∃ o, separableFilter i hk vk = some o ∧ o.Good ∧ o.w = i.w ∧ o.h = i.h ∧
      separableFilter (mirror i) hk vk = some (mirror o) := by
  obtain ⟨o, o', f, e1, e2, s, s'⟩ := separable_mirror hi h1 h2
  refine ⟨o, e1, s.good hi.2.1 hi.2.2, s.1, s.2.1, ?_⟩
  rw [e2, eq_mirror s s' (fun x y _ _ => (one_mul _).symm)]

theorem separable_mirror_odd {i : Img ℝ} (hi : i.Good) {hk vk : List ℝ} {r : Nat} (h1 : Reverses hk r (-1))
    (h2 : vk.length % 2 = 1) : ∃ o, separableFilter i hk vk = some o ∧ o.Good ∧ o.w = i.w ∧ o.h = i.h ∧
      separableFilter (mirror i) hk vk = some (negate (mirror o)) := by
  obtain ⟨o, o', f, e1, e2, s, s'⟩ := separable_mirror hi h1 h2
  refine ⟨o, e1, s.good hi.2.1 hi.2.2, s.1, s.2.1, ?_⟩
  rw [e2]
  congr 1
  refine s'.unique ((negate_shows (mirror_shows s)).congr (fun x y _ _ => ?_))
  ring

theorem gaussian_kernel_reverses {r : ℝ} {radius : Nat} {kernel : List ℝ}
    (hk : gaussianKernel (gaussian r) (radius * 2 + 1) = some kernel) : Reverses kernel radius 1 := by
  unfold gaussianKernel at hk
  rw [if_neg (by omega)] at hk
  have hk := Option.some.inj hk
  subst hk
  refine ⟨by simp [mul_comm], fun n hn => ?_⟩
  have e : (radius * 2 + 1) / 2 = radius := by omega
  have key : ∀ n ≤ 2 * radius, ∀ s : ℝ, (((List.range (radius * 2 + 1)).map (fun i : Nat => gaussian r ((i : Int) -
      ((radius : Nat) : Int)))).map (· / s)).getD n 0 = gaussian r ((n : Int) - radius) / s := by
    intro n hn s
    rw [List.getD_eq_getElem?_getD, List.getElem?_map, List.getElem?_map, List.getElem?_range (by omega)]
    rfl
  rw [e, one_mul, key _ (by omega), key n hn]
  congr 1
  have : ((2 * radius - n : Nat) : Int) - radius = -((n : Int) - radius) := by omega
  rw [this]
  unfold gaussian
  rw [Int.cast_neg, neg_sq]

theorem blur_mirror {i : Img ℝ} (hi : i.Good) (r : ℝ) :
    (blur i r = none ∧ blur (mirror i) r = none) ∨ ∃ o, blur i r = some o ∧ o.Good ∧ o.w = i.w ∧ o.h = i.h ∧
      blur (mirror i) r = some (mirror o) := by
  unfold blur
  by_cases hr : 0 < r
  · rw [if_pos hr, if_pos hr]
    right
    unfold gaussianBlur
    obtain ⟨kernel, hk⟩ : ∃ kernel, gaussianKernel (gaussian r) (⌈2 * r⌉₊ * 2 + 1) = some kernel := by
      unfold gaussianKernel
      rw [if_neg (by omega)]
      exact ⟨_, rfl⟩
    have h := gaussian_kernel_reverses hk
    simp only [hk, Option.bind_eq_bind, Option.bind_some]
    exact separable_mirror_even hi h (by have := h.1; omega)
  · rw [if_neg hr, if_neg hr]
    exact Or.inl ⟨rfl, rfl⟩

theorem simple_reverses : Reverses [-1, 0, 1] 1 (-1) ∧ Reverses [3, 10, 3] 1 1 := by
  refine ⟨⟨rfl, ?_⟩, rfl, ?_⟩ <;>
  · intro n hn
    interval_cases n <;> simp

theorem simpleHorizontal_mirror {i : Img ℝ} (hi : i.Good) : ∃ o, simpleScharrHorizontal i = some o ∧ o.Good ∧
    o.w = i.w ∧ o.h = i.h ∧ simpleScharrHorizontal (mirror i) = some (negate (mirror o)) :=
  separable_mirror_odd hi simple_reverses.1 (vk := [3, 10, 3]) (by simp)

theorem simpleVertical_mirror {i : Img ℝ} (hi : i.Good) : ∃ o, simpleScharrVertical i = some o ∧ o.Good ∧
    o.w = i.w ∧ o.h = i.h ∧ simpleScharrVertical (mirror i) = some (mirror o) :=
  separable_mirror_even hi simple_reverses.2 (vk := [-1, 0, 1]) (by simp)

theorem halfSize_mirror {i : Img ℝ} (hi : i.Good) (he : 2 ∣ i.w) :
    (halfSize i = none ∧ halfSize (mirror i) = none) ∨
      ∃ o, halfSize i = some o ∧ o.Good ∧ o.w = i.w / 2 ∧ halfSize (mirror i) = some (mirror o) := by
  obtain ⟨f, hf⟩ := hi.shows
  by_cases h1 : i.w = 1 ∨ i.h = 1
  · exact Or.inl ⟨(C25_size hi.1).2.2 h1, (C25_size (mirror_good hi).1).2.2 h1⟩
  · rw [not_or] at h1
    obtain ⟨o, e, s⟩ := halfSize_shows hf h1.1 h1.2
    obtain ⟨o', e', s'⟩ := halfSize_shows (mirror_shows hf) h1.1 h1.2
    refine Or.inr ⟨o, e, s.good (by have := hi.2.1; omega) (by have := hi.2.2; omega), s.1, ?_⟩
    rw [e']
    congr 1
    refine eq_mirror s s' ?_
    intro x y hx hy
    have e0 : i.w / 2 * 2 = i.w := by omega
    have e1 : 2 * (i.w / 2 - 1 - x) = i.w - 1 - (2 * x + 1) := by omega
    have e2 : 2 * (i.w / 2 - 1 - x) + 1 = i.w - 1 - 2 * x := by omega
    have key : ∀ (f : Nat → Nat → ℝ) (x : Nat), halfPixel i.w i.h f x y = if i.h / 2 * 2 ≠ i.h ∧ y = i.h / 2 - 1 then
        (f (2 * x) (i.h - 1) + f (2 * x + 1) (i.h - 1)) * (1 / 2)
        else (f (2 * x) (2 * y) + f (2 * x + 1) (2 * y) + f (2 * x) (2 * y + 1) + f (2 * x + 1) (2 * y + 1)) * (1 / 4) := by
      intro f x
      unfold halfPixel
      rw [if_neg (fun h => h.1 e0), if_neg (fun h => h.1 e0)]
    rw [key, key, e2, e1]
    split_ifs <;> ring

theorem startImage_mirror {i : Img ℝ} (hi : i.Good) {o o' : Nat} (he : o < o' → 2 ∣ i.w) :
    (startImage o o' i = none ∧ startImage o o' (mirror i) = none) ∨
      ∃ r, startImage o o' i = some r ∧ r.Good ∧ (r.w = if o < o' then i.w / 2 else i.w) ∧
        startImage o o' (mirror i) = some (mirror r) := by
  unfold startImage
  split
  · rename_i h
    exact halfSize_mirror hi (he h)
  · exact Or.inr ⟨i, rfl, hi, rfl, rfl⟩

theorem step_mirror {lt flow : Img ℝ} (hl : lt.Good) (hf : flow.Good) (hw : flow.w = lt.w) (hh : flow.h = lt.h)
    (s : ℝ) : ∃ o, calculateStep lt flow s = some o ∧ o.Good ∧ o.w = lt.w ∧ o.h = lt.h ∧
      calculateStep (mirror lt) (mirror flow) s = some (mirror o) := by
  obtain ⟨f, sf⟩ := hl.shows
  obtain ⟨c, sc⟩ := hf.shows
  rw [hw, hh] at sc
  obtain ⟨o, e, so⟩ := step_shows sf sc hl.2.1 hl.2.2 s
  obtain ⟨o', e', so'⟩ := step_shows (mirror_shows sf) (mirror_shows sc) hl.2.1 hl.2.2 s
  refine ⟨o, e, so.good hl.2.1 hl.2.2, so.1, so.2.1, ?_⟩
  rw [e']
  congr 1
  refine eq_mirror so so' ?_
  intro x y hx hy
  have fwd : ∀ (f c : Nat → ℝ), flowFwd s lt.w (fun x => f (lt.w - 1 - x)) (fun x => c (lt.w - 1 - x)) x =
      -flowBack s f c (lt.w - 1 - x) := by
    intro f c
    unfold flowFwd flowBack flowBetween
    by_cases h : x + 1 < lt.w
    · rw [if_pos h, if_pos (by omega)]
      have : lt.w - 1 - (x + 1) = lt.w - 1 - x - 1 := by omega
      rw [this]
      ring
    · rw [if_neg h, if_neg (by omega), neg_zero]
  have back : ∀ (f c : Nat → ℝ), flowBack s (fun x => f (lt.w - 1 - x)) (fun x => c (lt.w - 1 - x)) x =
      -flowFwd s lt.w f c (lt.w - 1 - x) := by
    intro f c
    unfold flowFwd flowBack flowBetween
    by_cases h : 1 ≤ x
    · rw [if_pos h, if_pos (by omega)]
      have : lt.w - 1 - (x - 1) = lt.w - 1 - x + 1 := by omega
      rw [this]
      ring
    · rw [if_neg h, if_neg (by omega), neg_zero]
  unfold stepPixel
  rw [fwd (fun x => f x y) (fun x => c x y), back (fun x => f x y) (fun x => c x y)]
  ring

theorem diffuse_mirror {flow : Img ℝ} (hf : flow.Good) : ∀ (steps : List ℝ) {lt : Img ℝ}, lt.Good →
    flow.w = lt.w → flow.h = lt.h → ∃ o, diffuse lt flow steps = some o ∧ o.Good ∧ o.w = lt.w ∧ o.h = lt.h ∧
      diffuse (mirror lt) (mirror flow) steps = some (mirror o)
  | [], lt, hl, _, _ => ⟨lt, rfl, hl, rfl, rfl, rfl⟩
  | s :: steps, lt, hl, hw, hh => by
    obtain ⟨o, e, g, g1, g2, e'⟩ := step_mirror hl hf hw hh s
    obtain ⟨p, e2, k, k1, k2, e2'⟩ := diffuse_mirror hf steps g (hw.trans g1.symm) (hh.trans g2.symm)
    refine ⟨p, ?_, k, k1.trans g1, k2.trans g2, ?_⟩
    · unfold diffuse; simp only [e, Option.bind_eq_bind, Option.bind_some, e2]
    · unfold diffuse; simp only [e', Option.bind_eq_bind, Option.bind_some, e2']

theorem pmG2_mirror {lx ly : Img ℝ} (hx : lx.Good) (hy : ly.Good) (hw : ly.w = lx.w) (hh : ly.h = lx.h) (k : ℝ) :
    (pmG2 lx ly k = none ∧ pmG2 (negate (mirror lx)) (mirror ly) k = none) ∨
      ∃ o, pmG2 lx ly k = some o ∧ o.Good ∧ o.w = lx.w ∧ o.h = lx.h ∧
        pmG2 (negate (mirror lx)) (mirror ly) k = some (mirror o) := by
  obtain ⟨f, sf⟩ := hx.shows
  obtain ⟨g, sg⟩ := hy.shows
  rw [hw, hh] at sg
  by_cases hk : k = 0
  · subst hk
    exact Or.inl ⟨pmG2_zero .., pmG2_zero ..⟩
  · obtain ⟨o, e, s⟩ := pmG2_shows sf sg hk
    obtain ⟨o', e', s'⟩ := pmG2_shows (negate_shows (mirror_shows sf)) (mirror_shows sg) hk
    refine Or.inr ⟨o, e, s.good hx.2.1 hx.2.2, s.1, s.2.1, ?_⟩
    rw [e']
    congr 1
    refine eq_mirror s s' (fun x y _ _ => ?_)
    rw [neg_mul_neg]

theorem contrastOf_mirror {lx ly : Img ℝ} (hx : lx.Good) (hy : ly.Good) (hw : ly.w = lx.w) (hh : ly.h = lx.h)
    (percentile : ℝ) (bins : Nat) : contrastOf (negate (mirror lx)) (mirror ly) lx.w lx.h percentile bins =
      contrastOf lx ly lx.w lx.h percentile bins := by
  obtain ⟨f, sf⟩ := hx.shows
  obtain ⟨g, sg⟩ := hy.shows
  rw [hw, hh] at sg
  refine contrastOf_perm (squares_shows sf sg) (squares_shows (negate_shows (mirror_shows sf)) (mirror_shows sg)) ?_ _ _
  have : (interior lx.w lx.h).Perm ((interior lx.w lx.h).map (fun p => (lx.w - 1 - p.1, p.2))) := by
    rw [List.perm_ext_iff_of_nodup (interior_nodup ..)]
    · rintro ⟨x, y⟩
      rw [List.mem_map]
      constructor
      · intro h
        have := mem_interior.mp h
        refine ⟨(lx.w - 1 - x, y), mem_interior.mpr (by unfold Inside at *; omega), ?_⟩
        unfold Inside at this
        simp only [Prod.mk.injEq, and_true]
        omega
      · rintro ⟨⟨a, b⟩, h, he⟩
        cases he
        have := mem_interior.mp h
        exact mem_interior.mpr (by unfold Inside at *; omega)
    · refine List.Nodup.map_on ?_ (interior_nodup ..)
      rintro ⟨a, b⟩ ha ⟨c, d⟩ hc he
      have h1 := mem_interior.mp ha
      have h2 := mem_interior.mp hc
      unfold Inside at h1 h2
      simp only [Prod.mk.injEq] at he ⊢
      omega
  refine (this.map _).trans (List.Perm.of_eq ?_)
  rw [List.map_map]
  refine List.map_congr_left (fun p _ => ?_)
  simp only [Function.comp]
  ring

theorem contrastFactor_mirror {i : Img ℝ} (hi : i.Good) (percentile scale : ℝ) (bins : Nat) :
    contrastFactor (mirror i) percentile scale bins = contrastFactor i percentile scale bins := by
  unfold contrastFactor
  obtain ⟨e, e'⟩ | ⟨g, e, hg, -, -, e'⟩ := blur_mirror hi scale
  · rw [e, e']
  · obtain ⟨lx, e1, g1, w1, h1, e1'⟩ := simpleHorizontal_mirror hg
    obtain ⟨ly, e2, g2, w2, h2, e2'⟩ := simpleVertical_mirror hg
    simp only [e, e', e1, e1', e2, e2', Option.bind_eq_bind, Option.bind_some, mirror_w, mirror_h]
    rw [← w1, ← h1]
    exact contrastOf_mirror g1 g2 (w2.trans w1.symm) (h2.trans h1.symm) percentile bins

/-! ## The scale space -/

theorem laterScales_mirror (m : Nat) : ∀ (ls : List Level) (contrast : ℝ) (octave : Nat) {before : Img ℝ}, before.Good →
    2 ^ (m - octave) ∣ before.w → (∀ l ∈ ls, octave ≤ l.octave ∧ l.octave ≤ m) →
    ls.Pairwise (fun a b => a.octave ≤ b.octave) →
    laterScales contrast octave (mirror before) ls = (laterScales contrast octave before ls).map (List.map mirrorScale)
  | [], _, _, _, _, _, _, _ => rfl
  | l :: ls, contrast, octave, before, hb, hd, ho, hp => by
    rw [List.pairwise_cons] at hp
    obtain ⟨hl1, hl2⟩ := ho l List.mem_cons_self
    unfold laterScales
    have heven : octave < l.octave → 2 ∣ before.w := fun h =>
      Dvd.dvd.trans (dvd_pow_self 2 (by omega)) hd
    obtain ⟨e, e'⟩ | ⟨start, e, hs, ws, e'⟩ := startImage_mirror hb heven
    · rw [e, e']; rfl
    obtain ⟨e0, e0'⟩ | ⟨g, e0, hg, w0, h0, e0'⟩ := blur_mirror hs 1
    · simp only [e, e', Option.bind_eq_bind, Option.bind_some, e0, e0']; rfl
    obtain ⟨lx, e1, hx, w1, h1, e1'⟩ := simpleHorizontal_mirror hg
    obtain ⟨ly, e2, hy, w2, h2, e2'⟩ := simpleVertical_mirror hg
    simp only [e, e', e0, e0', e1, e1', e2, e2', Option.bind_eq_bind, Option.bind_some]
    obtain ⟨e3, e3'⟩ | ⟨flow, e3, hf, w3, h3, e3'⟩ := pmG2_mirror hx hy (w2.trans w1.symm) (h2.trans h1.symm)
      (if octave < l.octave then contrast * 0.75 else contrast)
    · rw [e3, e3']; rfl
    obtain ⟨lt, e4, hl, w4, h4, e4'⟩ := diffuse_mirror hf l.steps hs (w3.trans (w1.trans w0)) (h3.trans (h1.trans h0))
    simp only [e3, e3', Option.bind_some, e4, e4']
    have hd' : 2 ^ (m - l.octave) ∣ lt.w := by
      rw [w4, ws]
      split
      · rename_i h
        have : 2 ^ (m - l.octave) * 2 ∣ before.w := by
          rw [← pow_succ]
          exact Dvd.dvd.trans (pow_dvd_pow 2 (by omega)) hd
        obtain ⟨q, hq⟩ := this
        rw [hq, mul_assoc, mul_left_comm, Nat.mul_div_cancel_left _ (by norm_num)]
        exact Dvd.intro _ rfl
      · rename_i h
        have : l.octave = octave := by omega
        rw [this]
        exact hd
    rw [laterScales_mirror m ls _ l.octave hl hd' (fun k hk => ⟨hp.1 k hk, (ho k (List.mem_cons_of_mem _ hk)).2⟩) hp.2]
    rcases laterScales (if octave < l.octave then contrast * 0.75 else contrast) l.octave lt ls with _ | rest <;> rfl

theorem allocate_octaves {c : Config} (hn : 0 < c.numSublevels) {w h : Nat} {ls : List Level}
    (ha : allocate c w h = some ls) : (∀ l ∈ ls, l.octave < c.maxOctave) ∧ ls.Pairwise (fun a b => a.octave ≤ b.octave) := by
  obtain ⟨full, extra, ho, hl, h⟩ := C23_levels hn ha
  refine ⟨?_, ?_⟩
  · intro l hm
    obtain ⟨i, hi, rfl⟩ := List.mem_iff_getElem.mp hm
    rw [(h i _ (List.getElem?_eq_getElem hi)).1, Nat.div_lt_iff_lt_mul hn]
    rw [hl] at hi
    have h1 := ho.le
    have h2 := ho.atMost
    rcases Nat.eq_zero_or_pos extra with h0 | h0
    · exact lt_of_lt_of_le (by omega) (Nat.mul_le_mul_right c.numSublevels h1)
    · have := (ho.one.mp (by omega)).1
      have : (full + 1) * c.numSublevels ≤ c.maxOctave * c.numSublevels := Nat.mul_le_mul_right _ this
      rw [add_mul, one_mul] at this
      omega
  · rw [List.pairwise_iff_getElem]
    intro i j hi hj hij
    rw [(h i _ (List.getElem?_eq_getElem hi)).1, (h j _ (List.getElem?_eq_getElem hj)).1]
    exact Nat.div_le_div_right hij.le

theorem scaleSpace_mirror {c : Config} (hn : 0 < c.numSublevels) {i : Img ℝ} (hi : i.Good) (hd : 2 ^ (c.maxOctave - 1) ∣ i.w) :
    scaleSpace c (mirror i) = (scaleSpace c i).map (List.map mirrorScale) := by
  unfold scaleSpace
  rw [mirror_w, mirror_h]
  rcases ha : allocate c i.w i.h with _ | levels
  · rfl
  simp only [Option.bind_eq_bind, Option.bind_some]
  rcases levels with _ | ⟨l, ls⟩
  · rfl
  obtain ⟨h1, h2⟩ := allocate_octaves hn ha
  rw [List.pairwise_cons] at h2
  unfold createScaleSpace
  obtain ⟨e, e'⟩ | ⟨lt, e, hl, wl, -, e'⟩ := blur_mirror hi c.baseScale
  · simp only [e, e']; rfl
  simp only [e, e', Option.bind_eq_bind, Option.bind_some, contrastFactor_mirror hi]
  rcases contrastFactor i c.contrastPercentile 1 c.contrastBins with _ | k
  · rfl
  simp only [Option.bind_some]
  rw [laterScales_mirror (c.maxOctave - 1) ls k l.octave hl
    (by rw [wl]; exact Dvd.dvd.trans (pow_dvd_pow 2 (by omega)) hd)
    (fun x hx => ⟨h2.1 x hx, by have := h1 x (List.mem_cons_of_mem _ hx); omega⟩) h2.2]
  rcases laterScales k l.octave lt ls with _ | rest <;> rfl

/-! ## The detector -/

theorem scharr_mirror {i : Img ℝ} (hi : i.Good) {sigma : Nat} (hs : 0 < sigma) :
    (∃ o, scharrHorizontal i sigma = some o ∧ o.Good ∧ o.w = i.w ∧ o.h = i.h ∧
      scharrHorizontal (mirror i) sigma = some (negate (mirror o))) ∧
    ∃ o, scharrVertical i sigma = some o ∧ o.Good ∧ o.w = i.w ∧ o.h = i.h ∧
      scharrVertical (mirror i) sigma = some (mirror o) := by
  obtain ⟨m, o, hm, ho, eH, eV, rm, ro⟩ := scharr_kernels hs
  rw [eH, eH, eV, eV]
  exact ⟨separable_mirror_odd hi (r := sigma) ⟨hm, fun n hn => by rw [rm n hn]; ring⟩ (by omega),
    separable_mirror_even hi (r := sigma) ⟨ho, fun n hn => by rw [ro n hn]; ring⟩ (by omega)⟩

theorem scharr_negate {i o : Img ℝ} (hi : i.Good) (sigma : Nat) :
    (scharrHorizontal i sigma = some o → scharrHorizontal (negate i) sigma = some (negate o)) ∧
    (scharrVertical i sigma = some o → scharrVertical (negate i) sigma = some (negate o)) := by
  rw [negate_eq, negate_eq]
  refine ⟨fun h => ?_, fun h => ?_⟩
  · obtain ⟨e, -⟩ | ⟨p, e, -, -, -, e'⟩ := scharrHorizontal_relight hi sigma (-1) 0
    · rw [e] at h; cases h
    · rw [e] at h; cases h; exact e'
  · obtain ⟨e, -⟩ | ⟨p, e, -, -, -, e'⟩ := scharrVertical_relight hi sigma (-1) 0
    · rw [e] at h; cases h
    · rw [e] at h; cases h; exact e'

theorem detLevel_mirror (df : ℝ) {s : Scale} (hs : GoodScale s) :
    detLevel df (mirrorScale s) = (detLevel df s).map mirrorLevel := by
  obtain ⟨hlt, hls, hw, hh⟩ := hs
  rcases Nat.eq_zero_or_pos (edgeScale df s.level.octave s.level.esigma) with e | e
  · rw [detLevel_zero e, detLevel_zero (s := mirrorScale s) e]
    rfl
  · obtain ⟨⟨lx, e1, gx, wx, hx, e1'⟩, ly, e2, gy, wy, hy, e2'⟩ := scharr_mirror hls e
    obtain ⟨⟨lxx, e3, gxx, wxx, hxx, e3'⟩, lxy, e4, gxy, wxy, hxy, e4'⟩ := scharr_mirror gx e
    obtain ⟨-, lyy, e5, gyy, wyy, hyy, e5'⟩ := scharr_mirror gy e
    have e3'' := (scharr_negate (mirror_good gx) _).1 e3'
    have e4'' := (scharr_negate (mirror_good gx) _).2 e4'
    rw [negate_negate] at e3''
    obtain ⟨f, sf⟩ := gxx.shows
    obtain ⟨g, sg⟩ := gyy.shows
    obtain ⟨k, sk⟩ := gxy.shows
    have w1 : lyy.w = lxx.w := wyy.trans (wy.trans (wxx.trans wx).symm)
    have h1 : lyy.h = lxx.h := hyy.trans (hy.trans (hxx.trans hx).symm)
    rw [w1, h1] at sg
    rw [wxy.trans wxx.symm, hxy.trans hxx.symm] at sk
    obtain ⟨d, e6, s6⟩ := detectorImage_shows sf sg sk ((edgeScale df s.level.octave s.level.esigma : Nat) : ℝ)
    obtain ⟨d', e6', s6'⟩ := detectorImage_shows (mirror_shows sf) (mirror_shows sg) (negate_shows (mirror_shows sk))
      ((edgeScale df s.level.octave s.level.esigma : Nat) : ℝ)
    have hd : d' = mirror d := eq_mirror s6 s6' (fun x y _ _ => by ring)
    unfold detLevel response mirrorScale
    simp only [e1, e1', e2, e2', e3, e3'', e4, e4'', e5, e5', e6, e6', hd, Option.bind_eq_bind, Option.bind_some]
    rfl

end Verif.Akaze
