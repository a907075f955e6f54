import Verif.Spec.Symmetry
import Verif.Lemmas.Brightness

/-!
# Every stage of the detector follows a transposition of the picture
-/

namespace Verif.Akaze

theorem transpose_shows {i : Img ℝ} {w h : Nat} {f : Nat → Nat → ℝ} (hs : i.Shows w h f) :
    (transpose i).Shows h w (fun x y => f y x) := by
  obtain ⟨rfl, rfl, h1, h2⟩ := hs
  obtain ⟨a, b, c, d⟩ := ofFn_shows i.h i.w (fun x y => (i.get y x).getD 0)
  refine ⟨a, b, c, fun x y hx hy => ?_⟩
  have := d x y hx hy
  simp only [h2 y x hy hx] at this
  exact this

theorem transpose_good {i : Img ℝ} (h : i.Good) : (transpose i).Good := by
  obtain ⟨f, hf⟩ := h.shows
  exact (transpose_shows hf).good h.2.2 h.2.1

theorem eq_transpose {i j : Img ℝ} {w h : Nat} {f : Nat → Nat → ℝ} (hi : i.Shows w h f)
    (hj : j.Shows h w (fun x y => f y x)) : j = transpose i := hj.unique (transpose_shows hi)

theorem transpose_w (i : Img ℝ) : (transpose i).w = i.h := rfl
theorem transpose_h (i : Img ℝ) : (transpose i).h = i.w := rfl

/-- Filtering along rows and along columns may be exchanged. -/
theorem correlate_comm (hk vk : List ℝ) (w h : Nat) (f : Nat → Nat → ℝ) (x y : Nat) :
    correlate vk h (fun y => correlate hk w (fun x => f x y) x) y =
      correlate hk w (fun x => correlate vk h (fun y => f x y) y) x := by
  unfold correlate
  simp only [Finset.sum_mul]
  rw [Finset.sum_comm]
  refine Finset.sum_congr rfl (fun n _ => Finset.sum_congr rfl (fun m _ => ?_))
  ring

theorem separable_transpose {i : Img ℝ} (hi : i.Good) {hk vk : List ℝ} (h1 : hk.length % 2 = 1) (h2 : vk.length % 2 = 1) :
    ∃ o, separableFilter i hk vk = some o ∧ o.Good ∧ o.w = i.w ∧ o.h = i.h ∧
      separableFilter (transpose i) vk hk = some (transpose o) := by
  obtain ⟨f, hf⟩ := hi.shows
  obtain ⟨o, e, s⟩ := separable_shows hf hi.2.1 hi.2.2 h1 h2
  obtain ⟨o', e', s'⟩ := separable_shows (transpose_shows hf) hi.2.2 hi.2.1 h2 h1
  refine ⟨o, e, s.good hi.2.1 hi.2.2, s.1, s.2.1, ?_⟩
  rw [e']
  congr 1
  refine eq_transpose s ?_
  convert s' using 3
  rw [correlate_comm]

theorem blur_transpose {i : Img ℝ} (hi : i.Good) (r : ℝ) :
    (blur i r = none ∧ blur (transpose i) r = none) ∨ ∃ o, blur i r = some o ∧ o.Good ∧ o.w = i.w ∧ o.h = i.h ∧
      blur (transpose i) r = some (transpose o) := by
  unfold blur
  by_cases hr : 0 < r
  · rw [if_pos hr, if_pos hr]
    right
    unfold gaussianBlur
    obtain ⟨kernel, hk⟩ : ∃ kernel, gaussianKernel (gaussian r) (⌈2 * r⌉₊ * 2 + 1) = some kernel := by
      unfold gaussianKernel
      rw [if_neg (by omega)]
      exact ⟨_, rfl⟩
    have hg : ∀ i, 0 < gaussian r i := by
      intro i
      unfold gaussian
      positivity
    obtain ⟨hl, -, hs⟩ := kernel_spec hg hk
    simp only [hk, Option.bind_eq_bind, Option.bind_some]
    exact separable_transpose hi (by omega) (by omega)
  · rw [if_neg hr, if_neg hr]
    exact Or.inl ⟨rfl, rfl⟩

theorem simpleHorizontal_transpose {i : Img ℝ} (hi : i.Good) : ∃ o, simpleScharrHorizontal i = some o ∧ o.Good ∧
    o.w = i.w ∧ o.h = i.h ∧ simpleScharrVertical (transpose i) = some (transpose o) :=
  separable_transpose hi (hk := [-1, 0, 1]) (vk := [3, 10, 3]) (by simp) (by simp)

theorem simpleVertical_transpose {i : Img ℝ} (hi : i.Good) : ∃ o, simpleScharrVertical i = some o ∧ o.Good ∧
    o.w = i.w ∧ o.h = i.h ∧ simpleScharrHorizontal (transpose i) = some (transpose o) :=
  separable_transpose hi (hk := [3, 10, 3]) (vk := [-1, 0, 1]) (by simp) (by simp)

theorem halfSize_transpose {i : Img ℝ} (hi : i.Good) :
    (halfSize i = none ∧ halfSize (transpose i) = none) ∨
      ∃ o, halfSize i = some o ∧ o.Good ∧ halfSize (transpose i) = some (transpose o) := by
  obtain ⟨f, hf⟩ := hi.shows
  by_cases h1 : i.w = 1 ∨ i.h = 1
  · exact Or.inl ⟨(C25_size hi.1).2.2 h1, (C25_size (transpose_good hi).1).2.2 h1.symm⟩
  · rw [not_or] at h1
    obtain ⟨o, e, s⟩ := halfSize_shows hf h1.1 h1.2
    obtain ⟨o', e', s'⟩ := halfSize_shows (transpose_shows hf) h1.2 h1.1
    refine Or.inr ⟨o, e, s.good (by have := hi.2.1; omega) (by have := hi.2.2; omega), ?_⟩
    rw [e']
    congr 1
    refine eq_transpose s ?_
    convert s' using 3 with x y
    unfold halfPixel
    by_cases c1 : i.w / 2 * 2 ≠ i.w ∧ y = i.w / 2 - 1 <;> by_cases c2 : i.h / 2 * 2 ≠ i.h ∧ x = i.h / 2 - 1
    · rw [if_pos ⟨c1.1, c2.1, c1.2, c2.2⟩, if_pos ⟨c2.1, c1.1, c2.2, c1.2⟩]
    · rw [if_neg (fun h => c2 ⟨h.2.1, h.2.2.2⟩), if_pos c1, if_neg (fun h => c2 ⟨h.1, h.2.2.1⟩), if_neg c2, if_pos c1]
    · rw [if_neg (fun h => c1 ⟨h.1, h.2.2.1⟩), if_neg c1, if_pos c2, if_neg (fun h => c1 ⟨h.2.1, h.2.2.2⟩), if_pos c2]
    · rw [if_neg (fun h => c2 ⟨h.2.1, h.2.2.2⟩), if_neg c1, if_neg c2, if_neg (fun h => c2 ⟨h.1, h.2.2.1⟩), if_neg c2,
        if_neg c1]
      ring

theorem startImage_transpose {i : Img ℝ} (hi : i.Good) (o o' : Nat) :
    (startImage o o' i = none ∧ startImage o o' (transpose i) = none) ∨
      ∃ r, startImage o o' i = some r ∧ r.Good ∧ startImage o o' (transpose i) = some (transpose r) := by
  unfold startImage
  split
  · exact halfSize_transpose hi
  · exact Or.inr ⟨i, rfl, hi, rfl⟩

theorem step_transpose {lt flow : Img ℝ} (hl : lt.Good) (hf : flow.Good) (hw : flow.w = lt.w) (hh : flow.h = lt.h)
    (s : ℝ) : ∃ o, calculateStep lt flow s = some o ∧ o.Good ∧ o.w = lt.w ∧ o.h = lt.h ∧
      calculateStep (transpose lt) (transpose flow) s = some (transpose o) := by
  obtain ⟨f, sf⟩ := hl.shows
  obtain ⟨c, sc⟩ := hf.shows
  rw [hw, hh] at sc
  obtain ⟨o, e, so⟩ := step_shows sf sc hl.2.1 hl.2.2 s
  obtain ⟨o', e', so'⟩ := step_shows (transpose_shows sf) (transpose_shows sc) hl.2.2 hl.2.1 s
  refine ⟨o, e, so.good hl.2.1 hl.2.2, so.1, so.2.1, ?_⟩
  rw [e']
  congr 1
  refine eq_transpose so ?_
  convert so' using 3
  unfold stepPixel
  ring

theorem diffuse_transpose {flow : Img ℝ} (hf : flow.Good) : ∀ (steps : List ℝ) {lt : Img ℝ}, lt.Good →
    flow.w = lt.w → flow.h = lt.h → ∃ o, diffuse lt flow steps = some o ∧ o.Good ∧ o.w = lt.w ∧ o.h = lt.h ∧
      diffuse (transpose lt) (transpose flow) steps = some (transpose o)
  | [], lt, hl, _, _ => ⟨lt, rfl, hl, rfl, rfl, rfl⟩
  | s :: steps, lt, hl, hw, hh => by
    obtain ⟨o, e, g, g1, g2, e'⟩ := step_transpose hl hf hw hh s
    obtain ⟨p, e2, k, k1, k2, e2'⟩ := diffuse_transpose hf steps g (hw.trans g1.symm) (hh.trans g2.symm)
    refine ⟨p, ?_, k, k1.trans g1, k2.trans g2, ?_⟩
    · unfold diffuse; simp only [e, Option.bind_eq_bind, Option.bind_some, e2]
    · unfold diffuse; simp only [e', Option.bind_eq_bind, Option.bind_some, e2']

theorem pmG2_shows {lx ly : Img ℝ} {w h : Nat} {f g : Nat → Nat → ℝ} (sf : lx.Shows w h f) (sg : ly.Shows w h g) {k : ℝ}
    (hk : k ≠ 0) : ∃ o, pmG2 lx ly k = some o ∧
      o.Shows w h (fun x y => 1 / (1 + 1 / (k * k) * (f x y * f x y + g x y * g x y))) := by
  obtain ⟨rfl, rfl, -, hf⟩ := sf
  obtain ⟨hw, hh, -, hg⟩ := sg
  refine ⟨_, ?_, ofFn_shows ..⟩
  unfold pmG2
  rw [if_neg (by rw [hw, hh]; simp), if_neg hk]
  refine ofFnM_eq ?_
  intro x y h1 h2
  rw [hf x y h1 h2, hg x y h1 h2]
  rfl

theorem pmG2_zero (lx ly : Img ℝ) : pmG2 lx ly 0 = none := by
  unfold pmG2
  split <;> simp

theorem pmG2_transpose {lx ly : Img ℝ} (hx : lx.Good) (hy : ly.Good) (hw : ly.w = lx.w) (hh : ly.h = lx.h) (k : ℝ) :
    (pmG2 lx ly k = none ∧ pmG2 (transpose ly) (transpose lx) k = none) ∨
      ∃ o, pmG2 lx ly k = some o ∧ o.Good ∧ o.w = lx.w ∧ o.h = lx.h ∧
        pmG2 (transpose ly) (transpose lx) k = some (transpose o) := by
  obtain ⟨f, sf⟩ := hx.shows
  obtain ⟨g, sg⟩ := hy.shows
  rw [hw, hh] at sg
  by_cases hk : k = 0
  · subst hk
    exact Or.inl ⟨pmG2_zero .., pmG2_zero ..⟩
  · obtain ⟨o, e, s⟩ := pmG2_shows sf sg hk
    obtain ⟨o', e', s'⟩ := pmG2_shows (transpose_shows sg) (transpose_shows sf) hk
    refine Or.inr ⟨o, e, s.good hx.2.1 hx.2.2, s.1, s.2.1, ?_⟩
    rw [e']
    congr 1
    refine eq_transpose s ?_
    convert s' using 6
    exact add_comm _ _

/-! ## The contrast factor -/

theorem bump_comm (hist : List Nat) (a b : Nat) : (bump hist a).bind (bump · b) = (bump hist b).bind (bump · a) := by
  unfold bump
  by_cases ha : a < hist.length <;> by_cases hb : b < hist.length
  · simp only [ha, hb, if_true, Option.bind_some, List.length_set]
    congr 1
    by_cases hab : a = b
    · subst hab; rfl
    · rw [List.set_comm _ _ hab]
      congr 1
      · congr 2
        rw [List.getD_eq_getElem?_getD, List.getElem?_set_ne hab, List.getD_eq_getElem?_getD]
      · congr 1
        rw [List.getD_eq_getElem?_getD, List.getD_eq_getElem?_getD, List.getElem?_set_ne (Ne.symm hab)]
  · simp [ha, hb]
  · simp [ha, hb]
  · simp [ha, hb]

theorem fillHistogram_perm (bins : Nat) (hmax : ℝ) {l l' : List ℝ} (h : l.Perm l') : ∀ (hist : List Nat) (n : Nat),
    fillHistogram bins hmax l hist n = fillHistogram bins hmax l' hist n := by
  induction h with
  | nil => exact fun _ _ => rfl
  | cons x _ ih =>
    intro hist n
    unfold fillHistogram
    simp only [ih]
  | swap x y l =>
    intro hist n
    simp only [fillHistogram]
    by_cases h1 : Real.sqrt x = 0 <;> by_cases h2 : Real.sqrt y = 0
    · simp only [h1, h2, if_true]
    · simp only [h1, h2, if_true, if_false]
    · simp only [h1, h2, if_true, if_false]
    · simp only [h1, h2, if_false, Option.bind_eq_bind]
      rcases binNumber bins √x hmax with _ | a
      · rcases binNumber bins √y hmax with _ | b
        · rfl
        · simp
      · rcases binNumber bins √y hmax with _ | b
        · simp
        · simp only [Option.bind_some]
          have := bump_comm hist a b
          rw [← Option.bind_assoc, ← Option.bind_assoc, this]
  | trans _ _ h1 h2 => exact fun hist n => (h1 hist n).trans (h2 hist n)

theorem maximum_perm {l l' : List ℝ} (h : l.Perm l') : maximum? l = maximum? l' := by
  induction h with
  | nil => rfl
  | cons x h _ =>
    simp only [maximum?]
    congr 1
    exact h.foldl_eq' (fun x _ y _ z => by rw [max_assoc, max_comm x, ← max_assoc]) _
  | swap x y l =>
    simp only [maximum?, List.foldl_cons, max_comm]
  | trans _ _ h1 h2 => exact h1.trans h2

theorem contrastOf_perm {lx ly lx' ly' : Img ℝ} {w h w' h' : Nat} {l l' : List ℝ}
    (e : squares lx ly (interior w h) = some l) (e' : squares lx' ly' (interior w' h') = some l') (hp : l.Perm l')
    (percentile : ℝ) (bins : Nat) : contrastOf lx' ly' w' h' percentile bins = contrastOf lx ly w h percentile bins := by
  unfold contrastOf
  simp only [e, e', Option.bind_eq_bind, Option.bind_some, maximum_perm hp, fillHistogram_perm bins _ hp]

theorem squares_shows {lx ly : Img ℝ} {w h : Nat} {f g : Nat → Nat → ℝ} (sf : lx.Shows w h f) (sg : ly.Shows w h g) :
    squares lx ly (interior w h) = some ((interior w h).map (fun p => f p.1 p.2 ^ 2 + g p.1 p.2 ^ 2)) := by
  unfold squares
  have : ∀ ps : List (Nat × Nat), (∀ p ∈ ps, p.1 < w ∧ p.2 < h) → ps.mapM (fun p => do
      let a ← lx.get p.1 p.2
      let b ← ly.get p.1 p.2
      pure (a ^ 2 + b ^ 2)) = some (ps.map (fun p => f p.1 p.2 ^ 2 + g p.1 p.2 ^ 2)) := by
    intro ps
    induction ps with
    | nil => exact fun _ => rfl
    | cons p ps ih =>
      intro hp
      rw [List.mapM_cons, ih (fun q hq => hp q (List.mem_cons_of_mem _ hq))]
      obtain ⟨h1, h2⟩ := hp p List.mem_cons_self
      rw [sf.2.2.2 _ _ h1 h2, sg.2.2.2 _ _ h1 h2]
      rfl
  refine this _ (fun p hp => ?_)
  have := mem_interior.mp hp
  unfold Inside at this
  omega

theorem contrastOf_transpose {lx ly : Img ℝ} (hx : lx.Good) (hy : ly.Good) (hw : ly.w = lx.w) (hh : ly.h = lx.h)
    (percentile : ℝ) (bins : Nat) : contrastOf (transpose ly) (transpose lx) lx.h lx.w percentile bins =
      contrastOf lx ly lx.w lx.h percentile bins := by
  obtain ⟨f, sf⟩ := hx.shows
  obtain ⟨g, sg⟩ := hy.shows
  rw [hw, hh] at sg
  refine contrastOf_perm (squares_shows sf sg) (squares_shows (transpose_shows sg) (transpose_shows sf)) ?_ _ _
  have : (interior lx.w lx.h).Perm ((interior lx.h lx.w).map Prod.swap) := by
    rw [List.perm_ext_iff_of_nodup (interior_nodup ..) ((interior_nodup ..).map Prod.swap_injective)]
    rintro ⟨x, y⟩
    rw [List.mem_map]
    constructor
    · intro h
      have := mem_interior.mp h
      exact ⟨(y, x), mem_interior.mpr (by unfold Inside at *; omega), rfl⟩
    · rintro ⟨⟨a, b⟩, h, he⟩
      cases he
      have := mem_interior.mp h
      exact mem_interior.mpr (by unfold Inside at *; omega)
  refine (this.map _).trans (List.Perm.of_eq ?_)
  rw [List.map_map]
  refine List.map_congr_left (fun p _ => ?_)
  simp only [Function.comp, Prod.fst_swap, Prod.snd_swap]
  ring

theorem contrastFactor_transpose {i : Img ℝ} (hi : i.Good) (percentile scale : ℝ) (bins : Nat) :
    contrastFactor (transpose i) percentile scale bins = contrastFactor i percentile scale bins := by
  unfold contrastFactor
  obtain ⟨e, e'⟩ | ⟨g, e, hg, -, -, e'⟩ := blur_transpose hi scale
  · rw [e, e']
  · obtain ⟨lx, e1, g1, w1, h1, e1'⟩ := simpleHorizontal_transpose hg
    obtain ⟨ly, e2, g2, w2, h2, e2'⟩ := simpleVertical_transpose hg
    simp only [e, e', e1, e1', e2, e2', Option.bind_eq_bind, Option.bind_some, transpose_w, transpose_h]
    rw [← w1, ← h1]
    exact contrastOf_transpose g1 g2 (w2.trans w1.symm) (h2.trans h1.symm) percentile bins

/-! ## The scale space -/

theorem laterScales_transpose : ∀ (ls : List Level) (contrast : ℝ) (octave : Nat) {before : Img ℝ},
    before.Good → laterScales contrast octave (transpose before) ls =
        (laterScales contrast octave before ls).map (List.map transposeScale)
  | [], _, _, _, _ => rfl
  | l :: ls, contrast, octave, before, hb => by
    unfold laterScales
    obtain ⟨e, e'⟩ | ⟨start, e, hs, e'⟩ := startImage_transpose hb octave l.octave
    · rw [e, e']; rfl
    obtain ⟨e0, e0'⟩ | ⟨g, e0, hg, w0, h0, e0'⟩ := blur_transpose hs 1
    · simp only [e, e', Option.bind_eq_bind, Option.bind_some, e0, e0']; rfl
    obtain ⟨lx, e1, hx, w1, h1, e1'⟩ := simpleHorizontal_transpose hg
    obtain ⟨ly, e2, hy, w2, h2, e2'⟩ := simpleVertical_transpose hg
    simp only [e, e', e0, e0', e1, e1', e2, e2', Option.bind_eq_bind, Option.bind_some]
    obtain ⟨e3, e3'⟩ | ⟨flow, e3, hf, w3, h3, e3'⟩ := pmG2_transpose hx hy (w2.trans w1.symm) (h2.trans h1.symm)
      (if octave < l.octave then contrast * 0.75 else contrast)
    · rw [e3, e3']; rfl
    obtain ⟨lt, e4, hl, w4, h4, e4'⟩ := diffuse_transpose hf l.steps hs (w3.trans (w1.trans w0)) (h3.trans (h1.trans h0))
    simp only [e3, e3', Option.bind_some, e4, e4']
    rw [laterScales_transpose ls _ l.octave hl]
    rcases laterScales (if octave < l.octave then contrast * 0.75 else contrast) l.octave lt ls with _ | rest <;> rfl

theorem sublevelsOf_swap (c : Config) (w h o : Nat) : sublevelsOf c h w o = sublevelsOf c w h o := by
  unfold sublevelsOf
  rw [min_comm]

theorem allocate_swap (c : Config) (w h : Nat) : allocate c h w = allocate c w h := by
  unfold allocate levelNumbers
  simp only [sublevelsOf_swap]

theorem scaleSpace_transpose (c : Config) {i : Img ℝ} (hi : i.Good) :
    scaleSpace c (transpose i) = (scaleSpace c i).map (List.map transposeScale) := by
  unfold scaleSpace
  rw [transpose_w, transpose_h, allocate_swap]
  rcases allocate c i.w i.h with _ | levels
  · rfl
  simp only [Option.bind_eq_bind, Option.bind_some]
  rcases levels with _ | ⟨l, ls⟩
  · rfl
  unfold createScaleSpace
  obtain ⟨e, e'⟩ | ⟨lt, e, hl, -, -, e'⟩ := blur_transpose hi c.baseScale
  · simp only [e, e']; rfl
  simp only [e, e', Option.bind_eq_bind, Option.bind_some, contrastFactor_transpose hi]
  rcases contrastFactor i c.contrastPercentile 1 c.contrastBins with _ | k
  · rfl
  simp only [Option.bind_some]
  rw [laterScales_transpose ls k l.octave hl]
  rcases laterScales k l.octave lt ls with _ | rest <;> rfl

/-! ## The detector -/

theorem detectorImage_shows {lxx lyy lxy : Img ℝ} {w h : Nat} {f g k : Nat → Nat → ℝ} (sf : lxx.Shows w h f)
    (sg : lyy.Shows w h g) (sk : lxy.Shows w h k) (sigma : ℝ) : ∃ o, detectorImage lxx lyy lxy sigma = some o ∧
      o.Shows w h (fun x y => (f x y * g x y - k x y * k x y) * sigma ^ 4) := by
  refine ⟨_, ?_, ofFn_shows ..⟩
  unfold detectorImage
  rw [if_neg (by rw [sf.1, sf.2.1, sg.1, sg.2.1, sk.1, sk.2.1]; simp), sf.1, sf.2.1]
  refine ofFnM_eq ?_
  intro x y hx hy
  rw [sf.2.2.2 x y hx hy, sg.2.2.2 x y hx hy, sk.2.2.2 x y hx hy]
  rfl

theorem getD_ends {s n : Nat} {a b : ℝ} (hs : 0 < s) (hn : n ≤ 2 * s) :
    (((List.replicate (2 * s + 1) (0 : ℝ)).set 0 a).set (2 * s) b).getD n 0 =
      if n = 2 * s then b else if n = 0 then a else 0 := by
  rw [List.getD_eq_getElem?_getD, List.getElem?_set, List.getElem?_set, List.getElem?_replicate]
  simp only [List.length_set, List.length_replicate]
  split_ifs <;> first | omega | simp

theorem getD_three {s n : Nat} {a b c : ℝ} (hs : 0 < s) (hn : n ≤ 2 * s) :
    ((((List.replicate (2 * s + 1) (0 : ℝ)).set 0 a).set s b).set (2 * s) c).getD n 0 =
      if n = 2 * s then c else if n = s then b else if n = 0 then a else 0 := by
  rw [List.getD_eq_getElem?_getD, List.getElem?_set, List.getElem?_set, List.getElem?_set, List.getElem?_replicate]
  simp only [List.length_set, List.length_replicate]
  split_ifs <;> first | omega | simp

/-- The kernels of the edge filter. -/
theorem scharr_kernels {sigma : Nat} (hs : 0 < sigma) : ∃ m o : List ℝ, m.length = 2 * sigma + 1 ∧ o.length = 2 * sigma + 1 ∧
    (∀ i, scharrHorizontal i sigma = separableFilter i m o) ∧ (∀ i, scharrVertical i sigma = separableFilter i o m) ∧
    (∀ n ≤ 2 * sigma, m.getD (2 * sigma - n) 0 = -m.getD n 0) ∧ (∀ n ≤ 2 * sigma, o.getD (2 * sigma - n) 0 = o.getD n 0) := by
  by_cases h1 : sigma = 1
  · subst h1
    refine ⟨[-1, 0, 1], [3, 10, 3], rfl, rfl, fun i => rfl, fun i => rfl, ?_, ?_⟩ <;>
    · intro n hn
      interval_cases n <;> simp
  · have hk : 3 + 2 * (sigma - 1) = 2 * sigma + 1 := by omega
    refine ⟨((List.replicate (2 * sigma + 1) (0 : ℝ)).set 0 (-1)).set (2 * sigma) 1,
      (((List.replicate (2 * sigma + 1) (0 : ℝ)).set 0 (1 / (2 * sigma * (10 / 3 + 2)))).set ((2 * sigma + 1) / 2)
        (1 / (2 * sigma * (10 / 3 + 2)) * (10 / 3))).set (2 * sigma) (1 / (2 * sigma * (10 / 3 + 2))), by simp, by simp, ?_, ?_,
      ?_, ?_⟩
    · intro i
      simp only [scharrHorizontal, if_neg h1, scharrMain, scharrOff, if_neg hs.ne', hk, Option.bind_eq_bind, Option.bind_some,
        Nat.add_sub_cancel]
    · intro i
      simp only [scharrVertical, if_neg h1, scharrMain, scharrOff, if_neg hs.ne', hk, Option.bind_eq_bind, Option.bind_some,
        Nat.add_sub_cancel]
    · intro n hn
      rw [getD_ends hs (by omega), getD_ends hs hn]
      split_ifs <;> first | omega | simp
    · intro n hn
      have e : (2 * sigma + 1) / 2 = sigma := by omega
      rw [e, getD_three hs (by omega), getD_three hs hn]
      split_ifs <;> first | omega | simp

theorem scharr_zero (i : Img ℝ) : scharrHorizontal i 0 = none ∧ scharrVertical i 0 = none := ⟨rfl, rfl⟩

theorem clampAt_inside {size r x n : Nat} (h1 : r ≤ x + n) (h2 : x + n < size + r) : clampAt size r x n = x + n - r := by
  unfold clampAt
  omega

/-- Away from the ends two filters along a line may be exchanged. -/
theorem correlate_swap {k k' : List ℝ} {r r' : Nat} (hk : k.length = 2 * r + 1) (hk' : k'.length = 2 * r' + 1) {size x : Nat}
    (h1 : r + r' ≤ x) (h2 : x + (r + r') < size) (line : Nat → ℝ) :
    correlate k size (correlate k' size line) x = correlate k' size (correlate k size line) x := by
  have key : ∀ {k k' : List ℝ} {r r' : Nat}, k.length = 2 * r + 1 → k'.length = 2 * r' + 1 → r + r' ≤ x → x + (r + r') < size →
      correlate k size (correlate k' size line) x = ∑ n ∈ Finset.range k.length, ∑ m ∈ Finset.range k'.length,
        line (x + n + m - (r + r')) * (k'.getD m 0 * k.getD n 0) := by
    intro k k' r r' hk hk' h1 h2
    unfold correlate
    refine Finset.sum_congr rfl (fun n hn => ?_)
    rw [Finset.sum_mul]
    refine Finset.sum_congr rfl (fun m hm => ?_)
    rw [Finset.mem_range] at hn hm
    have e1 : k.length / 2 = r := by omega
    have e2 : k'.length / 2 = r' := by omega
    rw [e1, e2, clampAt_inside (x := x) (by omega) (by omega), clampAt_inside (by omega) (by omega)]
    have : x + n - r + m - r' = x + n + m - (r + r') := by omega
    rw [this]
    ring
  rw [key hk hk' h1 h2, key hk' hk (by omega) (by omega), Finset.sum_comm]
  refine Finset.sum_congr rfl (fun n hn => Finset.sum_congr rfl (fun m hm => ?_))
  have : x + m + n - (r + r') = x + n + m - (r' + r) := by omega
  rw [this]
  ring

/-- What a separable filter makes of an image. -/
noncomputable def sep (hk vk : List ℝ) (w h : Nat) (f : Nat → Nat → ℝ) : Nat → Nat → ℝ :=
  fun x y => correlate vk h (fun y => correlate hk w (fun x => f x y) x) y

theorem sep_transpose (hk vk : List ℝ) (w h : Nat) (f : Nat → Nat → ℝ) :
    sep vk hk h w (fun x y => f y x) = fun x y => sep hk vk w h f y x := by
  funext x y
  exact (correlate_comm hk vk w h f y x).symm

theorem sep_swap {a b c d : List ℝ} {r : Nat} (ha : a.length = 2 * r + 1) (hb : b.length = 2 * r + 1)
    (hc : c.length = 2 * r + 1) (hd : d.length = 2 * r + 1) {w h x y : Nat} (h1 : 2 * r ≤ x) (h2 : x + 2 * r < w)
    (h3 : 2 * r ≤ y) (h4 : y + 2 * r < h) (f : Nat → Nat → ℝ) :
    sep a b w h (sep c d w h f) x y = sep c d w h (sep a b w h f) x y := by
  have key : ∀ (a b c d : List ℝ), sep a b w h (sep c d w h f) x y =
      correlate b h (correlate d h (fun y => correlate a w (correlate c w (fun x => f x y)) x)) y := by
    intro a b c d
    show correlate b h (fun y => correlate a w (fun x => correlate d h (fun y => correlate c w (fun x => f x y) x) y) x) y = _
    congr 1
    funext y
    exact (correlate_comm a d w h (fun x y => correlate c w (fun x => f x y) x) x y).symm
  rw [key, key, correlate_swap hb hd (by omega) (by omega)]
  congr 2
  funext y
  exact correlate_swap ha hc (by omega) (by omega) _

/-- What the detector makes of the smoothed image of a level. -/
theorem detLevel_shows {s : Scale} {w h sigma : Nat} {f : Nat → Nat → ℝ} {df : ℝ} (hs : s.lsmooth.Shows w h f) (hw : 0 < w)
    (hh : 0 < h) (e : edgeScale df s.level.octave s.level.esigma = sigma) {m o : List ℝ} (hm : m.length = 2 * sigma + 1)
    (ho : o.length = 2 * sigma + 1) (eH : ∀ i, scharrHorizontal i sigma = separableFilter i m o)
    (eV : ∀ i, scharrVertical i sigma = separableFilter i o m) : ∃ l, detLevel df s = some l ∧
      l.octave = s.level.octave ∧ l.esigma = s.level.esigma ∧ l.lt = s.lt ∧ l.lx.Shows w h (sep m o w h f) ∧
      l.ly.Shows w h (sep o m w h f) ∧ l.ldet.Shows w h (fun x y => (sep m o w h (sep m o w h f) x y *
        sep o m w h (sep o m w h f) x y - sep o m w h (sep m o w h f) x y * sep o m w h (sep m o w h f) x y) *
          (sigma : ℝ) ^ 4) := by
  have sh : ∀ {i : Img ℝ} {f : Nat → Nat → ℝ}, i.Shows w h f → (∃ out, scharrHorizontal i sigma = some out ∧
      out.Shows w h (sep m o w h f)) ∧ ∃ out, scharrVertical i sigma = some out ∧ out.Shows w h (sep o m w h f) := by
    intro i f hi
    rw [eH, eV]
    exact ⟨separable_shows hi hw hh (by omega) (by omega), separable_shows hi hw hh (by omega) (by omega)⟩
  obtain ⟨⟨lx, e1, s1⟩, ly, e2, s2⟩ := sh hs
  obtain ⟨⟨lxx, e3, s3⟩, lxy, e4, s4⟩ := sh s1
  obtain ⟨-, lyy, e5, s5⟩ := sh s2
  obtain ⟨d, e6, s6⟩ := detectorImage_shows s3 s5 s4 (sigma : ℝ)
  refine ⟨⟨s.level.octave, s.level.esigma, s.lt, lx, ly, d⟩, ?_, rfl, rfl, rfl, s1, s2, s6⟩
  unfold detLevel response
  simp only [e, e1, e2, e3, e4, e5, e6, Option.bind_eq_bind, Option.bind_some]
  rfl

theorem detLevel_zero {df : ℝ} {s : Scale} (e : edgeScale df s.level.octave s.level.esigma = 0) : detLevel df s = none := by
  unfold detLevel
  simp only [e]
  rfl

theorem detLevel_transpose (df : ℝ) {s : Scale} (hs : GoodScale s) :
    (detLevel df s = none ∧ detLevel df (transposeScale s) = none) ∨ ∃ l l', detLevel df s = some l ∧
      detLevel df (transposeScale s) = some l' ∧ GoodDet l ∧ GoodDet l' ∧
      TransposedLevels (2 * edgeScale df l.octave l.esigma) l l' := by
  obtain ⟨hlt, hls, hw, hh⟩ := hs
  obtain ⟨f, sf⟩ := hls.shows
  obtain ⟨ft, st⟩ := hlt.shows
  rw [hw, hh] at st
  rcases Nat.eq_zero_or_pos (edgeScale df s.level.octave s.level.esigma) with e | e
  · exact Or.inl ⟨detLevel_zero e, detLevel_zero e⟩
  · obtain ⟨m, o, hm, ho, eH, eV, -, -⟩ := scharr_kernels e
    obtain ⟨l, e1, a1, a2, a3, a4, a5, a6⟩ := detLevel_shows sf hls.2.1 hls.2.2 rfl hm ho eH eV
    obtain ⟨l', e1', b1, b2, b3, b4, b5, b6⟩ := detLevel_shows (s := transposeScale s) (transpose_shows sf) hls.2.2 hls.2.1
      rfl hm ho eH eV
    refine Or.inr ⟨l, l', e1, e1', ?_, ?_, ?_⟩
    · exact ⟨_, _, ft, _, _, _, hls.2.1, hls.2.2, by rw [a3]; exact st, a4, a5, a6⟩
    · exact ⟨_, _, _, _, _, _, hls.2.2, hls.2.1, by rw [b3]; exact transpose_shows st, b4, b5, b6⟩
    · refine ⟨b1.trans a1.symm, b2.trans a2.symm, by rw [b3, a3]; rfl, ?_, ?_, ?_, ?_, ?_⟩
      · refine eq_transpose a5 ?_
        rw [sep_transpose] at b4
        exact b4
      · refine eq_transpose a4 ?_
        rw [sep_transpose] at b5
        exact b5
      · rw [b6.1, a6.2.1]
      · rw [b6.2.1, a6.1]
      · intro x y h1 h2 h3 h4
        rw [a1, a2] at h1 h2 h3 h4
        rw [a6.1] at h2
        rw [a6.2.1] at h4
        rw [a6.2.2.2 x y (by omega) (by omega), b6.2.2.2 y x (by omega) (by omega)]
        have t : ∀ (hk vk hk' vk' : List ℝ), sep hk vk s.lsmooth.h s.lsmooth.w (sep hk' vk' s.lsmooth.h s.lsmooth.w
            (fun x y => f y x)) y x = sep vk hk s.lsmooth.w s.lsmooth.h (sep vk' hk' s.lsmooth.w s.lsmooth.h f) x y := by
          intro hk vk hk' vk'
          rw [sep_transpose vk' hk', sep_transpose vk hk]
        beta_reduce
        rw [t, t, t, sep_swap hm ho ho hm h1 h2 h3 h4, mul_comm (sep o m _ _ (sep o m _ _ f) x y)]
        rfl

end Verif.Akaze
