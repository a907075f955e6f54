import Verif.Lemmas.Evolution
import Verif.Props.FedStable
import Verif.Props.Diffusion
import Verif.Props.HalfSize

/-!
# The scale space of an image: C23 and C72
-/

namespace Verif.Akaze

/-! ## C23: the levels -/

/-- **C23** What is allocated for a `w` by `h` image: level `i` belongs to octave `i / n` and has sublevel `i % n`,
its scale is the base scale times `2^(i / n)` and its time half the square of that; the number of levels is given by
how often both sides can be halved with 80 (for all sublevels) or 40 pixels (for one) left. The first level has no time
steps, those of the others are the ones for the time since the level before. -/
theorem C23_levels {c : Config} (hn : 0 < c.numSublevels) {w h : Nat} {ls : List Level}
    (ha : allocate c w h = some ls) : ∃ full extra, Octaves c.maxOctave w h full extra ∧
      ls.length = full * c.numSublevels + extra ∧ ∀ i l, ls[i]? = some l →
        l.octave = i / c.numSublevels ∧ l.sublevel = i % c.numSublevels ∧
        l.esigma = scaleOf c i ∧ l.etime = l.esigma ^ 2 / 2 ∧
        (0 ≤ c.baseScale → |(l.sigmaSize : ℝ) - l.esigma| ≤ 1 / 2) ∧ AtLeast w h 40 l.octave ∧
        (i = 0 → l.steps = []) ∧
        ∀ b, 0 < i → ls[i - 1]? = some b →
          fedByProcessTime (l.etime - b.etime) 1 (1 / 4) true = some l.steps := by
  obtain ⟨full, extra, ho, -⟩ := levels_upto c hn w h c.maxOctave
  rw [allocate_eq c hn ho] at ha
  have hround : ∀ i, 0 ≤ c.baseScale → |((⌊scaleOf c i + 1 / 2⌋₊ : Nat) : ℝ) - scaleOf c i| ≤ 1 / 2 := by
    intro i hb
    have h0 : 0 ≤ scaleOf c i := mul_nonneg hb (Real.rpow_nonneg (by norm_num) _)
    have h1 := Nat.floor_le (show 0 ≤ scaleOf c i + 1 / 2 by linarith)
    have h2 := Nat.lt_floor_add_one (scaleOf c i + 1 / 2)
    rw [abs_le]
    constructor <;> linarith
  have hoct : ∀ i, i < full * c.numSublevels + extra → AtLeast w h 40 (i / c.numSublevels) := by
    intro i hi
    by_cases h1 : i / c.numSublevels < full
    · exact (ho.all _ h1).weaken (by norm_num)
    · have h2 : full * c.numSublevels ≤ i := by
        rw [not_lt, Nat.le_div_iff_mul_le hn] at h1
        exact h1
      have h3 := ho.atMost
      have h4 : extra = 1 := by omega
      have h5 : i = full * c.numSublevels := by omega
      rw [h5, Nat.mul_div_cancel _ hn]
      exact (ho.one.mp h4).2
  refine ⟨full, extra, ho, ?_⟩
  by_cases h0 : full * c.numSublevels + extra = 0
  · rw [if_pos h0] at ha
    obtain rfl := Option.some.inj ha
    exact ⟨h0.symm, fun i l hl => by cases hl⟩
  · rw [if_neg h0, Option.map_eq_some_iff] at ha
    obtain ⟨rest, hr, rfl⟩ := ha
    obtain ⟨k, hk⟩ : ∃ k, full * c.numSublevels + extra = k + 1 := ⟨_, (Nat.succ_pred_eq_of_ne_zero h0).symm⟩
    rw [hk, Nat.add_sub_cancel] at hr
    obtain ⟨h1, h2⟩ := setSteps_spec c k 0 hr
    refine ⟨by simp [h1, hk], fun i l hl => ?_⟩
    have hplain : ∀ i l, (plainLevel c 0 :: rest)[i]? = some l → i < k + 1 ∧ ∃ steps, l = levelWith c i steps ∧
        (i = 0 → steps = []) ∧
        (∀ j, i = j + 1 → fedByProcessTime (timeBetween c j) 1 (1 / 4) true = some steps) := by
      intro i l hl
      cases i with
      | zero =>
        rw [List.getElem?_cons_zero] at hl
        obtain rfl := Option.some.inj hl
        exact ⟨by omega, [], rfl, fun _ => rfl, fun j hj => by omega⟩
      | succ i =>
        rw [List.getElem?_cons_succ] at hl
        have hi : i < k := by
          rw [← h1]
          exact (List.getElem?_eq_some_iff.mp hl).1
        obtain ⟨steps, a, b⟩ := h2 i hi
        rw [b] at hl
        refine ⟨by omega, steps, ?_, fun h => by omega, fun j hj => ?_⟩
        · rw [← Option.some.inj hl]
          congr 1
          omega
        · obtain rfl : i = j := by omega
          rw [← a, Nat.zero_add]
    obtain ⟨hi, steps, rfl, hs0, hs⟩ := hplain i l hl
    refine ⟨rfl, rfl, rfl, ?_, hround i, hoct i (by omega), hs0, fun b hi0 hb => ?_⟩
    · simp only [levelWith, plainLevel]; ring
    · obtain ⟨-, st, rfl, -⟩ := hplain _ _ hb
      obtain ⟨j, rfl⟩ : ∃ j, i = j + 1 := ⟨i - 1, by omega⟩
      exact hs j rfl

/-- **C23** The scales of the levels strictly increase. -/
theorem C23_increasing {c : Config} (hn : 0 < c.numSublevels) (hb : 0 < c.baseScale) {w h : Nat} {ls : List Level}
    (ha : allocate c w h = some ls) {i j : Nat} {l m : Level} (hij : i < j) (hl : ls[i]? = some l)
    (hm : ls[j]? = some m) : l.esigma < m.esigma ∧ l.etime < m.etime ∧ l.octave ≤ m.octave := by
  obtain ⟨full, extra, -, -, h⟩ := C23_levels hn ha
  obtain ⟨a1, -, a3, a4, -⟩ := h i l hl
  obtain ⟨b1, -, b3, b4, -⟩ := h j m hm
  have hn' : (0 : ℝ) < c.numSublevels := by exact_mod_cast hn
  have h0 : 0 < scaleOf c i := mul_pos hb (Real.rpow_pos_of_pos (by norm_num) _)
  have hlt : scaleOf c i < scaleOf c j := by
    refine mul_lt_mul_of_pos_left ?_ hb
    refine Real.rpow_lt_rpow_of_exponent_lt (by norm_num) ?_
    have : (i : ℝ) < j := by exact_mod_cast hij
    gcongr
  refine ⟨by rw [a3, b3]; exact hlt, ?_, by rw [a1, b1]; exact Nat.div_le_div_right hij.le⟩
  rw [a4, b4, a3, b3]
  nlinarith

theorem allocate_none (c : Config) (hn : 0 < c.numSublevels) {w h full extra : Nat}
    (ho : Octaves c.maxOctave w h full extra) : allocate c w h = none ↔
      ∃ k, k + 1 < full * c.numSublevels + extra ∧ stepCount (timeBetween c k) (1 / 4) = 1 := by
  rw [allocate_eq c hn ho]
  by_cases h0 : full * c.numSublevels + extra = 0
  · rw [if_pos h0]
    constructor
    · intro h; cases h
    · rintro ⟨k, hk, -⟩; omega
  · rw [if_neg h0, Option.map_eq_none_iff, setSteps_none]
    constructor
    · rintro ⟨k, hk, h⟩
      rw [Nat.zero_add] at h
      exact ⟨k, by omega, steps_none.mp h⟩
    · rintro ⟨k, hk, h⟩
      refine ⟨k, by omega, ?_⟩
      rw [Nat.zero_add]
      exact steps_none.mpr h

/-- **C23** Allocation succeeds for every image size if the time up to the second level needs two steps. -/
theorem C23_allocates {c : Config} (hn : 0 < c.numSublevels) (ht : 1 / 6 + 1 / 10 ^ 8 < firstTime c) (w h : Nat) :
    ∃ ls, allocate c w h = some ls := by
  obtain ⟨full, extra, ho, -⟩ := levels_upto c hn w h c.maxOctave
  rw [← Option.ne_none_iff_exists']
  rw [Ne, allocate_none c hn ho]
  rintro ⟨k, -, hk⟩
  exact several_steps (lt_of_lt_of_le ht (timeBetween_ge c k)) hk

/-- **C23, refuted for close levels.** If that time is at most a sixth, allocation fails (it panics, or does not end in
a build without overflow checks) for every image with at least 80 pixels on both sides. -/
theorem C23_close_levels {c : Config} (hn : 2 ≤ c.numSublevels) (hm : 1 ≤ c.maxOctave)
    (h1 : 1 / 10 ^ 8 ≤ firstTime c) (h2 : firstTime c ≤ 1 / 6) {w h : Nat} (hw : 80 ≤ w) (hh : 80 ≤ h) :
    allocate c w h = none := by
  obtain ⟨full, extra, ho, -⟩ := levels_upto c (by omega) w h c.maxOctave
  rw [allocate_none c (by omega) ho]
  refine ⟨0, ?_, ?_⟩
  · have hf : 1 ≤ full := by
      by_contra hf
      obtain rfl : full = 0 := by omega
      exact ho.next (by omega) ⟨by simpa using hw, by simpa using hh⟩
    nlinarith
  · rw [timeBetween_eq]
    simp only [Nat.cast_zero, zero_div, Real.rpow_zero, one_mul]
    exact oneStep h1 h2

theorem default_time : 1 / 6 + 1 / 10 ^ 8 < firstTime Config.default := by
  have h : (1.4 : ℝ) ≤ (4 : ℝ) ^ (1 / ((4 : Nat) : ℝ)) := by
    have h1 : ((1.4 : ℝ) ^ 4) ^ (((4 : Nat) : ℝ)⁻¹) = 1.4 := Real.pow_rpow_inv_natCast (by norm_num) (by norm_num)
    rw [← h1, one_div]
    exact Real.rpow_le_rpow (by norm_num) (by norm_num) (by norm_num)
  unfold firstTime Config.default
  norm_num at h ⊢
  linarith

/-- **C23** With the default settings allocation never fails. -/
theorem C23_default (w h : Nat) : ∃ ls, allocate Config.default w h = some ls :=
  C23_allocates (by norm_num [Config.default]) default_time w h

/-- **C23, refuted.** With the default settings but twelve to a million sublevels, allocation fails for every image
with at least 80 pixels on both sides. -/
theorem C23_many_sublevels {n : Nat} (h1 : 12 ≤ n) (h2 : n ≤ 10 ^ 6) {w h : Nat} (hw : 80 ≤ w) (hh : 80 ≤ h) :
    allocate { Config.default with numSublevels := n } w h = none := by
  have hn : (0 : ℝ) < n := by exact_mod_cast (by omega : 0 < n)
  have e : firstTime { Config.default with numSublevels := n } = 1.28 * ((4 : ℝ) ^ (1 / (n : ℝ)) - 1) := by
    unfold firstTime Config.default
    norm_num
  have hup : (4 : ℝ) ^ (1 / (n : ℝ)) ≤ 1.13 := by
    have h3 : ((1.13 : ℝ) ^ 12) ^ (((12 : Nat) : ℝ)⁻¹) = 1.13 := Real.pow_rpow_inv_natCast (by norm_num) (by norm_num)
    rw [← h3, one_div]
    have h4 : (4 : ℝ) ^ ((n : ℝ)⁻¹) ≤ (4 : ℝ) ^ (((12 : Nat) : ℝ)⁻¹) := by
      refine Real.rpow_le_rpow_of_exponent_le (by norm_num) ?_
      have : ((12 : Nat) : ℝ) ≤ n := by exact_mod_cast h1
      gcongr
    exact h4.trans (Real.rpow_le_rpow (by norm_num) (by norm_num) (by norm_num))
  have hlo : 1 + 1 / (n : ℝ) ≤ (4 : ℝ) ^ (1 / (n : ℝ)) := by
    rw [Real.rpow_def_of_pos (by norm_num)]
    have hlog : (1 : ℝ) ≤ Real.log 4 := by
      rw [Real.le_log_iff_exp_le (by norm_num)]
      exact Real.exp_one_lt_three.le.trans (by norm_num)
    have h3 : 1 / (n : ℝ) ≤ Real.log 4 * (1 / n) := by
      have : 0 ≤ 1 / (n : ℝ) := by positivity
      nlinarith
    have h4 := Real.add_one_le_exp (Real.log 4 * (1 / (n : ℝ)))
    linarith
  have hn' : 1 / (10 : ℝ) ^ 6 ≤ 1 / (n : ℝ) := by
    have : (n : ℝ) ≤ 10 ^ 6 := by exact_mod_cast h2
    gcongr
  refine C23_close_levels (by simp only; omega) (by norm_num [Config.default]) ?_ ?_ hw hh
  · rw [e]; linarith [show (1 : ℝ) / 10 ^ 8 ≤ 1.28 * (1 / 10 ^ 6) by norm_num]
  · rw [e]; linarith [show (1.28 : ℝ) * (1.13 - 1) ≤ 1 / 6 by norm_num]

/-- An example: for a 200 by 170 image there are two full octaves and one more level. -/
example : Octaves 4 200 170 2 1 ∧ ∃ ls, allocate Config.default 200 170 = some ls ∧ ls.length = 9 := by
  have ho : Octaves 4 200 170 2 1 := by
    refine ⟨by norm_num, fun o h => ?_, fun _ => ?_, by norm_num [AtLeast], by norm_num⟩
    · interval_cases o <;> norm_num [AtLeast]
    · norm_num [AtLeast]
  refine ⟨ho, ?_⟩
  obtain ⟨ls, hl⟩ := C23_default 200 170
  obtain ⟨f, e, ho', h, -⟩ := C23_levels (by norm_num [Config.default]) hl
  obtain ⟨rfl, rfl⟩ := ho.unique ho'
  exact ⟨ls, hl, h⟩

/-! ## The images -/

/-- How a level after the first is made from the one before. -/
def Next (s t : Scale) : Prop := ∃ start contrast lx ly flow,
  (if s.level.octave < t.level.octave then halfSize s.lt else some s.lt) = some start ∧
  blur start 1 = some t.lsmooth ∧ simpleScharrHorizontal t.lsmooth = some lx ∧
  simpleScharrVertical t.lsmooth = some ly ∧ pmG2 lx ly contrast = some flow ∧
  diffuse start flow t.level.steps = some t.lt

theorem later_next : ∀ (ls : List Level) (contrast : ℝ) (s0 : Scale) {out : List Scale},
    laterScales contrast s0.level.octave s0.lt ls = some out →
      out.map (fun s => s.level) = ls ∧
      ∀ i s t, (s0 :: out)[i]? = some s → (s0 :: out)[i + 1]? = some t → Next s t := by
  intro ls
  induction ls with
  | nil =>
    intro contrast s0 out h
    rw [laterScales] at h
    obtain rfl := Option.some.inj h
    refine ⟨rfl, fun i s t _ ht => ?_⟩
    rw [List.getElem?_cons_succ] at ht
    cases ht
  | cons l ls ih =>
    intro contrast s0 out h
    rw [laterScales] at h
    simp only [Option.bind_eq_bind, Option.bind_eq_some_iff] at h
    obtain ⟨start, h1, lsmooth, h2, lx, h3, ly, h4, flow, h5, lt, h6, rest, h7, e⟩ := h
    obtain rfl := Option.some.inj e
    obtain ⟨i1, i2⟩ := ih _ ⟨l, lt, lsmooth⟩ h7
    refine ⟨by rw [List.map_cons, i1], fun i s t hs ht => ?_⟩
    cases i with
    | zero =>
      rw [List.getElem?_cons_zero] at hs
      rw [List.getElem?_cons_succ, List.getElem?_cons_zero] at ht
      obtain rfl := Option.some.inj hs
      obtain rfl := Option.some.inj ht
      exact ⟨start, _, lx, ly, flow, h1, h2, h3, h4, h5, h6⟩
    | succ i =>
      rw [List.getElem?_cons_succ] at hs ht
      exact i2 i s t hs ht

/-- The image has this size. -/
def Sized (i : Img ℝ) (w h : Nat) : Prop := i.WF ∧ i.w = w ∧ i.h = h

theorem Sized.shows {i : Img ℝ} {w h : Nat} (hs : Sized i w h) : ∃ f, i.Shows w h f := by
  let _ : Inhabited ℝ := ⟨0⟩
  obtain ⟨h1, rfl, rfl⟩ := hs
  exact ⟨_, h1.exists_shows⟩

theorem shows_sized {i : Img ℝ} {w h : Nat} {f : Nat → Nat → ℝ} (hs : i.Shows w h f) : Sized i w h :=
  ⟨hs.2.2.1, hs.1, hs.2.1⟩

theorem pmG2_ne {lx ly flow : Img ℝ} {k : ℝ} (h : pmG2 lx ly k = some flow) : k ≠ 0 := by
  intro h0
  simp [pmG2, h0] at h

/-- One level in terms of pixels: the start has the expected size, the flow is between zero and one. -/
theorem next_shows {s t : Scale} (hn : Next s t) {w h : Nat} (hw : 2 ≤ w) (hh : 2 ≤ h) (hs : Sized s.lt w h) :
    ∃ start flow c, (if s.level.octave < t.level.octave then halfSize s.lt else some s.lt) = some start ∧
      Sized start (if s.level.octave < t.level.octave then w / 2 else w)
        (if s.level.octave < t.level.octave then h / 2 else h) ∧
      flow.Shows (if s.level.octave < t.level.octave then w / 2 else w)
        (if s.level.octave < t.level.octave then h / 2 else h) c ∧
      (∀ x y, x < (if s.level.octave < t.level.octave then w / 2 else w) →
        y < (if s.level.octave < t.level.octave then h / 2 else h) → 0 ≤ c x y ∧ c x y ≤ 1) ∧
      diffuse start flow t.level.steps = some t.lt ∧
      Sized t.lt (if s.level.octave < t.level.octave then w / 2 else w)
        (if s.level.octave < t.level.octave then h / 2 else h) ∧
      Sized t.lsmooth (if s.level.octave < t.level.octave then w / 2 else w)
        (if s.level.octave < t.level.octave then h / 2 else h) := by
  obtain ⟨start, k, lx, ly, flow, h1, h2, h3, h4, h5, h6⟩ := hn
  have hst : Sized start (if s.level.octave < t.level.octave then w / 2 else w)
        (if s.level.octave < t.level.octave then h / 2 else h) := by
    by_cases ho : s.level.octave < t.level.octave
    · rw [if_pos ho] at h1
      rw [if_pos ho, if_pos ho]
      obtain ⟨a, b, c⟩ := (C25_size hs.1).1 _ h1
      exact ⟨c, by rw [a, hs.2.1], by rw [b, hs.2.2]⟩
    · rw [if_neg ho] at h1
      rw [if_neg ho, if_neg ho]
      rw [← Option.some.inj h1]
      exact hs
  have hw' : 0 < (if s.level.octave < t.level.octave then w / 2 else w) := by split <;> omega
  have hh' : 0 < (if s.level.octave < t.level.octave then h / 2 else h) := by split <;> omega
  generalize (if s.level.octave < t.level.octave then w / 2 else w) = w' at *
  generalize (if s.level.octave < t.level.octave then h / 2 else h) = h' at *
  obtain ⟨f, hf⟩ := hst.shows
  obtain ⟨o, g, e, hg⟩ := blur_shows (r := 1) one_pos hf hw' hh'
  rw [h2] at e
  obtain rfl := Option.some.inj e
  obtain ⟨lx', ly', fx, fy, e1, e2, sx, sy⟩ := scharr_shows hg hw' hh'
  rw [h3] at e1
  rw [h4] at e2
  obtain rfl := Option.some.inj e1
  obtain rfl := Option.some.inj e2
  obtain ⟨flow', c, e, hc, hcb⟩ := C27_conductivity sx sy (pmG2_ne h5)
  rw [h5] at e
  obtain rfl := Option.some.inj e
  obtain ⟨out, e, ho⟩ := diffuse_steps hc hw' hh' t.level.steps hf
  rw [h6] at e
  obtain rfl := Option.some.inj e
  exact ⟨start, flow, c, h1, hst, hc, fun x y hx hy => ⟨(hcb x y hx hy).1.le, (hcb x y hx hy).2.1⟩, h6,
    shows_sized ho, shows_sized hg⟩

theorem blur_pos {image out : Img ℝ} {r : ℝ} (h : blur image r = some out) : 0 < r := by
  unfold blur at h
  by_contra h0
  rw [if_neg h0] at h
  cases h

theorem scaleSpace_parts {c : Config} {image : Img ℝ} {out : List Scale} (h : scaleSpace c image = some out) :
    ∃ ls, allocate c image.w image.h = some ls ∧ out.map (fun s => s.level) = ls ∧
      (∃ s, out[0]? = some s ∧ blur image c.baseScale = some s.lt ∧ s.lsmooth = s.lt) ∧
      ∀ i s t, out[i]? = some s → out[i + 1]? = some t → Next s t := by
  unfold scaleSpace at h
  simp only [Option.bind_eq_bind, Option.bind_eq_some_iff] at h
  obtain ⟨ls, hl, h⟩ := h
  cases ls with
  | nil => cases h
  | cons l ls =>
    simp only [createScaleSpace, Option.bind_eq_bind, Option.bind_eq_some_iff] at h
    obtain ⟨lt, h1, k, -, rest, h2, e⟩ := h
    obtain rfl := Option.some.inj e
    obtain ⟨a, b⟩ := later_next ls k ⟨l, lt, lt⟩ h2
    exact ⟨l :: ls, hl, by rw [List.map_cons, a], ⟨_, rfl, h1, rfl⟩, b⟩

/-- **C23** The scale space has the allocated levels, and the images of level `i` are those of its octave `i / n`:
both sides halved that often, rounding down. -/
theorem C23_sizes {c : Config} (hn : 0 < c.numSublevels) {image : Img ℝ} (hwf : image.WF) {out : List Scale}
    (h : scaleSpace c image = some out) : allocate c image.w image.h = some (out.map (fun s => s.level)) ∧
      ∀ i s, out[i]? = some s → s.level.octave = i / c.numSublevels ∧ s.level.sublevel = i % c.numSublevels ∧
        Sized s.lt (image.w / 2 ^ s.level.octave) (image.h / 2 ^ s.level.octave) ∧
        Sized s.lsmooth (image.w / 2 ^ s.level.octave) (image.h / 2 ^ s.level.octave) := by
  obtain ⟨ls, hl, rfl, ⟨s0, hs0, hb, hsm⟩, hnext⟩ := scaleSpace_parts h
  refine ⟨hl, ?_⟩
  obtain ⟨full, extra, ho, hlen, hlev⟩ := C23_levels hn hl
  have hat : ∀ i s, out[i]? = some s → s.level.octave = i / c.numSublevels ∧
      s.level.sublevel = i % c.numSublevels ∧ AtLeast image.w image.h 40 s.level.octave := by
    intro i s hs
    obtain ⟨a, b, -, -, -, d, -⟩ := hlev i s.level (by rw [List.getElem?_map, hs]; rfl)
    exact ⟨a, b, d⟩
  intro i
  induction i with
  | zero =>
    intro s hs
    rw [hs0] at hs
    obtain rfl := Option.some.inj hs
    obtain ⟨a, b, d⟩ := hat 0 s0 hs0
    rw [Nat.zero_div] at a
    rw [a] at d
    have hd : 40 ≤ image.w ∧ 40 ≤ image.h := by simpa [AtLeast] using d
    refine ⟨by rw [a, Nat.zero_div], b, ?_⟩
    let _ : Inhabited ℝ := ⟨0⟩
    obtain ⟨o, g, e, hg⟩ := blur_shows (blur_pos hb) hwf.exists_shows (by omega) (by omega)
    rw [hb] at e
    obtain rfl := Option.some.inj e
    rw [a, pow_zero, Nat.div_one, Nat.div_one, hsm]
    exact ⟨shows_sized hg, shows_sized hg⟩
  | succ i ih =>
    intro t ht
    have hi : i < out.length := by
      have := (List.getElem?_eq_some_iff.mp ht).1
      omega
    have hs : out[i]? = some out[i] := List.getElem?_eq_getElem hi
    obtain ⟨a, b, d⟩ := hat i _ hs
    obtain ⟨a', b', d'⟩ := hat (i + 1) t ht
    obtain ⟨-, -, i1, -⟩ := ih _ hs
    refine ⟨a', b', ?_⟩
    have hw : 40 ≤ image.w / 2 ^ out[i].level.octave := (Nat.le_div_iff_mul_le (by positivity)).mpr d.1
    have hh : 40 ≤ image.h / 2 ^ out[i].level.octave := (Nat.le_div_iff_mul_le (by positivity)).mpr d.2
    obtain ⟨start, flow, cc, -, -, -, -, -, h1, h2⟩ := next_shows (hnext i _ t hs ht) (by omega) (by omega) i1
    have hoct : t.level.octave = out[i].level.octave ∨ t.level.octave = out[i].level.octave + 1 := by
      rw [a, a']
      rw [Nat.succ_div]
      split <;> omega
    have key : ∀ n : Nat, (if out[i].level.octave < t.level.octave then n / 2 ^ out[i].level.octave / 2
        else n / 2 ^ out[i].level.octave) = n / 2 ^ t.level.octave := by
      intro n
      rcases hoct with h | h
      · rw [if_neg (by omega), h]
      · rw [if_pos (by omega), h, Nat.div_div_eq_div_mul, Nat.pow_succ]
    rw [key, key] at h1 h2
    exact ⟨h1, h2⟩

theorem later_total (W H : Nat) : ∀ (ls : List Level) (contrast : ℝ) (octave : Nat) (before : Img ℝ),
    contrast ≠ 0 → (∀ i l, (octave :: ls.map (fun l => l.octave))[i + 1]? = some l →
      AtLeast W H 40 l ∧ ∃ b, (octave :: ls.map (fun l => l.octave))[i]? = some b ∧ (l = b ∨ l = b + 1)) →
    2 ≤ W / 2 ^ octave → 2 ≤ H / 2 ^ octave →
    Sized before (W / 2 ^ octave) (H / 2 ^ octave) → ∃ out, laterScales contrast octave before ls = some out := by
  intro ls
  induction ls with
  | nil => intro k o b _ _ _ _ _; exact ⟨[], rfl⟩
  | cons l ls ih =>
    intro k o b hk hl hW hH hs
    obtain ⟨hat, b', e, hb⟩ := hl 0 l.octave rfl
    obtain rfl : o = b' := Option.some.inj e
    have hst : ∃ start, startImage o l.octave b = some start ∧ Sized start (W / 2 ^ l.octave) (H / 2 ^ l.octave) := by
      unfold startImage
      rcases hb with h | h
      · rw [if_neg (by omega), h]; exact ⟨b, rfl, hs⟩
      · rw [if_pos (by omega), h]
        obtain ⟨f, hf⟩ := hs.shows
        obtain ⟨out, e, ho⟩ := halfSize_shows hf (by omega) (by omega)
        refine ⟨out, e, ?_⟩
        rw [Nat.pow_succ, ← Nat.div_div_eq_div_mul, ← Nat.div_div_eq_div_mul]
        exact shows_sized ho
    obtain ⟨start, e1, hst⟩ := hst
    have hw : 40 ≤ W / 2 ^ l.octave := (Nat.le_div_iff_mul_le (by positivity)).mpr hat.1
    have hh : 40 ≤ H / 2 ^ l.octave := (Nat.le_div_iff_mul_le (by positivity)).mpr hat.2
    obtain ⟨f, hf⟩ := hst.shows
    obtain ⟨o2, g, e2, hg⟩ := blur_shows (r := 1) one_pos hf (by omega) (by omega)
    obtain ⟨lx, ly, fx, fy, e3, e4, sx, sy⟩ := scharr_shows hg (by omega) (by omega)
    have hk' : (if o < l.octave then k * 0.75 else k) ≠ 0 := by
      split
      · exact mul_ne_zero hk (by norm_num)
      · exact hk
    obtain ⟨flow, cc, e5, hc, -⟩ := C27_conductivity sx sy hk'
    obtain ⟨lt, e6, hlt⟩ := diffuse_steps hc (by omega) (by omega) l.steps hf
    obtain ⟨rest, e7⟩ := ih _ l.octave lt hk' (fun i m hm => hl (i + 1) m hm |>.imp id (fun ⟨b, h1, h2⟩ => ⟨b, h1, h2⟩))
      (by omega) (by omega) (shows_sized hlt)
    refine ⟨⟨l, lt, o2⟩ :: rest, ?_⟩
    rw [laterScales]
    simp only [e1, e2, e3, e4, e5, e6, e7, Option.bind_eq_bind, Option.bind_some]
    rfl

/-- **C23** For every image with at least 40 pixels on both sides a contrast factor is found, and unless it is zero
the scale space is built. -/
theorem C23_total_partial {c : Config} (hn : 0 < c.numSublevels) (hm : 0 < c.maxOctave) (hb : 0 < c.baseScale)
    (ht : 1 / 6 + 1 / 10 ^ 8 < firstTime c) (hbins : 0 < c.contrastBins) {image : Img ℝ} (hwf : image.WF)
    (hw : 40 ≤ image.w) (hh : 40 ≤ image.h) : ∃ k, contrastFactor image c.contrastPercentile 1 c.contrastBins = some k ∧
      (k ≠ 0 → ∃ out, scaleSpace c image = some out ∧ out ≠ []) := by
  let _ : Inhabited ℝ := ⟨0⟩
  have hshow := hwf.exists_shows
  obtain ⟨g, fg, e1, hg⟩ := blur_shows (r := 1) one_pos hshow (by omega) (by omega)
  obtain ⟨lx, ly, fx, fy, e2, e3, sx, sy⟩ := scharr_shows hg (by omega) (by omega)
  have hk : ∃ k, contrastFactor image c.contrastPercentile 1 c.contrastBins = some k := by
    unfold contrastFactor
    simp only [e1, e2, e3, Option.bind_eq_bind, Option.bind_some, hg.1, hg.2.1]
    obtain ⟨top, j, -, -, -, -, h⟩ := contrastOf_spec sx sy (by omega) (by omega) hbins c.contrastPercentile
    rcases h with h | h
    · exact ⟨_, h.2⟩
    · exact ⟨_, h.2⟩
  obtain ⟨k, hk⟩ := hk
  refine ⟨k, hk, fun hk0 => ?_⟩
  obtain ⟨ls, hl⟩ := C23_allocates hn ht image.w image.h
  obtain ⟨full, extra, ho, hlen, hlev⟩ := C23_levels hn hl
  have hpos : 0 < ls.length := by
    rw [hlen]
    by_cases hf : 0 < full
    · have := Nat.mul_pos hf hn; omega
    · have hf0 : full = 0 := by omega
      have : extra = 1 := ho.one.mpr ⟨by omega, by rw [hf0]; exact ⟨by simpa using hw, by simpa using hh⟩⟩
      omega
  cases ls with
  | nil => simp at hpos
  | cons l ls =>
    have hl0 : l.octave = 0 := by rw [(hlev 0 l rfl).1, Nat.zero_div]
    obtain ⟨lt, f0, e5, hlt⟩ := blur_shows hb hshow (by omega) (by omega)
    have hlater : ∃ out, laterScales k l.octave lt ls = some out := by
      refine later_total image.w image.h ls k l.octave lt hk0 ?_ ?_ ?_ ?_
      · intro i m hm
        rw [← List.map_cons (f := fun l : Level => l.octave), List.getElem?_map, Option.map_eq_some_iff] at hm
        obtain ⟨lm, hm, rfl⟩ := hm
        obtain ⟨a, -, -, -, -, d, -⟩ := hlev _ _ hm
        refine ⟨d, ?_⟩
        have hi : i < (l :: ls).length := by
          have := (List.getElem?_eq_some_iff.mp hm).1
          omega
        have hs := List.getElem?_eq_getElem hi
        obtain ⟨a', -⟩ := hlev _ _ hs
        refine ⟨((l :: ls)[i]).octave, ?_, ?_⟩
        · rw [← List.map_cons (f := fun l : Level => l.octave), List.getElem?_map, hs]; rfl
        · rw [a, a', Nat.succ_div]
          split <;> omega
      · rw [hl0, pow_zero, Nat.div_one]; omega
      · rw [hl0, pow_zero, Nat.div_one]; omega
      · rw [hl0, pow_zero, Nat.div_one, Nat.div_one]; exact shows_sized hlt
    obtain ⟨rest, e6⟩ := hlater
    refine ⟨⟨l, lt, lt⟩ :: rest, ?_, by simp⟩
    unfold scaleSpace
    rw [hl]
    simp only [createScaleSpace, e5, hk, e6, Option.bind_eq_bind, Option.bind_some]
    rfl

/-- **C23, refuted for small images.** An image with fewer than 40 pixels on a side has no levels, and `evolutions[0]`
panics. -/
theorem C23_small_image {c : Config} (hn : 0 < c.numSublevels) {image : Img ℝ} (h : image.w < 40 ∨ image.h < 40) :
    scaleSpace c image = none := by
  obtain ⟨full, extra, ho, -⟩ := levels_upto c hn image.w image.h c.maxOctave
  have hno : ∀ o n, 40 ≤ n → ¬ AtLeast image.w image.h n o := by
    rintro o n hn' ⟨h1, h2⟩
    have h3 : 1 ≤ 2 ^ o := Nat.one_le_two_pow
    have h4 : 40 * 1 ≤ n * 2 ^ o := Nat.mul_le_mul hn' h3
    omega
  have hf : full = 0 := by
    by_contra hf
    exact hno 0 80 (by norm_num) (ho.all 0 (by omega))
  have he : extra = 0 := by
    have := ho.atMost
    by_contra he
    exact hno _ 40 (by norm_num) (ho.one.mp (by omega)).2
  unfold scaleSpace
  rw [allocate_eq c hn ho, hf, he]
  simp [createScaleSpace]

/-- **C23, refuted for flat images.** An image of one colour has contrast factor zero; if both sides have at least 80
pixels the conductivity of the second level is `0 / 0`. -/
theorem C23_flat_image {c : Config} (hn : 2 ≤ c.numSublevels) (hm : 0 < c.maxOctave) (hbins : 0 < c.contrastBins)
    {image : Img ℝ} {w h : Nat} {v : ℝ} (hs : image.Shows w h (fun _ _ => v)) (hw : 80 ≤ w) (hh : 80 ≤ h) :
    scaleSpace c image = none := by
  rw [← Option.not_isSome_iff_eq_none, Option.isSome_iff_exists]
  rintro ⟨out, ho⟩
  obtain ⟨hl, -⟩ := C23_sizes (by omega) hs.2.2.1 ho
  unfold scaleSpace at ho
  rw [hl] at ho
  obtain ⟨full, extra, hoct, hlen, -⟩ := C23_levels (by omega) hl
  have hf : 0 < full := by
    by_contra hf
    obtain rfl : full = 0 := by omega
    exact hoct.next hm ⟨by rw [hs.1]; simpa using hw, by rw [hs.2.1]; simpa using hh⟩
  have h2 : 2 ≤ (out.map (fun s => s.level)).length := by rw [hlen]; nlinarith
  simp only [Option.bind_eq_bind, Option.bind_some] at ho
  generalize out.map (fun s => s.level) = ls at ho h2
  match ls, h2 with
  | l :: m :: ls, _ =>
    simp only [createScaleSpace, Option.bind_eq_bind, Option.bind_eq_some_iff,
      (C28_flat hs (by omega) (by omega) one_pos hbins).1] at ho
    obtain ⟨lt, -, k, hk, rest, h1, -⟩ := ho
    obtain rfl := Option.some.inj hk
    rw [laterScales] at h1
    simp only [Option.bind_eq_bind, Option.bind_eq_some_iff] at h1
    obtain ⟨start, -, lsmooth, -, lx, -, ly, -, flow, h5, -⟩ := h1
    exact pmG2_ne h5 (by split <;> simp)

/-! ## C72: what diffusion keeps -/

theorem spread_shows {i : Img ℝ} {w h : Nat} {f : Nat → Nat → ℝ} (hs : i.Shows w h f) (v : ℝ) :
    spread i v = ∑ y ∈ Finset.range h, ∑ x ∈ Finset.range w, (f x y - v) ^ 2 := by
  have : Img.Shows (⟨i.w, i.h, i.data.map (fun p => (p - v) ^ 2)⟩ : Img ℝ) w h (fun x y => (f x y - v) ^ 2) := by
    obtain ⟨h1, h2, h3, h4⟩ := hs
    refine ⟨h1, h2, by unfold Img.WF at *; rw [List.length_map]; exact h3, fun x y hx hy => ?_⟩
    have := h4 x y hx hy
    unfold Img.get at this ⊢
    simp only [h1, h2] at this ⊢
    rw [if_pos ⟨hx, hy⟩] at this ⊢
    rw [List.getElem?_map, this]
    rfl
  exact shows_sum this

/-- **C72** From each level to the next, after halving the image if a new octave begins, diffusion keeps the sum of the
pixels and does not increase the sum of their squared distances from any value, in particular not their variance. -/
theorem C72_levels {c : Config} (hn : 0 < c.numSublevels) {image : Img ℝ} (hwf : image.WF) {out : List Scale}
    (h : scaleSpace c image = some out) {i : Nat} {s t : Scale} (hs : out[i]? = some s) (ht : out[i + 1]? = some t) :
    ∃ start, (if s.level.octave < t.level.octave then halfSize s.lt else some s.lt) = some start ∧
      t.lt.data.sum = start.data.sum ∧ (t.level.etime ≤ 10 ^ 12 → ∀ v, spread t.lt v ≤ spread start v) := by
  obtain ⟨ls, hl, rfl, ⟨s0, hs0, hb, -⟩, hnext⟩ := scaleSpace_parts h
  obtain ⟨-, hsz⟩ := C23_sizes hn hwf h
  obtain ⟨full, extra, ho, hlen, hlev⟩ := C23_levels hn hl
  obtain ⟨-, -, z, -⟩ := hsz i s hs
  have hls : (out.map (fun s => s.level))[i]? = some s.level := by rw [List.getElem?_map, hs]; rfl
  have hlt : (out.map (fun s => s.level))[i + 1]? = some t.level := by rw [List.getElem?_map, ht]; rfl
  obtain ⟨-, -, -, q1, -, d, -⟩ := hlev i _ hls
  obtain ⟨-, -, -, q2, -, d', -, hsteps⟩ := hlev (i + 1) _ hlt
  have hw : 40 ≤ image.w / 2 ^ s.level.octave := (Nat.le_div_iff_mul_le (by positivity)).mpr d.1
  have hh : 40 ≤ image.h / 2 ^ s.level.octave := (Nat.le_div_iff_mul_le (by positivity)).mpr d.2
  obtain ⟨start, flow, cc, h1, h2, h3, h4, h5, h6, -⟩ := next_shows (hnext i s t hs ht) (by omega) (by omega) z
  have hw' : 0 < (if s.level.octave < t.level.octave then image.w / 2 ^ s.level.octave / 2
      else image.w / 2 ^ s.level.octave) := by split <;> omega
  have hh' : 0 < (if s.level.octave < t.level.octave then image.h / 2 ^ s.level.octave / 2
      else image.h / 2 ^ s.level.octave) := by split <;> omega
  generalize (if s.level.octave < t.level.octave then image.w / 2 ^ s.level.octave / 2
      else image.w / 2 ^ s.level.octave) = w' at *
  generalize (if s.level.octave < t.level.octave then image.h / 2 ^ s.level.octave / 2
      else image.h / 2 ^ s.level.octave) = h' at *
  refine ⟨start, h1, ?_, fun h12 v => ?_⟩
  · obtain ⟨o, e, -, -, -, hsum⟩ := C26_steps h2.1 h3.2.2.1 (by rw [h3.1, h2.2.1]) (by rw [h3.2.1, h2.2.2])
      (by rw [h2.2.1]; exact hw') (by rw [h2.2.2]; exact hh') t.level.steps
    rw [h5] at e
    obtain rfl := Option.some.inj e
    exact hsum
  · have hfed := hsteps s.level (by omega) hls
    have hb0 := blur_pos hb
    have hT := (C23_increasing hn hb0 hl (by omega : i < i + 1) hls hlt).2.1
    have hs0 : 0 ≤ s.level.etime := by rw [q1]; positivity
    obtain ⟨f, hf⟩ := h2.shows
    obtain ⟨a', f', e, ha', hv⟩ := C71_variance (by linarith) (by linarith) hfed hf h3 hw' hh' h4 v
    rw [h5] at e
    obtain rfl := Option.some.inj e
    rw [spread_shows ha', spread_shows hf]
    exact hv

/-- With the default settings all times are below the bound. -/
theorem C72_default_times {w h : Nat} {ls : List Level} (ha : allocate Config.default w h = some ls) :
    ∀ l ∈ ls, l.etime ≤ 10 ^ 12 := by
  intro l hl
  obtain ⟨i, hi⟩ := List.mem_iff_getElem?.mp hl
  have hn : 0 < Config.default.numSublevels := by norm_num [Config.default]
  obtain ⟨full, extra, ho, hlen, hlev⟩ := C23_levels hn ha
  obtain ⟨-, -, e1, e2, -⟩ := hlev i l hi
  have hlt : i < 20 := by
    have h1 := (List.getElem?_eq_some_iff.mp hi).1
    have h2 := ho.le
    have h3 := ho.atMost
    have h4 : Config.default.maxOctave = 4 := rfl
    have h5 : Config.default.numSublevels = 4 := rfl
    rw [hlen, h5] at h1
    omega
  have hs : scaleOf Config.default i ≤ 1.6 * 2 ^ (5 : ℝ) := by
    unfold scaleOf
    refine mul_le_mul_of_nonneg_left ?_ (by norm_num [Config.default])
    refine Real.rpow_le_rpow_of_exponent_le (by norm_num) ?_
    have h5 : ((Config.default.numSublevels : Nat) : ℝ) = 4 := by norm_num [Config.default]
    have h6 : (i : ℝ) < 20 := by exact_mod_cast hlt
    rw [h5]
    linarith
  have h0 : 0 ≤ scaleOf Config.default i :=
    mul_nonneg (by norm_num [Config.default]) (Real.rpow_nonneg (by norm_num) _)
  rw [e2, e1]
  have : (2 : ℝ) ^ (5 : ℝ) = 32 := by norm_num
  rw [this] at hs
  nlinarith

end Verif.Akaze
