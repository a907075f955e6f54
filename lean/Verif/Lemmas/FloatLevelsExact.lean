import Verif.Lemmas.FloatScaleExact
import Verif.Lemmas.Evolution
import Verif.Model.Descriptor

/-!
# The levels without rounding
-/

namespace Verif.Akaze

open Verif.Bicubic (Flt)
open FloatOps

namespace Unrounded

/-- The level with unrounded numbers. -/
def numLevel (l : Level) : FLevel Unrounded := ⟨l.octave, num l.esigma, num l.etime, l.steps.map num⟩

/-- The settings with unrounded numbers. -/
def numSettings (s : Settings) : FSettings Unrounded :=
  ⟨s.maximumFeatures, s.numSublevels, s.maxOctave, num s.baseScale, num s.contrastPercentile, s.contrastBins,
    num s.derivativeFactor, num s.threshold, s.channels, s.patternSize⟩

theorem lit_half : (lit (1 / 2) : Unrounded) = num (1 / 2) := by rw [num_lit]; norm_num
theorem lit_quarter : (lit (1 / 4) : Unrounded) = num (1 / 4) := by rw [num_lit]; norm_num

theorem newLevel_num {s : Settings} {o i : Nat} {l : Level} (h : newLevel s.toConfig o i = some l) :
    fnewLevel (numSettings s) o i = numLevel l := by
  simp only [newLevel] at h
  split at h
  · cases h
  rename_i h0
  cases h
  have hn : (s.numSublevels : ℝ) ≠ 0 := by exact_mod_cast h0
  simp only [fnewLevel, numLevel, numSettings, num_cast, num_div hn, num_add, num_two, num_pow, num_mul, lit_half]
  rfl

theorem stepCount_le {t : ℝ} (ht : t ≤ 2 ^ 59) : stepCount t (1 / 4) ≤ 2 ^ 32 - 10 := by
  have hs : √(3 * t / (1 / 4) + 1 / 4) ≤ 2 ^ 32 - 10 := by
    rw [Real.sqrt_le_iff]
    constructor
    · norm_num
    · norm_num at ht ⊢
      linarith
  have hc : ⌈√(3 * t / (1 / 4) + 1 / 4) - 1 / 2 - 1 / 10 ^ 8⌉ ≤ (2 ^ 32 - 10 : ℤ) := by
    rw [Int.ceil_le]
    have : (0 : ℝ) < 1 / 10 ^ 8 := by positivity
    push_cast
    linarith
  unfold stepCount
  generalize ⌈√(3 * t / (1 / 4) + 1 / 4) - 1 / 2 - 1 / 10 ^ 8⌉ = c at hc
  rw [← Int.floor_toNat]
  have : ⌊(c : ℝ) + 1 / 2⌋ = c := by
    rw [Int.floor_eq_iff]
    constructor <;> linarith
  rw [this]
  omega

theorem stepCount_num {t : ℝ} (h0 : 0 ≤ t) (ht : t ≤ 2 ^ 59) :
    fstepCount (num t) (num (1 / 4)) = stepCount t (1 / 4) := by
  have hl : (lit (1 / 10 ^ 8) : Unrounded) = num (1 / 10 ^ 8) := by rw [num_lit]; norm_num
  have hle := stepCount_le ht
  unfold stepCount at hle ⊢
  unfold fstepCount
  rw [num_three, num_mul, num_div (by norm_num), lit_quarter, num_add, num_sqrt (by positivity), lit_half, hl, num_sub,
    num_sub, num_ceil, num_add, num_toNat]
  exact min_eq_left (by omega)

theorem cos_pos' {n k : Nat} (hk : k < n) : 0 < Real.cos (Real.pi * (2 * (k : ℝ) + 1) * (1 / (4 * (n : ℝ) + 2))) := by
  have hk' : (k : ℝ) + 1 ≤ n := by exact_mod_cast hk
  have hpi := Real.pi_pos
  have hk0 : (0 : ℝ) ≤ k := Nat.cast_nonneg k
  refine Real.cos_pos_of_mem_Ioo ⟨?_, ?_⟩
  · have : 0 < Real.pi * (2 * (k : ℝ) + 1) * (1 / (4 * (n : ℝ) + 2)) := by positivity
    linarith
  · rw [mul_one_div, div_lt_div_iff₀ (by positivity) (by norm_num)]
    nlinarith

theorem tauStep_num {n k : Nat} (hk : k < n) (scale tau : ℝ) :
    ftauStep n (num scale) (num tau) k = num (tauStep n scale tau k) := by
  have hc := cos_pos' hk
  have h4 : (4 * (n : ℝ) + 2) ≠ 0 := by positivity
  simp only [ftauStep, tauStep, num_four, num_cast, num_mul, num_two, num_add, num_one, num_div h4, num_pi, num_cos,
    num_div (show (2 : ℝ) ≠ 0 by norm_num)]
  exact num_div (mul_pos hc hc).ne'

theorem fedSteps_num {t : ℝ} {steps : List ℝ} (h0 : 0 ≤ t) (ht : t ≤ 2 ^ 59)
    (h : fedByProcessTime t 1 (1 / 4) true = some steps) :
    ffedSteps (num t) (lit (1 / 4)) = some (steps.map num) := by
  unfold fedByProcessTime fedByCycleTime at h
  rw [Int.cast_one, div_one] at h
  have hle := stepCount_le ht
  simp only [ffedSteps, lit_quarter]
  rw [num_one, num_div one_ne_zero, div_one, stepCount_num h0 ht]
  simp only [fedInternal, if_true] at h
  generalize stepCount t (1 / 4) = n at h hle ⊢
  rw [if_neg (by
    have := Nat.mul_le_mul hle (Nat.succ_le_succ hle)
    norm_num at this ⊢
    omega)]
  obtain ⟨is, hi, h⟩ := Option.bind_eq_some_iff.1 h
  rw [hi, Option.bind_some]
  rcases Nat.eq_zero_or_pos n with rfl | hn
  · cases is with
    | nil => cases h; rfl
    | cons i is => simp at h
  have hne : (1 / 4 * ((n * (n + 1) : Nat) : ℝ)) ≠ 0 := by
    have : 0 < n * (n + 1) := Nat.mul_pos hn (by omega)
    positivity
  refine Transfer.mapM_some_map h (fun i _ b hb => ?_)
  rw [num_three, num_mul, num_cast, num_mul, num_div hne]
  have hin : i < n := by
    by_contra hc
    rw [List.getElem?_eq_none (by simpa using hc)] at hb
    cases hb
  rw [List.getElem?_map, List.getElem?_range hin] at hb ⊢
  cases hb
  show some (ftauStep n _ _ i) = _
  rw [tauStep_num hin]

/-- What is asked of the settings: sizes that are far from the largest numbers. -/
structure Moderate (s : Settings) : Prop where
  scale : s.baseScale * 2 ^ s.maxOctave ≤ 2 ^ 29
  derivative : s.baseScale * s.derivativeFactor ≤ 2 ^ 28
  percentile : s.contrastPercentile ≤ 1
  bins : s.contrastBins < 2 ^ 64
  pattern : s.patternSize < 2 ^ 64

theorem setSteps_num {c : Config} {T : ℝ} (hT : T ≤ 2 ^ 59) : ∀ (n i : Nat) {ls : List Level},
    (∀ k < n, (plainLevel c (i + 1 + k)).etime ≤ T) →
    setSteps (plainLevel c i).etime ((List.range' (i + 1) n).map (plainLevel c)) = some ls →
    fsetSteps (num (plainLevel c i).etime) (((List.range' (i + 1) n).map (plainLevel c)).map numLevel)
      = some (ls.map numLevel) := by
  intro n
  induction n with
  | zero => intro i ls _ h; cases h; rfl
  | succ n ih =>
    intro i ls hb h
    rw [List.range'_succ, List.map_cons, setSteps] at h
    obtain ⟨steps, hs, h⟩ := Option.bind_eq_some_iff.1 h
    obtain ⟨rest, hr, h⟩ := Option.bind_eq_some_iff.1 h
    cases h
    have h0 : 0 ≤ (plainLevel c (i + 1)).etime - (plainLevel c i).etime :=
      (firstTime_nonneg c).trans (timeBetween_ge c i)
    have hi : 0 ≤ (plainLevel c i).etime := by
      rw [etime_eq]; positivity
    have h1 := hb 0 (by omega)
    rw [Nat.add_zero] at h1
    rw [List.range'_succ, List.map_cons, List.map_cons, fsetSteps]
    have e : (numLevel (plainLevel c (i + 1))).etime - num (plainLevel c i).etime
        = num ((plainLevel c (i + 1)).etime - (plainLevel c i).etime) := num_sub _ _
    rw [e, fedSteps_num h0 (by linarith) hs]
    show (fsetSteps (num (plainLevel c (i + 1)).etime) _).bind _ = _
    rw [ih (i + 1) (fun k hk => by have := hb (k + 1) (by omega); rwa [show i + 1 + (k + 1) = i + 1 + 1 + k by omega] at this) hr]
    rfl

theorem length_levelNumbers (c : Config) (hn : 0 < c.numSublevels) (w h : Nat) :
    (levelNumbers c w h).length ≤ c.maxOctave * c.numSublevels := by
  unfold levelNumbers
  rw [List.length_flatMap]
  have : ∀ (l : List Nat), (l.map (fun o => ((List.range (sublevelsOf c w h o)).map (fun s => (o, s))).length)).sum
      ≤ l.length * c.numSublevels := by
    intro l
    induction l with
    | nil => simp
    | cons o l ih =>
      rw [List.map_cons, List.sum_cons, List.length_cons, Nat.succ_mul, List.length_map, List.length_range]
      have : sublevelsOf c w h o ≤ c.numSublevels := by
        unfold sublevelsOf
        simp only
        split
        · omega
        · split <;> omega
      omega
  simpa using this (List.range c.maxOctave)

theorem flevelNumbers_eq (s : Settings) (w h : Nat) : flevelNumbers (numSettings s) w h = levelNumbers s.toConfig w h := rfl

theorem scaleOf_le {c : Config} (hb : 0 < c.baseScale) (hn : 0 < c.numSublevels) {i : Nat}
    (hi : i ≤ c.maxOctave * c.numSublevels) : scaleOf c i ≤ c.baseScale * 2 ^ c.maxOctave := by
  unfold scaleOf
  refine mul_le_mul_of_nonneg_left ?_ hb.le
  rw [← Real.rpow_natCast 2 c.maxOctave]
  refine Real.rpow_le_rpow_of_exponent_le (by norm_num) ?_
  rw [div_le_iff₀ (by exact_mod_cast hn)]
  exact_mod_cast hi

theorem allocate_num {s : Settings} (hs : Moderate s) (hb : 0 < s.baseScale) (hn : 0 < s.numSublevels) {w h : Nat}
    {ls : List Level} (ha : allocate s.toConfig w h = some ls) :
    fallocate (numSettings s) w h = some (ls.map numLevel) := by
  obtain ⟨full, extra, ho, e⟩ := levels_upto s.toConfig hn w h s.maxOctave
  have hlen := length_levelNumbers s.toConfig hn w h
  have e' : levelNumbers s.toConfig w h = (List.range (full * s.numSublevels + extra)).map
      (fun i => (i / s.numSublevels, i % s.numSublevels)) := e
  rw [e', List.length_map, List.length_range] at hlen
  have hf : (flevelNumbers (numSettings s) w h).map (fun p => fnewLevel (numSettings s) p.1 p.2)
      = ((List.range (full * s.numSublevels + extra)).map (plainLevel s.toConfig)).map numLevel := by
    rw [flevelNumbers_eq, e', List.map_map, List.map_map]
    exact List.map_congr_left (fun i _ => newLevel_num (newLevel_eq s.toConfig hn i))
  rw [allocate_eq s.toConfig hn ho] at ha
  rw [fallocate, hf]
  generalize full * s.numSublevels + extra = N at ha hlen ⊢
  cases N with
  | zero =>
    rw [if_pos rfl] at ha
    cases ha; rfl
  | succ N =>
    rw [if_neg (by omega), Nat.add_sub_cancel] at ha
    obtain ⟨rest, hr, ha⟩ := Option.map_eq_some_iff.1 ha
    subst ha
    rw [List.range_eq_range', List.range'_succ, List.map_cons, List.map_cons]
    have := setSteps_num (c := s.toConfig) (T := 2 ^ 59) le_rfl N 0 (fun k hk => ?_) hr
    · show (fsetSteps (num (plainLevel s.toConfig 0).etime) _).bind _ = _
      rw [this]
      rfl
    · have h1 := scaleOf_le hb hn (show 0 + 1 + k ≤ s.maxOctave * s.numSublevels by omega)
      have h0 : 0 ≤ scaleOf s.toConfig (0 + 1 + k) := by
        have := hb
        unfold scaleOf
        positivity
      have h2 := h1.trans hs.scale
      show 1 / 2 * (scaleOf s.toConfig (0 + 1 + k) * scaleOf s.toConfig (0 + 1 + k)) ≤ _
      have h3 := mul_le_mul h2 h2 h0 (by positivity)
      norm_num at h3 ⊢
      linarith

/-! ### Diffusion -/

theorem pmG2_num {lx ly r : Img ℝ} {k : ℝ} (h : pmG2 lx ly k = some r) :
    fpmG2 (lx.map num) (ly.map num) (num k) = some (r.map num) := by
  simp only [pmG2, fpmG2] at h ⊢
  split at h
  · cases h
  rename_i h1
  split at h
  · cases h
  rename_i h2
  rw [if_neg h1]
  refine Transfer.ofFnM_some h (fun x y v hv => ?_)
  obtain ⟨a, ha, hv⟩ := Option.bind_eq_some_iff.1 hv
  obtain ⟨b, hb, hv⟩ := Option.bind_eq_some_iff.1 hv
  cases hv
  rw [Transfer.get_some ha, Transfer.get_some hb]
  have hpos : 1 + 1 / (k * k) * (a * a + b * b) ≠ 0 := by
    have := mul_nonneg (one_div_nonneg.2 (mul_self_nonneg k)) (add_nonneg (mul_self_nonneg a) (mul_self_nonneg b))
    linarith
  show some _ = _
  rw [narrow_id, num_mul, num_one, num_div (mul_ne_zero h2 h2), num_mul, num_mul, num_add, num_mul, num_add, num_div hpos]

/-- The level and its images with unrounded numbers. -/
def numScale (s : Scale) : FScale Unrounded Unrounded := ⟨numLevel s.level, s.lt.map num, s.lsmooth.map num⟩

theorem laterScales_num : ∀ {ls : List Level} {contrast : ℝ} {octave : Nat} {before : Img ℝ} {r : List Scale},
    laterScales contrast octave before ls = some r →
    flaterScales (num contrast) octave (before.map num) (ls.map numLevel) = some (r.map numScale)
  | [], _, _, _, r, h => by cases h; rfl
  | l :: ls, contrast, octave, before, r, h => by
    rw [laterScales] at h
    obtain ⟨start, h1, h⟩ := Option.bind_eq_some_iff.1 h
    obtain ⟨smooth, h2, h⟩ := Option.bind_eq_some_iff.1 h
    obtain ⟨lx, h3, h⟩ := Option.bind_eq_some_iff.1 h
    obtain ⟨ly, h4, h⟩ := Option.bind_eq_some_iff.1 h
    obtain ⟨flow, h5, h⟩ := Option.bind_eq_some_iff.1 h
    obtain ⟨lt, h6, h⟩ := Option.bind_eq_some_iff.1 h
    obtain ⟨rest, h7, h⟩ := Option.bind_eq_some_iff.1 h
    cases h
    have hl : (numLevel l).octave = l.octave := rfl
    have hcon : (if octave < l.octave then num contrast * lit (3 / 4) else num contrast)
        = num (if octave < l.octave then contrast * 0.75 else contrast) := by
      split
      · rw [num_lit, num_mul]; norm_num
      · rfl
    have hsteps : (numLevel l).steps.map (FloatCast.narrow : Unrounded → Unrounded) = l.steps.map num := by
      show (l.steps.map num).map id = _
      rw [List.map_id]
    have key : (if octave < l.octave then halfSize (before.map num) else some (before.map num)) = some (start.map num) →
        flaterScales (num contrast) octave (before.map num) ((l :: ls).map numLevel)
          = (some (start.map num)).bind (fun start => (fblur start 1).bind (fun lsmooth =>
            (simpleScharrHorizontal lsmooth).bind (fun lx => (simpleScharrVertical lsmooth).bind (fun ly =>
            (fpmG2 lx ly (num (if octave < l.octave then contrast * 0.75 else contrast))).bind (fun lflow =>
            (diffuse start lflow (l.steps.map num)).bind (fun lt =>
            (flaterScales (num (if octave < l.octave then contrast * 0.75 else contrast)) l.octave lt
              (ls.map numLevel)).bind (fun rest => some (⟨numLevel l, lt, lsmooth⟩ :: rest)))))))) := by
      intro hstart
      rw [List.map_cons, flaterScales, hl, hcon, hsteps]
      by_cases hc : octave < l.octave
      · rw [if_pos hc] at hstart
        rw [if_pos hc, hstart]
        rfl
      · rw [if_neg hc] at hstart
        rw [if_neg hc, hstart]
        rfl
    rw [key (by
      unfold startImage at h1
      split at h1
      · rename_i c; rw [if_pos c]; exact Transfer.halfSize_map keeps h1
      · rename_i c; rw [if_neg c]; cases h1; rfl)]
    rw [Option.bind_some, num_one, blur_num (by norm_num) h2, Option.bind_some, Transfer.scharrHorizontal_map keeps h3,
      Option.bind_some, Transfer.scharrVertical_map keeps h4, Option.bind_some, pmG2_num h5, Option.bind_some,
      Transfer.diffuse_map keeps h6, Option.bind_some, laterScales_num h7]
    rfl

theorem createScaleSpace_num {s : Settings} (hs : Moderate s) {ls : List Level} {image : Img ℝ} {r : List Scale}
    (hwh : ∀ g, blur image 1 = some g → g.w * g.h < 2 ^ 64)
    (h : createScaleSpace s.toConfig ls image = some r) :
    fcreateScaleSpace (numSettings s) (ls.map numLevel) (image.map num) = some (r.map numScale) := by
  cases ls with
  | nil => cases h
  | cons l ls =>
    obtain ⟨lt, h1, h⟩ := Option.bind_eq_some_iff.1 h
    obtain ⟨k, h2, h⟩ := Option.bind_eq_some_iff.1 h
    obtain ⟨rest, h3, h⟩ := Option.bind_eq_some_iff.1 h
    cases h
    have hb : s.baseScale ≤ 2 ^ 60 := by
      have h0 : 0 < s.baseScale := by
        unfold blur at h1
        by_contra hc
        rw [if_neg hc] at h1
        cases h1
      have : s.baseScale ≤ s.baseScale * 2 ^ s.maxOctave := le_mul_of_one_le_right h0.le (one_le_pow₀ (by norm_num))
      have h := hs.scale
      norm_num at h ⊢
      linarith
    rw [List.map_cons, fcreateScaleSpace]
    show (fblur (image.map num) (num s.baseScale)).bind _ = _
    rw [blur_num hb h1]
    show (fcontrastFactor (image.map num) (num s.contrastPercentile) 1 s.contrastBins).bind _ = _
    rw [contrast_num hs.percentile hs.bins hwh h2]
    show (flaterScales (num k) l.octave (lt.map num) (ls.map numLevel)).bind _ = _
    rw [laterScales_num h3]
    rfl

end Unrounded

end Verif.Akaze
