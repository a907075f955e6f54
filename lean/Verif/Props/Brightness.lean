import Verif.Lemmas.BrightnessDetect
import Verif.Props.Extract
import Verif.Props.Ramp
import Verif.Props.DescriptorExample

/-!
# The whole extraction does not depend on brightness and contrast (C79)
-/

namespace Verif.Akaze

theorem mldbDescriptor_relight {a : ℝ} (ha : 0 < a) (b c : ℝ) {p channels : Nat} (hp : 4 ≤ p) {levels : List DetLevel}
    (hl : ∀ l ∈ levels, GoodDet l) (k : KeyPoint) :
    mldbDescriptor p channels (levels.map (relightDet a b)) (k.amplify c) = mldbDescriptor p channels levels k := by
  rcases Nat.lt_or_ge 3 channels with h3 | h3
  · rw [C31_invalid (Or.inl h3), C31_invalid (Or.inl h3)]
  have hk : mldbDescriptor p channels (levels.map (relightDet a b)) (k.amplify c) =
      mldbDescriptor p channels (levels.map (relightDet a b)) k := rfl
  rw [hk]
  rcases e : levels[k.classId]? with _ | lv
  · have e' : (levels.map (relightDet a b))[k.classId]? = none := by rw [List.getElem?_map, e]; rfl
    unfold mldbDescriptor
    rw [e, e']
  have e' : (levels.map (relightDet a b))[k.classId]? = some (relightDet a b lv) := by rw [List.getElem?_map, e]; rfl
  obtain ⟨w, h, ft, fx, fy, fd, -, -, s1, s2, s3, -⟩ := hl lv (List.mem_of_getElem? e)
  have t1 : (relightDet a b lv).lt.Shows w h (fun x y => a * ft x y + b) := relight_shows s1 a b
  have t2 : (relightDet a b lv).lx.Shows w h (fun x y => a * fx x y) := by
    have := relight_shows s2 a 0
    simp only [add_zero] at this
    exact this
  have t3 : (relightDet a b lv).ly.Shows w h (fun x y => a * fy x y) := by
    have := relight_shows s3 a 0
    simp only [add_zero] at this
    exact this
  obtain ⟨o1, b1, g1, h1, -, k1⟩ := mldb_eq e s1 s2 s3 h3 (p := p) (by omega)
  obtain ⟨o2, b2, g2, h2, -, k2⟩ := mldb_eq e' t1 t2 t3 h3 (p := p) (by omega)
  rw [g1, g2]
  by_cases hin : AllInside p w h (frameOf k)
  · rw [if_pos hin, if_pos hin]
    have hb := k1 hp hin
    have hb' := k2 hp hin
    rw [descriptorBits_affine ha (by omega), ← hb] at hb'
    rw [hb'] at h2
    rw [bits_ext h2.1 h1.1 (fun n hn => by rw [h2.2 n hn, h1.2 n hn])]
  · rw [if_neg hin, if_neg hin]

theorem extractDescriptors_relight {a : ℝ} (ha : 0 < a) (b c : ℝ) {p channels : Nat} (hp : 4 ≤ p)
    {levels : List DetLevel} (hl : ∀ l ∈ levels, GoodDet l) : ∀ ks : List KeyPoint,
    extractDescriptors p channels (levels.map (relightDet a b)) (ks.map (KeyPoint.amplify c)) =
      (extractDescriptors p channels levels ks).map (List.map (fun q => (q.1.amplify c, q.2)))
  | [] => rfl
  | k :: ks => by
    rw [List.map_cons]
    unfold extractDescriptors
    rw [mldbDescriptor_relight ha b c hp hl, extractDescriptors_relight ha b c hp hl ks]
    rcases mldbDescriptor p channels levels k with (_ | _) | d
    · rfl
    · rfl
    · simp only [Option.map_map]
      rfl

/-- **C79** Features do not depend on brightness and contrast: if every pixel `v` of an image is replaced by
`a * v + b` for a positive `a`, and the threshold is adapted to the new contrast, extraction finds the same keypoints,
at the same places with the same sizes and angles and in the same order, with the same descriptors; only their
responses are multiplied by `a ^ 2`. It panics on the one image if and only if it does on the other. -/
theorem C79_contrast {s : Settings} {sort : List KeyPoint → List KeyPoint} {image : Img ℝ} {a : ℝ} (ha : 0 < a) (b : ℝ)
    (hsort : SortsByComparison sort) (hp : 4 ≤ s.patternSize) (hpc : s.contrastPercentile ≤ 1)
    (hi : image.WF) (hw : 0 < image.w) (hh : 0 < image.h) :
    extract { s with threshold := a ^ 2 * s.threshold } sort (relight a b image) =
      (extract s sort image).map (fun r => (r.1.map (KeyPoint.amplify (a ^ 2)), r.2)) := by
  obtain ⟨e1, g1⟩ := scaleSpace_relight ha b (c := s.toConfig) (Or.inl hpc) (i := image) ⟨hi, hw, hh⟩
  unfold extract
  simp only [e1]
  rcases hs : scaleSpace s.toConfig image with _ | scales
  · rfl
  obtain ⟨e2, g2⟩ := detLevels_relight s.derivativeFactor a b scales (g1 _ hs)
  simp only [Option.map_some, Option.bind_eq_bind, Option.bind_some, e2]
  rcases hl : scales.mapM (detLevel s.derivativeFactor) with _ | levels
  · rfl
  simp only [Option.map_some, Option.bind_some, detectKeypoints_relight ha]
  rcases detectKeypoints s.threshold s.derivativeFactor levels with _ | ks
  · rfl
  simp only [Option.map_some, Option.bind_some, hsort (a ^ 2) ks (by positivity), ← List.map_take]
  rw [extractDescriptors_relight ha b (a ^ 2) hp (g2 _ hl)]
  rcases extractDescriptors s.patternSize s.channels levels _ with _ | found
  · rfl
  simp only [Option.map_some, Option.bind_some, List.unzip_eq_map, List.map_map, Option.pure_def]
  rfl

/-- **C79** Adding the same amount to every pixel changes nothing at all. -/
theorem C79_brightness {s : Settings} {sort : List KeyPoint → List KeyPoint} {image : Img ℝ} (b : ℝ)
    (hp : 4 ≤ s.patternSize) (hi : image.WF) (hw : 0 < image.w) (hh : 0 < image.h) :
    extract s sort (relight 1 b image) = extract s sort image := by
  have hone : KeyPoint.amplify ((1 : ℝ) ^ 2) = id := by
    funext k; simp [KeyPoint.amplify]
  obtain ⟨e1, g1⟩ := scaleSpace_relight one_pos b (c := s.toConfig) (Or.inr rfl) (i := image) ⟨hi, hw, hh⟩
  unfold extract
  simp only [e1]
  rcases hs : scaleSpace s.toConfig image with _ | scales
  · rfl
  obtain ⟨e2, g2⟩ := detLevels_relight s.derivativeFactor 1 b scales (g1 _ hs)
  simp only [Option.map_some, Option.bind_eq_bind, Option.bind_some, e2]
  rcases hl : scales.mapM (detLevel s.derivativeFactor) with _ | levels
  · rfl
  have hd := detectKeypoints_relight (b := b) one_pos s.threshold s.derivativeFactor levels
  rw [hone, one_pow, one_mul, List.map_id_fun, Option.map_id_fun, id] at hd
  simp only [Option.map_some, Option.bind_some, hd]
  rcases detectKeypoints s.threshold s.derivativeFactor levels with _ | ks
  · rfl
  have hx := extractDescriptors_relight one_pos b (1 ^ 2) (channels := s.channels) hp (g2 _ hl) ((sort ks).take s.maximumFeatures)
  rw [hone, List.map_id] at hx
  simp only [Option.bind_some, hx]
  rcases extractDescriptors s.patternSize s.channels levels _ with _ | found
  · rfl
  simp

theorem exSort_comparison : SortsByComparison exSort := by
  intro c l hc
  unfold exSort
  refine (List.map_mergeSort (fun p _ q _ => ?_)).symm
  simp only [KeyPoint.amplify, mul_le_mul_iff_right₀ hc]

/-- A ramp of 100 by 90 pixels with the default settings: making it brighter and steeper gives the same keypoints and
descriptors, and there is a result. -/
example {image : Img ℝ} (hs : image.Shows 100 90 (fun x _ => 3 * x)) : ∃ ks ds,
    extract Settings.default exSort image = some (ks, ds) ∧
    extract { Settings.default with threshold := 2 ^ 2 * Settings.default.threshold } exSort (relight 2 5 image) =
      some (ks.map (KeyPoint.amplify (2 ^ 2)), ds) ∧
    extract Settings.default exSort (relight 1 5 image) = some (ks, ds) := by
  obtain ⟨k, hk, h⟩ := C78_default exSort_sorts hs.2.2.1 (by rw [hs.1]; norm_num) (by rw [hs.2.1]; norm_num)
  obtain ⟨ks, ds, e⟩ := h (ramp_contrast (by norm_num) hs (by norm_num) (by norm_num) hk)
  refine ⟨ks, ds, e, ?_, ?_⟩
  · rw [C79_contrast (by norm_num) 5 exSort_comparison (by norm_num [Settings.default])
      (by norm_num [Settings.default, Config.default]) hs.2.2.1 (by rw [hs.1]; norm_num) (by rw [hs.2.1]; norm_num), e]
    rfl
  · rw [C79_brightness 5 (by norm_num [Settings.default]) hs.2.2.1 (by rw [hs.1]; norm_num) (by rw [hs.2.1]; norm_num), e]

end Verif.Akaze
