import Verif.Spec.Extract
import Verif.Props.Descriptor
import Verif.Props.Evolution
import Verif.Props.Response

/-!
# The whole extraction (C32, C78)
-/

namespace Verif.Akaze

theorem extractDescriptors_some {p channels : Nat} {levels : List DetLevel} : ∀ {ks : List KeyPoint}
    {l : List (KeyPoint × List (BitVec 8))}, extractDescriptors p channels levels ks = some l →
      (l.map Prod.fst).Sublist ks ∧ (∀ q ∈ l, mldbDescriptor p channels levels q.1 = .ok q.2) ∧
      ∀ k ∈ ks, k ∉ l.map Prod.fst → ∀ d, mldbDescriptor p channels levels k ≠ .ok d
  | [], l, h => by
    cases h
    simp
  | k :: ks, l, h => by
    unfold extractDescriptors at h
    split at h
    · cases h
    · next e =>
      obtain ⟨h1, h2, h3⟩ := extractDescriptors_some h
      refine ⟨h1.cons _, h2, ?_⟩
      intro k' hk' hn d hd
      rcases List.mem_cons.1 hk' with rfl | hk'
      · rw [e] at hd; cases hd
      · exact h3 k' hk' hn d hd
    · next d e =>
      obtain ⟨l', hl', rfl⟩ := Option.map_eq_some_iff.1 h
      obtain ⟨h1, h2, h3⟩ := extractDescriptors_some hl'
      refine ⟨by simpa using h1, ?_, ?_⟩
      · intro q hq
        rcases List.mem_cons.1 hq with rfl | hq
        · exact e
        · exact h2 q hq
      · intro k' hk' hn d' hd
        rw [List.map_cons, List.mem_cons, not_or] at hn
        rcases List.mem_cons.1 hk' with rfl | hk'
        · exact hn.1 rfl
        · exact h3 k' hk' hn.2 d' hd

/-- **C32** Whatever keypoints are detected: as many descriptors as keypoints are returned, each that of its keypoint,
strongest first and at most `maximum_features`; keypoints are only left out for want of a descriptor or because there
are enough stronger ones. -/
theorem C32_extract {s : Settings} {sort : List KeyPoint → List KeyPoint} (hsort : SortsByResponse sort) {image : Img ℝ}
    {ks : List KeyPoint} {ds : List (List (BitVec 8))} (h : extract s sort image = some (ks, ds)) :
    ∃ scales levels detected, scaleSpace s.toConfig image = some scales ∧
      scales.mapM (detLevel s.derivativeFactor) = some levels ∧
      detectKeypoints s.threshold s.derivativeFactor levels = some detected ∧
      Extracted (mldbDescriptor s.patternSize s.channels levels) s.maximumFeatures detected ks ds := by
  unfold extract at h
  simp only [Option.bind_eq_bind, Option.bind_eq_some_iff] at h
  obtain ⟨scales, h1, levels, h2, detected, h3, found, h4, h5⟩ := h
  refine ⟨scales, levels, detected, h1, h2, h3, ?_⟩
  obtain ⟨g1, g2, g3⟩ := extractDescriptors_some h4
  rw [List.unzip_eq_map] at h5
  obtain ⟨rfl, rfl⟩ := Prod.mk.inj (Option.some.inj h5)
  have hsub := g1.trans (List.take_sublist s.maximumFeatures (sort detected))
  refine ⟨by simp, ?_, ?_, ?_, ?_, ?_⟩
  · intro i k d hk hd
    rw [List.getElem?_map] at hk hd
    obtain ⟨q, hq, rfl⟩ := Option.map_eq_some_iff.1 hk
    rw [hq] at hd
    obtain rfl := Option.some.inj hd
    exact g2 q (List.mem_of_getElem? hq)
  · exact (hsort.sorted detected).sublist hsub
  · exact g1.length_le.trans (List.length_take_le _ _)
  · exact hsub.subperm.trans (hsort.perm detected).subperm
  · intro k hk hn
    by_cases hin : k ∈ (sort detected).take s.maximumFeatures
    · exact Or.inl (g3 k hin hn)
    · right
      have hmem : k ∈ sort detected := (hsort.perm detected).mem_iff.2 hk
      have hdrop : k ∈ (sort detected).drop s.maximumFeatures := by
        rw [← List.take_append_drop s.maximumFeatures (sort detected), List.mem_append] at hmem
        exact hmem.resolve_left hin
      refine ⟨(sort detected).take s.maximumFeatures, ?_, ?_, ?_⟩
      · rw [List.length_take]
        have := List.length_pos_of_mem hdrop
        rw [List.length_drop] at this
        omega
      · exact (List.take_sublist _ _).subperm.trans (hsort.perm detected).subperm
      · intro p hp
        have := hsort.sorted detected
        rw [← List.take_append_drop s.maximumFeatures (sort detected), List.pairwise_append] at this
        exact this.2.2 p hp k hdrop

theorem extractDescriptors_total {p channels : Nat} {levels : List DetLevel} : ∀ {ks : List KeyPoint},
    (∀ k ∈ ks, mldbDescriptor p channels levels k ≠ .error .panic) →
    ∃ l, extractDescriptors p channels levels ks = some l
  | [], _ => ⟨[], rfl⟩
  | k :: ks, h => by
    obtain ⟨l, hl⟩ := extractDescriptors_total (fun k hk => h k (List.mem_cons_of_mem _ hk))
    have hk := h k List.mem_cons_self
    unfold extractDescriptors
    split
    · next e => exact absurd e hk
    · exact ⟨l, hl⟩
    · exact ⟨_, by rw [hl]; rfl⟩

/-- One level of the detector. -/
theorem detLevel_total {df : ℝ} {s : Scale} {w h : Nat} (hw : 2 ≤ w) (hh : 2 ≤ h) (hlt : Sized s.lt w h)
    (hls : Sized s.lsmooth w h) (hsig : 1 ≤ ⌊s.level.esigma * df / 2 ^ s.level.octave + 1 / 2⌋) :
    ∃ l, detLevel df s = some l ∧ l.octave = s.level.octave ∧ l.esigma = s.level.esigma ∧ l.lt = s.lt ∧
      Complete df [l] ∧ l.ldet.w = w ∧ l.ldet.h = h := by
  obtain ⟨f, hf⟩ := hls.shows
  have hround : roundAway (s.level.esigma * df / 2 ^ s.level.octave) = ⌊s.level.esigma * df / 2 ^ s.level.octave + 1 / 2⌋ := by
    refine roundAway_nonneg ?_
    have := Int.le_floor.1 hsig
    push_cast at this
    linarith
  have hedge : 1 ≤ edgeScale df s.level.octave s.level.esigma := by
    unfold edgeScale; rw [hround]; omega
  have hex : ∃ lx ly ld fx fy fd, scharrHorizontal s.lsmooth (edgeScale df s.level.octave s.level.esigma) = some lx ∧
      scharrVertical s.lsmooth (edgeScale df s.level.octave s.level.esigma) = some ly ∧
      response s.lsmooth (edgeScale df s.level.octave s.level.esigma) = some ld ∧ lx.Shows w h fx ∧ ly.Shows w h fy ∧
      ld.Shows w h fd := by
    rcases Nat.lt_or_ge 1 (edgeScale df s.level.octave s.level.esigma) with h2 | h2
    · obtain ⟨lx, ly, fx, fy, e1, e2, e3, e4, -⟩ := derivative_quadratic hf (by omega) (by omega) h2
      obtain ⟨ld, fd, e5, e6, -⟩ := C73_quadratic_partial hf (by omega) (by omega) h2
      exact ⟨lx, ly, ld, fx, fy, fd, e1, e2, e5, e3, e4, e6⟩
    · have : edgeScale df s.level.octave s.level.esigma = 1 := by omega
      rw [this]
      obtain ⟨lx, ly, fx, fy, e1, e2, e3, e4, -⟩ := derivative_one hf (by omega) (by omega)
      obtain ⟨ld, fd, e5, e6, -⟩ := C73_scale_one hf (by omega) (by omega)
      exact ⟨lx, ly, ld, fx, fy, fd, e1, e2, e5, e3, e4, e6⟩
  obtain ⟨lx, ly, ld, fx, fy, fd, e1, e2, e3, s1, s2, s3⟩ := hex
  refine ⟨⟨s.level.octave, s.level.esigma, s.lt, lx, ly, ld⟩, ?_, rfl, rfl, rfl, ?_, s3.1, s3.2.1⟩
  · unfold detLevel
    simp only [e1, e2, e3, Option.bind_eq_bind, Option.bind_some]; rfl
  · intro l hl
    obtain rfl := List.mem_singleton.1 hl
    have t1 := shows_sized s1
    have t2 := shows_sized s2
    have t3 := shows_sized s3
    refine ⟨t3.1, by rw [t3.2.1]; omega, by rw [t3.2.2]; omega, ⟨t1.1, ?_, ?_⟩, ⟨t2.1, ?_, ?_⟩, ⟨hlt.1, ?_, ?_⟩, hsig⟩
    · exact t1.2.1.trans t3.2.1.symm
    · exact t1.2.2.trans t3.2.2.symm
    · exact t2.2.1.trans t3.2.1.symm
    · exact t2.2.2.trans t3.2.2.symm
    · exact hlt.2.1.trans t3.2.1.symm
    · exact hlt.2.2.trans t3.2.2.symm

theorem scale_in_octave {c : Config} (hn : 0 < c.numSublevels) (hb : 0 < c.baseScale) (i : Nat) :
    c.baseScale ≤ scaleOf c i / 2 ^ (i / c.numSublevels) := by
  have hn' : (0 : ℝ) < c.numSublevels := by exact_mod_cast hn
  rw [le_div_iff₀ (by positivity)]
  unfold scaleOf
  refine mul_le_mul_of_nonneg_left ?_ hb.le
  rw [← Real.rpow_natCast]
  refine Real.rpow_le_rpow_of_exponent_le (by norm_num) ?_
  rw [le_div_iff₀ hn']
  exact_mod_cast Nat.div_mul_le_self i c.numSublevels

/-- **C78** Extraction never panics: for settings whose levels are far enough apart, images of at least 40 by 40 pixels
and a contrast factor that is not zero it returns keypoints and descriptors. -/
theorem C78_total {s : Settings} {sort : List KeyPoint → List KeyPoint} (hsort : SortsByResponse sort)
    (hn : 0 < s.numSublevels) (hm : 0 < s.maxOctave) (hb : 0 < s.baseScale)
    (ht : 1 / 6 + 1 / 10 ^ 8 < firstTime s.toConfig) (hbins : 0 < s.contrastBins)
    (hdf : 1 / 2 ≤ s.baseScale * s.derivativeFactor) (hch : s.channels ≤ 3) (hp : 1 ≤ s.patternSize)
    {image : Img ℝ} (hwf : image.WF) (hw : 40 ≤ image.w) (hh : 40 ≤ image.h) :
    ∃ k, contrastFactor image s.contrastPercentile 1 s.contrastBins = some k ∧
      (k ≠ 0 → ∃ ks ds, extract s sort image = some (ks, ds)) := by
  obtain ⟨k, hk, hout⟩ := C23_total_partial (c := s.toConfig) hn hm hb ht hbins hwf hw hh
  refine ⟨k, hk, fun hk0 => ?_⟩
  obtain ⟨scales, hsc, -⟩ := hout hk0
  obtain ⟨hal, hsizes⟩ := C23_sizes (c := s.toConfig) hn hwf hsc
  obtain ⟨_, _, _, _, hlev⟩ := C23_levels (c := s.toConfig) hn hal
  have hall : ∀ t ∈ scales, ∃ l, detLevel s.derivativeFactor t = some l ∧ Complete s.derivativeFactor [l] := by
    intro t ht
    obtain ⟨i, hi, rfl⟩ := List.getElem_of_mem ht
    have hi' := List.getElem?_eq_getElem hi
    obtain ⟨_, _, z1, z2⟩ := hsizes i _ hi'
    obtain ⟨o1, _, o3, _, _, ⟨a1, a2⟩, _⟩ := hlev i scales[i].level (by rw [List.getElem?_map, hi']; rfl)
    obtain ⟨l, e, _, _, _, hc, _⟩ := detLevel_total (df := s.derivativeFactor)
      (by rw [Nat.le_div_iff_mul_le (by positivity)]; omega) (by rw [Nat.le_div_iff_mul_le (by positivity)]; omega) z1 z2 (by
      rw [Int.le_floor, o3, o1]
      have h1 := scale_in_octave (c := s.toConfig) hn hb i
      have h2 : 0 ≤ s.derivativeFactor := by
        by_contra hneg
        have := mul_neg_of_pos_of_neg hb (not_le.1 hneg)
        linarith
      have h3 := mul_le_mul_of_nonneg_right h1 h2
      rw [mul_div_right_comm]
      push_cast
      linarith)
    exact ⟨l, e, hc⟩
  have : Nonempty DetLevel := ⟨⟨0, 0, ⟨0, 0, []⟩, ⟨0, 0, []⟩, ⟨0, 0, []⟩, ⟨0, 0, []⟩⟩⟩
  choose! g hg hcg using hall
  have hmap : scales.mapM (detLevel s.derivativeFactor) = some (scales.map g) := mapM_some hg
  have hcomp : Complete s.derivativeFactor (scales.map g) := by
    intro l hl
    obtain ⟨t, ht, rfl⟩ := List.mem_map.1 hl
    exact hcg t ht (g t) List.mem_cons_self
  obtain ⟨detected, hd, hfound⟩ := C74_detect (threshold := s.threshold) hcomp
  obtain ⟨found, hf⟩ := extractDescriptors_total (p := s.patternSize) (channels := s.channels) (levels := scales.map g)
    (ks := (sort detected).take s.maximumFeatures) (by
      intro k' hk'
      have hk' := (hsort.perm detected).mem_iff.1 (List.mem_of_mem_take hk')
      obtain ⟨k, l, x, y, u, v, h1, h2, -⟩ := hfound k' hk'
      have hl : (scales.map g)[k'.classId]? = some l := by rw [h2.2.2.2.2.2]; exact h1.level
      obtain ⟨_, hx, hy, ht⟩ := hcomp.shows (List.mem_of_getElem? hl)
      rcases C31_rest hp hch hl ht hx hy with e | ⟨d, e, _⟩ <;> rw [e] <;> simp)
  refine ⟨(found.unzip).1, (found.unzip).2, ?_⟩
  unfold extract
  simp only [hsc, hmap, hd, hf, Option.bind_eq_bind, Option.bind_some]
  rfl

/-- **C78** With the default settings the only further conditions are the size and the contrast of the image. -/
theorem C78_default {sort : List KeyPoint → List KeyPoint} (hsort : SortsByResponse sort) {image : Img ℝ}
    (hwf : image.WF) (hw : 40 ≤ image.w) (hh : 40 ≤ image.h) : ∃ k, contrastFactor image 0.7 1 300 = some k ∧
      (k ≠ 0 → ∃ ks ds, extract Settings.default sort image = some (ks, ds)) := by
  have h := C78_total (s := Settings.default) hsort (by norm_num [Settings.default, Config.default])
    (by norm_num [Settings.default, Config.default]) (by norm_num [Settings.default, Config.default]) default_time
    (by norm_num [Settings.default, Config.default]) (by norm_num [Settings.default, Config.default])
    (by norm_num [Settings.default]) (by norm_num [Settings.default]) hwf hw hh
  simpa [Settings.default, Config.default] using h

end Verif.Akaze
