import Verif.Lemmas.FloatDescriptor

/-!
# Extraction with floating point numbers (C102)
-/

namespace Verif.Akaze

open FloatOps FloatCast
open Verif.Bicubic (Flt)

variable {F D : Type} [FloatOps F] [FloatOps D] [FloatCast F D] {I : Ieee F} {J : Ieee D}

/-- **C102** Whatever the pixels are (also NaN and infinite), however results are rounded, and whatever `exp`, `sin`,
`cos` and `atan2` return: extraction from a picture of usual size neither panics nor runs for ever. It returns as many
descriptors of 64 bytes as keypoints, not more than asked for, and all keypoints are numbers inside the picture. -/
theorem C102_total (C : IeeeCast I J) {s : FSettings D} (hu : FUsable J s)
    {sort : List (FKeyPoint F) → List (FKeyPoint F)} (hsort : ∀ l, (sort l).Perm l) {image : Img F} (hi : image.WF)
    (hw : 40 ≤ image.w) (hh : 40 ≤ image.h) (hw' : image.w ≤ 2 ^ 22) (hh' : image.h ≤ 2 ^ 22)
    (hl : LevelsOk J s image.w image.h) : ∃ ks ds, fextract s sort image = some (ks, ds) ∧
      ks.length = ds.length ∧ ks.length ≤ s.maximumFeatures ∧
      (∀ k ∈ ks, I.Between k.x 0 image.w ∧ I.Between k.y 0 image.h) ∧ ∀ d ∈ ds, d.length = 64 := by
  obtain ⟨l, ls, e1, h0, hl0, hls⟩ := fallocate_total hu hw hh hl
  obtain ⟨scales, e2, hsc⟩ := fcreateScaleSpace_total C hu (image := image) ⟨hi, rfl, rfl⟩ hw hh h0 hl0 hls
  have hdet : ∀ x ∈ scales, ∃ l, fdetLevel s.derivativeFactor x = some l ∧ DetOk J s.derivativeFactor image.w image.h l :=
    fun x hx => fdetLevel_total hw' (hsc x hx)
  obtain ⟨levels, e3⟩ := mapM_ok (fun x hx => (hdet x hx).imp (fun _ h => h.1))
  have hlev : ∀ l ∈ levels, DetOk J s.derivativeFactor image.w image.h l := by
    intro l hm
    obtain ⟨x, hx, ex⟩ := memMapM e3 hm
    obtain ⟨l', el', h⟩ := hdet x hx
    rw [ex] at el'
    obtain rfl := Option.some.inj el'
    exact h
  obtain ⟨ks, e4, hks⟩ := fdetectKeypoints_total (I := I) C (threshold := s.threshold) hw' hh' hlev
  have hplaced : ∀ k ∈ (sort ks).take s.maximumFeatures, FPlaced I levels image.w image.h k :=
    fun k hk => hks k ((hsort ks).mem_iff.1 (List.mem_of_mem_take hk))
  obtain ⟨found, e5, hsub, hlen⟩ := fextractDescriptors_total (p := s.patternSize) (channels := s.channels)
    (levels := levels) (ks := (sort ks).take s.maximumFeatures) (by
      intro k hk
      obtain ⟨lv, hm, hlv, -⟩ := (hplaced k hk).level
      exact fmldb_safe I hu.channels hu.pattern hu.pattern_small hlv (hlev lv hm).lt (hlev lv hm).lx (hlev lv hm).ly)
  refine ⟨found.map Prod.fst, found.map Prod.snd, ?_, by simp, ?_, ?_, ?_⟩
  · unfold fextract
    simp only [e1, e2, e3, e4, e5, Option.bind_eq_bind, Option.bind_some]
    rw [List.unzip_eq_map]; rfl
  · exact hsub.length_le.trans (List.length_take_le _ _)
  · intro k hk
    have := hplaced k (hsub.subset hk)
    exact ⟨this.px, this.py⟩
  · intro d hd
    obtain ⟨q, hq, rfl⟩ := List.mem_map.1 hd
    exact hlen q hq

end Verif.Akaze
