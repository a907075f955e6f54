import Verif.Lemmas.FloatDescriptorExact
import Verif.Props.DescriptorExample
import Verif.Props.Ramp
import Verif.Props.Extract

/-!
# Extraction without rounding, property C102

The model of extraction with floating point numbers and the model over the real numbers were written separately. If no
operation rounds, both compute the same keypoints and the same descriptors.
-/

namespace Verif.Akaze

open Verif.Bicubic (Flt)
open FloatOps

namespace Unrounded

theorem allocate_sublevels {c : Config} {w h : Nat} {l : Level} {ls : List Level}
    (ha : allocate c w h = some (l :: ls)) : 0 < c.numSublevels := by
  rcases Nat.eq_zero_or_pos c.numSublevels with h0 | h0
  · exfalso
    have hnone : ∀ p : Nat × Nat, newLevel c p.1 p.2 = none := by
      intro p
      unfold newLevel
      rw [if_pos h0]
    unfold allocate at ha
    cases hl : levelNumbers c w h with
    | nil => rw [hl] at ha; cases ha
    | cons p ps =>
      rw [hl, List.mapM_cons, hnone p] at ha
      cases ha
  · exact h0

theorem mapM_num {α β γ δ : Type} {f : α → Option β} {g : γ → Option δ} {φ : α → γ} {ψ : β → δ} : ∀ {l : List α} {r : List β},
    (∀ a ∈ l, ∀ b, f a = some b → g (φ a) = some (ψ b)) → l.mapM f = some r → (l.map φ).mapM g = some (r.map ψ)
  | [], r, _, h => by cases h; rfl
  | a :: l, r, h1, h => by
    rw [List.mapM_cons] at h
    obtain ⟨b, hb, h⟩ := Option.bind_eq_some_iff.1 h
    obtain ⟨r', hr, h⟩ := Option.bind_eq_some_iff.1 h
    cases h
    rw [List.map_cons, List.mapM_cons, h1 a (by simp) b hb, Option.bind_eq_bind, Option.bind_some,
      mapM_num (fun a ha => h1 a (by simp [ha])) hr]
    rfl

end Unrounded

open Unrounded

/-- C102: if no operation rounds, extraction with floating point numbers gives what extraction with real numbers gives: the
same keypoints in the same order and the same descriptors. `hsort` says that both sort the same way. -/
theorem C102_unrounded {s : Settings} (hs : Moderate s) {sort : List KeyPoint → List KeyPoint}
    {fsort : List (FKeyPoint Unrounded) → List (FKeyPoint Unrounded)}
    (hsort : ∀ l, fsort (l.map numKey) = (sort l).map numKey) {image : Img ℝ} (hw : image.w < 2 ^ 32)
    (hh : image.h < 2 ^ 32) {ks : List KeyPoint} {ds : List (List (BitVec 8))}
    (h : extract s sort image = some (ks, ds)) :
    fextract (numSettings s) fsort (image.map num) = some (ks.map numKey, ds) := by
  unfold extract at h
  obtain ⟨scales, e1, h⟩ := Option.bind_eq_some_iff.1 h
  obtain ⟨levels, e2, h⟩ := Option.bind_eq_some_iff.1 h
  obtain ⟨found, e3, h⟩ := Option.bind_eq_some_iff.1 h
  obtain ⟨pairs, e4, h⟩ := Option.bind_eq_some_iff.1 h
  unfold scaleSpace at e1
  obtain ⟨ls, e0, e1⟩ := Option.bind_eq_some_iff.1 e1
  have hn : 0 < s.numSublevels := by
    cases ls with
    | nil => cases e1
    | cons l ls => exact allocate_sublevels e0
  have hb : 0 < s.baseScale := by
    cases ls with
    | nil => cases e1
    | cons l ls =>
      obtain ⟨lt, e, -⟩ := Option.bind_eq_some_iff.1 e1
      by_contra hc
      unfold blur at e
      rw [if_neg hc] at e
      cases e
  have hin : ∀ {i : Img ℝ}, Within image i → i.w < 2 ^ 32 ∧ i.h < 2 ^ 32 :=
    fun hi => ⟨hi.1.trans_lt hw, hi.2.trans_lt hh⟩
  have f0 := allocate_num hs hb hn e0
  have f1 := createScaleSpace_num hs (fun g hg => by
    obtain ⟨h1, h2⟩ := hin (blur_within hg)
    calc g.w * g.h < 2 ^ 32 * 2 ^ 32 := Nat.mul_lt_mul'' h1 h2
      _ = 2 ^ 64 := by norm_num) e1
  obtain ⟨hlev, hwit⟩ := createScaleSpace_within e1
  have f2 : (scales.map numScale).mapM (fdetLevel (num s.derivativeFactor)) = some (levels.map numDet) := by
    refine mapM_num (fun sc hsc l hl => detLevel_num ?_ hl) e2
    obtain ⟨i, ho, he⟩ := allocate_levels hn e0 sc.level (hlev ▸ List.mem_map.2 ⟨sc, hsc, rfl⟩)
    rw [ho, he]
    exact edge_lt hs hb hn i
  have hfits : ∀ l ∈ levels, Fits l := by
    intro l hl
    obtain ⟨sc, hsc, e⟩ := memMapM e2 hl
    obtain ⟨h1, -, h3, -⟩ := det_within e
    obtain ⟨a1, a2⟩ := hin ((hwit sc hsc).2.trans h1)
    obtain ⟨a3, a4⟩ := hin ((hwit sc hsc).2.trans h3)
    exact ⟨by omega, by omega, by omega, by omega⟩
  have f3 := detectKeypoints_num hfits e3
  have f4 := extractDescriptors_num hs.pattern s.channels levels ((sort found).take s.maximumFeatures)
  rw [e4] at f4
  unfold fextract
  show (fallocate (numSettings s) image.w image.h).bind _ = _
  rw [f0, Option.bind_some]
  show (fcreateScaleSpace _ _ _).bind _ = _
  rw [f1, Option.bind_some]
  show (List.mapM (fdetLevel (num s.derivativeFactor)) _).bind _ = _
  rw [f2, Option.bind_some]
  show (fdetectKeypoints (num s.threshold) (num s.derivativeFactor) _).bind _ = _
  rw [f3, Option.bind_some, hsort, ← List.map_take]
  show (fextractDescriptors s.patternSize s.channels _ (List.map numKey (List.take s.maximumFeatures (sort found)))).bind _ = _
  rw [f4]
  have h' : pairs.unzip = (ks, ds) := Option.some.inj h
  rw [List.unzip_eq_map, Prod.mk.injEq] at h'
  obtain ⟨rfl, rfl⟩ := h'
  show some (List.unzip (pairs.map (Prod.map numKey id))) = _
  rw [List.unzip_eq_map]
  simp only [List.map_map, Function.comp_def, Prod.map_fst, Prod.map_snd, id]

namespace Unrounded

theorem default_moderate : Moderate Settings.default := by
  constructor <;> norm_num [Settings.default, Config.default]

/-- A way to sort unrounded keypoints. -/
noncomputable def exFSort (l : List (FKeyPoint Unrounded)) : List (FKeyPoint Unrounded) :=
  l.mergeSort (fun a b => le b.response a.response)

theorem exFSort_sorts (l : List KeyPoint) : exFSort (l.map numKey) = (exSort l).map numKey := by
  unfold exFSort exSort
  refine (List.map_mergeSort (fun a _ b _ => ?_)).symm
  show decide (b.response ≤ a.response) = le (num b.response) (num a.response)
  by_cases h : b.response ≤ a.response
  · rw [decide_eq_true h, (num_le _ _).2 h]
  · rw [decide_eq_false h, Bool.eq_false_iff.2 (fun hc => h ((num_le _ _).1 hc))]

/-- The default settings and a ramp of 100 by 80 pixels. -/
example : ∃ (image : Img ℝ) (ks : List KeyPoint) (ds : List (List (BitVec 8))),
    extract Settings.default exSort image = some (ks, ds) ∧
    fextract (numSettings Settings.default) exFSort (image.map num) = some (ks.map numKey, ds) := by
  have hs := ofFn_shows 100 80 (fun x _ => (1 : ℝ) * (x : ℝ))
  obtain ⟨k, hk, h⟩ := C78_default exSort_sorts hs.2.2.1 (by rw [hs.1]; omega) (by rw [hs.2.1]; omega)
  obtain ⟨ks, ds, e⟩ := h (ramp_contrast one_ne_zero hs (by omega) (le_refl _) hk)
  exact ⟨_, ks, ds, e, C102_unrounded default_moderate exFSort_sorts (by rw [hs.1]; norm_num) (by rw [hs.2.1]; norm_num) e⟩

end Unrounded

end Verif.Akaze
