import Verif.Spec.SfmFrame
import Verif.Props.Bicubic
import Verif.Props.Extract
import Verif.Props.Pinhole
import Verif.Props.SfmRigidExample
import Verif.Props.Brightness

/-!
# C97: the features of a picture
-/

namespace Verif.Sfm

open Verif.Geo

variable {s : Akaze.Settings} {sortK : List Akaze.KeyPoint → List Akaze.KeyPoint}
  {sortF : List (List (BitVec 8) × Feature) → List (List (BitVec 8) × Feature)} {camera : IntrinsicsK1}
  {gray : Akaze.Img ℝ} {picture : Akaze.Img (Fin 3 → Nat)}

theorem colours_total (hp : picture.WF) : ∀ ks : List Akaze.KeyPoint, ∃ cs,
    ks.mapM (fun k => Bicubic.interpolate Bicubic.u8 picture k.x k.y (fun _ => 0)) = some cs ∧ cs.length = ks.length ∧
    ∀ (i : Nat) k c, ks[i]? = some k → cs[i]? = some c →
      Bicubic.interpolate Bicubic.u8 picture k.x k.y (fun _ => 0) = some c := by
  intro ks
  induction ks with
  | nil => exact ⟨[], rfl, rfl, fun i k c h => by cases h⟩
  | cons k ks ih =>
    obtain ⟨cs, h1, h2, h3⟩ := ih
    obtain ⟨c, hc⟩ := Bicubic.C57_reads Bicubic.u8 hp k.x k.y (fun _ => 0)
    refine ⟨c :: cs, ?_, by simp [h2], ?_⟩
    · rw [List.mapM_cons, hc, h1]
      rfl
    · intro i k' c' hk hc'
      cases i with
      | zero =>
        obtain rfl : k = k' := by simpa using hk
        obtain rfl : c = c' := by simpa using hc'
        exact hc
      | succ i => exact h3 i k' c' (by simpa using hk) (by simpa using hc')

/-- **C97** Whenever features are extracted, reading the colours never leaves the picture, and the result has one entry for
every keypoint, with the descriptor, bearing, response and colour of this keypoint. The strongest come first, and there are
no more than asked for. -/
theorem C97_features (hK : Akaze.SortsByResponse sortK) (hF : SortsFeatures sortF) (hp : picture.WF)
    {ks : List Akaze.KeyPoint} {ds : List (List (BitVec 8))} (h : Akaze.extract s sortK gray = some (ks, ds)) :
    ∃ fs es, kpsDescriptors s sortK sortF camera gray picture = some fs ∧ fs.Perm es ∧ es.length = ks.length ∧
      (∀ (i : Nat) k d, ks[i]? = some k → ds[i]? = some d → ∃ e, es[i]? = some e ∧ FeatureOf camera picture k d e) ∧
      fs.Pairwise (fun a b => b.2.response ≤ a.2.response) ∧ fs.length ≤ s.maximumFeatures := by
  obtain ⟨scales, levels, detected, _, _, _, hE⟩ := Akaze.C32_extract hK h
  obtain ⟨cs, h1, h2, h3⟩ := colours_total hp ks
  have hlen : ((ks.zip (ds.zip cs)).map (makeFeature camera)).length = ks.length := by
    simp [h2, hE.sameLength]
  refine ⟨_, _, ?_, hF.perm _, hlen, ?_, hF.sorted _, ?_⟩
  · unfold kpsDescriptors
    rw [h]
    simp only [Option.bind_eq_bind, Option.bind_some, h1]
    rfl
  · intro i k d hk hd
    have hi : i < ks.length := by
      by_contra hn
      rw [List.getElem?_eq_none (by omega)] at hk
      cases hk
    obtain ⟨c, hc⟩ : ∃ c, cs[i]? = some c := ⟨_, List.getElem?_eq_getElem (by omega)⟩
    refine ⟨makeFeature camera (k, d, c), ?_, rfl, rfl, rfl, h3 i k c hk hc⟩
    rw [List.getElem?_map, List.getElem?_zip_eq_some (z := (k, d, c)) |>.mpr ⟨hk, List.getElem?_zip_eq_some (z := (d, c)) |>.mpr ⟨hd, hc⟩⟩]
    rfl
  · rw [(hF.perm _).length_eq, hlen]
    exact hE.atMost

/-- **C97** A frame that uses only its first features, as the registration of frames does, uses the strongest ones. -/
theorem C97_strongest (hF : SortsFeatures sortF) {fs : List (List (BitVec 8) × Feature)}
    (h : kpsDescriptors s sortK sortF camera gray picture = some fs) (n : Nat) :
    ∀ a ∈ fs.take n, ∀ b ∈ fs.drop n, b.2.response ≤ a.2.response := by
  have : fs.Pairwise (fun a b => b.2.response ≤ a.2.response) := by
    unfold kpsDescriptors at h
    simp only [Option.bind_eq_bind, Option.bind_eq_some_iff] at h
    obtain ⟨x, _, cs, _, h⟩ := h
    cases h
    exact hF.sorted _
  rw [← List.take_append_drop n fs, List.pairwise_append] at this
  exact this.2.2

/-- **C97** With the default settings, from an image of at least 40 pixels per side whose contrast factor is not zero. -/
theorem C97_total (hK : Akaze.SortsByResponse sortK) (hF : SortsFeatures sortF) (hp : picture.WF) (hg : gray.WF)
    (hw : 40 ≤ gray.w) (hh : 40 ≤ gray.h) : ∃ k, Akaze.contrastFactor gray 0.7 1 300 = some k ∧
      (k ≠ 0 → ∃ fs, kpsDescriptors Akaze.Settings.default sortK sortF camera gray picture = some fs) := by
  obtain ⟨k, hk, h⟩ := Akaze.C78_default hK hg hw hh
  refine ⟨k, hk, fun hk0 => ?_⟩
  obtain ⟨ks, ds, he⟩ := h hk0
  obtain ⟨fs, _, h1, _⟩ := C97_features (camera := camera) hK hF hp he
  exact ⟨fs, h1⟩

theorem usable_calibrate (hc : Usable camera) (p : V2 ℝ) : ∃ b, camera.calibrate p = some b ∧ b.normSq = 1 := by
  obtain ⟨b, h1, h2, _⟩ := C39_round_trip_partial camera hc.x hc.y p (by
    have : 0 ≤ camera.distortion p := by
      unfold IntrinsicsK1.distortion
      exact mul_nonneg hc.k1 (add_nonneg (mul_self_nonneg _) (mul_self_nonneg _))
    linarith)
  exact ⟨b, h1, h2⟩

theorem calibrated_unit {b : Option (V3 ℝ)} (h : Calibrated b) : ∃ v, b = some v ∧ v.normSq = 1 := by
  obtain ⟨camera, p, hc, rfl⟩ := h
  exact usable_calibrate hc p

/-- **C97** With a usable camera every feature has a bearing, and it is a unit vector. -/
theorem C97_bearings (hF : SortsFeatures sortF) {fs : List (List (BitVec 8) × Feature)}
    (h : kpsDescriptors s sortK sortF camera gray picture = some fs) (hc : Usable camera) :
    ∀ e ∈ fs, Calibrated e.2.bearing ∧ ∃ b, e.2.bearing = some b ∧ b.normSq = 1 := by
  unfold kpsDescriptors at h
  simp only [Option.bind_eq_bind, Option.bind_eq_some_iff] at h
  obtain ⟨x, _, cs, _, h⟩ := h
  cases h
  intro e he
  obtain ⟨y, _, rfl⟩ := List.mem_map.mp ((hF.perm _).mem_iff.mp he)
  exact ⟨⟨camera, _, hc, rfl⟩, usable_calibrate hc _⟩

/-- **C97** What the reconstruction assumes of the bearings holds for frames made from pictures: together with C95, all
hypotheses of C59, C87, C88, C89 and C94 about the state and the frames hold after any calls. -/
theorem C97_state {C : Type} {W : World C} {t : TopSettings} (ht : t.Sane) {d : Data (Iso ℝ)} (hd : GeoHistory W t d)
    (hc : 0 ≤ W.minCosine) (hW : W.FromPictures d) {r : Nat} {R : Recon (Iso ℝ)} (hR : d.recons.get r = some R) :
    PoseData W R := by
  refine C95_pose_data ht hd ?_ hc ?_ hR
  · intro f n b hb
    obtain ⟨v, h1, h2⟩ := calibrated_unit (hW.bearing f n b hb)
    cases h1
    exact h2
  · intro f F hF n hlt
    obtain ⟨v, h1, _⟩ := calibrated_unit (hW.every f F hF n hlt)
    exact ⟨v, h1⟩

/-! ## Examples -/

/-- A sort of features. -/
noncomputable def exSortF (l : List (List (BitVec 8) × Feature)) : List (List (BitVec 8) × Feature) :=
  l.mergeSort (fun a b => decide (b.2.response ≤ a.2.response))

theorem exSortF_sorts : SortsFeatures exSortF where
  perm l := List.mergeSort_perm _ _
  sorted l := by
    have := List.pairwise_mergeSort (le := fun a b : List (BitVec 8) × Feature => decide (b.2.response ≤ a.2.response))
      (fun a b c h1 h2 => by
        rw [decide_eq_true_eq] at *
        exact le_trans h2 h1)
      (fun a b => by
        rw [Bool.or_eq_true, decide_eq_true_eq, decide_eq_true_eq]
        exact le_total _ _) l
    exact this.imp (fun h => of_decide_eq_true h)

/-- A picture with keypoints and descriptors, and a usable camera: the hypotheses of C97_features, C97_strongest and
C97_bearings. -/
example {gray : Akaze.Img ℝ} (hs : gray.Shows 100 90 (fun x _ => 3 * x)) {picture : Akaze.Img (Fin 3 → Nat)}
    (hp : picture.WF) : Usable ⟨⟨⟨500, 510⟩, ⟨50, 45⟩, 0⟩, 1 / 100⟩ ∧ ∃ ks ds fs,
      Akaze.extract Akaze.Settings.default Akaze.exSort gray = some (ks, ds) ∧
      kpsDescriptors Akaze.Settings.default Akaze.exSort exSortF ⟨⟨⟨500, 510⟩, ⟨50, 45⟩, 0⟩, 1 / 100⟩ gray picture = some fs := by
  refine ⟨⟨by norm_num, by norm_num, by norm_num⟩, ?_⟩
  obtain ⟨k, hk, h⟩ := Akaze.C78_default Akaze.exSort_sorts hs.2.2.1 (by rw [hs.1]; norm_num) (by rw [hs.2.1]; norm_num)
  obtain ⟨ks, ds, e⟩ := h (Akaze.ramp_contrast (by norm_num) hs (by norm_num) (by norm_num) hk)
  obtain ⟨fs, _, h1, _⟩ := C97_features Akaze.exSort_sorts exSortF_sorts hp e
  exact ⟨ks, ds, fs, e, h1⟩

/-- Every direction before a camera is that of some point of its picture. -/
theorem calibrated_of_before {b : V3 ℝ} (hb : b.normSq = 1) (hz : 0 < b.z) : Calibrated (some b) := by
  obtain ⟨p, _, hp⟩ := (C38_uncalibrate_calibrate ⟨⟨500, 510⟩, ⟨50, 45⟩, 0⟩ (by norm_num) (by norm_num) b hb).2 hz
  refine ⟨⟨⟨⟨500, 510⟩, ⟨50, 45⟩, 0⟩, 0⟩, p, ⟨by norm_num, by norm_num, le_refl _⟩, ?_⟩
  rw [← hp]
  unfold IntrinsicsK1.calibrate Intrinsics.calibrate
  rw [Intrinsics.normalised_eq (by norm_num) (by norm_num)]
  simp [cdiv]

/-- The hypotheses of C97_state, in a history that starts a reconstruction. -/
example : ∃ d r R, GeoHistory ExStart.world ExStart.topSettings d ∧ d.recons.get r = some R ∧
    ExStart.world.FromPictures d ∧ PoseData ExStart.world R := by
  obtain ⟨d, r, R, h, hR, _⟩ := ExStart.geoHistory4
  have key : ∀ f n, Calibrated (some (ExStart.unit f n)) := fun f n =>
    calibrated_of_before (ExStart.unit_norm f n) (by
      show 0 < 1 / ExStart.size f n * (1 - ExStart.cz f)
      exact mul_pos (one_div_pos.mpr (ExStart.size_pos f n)) (ExStart.depth_pos f))
  have hW : ExStart.world.FromPictures d := ⟨fun f n b hb => by
    obtain rfl : ExStart.unit f n = b := Option.some.inj hb
    exact key f n, fun f _ _ n _ => key f n⟩
  exact ⟨d, r, R, h, hR, hW, C97_state ExStart.sane h ExStart.pictured.cosine hW hR⟩

end Verif.Sfm
