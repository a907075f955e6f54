import Verif.Lemmas.SfmStartGeo
import Verif.Props.SfmStart
import Verif.Props.SfmExact
import Verif.Props.SfmFilter
import Verif.Props.Cheirality
import Verif.Props.PointGradient

/-! # C92: the start of a reconstruction from exact data -/

namespace Verif.Sfm

open Verif.Geo

variable {C : Type} {W : World C} {sc : Scene} {geo : StartGeometry} {o : StartOracle (Iso ℝ) ℝ}

theorem startGeo_fair (ho : o.Fair) : (startGeo W geo o).Fair := ⟨ho.1, ho.2, ho.3, ho.4, ho.5⟩

/-- What a consensus that finds only the truth gives for two frames. -/
theorem true_two_view (hcon : TrueConsensus sc o) {s : StartSettings} {d : Data (Iso ℝ)} {a b : Nat} {pose : Iso ℝ}
    {ps : List (Nat × Nat)} (h : TwoViewOf (startGeo W geo o) s d a b pose ps) :
    (∃ k > 0, pose = sc.viewed (sc.pose a).inv k b) ∧ ∀ m ∈ ps, sc.Same a m.1 b m.2 := by
  obtain ⟨all, is, _, _, hc, _, hps, _⟩ := h
  obtain ⟨hk, hm⟩ := hcon _ _ _ _ _ hc
  refine ⟨hk, fun m hm' => ?_⟩
  obtain ⟨k, hk, he⟩ := (hps m).mp hm'
  exact hm k hk m he

theorem shown_of_robust {c f g : Nat} {level : Level} {p q : Iso ℝ} {t : Tri}
    (h : (startGeo W geo o).robust c f g level p q t = true) (h1 : sc.Same c t.1 f t.2.1) (h2 : sc.Same c t.1 g t.2.2) :
    ∃ b, triBearings W c f g t = some b ∧ Shown sc W c f g t b := by
  simp only [startGeo] at h
  split at h
  · cases h
  · rename_i b hb
    obtain ⟨e1, e2, e3⟩ := triBearings_iff.mp hb
    exact ⟨b, hb, e1, e2, e3, h1, h2⟩

/-- The optimiser leaves true motions alone. -/
theorem optimise_true (hsc : sc.Seen W) {k : ℝ} (hk : 0 < k) {c f g : Nat} {ms : List Tri}
    (hm : ∀ t ∈ ms, sc.Same c t.1 f t.2.1 ∧ sc.Same c t.1 g t.2.2) :
    (startGeo W geo o).optimise c f g (sc.viewed (sc.pose c).inv k f, sc.viewed (sc.pose c).inv k g) ms =
      (sc.viewed (sc.pose c).inv k f, sc.viewed (sc.pose c).inv k g) := by
  simp only [startGeo]
  rw [(C55_three_exact (Scene.viewed_rigid hsc.rigid (hsc.rigid c).inv k f)
    (Scene.viewed_rigid hsc.rigid (hsc.rigid c).inv k g) (fun b hb => ?_) 0 (1 / 1000) geo.patience).2.1]
  · rfl
  · obtain ⟨t, ht, e⟩ := List.mem_filterMap.mp hb
    obtain ⟨e1, e2, e3⟩ := triBearings_iff.mp e
    exact fits_start hsc hk ⟨e1, e2, e3, (hm t ht).1, (hm t ht).2⟩

theorem optimised_true (hsc : sc.Seen W) {k : ℝ} (hk : 0 < k) {c f g half n : Nat} {common : Tri → Prop} {level : Level}
    {ps ps' : Iso ℝ × Iso ℝ} (h : OptimisedFrom (startGeo W geo o) c f g half common n level ps ps')
    (hm : ∀ t, common t → sc.Same c t.1 f t.2.1 ∧ sc.Same c t.1 g t.2.2)
    (hp : ps = (sc.viewed (sc.pose c).inv k f, sc.viewed (sc.pose c).inv k g)) : ps' = ps := by
  induction h with
  | done => rfl
  | run n level ps ps' ms _ _ _ hms _ ih =>
    subst hp
    rw [optimise_true hsc hk (fun t ht => hm t (hms t ht).1)] at ih
    exact ih rfl

theorem start_true (hsc : sc.Seen W) (htri : ExactTriangulator W.triangulate) (hcon : TrueConsensus sc o)
    {s : StartSettings} {d : Data (Iso ℝ)} {center : Nat} {st : Start (Iso ℝ)} (hp1 : sc.Parallax W center st.first)
    (hp2 : sc.Parallax W center st.second) {pose₁ pose₂ : Iso ℝ} {ps₁ ps₂ : List (Nat × Nat)}
    (h1 : TwoViewOf (startGeo W geo o) s d center st.first pose₁ ps₁)
    (h2 : TwoViewOf (startGeo W geo o) s d center st.second pose₂ ps₂)
    (hst : StartOk (startGeo W geo o) s center st pose₁ pose₂ ps₁ ps₂) : TrueStart sc center st := by
  obtain ⟨⟨a, ha, rfl⟩, m1⟩ := true_two_view hcon h1
  obtain ⟨⟨b, hb, rfl⟩, m2⟩ := true_two_view hcon h2
  have hcm : ∀ t, CommonTo ps₁ ps₂ t → sc.Same center t.1 st.first t.2.1 ∧ sc.Same center t.1 st.second t.2.2 :=
    fun t ht => ⟨m1 _ ht.1, m2 _ ht.2⟩
  obtain ⟨scale, common, initial, _, hcommon, _, hmed, _, _, _, _, hoptd, _⟩ := hst.history
  have hscale : scale = (a / b) * (a / b) := by
    refine median_const hmed ?_
    intro x hx
    obtain ⟨t, ht, e⟩ := List.mem_filterMap.mp hx
    split at e
    · rename_i hrob
      have hS := hcm t ((hcommon t).mp ht)
      obtain ⟨bs, hbs, hsh⟩ := shown_of_robust hrob hS.1 hS.2
      simp only [startGeo, hbs, Option.bind_eq_bind, Option.bind_some] at e
      exact ratio_exact hsc htri ha hb hsh hp1 hp2 e
    · cases e
  have hresc : (startGeo W geo o).rescale (sc.viewed (sc.pose center).inv b st.second) scale =
      sc.viewed (sc.pose center).inv a st.second := by
    rw [hscale]
    exact rescaled ha hb _ _
  rw [hresc] at hoptd
  have hfin := optimised_true hsc ha hoptd hcm rfl
  simp only [Prod.mk.injEq] at hfin
  exact ⟨⟨a, ha, hfin.1, hfin.2⟩, fun t ht => hcm t ((hst.combined t).mp ht).1,
    fun m hm => m1 m ((hst.first m.1 m.2).mp hm).1, fun m hm => m2 m ((hst.second m.1 m.2).mp hm).1⟩

/-- **C92** If the consensus finds only true motions and matches, each pair of frames in a unit of its own, then a start
that is found is true: both motions have the same unit of length. -/
theorem C92_true_start (hsc : sc.Seen W) (htri : ExactTriangulator W.triangulate) (hcon : TrueConsensus sc o)
    (ho : o.Fair) {s : StartSettings} (hms : 0 < s.minScales) {d : Data (Iso ℝ)} (hs : o.Searches d) {center : Nat}
    (hc : ∃ F, d.frames.get center = some F) {options : List Nat} (hopt : ∀ x ∈ options, ∃ F, d.frames.get x = some F)
    (hpar : ∀ x ∈ options, sc.Parallax W center x) {st : Start (Iso ℝ)}
    (h : initReconstruction (startGeo W geo o) s d center options = some (some st)) : TrueStart sc center st := by
  obtain ⟨r, e, hr⟩ := C81_start (startGeo_fair (W := W) (geo := geo) ho) hms hs hc hopt
  rw [h] at e
  cases e
  obtain ⟨hsub, pose₁, pose₂, ps₁, ps₂, h1, h2, hst⟩ := hr st rfl
  exact start_true hsc htri hcon (hpar _ (hsub.subset (by simp))) (hpar _ (hsub.subset (by simp))) h1 h2 hst

/-- The attempt to start a reconstruction changes nothing or adds one with true poses and right matches. -/
theorem tryInit_honest (hsc : sc.Seen W) (htri : ExactTriangulator W.triangulate) (hcon : TrueConsensus sc o)
    (ho : o.Fair) {s : StartSettings} (hms : 0 < s.minScales) {d d' : Data (Iso ℝ)} (hd : d.Consistent)
    (hs : o.Searches d) {center : Nat} (hc : d.IsFree center) {options : List Nat} (hopt : ∀ x ∈ options, d.IsFree x)
    (hnd : options.Nodup) (hno : center ∉ options) (hpar : ∀ x ∈ options, sc.Parallax W center x) {x : Option Nat}
    (h : tryInit (startGeo W geo o) s Iso.one d center options = some (d', x)) :
    d' = d ∨ ∃ op, Valid d op ∧ Honest sc W d op ∧ step d op = some d' := by
  obtain ⟨F0, hF0, hF0v⟩ := hc
  have hc' : ∃ F, d.frames.get center = some F := ⟨F0, hF0⟩
  have hopt' : ∀ x ∈ options, ∃ F, d.frames.get x = some F := fun x hx => (hopt x hx).imp fun _ h => h.1
  obtain ⟨dd, xx, e, _, h0, h1⟩ := C81_try_init (startGeo_fair (W := W) (geo := geo) ho) hms
    hd hs ⟨F0, hF0, hF0v⟩ hopt hnd hno Iso.one
  rw [h] at e
  cases e
  cases x with
  | none => exact .inl (h0 rfl)
  | some r =>
    unfold tryInit at h
    cases hi : initReconstruction (startGeo W geo o) s d center options with
    | none => rw [hi] at h; cases h
    | some z =>
      rw [hi] at h
      cases z with
      | none => simp at h
      | some st =>
        simp only at h
        have hT := C92_true_start hsc htri hcon ho hms hs hc' hopt' hpar hi
        obtain ⟨r', e, hr⟩ := C81_start (startGeo_fair (W := W) (geo := geo) ho) hms hs hc' hopt'
        rw [hi] at e
        cases e
        obtain ⟨hsub, pose₁, pose₂, ps₁, ps₂, k1, k2, hst⟩ := hr st rfl
        have hm1 : st.first ∈ options := hsub.subset (by simp)
        have hm2 : st.second ∈ options := hsub.subset (by simp)
        obtain ⟨F, hF, hFv⟩ := hopt _ hm1
        obtain ⟨G, hG, hGv⟩ := hopt _ hm2
        have hfs : st.first ≠ st.second := by simpa using hnd.sublist hsub
        have p1 := k1.ok hF0 hF
        have p2 := k2.ok hF0 hG
        have in1 : ∀ f c, (f, c) ∈ st.firstMatches.map (fun m => (m.2, m.1)) ++
            st.combined.map (fun m => (m.2.1, m.1)) → (c, f) ∈ ps₁ := by
          intro f c h
          rcases mem_swapped.mp h with h | ⟨x, hx, rfl, rfl⟩
          · exact ((hst.first _ _).mp h).1
          · exact ((hst.combined _).mp hx).1.1
        have in2 : ∀ f c, (f, c) ∈ st.secondMatches.map (fun m => (m.2, m.1)) ++
            st.combined.map (fun m => (m.2.2, m.1)) → (c, f) ∈ ps₂ := by
          intro f c h
          rcases mem_swapped.mp h with h | ⟨x, hx, rfl, rfl⟩
          · exact ((hst.second _ _).mp h).1
          · exact ((hst.combined _).mp hx).1.2
        have hvalid : Valid d (.addReconstruction center st.first st.second Iso.one st.firstPose st.secondPose
            st.combined st.firstMatches st.secondMatches) :=
          ⟨fun h => hno (h ▸ hm1), fun h => hno (h ▸ hm2), hfs, ⟨_, F, hF, rfl, hFv⟩, ⟨_, G, hG, rfl, hGv⟩,
            F0.nfeat, ⟨F0, hF0, rfl, hF0v⟩,
            ⟨fun f c h => (p1.range _ (in1 f c h)).1, fun f g c h h' => p1.left c f g (in1 _ _ h) (in1 _ _ h')⟩,
            ⟨fun f c h => (p2.range _ (in2 f c h)).1, fun f g c h h' => p2.left c f g (in2 _ _ h) (in2 _ _ h')⟩⟩
        have hhon : Honest sc W d (.addReconstruction center st.first st.second Iso.one st.firstPose st.secondPose
            st.combined st.firstMatches st.secondMatches) :=
          ⟨rfl, hT.poses, fun m hm => ⟨(hT.combined m hm).1.symm, (hT.combined m hm).2.symm⟩,
            fun m hm => (hT.first m hm).symm, fun m hm => (hT.second m hm).symm⟩
        cases ha : d.addReconstruction center st.first st.second Iso.one st.firstPose st.secondPose st.combined
            st.firstMatches st.secondMatches with
        | none => rw [ha] at h; cases h
        | some d'' =>
          rw [ha] at h
          simp only [Option.some.injEq, Prod.mk.injEq] at h
          obtain ⟨rfl, _⟩ := h
          exact .inr ⟨_, hvalid, hhon, ha⟩

/-- **C92** Then the new reconstruction is true. -/
theorem C92_true_reconstruction (hsc : sc.Seen W) (htri : ExactTriangulator W.triangulate) (hcon : TrueConsensus sc o)
    (ho : o.Fair) {s : StartSettings} (hms : 0 < s.minScales) {d d' : Data (Iso ℝ)} (hd : HonestlyReached sc W d)
    (hs : o.Searches d) {center : Nat} (hc : d.IsFree center) {options : List Nat} (hopt : ∀ x ∈ options, d.IsFree x)
    (hnd : options.Nodup) (hno : center ∉ options) (hpar : ∀ x ∈ options, sc.Parallax W center x) {x : Option Nat}
    (h : tryInit (startGeo W geo o) s Iso.one d center options = some (d', x)) :
    HonestlyReached sc W d' ∧ ∀ r, x = some r → ∃ R, d'.recons.get r = some R ∧ R.TrueTo sc := by
  have hreach := honestly_reachable hd
  obtain ⟨F0, hF0, hF0v⟩ := hc
  obtain ⟨dd, xx, e, _, h0, h1⟩ := C81_try_init (startGeo_fair (W := W) (geo := geo) ho) hms
    (reachable_consistent hreach) hs ⟨F0, hF0, hF0v⟩ hopt hnd hno Iso.one
  rw [h] at e
  cases e
  have hH : HonestlyReached sc W d' := by
    rcases tryInit_honest hsc htri hcon ho hms (reachable_consistent hreach) hs ⟨F0, hF0, hF0v⟩ hopt hnd hno hpar h
      with rfl | ⟨op, hv, hh, hst⟩
    · exact hd
    · exact .step hd hv hh hst
  refine ⟨hH, fun r hr => ?_⟩
  obtain ⟨_, _, _, _, _, _, _, _, _, hstarted⟩ := h1 r hr
  obtain ⟨R, hR, _⟩ := hstarted.recon
  exact ⟨R, hR, C90_true_partial hsc hH r R hR⟩

/-- The test of a match of three frames. -/
theorem robust_fits {c f g : Nat} {level : Level} {p q : Iso ℝ} {t : Tri} :
    (startGeo W geo o).robust c f g level p q t = true ↔
      FitsMotions W (levelLimits W geo.lim level).1 (levelLimits W geo.lim level).2 c f g p q t := by
  constructor
  · intro h
    simp only [startGeo] at h
    cases hb : triBearings W c f g t with
    | none => simp [hb] at h
    | some b =>
      simp only [hb] at h
      obtain ⟨h1, h2, h3⟩ := triBearings_iff.mp hb
      unfold triLandmarkRobust toCamera World.tri at h
      simp only [List.map_cons, List.map_nil] at h
      cases ht : W.triangulate [(Iso.one, b.center), (p, b.first), (q, b.second)] with
      | none => simp [ht] at h
      | some x =>
        cases hx : fromHomogeneous x with
        | none => simp [ht, hx] at h
        | some x' =>
          cases hy : transform p x' with
          | none => simp [ht, hx, cosineDistance, hy] at h
          | some y =>
            cases hz : transform q x' with
            | none => simp [ht, hx, cosineDistance, hz] at h
            | some z =>
              simp [ht, hx, cosineDistance, hy, hz, or_assoc, and_assoc] at h
              exact ⟨_, _, _, x, x', y, z, h1, h2, h3, ht, hx, hy, hz, by simpa using h⟩
  · rintro ⟨u, v, w, x, x', y, z, h1, h2, h3, ht, hx, hy, hz, h⟩
    have hb : triBearings W c f g t = some ⟨u, v, w⟩ := triBearings_iff.mpr ⟨h1, h2, h3⟩
    simp only [startGeo, hb]
    unfold triLandmarkRobust toCamera World.tri
    simp only [List.map_cons, List.map_nil]
    simp [ht, hx, cosineDistance, hy, hz, or_assoc, and_assoc]
    simpa using h

/-- **C92** What is promised without exact data: all matches of three frames are common to the two-view matches and fit
the returned motions up to the limit, at least the configured number of common matches moreover under an angle larger than
the limit. -/
theorem C92_accurate (ho : o.Fair) {s : StartSettings} (hms : 0 < s.minScales) {d : Data (Iso ℝ)} (hs : o.Searches d)
    {center : Nat} (hc : ∃ F, d.frames.get center = some F) {options : List Nat}
    (hopt : ∀ x ∈ options, ∃ F, d.frames.get x = some F) {st : Start (Iso ℝ)}
    (h : initReconstruction (startGeo W geo o) s d center options = some (some st)) :
    (∀ t ∈ st.combined,
      FitsMotions W geo.lim.maxCosine 0 center st.first st.second st.firstPose st.secondPose t) ∧
    ∃ rs : List Tri, rs.Nodup ∧ s.minThreeView ≤ rs.length ∧ ∀ t ∈ rs,
      FitsMotions W geo.lim.maxCosine W.minCosine center st.first st.second st.firstPose st.secondPose t ∧
      (0 ≤ W.minCosine → t ∈ st.combined) := by
  obtain ⟨r, e, hr⟩ := C81_start (startGeo_fair (W := W) (geo := geo) ho) hms hs hc hopt
  rw [h] at e
  cases e
  obtain ⟨_, pose₁, pose₂, ps₁, ps₂, _, _, hst⟩ := hr st rfl
  refine ⟨fun t ht => robust_fits.mp ((hst.combined t).mp ht).2, ?_⟩
  obtain ⟨_, _, _, _, _, _, _, _, _, _, _, _, rs, h1, h2, _, h3⟩ := hst.history
  refine ⟨rs, h1, h2, fun t ht => ?_⟩
  obtain ⟨k1, k2⟩ := h3 t ht
  have hf := robust_fits.mp k2
  refine ⟨hf, fun hw => (hst.combined t).mpr ⟨k1, robust_fits.mpr ?_⟩⟩
  obtain ⟨u, v, w, x, x', y, z, b1, b2, b3, b4, b5, b6, b7, b8, b9, b10, b11⟩ := hf
  refine ⟨u, v, w, x, x', y, z, b1, b2, b3, b4, b5, b6, b7, b8, b9, b10, ?_⟩
  simp only [levelLimits] at b11 ⊢
  rcases b11 with h | h | h
  · exact Or.inl (lt_of_le_of_lt hw h)
  · exact Or.inr (Or.inl (lt_of_le_of_lt hw h))
  · exact Or.inr (Or.inr (lt_of_le_of_lt hw h))

/-- **C92** Wrong matches do not change the unit of length as long as more than half of the ratios are right. -/
theorem C92_outliers {a b : ℝ} (ha : 0 < a) (hb : 0 < b) {m : ℝ} {ratios : List ℝ} (hm : IsMedian m ratios)
    (hr : ratios.length < 2 * (ratios.filter (fun x => x = (a / b) * (a / b))).length) (center f : Nat) :
    (startGeo W geo o).rescale ((sc.motion center f).scale b) m = (sc.motion center f).scale a := by
  rw [median_majority hm hr]
  exact rescaled ha hb _ _

/-- Two of three ratios are right. -/
example : IsMedian (4 : ℝ) [4, 1, 4] := by
  refine ⟨by simp, ?_, ?_⟩ <;> norm_num [List.filter]

/-! ## When a start is found -/

/-- The test of a common match with true motions is a test of the angles between its directions. -/
theorem robust_iff (hsc : sc.Seen W) (hfind : CompleteTriangulator W.triangulate) (hw : 0 ≤ W.minCosine)
    (hl : 0 < geo.lim.maxCosine) {k : ℝ} (hk : 0 < k) {c f g : Nat} (hn1 : sc.Narrow W c f) (hn2 : sc.Narrow W c g)
    (level : Level) {t : Tri} (h1 : sc.Same c t.1 f t.2.1) (h2 : sc.Same c t.1 g t.2.2) :
    (startGeo W geo o).robust c f g level (sc.viewed (sc.pose c).inv k f) (sc.viewed (sc.pose c).inv k g) t = true ↔
      sc.Incident W (levelLimits W geo.lim level).2 c f g t := by
  have hmax : 0 < (levelLimits W geo.lim level).1 := by cases level <;> simp [levelLimits, hl]
  have hmin : 0 ≤ (levelLimits W geo.lim level).2 := by cases level <;> simp [levelLimits, hw]
  simp only [startGeo, Scene.Incident]
  cases hb : triBearings W c f g t with
  | none =>
    simp only [Bool.false_eq_true, false_iff]
    rintro ⟨x, y, z, e1, e2, e3, _⟩
    have := (triBearings_iff (o := ⟨x, y, z⟩)).mpr ⟨e1, e2, e3⟩
    rw [hb] at this
    cases this
  | some b =>
    obtain ⟨e1, e2, e3⟩ := triBearings_iff.mp hb
    simp only
    rw [tri_robust hsc hfind hk ⟨e1, e2, e3, h1, h2⟩ hn1 hn2 hmax hmin]
    constructor
    · intro h
      exact ⟨_, _, _, e1, e2, e3, h⟩
    · rintro ⟨x, y, z, e1', e2', e3', h⟩
      rw [e1] at e1'
      rw [e2] at e2'
      rw [e3] at e3'
      cases e1'
      cases e2'
      cases e3'
      exact h

/-- The filter loop does not change poses that the optimiser leaves alone. -/
theorem filterLoop_fixed {O : StartOracle (Iso ℝ) ℝ} {s : StartSettings} {c f g m : Nat} {common : List Tri}
    {ps : Iso ℝ × Iso ℝ} (hfix : ∀ ms, (∀ t ∈ ms, t ∈ common) → O.optimise c f g ps ms = ps)
    (hen : enough m (robustMatches O s c f g .strict ps.1 ps.2 common) = true) (n : Nat) :
    ∀ opti : List Tri, (∀ t ∈ opti, t ∈ common) → enough m opti = true →
      ∃ opti', filterLoop O s c f g m common n ps opti = some (ps, opti') ∧ enough m opti' = true ∧
        ∀ t ∈ opti', t ∈ common := by
  induction n with
  | zero => exact fun opti h1 h2 => ⟨opti, rfl, h2, h1⟩
  | succ n ih =>
    intro opti h1 h2
    unfold filterLoop
    rw [if_pos h2]
    simp only [hfix opti h1]
    exact ih _ (fun t ht => (robustMatches_mem ht).1) hen

theorem sublist_or {α : Type} {a b : α} (hab : a ≠ b) : ∀ {l : List α}, a ∈ l → b ∈ l →
    [a, b].Sublist l ∨ [b, a].Sublist l := by
  intro l
  induction l with
  | nil => intro h; cases h
  | cons x l ih =>
    intro ha hb
    rcases List.mem_cons.mp ha with rfl | ha'
    · rcases List.mem_cons.mp hb with rfl | hb'
      · exact absurd rfl hab
      · exact Or.inl ((List.singleton_sublist.mpr hb').cons_cons _)
    · rcases List.mem_cons.mp hb with rfl | hb'
      · exact Or.inr ((List.singleton_sublist.mpr ha').cons_cons _)
      · exact (ih ha' hb').imp (fun h => h.cons _) (fun h => h.cons _)

/-- Unordered pairs of entries with a symmetric property are at most the combinations with the property. -/
theorem pairs_le_combos {α : Type} [DecidableEq α] {l : List α} {p : α → α → Bool} (hsym : ∀ a b, p a b = p b a)
    (hirr : ∀ a, p a a = false) {pairs : List (α × α)} (hnd : pairs.Nodup) (hor : ∀ a b, (a, b) ∈ pairs → (b, a) ∉ pairs)
    (h : ∀ a b, (a, b) ∈ pairs → a ∈ l ∧ b ∈ l ∧ p a b = true) :
    pairs.length ≤ ((combos l).filter (fun ab => p ab.1 ab.2)).length := by
  classical
  let φ : α × α → α × α := fun ab => if [ab.1, ab.2].Sublist l then ab else (ab.2, ab.1)
  have hinj : ∀ x ∈ pairs, ∀ y ∈ pairs, φ x = φ y → x = y := by
    rintro ⟨a, b⟩ hx ⟨a', b'⟩ hy e
    simp only [φ] at e
    split at e <;> split at e
    · exact e
    · simp only [Prod.mk.injEq] at e
      obtain ⟨rfl, rfl⟩ := e
      exact absurd hy (hor _ _ hx)
    · simp only [Prod.mk.injEq] at e
      obtain ⟨rfl, rfl⟩ := e
      exact absurd hy (hor _ _ hx)
    · simp only [Prod.mk.injEq] at e
      obtain ⟨rfl, rfl⟩ := e
      rfl
  have hnd' : (pairs.map φ).Nodup := hnd.map_on (fun x hx y hy e => hinj x hx y hy e)
  have := (List.subperm_of_subset hnd' (l₂ := (combos l).filter (fun ab => p ab.1 ab.2)) (by
    rintro y hy
    obtain ⟨⟨a, b⟩, hx, rfl⟩ := List.mem_map.mp hy
    obtain ⟨ha, hb, hp⟩ := h a b hx
    have hab : a ≠ b := by
      rintro rfl
      rw [hirr] at hp
      cases hp
    simp only [φ]
    split
    · rename_i hs
      exact List.mem_filter.mpr ⟨(mem_combos _ _ _).mpr hs, hp⟩
    · rename_i hs
      refine List.mem_filter.mpr ⟨(mem_combos _ _ _).mpr ((sublist_or hab ha hb).resolve_left hs), ?_⟩
      rw [← hp, hsym])).length_le
  simpa using this

/-- The test of a true match of two frames. -/
theorem bi_robust (hsc : sc.Seen W) {k : ℝ} (hk : 0 < k) {c f i j : Nat} {u v : V3 ℝ} (hu : W.bearing c i = some u)
    (hv : W.bearing f j = some v) (hs : sc.Same c i f j) (hp : sc.Parallax W c f) (hn : sc.Narrow W c f) {m : ℝ}
    (hm : 0 < m) : biLandmarkRobust (sc.viewed (sc.pose c).inv k f) u v m = true := by
  have hr := Scene.viewed_rigid hsc.rigid (hsc.rigid c).inv k f
  set P := sc.viewed (sc.pose c).inv k f with hP
  have hl1 := looks_one hsc hk hu
  have hl2 := looks_local hsc hk c hv
  rw [← hP] at hl2
  rw [← show sc.point c i = sc.point f j from hs] at hl2
  have e1 : P.inv.rot.mulVec v = (sc.pose c).inv.rot.transpose.mulVec (sc.ray f v) := viewed_ray _ _ _ _
  have e2 : u = (sc.pose c).inv.rot.transpose.mulVec (sc.ray c u) := own_ray hsc.rigid c u
  have hrot : (sc.pose c).inv.rot.transpose.IsRot := (hsc.rigid c).inv.transpose
  have hd : 0 ≤ u.dot (P.inv.rot.mulVec v) := by
    rw [e1]
    conv_rhs => rw [e2]
    rw [hrot.dot_mulVec]
    exact hn i j u v hs hu hv
  have hx : u.cross (P.inv.rot.mulVec v) ≠ V3.zero := by
    rw [e1]
    conv_lhs => rw [e2]
    rw [hrot.cross_mulVec]
    exact mulVec_ne hrot (hp i j u v hs hu hv)
  have h0 := C53_exact_partial hr hl1 hl2 hx hd
  have e3 : P.inv.t = V3.smul (-1) (P.rot.transpose.mulVec P.t) := by
    simp only [Iso.inv]
    lin3
  rw [e3, C53_loss_scale (by norm_num)] at h0
  have e4 : u = P.rot.transpose.mulVec (P.rot.mulVec u) := by
    have := hr
    rw [M3.mulVec_mulVec, M3.IsRot.orth this, M3.one_mulVec]
  unfold biLandmarkRobust
  rw [← loss_rotate (M3.IsRot.transpose hr), ← e4]
  have : P.inv.rot = P.rot.transpose := rfl
  rw [this] at h0
  rw [h0]
  exact decide_eq_true hm

/-- The search on a pair of frames whose two-view motions and matches are true. -/
theorem tryPair_exact (hsc : sc.Seen W)
    (hfind : CompleteTriangulator W.triangulate) (ho : o.Fair) (hw : 0 ≤ W.minCosine) (hl : 0 < geo.lim.maxCosine)
    (hpc : 0 ≤ geo.pairCosine) {s : StartSettings} (hms : 0 < s.minScales) {c nc na nb : Nat} {A B : TwoView (Iso ℝ)}
    (hA : PairsOk nc na A.pairs) (hB : PairsOk nc nb B.pairs) {a b : ℝ} (ha : 0 < a) (hb : 0 < b)
    (eA : A.pose = sc.viewed (sc.pose c).inv a A.frame) (eB : B.pose = sc.viewed (sc.pose c).inv b B.frame)
    (m1 : ∀ m ∈ A.pairs, sc.Same c m.1 A.frame m.2) (m2 : ∀ m ∈ B.pairs, sc.Same c m.1 B.frame m.2)
    (hp1 : sc.Parallax W c A.frame) (hp2 : sc.Parallax W c B.frame) (hn1 : sc.Narrow W c A.frame)
    (hn2 : sc.Narrow W c B.frame) {rs : List Tri} (hrs : rs.Nodup) (hrl : s.minScales ≤ rs.length)
    (hrm : ∀ t ∈ rs, CommonTo A.pairs B.pairs t ∧
      (startGeo W geo o).robust c A.frame B.frame .loose A.pose B.pose t = true)
    {L : List Tri} (hLn : L.Nodup)
    (hL : ∀ t, t ∈ L ↔ CommonTo A.pairs B.pairs t ∧ sc.Incident W W.minCosine c A.frame B.frame t)
    (h32 : 32 ≤ L.length) (h3 : s.minThreeView ≤ L.length) (hopt : L.length ≤ s.optLandmarks)
    {pairs : List (Tri × Tri)} (hpn : pairs.Nodup) (hpl : s.minPairs ≤ pairs.length)
    (hpo : ∀ x y, (x, y) ∈ pairs → (y, x) ∉ pairs)
    (hpm : ∀ x y, (x, y) ∈ pairs → x ∈ L ∧ y ∈ L ∧ Directions W geo.pairCosine c A.frame B.frame x y) :
    ∃ p q cm fm sm, tryPair (startGeo W geo o) s c A B = some (.found p q cm fm sm) := by
  have hcm : ∀ t, CommonTo A.pairs B.pairs t → sc.Same c t.1 A.frame t.2.1 ∧ sc.Same c t.1 B.frame t.2.2 :=
    fun t ht => ⟨m1 _ ht.1, m2 _ ht.2⟩
  have ho' := startGeo_fair (W := W) (geo := geo) ho
  set O := startGeo W geo o with hO
  set common := O.shuffleTri (commonMatches A.pairs B.pairs) with hcommon
  have hperm : common.Perm (commonMatches A.pairs B.pairs) := ho'.shuffleTri _
  have hnd : common.Nodup := hperm.nodup_iff.2 (nodup_common hA.nodup)
  have hmem : ∀ t, t ∈ common ↔ CommonTo A.pairs B.pairs t := fun t => hperm.mem_iff.trans (mem_common hB.left t)
  -- the ratios
  set ratios := common.filterMap (fun t =>
    if O.robust c A.frame B.frame .loose A.pose B.pose t then O.ratio c A.frame B.frame A.pose B.pose t else none)
    with hratios
  have hval : ∀ t, CommonTo A.pairs B.pairs t → O.robust c A.frame B.frame .loose A.pose B.pose t = true →
      O.ratio c A.frame B.frame A.pose B.pose t = some ((a / b) * (a / b)) := by
    intro t ht hr
    obtain ⟨x, hx, hsh⟩ := shown_of_robust hr (hcm t ht).1 (hcm t ht).2
    simp only [hO, startGeo, hx, Option.bind_eq_bind, Option.bind_some]
    rw [eA, eB]
    exact ratio_complete hsc hfind ha hb hsh hp1 hp2 hn1 hn2
  have hlen : s.minScales ≤ ratios.length := by
    refine hrl.trans ?_
    have h1 : rs.length ≤ (common.filter (fun t => O.robust c A.frame B.frame .loose A.pose B.pose t)).length :=
      (List.subperm_of_subset hrs (fun t ht =>
        List.mem_filter.mpr ⟨(hmem t).mpr (hrm t ht).1, (hrm t ht).2⟩)).length_le
    refine h1.trans (le_of_eq ?_)
    have : ∀ l : List Tri, (∀ t ∈ l, CommonTo A.pairs B.pairs t) →
        (l.filter (fun t => O.robust c A.frame B.frame .loose A.pose B.pose t)).length = (l.filterMap (fun t =>
          if O.robust c A.frame B.frame .loose A.pose B.pose t then O.ratio c A.frame B.frame A.pose B.pose t
          else none)).length := by
      intro l
      induction l with
      | nil => intro _; rfl
      | cons t l ih =>
        intro hl'
        have ih' := ih (fun x hx => hl' x (by simp [hx]))
        by_cases hr : O.robust c A.frame B.frame .loose A.pose B.pose t = true
        · rw [List.filter_cons_of_pos hr, List.filterMap_cons]
          simp only [hr, if_true, hval t (hl' t (by simp)) hr, List.length_cons, ih']
        · rw [List.filter_cons_of_neg hr, List.filterMap_cons]
          simp only [hr]
          exact ih'
    exact this common (fun t ht => (hmem t).mp ht)
  obtain ⟨scale, hmedian, hmed⟩ := median_spec (ho'.sort ratios) (ho'.sorted ratios) (lt_of_lt_of_le hms hlen)
  have hscale : scale = (a / b) * (a / b) := by
    refine median_const hmed (fun x hx => ?_)
    obtain ⟨t, ht, e⟩ := List.mem_filterMap.mp hx
    split at e
    · rename_i hr
      rw [hval t ((hmem t).mp ht) hr] at e
      exact (Option.some.inj e).symm
    · cases e
  have hresc : O.rescale B.pose scale = sc.viewed (sc.pose c).inv a B.frame := by
    rw [hscale, eB]
    exact rescaled ha hb _ _
  -- the tests with the true motions
  have hrob : ∀ level t, t ∈ common → (O.robust c A.frame B.frame level (sc.viewed (sc.pose c).inv a A.frame)
      (sc.viewed (sc.pose c).inv a B.frame) t = true ↔
      sc.Incident W (levelLimits W geo.lim level).2 c A.frame B.frame t) := fun level t ht =>
    robust_iff hsc hfind hw hl ha hn1 hn2 level (hcm t ((hmem t).mp ht)).1 (hcm t ((hmem t).mp ht)).2
  have hLperm : ∀ level, (levelLimits W geo.lim level).2 = W.minCosine →
      (common.filter (fun t => O.robust c A.frame B.frame level (sc.viewed (sc.pose c).inv a A.frame)
        (sc.viewed (sc.pose c).inv a B.frame) t)).Perm L := by
    intro level he
    refine (List.perm_ext_iff_of_nodup (hnd.filter _) hLn).mpr (fun t => ?_)
    rw [List.mem_filter, hL]
    constructor
    · rintro ⟨h1, h2⟩
      exact ⟨(hmem t).mp h1, by rw [← he]; exact (hrob level t h1).mp h2⟩
    · rintro ⟨h1, h2⟩
      exact ⟨(hmem t).mpr h1, (hrob level t ((hmem t).mpr h1)).mpr (by rw [he]; exact h2)⟩
  have hmatches : ∀ level, (levelLimits W geo.lim level).2 = W.minCosine →
      (robustMatches O s c A.frame B.frame level (sc.viewed (sc.pose c).inv a A.frame)
        (sc.viewed (sc.pose c).inv a B.frame) common).Perm L := by
    intro level he
    unfold robustMatches
    rw [List.take_of_length_le (by rw [(hLperm level he).length_eq]; exact hopt)]
    exact hLperm level he
  have hloose := hmatches .loose rfl
  have hstrict := hmatches .strict rfl
  have hfix : ∀ ms : List Tri, (∀ t ∈ ms, t ∈ common) → O.optimise c A.frame B.frame
      (sc.viewed (sc.pose c).inv a A.frame, sc.viewed (sc.pose c).inv a B.frame) ms =
      (sc.viewed (sc.pose c).inv a A.frame, sc.viewed (sc.pose c).inv a B.frame) := fun ms h =>
    optimise_true hsc ha (fun t ht => hcm t ((hmem t).mp (h t ht)))
  set opti := robustMatches O s c A.frame B.frame .loose (sc.viewed (sc.pose c).inv a A.frame)
        (sc.viewed (sc.pose c).inv a B.frame) common with hopti
  have hol : opti.length = L.length := hloose.length_eq
  obtain ⟨opti', hloop, hen, hsub⟩ := filterLoop_fixed (s := s) (m := opti.length / 2) hfix
    (enough_iff.mpr ⟨by rw [hstrict.length_eq]; exact h32, by rw [hstrict.length_eq, hol]; omega⟩) s.filterIterations opti
    (fun t ht => (robustMatches_mem ht).1) (enough_iff.mpr ⟨by omega, by omega⟩)
  have hpairs : s.minPairs ≤ ((combos opti).filter (fun ab => O.apart c A.frame B.frame ab.1 ab.2)).length := by
    refine hpl.trans (pairs_le_combos ?_ ?_ hpn hpo (fun x y hxy => ?_))
    · intro x y
      simp only [hO, startGeo]
      cases triBearings W c A.frame B.frame x <;> cases triBearings W c A.frame B.frame y <;> simp [startApart, V3.dot_comm]
    · intro x
      simp only [hO, startGeo]
      cases hx : triBearings W c A.frame B.frame x with
      | none => rfl
      | some bx =>
        obtain ⟨e1, _, _⟩ := triBearings_iff.mp hx
        have : bx.center.dot bx.center = 1 := (hsc.looks _ _ _ e1).1
        simp [startApart, this, hpc]
    · obtain ⟨h1, h2, x1, y1, z1, x2, y2, z2, e1, e2, e3, e4, e5, e6, d1, d2, d3⟩ := hpm x y hxy
      refine ⟨hloose.mem_iff.mpr h1, hloose.mem_iff.mpr h2, ?_⟩
      simp only [hO, startGeo, (triBearings_iff (o := ⟨x1, y1, z1⟩)).mpr ⟨e1, e2, e3⟩,
        (triBearings_iff (o := ⟨x2, y2, z2⟩)).mpr ⟨e4, e5, e6⟩, startApart, Bool.and_eq_true, decide_eq_true_eq]
      exact ⟨⟨d1, d2⟩, d3⟩
  have hnum : (common.filter (fun t => O.robust c A.frame B.frame .strict (sc.viewed (sc.pose c).inv a A.frame)
        (sc.viewed (sc.pose c).inv a B.frame) t)).length = L.length := (hLperm .strict rfl).length_eq
  unfold tryPair
  simp only [← hcommon, ← hratios, hmedian, hresc]
  rw [if_neg (by omega)]
  rw [eA]
  simp only [← hopti]
  rw [if_neg (by omega)]
  simp only [hloop, hen, if_true, hfix opti' hsub]
  unfold finishPair
  simp only [hnum]
  rw [if_neg (by omega), if_neg (by omega)]
  exact ⟨_, _, _, _, _, rfl⟩

/-- **C92** When a start is found: the first two options have true two-view motions and matches, their cameras see the
common points in directions neither equal nor more than 90 degrees apart, enough common matches have a scale, at least 32
(and at least the configured minimum, at most as many as are used) are seen under an angle larger than the limit, and
enough pairs of these lie in different directions. Then no match is lost: the start has all of them. -/
theorem C92_found_partial (hsc : sc.Seen W) (htri : ExactTriangulator W.triangulate)
    (hfind : CompleteTriangulator W.triangulate) (hcon : TrueConsensus sc o) (ho : o.Fair) (hw : 0 ≤ W.minCosine)
    (hl : 0 < geo.lim.maxCosine) (hsin : 0 < geo.lim.maxSine) (hpc : 0 ≤ geo.pairCosine) {s : StartSettings}
    (hms : 0 < s.minScales) {d : Data (Iso ℝ)} (hs : o.Searches d)
    (hbear : ∀ x X i, d.frames.get x = some X → i < X.nfeat → ∃ u, W.bearing x i = some u) {center f g : Nat}
    {rest : List Nat} {K F G : Frame} (hK : d.frames.get center = some K) (hF : d.frames.get f = some F)
    (hG : d.frames.get g = some G) (hrest : ∀ x ∈ rest, ∃ X, d.frames.get x = some X) {p q : Iso ℝ}
    {ps₁ ps₂ : List (Nat × Nat)}
    (h1 : initTwoView (startGeo W geo o) s center f K.nfeat F.nfeat = some (some (p, ps₁)))
    (h2 : initTwoView (startGeo W geo o) s center g K.nfeat G.nfeat = some (some (q, ps₂)))
    (hp1 : sc.Parallax W center f) (hp2 : sc.Parallax W center g) (hn1 : sc.Narrow W center f)
    (hn2 : sc.Narrow W center g) {rs : List Tri} (hrs : rs.Nodup) (hrl : s.minScales ≤ rs.length)
    (hrm : ∀ t ∈ rs, CommonTo ps₁ ps₂ t ∧ (startGeo W geo o).robust center f g .loose p q t = true)
    {L : List Tri} (hLn : L.Nodup) (hL : ∀ t, t ∈ L ↔ CommonTo ps₁ ps₂ t ∧ sc.Incident W W.minCosine center f g t)
    (h32 : 32 ≤ L.length) (h3 : s.minThreeView ≤ L.length) (hopt : L.length ≤ s.optLandmarks)
    {pairs : List (Tri × Tri)} (hpn : pairs.Nodup) (hpl : s.minPairs ≤ pairs.length)
    (hpo : ∀ x y, (x, y) ∈ pairs → (y, x) ∉ pairs)
    (hpm : ∀ x y, (x, y) ∈ pairs → x ∈ L ∧ y ∈ L ∧ Directions W geo.pairCosine center f g x y) :
    ∃ st, initReconstruction (startGeo W geo o) s d center (f :: g :: rest) = some (some st) ∧ st.first = f ∧
      st.second = g ∧ TrueStart sc center st ∧ (∀ t, t ∈ st.combined ↔ CommonTo ps₁ ps₂ t) ∧
      (∀ i j, (i, j) ∈ st.firstMatches ↔ (i, j) ∈ ps₁ ∧ ∀ j', (i, j') ∉ ps₂) ∧
      ∀ i j, (i, j) ∈ st.secondMatches ↔ (i, j) ∈ ps₂ ∧ ∀ j', (i, j') ∉ ps₁ := by
  have ho' := startGeo_fair (W := W) (geo := geo) ho
  obtain ⟨r1, e1, t1⟩ := initTwoView_spec (s := s) ho' hs hK hF
  obtain ⟨r2, e2, t2⟩ := initTwoView_spec (s := s) ho' hs hK hG
  rw [h1] at e1
  rw [h2] at e2
  cases e1
  cases e2
  have v1 := t1 p ps₁ rfl
  have v2 := t2 q ps₂ rfl
  have ok1 := v1.ok hK hF
  have ok2 := v2.ok hK hG
  obtain ⟨⟨a, ha, eA⟩, m1⟩ := true_two_view hcon v1
  obtain ⟨⟨b, hb, eB⟩, m2⟩ := true_two_view hcon v2
  obtain ⟨p', q', cm, fm, sm, hfound⟩ := tryPair_exact (A := ⟨f, p, ps₁⟩) (B := ⟨g, q, ps₂⟩) hsc hfind ho hw hl hpc
    hms ok1 ok2 ha hb eA eB m1 m2 hp1 hp2 hn1 hn2 hrs hrl hrm hLn hL h32 h3 hopt hpn hpl hpo hpm
  obtain ⟨r, er, hst⟩ := tryPair_spec (a := ⟨f, p, ps₁⟩) (b := ⟨g, q, ps₂⟩) ho' hms (c := center) ok1 ok2
  rw [hfound] at er
  cases er
  have hok := hst p' q' cm fm sm rfl
  have hinit : initReconstruction (startGeo W geo o) s d center (f :: g :: rest) =
      some (some ⟨f, p', g, q', cm, fm, sm⟩) := by
    rw [init_eq ho' hs hK (by
      intro x hx
      rcases List.mem_cons.mp hx with rfl | hx
      · exact ⟨F, hF⟩
      rcases List.mem_cons.mp hx with rfl | hx
      · exact ⟨G, hG⟩
      exact hrest x hx)]
    have o1 : optionView (startGeo W geo o) s d center K.nfeat f = some ⟨f, p, ps₁⟩ := by
      unfold optionView
      simp only [hF, h1]
    have o2 : optionView (startGeo W geo o) s d center K.nfeat g = some ⟨g, q, ps₂⟩ := by
      unfold optionView
      simp only [hG, h2]
    rw [List.filterMap_cons_some o1, List.filterMap_cons_some o2]
    simp only [combos, List.map_cons, List.cons_append, tryPairs, hfound]
  have hT : TrueStart sc center ⟨f, p', g, q', cm, fm, sm⟩ := start_true hsc htri hcon hp1 hp2 v1 v2 hok
  obtain ⟨k, hk, hf, hg⟩ := hT.poses
  simp only [motion_scale] at hf hg
  refine ⟨_, hinit, rfl, rfl, hT, fun t => ?_, fun i j => ?_, fun i j => ?_⟩
  · rw [hok.combined t]
    refine ⟨fun h => h.1, fun h => ⟨h, ?_⟩⟩
    simp only
    rw [hf, hg, robust_iff hsc hfind hw hl hk hn1 hn2 _ (m1 _ h.1) (m2 _ h.2)]
    obtain ⟨u, hu⟩ := hbear _ _ _ hK (ok1.range _ h.1).1
    obtain ⟨v, hv⟩ := hbear _ _ _ hF (ok1.range _ h.1).2
    obtain ⟨w, hw'⟩ := hbear _ _ _ hG (ok2.range _ h.2).2
    refine ⟨u, v, w, hu, hv, hw', Or.inl ?_⟩
    have hc := hp1 _ _ _ _ (m1 _ h.1) hu hv
    have hu1 := ray_unit hsc.rigid center (hsc.looks _ _ _ hu).1
    have hv1 := ray_unit hsc.rigid f (hsc.looks _ _ _ hv).1
    have := unit_dot_lt hu1 hv1 hc
    show 1 - _ > (0 : ℝ)
    linarith
  · rw [hok.first i j]
    refine ⟨fun h => ⟨h.1, h.2.1⟩, fun h => ⟨h.1, h.2, ?_⟩⟩
    obtain ⟨u, hu⟩ := hbear _ _ _ hK (ok1.range _ h.1).1
    obtain ⟨v, hv⟩ := hbear _ _ _ hF (ok1.range _ h.1).2
    simp only at hu hv
    simp only [startGeo, hu, hv, hf]
    exact bi_robust hsc hk hu hv (m1 _ h.1) hp1 hn1 hsin
  · rw [hok.second i j]
    refine ⟨fun h => ⟨h.1, h.2.1⟩, fun h => ⟨h.1, h.2, ?_⟩⟩
    obtain ⟨u, hu⟩ := hbear _ _ _ hK (ok2.range _ h.1).1
    obtain ⟨v, hv⟩ := hbear _ _ _ hG (ok2.range _ h.1).2
    simp only at hu hv
    simp only [startGeo, hu, hv, hg]
    exact bi_robust hsc hk hu hv (m2 _ h.1) hp2 hn2 hsin

/-! ## Which triangulators are exact -/

/-- The observations of the triangulators of `cv-geom`. -/
def observations (l : List (Iso ℝ × V3 ℝ)) : List Observation := l.map (fun o => ⟨o.1, o.2⟩)

/-- Eigenvalue decompositions are found and correct. -/
def CorrectSolver (solver : M4 → Option Eigen4) : Prop :=
  ∀ os : List Observation, ∃ e, solver (linearSystem os) = some e ∧ IsEigen4 (linearSystem os) e

open Classical in
theorem linearEigen_exact {solver : M4 → Option Eigen4} (hsol : CorrectSolver solver) {l : List (Iso ℝ × V3 ℝ)} {x : V3 ℝ}
    (h : ExactlySeen l x) : linearEigen solver (observations l) =
      if ∀ o ∈ l, 0 ≤ (o.1.inv.rot.mulVec o.2).dot x then fromPoint x else none := by
  obtain ⟨e, hs, he⟩ := hsol (observations l)
  obtain ⟨o, ho, o', ho', hn⟩ := h.across
  have hm : ∀ {p : Observation → Prop}, (∀ o ∈ l, p ⟨o.1, o.2⟩) → ∀ o ∈ observations l, p o := by
    intro p hp o ho
    obtain ⟨o, ho', rfl⟩ := List.mem_map.mp ho
    exact hp o ho'
  have hlen : ¬ (observations l).length < 2 := by
    intro hl
    match l, hl, ho, ho' with
    | [], _, ho, _ => simp at ho
    | [a], _, ho, ho' =>
      rw [List.mem_singleton] at ho ho'
      rw [ho, ho', V3.cross_self] at hn
      exact hn rfl
  obtain ⟨s, hs0, hv⟩ := least_vector (os := observations l) ⟨hm h.rigid, hm (fun o ho => (h.looks o ho).1)⟩
    (hm fun o ho => ⟨(h.looks o ho).1, (h.looks o ho).2.imp fun _ h => h.2⟩) (List.mem_map.mpr ⟨o, ho, rfl⟩)
    (List.mem_map.mpr ⟨o', ho', rfl⟩) hn he
  obtain ⟨q, hq1, hq2, hq3, hq4⟩ := C33_round_trip x h.origin
  have hch : cheiral (observations l) q ↔ ∀ o ∈ l, 0 ≤ (o.1.inv.rot.mulVec o.2).dot x := by
    unfold cheiral
    have hpos := V3.norm_pos h.origin
    have key : ∀ v : V3 ℝ, 0 ≤ v.dot (bearing q) ↔ 0 ≤ v.dot x := by
      intro v
      conv_rhs => rw [← hq3, V3.dot_smul]
      exact (mul_nonneg_iff_of_pos_left hpos).symm
    constructor
    · intro hc o ho
      exact (key _).mp (hc _ (List.mem_map.mpr ⟨o, ho, rfl⟩))
    · intro hc
      exact hm (fun o ho => (key _).mpr (hc o ho))
  unfold linearEigen
  rw [if_neg hlen]
  simp only [hs, Option.bind_eq_bind, Option.bind_some, hv, fromHomogeneous_hom hs0, hq1]
  by_cases hc : ∀ o ∈ l, 0 ≤ (o.1.inv.rot.mulVec o.2).dot x
  · rw [if_pos (hch.mpr hc), if_pos hc]
  · rw [if_neg (fun h' => hc (hch.mp h')), if_neg hc]

/-- The refinement keeps an exact point. -/
theorem sineL1_exact {solver : M4 → Option Eigen4} (hsol : CorrectSolver solver) (rate eps : ℝ) (n : Nat)
    {l : List (Iso ℝ × V3 ℝ)} {x : V3 ℝ} (h : ExactlySeen l x) :
    sineL1 solver rate eps n (observations l) = linearEigen solver (observations l) := by
  unfold sineL1
  rw [linearEigen_exact hsol h]
  split
  · obtain ⟨p, h1, _, h3⟩ := fromPoint_some h.origin
    simp only [h1, Option.bind_eq_bind, Option.bind_some, h3]
    rw [C56_exact_point_kept, h1]
    · intro o ho
      obtain ⟨o, ho', rfl⟩ := List.mem_map.mp ho
      show (o.1.inv.rot.mulVec o.2).normSq = 1
      rw [M3.IsRot.normSq_mulVec (h.rigid o ho').inv]
      exact (h.looks o ho').1
    · intro o ho
      obtain ⟨o, ho', rfl⟩ := List.mem_map.mp ho
      obtain ⟨_, d, _, hd⟩ := h.looks o ho'
      refine ⟨d, ?_⟩
      show x = o.1.inv.t.add (V3.smul d (o.1.inv.rot.mulVec o.2))
      have e : o.1.inv.point (o.1.point x) = x := by
        rw [← Iso.point_mul, Iso.Rigid.inv_mul (h.rigid o ho')]
        lin3
      rw [hd] at e
      rw [← e]
      lin3
  · rfl

/-- **C92** The linear triangulator of the program and its iterative refinement satisfy both conditions, with any number
of iterations and any step length. -/
theorem C92_triangulators {solver : M4 → Option Eigen4} (hsol : CorrectSolver solver) (rate eps : ℝ) (n : Nat) :
    (ExactTriangulator (fun l => linearEigen solver (observations l)) ∧
      CompleteTriangulator (fun l => linearEigen solver (observations l))) ∧
    ExactTriangulator (fun l => sineL1 solver rate eps n (observations l)) ∧
    CompleteTriangulator (fun l => sineL1 solver rate eps n (observations l)) := by
  have h1 : ExactTriangulator (fun l => linearEigen solver (observations l)) := by
    intro l x p h hp
    simp only [linearEigen_exact hsol h] at hp
    split at hp
    · exact hp
    · cases hp
  have h2 : CompleteTriangulator (fun l => linearEigen solver (observations l)) := by
    intro l x h hd
    simp only [linearEigen_exact hsol h]
    rw [if_pos hd]
  refine ⟨⟨h1, h2⟩, fun l x p h hp => h1 l x p h ?_, fun l x h hd => ?_⟩
  · simp only [sineL1_exact hsol rate eps n h] at hp
    exact hp
  · simp only [sineL1_exact hsol rate eps n h]
    exact h2 l x h hd

/-- Correct solvers exist. -/
theorem exists_solver : ∃ solver : M4 → Option Eigen4, CorrectSolver solver := by
  classical
  refine ⟨fun A => if h : ∃ e, IsEigen4 A e then some h.choose else none, fun os => ?_⟩
  have h := linearSystem_eigen os
  exact ⟨h.choose, dif_pos h, h.choose_spec⟩

end Verif.Sfm
