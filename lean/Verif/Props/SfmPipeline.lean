import Verif.Lemmas.SfmPipeline

/-!
# C93: all calls on exact data

If all pictures are exact, descriptors identify the points, and the two consensus algorithms return exact answers, then
after any calls of public methods every reconstruction is the true scene, up to coordinates and unit of length. Nothing is
assumed about poses, landmarks, points, constraints or the order of the calls. The exception are mergers, see C90: here
the views found for a new frame belong to one reconstruction.
-/

namespace Verif.Sfm

open Verif.Geo

variable {C : Type} {W : World C} {sc : Scene}

/-- **C93** All reconstructions are true. -/
theorem C93_true_partial (hp : sc.Pictured W) {s : TopSettings} (hs : 0 < s.start.minScales) {d : Data (Iso ℝ)}
    (h : ExactHistory sc W s d) : d.Consistent ∧ ∀ r R, d.recons.get r = some R → R.TrueTo sc := by
  induction h with
  | new =>
    refine ⟨Data.empty_consistent, ?_⟩
    intro r R h
    simp [Data.empty, SlotMap.empty, SlotMap.get, FMap.empty, FMap.get] at h
  | call _ hc hrun ih => exact call_kept hp hs ih hc hrun

/-- **C93** The motion between any two views of a reconstruction is the true one, in the unit of the reconstruction. -/
theorem C93_motion_partial (hp : sc.Pictured W) {s : TopSettings} (hs : 0 < s.start.minScales) {d : Data (Iso ℝ)}
    (h : ExactHistory sc W s d) {r : Nat} {R : Recon (Iso ℝ)} (hR : d.recons.get r = some R) :
    ∃ k > 0, ∀ v u V U, R.views.get v = some V → R.views.get u = some U →
      relativePose V U = (sc.motion V.frame U.frame).scale k := by
  obtain ⟨g, k, hg, hk, hT⟩ := (C93_true_partial hp hs h).2 r R hR
  refine ⟨k, hk, fun v u V U hV hU => ?_⟩
  unfold relativePose
  rw [hT.poses _ _ hV, hT.poses _ _ hU]
  unfold Scene.viewed Scene.motion
  rw [← Iso.scale_inv', ← Iso.scale_mul', (hp.seen.rigid V.frame).mul_inv_rev hg, Iso.mul_assoc, ← Iso.mul_assoc g,
    hg.mul_inv, Iso.one_mul]

/-- **C93** The points computed for the export are the points of the scene, in the coordinates of the reconstruction. -/
theorem C93_points_partial (hp : sc.Pictured W) {s : TopSettings} (hs : 0 < s.start.minScales) {d : Data (Iso ℝ)}
    (h : ExactHistory sc W s d) {r : Nat} {R : Recon (Iso ℝ)} (hR : d.recons.get r = some R) :
    ∃ (g : Iso ℝ) (k : ℝ), g.Rigid ∧ 0 < k ∧ (∀ v V, R.views.get v = some V → V.pose = sc.viewed g k V.frame) ∧
      ∀ l p, triangulateRobust W R l = some (some p) →
        ∃ x, R.Depicts sc l x ∧ toPoint p = some (V3.smul k (g.inv.point x)) := by
  obtain ⟨hc, ht⟩ := C93_true_partial hp hs h
  obtain ⟨g, k, hg, hk, hT⟩ := ht r R hR
  have hcR := hc.recons r R hR
  refine ⟨g, k, hg, hk, hT.poses, fun l p hl => ?_⟩
  have hlive : R.LiveLandmark l := by
    unfold triangulateRobust at hl
    cases hL : R.landmarks.get l with
    | none => rw [hL] at hl; cases hl
    | some L => exact ⟨L, hL⟩
  have H := pose_data hp hg hcR hT
  obtain ⟨o, ho, hiff⟩ := worldPoint_iff hcR H.complete H.rigid H.unit H.cosine (.inl ⟨l, rfl, hlive⟩)
  have ho' : triangulateRobust W R l = some o := ho
  rw [hl] at ho'
  cases ho'
  obtain ⟨x, hx⟩ := hT.depicts hcR hlive
  have hpt := located_point hp hg hk hcR hT (ls := [l]) (x := x) (by simpa using hx) ((hiff p).mp rfl)
  obtain ⟨q, h1, _, h3⟩ := fromPoint_some (fromPoint_ne hpt)
  rw [hpt] at h1
  cases h1
  exact ⟨x, hx, h3⟩

/-- **C93** One frame: if a frame with exact bearings is placed in a true reconstruction, its pose and its matches are
right. -/
theorem C93_placed_partial (hp : sc.Pictured W) {s : TopSettings} {o : TopOracle (Iso ℝ)} (ho : ExactPlacing sc W s o)
    {d : Data (Iso ℝ)} (hd : d.Consistent) (ht : ∀ r R, d.recons.get r = some R → R.TrueTo sc) {r frame : Nat}
    {R : Recon (Iso ℝ)} {F : Frame} (hR : d.recons.get r = some R) (hF : d.frames.get frame = some F)
    {views : List Nat} (hlive : ∀ v ∈ views, R.LiveView v) {pose : Iso ℝ} {ms : FMap (List Nat)}
    (h : registerTop o s d r frame views = some (some (pose, ms))) : Right sc R frame pose ms.get :=
  (registerTop_right hp ho hd ht hR hF hlive h).1

/-- **C93** The linear triangulator and its iterative refinement never return a wrong point for exact observations. -/
theorem C93_triangulators {solver : M4 → Option Eigen4} (hsol : CorrectSolver solver) (rate eps : ℝ) (n : Nat) :
    SoundTriangulator (fun l => linearEigen solver (observations l)) ∧
    SoundTriangulator (fun l => sineL1 solver rate eps n (observations l)) := by
  have h1 : SoundTriangulator (fun l => linearEigen solver (observations l)) := by
    intro l x p hr hl ha hp
    obtain ⟨e, hs, he⟩ := hsol (observations l)
    obtain ⟨o, ho, o', ho', hn⟩ := ha
    have hm : ∀ {p : Observation → Prop}, (∀ o ∈ l, p ⟨o.1, o.2⟩) → ∀ o ∈ observations l, p o := by
      intro p hp o ho
      obtain ⟨o, ho', rfl⟩ := List.mem_map.mp ho
      exact hp o ho'
    obtain ⟨s, hs0, hv⟩ := least_vector (os := observations l) ⟨hm hr, hm (fun o ho => (hl o ho).1)⟩
      (hm fun o ho => ⟨(hl o ho).1, (hl o ho).2.imp fun _ h => h.2⟩) (List.mem_map.mpr ⟨o, ho, rfl⟩)
      (List.mem_map.mpr ⟨o', ho', rfl⟩) hn he
    simp only [linearEigen] at hp
    split at hp
    · cases hp
    simp only [hs, Option.bind_eq_bind, Option.bind_some, hv, fromHomogeneous_hom hs0, Option.bind_eq_some_iff] at hp
    obtain ⟨q, hq, hp⟩ := hp
    split at hp
    · cases hp
      exact hq
    · cases hp
  refine ⟨h1, ?_⟩
  intro l x p hr hl ha hp
  have hx : x ≠ V3.zero := by
    have hp' := hp
    simp only [sineL1, Option.bind_eq_bind, Option.bind_eq_some_iff] at hp'
    obtain ⟨q, hq, _⟩ := hp'
    exact fromPoint_ne (h1 l x q hr hl ha hq)
  refine h1 l x p hr hl ha ?_
  simp only [sineL1_exact hsol rate eps n ⟨hr, hl, hx, ha⟩] at hp
  exact hp

end Verif.Sfm
