import Verif.Lemmas.SfmThree
import Verif.Props.SfmGraph
import Verif.Props.PoseGraph

/-!
# C89: the poses of a three-view constraint
-/

namespace Verif.Sfm

open Verif.Geo

variable {C : Type} {W : World C} {R : Recon (Iso ℝ)} {v : Nat × Nat × Nat} {ls : List Nat}

/-- **C89** No lookup of the computation panics. -/
theorem C89_no_panic (H : ThreeData W R v ls) (t : ThreeSettings) {shuffle : List Nat → List Nat}
    (hs : ∀ l, (shuffle l).Perm l) :
    (∃ r, threeViewPoses W t shuffle R v ls = some r) ∧ ∀ l ∈ ls, ∃ L, R.landmarks.get l = some L := by
  obtain ⟨V0, h0⟩ := H.live0
  obtain ⟨V1, h1⟩ := H.live1
  obtain ⟨V2, h2⟩ := H.live2
  obtain ⟨_, _, _, _, h⟩ := threeViewPoses_eq H t hs h0 h1 h2
  refine ⟨⟨_, h⟩, fun l hl => ?_⟩
  obtain ⟨⟨f, L, hL, _⟩, _⟩ := H.seen l hl
  exact ⟨L, hL⟩

/-- **C89** What the poses are. The bearings of the landmarks with the most observations are used. There are no poses if
too few pairs of landmarks are seen apart by all three views, or if the optimised cameras are all at one place. Otherwise
they are the optimised poses, starting from the motions between the cameras, brought to the scale of these motions: their
translations have together the same length. -/
theorem C89_poses (H : ThreeData W R v ls) (t : ThreeSettings) {shuffle : List Nat → List Nat}
    (hs : ∀ l, (shuffle l).Perm l) {V0 V1 V2 : View (Iso ℝ)} (h0 : R.views.get v.1 = some V0)
    (h1 : R.views.get v.2.1 = some V1) (h2 : R.views.get v.2.2 = some V2) :
    ∃ chosen ms, MostObserved R ls t.maxLandmarks chosen ∧ List.Forall₂ (SeenByThree W R v) chosen ms ∧
      ∃ q, q = threeViewAdaptive (relativePose V0 V1, relativePose V0 V2) t.patience ms ∧
      (threeViewPoses W t shuffle R v ls = some none ↔
        apartPairs t ms < t.minPairs ∨ (q.1.t = V3.zero ∧ q.2.t = V3.zero)) ∧
      ∀ p, threeViewPoses W t shuffle R v ls = some (some p) →
        p.1.Rigid ∧ p.2.Rigid ∧ (∃ k ≥ 0, p.1 = q.1.scale k ∧ p.2 = q.2.scale k) ∧
        p.1.t.norm + p.2.t.norm = (relativePose V0 V1).t.norm + (relativePose V0 V2).t.norm := by
  obtain ⟨chosen, ms, h3, h4, h5⟩ := threeViewPoses_eq H t hs h0 h1 h2
  refine ⟨chosen, ms, h3, h4, _, rfl, ?_⟩
  have r1 : (relativePose V0 V1).Rigid := (H.rigid _ _ h1).mul (H.rigid _ _ h0).inv
  have r2 : (relativePose V0 V2).Rigid := (H.rigid _ _ h2).mul (H.rigid _ _ h0).inv
  obtain ⟨_, q1, q2⟩ := C55_three_moves (p := (relativePose V0 V1, relativePose V0 V2)) (os := ms) (eps := 0) (rate := 0)
    (n := t.patience) r1 r2 (Or.inr (Or.inr rfl))
  rw [h5]
  generalize threeViewAdaptive (relativePose V0 V1, relativePose V0 V2) t.patience ms = q at q1 q2
  have n1 := V3.norm_nonneg q.1.t
  have n2 := V3.norm_nonneg q.2.t
  have hz : q.1.t.norm + q.2.t.norm = 0 ↔ q.1.t = V3.zero ∧ q.2.t = V3.zero := by
    rw [← V3.norm_eq_zero, ← V3.norm_eq_zero]
    constructor
    · intro h; constructor <;> linarith
    · rintro ⟨a, b⟩; linarith
  dsimp only
  by_cases ha : apartPairs t ms < t.minPairs
  · rw [if_pos ha]
    exact ⟨by simp [ha], by simp⟩
  rw [if_neg ha]
  by_cases hf : q.1.t.norm + q.2.t.norm = 0
  · rw [if_pos hf]
    exact ⟨by simp [hz.1 hf], by simp⟩
  rw [if_neg hf]
  refine ⟨by simp [ha, ← hz, hf], ?_⟩
  intro p hp
  cases hp
  have hk : 0 ≤ ((relativePose V0 V1).t.norm + (relativePose V0 V2).t.norm) / (q.1.t.norm + q.2.t.norm) :=
    div_nonneg (add_nonneg (V3.norm_nonneg _) (V3.norm_nonneg _)) (add_nonneg n1 n2)
  refine ⟨q1, q2, ⟨_, hk, rfl, rfl⟩, ?_⟩
  show (V3.smul _ q.1.t).norm + (V3.smul _ q.2.t).norm = _
  rw [V3.norm_smul, V3.norm_smul, abs_of_nonneg hk, ← mul_add, div_mul_cancel₀ _ hf]

theorem point_inv_point {a : Iso ℝ} (h : a.Rigid) (x : V3 ℝ) : a.inv.point (a.point x) = x := by
  rw [← Iso.point_mul, h.inv_mul]
  lin3

theorem inv_of_mul {a b : Iso ℝ} (h : a.Rigid) : (a.mul b).inv = b.inv.mul a.inv := by
  have h1 := M3.IsRot.orth h
  have : (a.mul b).inv = ⟨b.rot.transpose.mul a.rot.transpose,
      ((b.rot.transpose.mulVec ((a.rot.transpose.mul a.rot).mulVec b.t)).add
        (b.rot.transpose.mulVec (a.rot.transpose.mulVec a.t))).neg⟩ := by lin3
  rw [this, h1]
  lin3

theorem centres_of_relative {V0 V1 : View (Iso ℝ)} (h1 : V1.pose.Rigid)
    (h : (relativePose V0 V1).t = V3.zero) : centre V1.pose = centre V0.pose := by
  have e : V1.pose.point (centre V0.pose) = (relativePose V0 V1).t := by
    unfold relativePose centre
    lin3
  rw [h] at e
  have := congrArg V1.pose.inv.point e
  rw [point_inv_point h1] at this
  exact this.symm

/-- Seen from the first camera, the point fits the motions to the other two. -/
theorem fitsThree_of_exact (hr : RigidPoses R) {V0 V1 V2 : View (Iso ℝ)} (h0 : R.views.get v.1 = some V0)
    (h1 : R.views.get v.2.1 = some V1) (h2 : R.views.get v.2.2 = some V2) {l : Nat} {o : Bearings} {x : V3 ℝ}
    (hx : ExactAt W R l x) (ho : SeenByThree W R v l o) : FitsThree (relativePose V0 V1, relativePose V0 V2) o := by
  obtain ⟨⟨U0, f0, g0, o0, b0⟩, ⟨U1, f1, g1, o1, b1⟩, ⟨U2, f2, g2, o2, b2⟩⟩ := ho
  have e0 := hx _ _ _ _ o0 g0 b0
  have e1 := hx _ _ _ _ o1 g1 b1
  have e2 := hx _ _ _ _ o2 g2 b2
  rw [h0] at g0
  rw [h1] at g1
  rw [h2] at g2
  cases g0
  cases g1
  cases g2
  have hp : ∀ V : View (Iso ℝ), (relativePose V0 V).point (V0.pose.point x) = V.pose.point x := by
    intro V
    unfold relativePose
    rw [Iso.point_mul, point_inv_point (hr _ _ h0)]
  refine ⟨V0.pose.point x, ?_, ?_, ?_⟩
  · refine ⟨e0.1, ?_⟩
    obtain ⟨d, hd, e⟩ := e0.2
    refine ⟨d, hd, ?_⟩
    rw [← e]
    lin3
  · refine ⟨e1.1, ?_⟩
    obtain ⟨d, hd, e⟩ := e1.2
    exact ⟨d, hd, by rw [← e, hp]⟩
  · refine ⟨e2.1, ?_⟩
    obtain ⟨d, hd, e⟩ := e2.2
    exact ⟨d, hd, by rw [← e, hp]⟩

/-- **C89** Exact observations: if the three cameras, not all at one place, see one point for each landmark, then the
poses are the motions between the cameras. -/
theorem C89_exact (H : ThreeData W R v ls) (t : ThreeSettings) {shuffle : List Nat → List Nat}
    (hs : ∀ l, (shuffle l).Perm l) (hx : ∀ l ∈ ls, ∃ x, ExactAt W R l x) (hsp : Spread R v) {p : Iso ℝ × Iso ℝ}
    (hp : threeViewPoses W t shuffle R v ls = some (some p)) :
    ∃ V0 V1 V2, R.views.get v.1 = some V0 ∧ R.views.get v.2.1 = some V1 ∧ R.views.get v.2.2 = some V2 ∧
      p.1 = relativePose V0 V1 ∧ p.2 = relativePose V0 V2 := by
  obtain ⟨V0, h0⟩ := H.live0
  obtain ⟨V1, h1⟩ := H.live1
  obtain ⟨V2, h2⟩ := H.live2
  refine ⟨V0, V1, V2, h0, h1, h2, ?_⟩
  obtain ⟨chosen, ms, h3, h4, h5⟩ := threeViewPoses_eq H t hs h0 h1 h2
  have r0 := H.rigid _ _ h0
  have r1 : (relativePose V0 V1).Rigid := (H.rigid _ _ h1).mul r0.inv
  have r2 : (relativePose V0 V2).Rigid := (H.rigid _ _ h2).mul r0.inv
  have hfit : ∀ o ∈ ms, FitsThree (relativePose V0 V1, relativePose V0 V2) o := by
    intro o ho
    obtain ⟨l, hl, hlo⟩ : ∃ l ∈ chosen, SeenByThree W R v l o := by
      clear h3 h5
      induction h4 with
      | nil => simp at ho
      | cons hab _ ih =>
        rcases List.mem_cons.1 ho with rfl | ho
        · exact ⟨_, List.mem_cons_self, hab⟩
        · obtain ⟨l, hl, h⟩ := ih ho
          exact ⟨l, List.mem_cons_of_mem _ hl, h⟩
    obtain ⟨x, hx⟩ := hx l (h3.from_ls l hl)
    exact fitsThree_of_exact H.rigid h0 h1 h2 hx hlo
  rw [h5, (C55_three_exact r1 r2 hfit 0 0 t.patience).2.2] at hp
  dsimp only at hp
  have hne : (relativePose V0 V1).t.norm + (relativePose V0 V2).t.norm ≠ 0 := by
    intro h
    have n1 := V3.norm_nonneg (relativePose V0 V1).t
    have n2 := V3.norm_nonneg (relativePose V0 V2).t
    exact hsp V0 V1 V2 h0 h1 h2
      ⟨centres_of_relative (H.rigid _ _ h1) (V3.norm_eq_zero.1 (by linarith)),
        centres_of_relative (H.rigid _ _ h2) (V3.norm_eq_zero.1 (by linarith))⟩
  rw [if_neg hne, div_self hne] at hp
  split at hp
  · cases hp
  · have hone : ∀ a : Iso ℝ, a.scale 1 = a := by intro a; lin3
    rw [hone, hone] at hp
    cases hp
    exact ⟨rfl, rfl⟩

/-- **C89** The poses do not depend on the coordinates of the world. -/
theorem C89_world_frame (hr : RigidPoses R) (t : ThreeSettings) (shuffle : List Nat → List Nat) {g : Iso ℝ} (hg : g.Rigid)
    (v : Nat × Nat × Nat) (ls : List Nat) :
    threeViewPoses W t shuffle (R.mapPoses (fun p => p.mul g) id) v ls = threeViewPoses W t shuffle R v ls := by
  have hv := R.mapPoses_views (fun p => p.mul g) id
  have hb : ∀ l u, bearingFrom W (R.mapPoses (fun p => p.mul g) id) l u = bearingFrom W R l u := by
    intro l u
    unfold bearingFrom
    rw [hv]
    cases R.views.get u <;> rfl
  have ht : threeBearings W (R.mapPoses (fun p => p.mul g) id) v = threeBearings W R v := by
    funext l
    unfold threeBearings
    simp only [hb]
  have hm : ∀ a b : Iso ℝ, b.Rigid → (a.mul g).mul (b.mul g).inv = a.mul b.inv := by
    intro a b hb
    have : (b.mul g).inv = g.inv.mul b.inv := by
      exact inv_of_mul hb
    rw [this, Iso.mul_assoc, ← Iso.mul_assoc g, hg.mul_inv, Iso.one_mul]
  unfold threeViewPoses
  rw [hv, hv, hv, ht]
  have hmo : ∀ l, mostObserved (R.mapPoses (fun p => p.mul g) id) l = mostObserved R l := fun _ => rfl
  rw [hmo]
  cases h0 : R.views.get v.1 with
  | none => rfl
  | some V0 =>
    cases h1 : R.views.get v.2.1 with
    | none => rfl
    | some V1 =>
      cases h2 : R.views.get v.2.2 with
      | none => rfl
      | some V2 =>
        simp only [Option.map_some, Option.bind_eq_bind, Option.bind_some, hm _ _ (hr _ _ h0)]

/-- **C89** On exact observations, all constraints generated for a view hold. -/
theorem C89_generated {d : Data (Iso ℝ)} (h : Reachable d) {r u : Nat} (hR : d.recons.get r = some R)
    (hu : R.LiveView u) (hrig : RigidPoses R) (hb : BearingsComplete W R) (hx : ExactObservations W R)
    (hsp : ∀ a b c, R.LiveView a → R.LiveView b → R.LiveView c → a < b → b < c → Spread R (a, b, c))
    {ω : Oracle (Iso ℝ)} (hω : ω.Fair) (t : ThreeSettings) {shuffle : List Nat → List Nat}
    (hs : ∀ l, (shuffle l).Perm l) (s : Settings) {cs : List (Constraint (Iso ℝ))}
    (hc : R.generateViewConstraints (threeOracle W t shuffle ω) s u = some cs) : ∀ c ∈ cs, R.Fulfils c := by
  obtain ⟨cs', h1, _, _, h4⟩ := C18_generated_constraints h hR hu (threeOracle W t shuffle ω)
    ⟨hω.order, hω.sort⟩ s
  rw [hc] at h1
  cases h1
  intro c hcc
  obtain ⟨_, l1, l2, v0, v1, v2, ls, hn, _, _, ho, hl⟩ := h4 c hcc
  have H : ThreeData W R (c.v0, c.v1, c.v2) ls :=
    ⟨(reachable_consistent h).recons r R hR, hb, hrig, v0, v1, v2, fun l hm => (hl l hm).2, hn⟩
  have hx' : ∀ l ∈ ls, ∃ x, ExactAt W R l x := by
    intro l hm
    obtain ⟨f, L, hL, _⟩ := (hl l hm).2.1
    exact hx l ⟨L, hL⟩
  obtain ⟨⟨p, hp⟩, _⟩ := C89_no_panic H t hs
  have ho' : p = some (c.first, c.second) := by
    have : (threeViewPoses W t shuffle R (c.v0, c.v1, c.v2) ls).getD none = some (c.first, c.second) := ho
    rwa [hp] at this
  rw [ho'] at hp
  exact C89_exact H t hs hx' (hsp _ _ _ v0 v1 v2 l1 l2) hp

end Verif.Sfm
