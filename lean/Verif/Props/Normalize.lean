import Verif.Props.Robust
import Verif.Props.Pose

/-!
# Normalising a reconstruction (C17)
-/

namespace Verif.Sfm

open Verif.Geo

variable {C : Type}

theorem mapM_id_some {l : List (Option ℝ)} {r : List ℝ} (h : l.mapM id = some r) : l = r.map some := by
  induction l generalizing r with
  | nil => cases h; rfl
  | cons a l ih =>
    simp only [List.mapM_cons, Option.bind_eq_bind, Option.bind_eq_some_iff] at h
    obtain ⟨c, h1, s, h2, h3⟩ := h
    cases h3
    rw [List.map_cons, ← ih h2, ← h1]; rfl

theorem mapM_id_map {l : List ℝ} : (l.map some).mapM id = some l := by
  induction l with
  | nil => rfl
  | cons a l ih => simp only [List.map_cons, List.mapM_cons, ih]; rfl

theorem meanOf_nonneg {l : List (Option ℝ)} {m : ℝ} (h : meanOf l = some m) (hl : ∀ x, some x ∈ l → 0 ≤ x) : 0 ≤ m := by
  unfold meanOf at h
  split at h
  · exact absurd h (by simp)
  · rw [Option.map_eq_some_iff] at h
    obtain ⟨r, h1, rfl⟩ := h
    have := mapM_id_some h1
    subst this
    refine div_nonneg (List.sum_nonneg fun x hx => hl x ?_) (Nat.cast_nonneg _)
    exact List.mem_map_of_mem hx

theorem distanceFrom_nonneg {pose : Iso ℝ} {p : V4 ℝ} {x : ℝ} (h : distanceFrom pose p = some (some x)) : 0 ≤ x := by
  unfold distanceFrom at h
  split at h
  · exact absurd h (by simp)
  · rw [Option.map_eq_some_iff] at h
    obtain ⟨_, _, h⟩ := h
    rw [← Option.some.inj h]
    exact Real.sqrt_nonneg _

theorem meanDistance_nonneg {W : World C} {R : Recon (Iso ℝ)} {V : View (Iso ℝ)} {m : ℝ}
    (h : meanDistance W R V = some (some m)) : 0 ≤ m := by
  unfold meanDistance at h
  simp only [Option.bind_eq_bind, Option.bind_eq_some_iff] at h
  obtain ⟨ps, -, h⟩ := h
  refine meanOf_nonneg (Option.some.inj h) fun x hx => ?_
  rw [List.mem_filterMap] at hx
  obtain ⟨p, -, hp⟩ := hx
  exact distanceFrom_nonneg hp

theorem normalize_cases {W : World C} {R R' : Recon (Iso ℝ)} {first : Nat}
    (h : normalizeReconstruction W R first = some R') : ∃ V, R.views.get first = some V ∧
      ((R' = R ∧ (meanDistance W R V = some none ∨ meanDistance W R V = some (some 0))) ∨
        ∃ m, 0 < m ∧ meanDistance W R V = some (some m) ∧
          R' = R.mapPoses (fun p => (p.mul V.pose.inv).scale (1 / m)) (fun p => p.scale (1 / m))) := by
  unfold normalizeReconstruction at h
  simp only [Option.bind_eq_bind, Option.bind_eq_some_iff] at h
  obtain ⟨V, h1, mean, h2, h3⟩ := h
  refine ⟨V, h1, ?_⟩
  rcases mean with _ | m
  · cases h3; exact Or.inl ⟨rfl, Or.inl h2⟩
  · dsimp only at h3
    split at h3
    · rename_i h0
      cases h3; rw [h0] at h2; exact Or.inl ⟨rfl, Or.inr h2⟩
    · rename_i h0
      cases h3
      exact Or.inr ⟨m, lt_of_le_of_ne (meanDistance_nonneg h2) (Ne.symm h0), h2, rfl⟩

theorem scale_inv (s : ℝ) (a : Iso ℝ) : (a.scale s).inv = a.inv.scale s := by lin3

theorem relative_normal {T a b : Iso ℝ} (s : ℝ) (hT : T.Rigid) (ha : a.Rigid) :
    ((b.mul T.inv).scale s).mul ((a.mul T.inv).scale s).inv = (b.mul a.inv).scale s := by
  rw [scale_inv, ← (C34_scale s _ _).1]
  congr 1
  have e : (a.mul T.inv).inv = T.mul a.inv := by
    have h1 : (T.mul a.inv).mul (a.mul T.inv) = Iso.one := by
      rw [Iso.mul_assoc, ← Iso.mul_assoc a.inv, ha.inv_mul, Iso.one_mul, hT.mul_inv]
    rw [← Iso.one_mul (a.mul T.inv).inv, ← h1, Iso.mul_assoc, (ha.mul hT.inv).mul_inv, Iso.mul_one]
  rw [e, Iso.mul_assoc, ← Iso.mul_assoc T.inv, hT.inv_mul, Iso.one_mul]

/-- The transformation applied to all poses has the properties promised. -/
theorem normalForm_mapPoses {R : Recon (Iso ℝ)} (hR : RigidPoses R) {first : Nat} {V : View (Iso ℝ)}
    (hV : R.views.get first = some V) {s : ℝ} (hs : 0 < s) :
    NormalForm R (R.mapPoses (fun p => (p.mul V.pose.inv).scale s) (fun p => p.scale s)) first s := by
  have hrel : ∀ u v U V₁ U' V', R.views.get u = some U → R.views.get v = some V₁ →
      (R.mapPoses (fun p => (p.mul V.pose.inv).scale s) (fun p => p.scale s)).views.get u = some U' →
      (R.mapPoses (fun p => (p.mul V.pose.inv).scale s) (fun p => p.scale s)).views.get v = some V' →
      relativePose U' V' = (relativePose U V₁).scale s := by
    intro u v U V₁ U' V' h1 h2 h3 h4
    rw [Recon.mapPoses_views, h1] at h3
    rw [Recon.mapPoses_views, h2] at h4
    cases h3; cases h4
    exact relative_normal s (hR _ _ hV) (hR _ _ h1)
  have hcon : ∀ k c', (R.mapPoses (fun p => (p.mul V.pose.inv).scale s) (fun p => p.scale s)).constraints.get k =
      some c' ↔ ∃ c, R.constraints.get k = some c ∧ c' = ⟨c.v0, c.v1, c.v2, c.first.scale s, c.second.scale s⟩ := by
    intro k c'
    rw [Recon.mapPoses_constraints, Option.map_eq_some_iff]
    exact ⟨fun ⟨c, h1, h2⟩ => ⟨c, h1, h2.symm⟩, fun ⟨c, h1, h2⟩ => ⟨c, h1, h2.symm⟩⟩
  refine ⟨hs, ?_, Recon.mapPoses_live _ _ R, ?_, hrel, ?_, rfl, hcon, ?_⟩
  · rw [Recon.mapPoses_views, hV]
    refine ⟨_, rfl, ?_⟩
    show (V.pose.mul V.pose.inv).scale s = Iso.one
    rw [(hR _ _ hV).mul_inv]
    lin3
  · intro v V₁ V' h1 h2
    rw [Recon.mapPoses_views, h1] at h2
    cases h2
    exact ⟨rfl, rfl⟩
  · intro v V' h
    rw [Recon.mapPoses_views, Option.map_eq_some_iff] at h
    obtain ⟨V₁, h1, rfl⟩ := h
    exact (hR _ _ h1).mul (hR _ _ hV).inv
  · intro k c c' h1 h2 ⟨A, B, D, a, b, d, e1, e2⟩
    rw [hcon] at h2
    obtain ⟨c₀, h3, rfl⟩ := h2
    rw [h1] at h3
    cases h3
    have live : ∀ {v X}, R.views.get v = some X →
        (R.mapPoses (fun p => (p.mul V.pose.inv).scale s) (fun p => p.scale s)).views.get v =
          some { X with pose := (X.pose.mul V.pose.inv).scale s } := by
      intro v X hX
      rw [Recon.mapPoses_views, hX]; rfl
    refine ⟨_, _, _, live a, live b, live d, ?_, ?_⟩
    · rw [hrel _ _ _ _ _ _ a b (live a) (live b), e1]
    · rw [hrel _ _ _ _ _ _ a d (live a) (live d), e2]

/-- **C17** Normalising puts the first view at the origin and changes motions between views only by one positive scale,
unless there is no robust landmark to measure it. -/
theorem C17_normalize {W : World C} {R R' : Recon (Iso ℝ)} (hR : RigidPoses R) {first : Nat}
    (h : normalizeReconstruction W R first = some R') : ∃ V, R.views.get first = some V ∧
      ((∃ m, meanDistance W R V = some (some m) ∧ NormalForm R R' first (1 / m)) ∨
        (R' = R ∧ (meanDistance W R V = some none ∨ meanDistance W R V = some (some 0)))) := by
  obtain ⟨V, h1, h2 | ⟨m, hm, h2, rfl⟩⟩ := normalize_cases h
  · exact ⟨V, h1, Or.inr h2⟩
  · exact ⟨V, h1, Or.inl ⟨m, h2, normalForm_mapPoses hR h1 (by positivity)⟩⟩

theorem poseBearing_mapPoses (W : World C) (R : Recon (Iso ℝ)) (f g : Iso ℝ → Iso ℝ) (o : Nat × Nat) :
    poseBearing W (R.mapPoses f g) o = (poseBearing W R o).map (fun p => (f p.1, p.2)) := by
  unfold poseBearing
  rw [Recon.mapPoses_views]
  rcases R.views.get o.1 with _ | V
  · rfl
  · simp only [Option.map_some, Option.bind_eq_bind, Option.bind_some]
    rcases W.bearing V.frame o.2 with _ | b <;> rfl

theorem mapM_map_option {α β γ : Type _} (f : α → Option β) (g : β → γ) (l : List α) :
    l.mapM (fun a => (f a).map g) = (l.mapM f).map (List.map g) := by
  induction l with
  | nil => rfl
  | cons a l ih =>
    simp only [List.mapM_cons, ih]
    rcases f a with _ | b
    · rfl
    · rcases l.mapM f with _ | r <;> rfl

theorem mapPoses_size (f g : Iso ℝ → Iso ℝ) (R : Recon (Iso ℝ)) : (R.mapPoses f g).views.size = R.views.size := by
  unfold Recon.mapPoses SlotMap.size FMap.size
  simp

theorem combinations_map {α β : Type _} (f : α → β) (l : List α) :
    combinations (l.map f) = (combinations l).map (fun p => (f p.1, f p.2)) := by
  induction l with
  | nil => rfl
  | cons a l ih => simp only [List.map_cons, combinations, ih, List.map_append, List.map_map]; rfl

theorem robust_moved {W : World C} {R : Recon (Iso ℝ)} {T : Iso ℝ} (hT : T.Rigid) (s : ℝ) (g : Iso ℝ → Iso ℝ)
    (obs : List (Nat × Nat)) : areObservationsRobust W (R.mapPoses (fun p => (p.mul T.inv).scale s) g) obs =
      areObservationsRobust W R obs := by
  unfold areObservationsRobust
  rw [mapPoses_size]
  have : poseBearing W (R.mapPoses (fun p => (p.mul T.inv).scale s) g) =
      fun o => (poseBearing W R o).map (fun p => ((p.1.mul T.inv).scale s, p.2)) := by
    funext o; exact poseBearing_mapPoses W R _ g o
  rw [this, mapM_map_option]
  rcases obs.mapM (poseBearing W R) with _ | r
  · rfl
  · simp only [Option.map_some, Option.bind_eq_bind, Option.bind_some, List.map_map]
    congr 2
    have e : ((fun p : Iso ℝ × V3 ℝ => p.1.inv.rot.mulVec p.2) ∘ fun p : Iso ℝ × V3 ℝ => ((p.1.mul T.inv).scale s, p.2)) =
        (fun v => T.rot.mulVec v) ∘ (fun p : Iso ℝ × V3 ℝ => p.1.inv.rot.mulVec p.2) := by
      funext p
      simp only [Function.comp]
      lin3
    rw [e, ← List.map_map, combinations_map, List.any_map]
    congr 1
    funext p
    simp only [Function.comp, angularlyRobust, hT.dot_mulVec]

/-- **C17** Normalising does not change which observations are robust. -/
theorem C17_robust {W : World C} {R R' : Recon (Iso ℝ)} (hR : RigidPoses R) {first : Nat}
    (h : normalizeReconstruction W R first = some R') (obs : List (Nat × Nat)) :
    areObservationsRobust W R' obs = areObservationsRobust W R obs := by
  obtain ⟨V, h1, ⟨rfl, -⟩ | ⟨m, hm, h2, rfl⟩⟩ := normalize_cases h
  · rfl
  · exact robust_moved (hR _ _ h1) _ _ obs

theorem mapM_total {α β : Type _} {f : α → Option β} {l : List α} (h : ∀ a ∈ l, ∃ b, f a = some b) :
    ∃ r, l.mapM f = some r := by
  induction l with
  | nil => exact ⟨[], rfl⟩
  | cons a l ih =>
    obtain ⟨r, hr⟩ := ih (fun a ha => h a (List.mem_cons_of_mem _ ha))
    obtain ⟨b, hb⟩ := h a (by simp)
    exact ⟨b :: r, by simp only [List.mapM_cons, hb, hr]; rfl⟩

/-- Every observation of a landmark exists. -/
theorem observation_exists {W : World C} {R : Recon (Iso ℝ)} (hR : R.Consistent) (hW : FramesComplete W R) {l : Nat}
    {L : Landmark} (hL : R.landmarks.get l = some L) {o : Nat × Nat} (ho : o ∈ L.entries) :
    ∃ V, R.views.get o.1 = some V ∧ (∃ b, W.bearing V.frame o.2 = some b) ∧ ∃ c, W.colour V.frame o.2 = some c := by
  have h1 : L.get o.1 = some o.2 := FMap.get_of_mem (hR.obsWF l L hL) ho
  obtain ⟨V, hV, hf⟩ := (hR.agree o.1 o.2 l).2 ⟨L, hL, h1⟩
  exact ⟨V, hV, hW _ _ _ hV (List.getElem?_eq_some_iff.1 hf).1⟩

theorem triangulateRobust_total {W : World C} {R : Recon (Iso ℝ)} (hR : R.Consistent) (hW : FramesComplete W R) {l : Nat}
    (hl : R.LiveLandmark l) : ∃ x, triangulateRobust W R l = some x := by
  obtain ⟨L, hL⟩ := hl
  obtain ⟨r, hr⟩ : ∃ r, L.entries.mapM (poseBearing W R) = some r := by
    refine mapM_total fun o ho => ?_
    obtain ⟨V, hV, ⟨b, hb⟩, -⟩ := observation_exists hR hW hL ho
    exact ⟨(V.pose, b), by unfold poseBearing; rw [hV]; simp only [Option.bind_eq_bind, Option.bind_some, hb]; rfl⟩
  unfold triangulateRobust areObservationsRobust
  rw [hL]
  simp only [Option.bind_eq_bind, Option.bind_some, hr]
  exact ⟨_, rfl⟩

theorem meanDistance_total {W : World C} {R : Recon (Iso ℝ)} (hR : R.Consistent) (hW : FramesComplete W R) {v : Nat}
    {V : View (Iso ℝ)} (hV : R.views.get v = some V) : ∃ x, meanDistance W R V = some x := by
  obtain ⟨r, hr⟩ : ∃ r, V.landmarks.mapM (triangulateRobust W R) = some r := by
    refine mapM_total fun l hl => triangulateRobust_total hR hW ?_
    obtain ⟨i, hi, rfl⟩ := List.getElem_of_mem hl
    obtain ⟨L, hL, -⟩ := (hR.agree v i V.landmarks[i]).1 ⟨V, hV, List.getElem?_eq_getElem hi⟩
    exact ⟨L, hL⟩
  exact ⟨_, by unfold meanDistance; rw [hr]; rfl⟩

/-- **C17** Normalising never panics on a consistent reconstruction with a view. -/
theorem C17_total {W : World C} {R : Recon (Iso ℝ)} (hR : R.Consistent) (hW : FramesComplete W R) {first : Nat}
    (hfirst : R.LiveView first) : ∃ R', normalizeReconstruction W R first = some R' := by
  obtain ⟨V, hV⟩ := hfirst
  obtain ⟨m, hm⟩ := meanDistance_total hR hW hV
  unfold normalizeReconstruction
  rw [hV]
  simp only [Option.bind_eq_bind, Option.bind_some, hm]
  rcases m with _ | m
  · exact ⟨_, rfl⟩
  · dsimp only
    split <;> exact ⟨_, rfl⟩

theorem smul_norm {s : ℝ} (hs : 0 < s) (x : V3 ℝ) : (V3.smul s x).norm = s * x.norm := by
  unfold V3.norm
  rw [V3.normSq_smul, Real.sqrt_mul (by positivity), Real.sqrt_mul_self hs.le]

/-- The distance from the first camera is multiplied by the scale. -/
theorem distance_moved {T : Iso ℝ} {s : ℝ} (hs : 0 < s) {x y : V4 ℝ} (hy : y.xyz.normSq = 1) (hy' : 0 ≤ y.w)
    (h : toPoint y = (toPoint x).map (fun p => V3.smul s (T.point p))) {d : Option ℝ}
    (hd : distanceFrom T x = some d) {r : ℝ} (hr : d = some r) : distanceFrom Iso.one y = some (some (s * r)) := by
  subst hr
  have e : transform Iso.one y = some y := C34_transform_one ⟨hy, hy'⟩
  unfold distanceFrom at hd ⊢
  rw [e]
  rcases hq : transform T x with _ | q
  · rw [hq] at hd; exact absurd hd (by simp)
  · rw [hq] at hd
    simp only [Option.map_eq_some_iff] at hd
    obtain ⟨z, hz, hzr⟩ := hd
    have hinf := C34_transform_infinity T hq
    have hxw : x.w ≠ 0 := by
      intro h0
      have : q.w = 0 := hinf.1.2 h0
      unfold toPoint at hz
      rw [if_pos this] at hz
      exact absurd hz (by simp)
    obtain ⟨p, hp⟩ : ∃ p, toPoint x = some p := by unfold toPoint; rw [if_neg hxw]; exact ⟨_, rfl⟩
    rw [hp] at h
    have := hinf.2 p z hp hz
    simp only [h, Option.map_some, smul_norm hs, ← this]
    rw [Option.some.inj hzr]

theorem distance_moved_none {T : Iso ℝ} {s : ℝ} {x y : V4 ℝ} (hy : y.xyz.normSq = 1) (hy' : 0 ≤ y.w)
    (h : toPoint y = (toPoint x).map (fun p => V3.smul s (T.point p))) (hd : distanceFrom T x = none) :
    distanceFrom Iso.one y = none := by
  have e : transform Iso.one y = some y := C34_transform_one ⟨hy, hy'⟩
  unfold distanceFrom at hd ⊢
  rw [e]
  rcases hq : transform T x with _ | q
  · rw [hq] at hd; exact absurd hd (by simp)
  · rw [hq] at hd
    simp only [Option.map_eq_none_iff] at hd ⊢
    have hinf := C34_transform_infinity T hq
    have hxw : x.w = 0 := by
      by_contra h0
      have : q.w ≠ 0 := fun h1 => h0 (hinf.1.1 h1)
      unfold toPoint at hd
      rw [if_neg this] at hd
      exact absurd hd (by simp)
    rw [h]
    unfold toPoint
    rw [if_pos hxw]; rfl

theorem distance_zero {T : Iso ℝ} {x : V4 ℝ} {p : V3 ℝ} (hp : toPoint x = some p) (h : T.point p = V3.zero) :
    distanceFrom T x = some none := by
  unfold toPoint at hp
  split at hp
  · exact absurd hp (by simp)
  · rename_i hw
    have hp := Option.some.inj hp
    have e : T.homMul x = V4.smul x.w ⟨(T.point p).x, (T.point p).y, (T.point p).z, 1⟩ := by
      subst hp
      ext <;> simp only [lin] <;> field_simp
    have : transform T x = none := by
      unfold transform
      rw [(C33_from_homogeneous _).1, e, h]
      lin3
    unfold distanceFrom
    rw [this]

/-- The points of the landmarks before and after. -/
theorem triangulate_moved {W : World C} {R : Recon (Iso ℝ)} {T : Iso ℝ} (hT : T.Rigid)
    {s : ℝ} (g : Iso ℝ → Iso ℝ) {l : Nat} (hW : ∀ L r, R.landmarks.get l = some L → L.entries.mapM (poseBearing W R) = some r →
      Follows T s (W.triangulate r) (W.triangulate (r.map (fun p => ((p.1.mul T.inv).scale s, p.2))))) {x : Option (V4 ℝ)} (hx : triangulateRobust W R l = some x) :
    ∃ y, triangulateRobust W (R.mapPoses (fun p => (p.mul T.inv).scale s) g) l = some y ∧
      Follows T s x y := by
  unfold triangulateRobust at hx ⊢
  have hland : (R.mapPoses (fun p => (p.mul T.inv).scale s) g).landmarks = R.landmarks := rfl
  rw [hland]
  simp only [Option.bind_eq_bind, Option.bind_eq_some_iff] at hx
  obtain ⟨L, hL, b, hb, r, hr, h⟩ := hx
  have : poseBearing W (R.mapPoses (fun p => (p.mul T.inv).scale s) g) =
      fun o => (poseBearing W R o).map (fun p => ((p.1.mul T.inv).scale s, p.2)) := by
    funext o; exact poseBearing_mapPoses W R _ g o
  rw [hL]
  simp only [Option.bind_eq_bind, Option.bind_some, robust_moved hT, hb, this, mapM_map_option, hr, Option.map_some]
  refine ⟨_, rfl, ?_⟩
  have h := Option.some.inj h
  subst h
  cases b
  · exact rfl
  · exact hW L r hL hr

/-- **C17** If the triangulator follows the change of the world, the mean distance of robust landmarks from the
first view is one afterwards. -/
theorem C17_unit {W : World C} {R R' : Recon (Iso ℝ)} (hR : RigidPoses R) {first : Nat}
    {V : View (Iso ℝ)} (hV : R.views.get first = some V) {m : ℝ} (hW : TriangulatorFollows W R V (1 / m)) (hm : meanDistance W R V = some (some m)) (h0 : m ≠ 0)
    (h : normalizeReconstruction W R first = some R') :
    ∃ V', R'.views.get first = some V' ∧ meanDistance W R' V' = some (some 1) := by
  obtain ⟨V₁, h1, ⟨-, h2 | h2⟩ | ⟨m', hm', h2, rfl⟩⟩ := normalize_cases h
  · rw [hV] at h1; cases h1; rw [hm] at h2; exact absurd h2 (by simp)
  · rw [hV] at h1; cases h1; rw [hm] at h2; cases h2; exact absurd rfl h0
  · rw [hV] at h1; cases h1; rw [hm] at h2; cases h2
    have hs : 0 < 1 / m := by positivity
    refine ⟨_, by rw [Recon.mapPoses_views, hV]; rfl, ?_⟩
    have hpose : (V.pose.mul V.pose.inv).scale (1 / m) = Iso.one := by
      rw [(hR _ _ hV).mul_inv]; lin3
    unfold meanDistance at hm ⊢
    simp only [Option.bind_eq_bind, Option.bind_eq_some_iff] at hm
    obtain ⟨ps, h3, h4⟩ := hm
    have h4 := Option.some.inj h4
    have hT := hR _ _ hV
    -- the points correspond one by one
    have key : ∀ (ls : List Nat) (ps : List (Option (V4 ℝ))), (∀ l ∈ ls, l ∈ V.landmarks) →
        ls.mapM (triangulateRobust W R) = some ps →
        ∃ qs, ls.mapM (triangulateRobust W (R.mapPoses (fun p => (p.mul V.pose.inv).scale (1 / m))
          (fun p => p.scale (1 / m)))) = some qs ∧
        ∀ r : List ℝ, (ps.filterMap id).filterMap (distanceFrom V.pose) = r.map some →
          (qs.filterMap id).filterMap (distanceFrom Iso.one) = (r.map (fun x => 1 / m * x)).map some := by
      intro ls
      induction ls with
      | nil =>
        intro ps _ h
        cases h
        refine ⟨[], rfl, fun r hr => ?_⟩
        have : r = [] := by simpa using hr.symm
        subst this; rfl
      | cons l ls ih =>
        intro ps hmem h
        simp only [List.mapM_cons, Option.bind_eq_bind, Option.bind_eq_some_iff] at h
        obtain ⟨x, hx, ps', hps, h⟩ := h
        cases h
        obtain ⟨qs, hqs, hq⟩ := ih ps' (fun l hl => hmem l (List.mem_cons_of_mem _ hl)) hps
        obtain ⟨y, hy, hxy⟩ := triangulate_moved hT (fun p => p.scale (1 / m)) (hW l (hmem l (by simp))) hx
        refine ⟨y :: qs, by simp only [List.mapM_cons, hy, hqs]; rfl, fun r hr => ?_⟩
        rcases x with _ | x
        · cases hxy
          exact hq r hr
        · rcases hxy with ⟨p, hp, hzero⟩ | ⟨y, rfl, n1, n2, n3⟩
          · exfalso
            simp only [List.filterMap_cons, id, distance_zero hp hzero] at hr
            rcases r with _ | ⟨a, r⟩ <;> exact absurd hr (by simp)
          simp only [List.filterMap_cons, id] at hr ⊢
          rcases hd : distanceFrom V.pose x with _ | d
          · rw [hd] at hr
            rw [distance_moved_none n1 n2 n3 hd]
            exact hq r hr
          · rw [hd] at hr
            rcases r with _ | ⟨a, r⟩
            · exact absurd hr (by simp)
            · simp only [List.map_cons, List.cons.injEq] at hr
              rw [distance_moved hs n1 n2 n3 hd hr.1]
              exact congrArg (List.cons _) (hq r hr.2)
    obtain ⟨qs, h5, h6⟩ := key V.landmarks ps (fun _ h => h) h3
    unfold meanOf at h4
    split at h4
    · exact absurd h4 (by simp)
    · rename_i hne
      rw [Option.map_eq_some_iff] at h4
      obtain ⟨r, h7, h8⟩ := h4
      have h9 := mapM_id_some h7
      simp only [Option.bind_eq_bind, h5, Option.bind_some, hpose]
      have hr : r ≠ [] := by
        rintro rfl
        exact hne (by simpa using h9)
      rw [h6 r h9]
      unfold meanOf
      rw [if_neg (by simpa using hr), mapM_id_map]
      simp only [Option.map_some, List.length_map]
      have hmul : ∀ (c : ℝ) (r : List ℝ), (r.map (fun x => c * x)).sum = c * r.sum := by
        intro c r
        induction r with
        | nil => simp
        | cons a r ih => simp only [List.map_cons, List.sum_cons, ih]; ring
      rw [hmul]
      have hlen : (r.length : ℝ) ≠ 0 := by
        simpa using hr
      congr 2
      rw [← h8]
      have hsum : r.sum ≠ 0 := by
        intro h10
        rw [h10] at h8
        exact h0 (by rw [← h8]; simp)
      field_simp

end Verif.Sfm
