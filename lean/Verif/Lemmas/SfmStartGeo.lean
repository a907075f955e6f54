import Verif.Spec.SfmStartGeo
import Verif.Lemmas.SfmStart
import Verif.Lemmas.SfmExact
import Verif.Props.Residual

/-! Helper lemmas: the start of a reconstruction from exact data. -/

namespace Verif.Sfm

open Verif.Geo

variable {C : Type} {W : World C} {sc : Scene}

theorem motion_scale (a b : Nat) (k : ℝ) : (sc.motion a b).scale k = sc.viewed (sc.pose a).inv k b := rfl

theorem motion_self (hr : ∀ f, (sc.pose f).Rigid) (a : Nat) (k : ℝ) : sc.viewed (sc.pose a).inv k a = Iso.one := by
  unfold Scene.viewed
  rw [(hr a).mul_inv]
  lin3

theorem viewed_ray (g : Iso ℝ) (k : ℝ) (f : Nat) (b : V3 ℝ) :
    (sc.viewed g k f).inv.rot.mulVec b = g.rot.transpose.mulVec (sc.ray f b) := by
  unfold Scene.viewed Scene.ray
  lin3

theorem mulVec_ne {A : M3 ℝ} (h : A.IsRot) {v : V3 ℝ} (hv : v ≠ V3.zero) : A.mulVec v ≠ V3.zero := by
  intro e
  apply hv
  have : A.transpose.mulVec (A.mulVec v) = v := by rw [M3.mulVec_mulVec, h.orth, M3.one_mulVec]
  rw [← this, e, M3.mulVec_zero]

/-- The point of a scene in the space of camera `c`, with another unit. -/
noncomputable def Scene.local (sc : Scene) (c : Nat) (k : ℝ) (x : V3 ℝ) : V3 ℝ :=
  V3.smul k ((sc.pose c).inv.inv.point x)

theorem looks_local (hsc : sc.Seen W) {k : ℝ} (hk : 0 < k) (c : Nat) {f n : Nat} {b : V3 ℝ} (hb : W.bearing f n = some b) :
    Looks (sc.viewed (sc.pose c).inv k f) b (sc.local c k (sc.point f n)) :=
  looks_viewed hk (hsc.rigid c).inv (hsc.looks f n b hb)

theorem looks_one (hsc : sc.Seen W) {k : ℝ} (hk : 0 < k) {c n : Nat} {b : V3 ℝ} (hb : W.bearing c n = some b) :
    Looks Iso.one b (sc.local c k (sc.point c n)) := by
  have := looks_local hsc hk c hb
  rwa [motion_self hsc.rigid] at this

theorem looks_one_eq {b x : V3 ℝ} (h : Looks Iso.one b x) : ∃ d > 0, x = V3.smul d b := by
  obtain ⟨_, d, hd, e⟩ := h
  refine ⟨d, hd, ?_⟩
  rw [← e]
  lin3

theorem looks_one_ne {b x : V3 ℝ} (h : Looks Iso.one b x) : x ≠ V3.zero := by
  intro e
  obtain ⟨d, hd, e'⟩ := looks_one_eq h
  have h1 : x.normSq = d * d * b.normSq := by rw [e', V3.normSq_smul]
  rw [h.1, e] at h1
  have : (V3.zero : V3 ℝ).normSq = 0 := by simp only [lin]; norm_num
  rw [this] at h1
  nlinarith

theorem fromPoint_some {x : V3 ℝ} (h : x ≠ V3.zero) : ∃ p, fromPoint x = some p ∧ fromHomogeneous p = some p ∧
    toPoint p = some x := by
  obtain ⟨q, h1, h2, _⟩ := C33_round_trip x h
  exact ⟨q, h1, fromHomogeneous_normal (normal_of_some h1), h2⟩

theorem one_ray (b : V3 ℝ) : (Iso.one : Iso ℝ).inv.rot.mulVec b = b := by lin3

theorem own_ray (hr : ∀ f, (sc.pose f).Rigid) (c : Nat) (b : V3 ℝ) : b = (sc.pose c).inv.rot.transpose.mulVec (sc.ray c b) := by
  rw [← viewed_ray (sc := sc) (sc.pose c).inv 1 c b, motion_self hr, one_ray]

/-- Three features that show one point, in the space of the first camera and with the unit `k`. -/
structure Shown (sc : Scene) (W : World C) (c f g : Nat) (t : Tri) (o : Bearings) : Prop where
  center : W.bearing c t.1 = some o.center
  first : W.bearing f t.2.1 = some o.first
  second : W.bearing g t.2.2 = some o.second
  same1 : sc.Same c t.1 f t.2.1
  same2 : sc.Same c t.1 g t.2.2

theorem triBearings_iff {c f g : Nat} {t : Tri} {o : Bearings} : triBearings W c f g t = some o ↔
    W.bearing c t.1 = some o.center ∧ W.bearing f t.2.1 = some o.first ∧ W.bearing g t.2.2 = some o.second := by
  unfold triBearings
  cases h1 : W.bearing c t.1 with
  | none => simp
  | some x =>
    cases h2 : W.bearing f t.2.1 with
    | none => simp
    | some y =>
      cases h3 : W.bearing g t.2.2 with
      | none => simp
      | some z =>
        obtain ⟨a, b, c⟩ := o
        simp

/-- An exact pair of observations. -/
theorem exactlySeen_pair (hsc : sc.Seen W) {k : ℝ} (hk : 0 < k) {c f i j : Nat} {u v : V3 ℝ} (hu : W.bearing c i = some u)
    (hv : W.bearing f j = some v) (hs : sc.Same c i f j) (hn : (sc.ray c u).cross (sc.ray f v) ≠ V3.zero) :
    ExactlySeen [(Iso.one, u), (sc.viewed (sc.pose c).inv k f, v)] (sc.local c k (sc.point c i)) := by
  have h1 := looks_one hsc hk hu
  have h2 := looks_local hsc hk c hv
  rw [show sc.point f j = sc.point c i from hs.symm] at h2
  refine ⟨?_, ?_, looks_one_ne h1, (Iso.one, u), by simp, (sc.viewed (sc.pose c).inv k f, v), by simp, ?_⟩
  · intro o ho
    simp only [List.mem_cons, List.not_mem_nil, or_false] at ho
    rcases ho with rfl | rfl
    · exact Iso.Rigid.one
    · exact Scene.viewed_rigid hsc.rigid (hsc.rigid c).inv k f
  · intro o ho
    simp only [List.mem_cons, List.not_mem_nil, or_false] at ho
    rcases ho with rfl | rfl
    · exact h1
    · exact h2
  · show ((Iso.one : Iso ℝ).inv.rot.mulVec u).cross ((sc.viewed (sc.pose c).inv k f).inv.rot.mulVec v) ≠ V3.zero
    have hR : (sc.pose c).inv.rot.transpose.IsRot := M3.IsRot.transpose (hsc.rigid c).inv
    rw [one_ray, viewed_ray]
    conv_lhs => rw [own_ray hsc.rigid c u]
    rw [hR.cross_mulVec]
    exact mulVec_ne hR hn

/-- The point found from an exact pair. -/
theorem relative_point (hsc : sc.Seen W) (htri : ExactTriangulator W.triangulate) {k : ℝ} (hk : 0 < k) {c f i j : Nat}
    {u v : V3 ℝ} (hu : W.bearing c i = some u) (hv : W.bearing f j = some v) (hs : sc.Same c i f j)
    (hn : (sc.ray c u).cross (sc.ray f v) ≠ V3.zero) {y : V3 ℝ}
    (h : (relativeOf W.tri (sc.viewed (sc.pose c).inv k f) u v >>= toPoint) = some y) :
    y = sc.local c k (sc.point c i) := by
  have hx := exactlySeen_pair hsc hk hu hv hs hn
  obtain ⟨p, h1, h2, h3⟩ := fromPoint_some hx.origin
  unfold relativeOf toCamera World.tri at h
  simp only [List.map_cons, List.map_nil] at h
  cases ht : W.triangulate [(Iso.one, u), (sc.viewed (sc.pose c).inv k f, v)] with
  | none => rw [ht] at h; simp at h
  | some q =>
    have := htri _ _ _ hx ht
    rw [h1] at this
    cases this
    rw [ht] at h
    simp only [Option.bind_eq_bind, Option.bind_some, h2, h3, Option.some.injEq] at h
    exact h.symm

/-- Each ratio is the square of the ratio of the units. -/
theorem ratio_exact (hsc : sc.Seen W) (htri : ExactTriangulator W.triangulate) {a b : ℝ} (ha : 0 < a) (hb : 0 < b)
    {c f g : Nat} {t : Tri} {o : Bearings} (ho : Shown sc W c f g t o)
    (hp1 : sc.Parallax W c f) (hp2 : sc.Parallax W c g) {r : ℝ}
    (h : relativeScale W (sc.viewed (sc.pose c).inv a f) (sc.viewed (sc.pose c).inv b g) o = some r) :
    r = (a / b) * (a / b) := by
  unfold relativeScale at h
  simp only [Option.bind_eq_bind, Option.bind_eq_some_iff] at h
  obtain ⟨fp, h1, sp, h2, q, h3, h4⟩ := h
  have e1 := relative_point hsc htri ha ho.center ho.first ho.same1 (hp1 _ _ _ _ ho.same1 ho.center ho.first) (y := fp)
    (by simpa [Option.bind_eq_some_iff] using h1)
  have e2 := relative_point hsc htri hb ho.center ho.second ho.same2 (hp2 _ _ _ _ ho.same2 ho.center ho.second) (y := sp)
    (by simpa [Option.bind_eq_some_iff] using h2)
  subst e1 e2
  have hne := looks_one_ne (looks_one hsc one_pos ho.center)
  unfold Scene.local at hne h3
  generalize (sc.pose c).inv.inv.point (sc.point c t.1) = x at hne h3
  have hx : x.normSq ≠ 0 := by
    intro e
    rw [V3.normSq_eq_zero] at e
    subst e
    exact hne (by lin3)
  unfold cdiv at h3
  rw [V3.normSq_smul, V3.normSq_smul] at h3
  have hbx : b * b * x.normSq ≠ 0 := mul_ne_zero (mul_ne_zero hb.ne' hb.ne') hx
  rw [if_neg hbx] at h3
  cases h3
  split at h4
  · cases h4
  · cases h4
    field_simp

theorem unit_dot_lt {u v : V3 ℝ} (hu : u.normSq = 1) (hv : v.normSq = 1) (h : u.cross v ≠ V3.zero) : u.dot v < 1 := by
  have hl : (u.cross v).normSq = u.normSq * v.normSq - u.dot v * u.dot v := by
    simp only [lin]
    ring
  have hp : 0 < (u.cross v).normSq :=
    lt_of_le_of_ne (V3.normSq_nonneg _) (fun e => h (V3.normSq_eq_zero.mp e.symm))
  rw [hl, hu, hv] at hp
  by_contra hc
  have : 1 ≤ u.dot v := not_lt.mp hc
  nlinarith

/-- An exact pair gives its point if the two directions are at most 90 degrees apart. -/
theorem relative_found (hsc : sc.Seen W) (hfind : CompleteTriangulator W.triangulate) {k : ℝ} (hk : 0 < k) {c f i j : Nat}
    {u v : V3 ℝ} (hu : W.bearing c i = some u) (hv : W.bearing f j = some v) (hs : sc.Same c i f j)
    (hn : (sc.ray c u).cross (sc.ray f v) ≠ V3.zero) (hd : 0 ≤ (sc.ray c u).dot (sc.ray f v)) :
    (relativeOf W.tri (sc.viewed (sc.pose c).inv k f) u v >>= toPoint) = some (sc.local c k (sc.point c i)) := by
  have hx := exactlySeen_pair hsc hk hu hv hs hn
  obtain ⟨p, h1, h2, h3⟩ := fromPoint_some hx.origin
  obtain ⟨e, he, hxe⟩ := looks_one_eq (looks_one hsc hk hu)
  have hu1 : u.normSq = 1 := (hsc.looks _ _ _ hu).1
  have hR : (sc.pose c).inv.rot.transpose.IsRot := M3.IsRot.transpose (hsc.rigid c).inv
  have ht : W.triangulate [(Iso.one, u), (sc.viewed (sc.pose c).inv k f, v)] = some p := by
    rw [← h1]
    refine hfind _ _ hx (fun o ho => ?_)
    have hdot : ∀ w : V3 ℝ, w.dot (sc.local c k (sc.point c i)) = e * w.dot u := by
      intro w
      rw [hxe]
      simp only [lin]
      ring
    rw [hdot]
    refine mul_nonneg he.le ?_
    simp only [List.mem_cons, List.not_mem_nil, or_false] at ho
    rcases ho with rfl | rfl
    · show 0 ≤ ((Iso.one : Iso ℝ).inv.rot.mulVec u).dot u
      rw [one_ray]
      show 0 ≤ u.normSq
      rw [hu1]
      exact zero_le_one
    · show 0 ≤ ((sc.viewed (sc.pose c).inv k f).inv.rot.mulVec v).dot u
      rw [viewed_ray]
      conv_rhs => arg 2; rw [own_ray hsc.rigid c u]
      rw [hR.dot_mulVec, V3.dot_comm]
      exact hd
  unfold relativeOf toCamera World.tri
  simp only [List.map_cons, List.map_nil, ht, Option.bind_eq_bind, Option.bind_some, h2, h3]

/-- Each common match that can be seen gives a ratio. -/
theorem ratio_complete (hsc : sc.Seen W) (hfind : CompleteTriangulator W.triangulate) {a b : ℝ} (ha : 0 < a) (hb : 0 < b)
    {c f g : Nat} {t : Tri} {o : Bearings} (ho : Shown sc W c f g t o)
    (hp1 : sc.Parallax W c f) (hp2 : sc.Parallax W c g) (hn1 : sc.Narrow W c f) (hn2 : sc.Narrow W c g) :
    relativeScale W (sc.viewed (sc.pose c).inv a f) (sc.viewed (sc.pose c).inv b g) o = some ((a / b) * (a / b)) := by
  have e1 := relative_found hsc hfind ha ho.center ho.first ho.same1 (hp1 _ _ _ _ ho.same1 ho.center ho.first)
    (hn1 _ _ _ _ ho.same1 ho.center ho.first)
  have e2 := relative_found hsc hfind hb ho.center ho.second ho.same2 (hp2 _ _ _ _ ho.same2 ho.center ho.second)
    (hn2 _ _ _ _ ho.same2 ho.center ho.second)
  unfold relativeScale
  rw [e1, e2]
  have hne := looks_one_ne (looks_one hsc one_pos ho.center)
  unfold Scene.local at hne ⊢
  generalize (sc.pose c).inv.inv.point (sc.point c t.1) = x at hne ⊢
  have hx : x.normSq ≠ 0 := by
    intro e
    rw [V3.normSq_eq_zero] at e
    subst e
    exact hne (by lin3)
  have hbx : b * b * x.normSq ≠ 0 := mul_ne_zero (mul_ne_zero hb.ne' hb.ne') hx
  have hax : a * a * x.normSq ≠ 0 := mul_ne_zero (mul_ne_zero ha.ne' ha.ne') hx
  simp only [Option.bind_eq_bind, Option.bind_some, V3.normSq_smul, cdiv, if_neg hbx]
  rw [if_neg (div_ne_zero hax hbx)]
  show some _ = some _
  congr 1
  field_simp

theorem sqrt_unit {a b : ℝ} (ha : 0 < a) (hb : 0 < b) : Real.sqrt ((a / b) * (a / b)) = a / b :=
  Real.sqrt_mul_self (div_pos ha hb).le

/-- The second motion in the unit of the first. -/
theorem rescaled {a b : ℝ} (ha : 0 < a) (hb : 0 < b) (g : Iso ℝ) (f : Nat) :
    (sc.viewed g b f).scale (Real.sqrt ((a / b) * (a / b))) = sc.viewed g a f := by
  rw [sqrt_unit ha hb]
  unfold Scene.viewed
  generalize (sc.pose f).mul g = m
  have h : (m.scale b).scale (a / b) = m.scale (a / b * b) := by lin3
  rw [h, div_mul_cancel₀ _ hb.ne']

/-- The true motions fit. -/
theorem fits_start (hsc : sc.Seen W) {k : ℝ} (hk : 0 < k) {c f g : Nat} {t : Tri} {o : Bearings}
    (ho : Shown sc W c f g t o) :
    FitsThree (sc.viewed (sc.pose c).inv k f, sc.viewed (sc.pose c).inv k g) o := by
  refine ⟨sc.local c k (sc.point c t.1), looks_one hsc hk ho.center, ?_, ?_⟩
  · have := looks_local hsc hk c ho.first
    rwa [show sc.point f t.2.1 = sc.point c t.1 from ho.same1.symm] at this
  · have := looks_local hsc hk c ho.second
    rwa [show sc.point g t.2.2 = sc.point c t.1 from ho.same2.symm] at this

/-- A median of equal values is that value; more generally, of values more than half of which are equal. -/
theorem median_majority {S : Type} [LinearOrder S] {m r : S} {l : List S} (h : IsMedian m l)
    (hr : l.length < 2 * (l.filter (fun x => x = r)).length) : m = r := by
  obtain ⟨_, h1, h2⟩ := h
  rcases lt_trichotomy m r with hlt | rfl | hlt
  · have : (l.filter (fun x => x = r)).length ≤ (l.filter (fun x => m < x)).length := by
      apply List.Sublist.length_le
      apply List.monotone_filter_right
      intro x hx
      simp only [decide_eq_true_eq] at hx ⊢
      exact hx ▸ hlt
    omega
  · rfl
  · have : (l.filter (fun x => x = r)).length ≤ (l.filter (fun x => x < m)).length := by
      apply List.Sublist.length_le
      apply List.monotone_filter_right
      intro x hx
      simp only [decide_eq_true_eq] at hx ⊢
      exact hx ▸ hlt
    omega

theorem median_const {S : Type} [LinearOrder S] {m r : S} {l : List S} (h : IsMedian m l) (hr : ∀ x ∈ l, x = r) : m = r :=
  hr m h.1

/-! ## The test of a match -/

theorem cross_ne_of_dot {u v : V3 ℝ} (hu : u.normSq = 1) (hv : v.normSq = 1) (h1 : u.dot v < 1) (h2 : -1 < u.dot v) :
    u.cross v ≠ V3.zero := by
  intro e
  have h := V3.lagrange u v
  rw [e, hu, hv] at h
  have : (V3.zero : V3 ℝ).normSq = 0 := by simp only [lin]; norm_num
  rw [this] at h
  nlinarith

/-- Of three directions, two of which are different and none of which is opposite to the first, two are not parallel. -/
theorem some_across {u v w : V3 ℝ} (hu : u.normSq = 1) (hv : v.normSq = 1) (hw : w.normSq = 1) (h1 : 0 ≤ u.dot v)
    (h2 : 0 ≤ u.dot w) (h : u.dot v < 1 ∨ u.dot w < 1 ∨ v.dot w < 1) :
    u.cross v ≠ V3.zero ∨ u.cross w ≠ V3.zero ∨ v.cross w ≠ V3.zero := by
  rcases h with h | h | h
  · exact Or.inl (cross_ne_of_dot hu hv h (by linarith))
  · exact Or.inr (Or.inl (cross_ne_of_dot hu hw h (by linarith)))
  · by_cases hm : v.dot w = -1
    · left
      have e := unit_dot_neg_one hv hw hm
      refine cross_ne_of_dot hu hv ?_ (by linarith)
      have : u.dot v = - u.dot w := by
        rw [e]; simp only [lin]; ring
      linarith
    · exact Or.inr (Or.inr (cross_ne_of_dot hv hw h (lt_of_le_of_ne (unit_dot_range hv hw).1 (Ne.symm hm))))

theorem ray_unit (hr : ∀ f, (sc.pose f).Rigid) (f : Nat) {b : V3 ℝ} (hb : b.normSq = 1) : (sc.ray f b).normSq = 1 := by
  unfold Scene.ray
  have hR : (sc.pose f).inv.rot.IsRot := (hr f).inv
  rw [hR.normSq_mulVec, hb]

theorem cosine_exact {pose : Iso ℝ} {p : V4 ℝ} {b x : V3 ℝ} (hp : fromPoint x = some p) (hx : toPoint p = some x)
    (h : Looks pose b x) : cosineDistance p (pose, b) = some 0 := by
  obtain ⟨hb, d, hd, e⟩ := h
  obtain ⟨q, h1, h2⟩ := sight_term hb hd.ne' e
  unfold cosineDistance
  rw [transform_position (normal_of_some hp) hx, h1]
  simp only [Option.map_some, Option.some.injEq]
  rw [V3.dot_comm, h2, if_neg (not_lt.mpr hd.le)]
  ring

/-- With the true motions the test asks for nothing but different directions. -/
theorem tri_robust (hsc : sc.Seen W) (hfind : CompleteTriangulator W.triangulate) {k : ℝ} (hk : 0 < k) {c f g : Nat}
    {t : Tri} {o : Bearings} (ho : Shown sc W c f g t o) (hn1 : sc.Narrow W c f) (hn2 : sc.Narrow W c g)
    {maxCosine minCosine : ℝ} (hmax : 0 < maxCosine) (hmin : 0 ≤ minCosine) :
    triLandmarkRobust W (sc.viewed (sc.pose c).inv k f) (sc.viewed (sc.pose c).inv k g) o.center o.first o.second
      maxCosine minCosine = true ↔
    (1 - (sc.ray c o.center).dot (sc.ray f o.first) > minCosine ∨
      1 - (sc.ray c o.center).dot (sc.ray g o.second) > minCosine ∨
      1 - (sc.ray f o.first).dot (sc.ray g o.second) > minCosine) := by
  have hR : (sc.pose c).inv.rot.transpose.IsRot := M3.IsRot.transpose (hsc.rigid c).inv
  have r0 := own_ray hsc.rigid c o.center
  have r1 := viewed_ray (sc := sc) (sc.pose c).inv k f o.first
  have r2 := viewed_ray (sc := sc) (sc.pose c).inv k g o.second
  have d1 : o.center.dot ((sc.viewed (sc.pose c).inv k f).inv.rot.mulVec o.first) =
      (sc.ray c o.center).dot (sc.ray f o.first) := by
    rw [r1]; conv_lhs => rw [r0]
    rw [hR.dot_mulVec]
  have d2 : o.center.dot ((sc.viewed (sc.pose c).inv k g).inv.rot.mulVec o.second) =
      (sc.ray c o.center).dot (sc.ray g o.second) := by
    rw [r2]; conv_lhs => rw [r0]
    rw [hR.dot_mulVec]
  have d3 : ((sc.viewed (sc.pose c).inv k f).inv.rot.mulVec o.first).dot
      ((sc.viewed (sc.pose c).inv k g).inv.rot.mulVec o.second) = (sc.ray f o.first).dot (sc.ray g o.second) := by
    rw [r1, r2, hR.dot_mulVec]
  unfold triLandmarkRobust
  simp only [d1, d2, d3]
  constructor
  · intro h
    split at h
    · cases h
    · simp only [Bool.and_eq_true, Bool.or_eq_true, decide_eq_true_eq] at h
      rcases h.2 with (h | h) | h
      · exact Or.inl h
      · exact Or.inr (Or.inl h)
      · exact Or.inr (Or.inr h)
  · intro hinc
    have l0 := looks_one hsc hk ho.center
    have l1 := looks_local hsc hk c ho.first
    rw [show sc.point f t.2.1 = sc.point c t.1 from ho.same1.symm] at l1
    have l2 := looks_local hsc hk c ho.second
    rw [show sc.point g t.2.2 = sc.point c t.1 from ho.same2.symm] at l2
    have u0 := ray_unit hsc.rigid c l0.1
    have u1 := ray_unit hsc.rigid f l1.1
    have u2 := ray_unit hsc.rigid g l2.1
    have n1 := hn1 _ _ _ _ ho.same1 ho.center ho.first
    have n2 := hn2 _ _ _ _ ho.same2 ho.center ho.second
    have hac := some_across u0 u1 u2 n1 n2 (by
      rcases hinc with h | h | h
      · left; linarith
      · right; left; linarith
      · right; right; linarith)
    have hx : ExactlySeen [(Iso.one, o.center), (sc.viewed (sc.pose c).inv k f, o.first),
        (sc.viewed (sc.pose c).inv k g, o.second)] (sc.local c k (sc.point c t.1)) := by
      refine ⟨?_, ?_, looks_one_ne l0, ?_⟩
      · intro x hx
        simp only [List.mem_cons, List.not_mem_nil, or_false] at hx
        rcases hx with rfl | rfl | rfl
        · exact Iso.Rigid.one
        · exact Scene.viewed_rigid hsc.rigid (hsc.rigid c).inv k f
        · exact Scene.viewed_rigid hsc.rigid (hsc.rigid c).inv k g
      · intro x hx
        simp only [List.mem_cons, List.not_mem_nil, or_false] at hx
        rcases hx with rfl | rfl | rfl
        · exact l0
        · exact l1
        · exact l2
      · rcases hac with h | h | h
        · refine ⟨(Iso.one, o.center), by simp, (sc.viewed (sc.pose c).inv k f, o.first), by simp, ?_⟩
          show ((Iso.one : Iso ℝ).inv.rot.mulVec o.center).cross _ ≠ _
          rw [one_ray, r1]
          conv_lhs => rw [r0]
          rw [hR.cross_mulVec]
          exact mulVec_ne hR h
        · refine ⟨(Iso.one, o.center), by simp, (sc.viewed (sc.pose c).inv k g, o.second), by simp, ?_⟩
          show ((Iso.one : Iso ℝ).inv.rot.mulVec o.center).cross _ ≠ _
          rw [one_ray, r2]
          conv_lhs => rw [r0]
          rw [hR.cross_mulVec]
          exact mulVec_ne hR h
        · refine ⟨(sc.viewed (sc.pose c).inv k f, o.first), by simp, (sc.viewed (sc.pose c).inv k g, o.second), by simp, ?_⟩
          rw [r1, r2, hR.cross_mulVec]
          exact mulVec_ne hR h
    obtain ⟨d, hd, ex⟩ := looks_one_eq l0
    have hf := hfind _ _ hx (by
      intro x hx
      rw [ex]
      have hpos : ∀ v : V3 ℝ, 0 ≤ v.dot o.center → 0 ≤ v.dot (V3.smul d o.center) := by
        intro v hv
        have : v.dot (V3.smul d o.center) = d * v.dot o.center := by simp only [lin]; ring
        rw [this]
        positivity
      apply hpos
      simp only [List.mem_cons, List.not_mem_nil, or_false] at hx
      rcases hx with rfl | rfl | rfl
      · rw [one_ray, V3.dot_self]
        exact V3.normSq_nonneg _
      · rw [V3.dot_comm, d1]
        exact n1
      · rw [V3.dot_comm, d2]
        exact n2)
    obtain ⟨p, p1, p2, p3⟩ := fromPoint_some hx.origin
    have hto : toCamera W.tri o.center [⟨sc.viewed (sc.pose c).inv k f, o.first⟩,
        ⟨sc.viewed (sc.pose c).inv k g, o.second⟩] = some p := by
      unfold toCamera World.tri
      simp only [List.map_cons, List.map_nil]
      rw [hf, p1]
      exact p2
    rw [hto]
    have c0 := cosine_exact p1 p3 l0
    have c1 := cosine_exact p1 p3 l1
    have c2 := cosine_exact p1 p3 l2
    simp only [c1, c2]
    unfold cosineDistance at c0
    rw [C34_transform_one (normal_of_some p1)] at c0
    simp only [Option.map_some, Option.some.injEq] at c0
    simp only [c0, hmax, decide_true, Bool.and_self, Bool.true_and, Bool.or_eq_true, decide_eq_true_eq]
    rcases hinc with h | h | h
    · exact Or.inl (Or.inl h)
    · exact Or.inl (Or.inr h)
    · exact Or.inr h

end Verif.Sfm
