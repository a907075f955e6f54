import Verif.Props.SfmPipelineExample

/-!
# C93: a frame that is placed

The cameras stand on a line and look across it; frame `f` is taken at `f` on the second axis. Four points, two of them
in one direction from frame 3, the other two in another. The reconstruction has the frames 0, 1 and 2.
-/

namespace Verif.Sfm.ExPlace

open Verif.Geo

noncomputable section

/-- The four points. -/
def place (n : Nat) : V3 ℝ :=
  match n with
  | 0 => ⟨0, 3, 1⟩
  | 1 => ⟨0, 3, 2⟩
  | 2 => ⟨1, 3, 1⟩
  | _ => ⟨2, 3, 2⟩

def at' (f : Nat) : Iso ℝ := ⟨M3.one, ⟨0, -f, 0⟩⟩

def scene : Scene := ⟨at', fun _ n => place n⟩

theorem place_y (n : Nat) : (place n).y = 3 := by
  unfold place
  split <;> rfl

theorem place_z (n : Nat) : 0 < (place n).z := by
  unfold place
  split <;> norm_num

/-- A bearing before it is given unit length. -/
def raw (f n : Nat) : V3 ℝ := ⟨(place n).x, 3 - f, (place n).z⟩

def size (f n : Nat) : ℝ := (raw f n).norm

theorem size_pos (f n : Nat) : 0 < size f n := by
  apply V3.norm_pos
  intro h
  have := congrArg V3.z h
  simp only [raw, V3.zero] at this
  exact absurd this (place_z n).ne'

def unit (f n : Nat) : V3 ℝ := V3.smul (1 / size f n) (raw f n)

theorem unit_norm (f n : Nat) : (unit f n).normSq = 1 := by
  unfold unit
  rw [V3.normSq_smul, ← V3.norm_mul_self]
  have := (size_pos f n).ne'
  unfold size at *
  field_simp

def world : World Nat where
  bearing f n := some (unit f n)
  colour _ _ := some 0
  triangulate := ExStart.triangulate
  minObservations := 3
  minCosine := 0

theorem rigid (f : Nat) : (at' f).Rigid := M3.IsRot.one

theorem looks (f n : Nat) : Looks (at' f) (unit f n) (place n) := by
  refine ⟨unit_norm f n, size f n, size_pos f n, ?_⟩
  have := (size_pos f n).ne'
  have hy := place_y n
  simp only [unit, raw, at']
  ext <;> simp only [lin] <;> field_simp <;> linarith

theorem seen : scene.Seen world := by
  refine ⟨rigid, ?_, ?_⟩
  · intro f n b h
    cases h
    exact looks f n
  · intro f g hfg h
    have hy := congrArg V3.y h
    simp only [centre, scene, at', lin] at hy
    exact hfg (by exact_mod_cast (by linarith : (f : ℝ) = g))

theorem ray_eq (f : Nat) (b : V3 ℝ) : scene.ray f b = b := by
  simp only [Scene.ray, scene, at']
  ext <;> simp only [lin] <;> ring

theorem cross_ne {a b i j : Nat} (h : a ≠ b) (hp : place i = place j) : (unit a i).cross (unit b j) ≠ V3.zero := by
  intro e
  have := congrArg V3.x e
  simp only [unit, raw, lin, hp] at this
  have h0 := (size_pos a i).ne'
  have h1 := (size_pos b j).ne'
  have h2 := (place_z j).ne'
  field_simp at this
  rw [mul_zero] at this
  have := (mul_eq_zero.mp this).resolve_left h2
  exact h (by exact_mod_cast (by linarith : (a : ℝ) = b))

theorem pictured : scene.Pictured world := by
  refine ⟨seen, fun _ _ => ⟨_, rfl⟩, ?_, ExStart.sound, le_refl (0 : ℝ)⟩
  intro a b h i j u v hs hu hv
  cases hu
  cases hv
  rw [ray_eq, ray_eq]
  exact cross_ne h hs

theorem completeTri : CompleteTriangulator world.triangulate := fun _ _ h _ => ExStart.triangulate_exact h

theorem facing {f : Nat} (hf : f ≤ 3) : scene.Facing world Iso.one f := by
  intro n b h
  cases h
  rw [ray_eq]
  have hz := place_z n
  have hy := place_y n
  have hs := size_pos f n
  have hf' : (f : ℝ) ≤ 3 := by exact_mod_cast hf
  have e : (unit f n).dot ((scene.point f n).sub Iso.one.t) =
      1 / size f n * ((place n).x * (place n).x + (3 - f) * 3 + (place n).z * (place n).z) := by
    simp only [unit, raw, scene, lin, hy]
    ring
  rw [e]
  refine mul_nonneg (by positivity) ?_
  nlinarith [mul_self_nonneg (place n).x, mul_self_nonneg (place n).z]

/-! ## The pose is determined by the four points -/

/-- A camera that fits a point looks at it. -/
theorem looks_of_fits {q : Iso ℝ} {b x : V3 ℝ} {p : V4 ℝ} (hp : fromPoint x = some p) (h : Geo.Fits q (b, p)) :
    ∃ d > 0, q.point x = V3.smul d b := by
  obtain ⟨p', h1, _, h3⟩ := fromPoint_some (fromPoint_ne hp)
  rw [hp] at h1
  cases h1
  unfold Geo.Fits at h
  simp only at h
  rw [transform_position (normal_of_some hp) h3] at h
  obtain ⟨z, hz, rfl⟩ := Option.map_eq_some_iff.mp h
  have hne := V3.norm_pos (fromPoint_ne hz)
  refine ⟨(q.point x).norm, hne, ?_⟩
  unfold fromPoint fromHomogeneous at hz
  have h0 : ¬ (1 : ℝ) < 0 := by norm_num
  simp only [h0, if_false] at hz
  split at hz
  · cases hz
  · have e : (⟨(q.point x).x, (q.point x).y, (q.point x).z, 1⟩ : V4 ℝ).xyz = q.point x := rfl
    rw [e] at hz
    cases hz
    generalize q.point x = y at hne
    ext <;> simp only [bearing, lin] <;> field_simp

theorem pose_unique {q : Iso ℝ} (hq : q.Rigid)
    (h : ∀ n, n < 4 → ∃ d > 0, q.point (place n) = V3.smul d (unit 3 n)) : q = at' 3 := by
  have h' : ∀ n, n < 4 → ∃ e > 0, q.point (place n) = ⟨e * (place n).x, 0, e * (place n).z⟩ := by
    intro n hn
    obtain ⟨d, hd, e⟩ := h n hn
    have := size_pos 3 n
    refine ⟨d * (1 / size 3 n), by positivity, ?_⟩
    rw [e]
    simp only [unit, raw]
    ext <;> simp only [lin] <;> ring_nf
  obtain ⟨e0, h0, p0⟩ := h' 0 (by decide)
  obtain ⟨e1, h1, p1⟩ := h' 1 (by decide)
  obtain ⟨e2, h2, p2⟩ := h' 2 (by decide)
  obtain ⟨e3, h3, p3⟩ := h' 3 (by decide)
  obtain ⟨⟨m11, m12, m13, m21, m22, m23, m31, m32, m33⟩, ⟨t1, t2, t3⟩⟩ := q
  have ho := hq.orth
  have hdet := hq.det
  simp only [place, lin, V3.mk.injEq, M3.mk.injEq] at p0 p1 p2 p3 ho hdet
  obtain ⟨o11, o12, o13, o21, o22, o23, o31, o32, o33⟩ := ho
  obtain ⟨x0, y0, z0⟩ := p0
  obtain ⟨x1, y1, z1⟩ := p1
  obtain ⟨x2, y2, z2⟩ := p2
  obtain ⟨x3, y3, z3⟩ := p3
  have k13 : m13 = 0 := by linarith
  have k23 : m23 = 0 := by linarith
  have k21 : m21 = 0 := by linarith
  have k11 : m11 = e2 := by linarith
  have k33 : m33 = e0 := by linarith
  have k31 : m31 = e2 - e0 := by linarith
  subst k13 k23 k21 k11 k33 k31
  have w0 : m33 = 1 := by nlinarith
  subst w0
  have w2 : m11 = 1 := by linarith
  subst w2
  have w12 : m12 = 0 := by linarith
  have w32 : m32 = 0 := by linarith
  subst w12 w32
  have w22 : m22 = 1 := by linarith
  subst w22
  unfold at'
  congr 1
  · simp [M3.one]
  · rw [V3.mk.injEq]
    refine ⟨by linarith, by push_cast; linarith, by linarith⟩

/-! ## The reconstruction -/

def d1 : Data (Iso ℝ) := Data.empty.addFeed
def d2 : Data (Iso ℝ) := (d1.addFrame 0 4).getD d1
def d3 : Data (Iso ℝ) := (d2.addFrame 0 4).getD d1
def d4 : Data (Iso ℝ) := (d3.addFrame 0 4).getD d1
def d5 : Data (Iso ℝ) := (d4.addFrame 0 4).getD d1
def start : Op (Iso ℝ) :=
  .addReconstruction 0 1 2 Iso.one (at' 1) (at' 2) [(0, 0, 0), (1, 1, 1), (2, 2, 2), (3, 3, 3)] [] []
def d6 : Data (Iso ℝ) := (step d5 start).getD d1

theorem validStart : Valid d5 start := by
  refine ⟨by decide, by decide, by decide, ⟨4, _, rfl, rfl, rfl⟩, ⟨4, _, rfl, rfl, rfl⟩,
    4, ⟨_, rfl, rfl, rfl⟩, ?_, ?_⟩
  all_goals
    constructor
    · intro f c h
      simp at h
      omega
    · intro f g c h h'
      simp at h h'
      omega

theorem honest6 : HonestlyReached scene world d6 := by
  have h1 : HonestlyReached scene world d1 := .step (op := .addFeed) .init trivial trivial rfl
  have h2 : HonestlyReached scene world d2 := .step (op := .addFrame 0 4) h1 ⟨[], rfl⟩ trivial rfl
  have h3 : HonestlyReached scene world d3 := .step (op := .addFrame 0 4) h2 ⟨[0], rfl⟩ trivial rfl
  have h4 : HonestlyReached scene world d4 := .step (op := .addFrame 0 4) h3 ⟨[0, 1], rfl⟩ trivial rfl
  have h5 : HonestlyReached scene world d5 := .step (op := .addFrame 0 4) h4 ⟨[0, 1, 2], rfl⟩ trivial rfl
  refine .step h5 validStart ?_ rfl
  refine ⟨rfl, ⟨1, one_pos, ?_, ?_⟩, ?_, by simp, by simp⟩
  · simp only [scene, at']
    ext <;> simp only [lin] <;> norm_num
  · simp only [scene, at']
    ext <;> simp only [lin] <;> norm_num
  · intro m hm
    simp only [List.mem_cons, List.not_mem_nil, or_false] at hm
    rcases hm with rfl | rfl | rfl | rfl <;> exact ⟨rfl, rfl⟩

def R6 : Recon (Iso ℝ) := (d6.recons.get 0).getD Recon.empty
theorem get6 : d6.recons.get 0 = some R6 := rfl
theorem landmarks6 : R6.landmarks.map.entries = [(0, ⟨[(0, 0), (1, 0), (2, 0)]⟩), (1, ⟨[(0, 1), (1, 1), (2, 1)]⟩),
    (2, ⟨[(0, 2), (1, 2), (2, 2)]⟩), (3, ⟨[(0, 3), (1, 3), (2, 3)]⟩)] := rfl
theorem views6 : R6.views.map.entries = [(0, ⟨0, Iso.one, [0, 1, 2, 3]⟩), (1, ⟨1, at' 1, [0, 1, 2, 3]⟩),
    (2, ⟨2, at' 2, [0, 1, 2, 3]⟩)] := rfl

theorem view_cases {v : Nat} {V : View (Iso ℝ)} (h : R6.views.get v = some V) :
    v < 3 ∧ V.frame = v ∧ V.pose = at' v ∧ V.landmarks = [0, 1, 2, 3] := by
  have hm : (v, V) ∈ R6.views.map.entries := FMap.mem_of_get h
  rw [views6] at hm
  simp only [List.mem_cons, Prod.mk.injEq, List.not_mem_nil, or_false] at hm
  rcases hm with ⟨rfl, rfl⟩ | ⟨rfl, rfl⟩ | ⟨rfl, rfl⟩
  · refine ⟨by decide, rfl, ?_, rfl⟩
    simp only [at']
    ext <;> simp [Iso.one, V3.zero]
  · exact ⟨by decide, rfl, rfl, rfl⟩
  · exact ⟨by decide, rfl, rfl, rfl⟩

theorem landmark {l : Nat} (h : l < 4) : R6.landmarks.get l = some ⟨[(0, l), (1, l), (2, l)]⟩ := by
  match l, h with
  | 0, _ => rfl
  | 1, _ => rfl
  | 2, _ => rfl
  | 3, _ => rfl

theorem live_lt {l : Nat} {L : Landmark} (h : R6.landmarks.get l = some L) : l < 4 := by
  have hm : (l, L) ∈ R6.landmarks.map.entries := FMap.mem_of_get h
  rw [landmarks6] at hm
  simp at hm
  omega

theorem observes6 {l v f : Nat} (h : R6.Observes l v f) : f = l ∧ v < 3 := by
  obtain ⟨L, hL, hf⟩ := h
  have hl := live_lt hL
  rw [landmark hl] at hL
  cases hL
  have := FMap.mem_of_get hf
  simp at this
  omega

theorem trueIn : R6.TrueIn scene Iso.one 1 := by
  obtain ⟨g, k, hg, hk, hT⟩ := C90_true_partial seen honest6 _ _ get6
  refine ⟨?_, ?_, hT.constraints⟩
  · intro v V h
    obtain ⟨_, h2, h3, _⟩ := view_cases h
    rw [h3, h2]
    unfold Scene.viewed
    rw [Iso.mul_one, ExExact.scale_one]
    rfl
  · intro l v f u h V U h1 h2 _ _
    rw [(observes6 h1).1, (observes6 h2).1]
    rfl

theorem depicts (l : Nat) : R6.Depicts scene l (place l) := by
  intro v f V h _
  rw [(observes6 h).1]
  rfl

/-! ## Placing frame 3 -/

open Classical in
/-- A consensus that finds the pose if there is exactly one that fits everything. -/
def consensus (ws : List WorldMatch) : Option (Iso ℝ × List Nat) :=
  if h : ∃ q : Iso ℝ, q.Rigid ∧ (∀ w ∈ ws, Geo.Fits q w) ∧ ∀ q' : Iso ℝ, q'.Rigid → (∀ w ∈ ws, Geo.Fits q' w) → q' = q then
    some (h.choose, List.range ws.length)
  else none

theorem consensus_some {ws : List WorldMatch} {pose : Iso ℝ} {is : List Nat} (h : consensus ws = some (pose, is)) :
    is = List.range ws.length ∧ pose.Rigid ∧ (∀ w ∈ ws, Geo.Fits pose w) ∧
      ∀ q' : Iso ℝ, q'.Rigid → (∀ w ∈ ws, Geo.Fits q' w) → q' = pose := by
  unfold consensus at h
  split at h
  · rename_i hq
    cases h
    exact ⟨rfl, hq.choose_spec⟩
  · cases h

theorem exactConsensus : ExactConsensus consensus := by
  refine ⟨⟨fun ws pose is h => (consensus_some h).2.1, ?_⟩, ?_, ?_⟩
  · intro ws pose is h i hi
    rw [(consensus_some h).1] at hi
    exact List.mem_range.mp hi
  · intro ws pose is h i _ w hw
    exact (consensus_some h).2.2.1 w (List.mem_of_getElem? hw)
  · intro ws pose is h q hq hfit
    refine (consensus_some h).2.2.2 q hq ?_
    intro w hw
    obtain ⟨i, hi⟩ := List.mem_iff_getElem?.mp hw
    refine hfit i ?_ w hi
    rw [(consensus_some h).1]
    exact List.mem_range.mpr (List.getElem?_eq_some_iff.mp hi).1

/-- The answers of the search for a feature of frame 3: its own point first, then two others. -/
def answers (f : Nat) : List (Nat × Nat) := [(f % 4, 10), ((f + 1) % 4, 90), ((f + 2) % 4, 95)]

/-- The answers are right for a reconstruction. -/
def Trusted (s : TopSettings) (R : Recon (Iso ℝ)) (frame f : Nat) : Prop :=
  (∀ v V, R.views.get v = some V → 4 ≤ V.landmarks.length) ∧
  ∀ views ls l, R.StandsOut views (fun _ => answers f) s.betterBy ls → l ∈ ls → R.Depicts scene l (scene.point frame f)

def settings : PoseSettings := ⟨4, 10, 2, 1 / 10, 5⟩

def topSettings : TopSettings where
  ops := ⟨1, 1, 1, 1, 1, 1, 1⟩
  start := ExStart.settings
  tracking := ⟨10, 0, 0⟩
  betterBy := 24
  initialFeatures := 8
  minRegister := 4

open Classical in
/-- The search answers where its answers are right, and finds nothing elsewhere. -/
def placing : TopOracle (Iso ℝ) where
  ro _ := ExPose.order
  knn R frame f _ := if Trusted topSettings R frame f then answers f else []
  order := byObservations
  judge := geoJudge world ⟨1 / 10, 1 / 10⟩ settings consensus
  record := threeOracle world ⟨1, 1, 1, 1⟩ id ExExact.exactOracle
  merge _ := ExExact.exactOracle
  tr _ _ p := p
  opt _ _ := ExExact.exactOracle
  filt _ := ExExact.exactOracle

theorem exactPlacing : ExactPlacing scene world topSettings placing where
  ro _ := ExPose.orderFair
  range R frame f v V hV e he := by
    simp only [placing] at he
    split at he
    · rename_i h
      have := h.1 v V hV
      simp only [answers, List.mem_cons, List.not_mem_nil, or_false] at he
      rcases he with rfl | rfl | rfl <;> simp only <;> omega
    · cases he
  right R frame views f ls l _ h hl := by
    by_cases ht : Trusted topSettings R frame f
    · have e : placing.knn R frame f = fun _ => answers f := by
        funext v
        exact if_pos ht
      rw [e] at h
      exact ht.2 views ls l h hl
    · exfalso
      have e : placing.knn R frame f = fun _ => [] := by
        funext v
        exact if_neg ht
      rw [e] at h
      have hno : ∀ l x, ¬ R.BestAt views (fun _ => []) l x := by
        rintro l x ⟨⟨v, i, _, h, _⟩, _⟩
        cases h
      rcases h with ⟨_, _, _, h, _⟩ | ⟨_, _, _, _, _, _, h, _⟩ <;> exact hno _ _ h
  order := rfl
  judge := ⟨_, _, _, exactConsensus, rfl⟩
  record := ⟨fun _ => .refl _, fun _ => .refl _⟩
  three := ⟨_, _, fun _ => .refl _, rfl⟩
  opt := ⟨_, fun _ _ => rfl⟩

theorem assigned {v i l : Nat} (h : R6.Assigned v i l) : i = l := by
  obtain ⟨V, hV, hl⟩ := h
  rw [(view_cases hV).2.2.2] at hl
  match i, hl with
  | 0, h => simpa using h
  | 1, h => simpa using h
  | 2, h => simpa using h
  | 3, h => simpa using h
  | n + 4, h => simp at h

theorem best_eq {views : List Nat} {f : Nat} (hf : f < 4) {l x : Nat} (h : R6.BestAt views (fun _ => answers f) l x) :
    (l = f → x = 10) ∧ (l ≠ f → 90 ≤ x) ∧ R6.BestAt views (fun _ => answers f) f 10 := by
  obtain ⟨⟨v, i, hv, hi, ha⟩, _⟩ := h
  have hil := assigned ha
  subst hil
  obtain ⟨V, hV, _⟩ := ha
  have hfm : f % 4 = f := Nat.mod_eq_of_lt hf
  refine ⟨?_, ?_, ⟨v, f, hv, ?_, V, hV, ?_⟩, ?_⟩
  · rintro rfl
    simp [answers] at hi
    omega
  · intro hne
    simp [answers] at hi
    omega
  · simp [answers, hfm]
  · rw [(view_cases hV).2.2.2]
    match f, hf with
    | 0, _ => rfl
    | 1, _ => rfl
    | 2, _ => rfl
    | 3, _ => rfl
  · intro v' i' y _ hy ha'
    have := assigned ha'
    subst this
    simp [answers] at hy
    omega

theorem trusted {f : Nat} (hf : f < 4) : Trusted topSettings R6 3 f := by
  refine ⟨fun v V h => by rw [(view_cases h).2.2.2]; decide, ?_⟩
  intro views ls l h hl
  have hb : topSettings.betterBy = 24 := rfl
  rw [hb] at h
  have : l = f := by
    rcases h with ⟨a, x, rfl, h1, h2⟩ | ⟨a, b, x, y, rfl, hab, h1, h2, hxy, hlt, _, h3⟩
    · rw [List.mem_singleton] at hl
      subst hl
      by_contra hne
      obtain ⟨_, h4, h5⟩ := best_eq hf h1
      have := h4 hne
      have := h2 f 10 (Ne.symm hne) h5
      omega
    · exfalso
      obtain ⟨a1, a2, a3⟩ := best_eq hf h1
      obtain ⟨b1, b2, _⟩ := best_eq hf h2
      by_cases ha : a = f
      · have := b2 (fun e => hab (ha.trans e.symm))
        have := a1 ha
        omega
      · by_cases hb : b = f
        · have := a2 ha
          have := b1 hb
          omega
        · have := h3 f 10 (Ne.symm ha) (Ne.symm hb) a3
          have := b2 hb
          omega
  subst this
  exact depicts l

def matches' : List (List Nat × Nat) := [([0], 0), ([1], 1), ([2], 2), ([3], 3)]

theorem mem_matches {m : List Nat × Nat} (h : m ∈ matches') : m.2 < 4 ∧ m.1 = [m.2] := by
  simp only [matches', List.mem_cons, List.not_mem_nil, or_false] at h
  rcases h with rfl | rfl | rfl | rfl <;> exact ⟨by decide, rfl⟩

theorem matched : matchFeatures (fun _ => ExPose.order) 24 R6 [0] (placing.knn R6 3) (List.range' 0 4) [] =
    some matches' := by
  have h : ∀ f, f < 4 → matchFeature ExPose.order 24 R6 [0] (placing.knn R6 3 f) = some (some [f]) := by
    intro f hf
    have e : placing.knn R6 3 f = fun _ => answers f := by
      funext v
      exact if_pos (trusted hf)
    rw [e]
    match f, hf with
    | 0, _ => rfl
    | 1, _ => rfl
    | 2, _ => rfl
    | 3, _ => rfl
  have e : List.range' 0 4 = [0, 1, 2, 3] := rfl
  rw [e]
  simp only [matchFeatures, h 0 (by decide), h 1 (by decide), h 2 (by decide), h 3 (by decide)]
  rfl

theorem place_ne (n : Nat) : place n ≠ V3.zero := by
  intro h
  have := congrArg V3.z h
  exact absurd this (place_z n).ne'

def pointOf (n : Nat) : V4 ℝ := (fromPoint (place n)).getD ⟨0, 0, 0, 0⟩

theorem pointOf_eq (n : Nat) : fromPoint (place n) = some (pointOf n) := by
  obtain ⟨p, h, _⟩ := fromPoint_some (place_ne n)
  rw [pointOf, h]
  rfl

theorem seenBy {v : Nat} (hv : v < 3) : ∃ V, R6.views.get v = some V ∧ V.pose = at' v ∧ V.frame = v := by
  obtain ⟨V, hV⟩ : ∃ V, R6.views.get v = some V := by
    match v, hv with
    | 0, _ => exact ⟨_, rfl⟩
    | 1, _ => exact ⟨_, rfl⟩
    | 2, _ => exact ⟨_, rfl⟩
  exact ⟨V, hV, (view_cases hV).2.2.1, (view_cases hV).2.1⟩

theorem located {l : Nat} (hl : l < 4) : Located world R6 3 ([l], l) (unit 3 l, pointOf l) := by
  have hs : SeenAs world R6 [(0, l), (1, l), (2, l)] [(at' 0, unit 0 l), (at' 1, unit 1 l), (at' 2, unit 2 l)] := by
    have h : ∀ v, v < 3 → ∃ V, R6.views.get v = some V ∧ V.pose = at' v ∧ world.bearing V.frame l = some (unit v l) := by
      intro v hv
      obtain ⟨V, h1, h2, h3⟩ := seenBy hv
      exact ⟨V, h1, h2, by rw [h3]; rfl⟩
    exact .cons (h 0 (by decide)) (.cons (h 1 (by decide)) (.cons (h 2 (by decide)) .nil))
  have along : ∀ v, v < 3 → SeenAlong world R6 (v, l) (unit v l) := by
    intro v hv
    obtain ⟨V, h1, h2, h3⟩ := seenBy hv
    refine ⟨V, h1, ?_⟩
    rw [h3, h2]
    show some _ = some _
    simp only [at', M3.one_mulVec]
  refine ⟨rfl, [(0, l), (1, l), (2, l)], _, ⟨_, .cons (landmark hl) .nil, rfl⟩, ?_, hs, ?_⟩
  · refine ⟨Or.inl (Nat.le_refl 3), (0, l), by simp, (1, l), by simp, _, _, along 0 (by decide), along 1 (by decide), ?_⟩
    have := unit_dot_lt (unit_norm 0 l) (unit_norm 1 l) (cross_ne (by decide) rfl)
    show 1 - _ > (0 : ℝ)
    linarith
  · rw [← pointOf_eq]
    refine ExStart.triangulate_exact ⟨?_, ?_, place_ne l, (at' 0, unit 0 l), by simp, (at' 1, unit 1 l), by simp, ?_⟩
    · intro o ho
      simp only [List.mem_cons, List.not_mem_nil, or_false] at ho
      rcases ho with rfl | rfl | rfl <;> exact rigid _
    · intro o ho
      simp only [List.mem_cons, List.not_mem_nil, or_false] at ho
      rcases ho with rfl | rfl | rfl <;> exact looks _ _
    · have e : ∀ f, (at' f).inv.rot.mulVec (unit f l) = unit f l := fun f => ray_eq f (unit f l)
      simp only [e]
      exact cross_ne (by decide) rfl

def points : List WorldMatch := [(unit 3 0, pointOf 0), (unit 3 1, pointOf 1), (unit 3 2, pointOf 2), (unit 3 3, pointOf 3)]

theorem found : ∃ pose, consensus points = some (pose, [0, 1, 2, 3]) := by
  have h : ∃ q : Iso ℝ, q.Rigid ∧ (∀ w ∈ points, Geo.Fits q w) ∧
      ∀ q' : Iso ℝ, q'.Rigid → (∀ w ∈ points, Geo.Fits q' w) → q' = q := by
    refine ⟨at' 3, rigid 3, ?_, ?_⟩
    · intro w hw
      simp only [points, List.mem_cons, List.not_mem_nil, or_false] at hw
      rcases hw with rfl | rfl | rfl | rfl <;> exact fits_of_looks (looks 3 _) (pointOf_eq _)
    · intro q hq hfit
      refine pose_unique hq ?_
      intro n hn
      refine looks_of_fits (pointOf_eq n) (hfit _ ?_)
      match n, hn with
      | 0, _ => simp [points]
      | 1, _ => simp [points]
      | 2, _ => simp [points]
      | 3, _ => simp [points]
  exact ⟨_, dif_pos h⟩

theorem proper : ProperMatches world R6 3 matches' := by
  intro m hm
  obtain ⟨h1, h2⟩ := mem_matches hm
  exact ⟨⟨_, rfl⟩, Or.inl ⟨m.2, h2, _, landmark h1⟩⟩

theorem consistent6 : d6.Consistent := reachable_consistent (honestly_reachable honest6)

theorem viewed_eq (f : Nat) : scene.viewed Iso.one 1 f = at' f := by
  unfold Scene.viewed
  rw [Iso.mul_one, ExExact.scale_one]
  rfl

/-- C93: the hypotheses of `C93_found_partial` hold. -/
theorem estimated : estimatePose world ⟨1 / 10, 1 / 10⟩ settings consensus R6 3 matches' = some (some (at' 3)) ∧
    ∀ m ∈ matches', Agrees world ⟨1 / 10, 1 / 10⟩ R6 3 (at' 3) m.1 m.2 := by
  obtain ⟨pose, hpose⟩ := found
  have hloc : ∀ m ∈ matches', ∃ w, Located world R6 3 m w := by
    intro m hm
    obtain ⟨h1, h2⟩ := mem_matches hm
    have := located h1
    rw [← h2] at this
    exact ⟨_, this⟩
  have hws : PointsOf world R6 3 (fun _ => True) matches' points :=
    ⟨matches', List.Sublist.refl _, .cons (located (by decide)) (.cons (located (by decide)) (.cons (located (by decide))
      (.cons (located (by decide)) .nil))), fun _ _ => trivial, fun m hm _ _ => hm⟩
  have h := C93_found_partial pictured completeTri (g := Iso.one) (R := R6) M3.IsRot.one one_pos
    (consistent6.recons 0 R6 get6) trueIn
    (fun v V h => facing (by have := view_cases h; omega)) (facing (by decide : 3 ≤ 3)) (lim := ⟨1 / 10, 1 / 10⟩)
    (by norm_num) (s := settings) (by decide) exactConsensus proper (by decide)
    (fun m hm l hl => by
      obtain ⟨h1, h2⟩ := mem_matches hm
      rw [h2, List.mem_singleton] at hl
      rw [hl]
      exact depicts m.2) hws (by decide) hpose (by decide) (by decide)
  rw [viewed_eq] at h
  exact ⟨h.1, fun m hm => h.2 m hm (hloc m hm)⟩

/-- C93: the hypotheses of `C93_placed_partial` hold, and frame 3 is placed with all its features. -/
theorem placed : registerTop placing topSettings d6 0 3 [0] =
    some (some (at' 3, ⟨[(0, [0]), (1, [1]), (2, [2]), (3, [3])]⟩)) := by
  have hF : d6.frames.get 3 = some ⟨0, 3, 4, none⟩ := rfl
  have e2 : byObservations R6 (retainUnique matches') = matches' := rfl
  have hc : ∀ m ∈ matches', consistentMatch world ⟨1 / 10, 1 / 10⟩ R6 3 (at' 3) m = some true := by
    intro m hm
    have P : PoseData world R6 := pose_data pictured (g := Iso.one) M3.IsRot.one (consistent6.recons 0 R6 get6) trueIn
    obtain ⟨c, h1, h2⟩ := consistentMatch_iff P.cons P.complete ⟨1 / 10, 1 / 10⟩ (at' 3) (m := m) (frame := 3)
      (proper_live proper hm).1 (proper_live proper hm).2 ⟨_, rfl⟩
    rw [h1, h2.2 (estimated.2 m hm)]
  have e3 : geoJudge world ⟨1 / 10, 1 / 10⟩ settings consensus R6 3 matches' = some (at' 3, fun ls f =>
      (consistentMatch world ⟨1 / 10, 1 / 10⟩ R6 3 (at' 3) (ls, f)).getD false) := by
    unfold geoJudge
    rw [estimated.1]
    rfl
  have e4 : finalMatches (byObservations R6) (fun ls f =>
      (consistentMatch world ⟨1 / 10, 1 / 10⟩ R6 3 (at' 3) (ls, f)).getD false) matches' =
      ⟨[(0, [0]), (1, [1]), (2, [2]), (3, [3])]⟩ := by
    unfold finalMatches
    rw [e2]
    have : matches'.filter (fun m => (consistentMatch world ⟨1 / 10, 1 / 10⟩ R6 3 (at' 3) (m.1, m.2)).getD false) =
        matches' := by
      rw [List.filter_eq_self]
      intro m hm
      rw [hc m hm]
      rfl
    rw [this]
    rfl
  have e5 : registerSubset placing.ro topSettings.betterBy R6 [0] (placing.knn R6 3) (placing.order R6)
      (placing.judge R6 3) topSettings.minRegister 0 4 [] =
      (matches', some (some (at' 3, ⟨[(0, [0]), (1, [1]), (2, [2]), (3, [3])]⟩))) := by
    have m' : matchFeatures placing.ro topSettings.betterBy R6 [0] (placing.knn R6 3) (List.range' 0 (4 - 0)) [] =
      some matches' := matched
    have o : placing.order R6 = byObservations R6 := rfl
    have j : placing.judge R6 3 = geoJudge world ⟨1 / 10, 1 / 10⟩ settings consensus R6 3 := rfl
    unfold registerSubset
    rw [m', o, j]
    simp only [e2, e3, e4]
    rfl
  unfold registerTop
  rw [get6, hF]
  have e6 : registerFrame (registerSubset placing.ro topSettings.betterBy R6 [0] (placing.knn R6 3) (placing.order R6)
      (placing.judge R6 3) topSettings.minRegister) topSettings.initialFeatures 4 (4 + 1) [] =
      some ([(0, 4)], matches', some (some (at' 3, ⟨[(0, [0]), (1, [1]), (2, [2]), (3, [3])]⟩))) := by
    show registerLoop _ 4 5 0 4 [] = _
    unfold registerLoop
    rw [e5]
  simp only [e6]

end

example : scene.Pictured world ∧ ExactPlacing scene world topSettings placing ∧ d6.Consistent ∧
    (∀ r R, d6.recons.get r = some R → R.TrueTo scene) ∧ d6.recons.get 0 = some R6 ∧ (∀ v ∈ [0], R6.LiveView v) ∧
    ∃ ms, registerTop placing topSettings d6 0 3 [0] = some (some (at' 3, ms)) ∧ ms.size = 4 :=
  ⟨pictured, exactPlacing, consistent6, C90_true_partial seen honest6, get6, fun v hv => by
    rw [List.mem_singleton] at hv; subst hv; exact ⟨_, rfl⟩, _, placed, rfl⟩

end Verif.Sfm.ExPlace
