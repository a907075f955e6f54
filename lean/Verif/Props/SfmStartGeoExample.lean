import Verif.Props.SfmStartGeo

/-!
# C92: a scene meeting the hypotheses

Frame 2 is taken at the origin, frame 1 beside it, frame 0 in front of it; all look along the third axis. Each has 32
features, which show the points `(n / 100, 0, 1)`. The two-view consensus gives the motion to frame 0 in the unit of length
`u`, that to frame 1 in the unit 1.
-/

namespace Verif.Sfm.ExStart

open Verif.Geo

noncomputable section

def cy (f : Nat) : ℝ := if f = 0 then 1 / 4 else if f = 2 then 0 else f
def cz (f : Nat) : ℝ := if f = 0 then 1 / 2 else 0

def scene : Scene where
  pose f := ⟨M3.one, ⟨0, -cy f, -cz f⟩⟩
  point _ n := ⟨n / 100, 0, 1⟩

/-- A bearing before it is given unit length. -/
def raw (f n : Nat) : V3 ℝ := ⟨n / 100, -cy f, 1 - cz f⟩

def size (f n : Nat) : ℝ := Real.sqrt (raw f n).normSq

theorem depth_pos (f : Nat) : 0 < 1 - cz f := by
  unfold cz
  split <;> norm_num

theorem raw_pos (f n : Nat) : 0 < (raw f n).normSq := by
  have := depth_pos f
  simp only [raw, lin]
  nlinarith [mul_self_nonneg ((n : ℝ) / 100), mul_self_nonneg (cy f), mul_pos this this]

theorem size_pos (f n : Nat) : 0 < size f n := Real.sqrt_pos.mpr (raw_pos f n)

theorem size_sq (f n : Nat) : size f n * size f n = (raw f n).normSq := Real.mul_self_sqrt (raw_pos f n).le

def unit (f n : Nat) : V3 ℝ := V3.smul (1 / size f n) (raw f n)

theorem unit_norm (f n : Nat) : (unit f n).normSq = 1 := by
  unfold unit
  rw [V3.normSq_smul, ← size_sq]
  have := (size_pos f n).ne'
  field_simp

open Classical in
/-- A triangulator that finds the point if all observations agree, else that of the first two. -/
def triangulate (l : List (Iso ℝ × V3 ℝ)) : Option (V4 ℝ) :=
  if h : ∃ x, ExactlySeen l x then fromPoint h.choose
  else if h : ∃ x, ExactlySeen (l.take 2) x then fromPoint h.choose
  else none

def world : World Nat where
  bearing f n := some (unit f n)
  colour _ _ := some 0
  triangulate := triangulate
  minObservations := 3
  minCosine := 0

theorem rigid (f : Nat) : (scene.pose f).Rigid := M3.IsRot.one

theorem seen : scene.Seen world := by
  refine ⟨rigid, ?_, ?_⟩
  · intro f n b h
    simp only [world] at h
    cases h
    refine ⟨unit_norm f n, size f n, size_pos f n, ?_⟩
    have := (size_pos f n).ne'
    simp only [scene, unit, raw]
    ext <;> simp only [lin] <;> field_simp <;> ring
  · intro f g hfg h
    have hy := congrArg V3.y h
    have hz := congrArg V3.z h
    simp only [centre, scene, lin] at hy hz
    have hy' : cy f = cy g := by linarith
    have hz' : cz f = cz g := by linarith
    unfold cy at hy'
    unfold cz at hz'
    apply hfg
    by_cases h1 : f = 0 <;> by_cases h2 : g = 0
    · rw [h1, h2]
    · norm_num [h1, h2] at hz'
    · norm_num [h1, h2] at hz'
    · rw [if_neg h1, if_neg h2] at hy'
      split at hy' <;> split at hy'
      · simp_all
      · exact absurd hy'.symm (by exact_mod_cast h2)
      · exact absurd hy' (by exact_mod_cast h1)
      · exact_mod_cast hy'

theorem on_ray {l : List (Iso ℝ × V3 ℝ)} {x : V3 ℝ} (h : ExactlySeen l x) {o : Iso ℝ × V3 ℝ} (ho : o ∈ l) :
    ∃ d, x = o.1.inv.t.add (V3.smul d (o.1.inv.rot.mulVec o.2)) := by
  obtain ⟨_, d, _, hd⟩ := h.looks o ho
  refine ⟨d, ?_⟩
  have e : o.1.inv.point (o.1.point x) = x := by
    rw [← Iso.point_mul, Iso.Rigid.inv_mul (h.rigid o ho)]
    lin3
  rw [hd] at e
  rw [← e]
  lin3

/-- Two lines that are not parallel have at most one common point. -/
theorem lines_meet {c c' r r' x y : V3 ℝ} (hn : r.cross r' ≠ V3.zero) {a b a' b' : ℝ} (h1 : x = c.add (V3.smul a r))
    (h2 : x = c'.add (V3.smul b r')) (h3 : y = c.add (V3.smul a' r)) (h4 : y = c'.add (V3.smul b' r')) : x = y := by
  have e1 : x.sub y = V3.smul (a - a') r := by rw [h1, h3]; lin3
  have e2 : x.sub y = V3.smul (b - b') r' := by rw [h2, h4]; lin3
  have e3 : V3.smul (a - a') (r.cross r') = V3.zero := by
    have : V3.smul (a - a') (r.cross r') = (V3.smul (a - a') r).cross r' := by lin3
    rw [this, ← e1, e2]
    lin3
  have e4 : a - a' = 0 := by
    by_contra hne
    apply hn
    have : r.cross r' = V3.smul (1 / (a - a')) (V3.smul (a - a') (r.cross r')) := by
      ext <;> simp only [lin] <;> field_simp
    rw [this, e3]
    lin3
  rw [h1, h3, show a = a' by linarith]

theorem seen_unique {l l' : List (Iso ℝ × V3 ℝ)} {x y : V3 ℝ} (hx : ExactlySeen l x) (hy : ExactlySeen l' y)
    (hl : ∀ o ∈ l', o ∈ l) : x = y := by
  obtain ⟨o, ho, o', ho', hn⟩ := hy.across
  obtain ⟨a, h1⟩ := on_ray hx (hl o ho)
  obtain ⟨b, h2⟩ := on_ray hx (hl o' ho')
  obtain ⟨a', h3⟩ := on_ray hy ho
  obtain ⟨b', h4⟩ := on_ray hy ho'
  exact lines_meet hn h1 h2 h3 h4

theorem triangulate_exact {l : List (Iso ℝ × V3 ℝ)} {x : V3 ℝ} (h : ExactlySeen l x) : triangulate l = fromPoint x := by
  have h' : ∃ x, ExactlySeen l x := ⟨x, h⟩
  unfold triangulate
  rw [dif_pos h', seen_unique h'.choose_spec h (fun _ h => h)]

theorem triangulate_first {l : List (Iso ℝ × V3 ℝ)} {x : V3 ℝ} (h : ExactlySeen (l.take 2) x) :
    triangulate l = fromPoint x := by
  have h' : ∃ x, ExactlySeen (l.take 2) x := ⟨x, h⟩
  unfold triangulate
  split
  · rename_i h1
    rw [seen_unique h1.choose_spec h (fun _ h => List.mem_of_mem_take h)]
  · rw [seen_unique h'.choose_spec h (fun _ h => h)]

theorem exactTri : ExactTriangulator world.triangulate := by
  intro l x p h hp
  rw [← hp]
  exact (triangulate_exact h).symm

theorem completeTri : CompleteTriangulator world.triangulate := fun _ _ h _ => triangulate_exact h

theorem ray_eq (f : Nat) (b : V3 ℝ) : scene.ray f b = b := by
  simp only [Scene.ray, scene]
  ext <;> simp only [lin] <;> ring

theorem same_iff {a i b j : Nat} : scene.Same a i b j ↔ i = j := by
  unfold Scene.Same
  constructor
  · intro h
    have := congrArg V3.x h
    simp only [scene] at this
    have h2 : (i : ℝ) = j := by linarith
    exact_mod_cast h2
  · rintro rfl
    rfl

theorem cy_ne {a b : Nat} (h : a ≠ b) : cy a * (1 - cz b) ≠ cy b * (1 - cz a) := by
  have hf : ∀ n : Nat, n ≠ 0 → (if n = 2 then (0 : ℝ) else n) ≠ 1 / 2 := by
    intro n _
    split
    · norm_num
    · intro h
      have : (2 * n : ℝ) = 1 := by linarith
      have : 2 * n = 1 := by exact_mod_cast this
      omega
  unfold cy cz
  by_cases h1 : a = 0 <;> by_cases h2 : b = 0
  · exact absurd (h1.trans h2.symm) h
  · have := hf b h2
    simp only [h1, h2, if_true, if_false]
    intro e
    exact this (by linarith)
  · have := hf a h1
    simp only [h1, h2, if_true, if_false]
    intro e
    exact this (by linarith)
  · simp only [h1, h2, if_false, sub_zero, mul_one]
    split <;> split
    · simp_all
    · exact fun e => h2 (by exact_mod_cast e.symm)
    · exact fun e => h1 (by exact_mod_cast e)
    · exact fun e => h (by exact_mod_cast e)

theorem cross_ne {a b : Nat} (hf : a ≠ b) (n : Nat) : (unit a n).cross (unit b n) ≠ V3.zero := by
  intro h
  have := congrArg V3.x h
  simp only [unit, raw, lin] at this
  have h0 := (size_pos a n).ne'
  have h1 := (size_pos b n).ne'
  field_simp at this
  apply cy_ne hf
  linarith

theorem parallax {a b : Nat} (hf : a ≠ b) : scene.Parallax world a b := by
  intro i j u v hs hu hv h
  obtain rfl := same_iff.mp hs
  simp only [world] at hu hv
  cases hu
  cases hv
  rw [ray_eq, ray_eq] at h
  exact cross_ne hf i h

theorem narrow (f : Nat) : scene.Narrow world 2 f := by
  intro i j u v hs hu hv
  obtain rfl := same_iff.mp hs
  simp only [world] at hu hv
  cases hu
  cases hv
  rw [ray_eq, ray_eq]
  have e0 : cy 2 = 0 := by simp [cy]
  have e1 : cz 2 = 0 := by simp [cz]
  have e : (unit 2 i).dot (unit f i) =
      (1 / size 2 i) * (1 / size f i) * ((i : ℝ) / 100 * (i / 100) + (1 - cz f)) := by
    simp only [unit, raw, lin, e0, e1]
    ring
  rw [e]
  have h0 := size_pos 2 i
  have h1 := size_pos f i
  have h2 := depth_pos f
  positivity

def geo : StartGeometry where
  lim := ⟨1 / 10, 1 / 10⟩
  pairCosine := 0
  patience := 100

/-- The unit of length in which the consensus finds the motion to a frame. -/
def unitOf (u : ℝ) (f : Nat) : ℝ := if f = 0 then u else 1

/-- The positions of true matches. -/
def truePositions (l : List (Nat × Nat)) : List Nat :=
  (List.range l.length).filter (fun i => match l[i]? with
    | some m => m.1 == m.2
    | none => false)

def oracle (u : ℝ) : StartOracle (Iso ℝ) ℝ where
  knn _ _ i := [(i, 0), (if i = 0 then 1 else 0, 100)]
  shuffleTwo l := l
  consensus a b l := some ((scene.motion a b).scale (unitOf u b), truePositions l)
  shuffleTri l := l
  robust _ _ _ _ _ _ _ := true
  ratio _ _ _ _ _ _ := none
  rescale p _ := p
  apart _ _ _ _ _ := true
  optimise _ _ _ ps _ := ps
  biRobust _ _ _ _ := true
  sort l := l.mergeSort (fun a b => decide (a ≤ b))

theorem unitOf_pos {u : ℝ} (hu : 0 < u) (f : Nat) : 0 < unitOf u f := by
  unfold unitOf
  split
  · exact hu
  · exact one_pos

theorem trueConsensus {u : ℝ} (hu : 0 < u) : TrueConsensus scene (oracle u) := by
  intro a b l pose is h
  cases h
  refine ⟨⟨unitOf u b, unitOf_pos hu b, rfl⟩, ?_⟩
  intro i hi m hm
  simp only [truePositions, List.mem_filter, hm] at hi
  exact same_iff.mpr (by simpa using hi.2)

theorem fair (u : ℝ) : (oracle u).Fair where
  shuffleTwo _ := List.Perm.refl _
  shuffleTri _ := List.Perm.refl _
  sort l := List.mergeSort_perm l _
  sorted l := by
    have := List.pairwise_mergeSort (le := fun a b : ℝ => decide (a ≤ b))
      (fun a b c h1 h2 => by simp only [decide_eq_true_eq] at *; exact h1.trans h2)
      (fun a b => by simpa using le_total a b) l
    simpa [oracle] using this
  inliers a b l pose is h := by
    cases h
    exact ⟨List.nodup_range.filter _, fun i hi => List.mem_range.mp (List.mem_filter.mp hi).1⟩

def settings : StartSettings where
  betterBy := 24
  minTwoView := 16
  minScales := 16
  optLandmarks := 1000
  minPairs := 1
  filterIterations := 3
  minThreeView := 24

def d1 : Data (Iso ℝ) := Data.empty.addFeed
def d2 : Data (Iso ℝ) := (d1.addFrame 0 32).getD d1
def d3 : Data (Iso ℝ) := (d2.addFrame 0 32).getD d1
def d4 : Data (Iso ℝ) := (d3.addFrame 0 32).getD d1

theorem honest : HonestlyReached scene world d4 := by
  have h1 : HonestlyReached scene world d1 := .step (op := .addFeed) .init trivial trivial rfl
  have h2 : HonestlyReached scene world d2 := .step (op := .addFrame 0 32) h1 ⟨[], rfl⟩ trivial rfl
  have h3 : HonestlyReached scene world d3 := .step (op := .addFrame 0 32) h2 ⟨[0], rfl⟩ trivial rfl
  exact .step (op := .addFrame 0 32) h3 ⟨[0, 1], rfl⟩ trivial rfl

theorem live {x : Nat} (h : x < 3) : d4.frames.get x = some ⟨0, x, 32, none⟩ := by
  match x, h with
  | 0, _ => rfl
  | 1, _ => rfl
  | 2, _ => rfl

theorem features {x : Nat} {X : Frame} (hX : d4.frames.get x = some X) : X.nfeat = 32 := by
  match x with
  | 0 => cases hX; rfl
  | 1 => cases hX; rfl
  | 2 => cases hX; rfl
  | n + 3 => cases hX

theorem searches (u : ℝ) : (oracle u).Searches d4 := by
  intro a b A B i hA hB h2 h2' hi
  refine ⟨Nat.le_refl 2, ?_⟩
  intro e he
  rw [features hB]
  rw [features hA] at hi
  simp [oracle] at he
  rcases he with rfl | rfl
  · exact hi
  · simp only
    split <;> omega

def diagonal : List (Nat × Nat) := (List.range 32).map (fun i => (i, i))

theorem matching_diagonal : symmetricMatching 32 32 24 (fun i => [(i, 0), (if i = 0 then 1 else 0, 100)])
    (fun i => [(i, 0), (if i = 0 then 1 else 0, 100)]) = some diagonal := by decide +kernel

theorem pick_diagonal : pick diagonal (truePositions diagonal) = some diagonal := by decide +kernel

theorem two_view (u : ℝ) (f : Nat) : initTwoView (startGeo world geo (oracle u)) settings 2 f 32 32 =
    some (some ((scene.motion 2 f).scale (unitOf u f), diagonal)) := by
  have e1 : symmetricMatching 32 32 settings.betterBy ((startGeo world geo (oracle u)).knn 2 f)
    ((startGeo world geo (oracle u)).knn f 2) = some diagonal := matching_diagonal
  have e2 : (startGeo world geo (oracle u)).shuffleTwo diagonal = diagonal := rfl
  have e3 : (startGeo world geo (oracle u)).consensus 2 f diagonal =
    some ((scene.motion 2 f).scale (unitOf u f), truePositions diagonal) := rfl
  unfold initTwoView
  simp only [e1, e2, e3, pick_diagonal]
  rw [if_neg (by decide)]

theorem bearing_eq {f n : Nat} : world.bearing f n = some (unit f n) := rfl

theorem dot_lt {f n : Nat} (h : 2 ≠ f) : (unit 2 n).dot (unit f n) < 1 :=
  unit_dot_lt (unit_norm 2 n) (unit_norm f n) (cross_ne h n)

/-- The direction in which camera 0 would see a point if its motion had the unit `u` and the point the unit 1. -/
def away (u : ℝ) (n : Nat) : V3 ℝ := ⟨n / 100, -(u / 4), 1 - u / 2⟩

/-- The loose test with motions in different units. -/
theorem loose {u : ℝ} (hu : 0 < u) (n : Nat) : (startGeo world geo (oracle u)).robust 2 1 0 .loose
    ((scene.motion 2 1).scale (unitOf u 1)) ((scene.motion 2 0).scale (unitOf u 0)) (n, n, n) = true ↔
    0 < (away u n).dot (raw 0 n) := by
  have hb : triBearings world 2 1 0 (n, n, n) = some ⟨unit 2 n, unit 1 n, unit 0 n⟩ :=
    triBearings_iff.mpr ⟨bearing_eq, bearing_eq, bearing_eq⟩
  have e1 : unitOf u 1 = 1 := by simp [unitOf]
  have e2 : unitOf u 0 = u := by simp [unitOf]
  have hx := exactlySeen_pair seen one_pos (bearing_eq (f := 2)) (bearing_eq (f := 1)) (same_iff.mpr rfl)
    (parallax (a := 2) (b := 1) (by decide) n n _ _ (same_iff.mpr rfl) bearing_eq bearing_eq)
  obtain ⟨P, p1, p2, p3⟩ := fromPoint_some hx.origin
  have l0 := hx.looks _ (List.mem_cons_self ..)
  have l1 := hx.looks _ (List.mem_cons_of_mem _ (List.mem_cons_self ..))
  have hne : away u n ≠ V3.zero := by
    intro h
    have := congrArg V3.y h
    simp only [away, V3.zero] at this
    linarith
  have hpos := V3.norm_pos hne
  have hunit : (V3.smul (1 / (away u n).norm) (away u n)).normSq = 1 := by
    rw [V3.normSq_smul, ← V3.norm_mul_self]
    field_simp
  have l2 : Looks ((scene.motion 2 0).scale u) (V3.smul (1 / (away u n).norm) (away u n))
      (scene.local 2 1 (scene.point 2 n)) := by
    refine ⟨hunit, (away u n).norm, hpos, ?_⟩
    have h2 : V3.smul (away u n).norm (V3.smul (1 / (away u n).norm) (away u n)) = away u n := by
      ext <;> simp only [lin] <;> field_simp
    rw [h2]
    simp only [Scene.motion, Scene.local, scene, away, cy, cz]
    ext <;> simp only [lin] <;> norm_num <;> ring
  have c0 := cosine_exact p1 p3 l0
  have c1 : cosineDistance P ((scene.motion 2 1).scale 1, unit 1 n) = some 0 := cosine_exact p1 p3 l1
  have c2 := cosine_exact p1 p3 l2
  have c2' : cosineDistance P ((scene.motion 2 0).scale u, unit 0 n) =
      some (1 - (V3.smul (1 / (away u n).norm) (away u n)).dot (unit 0 n)) := by
    unfold cosineDistance at c2 ⊢
    obtain ⟨Q, hQ, hq⟩ := Option.map_eq_some_iff.mp c2
    simp only at hQ hq
    have : bearing Q = V3.smul (1 / (away u n).norm) (away u n) :=
      unit_dot_one (normal_of_some hQ).1 hunit (by linarith)
    simp only [hQ, Option.map_some, this]
  have ht : world.tri [⟨Iso.one, unit 2 n⟩, ⟨(scene.motion 2 1).scale 1, unit 1 n⟩,
      ⟨(scene.motion 2 0).scale u, unit 0 n⟩] = some P := by
    rw [← p1]
    exact triangulate_first (l := [(Iso.one, unit 2 n), ((scene.motion 2 1).scale 1, unit 1 n),
      ((scene.motion 2 0).scale u, unit 0 n)]) hx
  have hcam : toCamera world.tri (unit 2 n) [⟨(scene.motion 2 1).scale 1, unit 1 n⟩,
      ⟨(scene.motion 2 0).scale u, unit 0 n⟩] = some P := by
    unfold toCamera
    simp only [ht, Option.bind_eq_bind, Option.bind_some, p2]
  have c0' : 1 - (bearing P).dot (unit 2 n) = 0 := by
    unfold cosineDistance at c0
    simp only [C34_transform_one (normal_of_some p2), Option.map_some, Option.some.injEq] at c0
    exact c0
  have hr : ((scene.motion 2 1).scale 1).inv.rot.mulVec (unit 1 n) = unit 1 n := by
    simp only [Scene.motion, scene]
    ext <;> simp only [lin] <;> ring
  have hd : (V3.smul (1 / (away u n).norm) (away u n)).dot (unit 0 n) =
      (1 / (away u n).norm * (1 / size 0 n)) * (away u n).dot (raw 0 n) := by
    unfold unit
    simp only [lin]
    ring
  have hk : 0 < 1 / (away u n).norm * (1 / size 0 n) := by
    have := size_pos 0 n
    positivity
  simp only [startGeo, hb, e1, e2, triLandmarkRobust, hcam, c0', c1, c2', levelLimits, Bool.and_eq_true,
    Bool.or_eq_true, decide_eq_true_eq, hr, hd]
  constructor
  · rintro ⟨⟨_, h⟩, _⟩
    have h := of_decide_eq_true h
    have : 0 < 1 / (away u n).norm * (1 / size 0 n) * (away u n).dot (raw 0 n) := by linarith
    exact (mul_pos_iff_of_pos_left hk).mp this
  · intro h
    refine ⟨⟨⟨by norm_num, by simp⟩, by simpa using mul_pos hk h⟩, Or.inl (Or.inl ?_)⟩
    show 1 - _ > (0 : ℝ)
    linarith [dot_lt (n := n) (show 2 ≠ 1 by decide)]

theorem away_dot (u : ℝ) (n : Nat) :
    (away u n).dot (raw 0 n) = (n : ℝ) / 100 * (n / 100) + u / 16 + (1 - u / 2) / 2 := by
  have e0 : cy 0 = 1 / 4 := by simp [cy]
  have e1 : cz 0 = 1 / 2 := by simp [cz]
  simp only [away, raw, lin, e0, e1]
  ring

theorem mem_diagonal {a b : Nat} : (a, b) ∈ diagonal ↔ a = b ∧ a < 32 := by
  simp only [diagonal, List.mem_map, List.mem_range, Prod.mk.injEq]
  constructor
  · rintro ⟨i, hi, rfl, rfl⟩
    exact ⟨rfl, hi⟩
  · rintro ⟨rfl, h⟩
    exact ⟨a, h, rfl, rfl⟩

def triples : List Tri := (List.range 32).map (fun i => (i, i, i))

theorem mem_triples {t : Tri} : t ∈ triples ↔ CommonTo diagonal diagonal t := by
  obtain ⟨a, b, c⟩ := t
  simp only [triples, CommonTo, mem_diagonal, List.mem_map, List.mem_range, Prod.mk.injEq]
  constructor
  · rintro ⟨i, hi, rfl, rfl, rfl⟩
    exact ⟨⟨rfl, hi⟩, rfl, hi⟩
  · rintro ⟨⟨rfl, h⟩, rfl, _⟩
    exact ⟨a, h, rfl, rfl, rfl⟩

theorem triples_nodup : triples.Nodup := by decide +kernel

theorem incident {t : Tri} (h : CommonTo diagonal diagonal t) : scene.Incident world world.minCosine 2 1 0 t := by
  obtain ⟨a, b, c⟩ := t
  obtain ⟨h1, h2⟩ := h
  obtain ⟨e1, hn⟩ := mem_diagonal.mp h1
  obtain ⟨e2, _⟩ := mem_diagonal.mp h2
  simp only at e1 e2 hn
  subst e1 e2
  refine ⟨_, _, _, bearing_eq, bearing_eq, bearing_eq, Or.inl ?_⟩
  rw [ray_eq, ray_eq]
  show 1 - _ > (0 : ℝ)
  linarith [dot_lt (n := a) (show 2 ≠ 1 by decide)]

theorem apart {f : Nat} : 1 - (unit f 0).dot (unit f 1) > 0 := by
  have : (unit f 0).dot (unit f 1) < 1 := by
    refine unit_dot_lt (unit_norm f 0) (unit_norm f 1) (fun hc => ?_)
    have := congrArg V3.y hc
    simp only [unit, raw, lin] at this
    have h0 := (size_pos f 0).ne'
    have h1 := (size_pos f 1).ne'
    have h2 := depth_pos f
    field_simp at this
    norm_num at this
    linarith
  linarith

/-- C92: the hypotheses of `C92_found_partial`, with motions in different units of length. -/
theorem found : ∃ st, initReconstruction (startGeo world geo (oracle 2)) settings d4 2 [1, 0] = some (some st) ∧
    st.first = 1 ∧ st.second = 0 ∧ TrueStart scene 2 st ∧ ∀ n < 32, (n, n, n) ∈ st.combined := by
  obtain ⟨st, h1, h2, h3, h4, h5, _⟩ := C92_found_partial (rest := []) (rs := triples) (L := triples)
    (pairs := [((0, 0, 0), (1, 1, 1))]) (p := (scene.motion 2 1).scale (unitOf 2 1))
    (q := (scene.motion 2 0).scale (unitOf 2 0)) (geo := geo) (s := settings) seen exactTri
    completeTri (trueConsensus two_pos) (fair 2) (le_refl (0 : ℝ)) (by norm_num [geo]) (by norm_num [geo])
    (le_refl (0 : ℝ)) (by decide)
    (searches 2) (fun _ _ _ _ _ => ⟨_, bearing_eq⟩) (live (by decide : 2 < 3))
    (live (by decide : 1 < 3)) (live (by decide : 0 < 3)) (by simp) (two_view 2 1) (two_view 2 0) (parallax (by decide))
    (parallax (by decide)) (narrow 1) (narrow 0) triples_nodup (by decide) (fun t ht => ⟨mem_triples.mp ht, by
      obtain ⟨i, hi, rfl⟩ := List.mem_map.mp ht
      refine (loose two_pos i).mpr ?_
      rw [away_dot]
      nlinarith [mul_self_nonneg ((i : ℝ) / 100)]⟩) triples_nodup
    (fun t => ⟨fun h => ⟨mem_triples.mp h, incident (mem_triples.mp h)⟩, fun h => mem_triples.mpr h.1⟩) (by decide)
    (by decide) (by decide) (by simp) (by decide) (by
      intro x y h
      simp only [List.mem_cons, List.not_mem_nil, or_false, Prod.mk.injEq] at h ⊢
      rintro ⟨h', _⟩
      rw [h.2] at h'
      simp at h') (by
      intro x y h
      simp only [List.mem_cons, List.not_mem_nil, or_false, Prod.mk.injEq] at h
      obtain ⟨rfl, rfl⟩ := h
      exact ⟨by decide, by decide, _, _, _, _, _, _, bearing_eq, bearing_eq, bearing_eq,
        bearing_eq, bearing_eq, bearing_eq, apart, apart, apart⟩)
  exact ⟨st, h1, h2, h3, h4, fun n hn => (h5 _).mpr ⟨mem_diagonal.mpr ⟨rfl, hn⟩, mem_diagonal.mpr ⟨rfl, hn⟩⟩⟩

/-- C92: the hypotheses of `C92_true_reconstruction`, with a reconstruction started. -/
example : ∃ d' r R, tryInit (startGeo world geo (oracle 2)) settings Iso.one d4 2 [1, 0] = some (d', some r) ∧
    HonestlyReached scene world d' ∧ d'.recons.get r = some R ∧ R.TrueTo scene := by
  obtain ⟨st, hst, _⟩ := found
  have hfree : ∀ x ∈ [1, 0], d4.IsFree x := by
    intro x hx
    exact ⟨_, live (by simp at hx; omega), rfl⟩
  obtain ⟨d', x, h, h0, h1, h2⟩ := C81_try_init (startGeo_fair (W := world) (geo := geo) (fair 2)) (s := settings)
    (by decide) (reachable_consistent (honestly_reachable honest)) (searches 2) (center := 2) ⟨_, live (by decide), rfl⟩
    hfree (by decide) (by decide) Iso.one
  have hmain := C92_true_reconstruction seen exactTri (trueConsensus two_pos) (fair 2) (by decide) honest (searches 2)
    ⟨_, live (by decide), rfl⟩ hfree (by decide) (by decide)
    (fun x hx => parallax (by rintro rfl; simp at hx)) h
  cases x with
  | none =>
    exfalso
    unfold tryInit at h
    rw [hst] at h
    simp only at h
    split at h <;> cases h
  | some r =>
    obtain ⟨R, hR, hT⟩ := hmain.2 r rfl
    exact ⟨d', r, R, h, hmain.1, hR, hT⟩

theorem lost : initReconstruction (startGeo world geo (oracle 4)) settings d4 2 [1, 0] = some none := by
  have o1 : optionView (startGeo world geo (oracle 4)) settings d4 2 32 1 =
      some ⟨1, (scene.motion 2 1).scale (unitOf 4 1), diagonal⟩ := by
    unfold optionView
    simp only [live (by decide : 1 < 3), two_view]
  have o2 : optionView (startGeo world geo (oracle 4)) settings d4 2 32 0 =
      some ⟨0, (scene.motion 2 0).scale (unitOf 4 0), diagonal⟩ := by
    unfold optionView
    simp only [live (by decide : 0 < 3), two_view]
  rw [init_eq (startGeo_fair (fair 4)) (searches 4) (live (by decide : 2 < 3)) (by
    intro x hx
    exact ⟨_, live (by simp at hx; omega)⟩)]
  rw [List.filterMap_cons_some o1, List.filterMap_cons_some o2]
  simp only [List.filterMap_nil, combos, List.map_cons, List.map_nil, List.append_nil, tryPairs]
  have hno : ∀ t ∈ commonMatches diagonal diagonal, (startGeo world geo (oracle 4)).robust 2 1 0 .loose
      ((scene.motion 2 1).scale (unitOf 4 1)) ((scene.motion 2 0).scale (unitOf 4 0)) t = false := by
    intro t ht
    have hc := (mem_common (p := diagonal) (q := diagonal) (by
      intro c f g h h'
      rw [mem_diagonal] at h h'
      rw [← h.1, h'.1]) t).mp ht
    obtain ⟨n, hn, rfl⟩ := List.mem_map.mp (mem_triples.mpr hc)
    have hn := List.mem_range.mp hn
    rw [Bool.eq_false_iff]
    intro h
    have := (loose (by norm_num) n).mp h
    rw [away_dot] at this
    have h1 : (n : ℝ) ≤ 31 := by exact_mod_cast Nat.le_of_lt_succ hn
    have h0 : (0 : ℝ) ≤ n := Nat.cast_nonneg n
    nlinarith
  have hnil : (commonMatches diagonal diagonal).filterMap (fun t =>
      if (startGeo world geo (oracle 4)).robust 2 1 0 .loose
        ((scene.motion 2 1).scale (unitOf 4 1)) ((scene.motion 2 0).scale (unitOf 4 0)) t then
        (startGeo world geo (oracle 4)).ratio 2 1 0 ((scene.motion 2 1).scale (unitOf 4 1))
          ((scene.motion 2 0).scale (unitOf 4 0)) t else none) = [] := by
    rw [List.filterMap_eq_nil_iff]
    intro t ht
    simp only [hno t ht]
    rfl
  have hsh : ∀ l, (startGeo world geo (oracle 4)).shuffleTri l = l := fun _ => rfl
  have : tryPair (startGeo world geo (oracle 4)) settings 2 ⟨1, (scene.motion 2 1).scale (unitOf 4 1), diagonal⟩
      ⟨0, (scene.motion 2 0).scale (unitOf 4 0), diagonal⟩ = some .next := by
    unfold tryPair
    simp only [hsh, hnil]
    rw [if_pos (by decide)]
  simp only [this]

end

/-- **C92** Whether a start is found from exact data depends on the units of length in which the two-view consensus
happens to find the motions, which mean nothing: the common matches from which the ratio of the units is computed have to
pass a test that uses both motions as if they had the same unit. (The comment in the code says that the test should pass
regardless of the unit, but a maximum cosine distance of 1.0 is passed instead of 2.0.) -/
theorem C92_unit_matters_false : ∃ (sc : Scene) (W : World Nat) (geo : StartGeometry) (o o' : StartOracle (Iso ℝ) ℝ)
    (s : StartSettings) (d : Data (Iso ℝ)) (k : Nat → ℝ), sc.Seen W ∧ ExactTriangulator W.triangulate ∧
    CompleteTriangulator W.triangulate ∧ o.Fair ∧ o.Searches d ∧ TrueConsensus sc o ∧ 0 < s.minScales ∧
    (∀ x ∈ [1, 0], sc.Parallax W 2 x ∧ sc.Narrow W 2 x) ∧ (∀ f, 0 < k f) ∧
    o' = { o with consensus := fun a b l => (o.consensus a b l).map (fun x => (x.1.scale (k b), x.2)) } ∧
    (∃ st, initReconstruction (startGeo W geo o) s d 2 [1, 0] = some (some st)) ∧
    initReconstruction (startGeo W geo o') s d 2 [1, 0] = some none := by
  refine ⟨scene, world, geo, oracle 2, oracle 4, settings, d4, fun b => if b = 0 then 2 else 1, seen, exactTri,
    completeTri, fair 2, searches 2, trueConsensus two_pos, by decide, ?_, ?_, ?_, ?_, lost⟩
  · intro x hx
    exact ⟨parallax (by rintro rfl; simp at hx), narrow x⟩
  · intro f
    show (0 : ℝ) < if f = 0 then 2 else 1
    split <;> norm_num
  · have : (oracle 4).consensus = fun a b l => ((oracle 2).consensus a b l).map
        (fun x => (x.1.scale (if b = 0 then 2 else 1), x.2)) := by
      funext a b l
      simp only [oracle, Option.map_some, unitOf]
      split
      · have : ∀ m : Iso ℝ, m.scale 4 = (m.scale 2).scale 2 := by
          intro m
          lin3
        rw [← this]
      · have : ∀ m : Iso ℝ, m.scale 1 = (m.scale 1).scale 1 := by
          intro m
          lin3
        rw [← this]
    rw [← this]
    rfl
  · obtain ⟨st, h, _⟩ := found
    exact ⟨st, h⟩

end Verif.Sfm.ExStart
