import Verif.Model.Evolution
import Mathlib.Algebra.Order.Round
import Mathlib.Analysis.SpecialFunctions.Complex.Arg

/-!
# akaze: finding keypoints

Source: /repo/akaze/src/detector_response.rs and scale_space_extrema.rs, with exact real arithmetic. `none` stands for
a panic.
-/

namespace Verif.Akaze

/-- `f32::round` and `f64::round`: to the nearest integer, halves away from zero. -/
noncomputable def roundAway (x : ℝ) : ℤ := if 0 ≤ x then ⌊x + 1 / 2⌋ else ⌈x - 1 / 2⌉

/-- lib.rs 75-93 `KeyPoint`; `x` and `y` are its `point`. -/
structure KeyPoint where
  x : ℝ
  y : ℝ
  response : ℝ
  size : ℝ
  octave : Nat
  classId : Nat
  angle : ℝ

/-- evolution.rs 6-36 `EvolutionStep`: what finding and describing keypoints uses of a level. -/
structure DetLevel where
  octave : Nat
  esigma : ℝ
  lt : Img ℝ
  lx : Img ℝ
  ly : Img ℝ
  ldet : Img ℝ

/-- detector_response.rs 10-13 and 36-37: the scale of the edge filter in pixels of the level. -/
noncomputable def edgeScale (derivativeFactor : ℝ) (octave : Nat) (esigma : ℝ) : Nat :=
  (roundAway (esigma * derivativeFactor / 2 ^ octave)).toNat

/-- detector_response.rs 33-86 `detector_response` for one level. -/
noncomputable def detLevel (derivativeFactor : ℝ) (s : Scale) : Option DetLevel := do
  let sigma := edgeScale derivativeFactor s.level.octave s.level.esigma
  let lx ← scharrHorizontal s.lsmooth sigma
  let ly ← scharrVertical s.lsmooth sigma
  let ldet ← response s.lsmooth sigma
  pure ⟨s.level.octave, s.level.esigma, s.lt, lx, ly, ldet⟩

/-- A pixel that is larger than the threshold and its neighbours. -/
structure Peak where
  x : Nat
  y : Nat
  v : ℝ

/-- scale_space_extrema.rs 35-60: the test of one pixel. The `n`-th value of an iterator that skips `k` values is
`data[k + n]`; `unwrap` panics after the last one. -/
noncomputable def peakAt (threshold : ℝ) (w : Nat) (data : List ℝ) (i : Nat) : Option (Option Peak) := do
  let n := i - (w + 1)
  let x := i % w
  let y := i / w
  let a ← data[n]?
  let b ← data[1 + n]?
  let c ← data[2 + n]?
  let d ← data[w + n]?
  let v ← data[w + 1 + n]?
  let e ← data[w + 2 + n]?
  let f ← data[2 * w + n]?
  let g ← data[2 * w + 1 + n]?
  let h ← data[2 * w + 2 + n]?
  pure (if x ≠ 0 ∧ x ≠ w - 1 ∧ v > threshold ∧ v > a ∧ v > b ∧ v > c ∧ v > d ∧ v > e ∧ v > f ∧ v > g ∧ v > h then
      some ⟨x, y, v⟩
    else none)

/-- scale_space_extrema.rs 18-60: the peaks of one level, row by row. The length of the data minus a row and a pixel
underflows if there are fewer pixels. -/
noncomputable def peaksOf (threshold : ℝ) (ldet : Img ℝ) : Option (List Peak) :=
  if ldet.data.length < ldet.w + 1 then none
  else ((List.range' (ldet.w + 1) (ldet.data.length - ldet.w - 1 - (ldet.w + 1))).mapM
    (peakAt threshold ldet.w ldet.data)).map (fun l => l.filterMap id)

/-- A keypoint still in pixels of its level, with the size of that level and the power of two between its pixels and
those of the image (scale_space_extrema.rs 18-19 and 69). -/
structure Candidate where
  w : Nat
  h : Nat
  ratio : ℝ
  k : KeyPoint

/-- scale_space_extrema.rs 61-69. -/
noncomputable def candidate (derivativeFactor : ℝ) (l : DetLevel) (e : Nat) (p : Peak) : Candidate :=
  ⟨l.ldet.w, l.ldet.h, 2 ^ l.octave,
    { x := p.x, y := p.y, response := |p.v|, size := l.esigma * derivativeFactor, octave := l.octave, classId := e,
      angle := 0 }⟩

/-- scale_space_extrema.rs 76-83: a keypoint found earlier is too close. -/
noncomputable def tooClose (c : Candidate) (p : KeyPoint) : Bool :=
  let dx := c.k.x * c.ratio - p.x
  let dy := c.k.y * c.ratio - p.y
  decide ((c.k.classId = p.classId ∨ (c.k.classId ≠ 0 ∧ c.k.classId - 1 = p.classId)) ∧
    dx * dx + dy * dy ≤ c.k.size * c.k.size)

/-- scale_space_extrema.rs 16. -/
noncomputable def smax : ℝ := 10 * √2

/-- scale_space_extrema.rs 70 and 97-104: the surroundings of the keypoint leave the image. -/
noncomputable def isOut (c : Candidate) : Bool :=
  let sigma := (roundAway (c.k.size / c.ratio) : ℝ)
  let left := roundAway (c.k.x - smax * sigma) - 1
  let right := roundAway (c.k.x + smax * sigma) + 1
  let up := roundAway (c.k.y - smax * sigma) - 1
  let down := roundAway (c.k.y + smax * sigma) + 1
  decide (left < 0 ∨ right ≥ (c.w : ℤ) ∨ up < 0 ∨ down ≥ (c.h : ℤ))

/-- scale_space_extrema.rs 106-109: the keypoint in pixels of the image. -/
noncomputable def stored (c : Candidate) : KeyPoint :=
  { c.k with
    x := c.k.x * c.ratio + 1 / 2 * (c.ratio - 1)
    y := c.k.y * c.ratio + 1 / 2 * (c.ratio - 1) }

/-- scale_space_extrema.rs 72-116: one candidate is added to the cache, replaces the first keypoint it is too close
to, or is dropped. -/
noncomputable def addCandidate (cache : List KeyPoint) (c : Candidate) : List KeyPoint :=
  match cache.findIdx? (tooClose c) with
  | none => if isOut c then cache else cache ++ [stored c]
  | some id =>
    match cache[id]? with
    | none => cache
    | some prev => if c.k.response > prev.response then (if isOut c then cache else cache.set id (stored c)) else cache

/-- scale_space_extrema.rs 121-140: keypoints are dropped that a later one of the next class is close to and not
weaker than. -/
noncomputable def filterUpper : List KeyPoint → List KeyPoint
  | [] => []
  | ki :: rest =>
    if rest.any (fun kj => decide (ki.classId + 1 = kj.classId ∧
        (ki.x - kj.x) * (ki.x - kj.x) + (ki.y - kj.y) * (ki.y - kj.y) ≤ ki.size * ki.size ∧
        ki.response ≤ kj.response))
    then filterUpper rest
    else ki :: filterUpper rest

/-- scale_space_extrema.rs 17-69: all candidates in order. The program compares each with the cache before it looks
for the next one; looking for it does not depend on the cache. -/
noncomputable def candidates (threshold derivativeFactor : ℝ) (levels : List DetLevel) : Option (List Candidate) :=
  ((levels.zipIdx).mapM (fun p =>
    (peaksOf threshold p.1.ldet).map (fun ps => ps.map (candidate derivativeFactor p.1 p.2)))).map List.flatten

/-- scale_space_extrema.rs 14-143 `find_scale_space_extrema`. -/
noncomputable def findExtrema (threshold derivativeFactor : ℝ) (levels : List DetLevel) : Option (List KeyPoint) :=
  (candidates threshold derivativeFactor levels).map (fun cs => filterUpper (cs.foldl addCandidate []))

end Verif.Akaze
