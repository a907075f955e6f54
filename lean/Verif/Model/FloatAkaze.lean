import Verif.Model.FloatArith
import Verif.Model.Descriptor

/-!
# akaze: extraction with floating point numbers

Source: /repo/akaze/src. `F` is `f32` and `D` is `f64`, with any rounding, overflow and NaN. `none` stands for a panic
or a loop that does not end. The filters, halving and diffusion are those of the model of images, with the operations of
`F`; there a fused multiplication and addition is two operations, and the order of a sum of four is fixed.
-/

namespace Verif.Akaze

open FloatOps FloatCast

variable {F D : Type} [FloatOps F] [FloatOps D] [FloatCast F D]

/-! ## Blurring and derivatives -/

/-- image.rs 349-351 `gaussian`. -/
def fgaussian (r : F) (x : ℤ) : F :=
  1 / (sqrt (2 * pi) * r) * exp (-(ofInt x * ofInt x) / (2 * (r * r)))

/-- image.rs 360-374 `gaussian_kernel`. -/
def fgaussianKernel (r : F) (size : Nat) : Option (List F) :=
  if size % 2 ≠ 1 then none
  else
    let raw := (List.range size).map (fun i : Nat => fgaussian r ((i : ℤ) - ((size / 2 : Nat) : ℤ)))
    let sum := raw.foldl (· + ·) 0
    some (raw.map (· / sum))

/-- image.rs 383-389 `gaussian_blur`. The size of the kernel must fit a `usize`. -/
def fblur (image : Img F) (r : F) : Option (Img F) :=
  if lt 0 r then
    let radius := toNat (ceil (2 * r))
    if radius * 2 + 1 < 2 ^ 64 then do
      let kernel ← fgaussianKernel r (radius * 2 + 1)
      separableFilter image kernel kernel
    else none
  else none

/-- derivatives.rs 57-79 with `FilterOrder::Main`. The size is computed with `u32`. -/
def fscharrMain (sigma : Nat) : Option (List F) :=
  if sigma = 0 ∨ 2 ^ 32 ≤ 3 + 2 * (sigma - 1) then none
  else
    let ksize := 3 + 2 * (sigma - 1)
    some (((List.replicate ksize 0).set 0 (-1)).set (ksize - 1) 1)

variable (D) in
/-- derivatives.rs 57-79 with `FilterOrder::Off`. -/
def fscharrOff (sigma : Nat) : Option (List F) :=
  if sigma = 0 ∨ 2 ^ 32 ≤ 3 + 2 * (sigma - 1) then none
  else
    let w : D := 10 / 3
    let norm : F := narrow (1 / (2 * (sigma : D) * (w + 2)))
    let middle := norm * narrow w
    let ksize := 3 + 2 * (sigma - 1)
    some ((((List.replicate ksize 0).set 0 norm).set (ksize / 2) middle).set (ksize - 1) norm)

variable (D) in
/-- derivatives.rs 23-30 `scharr_horizontal`. -/
def fscharrHorizontal (image : Img F) (sigma : Nat) : Option (Img F) :=
  if sigma = 1 then simpleScharrHorizontal image
  else do
    let main ← fscharrMain sigma
    let off ← fscharrOff D sigma
    separableFilter image main off

variable (D) in
/-- derivatives.rs 42-49 `scharr_vertical`. -/
def fscharrVertical (image : Img F) (sigma : Nat) : Option (Img F) :=
  if sigma = 1 then simpleScharrVertical image
  else do
    let main ← fscharrMain sigma
    let off ← fscharrOff D sigma
    separableFilter image off main

/-! ## The contrast factor -/

/-- contrast_factor.rs 27-29 (also 37): the squared gradients of the pixels not at the border. -/
def fsquares (lx ly : Img F) (ps : List (Nat × Nat)) : Option (List D) :=
  ps.mapM (fun p => do
    let a ← lx.get p.1 p.2
    let b ← ly.get p.1 p.2
    pure (widen (a * a) + widen (b * b)))

/-- contrast_factor.rs 30-34 `.map(FloatOrd).max().unwrap()`. -/
def fmaximum : List D → Option D
  | [] => none
  | a :: l => some (l.foldl (fun m x => if ordLe m x then x else m) a)

/-- contrast_factor.rs 39-42: the bin of a gradient. -/
def fbinNumber (bins : Nat) (modg hmax : D) : Option Nat :=
  let b := toNat (floor ((bins : D) * (modg / hmax)))
  if b = bins then (if b = 0 then none else some (b - 1)) else some b

/-- contrast_factor.rs 35-47: fill the histogram, counting the points. -/
def ffillHistogram (bins : Nat) (hmax : D) : List D → List Nat → D → Option (List Nat × D)
  | [], hist, points => some (hist, points)
  | sq :: rest, hist, points => do
    let modg := sqrt sq
    if eq modg 0 then ffillHistogram bins hmax rest hist points
    else do
      let b ← fbinNumber bins modg hmax
      let hist ← bump hist b
      ffillHistogram bins hmax rest hist (points + 1)

/-- contrast_factor.rs 26-63: from the derivative images to the factor. -/
def fcontrastOf (lx ly : Img F) (w h : Nat) (percentile : D) (bins : Nat) : Option D := do
  let sq ← fsquares lx ly (interior w h)
  let m ← fmaximum sq
  let hmax := sqrt m
  let (hist, points) ← ffillHistogram bins hmax sq (List.replicate bins 0) 0
  let threshold := toNat (points * percentile)
  let (elements, k) := walkBins threshold hist 0 0
  if threshold ≤ elements then some (hmax * (k : D) / (bins : D)) else some (lit (3 / 100))

/-- contrast_factor.rs 16-64 `compute_contrast_factor`. -/
def fcontrastFactor (image : Img F) (percentile scale : D) (bins : Nat) : Option D := do
  let g ← fblur image (narrow scale)
  let lx ← simpleScharrHorizontal g
  let ly ← simpleScharrVertical g
  fcontrastOf lx ly g.w g.h percentile bins

/-! ## The scale space -/

/-- lib.rs 109-142 `Akaze`. -/
structure FSettings (D : Type) where
  maximumFeatures : Nat
  numSublevels : Nat
  maxOctave : Nat
  baseScale : D
  contrastPercentile : D
  contrastBins : Nat
  derivativeFactor : D
  threshold : D
  channels : Nat
  patternSize : Nat

variable (D) in
/-- lib.rs 169-185 `Akaze::default`. The number of features is `usize::MAX`. -/
def FSettings.default : FSettings D :=
  ⟨2 ^ 64 - 1, 4, 4, lit (16 / 10), lit (7 / 10), 300, lit (15 / 10), lit (1 / 1000), 3, 10⟩

/-- evolution.rs 6-16 and 36 `EvolutionStep` without the images; `sigma_size` is not used. -/
structure FLevel (D : Type) where
  octave : Nat
  esigma : D
  etime : D
  steps : List D

/-- evolution.rs 46-70 `EvolutionStep::new`. -/
def fnewLevel (s : FSettings D) (octave sublevel : Nat) : FLevel D :=
  let esigma := s.baseScale * pow 2 ((sublevel : D) / (s.numSublevels : D) + (octave : D))
  ⟨octave, esigma, lit (1 / 2) * (esigma * esigma), []⟩

/-- evolution.rs 82-107: octave and sublevel of all levels, in order. A `u32` times a power of two is exact in `f64`. -/
def flevelNumbers (s : FSettings D) (w h : Nat) : List (Nat × Nat) :=
  (List.range s.maxOctave).flatMap (fun o =>
    let smallest := min (w / 2 ^ o) (h / 2 ^ o)
    (List.range (if smallest < 40 then 0 else if smallest < 80 then 1 else s.numSublevels)).map (fun i => (o, i)))

/-- fed_tau.rs 44: the number of steps. -/
def fstepCount (t tauMax : D) : Nat :=
  toNat (ceil (sqrt (3 * t / tauMax + lit (1 / 4)) - lit (1 / 2) - lit (1 / 10 ^ 8)) + lit (1 / 2))

/-- fed_tau.rs 61-68: step number `k` of `n`. -/
def ftauStep (n : Nat) (scale tauMax : D) (k : Nat) : D :=
  let c := 1 / (4 * (n : D) + 2)
  let d := scale * tauMax / 2
  let h := cos (pi * (2 * (k : D) + 1) * c)
  d / (h * h)

/-- fed_tau.rs 26-93 `fed_tau_by_process_time` with one cycle and reordering. `n * (n + 1)` must fit a `usize`. -/
noncomputable def ffedSteps (time tauMax : D) : Option (List D) :=
  let t := time / 1
  let n := fstepCount t tauMax
  if 2 ^ 64 ≤ n * (n + 1) then none
  else
    let scale := 3 * t / (tauMax * ((n * (n + 1) : Nat) : D))
    (collectIndices n (n / 2) (nextPrime n) n 0).bind
      (List.mapM (fun i => ((List.range n).map (ftauStep n scale tauMax))[i]?))

/-- evolution.rs 114-124: the time steps of every level but the first. -/
noncomputable def fsetSteps : D → List (FLevel D) → Option (List (FLevel D))
  | _, [] => some []
  | before, l :: ls => do
    let steps ← ffedSteps (l.etime - before) (lit (1 / 4))
    let rest ← fsetSteps l.etime ls
    pure ({ l with steps := steps } :: rest)

/-- evolution.rs 80-126 `allocate_evolutions`. -/
noncomputable def fallocate (s : FSettings D) (w h : Nat) : Option (List (FLevel D)) :=
  match (flevelNumbers s w h).map (fun p => fnewLevel s p.1 p.2) with
  | [] => some []
  | l :: rest => do
    let rest ← fsetSteps l.etime rest
    pure (l :: rest)

/-- nonlinear_diffusion.rs 70-84 `pm_g2`. -/
def fpmG2 (lx ly : Img F) (k : D) : Option (Img F) :=
  if lx.w ≠ ly.w ∨ lx.h ≠ ly.h then none
  else
    let inverseK : F := narrow (1 / (k * k))
    Img.ofFnM lx.w lx.h (fun x y => do
      let a ← lx.get x y
      let b ← ly.get x y
      pure (1 / (1 + inverseK * (a * a + b * b))))

/-- A level with its images. -/
structure FScale (F D : Type) where
  level : FLevel D
  lt : Img F
  lsmooth : Img F

/-- lib.rs 218-257: the levels after the first. -/
def flaterScales : D → Nat → Img F → List (FLevel D) → Option (List (FScale F D))
  | _, _, _, [] => some []
  | contrast, octave, before, l :: ls => do
    let start ← if octave < l.octave then halfSize before else some before
    let contrast := if octave < l.octave then contrast * lit (3 / 4) else contrast
    let lsmooth ← fblur start 1
    let lx ← simpleScharrHorizontal lsmooth
    let ly ← simpleScharrVertical lsmooth
    let lflow ← fpmG2 lx ly contrast
    let lt ← diffuse start lflow (l.steps.map narrow)
    let rest ← flaterScales contrast l.octave lt ls
    pure (⟨l, lt, lsmooth⟩ :: rest)

/-- lib.rs 193-258 `create_nonlinear_scale_space`. -/
def fcreateScaleSpace (s : FSettings D) (levels : List (FLevel D)) (image : Img F) : Option (List (FScale F D)) :=
  match levels with
  | [] => none
  | l :: ls => do
    let lt ← fblur image (narrow s.baseScale)
    let contrast ← fcontrastFactor image s.contrastPercentile 1 s.contrastBins
    let rest ← flaterScales contrast l.octave lt ls
    pure (⟨l, lt, lt⟩ :: rest)

/-! ## Finding keypoints -/

/-- lib.rs 75-93 `KeyPoint`; `x` and `y` are its `point`. -/
structure FKeyPoint (F : Type) where
  x : F
  y : F
  response : F
  size : F
  octave : Nat
  classId : Nat
  angle : F

/-- evolution.rs 6-36 `EvolutionStep`: what finding and describing keypoints uses of a level. -/
structure FDetLevel (F D : Type) where
  octave : Nat
  esigma : D
  lt : Img F
  lx : Img F
  ly : Img F
  ldet : Img F

/-- detector_response.rs 11-13 and 36-37. -/
def fedge (derivativeFactor : D) (octave : Nat) (esigma : D) : D :=
  round (esigma * derivativeFactor / ((2 ^ octave : Nat) : D))

/-- `as u32`. -/
def toU32 (d : D) : Nat := min (toNat d) (2 ^ 32 - 1)

/-- detector_response.rs 33-86 `detector_response` for one level. -/
def fdetLevel (derivativeFactor : D) (s : FScale F D) : Option (FDetLevel F D) := do
  let size := fedge derivativeFactor s.level.octave s.level.esigma
  let sigma := toU32 size
  let lx ← fscharrHorizontal D s.lsmooth sigma
  let ly ← fscharrVertical D s.lsmooth sigma
  let lxx ← fscharrHorizontal D lx sigma
  let lyy ← fscharrVertical D ly sigma
  let lxy ← fscharrVertical D lx sigma
  let quat : F := narrow (size * size * (size * size))
  if lyy.w ≠ lxx.w ∨ lyy.h ≠ lxx.h ∨ lxy.w ≠ lxx.w ∨ lxy.h ≠ lxx.h then none
  else do
    let ldet ← Img.ofFnM lxx.w lxx.h (fun x y => do
      let a ← lxx.get x y
      let b ← lyy.get x y
      let c ← lxy.get x y
      pure ((a * b - c * c) * quat))
    pure ⟨s.level.octave, s.level.esigma, s.lt, lx, ly, ldet⟩

/-- A pixel that is larger than the threshold and its neighbours. -/
structure FPeak (F : Type) where
  x : Nat
  y : Nat
  v : F

/-- scale_space_extrema.rs 35-60: the test of one pixel, as `peakAt`. -/
def fpeakAt (threshold : F) (w : Nat) (data : List F) (i : Nat) : Option (Option (FPeak F)) := do
  let n := i - (w + 1)
  let x := i % w
  let y := i / w
  let a ← data[n]?
  let b ← data[1 + n]?
  let c ← data[2 + n]?
  let d ← data[w + n]?
  let v ← data[w + 1 + n]?
  let e ← data[w + 2 + n]?
  let f ← data[2 * w + n]?
  let g ← data[2 * w + 1 + n]?
  let h ← data[2 * w + 2 + n]?
  pure (if x ≠ 0 ∧ x ≠ w - 1 ∧ lt threshold v ∧ lt a v ∧ lt b v ∧ lt c v ∧ lt d v ∧ lt e v ∧ lt f v ∧ lt g v ∧ lt h v then
      some ⟨x, y, v⟩
    else none)

/-- scale_space_extrema.rs 18-60: the peaks of one level, row by row. -/
def fpeaksOf (threshold : F) (ldet : Img F) : Option (List (FPeak F)) :=
  if ldet.data.length < ldet.w + 1 then none
  else ((List.range' (ldet.w + 1) (ldet.data.length - ldet.w - 1 - (ldet.w + 1))).mapM
    (fpeakAt threshold ldet.w ldet.data)).map (fun l => l.filterMap id)

/-- A keypoint still in pixels of its level, as `Candidate`. -/
structure FCandidate (F : Type) where
  w : Nat
  h : Nat
  ratio : F
  k : FKeyPoint F

/-- scale_space_extrema.rs 61-69. -/
def fcandidate (derivativeFactor : D) (l : FDetLevel F D) (e : Nat) (p : FPeak F) : FCandidate F :=
  ⟨l.ldet.w, l.ldet.h, pow 2 (l.octave : F),
    { x := (p.x : F), y := (p.y : F), response := abs p.v, size := narrow (l.esigma * derivativeFactor),
      octave := l.octave, classId := e, angle := 0 }⟩

/-- scale_space_extrema.rs 76-83: a keypoint found earlier is too close. -/
def ftooClose (c : FCandidate F) (p : FKeyPoint F) : Bool :=
  let dx := c.k.x * c.ratio - p.x
  let dy := c.k.y * c.ratio - p.y
  decide (c.k.classId = p.classId ∨ (c.k.classId ≠ 0 ∧ c.k.classId - 1 = p.classId)) &&
    le (dx * dx + dy * dy) (c.k.size * c.k.size)

/-- scale_space_extrema.rs 70 and 97-104: the surroundings of the keypoint leave the image. -/
def fisOut (c : FCandidate F) : Bool :=
  let smax : F := 10 * sqrt 2
  let sigma := round (c.k.size / c.ratio)
  let left := round (c.k.x - smax * sigma) - 1
  let right := round (c.k.x + smax * sigma) + 1
  let up := round (c.k.y - smax * sigma) - 1
  let down := round (c.k.y + smax * sigma) + 1
  lt left 0 || le (c.w : F) right || lt up 0 || le (c.h : F) down

/-- scale_space_extrema.rs 106-109: the keypoint in pixels of the image. -/
def fstored (c : FCandidate F) : FKeyPoint F :=
  { c.k with
    x := c.k.x * c.ratio + lit (1 / 2) * (c.ratio - 1)
    y := c.k.y * c.ratio + lit (1 / 2) * (c.ratio - 1) }

/-- scale_space_extrema.rs 72-116, as `addCandidate`. -/
def faddCandidate (cache : List (FKeyPoint F)) (c : FCandidate F) : List (FKeyPoint F) :=
  match cache.findIdx? (ftooClose c) with
  | none => if fisOut c then cache else cache ++ [fstored c]
  | some id =>
    match cache[id]? with
    | none => cache
    | some prev =>
      if lt prev.response c.k.response then (if fisOut c then cache else cache.set id (fstored c)) else cache

/-- scale_space_extrema.rs 121-140, as `filterUpper`. -/
def ffilterUpper : List (FKeyPoint F) → List (FKeyPoint F)
  | [] => []
  | ki :: rest =>
    if rest.any (fun kj => decide (ki.classId + 1 = kj.classId) &&
        le ((ki.x - kj.x) * (ki.x - kj.x) + (ki.y - kj.y) * (ki.y - kj.y)) (ki.size * ki.size) &&
        le ki.response kj.response)
    then ffilterUpper rest
    else ki :: ffilterUpper rest

/-- scale_space_extrema.rs 17-69: all candidates in order. -/
def fcandidates (threshold derivativeFactor : D) (levels : List (FDetLevel F D)) : Option (List (FCandidate F)) :=
  ((levels.zipIdx).mapM (fun p =>
    (fpeaksOf (narrow threshold) p.1.ldet).map (fun ps => ps.map (fcandidate derivativeFactor p.1 p.2)))).map List.flatten

/-- scale_space_extrema.rs 14-143 `find_scale_space_extrema`. -/
def ffindExtrema (threshold derivativeFactor : D) (levels : List (FDetLevel F D)) : Option (List (FKeyPoint F)) :=
  (fcandidates threshold derivativeFactor levels).map (fun cs => ffilterUpper (cs.foldl faddCandidate []))

/-! ## Place and orientation -/

/-- scale_space_extrema.rs 160-226 `GAUSS25`. -/
def fgauss25 : List (List F) :=
  [[2546481, 2350698, 1849125, 1239505, 708017, 344629, 142946],
    [2350698, 2169968, 1706957, 1144208, 653582, 318132, 131956],
    [1849125, 1706957, 1342740, 900066, 514126, 250252, 103800],
    [1239505, 1144208, 900066, 603332, 344629, 167749, 69579],
    [708017, 653582, 514126, 344629, 196855, 95820, 39744],
    [344629, 318132, 250252, 167749, 95820, 46640, 19346],
    [142946, 131956, 103800, 69579, 39744, 19346, 8024]].map (List.map (fun n : Nat => lit ((n : ℚ) / 10 ^ 8)))

/-- scale_space_extrema.rs 233 and 250: the weight of a sample. -/
def fgweight (i j : ℤ) : Option F := do
  let row ← (fgauss25 : List (List F))[j.natAbs]?
  row[i.natAbs]?

/-- scale_space_extrema.rs 242 `cv_fast_atan2_equiv`. -/
def ffastAtan2 (y x : F) : F := FloatOps.remEuclid (atan2 y x + 2 * pi) (2 * pi)

/-- scale_space_extrema.rs 248-253: one weighted gradient. -/
def fgradientSample (l : FDetLevel F D) (xf yf s : F) (p : ℤ × ℤ) : Option (F × F) := do
  let iy := toNat (round (yf + ofInt p.2 * s))
  let ix := toNat (round (xf + ofInt p.1 * s))
  let g ← fgweight p.1 p.2
  let rx ← l.lx.get ix iy
  let ry ← l.ly.get ix iy
  pure (g * rx, g * ry)

/-- scale_space_extrema.rs 264-272: whether an angle is in the window that starts at `ang1`. -/
def finWindow (ang1 ang : F) : Bool :=
  let ang2 := if lt (2 * pi) (ang1 + pi / 3) then ang1 - 5 * pi / 3 else ang1 + pi / 3
  (lt ang1 ang2 && lt ang1 ang && lt ang ang2) ||
    (lt ang2 ang1 && ((lt 0 ang && lt ang ang2) || (lt ang1 ang && lt ang (2 * pi))))

/-- scale_space_extrema.rs 262-277: the sum of the gradients in a window. -/
def fwindowSum (samples : List (F × F)) (ang1 : F) : F × F :=
  samples.foldl (fun s r => if finWindow ang1 (ffastAtan2 r.2 r.1) then (s.1 + r.1, s.2 + r.2) else s) (0, 0)

/-- scale_space_extrema.rs 259-287: the loop over the windows; `none` if it has not ended after `fuel` rounds. -/
def fwindowLoop (samples : List (F × F)) : Nat → F → F × F → Option F
  | fuel, ang1, b =>
    if lt ang1 (2 * pi) then
      match fuel with
      | 0 => none
      | fuel + 1 =>
        let s := fwindowSum samples ang1
        let val := s.1 * s.1 + s.2 * s.2
        fwindowLoop samples fuel (ang1 + lit (15 / 100)) (if lt b.1 val then (val, ffastAtan2 s.2 s.1) else b)
    else some b.2

/-- scale_space_extrema.rs 228-288 `compute_main_orientation`. The loop gets 64 rounds. -/
def fmainOrientation (levels : List (FDetLevel F D)) (k : FKeyPoint F) : Option (FKeyPoint F) := do
  let l ← levels[k.classId]?
  let ratio : F := ((2 ^ l.octave : Nat) : F)
  let s := round (lit (1 / 2) * k.size / ratio)
  let samples ← offsets.mapM (fgradientSample l (k.x / ratio) (k.y / ratio) s)
  let angle ← fwindowLoop samples 64 0 (0, k.angle)
  pure { k with angle := angle }

/-- scale_space_extrema.rs 314-333: the step to the stationary point. -/
def fnewtonStep (xi xp xm yp ym xpyp xpym xmyp xmym : F) : F × F :=
  let dx := lit (1 / 2) * (xp - xm)
  let dy := lit (1 / 2) * (yp - ym)
  let dxx := xp + xm - 2 * xi
  let dyy := yp + ym - 2 * xi
  let dxy := lit (1 / 4) * (xpyp + xmym) - lit (1 / 4) * (xpym + xmyp)
  let inv := 1 / (dxx * dyy - dxy * dxy)
  (-dx * (inv * dyy) + -dy * (inv * -dxy), -dx * (inv * -dxy) + -dy * (inv * dxx))

/-- scale_space_extrema.rs 301-348: one keypoint; `some none` if it is dropped. `x - 1` underflows at the border. -/
def frefineKeypoint (levels : List (FDetLevel F D)) (k : FKeyPoint F) : Option (Option (FKeyPoint F)) := do
  let ratio : F := pow 2 (k.octave : F)
  let x := toNat (round (k.x / ratio))
  let y := toNat (round (k.y / ratio))
  let l ← levels[k.classId]?
  if x = 0 ∨ y = 0 then none
  else
    let xi ← l.ldet.get x y
    let xp ← l.ldet.get (x + 1) y
    let xm ← l.ldet.get (x - 1) y
    let yp ← l.ldet.get x (y + 1)
    let ym ← l.ldet.get x (y - 1)
    let xpyp ← l.ldet.get (x + 1) (y + 1)
    let xpym ← l.ldet.get (x + 1) (y - 1)
    let xmyp ← l.ldet.get (x - 1) (y + 1)
    let xmym ← l.ldet.get (x - 1) (y - 1)
    let dst := fnewtonStep xi xp xm yp ym xpyp xpym xmyp xmym
    if le (abs dst.1) 1 && le (abs dst.2) 1 then
      let power : F := pow 2 (l.octave : F)
      if eq k.angle 0 then
        (fmainOrientation levels { k with
          x := ((x : F) + dst.1) * power + lit (1 / 2) * (power - 1)
          y := ((y : F) + dst.2) * power + lit (1 / 2) * (power - 1)
          size := k.size * 2 }).map some
      else none
    else pure none

/-- scale_space_extrema.rs 153-157 and 297-362. -/
def fdetectKeypoints (threshold derivativeFactor : D) (levels : List (FDetLevel F D)) : Option (List (FKeyPoint F)) := do
  let ks ← ffindExtrema threshold derivativeFactor levels
  (ks.mapM (frefineKeypoint levels)).map (fun l => l.filterMap id)

/-! ## Descriptors -/

/-- descriptors.rs 66-71. -/
structure FFrame (F : Type) where
  xf : F
  yf : F
  co : F
  si : F
  scale : F

/-- descriptors.rs 66-71. -/
def fframeOf (k : FKeyPoint F) : FFrame F :=
  let ratio : F := ((2 ^ k.octave : Nat) : F)
  { xf := k.x / ratio, yf := k.y / ratio, co := cos k.angle, si := sin k.angle,
    scale := round (lit (1 / 2) * k.size / ratio) }

/-- descriptors.rs 125-157: the sums `di`, `dx` and `dy` after one more sample. -/
def fsampleValue (channels : Nat) (lv : FDetLevel F D) (fr : FFrame F) (sum : F × F × F) (k l : ℤ) :
    Except Fault (F × F × F) := do
  let lf : F := ofInt l
  let kf : F := ofInt k
  let sampleY := fr.yf + (lf * fr.co * fr.scale + kf * fr.si * fr.scale)
  let sampleX := fr.xf + (-lf * fr.si * fr.scale + kf * fr.co * fr.scale)
  let y1 := toInt (round sampleY)
  let x1 := toInt (round sampleX)
  if ¬ (0 ≤ x1 ∧ x1 < lv.lt.w) ∨ ¬ (0 ≤ y1 ∧ y1 < lv.lt.h) then .error .outOfBounds
  else
    let ri ← orPanic (lv.lt.get x1.toNat y1.toNat)
    if channels > 1 then
      let rx ← orPanic (lv.lx.get x1.toNat y1.toNat)
      let ry ← orPanic (lv.ly.get x1.toNat y1.toNat)
      if channels = 2 then pure (sum.1 + ri, sum.2.1 + sqrt (rx * rx + ry * ry), sum.2.2)
      else pure (sum.1 + ri, sum.2.1 + (-rx * fr.si + ry * fr.co), sum.2.2 + (rx * fr.co + ry * fr.si))
    else pure (sum.1 + ri, sum.2.1, sum.2.2)

/-- descriptors.rs 119-163: the means over one cell. -/
def fcellValue (channels step : Nat) (lv : FDetLevel F D) (fr : FFrame F) (i j : ℤ) : Except Fault (F × F × F) := do
  let sum ← ((intRange i step).flatMap (fun k => (intRange j step).map (fun l => (k, l)))).foldlM
    (fun sum p => fsampleValue channels lv fr sum p.1 p.2) (0, 0, 0)
  let n : F := ((step * step : Nat) : F)
  pure (sum.1 / n, sum.2.1 / n, sum.2.2 / n)

/-- descriptors.rs 165-173: the means go to the buffer. -/
def fstoreCell (channels : Nat) (st : List F × Nat) (v : F × F × F) : Except Fault (List F × Nat) := do
  let values ← writeAt st.1 st.2 v.1
  let values ← writeIf (channels > 1) values (st.2 + 1) v.2.1
  let values ← writeIf (channels > 2) values (st.2 + 2) v.2.2
  pure (values, st.2 + channels)

/-- descriptors.rs 100-177 `mldb_fill_values`. A step of zero panics in `step_by`. -/
def ffillValues (p channels step : Nat) (lv : FDetLevel F D) (fr : FFrame F) (values : List F) :
    Except Fault (List F) :=
  if step = 0 then .error .panic
  else do
    let st ← ((starts p step).flatMap (fun i => (starts p step).map (fun j => (i, j)))).foldlM (fun st c => do
      let v ← fcellValue channels step lv fr c.1 c.2
      fstoreCell channels st v) (values, 0)
    pure st.1

/-- descriptors.rs 190-198: one comparison sets one bit. -/
def fcompareOne (channels : Nat) (values : List F) (st : List (BitVec 8) × Nat) (c : Nat × Nat × Nat) :
    Except Fault (List (BitVec 8) × Nat) := do
  let ival ← orPanic values[channels * c.2.1 + c.1]?
  let jval ← orPanic values[channels * c.2.2 + c.1]?
  let res : BitVec 8 := if lt jval ival then 1 else 0
  let byte ← orPanic st.1[st.2 / 8]?
  let desc ← writeAt st.1 (st.2 / 8) (byte ||| (res <<< (st.2 % 8)))
  pure (desc, st.2 + 1)

/-- descriptors.rs 64: the widths of the cells relative to the pattern. -/
def fsizeMult : List F := [1, 2 / 3, 1 / 2]

/-- descriptors.rs 55-98 `get_mldb_descriptor`. -/
def fmldbDescriptor (p channels : Nat) (levels : List (FDetLevel F D)) (k : FKeyPoint F) :
    Except Fault (List (BitVec 8)) := do
  if 3 < channels then .error .panic
  else
    let lv ← orPanic levels[k.classId]?
    let st ← (fsizeMult : List F).zipIdx.foldlM (fun (st : List F × List (BitVec 8) × Nat) (m : F × Nat) => do
      let values ← ffillValues p channels (toNat (ceil ((p : F) * m.1))) lv (fframeOf k) st.1
      let out ← (comparisons channels ((m.2 + 2) * (m.2 + 2))).foldlM (fcompareOne channels values) st.2
      pure (values, out)) (List.replicate 48 0, List.replicate 64 0, 0)
    pure st.2.1

/-- descriptors.rs 16-45 `extract_descriptors` as a list of pairs. Keypoints without a descriptor are dropped. -/
def fextractDescriptors (p channels : Nat) (levels : List (FDetLevel F D)) :
    List (FKeyPoint F) → Option (List (FKeyPoint F × List (BitVec 8)))
  | [] => some []
  | k :: ks =>
    match fmldbDescriptor p channels levels k with
    | .error .panic => none
    | .error .outOfBounds => fextractDescriptors p channels levels ks
    | .ok d => (fextractDescriptors p channels levels ks).map (fun l => (k, d) :: l)

/-- lib.rs 309-339 `extract_from_gray_float_image`. `sort` is `sort_unstable_by_key` with the response, largest first. -/
noncomputable def fextract (s : FSettings D) (sort : List (FKeyPoint F) → List (FKeyPoint F)) (image : Img F) :
    Option (List (FKeyPoint F) × List (List (BitVec 8))) := do
  let levels ← fallocate s image.w image.h
  let scales ← fcreateScaleSpace s levels image
  let levels ← scales.mapM (fdetLevel s.derivativeFactor)
  let ks ← fdetectKeypoints s.threshold s.derivativeFactor levels
  let found ← fextractDescriptors s.patternSize s.channels levels ((sort ks).take s.maximumFeatures)
  pure found.unzip

end Verif.Akaze
