import Verif.Model.Detect

/-!
# akaze: the exact place and the orientation of keypoints

Source: /repo/akaze/src/scale_space_extrema.rs 153-362, with exact real arithmetic. `none` stands for a panic.
-/

namespace Verif.Akaze

/-- scale_space_extrema.rs 160-226 `GAUSS25`. -/
noncomputable def gauss25 : List (List ℝ) :=
  [[0.02546481, 0.02350698, 0.01849125, 0.01239505, 0.00708017, 0.00344629, 0.00142946],
    [0.02350698, 0.02169968, 0.01706957, 0.01144208, 0.00653582, 0.00318132, 0.00131956],
    [0.01849125, 0.01706957, 0.01342740, 0.00900066, 0.00514126, 0.00250252, 0.00103800],
    [0.01239505, 0.01144208, 0.00900066, 0.00603332, 0.00344629, 0.00167749, 0.00069579],
    [0.00708017, 0.00653582, 0.00514126, 0.00344629, 0.00196855, 0.00095820, 0.00039744],
    [0.00344629, 0.00318132, 0.00250252, 0.00167749, 0.00095820, 0.00046640, 0.00019346],
    [0.00142946, 0.00131956, 0.00103800, 0.00069579, 0.00039744, 0.00019346, 0.00008024]]

/-- scale_space_extrema.rs 233 and 250: the weight of a sample. `id[j + 6]` is the absolute value of `j`. -/
noncomputable def gweight (i j : ℤ) : Option ℝ := do
  let row ← gauss25[j.natAbs]?
  row[i.natAbs]?

/-- scale_space_extrema.rs 245-247: where the samples are, in order, as pairs `i`, `j`. -/
def offsets : List (ℤ × ℤ) :=
  ((List.range 13).flatMap (fun j : Nat => (List.range 13).map (fun i : Nat => ((i : ℤ) - 6, (j : ℤ) - 6)))).filter
    (fun p => p.1 * p.1 + p.2 * p.2 < 36)

/-- `f32::rem_euclid`. -/
noncomputable def remEuclid (x m : ℝ) : ℝ := x - m * ⌊x / m⌋

/-- scale_space_extrema.rs 242 `cv_fast_atan2_equiv`. `f32::atan2` gives the argument of a complex number. -/
noncomputable def fastAtan2 (y x : ℝ) : ℝ :=
  remEuclid ((⟨x, y⟩ : ℂ).arg + 2 * Real.pi) (2 * Real.pi)

/-- scale_space_extrema.rs 248-253: one weighted gradient. Negative positions become zero in the conversion to an
unsigned number. -/
noncomputable def gradientSample (l : DetLevel) (xf yf s : ℝ) (p : ℤ × ℤ) : Option (ℝ × ℝ) := do
  let iy := (roundAway (yf + p.2 * s)).toNat
  let ix := (roundAway (xf + p.1 * s)).toNat
  let g ← gweight p.1 p.2
  let rx ← l.lx.get ix iy
  let ry ← l.ly.get ix iy
  pure (g * rx, g * ry)

/-- scale_space_extrema.rs 264-272: whether an angle is in the window that starts at `ang1`. -/
noncomputable def inWindow (ang1 ang : ℝ) : Bool :=
  let ang2 := if ang1 + Real.pi / 3 > 2 * Real.pi then ang1 - 5 * Real.pi / 3 else ang1 + Real.pi / 3
  decide ((ang1 < ang2 ∧ ang1 < ang ∧ ang < ang2) ∨
    (ang2 < ang1 ∧ ((ang > 0 ∧ ang < ang2) ∨ (ang > ang1 ∧ ang < 2 * Real.pi))))

/-- scale_space_extrema.rs 262-277: the sum of the gradients in a window. -/
noncomputable def windowSum (samples : List (ℝ × ℝ)) (ang1 : ℝ) : ℝ × ℝ :=
  samples.foldl (fun s r => if inWindow ang1 (fastAtan2 r.2 r.1) then (s.1 + r.1, s.2 + r.2) else s) (0, 0)

/-- scale_space_extrema.rs 259-261 and 286: where the windows start. These are the multiples of 0.15 below two pi. -/
noncomputable def windowStarts : List ℝ := (List.range ⌈2 * Real.pi / 0.15⌉₊).map (fun k : Nat => (k : ℝ) * 0.15)

/-- scale_space_extrema.rs 259-287: the angle with the longest sum so far and the square of its length. -/
noncomputable def bestAngle (samples : List (ℝ × ℝ)) (angle : ℝ) : ℝ × ℝ :=
  windowStarts.foldl (fun b ang1 =>
    let s := windowSum samples ang1
    let val := s.1 * s.1 + s.2 * s.2
    if val > b.1 then (val, fastAtan2 s.2 s.1) else b) (0, angle)

/-- scale_space_extrema.rs 228-288 `compute_main_orientation`. -/
noncomputable def mainOrientation (levels : List DetLevel) (k : KeyPoint) : Option KeyPoint := do
  let l ← levels[k.classId]?
  let ratio : ℝ := 2 ^ l.octave
  let s := (roundAway (1 / 2 * k.size / ratio) : ℝ)
  let samples ← offsets.mapM (gradientSample l (k.x / ratio) (k.y / ratio) s)
  pure { k with angle := (bestAngle samples k.angle).2 }

/-- scale_space_extrema.rs 314-333: the step to the stationary point. With determinant zero its reciprocal is infinite
and so are the products with it, or not a number; no step is taken. -/
noncomputable def newtonStep (xi xp xm yp ym xpyp xpym xmyp xmym : ℝ) : Option (ℝ × ℝ) :=
  let dx := 1 / 2 * (xp - xm)
  let dy := 1 / 2 * (yp - ym)
  let dxx := xp + xm - 2 * xi
  let dyy := yp + ym - 2 * xi
  let dxy := 1 / 4 * (xpyp + xmym) - 1 / 4 * (xpym + xmyp)
  let det := dxx * dyy - dxy * dxy
  if det = 0 then none
  else
    let inv := 1 / det
    let step := (-dx * (inv * dyy) + -dy * (inv * -dxy), -dx * (inv * -dxy) + -dy * (inv * dxx))
    if |step.1| ≤ 1 ∧ |step.2| ≤ 1 then some step else none

/-- scale_space_extrema.rs 301-348: one keypoint; `some none` if it is dropped. `x - 1` underflows at the border. -/
noncomputable def refineKeypoint (levels : List DetLevel) (k : KeyPoint) : Option (Option KeyPoint) := do
  let ratio : ℝ := 2 ^ k.octave
  let x := (roundAway (k.x / ratio)).toNat
  let y := (roundAway (k.y / ratio)).toNat
  let l ← levels[k.classId]?
  if x = 0 ∨ y = 0 then none
  else
    let xi ← l.ldet.get x y
    let xp ← l.ldet.get (x + 1) y
    let xm ← l.ldet.get (x - 1) y
    let yp ← l.ldet.get x (y + 1)
    let ym ← l.ldet.get x (y - 1)
    let xpyp ← l.ldet.get (x + 1) (y + 1)
    let xpym ← l.ldet.get (x + 1) (y - 1)
    let xmyp ← l.ldet.get (x - 1) (y + 1)
    let xmym ← l.ldet.get (x - 1) (y - 1)
    match newtonStep xi xp xm yp ym xpyp xpym xmyp xmym with
    | none => pure none
    | some (dx, dy) =>
      let power : ℝ := 2 ^ l.octave
      if k.angle ≠ 0 then none
      else
        (mainOrientation levels { k with
          x := (x + dx) * power + 1 / 2 * (power - 1)
          y := (y + dy) * power + 1 / 2 * (power - 1)
          size := k.size * 2 }).map some

/-- scale_space_extrema.rs 297-362 `do_subpixel_refinement`. With rayon the keypoints are processed in parallel and
collected in order. -/
noncomputable def subpixelRefinement (levels : List DetLevel) (ks : List KeyPoint) : Option (List KeyPoint) :=
  (ks.mapM (refineKeypoint levels)).map (fun l => l.filterMap id)

/-- scale_space_extrema.rs 153-157 `detect_keypoints`. -/
noncomputable def detectKeypoints (threshold derivativeFactor : ℝ) (levels : List DetLevel) : Option (List KeyPoint) := do
  let ks ← findExtrema threshold derivativeFactor levels
  subpixelRefinement levels ks

end Verif.Akaze
