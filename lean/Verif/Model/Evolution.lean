import Verif.Model.Fed
import Verif.Model.Blur
import Verif.Model.Diffusion
import Verif.Model.Contrast
import Mathlib.Analysis.SpecialFunctions.Pow.Real

/-!
# akaze: the scale space

Source: /repo/akaze/src/evolution.rs and lib.rs 187-258, with exact real arithmetic. `none` stands for a panic,
for a loop that does not end, or for a division `0 / 0`.
-/

namespace Verif.Akaze

/-- lib.rs 109-142 `Akaze`: the settings used for the scale space. -/
structure Config where
  numSublevels : Nat
  maxOctave : Nat
  baseScale : ℝ
  contrastPercentile : ℝ
  contrastBins : Nat

/-- lib.rs 169-185 `Akaze::default`. -/
noncomputable def Config.default : Config := ⟨4, 4, 1.6, 0.7, 300⟩

/-- evolution.rs 6-16 and 36 `EvolutionStep` without the images. -/
structure Level where
  octave : Nat
  sublevel : Nat
  esigma : ℝ
  etime : ℝ
  sigmaSize : Nat
  steps : List ℝ

/-- evolution.rs 46-70 `EvolutionStep::new`. Without sublevels the scale is `NaN`. -/
noncomputable def newLevel (c : Config) (octave sublevel : Nat) : Option Level :=
  if c.numSublevels = 0 then none
  else
    let esigma := c.baseScale * (2 : ℝ) ^ ((sublevel : ℝ) / c.numSublevels + octave)
    some ⟨octave, sublevel, esigma, 1 / 2 * (esigma * esigma), ⌊esigma + 1 / 2⌋₊, []⟩

/-- evolution.rs 82-105: the sublevels of one octave. Multiplying by `2^-octave` and truncating is a division of
natural numbers. -/
def sublevelsOf (c : Config) (w h octave : Nat) : Nat :=
  let smallest := min (w / 2 ^ octave) (h / 2 ^ octave)
  if smallest < 40 then 0
  else if smallest < 80 then 1
  else c.numSublevels

/-- evolution.rs 81-107: octave and sublevel of all levels, in order. -/
def levelNumbers (c : Config) (w h : Nat) : List (Nat × Nat) :=
  (List.range c.maxOctave).flatMap (fun o => (List.range (sublevelsOf c w h o)).map (fun s => (o, s)))

/-- evolution.rs 114-124: the time steps of every level but the first. -/
noncomputable def setSteps : ℝ → List Level → Option (List Level)
  | _, [] => some []
  | before, l :: ls => do
    let steps ← fedByProcessTime (l.etime - before) 1 (1 / 4) true
    let rest ← setSteps l.etime ls
    pure ({ l with steps := steps } :: rest)

/-- evolution.rs 80-126 `allocate_evolutions`. -/
noncomputable def allocate (c : Config) (w h : Nat) : Option (List Level) := do
  let ls ← (levelNumbers c w h).mapM (fun p => newLevel c p.1 p.2)
  match ls with
  | [] => pure []
  | l :: rest => do
    let rest ← setSteps l.etime rest
    pure (l :: rest)

/-- evolution.rs 18-20 and lib.rs 187-258: a level with its images. `Lx`, `Ly` and `Lflow` are only used on the way
to `Lt`; the former two are computed anew for the detector response. -/
structure Scale where
  level : Level
  lt : Img ℝ
  lsmooth : Img ℝ

/-- lib.rs 220-233: the image that diffusion starts with, of half the size if a new octave begins. -/
noncomputable def startImage (octave octave' : Nat) (before : Img ℝ) : Option (Img ℝ) :=
  if octave < octave' then halfSize before else some before

/-- lib.rs 218-257: the levels after the first. -/
noncomputable def laterScales : ℝ → Nat → Img ℝ → List Level → Option (List Scale)
  | _, _, _, [] => some []
  | contrast, octave, before, l :: ls => do
    let start ← startImage octave l.octave before
    let contrast := if octave < l.octave then contrast * 0.75 else contrast
    let lsmooth ← blur start 1
    let lx ← simpleScharrHorizontal lsmooth
    let ly ← simpleScharrVertical lsmooth
    let lflow ← pmG2 lx ly contrast
    let lt ← diffuse start lflow l.steps
    let rest ← laterScales contrast l.octave lt ls
    pure (⟨l, lt, lsmooth⟩ :: rest)

/-- lib.rs 193-258 `create_nonlinear_scale_space`. Without levels `evolutions[0]` panics. -/
noncomputable def createScaleSpace (c : Config) (levels : List Level) (image : Img ℝ) : Option (List Scale) :=
  match levels with
  | [] => none
  | l :: ls => do
    let lt ← blur image c.baseScale
    let contrast ← contrastFactor image c.contrastPercentile 1 c.contrastBins
    let rest ← laterScales contrast l.octave lt ls
    pure (⟨l, lt, lt⟩ :: rest)

/-- lib.rs 309-319: the scale space of an image. -/
noncomputable def scaleSpace (c : Config) (image : Img ℝ) : Option (List Scale) := do
  let levels ← allocate c image.w image.h
  createScaleSpace c levels image

end Verif.Akaze
