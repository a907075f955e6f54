import Verif.Model.Image

/-!
# akaze: nonlinear diffusion and the detector response

Source: /repo/akaze/src/nonlinear_diffusion.rs and detector_response.rs, over a field instead of `f32`. `none`
stands for a panic.
-/

namespace Verif.Akaze

variable {K : Type _}

section

variable [One K] [Add K] [Sub K] [Mul K] [Div K] [NatCast K]

/-- nonlinear_diffusion.rs 28 (also 39): the flow between two neighbours. -/
def flowBetween (step a b ca cb : K) : K := 1 / 2 * step * (ca + cb) * (b - a)

/-- nonlinear_diffusion.rs 19-29: the flow to the left out of each pixel but the first of its row. -/
def horizontalFlow (lt flow : Img K) (step : K) : Option (Img K) :=
  Img.ofFnM (lt.w - 1) lt.h (fun x y => do
    let a ← lt.get x y
    let b ← lt.get (x + 1) y
    let ca ← flow.get x y
    let cb ← flow.get (x + 1) y
    pure (flowBetween step a b ca cb))

/-- nonlinear_diffusion.rs 30-40. -/
def verticalFlow (lt flow : Img K) (step : K) : Option (Img K) :=
  Img.ofFnM lt.w (lt.h - 1) (fun x y => do
    let a ← lt.get x y
    let b ← lt.get x (y + 1)
    let ca ← flow.get x y
    let cb ← flow.get x (y + 1)
    pure (flowBetween step a b ca cb))

/-- nonlinear_diffusion.rs 42-45 "Left". -/
def addLeft (lt hf : Img K) : Option (Img K) :=
  Img.ofFnM lt.w lt.h (fun x y => do
    let v ← lt.get x y
    if x + 1 < lt.w then do
      let i ← hf.get x y
      pure (v + i)
    else pure v)

/-- nonlinear_diffusion.rs 46-49 "Right". -/
def subRight (lt hf : Img K) : Option (Img K) :=
  Img.ofFnM lt.w lt.h (fun x y => do
    let v ← lt.get x y
    if 1 ≤ x then do
      let i ← hf.get (x - 1) y
      pure (v - i)
    else pure v)

/-- nonlinear_diffusion.rs 50-53 "Up". -/
def addUp (lt vf : Img K) : Option (Img K) :=
  Img.ofFnM lt.w lt.h (fun x y => do
    let v ← lt.get x y
    if y + 1 < lt.h then do
      let i ← vf.get x y
      pure (v + i)
    else pure v)

/-- nonlinear_diffusion.rs 54-57 "Down". -/
def subDown (lt vf : Img K) : Option (Img K) :=
  Img.ofFnM lt.w lt.h (fun x y => do
    let v ← lt.get x y
    if 1 ≤ y then do
      let i ← vf.get x (y - 1)
      pure (v - i)
    else pure v)

/-- nonlinear_diffusion.rs 14-58 `calculate_step`. Images of size zero underflow, images of different sizes panic in
`azip!`. -/
def calculateStep (lt flow : Img K) (step : K) : Option (Img K) :=
  if lt.w = 0 ∨ lt.h = 0 then none
  else if flow.w ≠ lt.w ∨ flow.h ≠ lt.h then none
  else do
    let hf ← horizontalFlow lt flow step
    let vf ← verticalFlow lt flow step
    let a ← addLeft lt hf
    let b ← subRight a hf
    let c ← addUp b vf
    subDown c vf

/-- lib.rs 251-256: the steps of one evolution, with the same conductivities throughout. -/
def diffuse (lt flow : Img K) : List K → Option (Img K)
  | [] => some lt
  | s :: steps => do
    let lt ← calculateStep lt flow s
    diffuse lt flow steps

end

section

variable [Field K]

/-- nonlinear_diffusion.rs 70-84 `pm_g2`. A contrast factor of zero gives infinities and then `NaN` where the gradient
is zero; that is also reported as `none`. -/
def pmG2 (lx ly : Img K) (k : K) [DecidableEq K] : Option (Img K) :=
  if lx.w ≠ ly.w ∨ lx.h ≠ ly.h then none
  else if k = 0 then none
  else
    let inverseK := 1 / (k * k)
    Img.ofFnM lx.w lx.h (fun x y => do
      let a ← lx.get x y
      let b ← ly.get x y
      pure (1 / (1 + inverseK * (a * a + b * b))))

/-- detector_response.rs 37-47: the determinant of the Hessian times `sigma_size⁴`. -/
def detectorImage (lxx lyy lxy : Img K) (sigma : K) : Option (Img K) :=
  if lyy.w ≠ lxx.w ∨ lyy.h ≠ lxx.h ∨ lxy.w ≠ lxx.w ∨ lxy.h ≠ lxx.h then none
  else Img.ofFnM lxx.w lxx.h (fun x y => do
    let a ← lxx.get x y
    let b ← lyy.get x y
    let c ← lxy.get x y
    pure ((a * b - c * c) * sigma ^ 4))

/-- detector_response.rs 60-85 and 33-48: from the smoothed image to the response. -/
def response (lsmooth : Img K) (sigma : Nat) : Option (Img K) := do
  let lx ← scharrHorizontal lsmooth sigma
  let ly ← scharrVertical lsmooth sigma
  let lxx ← scharrHorizontal lx sigma
  let lyy ← scharrVertical ly sigma
  let lxy ← scharrVertical lx sigma
  detectorImage lxx lyy lxy (sigma : K)

end

end Verif.Akaze
