import Verif.Model.SfmStart
import Verif.Model.SfmFilter
import Verif.Model.SfmThree
import Verif.Model.Residual

/-!
# cv-sfm: the geometry at the start of a reconstruction

Source: /repo/cv-sfm/src/lib.rs 1003-1059, 1085-1097, 1131-1136, 1306-1360.  The search itself is in `Model/SfmStart`;
this file replaces the numeric answers assumed there by the computations of the program.
-/

namespace Verif.Sfm

open Verif.Geo

variable {C : Type}

/-- The settings of the geometric part. -/
structure StartGeometry where
  /-- the limits for sine and cosine distances -/
  lim : Limits
  /-- `robust_view_bearing_pair_minimum_cosine_distance` -/
  pairCosine : ℝ
  /-- `three_view_patience`, passed as the number of iterations -/
  patience : Nat

/-- The triangulator of the user, on the type used by `Model/Residual`. -/
def World.tri (W : World C) (os : List Observation) : Option (V4 ℝ) :=
  W.triangulate (os.map (fun o => (o.pose, o.bearing)))

/-- lib.rs 1320-1360 `is_tri_landmark_robust`. A comparison with a number that is none is false. -/
noncomputable def triLandmarkRobust (W : World C) (p q : Iso ℝ) (c f s : V3 ℝ) (maxCosine minCosine : ℝ) : Bool :=
  match toCamera W.tri c [⟨p, f⟩, ⟨q, s⟩] with
  | none => false
  | some point =>
    let fc := p.inv.rot.mulVec f
    let sc := q.inv.rot.mulVec s
    let close := fun (o : Option ℝ) => match o with
      | none => false
      | some x => decide (x < maxCosine)
    let satisfied := decide (1 - (bearing point).dot c < maxCosine) && close (cosineDistance point (p, f)) &&
      close (cosineDistance point (q, s))
    let incidence := decide (1 - c.dot fc > minCosine) || decide (1 - c.dot sc > minCosine) ||
      decide (1 - fc.dot sc > minCosine)
    satisfied && incidence

/-- lib.rs 1007-1009 and the like: the bearings of a match of three frames. -/
def triBearings (W : World C) (c f s : Nat) (t : Tri) : Option Bearings := do
  let x ← W.bearing c t.1
  let y ← W.bearing f t.2.1
  let z ← W.bearing s t.2.2
  pure ⟨x, y, z⟩

/-- The limits of the three levels, see `Level`. -/
noncomputable def levelLimits (W : World C) (lim : Limits) : Level → ℝ × ℝ
  | .loose => (1, W.minCosine)
  | .strict => (lim.maxCosine, W.minCosine)
  | .consistent => (lim.maxCosine, 0)

/-- lib.rs 1022-1036. A ratio of zero is not normal; in the program numbers too small or too large are not normal either. -/
noncomputable def relativeScale (W : World C) (p q : Iso ℝ) (o : Bearings) : Option ℝ := do
  let fp ← (relativeOf W.tri p o.center o.first) >>= toPoint
  let sp ← (relativeOf W.tri q o.center o.second) >>= toPoint
  let ratio ← cdiv fp.normSq sp.normSq
  if ratio = 0 then none else pure ratio

/-- lib.rs 1088-1095. -/
noncomputable def startApart (g : StartGeometry) (a b : Bearings) : Bool :=
  decide (1 - a.center.dot b.center > g.pairCosine) && decide (1 - a.first.dot b.first > g.pairCosine) &&
    decide (1 - a.second.dot b.second > g.pairCosine)

/-- The search for a start whose numeric steps are those of the program; neighbour search, consensus, shuffles and
sorting are those of `o`.  A bearing that does not exist panics in the program and is given an arbitrary answer here: all
matches are of existing features (`C81_start`). -/
noncomputable def startGeo (W : World C) (g : StartGeometry) (o : StartOracle (Iso ℝ) ℝ) : StartOracle (Iso ℝ) ℝ :=
  { o with
    robust := fun c f s level p q t =>
      match triBearings W c f s t with
      | none => false
      | some b => triLandmarkRobust W p q b.center b.first b.second (levelLimits W g.lim level).1
          (levelLimits W g.lim level).2
    ratio := fun c f s p q t => do
      let b ← triBearings W c f s t
      relativeScale W p q b
    rescale := fun q ratio => q.scale (Real.sqrt ratio)
    apart := fun c f s a b =>
      match triBearings W c f s a, triBearings W c f s b with
      | some a, some b => startApart g a b
      | _, _ => false
    optimise := fun c f s ps ms => (threeViewL2 ps (1 / 1000) g.patience (ms.filterMap (triBearings W c f s))).getD ps
    biRobust := fun c f pose m =>
      match W.bearing c m.1, W.bearing f m.2 with
      | some a, some b => biLandmarkRobust pose a b g.lim.maxSine
      | _, _ => false }

end Verif.Sfm
