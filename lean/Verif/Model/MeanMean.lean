import Verif.Model.Triangulate

/-!
# cv-geom: the mean of rays

Source: /repo/cv-geom/src/triangulation.rs 389-443 `MeanMeanTriangulator`. Exact reals; `none` stands both for the
`None` of the code and for a result that is not finite, which the code filters to `None`.
-/

namespace Verif.Geo

/-- triangulation.rs 394-403: the sums of the centres and of the rays. -/
def sumCentres (os : List Observation) : V3 ℝ := os.foldl (fun s o => s.add o.centre) V3.zero
def sumRays (os : List Observation) : V3 ℝ := os.foldl (fun s o => s.add o.ray) V3.zero

/-- triangulation.rs 404: `average_center` (`total` is not zero). -/
noncomputable def averageCentre (os : List Observation) : V3 ℝ := V3.smul (1 / os.length) (sumCentres os)

/-- triangulation.rs 410-420: where the average ray is nearest to the ray of an observation. `q.scale(0.0.recip())` is not a
number. -/
noncomputable def nearestAlong (centre m : V3 ℝ) (o : Observation) : Option ℝ := do
  let trans := centre.sub o.centre
  let q := m.cross o.ray
  let r ← cdiv 1 q.normSq
  pure ((V3.smul r q).dot (o.ray.cross trans))

open Classical in
/-- triangulation.rs 389-443 `MeanMeanTriangulator::triangulate_observations`. Without observations the average centre is
not a number. -/
noncomputable def meanMean (os : List Observation) : Option (V4 ℝ) :=
  if os.length = 0 then none
  else do
    let m ← (sumRays os).normalize
    let ds ← os.mapM (nearestAlong (averageCentre os) m)
    let w ← cdiv 1 (ds.sum / os.length)
    let v := m.add (V3.smul w (averageCentre os))
    let p ← fromHomogeneous ⟨v.x, v.y, v.z, w⟩
    if cheiral os p then some p else none

end Verif.Geo
