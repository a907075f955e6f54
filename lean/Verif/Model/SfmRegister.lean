import Verif.Model.SfmData

/-!
# Model of the registration of a frame (cv-sfm)

Source: /repo/cv-sfm/src/lib.rs 1434-1812.  `none` is a panic.

The matching of features with landmarks is modelled in full; the pose estimation between it and
the final filter (lines 1583-1739) decides only whether the attempt is given up and is a parameter.
-/

namespace Verif.Sfm

variable {P : Type}

/-! ## Matching one feature with the landmarks -/

/-- lib.rs 1476-1486: landmarks of the answers of the neighbour search in one view.
`views[view_match]` and `landmarks[n.index]` panic when out of range. -/
def viewCandidates (lms : List Nat) : List (Nat × Nat) → Option (List (Nat × Nat))
  | [] => some []
  | (i, dist) :: rest =>
    match lms[i]?, viewCandidates lms rest with
    | some l, some cs => some ((l, dist) :: cs)
    | _, _ => none

/-- lib.rs 1471-1488: all candidates of one feature; `knn v` is the answer of the search among the
features of view `v`. -/
def rawCandidates (R : Recon P) (knn : Nat → List (Nat × Nat)) :
    List Nat → Option (List (Nat × Nat))
  | [] => some []
  | v :: vs =>
    match R.views.get v with
    | none => none
    | some V =>
      match viewCandidates V.landmarks (knn v), rawCandidates R knn vs with
      | some cs, some cs' => some (cs ++ cs')
      | _, _ => none

/-- lib.rs 1491-1503: keep the best distance of each landmark. -/
def bestDistances : List (Nat × Nat) → FMap Nat → FMap Nat
  | [], m => m
  | (l, dist) :: rest, m =>
    match m.get l with
    | some old => bestDistances rest (if dist < old then m.put l dist else m)
    | none => bestDistances rest (m.put l dist)

/-- The parts that depend on hash order or on an unstable sort. -/
structure RegOrder where
  /-- iteration order of the map of candidate landmarks, lib.rs 1506 -/
  order : List (Nat × Nat) → List (Nat × Nat)
  /-- `sort_unstable_by_key` by distance, lib.rs 1517 and 1526 -/
  sort : List (Nat × Nat) → List (Nat × Nat)

/-- lib.rs 1520-1528: replace the worst of the three by a better candidate. `best[2]` is the
worst. -/
def improve (ro : RegOrder) : List (Nat × Nat) → List (Nat × Nat) → Option (List (Nat × Nat))
  | best, [] => some best
  | best, c :: cs =>
    match best with
    | [x, y, z] => improve ro (if c.2 < z.2 then ro.sort [x, y, c] else best) cs
    | _ => none

/-- lib.rs 1511-1528: the three best candidates; three times `.next().unwrap()`. -/
def bestThree (ro : RegOrder) (cs : List (Nat × Nat)) : Option (List (Nat × Nat)) :=
  match cs with
  | x :: y :: z :: rest => improve ro (ro.sort [x, y, z]) rest
  | _ => none

/-- lib.rs 1435-1450 `are_landmarks_sharing_view`; looking up a dead landmark panics. -/
def Recon.sharingView (R : Recon P) (a b : Nat) : Option Bool :=
  match R.landmarks.get a, R.landmarks.get b with
  | some A, some B => some (B.keys.any (fun v => A.keys.contains v))
  | _, _ => none

/-- lib.rs 1530-1543: one or two landmarks for the feature, or nothing. -/
def chooseMatch (R : Recon P) (betterBy : Nat) (best : List (Nat × Nat)) :
    Option (Option (List Nat)) :=
  match best with
  | [x, y, z] =>
    if x.2 + betterBy ≤ y.2 then some (some [x.1])
    else if y.2 + betterBy ≤ z.2 then
      match R.sharingView x.1 y.1 with
      | none => none
      | some true => some none
      | some false => some (some [x.1, y.1])
    else some none
  | _ => none

/-- lib.rs 1467-1544: one feature. -/
def matchFeature (ro : RegOrder) (betterBy : Nat) (R : Recon P) (views : List Nat)
    (knn : Nat → List (Nat × Nat)) : Option (Option (List Nat)) :=
  match rawCandidates R knn views with
  | none => none
  | some raw =>
    match bestThree ro (ro.order (bestDistances raw FMap.empty).entries) with
    | none => none
    | some best => chooseMatch R betterBy best

/-- lib.rs 1467-1544: the new matches of a list of features, appended to the old ones. `knn f v` is
the answer for feature `f` of the new frame in view `v`. -/
def matchFeatures (ro : Nat → RegOrder) (betterBy : Nat) (R : Recon P) (views : List Nat)
    (knn : Nat → Nat → List (Nat × Nat)) : List Nat → List (List Nat × Nat) →
    Option (List (List Nat × Nat))
  | [], ms => some ms
  | f :: fs, ms =>
    match matchFeature (ro f) betterBy R views (knn f) with
    | none => none
    | some none => matchFeatures ro betterBy R views knn fs ms
    | some (some ls) => matchFeatures ro betterBy R views knn fs (ms ++ [(ls, f)])

/-- lib.rs 1551-1562: drop every match with a landmark that is matched more than once. -/
def retainUnique (ms : List (List Nat × Nat)) : List (List Nat × Nat) :=
  ms.filter (fun m => m.1.all (fun l => (ms.flatMap Prod.fst).count l == 1))

/-- lib.rs 1563-1577 sort and 1741-1755 final filter: `order` is the order after the sort, `keep`
the consistency test of the final pose. The result maps features to landmarks. -/
def finalMatches (order : List (List Nat × Nat) → List (List Nat × Nat))
    (keep : List Nat → Nat → Bool) (ms : List (List Nat × Nat)) : FMap (List Nat) :=
  ⟨((order (retainUnique ms)).filter (fun m => keep m.1 m.2)).map (fun m => (m.2, m.1))⟩

/-- lib.rs 1452-1776 `register_frame_subset` on the features `start..stop`.  `judge` stands for the
pose estimation on the sorted unique matches (lines 1579-1739): it fails or gives the pose and the
consistency test of the final filter.  The result `some none` is a panic. -/
def registerSubset (ro : Nat → RegOrder) (betterBy : Nat) (R : Recon P) (views : List Nat)
    (knn : Nat → Nat → List (Nat × Nat))
    (order : List (List Nat × Nat) → List (List Nat × Nat))
    (judge : List (List Nat × Nat) → Option (P × (List Nat → Nat → Bool))) (minRobust : Nat)
    (start stop : Nat) (ms : List (List Nat × Nat)) :
    List (List Nat × Nat) × Option (Option (P × FMap (List Nat))) :=
  match matchFeatures ro betterBy R views knn (List.range' start (stop - start)) ms with
  | none => (ms, some none)
  | some ms' =>
    match judge (order (retainUnique ms')) with
    | none => (ms', none)
    | some (pose, keep) =>
      if (finalMatches order keep ms').size < minRobust then (ms', none)
      else (ms', some (some (pose, finalMatches order keep ms')))

/-! ## The doubling loop -/

/-- lib.rs 1792-1810: the loop of `register_frame`.  `attempt` is `register_frame_subset` on the
range `start..stop`, `st` the matches collected so far (a panic inside is one of its results).
The result lists the ranges tried, in order; `none` means the fuel did not suffice. -/
def registerLoop {σ α : Type} (attempt : Nat → Nat → σ → σ × Option α) (n : Nat) :
    Nat → Nat → Nat → σ → Option (List (Nat × Nat) × σ × Option α)
  | 0, _, _, _ => none
  | fuel + 1, start, stop, st =>
    match attempt start stop st with
    | (st', some a) => some ([(start, stop)], st', some a)
    | (st', none) =>
      if stop = n then some ([(start, stop)], st', none)
      else
        match registerLoop attempt n fuel stop (min (stop * 2) n) st' with
        | none => none
        | some (rs, r) => some ((start, stop) :: rs, r)

/-- lib.rs 1781-1812 `register_frame` for a frame with `n` features and the setting
`single_view_initial_features = initial`. -/
def registerFrame {σ α : Type} (attempt : Nat → Nat → σ → σ × Option α) (initial n fuel : Nat)
    (st : σ) : Option (List (Nat × Nat) × σ × Option α) :=
  registerLoop attempt n fuel 0 (min initial n) st

end Verif.Sfm
