import Verif.Model.SfmData
import Verif.Model.Matching

/-!
# Model of the start of a reconstruction (cv-sfm)

Source: /repo/cv-sfm/src/lib.rs 811-839, 950-1304 and 1362-1432.  `none` is a panic.

The control flow, the bookkeeping of matches and the median are modelled in full.  Everything
numeric (consensus, triangulation, robustness tests, pose optimisation), the random shuffles and the
neighbour search are fields of `StartOracle`.  A shuffle is a function of the list: two shuffles of
equal lists in one search give the same result.  Bearings are not stored: a feature is its index, a
test on bearings is a test on indices.
-/

namespace Verif.Sfm

variable {P S : Type}

/-- Settings used at the start, settings.rs 98-180. -/
structure StartSettings where
  /-- `two_view_match_better_by` -/
  betterBy : Nat
  /-- `two_view_minimum_robust_matches` -/
  minTwoView : Nat
  /-- `three_view_minimum_relative_scales` -/
  minScales : Nat
  /-- `three_view_optimization_landmarks` -/
  optLandmarks : Nat
  /-- `robust_view_num_robust_bearing_pair` -/
  minPairs : Nat
  /-- `three_view_filter_loop_iterations` -/
  filterIterations : Nat
  /-- `three_view_minimum_robust_matches` -/
  minThreeView : Nat

/-- A match of features of the center, the first and the second frame. -/
abbrev Tri := Nat × Nat × Nat

/-- The three levels of the test `is_tri_landmark_robust`, lib.rs 1320-1360. -/
inductive Level where
  /-- maximum cosine distance 1.0, incidence angle as configured (lines 1011-1021, 1070-1080) -/
  | loose
  /-- both as configured (lines 1146-1156, 1257-1266) -/
  | strict
  /-- maximum cosine distance as configured, no incidence angle (lines 1200-1208) -/
  | consistent
deriving DecidableEq, Repr

/-- Answers of the code that is not modelled, during one search for a start. The frames are the
center `c`, the first `f` and the second `s`. `S` is the type of ratios of distances, real numbers or
their ranks in the order of `FloatOrd`. -/
structure StartOracle (P : Type) (S : Type := Nat) where
  /-- `knn a b i`: the two nearest features of frame `b` for feature `i` of frame `a` -/
  knn : Nat → Nat → Nat → List (Nat × Nat)
  /-- `shuffle` of the two-view matches, lib.rs 1386 -/
  shuffleTwo : List (Nat × Nat) → List (Nat × Nat)
  /-- `model_inliers`, lib.rs 1394-1409: pose and inlier positions -/
  consensus : Nat → Nat → List (Nat × Nat) → Option (P × List Nat)
  /-- `shuffle` of the common matches, lib.rs 999 -/
  shuffleTri : List Tri → List Tri
  /-- `is_tri_landmark_robust` -/
  robust : Nat → Nat → Nat → Level → P → P → Tri → Bool
  /-- lib.rs 1022-1036: squared ratio of the two triangulated distances, a number of an
  ordered type `S`; `none` if a triangulation fails or the ratio is not normal -/
  ratio : Nat → Nat → Nat → P → P → Tri → Option S
  /-- `second_pose.scale(ratio.sqrt())`, lib.rs 1055-1059 -/
  rescale : P → S → P
  /-- lib.rs 1088-1095: the bearings of two matches differ in all three frames -/
  apart : Nat → Nat → Nat → Tri → Tri → Bool
  /-- `three_view_simple_optimize_l2`, lib.rs 1131-1136 and 1180-1185 -/
  optimise : Nat → Nat → Nat → P × P → List Tri → P × P
  /-- `is_bi_landmark_robust` with the configured sine distance, lib.rs 1306-1317; the first frame
  is the center -/
  biRobust : Nat → Nat → P → Nat × Nat → Bool
  /-- `sort_unstable_by_key` of the ratios, lib.rs 1050 -/
  sort : List S → List S

/-- lib.rs 1412: `inliers.into_iter().map(|ix| original_matches[ix])`. -/
def pick {α : Type} (l : List α) : List Nat → Option (List α)
  | [] => some []
  | i :: is =>
    match l[i]?, pick l is with
    | some x, some xs => some (x :: xs)
    | _, _ => none

/-- lib.rs 1365-1432 `init_two_view` for frames `a`, `b` with `na`, `nb` features: `none` is a panic,
`some none` a failure. -/
def initTwoView (o : StartOracle P S) (s : StartSettings) (a b na nb : Nat) :
    Option (Option (P × List (Nat × Nat))) :=
  match symmetricMatching na nb s.betterBy (o.knn a b) (o.knn b a) with
  | none => none
  | some original =>
    let original := o.shuffleTwo original
    match o.consensus a b original with
    | none => some none
    | some (pose, inliers) =>
      match pick original inliers with
      | none => none
      | some matched =>
        if matched.length < s.minTwoView then some none else some (some (pose, matched))

/-- A two-view match of an option with the center. -/
structure TwoView (P : Type) where
  frame : Nat
  pose : P
  pairs : List (Nat × Nat)
deriving Repr

/-- lib.rs 977-985: the options that match the center; `frame(option)` panics on a dead key. -/
def twoViews (o : StartOracle P S) (s : StartSettings) (d : Data P) (center : Nat) (nc : Nat) :
    List Nat → Option (List (TwoView P))
  | [] => some []
  | x :: xs =>
    match d.frames.get x with
    | none => none
    | some X =>
      match initTwoView o s center x nc X.nfeat, twoViews o s d center nc xs with
      | some (some (pose, ps)), some ts => some (⟨x, pose, ps⟩ :: ts)
      | some none, some ts => some ts
      | _, _ => none

/-- `tuple_combinations` of two: all pairs in order. -/
def combos {α : Type} : List α → List (α × α)
  | [] => []
  | a :: as => as.map (fun b => (a, b)) ++ combos as

/-- lib.rs 991-993, 1189-1191: the last match of a center feature (`collect` into a hash map). -/
def lastMatch (ps : List (Nat × Nat)) (c : Nat) : Option Nat :=
  (ps.filter (fun p => p.1 == c)).getLast?.map Prod.snd

/-- lib.rs 994-998: matches common to both pairs. -/
def commonMatches (first second : List (Nat × Nat)) : List Tri :=
  first.filterMap (fun p => (lastMatch second p.1).map (fun s => (p.1, p.2, s)))

/-- What the loop body over the pairs of options does. -/
inductive Attempt (P : Type) where
  /-- `continue` -/
  | next
  /-- `return None` -/
  | abort
  /-- `return Some(..)` -/
  | found (firstPose secondPose : P) (combined : List Tri) (first second : List (Nat × Nat))

/-- lib.rs 1061-1083 and 1140-1159: the robust matches used for the optimisation. -/
def robustMatches (o : StartOracle P S) (s : StartSettings) (c f g : Nat) (lvl : Level) (p q : P)
    (common : List Tri) : List Tri :=
  (common.filter (fun t => o.robust c f g lvl p q t)).take s.optLandmarks

/-- lib.rs 1118-1129 and 1167-1178: enough matches left? -/
def enough (minimum : Nat) (opti : List Tri) : Bool :=
  !(decide (opti.length < 32) || decide (opti.length ≤ minimum))

/-- lib.rs 1112-1160: the filter loop; `none` is `continue 'outer`. -/
def filterLoop (o : StartOracle P S) (s : StartSettings) (c f g minimum : Nat) (common : List Tri) :
    Nat → P × P → List Tri → Option ((P × P) × List Tri)
  | 0, ps, opti => some (ps, opti)
  | n + 1, ps, opti =>
    if enough minimum opti then
      let ps' := o.optimise c f g ps opti
      filterLoop o s c f g minimum common n ps' (robustMatches o s c f g .strict ps'.1 ps'.2 common)
    else none

/-- lib.rs 1189-1300: after the last optimisation, with poses `p` and `q`. -/
def finishPair (o : StartOracle P S) (s : StartSettings) (c : Nat) (first second : TwoView P)
    (common : List Tri) (minimum : Nat) (p q : P) : Attempt P :=
  let combined := common.filter (fun t => o.robust c first.frame second.frame .consistent p q t)
  let firstOnly := first.pairs.filter (fun m =>
    (lastMatch second.pairs m.1).isNone && o.biRobust c first.frame p m)
  let secondOnly := second.pairs.filter (fun m =>
    (lastMatch first.pairs m.1).isNone && o.biRobust c second.frame q m)
  let numRobust :=
    (common.filter (fun t => o.robust c first.frame second.frame .strict p q t)).length
  if numRobust ≤ minimum then .next
  else if numRobust < s.minThreeView then .next
  else .found p q combined firstOnly secondOnly

/-- lib.rs 1053-1054: `ratios[ratios.len() / 2]`; panics on an empty list. -/
def median (ratios : List S) : Option S := ratios[ratios.length / 2]?

/-- lib.rs 991-1300: the loop body for one pair of options. -/
def tryPair (o : StartOracle P S) (s : StartSettings) (c : Nat) (first second : TwoView P) :
    Option (Attempt P) :=
  let common := o.shuffleTri (commonMatches first.pairs second.pairs)
  let ratios := common.filterMap (fun t =>
    if o.robust c first.frame second.frame .loose first.pose second.pose t then
      o.ratio c first.frame second.frame first.pose second.pose t
    else none)
  if ratios.length < s.minScales then some .next
  else
    match median (o.sort ratios) with
    | none => none
    | some scale =>
      let p := first.pose
      let q := o.rescale second.pose scale
      let opti := robustMatches o s c first.frame second.frame .loose p q common
      let pairs := ((combos opti).filter
        (fun ab => o.apart c first.frame second.frame ab.1 ab.2)).length
      if pairs < s.minPairs then some .abort
      else
        let minimum := opti.length / 2
        match filterLoop o s c first.frame second.frame minimum common s.filterIterations (p, q)
            opti with
        | none => some .next
        | some (ps, opti') =>
          if enough minimum opti' then
            let ps' := o.optimise c first.frame second.frame ps opti'
            some (finishPair o s c first second common minimum ps'.1 ps'.2)
          else some .next

/-- What `init_reconstruction` returns on success. -/
structure Start (P : Type) where
  first : Nat
  firstPose : P
  second : Nat
  secondPose : P
  combined : List Tri
  firstMatches : List (Nat × Nat)
  secondMatches : List (Nat × Nat)

/-- lib.rs 986-1303: the loop over the pairs of options. -/
def tryPairs (o : StartOracle P S) (s : StartSettings) (c : Nat) :
    List (TwoView P × TwoView P) → Option (Option (Start P))
  | [] => some none
  | (a, b) :: rest =>
    match tryPair o s c a b with
    | none => none
    | some .next => tryPairs o s c rest
    | some .abort => some none
    | some (.found p q combined fm sm) => some (some ⟨a.frame, p, b.frame, q, combined, fm, sm⟩)

/-- lib.rs 966-1304 `init_reconstruction`. -/
def initReconstruction (o : StartOracle P S) (s : StartSettings) (d : Data P) (center : Nat)
    (options : List Nat) : Option (Option (Start P)) :=
  -- the center frame is looked up only if there is an option; here always (callers pass a live key)
  match d.frames.get center with
  | none => none
  | some C =>
    match twoViews o s d center C.nfeat options with
    | none => none
    | some ts => tryPairs o s center (combos ts)

/-- lib.rs 814-839 `try_init`; the key of the new reconstruction is returned. `idp` is the identity
pose of the center view. -/
def tryInit (o : StartOracle P S) (s : StartSettings) (idp : P) (d : Data P) (center : Nat)
    (options : List Nat) : Option (Data P × Option Nat) :=
  match initReconstruction o s d center options with
  | none => none
  | some none => some (d, none)
  | some (some r) =>
    match d.addReconstruction center r.first r.second idp r.firstPose r.secondPose r.combined
        r.firstMatches r.secondMatches with
    | none => none
    | some d' => some (d', some d.recons.next)

end Verif.Sfm
