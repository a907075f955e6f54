import Verif.Model.SfmHistory
import Verif.Model.SfmRegister
import Verif.Model.SfmSearch
import Verif.Model.SfmStart

/-!
# Model of the public interface of `VSlam` (cv-sfm)

Source: /repo/cv-sfm/src/lib.rs 777-948, 2062-2193 and the other public methods.  `none` is a panic
(or an endless loop, in the case of the registration).

`add_frame` is modelled from the point where features have been extracted.  What is not modelled
(searches, geometry, random numbers, hash order) are fields of the oracles; every pass through a
loop has its own oracle.
-/

namespace Verif.Sfm

variable {P S : Type}

/-- All settings used here. -/
structure TopSettings where
  ops : Settings
  start : StartSettings
  tracking : Tracking
  /-- `single_view_match_better_by` -/
  betterBy : Nat
  /-- `single_view_initial_features` -/
  initialFeatures : Nat
  /-- `single_view_minimum_robust_landmarks` -/
  minRegister : Nat

/-- Answers used while one frame is incorporated in (or merged into) a reconstruction, and while the
reconstruction is optimised afterwards. -/
structure TopOracle (P : Type) where
  /-- orders in the matching of one feature -/
  ro : Nat → RegOrder
  /-- `knn(descriptor, 3)`: reconstruction, frame to register, its feature, view -/
  knn : Recon P → Nat → Nat → Nat → List (Nat × Nat)
  /-- order of the matches after sorting -/
  order : Recon P → List (List Nat × Nat) → List (List Nat × Nat)
  /-- pose estimation, see `registerSubset` -/
  judge : Recon P → Nat → List (List Nat × Nat) → Option (P × (List Nat → Nat → Bool))
  /-- `record_view_constraints` of the new view -/
  record : Oracle P
  /-- `record_view_constraints` of the views moved by a merge -/
  merge : Nat → Oracle P
  /-- `WorldToWorld::from_camera_poses(src_pose, dest_pose)` applied to a pose -/
  tr : P → P → P → P
  /-- `apply_constraints` -/
  opt : Nat → Nat → Oracle P
  /-- `filter_non_robust_observations` -/
  filt : Nat → Oracle P

/-- Answers used during `add_frame`. `S` is the type of ratios of distances, see `StartOracle`. -/
structure FrameOracle (P : Type) (S : Type := Nat) where
  /-- frames similar to a frame, best first -/
  similar : Data P → Nat → List Nat
  /-- `into_iter().collect_vec()` and `sort_unstable_by_key`, lib.rs 854-855 -/
  sort : List (Nat × List Nat) → List (Nat × List Nat)
  /-- the passes of the first loop of `try_localize` -/
  first : Nat → TopOracle P
  /-- the search for a start -/
  start : Data P → StartOracle P S
  /-- pose of the center view of a new reconstruction -/
  idp : P
  /-- the passes of the second loop of `try_localize` -/
  second : Nat → TopOracle P

/-- lib.rs 1781-1812 `register_frame`; running for ever is treated as a panic. -/
def registerTop (o : TopOracle P) (s : TopSettings) (d : Data P) (r frame : Nat)
    (views : List Nat) : Option (Option (P × FMap (List Nat))) :=
  match d.recons.get r, d.frames.get frame with
  | some R, some F =>
    match registerFrame (registerSubset o.ro s.betterBy R views (o.knn R frame) (o.order R)
        (o.judge R frame) s.minRegister) s.initialFeatures F.nfeat (F.nfeat + 1) [] with
    | none => none
    | some (_, _, none) => some none
    | some (_, _, some none) => none
    | some (_, _, some (some x)) => some (some x)
  | _, _ => none

/-- lib.rs 2067-2087 `incorporate_frame`. -/
def incorporateTop (o : TopOracle P) (s : TopSettings) (d : Data P) (r frame : Nat)
    (views : List Nat) : Option (Data P × Option Nat) :=
  match registerTop o s d r frame views with
  | none => none
  | some none => some (d, none)
  | some (some (pose, ms)) => d.incorporateFrame o.record s.ops r frame pose ms.get

/-- lib.rs 2116-2193 `try_merge_reconstructions`. The pose of the destination view is the one it was
registered with. -/
def mergeTop (o : TopOracle P) (s : TopSettings) (d : Data P) (src sv dst : Nat)
    (views : List Nat) : Option (Data P × Bool) :=
  match (d.recons.get src).bind (fun R => R.views.get sv) with
  | none => none
  | some V =>
    match registerTop o s d dst V.frame views with
    | none => none
    | some none => some (d, false)
    | some (some (pose, ms)) =>
      d.tryMerge o.record o.merge s.ops (o.tr V.pose pose) src sv dst pose ms

/-- lib.rs 2343-2355 `optimize_reconstruction` whose result is ignored. -/
def optimizeTop [Mul P] [Inv P] (o : TopOracle P) (s : TopSettings) (d : Data P) (r : Nat) :
    Option (Data P) :=
  (d.optimizeReconstruction o.opt o.filt s.ops r).map Prod.fst

/-- lib.rs 859-879: the frame is in the reconstruction `src` as view `sv`, and `views` of `dst` were
found. -/
def localizeMerge [Mul P] [Inv P] (o : TopOracle P) (s : TopSettings) (d : Data P)
    (src sv dst : Nat) (views : List Nat) : Option (Data P) :=
  if src = dst then some d
  else
    match d.recons.get src with
    | none => none
    | some S =>
      if 3 ≤ S.views.size then
        match d.recons.get dst with
        | none => none
        | some D =>
          if 3 ≤ D.views.size then
            match mergeTop o s d src sv dst views with
            | none => none
            | some (d1, true) => optimizeTop o s d1 dst
            | some (d1, false) => some d1
          else some d
      else some d

/-- lib.rs 880-891: the frame is in no reconstruction. -/
def localizeIncorporate [Mul P] [Inv P] (o : TopOracle P) (s : TopSettings) (d : Data P)
    (frame dst : Nat) (views : List Nat) : Option (Data P) :=
  match incorporateTop o s d dst frame views with
  | none => none
  | some (d1, some _) => optimizeTop o s d1 dst
  | some (d1, none) => some d1

/-- lib.rs 858-892: the loop over the reconstructions in which views were found. -/
def localizeLoop [Mul P] [Inv P] (ω : Nat → TopOracle P) (s : TopSettings) (frame : Nat) :
    List (Nat × List Nat) → Data P → Option (Data P)
  | [], d => some d
  | (dst, views) :: rest, d =>
    match d.frames.get frame with
    | none => none
    | some F =>
      match F.view with
      | some (src, sv) =>
        match localizeMerge (ω rest.length) s d src sv dst views with
        | none => none
        | some d1 => localizeLoop ω s frame rest d1
      | none =>
        match localizeIncorporate (ω rest.length) s d frame dst views with
        | none => none
        | some d1 => localizeLoop ω s frame rest d1

/-- lib.rs 920-948 `try_localize_and_incorporate`. -/
def localizeFound [Mul P] [Inv P] (o : TopOracle P) (similar : Data P → Nat → List Nat)
    (s : TopSettings) (d : Data P) (r frame : Nat) : Option (Data P) :=
  match findCandidates d s.tracking frame (similar d frame) with
  | none => none
  | some (m, _) =>
    match m.get r with
    | none => some d
    | some views => localizeIncorporate o s d frame r views

/-- lib.rs 901-913: the loop over the free frames that were found. -/
def foundLoop [Mul P] [Inv P] (ω : Nat → TopOracle P) (similar : Data P → Nat → List Nat)
    (s : TopSettings) (r : Nat) : List Nat → Data P → Option (Data P)
  | [], d => some d
  | f :: fs, d =>
    match d.frames.get f with
    | none => none
    | some F =>
      if F.view.isSome then foundLoop ω similar s r fs d
      else
        match localizeFound (ω fs.length) similar s d r f with
        | none => none
        | some d1 =>
          if (d1.recons.get r).isSome then foundLoop ω similar s r fs d1 else some d1

/-- lib.rs 894-897: start a reconstruction if the frame is in none. -/
def localizeStart (o : FrameOracle P S) (s : TopSettings) (d : Data P) (frame : Nat)
    (free : List Nat) : Option (Data P) :=
  match d.frames.get frame with
  | none => none
  | some F =>
    match F.view with
    | some _ => some d
    | none => (tryInit (o.start d) s.start o.idp d frame free).map Prod.fst

/-- lib.rs 899-914: use the reconstruction of the frame for the free frames found. -/
def localizeRest [Mul P] [Inv P] (o : FrameOracle P S) (s : TopSettings) (d : Data P) (frame : Nat)
    (free : List Nat) : Option (Data P) :=
  match d.frames.get frame with
  | none => none
  | some F =>
    match F.view with
    | none => some d
    | some (r, _) => foundLoop o.second o.similar s r free d

/-- lib.rs 847-917 `try_localize`, without its result. -/
def tryLocalize [Mul P] [Inv P] (o : FrameOracle P S) (s : TopSettings) (d : Data P) (frame : Nat)
    (found : FMap (List Nat)) (free : List Nat) : Option (Data P) :=
  match localizeLoop o.first s frame (o.sort found.entries) d with
  | none => none
  | some d1 =>
    match localizeStart o s d1 frame free with
    | none => none
    | some d2 => localizeRest o s d2 frame free

/-- lib.rs 790-809 `add_frame` for an image in which `n` features were found. -/
def addFrameTop [Mul P] [Inv P] (o : FrameOracle P S) (s : TopSettings) (d : Data P) (feed n : Nat) :
    Option (Data P × Nat) :=
  match d.addFrame feed n with
  | none => none
  | some d1 =>
    let frame := d.frames.next
    match findCandidates d1 s.tracking frame (o.similar d1 frame) with
    | none => none
    | some (m, free) =>
      match tryLocalize o s d1 frame m free with
      | none => none
      | some d2 => some (d2, frame)

/-! ## The public methods that change the state -/

/-- A call of a public method of `VSlam`, with the answers of everything not modelled. -/
inductive Call (P : Type) (S : Type := Nat) where
  /-- lib.rs 777-783 -/
  | addFeed
  /-- lib.rs 790-809 -/
  | addFrame (o : FrameOracle P S) (feed n : Nat)
  /-- lib.rs 1817-1887 -/
  | incorporateReconstruction (ω : Nat → Oracle P) (tr : P → P) (src dst : Nat) (m : FMap Nat)
  /-- lib.rs 2241-2283 -/
  | normalize (f g : P → P) (r : Nat)
  /-- lib.rs 2343-2355 -/
  | optimize (ω : Nat → Nat → Oracle P) (ω' : Nat → Oracle P) (r : Nat)
  /-- lib.rs 2358-2375 -/
  | applyConstraints (ω : Nat → Oracle P) (r : Nat)
  /-- lib.rs 2418-2434 -/
  | regenerate (ω : Nat → Oracle P) (ω' : Nat → Nat → Oracle P) (ω'' : Nat → Oracle P) (r : Nat)
  /-- lib.rs 2657-2757 -/
  | filterObservations (ω : Oracle P) (r : Nat)
  /-- lib.rs 2763-2813 -/
  | filterLandmarks (ω : Oracle P) (r : Nat)
  /-- lib.rs 2818-2872 -/
  | mergeDedup (loss : Recon P → Nat → Nat → Nat) (r a b : Nat)

/-- Run a call; the settings are those the value was created with. -/
def Call.run [Mul P] [Inv P] (s : TopSettings) (d : Data P) : Call P S → Option (Data P)
  | .addFeed => some d.addFeed
  | .addFrame o feed n => (addFrameTop o s d feed n).map Prod.fst
  | .incorporateReconstruction ω tr src dst m => d.incorporateReconstruction ω s.ops tr src dst m
  | .normalize f g r => step d (.normalize f g r)
  | .optimize ω ω' r => (d.optimizeReconstruction ω ω' s.ops r).map Prod.fst
  | .applyConstraints ω r => (d.applyConstraints ω s.ops r).map Prod.fst
  | .regenerate ω ω' ω'' r =>
    match d.regenerateConstraints ω s.ops r with
    | none => none
    | some d1 => (d1.optimizeReconstruction ω' ω'' s.ops r).map Prod.fst
  | .filterObservations ω r => (d.filterObservations ω s.ops r).map Prod.fst
  | .filterLandmarks ω r => d.filterLandmarks ω r
  | .mergeDedup loss r a b => (d.mergeDedup loss r a b).map Prod.fst

end Verif.Sfm
