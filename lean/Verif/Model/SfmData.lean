import Verif.Model.FMap

/-!
# Model of `VSlamData` (cv-sfm)

Source: /repo/cv-sfm/src/lib.rs.  Every function returns `Option`; `none` is a Rust panic
(slot-map indexing with a dead key, vector index out of range, `expect`, `assert!`,
`unreachable!`, `panic!`).

Simplifications, valid for the whole file:
* feature descriptors, colours and bearings are not stored: a frame only knows how many
  features it has (`nfeat`, the value of `descriptor_features.len()`);
* camera intrinsics, the LSH hasher and the LSH index are not stored;
* poses are values of an arbitrary type `P`.
-/

namespace Verif.Sfm

variable {P : Type}

/-- lib.rs 67-80 `Frame`. -/
structure Frame where
  feed : Nat
  feedFrame : Nat
  nfeat : Nat
  view : Option (Nat × Nat)
deriving Repr

/-- lib.rs 108-118 `View`. -/
structure View (P : Type) where
  frame : Nat
  pose : P
  landmarks : List Nat
deriving Repr

/-- lib.rs 100-106 `Landmark` (`observations : HashMap<ViewKey, usize>`). -/
abbrev Landmark := FMap Nat

/-- lib.rs 154-162 `ThreeViewConstraint`. -/
structure Constraint (P : Type) where
  v0 : Nat
  v1 : Nat
  v2 : Nat
  first : P
  second : P
deriving Repr

/-- `constraint.views.contains(&view)`, lib.rs 543. -/
def Constraint.mentions (c : Constraint P) (v : Nat) : Bool := c.v0 == v || c.v1 == v || c.v2 == v

/-- lib.rs 130-140 `Reconstruction`. -/
structure Recon (P : Type) where
  views : SlotMap (View P)
  landmarks : SlotMap Landmark
  constraints : SlotMap (Constraint P)
deriving Repr

/-- `Reconstruction::default()`, lib.rs 131. -/
def Recon.empty : Recon P := ⟨SlotMap.empty, SlotMap.empty, SlotMap.empty⟩

/-- lib.rs 195-208 `VSlamData`.  A feed is its list of frame keys (lib.rs 120-128). -/
structure Data (P : Type) where
  feeds : SlotMap (List Nat)
  frames : SlotMap Frame
  recons : SlotMap (Recon P)
deriving Repr

/-- lib.rs 210-220 `VSlamData::default()`. -/
def Data.empty : Data P := ⟨SlotMap.empty, SlotMap.empty, SlotMap.empty⟩

/-! ## Operations inside one reconstruction -/

namespace Recon

/-- lib.rs 487-500 `add_landmark`; the new key is `R.landmarks.next`. -/
def addLandmark (R : Recon P) (view feature : Nat) : Recon P :=
  { R with landmarks := R.landmarks.insert (FMap.single view feature) }

/-- lib.rs 712: `self.view_mut(reconstruction, view).landmarks[feature] = landmark`. -/
def setOwner (R : Recon P) (view feature landmark : Nat) : Option (Recon P) :=
  match R.views.get view with
  | none => none
  | some V =>
    if feature < V.landmarks.length then
      some { R with
        views := R.views.modify view
          (fun V => { V with landmarks := V.landmarks.set feature landmark }) }
    else none

/-- lib.rs 710-719, the loop body and loop of `merge_landmarks`. -/
def mergeLoop (a : Nat) : List (Nat × Nat) → Recon P → Option (Recon P)
  | [], R => some R
  | (view, feature) :: rest, R =>
    match R.setOwner view feature a with
    | none => none
    | some R1 =>
      match R1.landmarks.get a with
      | none => none
      | some A =>
        -- assert!(.. .insert(view, feature).is_none())
        if (A.get view).isNone then
          mergeLoop a rest
            { R1 with landmarks := R1.landmarks.modify a (fun A => A.put view feature) }
        else none

/-- lib.rs 699-721 `merge_landmarks`; returns `landmark_a`, so only the state is modelled. -/
def mergeLandmarks (R : Recon P) (a b : Nat) : Option (Recon P) :=
  match R.landmarks.get b with
  | none => none
  | some B => mergeLoop a B.entries { R with landmarks := R.landmarks.erase b }

/-- lib.rs 466-469: insert the observation in an existing landmark. -/
def observe (R : Recon P) (landmark view feature : Nat) : Option (Recon P) :=
  match R.landmarks.get landmark with
  | none => none
  | some _ =>
    some { R with landmarks := R.landmarks.modify landmark (fun L => L.put view feature) }

/-- lib.rs 475-476: append the landmark to the view's list. -/
def pushOwner (R : Recon P) (view landmark : Nat) : Option (Recon P) :=
  match R.views.get view with
  | none => none
  | some _ =>
    some { R with
      views := R.views.modify view
        (fun V => { V with landmarks := V.landmarks ++ [landmark] }) }

/-- lib.rs 449-477: one iteration of the feature loop of `add_view`.  `existing` is the answer
of the closure `existing_landmark(feature)`. -/
def addFeature (R : Recon P) (view feature : Nat) (existing : Option (List Nat)) :
    Option (Recon P) :=
  match existing with
  | none => (R.addLandmark view feature).pushOwner view R.landmarks.next
  | some [l] =>
    match R.observe l view feature with
    | none => none
    | some R1 => R1.pushOwner view l
  | some [a, b] =>
    match R.mergeLandmarks a b with
    | none => none
    | some R1 =>
      match R1.observe a view feature with
      | none => none
      | some R2 => R2.pushOwner view a
  | some _ => none   -- unreachable!()

/-- lib.rs 449-477: the feature loop of `add_view`, `feature` running over a list. -/
def addFeatures (view : Nat) (existing : Nat → Option (List Nat)) :
    List Nat → Recon P → Option (Recon P)
  | [], R => some R
  | f :: fs, R =>
    match R.addFeature view f (existing f) with
    | none => none
    | some R1 => addFeatures view existing fs R1

/-- lib.rs 432-483 `add_view` without the frame back pointer: the new view key is
`R.views.next`, `n` is the number of features of the frame. -/
def addView (R : Recon P) (frame : Nat) (pose : P) (n : Nat)
    (existing : Nat → Option (List Nat)) : Option (Recon P) :=
  addFeatures R.views.next existing (List.range n)
    { R with views := R.views.insert ⟨frame, pose, []⟩ }

/-- lib.rs 522-539: the landmark loop of `remove_view`. -/
def removeObservations (view : Nat) : List Nat → Recon P → Option (Recon P)
  | [], R => some R
  | l :: ls, R =>
    match R.landmarks.get l with
    | none => none
    | some L =>
      if L.size = 0 then none
      else if L.size = 1 then
        removeObservations view ls { R with landmarks := R.landmarks.erase l }
      else
        removeObservations view ls
          { R with landmarks := R.landmarks.modify l (fun L => L.erase view) }

/-- lib.rs 517-546 `remove_view` without the frame back pointer. -/
def removeView (R : Recon P) (view : Nat) : Option (Recon P) :=
  match R.views.get view with
  | none => none
  | some V =>
    -- mem::take of the landmark list
    match removeObservations view V.landmarks
        { R with views := R.views.modify view (fun V => { V with landmarks := [] }) } with
    | none => none
    | some R1 =>
      some { R1 with
        constraints := R1.constraints.retain (fun c => !c.mentions view)
        views := R1.views.erase view }

/-- lib.rs 552-588 `split_observation`. -/
def splitObservation (R : Recon P) (view feature : Nat) : Option (Recon P × Bool) :=
  match R.views.get view with
  | none => none
  | some V =>
    match V.landmarks[feature]? with
    | none => none
    | some old =>
      match R.landmarks.get old with
      | none => none
      | some L =>
        if 2 ≤ L.size then
          -- assert_eq!(observations.remove(&view), Some(feature))
          if L.get view = some feature then
            let R1 := { R with landmarks := R.landmarks.modify old (fun L => L.erase view) }
            let new := R1.landmarks.next
            match (R1.addLandmark view feature).setOwner view feature new with
            | none => none
            | some R2 => some (R2, true)
          else none
        else some (R, false)

/-- lib.rs 2565-2567: split a list of observations one after the other. -/
def splitAll : List (Nat × Nat) → Recon P → Option (Recon P)
  | [], R => some R
  | (v, f) :: rest, R =>
    match R.splitObservation v f with
    | none => none
    | some (R1, _) => splitAll rest R1

/-- lib.rs 2559-2568 `split_landmark`.  `order` is the iteration order of the observation hash
map, an arbitrary permutation of its entries; `&observations[1..]` panics on an empty list. -/
def splitLandmark (R : Recon P) (order : List (Nat × Nat)) : Option (Recon P) :=
  match order with
  | [] => none
  | _ :: rest => splitAll rest R

end Recon

/-! ## Operations on the whole data -/

namespace Data

/-- Run an operation on one reconstruction; `self.reconstructions[r]` panics on a dead key. -/
def onRecon (d : Data P) (r : Nat) (f : Recon P → Option (Recon P)) : Option (Data P) :=
  match d.recons.get r with
  | none => none
  | some R =>
    match f R with
    | none => none
    | some R' => some { d with recons := d.recons.modify r (fun _ => R') }

/-- `self.frames[frame].view = x`; panics on a dead key. -/
def setFrameView (d : Data P) (frame : Nat) (x : Option (Nat × Nat)) : Option (Data P) :=
  match d.frames.get frame with
  | none => none
  | some _ => some { d with frames := d.frames.modify frame (fun F => { F with view := x }) }

/-- lib.rs 777-782 `VSlam::add_feed`: an empty feed; the key is `d.feeds.next`. -/
def addFeed (d : Data P) : Data P := { d with feeds := d.feeds.insert [] }

/-- lib.rs 670-687 `add_frame`, `n` features; the key is `d.frames.next`. -/
def addFrame (d : Data P) (feed n : Nat) : Option (Data P) :=
  match d.feeds.get feed with
  | none => none
  | some fs =>
    some { d with
      frames := d.frames.insert ⟨feed, fs.length, n, none⟩
      feeds := d.feeds.modify feed (fun fs => fs ++ [d.frames.next]) }

/-- lib.rs 432-483 `add_view`; the key is `R.views.next`. -/
def addView (d : Data P) (r frame : Nat) (pose : P) (existing : Nat → Option (List Nat)) :
    Option (Data P) :=
  match d.recons.get r with
  | none => none
  | some R =>
    match d.setFrameView frame (some (r, R.views.next)) with
    | none => none
    | some d1 =>
      match d1.frames.get frame with
      | none => none
      | some F => d1.onRecon r (fun R => R.addView frame pose F.nfeat existing)

/-- lib.rs 397, 411: resolve the (feature, center feature) pairs to landmarks of the center
view and collect them in a hash map (a later pair overwrites an earlier one). Indexing
`landmarks[c]` panics out of range. -/
def collectLandmarks (centerLandmarks : List Nat) : List (Nat × Nat) → Option (FMap Nat)
  | [] => some FMap.empty
  | (f, c) :: rest =>
    match centerLandmarks[c]? with
    | none => none
    | some l =>
      match collectLandmarks centerLandmarks rest with
      | none => none
      -- entries later in the list win
      | some m => some (if (m.get f).isSome then m else m.put f l)

/-- lib.rs 54-57 `canonical_view_order` (sorting network on three keys). -/
def canonicalViewOrder (a b c : Nat) : Nat × Nat × Nat :=
  let (a, b) := if a ≤ b then (a, b) else (b, a)
  let (b, c) := if b ≤ c then (b, c) else (c, b)
  let (a, b) := if a ≤ b then (a, b) else (b, a)
  (a, b, c)

/-- lib.rs 377-427 `add_reconstruction`; the key is `d.recons.next`. `idp` is the identity
pose; the two poses are used both as view poses and in the constraint. -/
def addReconstruction (d : Data P) (center first second : Nat) (idp firstPose secondPose : P)
    (combined : List (Nat × Nat × Nat)) (firstMatches secondMatches : List (Nat × Nat)) :
    Option (Data P) :=
  let r := d.recons.next
  let d := { d with recons := d.recons.insert Recon.empty }
  match d.addView r center idp (fun _ => none) with
  | none => none
  | some d1 =>
    -- the first key of a fresh slot map; `first` and `second` get keys 1 and 2
    let centerView := 0
    match (d1.recons.get r).bind (fun R => R.views.get centerView) with
    | none => none
    | some C =>
      match collectLandmarks C.landmarks
          (firstMatches.map (fun m => (m.2, m.1)) ++ combined.map (fun m => (m.2.1, m.1))) with
      | none => none
      | some fl =>
        match d1.addView r first firstPose (fun f => (fl.get f).map (fun l => [l])) with
        | none => none
        | some d2 =>
          match (d2.recons.get r).bind (fun R => R.views.get centerView) with
          | none => none
          | some C2 =>
            match collectLandmarks C2.landmarks
                (secondMatches.map (fun m => (m.2, m.1))
                  ++ combined.map (fun m => (m.2.2, m.1))) with
            | none => none
            | some sl =>
              match d2.addView r second secondPose (fun f => (sl.get f).map (fun l => [l])) with
              | none => none
              | some d3 =>
                let vs := canonicalViewOrder 0 1 2
                d3.onRecon r (fun R => some { R with
                  constraints := R.constraints.insert
                    ⟨vs.1, vs.2.1, vs.2.2, firstPose, secondPose⟩ })

/-- lib.rs 517-546 `remove_view`. -/
def removeView (d : Data P) (r view : Nat) : Option (Data P) :=
  match (d.recons.get r).bind (fun R => R.views.get view) with
  | none => none
  | some V =>
    match d.setFrameView V.frame none with
    | none => none
    | some d1 => d1.onRecon r (fun R => R.removeView view)

/-- lib.rs 552-588 `split_observation`, with the returned flag. -/
def splitObservation (d : Data P) (r view feature : Nat) : Option (Data P × Bool) :=
  match d.recons.get r with
  | none => none
  | some R =>
    match R.splitObservation view feature with
    | none => none
    | some (R', b) => some ({ d with recons := d.recons.modify r (fun _ => R') }, b)

/-- lib.rs 699-721 `merge_landmarks`. -/
def mergeLandmarks (d : Data P) (r a b : Nat) : Option (Data P) :=
  d.onRecon r (fun R => R.mergeLandmarks a b)

/-- lib.rs 690-692: clear the back pointer of the frames of a list of views. -/
def clearFrames : List (View P) → Data P → Option (Data P)
  | [], d => some d
  | V :: Vs, d =>
    match d.setFrameView V.frame none with
    | none => none
    | some d1 => clearFrames Vs d1

/-- lib.rs 689-694 `remove_reconstruction`. -/
def removeReconstruction (d : Data P) (r : Nat) : Option (Data P) :=
  match d.recons.get r with
  | none => none
  | some R =>
    match clearFrames (R.views.map.entries.map Prod.snd) d with
    | none => none
    | some d1 => some { d1 with recons := d1.recons.erase r }

/-- lib.rs 508-510: overwrite the poses of the updated views. -/
def updatePoses (r : Nat) : List (Nat × P) → Data P → Option (Data P)
  | [], d => some d
  | (v, p) :: rest, d =>
    match d.onRecon r (fun R =>
        match R.views.get v with
        | none => none
        | some _ => some { R with views := R.views.modify v (fun V => { V with pose := p }) }) with
    | none => none
    | some d1 => updatePoses r rest d1

/-- lib.rs 511-514: remove the removed views. -/
def removeViews (r : Nat) : List Nat → Data P → Option (Data P)
  | [], d => some d
  | v :: rest, d =>
    match d.removeView r v with
    | none => none
    | some d1 => removeViews r rest d1

/-- lib.rs 502-515 `apply_bundle_adjust`. -/
def applyBundleAdjust (d : Data P) (r : Nat) (updated : List (Nat × P)) (removed : List Nat) :
    Option (Data P) :=
  match updatePoses r updated d with
  | none => none
  | some d1 => removeViews r removed d1

end Data
end Verif.Sfm
