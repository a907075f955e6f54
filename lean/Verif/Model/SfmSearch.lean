import Verif.Model.SfmData

/-!
# Model of the search for frames to match with (cv-sfm)

Source: /repo/cv-sfm/src/lib.rs 590-668.  The answer of the search among the bags of visual words
(`lsh_to_frame.knn_values`, nearest first) is a parameter.  `none` is a panic.
-/

namespace Verif.Sfm

variable {P : Type}

/-- The tracking settings, settings.rs 184-214. -/
structure Tracking where
  /-- `tracking_similar_frames` -/
  similar : Nat
  /-- `tracking_recent_frames` -/
  recent : Nat
  /-- `tracking_similar_frame_recent_threshold` -/
  threshold : Nat

/-- lib.rs 3135-3141 `abs_difference`. -/
def absDifference (x y : Nat) : Nat := if x < y then y - x else x - y

/-- lib.rs 611-621: frames of the feed close to position `ix`, without the frame itself. -/
def recentFrames (feed : List Nat) (frame ix num : Nat) : List Nat :=
  (feed.zipIdx.filter (fun e => e.1 != frame && decide (absDifference ix e.2 < num))).map Prod.fst

/-- lib.rs 626-637: whether a frame the search found is used; looking up a dead frame panics. -/
def acceptSimilar (d : Data P) (frame : Nat) (F : Frame) (recents : List Nat) (threshold found : Nat) :
    Option Bool :=
  match d.frames.get found with
  | none => none
  | some G =>
    some (!(found == frame || recents.contains found ||
      (G.feed == F.feed && decide (absDifference F.feedFrame G.feedFrame < threshold))))

/-- lib.rs 622-639: the first `n` accepted answers; as the iterator is lazy, answers after these are
not looked at. -/
def similarFrames (d : Data P) (frame : Nat) (F : Frame) (recents : List Nat) (threshold : Nat) :
    Nat → List Nat → Option (List Nat)
  | 0, _ => some []
  | _ + 1, [] => some []
  | n + 1, found :: rest =>
    match acceptSimilar d frame F recents threshold found with
    | none => none
    | some true => (similarFrames d frame F recents threshold n rest).map (found :: ·)
    | some false => similarFrames d frame F recents threshold (n + 1) rest

/-- lib.rs 646-649: `reconstruction_frames.entry(r).or_default().push(v)`. -/
def pushView (m : FMap (List Nat)) (r v : Nat) : FMap (List Nat) :=
  match m.get r with
  | none => m.push r [v]
  | some _ => m.modify r (fun vs => vs ++ [v])

/-- lib.rs 640-653: sort the found frames into reconstructions and free frames. -/
def sortFrames (d : Data P) : List Nat → FMap (List Nat) → List Nat →
    Option (FMap (List Nat) × List Nat)
  | [], m, free => some (m, free)
  | f :: fs, m, free =>
    match d.frames.get f with
    | none => none
    | some F =>
      match F.view with
      | some (r, v) => sortFrames d fs (pushView m r v) free
      | none => sortFrames d fs m (free ++ [f])

/-- lib.rs 597-668 `find_visually_similar_and_recent_frames`; `answers` is what the search for
similar frames returns for this frame.  Simplification: the statistics for the log are left out. -/
def findCandidates (d : Data P) (t : Tracking) (frame : Nat) (answers : List Nat) :
    Option (FMap (List Nat) × List Nat) :=
  match d.frames.get frame with
  | none => none
  | some F =>
    match d.feeds.get F.feed with
    | none => none
    | some feed =>
      let recents := recentFrames feed frame F.feedFrame t.recent
      match similarFrames d frame F recents t.threshold t.similar answers with
      | none => none
      | some similar => sortFrames d (recents ++ similar) FMap.empty []

end Verif.Sfm
