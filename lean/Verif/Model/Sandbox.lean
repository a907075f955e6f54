import Verif.Model.SfmTop
import Verif.Model.SfmGeometry

/-!
# vslam-sandbox: the program that reconstructs from pictures

Source: /repo/vslam-sandbox/src/main.rs. `none` stands for a panic. Pictures can be opened, and what is written to the data
file can be read back (bincode and the file system are not modelled).
-/

namespace Verif.Sfm

open Verif.Geo

variable {P S E : Type}

/-- The settings, and the two methods that are called besides `add_frame`. -/
structure Sandbox (P E : Type) where
  settings : TopSettings
  /-- `normalize_reconstruction` -/
  normal : Data P → Recon P → Option (Recon P)
  /-- main.rs 142-156: `export_reconstruction` with the settings for the export; what is written to the file -/
  mesh : Data P → Recon P → Option E
  /-- an output directory was given and exists -/
  output : Bool

/-- What the program does that can be seen from outside. -/
inductive Event (E : Type) where
  | added (frame : Nat)
  | normalised (r : Nat)
  | exported (frame r : Nat) (e : E)

/-- main.rs 130-133: `normalized.insert(reconstruction)`, and normalising if it was not there. -/
def Sandbox.normalise (X : Sandbox P E) (d : Data P) (done : List Nat) (r : Nat) :
    Option (Data P × List Nat × List (Event E)) :=
  if r ∈ done then some (d, done, [])
  else (d.onRecon r (X.normal d)).map (fun d' => (d', r :: done, [.normalised r]))

/-- main.rs 134-159. The settings are restored after the export. -/
def Sandbox.write (X : Sandbox P E) (d : Data P) (frame r : Nat) : Option (List (Event E)) :=
  if X.output then do
    let R ← d.recons.get r
    let e ← X.mesh d R
    pure [.exported frame r e]
  else some []

/-- main.rs 126-160: one picture, with the number of its features and the answers used by `add_frame`. -/
def Sandbox.picture [Mul P] [Inv P] (X : Sandbox P E) (feed : Nat) (d : Data P) (done : List Nat) (o : FrameOracle P S) (n : Nat) :
    Option (Data P × List Nat × List (Event E)) := do
  let (d1, frame) ← addFrameTop o X.settings d feed n
  let F ← d1.frames.get frame
  match F.view with
  | none => pure (d1, done, [.added frame])
  | some (r, _) =>
    let (d2, done', e) ← X.normalise d1 done r
    let e' ← X.write d2 frame r
    pure (d2, done', .added frame :: e ++ e')

/-- main.rs 125-161: the loop. -/
def Sandbox.pictures [Mul P] [Inv P] (X : Sandbox P E) (feed : Nat) : List (FrameOracle P S × Nat) → Data P → List Nat →
    Option (Data P × List (Event E))
  | [], d, _ => some (d, [])
  | (o, n) :: rest, d, done => do
    let (d1, done1, e) ← X.picture feed d done o n
    let (d2, e') ← X.pictures feed rest d1 done1
    pure (d2, e ++ e')

/-- main.rs 79-175: from one content of the data file (`none` if there is no such file) to the next. Without pictures
nothing is saved. -/
def Sandbox.session [Mul P] [Inv P] (X : Sandbox P E) (file : Option (Data P)) (ps : List (FrameOracle P S × Nat)) :
    Option (Option (Data P) × List (Event E)) := do
  let d := file.getD Data.empty
  let (d', e) ← X.pictures d.feeds.next ps d.addFeed []
  pure (if ps = [] then file else some d', e)

/-- Several runs of the program, one after the other, with the same data file. Settings can change between runs. -/
def sessions [Mul P] [Inv P] : List (Sandbox P E × List (FrameOracle P S × Nat)) → Option (Data P) → Option (Option (Data P))
  | [], file => some file
  | (X, ps) :: rest, file => do
    let (file', _) ← X.session file ps
    sessions rest file'

/-- lib.rs 2241-2283 and 2285-2340 with the features stored in the data; the number of observations of a robust landmark
(the other setting changed for the export is not used there) is `exportMinimum`. -/
noncomputable def geoSandbox {C : Type} (settings : TopSettings) (world : Data (Iso ℝ) → World C) (exportMinimum : Nat) (color : C)
    (faces output : Bool) : Sandbox (Iso ℝ) (Mesh C) where
  settings := settings
  normal d R := R.views.keys.head?.bind (normalizeReconstruction (world d) R)
  mesh d R := exportReconstruction { world d with minObservations := exportMinimum } color R faces
  output := output

end Verif.Sfm
