import Verif.Model.SfmHistory
import Verif.Spec.Sfm

/-!
# Preconditions of the calls, and reachable states
-/

namespace Verif.Sfm

variable {P : Type}

/-- The two orders chosen outside the model (hash-map order, unstable sort) are permutations. -/
structure Oracle.Fair (ω : Oracle P) : Prop where
  order : ∀ l, (ω.order l).Perm l
  sort : ∀ ts, (ω.sort ts).Perm ts

/-- Matches between a view and the center view, as (feature, center feature) pairs: the center
features exist and none is matched to two different features. -/
structure OneToOne (nc : Nat) (ps : List (Nat × Nat)) : Prop where
  range : ∀ f c, (f, c) ∈ ps → c < nc
  inj : ∀ f g c, (f, c) ∈ ps → (g, c) ∈ ps → f = g

/-- A frame that exists, has `n` features and belongs to no view. -/
def Data.FreeFrame (d : Data P) (f n : Nat) : Prop :=
  ∃ F, d.frames.get f = some F ∧ F.nfeat = n ∧ F.view = none

/-- What the caller has to guarantee. -/
def Valid (d : Data P) : Op P → Prop
  | .addFeed => True
  | .addFrame feed _ => ∃ fs, d.feeds.get feed = some fs
  | .addReconstruction c f s _ _ _ cm m1 m2 =>
    c ≠ f ∧ c ≠ s ∧ f ≠ s ∧ (∃ n, d.FreeFrame f n) ∧ (∃ n, d.FreeFrame s n) ∧
      ∃ nc, d.FreeFrame c nc ∧
        OneToOne nc (m1.map (fun m => (m.2, m.1)) ++ cm.map (fun m => (m.2.1, m.1))) ∧
        OneToOne nc (m2.map (fun m => (m.2, m.1)) ++ cm.map (fun m => (m.2.2, m.1)))
  | .addView r frame _ ex =>
    ∃ R n, d.recons.get r = some R ∧ d.FreeFrame frame n ∧ R.ValidMatches n ex
  | .incorporateFrame ω _ r frame _ ex =>
    ω.Fair ∧ ∃ R n, d.recons.get r = some R ∧ d.FreeFrame frame n ∧ R.ValidMatches n ex
  | .tryMerge ω ω' _ _ src sv dst _ ms =>
    ω.Fair ∧ (∀ i, (ω' i).Fair) ∧ src ≠ dst ∧ ms.WF ∧
      ∃ S D V, d.recons.get src = some S ∧ d.recons.get dst = some D ∧
        S.views.get sv = some V ∧ (∀ f ls, ms.get f = some ls → f < V.landmarks.length) ∧
        D.ValidMatches V.landmarks.length ms.get
  | .incorporateReconstruction ω _ _ src dst m =>
    (∀ i, (ω i).Fair) ∧ src ≠ dst ∧
      ∃ S D, d.recons.get src = some S ∧ d.recons.get dst = some D ∧
        (∀ s s' x, m.get s = some x → m.get s' = some x → s = s') ∧
        (∀ s x, m.get s = some x → D.LiveLandmark x)
  | .removeView r v => ∃ R, d.recons.get r = some R ∧ R.LiveView v
  | .splitObservation r v f => ∃ R l, d.recons.get r = some R ∧ R.Assigned v f l
  | .splitLandmark r l order =>
    ∃ R L, d.recons.get r = some R ∧ R.landmarks.get l = some L ∧ order.Perm L.entries
  | .mergeLandmarks r a b =>
    ∃ R, d.recons.get r = some R ∧ a ≠ b ∧ R.LiveLandmark a ∧ R.LiveLandmark b ∧ R.NoSharedView a b
  | .mergeDedup _ r a b =>
    ∃ R, d.recons.get r = some R ∧ R.LiveLandmark a ∧ R.LiveLandmark b
  | .recordConstraints ω _ r v => ω.Fair ∧ ∃ R, d.recons.get r = some R ∧ R.LiveView v
  | .regenerateConstraints ω _ r => (∀ i, (ω i).Fair) ∧ ∃ R, d.recons.get r = some R
  | .filterObservations _ _ r => ∃ R, d.recons.get r = some R
  | .filterLandmarks _ r => ∃ R, d.recons.get r = some R
  | .optimize _ _ _ r => ∃ R, d.recons.get r = some R
  | .normalize _ _ r => ∃ R v, d.recons.get r = some R ∧ R.LiveView v
  | .removeReconstruction r => ∃ R, d.recons.get r = some R

/-- No pose update is infinite or not a number. Nothing is asked about views that are not there. -/
def Oracle.FiniteUpdates (ω : Oracle P) : Prop :=
  ∀ R v es, R.LiveView v → (∀ e ∈ es, R.LiveView e.1) → (ω.constrain R v es).isSome

/-- For the optimisation: no numeric pose update fails (is not finite). Other calls: nothing. -/
def Finite : Op P → Prop
  | .optimize ω _ _ _ => ∀ i j, (ω i j).FiniteUpdates
  | _ => True

/-- States reached from the empty data by calls that meet their preconditions (and, for the
optimisation, did not panic). -/
inductive Reachable [Mul P] [Inv P] : Data P → Prop where
  | init : Reachable Data.empty
  | step {d d' : Data P} {op : Op P} : Reachable d → Valid d op → step d op = some d' → Reachable d'

end Verif.Sfm
