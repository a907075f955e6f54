import Verif.Model.SfmTop
import Verif.Spec.SfmHistory
import Verif.Spec.SfmRegister
import Verif.Spec.SfmStart

/-!
# Histories of calls of the public interface
-/

namespace Verif.Sfm

variable {P S : Type}

/-- Three different views exist. -/
def Recon.ThreeViews (R : Recon P) : Prop :=
  ∃ a b c, a ≠ b ∧ a ≠ c ∧ b ≠ c ∧ R.LiveView a ∧ R.LiveView b ∧ R.LiveView c

/-- Consistent tables; every reconstruction has three views and every view three features. -/
structure Data.Sound (d : Data P) : Prop where
  cons : d.Consistent
  three : ∀ r R, d.recons.get r = some R → R.ThreeViews
  features : ∀ r R v V, d.recons.get r = some R → R.views.get v = some V → 3 ≤ V.landmarks.length

/-- Settings for which the calls are safe. The default values are 8192, 64 and 16. -/
structure TopSettings.Sane (s : TopSettings) : Prop where
  initial : 0 < s.initialFeatures
  register : 3 ≤ s.minRegister
  scales : 0 < s.start.minScales

/-- What is assumed of the parts that are not modelled. -/
structure TopOracle.Fair (o : TopOracle P) : Prop where
  ro : ∀ f, (o.ro f).Fair
  /-- the search returns features that exist, and three different ones if there are three -/
  range : ∀ R frame f v V, R.views.get v = some V → ∀ e, e ∈ o.knn R frame f v →
    e.1 < V.landmarks.length
  three : ∀ R frame f v V, R.views.get v = some V → 3 ≤ V.landmarks.length →
    ((o.knn R frame f v).map Prod.fst).Nodup ∧ 3 ≤ (o.knn R frame f v).length
  order : ∀ R l, (o.order R l).Perm l
  record : o.record.Fair
  merge : ∀ i, (o.merge i).Fair
  /-- no pose update is infinite or not a number -/
  finite : ∀ i j, (o.opt i j).FiniteUpdates

/-- What is assumed during `add_frame`. -/
structure FrameOracle.Fair [LinearOrder S] (o : FrameOracle P S) : Prop where
  /-- the search returns different frames that exist -/
  similarOnce : ∀ d f, (o.similar d f).Nodup
  similarLive : ∀ d f g, g ∈ o.similar d f → ∃ G, d.frames.get g = some G
  sort : ∀ l, (o.sort l).Perm l
  first : ∀ i, (o.first i).Fair
  second : ∀ i, (o.second i).Fair
  start : ∀ d, (o.start d).Fair
  searches : ∀ d, (o.start d).Searches d

/-- What the caller of a public method has to guarantee: keys are live, and the landmarks passed to
`incorporate_reconstruction` are live and different. -/
def Call.Ok [LinearOrder S] (d : Data P) : Call P S → Prop
  | .addFeed => True
  | .addFrame o feed _ => o.Fair ∧ ∃ fs, d.feeds.get feed = some fs
  | .incorporateReconstruction ω _ src dst m =>
    (∀ i, (ω i).Fair) ∧ src ≠ dst ∧
      ∃ S D, d.recons.get src = some S ∧ d.recons.get dst = some D ∧
        (∀ s s' x, m.get s = some x → m.get s' = some x → s = s') ∧
        (∀ s x, m.get s = some x → D.LiveLandmark x)
  | .normalize _ _ r => ∃ R, d.recons.get r = some R
  | .optimize ω _ r => (∀ i j, (ω i j).FiniteUpdates) ∧
      ∃ R, d.recons.get r = some R
  | .applyConstraints ω r => (∀ i, (ω i).FiniteUpdates) ∧
      ∃ R, d.recons.get r = some R
  | .regenerate ω ω' _ r => (∀ i, (ω i).Fair) ∧
      (∀ i j, (ω' i j).FiniteUpdates) ∧ ∃ R, d.recons.get r = some R
  | .filterObservations _ r => ∃ R, d.recons.get r = some R
  | .filterLandmarks _ r => ∃ R, d.recons.get r = some R
  | .mergeDedup _ r a b => ∃ R, d.recons.get r = some R ∧ R.LiveLandmark a ∧ R.LiveLandmark b

/-- States reached from the empty data by calls of public methods. -/
inductive History [Mul P] [Inv P] (S : Type) [LinearOrder S] (s : TopSettings) : Data P → Prop where
  | new : History S s Data.empty
  | call {d d' : Data P} {c : Call P S} : History S s d → c.Ok d → c.run s d = some d' → History S s d'

end Verif.Sfm
