import Verif.Model.SfmData

/-!
# Specification vocabulary for the cv-sfm data

Nothing here mentions how an operation works, only what can be looked up.
-/

namespace Verif.Sfm

variable {P : Type}

/-- View `v` lists landmark `l` for its feature `f`. -/
def Recon.Assigned (R : Recon P) (v f l : Nat) : Prop :=
  ∃ V, R.views.get v = some V ∧ V.landmarks[f]? = some l

/-- Landmark `l` is stored and lists feature `f` as its observation from view `v`. -/
def Recon.Observes (R : Recon P) (l v f : Nat) : Prop :=
  ∃ L, R.landmarks.get l = some L ∧ L.get v = some f

/-- The view exists. -/
def Recon.LiveView (R : Recon P) (v : Nat) : Prop := ∃ V, R.views.get v = some V

/-- The landmark exists. -/
def Recon.LiveLandmark (R : Recon P) (l : Nat) : Prop := ∃ L, R.landmarks.get l = some L

/-- What it means for one reconstruction to be consistent. -/
structure Recon.Consistent (R : Recon P) : Prop where
  /-- no key is stored twice and all keys were handed out before -/
  viewsWF : R.views.WF
  landmarksWF : R.landmarks.WF
  constraintsWF : R.constraints.WF
  /-- the observation table of a landmark has no duplicate view -/
  obsWF : ∀ l L, R.landmarks.get l = some L → L.WF
  /-- every landmark has at least one observation -/
  nonempty : ∀ l L, R.landmarks.get l = some L → ∃ v f, L.get v = some f
  /-- the two tables agree -/
  agree : ∀ v f l, R.Assigned v f l ↔ R.Observes l v f
  /-- constraints name three different live views -/
  constraintsLive : ∀ k c, R.constraints.get k = some c →
    R.LiveView c.v0 ∧ R.LiveView c.v1 ∧ R.LiveView c.v2 ∧
      c.v0 ≠ c.v1 ∧ c.v0 ≠ c.v2 ∧ c.v1 ≠ c.v2

/-- No view observes both landmarks. -/
def Recon.NoSharedView (R : Recon P) (a b : Nat) : Prop :=
  ∀ v f g, R.Observes a v f → ¬ R.Observes b v g

/-- The landmarks proposed for the features `0 .. n-1` of a new view can be used: each is live,
a proposed pair is two different landmarks without a common view, and no landmark is proposed for
two features. -/
structure Recon.ValidMatches (R : Recon P) (n : Nat) (existing : Nat → Option (List Nat)) :
    Prop where
  shape : ∀ f ls, f < n → existing f = some ls →
    (∃ l, ls = [l] ∧ R.LiveLandmark l) ∨
    (∃ a b, ls = [a, b] ∧ a ≠ b ∧ R.LiveLandmark a ∧ R.LiveLandmark b ∧ R.NoSharedView a b)
  disjoint : ∀ f g ls ms, f < n → g < n → f ≠ g → existing f = some ls → existing g = some ms →
    ∀ l, l ∈ ls → l ∉ ms

/-- `l'` is the landmark that stands for `l` after the pairs proposed for the features in `fs`
have been merged (the first of a pair survives). -/
def Renamed (fs : List Nat) (existing : Nat → Option (List Nat)) (l l' : Nat) : Prop :=
  (∃ f a, f ∈ fs ∧ existing f = some [a, l] ∧ l' = a) ∨
  ((∀ f a, f ∈ fs → existing f ≠ some [a, l]) ∧ l' = l)

/-- What it means for the whole data to be consistent. -/
structure Data.Consistent (d : Data P) : Prop where
  feedsWF : d.feeds.WF
  framesWF : d.frames.WF
  reconsWF : d.recons.WF
  /-- every reconstruction is consistent -/
  recons : ∀ r R, d.recons.get r = some R → R.Consistent
  /-- a view belongs to a frame that points back at it and has as many features -/
  viewFrame : ∀ r R v V, d.recons.get r = some R → R.views.get v = some V →
    ∃ F, d.frames.get V.frame = some F ∧ F.view = some (r, v) ∧ V.landmarks.length = F.nfeat
  /-- a frame that claims a view really has it -/
  frameView : ∀ f F r v, d.frames.get f = some F → F.view = some (r, v) →
    ∃ R V, d.recons.get r = some R ∧ R.views.get v = some V ∧ V.frame = f
  /-- position `i` of a feed holds the frame numbered `i` of this feed -/
  feedFrames : ∀ k fs i f, d.feeds.get k = some fs → fs[i]? = some f →
    ∃ F, d.frames.get f = some F ∧ F.feed = k ∧ F.feedFrame = i
  /-- every frame sits in its feed at the position it reports -/
  frameFeed : ∀ f F, d.frames.get f = some F →
    ∃ fs, d.feeds.get F.feed = some fs ∧ fs[F.feedFrame]? = some f

end Verif.Sfm
