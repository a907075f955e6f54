import Verif.Model.SfmSearch
import Verif.Spec.SfmHistory

/-!
# Which frames the search should find
-/

namespace Verif.Sfm

variable {P : Type}

/-- `g` is another frame of the same feed, less than `n` positions away from `f`. -/
def Data.Near (d : Data P) (f g n : Nat) : Prop :=
  f ≠ g ∧ ∃ F G, d.frames.get f = some F ∧ d.frames.get g = some G ∧ F.feed = G.feed ∧
    F.feedFrame < G.feedFrame + n ∧ G.feedFrame < F.feedFrame + n

/-- `g` may be used as a similar frame: it is not `f`, not recent, and not too close in the feed. -/
def Data.Distant (d : Data P) (t : Tracking) (f g : Nat) : Prop :=
  f ≠ g ∧ ¬ d.Near f g t.recent ∧ ¬ d.Near f g t.threshold

/-- `g` is among the first `t.similar` usable answers. -/
def Data.AmongSimilar (d : Data P) (t : Tracking) (f : Nat) (answers : List Nat) (g : Nat) : Prop :=
  ∃ before after, answers = before ++ g :: after ∧ d.Distant t f g ∧
    ∀ us : List Nat, us.Nodup → (∀ u, u ∈ us → u ∈ before ∧ d.Distant t f u) → us.length < t.similar

/-- A frame the search finds: near in the feed or among the similar ones. -/
def Data.Candidate (d : Data P) (t : Tracking) (f : Nat) (answers : List Nat) (g : Nat) : Prop :=
  d.Near f g t.recent ∨ d.AmongSimilar t f answers g

end Verif.Sfm
