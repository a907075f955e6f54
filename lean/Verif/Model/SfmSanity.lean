import Verif.Model.SfmData

/-!
# Model of `VSlam::sanity_check` (cv-sfm)
-/

namespace Verif.Sfm

variable {P : Type}

/-- The two messages logged by `sanity_check`, lib.rs 3080 and 3088. -/
inductive SanityError where
  | missingLandmark (view feature landmark : Nat)
  | wrongObservation (view feature : Nat) (found : Option Nat)
deriving Repr, DecidableEq

/-- lib.rs 3074-3090: one feature. -/
def sanityFeature (R : Recon P) (v f l : Nat) : List SanityError :=
  match R.landmarks.get l with
  | none => [.missingLandmark v f l]
  | some L => if L.get v = some f then [] else [.wrongObservation v f (L.get v)]

/-- lib.rs 3070-3091: `landmarks.iter().enumerate()` starting at feature `i`. -/
def sanityView (R : Recon P) (v : Nat) : Nat → List Nat → List SanityError
  | _, [] => []
  | i, l :: ls => sanityFeature R v i l ++ sanityView R v (i + 1) ls

/-- lib.rs 3060-3095 `sanity_check`: the list of errors it logs. -/
def sanityCheck (R : Recon P) : List SanityError :=
  R.views.map.entries.flatMap (fun e => sanityView R e.1 0 e.2.landmarks)

end Verif.Sfm
