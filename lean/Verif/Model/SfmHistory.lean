import Verif.Model.SfmOps

/-!
# Histories of operations on the cv-sfm data

One constructor of `Op` per modelled method.  `step` runs it; `none` is a panic.
-/

namespace Verif.Sfm

variable {P : Type}

/-- lib.rs 2241-2283 `normalize_reconstruction`, structural part: every view pose and every
constraint pose is replaced (`f` for views, `g` for constraints); nothing else changes. -/
def Recon.mapPoses (f g : P → P) (R : Recon P) : Recon P :=
  { R with
    views := ⟨⟨R.views.map.entries.map (fun e => (e.1, { e.2 with pose := f e.2.pose }))⟩,
      R.views.next⟩
    constraints := ⟨⟨R.constraints.map.entries.map
      (fun e => (e.1, { e.2 with first := g e.2.first, second := g e.2.second }))⟩,
      R.constraints.next⟩ }

/-- A call of one of the modelled methods, with the answers of everything not modelled. -/
inductive Op (P : Type) where
  | addFeed
  | addFrame (feed n : Nat)
  | addReconstruction (center first second : Nat) (idp p1 p2 : P)
      (combined : List (Nat × Nat × Nat)) (m1 m2 : List (Nat × Nat))
  | addView (r frame : Nat) (pose : P) (existing : Nat → Option (List Nat))
  | incorporateFrame (ω : Oracle P) (s : Settings) (r frame : Nat) (pose : P)
      (existing : Nat → Option (List Nat))
  | tryMerge (ω : Oracle P) (ω' : Nat → Oracle P) (s : Settings) (tr : P → P) (src sv dst : Nat)
      (pose : P) (ms : FMap (List Nat))
  | incorporateReconstruction (ω : Nat → Oracle P) (s : Settings) (tr : P → P) (src dst : Nat)
      (m : FMap Nat)
  | removeView (r v : Nat)
  | splitObservation (r v f : Nat)
  | splitLandmark (r l : Nat) (order : List (Nat × Nat))
  | mergeLandmarks (r a b : Nat)
  | mergeDedup (loss : Recon P → Nat → Nat → Nat) (r a b : Nat)
  | recordConstraints (ω : Oracle P) (s : Settings) (r v : Nat)
  | regenerateConstraints (ω : Nat → Oracle P) (s : Settings) (r : Nat)
  | filterObservations (ω : Oracle P) (s : Settings) (r : Nat)
  | filterLandmarks (ω : Oracle P) (r : Nat)
  | optimize (ω : Nat → Nat → Oracle P) (ω' : Nat → Oracle P) (s : Settings) (r : Nat)
  | normalize (f g : P → P) (r : Nat)
  | removeReconstruction (r : Nat)

/-- Run one call. -/
def step [Mul P] [Inv P] (d : Data P) : Op P → Option (Data P)
  | .addFeed => some d.addFeed
  | .addFrame feed n => d.addFrame feed n
  | .addReconstruction c f s idp p1 p2 cm m1 m2 => d.addReconstruction c f s idp p1 p2 cm m1 m2
  | .addView r frame pose ex => d.addView r frame pose ex
  | .incorporateFrame ω s r frame pose ex => (d.incorporateFrame ω s r frame pose ex).map Prod.fst
  | .tryMerge ω ω' s tr src sv dst pose ms =>
    (d.tryMerge ω ω' s tr src sv dst pose ms).map Prod.fst
  | .incorporateReconstruction ω s tr src dst m => d.incorporateReconstruction ω s tr src dst m
  | .removeView r v => d.removeView r v
  | .splitObservation r v f => (d.splitObservation r v f).map Prod.fst
  | .splitLandmark r _ order => d.onRecon r (fun R => R.splitLandmark order)
  | .mergeLandmarks r a b => d.mergeLandmarks r a b
  | .mergeDedup loss r a b => (d.mergeDedup loss r a b).map Prod.fst
  | .recordConstraints ω s r v => (d.recordViewConstraints ω s r v).map Prod.fst
  | .regenerateConstraints ω s r => d.regenerateConstraints ω s r
  | .filterObservations ω s r => (d.filterObservations ω s r).map Prod.fst
  | .filterLandmarks ω r => d.filterLandmarks ω r
  | .optimize ω ω' s r => (d.optimizeReconstruction ω ω' s r).map Prod.fst
  | .normalize f g r =>
    -- `views.values().next().unwrap()`
    d.onRecon r (fun R => if R.views.size = 0 then none else some (R.mapPoses f g))
  | .removeReconstruction r => d.removeReconstruction r

/-- Run a list of calls. -/
def run [Mul P] [Inv P] (d : Data P) : List (Op P) → Option (Data P)
  | [] => some d
  | op :: ops =>
    match step d op with
    | none => none
    | some d' => run d' ops

end Verif.Sfm
