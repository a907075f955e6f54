import Verif.Model.Descriptor

/-!
# Threads, and akaze built with the feature `rayon`

The contract of rayon: `join` runs both closures, on one thread or two, and returns when both are done; a panic in one of
them is passed on. A parallel iterator splits its range at places that depend on the machine and its load and joins the
parts; what is collected is in the order of the range. A program is a tree of atomic actions on the memory that its
closures share; actions of closures that are joined can happen in any order. `none` stands for a panic.
-/

namespace Verif.Par

universe u

variable {σ : Type u}

/-- A program with threads. -/
inductive Prog (σ : Type u) where
  | done
  | act (f : σ → Option σ)
  | seq (p q : Prog σ)
  | par (p q : Prog σ)

/-- Nothing is left to do. -/
def Prog.Finished : Prog σ → Prop
  | .done => True
  | .act _ => False
  | .seq p q => p.Finished ∧ q.Finished
  | .par p q => p.Finished ∧ q.Finished

/-- The action `f` can be the next one; then `p'` is left. -/
inductive Next : Prog σ → (σ → Option σ) → Prog σ → Prop
  | act (f) : Next (.act f) f .done
  | seqLeft {p p' q f} : Next p f p' → Next (.seq p q) f (.seq p' q)
  | seqRight {p q q' f} : p.Finished → Next q f q' → Next (.seq p q) f q'
  | parLeft {p p' q f} : Next p f p' → Next (.par p q) f (.par p' q)
  | parRight {p q q' f} : Next q f q' → Next (.par p q) f (.par p q')

/-- A schedule of the whole program that starts in `s` and ends in `o`. -/
inductive Exec : Prog σ → σ → Option σ → Prop
  | finished {p s} : p.Finished → Exec p s (some s)
  | step {p f p' s t o} : Next p f p' → f s = some t → Exec p' t o → Exec p s o
  | panic {p f p' s} : Next p f p' → f s = none → Exec p s none

/-- The program on one element of a list. -/
def onElement {ε : Type u} (i : Nat) (f : ε → Option ε) (l : List ε) : Option (List ε) := do
  let e ← l[i]?
  let e' ← f e
  pure (l.set i e')

/-- The same program with its actions on one element of a list. -/
def Prog.at {ε : Type u} (i : Nat) : Prog ε → Prog (List ε)
  | .done => .done
  | .act f => .act (onElement i f)
  | .seq p q => .seq (p.at i) (q.at i)
  | .par p q => .par (p.at i) (q.at i)

/-- How a range is split: parts that are not split any more have their elements in order. -/
inductive Split where
  | part (elements : List Nat)
  | halves (l r : Split)

/-- The elements of the range. -/
def Split.elements : Split → List Nat
  | .part l => l
  | .halves l r => l.elements ++ r.elements

/-- A parallel iterator over a list with the program `p` for each element. -/
def forEach {ε : Type u} (p : Prog ε) : Split → Prog (List ε)
  | .part l => l.foldr (fun i rest => .seq (p.at i) rest) .done
  | .halves l r => .par (forEach p l) (forEach p r)

end Verif.Par

namespace Verif.Akaze

open Verif.Par

/-- evolution.rs 6-36: the part of an `EvolutionStep` that `detector_response` uses, and the results of closures that have
not been assigned yet. -/
structure Evolution where
  scale : Scale
  lx : Img ℝ
  ly : Img ℝ
  lxx : Img ℝ
  lyy : Img ℝ
  lxy : Img ℝ
  ldet : Img ℝ
  rx : Option (Img ℝ) := none
  ry : Option (Img ℝ) := none
  rxx : Option (Img ℝ) := none
  ryy : Option (Img ℝ) := none
  rxy : Option (Img ℝ) := none

/-- detector_response.rs 69-85 `compute_multiscale_derivatives_for_evolution` with rayon. -/
noncomputable def derivativesProg (df : ℝ) : Prog Evolution :=
  let sigma := fun (e : Evolution) => edgeScale df e.scale.level.octave e.scale.level.esigma
  .seq (.par (.act (fun e => (scharrHorizontal e.scale.lsmooth (sigma e)).map (fun r => { e with rx := some r })))
      (.act (fun e => (scharrVertical e.scale.lsmooth (sigma e)).map (fun r => { e with ry := some r }))))
  (.seq (.act (fun e => do
      let lx ← e.rx
      let ly ← e.ry
      pure { e with lx := lx, ly := ly }))
  (.seq (.par (.act (fun e => (scharrHorizontal e.lx (sigma e)).map (fun r => { e with rxx := some r })))
      (.par (.act (fun e => (scharrVertical e.ly (sigma e)).map (fun r => { e with ryy := some r })))
        (.act (fun e => (scharrVertical e.lx (sigma e)).map (fun r => { e with rxy := some r })))))
    (.act (fun e => do
      let lxx ← e.rxx
      let lyy ← e.ryy
      let lxy ← e.rxy
      pure { e with lxx := lxx, lyy := lyy, lxy := lxy }))))

/-- detector_response.rs 35-48: the response of one level. -/
noncomputable def responseProg (df : ℝ) : Prog Evolution :=
  .act (fun e => (detectorImage e.lxx e.lyy e.lxy
    ((edgeScale df e.scale.level.octave e.scale.level.esigma : Nat) : ℝ)).map (fun d => { e with ldet := d }))

/-- What finding keypoints uses of a level. -/
def Evolution.found (e : Evolution) : DetLevel :=
  ⟨e.scale.level.octave, e.scale.level.esigma, e.scale.lt, e.lx, e.ly, e.ldet⟩

/-- detector_response.rs 8-24 and 33-57 `detector_response` with rayon: both loops with some splits. The images of the
levels that are computed here may hold anything before. -/
def ParResponse (df : ℝ) (scales : List Scale) (o : Option (List DetLevel)) : Prop :=
  ∃ (split split' : Split) (evolutions : List Evolution) (r : Option (List Evolution)),
    split.elements = List.range scales.length ∧ split'.elements = List.range scales.length ∧
    evolutions.map (fun e => e.scale) = scales ∧
    Exec (.seq (forEach (derivativesProg df) split) (forEach (responseProg df) split')) evolutions r ∧
    o = r.map (List.map Evolution.found)

/-- `par_iter().filter_map(f).collect()`: each element is processed by itself, results are collected in order. -/
def ParFilterMap {α β : Type} (f : α → Option (Option β)) (l : List α) (o : Option (List β)) : Prop :=
  ∃ (split : Split) (r : Option (List (α × Option (Option β)))), split.elements = List.range l.length ∧
    Exec (forEach (.act (fun (e : α × Option (Option β)) => (f e.1).map (fun b => (e.1, some b)))) split)
      (l.map (fun a => (a, none))) r ∧
    o = r.bind (fun l => (l.mapM (fun (e : α × Option (Option β)) => e.2)).map (fun l => l.filterMap id))

/-- lib.rs 243-246: both derivatives of a level on the way to its conductivities. -/
noncomputable def gradientProg (lsmooth : Img ℝ) : Prog (Option (Img ℝ) × Option (Img ℝ)) :=
  .par (.act (fun r => (simpleScharrHorizontal lsmooth).map (fun x => (some x, r.2))))
    (.act (fun r => (simpleScharrVertical lsmooth).map (fun y => (r.1, some y))))

/-- What follows a step: after a panic there is no more. -/
def After {α β : Type} (a : Option α) (rest : α → Option β → Prop) (o : Option β) : Prop :=
  match a with
  | none => o = none
  | some a => rest a o

/-- lib.rs 218-257 with rayon: the levels after the first. -/
def ParLater : ℝ → Nat → Img ℝ → List Level → Option (List Scale) → Prop
  | _, _, _, [], o => o = some []
  | contrast, octave, before, l :: ls, o =>
    let contrast' := if octave < l.octave then contrast * 0.75 else contrast
    After (startImage octave l.octave before) (fun start =>
      After (blur start 1) (fun lsmooth o => ∃ r, Exec (gradientProg lsmooth) (none, none) r ∧
        After r (fun g => After g.1 (fun lx => After g.2 (fun ly =>
          After (pmG2 lx ly contrast') (fun lflow =>
            After (diffuse start lflow l.steps) (fun lt o => ∃ rest, ParLater contrast' l.octave lt ls rest ∧
              o = rest.map (fun rest => ⟨l, lt, lsmooth⟩ :: rest)))))) o)) o

/-- lib.rs 193-258 and 309-319 with rayon. -/
def ParScaleSpace (c : Config) (image : Img ℝ) : Option (List Scale) → Prop :=
  After (allocate c image.w image.h) (fun levels o =>
    match levels with
    | [] => o = none
    | l :: ls => After (blur image c.baseScale) (fun lt => After (contrastFactor image c.contrastPercentile 1 c.contrastBins)
        (fun contrast o => ∃ rest, ParLater contrast l.octave lt ls rest ∧ o = rest.map (fun rest => ⟨l, lt, lt⟩ :: rest))) o)

/-- descriptors.rs 21-32 and 33-44: one keypoint; a descriptor that is out of bounds is dropped. -/
noncomputable def describeKeypoint (p channels : Nat) (levels : List DetLevel) (k : KeyPoint) :
    Option (Option (KeyPoint × List (BitVec 8))) :=
  match mldbDescriptor p channels levels k with
  | .error .panic => none
  | .error .outOfBounds => some none
  | .ok d => some (some (k, d))

/-- lib.rs 309-339 `extract_from_gray_float_image` with rayon. -/
def ParExtract (s : Settings) (sort : List KeyPoint → List KeyPoint) (image : Img ℝ)
    (o : Option (List KeyPoint × List (List (BitVec 8)))) : Prop :=
  ∃ scales, ParScaleSpace s.toConfig image scales ∧ After scales (fun scales o =>
    ∃ levels, ParResponse s.derivativeFactor scales levels ∧ After levels (fun levels =>
      After (findExtrema s.threshold s.derivativeFactor levels) (fun candidates o =>
        ∃ ks, ParFilterMap (refineKeypoint levels) candidates ks ∧ After ks (fun ks o =>
          ∃ found, ParFilterMap (describeKeypoint s.patternSize s.channels levels)
            ((sort ks).take s.maximumFeatures) found ∧ o = found.map List.unzip) o)) o) o

end Verif.Akaze
