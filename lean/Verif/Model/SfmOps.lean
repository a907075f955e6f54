import Verif.Model.SfmData

/-!
# Model of the reconstruction operations of `VSlam` (cv-sfm)

Source: /repo/cv-sfm/src/lib.rs.  As in `SfmData`, `none` is a Rust panic.

Everything that depends on geometry (triangulation, robustness, pose optimisation), on the random
number generator or on hash-map order is a field of `Oracle`: the theorems hold for every oracle.
-/

namespace Verif.Sfm

variable {P : Type}

/-- settings.rs 320-483, the integer settings used by the operations modelled here. -/
structure Settings where
  /-- `optimization_minimum_new_constraints` -/
  minNewConstraints : Nat
  /-- `optimization_robust_covisibility_minimum_landmarks` -/
  minCovisible : Nat
  /-- `optimization_maximum_three_view_constraints` -/
  maxConstraints : Nat
  /-- `optimization_minimum_landmarks` -/
  minOptLandmarks : Nat
  /-- `minimum_robust_landmarks` -/
  minRobust : Nat
  /-- `optimization_iterations` -/
  optIterations : Nat
  /-- `reconstruction_optimization_iterations` -/
  reconIterations : Nat

/-- A triple of views with the landmarks seen by all three. -/
abbrev Triple := (Nat × Nat × Nat) × List Nat

/-- Answers of the code that is not modelled.  One value stands for one call; functions that
make several calls take a family of oracles. -/
structure Oracle (P : Type) where
  /-- `triangulate_landmark_robust(..).is_some()`, lib.rs 2990-3001 -/
  triangulates : Recon P → Nat → Bool
  /-- `is_landmark_robust`, lib.rs 2975-2988 -/
  robust : Recon P → Nat → Bool
  /-- `is_bi_landmark_robust` on the two observations, lib.rs 2703-2708 -/
  biRobust : Recon P → Nat → Bool
  /-- `triangulate_landmark`; `none` = failure, otherwise which observations disagree with the
  point (lib.rs 2714-2723) -/
  disagrees : Recon P → Nat → Option (Nat → Nat → Bool)
  /-- iteration order of the hash map `covisibilities`, lib.rs 2453 -/
  order : List Nat → List Nat
  /-- `sort_unstable_by_key`, lib.rs 2484 -/
  sort : List Triple → List Triple
  /-- the numeric part of `optimize_three_view`, lib.rs 1961-2060 -/
  optimise : Recon P → Nat × Nat × Nat → List Nat → Option (P × P)
  /-- the numeric part of `constrain_view`, lib.rs 1905-1935; `none` = not finite -/
  constrain : Recon P → Nat → List (Nat × P) → Option P
  /-- `observation_loss`, lib.rs 2570-2620: rank of the loss in the total order of `FloatOrd` -/
  loss : Recon P → Nat → Nat → Nat

namespace Recon

/-! ## Merging with duplicate views -/

/-- lib.rs 2825-2840: views that observe both landmarks, with the two features. -/
def dups (A B : Landmark) : List (Nat × Nat × Nat) :=
  A.entries.filterMap (fun e => (B.get e.1).map (fun g => (e.1, e.2, g)))

/-- lib.rs 2847-2852: the observation with the larger loss; `max_by_key` returns the last
maximum, so a tie picks the observation of landmark b. -/
def worstOf (loss : Recon P → Nat → Nat → Nat) (R : Recon P) (v f g : Nat) : Nat :=
  if loss R v f ≤ loss R v g then g else f

/-- lib.rs 2841-2866: split off the worse observation of each shared view; the flag is
`success`. -/
def dedupLoop (loss : Recon P → Nat → Nat → Nat) :
    List (Nat × Nat × Nat) → Recon P → Bool → Option (Recon P × Bool)
  | [], R, ok => some (R, ok)
  | (v, f, g) :: rest, R, ok =>
    match R.splitObservation v (worstOf loss R v f g) with
    | none => none
    | some (R1, did) => dedupLoop loss rest R1 (ok && did)

/-- lib.rs 2818-2872 `merge_landmarks_dedup`; the result is `some a` on success. -/
def mergeDedup (loss : Recon P → Nat → Nat → Nat) (R : Recon P) (a b : Nat) :
    Option (Recon P × Option Nat) :=
  match R.landmarks.get a, R.landmarks.get b with
  | some A, some B =>
    match dedupLoop loss (dups A B) R true with
    | none => none
    | some (R1, true) =>
      match R1.mergeLandmarks a b with
      | none => none
      | some R2 => some (R2, some a)
    | some (R1, false) => some (R1, none)
  | _, _ => none

/-! ## Three-view constraints -/

/-- lib.rs 2551: `covisibilities.entry(coview).or_default().push(landmark)`. -/
def pushCovis (l w : Nat) (m : FMap (List Nat)) : FMap (List Nat) :=
  match m.get w with
  | none => m.push w [l]
  | some _ => m.modify w (fun ls => ls ++ [l])

/-- lib.rs 2546-2552: add the landmark to the list of every other view that observes it. -/
def addCovis (view l : Nat) : List Nat → FMap (List Nat) → FMap (List Nat)
  | [], m => m
  | w :: ws, m =>
    addCovis view l ws
      (if w = view then m else pushCovis l w m)

/-- lib.rs 2541-2554: the landmark loop of `view_covisibilities`. -/
def covisLoop (ω : Oracle P) (R : Recon P) (view : Nat) :
    List Nat → FMap (List Nat) → Option (FMap (List Nat))
  | [], m => some m
  | l :: ls, m =>
    match R.landmarks.get l with
    | none => none
    | some L =>
      if ω.triangulates R l then covisLoop ω R view ls (addCovis view l L.keys m)
      else covisLoop ω R view ls m

/-- lib.rs 2535-2556 `view_covisibilities`. -/
def viewCovisibilities (ω : Oracle P) (R : Recon P) (view : Nat) : Option (FMap (List Nat)) :=
  match R.views.get view with
  | none => none
  | some V => covisLoop ω R view V.landmarks FMap.empty

/-- `tuple_combinations` for pairs: all pairs in list order. -/
def pairs : List Nat → List (Nat × Nat)
  | [] => []
  | a :: as => as.map (fun b => (a, b)) ++ pairs as

/-- lib.rs 2467-2474: landmarks of `a` also seen by `b`. `landmark_views[l].contains(&b)` is
membership of `l` in the list of `b`. -/
def commonLandmarks (m : FMap (List Nat)) (a b : Nat) : List Nat :=
  ((m.get a).getD []).filter (fun l => ((m.get b).getD []).contains l)

/-- lib.rs 2463-2481: candidate triples with enough landmarks. -/
def candidateTriples (s : Settings) (view : Nat) (m : FMap (List Nat)) (views : List Nat) :
    List Triple :=
  ((pairs views).map (fun p =>
      (Data.canonicalViewOrder view p.1 p.2, commonLandmarks m p.1 p.2))).filter
    (fun t => decide (s.minCovisible ≤ t.2.length))

/-- lib.rs 2493: `views.iter().any(|&view| already_visited.insert(view))`: the first view not
visited so far is marked, the following ones are not (short circuit). -/
def visit (visited : List Nat) (v : Nat × Nat × Nat) : Option (List Nat) :=
  if ¬ visited.contains v.1 then some (v.1 :: visited)
  else if ¬ visited.contains v.2.1 then some (v.2.1 :: visited)
  else if ¬ visited.contains v.2.2 then some (v.2.2 :: visited)
  else none

/-- lib.rs 2491-2495, without the final `take`: triples that contain a new view. -/
def uniqueTriples (visited : List Nat) : List Triple → List Triple
  | [] => []
  | t :: ts =>
    match visit visited t.1 with
    | some visited' => t :: uniqueTriples visited' ts
    | none => uniqueTriples visited ts

/-- lib.rs 2491-2510: unique triples first (at most `max`), then all others. -/
def orderTriples (s : Settings) (ts : List Triple) : List Triple :=
  let u := (uniqueTriples [] ts).take s.maxConstraints
  u ++ ts.filter (fun t => !(u.any (fun t' => t.1 == t'.1)))

/-- lib.rs 1998: `self.data.landmark(..).observations[&view]` does not panic. -/
def sees (R : Recon P) (l v : Nat) : Bool :=
  match R.landmarks.get l with
  | none => false
  | some L => (L.get v).isSome

/-- lib.rs 1939-2060 `optimize_three_view`: too few landmarks gives no constraint; otherwise the
three views are looked up and every landmark must be observed by all three
(`observations[&view]` panics otherwise; simplification: checked for all landmarks, not only for
the first `optimization_maximum_landmarks`). -/
def optimizeThreeView (ω : Oracle P) (s : Settings) (R : Recon P) (v : Nat × Nat × Nat)
    (ls : List Nat) : Option (Option (Constraint P)) :=
  if ls.length < s.minOptLandmarks then some none
  else
    if (R.views.get v.1).isSome && (R.views.get v.2.1).isSome && (R.views.get v.2.2).isSome &&
      ls.all (fun l => R.sees l v.1 && R.sees l v.2.1 && R.sees l v.2.2)
    then
      some ((ω.optimise R v ls).map (fun p => ⟨v.1, v.2.1, v.2.2, p.1, p.2⟩))
    else none

/-- lib.rs 2511-2513 `filter_map`. -/
def optimizeAll (ω : Oracle P) (s : Settings) (R : Recon P) :
    List Triple → Option (List (Constraint P))
  | [] => some []
  | t :: ts =>
    match optimizeThreeView ω s R t.1 t.2, optimizeAll ω s R ts with
    | some none, some cs => some cs
    | some (some c), some cs => some (c :: cs)
    | _, _ => none

/-- lib.rs 2438-2516 `generate_view_constraints`. -/
def generateViewConstraints (ω : Oracle P) (s : Settings) (R : Recon P) (view : Nat) :
    Option (List (Constraint P)) :=
  match viewCovisibilities ω R view with
  | none => none
  | some m =>
    -- retain
    let m : FMap (List Nat) :=
      ⟨m.entries.filter (fun e => decide (s.minCovisible ≤ e.2.length))⟩
    let ts := ω.sort (candidateTriples s view m (ω.order m.keys))
    match optimizeAll ω s R (orderTriples s ts) with
    | none => none
    | some cs => some (cs.take s.maxConstraints)

/-- lib.rs 2103-2107: insert the constraints one by one. -/
def insertConstraints : List (Constraint P) → Recon P → Recon P
  | [], R => R
  | c :: cs, R => insertConstraints cs { R with constraints := R.constraints.insert c }

/-- lib.rs 2092-2109 `record_view_constraints`. -/
def recordViewConstraints (ω : Oracle P) (s : Settings) (R : Recon P) (view : Nat) :
    Option (Recon P × Bool) :=
  match generateViewConstraints ω s R view with
  | none => none
  | some cs =>
    if cs.length < s.minNewConstraints ∧ cs.length + 1 < R.views.size then some (R, false)
    else some (insertConstraints cs R, true)

/-! ## Filtering -/

/-- lib.rs 2679-2735, one landmark of `filter_non_robust_observations`. -/
def filterLandmark (ω : Oracle P) (R : Recon P) (l : Nat) : Option (Recon P) :=
  match R.landmarks.get l with
  | none => none
  | some L =>
    match L.entries with
    | [] => none     -- unreachable!()
    | [_] => some R
    | [e₁, e₂] => if ω.biRobust R l then some R else R.splitLandmark [e₁, e₂]
    | es =>
      match ω.disagrees R l with
      | none => R.splitLandmark es
      | some bad => splitAll (es.filter (fun e => bad e.1 e.2)) R

/-- lib.rs 2679: the landmark loop. -/
def filterLandmarks (ω : Oracle P) : List Nat → Recon P → Option (Recon P)
  | [], R => some R
  | l :: ls, R =>
    match R.filterLandmark ω l with
    | none => none
    | some R1 => filterLandmarks ω ls R1

/-- lib.rs 2738-2744: number of robust landmarks. -/
def robustCount (ω : Oracle P) (R : Recon P) : Nat :=
  (R.landmarks.keys.filter (fun l => ω.robust R l)).length

/-- lib.rs 2763-2813 `filter_non_robust_landmarks`. -/
def splitNonRobust (ω : Oracle P) : List Nat → Recon P → Option (Recon P)
  | [], R => some R
  | l :: ls, R =>
    match R.landmarks.get l with
    | none => none
    | some L =>
      if ω.triangulates R l then splitNonRobust ω ls R
      else
        match R.splitLandmark L.entries with
        | none => none
        | some R1 => splitNonRobust ω ls R1

/-! ## Graph optimisation -/

/-- lib.rs 167-180 `edge_constraints`: (target view, (source view, pose)). -/
def edgeConstraints [Mul P] [Inv P] (c : Constraint P) : List (Nat × Nat × P) :=
  let t := c.second * c.first⁻¹
  [(c.v0, c.v2, c.second⁻¹), (c.v0, c.v1, c.first⁻¹), (c.v1, c.v0, c.first),
    (c.v1, c.v2, t⁻¹), (c.v2, c.v1, t), (c.v2, c.v0, c.second)]

/-- lib.rs 2519-2532 `flatten_constraints`, as the list of all edges. -/
def flattenConstraints [Mul P] [Inv P] (R : Recon P) : List (Nat × Nat × P) :=
  (R.constraints.map.entries.map Prod.snd).flatMap edgeConstraints

/-- lib.rs 1892-1936 `constrain_view`: no edges or a non finite result gives `some none`; every
other view of an edge is looked up, a dead one panics. -/
def constrainView (ω : Oracle P) (R : Recon P) (edges : List (Nat × Nat × P)) (v : Nat) :
    Option (Option P) :=
  let es := (edges.filter (fun e => e.1 == v)).map Prod.snd
  if es.isEmpty then some none
  else if es.all (fun e => (R.views.get e.1).isSome) then some (ω.constrain R v es)
  else none

/-- lib.rs 2393-2412: updated and removed views. -/
def constrainViews (ω : Oracle P) (R : Recon P) (edges : List (Nat × Nat × P)) :
    List Nat → Option (List (Nat × P) × List Nat)
  | [] => some ([], [])
  | v :: vs =>
    match constrainView ω R edges v, constrainViews ω R edges vs with
    | some (some p), some (us, rs) => some ((v, p) :: us, rs)
    | some none, some (us, rs) => some (us, v :: rs)
    | _, _ => none

end Recon

namespace Data

/-- lib.rs 552-588 and 2818-2872 lifted to the data. -/
def mergeDedup (loss : Recon P → Nat → Nat → Nat) (d : Data P) (r a b : Nat) :
    Option (Data P × Option Nat) :=
  match d.recons.get r with
  | none => none
  | some R =>
    match R.mergeDedup loss a b with
    | none => none
    | some (R', x) => some ({ d with recons := d.recons.modify r (fun _ => R') }, x)

/-- lib.rs 2092-2109. -/
def recordViewConstraints (ω : Oracle P) (s : Settings) (d : Data P) (r view : Nat) :
    Option (Data P × Bool) :=
  match d.recons.get r with
  | none => none
  | some R =>
    match R.recordViewConstraints ω s view with
    | none => none
    | some (R', x) => some ({ d with recons := d.recons.modify r (fun _ => R') }, x)

/-- lib.rs 2066-2087 `incorporate_frame`, after a successful registration that returned `pose`
and `existing`. -/
def incorporateFrame (ω : Oracle P) (s : Settings) (d : Data P) (r frame : Nat) (pose : P)
    (existing : Nat → Option (List Nat)) : Option (Data P × Option Nat) :=
  match d.recons.get r with
  | none => none
  | some R =>
    let view := R.views.next
    match d.addView r frame pose existing with
    | none => none
    | some d1 =>
      match d1.recordViewConstraints ω s r view with
      | none => none
      | some (d2, true) => some (d2, some view)
      | some (d2, false) =>
        match d2.removeView r view with
        | none => none
        | some d3 => some (d3, none)

/-- lib.rs 1852-1877: the features of one source view; `lms` are the landmarks of the source
view, `m` the landmark map. -/
def incorporateFeatures (dv : Nat) (lms : List Nat) :
    List Nat → Recon P → FMap Nat → Option (Recon P × FMap Nat)
  | [], R, m => some (R, m)
  | f :: fs, R, m =>
    match lms[f]? with
    | none => none
    | some sl =>
      match m.get sl with
      | some dl =>
        match (R.observe dl dv f).bind (fun R1 => R1.pushOwner dv dl) with
        | none => none
        | some R1 => incorporateFeatures dv lms fs R1 m
      | none =>
        match (R.addLandmark dv f).pushOwner dv R.landmarks.next with
        | none => none
        | some R1 => incorporateFeatures dv lms fs R1 (m.push sl R.landmarks.next)

/-- lib.rs 1830-1878: one source view.  `tr` is the pose transformation of lines 1835-1837. -/
def incorporateView (tr : P → P) (src dst : Nat) (sv : Nat) (d : Data P) (m : FMap Nat) :
    Option (Data P × FMap Nat × Nat) :=
  match (d.recons.get src).bind (fun R => R.views.get sv), d.recons.get dst with
  | some V, some D =>
    let dv := D.views.next
    match d.setFrameView V.frame (some (dst, dv)) with
    | none => none
    | some d1 =>
      match d1.frames.get V.frame with
      | none => none
      | some F =>
        match incorporateFeatures dv V.landmarks (List.range F.nfeat)
            { D with views := D.views.insert ⟨V.frame, tr V.pose, []⟩ } m with
        | none => none
        | some (D', m') =>
          some ({ d1 with recons := d1.recons.modify dst (fun _ => D') }, m', dv)
  | _, _ => none

/-- lib.rs 1830-1878: all source views; returns the new views. -/
def incorporateViews (tr : P → P) (src dst : Nat) :
    List Nat → Data P → FMap Nat → Option (Data P × FMap Nat × List Nat)
  | [], d, m => some (d, m, [])
  | sv :: svs, d, m =>
    match incorporateView tr src dst sv d m with
    | none => none
    | some (d1, m1, dv) =>
      match incorporateViews tr src dst svs d1 m1 with
      | none => none
      | some (d2, m2, dvs) => some (d2, m2, dv :: dvs)

/-- lib.rs 1880-1884: record constraints for the new views, remove the ones that fail. -/
def constrainNew (ω : Nat → Oracle P) (s : Settings) (dst : Nat) :
    List Nat → Data P → Option (Data P)
  | [], d => some d
  | v :: vs, d =>
    match d.recordViewConstraints (ω v) s dst v with
    | none => none
    | some (d1, true) => constrainNew ω s dst vs d1
    | some (d1, false) =>
      match d1.removeView dst v with
      | none => none
      | some d2 => constrainNew ω s dst vs d2

/-- lib.rs 1817-1887 `incorporate_reconstruction`. -/
def incorporateReconstruction (ω : Nat → Oracle P) (s : Settings) (tr : P → P) (d : Data P)
    (src dst : Nat) (m : FMap Nat) : Option (Data P) :=
  match d.recons.get src with
  | none => none
  | some S =>
    match incorporateViews tr src dst S.views.keys d m with
    | none => none
    | some (d1, _, dvs) =>
      match constrainNew ω s dst dvs d1 with
      | none => none
      | some d2 => some { d2 with recons := d2.recons.erase src }

/-- lib.rs 2159-2170: the landmark map; `matches` in hash-map order (`ms`), a later entry
overwrites an earlier one. -/
def landmarkMap (lms : List Nat) : List (Nat × List Nat) → Option (FMap Nat)
  | [] => some FMap.empty
  | (f, ls) :: rest =>
    match lms[f]?, ls.head?, landmarkMap lms rest with
    | some sl, some dl, some m => some (if (m.get sl).isSome then m else m.put sl dl)
    | _, _, _ => none

/-- lib.rs 2116-2193 `try_merge_reconstructions` after a successful registration that returned
`pose` and `ms`. `tr` is the pose transformation built from the poses of the two views. -/
def tryMerge (ω : Oracle P) (ω' : Nat → Oracle P) (s : Settings) (tr : P → P) (d : Data P)
    (src sv dst : Nat) (pose : P) (ms : FMap (List Nat)) : Option (Data P × Bool) :=
  match (d.recons.get src).bind (fun R => R.views.get sv), d.recons.get dst with
  | some V, some D =>
    let dv := D.views.next
    match d.addView dst V.frame pose ms.get with
    | none => none
    | some d1 =>
      match d1.recordViewConstraints ω s dst dv with
      | none => none
      | some (d2, false) =>
        match d2.removeView dst dv with
        | none => none
        | some d3 =>
          match d3.setFrameView V.frame (some (src, sv)) with
          | none => none
          | some d4 => some (d4, false)
      | some (d2, true) =>
        match landmarkMap V.landmarks ms.entries with
        | none => none
        | some m =>
          match d2.onRecon src (fun R => some { R with views := R.views.erase sv }) with
          | none => none
          | some d3 =>
            match incorporateReconstruction ω' s tr d3 src dst m with
            | none => none
            | some d4 => some (d4, true)
  | _, _ => none

/-- lib.rs 2657-2757 `filter_non_robust_observations`; the flag is false when the reconstruction
was removed. -/
def filterObservations (ω : Oracle P) (s : Settings) (d : Data P) (r : Nat) :
    Option (Data P × Bool) :=
  match d.recons.get r with
  | none => none
  | some R =>
    match Recon.filterLandmarks ω R.landmarks.keys R with
    | none => none
    | some R' =>
      let d1 : Data P := { d with recons := d.recons.modify r (fun _ => R') }
      if R'.robustCount ω < s.minRobust then
        match d1.removeReconstruction r with
        | none => none
        | some d2 => some (d2, false)
      else some (d1, true)

/-- lib.rs 2763-2813 `filter_non_robust_landmarks`. -/
def filterLandmarks (ω : Oracle P) (d : Data P) (r : Nat) : Option (Data P) :=
  d.onRecon r (fun R => Recon.splitNonRobust ω R.landmarks.keys R)

/-- lib.rs 2364-2373: the loop of `apply_constraints`, `edges` computed once before it. -/
def applyLoop (ω : Nat → Oracle P) (r : Nat) (edges : List (Nat × Nat × P)) :
    Nat → Data P → Option (Data P × Bool)
  | 0, d => some (d, true)
  | n + 1, d =>
    match d.recons.get r with
    | none => none
    | some R =>
      match R.constrainViews (ω n) edges R.views.keys with
      | none => none
      | some (us, rs) =>
        if 3 ≤ us.length then
          match d.applyBundleAdjust r us rs with
          | none => none
          | some d1 => applyLoop ω r edges n d1
        else
          match d.removeReconstruction r with
          | none => none
          | some d1 => some (d1, false)

/-- lib.rs 2358-2375 `apply_constraints`. -/
def applyConstraints [Mul P] [Inv P] (ω : Nat → Oracle P) (s : Settings) (d : Data P) (r : Nat) :
    Option (Data P × Bool) :=
  match d.recons.get r with
  | none => none
  | some R => applyLoop ω r R.flattenConstraints s.optIterations d

/-- lib.rs 2347-2354: the loop of `optimize_reconstruction`. -/
def optimizeLoop [Mul P] [Inv P] (ω : Nat → Nat → Oracle P) (ω' : Nat → Oracle P) (s : Settings)
    (r : Nat) : Nat → Data P → Option (Data P × Bool)
  | 0, d => some (d, true)
  | n + 1, d =>
    match d.applyConstraints (ω n) s r with
    | none => none
    | some (d1, false) => some (d1, false)
    | some (d1, true) =>
      match d1.filterObservations (ω' n) s r with
      | none => none
      | some (d2, false) => some (d2, false)
      | some (d2, true) => optimizeLoop ω ω' s r n d2

/-- lib.rs 2343-2355 `optimize_reconstruction`. -/
def optimizeReconstruction [Mul P] [Inv P] (ω : Nat → Nat → Oracle P) (ω' : Nat → Oracle P)
    (s : Settings) (d : Data P) (r : Nat) : Option (Data P × Bool) :=
  optimizeLoop ω ω' s r s.reconIterations d

/-- lib.rs 2425-2433: record the constraints of all views; the result is ignored. -/
def regenerateLoop (ω : Nat → Oracle P) (s : Settings) (r : Nat) :
    List Nat → Data P → Option (Data P)
  | [], d => some d
  | v :: vs, d =>
    match d.recordViewConstraints (ω v) s r v with
    | none => none
    | some (d1, _) => regenerateLoop ω s r vs d1

/-- lib.rs 2418-2433: the first part of `regenerate_reconstruction` (the rest is
`optimize_reconstruction`). -/
def regenerateConstraints (ω : Nat → Oracle P) (s : Settings) (d : Data P) (r : Nat) :
    Option (Data P) :=
  match d.recons.get r with
  | none => none
  | some R =>
    let R' : Recon P := { R with constraints := R.constraints.clear }
    regenerateLoop ω s r R.views.keys { d with recons := d.recons.modify r (fun _ => R') }

end Data
end Verif.Sfm
