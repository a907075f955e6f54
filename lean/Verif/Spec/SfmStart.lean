import Verif.Model.SfmStart
import Verif.Spec.SfmHistory
import Mathlib.Data.Nat.Basic

/-!
# What a good start of a reconstruction is
-/

namespace Verif.Sfm

variable {P S : Type} [LinearOrder S]

/-- What is assumed of the parts that are not modelled: shuffles and the sort are permutations, the
sort sorts, and the consensus names each inlier once and only positions that exist. -/
structure StartOracle.Fair (o : StartOracle P S) : Prop where
  shuffleTwo : ∀ l, (o.shuffleTwo l).Perm l
  shuffleTri : ∀ l, (o.shuffleTri l).Perm l
  sort : ∀ l, (o.sort l).Perm l
  sorted : ∀ l, (o.sort l).Pairwise (· ≤ ·)
  inliers : ∀ a b l pose is, o.consensus a b l = some (pose, is) →
    is.Nodup ∧ ∀ i, i ∈ is → i < l.length

/-- The neighbour search returns at least two features that exist if the frame has two. -/
def StartOracle.Searches (o : StartOracle P S) (d : Data P) : Prop :=
  ∀ a b A B i, d.frames.get a = some A → d.frames.get b = some B → 2 ≤ A.nfeat → 2 ≤ B.nfeat →
    i < A.nfeat → 2 ≤ (o.knn a b i).length ∧ ∀ e, e ∈ o.knn a b i → e.1 < B.nfeat

/-- The answer of a search whose nearest entry is `j`, better than the next one by `k`. -/
def ClearAnswer (k : Nat) (answer : List (Nat × Nat)) (j : Nat) : Prop :=
  ∃ x e rest, answer = (j, x) :: e :: rest ∧ x + k ≤ e.2

/-- Feature `i` of frame `a` and feature `j` of frame `b` are each the clear answer for the other. -/
def MutualMatch (o : StartOracle P S) (s : StartSettings) (d : Data P) (a b i j : Nat) : Prop :=
  ∃ A B, d.frames.get a = some A ∧ d.frames.get b = some B ∧ 2 ≤ A.nfeat ∧ 2 ≤ B.nfeat ∧
    i < A.nfeat ∧ j < B.nfeat ∧
    ClearAnswer s.betterBy (o.knn a b i) j ∧ ClearAnswer s.betterBy (o.knn b a j) i

/-- `pose` and `ps` come from the consensus over all mutual matches of the two frames: `ps` are its
inliers, at least the required number. -/
def TwoViewOf (o : StartOracle P S) (s : StartSettings) (d : Data P) (a b : Nat) (pose : P)
    (ps : List (Nat × Nat)) : Prop :=
  ∃ all is, all.Nodup ∧ (∀ i j, (i, j) ∈ all ↔ MutualMatch o s d a b i j) ∧
    o.consensus a b all = some (pose, is) ∧ ps.Nodup ∧
    (∀ p, p ∈ ps ↔ ∃ k, k ∈ is ∧ all[k]? = some p) ∧ s.minTwoView ≤ ps.length

/-- `m` is a median of the values: no more than half of them are smaller, and fewer than half are
larger. -/
def IsMedian (m : S) (values : List S) : Prop :=
  m ∈ values ∧ 2 * (values.filter (· < m)).length ≤ values.length ∧
    2 * (values.filter (m < ·)).length < values.length

/-- The poses `ps'` come from `ps` by `n` runs of the optimiser, each on at least 32 and more than
`half` of the common matches (`common`) that pass the test: the loose one in the first run, the
strict one for the current poses in later runs. -/
inductive OptimisedFrom (o : StartOracle P S) (c f g half : Nat) (common : Tri → Prop) :
    Nat → Level → P × P → P × P → Prop where
  | done (lvl ps) : OptimisedFrom o c f g half common 0 lvl ps ps
  | run (n lvl ps ps') (ms : List Tri) : 32 ≤ ms.length → half < ms.length → ms.Nodup →
      (∀ t, t ∈ ms → common t ∧ o.robust c f g lvl ps.1 ps.2 t = true) →
      OptimisedFrom o c f g half common n .strict (o.optimise c f g ps ms) ps' →
      OptimisedFrom o c f g half common (n + 1) lvl ps ps'

/-- A match of the three frames common to two lists of two-view matches. -/
def CommonTo (ps₁ ps₂ : List (Nat × Nat)) (t : Tri) : Prop :=
  (t.1, t.2.1) ∈ ps₁ ∧ (t.1, t.2.2) ∈ ps₂

/-- The start `st` found for the frame `center` is good; `pose₁`, `ps₁`, `pose₂`, `ps₂` are
the two-view matches it is built from. -/
structure StartOk (o : StartOracle P S) (s : StartSettings) (center : Nat) (st : Start P)
    (pose₁ pose₂ : P) (ps₁ ps₂ : List (Nat × Nat)) : Prop where
  /-- matches in all three frames: common inliers consistent with the final poses, each once -/
  combined : ∀ t, t ∈ st.combined ↔ CommonTo ps₁ ps₂ t ∧
    o.robust center st.first st.second .consistent st.firstPose st.secondPose t = true
  combinedOnce : st.combined.Nodup
  /-- matches in two frames only, each once -/
  first : ∀ c f, (c, f) ∈ st.firstMatches ↔ (c, f) ∈ ps₁ ∧ (∀ g, (c, g) ∉ ps₂) ∧
    o.biRobust center st.first st.firstPose (c, f) = true
  firstOnce : st.firstMatches.Nodup
  second : ∀ c g, (c, g) ∈ st.secondMatches ↔ (c, g) ∈ ps₂ ∧ (∀ f, (c, f) ∉ ps₁) ∧
    o.biRobust center st.second st.secondPose (c, g) = true
  secondOnce : st.secondMatches.Nodup
  history : ∃ (scale : S) (common : List Tri) (initial : List Tri),
    -- all common matches, each once
    common.Nodup ∧ (∀ t, t ∈ common ↔ CommonTo ps₁ ps₂ t) ∧
    -- the second pose is scaled by the median ratio of enough robust common matches
    s.minScales ≤ (common.filterMap (fun t =>
      if o.robust center st.first st.second .loose pose₁ pose₂ t then
        o.ratio center st.first st.second pose₁ pose₂ t else none)).length ∧
    IsMedian scale (common.filterMap (fun t =>
      if o.robust center st.first st.second .loose pose₁ pose₂ t then
        o.ratio center st.first st.second pose₁ pose₂ t else none)) ∧
    -- the matches used at first: robust ones, as many as allowed
    initial.Nodup ∧ (∀ t, t ∈ initial → CommonTo ps₁ ps₂ t ∧
      o.robust center st.first st.second .loose pose₁ (o.rescale pose₂ scale) t = true) ∧
    initial.length = min s.optLandmarks (common.filter (fun t =>
      o.robust center st.first st.second .loose pose₁ (o.rescale pose₂ scale) t)).length ∧
    -- enough pairs of them lie in different directions
    (∃ pairs : List (Tri × Tri), pairs.Nodup ∧ s.minPairs ≤ pairs.length ∧ ∀ a b, (a, b) ∈ pairs →
      [a, b].Sublist initial ∧ o.apart center st.first st.second a b = true) ∧
    -- both poses are optimised
    OptimisedFrom o center st.first st.second (initial.length / 2) (CommonTo ps₁ ps₂)
      (s.filterIterations + 1) .loose (pose₁, o.rescale pose₂ scale)
      (st.firstPose, st.secondPose) ∧
    -- enough common matches pass the strict test with the final poses
    ∃ rs : List Tri, rs.Nodup ∧ s.minThreeView ≤ rs.length ∧ initial.length / 2 < rs.length ∧
      ∀ t, t ∈ rs → CommonTo ps₁ ps₂ t ∧
        o.robust center st.first st.second .strict st.firstPose st.secondPose t = true

end Verif.Sfm
