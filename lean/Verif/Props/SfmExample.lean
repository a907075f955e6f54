import Verif.Lemmas.SfmHistory

/-!
# A concrete history, used to show that the hypotheses of the SfM theorems can be met

Four frames of one feed.  The first three start a reconstruction, the fourth is added to it and
joins two landmarks.
-/

namespace Verif.Sfm.Ex

/-- Poses of the example: translations along a line. -/
structure Shift where
  off : Int
deriving DecidableEq, Repr

instance : Mul Shift := ⟨fun a b => ⟨a.off + b.off⟩⟩
instance : Inv Shift := ⟨fun a => ⟨-a.off⟩⟩

/-- Matches of the fourth frame: feature 0 joins landmarks 2 and 3, feature 1 is landmark 1. -/
def ex4 : Nat → Option (List Nat)
  | 0 => some [2, 3]
  | 1 => some [1]
  | _ => none

def d1 : Data Shift := Data.empty.addFeed
def d2 : Data Shift := (d1.addFrame 0 3).getD d1
def d3 : Data Shift := (d2.addFrame 0 3).getD d1
def d4 : Data Shift := (d3.addFrame 0 2).getD d1
def d5 : Data Shift := (d4.addFrame 0 2).getD d1
def init3 : Op Shift := .addReconstruction 0 1 2 ⟨0⟩ ⟨1⟩ ⟨2⟩ [(0, 0, 0)] [(1, 2)] [(2, 1)]
def d6 : Data Shift := (step d5 init3).getD d1
def d7 : Data Shift := (step d6 (.addView 0 3 ⟨3⟩ ex4)).getD d1

theorem reach5 : Reachable d5 := by
  have h1 : Reachable d1 := .step (op := .addFeed) .init trivial rfl
  have h2 : Reachable d2 := .step (op := .addFrame 0 3) h1 ⟨[], rfl⟩ rfl
  have h3 : Reachable d3 := .step (op := .addFrame 0 3) h2 ⟨[0], rfl⟩ rfl
  have h4 : Reachable d4 := .step (op := .addFrame 0 2) h3 ⟨[0, 1], rfl⟩ rfl
  exact .step (op := .addFrame 0 2) h4 ⟨[0, 1, 2], rfl⟩ rfl

theorem valid6 : Valid d5 init3 := by
  refine ⟨by decide, by decide, by decide, ⟨3, _, rfl, rfl, rfl⟩, ⟨2, _, rfl, rfl, rfl⟩,
    3, ⟨_, rfl, rfl, rfl⟩, ?_, ?_⟩
  all_goals
    constructor
    · intro f c h
      simp at h
      omega
    · intro f g c h h'
      simp at h h'
      omega

/-- Three views, one constraint, four landmarks. -/
theorem reach6 : Reachable d6 := .step reach5 valid6 rfl

/-- The reconstruction of the example before the fourth frame. -/
def R6 : Recon Shift := (d6.recons.get 0).getD Recon.empty
theorem get6 : d6.recons.get 0 = some R6 := rfl
/-- The landmark lists of the three views. -/
theorem lists6 : R6.views.map.entries.map (fun e => e.2.landmarks) =
    [[0, 1, 2], [0, 3, 1], [0, 2]] := rfl

theorem live6 {l : Nat} (h : l < 4) : R6.LiveLandmark l := by
  match l, h with
  | 0, _ => exact ⟨_, rfl⟩
  | 1, _ => exact ⟨_, rfl⟩
  | 2, _ => exact ⟨_, rfl⟩
  | 3, _ => exact ⟨_, rfl⟩

theorem noShared6 : R6.NoSharedView 2 3 := by
  rintro v f g ⟨A, hA, h⟩ ⟨B, hB, h'⟩
  have eA : A = ⟨[(0, 2), (2, 1)]⟩ := (Option.some.inj hA).symm
  have eB : B = ⟨[(1, 1)]⟩ := (Option.some.inj hB).symm
  subst eA eB
  have h1 := FMap.mem_of_get h
  have h2 := FMap.mem_of_get h'
  simp at h1 h2
  omega

theorem matches6 : R6.ValidMatches 2 ex4 := by
  constructor
  · intro f ls hf h
    match f, hf with
    | 0, _ =>
      cases h
      exact Or.inr ⟨2, 3, rfl, by decide, live6 (by decide), live6 (by decide), noShared6⟩
    | 1, _ =>
      cases h
      exact Or.inl ⟨1, rfl, live6 (by decide)⟩
  · intro f g ls ms hf hg hne h h'
    match f, hf, g, hg with
    | 0, _, 0, _ => exact absurd rfl hne
    | 1, _, 1, _ => exact absurd rfl hne
    | 0, _, 1, _ => cases h; cases h'; decide
    | 1, _, 0, _ => cases h; cases h'; decide

theorem valid7 : Valid d6 (.addView 0 3 ⟨3⟩ ex4) :=
  ⟨R6, 2, get6, ⟨_, rfl, rfl, rfl⟩, matches6⟩

/-- Four views; landmarks 2 and 3 have become one. -/
theorem reach7 : Reachable d7 := .step reach6 valid7 rfl

def R7 : Recon Shift := (d7.recons.get 0).getD Recon.empty
theorem get7 : d7.recons.get 0 = some R7 := rfl
theorem lists7 : R7.views.map.entries.map (fun e => e.2.landmarks) =
    [[0, 1, 2], [0, 2, 1], [0, 2], [2, 1]] := rfl
theorem landmarks7 : R7.landmarks.map.entries.map (fun e => (e.1, e.2.entries)) =
    [(0, [(0, 0), (1, 0), (2, 0)]), (1, [(0, 1), (1, 2), (3, 1)]),
      (2, [(0, 2), (2, 1), (1, 1), (3, 0)])] := by rfl

end Verif.Sfm.Ex
