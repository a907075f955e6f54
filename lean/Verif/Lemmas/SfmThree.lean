import Verif.Spec.SfmThree
import Verif.Lemmas.SfmPose
import Verif.Lemmas.PoseGraphMoves
import Verif.Props.Optimize
import Verif.Props.Normalize
import Mathlib.Data.List.Nodup

/-!
# Lemmas: the poses of a three-view constraint
-/

namespace Verif.Sfm

open Verif.Geo

variable {C : Type}

theorem filter_indices {α : Type _} (p : α → Bool) : ∀ l : List α, ∃ js : List Nat, js.Nodup ∧
    (∀ j, j ∈ js ↔ ∃ b, l[j]? = some b ∧ p b = true) ∧ js.length = (l.filter p).length
  | [] => ⟨[], List.nodup_nil, by simp, rfl⟩
  | a :: l => by
    obtain ⟨js, h1, h2, h3⟩ := filter_indices p l
    have hs : (js.map (· + 1)).Nodup := h1.map (fun a b h => by simpa using h)
    by_cases ha : p a = true
    · refine ⟨0 :: js.map (· + 1), List.nodup_cons.2 ⟨by simp, hs⟩, ?_, by simp [ha, h3]⟩
      intro j
      cases j with
      | zero => simp [ha]
      | succ j => simp [h2]
    · refine ⟨js.map (· + 1), hs, ?_, by simp [ha, h3]⟩
      intro j
      cases j with
      | zero => simp [ha]
      | succ j => simp [h2]

theorem combinations_indices {α : Type _} (p : α → α → Bool) : ∀ l : List α, ∃ ps : List (Nat × Nat), ps.Nodup ∧
    (∀ i j, (i, j) ∈ ps ↔ i < j ∧ ∃ a b, l[i]? = some a ∧ l[j]? = some b ∧ p a b = true) ∧
    ps.length = ((combinations l).filter (fun q => p q.1 q.2)).length
  | [] => ⟨[], List.nodup_nil, by simp, rfl⟩
  | x :: l => by
    obtain ⟨ps, h1, h2, h3⟩ := combinations_indices p l
    obtain ⟨js, k1, k2, k3⟩ := filter_indices (p x) l
    refine ⟨js.map (fun j => (0, j + 1)) ++ ps.map (fun q => (q.1 + 1, q.2 + 1)), ?_, ?_, ?_⟩
    · refine List.Nodup.append (k1.map (fun a b h => by simpa using h)) (h1.map ?_) ?_
      · rintro ⟨a, b⟩ ⟨c, d⟩ h
        simpa using h
      · intro q hq hq'
        obtain ⟨j, _, rfl⟩ := List.mem_map.1 hq
        obtain ⟨r, _, hr⟩ := List.mem_map.1 hq'
        simp at hr
    · intro i j
      cases i with
      | zero =>
        cases j with
        | zero => simp
        | succ j => simp [k2]
      | succ i =>
        cases j with
        | zero => simp
        | succ j =>
          have := h2 i j
          simp [this]
    · simp [combinations, List.filter_map, k3, h3, Function.comp_def]

theorem apartPairs_eq (t : ThreeSettings) (ms : List Bearings) :
    ((combinations ms).filter (fun p => pairRobust t p.1 p.2)).length = apartPairs t ms := by
  obtain ⟨ps, h1, h2, h3⟩ := combinations_indices (pairRobust t) ms
  rw [← h3, ← List.toFinset_card_of_nodup h1]
  unfold apartPairs
  congr 1
  ext ⟨i, j⟩
  simp only [List.mem_toFinset, h2, Finset.mem_filter, Finset.mem_product, Finset.mem_range]
  have hp : ∀ a b, pairRobust t a b = true ↔ Apart t a b := by
    intro a b
    simp [pairRobust, Apart, and_assoc]
  constructor
  · rintro ⟨h, a, b, ha, hb, hab⟩
    exact ⟨⟨(List.getElem?_eq_some_iff.1 ha).1, (List.getElem?_eq_some_iff.1 hb).1⟩, h, a, b, ha, hb, (hp a b).1 hab⟩
  · rintro ⟨_, h, a, b, ha, hb, hab⟩
    exact ⟨h, a, b, ha, hb, (hp a b).2 hab⟩

/-! ## Which landmarks -/

theorem numObservations_eq {R : Recon (Iso ℝ)} {l : Nat} {L : Landmark} (h : R.landmarks.get l = some L) :
    numObservations R l = L.entries.length := by
  simp [numObservations, h]

theorem mostObserved_spec {R : Recon (Iso ℝ)} {ls ls' : List Nat} (hp : ls'.Perm ls) (hn : ls.Nodup) (n : Nat) :
    MostObserved R ls n ((mostObserved R ls').take n) := by
  have hperm : (mostObserved R ls').Perm ls := (List.perm_insertionSort _ _).trans hp
  have hsort : (mostObserved R ls').Pairwise (fun a b => numObservations R b ≤ numObservations R a) := by
    have : Std.Total (fun a b : Nat => numObservations R b ≤ numObservations R a) := ⟨fun a b => Nat.le_total _ _⟩
    have : IsTrans Nat (fun a b : Nat => numObservations R b ≤ numObservations R a) :=
      ⟨fun a b c h h' => Nat.le_trans h' h⟩
    exact List.pairwise_insertionSort _ _
  have hnod : (mostObserved R ls').Nodup := hperm.nodup_iff.2 hn
  refine ⟨hnod.sublist (List.take_sublist _ _), fun l h => hperm.mem_iff.1 (List.mem_of_mem_take h), ?_, ?_⟩
  · rw [List.length_take, hperm.length_eq]
  · intro l hl m hm hm' L M hL hM
    rw [← List.take_append_drop n (mostObserved R ls'), List.pairwise_append] at hsort
    have hmd : m ∈ (mostObserved R ls').drop n := by
      have := hperm.mem_iff.2 hm
      rw [← List.take_append_drop n (mostObserved R ls'), List.mem_append] at this
      exact this.resolve_left hm'
    have := hsort.2.2 l hl m hmd
    rwa [numObservations_eq hL, numObservations_eq hM] at this

theorem bearingFrom_iff {W : World C} {R : Recon (Iso ℝ)} {l v : Nat} {b : V3 ℝ} :
    bearingFrom W R l v = some b ↔ SeesAlong W R l v b := by
  unfold bearingFrom SeesAlong Recon.Observes
  simp only [Option.bind_eq_bind, Option.bind_eq_some_iff]
  constructor
  · rintro ⟨V, hV, L, hL, f, hf, hb⟩
    exact ⟨V, f, hV, ⟨L, hL, hf⟩, hb⟩
  · rintro ⟨V, f, hV, ⟨L, hL, hf⟩, hb⟩
    exact ⟨V, hV, L, hL, f, hf, hb⟩

theorem threeBearings_iff {W : World C} {R : Recon (Iso ℝ)} {v : Nat × Nat × Nat} {l : Nat} {o : Bearings} :
    threeBearings W R v l = some o ↔ SeenByThree W R v l o := by
  unfold threeBearings SeenByThree
  simp only [Option.bind_eq_bind, Option.bind_eq_some_iff, Option.pure_def, Option.some.injEq, bearingFrom_iff]
  constructor
  · rintro ⟨a, ha, b, hb, c, hc, rfl⟩
    exact ⟨ha, hb, hc⟩
  · rintro ⟨ha, hb, hc⟩
    exact ⟨_, ha, _, hb, _, hc, rfl⟩

theorem seesAlong_ex {W : World C} {R : Recon (Iso ℝ)} (hR : R.Consistent) (hb : BearingsComplete W R) {l v : Nat}
    (h : ∃ f, R.Observes l v f) : ∃ b, SeesAlong W R l v b := by
  obtain ⟨f, hf⟩ := h
  obtain ⟨V, hV, hfl⟩ := (hR.agree v f l).2 hf
  obtain ⟨b, hbb⟩ := hb v V f hV (List.getElem?_eq_some_iff.1 hfl).1
  exact ⟨b, V, f, hV, hf, hbb⟩

theorem threeBearings_ex {W : World C} {R : Recon (Iso ℝ)} {v : Nat × Nat × Nat} {ls : List Nat}
    (H : ThreeData W R v ls) {l : Nat} (hl : l ∈ ls) : ∃ o, SeenByThree W R v l o := by
  obtain ⟨h0, h1, h2⟩ := H.seen l hl
  obtain ⟨a, ha⟩ := seesAlong_ex H.cons H.complete h0
  obtain ⟨b, hb⟩ := seesAlong_ex H.cons H.complete h1
  obtain ⟨c, hc⟩ := seesAlong_ex H.cons H.complete h2
  exact ⟨⟨a, b, c⟩, ha, hb, hc⟩

/-- The value of the computation, with its lookups done. -/
theorem threeViewPoses_eq {W : World C} {R : Recon (Iso ℝ)} {v : Nat × Nat × Nat} {ls : List Nat}
    (H : ThreeData W R v ls) (t : ThreeSettings) {shuffle : List Nat → List Nat} (hs : ∀ l, (shuffle l).Perm l)
    {V0 V1 V2 : View (Iso ℝ)} (h0 : R.views.get v.1 = some V0) (h1 : R.views.get v.2.1 = some V1)
    (h2 : R.views.get v.2.2 = some V2) :
    ∃ chosen ms, MostObserved R ls t.maxLandmarks chosen ∧ List.Forall₂ (SeenByThree W R v) chosen ms ∧
      threeViewPoses W t shuffle R v ls = some (
        if apartPairs t ms < t.minPairs then none
        else
          let q := threeViewAdaptive (relativePose V0 V1, relativePose V0 V2) t.patience ms
          let final := q.1.t.norm + q.2.t.norm
          if final = 0 then none
          else
            let k := ((relativePose V0 V1).t.norm + (relativePose V0 V2).t.norm) / final
            some (q.1.scale k, q.2.scale k)) := by
  have hm := mostObserved_spec (R := R) (hs ls) H.nodup t.maxLandmarks
  obtain ⟨ms, hms⟩ : ∃ ms, ((mostObserved R (shuffle ls)).take t.maxLandmarks).mapM (threeBearings W R v) = some ms := by
    generalize (mostObserved R (shuffle ls)).take t.maxLandmarks = c at hm
    have hc : ∀ l ∈ c, l ∈ ls := hm.from_ls
    clear hm
    induction c with
    | nil => exact ⟨[], rfl⟩
    | cons l c ih =>
      obtain ⟨ms, h⟩ := ih (fun m h => hc m (List.mem_cons_of_mem _ h))
      obtain ⟨o, ho⟩ := threeBearings_ex H (hc l List.mem_cons_self)
      exact ⟨o :: ms, by rw [List.mapM_cons, threeBearings_iff.2 ho, h]; rfl⟩
  refine ⟨_, ms, hm, ?_, ?_⟩
  · have := mapM_pairs.1 hms
    exact this.imp (fun a b h => threeBearings_iff.1 h)
  · unfold threeViewPoses
    simp only [h0, h1, h2, hms, apartPairs_eq, Option.bind_eq_bind, Option.bind_some, Option.pure_def]
    unfold relativePose
    split
    · rfl
    · split <;> rfl

end Verif.Sfm
