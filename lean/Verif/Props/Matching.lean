import Verif.Lemmas.Matching

/-!
# C12: symmetric matching is a partial bijection
-/

namespace Verif.Sfm

/-- The answers of an exact search for the two nearest of `n` features, for queries `0 .. q-1`:
two answers with different valid indices and their distances, and no other feature is nearer than
the second answer. Ties may be broken in any way. -/
def NearestTwo (q n : Nat) (dist : Nat → Nat → Nat) (knn : Nat → List (Nat × Nat)) : Prop :=
  ∀ a, a < q → ∃ i j, knn a = [(i, dist a i), (j, dist a j)] ∧ i < n ∧ j < n ∧ i ≠ j ∧
    dist a i ≤ dist a j ∧ ∀ c, c < n → c ≠ i → dist a j ≤ dist a c

/-- Feature `b` of `n` is better than any other for the query `a` by the margin `k`. -/
def ClearlyBest (n k : Nat) (dist : Nat → Nat → Nat) (a b : Nat) : Prop :=
  ∀ c, c < n → c ≠ b → dist a b + k ≤ dist a c

/-- **C12** For whatever answers of the neighbour search with at least two valid entries per query,
symmetric matching does not panic and returns each feature of either frame at most once, in
increasing order; and swapping the frames returns the same pairs swapped. -/
theorem C12_partial_bijection (na nb k : Nat) (ab ba : Nat → List (Nat × Nat))
    (hab : 2 ≤ na → 2 ≤ nb → ∀ a, a < na → 2 ≤ (ab a).length ∧ ∀ e, e ∈ ab a → e.1 < nb)
    (hba : 2 ≤ na → 2 ≤ nb → ∀ b, b < nb → 2 ≤ (ba b).length ∧ ∀ e, e ∈ ba b → e.1 < na) :
    ∃ ps qs, symmetricMatching na nb k ab ba = some ps ∧
      symmetricMatching nb na k ba ab = some qs ∧
      (∀ p, p ∈ ps → p.1 < na ∧ p.2 < nb) ∧
      (ps.map Prod.fst).Nodup ∧ (ps.map Prod.snd).Nodup ∧ ps.Pairwise (fun p q => p.1 < q.1) ∧
      ∀ a b, (a, b) ∈ ps ↔ (b, a) ∈ qs := by
  by_cases h2 : 2 ≤ na ∧ 2 ≤ nb
  · obtain ⟨h2a, h2b⟩ := h2
    obtain ⟨ps, p1, p2, p3⟩ := symmetric_spec (k := k) (fun a ha _ _ => (hab h2a h2b a ha).1)
      (fun a i d ha hm => (hab h2a h2b a ha).2 _ hm) (fun b hb _ _ => (hba h2a h2b b hb).1)
    obtain ⟨qs, q1, q2, q3⟩ := symmetric_spec (k := k) (fun b hb _ _ => (hba h2a h2b b hb).1)
      (fun b i d hb hm => (hba h2a h2b b hb).2 _ hm) (fun a ha _ _ => (hab h2a h2b a ha).1)
    refine ⟨ps, qs, p1, q1, ?_, ?_, ?_, p2, ?_⟩
    · rintro ⟨a, b⟩ hm
      have := (p3 a b).mp hm
      exact ⟨this.2.2.1, this.2.2.2.1⟩
    · refine List.pairwise_map.mpr (p2.imp ?_)
      intro p q h e
      omega
    · refine List.pairwise_map.mpr ?_
      refine List.Pairwise.imp_of_mem ?_ p2
      rintro ⟨a, b⟩ ⟨a', b'⟩ hm hm' hlt e
      simp only at e hlt
      subst e
      obtain ⟨_, _, _, _, _, e1⟩ := (p3 a b).mp hm
      obtain ⟨_, _, _, _, _, e2⟩ := (p3 a' b).mp hm'
      rw [e1] at e2
      cases e2
      omega
    · intro a b
      rw [p3, q3]
      constructor
      · rintro ⟨h1, h2, h3, h4, h5, h6⟩; exact ⟨h2, h1, h4, h3, h6, h5⟩
      · rintro ⟨h1, h2, h3, h4, h5, h6⟩; exact ⟨h2, h1, h4, h3, h6, h5⟩
  · refine ⟨[], [], ?_, ?_, by simp, by simp, by simp, by simp, by simp⟩
    · simp only [symmetricMatching, matching]
      rw [if_pos (by omega), if_pos (by omega)]
      rfl
    · simp only [symmetricMatching, matching]
      rw [if_pos (by omega), if_pos (by omega)]
      rfl

/-- **C12** With an exact neighbour search and a positive margin, the pairs are exactly those in
which each feature is clearly the best for the other one. -/
theorem C12_exactly_mutual_best (na nb k : Nat) (hk : 0 < k) (ha : 2 ≤ na) (hb : 2 ≤ nb)
    (dist : Nat → Nat → Nat) (ab ba : Nat → List (Nat × Nat)) (hab : NearestTwo na nb dist ab)
    (hba : NearestTwo nb na (fun b a => dist a b) ba) :
    ∃ ps, symmetricMatching na nb k ab ba = some ps ∧ ∀ a b, (a, b) ∈ ps ↔
      a < na ∧ b < nb ∧ ClearlyBest nb k dist a b ∧ ClearlyBest na k (fun b a => dist a b) b a := by
  have key : ∀ (q n : Nat) (dist : Nat → Nat → Nat) (knn : Nat → List (Nat × Nat)),
      NearestTwo q n dist knn → ∀ a b, a < q → b < n →
      (matchOne k (knn a) = some (some b) ↔ ClearlyBest n k dist a b) := by
    intro q n dist knn h a b ha hb
    obtain ⟨i, j, e, hi, hj, hij, hd, hbest⟩ := h a ha
    rw [e]
    simp only [matchOne, Option.some.injEq, Option.ite_none_right_eq_some]
    constructor
    · rintro ⟨hle, rfl⟩ c hc hne
      have := hbest c hc hne
      omega
    · intro hcb
      have hib : i = b := by
        apply Decidable.byContradiction
        intro hne
        have := hcb i hi hne
        by_cases hjb : j = b
        · subst hjb; omega
        · have := hbest b hb (fun h => hne h.symm)
          omega
      subst hib
      exact ⟨hcb j hj (fun h => hij h.symm), rfl⟩
  obtain ⟨ps, p1, _, p3⟩ := symmetric_spec (k := k) (na := na) (nb := nb) (ab := ab) (ba := ba)
    (fun a ha _ _ => by obtain ⟨i, j, e, _⟩ := hab a ha; rw [e]; simp)
    (fun a i d ha hm => by
      obtain ⟨x, y, e, hx, hy, _⟩ := hab a ha
      rw [e] at hm
      simp at hm
      omega)
    (fun b hb _ _ => by obtain ⟨i, j, e, _⟩ := hba b hb; rw [e]; simp)
  refine ⟨ps, p1, ?_⟩
  intro a b
  rw [p3]
  constructor
  · rintro ⟨_, _, h1, h2, h3, h4⟩
    exact ⟨h1, h2, (key na nb dist ab hab a b h1 h2).mp h3, (key nb na _ ba hba b a h2 h1).mp h4⟩
  · rintro ⟨h1, h2, h3, h4⟩
    exact ⟨ha, hb, h1, h2, (key na nb dist ab hab a b h1 h2).mpr h3,
      (key nb na _ ba hba b a h2 h1).mpr h4⟩

/-- Distances of the example: feature 0 belongs to 1 and 1 to 0; feature 2 is unclear. -/
def Ex.dist3 : Nat → Nat → Nat
  | 0, 1 => 3
  | 1, 0 => 4
  | 2, _ => 9
  | _, _ => 20

def Ex.near3 (a : Nat) : List (Nat × Nat) :=
  match a with
  | 0 => [(1, 3), (0, 20)]
  | 1 => [(0, 4), (1, 20)]
  | _ => [(1, 9), (0, 9)]

def Ex.near2 (b : Nat) : List (Nat × Nat) :=
  match b with
  | 0 => [(1, 4), (2, 9)]
  | _ => [(0, 3), (2, 9)]

example : NearestTwo 3 2 Ex.dist3 Ex.near3 ∧ NearestTwo 2 3 (fun b a => Ex.dist3 a b) Ex.near2 ∧
    symmetricMatching 3 2 5 Ex.near3 Ex.near2 = some [(0, 1), (1, 0)] := by
  refine ⟨?_, ?_, rfl⟩
  · intro a ha
    match a, ha with
    | 0, _ => exact ⟨1, 0, rfl, by decide, by decide, by decide, by decide, by decide⟩
    | 1, _ => exact ⟨0, 1, rfl, by decide, by decide, by decide, by decide, by decide⟩
    | 2, _ => exact ⟨1, 0, rfl, by decide, by decide, by decide, by decide, by decide⟩
  · intro b hb
    match b, hb with
    | 0, _ => exact ⟨1, 2, rfl, by decide, by decide, by decide, by decide, by decide⟩
    | 1, _ => exact ⟨0, 2, rfl, by decide, by decide, by decide, by decide, by decide⟩

end Verif.Sfm
