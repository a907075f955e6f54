import Verif.Model.Fed
import Mathlib.Data.List.NatAntidiagonal
import Mathlib.Data.Finset.Card

/-!
# The reordering of the diffusion steps
-/

namespace Verif.Akaze

theorem nextPrime_spec (n : Nat) : n + 1 ≤ nextPrime n ∧ (nextPrime n).Prime :=
  Nat.find_spec (Nat.exists_infinite_primes (n + 1))

/-- The usable indices from the counter `k` on. -/
def usable (n kappa p k : Nat) : List Nat :=
  ((List.range' (k + 1) (p - 1 - k)).map (fun j => j * kappa % p - 1)).filter (fun i => i < n)

theorem usable_step {n kappa p k : Nat} (h : k + 1 < p) : usable n kappa p k =
    if (k + 1) * kappa % p - 1 < n then ((k + 1) * kappa % p - 1) :: usable n kappa p (k + 1)
    else usable n kappa p (k + 1) := by
  unfold usable
  rw [show p - 1 - k = (p - 1 - (k + 1)) + 1 by omega, List.range'_succ, List.map_cons, List.filter_cons]
  simp only [decide_eq_true_eq]

theorem usable_end {n kappa p k : Nat} (h : p ≤ k + 1) : usable n kappa p k = [] := by
  unfold usable
  rw [show p - 1 - k = 0 by omega]
  rfl

theorem residue_pos {p kappa j : Nat} (hp : p.Prime) (hk : 0 < kappa) (hk' : kappa < p) (hj : 0 < j)
    (hj' : j < p) : 0 < j * kappa % p := by
  rw [Nat.pos_iff_ne_zero, Ne, ← Nat.dvd_iff_mod_eq_zero, hp.dvd_mul]
  rintro (h | h)
  · exact absurd (Nat.le_of_dvd hj h) (by omega)
  · exact absurd (Nat.le_of_dvd hk h) (by omega)

theorem search_usable {n kappa p : Nat} (hp : p.Prime) (hk : 0 < kappa) (hk' : kappa < p) {i : Nat}
    {is : List Nat} : ∀ (fuel k : Nat), p ≤ fuel + k + 1 → usable n kappa p k = i :: is →
      ∃ k', searchIndex n kappa p fuel k = some (i, k') ∧ usable n kappa p k' = is := by
  intro fuel
  induction fuel with
  | zero =>
    intro k hf h
    rw [usable_end (by omega)] at h
    cases h
  | succ fuel ih =>
    intro k hf h
    by_cases hkp : k + 1 < p
    · rw [usable_step hkp] at h
      rw [searchIndex]
      have hr := residue_pos hp hk hk' (Nat.succ_pos k) hkp
      simp only [if_neg hr.ne']
      by_cases hi : (k + 1) * kappa % p - 1 < n
      · rw [if_pos hi] at h
        rw [if_neg (by omega)]
        obtain ⟨h1, h2⟩ := List.cons.inj h
        exact ⟨k + 1, by rw [h1], h2⟩
      · rw [if_neg hi] at h
        rw [if_pos (by omega)]
        exact ih (k + 1) (by omega) h
    · rw [usable_end (by omega)] at h
      cases h

theorem collect_usable {n kappa p : Nat} (hp : p.Prime) (hk : 0 < kappa) (hk' : kappa < p) :
    ∀ (m k : Nat), m = (usable n kappa p k).length →
      collectIndices n kappa p m k = some (usable n kappa p k) := by
  intro m
  induction m with
  | zero =>
    intro k h
    rw [List.length_eq_zero_iff.mp h.symm]
    rfl
  | succ m ih =>
    intro k h
    cases hu : usable n kappa p k with
    | nil => rw [hu] at h; cases h
    | cons i is =>
      obtain ⟨k', h1, h2⟩ := search_usable hp hk hk' p k (by omega) hu
      rw [collectIndices, h1]
      simp only [Option.bind_eq_bind, Option.bind_some]
      rw [ih k' (by rw [h2]; rw [hu] at h; simpa using h), h2]
      rfl

/-- Multiples of `kappa` hit every residue once. -/
theorem usable_perm {n kappa p : Nat} (hp : p.Prime) (hn : n < p) (hk : 0 < kappa) (hk' : kappa < p) :
    (usable n kappa p 0).Perm (List.range n) := by
  have hp2 := hp.two_le
  have hinj : ((List.range' 1 (p - 1)).map (fun j => j * kappa % p - 1)).Nodup := by
    refine List.Nodup.map_on ?_ List.nodup_range'
    intro a ha b hb hab
    rw [List.mem_range'_1] at ha hb
    have h1 := residue_pos hp hk hk' (show 0 < a by omega) (by omega)
    have h2 := residue_pos hp hk hk' (show 0 < b by omega) (by omega)
    have h3 : a * kappa ≡ b * kappa [MOD p] := by unfold Nat.ModEq; omega
    have hc : Nat.gcd p kappa = 1 := by
      rw [← Nat.coprime_iff_gcd_eq_one, Nat.Prime.coprime_iff_not_dvd hp]
      exact fun h => absurd (Nat.le_of_dvd hk h) (by omega)
    have h4 : a ≡ b [MOD p] := Nat.ModEq.cancel_right_of_coprime hc h3
    unfold Nat.ModEq at h4
    rwa [Nat.mod_eq_of_lt (by omega), Nat.mod_eq_of_lt (by omega)] at h4
  have hsub : ((List.range' 1 (p - 1)).map (fun j => j * kappa % p - 1)) ⊆ List.range (p - 1) := by
    intro i hi
    obtain ⟨j, _, rfl⟩ := List.mem_map.mp hi
    rw [List.mem_range]
    have := Nat.mod_lt (j * kappa) (show 0 < p by omega)
    omega
  have hperm : ((List.range' 1 (p - 1)).map (fun j => j * kappa % p - 1)).Perm (List.range (p - 1)) :=
    (List.Nodup.subperm hinj hsub).perm_of_length_le (by simp)
  have h := hperm.filter (fun i => decide (i < n))
  have e : (List.range (p - 1)).filter (fun i => decide (i < n)) = List.range n := by
    rw [show p - 1 = n + (p - 1 - n) by omega, List.range_add, List.filter_append]
    rw [List.filter_eq_self.mpr (fun i hi => by simpa using hi)]
    rw [List.filter_eq_nil_iff.mpr (fun i hi => by
      obtain ⟨j, _, rfl⟩ := List.mem_map.mp hi
      simp)]
    rw [List.append_nil]
  rw [e] at h
  exact h

end Verif.Akaze
