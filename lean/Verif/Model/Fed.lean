import Mathlib.Analysis.SpecialFunctions.Trigonometric.Basic
import Mathlib.Analysis.Real.Sqrt
import Mathlib.Data.Nat.Prime.Infinite

/-!
# akaze: the time steps of fast explicit diffusion

Source: /repo/akaze/src/fed_tau.rs. Exact real arithmetic. Sizes are unbounded; `primal::is_prime` is taken to
decide primality.
-/

namespace Verif.Akaze

/-- fed_tau.rs 61-68: step number `k` of `n`. -/
noncomputable def tauStep (n : Nat) (scale tauMax : ℝ) (k : Nat) : ℝ :=
  let c := 1 / (4 * (n : ℝ) + 2)
  let d := scale * tauMax / 2
  let h := Real.cos (Real.pi * (2 * (k : ℝ) + 1) * c)
  d / (h * h)

/-- fed_tau.rs 74-77: the loop that looks for a prime number. -/
noncomputable def nextPrime (n : Nat) : Nat := Nat.find (Nat.exists_infinite_primes (n + 1))

/-- fed_tau.rs 81-86: from the counter `k` to the next usable index and the counter after it. `none` if
`0 - 1` is computed, which panics in a build with overflow checks (without, the index is out of range and
the loop goes on), or if the loop has not ended after `fuel` rounds. -/
def searchIndex (n kappa prime : Nat) : Nat → Nat → Option (Nat × Nat)
  | 0, _ => none
  | fuel + 1, k =>
    let r := (k + 1) * kappa % prime
    if r = 0 then none
    else if n ≤ r - 1 then searchIndex n kappa prime fuel (k + 1)
    else some (r - 1, k + 1)

/-- fed_tau.rs 79-88: the indices, `m` of them from the counter `k` on. The inner loop gets as many rounds
as there are residues; after that it would repeat itself. -/
def collectIndices (n kappa prime : Nat) : Nat → Nat → Option (List Nat)
  | 0, _ => some []
  | m + 1, k => do
    let (i, k') ← searchIndex n kappa prime prime k
    let is ← collectIndices n kappa prime m k'
    pure (i :: is)

/-- fed_tau.rs 60-93 `fed_tau_internal`. -/
noncomputable def fedInternal (n : Nat) (scale tauMax : ℝ) (reordering : Bool) : Option (List ℝ) :=
  if reordering then
    (collectIndices n (n / 2) (nextPrime n) n 0).bind
      (List.mapM (fun i => ((List.range n).map (tauStep n scale tauMax))[i]?))
  else some ((List.range n).map (tauStep n scale tauMax))

/-- fed_tau.rs 44: the number of steps. -/
noncomputable def stepCount (t tauMax : ℝ) : Nat :=
  ⌊((⌈Real.sqrt (3 * t / tauMax + 1 / 4) - 1 / 2 - 1 / 10 ^ 8⌉ : ℤ) : ℝ) + 1 / 2⌋₊

/-- fed_tau.rs 42-48 `fed_tau_by_cycle_time`. -/
noncomputable def fedByCycleTime (t tauMax : ℝ) (reordering : Bool) : Option (List ℝ) :=
  let n := stepCount t tauMax
  let scale := 3 * t / (tauMax * (n * (n + 1) : Nat))
  fedInternal n scale tauMax reordering

/-- fed_tau.rs 26-29 `fed_tau_by_process_time`. -/
noncomputable def fedByProcessTime (T : ℝ) (M : Int) (tauMax : ℝ) (reordering : Bool) : Option (List ℝ) :=
  fedByCycleTime (T / M) tauMax reordering

end Verif.Akaze
