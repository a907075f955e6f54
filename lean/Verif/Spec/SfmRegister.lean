import Verif.Model.SfmRegister
import Verif.Spec.Sfm

/-!
# What a good registration match is
-/

namespace Verif.Sfm

variable {P : Type}

/-- The iteration order is a permutation; the sort is a permutation and sorts by distance. -/
structure RegOrder.Fair (ro : RegOrder) : Prop where
  order : ∀ l, (ro.order l).Perm l
  sort : ∀ l, (ro.sort l).Perm l
  sorted : ∀ l, (ro.sort l).Pairwise (fun x y => x.2 ≤ y.2)

/-- `x` is the best distance at which landmark `l` is found for a feature: `knn v` lists the
(feature, distance) pairs the search returned for view `v`. -/
def Recon.BestAt (R : Recon P) (views : List Nat) (knn : Nat → List (Nat × Nat)) (l x : Nat) :
    Prop :=
  (∃ v i, v ∈ views ∧ (i, x) ∈ knn v ∧ R.Assigned v i l) ∧
  ∀ v i y, v ∈ views → (i, y) ∈ knn v → R.Assigned v i l → x ≤ y

/-- The landmarks `ls` stand out for a feature by at least `k`: one landmark closer than every
other one, or two landmarks closer than every other one, neither being closer than the other. -/
def Recon.StandsOut (R : Recon P) (views : List Nat) (knn : Nat → List (Nat × Nat)) (k : Nat)
    (ls : List Nat) : Prop :=
  (∃ l x, ls = [l] ∧ R.BestAt views knn l x ∧
    ∀ l' y, l' ≠ l → R.BestAt views knn l' y → x + k ≤ y) ∨
  (∃ a b x y, ls = [a, b] ∧ a ≠ b ∧ R.BestAt views knn a x ∧ R.BestAt views knn b y ∧
    x ≤ y ∧ y < x + k ∧ R.NoSharedView a b ∧
    ∀ l' z, l' ≠ a → l' ≠ b → R.BestAt views knn l' z → y + k ≤ z)

/-- The search found at least three different landmarks for a feature. -/
def Recon.ThreeCandidates (R : Recon P) (views : List Nat) (knn : Nat → List (Nat × Nat)) : Prop :=
  ∃ l₁ l₂ l₃ x₁ x₂ x₃, l₁ ≠ l₂ ∧ l₁ ≠ l₃ ∧ l₂ ≠ l₃ ∧ R.BestAt views knn l₁ x₁ ∧
    R.BestAt views knn l₂ x₂ ∧ R.BestAt views knn l₃ x₃

/-- The views to search exist and the search returns features they have. -/
def Recon.Searchable (R : Recon P) (views : List Nat) (knn : Nat → List (Nat × Nat)) : Prop :=
  ∀ v, v ∈ views → ∃ V, R.views.get v = some V ∧ ∀ e, e ∈ knn v → e.1 < V.landmarks.length

end Verif.Sfm
