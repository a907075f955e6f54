import Verif.Model.Descriptor

/-!
# Specification: the whole extraction
-/

namespace Verif.Akaze

/-- Sorting by response, largest first, in some order among equals. -/
structure SortsByResponse (sort : List KeyPoint → List KeyPoint) : Prop where
  perm : ∀ l, (sort l).Perm l
  sorted : ∀ l, (sort l).Pairwise (fun a b => b.response ≤ a.response)

/-- What extraction returns for the keypoints `detected`: keypoints and descriptors correspond, the strongest come
first, and a keypoint is missing only if it has no descriptor or there are `maximum` at least as strong ones. -/
structure Extracted (descriptor : KeyPoint → Except Fault (List (BitVec 8))) (maximum : Nat) (detected ks : List KeyPoint)
    (ds : List (List (BitVec 8))) : Prop where
  sameLength : ks.length = ds.length
  belongs : ∀ (i : Nat) k d, ks[i]? = some k → ds[i]? = some d → descriptor k = .ok d
  order : ks.Pairwise (fun a b => b.response ≤ a.response)
  atMost : ks.length ≤ maximum
  wereDetected : ks.Subperm detected
  missing : ∀ k ∈ detected, k ∉ ks → (∀ d, descriptor k ≠ .ok d) ∨
    ∃ strong : List KeyPoint, strong.length = maximum ∧ strong.Subperm detected ∧ ∀ p ∈ strong, k.response ≤ p.response

end Verif.Akaze
