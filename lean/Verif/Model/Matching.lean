/-!
# Model of the descriptor matching of cv-sfm

Source: /repo/cv-sfm/src/lib.rs 3097-3133.  The nearest neighbour search (`hgg`) is a parameter:
`knn i` is its answer for feature `i`, a list of (index, distance).  `none` is a panic.
Simplification: distances are `Nat`; the `u32` addition of `better_by` does not overflow.
-/

namespace Verif.Sfm

/-- lib.rs 3104-3112: one feature; `knn[0]`, `knn[1]` panic when missing. -/
def matchOne (betterBy : Nat) (answer : List (Nat × Nat)) : Option (Option Nat) :=
  match answer with
  | (i, d) :: (_, d') :: _ => some (if d + betterBy ≤ d' then some i else none)
  | _ => none

/-- lib.rs 3103-3113: all features in turn. -/
def matchAll (betterBy : Nat) (knn : Nat → List (Nat × Nat)) : List Nat → Option (List (Option Nat))
  | [] => some []
  | a :: as =>
    match matchOne betterBy (knn a), matchAll betterBy knn as with
    | some m, some ms => some (m :: ms)
    | _, _ => none

/-- lib.rs 3097-3114 `matching`, for frames with `na` and `nb` features. -/
def matching (na nb betterBy : Nat) (knn : Nat → List (Nat × Nat)) : Option (List (Option Nat)) :=
  if na < 2 ∨ nb < 2 then some []
  else matchAll betterBy knn (List.range na)

/-- lib.rs 3121-3132: keep a match if the reverse match agrees; `reverse_matches[bix]` panics when
out of range. `a` is the position of the head of the list. -/
def keepSymmetric (reverse : List (Option Nat)) : Nat → List (Option Nat) → Option (List (Nat × Nat))
  | _, [] => some []
  | a, none :: ms => keepSymmetric reverse (a + 1) ms
  | a, some b :: ms =>
    match reverse[b]?, keepSymmetric reverse (a + 1) ms with
    | some r, some ps => some (if r = some a then (a, b) :: ps else ps)
    | _, _ => none

/-- lib.rs 3116-3133 `symmetric_matching`: `ab` answers the queries of features of the first frame
among those of the second, `ba` the converse. -/
def symmetricMatching (na nb betterBy : Nat) (ab ba : Nat → List (Nat × Nat)) :
    Option (List (Nat × Nat)) :=
  match matching na nb betterBy ab, matching nb na betterBy ba with
  | some f, some r => keepSymmetric r 0 f
  | _, _ => none

end Verif.Sfm
