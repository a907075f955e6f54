import Verif.Model.SfmGeometry

/-!
# Specification: exported meshes
-/

namespace Verif.Sfm

open Verif.Geo

variable {C : Type}

/-- The vertices of one camera: its centre and the corners up right, up left, down left and down right. -/
noncomputable def pyramid (color : C) (cam : ExportCamera) : List (V3 ℝ × C) :=
  [(cam.center, color), (corner cam 1 1, color), (corner cam 1 (-1), color), (corner cam (-1) (-1), color),
    (corner cam (-1) 1, color)]

/-- The sides of the pyramid of the camera with the given number: the centre and two neighbouring corners. -/
def sides (i : Nat) : List (List Nat) :=
  [[5 * i, 5 * i + 4, 5 * i + 1], [5 * i, 5 * i + 1, 5 * i + 2], [5 * i, 5 * i + 2, 5 * i + 3],
    [5 * i, 5 * i + 3, 5 * i + 4]]

/-- What is exported for a landmark: nothing if it is not robust or cannot be triangulated to a finite point, otherwise that
point in the colour of one of its observations. -/
def ExportedPoint (W : World C) (R : Recon (Iso ℝ)) (l : Nat) (q : Option (V3 ℝ × C)) : Prop :=
  ∃ p, triangulateRobust W R l = some p ∧
    (p.bind toPoint = none → q = none) ∧
    ∀ x, p.bind toPoint = some x → ∃ L o V c, R.landmarks.get l = some L ∧ o ∈ L.entries ∧
      R.views.get o.1 = some V ∧ W.colour V.frame o.2 = some c ∧ q = some (x, c)

end Verif.Sfm
