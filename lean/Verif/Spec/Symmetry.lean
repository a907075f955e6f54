import Verif.Spec.Detect

/-!
# Specification: transposed and mirrored pictures
-/

namespace Verif.Akaze

variable {K : Type _}

/-- The picture with rows and columns exchanged. -/
def transpose [Zero K] (i : Img K) : Img K := Img.ofFn i.h i.w (fun x y => (i.get y x).getD 0)

/-- The picture with left and right exchanged. -/
def mirror [Zero K] (i : Img K) : Img K := Img.ofFn i.w i.h (fun x y => (i.get (i.w - 1 - x) y).getD 0)

/-- The picture with all values negated. -/
def negate [Neg K] (i : Img K) : Img K := ⟨i.w, i.h, i.data.map (fun v => -v)⟩

/-- A level of the scale space with its images transposed. -/
noncomputable def transposeScale (s : Scale) : Scale := ⟨s.level, transpose s.lt, transpose s.lsmooth⟩

/-- A level of the scale space with its images mirrored. -/
noncomputable def mirrorScale (s : Scale) : Scale := ⟨s.level, mirror s.lt, mirror s.lsmooth⟩

/-- A level of the detector with its images mirrored: the derivative to the right changes its sign. -/
noncomputable def mirrorLevel (l : DetLevel) : DetLevel :=
  ⟨l.octave, l.esigma, mirror l.lt, negate (mirror l.lx), mirror l.ly, mirror l.ldet⟩

/-- The levels of a picture and of the transposed picture: the two derivatives exchange their parts, and the responses
agree at all pixels with at least `margin` pixels on each side. -/
structure TransposedLevels (margin : Nat) (l l' : DetLevel) : Prop where
  octave : l'.octave = l.octave
  esigma : l'.esigma = l.esigma
  lt : l'.lt = transpose l.lt
  lx : l'.lx = transpose l.ly
  ly : l'.ly = transpose l.lx
  width : l'.ldet.w = l.ldet.h
  height : l'.ldet.h = l.ldet.w
  ldet : ∀ x y, margin ≤ x → x + margin < l.ldet.w → margin ≤ y → y + margin < l.ldet.h →
    l'.ldet.get y x = l.ldet.get x y

/-- The levels that the detector works with (akaze/src/lib.rs 309-319). -/
noncomputable def levelsOf (c : Config) (derivativeFactor : ℝ) (image : Img ℝ) : Option (List DetLevel) :=
  (scaleSpace c image).bind (List.mapM (detLevel derivativeFactor))

/-- The keypoint with its coordinates exchanged. -/
def KeyPoint.swap (k : KeyPoint) : KeyPoint := { k with x := k.y, y := k.x }

/-- The keypoint in a mirrored picture of this width. -/
def KeyPoint.flip (w : Nat) (k : KeyPoint) : KeyPoint := { k with x := w - 1 - k.x }

end Verif.Akaze
