import Verif.Model.FloatAkaze
import Verif.Spec.Evolution

/-!
# Specification: extraction with floating point numbers
-/

namespace Verif.Akaze

open FloatOps FloatCast
open Verif.Bicubic (Flt)

/-- The value is a number in this range, not NaN and not infinite. -/
def Ieee.Between {F : Type} [FloatOps F] (I : Ieee F) (a : F) (lo hi : ℝ) : Prop :=
  ∃ x, I.val a = .num x ∧ lo ≤ x ∧ x ≤ hi

/-- Settings with which extraction is expected to work. Nothing is asked of the threshold and the percentile, which may
be NaN. -/
structure FUsable {D : Type} [FloatOps D] (J : Ieee D) (s : FSettings D) : Prop where
  sublevels : 0 < s.numSublevels
  octaves : 0 < s.maxOctave
  base : J.Between s.baseScale (1 / 2 ^ 20) (2 ^ 20)
  bins : 0 < s.contrastBins
  bins_small : s.contrastBins ≤ 2 ^ 24
  channels : s.channels ≤ 3
  pattern : 0 < s.patternSize
  pattern_small : s.patternSize ≤ 2 ^ 20

/-- The levels of the scale space without their time steps. -/
def plainLevels {D : Type} [FloatOps D] (s : FSettings D) (w h : Nat) : List (FLevel D) :=
  (flevelNumbers s w h).map (fun p => fnewLevel s p.1 p.2)

/-- The sizes of the levels: the scale of the derivatives is at least one pixel of the halved image and not absurdly
large, and the diffusion between two levels (in one cycle) takes no or several steps but not one (where the code panics)
and not absurdly many. -/
structure LevelsOk {D : Type} [FloatOps D] (J : Ieee D) (s : FSettings D) (w h : Nat) : Prop where
  sizes : ∀ l ∈ plainLevels s w h, J.Between (l.esigma * s.derivativeFactor) (2 ^ l.octave) (2 ^ 19)
  times : (plainLevels s w h).IsChain (fun a b => fstepCount ((b.etime - a.etime) / 1) (lit (1 / 4)) ≠ 1 ∧
    fstepCount ((b.etime - a.etime) / 1) (lit (1 / 4)) < 2 ^ 32 - 1)

/-- Powers of two are computed up to a thousandth (`powf` is not specified exactly by Rust). -/
def PowAccurate {D : Type} [FloatOps D] (J : Ieee D) : Prop :=
  ∀ (a : D) (y : ℝ), J.val a = .num y → 0 ≤ y → y ≤ 4 →
    J.Between (pow 2 a) ((2 : ℝ) ^ y * (1 - 1 / 1000)) ((2 : ℝ) ^ y * (1 + 1 / 1000))

end Verif.Akaze
