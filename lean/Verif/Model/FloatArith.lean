import Verif.Model.BicubicFloat
import Verif.Model.Detect

/-!
# Floating point numbers

`f32` and `f64` as far as /repo/akaze uses them: a type with operations, and what IEEE 754 and the Rust reference say
about these. Nothing is said about the values of `exp`, `sin`, `cos`, `atan2` and `rem_euclid`, nor about the bits of a
NaN or the sign of a zero.
-/

namespace Verif.Akaze

open Verif.Bicubic (Flt)

/-- The operations on `f32` or `f64`. Literals such as `0.15` are rounded rational numbers; small natural numbers are
written as numerals. -/
class FloatOps (F : Type) extends Zero F, One F, Add F, Sub F, Mul F, Div F, Neg F, NatCast F where
  /-- a literal -/
  lit : ℚ → F
  /-- `as f32` of an `i32` -/
  ofInt : ℤ → F
  /-- `PI` -/
  pi : F
  /-- `<` -/
  lt : F → F → Bool
  /-- `<=` -/
  le : F → F → Bool
  /-- `FloatOrd(a) <= FloatOrd(b)`, a total order -/
  ordLe : F → F → Bool
  abs : F → F
  sqrt : F → F
  floor : F → F
  ceil : F → F
  round : F → F
  exp : F → F
  sin : F → F
  cos : F → F
  atan2 : F → F → F
  remEuclid : F → F → F
  /-- `powf` -/
  pow : F → F → F
  /-- `as usize` -/
  toNat : F → Nat
  /-- `as isize` -/
  toInt : F → ℤ

/-- `as f32` of an `f64` and `as f64` of an `f32`. -/
class FloatCast (F D : Type) where
  narrow : D → F
  widen : F → D

namespace FloatOps

variable {F : Type} [FloatOps F]

/-- `==` -/
def eq (a b : F) : Bool := le a b && le b a

end FloatOps

/-- `<=` of floating point values: false when one of the values is NaN. -/
def _root_.Verif.Bicubic.Flt.Le (a b : Flt) : Prop := b.Ge a

/-- Rounding the result of an operation: only numbers are rounded. -/
def roundedBy (rnd : ℝ → Flt) : Flt → Flt
  | .num x => rnd x
  | v => v

/-- What is assumed of the operations. `val` forgets the sign of a zero and the bits of a NaN; `rnd` is the rounding of
the type, whose result may be infinite (overflow). -/
structure Ieee (F : Type) [FloatOps F] where
  val : F → Flt
  rnd : ℝ → Flt
  /-- Rounding never gives NaN. -/
  rnd_ne_nan : ∀ x, rnd x ≠ .nan
  /-- Rounding keeps the order. -/
  rnd_mono : ∀ x y, x ≤ y → (rnd x).Le (rnd y)
  /-- Numbers of the type are not changed. -/
  rnd_val : ∀ a x, val a = .num x → rnd x = .num x
  /-- Numbers with 24 significant bits are numbers of the type. -/
  rnd_dyadic : ∀ (n : ℤ) (k : Nat), |n| ≤ 2 ^ 24 → k ≤ 100 → rnd (n / 2 ^ k) = .num (n / 2 ^ k)
  zero : val 0 = .num 0
  one : val 1 = .num 1
  natCast : ∀ n : Nat, val n = rnd n
  ofInt : ∀ z : ℤ, val (FloatOps.ofInt z) = rnd z
  lit : ∀ q : ℚ, val (FloatOps.lit q) = rnd q
  pi : val FloatOps.pi = rnd Real.pi
  lt : ∀ a b, FloatOps.lt a b = true ↔ (val a).Lt (val b)
  le : ∀ a b, FloatOps.le a b = true ↔ (val a).Le (val b)
  ordLe_total : ∀ a b : F, FloatOps.ordLe a b = true ∨ FloatOps.ordLe b a = true
  ordLe_trans : ∀ a b c : F, FloatOps.ordLe a b = true → FloatOps.ordLe b c = true → FloatOps.ordLe a c = true
  ordLe : ∀ a b, FloatOps.ordLe a b = true → val a = .nan ∨ val b = .nan ∨ (val a).Le (val b)
  add : ∀ a b, val (a + b) = roundedBy rnd ((val a).add (val b))
  sub : ∀ a b, val (a - b) = roundedBy rnd ((val a).sub (val b))
  mul : ∀ a b, val (a * b) = roundedBy rnd ((val a).mul (val b))
  neg : ∀ a, val (-a) = (val a).neg
  div : ∀ a b x y, val a = .num x → val b = .num y → y ≠ 0 → val (a / b) = rnd (x / y)
  div_zero : ∀ a b x, val a = .num x → val b = .num 0 → x ≠ 0 → ∃ s, val (a / b) = .inf s
  div_inf : ∀ a b x s, val a = .num x → val b = .inf s → val (a / b) = .num 0
  inf_div : ∀ a b s y, val a = .inf s → val b = .num y → 0 < y → val (a / b) = .inf s
  inf_div_inf : ∀ a b s t, val a = .inf s → val b = .inf t → val (a / b) = .nan
  div_nan : ∀ a b, val a = .nan ∨ val b = .nan → val (a / b) = .nan
  abs_num : ∀ a x, val a = .num x → val (FloatOps.abs a) = .num |x|
  abs_nan : ∀ a, val a = .nan → val (FloatOps.abs a) = .nan
  abs_inf : ∀ a s, val a = .inf s → val (FloatOps.abs a) = .inf false
  sqrt_num : ∀ a x, val a = .num x → val (FloatOps.sqrt a) = if x < 0 then .nan else rnd √x
  sqrt_nan : ∀ a, val a = .nan → val (FloatOps.sqrt a) = .nan
  sqrt_inf : ∀ a s, val a = .inf s → val (FloatOps.sqrt a) = if s then .nan else .inf false
  floor : ∀ a, val (FloatOps.floor a) = (val a).floor
  ceil_num : ∀ a x, val a = .num x → val (FloatOps.ceil a) = .num ⌈x⌉
  round_num : ∀ a x, val a = .num x → val (FloatOps.round a) = .num (roundAway x)
  round_rest : ∀ a, (∀ x, val a ≠ .num x) → val (FloatOps.round a) = val a
  /-- powers of two are exact -/
  pow_two : ∀ n : Nat, n ≤ 20 → val (FloatOps.pow 2 (n : F)) = .num (2 ^ n)
  toNat : ∀ a, FloatOps.toNat a = (val a).toNat (2 ^ 64 - 1)

/-- What is assumed of conversions. -/
structure IeeeCast {F D : Type} [FloatOps F] [FloatOps D] [FloatCast F D] (I : Ieee F) (J : Ieee D) : Prop where
  narrow : ∀ d : D, I.val (FloatCast.narrow d) = roundedBy I.rnd (J.val d)
  widen : ∀ f : F, J.val (FloatCast.widen f) = I.val f

end Verif.Akaze
