import Verif.Model.Num
import Mathlib.Algebra.Ring.Parity
import Mathlib.Tactic.Positivity
/-!
# IEEE 754 binary32, stated without computing anything

This is the definition of the rounding of `f32` results, as the standard gives it: the result is
the representable number nearest to the exact result, as if the exponent range had no upper end;
of two equally near ones, the one with the even significand; and a rounded result of magnitude
`2^128` or more becomes an infinity.
-/
namespace BitBoost.Spec

/-- The numbers with a 24 bit significand and an exponent that is bounded below only: `m * 2^e` with
`|m| < 2^24` and `e ≥ -149`. -/
def Grid32 (r : ℚ) : Prop := ∃ m e : ℤ, |m| < 2 ^ 24 ∧ -149 ≤ e ∧ r = m * (2 : ℚ) ^ e

/-- The significand of `r` is even: the last of its 24 bits (of its bits above `2^-149`, for a
subnormal number) is zero. -/
def EvenSig32 (r : ℚ) : Prop :=
  ∃ m e : ℤ, |m| < 2 ^ 24 ∧ -149 ≤ e ∧ (2 ^ 23 ≤ |m| ∨ e = -149) ∧ Even m ∧
    r = m * (2 : ℚ) ^ e

/-- `r` is `q` rounded to nearest, ties to even, with no upper end to the exponents. -/
def Nearest32 (q r : ℚ) : Prop :=
  Grid32 r ∧ ∀ r', Grid32 r' → |q - r| ≤ |q - r'| ∧ (|q - r| = |q - r'| → r' ≠ r → EvenSig32 r)

/-- The finite `f32` numbers. -/
def Finite32 (r : ℚ) : Prop := Grid32 r ∧ |r| < 2 ^ 128

/-- `x` is the `f32` result of an operation with exact result `q`. -/
def Rounded32 (q : ℚ) (x : Num) : Prop :=
  ∃ r, Nearest32 q r ∧
    ((2 : ℚ) ^ 128 ≤ r ∧ x = .pinf ∨ r ≤ -(2 : ℚ) ^ 128 ∧ x = .ninf ∨
      |r| < 2 ^ 128 ∧ x = .fin r)

/-- `a` is at or before `b` on the extended line; NaN is not on it. -/
def Before : Num → Num → Prop
  | .fin a, .fin b => a ≤ b
  | .ninf, x => x ≠ .nan
  | x, .pinf => x ≠ .nan
  | _, _ => False

/-- `n` is what `x as T` gives for an integer type `T` with the values `lo ≤ … ≤ hi`: the integer part
towards zero if that is in the range, else the end of the range on that side; zero for NaN. -/
def CastTo (lo hi : ℤ) (x : Num) (n : ℤ) : Prop :=
  match x with
  | .fin q => ∃ t : ℤ, |(t : ℚ)| ≤ |q| ∧ |q - t| < 1 ∧ 0 ≤ q * t ∧
      (t < lo ∧ n = lo ∨ lo ≤ t ∧ t ≤ hi ∧ n = t ∨ hi < t ∧ n = hi)
  | .pinf => n = hi
  | .ninf => n = lo
  | .nan => n = 0

end BitBoost.Spec
