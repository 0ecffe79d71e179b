import Mathlib.Data.Rat.Floor
import Mathlib.Data.Int.Log
import Mathlib.Tactic.Linarith
import Mathlib.Tactic.Ring
/-!
# Numbers: `NumT = f32` (`src/lib.rs:13`)

`Num` is the set of values an `f32` computation can produce: a finite rational number, the two
infinities and NaN. Every arithmetic operation is the exact rational operation followed by a
rounding `FP.rnd`. Theorems quantify over the rounding `F : FP` where they hold for every one
(in particular for binary32 round-to-nearest-even, `FP.binary32`), and use `FP.exact` where they are
about exact arithmetic.

Simplification: there is one zero (the sign of zero is dropped, so `x / 0` is `+inf`, `-inf` or NaN
according to the sign of `x`, as for the divisor `+0.0`), and one NaN.
-/
namespace BitBoost

/-- The values of an `f32`, without the sign of zero and NaN payloads. -/
inductive Num where
  | fin (q : ℚ)
  | pinf
  | ninf
  | nan
deriving DecidableEq, Repr

namespace Num

/-- `is_finite()`. -/
def isFinite : Num → Bool
  | fin _ => true
  | _ => false

/-- `is_nan()`. -/
def isNan : Num → Bool
  | nan => true
  | _ => false

/-- `<=` on `f32` (`PartialOrd::le`): false when an operand is NaN. -/
def le : Num → Num → Bool
  | fin a, fin b => decide (a ≤ b)
  | nan, _ => false
  | _, nan => false
  | ninf, _ => true
  | _, pinf => true
  | _, _ => false

/-- `<` on `f32`: false when an operand is NaN. -/
def lt : Num → Num → Bool
  | fin a, fin b => decide (a < b)
  | nan, _ => false
  | _, nan => false
  | ninf, ninf => false
  | ninf, _ => true
  | pinf, _ => false
  | _, pinf => true
  | _, _ => false

/-- `==` on `f32`: NaN is not equal to itself. -/
def eqb : Num → Num → Bool
  | nan, _ => false
  | a, b => decide (a = b)

/-- `f32::min(a, b)`: when one operand is NaN, the other. -/
def min (a b : Num) : Num :=
  if a.isNan then b else if b.isNan then a else if a.le b then a else b

/-- `f32::max(a, b)`: when one operand is NaN, the other. -/
def max (a b : Num) : Num :=
  if a.isNan then b else if b.isNan then a else if a.le b then b else a

/-- Unary minus. -/
def neg : Num → Num
  | fin q => fin (-q)
  | pinf => ninf
  | ninf => pinf
  | nan => nan

/-- `f32::abs`. -/
def abs : Num → Num
  | fin q => fin |q|
  | pinf => pinf
  | ninf => pinf
  | nan => nan

/-- `f32::signum` for numbers other than zero; the sign of zero is dropped, `signum(0)` is `1.0` as
for `+0.0`. -/
def signum : Num → Num
  | fin q => if q < 0 then fin (-1) else fin 1
  | pinf => fin 1
  | ninf => fin (-1)
  | nan => nan

/-- `f32::floor`: the floor of a finite `f32` is an `f32`. -/
def floor : Num → Num
  | fin q => fin ⌊q⌋
  | x => x

/-- Rounding of a rational to the nearest integer, ties away from zero. -/
def roundAway (q : ℚ) : ℤ := if 0 ≤ q then ⌊q + 1 / 2⌋ else -⌊-q + 1 / 2⌋

/-- `f32::round`: nearest integer, ties away from zero (an `f32` again). -/
def round : Num → Num
  | fin q => fin (roundAway q)
  | x => x

/-- Truncation towards zero. -/
def trunc (q : ℚ) : ℤ := if 0 ≤ q then ⌊q⌋ else ⌈q⌉

/-- `x as T` for an integer type with range `[lo, hi]`: truncate and saturate, NaN becomes 0. -/
def cast (lo hi : ℤ) : Num → ℤ
  | fin q => Max.max lo (Min.min hi (trunc q))
  | pinf => hi
  | ninf => lo
  | nan => 0

/-- `x as isize`. -/
def toIsize (x : Num) : ℤ := cast (-2 ^ 63) (2 ^ 63 - 1) x
/-- `x as usize`. -/
def toUsize (x : Num) : Nat := (cast 0 (2 ^ 64 - 1) x).toNat
/-- `x as u32`. -/
def toU32 (x : Num) : Nat := (cast 0 (2 ^ 32 - 1) x).toNat
/-- `x as u8`. -/
def toU8 (x : Num) : BitVec 8 := BitVec.ofInt 8 (cast 0 (2 ^ 8 - 1) x)

instance : Coe ℚ Num := ⟨fin⟩

end Num

/-- A floating point rounding: how an exact rational result is turned into an `f32`. -/
structure FP where
  /-- The rounding function. -/
  rnd : ℚ → Num
  rnd_ne_nan : ∀ q, rnd q ≠ .nan
  /-- Rounding preserves `≤`. -/
  mono : ∀ a b, a ≤ b → (rnd a).le (rnd b) = true
  /-- A rounded number is representable. -/
  idem : ∀ q r, rnd q = .fin r → rnd r = .fin r
  /-- Integers of at most 24 bits are representable. -/
  int : ∀ n : ℤ, |n| ≤ 2 ^ 24 → rnd n = .fin n
  /-- Rounding is symmetric. -/
  symm : ∀ q, rnd (-q) = (rnd q).neg

namespace FP

variable (F : FP)

/-- `a + b`. -/
def add : Num → Num → Num
  | .fin a, .fin b => F.rnd (a + b)
  | .nan, _ => .nan
  | _, .nan => .nan
  | .pinf, .ninf => .nan
  | .ninf, .pinf => .nan
  | .pinf, _ => .pinf
  | _, .pinf => .pinf
  | .ninf, _ => .ninf
  | _, .ninf => .ninf

/-- `a - b`. -/
def sub (a b : Num) : Num := F.add a b.neg

/-- Sign of a number, for products and quotients with an infinity: 1, 0 or -1. -/
def sgn : Num → ℤ
  | .fin q => if 0 < q then 1 else if q < 0 then -1 else 0
  | .pinf => 1
  | .ninf => -1
  | .nan => 0

/-- An infinity with the given sign; NaN for sign zero. -/
def infOf (s : ℤ) : Num := if 0 < s then .pinf else if s < 0 then .ninf else .nan

/-- `a * b`. -/
def mul : Num → Num → Num
  | .fin a, .fin b => F.rnd (a * b)
  | .nan, _ => .nan
  | _, .nan => .nan
  | a, b => infOf (sgn a * sgn b)

/-- `a / b`, with the one zero of the model taken as `+0.0`. -/
def div : Num → Num → Num
  | .fin a, .fin b => if b = 0 then infOf (sgn (.fin a)) else F.rnd (a / b)
  | .nan, _ => .nan
  | _, .nan => .nan
  | .fin _, _ => .fin 0
  | a, .fin b => if b < 0 then a.neg else a
  | _, _ => .nan

/-- `n as f32` for an unsigned integer. -/
def ofNat (n : Nat) : Num := F.rnd n

/-- Left-to-right sum with `+=`, starting at `0.0`. -/
def sum (l : List Num) : Num := l.foldl F.add (.fin 0)

/-- Arithmetic without rounding errors. -/
def exact : FP where
  rnd q := .fin q
  rnd_ne_nan := by simp
  mono := by simp [Num.le]
  idem := by simp
  int := by simp
  symm := by simp [Num.neg]

/-- Rounding of a rational to the nearest integer, ties to even. -/
def rne (q : ℚ) : ℤ :=
  if q - ⌊q⌋ < 1 / 2 then ⌊q⌋
  else if 1 / 2 < q - ⌊q⌋ then ⌊q⌋ + 1
  else if ⌊q⌋ % 2 = 0 then ⌊q⌋ else ⌊q⌋ + 1

/-- Exponent of the binary32 numbers around `q`: `⌊log2 |q|⌋`, at least -126 (subnormals). -/
def expo (q : ℚ) : ℤ := Max.max (Int.log 2 |q|) (-126)

/-- Distance between the binary32 numbers around `q`. -/
def ulp (q : ℚ) : ℚ := (2 : ℚ) ^ (expo q - 23)

/-- IEEE 754 binary32 round-to-nearest-even before the overflow check. -/
def round32 (q : ℚ) : ℚ := rne (q / ulp q) * ulp q

/-- IEEE 754 binary32 round-to-nearest-even: 24 bits of precision, exponents from -126 to 127,
gradual underflow, overflow to infinity. This is the arithmetic of Rust's `f32`. -/
def rnd32 (q : ℚ) : Num :=
  if (2 : ℚ) ^ 128 ≤ round32 q then .pinf
  else if round32 q ≤ -(2 : ℚ) ^ 128 then .ninf
  else .fin (round32 q)

end FP
end BitBoost
