import Verif.Model.Data
/-! Vocabulary for statements about columns. -/
namespace BitBoost.Spec

/-- `lo` and `hi` bound all the numbers in `vals` (NaN is not a number). -/
def Bounded (lo hi : Num) (vals : List Num) : Prop :=
  ∀ v ∈ vals, v ≠ .nan → lo.le v = true ∧ v.le hi = true

/-- `lo` and `hi` are the exact minimum and maximum of the numbers in `vals`. -/
def ExactLimits (lo hi : Num) (vals : List Num) : Prop :=
  Bounded lo hi vals ∧ ((∃ v ∈ vals, v ≠ .nan) → lo ∈ vals ∧ hi ∈ vals)

/-- A valid category: a non-negative whole number (or, accepted by the code, `+inf`). -/
def IsCategory (v : Num) : Prop := v = .pinf ∨ ∃ n : Nat, v = .fin n

/-- `card` is one more than the largest category (categories above 2^32-1 saturate). -/
def ExactCard (card : Nat) (vals : List Num) : Prop :=
  (∀ v ∈ vals, v.toU32 < card) ∧ (vals ≠ [] → ∃ v ∈ vals, card = v.toU32 + 1)

/-- A fixed-point column: up to a common power of two (from 2^-100 to 2^100) the values and the limits are
integers of at most 14 bits and a sign. Columns of (not too large) whole numbers are of this form, and so are
columns of prices in quarters, of 8-bit pixel values divided by 256, and the like. NaN is allowed. -/
def FixedPoint (c : Column) : Prop :=
  ∃ e : ℤ, -100 ≤ e ∧ e ≤ 100 ∧
    ∀ v ∈ c.lo :: c.hi :: c.values, v ≠ .nan → ∃ k : ℤ, |k| ≤ 2 ^ 14 ∧ v = .fin (k * (2 : ℚ) ^ e)

/-- A column in general position: the limits are finite, of magnitude at most `M`, and not too close together, the values
are between them, and no value is within `M / 2^19` of one of the 511 inner bounds of the 512 bins of equal width. -/
def Separated (c : Column) : Prop :=
  ∃ l h M : ℚ, c.lo = .fin l ∧ c.hi = .fin h ∧ |l| ≤ M ∧ |h| ≤ M ∧ M ≤ 2 ^ 100 ∧ M / 512 ≤ h - l ∧ 1 / 2 ^ 90 ≤ h - l ∧
    ∀ v ∈ c.values, v ≠ .nan → ∃ x, v = .fin x ∧ l ≤ x ∧ x ≤ h ∧
      ∀ i : ℕ, 1 ≤ i → i ≤ 511 → M / 2 ^ 19 ≤ |x - (l + i * ((h - l) / 512))|

/-- The limits of a column are finite, of magnitude at most `M`, and not too close together, and the values are between
them (the loaders see to that: C27, C28). -/
def WideLimits (c : Column) (M : ℚ) : Prop :=
  ∃ l h : ℚ, c.lo = .fin l ∧ c.hi = .fin h ∧ |l| ≤ M ∧ |h| ≤ M ∧ M ≤ 2 ^ 100 ∧ M / 512 ≤ h - l ∧ 1 / 2 ^ 90 ≤ h - l ∧
    Bounded c.lo c.hi c.values

/-- The numbers `v` and `s` are at least `M / 2^18` apart: about 32 times the distance of neighbouring `f32` numbers
around `M`. -/
def Apart (M : ℚ) (v s : Num) : Prop := ∃ x y : ℚ, v = .fin x ∧ s = .fin y ∧ M / 2 ^ 18 ≤ |x - y|

end BitBoost.Spec
