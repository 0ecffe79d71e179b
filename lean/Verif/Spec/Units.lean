import Verif.Model.Boost
import Verif.Spec.Ieee
/-! Vocabulary for statements about the units in which numerical features are measured. -/
namespace BitBoost.Spec

/-- A number in other units: `u.1 * q + u.2`, in exact arithmetic (infinities and NaN stay what they are; `u.1` is
positive). -/
def inUnits (u : ℚ × ℚ) : Num → Num
  | .fin q => .fin (u.1 * q + u.2)
  | x => x

/-- A column in other units. -/
def columnInUnits (u : ℚ × ℚ) (c : Column) : Column :=
  { c with values := c.values.map (inUnits u), lo := inUnits u c.lo, hi := inUnits u c.hi }

/-- `d'` is `d` with the units `u f` for column `f`. -/
structure OtherUnits (u : Nat → ℚ × ℚ) (d d' : Data) : Prop where
  maxNbins : d'.maxNbins = d.maxNbins
  nfeatures : d'.nfeatures = d.nfeatures
  nexamples : d'.nexamples = d.nexamples
  cols : ∀ f, d'.cols[f]? = (d.cols[f]?).map (columnInUnits (u f))

/-- The units are changed for numerical features only, not for categorical ones and not for the target, and the factors
are positive. -/
structure GoodUnits (u : Nat → ℚ × ℚ) (d : Data) : Prop where
  pos : ∀ f, 0 < (u f).1
  categorical : ∀ f c, d.cols[f]? = some c → c.ftype ≠ .numerical → u f = (1, 0)
  target : u d.nfeatures = (1, 0)

/-- A finite `f32` number of ordinary size: 0, or from 2^-30 to 2^60 in size (an infinity or NaN will do, too). -/
def Ordinary : Num → Prop
  | .fin q => Grid32 q ∧ (q = 0 ∨ (1 / 2 ^ 30 ≤ |q| ∧ |q| ≤ 2 ^ 60))
  | _ => True

/-- The factors are powers of two, from 2^-30 to 2^30, nothing is added, and the columns with other units have values of
ordinary size. -/
def BinaryUnits (u : Nat → ℚ × ℚ) (d : Data) : Prop :=
  ∀ f, u f = (1, 0) ∨ ∃ k : ℤ, |k| ≤ 30 ∧ u f = ((2 : ℚ) ^ k, 0) ∧
    ∀ c, d.cols[f]? = some c → Ordinary c.lo ∧ Ordinary c.hi ∧ ∀ x ∈ c.values, Ordinary x

/-- A test in other units: the threshold of a test `x < v` is converted. -/
def critInUnits (u : Nat → ℚ × ℚ) (c : SplitCrit) : SplitCrit :=
  match c.splitType with
  | .numLt => { c with splitValue := inUnits (u c.featureId) c.splitValue }
  | _ => c

/-- A tree in other units: the same tree with converted thresholds. -/
def treeInUnits (u : Nat → ℚ × ℚ) (t : Tree) : Tree := { t with splitCrits := t.splitCrits.map (critInUnits u) }

/-- Several calls of `set_feature_data`: column, values, categorical or not. The flag: all succeeded. -/
def setAll : List (Nat × List Num × Bool) → Data → Out (Data × Bool)
  | [], d => .ok (d, true)
  | (f, xs, cat) :: calls, d => do
      let r ← d.setFeatureData f xs cat
      if r.2 then setAll calls r.1 else return r

/-- A CSV record in other units: field `f` in the units `u f`. -/
def itemInUnits (u : Nat → ℚ × ℚ) : Data.CsvItem → Data.CsvItem
  | .record fields => .record (fields.mapIdx fun f x => x.map (inUnits (u f)))
  | .error => .error

end BitBoost.Spec
