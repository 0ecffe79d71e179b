import Verif.Spec.Trees
import Verif.Spec.Dataset
import Verif.Model.Boost
/-! Vocabulary for statements about columns that hold one value only. -/
namespace BitBoost.Spec

/-- `d'` is `d` without the feature in column `k`: the later columns, with the target, move up. -/
structure WithoutColumn (k : Nat) (d d' : Data) : Prop where
  maxNbins : d'.maxNbins = d.maxNbins
  nexamples : d'.nexamples = d.nexamples
  feature : k < d.nfeatures
  nfeatures : d'.nfeatures = d.nfeatures - 1
  cols : d'.cols = d.cols.eraseIdx k

/-- The recorded limits of column `k` are equal. -/
def OneValue (k : Nat) (d : Data) : Prop := ∃ c, d.cols[k]? = some c ∧ c.lo.eqb c.hi = true

/-- A feature other than `k` has at least two values according to its recorded limits, and, if it is a categorical one, does
not have just one category. -/
def OtherFeature (k : Nat) (d : Data) : Prop :=
  ∃ f c, f ≠ k ∧ f < d.nfeatures ∧ d.cols[f]? = some c ∧ c.lo.eqb c.hi = false ∧ 0 < Data.colMaxNbins d.maxNbins c

/-- The number, with column `k`, of the feature that has number `f` without it. -/
def skip (k f : Nat) : Nat := if f < k then f else f + 1

/-- The same test, when there is a column `k` as well. -/
def critWith (k : Nat) (c : SplitCrit) : SplitCrit :=
  if c.isNone then c else { c with featureId := skip k c.featureId }

/-- `t` is `t'`, with the features numbered as they are when there is a column `k` as well. -/
structure TreeWith (k : Nat) (t t' : Tree) : Prop where
  crits : t.splitCrits = t'.splitCrits.map (critWith k)
  values : t.nodeValues = t'.nodeValues
  ninternal : t.ninternal = t'.ninternal
  maxDepth : t.maxDepth = t'.maxDepth
  shrinkage : t.shrinkage = t'.shrinkage
  bias : t.bias = t'.bias
  supercats : t'.supercats = t.supercats.eraseIdx k
  unused : t.supercats[k]?.getD [] = []
  leaves : ∀ c ∈ t'.splitCrits, c.isNone = true → c = SplitCrit.none

end BitBoost.Spec
