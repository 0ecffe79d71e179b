import Verif.Spec.Units
/-! Vocabulary for statements about what training depends on in the targets. -/
namespace BitBoost.Spec

/-- `d` and `d'` have the same features, in the same rows; their targets, with values `ts` and `ts'`, may differ. -/
structure SameFeatures (d d' : Data) (ts ts' : List Num) : Prop where
  maxNbins : d'.maxNbins = d.maxNbins
  nfeatures : d'.nfeatures = d.nfeatures
  nexamples : d'.nexamples = d.nexamples
  cols : ∀ f, f ≠ d.nfeatures → d'.cols[f]? = d.cols[f]?
  left : ∃ c, d.cols[d.nfeatures]? = some c ∧ c.values = ts
  right : ∃ c, d'.cols[d.nfeatures]? = some c ∧ c.values = ts'

/-- A number plus a constant, in exact arithmetic (infinities and NaN stay what they are). -/
def shift (c : ℚ) : Num → Num
  | .fin q => .fin (q + c)
  | x => x

/-- Two targets belong to the same class: both are below one half, or none of them is. -/
def SameClass (t t' : Num) : Prop := t'.lt (.fin (1 / 2)) = t.lt (.fin (1 / 2))

/-- A tree with the same tests and all values multiplied by `a`. -/
def treeTimes (a : ℚ) (t : Tree) : Tree := { t with nodeValues := t.nodeValues.map (inUnits (a, 0)) }

/-- The configuration with `min_gain` multiplied by `k`. -/
def minGainTimes (k : ℚ) (cfg : Config) : Config := { cfg with minGain := inUnits (k, 0) cfg.minGain }

end BitBoost.Spec
