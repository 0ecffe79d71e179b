import Verif.Spec.SettingsUsed
import Verif.Spec.Trees
/-! Vocabulary for statements about trees trained with a smaller depth or a larger `min_gain`. -/
namespace BitBoost.Spec

/-- The configurations agree in the settings of the learner, but for `max_tree_depth`, which is at most as large in `c'`,
and `min_gain`, which is at least as large in `c'` (and a number). -/
structure AsksForSmaller (c c' : Config) : Prop where
  same : SameLearner { c with maxTreeDepth := c'.maxTreeDepth, minGain := c'.minGain } c'
  depth : c'.maxTreeDepth ≤ c.maxTreeDepth
  gain : c.minGain.le c'.minGain = true

/-- Node `m` is node `n` or below it. -/
inductive Below (n : Nat) : Nat → Prop
  | self : Below n n
  | left {m : Nat} : Below n m → Below n (2 * m + 1)
  | right {m : Nat} : Below n m → Below n (2 * m + 2)

end BitBoost.Spec
