import Verif.Model.Boost
import Verif.Spec.Training
/-! Vocabulary for statements about boosting. -/
namespace BitBoost.Spec

/-- The states of a booster for data `d` that is given the objective `o`: before the first iteration and after each
iteration. -/
inductive Boosting (F : FP) (M : Libm) (cfg : Config) (d : Data) (rng : Rng) (metrics : List Metric) (o : Objective) :
    Nat → Booster → Prop
  | start {b0 b : Booster} : Booster.new F cfg d rng o = .ok b0 → Booster.prepare F M cfg d b0 = .ok b →
      Boosting F M cfg d rng metrics o 0 b
  | iter {k : Nat} {b b' : Booster} : Boosting F M cfg d rng metrics o k b →
      Booster.trainOneIter F M cfg d metrics b = .ok b' → Boosting F M cfg d rng metrics o (k + 1) b'

end BitBoost.Spec
