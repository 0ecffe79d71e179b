import Verif.Model.Learner
import Verif.Model.Metric
/-!
# The booster (`src/boost.rs`)

Left out: timing and the messages on the standard output, apart from the values of the metrics. The objective is
borrowed mutably by the booster, so its state after training can be seen by the caller; it is part of the state
here. The tree learner gets the buffers of one `TreeLearnerContext` again and again (C54).
-/
namespace BitBoost

/-- A printed metric: the iteration, the metric and its value, `src/boost.rs:108-111`. -/
structure Printed where
  iter : Nat
  metric : Metric
  value : Num
deriving DecidableEq

/-- `src/boost.rs:29-38` `Booster`: the fields that change. -/
structure Booster where
  dataset : Dataset
  objective : Objective
  iterCount : Nat
  ensemble : AdditiveTree
  /-- What was printed so far. -/
  printed : List Printed

namespace Booster

/-- `src/boost.rs:41-57` `new`; `rng` is the seeded generator made in `Dataset::new`. -/
def new (F : FP) (cfg : Config) (d : Data) (rng : Rng) (o : Objective) : Out Booster := do
  let ds ← Dataset.new F cfg d rng
  return { dataset := ds, objective := o, iterCount := 0, ensemble := AdditiveTree.new, printed := [] }

/-- `src/boost.rs:95-97`: are the metrics evaluated in iteration `k`? -/
def runMetrics (cfg : Config) (metrics : List Metric) (k : Nat) : Bool :=
  !metrics.isEmpty && decide (cfg.metricFrequency > 0) && decide (k % cfg.metricFrequency = 0)

/-- `src/boost.rs:106-111`: what is printed in iteration `k`. -/
def evalMetrics (F : FP) (M : Libm) (cfg : Config) (metrics : List Metric) (k : Nat) (targets preds : List Num) :
    List Printed :=
  if runMetrics cfg metrics k then metrics.map fun m => ⟨k, m, m.eval F M targets preds⟩ else []

/-- `src/boost.rs:88-90`: learn a tree. The number of rounds is always enough (C46), so the case `none` does not
occur. -/
def learnTree (F : FP) (cfg : Config) (ds : Dataset) (o : Objective) : Out (Tree × Objective) := do
  let r ← Learner.train F cfg ds ds.supercats o (2 ^ cfg.maxTreeDepth - 1)
  match r with
  | some p => return p
  | none => .panic

/-- `src/boost.rs:78-116` `train_one_iter`. -/
def trainOneIter (F : FP) (M : Libm) (cfg : Config) (d : Data) (metrics : List Metric) (b : Booster) :
    Out Booster := do
  let target ← Learner.target d
  let o ← b.objective.update F M target
  let ds ← b.dataset.update F cfg o.gradients o.bounds
  let r ← learnTree F cfg ds o
  return { dataset := ds, objective := r.2, iterCount := b.iterCount + 1
           ensemble := b.ensemble.pushTree r.1
           printed := b.printed ++
             evalMetrics F M cfg metrics (b.iterCount + 1) target r.2.predictions }

/-- The loop `src/boost.rs:71-73`. -/
def iterate (F : FP) (M : Libm) (cfg : Config) (d : Data) (metrics : List Metric) : Nat → Booster → Out Booster
  | 0, b => .ok b
  | n + 1, b => do
      let b' ← trainOneIter F M cfg d metrics b
      iterate F M cfg d metrics n b'

/-- `src/boost.rs:66-69`: the state before the first iteration. -/
def prepare (F : FP) (M : Libm) (cfg : Config) (d : Data) (b : Booster) : Out Booster := do
  let target ← Learner.target d
  let o ← b.objective.init F M cfg target
  return { b with objective := o, ensemble := b.ensemble.setBias o.bias }

/-- `src/boost.rs:59-76` `train`: the final state, whose ensemble is returned. -/
def train (F : FP) (M : Libm) (cfg : Config) (d : Data) (metrics : List Metric) (b : Booster) : Out Booster := do
  Out.assert (b.iterCount == 0)
  let b ← prepare F M cfg d b
  iterate F M cfg d metrics cfg.niterations b

/-- `Booster::new(config, data, objective, metrics).train()`. -/
def run (F : FP) (M : Libm) (cfg : Config) (d : Data) (rng : Rng) (metrics : List Metric) (o : Objective) :
    Out Booster := do
  let b ← new F cfg d rng o
  train F M cfg d metrics b

end Booster
end BitBoost
