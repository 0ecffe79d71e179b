import Verif.Model.LearnerStore
/-! Vocabulary for statements about the tree learner and the memory it uses again. -/
namespace BitBoost.Spec

/-- The contexts a program can have for the data `d`: a new one, and what is left of one after a tree was trained
with it. The configuration, the active rows and features, the objective and the arithmetic can be others each time. -/
inductive Used (d : Data) : Context → Prop
  | fresh {cfg : Config} {c : Context} : StoreLearner.newContext cfg d = .ok c → Used d c
  | again {F : FP} {cfg : Config} {ds : Dataset} {supercats : List (List Nat)} {o : Objective} {fuel : Nat}
      {c c' : Context} {r : Tree × Objective} : Used d c → ds.data = d →
      StoreLearner.train F cfg ds supercats o fuel c = .ok (some (r, c')) → Used d c'

/-- The tree and the objective after training, without the context. -/
def modelOf : Out (Option ((Tree × Objective) × Context)) → Out (Option (Tree × Objective))
  | .ok r => .ok (r.map Prod.fst)
  | .panic => .panic
  | .ub => .ub

/-- The number of bins a histogram of the column has: one per category of a low-cardinality feature (one for two
categories, none for one), `max_nbins` for another feature. -/
def binsOf (maxNbins : Nat) (c : Column) : Nat :=
  match c.ftype, c.card with
  | .loCardCat, 1 => 0
  | .loCardCat, 2 => 1
  | .loCardCat, n => n
  | _, _ => maxNbins

/-- The number of bins of the histograms of a node. -/
def totalBins (d : Data) : Nat := ((d.cols.take d.nfeatures).map (binsOf d.maxNbins)).sum

/-- A bound on the elements a store hands out for a tree: a tree of depth `k` has at most `2 ^ (k + 1) - 1` nodes. A node has a
histogram of all bins, and blocks of 256 bits for the codes of the gradients of the examples, the indices and the mask; one
element more can be lost for the alignment. -/
def treeMemory (cfg : Config) (d : Data) : Nat :=
  (2 ^ (cfg.maxTreeDepth + 1) - 1) * (max (totalBins d) ((d.nexamples + 255) / 256 * cfg.discrNbits) + 1)

end BitBoost.Spec
