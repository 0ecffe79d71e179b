import Verif.Model.Tree
/-! Vocabulary for statements about trees. -/
namespace BitBoost.Spec

/-- The node reached from the root by a list of turns (`true` = to the left child). -/
def nodeAt (turns : List Bool) : Nat :=
  turns.foldl (fun n left => if left then 2 * n + 1 else 2 * n + 2) 0

/-- Node `n` has been split. -/
def IsSplit (t : Tree) (n : Nat) : Prop :=
  ∃ c, t.splitCrits[n]? = some c ∧ c.splitType ≠ .noSplit

/-- The nodes of the tree: the root and the children of split nodes. -/
inductive IsNode (t : Tree) : Nat → Prop
  | root : IsNode t 0
  | left {n : Nat} : IsNode t n → IsSplit t n → IsNode t (2 * n + 1)
  | right {n : Nat} : IsNode t n → IsSplit t n → IsNode t (2 * n + 2)

/-- The leaves: the nodes that have not been split. -/
def IsLeaf (t : Tree) (n : Nat) : Prop := IsNode t n ∧ ¬ IsSplit t n

/-- The trees obtained from a new tree by any calls that succeed. -/
inductive Built (F : FP) (maxDepth : Nat) (supercats : List (List Nat)) : Tree → Prop
  | new {t : Tree} : Tree.new maxDepth supercats = .ok t → Built F maxDepth supercats t
  | split {t t' : Tree} {n : Nat} {c : SplitCrit} : Built F maxDepth supercats t →
      t.splitNode n c = .ok t' → Built F maxDepth supercats t'
  | value {t t' : Tree} {n : Nat} {v : Num} : Built F maxDepth supercats t →
      t.setValue n v = .ok t' → Built F maxDepth supercats t'
  | shrinkage {t : Tree} {s : Num} : Built F maxDepth supercats t →
      Built F maxDepth supercats (t.setShrinkage F s)
  | bias {t : Tree} {b : Num} : Built F maxDepth supercats t → Built F maxDepth supercats (t.setBias b)

/-- The trees obtained by `k` splits of leaves of the tree and any number of calls setting values. -/
inductive Grown (F : FP) (maxDepth : Nat) (supercats : List (List Nat)) : Nat → Tree → Prop
  | new {t : Tree} : Tree.new maxDepth supercats = .ok t → Grown F maxDepth supercats 0 t
  | split {k : Nat} {t t' : Tree} {n : Nat} {c : SplitCrit} : Grown F maxDepth supercats k t →
      IsLeaf t n → t.splitNode n c = .ok t' → Grown F maxDepth supercats (k + 1) t'
  | value {k : Nat} {t t' : Tree} {n : Nat} {v : Num} : Grown F maxDepth supercats k t →
      t.setValue n v = .ok t' → Grown F maxDepth supercats k t'
  | shrinkage {k : Nat} {t : Tree} {s : Num} : Grown F maxDepth supercats k t →
      Grown F maxDepth supercats k (t.setShrinkage F s)
  | bias {k : Nat} {t : Tree} {b : Num} : Grown F maxDepth supercats k t →
      Grown F maxDepth supercats k (t.setBias b)

/-- The value of feature `f` in row `i`. -/
def cell (d : Data) (f i : Nat) : Option Num := d.cols[f]?.bind (·.values[i]?)

/-- All columns have one value per example, and there is a target column. -/
def Rectangular (d : Data) : Prop :=
  d.cols.length = d.nfeatures + 1 ∧ ∀ c ∈ d.cols, c.values.length = d.nexamples

/-- What a split criterion means: does a row with value `v` in the tested feature go left? For a
high-cardinality split the left set holds the categories with a small enough super-category. -/
def goesLeft (supercats : List (List Nat)) (c : SplitCrit) (v : Num) : Prop :=
  match c.splitType with
  | .loCardCatEq => v.eqb c.splitValue = true
  | .hiCardCatLt => ∃ sc s, supercats[c.featureId]? = some sc ∧ sc[v.toU32]? = some s ∧
      s ≤ c.splitValue.toU32
  | .numLt => v.lt c.splitValue = true
  | .noSplit => False

/-- The data set with the rows `rows` of `d`, in this order. -/
def selectRows (d : Data) (rows : List Nat) : Data :=
  { d with nexamples := rows.length
           cols := d.cols.map fun c => { c with values := rows.map fun i => c.values[i]?.getD (.fin 0) } }

end BitBoost.Spec
