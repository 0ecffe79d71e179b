import Verif.Spec.Columns
import Verif.Model.Tree
/-!
# Specification: rows away from the split values of a tree
-/
namespace BitBoost.Spec

/-- The tests of the tree on numerical features are clear for the row: the row has a number, and it is apart from the split
value (or the column is a fixed-point column). -/
def ClearRow (d : Data) (t : Tree) (r : Nat) : Prop :=
  ∀ (n : Nat) (c : SplitCrit), t.splitCrits[n]? = some c → c.splitType = .numLt →
    ∀ (col : Column) (v : Num), d.cols[c.featureId]? = some col → col.values[r]? = some v →
      v ≠ .nan ∧ (FixedPoint col ∨ ∃ M, WideLimits col M ∧ Apart M v c.splitValue)

end BitBoost.Spec
