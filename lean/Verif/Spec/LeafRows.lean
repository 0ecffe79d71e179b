import Verif.Model.Tree
/-! Vocabulary for statements about the rows of a leaf. -/
namespace BitBoost.Spec

/-- The rows among `rows` that prediction sends to node `n` of the tree. -/
def rowsAtLeaf (t : Tree) (d : Data) (rows : List Nat) (n : Nat) : List Nat :=
  rows.filter fun r => decide (t.predictLeafId d r = .ok n)

/-- The differences of two columns in these rows. -/
def differences (F : FP) (ts ps : List Num) (rows : List Nat) : List Num :=
  rows.map fun r => F.sub (ts.getD r .nan) (ps.getD r .nan)

end BitBoost.Spec
