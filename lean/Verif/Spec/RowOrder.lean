import Verif.Model.Boost
/-! Vocabulary for statements about the order of the rows of the data. -/
namespace BitBoost.Spec

/-- `ys` is `xs` in another order: its entries are those of `xs` at the positions `σ`. -/
def Reordered {α : Type} (σ : List Nat) (xs ys : List α) : Prop :=
  xs.length = σ.length ∧ ys.map some = σ.map fun i => xs[i]?

/-- `c'` is the column `c` with its values in the order `σ`. -/
structure ReorderedColumn (σ : List Nat) (c c' : Column) : Prop where
  values : Reordered σ c.values c'.values
  lo : c'.lo = c.lo
  hi : c'.hi = c.hi
  ftype : c'.ftype = c.ftype
  card : c'.card = c.card

/-- `d'` is the data `d` with its rows in another order: row `i` of `d'` is row `σ[i]` of `d`. -/
structure ReorderedData (σ : List Nat) (d d' : Data) : Prop where
  perm : σ.Perm (List.range d.nexamples)
  maxNbins : d'.maxNbins = d.maxNbins
  names : d'.names = d.names
  nfeatures : d'.nfeatures = d.nfeatures
  nexamples : d'.nexamples = d.nexamples
  cols : List.Forall₂ (ReorderedColumn σ) d.cols d'.cols

/-- Sums do not depend on the order of the summands. -/
def OrderFree (F : FP) : Prop := ∀ a b c : Num, F.add (F.add a b) c = F.add (F.add a c) b

end BitBoost.Spec
