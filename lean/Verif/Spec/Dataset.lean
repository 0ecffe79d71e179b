import Verif.Model.Dataset
import Verif.Spec.Trees
/-! Vocabulary for statements about the training view of the data. -/
namespace BitBoost.Spec

/-- The data sets obtained by creating one and updating it `k` times, with any gradients. -/
inductive Updated (F : FP) (cfg : Config) (d : Data) (rng : Rng) : Nat → Dataset → Prop
  | new {ds : Dataset} : Dataset.new F cfg d rng = .ok ds → Updated F cfg d rng 0 ds
  | update {k : Nat} {ds ds' : Dataset} {grad : List Num} {bounds : Num × Num} :
      Updated F cfg d rng k ds → ds.update F cfg grad bounds = .ok ds' → Updated F cfg d rng (k + 1) ds'

/-- A feature worth splitting on: it has room for a split candidate and is not constant. -/
def Useful (d : Data) (f : Nat) : Prop :=
  f < d.nfeatures ∧ ∃ c, d.cols[f]? = some c ∧ Data.colMaxNbins d.maxNbins c ≠ 0 ∧ c.lo.eqb c.hi = false

/-- The rows of the active examples are `rows`: iterating over the active examples gives the pairs
`(0, rows[0])`, `(1, rows[1])` and so on. -/
def Active (ds : Dataset) (rows : List Nat) : Prop :=
  ds.activePairs = .ok ((List.range rows.length).zip rows)

/-- `m` is the mask of split candidate `b` of feature `f`. -/
def MaskOf (ds : Dataset) (f b : Nat) (m : Blocks) : Prop :=
  (∃ n, ds.getNbins f = .ok n ∧ b < n) ∧ ds.getBitvec f b = .ok m

/-- Bit `i` of a mask, read with `get_bit`. -/
def inMask (m : Blocks) (i : Nat) : Prop := m.getBit i = .ok true

/-- The gradients of the rows of `rows` that have category `cat` in feature `f`. -/
def categoryGradients (d : Data) (f : Nat) (rows : List Nat) (grad : List Num) (cat : Nat) : List Num :=
  rows.filterMap fun r => if (cell d f r).map Num.toU32 = some cat then grad[r]? else none

/-- The score of a category: the mean of its gradients, 0 if there are none. -/
def categoryScore (F : FP) (d : Data) (f : Nat) (rows : List Nat) (grad : List Num) (cat : Nat) : Num :=
  if categoryGradients d f rows grad cat = [] then .fin 0
  else F.div (F.sum (categoryGradients d f rows grad cat))
    (F.ofNat (categoryGradients d f rows grad cat).length)

/-- Whole data: as many columns as features and a target, each with one value per example (what
`from_csv` and `set_feature_data` guarantee, see C27 and C28). -/
def WellFormed (d : Data) : Prop := Rectangular d

/-- The split test a tree uses for candidate `b` of feature `f`. -/
def testOf (t : FeatType) (f : Nat) (value : Num) : SplitCrit :=
  { splitType := match t with
      | .loCardCat => .loCardCatEq
      | .hiCardCat => .hiCardCatLt
      | .numerical => .numLt
    featureId := f
    splitValue := value }

end BitBoost.Spec
