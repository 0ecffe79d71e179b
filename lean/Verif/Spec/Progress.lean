import Verif.Spec.Dataset
import Verif.Model.Objective
/-! Vocabulary for statements about inputs training can work with. -/
namespace BitBoost.Spec

/-- Settings training can work with: a width of the gradient codes that exists, trees that can have a split, leaves with
examples, room for split candidates, fractions between 0 and 1 and a learning rate between -1 and 1. -/
structure ValidConfig (cfg : Config) : Prop where
  bits : cfg.discrNbits = 1 ∨ cfg.discrNbits = 2 ∨ cfg.discrNbits = 4 ∨ cfg.discrNbits = 8
  depth : 1 ≤ cfg.maxTreeDepth
  leaf : 1 ≤ cfg.minExamplesLeaf
  bins : 1 ≤ cfg.maxNbins ∧ cfg.maxNbins < 2 ^ 24
  features : ∃ q : ℚ, cfg.featureFraction = .fin q ∧ 0 ≤ q ∧ q ≤ 1
  examples : ∃ q : ℚ, cfg.exampleFraction = .fin q ∧ 0 ≤ q ∧ q ≤ 1
  rate : ∃ q : ℚ, cfg.learningRate = .fin q ∧ |q| ≤ 1

/-- Data training can work with: columns of the same length, not too many rows and features, at least one row in the sample, a
feature with room for a split candidate, finite limits of numerical features in the right order (so no infinite value and
not only NaN), and categories below the cardinality of the feature (as the loaders see to: C27, C28). -/
structure ValidData (cfg : Config) (d : Data) : Prop where
  shape : Rectangular d
  size : d.nexamples ≤ 2 ^ 24
  width : d.nfeatures ≤ 2 ^ 24
  sampled : ∀ q : ℚ, cfg.exampleFraction = .fin q → 1 ≤ d.nexamples * q
  bins : cfg.maxNbins ≤ d.maxNbins
  room : ∃ f c, f < d.nfeatures ∧ d.cols[f]? = some c ∧ Data.colMaxNbins d.maxNbins c ≠ 0
  limits : ∀ f c, Useful d f → d.cols[f]? = some c → c.ftype = .numerical →
    ∃ l h : ℚ, c.lo = .fin l ∧ c.hi = .fin h ∧ l ≤ h
  cats : ∀ f c, Useful d f → d.cols[f]? = some c → c.ftype = .hiCardCat → ∀ v ∈ c.values, v.toU32 < c.card

/-- A finite number of size at most `B`. -/
def SizeLe (B : ℚ) (v : Num) : Prop := ∃ q : ℚ, v = .fin q ∧ |q| ≤ B

/-- The arithmetic has numbers `i * 2 ^ j` with 24 bits, for `j` up to `E`. Binary32 has them up to `E = 103`, exact arithmetic
for every `E`. -/
def Wide (F : FP) (E : ℕ) : Prop :=
  ∀ (i : ℕ) (j : ℤ), i ≤ 2 ^ 24 → -149 ≤ j → j ≤ E → F.rnd (i * 2 ^ j) = .fin (i * 2 ^ j)

/-- With targets and predictions of size at most `2 ^ a`, the values of the leaves of the next tree are of size at most
`2 ^ leafSize kind a`. -/
def leafSize : ObjKind → ℕ → ℕ
  | .l2, a => a + 1
  | .l1, a => a + 3
  | .huber, a => a + 5
  | .binary, _ => 48
  | .hinge, a => 2 * a + 4

/-- There is a high-cardinality categorical feature the data set uses. -/
def HasHicard (d : Data) : Prop := ∃ f c, Useful d f ∧ d.cols[f]? = some c ∧ c.ftype = .hiCardCat

/-- What is asked of the function `exp`: it maps numbers to numbers that are not negative. -/
def ExpLike (M : Libm) : Prop := ∀ x, x ≠ .nan → M.exp x = .pinf ∨ ∃ r : ℚ, M.exp x = .fin r ∧ 0 ≤ r

/-- The residuals `target - prediction`. -/
def residuals (F : FP) (targets preds : List Num) : List Num := List.zipWith F.sub targets preds

/-- What an objective needs to learn the next tree for the given targets: residuals that are not all equal for the absolute
loss and the Huber loss (without it `update` or the median panics: C50), classes 0 and 1 for the log loss, and, if there is a
high-cardinality feature, gradient bounds that are not zero. -/
structure Learnable (F : FP) (M : Libm) (d : Data) (targets : List Num) (o : Objective) : Prop where
  spread : o.kind = .l1 ∨ o.kind = .huber →
    ∃ x ∈ residuals F targets o.predictions, ∃ y ∈ residuals F targets o.predictions, x ≠ y
  classes : o.kind = .binary → (∀ t ∈ targets, t = .fin 0 ∨ t = .fin 1) ∧ ExpLike M
  bounds : HasHicard d → ∀ o', o.update F M targets = .ok o' → ∃ h : ℚ, o'.bounds.2 = .fin h ∧ 0 < h

/-- What is asked of the function `ln`: between `2 ^ -24` and `2 ^ 24` it is finite and at most 256 in size. -/
def LnLike (M : Libm) : Prop := ∀ q : ℚ, 1 / 2 ^ 24 ≤ q → q ≤ 2 ^ 24 → ∃ r : ℚ, M.ln (.fin q) = .fin r ∧ |r| ≤ 2 ^ 8

/-- What an objective needs to start with the given targets: two different targets for the absolute loss and the Huber loss
(otherwise the median panics: C50), a Huber quantile between 0 and 1, two classes for the log loss, and two bits per gradient
for the hinge loss. -/
structure Startable (M : Libm) (cfg : Config) (targets : List Num) (k : ObjKind) : Prop where
  spread : k = .l1 ∨ k = .huber → ∃ x ∈ targets, ∃ y ∈ targets, x ≠ y
  alpha : k = .huber → ∃ q : ℚ, cfg.huberAlpha = .fin q ∧ 0 < q ∧ q < 1
  classes : k = .binary → (∀ t ∈ targets, t = .fin 0 ∨ t = .fin 1) ∧ Num.fin 0 ∈ targets ∧ Num.fin 1 ∈ targets ∧ LnLike M
  bits : k = .hinge → cfg.discrNbits = 2

/-- With targets of size at most `2 ^ a`, the first predictions are of size at most `2 ^ startSize kind a`. -/
def startSize : ObjKind → ℕ → ℕ
  | .l2, a => a
  | .l1, a => a + 2
  | .huber, a => a + 2
  | .binary, _ => 7
  | .hinge, _ => 0

end BitBoost.Spec
