import Verif.Model.Objective
import Mathlib.Algebra.BigOperators.Group.List.Basic
/-! Vocabulary for statements about objectives and metrics. All numbers are exact rationals. -/
namespace BitBoost.Spec

/-- Sum of the squared differences of two columns. -/
def sqErr (ts ps : List ℚ) : ℚ := (List.zipWith (fun t p => (t - p) ^ 2) ts ps).sum

/-- Entry `i` of a column. -/
def at' (l : List ℚ) (i : Nat) : ℚ := l.getD i 0

/-- The mean residual of the examples. -/
def meanResidual (ts ps : List ℚ) (examples : List Nat) : ℚ :=
  (examples.map fun i => at' ts i - at' ps i).sum / examples.length

/-- A column of finite numbers. -/
def column (l : List ℚ) : List Num := l.map Num.fin

/-- The leaves of a tree are given to the objective one after the other; `o'` is its state afterwards. -/
inductive LeafCalls (F : FP) (targets : List Num) : Objective → List (List Nat) → Objective → Prop
  | nil (o : Objective) : LeafCalls F targets o [] o
  | cons {o o' o'' : Objective} {examples : List Nat} {leaves : List (List Nat)} (v : Num) :
      Objective.predictLeafValue F o targets examples = .ok (v, o') →
      LeafCalls F targets o' leaves o'' → LeafCalls F targets o (examples :: leaves) o''

/-- `x` lies between the two bounds. -/
def Within (x : Num) (b : Num × Num) : Prop := b.1.le x = true ∧ x.le b.2 = true

/-- Absolute loss. -/
def absLoss (t p : ℚ) : ℚ := |t - p|

/-- Huber loss. -/
def huberLoss (δ t p : ℚ) : ℚ :=
  if |t - p| ≤ δ then (t - p) ^ 2 / 2 else δ * (|t - p| - δ / 2)

/-- Hinge loss for the class `y` (1 or -1). -/
def hingeLoss (y p : ℚ) : ℚ := max 0 (1 - y * p)

/-- The class of a 0/1 target: -1 or 1. -/
def classOf (t : ℚ) : ℚ := if t < 1 / 2 then -1 else 1

/-- `g` is a subgradient of the convex function `f` at `p`: the line through `(p, f p)` with slope `g` is
below `f`. When `f` is differentiable at `p` that is the derivative and nothing else. -/
def IsSubgradient (f : ℚ → ℚ) (p g : ℚ) : Prop := ∀ q, f p + g * (q - p) ≤ f q

/-- Fraction of the pairs that satisfy `wrong`. -/
def fraction (wrong : ℚ → ℚ → Prop) [∀ t p, Decidable (wrong t p)] (ts ps : List ℚ) : ℚ :=
  (((ts.zip ps).filter fun tp => wrong tp.1 tp.2).length : ℚ) / ts.length

end BitBoost.Spec
