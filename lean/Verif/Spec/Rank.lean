import Verif.Model.Num
/-! Vocabulary for statements about ranks and quantiles. -/
namespace BitBoost.Spec

/-- `x` is the order statistic number `k` (from 0) of `vals`: it is one of them, at most `k` are
smaller, and more than `k` are not larger. -/
def IsOrderStat (vals : List Num) (k : Nat) (x : Num) : Prop :=
  x ∈ vals ∧ (vals.filter (fun v => v.lt x)).length ≤ k ∧ k < (vals.filter (fun v => v.le x)).length

/-- Sum of the first `j` entries with the given addition, from left to right. -/
def cumulative {R : Type} (zero : R) (add : R → R → R) (xs : List R) (j : Nat) : R :=
  (xs.take j).foldl add zero

end BitBoost.Spec
