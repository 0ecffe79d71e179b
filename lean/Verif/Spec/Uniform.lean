import Verif.Model.Dataset
/-! Vocabulary for statements about random samples: the numbers a uniform generator can draw. -/
namespace BitBoost.Spec

/-- The possible results of `k` draws, the first one from `n` numbers and each one from one number less than the one before
(`0, …, n - 1`, then `0, …, n - 2`, and so on). -/
def IsDraw (n k : Nat) (vs : List Nat) : Prop := vs.length = k ∧ ∀ (i v : Nat), vs[i]? = some v → v < n - i

/-- A generator that produces these numbers next. -/
def drawnBy (vs : List Nat) : Rng := ⟨fun i => vs.getD i 0⟩

end BitBoost.Spec
