import Verif.Spec.Training
/-!
# The gain of a split for the gradients themselves

`maskGain` of `Spec/Training.lean` speaks of the discretised gradients. Where discretising loses nothing, the gain can be
stated with the gradients: `g r` is the gradient of row `r`, and active example `i` is row `rows.getD i 0`.
-/
namespace BitBoost.Spec

/-- The sum of the gradients of a set of active examples. -/
def trueSum (g : Nat → ℚ) (rows : List Nat) (E : Finset Nat) : ℚ := ∑ i ∈ E, g (rows.getD i 0)

/-- How much splitting the examples with mask `m` reduces the loss, computed exactly. -/
noncomputable def trueGain (lambda : ℚ) (g : Nat → ℚ) (rows : List Nat) (E : Finset Nat) (m : Blocks) : ℚ :=
  splitGain lambda (trueSum g rows E) E.card (trueSum g rows (inside E m)) (inside E m).card
    (trueSum g rows (outside E m)) (outside E m).card

end BitBoost.Spec
