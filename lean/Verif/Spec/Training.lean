import Verif.Spec.Dataset
import Verif.Spec.Losses
import Verif.Model.Learner
import Mathlib.Algebra.BigOperators.Group.Finset.Basic
/-! Vocabulary for statements about training a tree. -/
namespace BitBoost.Spec

/-- `m` is the mask of candidate `b` of the active feature `f`. -/
def Candidate (ds : Dataset) (f b : Nat) (m : Blocks) : Prop :=
  (∃ fs, ds.activeFeatures = .ok fs ∧ f ∈ fs) ∧ MaskOf ds f b m

/-- `c` is the test a tree uses for candidate `b` of feature `f`. -/
def TestFor (F : FP) (ds : Dataset) (f b : Nat) (c : SplitCrit) : Prop :=
  ∃ s col, ds.getSplitValue F f b = .ok s ∧ ds.data.cols[f]? = some col ∧ c = testOf col.ftype f s

/-- The test `c` is the one of a candidate with mask `m`, and there are active examples in the mask and active
examples not in it. -/
def SplitOf (F : FP) (ds : Dataset) (c : SplitCrit) (m : Blocks) : Prop :=
  ∃ f b, Candidate ds f b m ∧ TestFor F ds f b c ∧ (∃ i, i < ds.nactiveExamples ∧ inMask m i) ∧
    ∃ i, i < ds.nactiveExamples ∧ ¬ inMask m i

/-- Active example `i` belongs to node `n` in training, when `msk` gives the masks used at the split nodes: every
node on the way is split, and the mask used there decides. -/
inductive TrainedTo (t : Tree) (msk : Nat → Blocks) (i : Nat) : Nat → Prop
  | root : TrainedTo t msk i 0
  | left {n : Nat} : TrainedTo t msk i n → IsSplit t n → inMask (msk n) i → TrainedTo t msk i (2 * n + 1)
  | right {n : Nat} : TrainedTo t msk i n → IsSplit t n → ¬ inMask (msk n) i → TrainedTo t msk i (2 * n + 2)

/-- `msk` gives a mask for every split node: that of the candidate the test of the node stands for. -/
def SplitMasks (F : FP) (ds : Dataset) (t : Tree) (msk : Nat → Blocks) : Prop :=
  ∀ (n : Nat) (c : SplitCrit), t.splitCrits[n]? = some c → c.splitType ≠ .noSplit → SplitOf F ds c (msk n)

/-- Training and prediction agree on the splits: the test sends the row of an active example to the left exactly
when the example is in the mask. -/
def Consistent (F : FP) (ds : Dataset) (rows : List Nat) : Prop :=
  ∀ (c : SplitCrit) (m : Blocks), SplitOf F ds c m → ∀ (i r : Nat), rows[i]? = some r →
    ∃ v, cell ds.data c.featureId r = some v ∧
      ∃ left, Tree.test ds.supercats c v = .ok (some left) ∧ (left = true ↔ inMask m i)

/-- The states of the learner while it trains a tree: the tree so far, and on the stack the nodes that are still to be
looked at. A round takes a node from the stack. -/
inductive Training (F : FP) (cfg : Config) (ds : Dataset) (supercats : List (List Nat)) (w : Nat) (o : Objective) :
    Learner.State → Prop
  | start {st : Learner.State} : Learner.start F cfg ds supercats w o = .ok st → Training F cfg ds supercats w o st
  | round {t : Tree} {o1 : Objective} {n : Node} {rest : List Node} {st' : Learner.State} :
      Training F cfg ds supercats w o ⟨t, o1, n :: rest⟩ → Learner.expand F cfg ds w n ⟨t, o1, rest⟩ = .ok st' →
      Training F cfg ds supercats w o st'

open Classical in
/-- The active examples (of `n` active examples) that belong to a node. -/
noncomputable def examplesAt (t : Tree) (msk : Nat → Blocks) (n node : Nat) : Finset Nat :=
  (Finset.range n).filter fun i => TrainedTo t msk i node

open Classical in
/-- Those of the examples that are in a mask. -/
noncomputable def inside (E : Finset Nat) (m : Blocks) : Finset Nat := E.filter fun i => inMask m i

open Classical in
/-- Those of the examples that are not in a mask. -/
noncomputable def outside (E : Finset Nat) (m : Blocks) : Finset Nat := E.filter fun i => ¬ inMask m i

/-- A gradient after discretisation to `w` bits between the bounds `lo` and `hi`: the value its code stands for. (The
code is computed with the machine's rounding `F`, its value is exact.) -/
def discretised (F : FP) (w : Nat) (lo hi : ℚ) (g : Num) : ℚ :=
  lo + ((BitSlice.discretise F w g (.fin lo) (.fin hi)).toNat : ℚ) * (hi - lo) / ((2 ^ w - 1 : ℕ) : ℚ)

/-- The sum of the discretised gradients of a set of active examples. -/
noncomputable def gradientSum (F : FP) (w : Nat) (lo hi : ℚ) (gradients : List Num) (rows : List Nat)
    (E : Finset Nat) : ℚ :=
  ∑ i ∈ E, discretised F w lo hi (gradients.getD (rows.getD i 0) (.fin 0))

/-- The loss of a leaf with `n` examples and gradient sum `g`, for its best value and second derivatives 1. -/
def leafLoss (lambda g : ℚ) (n : Nat) : ℚ := -(g ^ 2) / (2 * (n + lambda))

/-- How much a split reduces the loss. -/
def splitGain (lambda : ℚ) (g : ℚ) (n : Nat) (gl : ℚ) (nl : Nat) (gr : ℚ) (nr : Nat) : ℚ :=
  leafLoss lambda g n - leafLoss lambda gl nl - leafLoss lambda gr nr

/-- Both sides of a split with mask `m` get at least `min_examples_leaf` of the examples. -/
def Admissible (cfg : Config) (E : Finset Nat) (m : Blocks) : Prop :=
  cfg.minExamplesLeaf ≤ (inside E m).card ∧ cfg.minExamplesLeaf ≤ (outside E m).card

/-- How much splitting the examples with mask `m` reduces the loss, for the discretised gradients (computed exactly; `F` is
the rounding used for the codes). -/
noncomputable def maskGain (F : FP) (lambda : ℚ) (w : Nat) (lo hi : ℚ) (gradients : List Num) (rows : List Nat)
    (E : Finset Nat) (m : Blocks) : ℚ :=
  splitGain lambda (gradientSum F w lo hi gradients rows E) E.card
    (gradientSum F w lo hi gradients rows (inside E m)) (inside E m).card
    (gradientSum F w lo hi gradients rows (outside E m)) (outside E m).card

/-- No split of the examples `E` pays: every admissible candidate gains at most `mg`. -/
def NoSplitPays (cfg : Config) (ds : Dataset) (mg : ℚ) (gainOf : Blocks → ℚ) (E : Finset Nat) : Prop :=
  ∀ f b m, Candidate ds f b m → Admissible cfg E m → gainOf m ≤ mg

/-- The test `c` with mask `m` is a best split of the examples `E`: that of an admissible candidate that gains more than
`mg` and at least as much as every other admissible candidate. -/
def BestSplit (F : FP) (cfg : Config) (ds : Dataset) (mg : ℚ) (gainOf : Blocks → ℚ) (E : Finset Nat) (c : SplitCrit)
    (m : Blocks) : Prop :=
  ∃ f b, Candidate ds f b m ∧ TestFor F ds f b c ∧ Admissible cfg E m ∧ mg < gainOf m ∧
    ∀ f' b' m', Candidate ds f' b' m' → Admissible cfg E m' → gainOf m' ≤ gainOf m

/-- The same up to an error `ε` in the gains: the test `c` with mask `m` is that of an admissible candidate that gains more
than `mg - ε`, and no admissible candidate gains more than `2 * ε` more. -/
def NearBestSplit (F : FP) (cfg : Config) (ds : Dataset) (mg ε : ℚ) (gainOf : Blocks → ℚ) (E : Finset Nat) (c : SplitCrit)
    (m : Blocks) : Prop :=
  ∃ f b, Candidate ds f b m ∧ TestFor F ds f b c ∧ Admissible cfg E m ∧ mg - ε < gainOf m ∧
    ∀ f' b' m', Candidate ds f' b' m' → Admissible cfg E m' → gainOf m' ≤ gainOf m + 2 * ε

/-- Candidate `(f', b')` comes before candidate `(f, b)` in the search: an earlier feature in the list of active features,
or the same feature and a smaller number. -/
def Earlier (fs : List Nat) (f' b' f b : Nat) : Prop :=
  (∃ i j : Nat, i < j ∧ fs[i]? = some f' ∧ fs[j]? = some f) ∨ (f' = f ∧ b' < b)

end BitBoost.Spec
