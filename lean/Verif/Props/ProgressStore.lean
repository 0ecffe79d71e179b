import Verif.Props.SquaredSingle
import Verif.Props.LearnerStore
/-!
# Training with the pooled memory of the learner succeeds on valid inputs (C69 with C63)
-/
namespace BitBoost.Props
open Spec

/-- **C69**, `f32` arithmetic, with the stores of the learner: log loss. -/
theorem C69_binary_stores_f32 (M : Libm) (cfg : Config) (d : Data) (rng : Rng) (metrics : List Metric)
    (hc : ValidConfig cfg) (hd : ValidData cfg d) (hm : treeMemory cfg d < 2 ^ 32 - 1)
    (targets : List Num) (htgt : Learner.target d = .ok targets)
    (hcls : ∀ t ∈ targets, t = .fin 0 ∨ t = .fin 1) (h0 : Num.fin 0 ∈ targets) (h1 : Num.fin 1 ∈ targets)
    (hexp : ExpLike M) (hln : LnLike M)
    (hbound : HasHicard d → ∃ q : ℚ, cfg.binaryGradientBound = .fin q ∧ 0 < q) (hit : cfg.niterations < 2 ^ 24) :
    ∃ b, StoreLearner.run .binary32 M cfg d rng metrics (Objective.new .binary) = .ok b ∧
      b.ensemble.trees.length = cfg.niterations := by
  obtain ⟨q, hq, _, hq1⟩ := hc.examples
  rw [C63_enough .binary32 M cfg d rng metrics _ hd.shape hd.size (by rcases hc.bits with h | h | h | h <;> omega)
    ⟨q, hq, hq1⟩ hm]
  exact C69_binary_f32 M cfg d rng metrics hc hd targets htgt hcls h0 h1 hexp hln hbound hit

/-- **C69**, `f32` arithmetic, with the stores of the learner: squared error (the hypotheses are those of
`C69_l2_full_f32`). -/
theorem C69_l2_stores_f32 (M : Libm) (cfg : Config) (d : Data) (rng : Rng) (metrics : List Metric)
    (hc : ValidConfig cfg) (hd : ValidData cfg d) (hm : treeMemory cfg d < 2 ^ 32 - 1)
    (hn : d.nexamples ≤ 2 ^ 20) (hf : cfg.exampleFraction = .fin 1)
    (r : ℚ) (hr : cfg.learningRate = .fin r) (h0 : 0 ≤ r) (targets : List Num)
    (htgt : Learner.target d = .ok targets) (a m : ℕ) (ht : ∀ t ∈ targets, SizeLe (2 ^ a) t) (hh : ¬ HasHicard d)
    (hit : (d.nexamples + 4) * cfg.niterations ≤ m * 2 ^ 21) (ham : a + m ≤ 89) :
    ∃ b, StoreLearner.run .binary32 M cfg d rng metrics (Objective.new .l2) = .ok b ∧
      b.ensemble.trees.length = cfg.niterations := by
  rw [C63_enough .binary32 M cfg d rng metrics _ hd.shape hd.size (by rcases hc.bits with h | h | h | h <;> omega)
    ⟨1, hf, le_rfl⟩ hm]
  obtain ⟨b, e, h, _⟩ := C69_l2_full_f32 M cfg d rng metrics hc hd hn hf r hr h0 targets htgt a m ht hh hit ham
  exact ⟨b, e, h⟩

/-- The memory is enough for a million examples, 255 bins in all, eight bits per gradient and the default depth of 6, and up to
depth 15. -/
example (cfg : Config) (d : Data) (hd : cfg.maxTreeDepth ≤ 15) (hb : cfg.discrNbits = 8) (hn : d.nexamples = 2 ^ 20)
    (ht : totalBins d = 255) : treeMemory cfg d < 2 ^ 32 - 1 := by
  unfold treeMemory
  rw [hb, hn, ht]
  have : 2 ^ (cfg.maxTreeDepth + 1) ≤ 2 ^ 16 := Nat.pow_le_pow_right (by norm_num) (by omega)
  have : (2 ^ (cfg.maxTreeDepth + 1) - 1) * (max 255 ((2 ^ 20 + 255) / 256 * 8) + 1) ≤
      2 ^ 16 * (max 255 ((2 ^ 20 + 255) / 256 * 8) + 1) := Nat.mul_le_mul_right _ (by omega)
  refine Nat.lt_of_le_of_lt this (by norm_num)

end BitBoost.Props
