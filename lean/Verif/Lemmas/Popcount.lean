import Verif.Lemmas.Bits
import Mathlib.Algebra.BigOperators.Group.Finset.Basic
import Mathlib.Algebra.BigOperators.Intervals
import Mathlib.Algebra.Order.BigOperators.Group.Finset
import Mathlib.Tactic.Ring
/-! Helper lemmas: population counts as finite sums. -/
namespace BitBoost
open Finset

theorem length_filter_range (p : Nat → Bool) (n : Nat) :
    ((List.range n).filter p).length = ∑ i ∈ range n, (p i).toNat := by
  induction n with
  | zero => rfl
  | succ n ih =>
    rw [List.range_succ, List.filter_append, List.length_append, ih, Finset.sum_range_succ]
    cases h : p n <;> simp [h]

/-- Splitting a sum over `n * w` into `n` groups of `w`. -/
theorem sum_range_mul (f : Nat → Nat) (n w : Nat) :
    ∑ i ∈ range (n * w), f i = ∑ i ∈ range n, ∑ k ∈ range w, f (w * i + k) := by
  induction n with
  | zero => simp
  | succ n ih =>
    rw [Finset.sum_range_succ, ← ih, Nat.succ_mul, Finset.sum_range_add]
    simp [Nat.mul_comm]

namespace BitBlock

theorem popcount_eq_sum {w : Nat} (x : BitVec w) :
    popcount x = ∑ i ∈ range w, (x.getLsbD i).toNat := by
  unfold popcount
  exact length_filter_range _ _

theorem popcount_le {w : Nat} (x : BitVec w) : popcount x ≤ w := by
  unfold popcount
  calc _ ≤ (List.range w).length := List.length_filter_le _ _
    _ = w := by simp

theorem popcount_zero {w : Nat} : popcount (0#w) = 0 := by
  rw [popcount_eq_sum]; simp

theorem popcount_word (w : Nat) (b : BitBlock) (i : Nat) :
    popcount (word w b i) = ∑ k ∈ range w, (b.getLsbD (w * i + k)).toNat := by
  rw [popcount_eq_sum]
  apply Finset.sum_congr rfl
  intro k hk
  rw [getLsbD_word]
  simp [Finset.mem_range.mp hk]

theorem foldl_add_eq_sum (f : Nat → Nat) (n : Nat) :
    (List.range n).foldl (fun c i => c + f i) 0 = ∑ i ∈ range n, f i := by
  induction n with
  | zero => rfl
  | succ n ih => rw [List.range_succ, List.foldl_append, ih, Finset.sum_range_succ]; rfl

theorem countOnes_eq (b : BitBlock) : countOnes b = popcount b := by
  unfold countOnes
  rw [foldl_add_eq_sum, popcount_eq_sum]
  have h := sum_range_mul (fun i => (b.getLsbD i).toNat) 4 64
  rw [show (4 * 64 : Nat) = 256 from rfl] at h
  rw [h]
  apply Finset.sum_congr rfl
  intro i _
  rw [popcount_word]

end BitBlock
end BitBoost
