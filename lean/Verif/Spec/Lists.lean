import Verif.Model.IndexIter
/-! Vocabulary for statements about index iteration. -/
namespace BitBoost.Spec
open BitBoost

/-- The positions at which `get_bit` reads 1, in increasing order. -/
def setPositions (bs : Blocks) : List Nat :=
  (List.range (256 * bs.length)).filter fun i => decide (Blocks.getBit bs i = .ok true)

/-- The iterator yields exactly the list `l`: the `m`-th call of `next` returns item `m` of `l`,
and `None` from the end of `l` on, for any number `k` of calls. No call panics or is out of
bounds. -/
def Yields {w : Nat} (it : Out (IndexIter w × IndexIter.St w)) (l : List Nat) : Prop :=
  ∃ p, it = .ok p ∧ ∀ k, p.1.calls k p.2 = .ok ((List.range k).map fun m => l[m]?)

/-- Call `f` on the items of a list in order, threading its state, until it returns `true`. -/
def visit {σ : Type} (f : Nat → σ → σ × Bool) : List Nat → σ → σ
  | [], s => s
  | x :: xs, s => if (f x s).2 then (f x s).1 else visit f xs (f x s).1

/-- The example numbers represented by a compressed mask: word `k` of `mask` holds the bits of
word `idx[k]` of the uncompressed mask. In order of `k`, then of bit. -/
def comprPositions (mask indices : Blocks) : List Nat :=
  (List.range (Blocks.blockLen 32 mask)).flatMap fun k =>
    ((List.range 32).filter fun b => decide (Blocks.getBit mask (32 * k + b) = .ok true)).map
      fun b => 32 * (Blocks.word 32 indices k).toNat + b

end BitBoost.Spec

namespace BitBoost.Spec
open BitBoost

/-- `mask` with index vector `indices` is a compressed form of the uncompressed mask `full`: for
some number `c` of used words, word `k < c` of `mask` is word `indices[k]` of `full`, the used
indices are strictly increasing and in range, the unused mask words are zero, and every non-zero
word of `full` is used. (The unused words of `indices` are unconstrained.) -/
structure Compresses (mask indices full : Blocks) : Prop where
  len : Blocks.blockLen 32 mask = Blocks.blockLen 32 indices
  used : ∃ c, c ≤ Blocks.blockLen 32 mask ∧
    (∀ k l, k < l → l < c →
      (Blocks.word 32 indices k).toNat < (Blocks.word 32 indices l).toNat) ∧
    (∀ k, k < c → (Blocks.word 32 indices k).toNat < Blocks.blockLen 32 full ∧
      Blocks.word 32 mask k = Blocks.word 32 full (Blocks.word 32 indices k).toNat) ∧
    (∀ k, c ≤ k → k < Blocks.blockLen 32 mask → Blocks.word 32 mask k = 0#32) ∧
    (∀ i, i < Blocks.blockLen 32 full → Blocks.word 32 full i ≠ 0#32 →
      ∃ k, k < c ∧ (Blocks.word 32 indices k).toNat = i)

end BitBoost.Spec
