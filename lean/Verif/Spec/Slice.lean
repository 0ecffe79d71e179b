import Verif.Model.BitSlice
import Mathlib.Algebra.BigOperators.Group.Finset.Basic
/-! Vocabulary for statements about bit slices and masked sums. -/
namespace BitBoost.Spec
open BitBoost

/-- What `get_value(v)` of a bit slice returns, as a number (0 if it panics). -/
def valueAt (w : Nat) (slice : Blocks) (v : Nat) : Nat :=
  match BitSlice.getValue w slice v with
  | .ok x => x.toNat
  | _ => 0

/-- `get_bit(i)` of a bit vector returns `true`. -/
def bitAt (bs : Blocks) (i : Nat) : Bool := decide (Blocks.getBit bs i = .ok true)

/-- Number of values a slice of `w` lanes has room for. -/
def slots (w : Nat) (slice : Blocks) : Nat := slice.length * (256 / w)

/-- Entry `k` of an index vector (a vector of `u32`). -/
def indexAt (indices : Blocks) (k : Nat) : Nat := (Blocks.word 32 indices k).toNat

/-- The example number that position `v` of a compressed vector stands for: bit `v % 32` of word
`indices[v / 32]` of the uncompressed vector. -/
def exampleAt (indices : Blocks) (v : Nat) : Nat := 32 * indexAt indices (v / 32) + v % 32

end BitBoost.Spec
