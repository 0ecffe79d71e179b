import Verif.Model.SliceStore
/-!
# Bit slices

Models `src/slice_store.rs:780-1006` (`BitSliceLayout`, `BitSlice`) and `src/bitslice.rs:17-211`
(`BitsliceLayout`, `Bitslice`, `BitsliceWithLayout`). The two types have the same layout and, where
both have a function, the same code. `w` is `L::width()` (1, 2, 4 or 8).
-/
namespace BitBoost

/-- The layouts that exist: `src/slice_store.rs` (`BitSliceLayout1/2/4/8`, lines 1022-1035 and
`src/bitslice.rs:43-46`). -/
def validWidth (w : Nat) : Prop := w = 1 ∨ w = 2 ∨ w = 4 ∨ w = 8

namespace BitSlice

/-- `src/slice_store.rs:785`, `src/bitslice.rs:22` `superblock_width`. -/
def superblockWidth (w : Nat) : Nat := (32 / 4) / w

/-- `src/slice_store.rs:822-826`, `src/bitslice.rs:121-125` `get_indices`. -/
def getIndices (w blockpos : Nat) : Nat × Nat :=
  (blockpos / superblockWidth w, blockpos % superblockWidth w)

/-- `src/slice_store.rs:836-838`, `src/bitslice.rs:141-143` `bitslice_blockpos_u32`. -/
def blockposU32 (w sbi sbj lane : Nat) : Nat := sbi * 8 + lane * superblockWidth w + sbj

/-- Position of the `u32` that holds bit `lane` of the 32 values of block `blockpos`. -/
def lanePos (w blockpos lane : Nat) : Nat :=
  blockposU32 w (getIndices w blockpos).1 (getIndices w blockpos).2 lane

/-- `src/bitslice.rs:162-166` `get_block` (checked). -/
def getBlock (w : Nat) (bs : Blocks) (blockpos lane : Nat) : Out (BitVec 32) :=
  Blocks.get 32 bs (lanePos w blockpos lane)

/-- `src/bitslice.rs:146-150` `get_block_unchecked`. -/
def getBlockUnchecked (w : Nat) (bs : Blocks) (blockpos lane : Nat) : Out (BitVec 32) :=
  Blocks.getUnchecked 32 bs (lanePos w blockpos lane)

/-- Loop of `get_value`: `n` lanes to go, at lane `k`. -/
def getLoop (w : Nat) (bs : Blocks) (blockpos bitpos : Nat) : Nat → Nat → BitVec 8 → Out (BitVec 8)
  | 0, _, res => .ok res
  | n + 1, k, res => do
      let bits ← getBlock w bs blockpos k
      getLoop w bs blockpos bitpos n (k + 1) (setBit res k (getBit bits bitpos))

/-- `src/slice_store.rs:840-849`, `src/bitslice.rs:177-186` `get_value`. -/
def getValue (w : Nat) (bs : Blocks) (index : Nat) : Out (BitVec 8) :=
  getLoop w bs (getBlockpos 32 index) (getBitpos 32 index) w 0 0#8

/-- Loop of `set_value`. -/
def setLoop (w : Nat) (blockpos bitpos : Nat) (value : BitVec 8) : Nat → Nat → Blocks → Out Blocks
  | 0, _, bs => .ok bs
  | n + 1, k, bs => do
      let bits ← getBlock w bs blockpos k
      let bs' ← Blocks.set 32 bs (lanePos w blockpos k) (setBit bits bitpos (getBit value k))
      setLoop w blockpos bitpos value n (k + 1) bs'

/-- `src/slice_store.rs:863-871`, `src/bitslice.rs:188-196` `set_value`. -/
def setValue (w : Nat) (bs : Blocks) (index : Nat) (value : BitVec 8) : Out Blocks :=
  setLoop w (getBlockpos 32 index) (getBitpos 32 index) value w 0 bs

/-- Loop of `copy_block_from`. -/
def copyLoop (w : Nat) (other : Blocks) (from_ to : Nat) : Nat → Nat → Blocks → Out Blocks
  | 0, _, bs => .ok bs
  | n + 1, k, bs => do
      let b ← Blocks.getUnchecked 32 other (lanePos w from_ k)
      let bs' ← Blocks.setUnchecked 32 bs (lanePos w to k) b
      copyLoop w other from_ to n (k + 1) bs'

/-- `src/slice_store.rs:899-921` `copy_block_from` in a release build (the range checks are
`debug_assert!`s, the accesses raw). -/
def copyBlockFrom (w : Nat) (bs other : Blocks) (from_ to : Nat) : Out Blocks :=
  copyLoop w other from_ to w 0 bs

/-- Loop of `sum_masked_unsafe`. The `u32` sum is at most `32 * 255`. -/
def sumLoop (w : Nat) (bs : Blocks) (index : Nat) (mask : BitVec 32) : Nat → Nat → Nat → Out Nat
  | 0, _, sum => .ok sum
  | n + 1, k, sum => do
      let block ← Blocks.getUnchecked 32 bs (lanePos w index k)
      sumLoop w bs index mask n (k + 1) (sum + BitBlock.popcount (block &&& mask) * 2 ^ k)

/-- `src/slice_store.rs:923-939` `sum_masked_unsafe` (release build). -/
def sumMaskedUnsafe (w : Nat) (bs : Blocks) (index : Nat) (mask : BitVec 32) : Out Nat :=
  sumLoop w bs index mask w 0 0

/-- `src/slice_store.rs:941-944` `sum_masked`. -/
def sumMasked (w : Nat) (bs : Blocks) (index : Nat) (mask : BitVec 32) : Out Nat :=
  if index < Blocks.blockLen 32 bs / w then sumMaskedUnsafe w bs index mask else .panic

/-- `src/bitslice.rs:102-106` `resize`. -/
def resize (w : Nat) (bs : Blocks) (nvalues : Nat) : Out Blocks :=
  Blocks.resize bs (BitBlock.blocksRequiredFor nvalues * w)

end BitSlice
end BitBoost
