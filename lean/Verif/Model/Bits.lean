import Verif.Model.Out
/-!
# Bits, blocks, arrays of blocks, bitsets

Models `src/bitblock.rs` and `src/bitset.rs`.

A `BitBlock` is 32 bytes, aligned at 32 bytes; it is modelled as one `BitVec 256`, byte `b` being
bits `8*b .. 8*b+7` (x86 is little-endian, so the integer views of the same memory are the
little-endian ones).
-/
namespace BitBoost

/-! ## Bit utilities on machine integers -/

/-- `src/bitblock.rs:22-25` `get_bit`: `1 & (bits >> pos) == 1`. -/
def getBit {w : Nat} (bits : BitVec w) (pos : Nat) : Bool :=
  (1#w &&& (bits >>> pos)) == 1#w

/-- `src/bitblock.rs:27-30` `enable_bit`: `bits | 1 << pos`. -/
def enableBit {w : Nat} (bits : BitVec w) (pos : Nat) : BitVec w :=
  bits ||| (1#w <<< pos)

/-- `src/bitblock.rs:32-35` `disable_bit`: `bits & !(1 << pos)`. -/
def disableBit {w : Nat} (bits : BitVec w) (pos : Nat) : BitVec w :=
  bits &&& ~~~(1#w <<< pos)

/-- `src/bitblock.rs:37-41` `set_bit`. -/
def setBit {w : Nat} (bits : BitVec w) (pos : Nat) (value : Bool) : BitVec w :=
  if value then enableBit bits pos else disableBit bits pos

/-- `src/bitblock.rs:43-45` `get_blockpos::<T>`, `w` the number of bits of `T`. -/
def getBlockpos (w bitIndex : Nat) : Nat := bitIndex / w

/-- `src/bitblock.rs:47-49` `get_bitpos::<T>` (the `as u8` cast is lossless for `w ≤ 256`). -/
def getBitpos (w bitIndex : Nat) : Nat := bitIndex % w

/-! ## Blocks -/

/-- `src/bitblock.rs:59-64`: 32 aligned bytes. -/
abbrev BitBlock := BitVec 256

namespace BitBlock

/-- `src/bitblock.rs:68` `nbits`. -/
def nbits : Nat := 256

/-- `src/bitblock.rs:70-72` `zeros`. -/
def zeros : BitBlock := 0#256

/-- `src/bitblock.rs:74-76` `ones` (every byte `0xFF`). -/
def ones : BitBlock := BitVec.allOnes 256

/-- Integer `i` of the view of a block as integers of `w` bits: `src/bitblock.rs:183-189` `cast`
(also a plain access `self.bytes[i]` for `w = 8`). Not bounds-checked here. -/
def word (w : Nat) (b : BitBlock) (i : Nat) : BitVec w := b.extractLsb' (w * i) w

/-- Store `v` at integer `i` of the `w`-bit view: `src/bitblock.rs:191-197` `cast_mut`. Not
bounds-checked here. -/
def setWord (w : Nat) (b : BitBlock) (i : Nat) (v : BitVec w) : BitBlock :=
  (b &&& ~~~((BitVec.allOnes w).setWidth 256 <<< (w * i))) ||| (v.setWidth 256 <<< (w * i))

/-- `src/bitblock.rs:78-85` `is_zero`: both `u128` halves are zero. -/
def isZero (b : BitBlock) : Bool :=
  (List.range (32 / 16)).all fun i => word 128 b i == 0#128

/-- `src/bitblock.rs:145-149` `get_bit`; the byte index is bounds-checked. -/
def getBit (b : BitBlock) (index : Nat) : Out Bool :=
  if getBlockpos 8 index < 32 then
    .ok (BitBoost.getBit (word 8 b (getBlockpos 8 index)) (getBitpos 8 index))
  else .panic

/-- `src/bitblock.rs:151-155` `enable_bit`. -/
def enableBit (b : BitBlock) (index : Nat) : Out BitBlock :=
  if getBlockpos 8 index < 32 then
    .ok (setWord 8 b (getBlockpos 8 index)
      (BitBoost.enableBit (word 8 b (getBlockpos 8 index)) (getBitpos 8 index)))
  else .panic

/-- `src/bitblock.rs:157-161` `disable_bit`. -/
def disableBit (b : BitBlock) (index : Nat) : Out BitBlock :=
  if getBlockpos 8 index < 32 then
    .ok (setWord 8 b (getBlockpos 8 index)
      (BitBoost.disableBit (word 8 b (getBlockpos 8 index)) (getBitpos 8 index)))
  else .panic

/-- `src/bitblock.rs:163-166` `set_bit`. -/
def setBit (b : BitBlock) (index : Nat) (value : Bool) : Out BitBlock :=
  if value then enableBit b index else disableBit b index

/-- Hardware/`u64::count_ones` population count of a machine word: the number of set bits. -/
def popcount {w : Nat} (x : BitVec w) : Nat := ((List.range w).filter x.getLsbD).length

/-- `src/bitblock.rs:168-175` `count_ones`: sum of the population counts of the four `u64`. -/
def countOnes (b : BitBlock) : Nat :=
  (List.range (32 / 8)).foldl (fun count i => count + popcount (word 64 b i)) 0

/-- `src/bitblock.rs:177-181` `blocks_required_for`. -/
def blocksRequiredFor (n : Nat) : Nat :=
  let w := nbits
  let correction := if n % w == 0 then 0 else 1
  n / w + correction

/-- `src/bitblock.rs:89-108` `from_iter`: take up to `256 / w` integers off the iterator; returns
the block, whether the iterator ran dry, and what is left of the iterator. -/
def fromIterLoop (w : Nat) : Nat → Nat → BitBlock → List (BitVec w) →
    Bool × BitBlock × List (BitVec w)
  | 0, _, bb, it => (false, bb, it)
  | _ + 1, _, bb, [] => (true, bb, [])
  | n + 1, i, bb, v :: it => fromIterLoop w n (i + 1) (setWord w bb i v) it

/-- `src/bitblock.rs:89-108` `from_iter`. -/
def fromIter (w : Nat) (it : List (BitVec w)) : Bool × BitBlock × List (BitVec w) :=
  fromIterLoop w (256 / w) 0 zeros it

/-- `src/bitblock.rs:112-125` `from_bool_iter`, loop from bit `i`, `n` bits to go. -/
def fromBoolIterLoop : Nat → Nat → BitBlock → List Bool → Out (Bool × BitBlock × List Bool)
  | 0, _, bb, it => .ok (false, bb, it)
  | _ + 1, _, bb, [] => .ok (true, bb, [])
  | n + 1, i, bb, v :: it => do
      let bb' ← setBit bb i v
      fromBoolIterLoop n (i + 1) bb' it

/-- `src/bitblock.rs:112-125` `from_bool_iter`. -/
def fromBoolIter (it : List Bool) : Out (Bool × BitBlock × List Bool) :=
  fromBoolIterLoop nbits 0 zeros it

/-- `src/bitblock.rs:134-144` `from_4u64`. -/
def from4u64 (a b c d : BitVec 64) : BitBlock :=
  setWord 64 (setWord 64 (setWord 64 (setWord 64 zeros 0 a) 1 b) 2 c) 3 d

/-- `src/bitblock.rs:208-214` `From<T>`: the integer goes to position 0. -/
def ofInt (w : Nat) (v : BitVec w) : BitBlock := setWord w zeros 0 v

end BitBlock

/-! ## Arrays of blocks -/

/-- `src/bitblock.rs:228-230` `BitBlocks`, and the block slice under a `BitVec`
(`src/slice_store.rs:456-459`). -/
abbrev Blocks := List BitBlock

namespace Blocks

/-- `src/bitblock.rs:308-311`, `src/slice_store.rs:463-466` `block_len::<T>`. -/
def blockLen (w : Nat) (bs : Blocks) : Nat := bs.length * (256 / w)

/-- Integer `i` of the `w`-bit view of the whole array (`cast::<T>()[i]`,
`src/bitblock.rs:313-317`, `src/slice_store.rs:468-472`). Not bounds-checked here. -/
def word (w : Nat) (bs : Blocks) (i : Nat) : BitVec w :=
  BitBlock.word w (bs.getD (i / (256 / w)) 0#256) (i % (256 / w))

/-- Store integer `i` of the `w`-bit view (`cast_mut`, `src/bitblock.rs:319-323`,
`src/slice_store.rs:474-479`). Not bounds-checked here. -/
def setWord (w : Nat) (bs : Blocks) (i : Nat) (v : BitVec w) : Blocks :=
  bs.modify (i / (256 / w)) fun b => BitBlock.setWord w b (i % (256 / w)) v

/-- `src/bitblock.rs:325-327`, `src/slice_store.rs:504-506` `get::<T>` (slice index: panics); also
`src/bitblock.rs:329-333` `get_unchecked::<T>` of `BitBlocks`, which asserts that the index is in range. -/
def get (w : Nat) (bs : Blocks) (i : Nat) : Out (BitVec w) :=
  if i < blockLen w bs then .ok (word w bs i) else .panic

/-- `src/slice_store.rs:508-511` `get_unchecked::<T>` (raw pointer read). -/
def getUnchecked (w : Nat) (bs : Blocks) (i : Nat) : Out (BitVec w) :=
  if i < blockLen w bs then .ok (word w bs i) else .ub

/-- `src/bitblock.rs:335-337`, `src/slice_store.rs:513-516` `set::<T>`; also `src/bitblock.rs:339-343`
`set_unchecked::<T>` of `BitBlocks`, which asserts that the index is in range. -/
def set (w : Nat) (bs : Blocks) (i : Nat) (v : BitVec w) : Out Blocks :=
  if i < blockLen w bs then .ok (setWord w bs i v) else .panic

/-- `src/slice_store.rs:518-522` `set_unchecked::<T>` (raw pointer write). -/
def setUnchecked (w : Nat) (bs : Blocks) (i : Nat) (v : BitVec w) : Out Blocks :=
  if i < blockLen w bs then .ok (setWord w bs i v) else .ub

/-- `src/bitset.rs:31-35`, `src/slice_store.rs:481-486` `get_bit`. -/
def getBit (bs : Blocks) (index : Nat) : Out Bool :=
  match bs[index / BitBlock.nbits]? with
  | some b => BitBlock.getBit b (index % BitBlock.nbits)
  | none => .panic

/-- `src/bitset.rs:37-41`, `src/slice_store.rs:496-502` `set_bit`. -/
def setBit (bs : Blocks) (index : Nat) (bit : Bool) : Out Blocks :=
  match bs[index / BitBlock.nbits]? with
  | some b => do
      let b' ← BitBlock.setBit b (index % BitBlock.nbits) bit
      return List.set bs (index / BitBlock.nbits) b'
  | none => .panic

/-- `src/bitset.rs:43-47`, `src/slice_store.rs:488-494` `enable_bit`. -/
def enableBit (bs : Blocks) (index : Nat) : Out Blocks :=
  match bs[index / BitBlock.nbits]? with
  | some b => do
      let b' ← BitBlock.enableBit b (index % BitBlock.nbits)
      return List.set bs (index / BitBlock.nbits) b'
  | none => .panic

/-- `src/bitblock.rs:243-248` `zero_blocks`. -/
def zeroBlocks (n : Nat) : Out Blocks :=
  if 0 < n then .ok (List.replicate n BitBlock.zeros) else .panic

/-- `src/bitblock.rs:250-255` `one_blocks`. -/
def oneBlocks (n : Nat) : Out Blocks :=
  if 0 < n then .ok (List.replicate n BitBlock.ones) else .panic

/-- `src/bitblock.rs:257-260` `zero_bits`. -/
def zeroBits (n : Nat) : Out Blocks := zeroBlocks (BitBlock.blocksRequiredFor n)

/-- The loop `src/bitblock.rs:271-277` (identical in `src/slice_store.rs:359-365`): walk the `u64`
words of the last block downwards, clearing the top `zeros` bits. `i - 1` on `i = 0` would be an
index underflow, hence `panic`. -/
def trimLoop : Nat → Nat → BitBlock → Out BitBlock
  | i, zeros, b =>
    let b' :=
      if zeros ≥ 64 then BitBlock.setWord 64 b i 0#64
      else BitBlock.setWord 64 b i (BitBlock.word 64 b i >>> zeros)
    if zeros > 64 then
      match i with
      | 0 => .panic
      | i' + 1 => trimLoop i' (zeros - 64) b'
    else .ok b'

/-- Apply the trimming loop to the last block of a slice, `src/bitblock.rs:267-278`,
`src/slice_store.rs:355-366` (`if let Some(last) = ...last_mut()`). -/
def trimLast (n : Nat) (nblocks : Nat) (blocks : Blocks) : Out Blocks :=
  match blocks.getLast? with
  | none => .ok blocks
  | some last => do
      let zeros := nblocks * BitBlock.nbits - n
      let last' ← trimLoop (256 / 64 - 1) zeros last
      return List.set blocks (blocks.length - 1) last'

/-- `src/bitblock.rs:262-281` `one_bits`. -/
def oneBits (n : Nat) : Out Blocks := do
  let nblocks := BitBlock.blocksRequiredFor n
  let blocks ← oneBlocks nblocks
  trimLast n nblocks blocks

/-- Loop `src/bitblock.rs:289-292` (also `src/slice_store.rs:378-381`): one block per iteration. -/
def fromIterLoop (w : Nat) : Nat → List (BitVec w) → Blocks
  | 0, _ => []
  | k + 1, it =>
      let r := BitBlock.fromIter w it
      r.2.1 :: fromIterLoop w k r.2.2

/-- `src/bitblock.rs:283-294` `from_iter` (`nvalues` as given by the caller). The zeroed blocks are
all overwritten by the loop. -/
def fromIter (w : Nat) (nvalues : Nat) (it : List (BitVec w)) : Out Blocks := do
  let nblocks := BitBlock.blocksRequiredFor (nvalues * w)
  let _ ← zeroBlocks nblocks
  return fromIterLoop w nblocks it

/-- Loop `src/bitblock.rs:301-304` (also `src/slice_store.rs:391-394`). -/
def fromBoolIterLoop : Nat → List Bool → Out Blocks
  | 0, _ => .ok []
  | k + 1, it => do
      let r ← BitBlock.fromBoolIter it
      let rest ← fromBoolIterLoop k r.2.2
      return r.2.1 :: rest

/-- `src/bitblock.rs:296-306` `from_bool_iter`. -/
def fromBoolIter (nbits : Nat) (it : List Bool) : Out Blocks := do
  let nblocks := BitBlock.blocksRequiredFor nbits
  let _ ← zeroBlocks nblocks
  fromBoolIterLoop nblocks it

/-- `src/bitblock.rs:345-348` `resize` (`Vec::resize` truncates or pads with zero blocks). -/
def resize (bs : Blocks) (n : Nat) : Out Blocks :=
  if 0 < n then .ok (bs.take n ++ List.replicate (n - bs.length) BitBlock.zeros) else .panic

/-- `src/bitblock.rs:350-352` `reset` (`Vec::clear`). -/
def reset (_ : Blocks) : Blocks := []

end Blocks

/-! ## Bitsets (`src/bitset.rs`) -/

namespace Bitset

/-- `src/bitset.rs:19-23` `zeros`. -/
def zeros (n : Nat) : Out Blocks := Blocks.zeroBits n

/-- `src/bitset.rs:25-29` `ones`. -/
def ones (n : Nat) : Out Blocks := Blocks.oneBits n

/-- `src/bitset.rs:31-35`. -/
def getBit (bs : Blocks) (i : Nat) : Out Bool := Blocks.getBit bs i

/-- `src/bitset.rs:37-41`. -/
def setBit (bs : Blocks) (i : Nat) (b : Bool) : Out Blocks := Blocks.setBit bs i b

/-- `src/bitset.rs:43-47`. -/
def enableBit (bs : Blocks) (i : Nat) : Out Blocks := Blocks.enableBit bs i

/-- `src/bitset.rs:49-53` `disable_bit`. As written in the source it calls `enable_bit` of the
block. -/
def disableBit (bs : Blocks) (index : Nat) : Out Blocks :=
  match bs[index / BitBlock.nbits]? with
  | some b => do
      let b' ← BitBlock.enableBit b (index % BitBlock.nbits)
      return List.set bs (index / BitBlock.nbits) b'
  | none => .panic

end Bitset
end BitBoost
