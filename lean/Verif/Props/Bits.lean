import Verif.Lemmas.Build
import Verif.Lemmas.Popcount
/-!
# Properties C01 - C06: bits, blocks, bitsets

Everything is stated through the public accessors (`getBit`, `get`), which are the Rust functions
`get_bit` and `get::<T>`; `Out.ok` in a conclusion says that the call neither panics nor touches
memory outside the array.
-/
namespace BitBoost.Props
open BitBoost

/-- What it means that an update of an array of blocks changed exactly bit `i`, to `v`, as seen
through `get_bit`: same length, reads of `i` give `v`, every other read is unchanged (including
the reads past the end, which panic before and after). -/
def ChangedExactlyBit (before after : Blocks) (i : Nat) (v : Bool) : Prop :=
  after.length = before.length ∧ Blocks.getBit after i = .ok v ∧
    ∀ j, j ≠ i → Blocks.getBit after j = Blocks.getBit before j

theorem changedExactlyBit_of {bs bs' : Blocks} {i : Nat} {v : Bool} (h : i < bs.length * 256)
    (hl : bs'.length = bs.length) (hb : ∀ n, Blocks.bit bs' n = if n = i then v else Blocks.bit bs n) :
    ChangedExactlyBit bs bs' i v := by
  refine ⟨hl, ?_, ?_⟩
  · rw [Blocks.getBit_eq, hl, if_pos h, hb]; simp
  · intro j hj
    rw [Blocks.getBit_eq, Blocks.getBit_eq, hl, hb, if_neg hj]

/-- C01 for bit vectors and bitsets (`BitVec::set_bit`, `Bitset::set_bit`): an in-range write
changes exactly the addressed bit. -/
theorem C01_set_bit (bs : Blocks) (i : Nat) (v : Bool) (h : i < 256 * bs.length) :
    ∃ bs', Blocks.setBit bs i v = .ok bs' ∧ ChangedExactlyBit bs bs' i v := by
  obtain ⟨bs', h1, h2, h3⟩ := Blocks.setBit_eq bs i v (by omega)
  exact ⟨bs', h1, changedExactlyBit_of (by omega) h2 h3⟩

/-- C01 for `enable_bit` of bit vectors and bitsets. -/
theorem C01_enable_bit (bs : Blocks) (i : Nat) (h : i < 256 * bs.length) :
    ∃ bs', Blocks.enableBit bs i = .ok bs' ∧ ChangedExactlyBit bs bs' i true := by
  rw [Blocks.enableBit_eq_setBit]
  exact C01_set_bit bs i true h

/-- C01: every in-range read succeeds; every access past the end is rejected. -/
theorem C01_out_of_range (bs : Blocks) (i : Nat) :
    (i < 256 * bs.length → ∃ b, Blocks.getBit bs i = .ok b) ∧
    (256 * bs.length ≤ i → Blocks.getBit bs i = .panic ∧ ∀ v, Blocks.setBit bs i v = .panic ∧
      Blocks.enableBit bs i = .panic ∧ Bitset.disableBit bs i = .panic) := by
  refine ⟨fun h => ⟨_, by rw [Blocks.getBit_eq, if_pos (by omega)]⟩, fun h => ⟨?_, fun v => ⟨?_, ?_, ?_⟩⟩⟩
  · rw [Blocks.getBit_eq, if_neg (by omega)]
  · exact Blocks.setBit_panic bs i v (by omega)
  · rw [Blocks.enableBit_eq_setBit]; exact Blocks.setBit_panic bs i true (by omega)
  · unfold Bitset.disableBit BitBlock.nbits
    rw [List.getElem?_eq_none_iff.mpr (by omega)]

/-- C01 for a single block: `set_bit`, `enable_bit`, `disable_bit` change exactly the addressed
bit. -/
theorem C01_block (b : BitBlock) (i : Nat) (h : i < 256) :
    (∀ v, ∃ b', BitBlock.setBit b i v = .ok b' ∧ BitBlock.getBit b' i = .ok v ∧
      ∀ j, j ≠ i → BitBlock.getBit b' j = BitBlock.getBit b j) ∧
    BitBlock.enableBit b i = BitBlock.setBit b i true ∧
    BitBlock.disableBit b i = BitBlock.setBit b i false := by
  refine ⟨fun v => ⟨_, BitBlock.setBit_eq b v h, ?_, ?_⟩, ?_, ?_⟩
  · rw [BitBlock.getBit_eq _ h, getLsbD_setBit _ _ _ _ h]; simp
  · intro j hj
    by_cases hj2 : j < 256
    · rw [BitBlock.getBit_eq _ hj2, BitBlock.getBit_eq _ hj2, getLsbD_setBit _ _ _ _ hj2, if_neg hj]
    · rw [BitBlock.getBit_panic _ hj2, BitBlock.getBit_panic _ hj2]
  · simp [BitBlock.setBit]
  · simp [BitBlock.setBit]

/-- C01: accesses to a block past bit 255 panic. -/
theorem C01_block_out_of_range (b : BitBlock) (i : Nat) (h : 256 ≤ i) :
    BitBlock.getBit b i = .panic ∧ (∀ v, BitBlock.setBit b i v = .panic) ∧
      BitBlock.enableBit b i = .panic ∧ BitBlock.disableBit b i = .panic :=
  ⟨BitBlock.getBit_panic _ (by omega), fun v => BitBlock.setBit_panic _ v (by omega),
    BitBlock.enableBit_panic _ (by omega), BitBlock.disableBit_panic _ (by omega)⟩

/-- Non-vacuity: two blocks, bit 300 (in the second block) is in range. -/
example : (300 : Nat) < 256 * ([BitBlock.zeros, BitBlock.ones] : Blocks).length := by decide

/-! ### C02 -/

/-- C02 is false of the code: `Bitset::disable_bit` never clears a bit. After any successful call
the bit is *set*, whatever it was before. (`src/bitset.rs:52` calls `enable_bit`.) -/
theorem C02_disable_bit_sets_refuted (bs : Blocks) (i : Nat) (h : i < 256 * bs.length) :
    ∃ bs', Bitset.disableBit bs i = .ok bs' ∧ Bitset.getBit bs' i = .ok true := by
  obtain ⟨bs', h1, h2⟩ := C01_enable_bit bs i h
  exact ⟨bs', h1, h2.2.1⟩

/-- C02, what remains true: `disable_bit` leaves every *other* bit alone. -/
theorem C02_disable_bit_isolated_partial (bs : Blocks) (i : Nat) (h : i < 256 * bs.length) :
    ∃ bs', Bitset.disableBit bs i = .ok bs' ∧ bs'.length = bs.length ∧
      ∀ j, j ≠ i → Bitset.getBit bs' j = Bitset.getBit bs j := by
  obtain ⟨bs', h1, h2⟩ := C01_enable_bit bs i h
  exact ⟨bs', h1, h2.1, h2.2.2⟩

/-- The full statement of C02, refuted: there is a bitset and an index for which the bit is still
readable as `true` after `disable_bit`. -/
theorem C02_refuted : ¬ ∀ (bs : Blocks) (i : Nat), i < 256 * bs.length →
    ∃ bs', Bitset.disableBit bs i = .ok bs' ∧ Bitset.getBit bs' i = .ok false := by
  intro hall
  obtain ⟨bs', h1, h2⟩ := hall [BitBlock.ones] 3 (by decide)
  obtain ⟨bs'', h3, h4⟩ := C02_disable_bit_sets_refuted [BitBlock.ones] 3 (by decide)
  rw [h3] at h1
  cases h1
  rw [h2] at h4
  exact absurd h4 (by decide)

/-! ### C03 -/

/-- C03: `one_bits(n)` / `Bitset::ones(n)` has `⌈n/256⌉` blocks, bits `0..n` set, padding clear. -/
theorem C03_ones (n : Nat) (hn : 0 < n) :
    ∃ bs, Bitset.ones n = .ok bs ∧ bs.length = (n + 255) / 256 ∧
      ∀ i, i < 256 * bs.length → Bitset.getBit bs i = .ok (decide (i < n)) := by
  obtain ⟨bs, h1, h2, h3⟩ := Blocks.oneBits_spec n hn
  refine ⟨bs, h1, h2, ?_⟩
  intro i hi
  unfold Bitset.getBit
  rw [Blocks.getBit_eq, if_pos (by omega), h3]

/-- C03: `zeros(n)` has `⌈n/256⌉` blocks and no bit set. -/
theorem C03_zeros (n : Nat) (hn : 0 < n) :
    ∃ bs, Bitset.zeros n = .ok bs ∧ bs.length = (n + 255) / 256 ∧
      ∀ i, i < 256 * bs.length → Bitset.getBit bs i = .ok false := by
  obtain ⟨bs, h1, h2, h3⟩ := Blocks.zeroBits_spec n hn
  refine ⟨bs, h1, h2, ?_⟩
  intro i hi
  unfold Bitset.getBit
  rw [Blocks.getBit_eq, if_pos (by omega), h3]

/-- C03, the excluded point: an empty bitset cannot be built (both constructors panic). -/
theorem C03_empty_panics : Bitset.ones 0 = .panic ∧ Bitset.zeros 0 = .panic := by
  constructor <;> decide

/-- Non-vacuity: 300 bits need two blocks. -/
example : 0 < 300 ∧ (300 + 255) / 256 = 2 := by decide

/-! ### C04 -/

/-- C04 (booleans): `from_bool_iter(nbits, items)` has `⌈nbits/256⌉` blocks; bit `i` reads back
item `i`, and is 0 where there is no such item. -/
theorem C04_from_bool_iter (nbits : Nat) (items : List Bool) (hn : 0 < nbits) :
    ∃ bs, Blocks.fromBoolIter nbits items = .ok bs ∧ bs.length = (nbits + 255) / 256 ∧
      ∀ i, i < 256 * bs.length → Blocks.getBit bs i = .ok (items.getD i false) := by
  have hk := BitBlock.blocksRequiredFor_eq nbits
  obtain ⟨bs, h1, h2, h3⟩ := Blocks.fromBoolIterLoop_spec (BitBlock.blocksRequiredFor nbits) items
  refine ⟨bs, ?_, by omega, ?_⟩
  · unfold Blocks.fromBoolIter Blocks.zeroBlocks
    dsimp only
    rw [if_pos (by omega)]
    simpa using h1
  · intro i hi
    rw [Blocks.getBit_eq, if_pos (by omega), h3 i (by omega), List.getD_eq_getElem?_getD]

/-- C04 (integers): `from_iter::<T>(nvalues, items)` reads back item `i` at position `i` of the
`T`-view, zero where there is no such item. `w` is the bit width of `T`. -/
theorem C04_from_iter (w : Nat) (hw : 0 < w) (hd : w ∣ 256) (nvalues : Nat)
    (items : List (BitVec w)) (hn : 0 < nvalues) :
    ∃ bs, Blocks.fromIter w nvalues items = .ok bs ∧ bs.length = (nvalues * w + 255) / 256 ∧
      ∀ i, i < Blocks.blockLen w bs → Blocks.get w bs i = .ok (items.getD i 0#w) := by
  have hk := BitBlock.blocksRequiredFor_eq (nvalues * w)
  have hpos : 0 < nvalues * w := Nat.mul_pos hn hw
  obtain ⟨h2, h3⟩ := Blocks.fromIterLoop_spec hw hd (BitBlock.blocksRequiredFor (nvalues * w)) items
  refine ⟨_, ?_, h2.trans hk, ?_⟩
  · unfold Blocks.fromIter Blocks.zeroBlocks
    dsimp only
    rw [if_pos (by omega)]
    rfl
  · intro i hi
    unfold Blocks.get
    rw [if_pos hi]
    congr 1
    apply BitVec.eq_of_getLsbD_eq
    intro k hk2
    have hlt := (Blocks.lt_blockLen_iff hw hd _ i).mp hi
    rw [Blocks.getLsbD_word hw hd _ _ hk2]
    have hm : w * i + k < (BitBlock.blocksRequiredFor (nvalues * w)) * 256 := by
      have e := Blocks.blockLen_mul hw hd (Blocks.fromIterLoop w (BitBlock.blocksRequiredFor (nvalues * w)) items)
      rw [h2] at e
      have : w * i + w ≤ w * Blocks.blockLen w (Blocks.fromIterLoop w (BitBlock.blocksRequiredFor (nvalues * w)) items) := by
        calc w * i + w = w * (i + 1) := by rw [Nat.mul_add, Nat.mul_one]
          _ ≤ _ := Nat.mul_le_mul_left _ hi
      omega
    rw [h3 _ hm]
    have e1 : (w * i + k) / w = i := by
      rw [Nat.mul_add_div hw, Nat.div_eq_of_lt hk2]; omega
    have e2 : (w * i + k) % w = k := by
      rw [Nat.mul_add_mod, Nat.mod_eq_of_lt hk2]
    rw [e1, e2, List.getD_eq_getElem?_getD]
    cases items[i]? <;> simp

/-- Non-vacuity: a 300-item boolean list and a list of three 32-bit integers. -/
example : 0 < (List.replicate 300 true).length ∧ (32 : Nat) ∣ 256 ∧ 0 < [1#32, 2#32, 3#32].length := by
  refine ⟨by rw [List.length_replicate]; omega, by decide, by decide⟩

/-! ### C05 -/

/-- C05: bit `k` of integer `i` of the `w`-bit view is bit `w*i+k` of the bit view. -/
theorem C05_view_bits (w : Nat) (hw : 0 < w) (hd : w ∣ 256) (bs : Blocks) (i : Nat)
    (hi : i < Blocks.blockLen w bs) :
    ∃ x, Blocks.get w bs i = .ok x ∧ Blocks.getUnchecked w bs i = .ok x ∧
      ∀ k, k < w → Blocks.getBit bs (w * i + k) = .ok (x.getLsbD k) := by
  refine ⟨Blocks.word w bs i, by simp [Blocks.get, hi], by simp [Blocks.getUnchecked, hi], ?_⟩
  intro k hk
  have hm := Blocks.blockLen_mul hw hd bs
  have : w * i + w ≤ w * Blocks.blockLen w bs := by
    calc w * i + w = w * (i + 1) := by rw [Nat.mul_add, Nat.mul_one]
      _ ≤ _ := Nat.mul_le_mul_left _ hi
  rw [Blocks.getBit_eq, if_pos (by omega), Blocks.getLsbD_word hw hd _ _ hk]

/-- C05: two views of different widths agree: the bit at overall position `n` is the same in
both. -/
theorem C05_views_agree (w v : Nat) (hw : 0 < w) (hv : 0 < v) (hdw : w ∣ 256) (hdv : v ∣ 256)
    (bs : Blocks) (i j k l : Nat) (hk : k < w) (hl : l < v) (hpos : w * i + k = v * j + l)
    (x : BitVec w) (y : BitVec v) (hx : Blocks.get w bs i = .ok x) (hy : Blocks.get v bs j = .ok y) :
    x.getLsbD k = y.getLsbD l := by
  unfold Blocks.get at hx hy
  split at hx <;> split at hy <;> simp at hx hy
  subst hx; subst hy
  rw [Blocks.getLsbD_word hw hdw _ _ hk, Blocks.getLsbD_word hv hdv _ _ hl, hpos]

/-- C05: storing integer `i` of the `w`-bit view changes exactly the bits `w*i .. w*i+w-1`, to the
bits of the stored integer; the checked and the unchecked store agree. -/
theorem C05_set_word (w : Nat) (hw : 0 < w) (hd : w ∣ 256) (bs : Blocks) (i : Nat) (v : BitVec w)
    (hi : i < Blocks.blockLen w bs) :
    ∃ bs', Blocks.set w bs i v = .ok bs' ∧ Blocks.setUnchecked w bs i v = .ok bs' ∧
      bs'.length = bs.length ∧ Blocks.get w bs' i = .ok v ∧
      ∀ n, ¬ (w * i ≤ n ∧ n < w * i + w) → Blocks.getBit bs' n = Blocks.getBit bs n := by
  have hlen := Blocks.length_setWord w bs i v
  refine ⟨Blocks.setWord w bs i v, by simp [Blocks.set, hi], by simp [Blocks.setUnchecked, hi],
    hlen, ?_, ?_⟩
  · unfold Blocks.get
    have : i < Blocks.blockLen w (Blocks.setWord w bs i v) := by
      unfold Blocks.blockLen; rw [hlen]; exact hi
    rw [if_pos this]
    congr 1
    apply BitVec.eq_of_getLsbD_eq
    intro k hk
    have hm := Blocks.blockLen_mul hw hd bs
    have : w * i + w ≤ w * Blocks.blockLen w bs := by
      calc w * i + w = w * (i + 1) := by rw [Nat.mul_add, Nat.mul_one]
        _ ≤ _ := Nat.mul_le_mul_left _ hi
    rw [Blocks.getLsbD_word hw hd _ _ hk, Blocks.bit_setWord hw hd _ _ _ _ (by omega),
      if_pos (by omega)]
    congr 1; omega
  · intro n hn
    rw [Blocks.getBit_eq, Blocks.getBit_eq, hlen]
    by_cases h : n < bs.length * 256
    · rw [if_pos h, if_pos h, Blocks.bit_setWord hw hd _ _ _ _ h, if_neg hn]
    · rw [if_neg h, if_neg h]

/-- C05: accesses past the end of the view: the checked ones panic, the unchecked ones are out of
bounds. -/
theorem C05_out_of_range (w : Nat) (bs : Blocks) (i : Nat) (v : BitVec w)
    (hi : Blocks.blockLen w bs ≤ i) :
    Blocks.get w bs i = .panic ∧ Blocks.set w bs i v = .panic ∧
      Blocks.getUnchecked w bs i = .ub ∧ Blocks.setUnchecked w bs i v = .ub := by
  have : ¬ i < Blocks.blockLen w bs := by omega
  simp [Blocks.get, Blocks.set, Blocks.getUnchecked, Blocks.setUnchecked, this]

/-- C05: `resize(n)` keeps the bits of the blocks that stay, fills new blocks with zeros, gives `n`
blocks, and panics for `n = 0`. -/
theorem C05_resize (bs : Blocks) (n : Nat) :
    (n = 0 → Blocks.resize bs n = .panic) ∧
    (0 < n → ∃ bs', Blocks.resize bs n = .ok bs' ∧ bs'.length = n ∧
      ∀ i, i < 256 * n → Blocks.getBit bs' i =
        if i < 256 * bs.length then Blocks.getBit bs i else .ok false) := by
  refine ⟨fun h => by simp [Blocks.resize, h], fun h => ?_⟩
  have hl : (bs.take n ++ List.replicate (n - bs.length) BitBlock.zeros).length = n := by
    simp only [List.length_append, List.length_take, List.length_replicate]; omega
  refine ⟨_, by unfold Blocks.resize; rw [if_pos h], hl, ?_⟩
  intro i hi
  rw [Blocks.getBit_eq, Blocks.getBit_eq, hl, if_pos (by omega)]
  by_cases hb : i < 256 * bs.length
  · rw [if_pos hb, if_pos (by omega)]
    unfold Blocks.bit
    rw [List.getD_append _ _ _ _ (by simp only [List.length_take]; omega)]
    simp only [List.getD_eq_getElem?_getD, List.getElem?_take]
    rw [if_pos (by omega)]
  · rw [if_neg hb]
    unfold Blocks.bit
    rw [List.getD_append_right _ _ _ _ (by simp only [List.length_take]; omega)]
    simp only [List.getD_eq_getElem?_getD, List.getElem?_replicate, List.length_take]
    rw [if_pos (by omega)]
    simp [BitBlock.zeros]

/-- C05: `reset` empties the vector: no bit can be read any more, and growing it again gives zeros, whatever it held before. -/
theorem C05_reset (bs : Blocks) :
    (Blocks.reset bs).length = 0 ∧ (∀ i, Blocks.getBit (Blocks.reset bs) i = .panic) ∧
      ∀ n, 0 < n → ∃ bs', Blocks.resize (Blocks.reset bs) n = .ok bs' ∧ bs'.length = n ∧
        ∀ i, i < 256 * n → Blocks.getBit bs' i = .ok false := by
  refine ⟨rfl, fun i => ?_, fun n hn => ?_⟩
  · rw [Blocks.getBit_eq, if_neg (by simp [Blocks.reset])]
  · obtain ⟨bs', e, hl, h⟩ := (C05_resize (Blocks.reset bs) n).2 hn
    refine ⟨bs', e, hl, fun i hi => ?_⟩
    rw [h i hi, if_neg (by simp [Blocks.reset])]

/-- C05: `BitBlock::from(v)` for a `w`-bit integer `v` has `v` as integer 0 of the `w`-bit view and
zeros everywhere else. -/
theorem C05_of_int (w : Nat) (hw : 0 < w) (hd : w ∣ 256) (v : BitVec w) (i : Nat)
    (hi : i < 256 / w) :
    Blocks.get w [BitBlock.ofInt w v] i = .ok (if i = 0 then v else 0#w) := by
  have hle : w ≤ 256 := Nat.le_of_dvd (by omega) hd
  have hlen : i < Blocks.blockLen w [BitBlock.ofInt w v] := by
    rw [Blocks.lt_blockLen_iff hw hd]
    have : w * (i + 1) ≤ w * (256 / w) := Nat.mul_le_mul_left _ hi
    rw [Nat.mul_div_cancel' hd] at this
    simp only [List.length_singleton]
    rw [Nat.mul_add] at this
    omega
  unfold Blocks.get
  rw [if_pos hlen]
  congr 1
  apply BitVec.eq_of_getLsbD_eq
  intro k hk
  have hpos : w * i + k < 256 := by
    have : w * (i + 1) ≤ w * (256 / w) := Nat.mul_le_mul_left _ hi
    rw [Nat.mul_div_cancel' hd, Nat.mul_add] at this
    omega
  rw [Blocks.getLsbD_word hw hd _ _ hk]
  unfold Blocks.bit
  rw [Nat.div_eq_of_lt hpos, Nat.mod_eq_of_lt hpos]
  simp only [List.getD_cons_zero]
  unfold BitBlock.ofInt
  rw [BitBlock.getLsbD_setWord _ _ _ _ _ hpos hle]
  by_cases h0 : i = 0
  · subst h0
    simp [hk]
  · have : w * 1 ≤ w * i := Nat.mul_le_mul_left _ (by omega)
    rw [if_neg (by omega), if_neg h0]
    simp [BitBlock.zeros]

/-- C05: `from_4u64(a, b, c, d)` is the block whose four `u64`s are `a, b, c, d` in that order. -/
theorem C05_from_4u64 (a b c d : BitVec 64) :
    Blocks.get 64 [BitBlock.from4u64 a b c d] 0 = .ok a ∧
    Blocks.get 64 [BitBlock.from4u64 a b c d] 1 = .ok b ∧
    Blocks.get 64 [BitBlock.from4u64 a b c d] 2 = .ok c ∧
    Blocks.get 64 [BitBlock.from4u64 a b c d] 3 = .ok d := by
  have key : ∀ (i : Nat) (x : BitVec 64), i < 4 →
      (∀ k, k < 64 → (BitBlock.from4u64 a b c d).getLsbD (64 * i + k) = x.getLsbD k) →
      Blocks.get 64 [BitBlock.from4u64 a b c d] i = .ok x := by
    intro i x hi hx
    unfold Blocks.get
    rw [if_pos (by show i < _; unfold Blocks.blockLen; simp only [List.length_singleton]; omega)]
    congr 1
    apply BitVec.eq_of_getLsbD_eq
    intro k hk
    rw [Blocks.getLsbD_word (by omega) (by decide) _ _ hk]
    unfold Blocks.bit
    rw [Nat.div_eq_of_lt (by omega : 64 * i + k < 256), Nat.mod_eq_of_lt (by omega)]
    simp only [List.getD_cons_zero]
    exact hx k hk
  refine ⟨key 0 a (by omega) ?_, key 1 b (by omega) ?_, key 2 c (by omega) ?_, key 3 d (by omega) ?_⟩
  all_goals
    intro k hk
    unfold BitBlock.from4u64
    repeat rw [BitBlock.getLsbD_setWord _ _ _ _ _ (by omega) (by omega)]
    split_ifs <;> first | (exfalso; omega) | exact congrArg _ (by omega)

/-- Non-vacuity: one block seen as 8 `u32`s and 4 `u64`s; `u32` number 3 and `u64` number 1 share
bit 100. -/
example : 3 < Blocks.blockLen 32 [BitBlock.ones] ∧ 1 < Blocks.blockLen 64 [BitBlock.ones] ∧
    32 * 3 + 4 = 64 * 1 + 36 := by decide

/-! ### C06 (single blocks; whole vectors are in `Props/Simd.lean`) -/

/-- C06: `BitBlock::count_ones` is the number of positions whose bit reads as 1. -/
theorem C06_block_count_ones (b : BitBlock) :
    BitBlock.countOnes b =
      ((List.range 256).filter fun i => decide (BitBlock.getBit b i = .ok true)).length := by
  rw [BitBlock.countOnes_eq]
  unfold BitBlock.popcount
  congr 1
  apply List.filter_congr
  intro i hi
  rw [BitBlock.getBit_eq b (List.mem_range.mp hi)]
  cases b.getLsbD i <;> simp

/-- C06 / C05: `is_zero` holds exactly if no bit is set. -/
theorem C06_is_zero (b : BitBlock) :
    BitBlock.isZero b = true ↔ ∀ i, i < 256 → BitBlock.getBit b i = .ok false := by
  constructor
  · intro h i hi
    rw [BitBlock.getBit_eq b hi]
    congr 1
    unfold BitBlock.isZero at h
    rw [List.all_eq_true] at h
    have h1 := h (i / 128) (by rw [List.mem_range]; omega)
    rw [beq_iff_eq] at h1
    have h2 := congrArg (fun x => BitVec.getLsbD x (i % 128)) h1
    simp only [BitBlock.getLsbD_word] at h2
    have e : 128 * (i / 128) + i % 128 = i := by omega
    have e2 : i % 128 < 128 := by omega
    simpa [e, e2] using h2
  · intro h
    unfold BitBlock.isZero
    rw [List.all_eq_true]
    intro j hj
    rw [List.mem_range] at hj
    rw [beq_iff_eq]
    apply BitVec.eq_of_getLsbD_eq
    intro k hk
    rw [BitBlock.getLsbD_word]
    have h1 := h (128 * j + k) (by omega)
    rw [BitBlock.getBit_eq b (by omega)] at h1
    cases h1' : b.getLsbD (128 * j + k)
    · simp
    · rw [h1'] at h1; exact absurd h1 (by simp)

end BitBoost.Props
