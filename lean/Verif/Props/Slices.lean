import Verif.Lemmas.KernelVals
import Verif.Props.Bits
import Verif.Props.IndexIter
import Verif.Props.SliceStore
/-!
# Properties C06 (vectorised counter), C14, C16 - C22: bit slices and the counting kernels

A bit slice is seen through `get_value` (`Spec.valueAt w slice v`, the number returned by
`get_value(v)`), a mask through `get_bit` (`Spec.bitAt`). A `u64` result `r : BitVec 64` is compared
as a number (`r.toNat`). `w` ranges over the four layouts.
-/
namespace BitBoost.Props
open BitBoost Finset

theorem slots_def (w : Nat) (slice : Blocks) : Spec.slots w slice = slice.length * (256 / w) := rfl

theorem valueAt_of_ge {w : Nat} (hw : validWidth w) (slice : Blocks) (v : Nat)
    (hv : Spec.slots w slice ≤ v) : Spec.valueAt w slice v = 0 := by
  unfold Spec.valueAt
  rw [BitSlice.getValue_panic hw slice v (by rw [slots_def] at hv; omega)]

/-! ## C14 -/

/-- C14: `set_value(v, x)` with `x < 2^w` succeeds; afterwards `get_value(v)` returns `x` and
`get_value` of every other position returns (or panics) as before. -/
theorem C14_get_set {w : Nat} (hw : validWidth w) (slice : Blocks) (v : Nat) (x : BitVec 8)
    (hx : x.toNat < 2 ^ w) (hv : v < Spec.slots w slice) :
    ∃ slice', BitSlice.setValue w slice v x = .ok slice' ∧ slice'.length = slice.length ∧
      BitSlice.getValue w slice' v = .ok x ∧
      ∀ v', v' ≠ v → BitSlice.getValue w slice' v' = BitSlice.getValue w slice v' := by
  rw [slots_def] at hv
  obtain ⟨s', h1, h2, h3⟩ := BitSlice.setValue_spec hw slice v x hv
  have hw8 : w ≤ 8 := by rcases hw with rfl | rfl | rfl | rfl <;> omega
  refine ⟨s', h1, h2, ?_, ?_⟩
  · obtain ⟨y, e1, e2⟩ := BitSlice.getValue_spec hw s' v (by rw [h2]; exact hv)
    rw [e1]
    refine congrArg Out.ok (BitVec.eq_of_getLsbD_eq fun k hk => ?_)
    rw [e2]
    by_cases hkw : k < w
    · rw [h3 v k hkw hv]; simp [hkw]
    · simp only [hkw, decide_false, Bool.false_and]
      symm
      exact Nat.testBit_lt_two_pow
        (Nat.lt_of_lt_of_le hx (Nat.pow_le_pow_right (by omega) (by omega)))
  · intro v' hne
    by_cases hv' : v' < slice.length * (256 / w)
    · obtain ⟨y, e1, e2⟩ := BitSlice.getValue_spec hw s' v' (by rw [h2]; exact hv')
      obtain ⟨z, e3, e4⟩ := BitSlice.getValue_spec hw slice v' hv'
      rw [e1, e3]
      refine congrArg Out.ok (BitVec.eq_of_getLsbD_eq fun k hk => ?_)
      rw [e2, e4]
      by_cases hkw : k < w
      · rw [h3 v' k hkw hv', if_neg hne]
      · simp [hkw]
    · rw [BitSlice.getValue_panic hw s' v' (by rw [h2]; exact hv'),
        BitSlice.getValue_panic hw slice v' hv']

/-- C14 for values too large for the layout: only the low `w` bits are kept. -/
theorem C14_truncates {w : Nat} (hw : validWidth w) (slice : Blocks) (v : Nat) (x : BitVec 8)
    (hv : v < Spec.slots w slice) :
    ∃ slice', BitSlice.setValue w slice v x = .ok slice' ∧
      Spec.valueAt w slice' v = x.toNat % 2 ^ w := by
  rw [slots_def] at hv
  obtain ⟨s', h1, h2, h3⟩ := BitSlice.setValue_spec hw slice v x hv
  refine ⟨s', h1, ?_⟩
  rw [BitSlice.valueAt_eq hw s' v (by rw [h2]; exact hv)]
  have := BitSlice.toNat_eq_sum w (BitVec.setWidth w x)
  rw [BitVec.toNat_setWidth] at this
  rw [this]
  apply Finset.sum_congr rfl
  intro k hk
  have hk' := mem_range.mp hk
  rw [h3 v k hk' hv]
  simp [hk']

/-- C14: accesses past the last value are rejected, those below it never are, and every value read
fits in the layout. -/
theorem C14_out_of_range {w : Nat} (hw : validWidth w) (slice : Blocks) (v : Nat) :
    (Spec.slots w slice ≤ v → BitSlice.getValue w slice v = .panic ∧
      ∀ x, BitSlice.setValue w slice v x = .panic) ∧
    (v < Spec.slots w slice → ∃ x, BitSlice.getValue w slice v = .ok x ∧ x.toNat < 2 ^ w) := by
  refine ⟨fun h => ⟨BitSlice.getValue_panic hw slice v (by rw [slots_def] at h; omega), fun x =>
    BitSlice.setValue_panic hw slice v x (by rw [slots_def] at h; omega)⟩, fun h => ?_⟩
  obtain ⟨x, h1, h2⟩ := BitSlice.getValue_spec hw slice v h
  refine ⟨x, h1, ?_⟩
  apply Nat.lt_pow_two_of_testBit
  intro i hi
  have := h2 i
  simp only [show ¬ i < w by omega, decide_false, Bool.false_and] at this
  exact this

example : validWidth 4 ∧ (13#8).toNat < 2 ^ 4 ∧ 70 < Spec.slots 4 [5#256, 9#256] := by
  refine ⟨by unfold validWidth; omega, by decide, by decide⟩

/-- C14: `resize(n)` (for `n > 0`; it panics for `n = 0`) gives room for at least `n` values, none of
them wasted on more than the last block of 256 per lane; the values that fit before and after are
unchanged and the new ones read as 0. -/
theorem C14_resize {w : Nat} (hw : validWidth w) (slice : Blocks) (n : Nat) :
    (n = 0 → BitSlice.resize w slice n = .panic) ∧
    (0 < n → ∃ slice', BitSlice.resize w slice n = .ok slice' ∧
      n ≤ Spec.slots w slice' ∧ Spec.slots w slice' < n + 256 ∧
      ∀ v, v < Spec.slots w slice' → BitSlice.getValue w slice' v =
        if v < Spec.slots w slice then BitSlice.getValue w slice v else .ok 0#8) := by
  have hk := BitBlock.blocksRequiredFor_eq n
  have hd : w ∣ 256 := by rcases hw with rfl | rfl | rfl | rfl <;> decide
  have hw0 : 0 < w := by rcases hw with rfl | rfl | rfl | rfl <;> omega
  unfold BitSlice.resize
  rw [hk]
  refine ⟨fun h => ?_, fun h => ?_⟩
  · subst h; simp [Blocks.resize]
  have hpos : 0 < (n + 255) / 256 * w := Nat.mul_pos (by omega) hw0
  obtain ⟨s', e, hl, hb⟩ := (C05_resize slice ((n + 255) / 256 * w)).2 hpos
  have hroom : (n + 255) / 256 * w * (256 / w) = (n + 255) / 256 * 256 := by
    rw [Nat.mul_assoc, Nat.mul_div_cancel' hd]
  have hbit : ∀ i, i < 256 * s'.length → Blocks.bit s' i =
      if i < 256 * slice.length then Blocks.bit slice i else false := by
    intro i hi
    have := hb i (by rw [← hl]; exact hi)
    rw [Blocks.getBit_eq, Blocks.getBit_eq, Nat.mul_comm slice.length, Nat.mul_comm s'.length,
      if_pos hi] at this
    by_cases h1 : i < 256 * slice.length
    · rw [if_pos h1, if_pos h1] at this
      rw [if_pos h1]; exact Out.ok.inj this
    · rw [if_neg h1] at this
      rw [if_neg h1]; exact Out.ok.inj this
  refine ⟨s', e, ?_, ?_, fun v hv => ?_⟩
  · rw [slots_def, hl, hroom]; omega
  · rw [slots_def, hl, hroom]; omega
  rw [slots_def] at hv
  obtain ⟨x, e1, e2⟩ := BitSlice.getValue_spec hw s' v hv
  rw [e1]
  by_cases hv' : v < Spec.slots w slice
  · rw [if_pos hv']
    rw [slots_def] at hv'
    obtain ⟨y, e3, e4⟩ := BitSlice.getValue_spec hw slice v hv'
    rw [e3]
    refine congrArg Out.ok (BitVec.eq_of_getLsbD_eq fun k _ => ?_)
    rw [e2, e4]
    by_cases hkw : k < w
    · rw [hbit _ (by rw [Nat.mul_comm]; exact (BitSlice.fpos_lt hw hkw _).2 hv), if_pos (by rw [Nat.mul_comm]; exact (BitSlice.fpos_lt hw hkw _).2 hv')]
    · simp [hkw]
  · rw [if_neg hv']
    rw [slots_def] at hv'
    refine congrArg Out.ok (BitVec.eq_of_getLsbD_eq fun k _ => ?_)
    rw [e2]
    by_cases hkw : k < w
    · rw [hbit _ (by rw [Nat.mul_comm]; exact (BitSlice.fpos_lt hw hkw _).2 hv), if_neg (by rw [Nat.mul_comm, BitSlice.fpos_lt hw hkw]; exact hv')]
      simp
    · simp [hkw]

example : validWidth 2 ∧ Spec.slots 2 [5#256] < 300 ∧ 300 < Spec.slots 2 [5#256, 9#256, 1#256] := by
  refine ⟨by unfold validWidth; omega, by decide, by decide⟩

/-- C11 / C14: `alloc_zero_bitslice(n)` at width `w`, after any history of the block store, gives a
slice with room for at least `n` values, all of which read as 0, and leaves every other live slice
alone. -/
theorem C11_alloc_zero_bitslice {w : Nat} (hw : validWidth w) {cap : Nat} {s : Store BitBlock}
    (hs : BitBlockStore.new cap = .ok s) {c : Spec.Client BitBlock} {a : Spec.Heap BitBlock}
    (h : Spec.Reached s c a) (n : Nat) (hn : 0 < n)
    (hfit : c.store.len + (n + 255) / 256 * w + c.store.elemAlign < u32Max) :
    ∃ r s' bs, BitBlockStore.allocZeroBitslice w c.store n = .ok (r, s') ∧
      Store.readSlice s' r = .ok bs ∧ bs.length = (n + 255) / 256 * w ∧ n ≤ Spec.slots w bs ∧
      (∀ v, v < n → BitSlice.getValue w bs v = .ok 0#8) ∧
      ∀ h' r' l, c.live h' = some r' → a.live h' = some l → h' ≠ c.next →
        Store.readSlice s' r' = .ok l := by
  have hk := BitBlock.blocksRequiredFor_eq n
  have hw0 : 0 < w := by rcases hw with rfl | rfl | rfl | rfl <;> omega
  have hpos : 0 < BitBlock.blocksRequiredFor n * w := Nat.mul_pos (by omega) hw0
  obtain ⟨⟨r, s1⟩, hp⟩ := (C11_alloc_succeeds hs h (BitBlock.blocksRequiredFor n * w)
    BitBlock.zeros).2 hpos (by rw [hk]; exact hfit)
  obtain ⟨_, _, h3, h4⟩ := C11_alloc hs (by decide) h _ _ _ _ hp
  have hroom : n ≤ (n + 255) / 256 * w * (256 / w) := by
    rw [Nat.mul_assoc, Nat.mul_div_cancel' (by rcases hw with rfl | rfl | rfl | rfl <;> decide)]
    omega
  refine ⟨r, s1, _, ?_, h3, by rw [List.length_replicate, hk], ?_, ?_, ?_⟩
  · unfold BitBlockStore.allocZeroBitslice BitBlockStore.allocZeroBlocks
    rw [if_pos (by rw [hk]; omega)]
    exact hp
  · rw [slots_def, List.length_replicate, hk]; exact hroom
  · intro v hv
    obtain ⟨x, e1, e2⟩ := BitSlice.getValue_spec hw
      (List.replicate (BitBlock.blocksRequiredFor n * w) BitBlock.zeros) v
      (by rw [List.length_replicate, hk]; omega)
    rw [e1]
    congr 1
    apply BitVec.eq_of_getLsbD_eq
    intro k _
    rw [e2]
    unfold Blocks.bit
    simp only [List.getD_eq_getElem?_getD, List.getElem?_replicate]
    split <;> simp [BitBlock.zeros]
  · intro h' r' l g1 g2 g3
    exact (h4 h' r' l g1 g2 g3).2

/-! ## C16 -/

/-- C16: `copy_block_from(other, from, dest)` succeeds for block numbers in range; it makes the 32
values of block `dest` equal to those of block `from` of the source and changes nothing else. -/
theorem C16_copy_block {w : Nat} (hw : validWidth w) (slice other : Blocks) (from_ dest : Nat)
    (hf : 32 * from_ + 31 < Spec.slots w other) (ht : 32 * dest + 31 < Spec.slots w slice) :
    ∃ slice', BitSlice.copyBlockFrom w slice other from_ dest = .ok slice' ∧
      slice'.length = slice.length ∧
      (∀ b, b < 32 →
        BitSlice.getValue w slice' (32 * dest + b) = BitSlice.getValue w other (32 * from_ + b)) ∧
      ∀ v, v / 32 ≠ dest → BitSlice.getValue w slice' v = BitSlice.getValue w slice v := by
  rw [slots_def] at hf ht
  obtain ⟨s', h1, h2, h3, h4⟩ := BitSlice.copyLoop_spec hw other from_ dest
    ((BitSlice.block_slots hw other).mpr hf) w 0 slice (by omega)
    ((BitSlice.block_slots hw slice).mpr ht)
  refine ⟨s', h1, h2, ?_, ?_⟩
  · intro b hb
    obtain ⟨y, e1, e2⟩ := BitSlice.getValue_spec hw s' (32 * dest + b) (by rw [h2]; omega)
    obtain ⟨z, e3, e4⟩ := BitSlice.getValue_spec hw other (32 * from_ + b) (by omega)
    rw [e1, e3]
    refine congrArg Out.ok (BitVec.eq_of_getLsbD_eq fun k hk => ?_)
    rw [e2, e4]
    by_cases hkw : k < w
    · rw [h3 k b (by omega) hkw hb]
    · simp [hkw]
  · intro v hv
    by_cases hv' : v < slice.length * (256 / w)
    · obtain ⟨y, e1, e2⟩ := BitSlice.getValue_spec hw s' v (by rw [h2]; exact hv')
      obtain ⟨z, e3, e4⟩ := BitSlice.getValue_spec hw slice v hv'
      rw [e1, e3]
      refine congrArg Out.ok (BitVec.eq_of_getLsbD_eq fun k hk => ?_)
      rw [e2, e4]
      by_cases hkw : k < w
      · rw [h4 _ ((BitSlice.fpos_lt hw hkw _).mpr hv')]
        intro j b _ hj hb he
        have := (BitSlice.fpos_inj hw hkw hj he).1
        omega
      · simp [hkw]
    · rw [BitSlice.getValue_panic hw s' v (by rw [h2]; exact hv'),
        BitSlice.getValue_panic hw slice v hv']

example : validWidth 2 ∧ 32 * 3 + 31 < Spec.slots 2 [7#256] ∧ 32 * 5 + 31 < Spec.slots 2 [7#256, 0#256] := by
  refine ⟨by unfold validWidth; omega, by decide, by decide⟩

/-! ## C17 -/

/-- C17: `sum_masked(b, mask)` is the sum of the values of block `b` whose bit in `mask` is 1. -/
theorem C17_sum_masked {w : Nat} (hw : validWidth w) (slice : Blocks) (b : Nat) (mask : BitVec 32)
    (hb : 32 * b + 31 < Spec.slots w slice) :
    BitSlice.sumMasked w slice b mask =
      .ok (∑ t ∈ range 32, if mask.getLsbD t then Spec.valueAt w slice (32 * b + t) else 0) := by
  rw [slots_def] at hb
  have hb' := (BitSlice.block_slots hw slice).mpr hb
  unfold BitSlice.sumMasked BitSlice.sumMaskedUnsafe
  rw [if_pos hb', BitSlice.sumLoop_spec hw slice b mask hb' w 0 0 (by omega)]
  refine congrArg Out.ok ?_
  rw [Nat.zero_add, Nat.Ico_zero_eq_range]
  simp only [Finset.mul_sum]
  rw [Finset.sum_comm]
  apply Finset.sum_congr rfl
  intro t ht
  have ht' := mem_range.mp ht
  rw [BitSlice.valueAt_eq hw slice (32 * b + t) (by omega)]
  cases hm : mask.getLsbD t <;> simp

/-- C17: out-of-range blocks are rejected. -/
theorem C17_sum_masked_range {w : Nat} (hw : validWidth w) (slice : Blocks) (b : Nat)
    (mask : BitVec 32) (hb : Spec.slots w slice ≤ 32 * b) :
    BitSlice.sumMasked w slice b mask = .panic := by
  unfold BitSlice.sumMasked
  rw [if_neg]
  rw [BitSlice.block_slots hw slice]
  rw [slots_def] at hb
  omega

example : validWidth 8 ∧ 32 * 1 + 31 < Spec.slots 8 [7#256, 3#256] := by
  refine ⟨by unfold validWidth; omega, by decide⟩

/-! ## C18 and the vectorised part of C06 -/

/-- Number of positions of a vector with a property. -/
def countPos (v : Blocks) (p : Nat → Bool) : Nat :=
  ((range (256 * v.length)).filter fun i => p i = true).card

theorem count_exact {n : Nat} (hn : n < 2 ^ 48) (load : Nat → Out (BitVec 256)) (sel : Nat → Bool)
    (h : ∀ j, j < n → ∃ x, load j = .ok x ∧ ∀ p, p < 256 → x.getLsbD p = sel (256 * j + p)) :
    ∃ r, Simd.hs64 load n Simd.weights1 = .ok r ∧
      r.toNat = ((range (n * 256)).filter fun i => sel i = true).card := by
  refine ⟨_, Simd.count_shape n load sel h, ?_⟩
  rw [BitVec.toNat_ofNat, Nat.mod_eq_of_lt (Simd.count_lt n hn sel), Simd.card_filter_eq]

/-- C18 (and C17/C06): `count_ones_and` of any two masks (also of different lengths) is the number
of positions at which both read 1. -/
theorem C18_count_ones_and (v1 v2 : Blocks) (hn : v1.length < 2 ^ 48) :
    ∃ r, Simd.countOnesAnd v1 v2 = .ok r ∧
      r.toNat = countPos v1 fun i => Spec.bitAt v1 i && Spec.bitAt v2 i := by
  obtain ⟨r, h1, h2⟩ := count_exact (n := min v1.length v2.length) (by omega) (Simd.loadAnd v1 v2)
    (fun i => Blocks.bit v1 i && Blocks.bit v2 i)
    (fun j hj => Simd.loadAnd_spec v1 v2 j (by omega) (by omega))
  refine ⟨r, h1, ?_⟩
  rw [h2]
  unfold countPos
  refine congrArg Finset.card ?_
  ext i
  simp only [mem_filter, mem_range, BitSlice.bitAt_eq, Bool.and_eq_true]
  constructor
  · rintro ⟨a, b⟩
    refine ⟨?_, b⟩
    clear h1 h2
    omega
  · rintro ⟨a, b, c⟩
    refine ⟨?_, b, c⟩
    have hc := Blocks.lt_of_bit c
    rw [Nat.mul_comm] at a
    rcases Nat.le_total v1.length v2.length with h | h
    · rw [Nat.min_eq_left h]; exact a
    · rw [Nat.min_eq_right h]; exact hc

/-- C06, vectorised counter: counting a vector against itself is the number of its set bits, with
no lane overflow for any vector below `2^48` blocks (`2^53` bytes). -/
theorem C06_vectorised_count (v : Blocks) (hn : v.length < 2 ^ 48) :
    ∃ r, Simd.countOnesAnd v v = .ok r ∧ r.toNat = countPos v fun i => Spec.bitAt v i := by
  obtain ⟨r, h1, h2⟩ := C18_count_ones_and v v hn
  refine ⟨r, h1, ?_⟩
  rw [h2]
  simp

/-- C18, the other implementation (`count_and2_c00`), for operands of equal length. -/
theorem C18_count_and2_c00 (v1 v2 : Blocks) (hn : v1.length < 2 ^ 48)
    (hl : v1.length ≤ v2.length) :
    ∃ r, CountSum.countAnd2C00 v1 v2 = .ok r ∧
      r.toNat = countPos v1 fun i => Spec.bitAt v1 i && Spec.bitAt v2 i := by
  obtain ⟨r, h1, h2⟩ := count_exact hn (Simd.loadAnd v1 v2)
    (fun i => Blocks.bit v1 i && Blocks.bit v2 i)
    (fun j hj => Simd.loadAnd_spec v1 v2 j hj (by omega))
  refine ⟨r, h1, ?_⟩
  rw [h2]
  unfold countPos
  simp only [BitSlice.bitAt_eq, Nat.mul_comm]

/-- Every entry of an index vector is a valid `u32`-word number of `base`. -/
def IndicesInRange (indices base : Blocks) : Prop :=
  ∀ k, k < 8 * indices.length → Spec.indexAt indices k < 8 * base.length

theorem idxOk_of {idxs base : Blocks} (h : IndicesInRange idxs base) (hb : base.length ≤ 2 ^ 28) :
    Simd.IdxOk idxs base := by
  intro k hk
  unfold Blocks.blockLen at hk ⊢
  have := h k (by omega)
  unfold Spec.indexAt at this
  constructor <;> omega

theorem allIndices_of {idxs base : Blocks} (h : IndicesInRange idxs base) :
    Simd.allIndicesBelow idxs (Blocks.blockLen 32 base) = true := by
  rw [Simd.allIndicesBelow_iff]
  intro k hk
  unfold Blocks.blockLen at hk ⊢
  have := h k (by omega)
  unfold Spec.indexAt at this
  omega

theorem count_compr_card {v1 indices full v2 : Blocks} (h : Spec.Compresses v1 indices full) :
    ((range (v1.length * 256)).filter fun i =>
      (Blocks.bit v1 i && Blocks.bit v2 (Spec.exampleAt indices i)) = true).card =
    countPos full fun i => Spec.bitAt full i && Spec.bitAt v2 i := by
  have hs := compress_sum h (fun e => (Blocks.bit v2 e).toNat)
  unfold countPos
  rw [Simd.card_filter_eq, Simd.card_filter_eq]
  simp only [BitSlice.bitAt_eq, Simd.bool_toNat_and, Nat.mul_comm 256]
  exact hs

/-- C18, one compressed operand: if `v1` with `indices` is a compressed form of the mask `full`, and
all index entries are in range of `v2` (the padding entries included), then
`v1.count_ones_and_compr(indices, v2)` is the number of positions set in both `full` and `v2`. -/
theorem C18_count_ones_and_compr {v1 indices full : Blocks} (v2 : Blocks)
    (h : Spec.Compresses v1 indices full) (hi : IndicesInRange indices v2)
    (hn : v1.length < 2 ^ 48) (hb : v2.length ≤ 2 ^ 28) :
    ∃ r, Simd.countOnesAndCompr v1 indices v2 = .ok r ∧
      r.toNat = countPos full fun i => Spec.bitAt full i && Spec.bitAt v2 i := by
  have hl := CountSum.len_eq_of_compresses h
  obtain ⟨r, h1, h2⟩ := count_exact (n := min v1.length indices.length) (by omega)
    (Simd.loadAndC v1 indices v2)
    (fun i => Blocks.bit v1 i && Blocks.bit v2 (Spec.exampleAt indices i))
    (fun j hj => Simd.loadAndC_spec v1 indices v2 j (by omega) (by omega) (idxOk_of hi hb))
  refine ⟨r, ?_, ?_⟩
  · unfold Simd.countOnesAndCompr
    rw [allIndices_of hi, Out.assert_true, Out.ok_bind]
    exact h1
  · rw [h2, ← count_compr_card h, ← hl, Nat.min_self]

/-- C18: the same for `count_and2_c10`. -/
theorem C18_count_and2_c10 {v1 indices full : Blocks} (v2 : Blocks)
    (h : Spec.Compresses v1 indices full) (hi : IndicesInRange indices v2)
    (hn : v1.length < 2 ^ 48) (hb : v2.length ≤ 2 ^ 28) :
    ∃ r, CountSum.countAnd2C10 indices v1 v2 = .ok r ∧
      r.toNat = countPos full fun i => Spec.bitAt full i && Spec.bitAt v2 i := by
  have hl := CountSum.len_eq_of_compresses h
  obtain ⟨r, h1, h2⟩ := count_exact hn (Simd.loadAndC v1 indices v2)
    (fun i => Blocks.bit v1 i && Blocks.bit v2 (Spec.exampleAt indices i))
    (fun j hj => Simd.loadAndC_spec v1 indices v2 j hj (by omega) (idxOk_of hi hb))
  exact ⟨r, h1, by rw [h2, ← count_compr_card h]⟩

/-! ## C19, C20, C21 -/

/-- The sum of the stored values over the positions selected by `sel`. -/
def sumOver (w : Nat) (slice : Blocks) (sel : Nat → Bool) : Nat :=
  ∑ v ∈ range (Spec.slots w slice), if sel v then Spec.valueAt w slice v else 0

theorem sumOver_eq (w : Nat) (slice : Blocks) (sel : Nat → Bool) :
    ∑ v ∈ range (Spec.slots w slice), Spec.valueAt w slice v * (sel v).toNat =
      sumOver w slice sel := by
  unfold sumOver
  apply Finset.sum_congr rfl
  intro v _
  cases sel v <;> simp

/-- Slices short enough for the accumulators: below `2^48` blocks, and below `2^27` blocks (`2^32`
values) at width 8, where the lane counters have 32 bits. See `C19_w8_overflow`. -/
def FitsAccumulators (w : Nat) (slice : Blocks) : Prop :=
  slice.length < 2 ^ 48 ∧ (w = 8 → slice.length < 2 ^ 27)

theorem sum_toNat {w : Nat} (slice : Blocks) (h : slice.length < 2 ^ 48) (sel : Nat → Bool) :
    (BitVec.ofNat 64 (∑ v ∈ range (Spec.slots w slice),
      Spec.valueAt w slice v * (sel v).toNat)).toNat = sumOver w slice sel := by
  rw [BitVec.toNat_ofNat, Nat.mod_eq_of_lt (Simd.masked_lt slice h sel), sumOver_eq]

/-- C19 (and C17 for two masks): `sum_all_masked2` of an uncompressed slice and two masks of
matching lengths is the sum of the stored values over exactly the positions set in both masks. -/
theorem C19_sum_all_masked2 {w : Nat} (hw : validWidth w) (slice m1 m2 : Blocks)
    (h1 : slice.length = m1.length * w) (h2 : slice.length = m2.length * w)
    (hf : FitsAccumulators w slice) :
    ∃ r, Simd.sumAllMasked2 w slice m1 m2 = .ok r ∧
      r.toNat = sumOver w slice fun v => Spec.bitAt m1 v && Spec.bitAt m2 v := by
  refine ⟨_, ?_, sum_toNat slice hf.1 _⟩
  unfold Simd.sumAllMasked2
  rw [beq_iff_eq.mpr h1, Out.assert_true, Out.ok_bind, beq_iff_eq.mpr h2, Out.assert_true,
    Out.ok_bind, (Simd.kernel_uc hw slice m1 m2 hf.2 (by omega) (by omega)).1]
  simp only [BitSlice.bitAt_eq]

/-- C19: masks of other lengths are rejected. -/
theorem C19_length_checked {w : Nat} (slice m1 m2 : Blocks)
    (h : slice.length ≠ m1.length * w ∨ slice.length ≠ m2.length * w) :
    Simd.sumAllMasked2 w slice m1 m2 = .panic := by
  unfold Simd.sumAllMasked2
  by_cases h1 : slice.length = m1.length * w
  · have h2 : slice.length ≠ m2.length * w := by rcases h with h | h; exact absurd h1 h; exact h
    rw [beq_iff_eq.mpr h1, Out.assert_true, Out.ok_bind, beq_eq_false_iff_ne.mpr h2]; rfl
  · rw [beq_eq_false_iff_ne.mpr h1]; rfl

/-- C21: the `count_and_sum` implementation `sum_and3_w{1,2,4,8}_c00` returns the same exact sum. -/
theorem C21_sum_and3_c00 {w : Nat} (hw : validWidth w) (slice m1 m2 : Blocks)
    (h1 : slice.length ≤ m1.length * w) (h2 : slice.length ≤ m2.length * w)
    (hf : FitsAccumulators w slice) :
    ∃ r, CountSum.sumAnd3C00 w slice m1 m2 = .ok r ∧
      r.toNat = sumOver w slice fun v => Spec.bitAt m1 v && Spec.bitAt m2 v := by
  refine ⟨_, ?_, sum_toNat slice hf.1 _⟩
  rw [(Simd.kernel_uc hw slice m1 m2 hf.2 h1 h2).2]
  simp only [BitSlice.bitAt_eq]

/-- C20: `sum_all_masked2_compr`. Position `v` of the compressed slice stands for example
`exampleAt indices v`; the result is the sum over the positions whose own mask bit is set and whose
example is in the (uncompressed) feature mask. -/
theorem C20_sum_all_masked2_compr {w : Nat} (hw : validWidth w) (slice indices m1 m2 : Blocks)
    (h0 : slice.length = indices.length * w) (h1 : slice.length = m1.length * w)
    (hi : IndicesInRange indices m2) (hb : m2.length ≤ 2 ^ 28) (hf : FitsAccumulators w slice) :
    ∃ r, Simd.sumAllMasked2Compr w slice indices m1 m2 = .ok r ∧
      r.toNat = sumOver w slice fun v =>
        Spec.bitAt m1 v && Spec.bitAt m2 (Spec.exampleAt indices v) := by
  refine ⟨_, ?_, sum_toNat slice hf.1 _⟩
  unfold Simd.sumAllMasked2Compr
  simp only []
  rw [beq_iff_eq.mpr h0, Out.assert_true, Out.ok_bind, beq_iff_eq.mpr h1, Out.assert_true,
    Out.ok_bind, allIndices_of hi, Out.assert_true, Out.ok_bind,
    (Simd.kernel_c hw slice indices m1 m2 hf.2 (by omega) (by omega) (idxOk_of hi hb)).1]
  simp only [BitSlice.bitAt_eq]

/-- C21: the same for `sum_and3_w{1,2,4,8}_c10`. -/
theorem C21_sum_and3_c10 {w : Nat} (hw : validWidth w) (slice indices m1 m2 : Blocks)
    (h0 : slice.length ≤ indices.length * w) (h1 : slice.length ≤ m1.length * w)
    (hi : IndicesInRange indices m2) (hb : m2.length ≤ 2 ^ 28) (hf : FitsAccumulators w slice) :
    ∃ r, CountSum.sumAnd3C10 w slice indices m1 m2 = .ok r ∧
      r.toNat = sumOver w slice fun v =>
        Spec.bitAt m1 v && Spec.bitAt m2 (Spec.exampleAt indices v) := by
  refine ⟨_, ?_, sum_toNat slice hf.1 _⟩
  rw [(Simd.kernel_c hw slice indices m1 m2 hf.2 h1 h0 (idxOk_of hi hb)).2]
  simp only [BitSlice.bitAt_eq]

theorem sumOver_masked {w : Nat} (hw : validWidth w) (slice m : Blocks)
    (h : slice.length = m.length * w) (sel : Nat → Bool) :
    sumOver w slice (fun v => Spec.bitAt m v && sel v) =
      ∑ v ∈ range (m.length * 256), (Blocks.bit m v).toNat *
        (Spec.valueAt w slice v * (sel v).toNat) := by
  have hs : Spec.slots w slice = m.length * 256 := by
    unfold Spec.slots
    rw [h]
    rcases hw with rfl | rfl | rfl | rfl <;> omega
  unfold sumOver
  rw [hs]
  apply Finset.sum_congr rfl
  intro v _
  simp only [BitSlice.bitAt_eq]
  cases Blocks.bit m v <;> cases sel v <;> simp

/-- C20 in terms of the uncompressed node: if mask `m1` with `indices` is a compressed form of the
node mask `full`, and position `v` of the compressed slice holds the value that example
`exampleAt indices v` has in the uncompressed slice `fullSlice` (for the examples in the node), then
the compressed sum equals the uncompressed sum over `full` and the feature mask. -/
theorem C20_equals_uncompressed {w : Nat} (hw : validWidth w)
    {slice indices m1 m2 full fullSlice : Blocks}
    (hc : Spec.Compresses m1 indices full)
    (hv : ∀ v, Spec.bitAt m1 v = true →
      Spec.valueAt w slice v = Spec.valueAt w fullSlice (Spec.exampleAt indices v))
    (h1 : slice.length = m1.length * w) (h2 : fullSlice.length = full.length * w)
    (hi : IndicesInRange indices m2) (hb : m2.length ≤ 2 ^ 28) (hf : FitsAccumulators w slice) :
    ∃ r, Simd.sumAllMasked2Compr w slice indices m1 m2 = .ok r ∧
      r.toNat = sumOver w fullSlice fun e => Spec.bitAt full e && Spec.bitAt m2 e := by
  have hl := CountSum.len_eq_of_compresses hc
  obtain ⟨r, e1, e2⟩ := C20_sum_all_masked2_compr hw slice indices m1 m2 (by rw [← hl]; exact h1) h1
    hi hb hf
  refine ⟨r, e1, ?_⟩
  rw [e2, sumOver_masked hw slice m1 h1, sumOver_masked hw fullSlice full h2,
    ← compress_sum hc (fun e => Spec.valueAt w fullSlice e * (Spec.bitAt m2 e).toNat)]
  apply Finset.sum_congr rfl
  intro v _
  by_cases hb : Blocks.bit m1 v = true
  · rw [hv v (by rw [BitSlice.bitAt_eq]; exact hb)]
  · simp [hb]

/-! ### The width-8 accumulators do overflow -/

theorem bit_replicate (n i : Nat) (h : i < n * 256) :
    Blocks.bit (List.replicate n (BitVec.allOnes 256)) i = true := by
  have hi : i / 256 < n := by omega
  have e : i % 256 < 256 := Nat.mod_lt _ (by omega)
  unfold Blocks.bit
  rw [List.getD_eq_getElem?_getD, List.getElem?_replicate, if_pos hi, Option.getD_some,
    BitVec.getLsbD_allOnes]
  simp [e]

theorem valueAt_replicate (n v : Nat) (h : v < n * 32) :
    Spec.valueAt 8 (List.replicate n (BitVec.allOnes 256)) v = 255 := by
  have hw : validWidth 8 := by unfold validWidth; omega
  rw [BitSlice.valueAt_eq hw _ v (by rw [List.length_replicate]; omega)]
  have : ∀ k ∈ range 8, 2 ^ k * (Blocks.bit (List.replicate n (BitVec.allOnes 256))
      (BitSlice.fpos 8 v k)).toNat = 2 ^ k := by
    intro k hk
    have hk' := mem_range.mp hk
    rw [bit_replicate _ _ ((BitSlice.fpos_lt hw hk' n).mpr h)]
    simp
  rw [Finset.sum_congr rfl this]
  decide

/-- The bound `2^27` in `C19`/`C20`/`C21` at width 8 is sharp, and the code does not check it: with
`2^27` blocks of all-one values (4 GiB, `2^32` values of 255) and all-one masks, the eight 32-bit
lane counters wrap to 0 and `sum_all_masked2` returns 0; the exact sum is `255 * 2^32`. -/
theorem C19_w8_overflow :
    let slice : Blocks := List.replicate (2 ^ 27) (BitVec.allOnes 256)
    let mask : Blocks := List.replicate (2 ^ 24) (BitVec.allOnes 256)
    Simd.sumAllMasked2 8 slice mask mask = .ok 0#64 ∧
      sumOver 8 slice (fun v => Spec.bitAt mask v && Spec.bitAt mask v) = 255 * 2 ^ 32 := by
  intro slice mask
  have hw : validWidth 8 := by unfold validWidth; omega
  have l1 : slice.length = 2 ^ 27 := List.length_replicate
  have l2 : mask.length = 2 ^ 24 := List.length_replicate
  have hslots : Spec.slots 8 slice = 2 ^ 32 := by unfold Spec.slots; rw [l1]; norm_num
  constructor
  · have h1 : slice.length = mask.length * 8 := by omega
    unfold Simd.sumAllMasked2 Simd.btslceSummUc
    rw [beq_iff_eq.mpr h1, Out.assert_true, Out.ok_bind, Out.ok_bind,
      if_neg (by omega), if_neg (by omega), if_pos rfl]
    have hload : ∀ j, j < slice.length →
        Simd.loadW8uc slice mask mask j = .ok (BitVec.allOnes 256) := by
      intro j hj
      obtain ⟨x, e1, e2⟩ := Simd.loadUc_spec hw slice mask mask j hj (by omega) (by omega)
      have e1' : Simd.loadW8uc slice mask mask j = .ok x := e1
      rw [e1']
      refine congrArg Out.ok (BitVec.eq_of_getLsbD_eq fun p hp => ?_)
      have := e2 (p / 32) (by omega) (p % 32) (by omega)
      have ep : 256 / 8 * (p / 32) + p % 32 = p := by omega
      rw [ep] at this
      rw [this, bit_replicate _ _ (by omega), bit_replicate _ _ (by omega),
        BitVec.getLsbD_allOnes, decide_eq_true hp]
      rfl
    obtain ⟨t, h3, h4⟩ := Simd.harleySeal_spec (lw := 32) (alw := 64) (by omega) (by omega)
      (Or.inr ⟨rfl, rfl, by omega⟩) (d := fun _ => BitVec.allOnes 256) hload
    unfold Simd.hs32Simd
    rw [h3, Out.ok_bind, Out.pure_eq, Simd.reduce32_spec _ t _ h4]
    have hz : ∀ lane, lane < 8 →
        (∑ j ∈ range slice.length, Simd.P 32 lane (BitVec.allOnes 256)) % 2 ^ 32 = 0 := by
      intro lane hlane
      have hP : Simd.P 32 lane (BitVec.allOnes 256) = 32 := by
        unfold Simd.P
        rw [BitBlock.popcount_word]
        have : ∀ k ∈ range 32, ((BitVec.allOnes 256).getLsbD (32 * lane + k)).toNat = 1 := by
          intro k hk
          have hk' := mem_range.mp hk
          rw [BitVec.getLsbD_allOnes, decide_eq_true (by omega)]
          rfl
        rw [Finset.sum_congr rfl this]
        simp
      rw [hP, Finset.sum_const, card_range, l1]
      decide
    refine congrArg Out.ok ?_
    have : ∑ lane ∈ range 8, Simd.weights8.getD lane 0 *
        ((∑ j ∈ range slice.length, Simd.P 32 lane (BitVec.allOnes 256)) % 2 ^ 32) = 0 := by
      apply Finset.sum_eq_zero
      intro lane hlane
      rw [hz lane (mem_range.mp hlane), Nat.mul_zero]
    rw [this]
  · unfold sumOver
    rw [hslots]
    have : ∀ v ∈ range (2 ^ 32),
        (if (fun v => Spec.bitAt mask v && Spec.bitAt mask v) v = true
          then Spec.valueAt 8 slice v else 0) = 255 := by
      intro v hv
      have hv' := mem_range.mp hv
      simp only [BitSlice.bitAt_eq]
      rw [bit_replicate _ _ (by omega), valueAt_replicate _ _ (by omega)]
      simp
    rw [Finset.sum_congr rfl this, Finset.sum_const, card_range]
    rfl

/-! ## C22 -/

/-- C22, counting: the merge join of two compressed masks counts exactly the positions set in both
represented masks. -/
theorem C22_count_and2_c11 {idxs1 b1 full1 idxs2 b2 full2 : Blocks}
    (h1 : Spec.Compresses b1 idxs1 full1) (h2 : Spec.Compresses b2 idxs2 full2)
    (hn : full1.length < 2 ^ 48) :
    ∃ r, CountSum.countAnd2C11 idxs1 b1 idxs2 b2 = .ok r ∧
      r.toNat = countPos full1 fun i => Spec.bitAt full1 i && Spec.bitAt full2 i := by
  obtain ⟨c1, s1⟩ := CountSum.sorted_of_compresses h1
  obtain ⟨c2, s2⟩ := CountSum.sorted_of_compresses h2
  have hk := CountSum.c11_spec (slice := none) (width := 1) s1 s2 (by intro w sl hh; cases hh)
  refine ⟨_, hk, ?_⟩
  rw [Finset.sum_range_one, Nat.pow_zero, Nat.one_mul,
    CountSum.pairs_eq none 0 h2 (fun _ => true) (fun _ _ _ => rfl)]
  have e : Blocks.blockLen 32 idxs1 * 32 = b1.length * 256 := by
    rw [← h1.len]; unfold Blocks.blockLen; omega
  have e2 : ∑ v ∈ range (Blocks.blockLen 32 idxs1 * 32), (true).toNat *
        (Blocks.bit b1 v && Blocks.bit full2 (Spec.exampleAt idxs1 v)).toNat =
      countPos full1 fun i => Spec.bitAt full1 i && Spec.bitAt full2 i := by
    rw [e, ← count_compr_card h1, Simd.card_filter_eq]
    simp
  rw [e2, BitVec.toNat_ofNat, Nat.mod_eq_of_lt]
  unfold countPos
  refine Nat.lt_of_le_of_lt (Finset.card_filter_le _ _) ?_
  rw [card_range]
  omega

/-- C22, summing: the merge join sums exactly the values of the positions of the first compressed
mask that are set there and whose example is set in the second represented mask. The slice holds
one value per position of the first compressed vector. -/
theorem C22_sum_and3_c11 {w : Nat} (hw : validWidth w) (slice : Blocks)
    {idxs1 b1 full1 idxs2 b2 full2 : Blocks}
    (h1 : Spec.Compresses b1 idxs1 full1) (h2 : Spec.Compresses b2 idxs2 full2)
    (hs : slice.length = b1.length * w) (hn : slice.length < 2 ^ 48) :
    ∃ r, CountSum.sumAnd3C11 w slice idxs1 b1 idxs2 b2 = .ok r ∧
      r.toNat = sumOver w slice fun v =>
        Spec.bitAt b1 v && Spec.bitAt full2 (Spec.exampleAt idxs1 v) := by
  obtain ⟨c1, s1⟩ := CountSum.sorted_of_compresses h1
  obtain ⟨c2, s2⟩ := CountSum.sorted_of_compresses h2
  have hlen := CountSum.len_eq_of_compresses h1
  have hk := CountSum.c11_spec (slice := some (w, slice)) (width := w) s1 s2 (by
    intro w' sl hh i lane hi hlane
    cases hh
    rw [BitSlice.lanePos_range hw slice hlane]
    unfold Blocks.blockLen at hi ⊢
    rw [hs]
    rw [hlen]
    rcases hw with rfl | rfl | rfl | rfl <;> omega)
  refine ⟨_, hk, ?_⟩
  have hslots : Spec.slots w slice = Blocks.blockLen 32 idxs1 * 32 := by
    unfold Spec.slots Blocks.blockLen
    rw [hs, hlen]
    rcases hw with rfl | rfl | rfl | rfl <;> omega
  have e : ∑ lane ∈ range w, 2 ^ lane *
        CountSum.pairs (some (w, slice)) idxs1 b1 idxs2 b2 lane 0 0 =
      ∑ v ∈ range (Spec.slots w slice), Spec.valueAt w slice v *
        (Blocks.bit b1 v && Blocks.bit full2 (Spec.exampleAt idxs1 v)).toNat := by
    have hp : ∀ lane ∈ range w, 2 ^ lane *
        CountSum.pairs (some (w, slice)) idxs1 b1 idxs2 b2 lane 0 0 =
        ∑ v ∈ range (Blocks.blockLen 32 idxs1 * 32),
          2 ^ lane * ((Blocks.bit slice (BitSlice.fpos w v lane)).toNat *
          (Blocks.bit b1 v && Blocks.bit full2 (Spec.exampleAt idxs1 v)).toNat) := by
      intro lane _
      rw [CountSum.pairs_eq (some (w, slice)) lane h2
        (fun v => Blocks.bit slice (BitSlice.fpos w v lane))
        (fun i t ht => by
          show Blocks.bit slice _ = Blocks.bit slice _
          rw [BitSlice.lanePos_mul hw _ _ _ ht]), Finset.mul_sum]
    rw [Finset.sum_congr rfl hp, Finset.sum_comm, hslots]
    apply Finset.sum_congr rfl
    intro v hv
    have hv' := mem_range.mp hv
    rw [BitSlice.valueAt_eq hw slice v (by rw [← slots_def, hslots]; exact hv'), Finset.sum_mul]
    apply Finset.sum_congr rfl
    intro k _
    rw [Nat.mul_assoc]
  rw [e]
  have := sum_toNat (w := w) slice hn
    (fun v => Blocks.bit b1 v && Blocks.bit full2 (Spec.exampleAt idxs1 v))
  rw [this]
  simp only [BitSlice.bitAt_eq]

/-! ## Non-vacuity -/

/-- C18 - C22 apply to the compressed mask of `compresses_example` (examples 64, 66, 288, 289, 290)
and a two-block feature mask; the index vector, padding included, is in range. -/
example : IndicesInRange [2#256 ||| (9#256 <<< 32)] [0#256, 1#256] := by
  intro k hk
  have h8 : k < 8 := hk
  revert k
  decide

/-- C18 at work: `count_ones_and_compr` on this mask and a feature mask containing only example 288
returns 1. -/
example : ∃ r, Simd.countOnesAndCompr [5#256 ||| (7#256 <<< 32)] [2#256 ||| (9#256 <<< 32)]
    [0#256, 1#256 <<< 32] = .ok r ∧ r.toNat = 1 := by
  obtain ⟨r, h1, h2⟩ := C18_count_ones_and_compr [0#256, 1#256 <<< 32] compresses_example (by
    intro k hk
    have h8 : k < 8 := hk
    revert k
    decide) (by decide) (by decide)
  refine ⟨r, h1, ?_⟩
  rw [h2]
  have : ∀ i, (Spec.bitAt [5#256 <<< 64, 7#256 <<< 32] i && Spec.bitAt [0#256, 1#256 <<< 32] i) =
      decide (i = 288) := by
    intro i
    rw [BitSlice.bitAt_eq, BitSlice.bitAt_eq]
    by_cases hi : i < 512
    · revert i
      decide +kernel
    · rw [Blocks.bit_of_ge _ (by simpa using Nat.not_lt.mp hi)]
      simp; omega
  unfold countPos
  simp only [this, decide_eq_true_eq]
  rw [Finset.filter_eq']
  simp

example : FitsAccumulators 8 [0#256, 3#256] ∧ FitsAccumulators 2 [0#256, 3#256] := by
  refine ⟨⟨by decide, fun _ => by decide⟩, ⟨by decide, fun _ => by decide⟩⟩

end BitBoost.Props
