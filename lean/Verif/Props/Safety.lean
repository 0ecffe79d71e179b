import Verif.Props.Slices
import Verif.Model.SliceStore
/-!
# Property C23: memory safety of the safe API

`Out.ub` is the outcome of a raw access outside the memory passed to the function (or of a read of
uninitialised memory). The property "no safe function has outcome `ub`, whatever its arguments" is
FALSE of the code: the `C23_..._refuted` theorems give the offending calls. For the other safe
functions it is proved for all arguments (`C23_..._partial`).
-/
namespace BitBoost.Props
open BitBoost

theorem safe_bind {α β : Type} {x : Out α} {f : α → Out β} (hx : x.safe)
    (hf : ∀ a, x = .ok a → (f a).safe) : (x >>= f).safe := by
  cases x with
  | ok a => exact hf a rfl
  | panic => trivial
  | ub => exact hx

theorem safe_assert {β : Type} {c : Bool} {f : Unit → Out β} (h : c = true → (f ()).safe) :
    (Out.assert c >>= f).safe := by
  cases c
  · trivial
  · exact h rfl

theorem safe_of_ok {α : Type} {x : Out α} (h : ∃ a, x = .ok a) : x.safe := by
  obtain ⟨a, rfl⟩ := h; trivial

theorem safe_ok {α : Type} (a : α) : (Out.ok a).safe := trivial

theorem hsStep_safe (lw alw : Nat) {load : Nat → Out (BitVec 256)} {i : Nat} (s : Simd.HS)
    (h : ∀ j, j < 16 → (load (i + j)).safe) : (Simd.hsStep lw alw load i s).safe := by
  unfold Simd.hsStep
  refine safe_bind (h 0 (by omega)) fun _ _ => ?_
  refine safe_bind (h 1 (by omega)) fun _ _ => ?_
  refine safe_bind (h 2 (by omega)) fun _ _ => ?_
  refine safe_bind (h 3 (by omega)) fun _ _ => ?_
  refine safe_bind (h 4 (by omega)) fun _ _ => ?_
  refine safe_bind (h 5 (by omega)) fun _ _ => ?_
  refine safe_bind (h 6 (by omega)) fun _ _ => ?_
  refine safe_bind (h 7 (by omega)) fun _ _ => ?_
  refine safe_bind (h 8 (by omega)) fun _ _ => ?_
  refine safe_bind (h 9 (by omega)) fun _ _ => ?_
  refine safe_bind (h 10 (by omega)) fun _ _ => ?_
  refine safe_bind (h 11 (by omega)) fun _ _ => ?_
  refine safe_bind (h 12 (by omega)) fun _ _ => ?_
  refine safe_bind (h 13 (by omega)) fun _ _ => ?_
  refine safe_bind (h 14 (by omega)) fun _ _ => ?_
  refine safe_bind (h 15 (by omega)) fun _ _ => ?_
  trivial

theorem hsLoop_safe (lw alw n : Nat) {load : Nat → Out (BitVec 256)} (h : ∀ j, j < n → (load j).safe) :
    ∀ (k i : Nat) (s : Simd.HS), n - i ≤ k → i % 16 = 0 → (Simd.hsLoop lw alw load n i s).safe := by
  intro k
  induction k with
  | zero =>
    intro i s hk _
    rw [Simd.hsLoop, dif_neg (by omega)]
    trivial
  | succ k ih =>
    intro i s hk hm
    rw [Simd.hsLoop]
    by_cases hi : i < n - n % 16
    · rw [dif_pos hi]
      refine safe_bind (hsStep_safe _ _ _ fun j hj => h _ (by omega)) fun s' _ => ?_
      exact ih (i + 16) s' (by omega) (by omega)
    · rw [dif_neg hi]; trivial

theorem tailLoop_safe (lw n : Nat) {load : Nat → Out (BitVec 256)} (h : ∀ j, j < n → (load j).safe) :
    ∀ (k i : Nat) (t : BitVec 256), n - i ≤ k → (Simd.tailLoop lw load n i t).safe := by
  intro k
  induction k with
  | zero =>
    intro i s hk
    rw [Simd.tailLoop, dif_neg (by omega)]
    trivial
  | succ k ih =>
    intro i s hk
    rw [Simd.tailLoop]
    by_cases hi : i < n
    · rw [dif_pos hi]
      exact safe_bind (h i hi) fun s' _ => ih (i + 1) _ (by omega)
    · rw [dif_neg hi]; trivial

theorem harleySeal_safe (lw alw n : Nat) {load : Nat → Out (BitVec 256)}
    (h : ∀ j, j < n → (load j).safe) : (Simd.harleySeal lw alw load n).safe := by
  unfold Simd.harleySeal
  exact safe_bind (hsLoop_safe lw alw n h n 0 _ (by omega) rfl) fun r _ =>
    tailLoop_safe lw n h n r.1 _ (by omega)

theorem hs64_safe (n : Nat) {load : Nat → Out (BitVec 256)} (ws : List Nat)
    (h : ∀ j, j < n → (load j).safe) : (Simd.hs64 load n ws).safe :=
  safe_bind (harleySeal_safe 64 64 n h) fun _ _ => trivial

theorem hs32Simd_safe (n : Nat) {load : Nat → Out (BitVec 256)} (ws : List Nat)
    (h : ∀ j, j < n → (load j).safe) : (Simd.hs32Simd load n ws).safe :=
  safe_bind (harleySeal_safe 32 64 n h) fun _ _ => trivial

/-! ## What is safe -/

/-- C23, single-bit, single-value and typed accessors: safe for all arguments. -/
theorem C23_accessors_partial (bs : Blocks) (w i : Nat) (v : Bool) (x : BitVec w) (y : BitVec 8)
    (m : BitVec 32) (lw : Nat) (hl : validWidth lw) :
    (Blocks.getBit bs i).safe ∧ (Blocks.setBit bs i v).safe ∧ (Blocks.enableBit bs i).safe ∧
    (Bitset.disableBit bs i).safe ∧ (Blocks.get w bs i).safe ∧ (Blocks.set w bs i x).safe ∧
    (BitSlice.getValue lw bs i).safe ∧ (BitSlice.setValue lw bs i y).safe ∧
    (BitSlice.sumMasked lw bs i m).safe := by
  refine ⟨?_, ?_, ?_, ?_, ?_, ?_, ?_, ?_, ?_⟩
  · rw [Blocks.getBit_eq]; split <;> trivial
  · by_cases h : i < bs.length * 256
    · obtain ⟨_, e, _⟩ := Blocks.setBit_eq bs i v h; rw [e]; trivial
    · rw [Blocks.setBit_panic bs i v h]; trivial
  · rw [Blocks.enableBit_eq_setBit]
    by_cases h : i < bs.length * 256
    · obtain ⟨_, e, _⟩ := Blocks.setBit_eq bs i true h; rw [e]; trivial
    · rw [Blocks.setBit_panic bs i true h]; trivial
  · unfold Bitset.disableBit
    split
    · refine safe_bind ?_ fun _ _ => trivial
      unfold BitBlock.enableBit
      split
      · trivial
      · trivial
    · trivial
  · unfold Blocks.get; split <;> trivial
  · unfold Blocks.set; split <;> trivial
  · by_cases h : i < bs.length * (256 / lw)
    · obtain ⟨_, e, _⟩ := BitSlice.getValue_spec hl bs i h; rw [e]; trivial
    · rw [BitSlice.getValue_panic hl bs i h]; trivial
  · by_cases h : i < bs.length * (256 / lw)
    · obtain ⟨_, e, _⟩ := BitSlice.setValue_spec hl bs i y h; rw [e]; trivial
    · rw [BitSlice.setValue_panic hl bs i y h]; trivial
  · unfold BitSlice.sumMasked
    split
    · rename_i h
      unfold BitSlice.sumMaskedUnsafe
      rw [BitSlice.sumLoop_spec hl bs i m h lw 0 0 (by omega)]; trivial
    · trivial

/-- C23, uncompressed counting and summing: safe for all arguments, without any size limit. -/
theorem C23_kernels_partial (v1 v2 slice m1 m2 : Blocks) {w : Nat} (hw : validWidth w) :
    (Simd.countOnesAnd v1 v2).safe ∧ (Simd.sumAllMasked2 w slice m1 m2).safe := by
  constructor
  · refine hs64_safe _ _ fun j hj => ?_
    obtain ⟨x, e, _⟩ := Simd.loadAnd_spec v1 v2 j (by omega) (by omega)
    rw [e]; trivial
  · unfold Simd.sumAllMasked2
    refine safe_assert fun h1 => safe_assert fun h2 => ?_
    have h1' := beq_iff_eq.mp h1
    have h2' := beq_iff_eq.mp h2
    unfold Simd.btslceSummUc
    rw [Simd.uc_unfold]
    have hl : ∀ j, j < slice.length → (Simd.loadUc w slice m1 m2 j).safe := fun j hj => by
      obtain ⟨x, e, _⟩ := Simd.loadUc_spec hw slice m1 m2 j hj (by omega) (by omega)
      rw [e]; trivial
    split
    · exact hs64_safe _ _ hl
    · split
      · exact hs64_safe _ _ hl
      · split
        · exact hs32Simd_safe _ _ hl
        · exact hs64_safe _ _ hl

/-- C23, compressed counting and summing: safe for all arguments, as long as the feature mask has
at most `2^28` blocks (`2^31` words; see `C23_gather_refuted` for what happens above). -/
theorem C23_compressed_kernels_partial (v1 indices v2 slice m1 : Blocks) {w : Nat}
    (hw : validWidth w) (hb : v2.length ≤ 2 ^ 28) :
    (Simd.countOnesAndCompr v1 indices v2).safe ∧
    (Simd.sumAllMasked2Compr w slice indices m1 v2).safe := by
  have key : Simd.allIndicesBelow indices (Blocks.blockLen 32 v2) = true →
      Simd.IdxOk indices v2 := by
    intro h k hk
    have := (Simd.allIndicesBelow_iff _ _).mp h k hk
    refine ⟨this, ?_⟩
    unfold Blocks.blockLen at this
    omega
  constructor
  · unfold Simd.countOnesAndCompr
    refine safe_assert fun h1 => ?_
    refine hs64_safe _ _ fun j hj => ?_
    obtain ⟨x, e, _⟩ := Simd.loadAndC_spec v1 indices v2 j (by omega) (by omega) (key h1)
    rw [e]; trivial
  · unfold Simd.sumAllMasked2Compr
    simp only []
    refine safe_assert fun h1 => safe_assert fun h2 => safe_assert fun h3 => ?_
    have h1' := beq_iff_eq.mp h1
    have h2' := beq_iff_eq.mp h2
    unfold Simd.btslceSummC
    rw [Simd.c_unfold]
    have hl : ∀ j, j < slice.length → (Simd.loadC w slice indices m1 v2 j).safe := fun j hj => by
      obtain ⟨x, e, _⟩ := Simd.loadC_spec hw slice indices m1 v2 j hj (by omega) (by omega) (key h3)
      rw [e]; trivial
    split
    · exact hs64_safe _ _ hl
    · split
      · exact hs64_safe _ _ hl
      · split
        · exact hs32Simd_safe _ _ hl
        · exact hs64_safe _ _ hl

theorem next_safe {w : Nat} (it : IndexIter w) (hn : it.n ≤ Blocks.blockLen w it.bitvec)
    (hi : ∀ i, i < it.n → (it.indexF i).safe)
    (hm : ∀ i j, i < it.n → it.indexF i = .ok j → (it.maskF j).safe) :
    ∀ (k : Nat) (s : IndexIter.St w), it.n - s.i ≤ k → (it.next s).safe := by
  intro k
  induction k with
  | zero =>
    intro s hk
    rw [IndexIter.next]
    split
    · trivial
    · rw [dif_neg (by omega)]; trivial
  | succ k ih =>
    intro s hk
    rw [IndexIter.next]
    split
    · trivial
    · by_cases h : s.i < it.n
      · rw [dif_pos h]
        refine safe_bind (hi _ h) fun j hj => safe_bind ?_ fun m1 _ =>
          safe_bind (hm _ _ h hj) fun m2 _ => ?_
        · unfold Blocks.getUnchecked; rw [if_pos (by omega)]; trivial
        · exact ih _ (by simp; omega)
      · rw [dif_neg h]; trivial

theorem calls_safe {w : Nat} (it : IndexIter w) (hn : it.n ≤ Blocks.blockLen w it.bitvec)
    (hi : ∀ i, i < it.n → (it.indexF i).safe)
    (hm : ∀ i j, i < it.n → it.indexF i = .ok j → (it.maskF j).safe) :
    ∀ (k : Nat) (s : IndexIter.St w), (it.calls k s).safe := by
  intro k
  induction k with
  | zero => intro s; trivial
  | succ k ih =>
    intro s
    exact safe_bind (next_safe it hn hi hm _ s (Nat.le_refl _)) fun r _ =>
      safe_bind (ih _) fun _ _ => trivial

/-- Create an iterator and call `next` `k` times. -/
def iterCalls {w : Nat} (it : Out (IndexIter w × IndexIter.St w)) (k : Nat) :
    Out (List (Option Nat)) := do
  let p ← it
  p.1.calls k p.2

theorem new_calls_safe {w : Nat} (bs : Blocks) (mf : Nat → Out (BitVec w)) (xf : Nat → Out Nat)
    (f : BitVec w → BitVec w) (k : Nat) (hi : ∀ i, i < Blocks.blockLen w bs → (xf i).safe)
    (hm : ∀ i j, i < Blocks.blockLen w bs → xf i = .ok j → (mf j).safe) :
    (iterCalls (IndexIter.new bs mf xf f) k).safe := by
  unfold iterCalls
  unfold IndexIter.new
  simp only []
  split
  · exact calls_safe _ (Nat.le_refl _) hi hm _ _
  · trivial

/-- C23, iterators: creating any of the six index iterators and calling `next` any number of times
is safe for all masks and index vectors (also with wrong lengths and out-of-range indices). -/
theorem C23_iterators_partial (bs mask indices : Blocks) (k : Nat) :
    (iterCalls (Blocks.indexIter bs) k).safe ∧
    (iterCalls (Blocks.indexIterCompr bs indices) k).safe ∧
    (iterCalls (Blocks.indexIterAnd bs mask) k).safe ∧
    (iterCalls (Blocks.indexIterAndCompr bs mask indices) k).safe ∧
    (iterCalls (Blocks.indexIterAndnot bs mask) k).safe ∧
    (iterCalls (Blocks.indexIterAndnotCompr bs mask indices) k).safe := by
  have hidx : Blocks.blockLen 32 bs = Blocks.blockLen 32 indices →
      ∀ i, i < Blocks.blockLen 32 bs →
      (do let x ← Blocks.getUnchecked 32 indices i; return x.toNat : Out Nat).safe := by
    intro e i hi
    unfold Blocks.getUnchecked
    rw [if_pos (by omega)]; trivial
  have hget : ∀ j, (Blocks.get 32 mask j).safe := by
    intro j; unfold Blocks.get; split <;> trivial
  refine ⟨?_, ?_, ?_, ?_, ?_, ?_⟩
  · exact new_calls_safe _ _ _ _ _ (fun _ _ => trivial) (fun _ _ _ _ => trivial)
  · cases he : Blocks.blockLen 32 bs == Blocks.blockLen 32 indices
    · unfold Blocks.indexIterCompr; rw [he]; trivial
    · unfold Blocks.indexIterCompr; rw [he]
      exact new_calls_safe _ _ _ _ _ (hidx (beq_iff_eq.mp he)) (fun _ _ _ _ => trivial)
  · cases he : Blocks.blockLen 64 bs == Blocks.blockLen 64 mask
    · unfold Blocks.indexIterAnd; rw [he]; trivial
    · unfold Blocks.indexIterAnd; rw [he]
      refine new_calls_safe _ _ _ _ _ (fun _ _ => trivial) (fun i j hi hj => ?_)
      cases hj
      unfold Blocks.getUnchecked
      rw [if_pos (by rw [← beq_iff_eq.mp he]; exact hi)]; trivial
  · unfold Blocks.indexIterAndCompr
    cases he : Blocks.blockLen 32 bs == Blocks.blockLen 32 indices
    · trivial
    · cases h2 : decide (Blocks.blockLen 32 bs ≤ Blocks.blockLen 32 mask)
      · trivial
      · exact new_calls_safe _ _ _ _ _ (hidx (beq_iff_eq.mp he)) (fun _ j _ _ => hget j)
  · cases he : Blocks.blockLen 64 bs == Blocks.blockLen 64 mask
    · unfold Blocks.indexIterAndnot; rw [he]; trivial
    · unfold Blocks.indexIterAndnot; rw [he]
      refine new_calls_safe _ _ _ _ _ (fun _ _ => trivial) (fun i j hi hj => ?_)
      cases hj
      unfold Blocks.getUnchecked
      rw [if_pos (by rw [← beq_iff_eq.mp he]; exact hi)]; trivial
  · unfold Blocks.indexIterAndnotCompr
    cases he : Blocks.blockLen 32 bs == Blocks.blockLen 32 indices
    · trivial
    · cases h2 : decide (Blocks.blockLen 32 bs ≤ Blocks.blockLen 32 mask)
      · trivial
      · exact new_calls_safe _ _ _ _ _ (hidx (beq_iff_eq.mp he)) (fun _ j _ _ => hget j)

theorem safe_panic_or {α : Type} {x : Out α} (h : x = .panic ∨ ∃ a, x = .ok a) : x.safe := by
  rcases h with h | ⟨a, h⟩ <;> rw [h] <;> trivial

/-- C23, callback iteration: `for_each_index`, `for_each_index_compr`, `for_each_index_and` are safe
for all arguments. (`for_each_index_and_compr` is not: `C23_for_each_index_and_compr_refuted`.) -/
theorem C23_for_each_partial {σ : Type} (bs other indices : Blocks) (f : Nat → σ → σ × Bool) (s : σ) :
    (Blocks.forEachIndex bs f s).safe ∧ (Blocks.forEachIndexCompr bs indices f s).safe ∧
    (Blocks.forEachIndexAnd bs other f s).safe := by
  by_cases hb : bs = []
  · subst hb
    refine ⟨?_, ?_, ?_⟩ <;> trivial
  · refine ⟨?_, ?_, ?_⟩
    · rw [C09_for_each_index bs hb f s]; trivial
    · by_cases hl : bs.length = indices.length
      · rw [C09_for_each_index_compr bs indices hb hl f s]; trivial
      · unfold Blocks.forEachIndexCompr
        refine safe_assert fun _ => safe_assert fun h => ?_
        exfalso
        have := beq_iff_eq.mp h
        unfold Blocks.blockLen at this
        omega
    · by_cases hl : bs.length = other.length
      · rw [C09_for_each_index_and bs other hb hl f s]; trivial
      · unfold Blocks.forEachIndexAnd
        refine safe_assert fun _ => safe_assert fun h => ?_
        exfalso
        have := beq_iff_eq.mp h
        unfold Blocks.blockLen at this
        omega

/-! ## What is not safe -/

/-- C23 refuted: `for_each_index_and_compr` uses the entries of the index vector to read `other`
without a check (`src/slice_store.rs:618-636`): an index vector with an out-of-range entry is
accepted, and the read is out of bounds. -/
theorem C23_for_each_index_and_compr_refuted :
    Blocks.forEachIndexAndCompr (σ := Unit) [1#256] [1#256] [100#256] (fun _ s => (s, false)) () =
      .ub := by
  decide

/-- C23 refuted: `count_and2_c00` runs over all blocks of its first argument and reads the second
one at the same positions, whatever its length (`src/count_and_sum.rs:388-392`). Any shorter,
non-empty second operand is read out of bounds. -/
theorem C23_count_and2_c00_refuted (b1 b2 : Blocks) (h : b2.length < b1.length)
    (hs : b1.length < 16) : CountSum.countAnd2C00 b1 b2 = .ub := by
  have tail : ∀ k i t, i + k = b2.length →
      Simd.tailLoop 64 (Simd.loadAnd b1 b2) b1.length i t = .ub := by
    intro k
    induction k with
    | zero =>
      intro i t hi
      rw [Simd.tailLoop, dif_pos (by omega)]
      unfold Simd.loadAnd
      rw [Simd.getU b1 (by omega), Out.ok_bind]
      unfold Blocks.getUnchecked
      rw [if_neg (by unfold Blocks.blockLen; omega)]
      rfl
    | succ k ih =>
      intro i t hi
      rw [Simd.tailLoop, dif_pos (by omega)]
      obtain ⟨x, e, _⟩ := Simd.loadAnd_spec b1 b2 i (by omega) (by omega)
      rw [e, Out.ok_bind]
      exact ih (i + 1) _ (by omega)
  unfold CountSum.countAnd2C00 Simd.hs64 Simd.harleySeal
  rw [Simd.hsLoop, dif_neg (by omega), Out.ok_bind, tail b2.length 0 _ (by omega)]
  rfl

example : CountSum.countAnd2C00 [1#256] [] = .ub := C23_count_and2_c00_refuted _ _ (by decide) (by decide)

/-- C23 refuted: `count_and2_c10` checks neither the length of the index vector nor its entries
(`src/count_and_sum.rs:394-399`). -/
theorem C23_count_and2_c10_refuted :
    CountSum.countAnd2C10 [] [1#256] [1#256] = .ub ∧
    CountSum.countAnd2C10 [100#256] [1#256] [1#256] = .ub := by
  constructor
  · unfold CountSum.countAnd2C10 Simd.hs64 Simd.harleySeal
    rw [Simd.hsLoop, dif_neg (by decide), Out.ok_bind, Simd.tailLoop, dif_pos (by decide)]
    rfl
  · unfold CountSum.countAnd2C10 Simd.hs64 Simd.harleySeal
    rw [Simd.hsLoop, dif_neg (by decide), Out.ok_bind, Simd.tailLoop, dif_pos (by decide)]
    have : Simd.loadAndC [1#256] [100#256] [1#256] 0 = .ub := by decide
    rw [this]; rfl

/-- C23 refuted: the `sum_and3_*` kernels check no lengths (`src/count_and_sum.rs:401-465`): every
width reads a too short mask out of bounds. -/
theorem C23_sum_and3_refuted {w : Nat} (hw : validWidth w) :
    CountSum.sumAnd3C00 w [1#256] [] [1#256] = .ub ∧
    CountSum.sumAnd3C10 w [1#256] [0#256] [] [1#256] = .ub := by
  rcases hw with rfl | rfl | rfl | rfl <;> constructor <;>
  · simp only [CountSum.sumAnd3C00, CountSum.sumAnd3C10, Simd.hs64, Simd.hs32, Simd.harleySeal,
      show ¬ (1 = 2) by omega, show ¬ (1 = 4) by omega, show ¬ (1 = 8) by omega,
      show ¬ (4 = 2) by omega, show ¬ (8 = 2) by omega, show ¬ (8 = 4) by omega, if_false, if_true]
    rw [Simd.hsLoop, dif_neg (by decide), Out.ok_bind, Simd.tailLoop, dif_pos (by decide)]
    rfl

/-- C23 refuted: `sum_and3_w*_c11` checks the lengths of the masks against their index vectors but
not the length of the slice (`src/count_and_sum.rs:492-542`, `get_block_unchecked`). -/
theorem C23_sum_and3_c11_refuted {w : Nat} (hw : validWidth w) :
    CountSum.sumAnd3C11 w [] [1#256] [1#256] [1#256] [1#256] = .ub := by
  unfold CountSum.sumAnd3C11 CountSum.c11
  have a : (Blocks.blockLen 32 [1#256] == Blocks.blockLen 32 [1#256]) = true := by decide
  rw [a, Out.assert_true, Out.ok_bind, Out.ok_bind, CountSum.c11Loop, dif_pos (by decide)]
  have g : Blocks.getUnchecked 32 [1#256] 0 = .ok 1#32 := by decide
  rw [g]
  simp only [Out.ok_bind, if_neg (show ¬ (1#32).toNat < (1#32).toNat by decide),
    gt_iff_lt]
  rcases hw with rfl | rfl | rfl | rfl <;> rfl

/-- C23 refuted: in a release build `copy_block_from` does not check its block numbers
(`src/slice_store.rs:899-921`, `debug_assert!`): every out-of-range source block is read. -/
theorem C23_copy_block_refuted {w : Nat} (hw : validWidth w) (slice other : Blocks)
    (from_ dest : Nat) (h : Spec.slots w other ≤ 32 * from_) :
    BitSlice.copyBlockFrom w slice other from_ dest = .ub := by
  unfold BitSlice.copyBlockFrom
  obtain ⟨w', rfl⟩ : ∃ w', w = w' + 1 := ⟨w - 1, by rcases hw with rfl | rfl | rfl | rfl <;> rfl⟩
  rw [BitSlice.copyLoop, Blocks.getUnchecked, if_neg]
  · rfl
  · rw [BitSlice.lanePos_range hw other (by omega), BitSlice.block_slots hw other]
    rw [slots_def] at h
    omega

/-- C23 refuted: `get_slice` (public, safe; a `SliceRange` is a plain pair of numbers) accepts any
range inside the *capacity* of the store, so on a new store of capacity 4 reading the range `(0, 1)`
reads uninitialised memory (`src/slice_store.rs:133-150`). -/
theorem C23_uninitialised_read_refuted :
    ∃ s, BitBlockStore.new 4 = .ok s ∧ Store.readSlice s (0, 1) = .ub := by
  refine ⟨_, rfl, ?_⟩
  rfl

/-- C23 refuted for enormous masks: gathers use *signed* 32-bit indices, so with a mask of more
than `2^31` words the checked index `2^31` passes the assertion of `count_ones_and_compr` and is then
used as `-2^31`. -/
theorem C23_gather_refuted (other : Blocks) (h : 2 ^ 28 < other.length) :
    Simd.countOnesAndCompr [1#256] [BitVec.ofNat 256 (2 ^ 31)] other = .ub := by
  unfold Simd.countOnesAndCompr Simd.bitvecCountAndC Simd.hs64 Simd.harleySeal
  have h1 : Simd.allIndicesBelow [BitVec.ofNat 256 (2 ^ 31)] (Blocks.blockLen 32 other) = true := by
    rw [Simd.allIndicesBelow_iff]
    have key : ∀ k, k < 8 →
        (Blocks.word 32 [BitVec.ofNat 256 (2 ^ 31)] k).toNat ≤ 2 ^ 31 := by decide
    intro k hk
    have := key k hk
    unfold Blocks.blockLen
    omega
  rw [h1, Out.assert_true, Out.ok_bind]
  have hm : min ([1#256] : Blocks).length ([BitVec.ofNat 256 (2 ^ 31)] : Blocks).length = 1 := by rfl
  rw [hm, Simd.hsLoop, dif_neg (by decide), Out.ok_bind, Simd.tailLoop, dif_pos (by decide)]
  have hl : Simd.loadAndC [1#256] [BitVec.ofNat 256 (2 ^ 31)] other 0 = .ub := by
    unfold Simd.loadAndC
    have g1 : Blocks.getUnchecked 256 [1#256] 0 = .ok 1#256 := by decide
    have g2 : Blocks.getUnchecked 256 [BitVec.ofNat 256 (2 ^ 31)] 0 =
      .ok (BitVec.ofNat 256 (2 ^ 31)) := by decide
    rw [g1, Out.ok_bind, g2, Out.ok_bind]
    unfold Simd.gather256
    rw [Simd.gatherLoop]
    unfold Simd.gatherLane
    rw [if_pos (by decide)]
    rfl
  rw [hl]
  rfl

example : ∃ other : Blocks, 2 ^ 28 < other.length :=
  ⟨List.replicate (2 ^ 28 + 1) 0#256, by rw [List.length_replicate]; omega⟩

end BitBoost.Props
