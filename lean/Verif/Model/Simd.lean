import Verif.Model.BitSlice
/-!
# AVX2 counting and summing kernels

Models `src/simd.rs` and `src/count_and_sum.rs:1-549`, and the `BitVec`/`BitSlice` methods that call
them (`src/slice_store.rs:524-540`, `:961-1005`).

An `__m256i` register is a `BitVec 256` (the same type as a block). Lane `i` of `lw` bits is
`BitBlock.word lw v i` (little-endian). All loads are raw pointer reads: out of range is undefined
behaviour. A call of a load function in the kernels is `Nat → Out (BitVec 256)`.
-/
namespace BitBoost
namespace Simd

abbrev M256 := BitVec 256

/-- Register with given lanes of `lw` bits (result of storing the lanes one by one into memory and
loading the register, `src/simd.rs:20-53`, and meaning of the lane-wise intrinsics). -/
def ofWords (lw : Nat) (f : Nat → BitVec lw) : M256 :=
  (List.range (256 / lw)).foldl (fun b i => BitBlock.setWord lw b i (f i)) 0#256

/-- `_mm256_add_epi64` (`lw = 64`), `_mm256_add_epi32` (`lw = 32`). -/
def addEpi (lw : Nat) (a b : M256) : M256 :=
  ofWords lw fun i => BitBlock.word lw a i + BitBlock.word lw b i

/-- `_mm256_slli_epi64`, `_mm256_slli_epi32`. -/
def slliEpi (lw : Nat) (a : M256) (k : Nat) : M256 :=
  ofWords lw fun i => BitBlock.word lw a i <<< k

/-- `src/simd.rs:20-33` `count_ones_u64`, `:36-53` `count_ones_u32`; `src/count_and_sum.rs:50-67`,
`:100-113`. -/
def countOnesEpi (lw : Nat) (v : M256) : M256 :=
  ofWords lw fun i => BitVec.ofNat lw (BitBlock.popcount (BitBlock.word lw v i))

/-- `src/simd.rs:56-60` and `src/count_and_sum.rs:17-21`, carry-save adder `csa!(h, l; a, b, c)`:
the new `(h, l)`. `csa!(h, l <- d1, d2)` is `(h, l) = csa l d1 d2`. -/
def csa (a b c : M256) : M256 × M256 :=
  let u := a ^^^ b
  ((a &&& b) ||| (u &&& c), u ^^^ c)

/-- The accumulators of the Harley-Seal loop. -/
structure HS where
  total : M256
  b01 : M256
  b02 : M256
  b04 : M256
  b08 : M256

/-- `src/simd.rs:77-81`, `src/count_and_sum.rs:140-144`. -/
def HS.init : HS := ⟨0#256, 0#256, 0#256, 0#256, 0#256⟩

/-- One iteration of the main loop, `src/simd.rs:93-109`, `src/count_and_sum.rs:156-172`. `lw` is
the lane width of `count_ones`, `alw` that of the addition to `total` (`simd.rs` always uses
`_mm256_add_epi64`, also with 32-bit counters). -/
def hsStep (lw alw : Nat) (load : Nat → Out M256) (i : Nat) (s : HS) : Out HS := do
  let d0 ← load i
  let d1 ← load (i + 1)
  let (b02a, b01) := csa s.b01 d0 d1
  let d2 ← load (i + 2)
  let d3 ← load (i + 3)
  let (b02b, b01) := csa b01 d2 d3
  let (b04a, b02) := csa s.b02 b02a b02b
  let d4 ← load (i + 4)
  let d5 ← load (i + 5)
  let (b02a, b01) := csa b01 d4 d5
  let d6 ← load (i + 6)
  let d7 ← load (i + 7)
  let (b02b, b01) := csa b01 d6 d7
  let (b04b, b02) := csa b02 b02a b02b
  let (b08a, b04) := csa s.b04 b04a b04b
  let d8 ← load (i + 8)
  let d9 ← load (i + 9)
  let (b02a, b01) := csa b01 d8 d9
  let d10 ← load (i + 10)
  let d11 ← load (i + 11)
  let (b02b, b01) := csa b01 d10 d11
  let (b04a, b02) := csa b02 b02a b02b
  let d12 ← load (i + 12)
  let d13 ← load (i + 13)
  let (b02a, b01) := csa b01 d12 d13
  let d14 ← load (i + 14)
  let d15 ← load (i + 15)
  let (b02b, b01) := csa b01 d14 d15
  let (b04b, b02) := csa b02 b02a b02b
  let (b08b, b04) := csa b04 b04a b04b
  let (b16, b08) := csa s.b08 b08a b08b
  return ⟨addEpi alw s.total (countOnesEpi lw b16), b01, b02, b04, b08⟩

/-- The main loop, `src/simd.rs:91-111`, `src/count_and_sum.rs:154-174`:
`while i < n - (n % 16) { ..; i += 16; }`. -/
def hsLoop (lw alw : Nat) (load : Nat → Out M256) (n i : Nat) (s : HS) : Out (Nat × HS) :=
  if _h : i < n - n % 16 then do
    let s' ← hsStep lw alw load i s
    hsLoop lw alw load n (i + 16) s'
  else .ok (i, s)
termination_by n - i
decreasing_by simp_wf; omega

/-- The tail loop, `src/simd.rs:128-131`, `:149-152`, `src/count_and_sum.rs:182-185`. -/
def tailLoop (lw : Nat) (load : Nat → Out M256) (n i : Nat) (total : M256) : Out M256 :=
  if _h : i < n then do
    let v ← load i
    tailLoop lw load n (i + 1) (addEpi lw total (countOnesEpi lw v))
  else .ok total
termination_by n - i
decreasing_by simp_wf; omega

/-- Combine the accumulators, `src/simd.rs:122-126`, `:143-147`, `src/count_and_sum.rs:176-180`. -/
def combine (lw : Nat) (s : HS) : M256 :=
  let total := slliEpi lw s.total 4
  let total := addEpi lw total (slliEpi lw (countOnesEpi lw s.b08) 3)
  let total := addEpi lw total (slliEpi lw (countOnesEpi lw s.b04) 2)
  let total := addEpi lw total (slliEpi lw (countOnesEpi lw s.b02) 1)
  addEpi lw total (countOnesEpi lw s.b01)

/-- `src/simd.rs:117-156` `harvey_seal_64!`/`harvey_seal_32!` and `src/count_and_sum.rs:134-188`
`harley_seal`, up to the reduction. -/
def harleySeal (lw alw : Nat) (load : Nat → Out M256) (n : Nat) : Out M256 := do
  let r ← hsLoop lw alw load n 0 HS.init
  tailLoop lw load n r.1 (combine lw r.2)

/-- `src/simd.rs:296-301` `reduce_64`, `src/count_and_sum.rs:126-131`: `u64` arithmetic. -/
def reduce64 (ws : List Nat) (total : M256) : BitVec 64 :=
  BitVec.ofNat 64 (ws.getD 0 0) * BitBlock.word 64 total 0
  + BitVec.ofNat 64 (ws.getD 1 0) * BitBlock.word 64 total 1
  + BitVec.ofNat 64 (ws.getD 2 0) * BitBlock.word 64 total 2
  + BitVec.ofNat 64 (ws.getD 3 0) * BitBlock.word 64 total 3

/-- `src/simd.rs:303-315` `reduce_32`, `src/count_and_sum.rs:80-91`. -/
def reduce32 (ws : List Nat) (total : M256) : BitVec 64 :=
  let pair (k : Nat) : BitVec 64 :=
    let x := BitBlock.word 64 total k
    let y0 := x &&& 0xFFFFFFFF#64
    let y1 := x >>> 32
    BitVec.ofNat 64 (ws.getD (2 * k) 0) * y0 + BitVec.ofNat 64 (ws.getD (2 * k + 1) 0) * y1
  0#64 + pair 0 + pair 1 + pair 2 + pair 3

/-- `src/simd.rs:317-320`. -/
def weights1 : List Nat := [1, 1, 1, 1]
def weights2 : List Nat := [1, 1, 2, 2]
def weights4 : List Nat := [1, 2, 4, 8]
def weights8 : List Nat := [1, 2, 4, 8, 16, 32, 64, 128]

/-! ## Loads -/

/-- `_mm256_set1_epi64x`. -/
def set1Epi64 (x : BitVec 64) : M256 := ofWords 64 fun _ => x

/-- `_mm256_set_m128i(x, x)`. -/
def setM128 (x : BitVec 128) : M256 := ofWords 128 fun _ => x

/-- `(((m as u64) << 32) | m as u64)`, `src/simd.rs:243`, `:291`, `src/count_and_sum.rs:301`. -/
def dup32 (m : BitVec 32) : BitVec 64 := (m.setWidth 64 <<< 32) ||| m.setWidth 64

/-- One lane of `_mm256_i32gather_epi32` / `_mm_i32gather_epi32` with scale 4: the index is a
*signed* 32-bit number. -/
def gatherLane (base : Blocks) (idx : BitVec 32) : Out (BitVec 32) :=
  if idx.toInt < 0 then .ub else Blocks.getUnchecked 32 base idx.toNat

/-- Gather `k` lanes and pack them into a register of `w` bits. -/
def gatherLoop (base : Blocks) (idx : Nat → BitVec 32) : Nat → Nat → M256 → Out M256
  | 0, _, acc => .ok acc
  | k + 1, i, acc => do
      let x ← gatherLane base (idx i)
      gatherLoop base idx k (i + 1) (BitBlock.setWord 32 acc i x)

/-- `_mm256_i32gather_epi32(base, indices, 4)`. -/
def gather256 (base : Blocks) (indices : M256) : Out M256 :=
  gatherLoop base (fun i => BitBlock.word 32 indices i) 8 0 0#256

/-- `_mm_i32gather_epi32(base, indices, 4)` (the low 4 lanes). -/
def gather128 (base : Blocks) (indices : BitVec 128) : Out (BitVec 128) := do
  let r ← gatherLoop base (fun i => indices.extractLsb' (32 * i) 32) 4 0 0#256
  return BitBlock.word 128 r 0

/-- `src/simd.rs:198-202` `load_and`; `src/count_and_sum.rs:217-229` `load_and2_c00`. -/
def loadAnd (v1 v2 : Blocks) (i : Nat) : Out M256 := do
  let block ← Blocks.getUnchecked 256 v1 i
  let mask ← Blocks.getUnchecked 256 v2 i
  return block &&& mask

/-- `src/simd.rs:204-209` `load_and_c`; `src/count_and_sum.rs:231-243` `load_and2_c10`. -/
def loadAndC (v1 idxs v2 : Blocks) (i : Nat) : Out M256 := do
  let block ← Blocks.getUnchecked 256 v1 i
  let indices ← Blocks.getUnchecked 256 idxs i
  let mask ← gather256 v2 indices
  return block &&& mask

/-- `src/simd.rs:211-218` `load_mask_and_u32_w1_uc`; `src/count_and_sum.rs:245-260` at `__m256i`. -/
def loadW1uc (slice nm fm : Blocks) (i : Nat) : Out M256 := do
  let block ← Blocks.getUnchecked 256 slice i
  let mask1 ← Blocks.getUnchecked 256 nm i
  let mask2 ← Blocks.getUnchecked 256 fm i
  return block &&& (mask1 &&& mask2)

/-- `src/simd.rs:220-227` `load_mask_and_u32_w2_uc`; `src/count_and_sum.rs:245-260` at `__m128i`. -/
def loadW2uc (slice nm fm : Blocks) (i : Nat) : Out M256 := do
  let block ← Blocks.getUnchecked 256 slice i
  let mask1 ← Blocks.getUnchecked 128 nm i
  let mask2 ← Blocks.getUnchecked 128 fm i
  return block &&& setM128 (mask1 &&& mask2)

/-- `src/simd.rs:229-236` `load_mask_and_u32_w4_uc`; `src/count_and_sum.rs:245-260` at `u64`. -/
def loadW4uc (slice nm fm : Blocks) (i : Nat) : Out M256 := do
  let block ← Blocks.getUnchecked 256 slice i
  let mask1 ← Blocks.getUnchecked 64 nm i
  let mask2 ← Blocks.getUnchecked 64 fm i
  return block &&& set1Epi64 (mask1 &&& mask2)

/-- `src/simd.rs:238-246` `load_mask_and_u32_w8_uc`; `src/count_and_sum.rs:245-260` at `u32`. -/
def loadW8uc (slice nm fm : Blocks) (i : Nat) : Out M256 := do
  let block ← Blocks.getUnchecked 256 slice i
  let mask1 ← Blocks.getUnchecked 32 nm i
  let mask2 ← Blocks.getUnchecked 32 fm i
  return block &&& set1Epi64 (dup32 (mask1 &&& mask2))

/-- `src/simd.rs:248-257` `load_mask_and_u32_w1_c`; `src/count_and_sum.rs:262-277` at `__m256i`. -/
def loadW1c (slice idxs nm fm : Blocks) (i : Nat) : Out M256 := do
  let block ← Blocks.getUnchecked 256 slice i
  let indices ← Blocks.getUnchecked 256 idxs i
  let mask1 ← Blocks.getUnchecked 256 nm i
  let mask2 ← gather256 fm indices
  return block &&& (mask1 &&& mask2)

/-- `src/simd.rs:259-269` `load_mask_and_u32_w2_c`; `src/count_and_sum.rs:262-277` at `__m128i`. -/
def loadW2c (slice idxs nm fm : Blocks) (i : Nat) : Out M256 := do
  let block ← Blocks.getUnchecked 256 slice i
  let indices ← Blocks.getUnchecked 128 idxs i
  let mask1 ← Blocks.getUnchecked 128 nm i
  let mask2 ← gather128 fm indices
  return block &&& setM128 (mask1 &&& mask2)

/-- `src/simd.rs:271-281` `load_mask_and_u32_w4_c`; `src/count_and_sum.rs:262-277` at `u64` (with
`@gather u64`, `:317-327`). -/
def loadW4c (slice idxs nm fm : Blocks) (i : Nat) : Out M256 := do
  let block ← Blocks.getUnchecked 256 slice i
  let index1 ← Blocks.getUnchecked 32 idxs (2 * i)
  let index2 ← Blocks.getUnchecked 32 idxs (2 * i + 1)
  let mask1 ← Blocks.getUnchecked 64 nm i
  let m1 ← Blocks.getUnchecked 32 fm index1.toNat
  let m2 ← Blocks.getUnchecked 32 fm index2.toNat
  let mask2 := m1.setWidth 64 ||| (m2.setWidth 64 <<< 32)
  return block &&& set1Epi64 (mask1 &&& mask2)

/-- `src/simd.rs:283-294` `load_mask_and_u32_w8_c`; `src/count_and_sum.rs:262-277` at `u32`. -/
def loadW8c (slice idxs nm fm : Blocks) (i : Nat) : Out M256 := do
  let block ← Blocks.getUnchecked 256 slice i
  let index ← Blocks.getUnchecked 32 idxs i
  let mask1 ← Blocks.getUnchecked 32 nm i
  let mask2 ← Blocks.getUnchecked 32 fm index.toNat
  return block &&& set1Epi64 (dup32 (mask1 &&& mask2))

/-! ## Kernels -/

/-- `harvey_seal_64!(.., load, reduce64_x)`, `harley_seal64(.., load, ws)`. -/
def hs64 (load : Nat → Out M256) (n : Nat) (ws : List Nat) : Out (BitVec 64) := do
  let total ← harleySeal 64 64 load n
  return reduce64 ws total

/-- `harvey_seal_32!` of `src/simd.rs` (counters added with `_mm256_add_epi64` in the main loop). -/
def hs32Simd (load : Nat → Out M256) (n : Nat) (ws : List Nat) : Out (BitVec 64) := do
  let total ← harleySeal 32 64 load n
  return reduce32 ws total

/-- `harley_seal32` of `src/count_and_sum.rs:190-197`. -/
def hs32 (load : Nat → Out M256) (n : Nat) (ws : List Nat) : Out (BitVec 64) := do
  let total ← harleySeal 32 32 load n
  return reduce32 ws total

/-- `src/simd.rs:335-340` `bitvec_count_and_uc`. -/
def bitvecCountAndUc (v1 v2 : Blocks) : Out (BitVec 64) :=
  hs64 (loadAnd v1 v2) (min v1.length v2.length) weights1

/-- `src/simd.rs:342-348` `bitvec_count_and_c`. -/
def bitvecCountAndC (v1 idxs v2 : Blocks) : Out (BitVec 64) :=
  hs64 (loadAndC v1 idxs v2) (min v1.length idxs.length) weights1

/-- `src/simd.rs:350-396` `btslce_summ{1,2,4,8}_uc` (release build: no `debug_assert!`), selected by
width as in `src/slice_store.rs:962-974`. -/
def btslceSummUc (w : Nat) (slice nm fm : Blocks) : Out (BitVec 64) :=
  if w = 2 then hs64 (loadW2uc slice nm fm) slice.length weights2
  else if w = 4 then hs64 (loadW4uc slice nm fm) slice.length weights4
  else if w = 8 then hs32Simd (loadW8uc slice nm fm) slice.length weights8
  else hs64 (loadW1uc slice nm fm) slice.length weights1

/-- `src/simd.rs:398-456` `btslce_summ{1,2,4,8}_c`, selected as in `src/slice_store.rs:985-997`. -/
def btslceSummC (w : Nat) (slice idxs nm fm : Blocks) : Out (BitVec 64) :=
  if w = 2 then hs64 (loadW2c slice idxs nm fm) slice.length weights2
  else if w = 4 then hs64 (loadW4c slice idxs nm fm) slice.length weights4
  else if w = 8 then hs32Simd (loadW8c slice idxs nm fm) slice.length weights8
  else hs64 (loadW1c slice idxs nm fm) slice.length weights1

/-- `src/slice_store.rs:524-526` `count_ones_and`. -/
def countOnesAnd (v1 v2 : Blocks) : Out (BitVec 64) := bitvecCountAndUc v1 v2

/-- `assert!(indices.cast::<u32>().iter().all(|&i| (i as usize) < m))`. -/
def allIndicesBelow (indices : Blocks) (m : Nat) : Bool :=
  (List.range (Blocks.blockLen 32 indices)).all fun k => (Blocks.word 32 indices k).toNat < m

/-- `src/slice_store.rs:536-540` `count_ones_and_compr`. -/
def countOnesAndCompr (v1 indices other : Blocks) : Out (BitVec 64) := do
  Out.assert (allIndicesBelow indices (Blocks.blockLen 32 other))
  bitvecCountAndC v1 indices other

/-- `src/slice_store.rs:976-980` `sum_all_masked2`. -/
def sumAllMasked2 (w : Nat) (slice nm fm : Blocks) : Out (BitVec 64) := do
  Out.assert (slice.length == nm.length * w)
  Out.assert (slice.length == fm.length * w)
  btslceSummUc w slice nm fm

/-- `src/slice_store.rs:999-1005` `sum_all_masked2_compr`. -/
def sumAllMasked2Compr (w : Nat) (slice idxs nm fm : Blocks) : Out (BitVec 64) := do
  let m := Blocks.blockLen 32 fm
  Out.assert (slice.length == idxs.length * w)
  Out.assert (slice.length == nm.length * w)
  Out.assert (allIndicesBelow idxs m)
  btslceSummC w slice idxs nm fm

/-- `src/simd.rs:464-471` `or_assign` (`zip` stops at the shorter one). -/
def orAssign (bv0 bv1 : Blocks) : Blocks :=
  List.zipWith (· ||| ·) bv0 (bv1.take bv0.length) ++ bv0.drop bv1.length

end Simd

/-! ## `src/count_and_sum.rs` -/
namespace CountSum
open Simd

/-- `src/count_and_sum.rs:388-392` `count_and2_c00` (the length of `blocks2` is not checked). -/
def countAnd2C00 (b1 b2 : Blocks) : Out (BitVec 64) := hs64 (loadAnd b1 b2) b1.length weights1

/-- `src/count_and_sum.rs:394-399` `count_and2_c10` (no checks). -/
def countAnd2C10 (idxs1 b1 b2 : Blocks) : Out (BitVec 64) :=
  hs64 (loadAndC b1 idxs1 b2) b1.length weights1

/-- `src/count_and_sum.rs:401-428` `sum_and3_w{1,2,4,8}_c00`. -/
def sumAnd3C00 (w : Nat) (slice b1 b2 : Blocks) : Out (BitVec 64) :=
  if w = 2 then hs64 (loadW2uc slice b1 b2) slice.length weights2
  else if w = 4 then hs64 (loadW4uc slice b1 b2) slice.length weights4
  else if w = 8 then hs32 (loadW8uc slice b1 b2) slice.length weights8
  else hs64 (loadW1uc slice b1 b2) slice.length weights1

/-- `src/count_and_sum.rs:430-465` `sum_and3_w{1,2,4,8}_c10`. -/
def sumAnd3C10 (w : Nat) (slice idxs1 b1 b2 : Blocks) : Out (BitVec 64) :=
  if w = 2 then hs64 (loadW2c slice idxs1 b1 b2) slice.length weights2
  else if w = 4 then hs64 (loadW4c slice idxs1 b1 b2) slice.length weights4
  else if w = 8 then hs32 (loadW8c slice idxs1 b1 b2) slice.length weights8
  else hs64 (loadW1c slice idxs1 b1 b2) slice.length weights1

/-- Add the lane counts of one matching pair of words, `src/count_and_sum.rs:518-522`: `sums` has
one `u64` per lane. `block lane` is the masked block (or the mask itself, for `count`). -/
def addLanes (block : Nat → Out (BitVec 32)) : Nat → List (BitVec 64) → Out (List (BitVec 64))
  | _, [] => .ok []
  | k, s :: rest => do
      let b ← block k
      let r ← addLanes block (k + 1) rest
      return (s + BitVec.ofNat 64 (BitBlock.popcount b)) :: r

/-- `@load sum` / `@load count`, `src/count_and_sum.rs:535-542`. -/
def maskedBlock (slice : Option (Nat × Blocks)) (mask : BitVec 32) (i1 lane : Nat) :
    Out (BitVec 32) :=
  match slice with
  | none => .ok mask
  | some (w, sl) => do
      let b ← BitSlice.getBlockUnchecked w sl i1 lane
      return b &&& mask

/-- The merge join, `src/count_and_sum.rs:508-526`. `slice = none` is the `count` variant. -/
def c11Loop (slice : Option (Nat × Blocks)) (idxs1 b1 idxs2 b2 : Blocks) (i1 i2 : Nat)
    (sums : List (BitVec 64)) : Out (List (BitVec 64)) :=
  if _h : i1 < Blocks.blockLen 32 idxs1 ∧ i2 < Blocks.blockLen 32 idxs2 then do
    let x1 ← Blocks.getUnchecked 32 idxs1 i1
    let x2 ← Blocks.getUnchecked 32 idxs2 i2
    if x1.toNat < x2.toNat then c11Loop slice idxs1 b1 idxs2 b2 (i1 + 1) i2 sums
    else if x1.toNat > x2.toNat then c11Loop slice idxs1 b1 idxs2 b2 i1 (i2 + 1) sums
    else do
      let m1 ← Blocks.getUnchecked 32 b1 i1
      let m2 ← Blocks.getUnchecked 32 b2 i2
      let sums' ← addLanes (maskedBlock slice (m1 &&& m2) i1) 0 sums
      c11Loop slice idxs1 b1 idxs2 b2 (i1 + 1) (i2 + 1) sums'
  else .ok sums
termination_by (Blocks.blockLen 32 idxs1 - i1) + (Blocks.blockLen 32 idxs2 - i2)
decreasing_by all_goals (simp_wf; omega)

/-- `src/count_and_sum.rs:528-532`. -/
def weigh : Nat → List (BitVec 64) → BitVec 64
  | _, [] => 0#64
  | k, s :: rest => BitVec.ofNat 64 (2 ^ k) * s + weigh (k + 1) rest

/-- The body `src/count_and_sum.rs:492-533`; `safety_check!` is `assert!` (`src/lib.rs`). -/
def c11 (width : Nat) (slice : Option (Nat × Blocks)) (idxs1 b1 idxs2 b2 : Blocks) :
    Out (BitVec 64) := do
  Out.assert (Blocks.blockLen 32 idxs1 == Blocks.blockLen 32 b1)
  Out.assert (Blocks.blockLen 32 idxs2 == Blocks.blockLen 32 b2)
  let sums ← c11Loop slice idxs1 b1 idxs2 b2 0 0 (List.replicate width 0#64)
  return weigh 0 sums

/-- `src/count_and_sum.rs:476-481` `count_and2_c11`. -/
def countAnd2C11 (idxs1 b1 idxs2 b2 : Blocks) : Out (BitVec 64) := c11 1 none idxs1 b1 idxs2 b2

/-- `src/count_and_sum.rs:483-490` `sum_and3_w{1,2,4,8}_c11`. -/
def sumAnd3C11 (w : Nat) (slice idxs1 b1 idxs2 b2 : Blocks) : Out (BitVec 64) :=
  c11 w (some (w, slice)) idxs1 b1 idxs2 b2

end CountSum
end BitBoost
