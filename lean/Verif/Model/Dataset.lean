import Verif.Model.Binner
import Verif.Model.Data
import Verif.Model.Bits
import Verif.Model.Simd
import Mathlib.Data.List.Sort
/-!
# The training view of the data (`src/dataset.rs`)

Simplification: the feature masks live in one `BitBlockStore` and are named by slice ranges
(`src/dataset.rs:29-30`); here a mask is the value of its slice. That different slices of a store do not
influence each other, and that `get_two_bitvecs_mut` hands out the two slices asked for, are the theorems
C10, C11 and C12.
-/
namespace BitBoost

/-- The random generator `SmallRng` (`src/dataset.rs:24`): the raw numbers it is going to produce. Nothing
is assumed about them, so theorems hold for every seed and every generator. -/
structure Rng where
  next : Nat → Nat

namespace Rng

/-- `rng.gen_range(lo, hi)`: a number in `[lo, hi)`; panics when the range is empty. -/
def genRange (r : Rng) (lo hi : Nat) : Out (Nat × Rng) :=
  if lo < hi then .ok (lo + r.next 0 % (hi - lo), ⟨fun i => r.next (i + 1)⟩) else .panic

end Rng

/-- Indexing a slice with bounds checking. -/
def at? {α : Type} (l : List α) (i : Nat) : Out α :=
  match l[i]? with
  | some x => .ok x
  | none => .panic

/-- `slice::swap(i, j)` with bounds checking. -/
def swapAt (l : List Nat) (i j : Nat) : Out (List Nat) := do
  let x ← at? l i
  let y ← at? l j
  return (l.set i y).set j x

/-- The loop `src/dataset.rs:523-526`, from `i`, with `k` more rounds to go. -/
def shuffleLoop : Nat → Nat → Rng → List Nat → Out (List Nat × Rng)
  | 0, _, r, buf => .ok (buf, r)
  | k + 1, i, r, buf => do
      let (j, r') ← r.genRange i buf.length
      let buf' ← swapAt buf i j
      shuffleLoop k (i + 1) r' buf'

/-- `src/dataset.rs:521-529` `shuffle_first_k`; `buffer[0..k].sort_unstable()` panics when `k` is out of
range (then `gen_range` has panicked before). -/
def shuffleFirstK (r : Rng) (k : Nat) (buf : List Nat) : Out (List Nat × Rng) := do
  let (buf', r') ← shuffleLoop k 0 r buf
  Out.assert (decide (k ≤ buf'.length))
  return ((buf'.take k).insertionSort (· ≤ ·) ++ buf'.drop k, r')

/-- The loop `src/dataset.rs:517`: the first `k` elements are drawn, the others are still to come. -/
def replaceLoop : Nat → Rng → Nat → Out (List Nat × Rng)
  | 0, r, _ => .ok ([], r)
  | k + 1, r, n => do
      let (x, r') ← r.genRange 0 n
      let (xs, r'') ← replaceLoop k r' n
      return (x :: xs, r'')

/-- `src/dataset.rs:515-519` `sample_replacement`: every element of the buffer is drawn anew. -/
def sampleReplacement (r : Rng) (n : Nat) (buf : List Nat) : Out (List Nat × Rng) := do
  let (xs, r') ← replaceLoop buf.length r n
  return (xs.insertionSort (· ≤ ·), r')

/-- `buffer[i] = x` with bounds checking. -/
def setAt (l : List Nat) (i x : Nat) : Out (List Nat) := if i < l.length then .ok (l.set i x) else .panic

/-- The loop `src/dataset.rs:535-541`, from `i`, with `m` more rounds to go; `k` is the length of the buffer at the
start. -/
def reservoirLoop (k : Nat) : Nat → Nat → Rng → List Nat → Out (List Nat × Rng)
  | 0, _, r, buf => .ok (buf, r)
  | m + 1, i, r, buf =>
      if i < k then do
        let buf' ← setAt buf i i
        reservoirLoop k m (i + 1) r buf'
      else do
        let (x, r') ← r.genRange 0 (i + 1)
        let buf' ← if x < k then setAt buf x i else .ok buf
        reservoirLoop k m (i + 1) r' buf'

/-- `src/dataset.rs:531-543` `reservoir_sample`. (`debug_assert!(n > k)` is not there in a release build.) -/
def reservoirSample (r : Rng) (n : Nat) (buf : List Nat) : Out (List Nat × Rng) := do
  let (buf', r') ← reservoirLoop buf.length n 0 r buf
  return (buf'.insertionSort (· ≤ ·), r')

/-- `InnerDataset` (`src/dataset.rs:23-35`) and `Dataset` (`src/dataset.rs:307-311`) in one record. -/
structure Dataset where
  data : Data
  rng : Rng
  useful : List Nat
  nactiveFeatures : Nat
  nactiveExamples : Nat
  bitvecs : List (List Blocks)
  supercats : List (List Nat)
  splitCandidates : List (List Num)
  usedNbins : List Nat
  hasNonLocard : Bool
  indexBuffer : List Nat
  updateCount : Nat

namespace Dataset

/-- `src/dataset.rs:21` `QUANTILE_EST_NBINS`. -/
def quantileNbins : Nat := 512

/-- `src/lib.rs:16` `EPSILON = f32::EPSILON`. -/
def epsilon : Num := .fin (1 / 2 ^ 23)

/-- `src/data.rs:180-185`: the column of a feature (`feat_limits`, `feat_type`, `feat_card`,
`get_feature`), all indexed with bounds checking. -/
def column (d : Data) (feat : Nat) : Out Column := at? d.cols feat

/-- `store.alloc_zero_bits(n)` (`src/dataset.rs:65`, `src/slice_store.rs:342-346`): an empty allocation
panics. -/
def allocZero (n : Nat) : Out Blocks := Blocks.zeroBits n

/-- `n` allocations, `src/dataset.rs:64-66`. -/
def allocMany (n : Nat) : Nat → Out (List Blocks)
  | 0 => .ok []
  | m + 1 => do
      let b ← allocZero n
      let bs ← allocMany n m
      return b :: bs

/-- The loop `src/dataset.rs:54-67`: for the features from `feat` on, `k` of them. The result is the useful
features, the masks of all features, and whether one of the useful ones is not a low-cardinality
categorical one. -/
def scanFeatures (d : Data) (nactive : Nat) : Nat → Nat → Out (List Nat × List (List Blocks) × Bool)
  | 0, _ => .ok ([], [], false)
  | k + 1, feat => do
      let c ← column d feat
      let m := Data.colMaxNbins d.maxNbins c
      if m = 0 ∨ c.lo.eqb c.hi = true then do
        let (u, bv, h) ← scanFeatures d nactive k (feat + 1)
        return (u, [] :: bv, h)
      else do
        let b ← allocMany nactive m
        let (u, bv, h) ← scanFeatures d nactive k (feat + 1)
        return (feat :: u, b :: bv, (c.ftype != .loCardCat) || h)

/-- `(n as NumT * fraction).round() as usize`, `src/dataset.rs:46` and `src/dataset.rs:70`. -/
def share (F : FP) (n : Nat) (fraction : Num) : Nat := (F.mul (F.ofNat n) fraction).round.toUsize

/-- `src/dataset.rs:38-85` `InnerDataset::new`, with the seeded generator `rng` (`src/dataset.rs:39`). -/
def inner (F : FP) (cfg : Config) (d : Data) (rng : Rng) : Out Dataset := do
  let nactive := share F d.nexamples cfg.exampleFraction
  let (useful, bitvecs, h) ← scanFeatures d nactive d.nfeatures 0
  return { data := d, rng, useful
           nactiveFeatures := share F useful.length cfg.featureFraction
           nactiveExamples := nactive
           bitvecs
           supercats := []
           splitCandidates := List.replicate d.nfeatures []
           usedNbins := List.replicate d.nfeatures 0
           hasNonLocard := h
           indexBuffer := []
           updateCount := 0 }

/-- `src/dataset.rs:268-272` `zero_bitvecs`. -/
def zeroMasks (bvs : List Blocks) : List Blocks := bvs.map fun b => b.map fun _ => BitBlock.zeros

/-- `src/dataset.rs:274-287` `fill_bitvecs`; `cats` are the values of `get_cat` for the examples in order,
`i` is the local index of the first one. The `debug_assert!` is left out. -/
def fillMasks : List Nat → Nat → List Blocks → Out (List Blocks)
  | [], _, bvs => .ok bvs
  | c :: cs, i, bvs =>
      match bvs[c]? with
      | some b => do
          let b' ← Blocks.enableBit b i
          fillMasks cs (i + 1) (bvs.set c b')
      | none => fillMasks cs (i + 1) bvs

/-- The loop `src/dataset.rs:290-293`: `prev` is the mask before `bvs`, already accumulated. -/
def accumulateLoop (prev : Blocks) : List Blocks → List Blocks
  | [] => []
  | b :: bvs =>
      let b' := Simd.orAssign b prev
      b' :: accumulateLoop b' bvs

/-- `src/dataset.rs:289-294` `accumulate_bitvecs`; `bitvecs[1..]` panics when there is no mask. -/
def accumulateMasks : List Blocks → Out (List Blocks)
  | [] => .panic
  | b :: bvs => .ok (b :: accumulateLoop b bvs)

/-- The values of a list of examples: `data[j]` for all `j`, with bounds checking. -/
def gather {α : Type} (values : List α) : List Nat → Out (List α)
  | [] => .ok []
  | j :: js => do
      let v ← at? values j
      let vs ← gather values js
      return v :: vs

/-- `src/dataset.rs:105-114` `update_locard_cat` (the `debug_assert_eq!` is left out). -/
def updateLocard (ds : Dataset) (feat : Nat) (examples : List Nat) : Out Dataset := do
  let c ← column ds.data feat
  let bvs ← at? ds.bitvecs feat
  let vals ← gather c.values examples
  let bvs' ← fillMasks (vals.map intoCat) 0 (zeroMasks bvs)
  Out.assert (decide (feat < ds.usedNbins.length))
  return { ds with usedNbins := ds.usedNbins.set feat (Data.colMaxNbins ds.data.maxNbins c)
                   bitvecs := ds.bitvecs.set feat bvs' }

/-- The loop `src/dataset.rs:125-130`: gradient sum and number of examples per category. The example with
local index `i` (counted from 0) in the sample contributes `grad[i]`. -/
def gradStats (F : FP) (grad : List Num) : List Num → Nat → List (Num × Nat) → Out (List (Num × Nat))
  | [], _, st => .ok st
  | v :: vs, i, st => do
      let e ← at? st (intoCat v)
      let g ← at? grad i
      gradStats F grad vs (i + 1) (st.set (intoCat v) (F.add e.1 g, e.2 + 1))

/-- `src/dataset.rs:138-139`: the sum becomes the mean, unless there is no example. -/
def meanOf (F : FP) (p : Num × Nat) : Num := if p.2 = 0 then p.1 else F.div p.1 (F.ofNat p.2)

/-- `src/dataset.rs:148-154` and `src/dataset.rs:208-214`: drop a bin equal to the one before; `last_bin`
is `usize::MAX` in the beginning. -/
def dedupLoop (last : Nat) : List Nat → List Nat
  | [] => []
  | b :: bs => if b = last then dedupLoop last bs else b :: dedupLoop b bs

/-- The number of leading split values below `x`: `src/dataset.rs:167-171` and `src/dataset.rs:232-236`. -/
def countBelow (x : Num) : List Num → Nat
  | [] => 0
  | s :: ss => if s.lt x then countBelow x ss + 1 else 0

/-- Part of a list: `&v[0..n]`, panics when `n` is out of range. -/
def prefix' {α : Type} (l : List α) (n : Nat) : Out (List α) :=
  if n ≤ l.length then .ok (l.take n) else .panic

/-- The rank of quantile `i`: `(i as NumT * rank_step).round() as u32 - 1`, `src/dataset.rs:146`. In a
release build the subtraction wraps around (in a debug build it panics instead). -/
def hicardRank (F : FP) (rankStep : Num) (i : Nat) : Nat :=
  ((F.mul (F.ofNat i) rankStep).round.toU32 + (2 ^ 32 - 1)) % 2 ^ 32

/-- `src/dataset.rs:134-155`: the split weights of a high-cardinality feature, from the sum and count of
the gradients per category. -/
def hicardWeights (F : FP) (maxNbins nactive : Nat) (stats : List (Num × Nat)) (bounds : Num × Num) :
    Out (List Num) := do
  let b ← Binner.new F (List.replicate quantileNbins 0) bounds.1 bounds.2
  let b ← Binner.insertAll F (fun (d x : Nat) => x + d) b
    ((stats.filter fun p => p.2 != 0).map fun p => (meanOf F p, p.2))
  let rankStep := F.div (F.ofNat nactive) (F.ofNat (maxNbins + 1))
  let ranks := (List.range maxNbins).map fun i => hicardRank F rankStep (i + 1)
  let qbins ← Binner.rankIter Binner.natOps id b.bins ranks (Binner.rankStart Binner.natOps)
  return (dedupLoop (2 ^ 64 - 1) qbins).map fun q => Binner.representative F b (q + 1)

/-- The end of `update_hicard_cat` and `update_num`, `src/dataset.rs:176-180` and `src/dataset.rs:241-262`:
the first `n` masks of the feature are zeroed, filled and accumulated. -/
def buildMasks (bvs : List Blocks) (n : Nat) (cats : List Nat) : Out (List Blocks) := do
  let front ← prefix' bvs n
  let filled ← fillMasks cats 0 (zeroMasks front)
  let acc ← accumulateMasks filled
  return acc ++ bvs.drop n

/-- `src/dataset.rs:116-184` `update_hicard_cat`. -/
def updateHicard (F : FP) (cfg : Config) (ds : Dataset) (feat : Nat) (examples : List Nat)
    (grad : List Num) (bounds : Num × Num) : Out Dataset := do
  let c ← column ds.data feat
  let vals ← gather c.values examples
  let stats ← gradStats F grad vals 0 (List.replicate c.card (.fin 0, 0))
  let weights ← hicardWeights F cfg.maxNbins ds.nactiveExamples stats bounds
  let supercats := stats.map fun p => countBelow (meanOf F p) weights
  let bvs ← at? ds.bitvecs feat
  let cats ← gather supercats (vals.map intoCat)
  let bvs' ← buildMasks bvs weights.length cats
  Out.assert (decide (feat < ds.usedNbins.length))
  Out.assert (decide (feat < ds.supercats.length))
  return { ds with bitvecs := ds.bitvecs.set feat bvs'
                   usedNbins := ds.usedNbins.set feat weights.length
                   supercats := ds.supercats.set feat supercats }

/-- The weight of an example, `src/dataset.rs:199`. -/
def numWeight (F : FP) (g : Num) : Num := F.add g.abs epsilon

/-- `src/dataset.rs:193-217`: the split candidates of a numerical feature, from the values and gradients
of the active examples; also returns the binner (whose limits and bin width are used again). -/
def numSplits (F : FP) (maxNbins : Nat) (lo hi : Num) (vals grads : List Num) :
    Out (List Num × Binner Num) := do
  let b ← Binner.new F (List.replicate quantileNbins (.fin 0)) lo hi
  let weights := grads.map (numWeight F)
  let b ← Binner.insertAll F (fun (d x : Num) => F.add x d) b (vals.zip weights)
  let step := F.div (F.sum weights) (F.ofNat (maxNbins + 1))
  let ranks := (List.range maxNbins).map fun i => F.mul (F.ofNat (i + 1)) step
  let qbins ← Binner.rankIter (Binner.numOps F) id b.bins ranks (Binner.rankStart (Binner.numOps F))
  let splits := (dedupLoop (2 ^ 64 - 1) qbins).map fun q => Binner.representative F b (q + 1)
  Out.assert (decide (splits.length ≤ maxNbins))
  Out.assert (decide (0 < splits.length))
  return (splits, b)

/-- `src/dataset.rs:230-238`: the category of each bin. (The memory of `bins` is reused in the code;
all entries are overwritten.) -/
def binCats (F : FP) (b : Binner Num) (splits : List Num) : List Nat :=
  (List.range quantileNbins).map fun i => countBelow (Binner.representative F b (i + 1)) splits

/-- `src/dataset.rs:186-266` `update_num`. -/
def updateNum (F : FP) (cfg : Config) (ds : Dataset) (feat : Nat) (examples : List Nat)
    (grad : List Num) : Out Dataset := do
  let c ← column ds.data feat
  let vals ← gather c.values examples
  let grads ← gather grad examples
  let (splits, b) ← numSplits F cfg.maxNbins c.lo c.hi vals grads
  let bvs ← at? ds.bitvecs feat
  let cats ← gather (binCats F b splits) (vals.map (Binner.getBin F b))
  let bvs' ← buildMasks bvs splits.length cats
  Out.assert (decide (feat < ds.usedNbins.length))
  Out.assert (decide (feat < ds.splitCandidates.length))
  return { ds with bitvecs := ds.bitvecs.set feat bvs'
                   usedNbins := ds.usedNbins.set feat splits.length
                   splitCandidates := ds.splitCandidates.set feat splits }

/-- One round of the loop `src/dataset.rs:324-329`. -/
def initFeature (examples : List Nat) (f : Nat) (ds : Dataset) : Out Dataset := do
  let c ← column ds.data f
  if c.ftype = .loCardCat then updateLocard ds f examples else .ok ds

/-- The loop `src/dataset.rs:324-329` over the useful features. -/
def initLocard (examples : List Nat) : List Nat → Dataset → Out Dataset
  | [], ds => .ok ds
  | f :: fs, ds => do
      let ds' ← initFeature examples f ds
      initLocard examples fs ds'

/-- `src/dataset.rs:314-337` `Dataset::new`. -/
def new (F : FP) (cfg : Config) (d : Data) (rng : Rng) : Out Dataset := do
  let ds ← inner F cfg d rng
  if cfg.exampleFraction.lt (.fin 1) then
    return { ds with indexBuffer := List.range d.nexamples }
  else initLocard (List.range d.nexamples) ds.useful ds

/-- `src/dataset.rs:409` `feature_sampling_enabled`, `src/dataset.rs:87-89`. -/
def featureSampling (ds : Dataset) : Bool := decide (ds.useful.length > ds.nactiveFeatures)

/-- `src/dataset.rs:410` `example_sampling_enabled`. -/
def exampleSampling (ds : Dataset) : Bool := !ds.indexBuffer.isEmpty

/-- `src/dataset.rs:101-103` `initialize_supercats` (`Vec::resize`). -/
def initSupercats (ds : Dataset) : Dataset :=
  { ds with supercats := ds.supercats.take ds.data.nfeatures ++
      List.replicate (ds.data.nfeatures - ds.supercats.length) [] }

/-- `src/dataset.rs:91-95` `sample_features`. -/
def sampleFeatures (ds : Dataset) : Out Dataset :=
  if ds.featureSampling then do
    let (u, r) ← shuffleFirstK ds.rng ds.nactiveFeatures ds.useful
    return { ds with useful := u, rng := r }
  else .ok ds

/-- `src/dataset.rs:339-342` `sample_examples`. -/
def sampleExamples (ds : Dataset) : Out Dataset := do
  let (buf, r) ← shuffleFirstK ds.rng ds.nactiveExamples ds.indexBuffer
  return { ds with indexBuffer := buf, rng := r }

/-- One round of the loops `src/dataset.rs:370-384` (`bagged = true`) and `src/dataset.rs:390-403`. -/
def updateFeature (F : FP) (cfg : Config) (grad : List Num) (bounds : Num × Num) (bagged : Bool)
    (examples : List Nat) (f : Nat) (ds : Dataset) : Out Dataset := do
  let c ← column ds.data f
  match c.ftype with
  | .loCardCat => if bagged then updateLocard ds f examples else .ok ds
  | .hiCardCat => updateHicard F cfg ds f examples grad bounds
  | .numerical => updateNum F cfg ds f examples grad

/-- The loops `src/dataset.rs:370-384` (`bagged = true`) and `src/dataset.rs:390-403` over a list of
features. -/
def updateFeatures (F : FP) (cfg : Config) (grad : List Num) (bounds : Num × Num) (bagged : Bool)
    (examples : List Nat) : List Nat → Dataset → Out Dataset
  | [], ds => .ok ds
  | f :: fs, ds => do
      let ds' ← updateFeature F cfg grad bounds bagged examples f ds
      updateFeatures F cfg grad bounds bagged examples fs ds'

/-- `src/dataset.rs:357-358`: is this one of the updates that only count? `count` is the new value of
`update_count`. -/
def skipped (sampleFreq count : Nat) : Bool :=
  decide (sampleFreq = 0 ∨ (1 < count ∧ count % sampleFreq ≠ 0))

/-- The rest of `update` after the guard, `src/dataset.rs:360-404`. `useful_features[u]` for all
`u < nactive_features` panics when there are fewer useful features. -/
def refresh (F : FP) (cfg : Config) (ds : Dataset) (grad : List Num) (bounds : Num × Num) :
    Out Dataset := do
  let ds ← sampleFeatures ds
  if ds.exampleSampling then do
    let ds ← sampleExamples ds
    let examples ← prefix' ds.indexBuffer ds.nactiveExamples
    let feats ← prefix' ds.useful ds.nactiveFeatures
    updateFeatures F cfg grad bounds true examples feats ds
  else if ds.hasNonLocard then do
    let feats ← prefix' ds.useful ds.nactiveFeatures
    updateFeatures F cfg grad bounds false (List.range ds.data.nexamples) feats ds
  else .ok ds

/-- `src/dataset.rs:352-405` `update`. -/
def update (F : FP) (cfg : Config) (ds : Dataset) (grad : List Num) (bounds : Num × Num) : Out Dataset :=
  let ds := initSupercats { ds with updateCount := ds.updateCount + 1 }
  if skipped cfg.sampleFreq ds.updateCount then .ok ds
  else refresh F cfg ds grad bounds

/-- `src/dataset.rs:413` `active_features`, `src/dataset.rs:97-99`. -/
def activeFeatures (ds : Dataset) : Out (List Nat) := prefix' ds.useful ds.nactiveFeatures

/-- `src/dataset.rs:348-350` `active_examples`. -/
def activeExamples (ds : Dataset) : Out (List Nat) := prefix' ds.indexBuffer ds.nactiveExamples

/-- `src/dataset.rs:415-418` `map_index` (the `debug_assert!` is left out). -/
def mapIndex (ds : Dataset) (i : Nat) : Out Nat := do
  let a ← activeExamples ds
  at? a i

/-- `src/dataset.rs:420-427` `active_examples_iter`: the pairs (local index, global index) the body is
called with, in order. -/
def activePairs (ds : Dataset) : Out (List (Nat × Nat)) :=
  if ds.exampleSampling then do
    let a ← activeExamples ds
    return (List.range a.length).zip a
  else .ok ((List.range ds.nactiveExamples).map fun i => (i, i))

/-- The loop `src/dataset.rs:503-506`: skip the active examples at the front. -/
def skipActive : List Nat → Nat → List Nat × Nat
  | [], index => ([], index)
  | a :: as, index => if a = index then skipActive as (index + 1) else (a :: as, index)

/-- `src/dataset.rs:500-513` `InactiveExampleIter::next`, called until it returns `None`. -/
def inactiveLoop (n : Nat) (active : List Nat) (index : Nat) : List Nat :=
  let s := skipActive active index
  if h : s.2 < n then s.2 :: inactiveLoop n s.1 (s.2 + 1) else []
termination_by n - index
decreasing_by
  have : ∀ (l : List Nat) (i : Nat), i ≤ (skipActive l i).2 := by
    intro l
    induction l with
    | nil => intro i; simp [skipActive]
    | cons a as ih =>
        intro i
        simp only [skipActive]
        split
        · have := ih (i + 1); omega
        · simp
  have h1 := this active index
  have h2 : (skipActive active index).2 < n := h
  omega

/-- `src/dataset.rs:429-436` `inactive_examples_iter`: all it yields. -/
def inactiveExamples (ds : Dataset) : Out (List Nat) := do
  Out.assert ds.exampleSampling
  let a ← activeExamples ds
  return inactiveLoop ds.data.nexamples a 0

/-- `src/dataset.rs:438-440` `get_nbins`. -/
def getNbins (ds : Dataset) (feat : Nat) : Out Nat := at? ds.usedNbins feat

/-- `src/dataset.rs:442-445` `get_bitvec`. -/
def getBitvec (ds : Dataset) (feat split : Nat) : Out Blocks := do
  let bvs ← at? ds.bitvecs feat
  at? bvs split

/-- `src/dataset.rs:447-453` `get_split_value`. -/
def getSplitValue (F : FP) (ds : Dataset) (feat split : Nat) : Out Num := do
  let c ← column ds.data feat
  match c.ftype with
  | .loCardCat => return F.ofNat split
  | .hiCardCat => return F.ofNat split
  | .numerical => do
      let s ← at? ds.splitCandidates feat
      at? s split

end Dataset
end BitBoost
