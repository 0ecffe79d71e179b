import Verif.Model.Dataset
import Verif.Model.Tree
import Verif.Model.Objective
import Verif.Model.Discretise
import Verif.Model.IndexIter
/-!
# The tree learner (`src/tree/learner.rs`)

Simplification: the histograms, example masks, block indices and gradients of a node live in four slice
stores and are named by slice ranges (`src/tree/learner.rs:73-88`, `:121-132`). Here a node holds the values
of its slices. The masks and histograms of a node are used by that node only, and the indices and gradients,
which a node can share with its parent, are never written again or freed, so values are the same thing as
ranges as long as the stores keep their slices apart (C10-C13). `Model/LearnerStore.lean` is the model with
the stores.
-/
namespace BitBoost

/-- `src/tree/learner.rs:29-33` `HistVal`. The count is a `u32`. -/
structure HistVal where
  gradSum : Num
  count : Nat
deriving DecidableEq, Repr

/-- `u32` subtraction in a release build. -/
def subU32 (a b : Nat) : Nat := (a + 2 ^ 32 - b) % 2 ^ 32

namespace HistVal

/-- `HistVal::default()`. -/
def zero : HistVal := ⟨.fin 0, 0⟩

/-- `src/tree/learner.rs:41-49` `sub`. -/
def sub (F : FP) (a b : HistVal) : HistVal := ⟨F.sub a.gradSum b.gradSum, subU32 a.count b.count⟩

end HistVal

/-- The histograms of a node: for each feature of the data, a value for each of its candidates. -/
abbrev Hists := List (List HistVal)

/-- `src/tree/learner.rs:72-88` `Node2Split`, with the values of the slices. -/
structure Node where
  nodeId : Nat
  exampleCount : Nat
  gradSum : Num
  compressed : Bool
  hists : Hists
  idx : Blocks
  mask : Blocks
  grads : Blocks
deriving DecidableEq

/-- `src/tree/learner.rs:103-115` `Split`. -/
structure Split where
  crit : SplitCrit
  splitId : Nat
deriving DecidableEq, Repr

namespace Learner

/-- `src/tree/learner.rs:110-114` `Split::no_split`. -/
def noSplit : Split := ⟨SplitCrit.none, 0⟩

/-- `src/tree/learner.rs:138-140`, `src/slice_store.rs:238-252` and `:300-303` `alloc_hists`: a histogram of
`max_nbins` default values for each feature; an empty allocation panics. -/
def newHists (d : Data) : Out Hists := do
  let ns ← (List.range d.nfeatures).foldr (fun f r => do
    let n ← Data.featMaxNbins d f
    let ns ← r
    return n :: ns) (.ok [])
  Out.assert (decide (0 < ns.sum))
  return ns.map fun n => List.replicate n HistVal.zero

/-- `hist_store.get_hist(range, feat)[split]`. -/
def histAt (h : Hists) (f b : Nat) : Out HistVal := do
  let hs ← at? h f
  at? hs b

/-- `hist_store.get_hist_mut(range, feat)[split] = v`, `src/tree/learner.rs:759-761`. -/
def setHist (h : Hists) (f b : Nat) (v : HistVal) : Out Hists := do
  let hs ← at? h f
  Out.assert (decide (b < hs.length))
  return h.set f (hs.set b v)

/-- `src/slice_store.rs:271-287` `hists_subtract`. -/
def subHists (F : FP) (p l : Hists) : Hists := List.zipWith (List.zipWith (HistVal.sub F)) p l

/-- `src/tree/learner.rs:436-439` `get_loss`. -/
def getLoss (F : FP) (cfg : Config) (g : Num) (count : Nat) : Num :=
  F.mul (.fin (-1 / 2)) (F.div (F.mul g g) (F.add (F.ofNat count) cfg.regLambda))

/-- The gain of a candidate, `src/tree/learner.rs:313-319`: `(pg, pc)` of the node, `l` of its left part. -/
def gain (F : FP) (cfg : Config) (pg : Num) (pc : Nat) (l : HistVal) : Num :=
  F.sub (F.sub (getLoss F cfg pg pc) (getLoss F cfg l.gradSum l.count))
    (getLoss F cfg (F.sub pg l.gradSum) (subU32 pc l.count))

/-- `src/tree/learner.rs:325-335`: the criterion for candidate `b` of feature `f`. -/
def critOf (F : FP) (ds : Dataset) (f b : Nat) : Out SplitCrit := do
  let v ← ds.getSplitValue F f b
  let c ← Dataset.column ds.data f
  return { splitType := match c.ftype with
             | .loCardCat => .loCardCatEq
             | .hiCardCat => .hiCardCatLt
             | .numerical => .numLt
           featureId := f
           splitValue := v }

/-- The body of the loop `src/tree/learner.rs:311-337`, with the best gain and split so far. -/
def tryCandidate (F : FP) (cfg : Config) (ds : Dataset) (pg : Num) (pc : Nat) (f b : Nat) (v : HistVal)
    (best : Num × Split) : Out (Num × Split) :=
  if v.count < cfg.minExamplesLeaf ∨ subU32 pc v.count < cfg.minExamplesLeaf then .ok best
  else if best.1.lt (gain F cfg pg pc v) then do
    let crit ← critOf F ds f b
    return (gain F cfg pg pc v, ⟨crit, b⟩)
  else .ok best

/-- The loop `src/tree/learner.rs:311-337` over the candidates `b`, ..., `b + k - 1` of feature `f`. -/
def scanBins (F : FP) (cfg : Config) (ds : Dataset) (pg : Num) (pc : Nat) (h : Hists) (f : Nat) :
    Nat → Nat → Num × Split → Out (Num × Split)
  | 0, _, best => .ok best
  | k + 1, b, best => do
      let v ← histAt h f b
      let best' ← tryCandidate F cfg ds pg pc f b v best
      scanBins F cfg ds pg pc h f k (b + 1) best'

/-- The loop `src/tree/learner.rs:306-338` over the active features. -/
def scanFeatures (F : FP) (cfg : Config) (ds : Dataset) (pg : Num) (pc : Nat) (h : Hists) :
    List Nat → Num × Split → Out (Num × Split)
  | [], best => .ok best
  | f :: fs, best => do
      let n ← ds.getNbins f
      let best' ← scanBins F cfg ds pg pc h f n 0 best
      scanFeatures F cfg ds pg pc h fs best'

/-- `src/tree/learner.rs:297-340` `find_best_split`, of a node with gradient sum `pg`, example count `pc` and
histograms `h`. -/
def findBestSplit (F : FP) (cfg : Config) (ds : Dataset) (pg : Num) (pc : Nat) (h : Hists) : Out Split := do
  let fs ← ds.activeFeatures
  let best ← scanFeatures F cfg ds pg pc h fs (cfg.minGain, noSplit)
  return best.2

/-! ## Histograms -/

/-- `get_grad_sum!(.., simd)`, `src/tree/learner.rs:803-833`: the histogram value of a candidate with mask
`fmask`. -/
def gradSum (F : FP) (cfg : Config) (w : Nat) (bounds : Num × Num) (n : Node) (fmask : Blocks) :
    Out HistVal :=
  if n.compressed then do
    let c ← Simd.bitvecCountAndC n.mask n.idx fmask
    let count := c.toNat % 2 ^ 32
    if count < cfg.minExamplesLeaf then return ⟨.fin 0, count⟩
    else do
      let s ← Simd.btslceSummC w n.grads n.idx n.mask fmask
      return ⟨BitSlice.linproj F w (F.ofNat s.toNat) (F.ofNat count) bounds.1 bounds.2, count⟩
  else do
    let c ← Simd.countOnesAnd n.mask fmask
    let count := c.toNat % 2 ^ 32
    if count < cfg.minExamplesLeaf then return ⟨.fin 0, count⟩
    else do
      let s ← Simd.btslceSummUc w n.grads n.mask fmask
      return ⟨BitSlice.linproj F w (F.ofNat s.toNat) (F.ofNat count) bounds.1 bounds.2, count⟩

/-- `src/tree/learner.rs:744-750`: the jobs of `build_histograms`, in the order of the sequential loop. -/
def histJobs (ds : Dataset) : List Nat → Out (List (Nat × Nat))
  | [] => .ok []
  | f :: fs => do
      let n ← ds.getNbins f
      let js ← histJobs ds fs
      return (List.range n).map (fun b => (f, b)) ++ js

/-- The part of a job outside the lock, `src/tree/learner.rs:750-757`. -/
def histJob (F : FP) (cfg : Config) (ds : Dataset) (w : Nat) (bounds : Num × Num) (n : Node) (f b : Nat) :
    Out HistVal := do
  let fmask ← ds.getBitvec f b
  gradSum F cfg w bounds n fmask

/-- The jobs one after the other, each followed by its write `src/tree/learner.rs:758-762`. That every
schedule of the parallel iterator gives the same histograms is C45 (`Model/Parallel.lean`). -/
def runJobs (job : Nat → Nat → Out HistVal) : List (Nat × Nat) → Hists → Out Hists
  | [], h => .ok h
  | (f, b) :: js, h => do
      let v ← job f b
      let h' ← setHist h f b v
      runJobs job js h'

/-- `src/tree/learner.rs:714-764` `build_histograms`. -/
def buildHists (F : FP) (cfg : Config) (ds : Dataset) (w : Nat) (bounds : Num × Num) (n : Node) :
    Out Node := do
  let fs ← ds.activeFeatures
  let js ← histJobs ds fs
  let h ← runJobs (histJob F cfg ds w bounds n) js n.hists
  return { n with hists := h }

/-! ## The root -/

/-- The loop `src/tree/learner.rs:631-635`: store the code of the gradient of each active example and add up
the codes. -/
def fillGrads (F : FP) (w : Nat) (bounds : Num × Num) (gradients : List Num) :
    List (Nat × Nat) → Nat → Blocks → Out (Nat × Blocks)
  | [], sum, bs => .ok (sum, bs)
  | (i, j) :: ps, sum, bs => do
      let v ← at? gradients j
      let r ← BitSlice.setScaledValue F w bs i v bounds.1 bounds.2
      fillGrads F w bounds gradients ps (sum + r.2.toNat) r.1

/-- `src/tree/learner.rs:613-650` `get_root_n2s!`. -/
def rootNode (F : FP) (cfg : Config) (ds : Dataset) (w : Nat) (o : Objective) : Out Node := do
  let n := ds.nactiveExamples
  let grads ← Blocks.zeroBlocks (BitBlock.blocksRequiredFor n * w)
  let mask ← Blocks.oneBits n
  let nblocks := Blocks.blockLen 32 mask
  let idx ← Blocks.fromIter 32 nblocks ((List.range nblocks).map (BitVec.ofNat 32))
  Out.assert (decide (n < 2 ^ 32 - 1))
  let ps ← ds.activePairs
  let r ← fillGrads F w o.bounds o.gradients ps 0 grads
  let hists ← newHists ds.data
  buildHists F cfg ds w o.bounds
    { nodeId := 0, exampleCount := n
      gradSum := BitSlice.linproj F w (F.ofNat r.1) (F.ofNat n) o.bounds.1 o.bounds.2
      compressed := false, hists, idx, mask, grads := r.2 }

/-! ## Splitting the examples -/

/-- The loop `src/tree/learner.rs:393-401` for the words `j`, ..., `j + k - 1`: `neg` tells whether the feature
mask is negated. -/
def splitLoop (idx pmask fmask : Blocks) (neg : Bool) : Nat → Nat → Nat → Blocks → Out (Nat × Blocks)
  | 0, _, zeros, cmask => .ok (zeros, cmask)
  | k + 1, j, zeros, cmask => do
      let i ← Blocks.get 32 idx j
      let pm ← Blocks.get 32 pmask j
      let fm ← Blocks.get 32 fmask i.toNat
      let mask := pm &&& (if neg then ~~~fm else fm)
      let cmask' ← Blocks.set 32 cmask j mask
      splitLoop idx pmask fmask neg k (j + 1) (if mask = 0#32 then zeros + 1 else zeros) cmask'

/-- The loop `src/tree/learner.rs:679-695` of `compress_examples!`, for the words `j`, ..., `j + n - 1` of the
parent; `k` is the number of words kept so far. -/
def compressLoop (w : Nat) (pidx pgrads : Blocks) :
    Nat → Nat → Nat → Blocks → Blocks → Blocks → Out (Nat × Blocks × Blocks × Blocks)
  | 0, _, k, mask, cidx, cgrads => .ok (k, mask, cidx, cgrads)
  | n + 1, j, k, mask, cidx, cgrads => do
      let i ← Blocks.get 32 pidx j
      let m ← Blocks.get 32 mask j
      if m = 0#32 then compressLoop w pidx pgrads n (j + 1) k mask cidx cgrads
      else do
        let mask' ← Blocks.set 32 mask k m
        let cidx' ← Blocks.set 32 cidx k i
        let cgrads' ← BitSlice.copyBlockFrom w cgrads pgrads j k
        compressLoop w pidx pgrads n (j + 1) (k + 1) mask' cidx' cgrads'

/-- The loop `src/tree/learner.rs:700-702`: zero `n` words of the mask from word `j` on. -/
def zeroWords : Nat → Nat → Blocks → Out Blocks
  | 0, _, mask => .ok mask
  | n + 1, j, mask => do
      let mask' ← Blocks.set 32 mask j 0#32
      zeroWords n (j + 1) mask'

/-- `src/tree/learner.rs:657-709` `compress_examples!`: `nchild` is the number of words that are not zero. The
mask range is shortened to the length of the indices. -/
def compress (w : Nat) (p c : Node) (nchild : Nat) : Out Node := do
  let nvalues := nchild * 4 * 8
  let cidx ← Blocks.zeroBits nvalues
  let cgrads ← Blocks.zeroBlocks (BitBlock.blocksRequiredFor nvalues * w)
  let nparent := Blocks.blockLen 32 p.idx
  let r ← compressLoop w p.idx p.grads nparent 0 0 c.mask cidx cgrads
  let mask ← zeroWords (nparent - nchild) nchild r.2.1
  return { c with compressed := true, idx := r.2.2.1, grads := r.2.2.2, mask := mask.take cidx.length }

/-- `src/tree/learner.rs:404-407`: is compression worth it? -/
def shouldCompress (F : FP) (cfg : Config) (zeros n : Nat) : Bool :=
  cfg.compressionThreshold.lt (F.div (F.ofNat zeros) (F.ofNat n)) && decide (8 < n)

/-- `src/tree/learner.rs:371-416` `split_examples`. The count and gradient sum of the child are set by the
caller. -/
def splitExamples (F : FP) (cfg : Config) (ds : Dataset) (w : Nat) (p : Node) (childId : Nat) (s : Split)
    (neg : Bool) : Out Node := do
  let fmask ← ds.getBitvec s.crit.featureId s.splitId
  let n := Blocks.blockLen 32 p.idx
  let hists ← newHists ds.data
  let cmask ← Blocks.zeroBlocks p.idx.length
  let r ← splitLoop p.idx p.mask fmask neg n 0 0 cmask
  let c := { p with nodeId := childId, exampleCount := 0, gradSum := .fin 0, hists, mask := r.2 }
  if shouldCompress F cfg r.1 n then do
    Out.assert (decide (0 < n - r.1))
    compress w p c (n - r.1)
  else return c

/-- `src/tree/learner.rs:346-369` `get_left_right_n2s`. -/
def childNodes (F : FP) (cfg : Config) (ds : Dataset) (w : Nat) (bounds : Num × Num) (p : Node) (s : Split) :
    Out (Node × Node) := do
  let l ← histAt p.hists s.crit.featureId s.splitId
  let left ← splitExamples F cfg ds w p (Tree.leftChild p.nodeId) s false
  let left ← buildHists F cfg ds w bounds { left with gradSum := l.gradSum, exampleCount := l.count }
  let right ← splitExamples F cfg ds w p (Tree.rightChild p.nodeId) s true
  return (left, { right with gradSum := F.sub p.gradSum l.gradSum
                             exampleCount := subU32 p.exampleCount l.count
                             hists := subHists F p.hists left.hists })

/-! ## Leaves -/

/-- `examples.extend(iter)`: call `next` until it returns `None`. At most `n * w` items can come, so `fuel` of
one more is enough (`Lemmas/NodeRep.lean`). -/
def drain {w : Nat} (it : IndexIter w) : Nat → IndexIter.St w → Out (List Nat)
  | 0, _ => .panic
  | k + 1, s => do
      let r ← it.next s
      match r.1 with
      | none => return []
      | some i => do
          let rest ← drain it k r.2
          return i :: rest

/-- All items of an iterator. -/
def items {w : Nat} (it : Out (IndexIter w × IndexIter.St w)) : Out (List Nat) := do
  let p ← it
  drain p.1 (p.1.n * w + 1) p.2

/-- Which examples of the node: all, those in the mask of the split, those not in it. -/
inductive Part where
  | all
  | left (fmask : Blocks)
  | right (fmask : Blocks)

/-- The iterators `src/tree/learner.rs:462-466`, `:493-497` and `:507-511`. -/
def nodeItems (n : Node) : Part → Out (List Nat)
  | .all => if n.compressed then items (Blocks.indexIterCompr n.mask n.idx) else items (Blocks.indexIter n.mask)
  | .left fm =>
      if n.compressed then items (Blocks.indexIterAndCompr n.mask fm n.idx)
      else items (Blocks.indexIterAnd n.mask fm)
  | .right fm =>
      if n.compressed then items (Blocks.indexIterAndnotCompr n.mask fm n.idx)
      else items (Blocks.indexIterAndnot n.mask fm)

/-- `map_index` on all items, `src/tree/learner.rs:208-212`. -/
def mapItems (ds : Dataset) : List Nat → Out (List Nat)
  | [] => .ok []
  | i :: is => do
      let j ← ds.mapIndex i
      let js ← mapItems ds is
      return j :: js

/-- `extend_examples!`, `src/tree/learner.rs:191-219`: the rows of the examples. -/
def leafRows (ds : Dataset) (is : List Nat) : Out (List Nat) := do
  let rows ← if ds.exampleSampling then mapItems ds is else .ok is
  Out.assert (!rows.isEmpty)
  return rows

/-- `src/data.rs:185` `get_target`. -/
def target (d : Data) : Out (List Num) := do
  let c ← at? d.cols d.nfeatures
  return c.values

/-- `src/tree/learner.rs:448-472` `predict_leaf_value`, given the examples of the node. -/
def leafFor (F : FP) (ds : Dataset) (is : List Nat) (o : Objective) : Out (Num × Objective) := do
  let rows ← leafRows ds is
  let t ← target ds.data
  o.predictLeafValue F t rows

/-- The part of the learner that changes: the tree, the objective, and the stack `n2s_stack` (top first). -/
structure State where
  tree : Tree
  obj : Objective
  stack : List Node

/-- `src/tree/learner.rs:448-472` `predict_leaf_value`. -/
def leafValue (F : FP) (ds : Dataset) (n : Node) (t : Tree) (o : Objective) : Out (Tree × Objective) := do
  let is ← nodeItems n .all
  let r ← leafFor F ds is o
  let t ← t.setValue n.nodeId r.1
  return (t, r.2)

/-- `src/tree/learner.rs:474-519` `predict_child_leaf_values`. -/
def childLeafValues (F : FP) (ds : Dataset) (n : Node) (s : Split) (t : Tree) (o : Objective) :
    Out (Tree × Objective) := do
  let fmask ← ds.getBitvec s.crit.featureId s.splitId
  let ls ← nodeItems n (.left fmask)
  let l ← leafFor F ds ls o
  let rs ← nodeItems n (.right fmask)
  let r ← leafFor F ds rs l.2
  let t ← t.setValue (Tree.leftChild n.nodeId) l.1
  let t ← t.setValue (Tree.rightChild n.nodeId) r.1
  return (t, r.2)

/-! ## Training -/

/-- The body of the loop `src/tree/learner.rs:260-287`, for the node `n` just taken from the stack. -/
def expand (F : FP) (cfg : Config) (ds : Dataset) (w : Nat) (n : Node) (st : State) : Out State := do
  let s ← findBestSplit F cfg ds n.gradSum n.exampleCount n.hists
  if s.crit.isNone then do
    let r ← leafValue F ds n st.tree st.obj
    return { st with tree := r.1, obj := r.2 }
  else if !st.tree.isMaxLeafNode (Tree.leftChild n.nodeId) then do
    let ch ← childNodes F cfg ds w st.obj.bounds n s
    let t ← st.tree.splitNode n.nodeId s.crit
    return { st with tree := t, stack := ch.1 :: ch.2 :: st.stack }
  else do
    let r ← childLeafValues F ds n s st.tree st.obj
    let t ← r.1.splitNode n.nodeId s.crit
    return { st with tree := t, obj := r.2 }

/-- The loop `src/tree/learner.rs:260-287`, at most `fuel` rounds; `none` if the stack is not empty then. -/
def loop (F : FP) (cfg : Config) (ds : Dataset) (w : Nat) : Nat → State → Out (Option State)
  | fuel, st =>
    match st.stack with
    | [] => .ok (some st)
    | n :: rest =>
      match fuel with
      | 0 => .ok none
      | fuel + 1 => do
          let st' ← expand F cfg ds w n { st with stack := rest }
          loop F cfg ds w fuel st'

/-- The loop `src/tree/learner.rs:528-531`. -/
def outOfBagLoop (F : FP) (d : Data) (t : Tree) : List Nat → Objective → Out Objective
  | [], o => .ok o
  | i :: is, o => do
      let p ← t.predictSingle F d i
      let o' ← o.updateOutOfBag F i p
      outOfBagLoop F d t is o'

/-- `src/tree/learner.rs:521-532` `predict_out_of_bag_examples`. -/
def outOfBag (F : FP) (ds : Dataset) (t : Tree) (o : Objective) : Out Objective :=
  if ds.exampleSampling then do
    let is ← ds.inactiveExamples
    outOfBagLoop F ds.data t is o
  else .ok o

/-- `src/tree/learner.rs:241-258`: `TreeLearner::new` and the start of `train`. -/
def start (F : FP) (cfg : Config) (ds : Dataset) (supercats : List (List Nat)) (w : Nat) (o : Objective) :
    Out State := do
  let t ← Tree.new cfg.maxTreeDepth supercats
  let root ← rootNode F cfg ds w o
  return ⟨t, o, [root]⟩

/-- `dispatch!`, `src/tree/learner.rs:170-184`: only these values of `discr_nbits` are accepted. -/
def width (cfg : Config) : Out Nat :=
  if cfg.discrNbits = 1 ∨ cfg.discrNbits = 2 ∨ cfg.discrNbits = 4 ∨ cfg.discrNbits = 8 then .ok cfg.discrNbits
  else .panic

/-- `src/tree/learner.rs:241-295`: `TreeLearner::new(..).train()` with at most `fuel` rounds of the loop; the
result is the tree and the objective with updated predictions, `none` if the rounds were not enough. -/
def train (F : FP) (cfg : Config) (ds : Dataset) (supercats : List (List Nat)) (o : Objective) (fuel : Nat) :
    Out (Option (Tree × Objective)) := do
  let w ← width cfg
  let st ← start F cfg ds supercats w o
  let r ← loop F cfg ds w fuel st
  match r with
  | none => return none
  | some st => do
      let o' ← outOfBag F ds st.tree st.obj
      return some (st.tree, o')

end Learner
end BitBoost
