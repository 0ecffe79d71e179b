import Verif.Model.Boost
import Verif.Model.SliceStore
/-!
# The tree learner with its slice stores (`src/tree/learner.rs`, `src/boost.rs`)

`Model/Learner.lean` has the values of the slices in the nodes. Here a node has the ranges, as in the code, and the
slices are in the four stores of the `TreeLearnerContext`, which is used again for every tree.

A `&mut [T]` into a store is modelled as: read the slice, compute, write it back when the borrow ends. What is done
with the values of the slices is shared with `Model/Learner.lean`. Simplification: the sum of the bins of all features
(`src/slice_store.rs:241-246`) is below 2^32, as is `max_nbins` of each feature.
-/
namespace BitBoost

/-- Overwrite the slice `r` (a `&mut [T]` from `get_slice_mut`, `src/slice_store.rs:152-154`). -/
def Store.writeSlice {T : Type} (s : Store T) (r : Range) (l : List T) : Out (Store T) :=
  if Store.checkRange s r ∧ l.length = r.2 - r.1 then
    .ok { s with mem := fun i => if r.1 ≤ i ∧ i < r.2 then l[i - r.1]? else s.mem i }
  else .panic

/-- `src/tree/learner.rs:121-132` `TreeLearnerContext`. The stack is part of the state of the loop below; the buffer
for examples is cleared before each use (`src/tree/learner.rs:196`). -/
structure Context where
  hist : Store HistVal
  layout : List Nat
  idx : Store BitBlock
  mask : Store BitBlock
  grad : Store BitBlock

/-- `src/tree/learner.rs:72-88` `Node2Split`. -/
structure NodeRef where
  nodeId : Nat
  exampleCount : Nat
  gradSum : Num
  compressed : Bool
  hists : Range
  idx : Range
  mask : Range
  grads : Range

namespace StoreLearner
open Learner

/-- `src/tree/learner.rs:139-140`: the number of bins of each feature. -/
def binSizes (d : Data) : Out (List Nat) :=
  (List.range d.nfeatures).foldr (fun f r => do
    let n ← Data.featMaxNbins d f
    let ns ← r
    return n :: ns) (.ok [])

/-- `src/tree/learner.rs:138-153` `TreeLearnerContext::new`; for `HistVal` (`f32` and `u32`) the alignment is 4 and the
size 8. -/
def newContext (cfg : Config) (d : Data) : Out Context := do
  let ns ← binSizes d
  let hist ← Store.new HistVal 4 8 8192
  let idx ← BitBlockStore.new 4096
  let mask ← BitBlockStore.new 4096
  let grad ← BitBlockStore.new (4096 * cfg.discrNbits)
  return { hist, layout := histLayout ns, idx, mask, grad }

/-- `src/tree/learner.rs:155-162` `reset`. -/
def reset (c : Context) : Context :=
  { c with hist := c.hist.reset, idx := c.idx.reset, mask := c.mask.reset, grad := c.grad.reset }

/-- `src/tree/learner.rs:91-101` `Node2Split::new`. -/
def newNode (c : Context) (id : Nat) : Out (NodeRef × Context) := do
  let p ← allocHists HistVal.zero c.hist c.layout
  return ({ nodeId := id, exampleCount := 0, gradSum := .fin 0, compressed := false, hists := p.1,
            idx := (0, 0), mask := (0, 0), grads := (0, 0) },
          { c with hist := p.2 })

/-! ## Choosing a split -/

/-- The loop `src/tree/learner.rs:311-337` over the candidates `b`, ..., `b + k - 1` of feature `f` with histogram
`hs`. -/
def scanBins (F : FP) (cfg : Config) (ds : Dataset) (pg : Num) (pc : Nat) (hs : List HistVal) (f : Nat) :
    Nat → Nat → Num × Split → Out (Num × Split)
  | 0, _, best => .ok best
  | k + 1, b, best => do
      let v ← at? hs b
      let best' ← tryCandidate F cfg ds pg pc f b v best
      scanBins F cfg ds pg pc hs f k (b + 1) best'

/-- The loop `src/tree/learner.rs:306-338` over the active features. -/
def scanFeatures (F : FP) (cfg : Config) (ds : Dataset) (c : Context) (n : NodeRef) :
    List Nat → Num × Split → Out (Num × Split)
  | [], best => .ok best
  | f :: fs, best => do
      let hs ← getHist c.hist c.layout n.hists f
      let k ← ds.getNbins f
      let best' ← scanBins F cfg ds n.gradSum n.exampleCount hs f k 0 best
      scanFeatures F cfg ds c n fs best'

/-- `src/tree/learner.rs:297-340` `find_best_split`. -/
def findBestSplit (F : FP) (cfg : Config) (ds : Dataset) (c : Context) (n : NodeRef) : Out Split := do
  let fs ← ds.activeFeatures
  let best ← scanFeatures F cfg ds c n fs (cfg.minGain, noSplit)
  return best.2

/-! ## Histograms -/

/-- A node with the values of some of its slices. -/
def view (n : NodeRef) (idx mask grads : Blocks) : Node :=
  { nodeId := n.nodeId, exampleCount := n.exampleCount, gradSum := n.gradSum, compressed := n.compressed
    hists := [], idx, mask, grads }

/-- `get_grad_sum!(.., simd)`, `src/tree/learner.rs:803-833`. -/
def gradSum (F : FP) (cfg : Config) (w : Nat) (bounds : Num × Num) (c : Context) (n : NodeRef) (fmask : Blocks) :
    Out HistVal := do
  let ems ← c.mask.readSlice n.mask
  let grads ← c.grad.readSlice n.grads
  if n.compressed then do
    let indices ← c.idx.readSlice n.idx
    Learner.gradSum F cfg w bounds (view n indices ems grads) fmask
  else Learner.gradSum F cfg w bounds (view n [] ems grads) fmask

/-- `hist_store.get_hist_mut(range, feat)[split] = v`, `src/tree/learner.rs:759-761`, `src/slice_store.rs:266-269`. -/
def setHist (c : Context) (r : Range) (f b : Nat) (v : HistVal) : Out Context := do
  let lohi ← histogramRange c.layout f
  Out.assert (decide (lohi.1 ≤ lohi.2 ∧ lohi.2 ≤ r.2 - r.1 ∧ b < lohi.2 - lohi.1))
  let s ← c.hist.writeAt r (lohi.1 + b) v
  return { c with hist := s }

/-- The jobs of `build_histograms` in the order of the sequential loop, `src/tree/learner.rs:742-762`; the other orders
are C45. -/
def runJobs (F : FP) (cfg : Config) (ds : Dataset) (w : Nat) (bounds : Num × Num) (n : NodeRef) :
    List (Nat × Nat) → Context → Out Context
  | [], c => .ok c
  | (f, b) :: js, c => do
      let fmask ← ds.getBitvec f b
      let v ← gradSum F cfg w bounds c n fmask
      let c' ← setHist c n.hists f b v
      runJobs F cfg ds w bounds n js c'

/-- `src/tree/learner.rs:714-764` `build_histograms`. -/
def buildHists (F : FP) (cfg : Config) (ds : Dataset) (w : Nat) (bounds : Num × Num) (n : NodeRef) (c : Context) :
    Out Context := do
  let fs ← ds.activeFeatures
  let js ← histJobs ds fs
  runJobs F cfg ds w bounds n js c

/-! ## The root -/

/-- `src/tree/learner.rs:613-650` `get_root_n2s!`. -/
def rootNode (F : FP) (cfg : Config) (ds : Dataset) (w : Nat) (o : Objective) (c : Context) :
    Out (NodeRef × Context) := do
  let n := ds.nactiveExamples
  let g ← BitBlockStore.allocZeroBitslice w c.grad n
  let m ← BitBlockStore.allocOneBits c.mask n
  let mask ← m.2.readSlice m.1
  let nblocks := Blocks.blockLen 32 mask
  let i ← BitBlockStore.allocFromIter 32 c.idx nblocks ((List.range nblocks).map (BitVec.ofNat 32))
  Out.assert (decide (n < 2 ^ 32 - 1))
  let ps ← ds.activePairs
  let grads ← g.2.readSlice g.1
  let r ← fillGrads F w o.bounds o.gradients ps 0 grads
  let gs ← g.2.writeSlice g.1 r.2
  let p ← newNode { c with grad := gs, mask := m.2, idx := i.2 } 0
  let node := { p.1 with idx := i.1, mask := m.1, grads := g.1, exampleCount := n
                         gradSum := BitSlice.linproj F w (F.ofNat r.1) (F.ofNat n) o.bounds.1 o.bounds.2 }
  let c ← buildHists F cfg ds w o.bounds node p.2
  return (node, c)

/-! ## Splitting the examples -/

/-- `src/tree/learner.rs:657-709` `compress_examples!`; `p` is the parent, `n` the child. -/
def compress (w : Nat) (c : Context) (p n : NodeRef) (nchild : Nat) : Out (NodeRef × Context) := do
  let nvalues := nchild * 4 * 8
  let i ← BitBlockStore.allocZeroBits c.idx nvalues
  let g ← BitBlockStore.allocZeroBitslice w c.grad nvalues
  let ri ← i.2.getTwoSlicesMut p.idx i.1
  let pidx ← i.2.readSlice ri.1
  let cidx ← i.2.readSlice ri.2
  let mask ← c.mask.readSlice n.mask
  let rg ← g.2.getTwoSlicesMut p.grads g.1
  let pgrads ← g.2.readSlice rg.1
  let cgrads ← g.2.readSlice rg.2
  let nparent := Blocks.blockLen 32 pidx
  let r ← compressLoop w pidx pgrads nparent 0 0 mask cidx cgrads
  let mask' ← zeroWords (nparent - nchild) nchild r.2.1
  let ms ← c.mask.writeSlice n.mask mask'
  let is ← i.2.writeSlice ri.2 r.2.2.1
  let gs ← g.2.writeSlice rg.2 r.2.2.2
  return ({ n with compressed := true, idx := i.1, grads := g.1
                   mask := (n.mask.1, n.mask.1 + (i.1.2 - i.1.1)) },
          { c with mask := ms, idx := is, grad := gs })

/-- `src/tree/learner.rs:371-416` `split_examples`. -/
def splitExamples (F : FP) (cfg : Config) (ds : Dataset) (w : Nat) (p : NodeRef) (childId : Nat) (s : Split)
    (neg : Bool) (c : Context) : Out (NodeRef × Context) := do
  let fmask ← ds.getBitvec s.crit.featureId s.splitId
  let pidx ← c.idx.readSlice p.idx
  let nw := Blocks.blockLen 32 pidx
  let q ← newNode c childId
  let m ← BitBlockStore.allocZeroBlocks q.2.mask pidx.length
  let rm ← m.2.getTwoSlicesMut p.mask m.1
  let pmask ← m.2.readSlice rm.1
  let cmask ← m.2.readSlice rm.2
  let r ← splitLoop pidx pmask fmask neg nw 0 0 cmask
  let ms ← m.2.writeSlice rm.2 r.2
  let n := { q.1 with compressed := p.compressed, idx := p.idx, grads := p.grads, mask := m.1 }
  let c' := { q.2 with mask := ms }
  if shouldCompress F cfg r.1 nw then do
    Out.assert (decide (0 < nw - r.1))
    compress w c' p n (nw - r.1)
  else return (n, c')

/-- `src/tree/learner.rs:346-369` `get_left_right_n2s`, with `derive_histograms` (`:429-434`). -/
def childNodes (F : FP) (cfg : Config) (ds : Dataset) (w : Nat) (bounds : Num × Num) (p : NodeRef) (s : Split)
    (c : Context) : Out ((NodeRef × NodeRef) × Context) := do
  let hs ← getHist c.hist c.layout p.hists s.crit.featureId
  let l ← at? hs s.splitId
  let a ← splitExamples F cfg ds w p (Tree.leftChild p.nodeId) s false c
  let left := { a.1 with gradSum := l.gradSum, exampleCount := l.count }
  let c1 ← buildHists F cfg ds w bounds left a.2
  let b ← splitExamples F cfg ds w p (Tree.rightChild p.nodeId) s true c1
  let right := { b.1 with gradSum := F.sub p.gradSum l.gradSum, exampleCount := subU32 p.exampleCount l.count }
  let h ← b.2.hist.histsSubtract (HistVal.sub F) p.hists left.hists right.hists
  return ((left, right), { b.2 with hist := h })

/-! ## Leaves -/

/-- The iterators `src/tree/learner.rs:462-466`, `:493-497` and `:507-511`. -/
def nodeItems (c : Context) (n : NodeRef) (part : Part) : Out (List Nat) := do
  let mask ← c.mask.readSlice n.mask
  if n.compressed then do
    let idx ← c.idx.readSlice n.idx
    Learner.nodeItems (view n idx mask []) part
  else Learner.nodeItems (view n [] mask []) part

/-- `src/tree/learner.rs:448-472` `predict_leaf_value`. -/
def leafValue (F : FP) (ds : Dataset) (c : Context) (n : NodeRef) (t : Tree) (o : Objective) :
    Out (Tree × Objective) := do
  let is ← nodeItems c n .all
  let r ← leafFor F ds is o
  let t ← t.setValue n.nodeId r.1
  return (t, r.2)

/-- `src/tree/learner.rs:474-519` `predict_child_leaf_values`. -/
def childLeafValues (F : FP) (ds : Dataset) (c : Context) (n : NodeRef) (s : Split) (t : Tree) (o : Objective) :
    Out (Tree × Objective) := do
  let fmask ← ds.getBitvec s.crit.featureId s.splitId
  let ls ← nodeItems c n (.left fmask)
  let l ← leafFor F ds ls o
  let rs ← nodeItems c n (.right fmask)
  let r ← leafFor F ds rs l.2
  let t ← t.setValue (Tree.leftChild n.nodeId) l.1
  let t ← t.setValue (Tree.rightChild n.nodeId) r.1
  return (t, r.2)

/-! ## Training -/

/-- The part of the learner that changes. -/
structure State where
  tree : Tree
  obj : Objective
  ctx : Context
  stack : List NodeRef

/-- `src/tree/learner.rs:285-286`: the histograms and the mask of a node that is done are freed. -/
def freeNode (n : NodeRef) (c : Context) : Out Context := do
  let h ← c.hist.freeSlice n.hists
  let m ← c.mask.freeSlice n.mask
  return { c with hist := h, mask := m }

/-- The body of the loop `src/tree/learner.rs:260-287`, for the node `n` just taken from the stack. -/
def expand (F : FP) (cfg : Config) (ds : Dataset) (w : Nat) (n : NodeRef) (st : State) : Out State := do
  let s ← findBestSplit F cfg ds st.ctx n
  if s.crit.isNone then do
    let r ← leafValue F ds st.ctx n st.tree st.obj
    let c ← freeNode n st.ctx
    return { st with tree := r.1, obj := r.2, ctx := c }
  else if !st.tree.isMaxLeafNode (Tree.leftChild n.nodeId) then do
    let ch ← childNodes F cfg ds w st.obj.bounds n s st.ctx
    let t ← st.tree.splitNode n.nodeId s.crit
    let c ← freeNode n ch.2
    return { st with tree := t, ctx := c, stack := ch.1.1 :: ch.1.2 :: st.stack }
  else do
    let r ← childLeafValues F ds st.ctx n s st.tree st.obj
    let t ← r.1.splitNode n.nodeId s.crit
    let c ← freeNode n st.ctx
    return { st with tree := t, obj := r.2, ctx := c }

/-- The loop `src/tree/learner.rs:260-287`, at most `fuel` rounds; `none` if the stack is not empty then. -/
def loop (F : FP) (cfg : Config) (ds : Dataset) (w : Nat) : Nat → State → Out (Option State)
  | fuel, st =>
    match st.stack with
    | [] => .ok (some st)
    | n :: rest =>
      match fuel with
      | 0 => .ok none
      | fuel + 1 => do
          let st' ← expand F cfg ds w n { st with stack := rest }
          loop F cfg ds w fuel st'

/-- `src/tree/learner.rs:241-258`: `TreeLearner::new` and the start of `train`. -/
def start (F : FP) (cfg : Config) (ds : Dataset) (supercats : List (List Nat)) (w : Nat) (o : Objective)
    (c : Context) : Out State := do
  let c := reset c
  let t ← Tree.new cfg.maxTreeDepth supercats
  let r ← rootNode F cfg ds w o c
  return ⟨t, o, r.2, [r.1]⟩

/-- `src/tree/learner.rs:241-295`: `TreeLearner::new(ctx, ..).train()` with at most `fuel` rounds of the loop; the
result is the tree, the objective with updated predictions and the context, `none` if the rounds were not enough. -/
def train (F : FP) (cfg : Config) (ds : Dataset) (supercats : List (List Nat)) (o : Objective) (fuel : Nat)
    (c : Context) : Out (Option ((Tree × Objective) × Context)) := do
  let w ← width cfg
  let st ← start F cfg ds supercats w o c
  let r ← loop F cfg ds w fuel st
  match r with
  | none => return none
  | some st => do
      let o' ← outOfBag F ds st.tree st.obj
      return some ((st.tree, o'), st.ctx)

/-! ## Boosting -/

/-- `src/boost.rs:88-90`: learn a tree with the context. -/
def learnTree (F : FP) (cfg : Config) (ds : Dataset) (o : Objective) (c : Context) :
    Out ((Tree × Objective) × Context) := do
  let r ← train F cfg ds ds.supercats o (2 ^ cfg.maxTreeDepth - 1) c
  match r with
  | some p => return p
  | none => .panic

/-- `src/boost.rs:78-116` `train_one_iter`. -/
def trainOneIter (F : FP) (M : Libm) (cfg : Config) (d : Data) (metrics : List Metric) (b : Booster) (c : Context) :
    Out (Booster × Context) := do
  let target ← target d
  let o ← b.objective.update F M target
  let ds ← b.dataset.update F cfg o.gradients o.bounds
  let r ← learnTree F cfg ds o c
  return ({ dataset := ds, objective := r.1.2, iterCount := b.iterCount + 1
            ensemble := b.ensemble.pushTree r.1.1
            printed := b.printed ++
              Booster.evalMetrics F M cfg metrics (b.iterCount + 1) target r.1.2.predictions },
          r.2)

/-- The loop `src/boost.rs:71-73`. -/
def iterate (F : FP) (M : Libm) (cfg : Config) (d : Data) (metrics : List Metric) :
    Nat → Booster → Context → Out (Booster × Context)
  | 0, b, c => .ok (b, c)
  | n + 1, b, c => do
      let r ← trainOneIter F M cfg d metrics b c
      iterate F M cfg d metrics n r.1 r.2

/-- `src/boost.rs:59-76` `train`: the final state and context. -/
def trainBooster (F : FP) (M : Libm) (cfg : Config) (d : Data) (metrics : List Metric) (b : Booster) :
    Out (Booster × Context) := do
  Out.assert (b.iterCount == 0)
  let c ← newContext cfg d
  let b ← Booster.prepare F M cfg d b
  iterate F M cfg d metrics cfg.niterations b c

/-- `Booster::new(config, data, objective, metrics).train()`. -/
def run (F : FP) (M : Libm) (cfg : Config) (d : Data) (rng : Rng) (metrics : List Metric) (o : Objective) :
    Out Booster := do
  let b ← Booster.new F cfg d rng o
  let r ← trainBooster F M cfg d metrics b
  return r.1

end StoreLearner
end BitBoost
