import Verif.Model.Learner
import Verif.Spec.Dataset
import Verif.Spec.Slice
/-!
# A reference tree learner

The learner of `src/tree/learner.rs` without bit masks, vector instructions and compression: a node has the
plain list of its examples. Finding the best split, the leaf values and the order of the work are those of the
learner.
-/
namespace BitBoost.Spec
open BitBoost Learner

/-- A node with the list of its (active) examples. -/
structure RefNode where
  nodeId : Nat
  examples : List Nat
  exampleCount : Nat
  gradSum : Num
  hists : Hists

/-- The histogram value of a candidate with mask `m`, for the examples of a node: how many of them are in the
mask and the sum of their gradient codes, scaled to the gradient bounds (left out, as 0, when there are too few
examples). `codes` are the codes of the gradients. -/
def refHist (F : FP) (cfg : Config) (w : Nat) (bounds : Num × Num) (codes : List Nat) (examples : List Nat)
    (m : Blocks) : HistVal :=
  let sel := examples.filter (bitAt m)
  if sel.length < cfg.minExamplesLeaf then ⟨.fin 0, sel.length⟩
  else ⟨BitSlice.linproj F w (F.ofNat (sel.map fun i => codes.getD i 0).sum) (F.ofNat sel.length)
    bounds.1 bounds.2, sel.length⟩

/-- The histograms of a node. -/
def refHists (F : FP) (cfg : Config) (ds : Dataset) (w : Nat) (bounds : Num × Num) (codes : List Nat)
    (examples : List Nat) : Out Hists := do
  let h0 ← newHists ds.data
  let fs ← ds.activeFeatures
  let js ← histJobs ds fs
  runJobs (fun f b => do
    let m ← ds.getBitvec f b
    return refHist F cfg w bounds codes examples m) js h0

/-- The codes of the gradients of the active examples. -/
def gradCodes (F : FP) (w : Nat) (bounds : Num × Num) (gradients : List Num) :
    List (Nat × Nat) → Out (List Nat)
  | [] => .ok []
  | (_, j) :: ps => do
      let v ← at? gradients j
      let cs ← gradCodes F w bounds gradients ps
      return (BitSlice.discretise F w v bounds.1 bounds.2).toNat :: cs

/-- The root: all active examples. -/
def refRoot (F : FP) (cfg : Config) (ds : Dataset) (w : Nat) (bounds : Num × Num) (codes : List Nat) :
    Out RefNode := do
  let n := ds.nactiveExamples
  let h ← refHists F cfg ds w bounds codes (List.range n)
  return ⟨0, List.range n, n, BitSlice.linproj F w (F.ofNat codes.sum) (F.ofNat n) bounds.1 bounds.2, h⟩

/-- The two children: the examples in the mask of the split, and the others. -/
def refChildren (F : FP) (cfg : Config) (ds : Dataset) (w : Nat) (bounds : Num × Num) (codes : List Nat)
    (n : RefNode) (s : Split) : Out (RefNode × RefNode) := do
  let l ← histAt n.hists s.crit.featureId s.splitId
  let m ← ds.getBitvec s.crit.featureId s.splitId
  let ls := n.examples.filter (bitAt m)
  let rs := n.examples.filter fun i => !bitAt m i
  let h ← refHists F cfg ds w bounds codes ls
  return (⟨2 * n.nodeId + 1, ls, l.count, l.gradSum, h⟩,
    ⟨2 * n.nodeId + 2, rs, subU32 n.exampleCount l.count, F.sub n.gradSum l.gradSum, subHists F n.hists h⟩)

structure RefState where
  tree : Tree
  obj : Objective
  stack : List RefNode

/-- One round: the node becomes a leaf, or is split; the children are leaves if the tree cannot get deeper. -/
def refExpand (F : FP) (cfg : Config) (ds : Dataset) (w : Nat) (codes : List Nat) (n : RefNode)
    (st : RefState) : Out RefState := do
  let s ← findBestSplit F cfg ds n.gradSum n.exampleCount n.hists
  if s.crit.isNone then do
    let r ← leafFor F ds n.examples st.obj
    let t ← st.tree.setValue n.nodeId r.1
    return { st with tree := t, obj := r.2 }
  else if !st.tree.isMaxLeafNode (2 * n.nodeId + 1) then do
    let ch ← refChildren F cfg ds w st.obj.bounds codes n s
    let t ← st.tree.splitNode n.nodeId s.crit
    return { st with tree := t, stack := ch.1 :: ch.2 :: st.stack }
  else do
    let m ← ds.getBitvec s.crit.featureId s.splitId
    let l ← leafFor F ds (n.examples.filter (bitAt m)) st.obj
    let r ← leafFor F ds (n.examples.filter fun i => !bitAt m i) l.2
    let t ← st.tree.setValue (2 * n.nodeId + 1) l.1
    let t ← t.setValue (2 * n.nodeId + 2) r.1
    let t ← t.splitNode n.nodeId s.crit
    return { st with tree := t, obj := r.2 }

/-- At most `fuel` rounds. -/
def refLoop (F : FP) (cfg : Config) (ds : Dataset) (w : Nat) (codes : List Nat) :
    Nat → RefState → Out (Option RefState)
  | fuel, st =>
    match st.stack with
    | [] => .ok (some st)
    | n :: rest =>
      match fuel with
      | 0 => .ok none
      | fuel + 1 => do
          let st' ← refExpand F cfg ds w codes n { st with stack := rest }
          refLoop F cfg ds w codes fuel st'

/-- Train a tree: the root, the rounds, and the predictions for the examples left out. -/
def refTrain (F : FP) (cfg : Config) (ds : Dataset) (supercats : List (List Nat)) (o : Objective)
    (fuel : Nat) : Out (Option (Tree × Objective)) := do
  let w ← width cfg
  let t ← Tree.new cfg.maxTreeDepth supercats
  Out.assert (decide (0 < ds.nactiveExamples))
  let ps ← ds.activePairs
  let codes ← gradCodes F w o.bounds o.gradients ps
  let root ← refRoot F cfg ds w o.bounds codes
  let r ← refLoop F cfg ds w codes fuel ⟨t, o, [root]⟩
  match r with
  | none => return none
  | some st => do
      let o' ← outOfBag F ds st.tree st.obj
      return some (st.tree, o')

end BitBoost.Spec
