import Verif.Model.Learner
/-!
# The parallel loop of `build_histograms` (`src/tree/learner.rs:742-762`)

`Learner.runJobs` runs the jobs of the loop one after the other. Here they run in parallel, in any
interleaving. The only thing the jobs share that is written is the histogram store, behind a `Mutex`; a
job computes its value from data no job writes, takes the lock, writes the value and lets the lock go.

Simplifications: the list of jobs (the candidates of all active features) is made before the loop, not by
the workers (`src/tree/learner.rs:744-749` only reads the dataset); a value is computed in one step, since
it reads only data that is not written during the loop; a panic and a call with undefined behaviour both end
the job. How rayon assigns jobs to threads is not modelled: any job can take the next step.
-/
namespace BitBoost
namespace Parallel

/-- How far a job is. -/
inductive Phase where
  /-- Not begun. -/
  | waiting
  /-- The value is computed, `src/tree/learner.rs:750-757`; the lock is not yet taken. -/
  | computed (v : HistVal)
  /-- Holds the lock, `src/tree/learner.rs:759`. -/
  | holding (v : HistVal)
  /-- Has written its value and still holds the lock, `src/tree/learner.rs:760-761`. -/
  | written
  /-- Done, and the lock is released, `src/tree/learner.rs:762`. -/
  | finished
  /-- Panicked, or dropped because a job of the same worker panicked. -/
  | failed
deriving DecidableEq

/-- The state shared by the workers: the histograms, the mutex, and how far each job is. -/
structure PState where
  hists : Hists
  /-- The job that holds the mutex. -/
  lock : Option Nat
  /-- A job panicked while it held the mutex. -/
  poisoned : Bool
  phases : List Phase
deriving DecidableEq

/-- The state at `src/tree/learner.rs:742`. -/
def PState.init (js : List (Nat × Nat)) (h : Hists) : PState :=
  { hists := h, lock := none, poisoned := false, phases := js.map fun _ => .waiting }

/-- One step of one job, `src/tree/learner.rs:750-762`. -/
inductive Step (job : Nat → Nat → Out HistVal) (js : List (Nat × Nat)) : PState → PState → Prop
  /-- `:750-757`. -/
  | compute {s : PState} {i f b : Nat} {v : HistVal} (hp : s.phases[i]? = some .waiting)
      (hj : js[i]? = some (f, b)) (hv : job f b = .ok v) :
      Step job js s { s with phases := s.phases.set i (.computed v) }
  /-- `:750-757`, when it panics. -/
  | computeFails {s : PState} {i f b : Nat} (hp : s.phases[i]? = some .waiting)
      (hj : js[i]? = some (f, b)) (hv : ∀ v, job f b ≠ .ok v) :
      Step job js s { s with phases := s.phases.set i .failed }
  /-- A job not begun is dropped, which happens only after a panic. -/
  | drop {s : PState} {i : Nat} (hp : s.phases[i]? = some .waiting) (hf : .failed ∈ s.phases) :
      Step job js s { s with phases := s.phases.set i .failed }
  /-- `:759`. -/
  | acquire {s : PState} {i : Nat} {v : HistVal} (hp : s.phases[i]? = some (.computed v))
      (hl : s.lock = none) (hn : s.poisoned = false) :
      Step job js s { s with lock := some i, phases := s.phases.set i (.holding v) }
  /-- `:759`, when the mutex is poisoned: `expect` panics. -/
  | acquireFails {s : PState} {i : Nat} {v : HistVal} (hp : s.phases[i]? = some (.computed v))
      (hl : s.lock = none) (hn : s.poisoned = true) :
      Step job js s { s with phases := s.phases.set i .failed }
  /-- `:760-761`. -/
  | write {s : PState} {i f b : Nat} {v : HistVal} {h : Hists} (hp : s.phases[i]? = some (.holding v))
      (hj : js[i]? = some (f, b)) (hw : Learner.setHist s.hists f b v = .ok h) :
      Step job js s { s with hists := h, phases := s.phases.set i .written }
  /-- `:760-761`, when the index is out of range: the panic drops the guard, which poisons the mutex. -/
  | writeFails {s : PState} {i f b : Nat} {v : HistVal} (hp : s.phases[i]? = some (.holding v))
      (hj : js[i]? = some (f, b)) (hw : ∀ h, Learner.setHist s.hists f b v ≠ .ok h) :
      Step job js s { s with lock := none, poisoned := true, phases := s.phases.set i .failed }
  /-- `:762`. -/
  | release {s : PState} {i : Nat} (hp : s.phases[i]? = some .written) :
      Step job js s { s with lock := none, phases := s.phases.set i .finished }

/-- A schedule of `k` steps from one state to another. -/
inductive Schedule (job : Nat → Nat → Out HistVal) (js : List (Nat × Nat)) :
    Nat → PState → PState → Prop
  | nil {s : PState} : Schedule job js 0 s s
  | cons {k : Nat} {s t u : PState} (h : Schedule job js k s t) (st : Step job js t u) :
      Schedule job js (k + 1) s u

/-- Every job has ended: the parallel iterator returns. -/
def PState.Ended (s : PState) : Prop := ∀ p ∈ s.phases, p = .finished ∨ p = .failed

/-- No job panicked: the parallel iterator returns normally, and does not rethrow a panic. -/
def PState.Normal (s : PState) : Prop := ∀ p ∈ s.phases, p = .finished

end Parallel

namespace Learner
open Parallel

/-- `src/tree/learner.rs:714-764` `build_histograms` under a schedule: the parallel loop can turn node `n`
into `n'`. -/
def BuildsPar (F : FP) (cfg : Config) (ds : Dataset) (w : Nat) (bounds : Num × Num) (n n' : Node) : Prop :=
  ∃ fs js k s, ds.activeFeatures = .ok fs ∧ histJobs ds fs = .ok js ∧
    Schedule (histJob F cfg ds w bounds n) js k (PState.init js n.hists) s ∧ s.Normal ∧
    n' = { n with hists := s.hists }

/-! ## The learner with the parallel loop

The functions of `Model/Learner.lean` that build histograms, with `build` for the call of `build_histograms`.
-/

/-- `src/tree/learner.rs:613-650` `get_root_n2s!`. -/
def rootNodeWith (build : Node → Out Node) (F : FP) (ds : Dataset) (w : Nat) (o : Objective) : Out Node := do
  let n := ds.nactiveExamples
  let grads ← Blocks.zeroBlocks (BitBlock.blocksRequiredFor n * w)
  let mask ← Blocks.oneBits n
  let nblocks := Blocks.blockLen 32 mask
  let idx ← Blocks.fromIter 32 nblocks ((List.range nblocks).map (BitVec.ofNat 32))
  Out.assert (decide (n < 2 ^ 32 - 1))
  let ps ← ds.activePairs
  let r ← fillGrads F w o.bounds o.gradients ps 0 grads
  let hists ← newHists ds.data
  build
    { nodeId := 0, exampleCount := n
      gradSum := BitSlice.linproj F w (F.ofNat r.1) (F.ofNat n) o.bounds.1 o.bounds.2
      compressed := false, hists, idx, mask, grads := r.2 }

/-- `src/tree/learner.rs:346-369` `get_left_right_n2s`. -/
def childNodesWith (build : Node → Out Node) (F : FP) (cfg : Config) (ds : Dataset) (w : Nat) (p : Node)
    (s : Split) : Out (Node × Node) := do
  let l ← histAt p.hists s.crit.featureId s.splitId
  let left ← splitExamples F cfg ds w p (Tree.leftChild p.nodeId) s false
  let left ← build { left with gradSum := l.gradSum, exampleCount := l.count }
  let right ← splitExamples F cfg ds w p (Tree.rightChild p.nodeId) s true
  return (left, { right with gradSum := F.sub p.gradSum l.gradSum
                             exampleCount := subU32 p.exampleCount l.count
                             hists := subHists F p.hists left.hists })

/-- The body of the loop `src/tree/learner.rs:260-287`. -/
def expandWith (build : Node → Out Node) (F : FP) (cfg : Config) (ds : Dataset) (w : Nat) (n : Node)
    (st : State) : Out State := do
  let s ← findBestSplit F cfg ds n.gradSum n.exampleCount n.hists
  if s.crit.isNone then do
    let r ← leafValue F ds n st.tree st.obj
    return { st with tree := r.1, obj := r.2 }
  else if !st.tree.isMaxLeafNode (Tree.leftChild n.nodeId) then do
    let ch ← childNodesWith build F cfg ds w n s
    let t ← st.tree.splitNode n.nodeId s.crit
    return { st with tree := t, stack := ch.1 :: ch.2 :: st.stack }
  else do
    let r ← childLeafValues F ds n s st.tree st.obj
    let t ← r.1.splitNode n.nodeId s.crit
    return { st with tree := t, obj := r.2 }

/-- `src/tree/learner.rs:241-258`. -/
def startWith (build : Node → Out Node) (F : FP) (cfg : Config) (ds : Dataset) (supercats : List (List Nat))
    (w : Nat) (o : Objective) : Out State := do
  let t ← Tree.new cfg.maxTreeDepth supercats
  let root ← rootNodeWith build F ds w o
  return ⟨t, o, [root]⟩

/-- What the parallel loop can do with the nodes it is called on. -/
def Scheduled (F : FP) (cfg : Config) (ds : Dataset) (w : Nat) (bounds : Num × Num)
    (build : Node → Out Node) : Prop :=
  ∀ n n', build n = .ok n' → BuildsPar F cfg ds w bounds n n'

/-- The states the learner can be in, when every call of `build_histograms` runs under some schedule. -/
inductive TrainingPar (F : FP) (cfg : Config) (ds : Dataset) (supercats : List (List Nat)) (w : Nat)
    (o : Objective) : State → Prop
  | start {st : State} (build : Node → Out Node) (hb : Scheduled F cfg ds w o.bounds build)
      (h : startWith build F cfg ds supercats w o = .ok st) : TrainingPar F cfg ds supercats w o st
  | round {st st' : State} {n : Node} {rest : List Node} (build : Node → Out Node)
      (hb : Scheduled F cfg ds w st.obj.bounds build) (hst : TrainingPar F cfg ds supercats w o st)
      (hn : st.stack = n :: rest) (h : expandWith build F cfg ds w n { st with stack := rest } = .ok st') :
      TrainingPar F cfg ds supercats w o st'

/-- `src/tree/learner.rs:241-295` with the parallel loop: training can end with tree `t` and objective `o'`. -/
def TrainsPar (F : FP) (cfg : Config) (ds : Dataset) (supercats : List (List Nat)) (o : Objective) (t : Tree)
    (o' : Objective) : Prop :=
  ∃ w st, width cfg = .ok w ∧ TrainingPar F cfg ds supercats w o st ∧ st.stack = [] ∧ st.tree = t ∧
    outOfBag F ds st.tree st.obj = .ok o'

end Learner
end BitBoost
