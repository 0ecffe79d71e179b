import Verif.Model.Data
/-!
# Trees (`src/tree/tree.rs`)

A tree is a heap-shaped pair of arrays. Node `n` has the children `2n+1` and `2n+2`.
-/
namespace BitBoost

/-- `src/tree/tree.rs:13-19` `SplitType`. -/
inductive SplitType where
  | noSplit
  | loCardCatEq
  | hiCardCatLt
  | numLt
deriving DecidableEq, Repr

/-- `src/tree/tree.rs:22-26` `SplitCrit`. -/
structure SplitCrit where
  splitType : SplitType
  featureId : Nat
  splitValue : Num
deriving DecidableEq, Repr

/-- `src/tree/tree.rs:29-35` `no_split`. -/
def SplitCrit.none : SplitCrit := ⟨.noSplit, 0, .fin 0⟩

/-- `src/tree/tree.rs:37-39` `is_no_split`. -/
def SplitCrit.isNone (c : SplitCrit) : Bool := c.splitType == .noSplit

/-- `src/tree/tree.rs:43-53` `Tree`. -/
structure Tree where
  ninternal : Nat
  maxDepth : Nat
  splitCrits : List SplitCrit
  nodeValues : List Num
  shrinkage : Num
  bias : Num
  supercats : List (List Nat)
deriving DecidableEq

namespace Tree

/-- `src/tree/tree.rs:56-75` `new` with `src/tree/tree.rs:86` `max_nnodes` (the shift is assumed not to
overflow). -/
def new (maxDepth : Nat) (supercats : List (List Nat)) : Out Tree := do
  Out.assert (decide (0 < maxDepth))
  return { ninternal := 0, maxDepth
           splitCrits := List.replicate (2 ^ (maxDepth + 1) - 1) SplitCrit.none
           nodeValues := List.replicate (2 ^ (maxDepth + 1) - 1) (.fin 0)
           shrinkage := .fin 1, bias := .fin 0, supercats }

/-- `src/tree/tree.rs:78` `left_child`. -/
def leftChild (n : Nat) : Nat := 2 * n + 1
/-- `src/tree/tree.rs:79` `right_child`. -/
def rightChild (n : Nat) : Nat := 2 * n + 2
/-- `src/tree/tree.rs:80` `parent`: `(node_id - 1) / 2` with a 64 bit subtraction that wraps around for the root (a
debug build panics there). -/
def parent (n : Nat) : Nat := (n + 2 ^ 64 - 1) % 2 ^ 64 / 2
/-- `src/tree/tree.rs:82` `max_ninternal`. -/
def maxNinternal (t : Tree) : Nat := 2 ^ t.maxDepth - 1
/-- `src/tree/tree.rs:83` `max_nleafs`. -/
def maxNleafs (t : Tree) : Nat := 2 ^ t.maxDepth
/-- `src/tree/tree.rs:85` `nleafs`. -/
def nleafs (t : Tree) : Nat := t.ninternal + 1
/-- `src/tree/tree.rs:86` `max_nnodes`. -/
def maxNnodes (t : Tree) : Nat := 2 ^ (t.maxDepth + 1) - 1
/-- `src/tree/tree.rs:87` `nnodes`. -/
def nnodes (t : Tree) : Nat := t.ninternal + t.nleafs
/-- `src/tree/tree.rs:77` `is_valid_node_id`. -/
def isValidNodeId (t : Tree) (n : Nat) : Bool := decide (n < t.nnodes)
/-- `src/tree/tree.rs:98-100` `is_max_leaf_node`. -/
def isMaxLeafNode (t : Tree) (n : Nat) : Bool := decide (t.maxNinternal ≤ n)
/-- `src/tree/tree.rs:89` `node_value`. -/
def nodeValue (t : Tree) (n : Nat) : Out Num :=
  match t.nodeValues[n]? with
  | some v => .ok v
  | none => .panic

/-- `src/tree/tree.rs:92-95` `set_value`. -/
def setValue (t : Tree) (n : Nat) (v : Num) : Out Tree := do
  Out.assert v.isFinite
  Out.assert (decide (n < t.nodeValues.length))
  return { t with nodeValues := t.nodeValues.set n v }

/-- `src/tree/tree.rs:102-109` `split_node`. -/
def splitNode (t : Tree) (n : Nat) (c : SplitCrit) : Out Tree :=
  match t.splitCrits[n]? with
  | none => .panic
  | some old => do
      Out.assert old.isNone
      Out.assert (!c.isNone)
      Out.assert (!t.isMaxLeafNode n)
      return { t with splitCrits := t.splitCrits.set n c, ninternal := t.ninternal + 1 }

/-- `src/tree/tree.rs:111-113` `get_supercat`. -/
def getSupercat (t : Tree) (feat cat : Nat) : Out Nat :=
  match t.supercats[feat]?.bind (·[cat]?) with
  | some c => .ok c
  | none => .panic

/-- `src/tree/tree.rs:162-164` `set_shrinkage`. -/
def setShrinkage (F : FP) (t : Tree) (s : Num) : Tree := { t with shrinkage := F.mul t.shrinkage s }

/-- `src/tree/tree.rs:166-168` `set_bias`. -/
def setBias (t : Tree) (b : Num) : Tree := { t with bias := b }

/-- `src/tree/tree.rs:121` `data.get_feature(feat_id)[i]`. -/
def read (d : Data) (feat i : Nat) : Out Num :=
  match d.cols[feat]?.bind (·.values[i]?) with
  | some v => .ok v
  | none => .panic

/-- One round of the loop `src/tree/tree.rs:117-159` at a node with criterion `c`: does the row with
value `value` in the tested feature go left? `none`: the node is a leaf. -/
def test (supercats : List (List Nat)) (c : SplitCrit) (value : Num) : Out (Option Bool) :=
  match c.splitType with
  | .loCardCatEq => .ok (some (value.eqb c.splitValue))
  | .hiCardCatLt =>
      match supercats[c.featureId]? with
      | none => .panic
      | some sc =>
          let cat := intoCat value
          let spcat := if cat < sc.length then sc[cat]?.getD 0 else sc.length
          .ok (some (decide (spcat ≤ intoCat c.splitValue)))
  | .numLt => .ok (some (value.lt c.splitValue))
  | .noSplit => .ok none

/-- The loop `src/tree/tree.rs:117-159` `predict_leaf_id_of_example`, from node `n`. -/
def leafFrom (t : Tree) (d : Data) (i n : Nat) : Out Nat :=
  if h : n < t.splitCrits.length then
    match read d t.splitCrits[n].featureId i with
    | .ok value =>
        match test t.supercats t.splitCrits[n] value with
        | .ok (some true) => leafFrom t d i (leftChild n)
        | .ok (some false) => leafFrom t d i (rightChild n)
        | .ok none => .ok n
        | .panic => .panic
        | .ub => .ub
    | .panic => .panic
    | .ub => .ub
  else .panic
termination_by t.splitCrits.length - n
decreasing_by all_goals simp only [leftChild, rightChild]; omega

/-- `src/tree/tree.rs:115-160` `predict_leaf_id_of_example`. -/
def predictLeafId (t : Tree) (d : Data) (i : Nat) : Out Nat := leafFrom t d i 0

/-- `src/tree/tree.rs:170-174` `predict_single`. -/
def predictSingle (F : FP) (t : Tree) (d : Data) (i : Nat) : Out Num := do
  let leaf ← t.predictLeafId d i
  let v ← t.nodeValue leaf
  return F.mul t.shrinkage (F.add v t.bias)

/-- The loop `src/tree/tree.rs:180-186` over the rows `i, i+1, ...` of the buffer. -/
def predictLoop (F : FP) (t : Tree) (d : Data) (f : Num → Num → Num) : Nat → List Num → Out (List Num)
  | _, [] => .ok []
  | i, b :: buf => do
      let p ← t.predictSingle F d i
      let rest ← predictLoop F t d f (i + 1) buf
      return f p b :: rest

/-- `src/tree/tree.rs:177-187` `predict_and`. -/
def predictAnd (F : FP) (t : Tree) (d : Data) (buf : List Num) (f : Num → Num → Num) :
    Out (List Num) := do
  Out.assert (decide (buf.length = d.nexamples))
  predictLoop F t d f 0 buf

/-- `src/tree/tree.rs:195-199` `predict` (with `predict_buf`, 189-193). -/
def predict (F : FP) (t : Tree) (d : Data) : Out (List Num) :=
  predictAnd F t d (List.replicate d.nexamples (.fin 0)) fun p _ => p

end Tree

/-- `src/tree/tree.rs:237-240` `AdditiveTree`. -/
structure AdditiveTree where
  bias : Num
  trees : List Tree

namespace AdditiveTree

/-- `src/tree/tree.rs:243-248` `new`. -/
def new : AdditiveTree := ⟨.fin 0, []⟩
/-- `src/tree/tree.rs:250-252` `set_bias`. -/
def setBias (e : AdditiveTree) (b : Num) : AdditiveTree := { e with bias := b }
/-- `src/tree/tree.rs:254-256` `push_tree`. -/
def pushTree (e : AdditiveTree) (t : Tree) : AdditiveTree := { e with trees := e.trees ++ [t] }

/-- The loop `src/tree/tree.rs:267-271`. -/
def addTrees (F : FP) (d : Data) : List Tree → List Num → Out (List Num)
  | [], buf => .ok buf
  | t :: ts, buf => do
      let buf' ← t.predictAnd F d buf fun p a => F.add a p
      addTrees F d ts buf'

/-- `src/tree/tree.rs:265-272` `predict_buf`. -/
def predictBuf (F : FP) (e : AdditiveTree) (d : Data) (buf : List Num) : Out (List Num) :=
  addTrees F d e.trees (buf.map fun _ => e.bias)

/-- `src/tree/tree.rs:258-263` `predict`. -/
def predict (F : FP) (e : AdditiveTree) (d : Data) : Out (List Num) :=
  predictBuf F e d (List.replicate d.nexamples (.fin 0))

end AdditiveTree
end BitBoost
