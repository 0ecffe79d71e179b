import Verif.Model.Binner
import Verif.Model.Config
/-!
# Objectives (`src/objective.rs`)

The five objective structs share their first four fields (`objective_struct!`,
`src/objective.rs:72-95`); they are one record here, tagged with the objective, with the union of the
additional fields.
-/
namespace BitBoost

/-- The functions of the C math library used through `f32::exp`, `f32::ln` and `f32::sqrt`. They are
parameters: theorems assume what they need of them. -/
structure Libm where
  exp : Num → Num
  ln : Num → Num
  sqrt : Num → Num

/-- The five objectives, `src/objective.rs:45-54`. -/
inductive ObjKind where
  | l2 | l1 | huber | binary | hinge
deriving DecidableEq, Repr

/-- `src/objective.rs:74-82` with the fields of `L2` (158-160), `L1` (205-208), `Huber` (252-257),
`Binary` (322-324), `Hinge` (375). The scratch histogram `bins` is zeroed before every use
(`src/objective.rs:130`) and is not kept. -/
structure Objective where
  kind : ObjKind
  learningRate : Num
  bias : Num
  predictions : List Num
  gradients : List Num
  l2bounds : Num × Num
  limits : Num × Num
  alpha : Num
  delta : Num
  bound : Num
deriving DecidableEq, Repr

namespace Objective

/-- `src/objective.rs:85-95` `new`. -/
def new (k : ObjKind) : Objective where
  kind := k
  learningRate := .fin 0
  bias := .fin 0
  predictions := []
  gradients := []
  l2bounds := (.fin 0, .fin 0)
  limits := (.fin 0, .fin 0)
  alpha := .fin 0
  delta := .fin 0
  bound := .fin (5 / 4)

/-- `str::to_lowercase`. Simplification: ASCII letters only. The only other characters with an ASCII
lower case letter in their lower case are the Kelvin sign (`k`) and the dotted capital I (an `i` followed
by a combining dot); neither can make a text equal to one of the names compared with. -/
def lowercase (s : List Char) : List Char := s.map Char.toLower

/-- `src/objective.rs:45-54` `objective_from_name`. -/
def fromName (name : List Char) : Option Objective :=
  if lowercase name = ['l', '2'] then some (new .l2)
  else if lowercase name = ['l', '1'] then some (new .l1)
  else if lowercase name = ['h', 'u', 'b', 'e', 'r'] then some (new .huber)
  else if lowercase name = ['b', 'i', 'n', 'a', 'r', 'y'] then some (new .binary)
  else if lowercase name = ['h', 'i', 'n', 'g', 'e'] then some (new .hinge)
  else none

/-- `name`, `src/objective.rs:58` (`stringify!` of the type), as printed by `src/bin/run.rs:151`. -/
def name (o : Objective) : List Char :=
  match o.kind with
  | .l2 => "L2".toList
  | .l1 => "L1".toList
  | .huber => "Huber".toList
  | .binary => "Binary".toList
  | .hinge => "Hinge".toList

/-- The five `bounds` methods: `src/objective.rs:163, 211, 260, 327, 378`. -/
def bounds (o : Objective) : Num × Num :=
  match o.kind with
  | .l2 => o.l2bounds
  | .l1 => (.fin (-1), .fin 1)
  | .huber => (o.delta.neg, o.delta)
  | .binary => (o.bound.neg, o.bound)
  | .hinge => (.fin (-1), .fin 2)

/-- `src/objective.rs:97-104` `initialize_base`. -/
def initializeBase (o : Objective) (c : Config) (n : Nat) (bias : Num) : Objective :=
  { o with learningRate := c.learningRate, bias := bias, predictions := List.replicate n bias,
           gradients := List.replicate n (.fin 0) }

/-- `src/objective.rs:121-144` `quantile!`: histogram of the values with 1024 bins between the limits,
and the representative of the bin after the one with the given rank. The counter is an `i32` in the
code and the bins are `u32`s; both are unbounded here. -/
def quantile (F : FP) (q : Num) (limits : Num × Num) (values : List Num) : Out Num := do
  let b ← Binner.new F (List.replicate 1024 0) limits.1 limits.2
  let b ← Binner.insertAll F (fun (_ : Unit) x => x + 1) b (values.map fun v => (v, ()))
  let rank := (F.mul (F.ofNat values.length) q).floor.toU32
  let bin ← Binner.binWithRank Binner.natOps id b.bins rank
  return Binner.representative F b (bin + 1)

/-- `src/objective.rs:146-150` `median!`. -/
def median (F : FP) (limits : Num × Num) (values : List Num) : Out Num :=
  quantile F (.fin (1 / 2)) limits values

/-- The limits of a list of numbers: the loops `src/objective.rs:176-180, 214-218, 263-267, 281-286`. -/
def limitsOf (l : List Num) : Num × Num :=
  (l.foldl (fun a t => Num.min t a) .pinf, l.foldl (fun a t => Num.max t a) .ninf)

/-- `src/objective.rs:333-334, 385-386`: the number of negatives and the number of positives, as
`f32`s. -/
def classCounts (F : FP) (targets : List Num) : Num × Num :=
  let nneg := F.ofNat ((targets.filter fun x => x.lt (.fin (1 / 2))).length)
  (nneg, F.sub (F.ofNat targets.length) nneg)

/-- `initialize`: L2 `src/objective.rs:165-169`, L1 `213-222`, Huber `262-273`, Binary `329-342`
(`debug_assert!` and `println!` left out), Hinge `380-392`. -/
def init (F : FP) (M : Libm) (o : Objective) (c : Config) (targets : List Num) : Out Objective :=
  let n := targets.length
  match o.kind with
  | .l2 => .ok (initializeBase o c n (F.div (F.sum targets) (F.ofNat n)))
  | .l1 => do
      let bias ← median F (limitsOf targets) targets
      return initializeBase o c n bias
  | .huber => do
      let bias ← median F (limitsOf targets) targets
      Out.assert ((Num.fin 0).lt c.huberAlpha && c.huberAlpha.lt (.fin 1))
      return { initializeBase o c n bias with alpha := c.huberAlpha }
  | .binary =>
      let (nneg, npos) := classCounts F targets
      let avg := F.div (F.add (F.mul (.fin (-1)) nneg) (F.mul (.fin 1) npos)) (F.ofNat n)
      let prior := F.mul (.fin (1 / 2)) (M.ln (F.div (F.add (.fin 1) avg) (F.sub (.fin 1) avg)))
      .ok { initializeBase o c n prior with bound := c.binaryGradientBound }
  | .hinge => do
      Out.assert (c.discrNbits == 2)
      let (nneg, npos) := classCounts F targets
      let prior := F.div (F.add (F.mul nneg (.fin (-1))) npos) (F.ofNat n)
      return initializeBase o c n prior

/-- Huber gradient of a residual, `src/objective.rs:293-298`. -/
def huberGradient (F : FP) (delta err : Num) : Num :=
  if err.abs.le delta then err else F.mul delta err.signum

/-- Binary log loss gradient, `src/objective.rs:350-352`. -/
def binaryGradient (F : FP) (M : Libm) (t p : Num) : Num :=
  let y := F.sub (F.mul (.fin 2) t) (.fin 1)
  F.div (F.mul (.fin 2) y).neg (F.add (.fin 1) (M.exp (F.mul (F.mul (.fin 2) y) p)))

/-- Hinge gradient, `src/objective.rs:401-406`. -/
def hingeGradient (t p : Num) : Num :=
  if t.lt (.fin (1 / 2)) then (if (Num.fin (-1)).lt p then .fin 1 else .fin 0)
  else (if p.lt (.fin 1) then .fin (-1) else .fin 0)

/-- `update`: L2 `src/objective.rs:171-186`, L1 `224-236`, Huber `275-300`, Binary `344-354`, Hinge
`394-408`. The index loops `for i in 0..n` over slices of length `n` are `zipWith`s. -/
def update (F : FP) (M : Libm) (o : Objective) (targets : List Num) : Out Objective := do
  Out.assert (o.predictions.length == targets.length)
  Out.assert (o.gradients.length == targets.length)
  let errs := List.zipWith F.sub targets o.predictions
  match o.kind with
  | .l2 =>
      let (mn, mx) := limitsOf errs
      let bound := Num.min mn.abs mx.abs
      return { o with gradients := errs.map Num.neg, l2bounds := (bound.neg, bound) }
  | .l1 =>
      return { o with gradients := errs.map (fun e => e.signum.neg), limits := limitsOf errs }
  | .huber => do
      let q ← quantile F o.alpha (limitsOf errs) errs
      let delta := q.abs
      return { o with limits := limitsOf errs, delta := delta,
                      gradients := errs.map (huberGradient F delta) }
  | .binary =>
      return { o with gradients := List.zipWith (binaryGradient F M) targets o.predictions }
  | .hinge =>
      return { o with gradients := List.zipWith hingeGradient targets o.predictions }

/-- Slice indexing with the bounds check. -/
def index {α : Type} (l : List α) (i : Nat) : Out α :=
  match l[i]? with
  | some x => .ok x
  | none => .panic

/-- A loop over the examples collecting a value for each. -/
def forExamples {α : Type} (f : Nat → Out α) : List Nat → Out (List α)
  | [] => .ok []
  | i :: is => do
      let x ← f i
      let xs ← forExamples f is
      return x :: xs

/-- `targets[i]` and `self.predictions[i]`. -/
def targetPred (o : Objective) (targets : List Num) (i : Nat) : Out (Num × Num) := do
  let t ← index targets i
  let p ← index o.predictions i
  return (t, p)

/-- `targets[i] - self.predictions[i]` for the examples. -/
def residuals (F : FP) (o : Objective) (targets : List Num) (examples : List Nat) : Out (List Num) :=
  forExamples (fun i => do
    let (t, p) ← targetPred o targets i
    return F.sub t p) examples

/-- Loop of `update_predictions`, `src/objective.rs:110-114` (`safety_check!` is `assert!` by default,
`src/lib.rs`). -/
def addLoop (F : FP) (value : Num) : List Nat → List Num → Out (List Num)
  | [], preds => .ok preds
  | i :: is, preds =>
      match preds[i]? with
      | none => .panic
      | some p => do
          Out.assert (F.add p value).isFinite
          addLoop F value is (preds.set i (F.add p value))

/-- `src/objective.rs:108-116` `update_predictions`. -/
def updatePredictions (F : FP) (o : Objective) (examples : List Nat) (value : Num) :
    Out (Num × Objective) := do
  let value := F.mul o.learningRate value
  let preds ← addLoop F value examples o.predictions
  return (value, { o with predictions := preds })

/-- `f32::EPSILON`, `src/lib.rs`. -/
def epsilon : Num := .fin (1 / 2 ^ 23)

/-- Huber correction of the median, `src/objective.rs:307-312`. -/
def huberCorrection (F : FP) (delta rmed : Num) (errs : List Num) : Num :=
  errs.foldl (fun s err =>
    let d := F.sub err rmed
    F.add s (F.mul d.signum (Num.min delta d.abs))) (.fin 0)

/-- Binary leaf value, `src/objective.rs:357-365`; `gs` are the gradients of the examples. -/
def binaryLeaf (F : FP) (gs : List Num) : Num :=
  let num := gs.foldl (fun s g => F.add s g.neg) (.fin 0)
  let den := gs.foldl (fun s g => F.add s (F.mul g.neg.abs (F.sub (.fin 2) g.neg.abs))) epsilon
  F.div num den

/-- Hinge leaf value before the division, `src/objective.rs:411-421`. -/
def hingeSum (F : FP) (tps : List (Num × Num)) : Num :=
  tps.foldl (fun v tp =>
    if tp.1.lt (.fin (1 / 2)) then
      let x := Num.max (F.add (.fin 2) tp.2) (.fin 0)
      F.sub v (F.mul x x)
    else
      let x := Num.max (F.sub (.fin 2) tp.2) (.fin 0)
      F.add v (F.mul x x)) (.fin 0)

/-- The value before it is scaled with the learning rate: first part of `predict_leaf_value`, L2
`src/objective.rs:189-193`, L1 `239-240`, Huber `304-313`, Binary `357-365`, Hinge `411-422`. -/
def leafValue (F : FP) (o : Objective) (targets : List Num) (examples : List Nat) : Out Num :=
  match o.kind with
  | .l2 => do
      let errs ← residuals F o targets examples
      return F.div (F.sum errs) (F.ofNat examples.length)
  | .l1 => do
      let errs ← residuals F o targets examples
      median F o.limits errs
  | .huber => do
      let errs ← residuals F o targets examples
      let rmed ← median F o.limits errs
      return F.add rmed (F.div (huberCorrection F o.delta rmed errs) (F.ofNat examples.length))
  | .binary => do
      let gs ← forExamples (index o.gradients) examples
      return binaryLeaf F gs
  | .hinge => do
      let tps ← forExamples (targetPred o targets) examples
      return F.div (hingeSum F tps) (F.ofNat examples.length)

/-- `predict_leaf_value`: L2 `src/objective.rs:188-195`, L1 `238-242`, Huber `302-315`, Binary
`356-367`, Hinge `410-432`. -/
def predictLeafValue (F : FP) (o : Objective) (targets : List Num) (examples : List Nat) :
    Out (Num × Objective) := do
  let v ← leafValue F o targets examples
  updatePredictions F o examples v

/-- `src/objective.rs:64-68` `update_out_of_bag_prediction`: the old prediction must be finite. -/
def updateOutOfBag (F : FP) (o : Objective) (i : Nat) (value : Num) : Out Objective :=
  match o.predictions[i]? with
  | none => .panic
  | some p => do
      Out.assert p.isFinite
      return { o with predictions := o.predictions.set i (F.add p value) }

end Objective
end BitBoost
