import Verif.Model.Objective
/-!
# Metrics (`src/metric.rs`)
-/
namespace BitBoost

/-- The five metrics, `src/metric.rs:39-48`. -/
inductive Metric where
  | l2 | rmse | binaryLoss | binaryError | binaryError01
deriving DecidableEq, Repr

namespace Metric

/-- `src/metric.rs:39-48` `metric_from_name` (`to_lowercase` as in `Objective.lowercase`). -/
def fromName (name : List Char) : Option Metric :=
  let n := Objective.lowercase name
  if n = "l2".toList then some .l2
  else if n = "rmse".toList then some .rmse
  else if n = "binaryloss".toList ∨ n = "binary_loss".toList then some .binaryLoss
  else if n = "binaryerror".toList ∨ n = "binary_error".toList then some .binaryError
  else if n = "binaryerror01".toList ∨ n = "binary_error01".toList then some .binaryError01
  else none

/-- `src/metric.rs:50-59` `metrics_from_names`. -/
def fromNames : List (List Char) → Option (List Metric)
  | [] => some []
  | name :: names =>
      match fromName name with
      | some m =>
          match fromNames names with
          | some ms => some (m :: ms)
          | none => none
      | none => none

/-- `src/metric.rs:61-67` `metric_for_objective`. -/
def forObjective (name : List Char) : Option Metric :=
  let n := Objective.lowercase name
  if n = "l2".toList ∨ n = "l1".toList ∨ n = "huber".toList then some .rmse
  else if n = "binary".toList then some .binaryLoss
  else none

/-- `name`, `src/metric.rs:25` (`stringify!` of the type), as printed by `src/boost.rs:110`. -/
def name : Metric → List Char
  | .l2 => "L2".toList
  | .rmse => "Rmse".toList
  | .binaryLoss => "BinaryLoss".toList
  | .binaryError => "BinaryError".toList
  | .binaryError01 => "BinaryError01".toList

/-- `src/metric.rs:13-21`, the loop of the `eval_one` metrics: the mean of the losses of the pairs. -/
def evalMean (F : FP) (one : Num → Num → Num) (targets preds : List Num) : Num :=
  let (loss, count) := (targets.zip preds).foldl
    (fun (acc : Num × Nat) tp => (F.add acc.1 (one tp.1 tp.2), acc.2 + 1)) (.fin 0, 0)
  F.div loss (F.ofNat count)

/-- `src/metric.rs:73-76`. -/
def l2One (F : FP) (t p : Num) : Num :=
  let d := F.sub t p
  F.mul d d

/-- `src/metric.rs:98-101`. -/
def binaryLossOne (F : FP) (M : Libm) (t p : Num) : Num :=
  let y := F.sub (F.mul (.fin 2) t) (.fin 1)
  M.ln (F.add (.fin 1) (M.exp (F.mul (F.mul (.fin (-2)) y) p)))

/-- `src/metric.rs:110-118`. -/
def binaryErrorOne (t p : Num) : Num :=
  if t.lt (.fin (1 / 2)) then (if p.lt (.fin 0) then .fin 0 else .fin 1)
  else (if p.lt (.fin 0) then .fin 1 else .fin 0)

/-- `src/metric.rs:127-135`. -/
def binaryError01One (t p : Num) : Num :=
  if t.lt (.fin (1 / 2)) then (if p.lt (.fin (1 / 2)) then .fin 0 else .fin 1)
  else (if p.lt (.fin (1 / 2)) then .fin 1 else .fin 0)

/-- `eval`: `src/metric.rs:26-28` with `73-76`, `86-88`, `98-101`, `110-118`, `127-135`. -/
def eval (F : FP) (M : Libm) (m : Metric) (targets preds : List Num) : Num :=
  match m with
  | .l2 => evalMean F (l2One F) targets preds
  | .rmse => M.sqrt (evalMean F (l2One F) targets preds)
  | .binaryLoss => evalMean F (binaryLossOne F M) targets preds
  | .binaryError => evalMean F binaryErrorOne targets preds
  | .binaryError01 => evalMean F binaryError01One targets preds

end Metric
end BitBoost
