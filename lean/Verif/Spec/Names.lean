import Verif.Model.Metric
/-!
# Names of objectives and metrics: specification

The names documented in `README.md` and listed in `src/objective.rs:45-54` and `src/metric.rs:39-48`.
-/
namespace BitBoost.Spec

/-- Equal up to upper and lower case. -/
def SameName (s t : List Char) : Prop := List.Forall₂ (fun a b => a.toLower = b.toLower) s t

/-- The names of the objectives. -/
def objectiveNames : List (String × ObjKind) :=
  [("L2", .l2), ("L1", .l1), ("Huber", .huber), ("Binary", .binary), ("Hinge", .hinge)]

/-- The names of the metrics. -/
def metricNames : List (String × Metric) :=
  [("L2", .l2), ("RMSE", .rmse), ("BinaryLoss", .binaryLoss), ("Binary_Loss", .binaryLoss),
   ("BinaryError", .binaryError), ("Binary_Error", .binaryError),
   ("BinaryError01", .binaryError01), ("Binary_Error01", .binaryError01)]

/-- The metric that goes with an objective; there is none for the hinge objective. -/
def objectiveMetric : List (String × Metric) :=
  [("L2", .rmse), ("L1", .rmse), ("Huber", .rmse), ("Binary", .binaryLoss)]

end BitBoost.Spec
