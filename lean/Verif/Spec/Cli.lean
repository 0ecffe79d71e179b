import Verif.Model.Cli
/-! Vocabulary for statements about the command line program. -/
namespace BitBoost.Spec
open BitBoost.Cli

/-- The commands of the program. -/
def Known (cmd : List Char) : Prop := cmd ∈ ["tree".toList, "boost".toList, "boost_and_predict_raw".toList]

/-- The file at `path` is a CSV file with the data `d`. -/
def Loads (E : Env) (cfg : Config) (path : List Char) (d : Data) : Prop :=
  ∃ f, E.file path cfg.csvDelimiter cfg.csvHasHeader = some f ∧ Data.fromCsv cfg f.items f.header = .ok (.ok d)

/-- The file at `path` cannot be read, or is rejected. -/
def LoadFails (E : Env) (cfg : Config) (path : List Char) (e : Cli.Err) : Prop :=
  (E.file path cfg.csvDelimiter cfg.csvHasHeader = none ∧ e = .file) ∨
  ∃ f de, E.file path cfg.csvDelimiter cfg.csvHasHeader = some f ∧ Data.fromCsv cfg f.items f.header = .ok (.error de) ∧
    e = .data de

/-- The arguments after the command are accepted: a configuration `cfg` with an objective `o` and metrics `ms` that
exist. -/
def Settings (E : Env) (args : List (List Char)) (cfg : Config) (o : Objective) (ms : List Metric) : Prop :=
  Config.parse E.pf args = .ok cfg ∧ Objective.fromName cfg.objective = some o ∧ Metric.fromNames cfg.metrics = some ms

/-- The test data of a configuration, if it has some. -/
def TestData (E : Env) (cfg : Config) : Option Data → Prop
  | none => cfg.test = []
  | some d => cfg.test ≠ [] ∧ Loads E cfg cfg.test d

/-- What is wrong with a command line. -/
inductive Rejected (E : Env) : List (List Char) → Cli.Err → Prop
  | noCommand : Rejected E [] .usage
  | command {cmd : List Char} {args : List (List Char)} : ¬ Known cmd → Rejected E (cmd :: args) .usage
  | config {cmd : List Char} {args : List (List Char)} {e : Config.Err} : Known cmd → Config.parse E.pf args = .error e →
      Rejected E (cmd :: args) (.config e)
  | objective {cmd : List Char} {args : List (List Char)} {cfg : Config} : Known cmd → Config.parse E.pf args = .ok cfg →
      Objective.fromName cfg.objective = none → Rejected E (cmd :: args) .objective
  | metric {cmd : List Char} {args : List (List Char)} {cfg : Config} : Known cmd → Config.parse E.pf args = .ok cfg →
      (∃ o, Objective.fromName cfg.objective = some o) → Metric.fromNames cfg.metrics = none →
      Rejected E (cmd :: args) .metric
  | train {cmd : List Char} {args : List (List Char)} {cfg : Config} {o : Objective} {ms : List Metric} {e : Cli.Err} :
      Known cmd → Settings E args cfg o ms → LoadFails E cfg cfg.train e →
      ((∃ t, TestData E cfg t) ∨ ∃ e', cfg.test ≠ [] ∧ LoadFails E cfg cfg.test e') → Rejected E (cmd :: args) e
  | test {cmd : List Char} {args : List (List Char)} {cfg : Config} {o : Objective} {ms : List Metric} {d : Data}
      {e : Cli.Err} : Known cmd → Settings E args cfg o ms → Loads E cfg cfg.train d → cfg.test ≠ [] →
      LoadFails E cfg cfg.test e → Rejected E (cmd :: args) e

end BitBoost.Spec
