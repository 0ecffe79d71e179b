import Verif.Model.Boost
/-!
# The command line program (`src/bin/run.rs`)

Left out: the progress messages of `load_data`, the elapsed time, and how numbers are printed. What is printed by a run
that panics is not modelled.
-/
namespace BitBoost
namespace Cli

/-- Why the program ends with an error: `src/bin/run.rs:49-52, 61-65`, `src/data.rs:36-48` and `from_csv`. -/
inductive Err where
  | usage
  | config (e : Config.Err)
  | objective
  | metric
  | file
  | data (e : Data.Err)
deriving DecidableEq

/-- The content of a CSV file: its records and its header. -/
structure File where
  items : List Data.CsvItem
  header : Option (List String)

/-- What the program uses besides its arguments: the rounding, the math library, the parser of floating point numbers,
the random generator for a seed, and the files. What is in a file depends on the delimiter and on whether the first
line is a header; `none` is a file that cannot be read. -/
structure Env where
  F : FP
  M : Libm
  pf : List Char → Option Num
  seed : Nat → Rng
  file : List Char → Nat → Bool → Option File

/-- `src/data.rs:36-48` `from_csv_path`, `from_csv_reader`. -/
def loadCsv (E : Env) (cfg : Config) (path : List Char) : Out (Except Err Data) :=
  match E.file path cfg.csvDelimiter cfg.csvHasHeader with
  | none => .ok (.error .file)
  | some f =>
      match Data.fromCsv cfg f.items f.header with
      | .ok (.ok d) => .ok (.ok d)
      | .ok (.error e) => .ok (.error (.data e))
      | .panic => .panic
      | .ub => .ub

/-- `src/bin/run.rs:69-97` `load_data`: both files are read before an error is reported. -/
def loadData (E : Env) (cfg : Config) : Out (Except Err (Data × Option Data)) := do
  let train ← loadCsv E cfg cfg.train
  let test ← (if cfg.test.isEmpty then return none else do
    let r ← loadCsv E cfg cfg.test
    return some r : Out (Option (Except Err Data)))
  match train, test with
  | .error e, _ => return .error e
  | .ok _, some (.error e) => return .error e
  | .ok d, some (.ok t) => return .ok (d, some t)
  | .ok d, none => return .ok (d, none)

/-- What `parse` returns. -/
structure Parsed where
  config : Config
  train : Data
  test : Option Data
  objective : Objective
  metrics : List Metric

/-- `src/bin/run.rs:58-67` `parse`. -/
def parse (E : Env) (args : List (List Char)) : Out (Except Err Parsed) :=
  match Config.parse E.pf args with
  | .error e => .ok (.error (.config e))
  | .ok cfg =>
      match Objective.fromName cfg.objective with
      | none => .ok (.error .objective)
      | some o =>
          match Metric.fromNames cfg.metrics with
          | none => .ok (.error .metric)
          | some ms => do
              match ← loadData E cfg with
              | .error e => return .error e
              | .ok (d, t) => return .ok ⟨cfg, d, t, o, ms⟩

/-- `src/bin/run.rs:99-117` `single_tree`. -/
def singleTree (E : Env) (cfg : Config) (d : Data) (o : Objective) : Out Tree := do
  let target ← Learner.target d
  let o ← o.init E.F E.M cfg target
  let o ← o.update E.F E.M target
  let ds ← Dataset.new E.F cfg d (E.seed cfg.randomSeed)
  let ds ← ds.update E.F cfg o.gradients o.bounds
  let r ← Booster.learnTree E.F cfg ds o
  return r.1.setBias r.2.bias

/-- A line of the summary, `src/bin/run.rs:157-167`. -/
structure Line where
  metric : Metric
  train : Num
  test : Option Num
deriving DecidableEq

/-- `src/bin/run.rs:157-167`: evaluation of a metric. -/
def line (E : Env) (target preds : List Num) (test : Option (List Num × List Num)) (m : Metric) : Line :=
  { metric := m, train := m.eval E.F E.M target preds
    test := test.map fun tp => m.eval E.F E.M tp.1 tp.2 }

/-- `src/bin/run.rs:137-138`: the predictions for the test data, with its target. -/
def testPreds (model : Data → Out (List Num)) : Option Data → Out (Option (List Num × List Num))
  | none => .ok none
  | some d => do
      let p ← model d
      let t ← Learner.target d
      return some (t, p)

/-- `src/bin/run.rs:133-168` `summary`. -/
def summary (E : Env) (model : Data → Out (List Num)) (train : Data) (test : Option Data) (ms : List Metric) :
    Out (List Line) := do
  let p ← model train
  let test ← testPreds model test
  let target ← Learner.target train
  return ms.map (line E target p test)

/-- What the program prints when it ends: the metrics printed during training, and either the summary
(`src/bin/run.rs:152-167`) or the predictions (`src/bin/run.rs:41-47`). -/
inductive Output where
  | report (printed : List Printed) (objective : ObjKind) (nbits : Nat) (lines : List Line)
  | raw (printed : List Printed) (train : List Num) (test : Option (List Num))

/-- `src/bin/run.rs:28-32`: `tree`. -/
def runTree (E : Env) (p : Parsed) : Out Output := do
  let tree ← singleTree E p.config p.train p.objective
  let lines ← summary E (tree.predict E.F) p.train p.test p.metrics
  return .report [] p.objective.kind p.config.discrNbits lines

/-- `src/bin/run.rs:119-131` `boost`. -/
def boost (E : Env) (p : Parsed) : Out Booster :=
  Booster.run E.F E.M p.config p.train (E.seed p.config.randomSeed) p.metrics p.objective

/-- `src/bin/run.rs:33-37`: `boost`. -/
def runBoost (E : Env) (p : Parsed) : Out Output := do
  let b ← boost E p
  let lines ← summary E (b.ensemble.predict E.F) p.train p.test p.metrics
  return .report b.printed p.objective.kind p.config.discrNbits lines

/-- `src/bin/run.rs:38-48`: `boost_and_predict_raw`. -/
def runRaw (E : Env) (p : Parsed) : Out Output := do
  let b ← boost E p
  let train ← b.ensemble.predict E.F p.train
  let test ← (match p.test with
    | none => return none
    | some d => do
        let r ← b.ensemble.predict E.F d
        return some r : Out (Option (List Num)))
  return .raw b.printed train test

/-- The rest of a command once its arguments are parsed. -/
def command (E : Env) (args : List (List Char)) (k : Parsed → Out Output) : Out (Except Err Output) := do
  match ← parse E args with
  | .error e => return .error e
  | .ok p => do
      let out ← k p
      return .ok out

/-- `src/bin/run.rs:23-56` `main`; `args` are the arguments after the name of the program. -/
def main (E : Env) : List (List Char) → Out (Except Err Output)
  | [] => .ok (.error .usage)
  | cmd :: args =>
      if cmd = "tree".toList then command E args (runTree E)
      else if cmd = "boost".toList then command E args (runBoost E)
      else if cmd = "boost_and_predict_raw".toList then command E args (runRaw E)
      else .ok (.error .usage)

end Cli
end BitBoost
