import Verif.Model.Python
/-!
# The table of parameters (`src/config.rs`, `python/bitboost/bitboost.py`)

`write_doc_csv` writes a table of the settings to `bitboost_config.gen.csv`; the Python package reads it when it is imported
and makes the constructor of the estimators from it.

Positions in a text are counted in characters, not bytes. The description of a setting in the documentation of the Python
class is left out.
-/
namespace BitBoost
namespace ParamTable
open Python

/-- `{}` of an unsigned integer. -/
def natText (n : Nat) : List Char := Nat.toDigits 10 n

/-- The default of a setting: a string, a Boolean, a list of strings, a list of numbers, and a number (given by the text
that `{}` writes). -/
inductive Default where
  | str (s : List Char)
  | bool (b : Bool)
  | strs (l : List (List Char))
  | list (l : List (List Char))
  | shown (t : List Char)

/-- `src/config.rs:209-213` `write_repr` of `String`. -/
def writeStr (s : List Char) : List Char := '"' :: s ++ ['"']

/-- `src/config.rs:225-231`: loop of `write_repr` of `Vec`. -/
def writeLoop (first : Bool) : List (List Char) → List Char
  | [] => []
  | x :: xs => (if first then [] else [',']) ++ x ++ writeLoop false xs

/-- `src/config.rs:222-233` `write_repr` of `Vec`; `l` are the texts of the elements. -/
def writeVec (l : List (List Char)) : List Char := '[' :: writeLoop true l ++ [']']

/-- `src/config.rs:205-247` `PythonRepr::write_repr`. -/
def Default.repr : Default → List Char
  | .str s => writeStr s
  | .bool b => if b then "True".toList else "False".toList
  | .strs l => writeVec (l.map writeStr)
  | .list l => writeVec l
  | .shown t => t

/-- A setting as the macro `parse_config!` sees it (`src/config.rs:14-43`): name, default, type, and the texts of the lines of
documentation (after the three slashes). -/
structure Entry where
  name : List Char
  default : Default
  type : List Char
  docs : List (List Char)

/-- `src/config.rs:31` `stringify!($doc)`. (Without escapes: the lines have no quotes and no backslashes.) -/
def docAttr (doc : List Char) : List Char := "doc = \"".toList ++ doc ++ ['"']

/-- `src/config.rs:32-34`: the part of the text of a line of documentation that is written: from two behind the first quote
to the last quote. -/
def docSlice (d : List Char) : Out (List Char) :=
  match d.idxOf? '"', d.reverse.idxOf? '"' with
  | some l, some k =>
      let r := d.length - 1 - k
      if l + 2 ≤ r then .ok ((d.take r).drop (l + 2)) else .panic
  | _, _ => .panic

/-- The loop `src/config.rs:30-35`. -/
def writeDocs : List (List Char) → Out (List Char)
  | [] => .ok []
  | d :: ds => do
      let s ← docSlice (docAttr d)
      let rest ← writeDocs ds
      return '"' :: s ++ '"' :: rest

/-- `src/config.rs:27-36`: the line of a setting. -/
def writeRow (e : Entry) : Out (List Char) := do
  let docs ← writeDocs e.docs
  return e.name ++ ',' :: e.default.repr ++ ",\"".toList ++ e.type ++ "\",".toList ++ docs ++ ['\n']

/-- `src/config.rs:26-37`, all settings. -/
def writeRows : List Entry → Out (List Char)
  | [] => .ok []
  | e :: es => do
      let r ← writeRow e
      let rest ← writeRows es
      return r ++ rest

/-- `src/config.rs:24-39` `write_doc_csv`. -/
def writeDocCsv (es : List Entry) : Out (List Char) := do
  let rows ← writeRows es
  return "name,default,type,description\n".toList ++ rows

/-- `src/config.rs:115-191`: the settings. `disp` is `{}` of `f32`. -/
def configEntries (disp : Num → List Char) : List Entry :=
  [
   ⟨"train".toList, .str Config.new.train, "String".toList,
    [" Name of training dataset (cli only).".toList]⟩,
   ⟨"test".toList, .str Config.new.test, "String".toList,
    [" Name of test dataset (cli only).".toList]⟩,
   ⟨"objective".toList, .str Config.new.objective, "String".toList,
    [" Name of the objective to use (l2, l1, huber, binary, hinge).".toList]⟩,
   ⟨"metrics".toList, .strs Config.new.metrics, "Vec<String>".toList,
    [" Comma separated list of metrics to evaluate during training (l2, rmse, binary_loss,".toList, " binary_error).".toList]⟩,
   ⟨"metric_frequency".toList, .shown (natText Config.new.metricFrequency), "usize".toList,
    [" The metrics are evaluated every `metric_frequency` iterations.".toList]⟩,
   ⟨"csv_has_header".toList, .bool Config.new.csvHasHeader, "bool".toList,
    [" Whether first line of CSV file is header (cli only).".toList]⟩,
   ⟨"csv_delimiter".toList, .shown (natText Config.new.csvDelimiter), "u8".toList,
    [" Delimiter in CSV data files (cli only).".toList]⟩,
   ⟨"categorical_features".toList, .list (Config.new.categoricalFeatures.map natText), "Vec<usize>".toList,
    [" Comma separated list of categorical feature indexes (starting at 0).".toList]⟩,
   ⟨"niterations".toList, .shown (natText Config.new.niterations), "usize".toList,
    [" Total number of trees constructed by the model.".toList]⟩,
   ⟨"learning_rate".toList, .shown (disp Config.new.learningRate), "NumT".toList,
    [" Learning rate / shrinkage: each tree's predictions is multiplied by this value.".toList]⟩,
   ⟨"reg_lambda".toList, .shown (disp Config.new.regLambda), "NumT".toList,
    [" L2 regularization parameter.".toList]⟩,
   ⟨"min_examples_leaf".toList, .shown (natText Config.new.minExamplesLeaf), "u32".toList,
    [" Nodes with less than `min_examples_leaf` examples will not be split. ".toList]⟩,
   ⟨"min_gain".toList, .shown (disp Config.new.minGain), "NumT".toList,
    [" Splits need to improve the predictions by at least `min_gain` in order to be executed.".toList]⟩,
   ⟨"huber_alpha".toList, .shown (disp Config.new.huberAlpha), "NumT".toList,
    [" Parameter of Huber loss: bounds of Huber are `huber_alpha` quantiles of gradients.".toList]⟩,
   ⟨"max_nbins".toList, .shown (natText Config.new.maxNbins), "usize".toList,
    [" Maximum number of bins used during the pre-processing step of numerical and".toList,
     " high-cardinality features. No more than `max_nbins` splits are considered for these kinds".toList,
     " of features.".toList]⟩,
   ⟨"discr_nbits".toList, .shown (natText Config.new.discrNbits), "usize".toList,
    [" Number of bits used to discretize the gradients (1, 2, 4, 8).".toList]⟩,
   ⟨"max_tree_depth".toList, .shown (natText Config.new.maxTreeDepth), "usize".toList,
    [" Maximum depth of trees.".toList]⟩,
   ⟨"compression_threshold".toList, .shown (disp Config.new.compressionThreshold), "NumT".toList,
    [" Ratio of (number of zero instance set 32-bit blocks) / (total number of instance set 32-bit".toList,
     " blocks) is compared to `compression_threshold`. If this ratio exceeds".toList,
     " `compression_threshold`, then compression is applied.".toList]⟩,
   ⟨"binary_gradient_bound".toList, .shown (disp Config.new.binaryGradientBound), "NumT".toList,
    [" Parameter for binary loss. Theoretical bounds for binary log-loss are -2 and 2. More".toList,
     " aggressive settings seem to result in faster convergence.".toList]⟩,
   ⟨"random_seed".toList, .shown (natText Config.new.randomSeed), "u64".toList,
    [" Random number generation seed (e.g. for bagging, feature sampling).".toList]⟩,
   ⟨"feature_fraction".toList, .shown (disp Config.new.featureFraction), "NumT".toList,
    [" Fraction of features used by each tree.".toList]⟩,
   ⟨"example_fraction".toList, .shown (disp Config.new.exampleFraction), "NumT".toList,
    [" Example fraction / bagging fraction. Fraction of examples used by each tree.".toList]⟩,
   ⟨"sample_freq".toList, .shown (natText Config.new.sampleFreq), "usize".toList,
    [" Frequency of re-sampling features/examples; features and examples are sampled every".toList,
     " `sample_freq` iterations. Feature pre-processing also runs at the same moments.".toList]⟩
  ]

/-! ## Python -/

/-- The states of the reader of the Python module `csv`. -/
inductive RState where
  | startRecord
  | startField
  | inField
  | inQuoted
  | quoteInQuoted
deriving DecidableEq

/-- `python/bitboost/bitboost.py:200` `csv.reader(f)` (the standard dialect; line ends are `\n`): the rows of a text, with the
state of the reader, the field so far and the row so far. An empty line gives an empty row. -/
def readCsv : List Char → RState → List Char → List (List Char) → List (List (List Char))
  | [], .startRecord, _, _ => []
  | [], _, field, row => [row ++ [field]]
  | c :: cs, .startRecord, field, row =>
      if c = '\n' then [] :: readCsv cs .startRecord [] []
      else if c = '"' then readCsv cs .inQuoted [] row
      else if c = ',' then readCsv cs .startField [] (row ++ [[]])
      else readCsv cs .inField [c] row
  | c :: cs, .startField, field, row =>
      if c = '\n' then (row ++ [[]]) :: readCsv cs .startRecord [] []
      else if c = '"' then readCsv cs .inQuoted [] row
      else if c = ',' then readCsv cs .startField [] (row ++ [[]])
      else readCsv cs .inField [c] row
  | c :: cs, .inField, field, row =>
      if c = '\n' then (row ++ [field]) :: readCsv cs .startRecord [] []
      else if c = ',' then readCsv cs .startField [] (row ++ [field])
      else readCsv cs .inField (field ++ [c]) row
  | c :: cs, .inQuoted, field, row =>
      if c = '"' then readCsv cs .quoteInQuoted field row
      else readCsv cs .inQuoted (field ++ [c]) row
  | c :: cs, .quoteInQuoted, field, row =>
      if c = '"' then readCsv cs .inQuoted (field ++ ['"']) row
      else if c = ',' then readCsv cs .startField [] (row ++ [field])
      else if c = '\n' then (row ++ [field]) :: readCsv cs .startRecord [] []
      else readCsv cs .inField (field ++ [c]) row

/-- The rows of a file. -/
def readFile (text : List Char) : List (List (List Char)) := readCsv text .startRecord [] []

/-- `s in t` for strings. -/
def isIn (s : List Char) : List Char → Bool
  | [] => s.isPrefixOf []
  | c :: t => s.isPrefixOf (c :: t) || isIn s t

/-- `python/bitboost/bitboost.py:176-181` `BitBoostConfigParam` (without the description). -/
structure Param where
  name : List Char
  default : List Char
  type : List Char
deriving DecidableEq

/-- Assignment to a key of a dictionary: a key that is there keeps its place. -/
def dictSet (p : Param) : List Param → List Param
  | [] => [p]
  | q :: qs => if q.name = p.name then p :: qs else q :: dictSet p qs

/-- The loop `python/bitboost/bitboost.py:202-205`; `none` for an `IndexError`. -/
def paramLoop : List (List (List Char)) → List Param → Option (List Param)
  | [], ps => some ps
  | row :: rows, ps =>
      match row with
      | n :: d :: t :: descr :: _ =>
          if isIn "cli only".toList descr then paramLoop rows ps else paramLoop rows (dictSet ⟨n, d, t⟩ ps)
      | _ => none

/-- `python/bitboost/bitboost.py:197-206` `get_config_params`; `none` for an exception. -/
def getConfigParams (text : List Char) : Option (List Param) :=
  match readFile text with
  | [] => none
  | _ :: rows => paramLoop rows []

/-- `python/bitboost/bitboost.py:192-195` `default_value_str`. -/
def Param.defaultValueStr (p : Param) : List Char := if p.type = "String".toList then '"' :: p.default ++ ['"'] else p.default

/-- A digit. -/
def isDigit (c : Char) : Bool := decide ('0' ≤ c) && decide (c ≤ '9')

/-- A numeral that Python reads as an integer and writes in the same way: no leading zeros. -/
def isInt (s : List Char) : Bool := s.all isDigit && (decide (s = ['0']) || decide (s ≠ [] ∧ s.head? ≠ some '0'))

/-- A decimal fraction `12.34`. -/
def isDecimal (s : List Char) : Bool :=
  (s.takeWhile isDigit != []) && ((s.dropWhile isDigit).head? == some '.') &&
    ((s.dropWhile isDigit).drop 1 != []) && ((s.dropWhile isDigit).drop 1).all isDigit

/-- The value of the expressions that occur as defaults in the source that `gen_init_fun` runs: strings, the empty list,
Booleans and numbers. `pyFloat` is `str` of the value of a decimal fraction. `none` for all other expressions. -/
def evalDefault (pyFloat : List Char → List Char) (s : List Char) : Option Val :=
  if s = "[]".toList then some (.seq [] s)
  else if s = "True".toList ∨ s = "False".toList then some (.scalar s)
  else if isInt s then some (.scalar s)
  else if isDecimal s then some (.scalar (pyFloat s))
  else
    match s with
    | '"' :: rest =>
        if rest.getLast? = some '"' ∧ '"' ∉ rest.dropLast ∧ '\\' ∉ rest.dropLast ∧ '\n' ∉ rest.dropLast then
          some (.str rest.dropLast)
        else none
    | _ => none

/-- The defaults of the keyword arguments of the function made by `gen_init_fun`, `python/bitboost/bitboost.py:214-228`. -/
def initDefaults (pyFloat : List Char → List Char) : List Param → Option (List (List Char × Val))
  | [] => some []
  | p :: ps => do
      let v ← evalDefault pyFloat p.defaultValueStr
      let rest ← initDefaults pyFloat ps
      return (p.name, v) :: rest

/-- A call of that function with keyword arguments: the attributes of the estimator. An argument that is not a parameter
raises a `TypeError`. -/
def construct (defaults args : List (List Char × Val)) : Except Exc Params :=
  if args.all fun a => (defaults.map Prod.fst).contains a.1 then
    .ok fun n => ((args.lookup n.toList).orElse fun _ => defaults.lookup n.toList).getD (.scalar [])
  else .error .type

end ParamTable
end BitBoost
