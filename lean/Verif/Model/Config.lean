import Verif.Model.Num
/-!
# Configuration (`src/config.rs`)

A `&str` is a list of Unicode scalar values (`List Char`) where the code looks inside it, and a
`String` where it is only compared.
-/
namespace BitBoost

/-- `src/config.rs:115-191` `Config`. -/
structure Config where
  train : List Char
  test : List Char
  objective : List Char
  metrics : List (List Char)
  metricFrequency : Nat
  csvHasHeader : Bool
  csvDelimiter : Nat
  categoricalFeatures : List Nat
  niterations : Nat
  learningRate : Num
  regLambda : Num
  minExamplesLeaf : Nat
  minGain : Num
  huberAlpha : Num
  maxNbins : Nat
  discrNbits : Nat
  maxTreeDepth : Nat
  compressionThreshold : Num
  binaryGradientBound : Num
  randomSeed : Nat
  featureFraction : Num
  exampleFraction : Num
  sampleFreq : Nat
deriving DecidableEq

namespace Config

/-- `src/config.rs:50-54` `new`, with the defaults of `src/config.rs:117-190`. The two decimal
defaults that are not `f32` numbers (`min_gain` 1e-6, `huber_alpha` 0.95) stand for themselves. -/
def new : Config where
  train := []
  test := []
  objective := ['L', '2']
  metrics := []
  metricFrequency := 1
  csvHasHeader := true
  csvDelimiter := 44
  categoricalFeatures := []
  niterations := 100
  learningRate := .fin 1
  regLambda := .fin 0
  minExamplesLeaf := 1
  minGain := .fin (1 / 1000000)
  huberAlpha := .fin (19 / 20)
  maxNbins := 16
  discrNbits := 4
  maxTreeDepth := 6
  compressionThreshold := .fin (1 / 2)
  binaryGradientBound := .fin (5 / 4)
  randomSeed := 1
  featureFraction := .fin 1
  exampleFraction := .fin 1
  sampleFreq := 1

/-- What can go wrong: the line has no `=`, the field is unknown, the value does not parse. -/
inductive Err where
  | invalidLine
  | unknownField
  | badValue
deriving DecidableEq, Repr

/-- `char::is_whitespace` (Unicode White_Space). -/
def isWs (c : Char) : Bool :=
  let n := c.toNat
  (9 ≤ n && n ≤ 13) || n == 32 || n == 0x85 || n == 0xa0 || n == 0x1680 || (0x2000 ≤ n && n ≤ 0x200a)
    || n == 0x2028 || n == 0x2029 || n == 0x202f || n == 0x205f || n == 0x3000

/-- `str::trim`. -/
def trim (s : List Char) : List Char := ((s.dropWhile isWs).reverse.dropWhile isWs).reverse

/-- `str::split(sep)`: the parts between the separators (at least one part). -/
def split (sep : Char) : List Char → List (List Char)
  | [] => [[]]
  | c :: s =>
      if c = sep then [] :: split sep s
      else match split sep s with
        | [] => [[c]]
        | p :: ps => (c :: p) :: ps

/-- Value of an ASCII decimal digit. -/
def digit (c : Char) : Option Nat :=
  if 48 ≤ c.toNat ∧ c.toNat ≤ 57 then some (c.toNat - 48) else none

/-- Digits from the left; `acc` is the value so far. -/
def parseDigits (maxv : Nat) : Nat → List Char → Option Nat
  | acc, [] => some acc
  | acc, c :: s => do
      let d ← digit c
      let v := acc * 10 + d
      if v ≤ maxv then parseDigits maxv v s else none

/-- `FromStr` of the unsigned integers: an optional `+`, at least one digit, no overflow. -/
def parseUnsigned (maxv : Nat) (s : List Char) : Option Nat :=
  match s with
  | [] => none
  | '+' :: [] => none
  | '+' :: c :: s => parseDigits maxv 0 (c :: s)
  | s => parseDigits maxv 0 s

/-- `usize` and `u64`. -/
def parseU64 : List Char → Option Nat := parseUnsigned (2 ^ 64 - 1)
/-- `u32`. -/
def parseU32 : List Char → Option Nat := parseUnsigned (2 ^ 32 - 1)
/-- `u8`. -/
def parseU8 : List Char → Option Nat := parseUnsigned (2 ^ 8 - 1)
/-- `bool`. -/
def parseBool (s : List Char) : Option Bool :=
  if s = ['t', 'r', 'u', 'e'] then some true
  else if s = ['f', 'a', 'l', 's', 'e'] then some false else none
/-- `String` (never fails). -/
def parseString (s : List Char) : Option (List Char) := some s

/-- `src/config.rs:96-101`: loop of `parse_vec`. -/
def parseVecLoop {α : Type} (p : List Char → Option α) : List (List Char) → Option (List α)
  | [] => some []
  | v :: vs => do
      let x ← p (trim v)
      let xs ← parseVecLoop p vs
      return x :: xs

/-- `src/config.rs:92-104` `parse_vec`. -/
def parseVec {α : Type} (p : List Char → Option α) (value : List Char) : Option (List α) :=
  if value.isEmpty then some [] else parseVecLoop p (split ',' value)

/-- `src/config.rs:79-81`: assign the parsed value or report the type error. -/
def assign {α : Type} (set : α → Config) : Option α → Except Err Config
  | some v => .ok (set v)
  | none => .error .badValue

/-- `src/config.rs:76-86` `parse_record` as expanded for the fields of `Config`. `pf` is `f32`'s
`FromStr` (the decimal parser of the standard library is not modelled). -/
def parseRecord (pf : List Char → Option Num) (c : Config) (name : String) (value : List Char) :
    Except Err Config :=
  if name = "train" then assign (fun v => { c with train := v }) (parseString value)
  else if name = "test" then assign (fun v => { c with test := v }) (parseString value)
  else if name = "objective" then assign (fun v => { c with objective := v }) (parseString value)
  else if name = "metrics" then assign (fun v => { c with metrics := v }) (parseVec parseString value)
  else if name = "metric_frequency" then
    assign (fun v => { c with metricFrequency := v }) (parseU64 value)
  else if name = "csv_has_header" then assign (fun v => { c with csvHasHeader := v }) (parseBool value)
  else if name = "csv_delimiter" then assign (fun v => { c with csvDelimiter := v }) (parseU8 value)
  else if name = "categorical_features" then
    assign (fun v => { c with categoricalFeatures := v }) (parseVec parseU64 value)
  else if name = "niterations" then assign (fun v => { c with niterations := v }) (parseU64 value)
  else if name = "learning_rate" then assign (fun v => { c with learningRate := v }) (pf value)
  else if name = "reg_lambda" then assign (fun v => { c with regLambda := v }) (pf value)
  else if name = "min_examples_leaf" then
    assign (fun v => { c with minExamplesLeaf := v }) (parseU32 value)
  else if name = "min_gain" then assign (fun v => { c with minGain := v }) (pf value)
  else if name = "huber_alpha" then assign (fun v => { c with huberAlpha := v }) (pf value)
  else if name = "max_nbins" then assign (fun v => { c with maxNbins := v }) (parseU64 value)
  else if name = "discr_nbits" then assign (fun v => { c with discrNbits := v }) (parseU64 value)
  else if name = "max_tree_depth" then assign (fun v => { c with maxTreeDepth := v }) (parseU64 value)
  else if name = "compression_threshold" then
    assign (fun v => { c with compressionThreshold := v }) (pf value)
  else if name = "binary_gradient_bound" then
    assign (fun v => { c with binaryGradientBound := v }) (pf value)
  else if name = "random_seed" then assign (fun v => { c with randomSeed := v }) (parseU64 value)
  else if name = "feature_fraction" then assign (fun v => { c with featureFraction := v }) (pf value)
  else if name = "example_fraction" then assign (fun v => { c with exampleFraction := v }) (pf value)
  else if name = "sample_freq" then assign (fun v => { c with sampleFreq := v }) (parseU64 value)
  else .error .unknownField

/-- `src/config.rs:68-74` `parse_record_str`. What follows a second `=` is ignored. -/
def parseRecordStr (pf : List Char → Option Num) (c : Config) (line : List Char) : Except Err Config :=
  match split '=' line with
  | name :: value :: _ => parseRecord pf c (String.ofList (trim name)) (trim value)
  | _ => .error .invalidLine

/-- Loop of `parse`, `src/config.rs:61-63`. -/
def parseLines (pf : List Char → Option Num) : Config → List (List Char) → Except Err Config
  | c, [] => .ok c
  | c, line :: lines =>
      match parseRecordStr pf c line with
      | .ok c' => parseLines pf c' lines
      | .error e => .error e

/-- `src/config.rs:57-66` `parse`. -/
def parse (pf : List Char → Option Num) (lines : List (List Char)) : Except Err Config :=
  parseLines pf new lines

end Config
end BitBoost
