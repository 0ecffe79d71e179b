import Verif.Model.Config
/-! Vocabulary for statements about configuration settings. -/
namespace BitBoost.Spec

/-- The settings, in the order of `src/config.rs:115-191`. -/
inductive ConfigField where
  | train | test | objective | metrics | metricFrequency | csvHasHeader | csvDelimiter
  | categoricalFeatures | niterations | learningRate | regLambda | minExamplesLeaf | minGain | huberAlpha
  | maxNbins | discrNbits | maxTreeDepth | compressionThreshold | binaryGradientBound | randomSeed
  | featureFraction | exampleFraction | sampleFreq
deriving DecidableEq, Repr

/-- The key of a setting. -/
def ConfigField.key : ConfigField → String
  | .train => "train" | .test => "test" | .objective => "objective" | .metrics => "metrics"
  | .metricFrequency => "metric_frequency" | .csvHasHeader => "csv_has_header"
  | .csvDelimiter => "csv_delimiter" | .categoricalFeatures => "categorical_features"
  | .niterations => "niterations" | .learningRate => "learning_rate" | .regLambda => "reg_lambda"
  | .minExamplesLeaf => "min_examples_leaf" | .minGain => "min_gain" | .huberAlpha => "huber_alpha"
  | .maxNbins => "max_nbins" | .discrNbits => "discr_nbits" | .maxTreeDepth => "max_tree_depth"
  | .compressionThreshold => "compression_threshold"
  | .binaryGradientBound => "binary_gradient_bound" | .randomSeed => "random_seed"
  | .featureFraction => "feature_fraction" | .exampleFraction => "example_fraction"
  | .sampleFreq => "sample_freq"

/-- A value of a setting. -/
inductive Value where
  | text (s : List Char)
  | texts (l : List (List Char))
  | nat (n : Nat)
  | nats (l : List Nat)
  | bool (b : Bool)
  | num (x : Num)

/-- The value of a setting in a configuration. -/
def ConfigField.get (c : Config) : ConfigField → Value
  | .train => .text c.train | .test => .text c.test | .objective => .text c.objective
  | .metrics => .texts c.metrics | .metricFrequency => .nat c.metricFrequency
  | .csvHasHeader => .bool c.csvHasHeader | .csvDelimiter => .nat c.csvDelimiter
  | .categoricalFeatures => .nats c.categoricalFeatures | .niterations => .nat c.niterations
  | .learningRate => .num c.learningRate | .regLambda => .num c.regLambda
  | .minExamplesLeaf => .nat c.minExamplesLeaf | .minGain => .num c.minGain
  | .huberAlpha => .num c.huberAlpha | .maxNbins => .nat c.maxNbins | .discrNbits => .nat c.discrNbits
  | .maxTreeDepth => .nat c.maxTreeDepth | .compressionThreshold => .num c.compressionThreshold
  | .binaryGradientBound => .num c.binaryGradientBound | .randomSeed => .nat c.randomSeed
  | .featureFraction => .num c.featureFraction | .exampleFraction => .num c.exampleFraction
  | .sampleFreq => .nat c.sampleFreq

/-- The default values of the settings, as the documentation of the settings (`src/config.rs:115-191`) has them. -/
def ConfigField.default : ConfigField → Value
  | .train => .text "".toList | .test => .text "".toList | .objective => .text "L2".toList
  | .metrics => .texts [] | .metricFrequency => .nat 1 | .csvHasHeader => .bool true | .csvDelimiter => .nat ','.toNat
  | .categoricalFeatures => .nats [] | .niterations => .nat 100 | .learningRate => .num (.fin 1)
  | .regLambda => .num (.fin 0) | .minExamplesLeaf => .nat 1 | .minGain => .num (.fin (1 / 10 ^ 6))
  | .huberAlpha => .num (.fin (95 / 100)) | .maxNbins => .nat 16 | .discrNbits => .nat 4 | .maxTreeDepth => .nat 6
  | .compressionThreshold => .num (.fin (5 / 10)) | .binaryGradientBound => .num (.fin (125 / 100))
  | .randomSeed => .nat 1 | .featureFraction => .num (.fin 1) | .exampleFraction => .num (.fin 1) | .sampleFreq => .nat 1

/-- `s` is a decimal numeral (with an optional `+`) of the number `n`. -/
def IsNumeral (s : List Char) (n : Nat) : Prop :=
  ∃ ds, (s = ds ∨ s = '+' :: ds) ∧ ds ≠ [] ∧ (∀ c ∈ ds, '0' ≤ c ∧ c ≤ '9') ∧
    n = ds.foldl (fun a c => 10 * a + (c.toNat - '0'.toNat)) 0

/-- The text between separators: `parts` joined by `sep` give `s`, and no part contains `sep`. -/
def IsSplit' (sep : Char) (s : List Char) (parts : List (List Char)) : Prop :=
  parts ≠ [] ∧ List.intercalate [sep] parts = s ∧ ∀ p ∈ parts, sep ∉ p

/-- White space: the characters with the Unicode property `White_Space`. -/
def IsSpace (c : Char) : Prop :=
  c.toNat ∈ [0x09, 0x0a, 0x0b, 0x0c, 0x0d, 0x20, 0x85, 0xa0, 0x1680, 0x2000, 0x2001, 0x2002, 0x2003, 0x2004, 0x2005, 0x2006,
    0x2007, 0x2008, 0x2009, 0x200a, 0x2028, 0x2029, 0x202f, 0x205f, 0x3000]

/-- `s` without surrounding white space is `t`. -/
def IsTrimmed (s t : List Char) : Prop :=
  ∃ a b, s = a ++ t ++ b ∧ (∀ c ∈ a, IsSpace c) ∧ (∀ c ∈ b, IsSpace c) ∧
    (∀ c, t.head? = some c → ¬ IsSpace c) ∧ (∀ c, t.getLast? = some c → ¬ IsSpace c)

/-- `s` is a text for the value `v` of the setting `f`. `pf` is the decimal parser for `f32`. -/
def IsText (pf : List Char → Option Num) (f : ConfigField) (s : List Char) (v : Value) : Prop :=
  match f with
  | .train | .test | .objective => v = .text s
  | .metrics => (s = [] ∧ v = .texts []) ∨ (s ≠ [] ∧ ∃ parts l, IsSplit' ',' s parts ∧
      List.Forall₂ IsTrimmed parts l ∧ v = .texts l)
  | .csvHasHeader => (s = "true".toList ∧ v = .bool true) ∨ (s = "false".toList ∧ v = .bool false)
  | .csvDelimiter => ∃ n, n < 2 ^ 8 ∧ IsNumeral s n ∧ v = .nat n
  | .minExamplesLeaf => ∃ n, n < 2 ^ 32 ∧ IsNumeral s n ∧ v = .nat n
  | .metricFrequency | .niterations | .maxNbins | .discrNbits | .maxTreeDepth | .randomSeed
  | .sampleFreq => ∃ n, n < 2 ^ 64 ∧ IsNumeral s n ∧ v = .nat n
  | .categoricalFeatures => (s = [] ∧ v = .nats []) ∨ (s ≠ [] ∧ ∃ parts l, IsSplit' ',' s parts ∧
      List.Forall₂ (fun p n => n < 2 ^ 64 ∧ ∃ t, IsTrimmed p t ∧ IsNumeral t n) parts l ∧ v = .nats l)
  | .learningRate | .regLambda | .minGain | .huberAlpha | .compressionThreshold
  | .binaryGradientBound | .featureFraction | .exampleFraction => ∃ x, pf s = some x ∧ v = .num x

/-- The line sets key `k` to text `s`: `k` is what is before the first `=`, `s` what is between it and
the next `=` (or the end), both without surrounding white space. -/
def IsSetting (line : List Char) (k : String) (s : List Char) : Prop :=
  ∃ a b rest, (line = a ++ '=' :: b ∧ rest = [] ∨ line = a ++ '=' :: b ++ '=' :: rest) ∧ '=' ∉ a ∧
    '=' ∉ b ∧ IsTrimmed a k.toList ∧ IsTrimmed b s

end BitBoost.Spec
