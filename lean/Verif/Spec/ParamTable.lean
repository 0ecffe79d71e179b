import Verif.Model.ParamTable
import Verif.Spec.Python
/-! Vocabulary for statements about the table of parameters. -/
namespace BitBoost.Spec
open BitBoost.ParamTable BitBoost.Python

/-- A text without quotes, commas and line ends. -/
def PlainText (s : List Char) : Prop := '"' ∉ s ∧ ',' ∉ s ∧ '\n' ∉ s

/-- A text without quotes and line ends. -/
def QuotableText (s : List Char) : Prop := '"' ∉ s ∧ '\n' ∉ s

/-- Defaults that can be written: lists have at most one element. -/
def SafeDefault : Default → Prop
  | .str s => QuotableText s
  | .bool _ => True
  | .strs l => l.length ≤ 1 ∧ ∀ s ∈ l, PlainText s
  | .list l => l.length ≤ 1 ∧ ∀ s ∈ l, PlainText s
  | .shown t => PlainText t

/-- A setting that can be written to the table. -/
structure SafeEntry (e : Entry) : Prop where
  name : PlainText e.name
  default : SafeDefault e.default
  type : QuotableText e.type
  docs : ∀ d ∈ e.docs, d ≠ [] ∧ QuotableText d

/-- The text of a default in the table: a string stands for itself, everything else is a Python expression. -/
def defaultCell : Default → List Char
  | .str s => s
  | .bool true => "True".toList
  | .bool false => "False".toList
  | .strs l => '[' :: [','].intercalate (l.map fun s => '"' :: s ++ ['"']) ++ [']']
  | .list l => '[' :: [','].intercalate l ++ [']']
  | .shown t => t

/-- The row of a setting: name, default, type, and the lines of documentation (without their first character, which is a
space) with a quote between them. -/
def rowOf (e : Entry) : List (List Char) :=
  [e.name, defaultCell e.default, e.type, ['"'].intercalate (e.docs.map List.tail)]

/-- The setting is not for the command line program only: its documentation does not say "cli only". -/
def forPython (e : Entry) : Bool := !isIn "cli only".toList (['"'].intercalate (e.docs.map List.tail))

/-- The settings for the command line program. -/
def cliOnly : List String := ["train", "test", "csv_has_header", "csv_delimiter"]

/-- The defaults of the settings that are `f32` numbers. -/
def floatDefaults : List Num := [.fin 1, .fin 0, .fin (1 / 10 ^ 6), .fin (95 / 100), .fin (5 / 10), .fin (125 / 100)]

/-- What is asked of `{}` for the `f32` defaults (`disp`), `str` of a Python float (`pyFloat`), and the decimal parser for
`f32` (`pf`): `disp` writes numerals or decimal fractions, and reading back what Python makes of them gives the number. -/
structure FloatText (disp : Num → List Char) (pyFloat : List Char → List Char) (pf : List Char → Option Num) : Prop where
  form : ∀ x ∈ floatDefaults, isInt (disp x) = true ∨ isDecimal (disp x) = true
  int : ∀ x ∈ floatDefaults, isInt (disp x) = true → pf (disp x) = some x
  decimal : ∀ x ∈ floatDefaults, isDecimal (disp x) = true → pf (pyFloat (disp x)) = some x
  nul : ∀ x ∈ floatDefaults, Char.ofNat 0 ∉ pyFloat (disp x)

end BitBoost.Spec
