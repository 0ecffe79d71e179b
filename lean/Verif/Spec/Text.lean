import Verif.Model.Num
import Mathlib.Data.Nat.Digits.Defs
/-! Decimal numbers and tables, and how they are written. Nothing here reads a text. -/
namespace BitBoost.Spec

/-- The character of a decimal digit. -/
def digitChar (d : Fin 10) : Char := Char.ofNat (48 + d.val)

/-- A decimal number as it is written: a sign, digits, a point with digits after it, and an exponent (the letter, the sign
and the digits). All but the digits may be missing. -/
structure Decimal where
  sign : Option Bool
  whole : List (Fin 10)
  fraction : Option (List (Fin 10))
  exponent : Option (Char × Option Bool × List (Fin 10))

namespace Decimal

/-- The digits after the point. -/
def places (d : Decimal) : List (Fin 10) := d.fraction.getD []

/-- There is a digit before or after the point, the letter of the exponent is `e` or `E` and it has digits. -/
def Proper (d : Decimal) : Prop :=
  (d.whole ≠ [] ∨ d.places ≠ []) ∧
    ∀ c s e, d.exponent = some (c, s, e) → (c = 'e' ∨ c = 'E') ∧ e ≠ []

/-- How a sign is written (`some true` is minus). -/
def signText : Option Bool → List Char
  | none => []
  | some true => ['-']
  | some false => ['+']

/-- The text of a decimal number. -/
def text (d : Decimal) : List Char :=
  signText d.sign ++ d.whole.map digitChar ++
    (match d.fraction with | none => [] | some f => '.' :: f.map digitChar) ++
    (match d.exponent with | none => [] | some (c, s, e) => c :: (signText s ++ e.map digitChar))

/-- The whole number with these digits, the most significant one first. -/
def ofDigits (ds : List (Fin 10)) : ℕ := Nat.ofDigits 10 (ds.reverse.map Fin.val)

/-- The exponent of ten. -/
def exp10 (d : Decimal) : ℤ :=
  match d.exponent with
  | none => 0
  | some (_, s, e) => if s = some true then -(ofDigits e : ℤ) else ofDigits e

/-- The value of a decimal number. -/
def value (d : Decimal) : ℚ :=
  (if d.sign = some true then -1 else 1) *
    ((ofDigits d.whole : ℚ) + (ofDigits d.places : ℚ) / 10 ^ d.places.length) * 10 ^ d.exp10

end Decimal

/-- The words for the numbers that are not finite, with an optional sign. -/
def SpecialText (s : List Char) (x : Num) : Prop :=
  ∃ (sg : Option Bool) (w : List Char), s = Decimal.signText sg ++ w ∧
    ((w.map Char.toLower = "inf".toList ∨ w.map Char.toLower = "infinity".toList) ∧
        x = (if sg = some true then .ninf else .pinf) ∨
      w.map Char.toLower = "nan".toList ∧ x = .nan)

/-- The texts of numbers: decimal numbers, which stand for their rounded value, and the words. -/
def NumberText (F : FP) (s : List Char) (x : Num) : Prop :=
  (∃ d : Decimal, d.Proper ∧ s = d.text ∧ x = F.rnd d.value) ∨ SpecialText s x

/-- The end of a line. -/
def LineEnd (c : Char) : Prop := c = '\n' ∨ c = '\r'

/-- A delimiter that can be used: not the quote and not an end of line. -/
def Delim (delim : Char) : Prop := delim ≠ '"' ∧ ¬ LineEnd delim

/-- A text with every quote doubled. -/
def doubled : List Char → List Char
  | [] => []
  | c :: s => if c = '"' then '"' :: '"' :: doubled s else c :: doubled s

/-- How a field can be written: as it is, if it has no delimiter and no end of line in it and does not begin with a quote; or
in quotes. -/
inductive FieldText (delim : Char) : List Char → List Char → Prop where
  | plain {f : List Char} : delim ∉ f → (∀ c ∈ f, ¬ LineEnd c) → f.head? ≠ some '"' → FieldText delim f f
  | quoted (f : List Char) : FieldText delim f ('"' :: (doubled f ++ ['"']))

/-- How a record can be written: its fields with delimiters between them. -/
inductive RecordText (delim : Char) : List (List Char) → List Char → Prop where
  | one {f t : List Char} : FieldText delim f t → RecordText delim [f] t
  | cons {f t : List Char} {r : List (List Char)} {s : List Char} : FieldText delim f t → RecordText delim r s →
      RecordText delim (f :: r) (t ++ delim :: s)

/-- How a table can be written: every record is followed by an end of line (`\n`, `\r\n`, or several, which makes blank
lines); it may be missing after the last one. There may be blank lines before. A record is not the empty line. -/
inductive TableText (delim : Char) : List (List (List Char)) → List Char → Prop where
  | nil : TableText delim [] []
  | blank {c : Char} {rs : List (List (List Char))} {s : List Char} : LineEnd c → TableText delim rs s →
      TableText delim rs (c :: s)
  | last {r : List (List Char)} {t : List Char} : RecordText delim r t → t ≠ [] → TableText delim [r] t
  | cons {r : List (List Char)} {t : List Char} {ends : List Char} {rs : List (List (List Char))} {s : List Char} :
      RecordText delim r t → t ≠ [] → ends ≠ [] → (∀ c ∈ ends, LineEnd c) → TableText delim rs s →
      TableText delim (r :: rs) (t ++ ends ++ s)

end BitBoost.Spec
