import Verif.Model.Data
/-!
# Numbers and tables in texts

`Data::from_csv` (`src/data.rs:50-126`) and `Config::parse_record` (`src/config.rs:76-86`) read texts: with the `FromStr` of
`f32` from the standard library and with the reader of the `csv` crate. Neither is part of the repository; they are modelled
here after their documentation. `Props/Text.lean` says what they do in terms of the texts alone.
-/
namespace BitBoost
namespace Text

/-- The decimal digits at the front, and the rest. -/
def spanDigits : List Char → List Nat × List Char
  | [] => ([], [])
  | c :: s =>
      match Config.digit c with
      | some d => (d :: (spanDigits s).1, (spanDigits s).2)
      | none => ([], c :: s)

/-- The number written with these digits. -/
def digitsValue (ds : List Nat) : Nat := ds.foldl (fun v d => v * 10 + d) 0

/-- An optional sign at the front: is it a minus? -/
def takeSign : List Char → Bool × List Char
  | [] => (false, [])
  | c :: s => if c = '-' then (true, s) else if c = '+' then (false, s) else (false, c :: s)

/-- The exponent at the end of a number: nothing, or `e` or `E`, an optional sign and at least one digit. (The library stops
adding digits to exponents above 65535, which makes a difference only for numbers with tens of thousands of digits.) -/
def parseExp : List Char → Option Int
  | [] => some 0
  | c :: s =>
      if c = 'e' ∨ c = 'E' then
        let sg := takeSign s
        let ds := spanDigits sg.2
        if ds.1.isEmpty || !ds.2.isEmpty then none
        else some (if sg.1 then -(digitsValue ds.1 : Int) else digitsValue ds.1)
      else none

/-- A decimal number without sign: digits, optionally with a point before, between or after them, and an exponent. -/
def parseNumber (s : List Char) : Option ℚ :=
  let int := spanDigits s
  let frac := match int.2 with
    | [] => ([], [])
    | c :: r => if c = '.' then spanDigits r else ([], c :: r)
  if int.1.isEmpty && frac.1.isEmpty then none
  else match parseExp frac.2 with
    | none => none
    | some e => some ((digitsValue (int.1 ++ frac.1) : ℚ) * 10 ^ (e - frac.1.length))

/-- `str::parse::<f32>()` (`src/data.rs:80`, `src/config.rs:79`): a decimal number is rounded once, from its exact value; otherwise
infinity and NaN in any case. -/
def parseF32 (F : FP) (s : List Char) : Option Num :=
  let sg := takeSign s
  match parseNumber sg.2 with
  | some q => some (F.rnd (if sg.1 then -q else q))
  | none =>
      let w := sg.2.map Char.toLower
      if w = ['i', 'n', 'f'] ∨ w = ['i', 'n', 'f', 'i', 'n', 'i', 't', 'y'] then some (if sg.1 then .ninf else .pinf)
      else if w = ['n', 'a', 'n'] then some .nan
      else none

/-- Where the reader of the `csv` crate is. -/
inductive CsvState where
  | startRecord
  | startField
  | inField
  | inQuoted
  /-- After a quote in a quoted field: the end of the field, or the first of two quotes. -/
  | quote
deriving DecidableEq, Repr

/-- The reader: where it is, the field and the record read so far, and the finished records. -/
structure Csv where
  st : CsvState
  field : List Char
  record : List (List Char)
  done : List (List (List Char))
deriving DecidableEq, Repr

/-- The end of a line. -/
def isTerm (c : Char) : Bool := c = '\n' || c = '\r'

/-- A field is complete. -/
def closeField (t : Csv) : Csv := ⟨.startField, [], t.record ++ [t.field], t.done⟩

/-- A record is complete. -/
def closeRecord (t : Csv) : Csv := ⟨.startRecord, [], [], t.done ++ [t.record ++ [t.field]]⟩

/-- One more character of the field. -/
def push (t : Csv) (st : CsvState) (c : Char) : Csv := { t with st := st, field := t.field ++ [c] }

/-- A character in a field that is not quoted. -/
def stepField (delim : Char) (t : Csv) (c : Char) : Csv :=
  if c = delim then closeField t else if isTerm c then closeRecord t else push t .inField c

/-- The reader sees a character: `csv::ReaderBuilder` with the given delimiter and otherwise the defaults
(`src/data.rs:57-60`): quotes, doubled within quotes; lines end with a line feed, a carriage return or both; empty lines
are skipped. -/
def step (delim : Char) (t : Csv) (c : Char) : Csv :=
  match t.st with
  | .startRecord =>
      if isTerm c then t else if c = '"' then { t with st := .inQuoted } else stepField delim t c
  | .startField => if c = '"' then { t with st := .inQuoted } else stepField delim t c
  | .inField => stepField delim t c
  | .inQuoted => if c = '"' then { t with st := .quote } else push t .inQuoted c
  | .quote => if c = '"' then push t .inQuoted c else stepField delim t c

/-- The end of the text ends the record, if one has begun. -/
def finish (t : Csv) : List (List (List Char)) :=
  match t.st with
  | .startRecord => t.done
  | _ => (closeRecord t).done

/-- All records of a text. -/
def records (delim : Char) (text : List Char) : List (List (List Char)) :=
  finish (text.foldl (step delim) ⟨.startRecord, [], [], []⟩)

/-- `read_record` (`src/data.rs:64`) with the parse results of the fields (`src/data.rs:79-81`); a record that does not
have as many fields as the first one in the file is an error. -/
def item (F : FP) (len : Nat) (r : List (List Char)) : Data.CsvItem :=
  if r.length = len then .record (r.map (parseF32 F)) else .error

/-- The records after the header, and the header. -/
def items (F : FP) (hasHeader : Bool) (recs : List (List (List Char))) : List Data.CsvItem × Option (List String) :=
  match recs with
  | [] => ([], some [])
  | r :: rs =>
      if hasHeader then (rs.map (item F r.length), some (r.map String.ofList))
      else ((r :: rs).map (item F r.length), none)

/-- `src/data.rs:50-126` `Data::from_csv` on a text. (The delimiter is a byte; delimiters that are not ASCII, and a byte order
mark at the beginning of the text, are left out.) -/
def fromText (F : FP) (cfg : Config) (text : List Char) : Out (Except Data.Err Data) :=
  let p := items F cfg.csvHasHeader (records (Char.ofNat cfg.csvDelimiter) text)
  Data.fromCsv cfg p.1 p.2

end Text
end BitBoost
