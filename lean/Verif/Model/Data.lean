import Verif.Model.Config
import Verif.Model.Out
/-!
# Data (`src/data.rs`)

The parallel vectors `features`, `limits`, `ftypes`, `cards` of `Data` are one list of columns here
(they always have the same length). The last column is the target.
-/
namespace BitBoost

/-- `src/data.rs:17-21` `FeatType`. -/
inductive FeatType where
  | loCardCat
  | hiCardCat
  | numerical
deriving DecidableEq, Repr

/-- One column: `features[i]`, `limits[i]`, `ftypes[i]`, `cards[i]`. -/
structure Column where
  values : List Num
  lo : Num
  hi : Num
  ftype : FeatType
  card : Nat
deriving DecidableEq

/-- `src/data.rs:24-33` `Data` (feature names are kept as a list of strings). -/
structure Data where
  maxNbins : Nat
  names : List String
  nfeatures : Nat
  nexamples : Nat
  cols : List Column
deriving DecidableEq

/-- `src/lib.rs:18` `into_cat` (release build: a saturating cast). -/
def intoCat (x : Num) : Nat := x.toU32

namespace Data

/-- Errors of `from_csv` and `set_feature_data`. -/
inductive Err where
  | csv
  | parse (record : Nat)
  | category
  | header
deriving DecidableEq, Repr

/-- `src/data.rs:206-212` `check_categorical_value`. -/
def checkCategorical (v : Num) : Bool := !((!(v.round.eqb v)) || v.lt (.fin 0))

/-- `src/data.rs:84-88` and `src/data.rs:158-165`: add a value to the column's statistics. In
`set_feature_data` `categorical` is the argument, in `from_csv` it is `ftypes[i] == LoCardCat`.
The second component tells whether the value was accepted; the limits are updated in any case. -/
def addStats (categorical : Bool) (c : Column) (v : Num) : Column × Bool :=
  let c1 := { c with lo := Num.min c.lo v, hi := Num.max c.hi v }
  if categorical then
    if checkCategorical v then ({ c1 with card := Nat.max c1.card (1 + intoCat v) }, true)
    else (c1, false)
  else (c1, true)

/-- `src/data.rs:78-89`: one record; `recNo` is `record_count`. `fields` are the results of
`parse::<NumT>().ok()` for the fields of the record (for the texts see `Model/Text.lean`
). -/
def pushRecord (recNo : Nat) : List Column → List (Option Num) → Except Err (List Column)
  | [], _ => .ok []
  | c :: cols, fields =>
      match fields.head?.join with
      | none => .error (.parse recNo)
      | some v =>
          match addStats (c.ftype == .loCardCat) { c with values := c.values ++ [v] } v with
          | (_, false) => .error .category
          | (c', true) =>
              match pushRecord recNo cols fields.tail with
              | .ok cols' => .ok (c' :: cols')
              | .error e => .error e

/-- `src/data.rs:68-76`: the columns set up at the first record. -/
def initColumns (categorical : List Nat) (recordLen : Nat) : List Column :=
  (List.range recordLen).map fun i =>
    { values := [], lo := .pinf, hi := .ninf,
      ftype := if i ∈ categorical then .loCardCat else .numerical, card := 0 }

/-- What the CSV reader hands out: a record (the parse results of its fields) or an error. -/
inductive CsvItem where
  | record (fields : List (Option Num))
  | error

/-- The loop `src/data.rs:63-93`. -/
def csvLoop (categorical : List Nat) : List CsvItem → Nat → List Column → Except Err (Nat × List Column)
  | [], count, cols => .ok (count, cols)
  | .error :: _, _, _ => .error .csv
  | .record fields :: rest, count, cols =>
      let cols0 := if count = 0 then initColumns categorical fields.length else cols
      match pushRecord count cols0 fields with
      | .error e => .error e
      | .ok cols' => csvLoop categorical rest (count + 1) cols'

/-- `src/data.rs:96-101`: high-cardinality columns. -/
def retype (maxNbins : Nat) (c : Column) : Column :=
  if c.card > maxNbins then { c with ftype := .hiCardCat } else c

/-- `src/data.rs:104-111`: names from the header. `names[i].push_str` panics when the header is
longer than the records; `none` is a header error. -/
def csvNames (hasHeader : Bool) (header : Option (List String)) (recordLen : Nat) :
    Out (Except Err (List String)) :=
  if hasHeader then
    match header with
    | none => .ok (.error .header)
    | some h =>
        if h.length ≤ recordLen then
          .ok (.ok ((List.range recordLen).map fun i => h[i]?.getD ""))
        else .panic
  else .ok (.ok (List.replicate recordLen ""))

/-- `src/data.rs:50-126` `from_csv`. `items` is what the reader returns, `header` its header record.
Without any record `record_len - 1` underflows and `names[target_id]` panics. -/
def fromCsv (cfg : Config) (items : List CsvItem) (header : Option (List String)) :
    Out (Except Err Data) :=
  match csvLoop cfg.categoricalFeatures items 0 [] with
  | .error e => .ok (.error e)
  | .ok (count, cols) => do
      match ← csvNames cfg.csvHasHeader header cols.length with
      | .error e => return .error e
      | .ok names =>
          if cols.length = 0 then .panic
          else return .ok (Data.mk cfg.maxNbins names (cols.length - 1) count
            (cols.map (retype cfg.maxNbins)))

/-- `format!("feat{:04}", i)`, `src/data.rs:131`. -/
def featName (i : Nat) : String :=
  String.ofList ("feat".toList ++ (List.replicate (4 - (Nat.toDigits 10 i).length) '0' ++ Nat.toDigits 10 i))

/-- `src/data.rs:128-147` `empty`. -/
def empty (cfg : Config) (nfeatures nexamples : Nat) : Data where
  maxNbins := cfg.maxNbins
  names := (List.range (nfeatures + 1)).map featName
  nfeatures := nfeatures
  nexamples := nexamples
  cols := List.replicate (nfeatures + 1)
    { values := List.replicate nexamples (.fin 0), lo := .fin 0, hi := .fin 0,
      ftype := .numerical, card := 0 }

/-- The loop `src/data.rs:157-166`; `i` is the index of the next value. Values before a rejected one
have been stored. -/
def setLoop (categorical : Bool) : List Num → Nat → Column → Column × Bool
  | [], _, c => (c, true)
  | v :: vs, i, c =>
      match addStats categorical { c with values := c.values.set i v } v with
      | (c', true) => setLoop categorical vs (i + 1) c'
      | (c', false) => (c', false)

/-- `src/data.rs:149-175` `set_feature_data`; the `Bool` is `is_ok()`. -/
def setFeatureData (d : Data) (feat : Nat) (data : List Num) (categorical : Bool) : Out (Data × Bool) :=
  if data.length = d.nexamples then
    match d.cols[feat]? with
    | none => .panic
    | some c =>
        if c.values.length = d.nexamples then
          match setLoop categorical data 0 c with
          | (c', false) => .ok ({ d with cols := d.cols.set feat c' }, false)
          | (c', true) =>
              let c'' := if categorical then
                  (if c'.card > d.maxNbins then { c' with ftype := .hiCardCat }
                   else { c' with ftype := .loCardCat })
                else c'
              .ok ({ d with cols := d.cols.set feat c'' }, true)
        else .panic
  else .panic

/-- `src/data.rs:186-198` `max_nbins` of a column (the code indexes with `feat_id`). -/
def colMaxNbins (maxNbins : Nat) (c : Column) : Nat :=
  match c.ftype with
  | .loCardCat => if c.card = 2 then 1 else if c.card = 1 then 0 else c.card
  | .hiCardCat => maxNbins
  | .numerical => maxNbins

/-- `src/data.rs:186-198` `max_nbins`. -/
def featMaxNbins (d : Data) (feat : Nat) : Out Nat :=
  match d.cols[feat]? with
  | some c => .ok (colMaxNbins d.maxNbins c)
  | none => .panic

end Data
end BitBoost
