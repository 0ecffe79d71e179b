import Verif.Model.CApi
/-!
# The Python package (`python/bitboost/bitboost.py`, `python/bitboost/sklearn.py`)

The Python classes are clients of the C interface (`Model/CApi.lean`). A method ends with a result or an exception; in
both cases what it did before stays done. Undefined behaviour is that of the library.

Left out: printing, the search for the library, the documentation strings, `write_model` and `read_model` (not
implemented), arrays that are not 2-dimensional (1-dimensional for a column), values that have no UTF-8 text, and the
conversion of `X` to 32-bit floats in `fit`: the matrix is the one after the conversion.
-/
namespace BitBoost
namespace Python
open CApi

/-- The exceptions: `AssertionError`, "no BitBoost context", `KeyError`, `TypeError`, `ValueError` of the checks of
scikit-learn, `NotFittedError`. -/
inductive Exc where
  | assertion
  | noContext
  | key
  | type
  | value
  | notFitted
deriving DecidableEq

/-- A 1-dimensional array: whether its elements are 32-bit floats, and the elements. -/
structure Vector where
  f32 : Bool
  vals : List Num

/-- A 2-dimensional array: whether its elements are 32-bit floats, the number of rows, and the columns. -/
structure Matrix where
  f32 : Bool
  nrows : Nat
  cols : List (List Num)
  rect : ∀ c ∈ cols, c.length = nrows

/-- An element of a Python container: its `str`, and the integer it is equal to, if any. -/
structure Item where
  text : List Char
  int : Option Int

/-- A Python value: a `str`, something that is neither a string nor a container (with its `str`), a container (with its
elements and its `str`). -/
inductive Val where
  | str (s : List Char)
  | scalar (s : List Char)
  | seq (items : List Item) (s : List Char)

/-- `str(value)`. -/
def Val.text : Val → List Char
  | .str s => s
  | .scalar s => s
  | .seq _ s => s

/-- A `RawBitBoost` object, `python/bitboost/bitboost.py:94-99`. -/
structure Raw where
  nfeatures : Nat
  nexamples : Int
  ptr : Ptr

/-- The state of the library and the object. -/
structure St where
  world : World
  raw : Raw

/-- The end of a method: the state, and the result or the exception. -/
abbrev Res (α : Type) := Out (St × Except Exc α)

/-- The next statement, unless an exception was raised. -/
def Res.andThen {α β : Type} (r : Res α) (k : St → α → Res β) : Res β :=
  match r with
  | .ok (s, .ok a) => k s a
  | .ok (s, .error e) => .ok (s, .error e)
  | .panic => .panic
  | .ub => .ub

/-- `assert`. -/
def check (b : Bool) (e : Exc) (s : St) : Res Unit := .ok (s, if b then .ok () else .error e)

/-- The conversion of a Python integer to a `c_int` argument: modulo 2^32. -/
def cInt (x : Int) : Int := (x + 2 ^ 31) % 2 ^ 32 - 2 ^ 31

/-- `c_char_p(bytes(s, "utf8"))`: C code sees the text up to the first NUL. -/
def cStr (s : List Char) : CStr := .text (s.takeWhile (fun c => decide (c ≠ Char.ofNat 0)))

/-- A call of a function of the library; the return value is dropped. -/
def call (E : Env) (s : St) (c : Call) : Res Ret :=
  match step E s.world c with
  | .ok (w, r) => .ok ({ s with world := w }, .ok r)
  | .panic => .panic
  | .ub => .ub

/-- `python/bitboost/bitboost.py:94-99` `__init__`. -/
def init (E : Env) (w : World) (nfeatures nexamples : Nat) : Out (World × Except Exc Raw) :=
  if 0 < nfeatures then
    if 0 < nexamples then
      match step E w (.alloc (cInt nfeatures)) with
      | .ok (w', .ptr p) => .ok (w', .ok { nfeatures := nfeatures, nexamples := -1, ptr := p })
      | .ok (w', _) => .ok (w', .ok { nfeatures := nfeatures, nexamples := -1, ptr := .null })
      | .panic => .panic
      | .ub => .ub
    else .ok (w, .error .assertion)
  else .ok (w, .error .assertion)

/-- `python/bitboost/bitboost.py:110-112` `_check`. -/
def checkCtx (s : St) : Res Unit := check (decide (s.raw.ptr ≠ .null)) .noContext s

/-- `python/bitboost/bitboost.py:105-108` `dealloc`. -/
def dealloc (E : Env) (s : St) : Res Unit :=
  (checkCtx s).andThen fun s _ =>
    (call E s (.dealloc s.raw.ptr)).andThen fun s _ => .ok ({ s with raw := { s.raw with ptr := .null } }, .ok ())

/-- `python/bitboost/bitboost.py:101-103` `__del__`. -/
def del (E : Env) (s : St) : Res Unit := if s.raw.ptr ≠ .null then dealloc E s else .ok (s, .ok ())

/-- `python/bitboost/bitboost.py:114-123` `set_feature_data`. The return value of the library is not looked at. -/
def setFeatureData (E : Env) (s : St) (feat : Int) (data : Vector) (categorical : Bool) : Res Unit :=
  (checkCtx s).andThen fun s _ =>
    (check data.f32 .assertion s).andThen fun s _ =>
      (check (decide (0 ≤ feat ∧ feat ≤ s.raw.nfeatures)) .assertion s).andThen fun s _ =>
        (call E s (.setFeatureData s.raw.ptr (cInt feat) data.vals (if categorical then 1 else 0))).andThen fun s _ =>
          .ok (s, .ok ())

/-- The loop `python/bitboost/bitboost.py:134-136`, from column number `feat` on. `isCat` is the test `in cat_features`,
`none` if it raises a `TypeError`. -/
def setColumns (E : Env) (f32 : Bool) (isCat : Nat → Option Bool) : List (List Num) → Nat → St → Res Unit
  | [], _, s => .ok (s, .ok ())
  | c :: cols, feat, s =>
      match isCat feat with
      | none => .ok (s, .error .type)
      | some b => (setFeatureData E s feat ⟨f32, c⟩ b).andThen fun s _ => setColumns E f32 isCat cols (feat + 1) s

/-- `python/bitboost/bitboost.py:125-136` `set_data`. -/
def setData (E : Env) (s : St) (X : Matrix) (isCat : Nat → Option Bool) : Res Unit :=
  (checkCtx s).andThen fun s _ =>
    (check X.f32 .assertion s).andThen fun s _ =>
      (check (decide (X.cols.length = s.raw.nfeatures)) .assertion s).andThen fun s _ =>
        let s := { s with raw := { s.raw with nexamples := X.nrows } }
        (call E s (.refreshData s.raw.ptr (cInt X.nrows))).andThen fun s _ => setColumns E X.f32 isCat X.cols 0 s

/-- `python/bitboost/bitboost.py:138-140` `set_target`. -/
def setTarget (E : Env) (s : St) (y : Vector) : Res Unit :=
  (checkCtx s).andThen fun s _ => setFeatureData E s s.raw.nfeatures y false

/-- `python/bitboost/bitboost.py:197-206` `get_config_params`: the names of the fields in `bitboost_config.gen.csv` that
are not "cli only", and whether the type is `Vec`. (The file is generated from `src/config.rs:115-191`.) -/
def configParams : List (String × Bool) :=
  [("objective", false), ("metrics", true), ("metric_frequency", false), ("categorical_features", true),
   ("niterations", false), ("learning_rate", false), ("reg_lambda", false), ("min_examples_leaf", false),
   ("min_gain", false), ("huber_alpha", false), ("max_nbins", false), ("discr_nbits", false),
   ("max_tree_depth", false), ("compression_threshold", false), ("binary_gradient_bound", false),
   ("random_seed", false), ("feature_fraction", false), ("example_fraction", false), ("sample_freq", false)]

/-- `",".join(parts)`. -/
def joinComma : List (List Char) → List Char
  | [] => []
  | [p] => p
  | p :: ps => p ++ ',' :: joinComma ps

/-- `python/bitboost/bitboost.py:144-148`: the text of the value of a field, `none` if it raises a `TypeError`. -/
def fieldText (isVec : Bool) (v : Val) : Option (List Char) :=
  if isVec then
    match v with
    | .str s => some s
    | .scalar _ => none
    | .seq items _ => some (joinComma (items.map Item.text))
  else some v.text

/-- `python/bitboost/bitboost.py:142-149` `set_config_field`. The return value of the library is not looked at. -/
def setConfigField (E : Env) (s : St) (name : List Char) (v : Val) : Res Unit :=
  (checkCtx s).andThen fun s _ =>
    match configParams.lookup (String.ofList name) with
    | none => .ok (s, .error .key)
    | some isVec =>
        match fieldText isVec v with
        | none => .ok (s, .error .type)
        | some t => (call E s (.setConfigField s.raw.ptr (cStr name) (cStr t))).andThen fun s _ => .ok (s, .ok ())

/-- The loop `python/bitboost/bitboost.py:154-155`. -/
def setFields (E : Env) : List (List Char × Val) → St → Res Unit
  | [], s => .ok (s, .ok ())
  | (n, v) :: rest, s => (setConfigField E s n v).andThen fun s _ => setFields E rest s

/-- `python/bitboost/bitboost.py:151-155` `set_config`. -/
def setConfig (E : Env) (s : St) (values : List (List Char × Val)) : Res Unit :=
  (checkCtx s).andThen fun s _ => setFields E values s

/-- `python/bitboost/bitboost.py:157-159` `train`. The return value of the library is not looked at. -/
def train (E : Env) (s : St) : Res Unit :=
  (checkCtx s).andThen fun s _ => (call E s (.train s.raw.ptr)).andThen fun s _ => .ok (s, .ok ())

/-- What is in a buffer of `n` zeros after a call of `bb_predict`. -/
def output (n : Nat) : Ret → List Num
  | .filled _ out => out ++ (List.replicate n (.fin 0)).drop out.length
  | _ => List.replicate n (.fin 0)

/-- `python/bitboost/bitboost.py:161-167` `predict`. The return value of the library is not looked at. -/
def predict (E : Env) (s : St) : Res (List Num) :=
  (checkCtx s).andThen fun s _ =>
    (check (decide (0 < s.raw.nexamples)) .assertion s).andThen fun s _ =>
      (call E s (.predict s.raw.ptr s.raw.nexamples.toNat)).andThen fun s r =>
        .ok (s, .ok (output s.raw.nexamples.toNat r))

/-! ## The scikit-learn estimator -/

/-- The parameters of an estimator, `python/bitboost/sklearn.py:21`: a value for every name of `configParams`. -/
abbrev Params := String → Val

/-- `python/bitboost/sklearn.py:45` `get_params()`. (scikit-learn sorts the names; the order has no effect.) -/
def getParams (ps : Params) : List (List Char × Val) := configParams.map fun x => (x.1.toList, ps x.1)

/-- `feat_id in self.categorical_features`, `none` for a `TypeError`. -/
def contains : Val → Nat → Option Bool
  | .str _, _ => none
  | .scalar _, _ => none
  | .seq items _, feat => some (decide ((feat : Int) ∈ items.filterMap Item.int))

/-- All elements are finite (`force_all_finite=True`). -/
def allFinite (vs : List Num) : Bool := vs.all fun v => match v with | .fin _ => true | _ => false

/-- `sklearn.utils.validation.check_array` with its defaults: at least one row and one column, only finite numbers. -/
def checkArray (X : Matrix) : Bool := decide (0 < X.nrows) && decide (0 < X.cols.length) && X.cols.all allFinite

/-- `sklearn.utils.validation.check_X_y`: in addition one finite number per row in `y`. -/
def checkXy (X : Matrix) (y : Vector) : Bool :=
  checkArray X && allFinite y.vals && decide (y.vals.length = X.nrows)

/-- An estimator: the library, and `_bitboost` once `fit` was called (`fitted` is `_is_fitted`). -/
structure Est where
  world : World
  raw : Option Raw
  fitted : Bool

/-- The object that `_bitboost` held before is deleted. -/
def dropOld (E : Env) (w : World) : Option Raw → Out World
  | none => .ok w
  | some r =>
      match del E ⟨w, r⟩ with
      | .ok (s, _) => .ok s.world
      | .panic => .panic
      | .ub => .ub

/-- `python/bitboost/sklearn.py:45-49`: the statements of `fit` after the object has been made. -/
def fitRaw (E : Env) (s : St) (ps : Params) (X : Matrix) (y : Vector) : Res Unit :=
  (setConfig E s (getParams ps)).andThen fun s _ =>
    (setData E s X (contains (ps "categorical_features"))).andThen fun s _ =>
      (setTarget E s y).andThen fun s _ => train E s

/-- `python/bitboost/sklearn.py:23-52` `fit`. `check_X_y` has converted `X` (not `y`) to 32-bit floats. -/
def fit (E : Env) (e : Est) (ps : Params) (X : Matrix) (y : Vector) : Out (Est × Except Exc Unit) :=
  if checkXy X y then
    match init E e.world X.cols.length X.nrows with
    | .ok (w, .error x) => .ok ({ e with world := w }, .error x)
    | .ok (w, .ok raw) =>
        match dropOld E w e.raw with
        | .ok w =>
            match fitRaw E ⟨w, raw⟩ ps { X with f32 := true } y with
            | .ok (s, .ok _) => .ok ({ world := s.world, raw := some s.raw, fitted := true }, .ok ())
            | .ok (s, .error x) => .ok ({ world := s.world, raw := some s.raw, fitted := e.fitted }, .error x)
            | .panic => .panic
            | .ub => .ub
        | .panic => .panic
        | .ub => .ub
    | .panic => .panic
    | .ub => .ub
  else .ok (e, .error .value)

/-- `python/bitboost/sklearn.py:70-71`: the statements of `predict` after the checks. -/
def predictRaw (E : Env) (s : St) (X : Matrix) : Res (List Num) :=
  (setData E s X (fun _ => some false)).andThen fun s _ => predict E s

/-- `python/bitboost/sklearn.py:54-71` `predict`. -/
def predictEst (E : Env) (e : Est) (X : Matrix) : Out (Est × Except Exc (List Num)) :=
  if checkArray X then
    match e.fitted, e.raw with
    | true, some raw =>
        match predictRaw E ⟨e.world, raw⟩ X with
        | .ok (s, r) => .ok ({ e with world := s.world, raw := some s.raw }, r)
        | .panic => .panic
        | .ub => .ub
    | _, _ => .ok (e, .error .notFitted)
  else .ok (e, .error .value)

end Python
end BitBoost
