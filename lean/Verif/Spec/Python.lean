import Verif.Model.Python
import Verif.Spec.CApi
import Verif.Spec.Settings
/-! Vocabulary for statements about the Python package. -/
namespace BitBoost.Spec
open BitBoost.CApi BitBoost.Python

/-- The value of field `name` reaches the library as the text `t`: containers for the two list-valued fields as their
elements with commas in between, everything else as its `str`; what follows a NUL is lost. -/
def Sends (name : String) (v : Val) (t : List Char) : Prop :=
  ∃ s, t = s.takeWhile (· ≠ Char.ofNat 0) ∧
    ((name ∈ ["metrics", "categorical_features"] ∧
      (v = .str s ∨ ∃ items r, v = .seq items r ∧ s = [','].intercalate (items.map Item.text))) ∨
     (name ∉ ["metrics", "categorical_features"] ∧ s = v.text))

/-- The names of the parameters of an estimator: all fields but the four for the command line program. -/
def paramNames : List String :=
  ["objective", "metrics", "metric_frequency", "categorical_features", "niterations", "learning_rate", "reg_lambda",
   "min_examples_leaf", "min_gain", "huber_alpha", "max_nbins", "discr_nbits", "max_tree_depth",
   "compression_threshold", "binary_gradient_bound", "random_seed", "feature_fraction", "example_fraction",
   "sample_freq"]

/-- The configuration of an estimator with parameters `ps`: a parameter whose text is the text of a value for the field
(C52) has that value, all other fields have their defaults. -/
def Effective (pf : List Char → Option Num) (ps : Params) (cfg : Config) : Prop :=
  ∀ f : ConfigField,
    (f.key ∈ paramNames → ∃ t, Sends f.key (ps f.key) t ∧ (∀ v, IsText pf f t v → f.get cfg = v) ∧
      ((¬ ∃ v, IsText pf f t v) → f.get cfg = f.default)) ∧
    (f.key ∉ paramNames → f.get cfg = f.default)

/-- The data in the library: the columns `cols` (those with `cat j` categorical, the others numerical) and the target.
The limits of a column are its least and largest value or 0 (C28). -/
structure Table (maxNbins : Nat) (cols : List (List Num)) (cat : Nat → Prop) (target : List Num) (d : Data) : Prop where
  shape : d.nfeatures = cols.length ∧ d.nexamples = target.length ∧ d.maxNbins = maxNbins
  values : d.cols.map Column.values = cols ++ [target]
  limits : ∀ c ∈ d.cols, ExactLimits c.lo c.hi (.fin 0 :: c.values)
  categorical : ∀ (j : Nat) (c : Column), j < cols.length → cat j → d.cols[j]? = some c →
    ExactCard c.card c.values ∧ c.ftype = if c.card > maxNbins then .hiCardCat else .loCardCat
  numerical : ∀ (j : Nat) (c : Column), j = cols.length ∨ ¬ cat j → d.cols[j]? = some c →
    c.card = 0 ∧ c.ftype = .numerical

/-- An array scikit-learn accepts: at least one row and one column, all numbers finite. (Sizes fit in a C `int`.) -/
def Accepted (X : Matrix) : Prop :=
  0 < X.nrows ∧ X.nrows < 2 ^ 31 ∧ 0 < X.cols.length ∧ X.cols.length < 2 ^ 31 ∧
    ∀ c ∈ X.cols, ∀ v ∈ c, ∃ x, v = .fin x

/-- A target for `X`: a column of 32-bit floats, all finite, as long as `X`. -/
def TargetFor (X : Matrix) (y : Vector) : Prop :=
  y.f32 = true ∧ y.vals.length = X.nrows ∧ ∀ v ∈ y.vals, ∃ x, v = .fin x

/-- The categorical features are given as a container. -/
def Categories (ps : Params) (cats : List Int) : Prop :=
  ∃ items s, ps "categorical_features" = .seq items s ∧ cats = items.filterMap Item.int

/-- The estimators a program can have: made anew, and changed by calls of `fit` and `predict` that may have failed. Other
code in the process may use the library before and in between, with its own contexts. -/
inductive Estimator (E : Env) : Est → Prop
  | new {w : World} : Session E w → Estimator E ⟨w, none, false⟩
  | fit {e e' : Est} {ps : Params} {X : Matrix} {y : Vector} {r : Except Exc Unit} : Estimator E e →
      Python.fit E e ps X y = .ok (e', r) → Estimator E e'
  | predict {e e' : Est} {X : Matrix} {r : Except Exc (List Num)} : Estimator E e →
      Python.predictEst E e X = .ok (e', r) → Estimator E e'
  | other {e : Est} {w' : World} {call : Call} {r : Ret} : Estimator E e → Allowed e.world call →
      (∀ raw, e.raw = some raw → call.ptr ≠ some raw.ptr) → step E e.world call = .ok (w', r) →
      Estimator E { e with world := w' }

/-- `fit` has returned normally, for `nf` features; the model is `m` (none if the training failed). -/
def Fitted (E : Env) (e : Est) (nf : Nat) (m : Option AdditiveTree) : Prop :=
  Estimator E e ∧ e.fitted = true ∧ ∃ raw c, e.raw = some raw ∧ raw.nfeatures = nf ∧ Live e.world raw.ptr c ∧
    c.nfeatures = nf ∧ c.model = m

/-- A method call on a `RawBitBoost` object. -/
inductive RawOp where
  | setFeatureData (feat : Int) (data : Vector) (categorical : Bool)
  | setData (X : Matrix) (isCat : Nat → Option Bool)
  | setTarget (y : Vector)
  | setConfig (values : List (List Char × Val))
  | train
  | predict
  | dealloc
  | del

/-- The effect of a method call, and the exception it raises. -/
def RawOp.run (E : Env) (s : St) : RawOp → Out (St × Option Exc) := fun op =>
  let err {α : Type} (r : Res α) : Out (St × Option Exc) :=
    match r with
    | .ok (s, .ok _) => .ok (s, none)
    | .ok (s, .error e) => .ok (s, some e)
    | .panic => .panic
    | .ub => .ub
  match op with
  | .setFeatureData f v c => err (Python.setFeatureData E s f v c)
  | .setData X ic => err (Python.setData E s X ic)
  | .setTarget y => err (Python.setTarget E s y)
  | .setConfig vs => err (Python.setConfig E s vs)
  | .train => err (Python.train E s)
  | .predict => err (Python.predict E s)
  | .dealloc => err (Python.dealloc E s)
  | .del => err (Python.del E s)

/-- What the object relies on: a matrix has at least one row, and a column at least as many elements as the last matrix
has rows. -/
def RawOp.Proper (s : St) : RawOp → Prop
  | .setFeatureData _ v _ => s.raw.nexamples ≤ v.vals.length
  | .setData X _ => 0 < X.nrows
  | .setTarget y => s.raw.nexamples ≤ y.vals.length
  | _ => True

/-- The objects a program can have that keeps to that. -/
inductive Object (E : Env) : St → Prop
  | new {w w' : World} {nf n : Nat} {raw : Raw} : Session E w → Python.init E w nf n = .ok (w', .ok raw) →
      Object E ⟨w', raw⟩
  | op {s s' : St} {op : RawOp} {x : Option Exc} : Object E s → op.Proper s → op.run E s = .ok (s', x) → Object E s'

end BitBoost.Spec
