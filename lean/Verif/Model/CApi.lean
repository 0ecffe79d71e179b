import Verif.Model.Boost
/-!
# The C interface (`src/c_api.rs`)

A program sees contexts only through the pointers it got from `bb_alloc`. The world is the list of all contexts
ever allocated; a freed one is `none`. Simplification: the address of a freed context is never handed out again.

Undefined behaviour here is what the caller can cause: a pointer to a freed context, to too few floats, to no
string or to a buffer that is too small.

Left out: the messages on the standard output, and running out of memory (the process ends).
-/
namespace BitBoost
namespace CApi

/-- What the functions use but is not part of the context: the rounding, the math library, the parser of floating
point numbers, and the random generator for a seed (`SmallRng::seed_from_u64`, `src/dataset.rs:39`). -/
structure Env where
  F : FP
  M : Libm
  pf : List Char → Option Num
  seed : Nat → Rng

/-- `src/c_api.rs:22-27` `Context`. -/
structure Ctx where
  config : Config
  nfeatures : Nat
  data : Option Data
  model : Option AdditiveTree

/-- All contexts ever allocated. -/
abbrev World := List (Option Ctx)

/-- A `*mut c_void`: null, or what the call number `i` of `bb_alloc` that succeeded has returned. -/
inductive Ptr where
  | null
  | ctx (i : Nat)
deriving DecidableEq

/-- A `*const c_char`: not a pointer to a string, a string that is not UTF-8, or a string. -/
inductive CStr where
  | invalid
  | notUtf8
  | text (s : List Char)

/-- A call. `column` is the list of floats that can be read from the pointer on (nothing for null), `capacity` the
number of floats that can be written. -/
inductive Call where
  | numtNbytes
  | alloc (nfeatures : Int)
  | dealloc (p : Ptr)
  | refreshData (p : Ptr) (nexamples : Int)
  | setFeatureData (p : Ptr) (feat : Int) (column : List Num) (categorical : Int)
  | setConfigField (p : Ptr) (name value : CStr)
  | train (p : Ptr)
  | predict (p : Ptr) (capacity : Nat)

/-- What a call returns, and for `bb_predict` what it has written. -/
inductive Ret where
  | code (c : Int)
  | ptr (p : Ptr)
  | filled (c : Int) (buf : List Num)
deriving DecidableEq

/-- The end of the body of a function: the contexts, which keep what was done before a panic, and the result. -/
abbrev Body := World × Out Ret

/-- `src/c_api.rs:36-39` `from_raw_ptr_mut`, and the rest of the body with the context. -/
def withCtx (w : World) (p : Ptr) (k : Nat → Ctx → Body) : Body :=
  match p with
  | .null => (w, .panic)
  | .ctx i =>
      match w[i]?.join with
      | some c => k i c
      | none => (w, .ub)

/-- `src/c_api.rs:73-95` `wrap_catch_unwind!`: a panic becomes the error value. -/
def wrap (errval : Ret) (b : Body) : Out (World × Ret) :=
  match b.2 with
  | .ok r => .ok (b.1, r)
  | .panic => .ok (b.1, errval)
  | .ub => .ub

/-- `src/c_api.rs:107-114` `bb_alloc`, with `src/c_api.rs:41-56` `Context::alloc`. -/
def alloc (w : World) (nfeatures : Int) : Body :=
  if 0 < nfeatures then
    (w ++ [some { config := Config.new, nfeatures := nfeatures.toNat, data := none, model := none }],
      .ok (.ptr (.ctx w.length)))
  else (w, .panic)

/-- `src/c_api.rs:117-123` `bb_dealloc`, with `src/c_api.rs:58-63` `Context::dealloc`. -/
def dealloc (w : World) (p : Ptr) : Body :=
  withCtx w p fun i _ => (w.set i none, .ok (.code 0))

/-- `src/c_api.rs:126-134` `bb_refresh_data`. -/
def refreshData (w : World) (p : Ptr) (nexamples : Int) : Body :=
  if 0 < nexamples then
    withCtx w p fun i c =>
      (w.set i (some { c with data := some (Data.empty c.config c.nfeatures nexamples.toNat) }), .ok (.code 0))
  else (w, .panic)

/-- `src/c_api.rs:137-153` `bb_set_feature_data`. When a category is rejected, the part of the column before it has
been overwritten. -/
def setFeatureData (w : World) (p : Ptr) (feat : Int) (column : List Num) (categorical : Int) : Body :=
  withCtx w p fun i c =>
    if 0 ≤ feat ∧ feat.toNat ≤ c.nfeatures then
      match c.data with
      | none => (w, .panic)
      | some d =>
          if d.nexamples ≤ column.length then
            match Data.setFeatureData d feat.toNat (column.take d.nexamples) (decide (categorical ≠ 0)) with
            | .ok (d', true) => (w.set i (some { c with data := some d' }), .ok (.code 0))
            | .ok (d', false) => (w.set i (some { c with data := some d' }), .panic)
            | .panic => (w, .panic)
            | .ub => (w, .ub)
          else (w, .ub)
    else (w, .panic)

/-- `src/c_api.rs:156-167` `bb_set_config_field`. -/
def setConfigField (E : Env) (w : World) (p : Ptr) (name value : CStr) : Body :=
  withCtx w p fun i c =>
    match c.data with
    | some _ => (w, .panic)
    | none =>
        match name with
        | .invalid => (w, .ub)
        | .notUtf8 => (w, .panic)
        | .text n =>
            match value with
            | .invalid => (w, .ub)
            | .notUtf8 => (w, .panic)
            | .text v =>
                match Config.parseRecord E.pf c.config (String.ofList n) v with
                | .ok cfg => (w.set i (some { c with config := cfg }), .ok (.code 0))
                | .error _ => (w, .panic)

/-- `src/c_api.rs:170-180` `bb_train`. The objective is made anew for each call. -/
def train (E : Env) (w : World) (p : Ptr) : Body :=
  withCtx w p fun i c =>
    match c.data with
    | none => (w, .panic)
    | some d =>
        match Objective.fromName c.config.objective with
        | none => (w, .panic)
        | some o =>
            match Metric.fromNames c.config.metrics with
            | none => (w, .panic)
            | some ms =>
                match Booster.run E.F E.M c.config d (E.seed c.config.randomSeed) ms o with
                | .ok b => (w.set i (some { c with model := some b.ensemble }), .ok (.code 0))
                | .panic => (w, .panic)
                | .ub => (w, .ub)

/-- `src/c_api.rs:183-193` `bb_predict`. What is in the buffer after a call that fails is left out; it only fails
before it writes (C53). -/
def predict (E : Env) (w : World) (p : Ptr) (capacity : Nat) : Body :=
  withCtx w p fun _ c =>
    match c.data with
    | none => (w, .panic)
    | some d =>
        match c.model with
        | none => (w, .panic)
        | some m =>
            if d.nexamples ≤ capacity then
              match m.predictBuf E.F d (List.replicate d.nexamples (.fin 0)) with
              | .ok out => (w, .ok (.filled 0 out))
              | .panic => (w, .panic)
              | .ub => (w, .ub)
            else (w, .ub)

/-- A call of one of the functions `src/c_api.rs:97-194`, with its error value. -/
def step (E : Env) (w : World) : Call → Out (World × Ret)
  | .numtNbytes => .ok (w, .code 4)
  | .alloc n => wrap (.ptr .null) (alloc w n)
  | .dealloc p => wrap (.code (-1)) (dealloc w p)
  | .refreshData p n => wrap (.code (-1)) (refreshData w p n)
  | .setFeatureData p f col cat => wrap (.code (-1)) (setFeatureData w p f col cat)
  | .setConfigField p n v => wrap (.code (-1)) (setConfigField E w p n v)
  | .train p => wrap (.code (-1)) (train E w p)
  | .predict p cap => wrap (.code (-1)) (predict E w p cap)

end CApi
end BitBoost
