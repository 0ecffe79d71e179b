import Verif.Model.CApi
import Verif.Spec.Trees
import Verif.Spec.Columns
/-! Vocabulary for statements about the C interface. -/
namespace BitBoost.Spec
open BitBoost.CApi

/-- `p` points to a context that has been allocated and not freed, with content `c`. -/
def Live (w : World) (p : Ptr) (c : Ctx) : Prop := ∃ i, p = .ctx i ∧ w[i]? = some (some c)

/-- A pointer a caller may pass: null or to a live context. -/
def PtrOk (w : World) (p : Ptr) : Prop := p = .null ∨ ∃ c, Live w p c

/-- The values of a C `int`. -/
def IsCInt (x : Int) : Prop := -2 ^ 31 ≤ x ∧ x < 2 ^ 31

/-- The calls a C program may make: its integers are C integers, its pointers are null or live contexts, its strings
are strings, and its buffers are large enough for the data that is loaded. -/
def Allowed (w : World) : Call → Prop
  | .numtNbytes => True
  | .alloc n => IsCInt n
  | .dealloc p => PtrOk w p
  | .refreshData p n => PtrOk w p ∧ IsCInt n
  | .setFeatureData p feat column categorical =>
      PtrOk w p ∧ IsCInt feat ∧ IsCInt categorical ∧
        ∀ c d, Live w p c → c.data = some d → d.nexamples ≤ column.length
  | .setConfigField p name value => PtrOk w p ∧ name ≠ .invalid ∧ value ≠ .invalid
  | .train p => PtrOk w p
  | .predict p capacity => PtrOk w p ∧ ∀ c d, Live w p c → c.data = some d → d.nexamples ≤ capacity

/-- The states a C program can bring the library to. -/
inductive Session (E : Env) : World → Prop
  | start : Session E []
  | call {w w' : World} {c : Call} {r : Ret} : Session E w → Allowed w c → step E w c = .ok (w', r) → Session E w'

/-- The error values. -/
def Failed (r : Ret) : Prop := r = .code (-1) ∨ r = .ptr .null

/-- The context of a call. -/
def _root_.BitBoost.CApi.Call.ptr : Call → Option Ptr
  | .numtNbytes => none
  | .alloc _ => none
  | .dealloc p => some p
  | .refreshData p _ => some p
  | .setFeatureData p _ _ _ => some p
  | .setConfigField p _ _ => some p
  | .train p => some p
  | .predict p _ => some p

/-- `d'` is `d` except for the content of column `feat`. -/
def OnlyColumn (d d' : Data) (feat : Nat) : Prop :=
  d'.nfeatures = d.nfeatures ∧ d'.nexamples = d.nexamples ∧ d'.maxNbins = d.maxNbins ∧ d'.names = d.names ∧
    d'.cols.length = d.cols.length ∧ ∀ j, j ≠ feat → d'.cols[j]? = d.cols[j]?

end BitBoost.Spec
