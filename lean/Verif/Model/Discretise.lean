import Verif.Model.Num
import Verif.Model.BitSlice
/-!
# Discretised values in bit slices (`src/slice_store.rs:780-794, 883-897`, `src/bitslice.rs:17-31, 198-210`)
-/
namespace BitBoost
namespace BitSlice

/-- `src/slice_store.rs:788` `nunique_values() - 1`. -/
def maxval (w : Nat) : Nat := 2 ^ w - 1

/-- `src/slice_store.rs:790-793` `linproj`. -/
def linproj (F : FP) (w : Nat) (value count lo hi : Num) : Num :=
  F.add (F.mul (F.div value (F.ofNat (maxval w))) (F.sub hi lo)) (F.mul count lo)

/-- `src/slice_store.rs:890-893`: the code stored for `value` by `set_scaled_value`. -/
def discretise (F : FP) (w : Nat) (value lo hi : Num) : BitVec 8 :=
  let v0 := Num.min hi (Num.max lo value)
  let v1 := F.mul (F.div (F.sub v0 lo) (F.sub hi lo)) (F.ofNat (maxval w))
  v1.round.toU8

/-- `src/slice_store.rs:888-897` `set_scaled_value`: stores and returns the code. -/
def setScaledValue (F : FP) (w : Nat) (bs : Blocks) (index : Nat) (value lo hi : Num) :
    Out (Blocks × BitVec 8) := do
  let v2 := discretise F w value lo hi
  let bs' ← setValue w bs index v2
  return (bs', v2)

/-- `src/slice_store.rs:883-885` `get_scaled_value`. -/
def getScaledValue (F : FP) (w : Nat) (bs : Blocks) (index : Nat) (lo hi : Num) : Out Num := do
  let v ← getValue w bs index
  return linproj F w (F.ofNat v.toNat) (F.ofNat 1) lo hi

/-- `src/slice_store.rs:946-952` `sum_scaled_masked_unsafe`. -/
def sumScaledMaskedUnsafe (F : FP) (w : Nat) (bs : Blocks) (index : Nat) (mask : BitVec 32)
    (lo hi : Num) : Out (Num × Nat) := do
  let count := BitBlock.popcount mask
  let sum ← sumMaskedUnsafe w bs index mask
  return (linproj F w (F.ofNat sum) (F.ofNat count) lo hi, count)

/-- `src/slice_store.rs:954-959` `sum_scaled_masked`. -/
def sumScaledMasked (F : FP) (w : Nat) (bs : Blocks) (index : Nat) (mask : BitVec 32)
    (lo hi : Num) : Out (Num × Nat) :=
  if index < Blocks.blockLen 32 bs / w then sumScaledMaskedUnsafe F w bs index mask lo hi else .panic

end BitSlice
end BitBoost
