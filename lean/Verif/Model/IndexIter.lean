import Verif.Model.Bits
/-!
# Iterating over the set bits of a bit vector

Models `src/slice_store.rs:542-691` (`for_each_index*`, `index_iter*`) and `:709-775`
(`IndexIter`).

A mask word `T` of `w` bits is a `BitVec w` (`u64` or `u32`). The closures `mask_f` and `index_f`
can themselves perform bounds-checked or unchecked reads, so they are functions into `Out`.
-/
namespace BitBoost

/-- `T::trailing_zeros`: the position of the lowest set bit (`w` if there is none). -/
def trailingZeros {w : Nat} (x : BitVec w) : Nat :=
  ((List.range w).find? x.getLsbD).getD w

/-- `mask ^ (1 << k)` (`src/slice_store.rs:552`, `:575`, `:600`, `:629`, `:739`). -/
def flipBit {w : Nat} (x : BitVec w) (k : Nat) : BitVec w := x ^^^ (1#w <<< k)

/-- The immutable part of `IndexIter`, `src/slice_store.rs:709-725`: the bit vector, the closures
and `n`. -/
structure IndexIter (w : Nat) where
  bitvec : Blocks
  maskF : Nat → Out (BitVec w)
  indexF : Nat → Out Nat
  f : BitVec w → BitVec w
  n : Nat

/-- The mutable part of `IndexIter`: `i`, `j`, `mask`. -/
structure IndexIter.St (w : Nat) where
  i : Nat
  j : Nat
  mask : BitVec w

namespace IndexIter
variable {w : Nat}

/-- `src/slice_store.rs:735-749` `next`. The loop either returns or advances `i`, so it is
recursive on `n - i`. -/
def next (it : IndexIter w) (s : St w) : Out (Option Nat × St w) :=
  if s.mask ≠ 0#w then
    let k := trailingZeros s.mask
    .ok (some (k + w * s.j), { s with mask := flipBit s.mask k })
  else if _h : s.i < it.n then do
    let j ← it.indexF s.i
    let mask1 ← Blocks.getUnchecked w it.bitvec s.i
    let mask2 ← it.maskF j
    next it ⟨s.i + 1, j, mask1 &&& it.f mask2⟩
  else .ok (none, s)
termination_by it.n - s.i
decreasing_by simp_wf; omega

/-- The results of the first `k` calls of `next`. -/
def calls (it : IndexIter w) : Nat → St w → Out (List (Option Nat))
  | 0, _ => .ok []
  | k + 1, s => do
      let r ← it.next s
      let rest ← calls it k r.2
      return r.1 :: rest

/-- `src/slice_store.rs:759-774` `new`: `n = bitvec.block_len::<T>()` must be positive. -/
def new (bitvec : Blocks) (maskF : Nat → Out (BitVec w)) (indexF : Nat → Out Nat)
    (f : BitVec w → BitVec w) : Out (IndexIter w × St w) :=
  let n := Blocks.blockLen w bitvec
  if 0 < n then .ok (⟨bitvec, maskF, indexF, f, n⟩, ⟨0, 0, 0#w⟩) else .panic

end IndexIter

namespace Blocks

/-- `src/slice_store.rs:643-645` `index_iter`. -/
def indexIter (bs : Blocks) : Out (IndexIter 64 × IndexIter.St 64) :=
  IndexIter.new bs (fun _ => .ok (BitVec.allOnes 64)) (fun i => .ok i) id

/-- `src/slice_store.rs:647-653` `index_iter_compr`. -/
def indexIterCompr (bs indices : Blocks) : Out (IndexIter 32 × IndexIter.St 32) := do
  Out.assert (blockLen 32 bs == blockLen 32 indices)
  IndexIter.new bs (fun _ => .ok (BitVec.allOnes 32))
    (fun i => do let x ← getUnchecked 32 indices i; return x.toNat) id

/-- `src/slice_store.rs:655-661` `index_iter_and`. -/
def indexIterAnd (bs mask : Blocks) : Out (IndexIter 64 × IndexIter.St 64) := do
  Out.assert (blockLen 64 bs == blockLen 64 mask)
  IndexIter.new bs (fun i => getUnchecked 64 mask i) (fun i => .ok i) id

/-- `src/slice_store.rs:663-672` `index_iter_and_compr` (the access to `mask` is checked). -/
def indexIterAndCompr (bs mask indices : Blocks) : Out (IndexIter 32 × IndexIter.St 32) := do
  Out.assert (blockLen 32 bs == blockLen 32 indices)
  Out.assert (blockLen 32 bs ≤ blockLen 32 mask)
  IndexIter.new bs (fun i => get 32 mask i)
    (fun i => do let x ← getUnchecked 32 indices i; return x.toNat) id

/-- `src/slice_store.rs:674-680` `index_iter_andnot`. -/
def indexIterAndnot (bs mask : Blocks) : Out (IndexIter 64 × IndexIter.St 64) := do
  Out.assert (blockLen 64 bs == blockLen 64 mask)
  IndexIter.new bs (fun i => getUnchecked 64 mask i) (fun i => .ok i) (fun x => ~~~x)

/-- `src/slice_store.rs:682-691` `index_iter_andnot_compr`. -/
def indexIterAndnotCompr (bs mask indices : Blocks) : Out (IndexIter 32 × IndexIter.St 32) := do
  Out.assert (blockLen 32 bs == blockLen 32 indices)
  Out.assert (blockLen 32 bs ≤ blockLen 32 mask)
  IndexIter.new bs (fun i => get 32 mask i)
    (fun i => do let x ← getUnchecked 32 indices i; return x.toNat) (fun x => ~~~x)

/-! ## Callback iteration

`f : FnMut(usize) -> bool` has a state `σ`; `f i s` is the new state and the returned boolean
(`true` = stop). -/

/-- The common loop of `for_each_index*` (`src/slice_store.rs:549-560`, `:572-584`, `:597-610`,
`:626-640`): `load i` reads the mask and the word index number `i`. The measure is lexicographic:
either `i` grows, or a bit is removed from the mask. `fuel` bounds the number of rounds; a round
removes one bit or advances one word, so `(n - i) * (w + 1) + (number of set bits)` rounds
suffice (running out of fuel is reported as `panic`; the theorems show it never happens). -/
def forEachLoop {w : Nat} {σ : Type} (n : Nat) (load : Nat → Out (BitVec w × Nat))
    (f : Nat → σ → σ × Bool) : Nat → Nat → Nat → BitVec w → σ → Out σ
  | 0, _, _, _, _ => .panic
  | fuel + 1, i, index, mask, s =>
    if mask ≠ 0#w then
      let j := trailingZeros mask
      let r := f (j + w * index) s
      if r.2 then .ok r.1 else forEachLoop n load f fuel i index (flipBit mask j) r.1
    else if i + 1 < n then do
      let r ← load (i + 1)
      forEachLoop n load f fuel (i + 1) r.2 r.1 s
    else .ok s

/-- Start of the loops: `assert!(n > 0)`, load word 0, loop. -/
def forEachStart {w : Nat} {σ : Type} (n : Nat) (load : Nat → Out (BitVec w × Nat))
    (f : Nat → σ → σ × Bool) (s : σ) : Out σ := do
  let r ← load 0
  forEachLoop n load f (n * (w + 1) + 1) 0 r.2 r.1 s

/-- `src/slice_store.rs:542-561` `for_each_index`. -/
def forEachIndex {σ : Type} (bs : Blocks) (f : Nat → σ → σ × Bool) (s : σ) : Out σ := do
  let n := blockLen 64 bs
  Out.assert (0 < n)
  forEachStart n (fun i => do let m ← getUnchecked 64 bs i; return (m, i)) f s

/-- `src/slice_store.rs:563-585` `for_each_index_compr`. -/
def forEachIndexCompr {σ : Type} (bs indices : Blocks) (f : Nat → σ → σ × Bool) (s : σ) :
    Out σ := do
  let n := blockLen 32 bs
  Out.assert (0 < n)
  Out.assert (n == blockLen 32 indices)
  forEachStart n (fun i => do
    let idx ← getUnchecked 32 indices i
    let m ← getUnchecked 32 bs i
    return (m, idx.toNat)) f s

/-- `src/slice_store.rs:587-611` `for_each_index_and`. -/
def forEachIndexAnd {σ : Type} (bs other : Blocks) (f : Nat → σ → σ × Bool) (s : σ) : Out σ := do
  let n := blockLen 64 bs
  Out.assert (0 < n)
  Out.assert (n == blockLen 64 other)
  forEachStart n (fun i => do
    let m1 ← getUnchecked 64 bs i
    let m2 ← getUnchecked 64 other i
    return (m1 &&& m2, i)) f s

/-- `src/slice_store.rs:614-641` `for_each_index_and_compr`: the index read from `indices` is used
in an *unchecked* access to `other`. -/
def forEachIndexAndCompr {σ : Type} (bs other indices : Blocks) (f : Nat → σ → σ × Bool) (s : σ) :
    Out σ := do
  let n := blockLen 32 bs
  Out.assert (0 < n)
  Out.assert (n ≤ blockLen 32 other)
  Out.assert (n == blockLen 32 indices)
  forEachStart n (fun i => do
    let idx ← getUnchecked 32 indices i
    let m1 ← getUnchecked 32 bs i
    let m2 ← getUnchecked 32 other idx.toNat
    return (m1 &&& m2, idx.toNat)) f s

end Blocks
end BitBoost
