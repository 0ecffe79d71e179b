import Verif.Model.Bits
/-!
# Slice stores

Models `src/slice_store.rs:30-222` (`SliceStore`), `:230-312` (`HistStore`) and `:322-452`
(`BitBlockStore`).

The heap buffer behind `ptr` is a function from element index to an optional element; `none` is
uninitialised memory (reading it is undefined behaviour). `realloc` preserves the old elements and
leaves the new ones uninitialised. Running out of memory is not modelled. A `SliceRange` is a pair
`(u32, u32)`; ranges are `Nat` pairs because `alloc_slice` asserts that ends stay below `u32::MAX`.
-/
namespace BitBoost

/-- `src/slice_store.rs:24` `SliceRange`. -/
abbrev Range := Nat × Nat

/-- `src/slice_store.rs:31-46` `SliceStore`. `alignT`, `sizeT` are `align_of::<T>()` and
`size_of::<T>()`. `ends` is the hash map `slice_ends` as an association list, newest binding first
(`HashMap::insert` = add in front, lookup = first match). -/
structure Store (T : Type) where
  mem : Nat → Option T
  capacity : Nat
  byteAlign : Nat
  alignT : Nat
  sizeT : Nat
  len : Nat
  free : List Range
  ends : List (Nat × Nat)

/-- `u32::max_value()`. -/
def u32Max : Nat := 4294967295

namespace Store
variable {T : Type}

/-- `src/slice_store.rs:51-55` `get_byte_align`: the loop doubles until the size is reached. `fuel`
bounds the number of doublings (`sizeT` suffices, see `getByteAlign`). -/
def byteAlignLoop (sizeT : Nat) : Nat → Nat → Nat
  | 0, a => a
  | fuel + 1, a => if a < sizeT then byteAlignLoop sizeT fuel (a * 2) else a

/-- `src/slice_store.rs:51-55` `get_byte_align`. -/
def getByteAlign (alignT sizeT : Nat) : Nat := byteAlignLoop sizeT sizeT alignT

/-- `src/slice_store.rs:57-60` `get_elem_align`. -/
def elemAlign (s : Store T) : Nat := s.byteAlign / s.alignT

/-- A power of two, as `Layout::from_size_align(..).unwrap()` requires of the alignment
(`src/slice_store.rs:88`). -/
def isPow2 (n : Nat) : Bool := n != 0 && (List.range (n + 1)).any fun k => 2 ^ k == n

/-- `src/slice_store.rs:66-93` `aligned` (and `alloc`): `assert!(byte_align % align_of == 0)`,
`assert!(capacity > 0)`, layout check. The fresh buffer is uninitialised. -/
def aligned (T : Type) (alignT sizeT initialCap byteAlign : Nat) : Out (Store T) :=
  if byteAlign % alignT = 0 ∧ 0 < alignT ∧ isPow2 byteAlign = true ∧ 0 < initialCap then
    .ok { mem := fun _ => none, capacity := initialCap, byteAlign, alignT, sizeT,
          len := 0, free := [], ends := [] }
  else .panic

/-- `src/slice_store.rs:62-64` `new`. -/
def new (T : Type) (alignT sizeT initialCap : Nat) : Out (Store T) :=
  aligned T alignT sizeT initialCap (getByteAlign alignT sizeT)

/-- `src/slice_store.rs:113-114`: double the capacity until it is large enough. Recursive on
`newLen - cap` because `cap > 0`. -/
def growCap (newLen cap : Nat) : Nat :=
  if 0 < cap ∧ cap < newLen then growCap newLen (cap * 2) else cap
termination_by newLen - cap
decreasing_by simp_wf; omega

/-- Overwrite the elements `lo..hi` with `v`. -/
def fill (mem : Nat → Option T) (lo hi : Nat) (v : T) : Nat → Option T :=
  fun i => if lo ≤ i ∧ i < hi then some v else mem i

/-- `src/slice_store.rs:110-124` `resize` (with `realloc`, `:95-108`): grow the capacity if needed,
initialise the newly visible elements. -/
def resize (s : Store T) (newLen : Nat) (v : T) : Store T :=
  let cap := if newLen > s.capacity then growCap newLen (s.capacity * 2) else s.capacity
  { s with capacity := cap, mem := fill s.mem s.len newLen v, len := newLen }

/-- `Vec::swap_remove(i)`: remove element `i`, putting the last element in its place. -/
def swapRemove {α : Type} (l : List α) (i : Nat) : List α :=
  match l.getLast? with
  | none => l
  | some last => if i + 1 = l.length then l.dropLast else (l.dropLast).set i last

/-- `src/slice_store.rs:148-154` `get_slice`, `get_slice_mut`: the range is checked against the
*capacity* (`buffer()` spans the whole capacity). -/
def checkRange (s : Store T) (r : Range) : Bool := r.1 ≤ r.2 && r.2 ≤ s.capacity

/-- Read a whole slice: `get_slice(r)` and read every element. -/
def readSlice (s : Store T) (r : Range) : Out (List T) :=
  if checkRange s r then
    let cells := (List.range' r.1 (r.2 - r.1)).map s.mem
    if cells.all Option.isSome then .ok (cells.filterMap id) else .ub
  else .panic

/-- `get_slice_mut(r)[k] = v`. -/
def writeAt (s : Store T) (r : Range) (k : Nat) (v : T) : Out (Store T) :=
  if checkRange s r ∧ k < r.2 - r.1 then
    .ok { s with mem := fun i => if i = r.1 + k then some v else s.mem i }
  else .panic

/-- The search loop of `alloc_slice`, `src/slice_store.rs:174-183`: the first free range that is
long enough. -/
def findFree (l : List Range) (len : Nat) : Option Nat :=
  l.findIdx? fun r => r.2 - r.1 ≥ len

/-- `src/slice_store.rs:169-201` `alloc_slice`. -/
def allocSlice (s : Store T) (len : Nat) (v : T) : Out (Range × Store T) :=
  if len = 0 then .panic
  else
    match findFree s.free len with
    | some i =>
        match s.free[i]? with
        | none => .panic
        | some r =>
            let s' := { s with free := swapRemove s.free i }
            -- `self.get_slice_mut(r).iter_mut().for_each(..)`
            if checkRange s' r then
              .ok ((r.1, r.1 + len), { s' with mem := fill s'.mem r.1 r.2 v })
            else .panic
    | none =>
        let m := s.len % s.elemAlign
        let oldLen := if m = 0 then s.len else s.len + s.elemAlign - m
        let newLen := oldLen + len
        if newLen < u32Max then
          let s' := resize s newLen v
          .ok ((oldLen, newLen), { s' with ends := (oldLen, newLen) :: s'.ends })
        else .panic

/-- `src/slice_store.rs:208-212` `free_slice` in a release build (the double-free check is a
`debug_assert!`). `self.slice_ends[&range.0]` panics if the key is absent. -/
def freeSlice (s : Store T) (r : Range) : Out (Store T) :=
  match s.ends.lookup r.1 with
  | some e => .ok { s with free := s.free ++ [(r.1, e)] }
  | none => .panic

/-- `src/slice_store.rs:214-218` `reset`. The buffer keeps its contents and capacity. -/
def reset (s : Store T) : Store T := { s with len := 0, free := [], ends := [] }

/-- `src/slice_store.rs:156-167` `get_two_slices_mut` (release build: the `debug_assert!` is not
there). Returns the two absolute index ranges handed out. `split_at_mut(mid)` panics if
`mid > capacity`; the sub-slices are checked. -/
def getTwoSlicesMut (s : Store T) (r1 r2 : Range) : Out (Range × Range) :=
  if r1.1 < r2.1 then
    -- split at r2.0; s1[r1.0..r1.1], s2[0..r2.1-r2.0]
    if r2.1 ≤ s.capacity ∧ r1.1 ≤ r1.2 ∧ r1.2 ≤ r2.1 ∧ r2.1 ≤ r2.2 ∧
        r2.2 - r2.1 ≤ s.capacity - r2.1 then
      .ok ((r1.1, r1.2), (r2.1, r2.1 + (r2.2 - r2.1)))
    else .panic
  else
    if r1.1 ≤ s.capacity ∧ r1.1 ≤ r1.2 ∧ r1.2 - r1.1 ≤ s.capacity - r1.1 ∧
        r2.1 ≤ r2.2 ∧ r2.2 ≤ r1.1 then
      .ok ((r1.1, r1.1 + (r1.2 - r1.1)), (r2.1, r2.2))
    else .panic

/-- Loop `src/slice_store.rs:282-286` of `hists_subtract`: `right[i] = parent[i] - left[i]` for the
`n` bins, starting at bin `i`. Each `buffer[..]` access is checked against the capacity; reading an
uninitialised element is undefined behaviour. -/
def subLoop (sub : T → T → T) (plo llo rlo : Nat) : Nat → Nat → Store T → Out (Store T)
  | 0, _, s => .ok s
  | n + 1, i, s =>
    if plo + i < s.capacity ∧ llo + i < s.capacity ∧ rlo + i < s.capacity then
      match s.mem (plo + i), s.mem (llo + i) with
      | some p, some l =>
          subLoop sub plo llo rlo n (i + 1)
            { s with mem := fun j => if j = rlo + i then some (sub p l) else s.mem j }
      | _, _ => .ub
    else .panic

/-- `src/slice_store.rs:271-287` `hists_subtract`. -/
def histsSubtract (sub : T → T → T) (s : Store T) (parent left right : Range) : Out (Store T) :=
  subLoop sub parent.1 left.1 right.1 (parent.2 - parent.1) 0 s

end Store

/-! ## HistStore -/

/-- `src/slice_store.rs:238-247`: the cumulative layout `[0, b0, b0+b1, ..]`. -/
def histLayoutLoop : Nat → List Nat → List Nat
  | accum, [] => [accum]
  | accum, b :: bs => accum :: histLayoutLoop (accum + b) bs

/-- `src/slice_store.rs:238-247` `HistStore::new` (layout part). -/
def histLayout (binSizes : List Nat) : List Nat := histLayoutLoop 0 binSizes

/-- `src/slice_store.rs:255-259` `get_histogram_range`; slice indexing panics. -/
def histogramRange (layout : List Nat) (featId : Nat) : Out (Nat × Nat) :=
  match layout[featId]?, layout[featId + 1]? with
  | some lo, some hi => .ok (lo, hi)
  | _, _ => .panic

/-- `src/slice_store.rs:261-264` `get_hist`: slice `lo..hi` of the node's slice. -/
def getHist {T : Type} (s : Store T) (layout : List Nat) (r : Range) (featId : Nat) :
    Out (List T) := do
  let lohi ← histogramRange layout featId
  let sl ← Store.readSlice s r
  if lohi.1 ≤ lohi.2 ∧ lohi.2 ≤ sl.length then .ok ((sl.drop lohi.1).take (lohi.2 - lohi.1))
  else .panic

/-- `src/slice_store.rs:300-303` `alloc_hists`. -/
def allocHists {T : Type} (dflt : T) (s : Store T) (layout : List Nat) : Out (Range × Store T) :=
  match layout.getLast? with
  | some total => Store.allocSlice s total dflt
  | none => .panic

/-! ## BitBlockStore -/
namespace BitBlockStore

/-- `src/slice_store.rs:327-334` `new`: 64-byte alignment; `align_of = size_of = 32`. -/
def new (initialCap : Nat) : Out (Store BitBlock) := Store.aligned BitBlock 32 32 initialCap 64

/-- `src/slice_store.rs:336-339` `alloc_zero_blocks`. -/
def allocZeroBlocks (s : Store BitBlock) (n : Nat) : Out (Range × Store BitBlock) :=
  if n < u32Max then Store.allocSlice s n BitBlock.zeros else .panic

/-- `src/slice_store.rs:341-344` `alloc_zero_bits`. -/
def allocZeroBits (s : Store BitBlock) (n : Nat) : Out (Range × Store BitBlock) :=
  allocZeroBlocks s (BitBlock.blocksRequiredFor n)

/-- `src/slice_store.rs:346-349` `alloc_one_blocks`: the `nblocks as u32` cast is lossless below
`u32::MAX` (only a `debug_assert!` says so); a larger request is modelled as a panic. -/
def allocOneBlocks (s : Store BitBlock) (n : Nat) : Out (Range × Store BitBlock) :=
  if n < u32Max then Store.allocSlice s n BitBlock.ones else .panic

/-- Write a whole slice element by element (`slice[i] = ...` for all `i`). -/
def writeAll (s : Store BitBlock) (r : Range) : Nat → List BitBlock → Out (Store BitBlock)
  | _, [] => .ok s
  | k, b :: bs => do
      let s' ← Store.writeAt s r k b
      writeAll s' r (k + 1) bs

/-- `src/slice_store.rs:351-369` `alloc_one_bits`: allocate all-one blocks and trim the last. -/
def allocOneBits (s : Store BitBlock) (n : Nat) : Out (Range × Store BitBlock) := do
  let nblocks := BitBlock.blocksRequiredFor n
  let p ← allocOneBlocks s nblocks
  let sl ← Store.readSlice p.2 p.1
  let sl' ← Blocks.trimLast n nblocks sl
  let s' ← writeAll p.2 p.1 0 sl'
  return (p.1, s')

/-- `src/slice_store.rs:371-383` `alloc_from_iter`. -/
def allocFromIter (w : Nat) (s : Store BitBlock) (nvalues : Nat) (it : List (BitVec w)) :
    Out (Range × Store BitBlock) := do
  let nblocks := BitBlock.blocksRequiredFor (nvalues * w)
  let p ← allocZeroBlocks s nblocks
  let s' ← writeAll p.2 p.1 0 (Blocks.fromIterLoop w nblocks it)
  return (p.1, s')

/-- `src/slice_store.rs:385-396` `alloc_from_bits_iter`. -/
def allocFromBitsIter (s : Store BitBlock) (nbits : Nat) (it : List Bool) :
    Out (Range × Store BitBlock) := do
  let nblocks := BitBlock.blocksRequiredFor nbits
  let p ← allocZeroBlocks s nblocks
  let bs ← Blocks.fromBoolIterLoop nblocks it
  let s' ← writeAll p.2 p.1 0 bs
  return (p.1, s')

/-- `src/slice_store.rs:398-402` `alloc_zero_bitslice`: `width` lanes. -/
def allocZeroBitslice (width : Nat) (s : Store BitBlock) (nvalues : Nat) :
    Out (Range × Store BitBlock) :=
  allocZeroBlocks s (BitBlock.blocksRequiredFor nvalues * width)

end BitBlockStore
end BitBoost
