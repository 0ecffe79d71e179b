import Verif.Model.SliceStore
/-!
# Specification of a slice store: a map from handles to independent arrays

A client performs a history of operations. The abstract heap keeps, for each live handle, its own
list. The concrete client keeps, for each live handle, the `SliceRange` it got from the store.
-/
namespace BitBoost.Spec
open BitBoost

/-- Operations of a client. A handle is the number of the allocation that created the slice. -/
inductive Op (T : Type) where
  /-- `alloc_slice(len, v)`; the new handle is the next number. -/
  | alloc (len : Nat) (v : T)
  /-- `free_slice(h)`. -/
  | free (h : Nat)
  /-- `get_slice_mut(h)[k] = v`. -/
  | write (h k : Nat) (v : T)
  /-- From now on use only the first `n` elements of the slice (the client shortens its range, as
  the tree learner does after compressing examples). -/
  | shrink (h n : Nat)
  /-- `right[i] = f(parent[i], left[i])` for all `i` (`hists_subtract`). -/
  | zip (f : T → T → T) (parent left right : Nat)
  /-- Read all elements of the slice: `get_slice(h)`. -/
  | read (h : Nat)
  /-- `reset()`: all handles die. -/
  | reset

/-- What a client sees of one operation: the contents, for a read. -/
inductive Obs (T : Type) where
  | unit
  | contents (l : List T)

/-- The abstract heap. -/
structure Heap (T : Type) where
  live : Nat → Option (List T)
  next : Nat

variable {T : Type}

/-- Replace the value at one key. -/
def upd {α : Type} (f : Nat → Option α) (h : Nat) (v : Option α) : Nat → Option α :=
  fun h' => if h' = h then v else f h'

/-- Semantics of the abstract heap; `none` = the client misuses the store (dead handle, index out of
range, empty allocation, different lengths or not three different slices in `zip`). -/
def Heap.step (a : Heap T) : Op T → Option (Obs T × Heap T)
  | .alloc len v =>
      if 0 < len then some (.unit, ⟨upd a.live a.next (some (List.replicate len v)), a.next + 1⟩)
      else none
  | .free h => (a.live h).map fun _ => (.unit, ⟨upd a.live h none, a.next⟩)
  | .write h k v =>
      match a.live h with
      | some l => if k < l.length then some (.unit, ⟨upd a.live h (some (l.set k v)), a.next⟩) else none
      | none => none
  | .shrink h n =>
      match a.live h with
      | some l => if 0 < n ∧ n ≤ l.length then some (.unit, ⟨upd a.live h (some (l.take n)), a.next⟩)
                  else none
      | none => none
  | .zip f p l r =>
      match a.live p, a.live l, a.live r with
      | some lp, some ll, some lr =>
          if lp.length = ll.length ∧ lp.length = lr.length ∧ p ≠ r ∧ l ≠ r then
            some (.unit, ⟨upd a.live r (some (List.zipWith f lp ll)), a.next⟩)
          else none
      | _, _, _ => none
  | .read h => (a.live h).map fun l => (.contents l, a)
  | .reset => some (.unit, ⟨fun _ => none, a.next⟩)

/-- Run a history on the abstract heap. -/
def Heap.run (a : Heap T) : List (Op T) → Option (List (Obs T) × Heap T)
  | [] => some ([], a)
  | op :: ops =>
      match a.step op with
      | none => none
      | some (o, a') => (Heap.run a' ops).map fun r => (o :: r.1, r.2)

/-- The empty heap. -/
def Heap.empty : Heap T := ⟨fun _ => none, 0⟩

/-- A client of the concrete store: the store and the ranges of the live handles. -/
structure Client (T : Type) where
  store : Store T
  live : Nat → Option Range
  next : Nat

/-- One operation, performed by calling the concrete store with the ranges it returned. Operations
on dead handles are not calls at all (a client has no range to pass); they are reported as `panic`
and excluded by the theorems through `Heap.step = some _`. -/
def Client.step (c : Client T) : Op T → Out (Obs T × Client T)
  | .alloc len v => do
      let p ← Store.allocSlice c.store len v
      return (.unit, ⟨p.2, upd c.live c.next (some p.1), c.next + 1⟩)
  | .free h =>
      match c.live h with
      | some r => do
          let s ← Store.freeSlice c.store r
          return (.unit, ⟨s, upd c.live h none, c.next⟩)
      | none => .panic
  | .write h k v =>
      match c.live h with
      | some r => do
          let s ← Store.writeAt c.store r k v
          return (.unit, ⟨s, c.live, c.next⟩)
      | none => .panic
  | .shrink h n =>
      match c.live h with
      | some r => .ok (.unit, ⟨c.store, upd c.live h (some (r.1, r.1 + n)), c.next⟩)
      | none => .panic
  | .zip f p l r =>
      match c.live p, c.live l, c.live r with
      | some rp, some rl, some rr => do
          let s ← Store.histsSubtract f c.store rp rl rr
          return (.unit, ⟨s, c.live, c.next⟩)
      | _, _, _ => .panic
  | .read h =>
      match c.live h with
      | some r => do
          let l ← Store.readSlice c.store r
          return (.contents l, c)
      | none => .panic
  | .reset => .ok (.unit, ⟨Store.reset c.store, fun _ => none, c.next⟩)

/-- Run a history on the concrete store. -/
def Client.run (c : Client T) : List (Op T) → Out (List (Obs T) × Client T)
  | [] => .ok ([], c)
  | op :: ops => do
      let r ← c.step op
      let rest ← Client.run r.2 ops
      return (r.1 :: rest.1, rest.2)

/-- A client that has just created the store. -/
def Client.start (s : Store T) : Client T := ⟨s, fun _ => none, 0⟩

/-- Number of elements (with alignment padding) a history can ask for between two resets, an upper
bound for the addresses in use. -/
def demand (align : Nat) : List (Op T) → Nat
  | [] => 0
  | .alloc len _ :: ops => len + align + demand align ops
  | _ :: ops => demand align ops

end BitBoost.Spec

namespace BitBoost.Spec
open BitBoost
variable {T : Type}

/-- Client `c` and abstract heap `a` are the result of the same history of valid operations,
starting from a newly created store `s0`. -/
def Reached (s0 : Store T) (c : Client T) (a : Heap T) : Prop :=
  ∃ ops obs, Heap.run Heap.empty ops = some (obs, a) ∧
    Client.run (Client.start s0) ops = .ok (obs, c)

end BitBoost.Spec
