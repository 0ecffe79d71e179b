import Verif.Model.Num
import Verif.Model.Out
/-!
# The binner (`src/binner.rs`)
-/
namespace BitBoost

/-- `src/binner.rs:11-15` `Binner`. The bins are borrowed mutably in the code; here they are part of
the value. -/
structure Binner (β : Type) where
  bins : List β
  minValue : Num
  delta : Num

namespace Binner
variable {β : Type}

/-- `src/binner.rs:18-31` `Binner::new`: four assertions, then the bin width. -/
def new (F : FP) (bins : List β) (lo hi : Num) : Out (Binner β) := do
  Out.assert lo.isFinite
  Out.assert hi.isFinite
  Out.assert (lo.lt hi)
  Out.assert (!bins.isEmpty)
  return { bins := bins, minValue := lo, delta := F.div (F.sub hi lo) (F.ofNat bins.length) }

/-- `src/binner.rs:68-72` `get_bin`. -/
def getBin (F : FP) (b : Binner β) (value : Num) : Nat :=
  let x := F.div (F.sub value b.minValue) b.delta
  let i := x.floor.toIsize
  Min.min (Max.max i 0).toNat (b.bins.length - 1)

/-- `src/binner.rs:33-38` `insert`; the combiner is the function `comb data bin`. The bins slice is
indexed with bounds checking. -/
def insert {δ : Type} (F : FP) (comb : δ → β → β) (b : Binner β) (value : Num) (data : δ) :
    Out (Binner β) :=
  let i := getBin F b value
  match b.bins[i]? with
  | some x => .ok { b with bins := b.bins.set i (comb data x) }
  | none => .panic

/-- A sequence of `insert` calls, as in the loops of `src/dataset.rs:125-130`, `src/dataset.rs:194-202`,
`src/objective.rs:128-134`. -/
def insertAll {δ : Type} (F : FP) (comb : δ → β → β) (b : Binner β) : List (Num × δ) → Out (Binner β)
  | [] => .ok b
  | (v, d) :: l => do
      let b' ← insert F comb b v d
      insertAll F comb b' l

/-- `src/binner.rs:64-66` `bin_representative`. -/
def representative (F : FP) (b : Binner β) (bin : Nat) : Num :=
  F.add b.minValue (F.mul (F.ofNat (Min.min bin (b.bins.length - 1))) b.delta)

/-- The operations of the rank type `R: Copy + Default + PartialOrd + AddAssign`
(`src/binner.rs:48-53`); instantiated with `u32` and `f32`. -/
structure RankOps (R : Type) where
  zero : R
  add : R → R → R
  le : R → R → Bool

/-- `u32` ranks: counts (unbounded here; a `u32` wraps only after 2^32 examples). -/
def natOps : RankOps Nat := { zero := 0, add := (· + ·), le := fun a b => decide (a ≤ b) }

/-- `f32` ranks. -/
def numOps (F : FP) : RankOps Num := { zero := .fin 0, add := F.add, le := Num.le }

/-- State of `RankIter` (`src/binner.rs:84-95`), without the ranks still to come. -/
structure RankState (R : Type) where
  accum : R
  prevAccum : R
  binIndex : Nat
deriving DecidableEq, Repr

/-- The loop `src/binner.rs:111-116`; `rest` are the bins from `bin_index` on. -/
def rankLoop {R : Type} (o : RankOps R) (rank : R) : List R → RankState R → RankState R
  | [], s => s
  | x :: rest, s =>
      if o.le s.accum rank then
        rankLoop o rank rest { accum := o.add s.accum x, prevAccum := s.accum, binIndex := s.binIndex + 1 }
      else s

/-- `src/binner.rs:103-122` `RankIter::next` for the next rank. The two `debug_assert!`s are left out
(release build); `bin_index - 1` underflows (overflow checks: panic) when no bin was consumed. -/
def rankNext {R : Type} (o : RankOps R) (ext : β → R) (bins : List β) (s : RankState R) (rank : R) :
    Out (Nat × RankState R) :=
  let s' := rankLoop o rank ((bins.drop s.binIndex).map ext) s
  if s'.binIndex = 0 then .panic else .ok (s'.binIndex - 1, s')

/-- Start of the iteration, `src/binner.rs:48-62` `rank_iter`. -/
def rankStart {R : Type} (o : RankOps R) : RankState R := ⟨o.zero, o.zero, 0⟩

/-- All the results of `rank_iter(ranks, ext)`. -/
def rankIter {R : Type} (o : RankOps R) (ext : β → R) (bins : List β) : List R → RankState R →
    Out (List Nat)
  | [], _ => .ok []
  | r :: rs, s => do
      let (i, s') ← rankNext o ext bins s r
      let l ← rankIter o ext bins rs s'
      return i :: l

/-- `src/binner.rs:40-46` `bin_with_rank`, for any rank type (the code: `u32`). -/
def binWithRank {R : Type} (o : RankOps R) (ext : β → R) (bins : List β) (rank : R) : Out Nat := do
  let (i, _) ← rankNext o ext bins (rankStart o) rank
  return i

end Binner
end BitBoost
