import Verif.Lemmas.BitStore
import Mathlib.Tactic.Positivity
import Mathlib.Tactic.NormNum
/-!
# Properties C10 - C13: slice stores
-/
namespace BitBoost.Props
open BitBoost Spec

variable {T : Type}

/-- C10: for every history of allocations, frees, writes, shrinkings, histogram subtractions, reads
and resets that a correct client can issue (the abstract heap accepts it), running it on the real
store gives exactly the observations of the abstract heap - a map from handles to independent
arrays - provided the total demand stays below the 32-bit address limit. -/
theorem C10_isolation {alignT sizeT cap byteAlign : Nat} {s : Store T}
    (hs : Store.aligned T alignT sizeT cap byteAlign = .ok s) (ops : List (Op T))
    (obs : List (Obs T)) (a : Heap T) (hrun : Heap.run Heap.empty ops = some (obs, a))
    (hd : demand s.elemAlign ops < u32Max) :
    ∃ c, Client.run (Client.start s) ops = .ok (obs, c) := by
  rcases run_refines ops (rel_start hs) hrun with ⟨c, h1, _⟩ | ⟨_, h2⟩
  · exact ⟨c, h1⟩
  · have : (Client.start s).store.len = 0 := by
      unfold Store.aligned at hs
      split at hs <;> simp at hs
      rw [← hs]; rfl
    rw [this] at h2
    simp [Client.start] at h2
    omega

/-- C10, without the size bound: the store never misbehaves silently. It gives the observations of
the abstract heap or it panics because the 32-bit limit is reached; it is never undefined
behaviour and never a wrong observation. -/
theorem C10_isolation_or_exhausted {alignT sizeT cap byteAlign : Nat} {s : Store T}
    (hs : Store.aligned T alignT sizeT cap byteAlign = .ok s) (ops : List (Op T))
    (obs : List (Obs T)) (a : Heap T) (hrun : Heap.run Heap.empty ops = some (obs, a)) :
    (∃ c, Client.run (Client.start s) ops = .ok (obs, c)) ∨
    (Client.run (Client.start s) ops = .panic ∧ u32Max ≤ demand s.elemAlign ops) := by
  by_cases hd : demand s.elemAlign ops < u32Max
  · exact .inl (C10_isolation hs ops obs a hrun hd)
  · rcases run_refines ops (rel_start hs) hrun with ⟨c, h1, _⟩ | ⟨h1, _⟩
    · exact .inl ⟨c, h1⟩
    · exact .inr ⟨h1, by omega⟩

/-- C10, in terms of addresses: at every reachable state the ranges of two different live handles
do not overlap, and lie within the buffer. -/
theorem C10_disjoint {alignT sizeT cap byteAlign : Nat} {s : Store T}
    (hs : Store.aligned T alignT sizeT cap byteAlign = .ok s) {c : Client T} {a : Heap T}
    (h : Reached s c a) {h1 h2 : Nat} {r1 r2 : Range} (hne : h1 ≠ h2)
    (hr1 : c.live h1 = some r1) (hr2 : c.live h2 = some r2) :
    (r1.2 ≤ r2.1 ∨ r2.2 ≤ r1.1) ∧ r1.1 < r1.2 ∧ r1.2 ≤ c.store.capacity :=
  ⟨(h.rel hs).disjoint hr1 hr2 hne, (h.rel hs).bounds hr1⟩

/-- A sample history: two slices, free the first, reallocate a shorter one in its place, overwrite,
read both. -/
def sampleHistory : List (Op Nat) :=
  [.alloc 5 7, .alloc 3 9, .write 1 0 42, .free 0, .alloc 2 1, .write 2 1 8, .read 1, .read 2]

/-- Non-vacuity of C10: the sample history is accepted by the abstract heap and its demand is
small; the recycled slice is at the same place as the freed one. -/
example : (Heap.run Heap.empty sampleHistory).isSome = true ∧ demand 1 sampleHistory < u32Max ∧
    ∃ s, Store.aligned Nat 8 8 4 8 = .ok s := by
  refine ⟨rfl, by decide, _, rfl⟩

/-- C10: a range that is not inside of the buffer is refused, for reading and for writing, and so is a write outside of the
range; nothing outside of the buffer is ever touched. -/
theorem C10_out_of_range (s : Store T) (r : Range) (k : Nat) (v : T) :
    (¬ (r.1 ≤ r.2 ∧ r.2 ≤ s.capacity) → Store.readSlice s r = .panic ∧ Store.writeAt s r k v = .panic) ∧
      (r.2 - r.1 ≤ k → Store.writeAt s r k v = .panic) := by
  refine ⟨fun h => ?_, fun h => ?_⟩
  · have : Store.checkRange s r = false := by
      unfold Store.checkRange
      simpa using h
    simp [Store.readSlice, Store.writeAt, this]
  · simp [Store.writeAt]
    omega

/-! ### C11 -/

theorem byteAlignLoop_spec (sizeT : Nat) : ∀ (fuel k : Nat), sizeT ≤ 2 ^ k + fuel →
    ∃ j, k ≤ j ∧ Store.byteAlignLoop sizeT fuel (2 ^ k) = 2 ^ j ∧ sizeT ≤ 2 ^ j ∧ (k < j → 2 ^ (j - 1) < sizeT)
  | 0, k, h => ⟨k, le_rfl, rfl, by simpa using h, by omega⟩
  | fuel + 1, k, h => by
      unfold Store.byteAlignLoop
      by_cases hlt : 2 ^ k < sizeT
      · rw [if_pos hlt, ← pow_succ]
        have hp : 0 < 2 ^ k := by positivity
        obtain ⟨j, h1, h2, h3, h4⟩ := byteAlignLoop_spec sizeT fuel (k + 1) (by rw [pow_succ]; omega)
        refine ⟨j, by omega, h2, h3, fun _ => ?_⟩
        by_cases hj : k + 1 < j
        · exact h4 hj
        · rw [show j - 1 = k by omega]; exact hlt
      · rw [if_neg hlt]
        exact ⟨k, le_rfl, rfl, by omega, by omega⟩

/-- C11: a store made with `new` can be used: its alignment is the smallest power of two that is at least the alignment and the
size of an element (alignments are powers of two), and the store is empty. -/
theorem C11_new (k sizeT cap : Nat) (hcap : 0 < cap) :
    ∃ s : Store T, Store.new T (2 ^ k) sizeT cap = .ok s ∧ s.capacity = cap ∧ s.len = 0 ∧ s.free = [] ∧ s.ends = [] ∧
      ∃ j, s.byteAlign = 2 ^ j ∧ 2 ^ k ≤ 2 ^ j ∧ sizeT ≤ 2 ^ j ∧ ∀ i, 2 ^ k ≤ 2 ^ i → sizeT ≤ 2 ^ i → 2 ^ j ≤ 2 ^ i := by
  obtain ⟨j, h1, h2, h3, h4⟩ := byteAlignLoop_spec sizeT sizeT k (Nat.le_add_left _ _)
  have hpow : Store.isPow2 (2 ^ j) = true := by
    unfold Store.isPow2
    simp only [Bool.and_eq_true, bne_iff_ne, List.any_eq_true, List.mem_range, beq_iff_eq]
    exact ⟨by positivity, j, by have := Nat.lt_two_pow_self (n := j); omega, rfl⟩
  have hdvd : 2 ^ j % 2 ^ k = 0 := Nat.mod_eq_zero_of_dvd (pow_dvd_pow 2 h1)
  refine ⟨{ mem := fun _ => none, capacity := cap, byteAlign := 2 ^ j, alignT := 2 ^ k, sizeT, len := 0, free := [], ends := [] },
    ?_, rfl, rfl, rfl, rfl, j, rfl, Nat.pow_le_pow_right (by norm_num) h1, h3, ?_⟩
  · unfold Store.new Store.aligned Store.getByteAlign
    rw [h2, if_pos ⟨hdvd, by positivity, hpow, hcap⟩]
  · intro i hi1 hi2
    have hki : k ≤ i := (Nat.pow_le_pow_iff_right (by norm_num)).1 hi1
    by_cases hj : k < j
    · have := h4 hj
      have : j - 1 < i := (Nat.pow_lt_pow_iff_right (by norm_num)).1 (lt_of_lt_of_le this hi2)
      exact Nat.pow_le_pow_right (by norm_num) (by omega)
    · exact Nat.pow_le_pow_right (by norm_num) (by omega)

/-- C11: the store of histogram values (8 bytes, aligned to 4). -/
example : ∃ s : Store Nat, Store.new Nat 4 8 8192 = .ok s ∧ s.byteAlign = 8 ∧ s.elemAlign = 2 := ⟨_, rfl, rfl, rfl⟩

/-- C11: after any history, a successful allocation has the requested length, is aligned (element
index and byte offset), and reads back as `len` copies of the initial value - also when a recycled
range with old contents is used - while every other live slice reads as before. -/
theorem C11_alloc {alignT sizeT cap byteAlign : Nat} {s : Store T}
    (hs : Store.aligned T alignT sizeT cap byteAlign = .ok s) (hsize : alignT ∣ sizeT)
    {c : Client T} {a : Heap T} (h : Reached s c a) (len : Nat) (v : T) (r : Range) (s' : Store T)
    (halloc : Store.allocSlice c.store len v = .ok (r, s')) :
    r.2 - r.1 = len ∧ byteAlign ∣ r.1 * sizeT ∧
    Store.readSlice s' r = .ok (List.replicate len v) ∧
    ∀ h' r' l, c.live h' = some r' → a.live h' = some l → h' ≠ c.next →
      Store.readSlice c.store r' = .ok l ∧ Store.readSlice s' r' = .ok l := by
  have hR := h.rel hs
  have hlen : 0 < len := by
    by_contra hc
    have : len = 0 := by omega
    subst this
    simp [Store.allocSlice] at halloc
  have hpar : params c.store = params s := by
    obtain ⟨ops, obs, _, h2⟩ := h
    exact run_params ops h2
  rcases alloc_cases hR v hlen with ⟨r', s2, g1, g2, g3, g4, g5, g6⟩ | ⟨g1, _⟩
  · rw [halloc] at g1
    simp at g1
    obtain ⟨rfl, rfl⟩ := g1
    refine ⟨by omega, ?_, ?_, ?_⟩
    · have hba : s.byteAlign = byteAlign ∧ s.alignT = alignT ∧ s.sizeT = sizeT ∧
          byteAlign % alignT = 0 := by
        unfold Store.aligned at hs
        split at hs
        · rename_i hc
          simp at hs
          rw [← hs]
          exact ⟨rfl, rfl, rfl, hc.1⟩
        · simp at hs
      unfold params at hpar
      simp at hpar
      have he : c.store.elemAlign = byteAlign / alignT := by
        unfold Store.elemAlign
        rw [hpar.1, hpar.2.1, hba.1, hba.2.1]
      rw [he] at g6
      obtain ⟨k, hk⟩ := g6
      obtain ⟨m, hm⟩ := hsize
      have hd := Nat.div_mul_cancel (Nat.dvd_of_mod_eq_zero hba.2.2.2)
      refine ⟨k * m, ?_⟩
      calc r.1 * sizeT = (byteAlign / alignT * k) * (alignT * m) := by rw [hk, hm]
        _ = (byteAlign / alignT * alignT) * (k * m) := by ac_rfl
        _ = byteAlign * (k * m) := by rw [hd]
    · have hread := step_read g3 (h := c.next) (l := List.replicate len v)
        (by show upd _ _ _ _ = _; rw [hR.next, upd_same])
      have hr : (upd c.live c.next (some r)) c.next = some r := upd_same _ _ _
      simp only [Client.step, hr, Out.bind_eq_ok] at hread
      obtain ⟨l, e1, e2⟩ := hread
      simp at e2
      rw [e1, e2]
    · intro h' r' l hr' hl hne
      constructor
      · have hread := step_read hR hl
        simp only [Client.step, hr', Out.bind_eq_ok] at hread
        obtain ⟨l', e1, e2⟩ := hread
        simp at e2
        rw [e1, e2]
      · have hne' : h' ≠ a.next := by rw [← hR.next]; exact hne
        have hread := step_read g3 (h := h') (l := l)
          (by show upd _ _ _ _ = _; rw [upd_ne _ _ hne']; exact hl)
        have hr : (upd c.live c.next (some r)) h' = some r' := by rw [upd_ne _ _ hne]; exact hr'
        simp only [Client.step, hr, Out.bind_eq_ok] at hread
        obtain ⟨l', e1, e2⟩ := hread
        simp at e2
        rw [e1, e2]
  · rw [halloc] at g1; simp at g1

/-- C11: allocating nothing panics; an allocation within the 32-bit limit always succeeds, after
any history. -/
theorem C11_alloc_succeeds {alignT sizeT cap byteAlign : Nat} {s : Store T}
    (hs : Store.aligned T alignT sizeT cap byteAlign = .ok s) {c : Client T} {a : Heap T}
    (h : Reached s c a) (len : Nat) (v : T) :
    (len = 0 → Store.allocSlice c.store len v = .panic) ∧
    (0 < len → c.store.len + len + c.store.elemAlign < u32Max →
      ∃ p, Store.allocSlice c.store len v = .ok p) := by
  refine ⟨fun h0 => by simp [Store.allocSlice, h0], fun hl hb => ?_⟩
  rcases alloc_cases (h.rel hs) v hl with ⟨r, s', h1, _⟩ | ⟨_, h2⟩
  · exact ⟨_, h1⟩
  · omega

/-- Reading all live slices of a block store after an allocation built `bs` in the new slice. -/
theorem reads_after {c : Client BitBlock} {a : Heap BitBlock} (hR : Rel c a) {s'' : Store BitBlock}
    {r : Range} {bs : List BitBlock}
    (g : Rel ⟨s'', upd c.live c.next (some r), c.next + 1⟩
        ⟨upd a.live a.next (some bs), a.next + 1⟩) :
    Store.readSlice s'' r = .ok bs ∧
    ∀ h' r' l, c.live h' = some r' → a.live h' = some l → h' ≠ c.next →
      Store.readSlice s'' r' = .ok l := by
  constructor
  · have hread := step_read g (h := c.next) (l := bs)
      (by show upd _ _ _ _ = _; rw [hR.next, upd_same])
    have hr : (upd c.live c.next (some r)) c.next = some r := upd_same _ _ _
    simp only [Client.step, hr, Out.bind_eq_ok] at hread
    obtain ⟨l, e1, e2⟩ := hread
    simp at e2
    rw [e1, e2]
  · intro h' r' l hr' hl hne
    have hne' : h' ≠ a.next := by rw [← hR.next]; exact hne
    have hread := step_read g (h := h') (l := l)
      (by show upd _ _ _ _ = _; rw [upd_ne _ _ hne']; exact hl)
    have hr : (upd c.live c.next (some r)) h' = some r' := by rw [upd_ne _ _ hne]; exact hr'
    simp only [Client.step, hr, Out.bind_eq_ok] at hread
    obtain ⟨l', e1, e2⟩ := hread
    simp at e2
    rw [e1, e2]

/-- C11 / C03 for stores: `alloc_one_bits(n)`, after any history of the block store, gives a vector
of `⌈n/256⌉` blocks with exactly the first `n` bits set, and leaves every other live slice alone. -/
theorem C11_alloc_one_bits {cap : Nat} {s : Store BitBlock} (hs : BitBlockStore.new cap = .ok s)
    {c : Client BitBlock} {a : Heap BitBlock} (h : Reached s c a) (n : Nat) (hn : 0 < n)
    (hfit : c.store.len + (n + 255) / 256 + c.store.elemAlign < u32Max) :
    ∃ r s' bs, BitBlockStore.allocOneBits c.store n = .ok (r, s') ∧
      Store.readSlice s' r = .ok bs ∧ bs.length = (n + 255) / 256 ∧
      (∀ i, i < 256 * bs.length → Blocks.getBit bs i = .ok (decide (i < n))) ∧
      ∀ h' r' l, c.live h' = some r' → a.live h' = some l → h' ≠ c.next →
        Store.readSlice s' r' = .ok l := by
  have hR := h.rel hs
  have hk := BitBlock.blocksRequiredFor_eq n
  have hpos : 0 < BitBlock.blocksRequiredFor n := by omega
  obtain ⟨p, hp⟩ := (C11_alloc_succeeds hs h (BitBlock.blocksRequiredFor n) BitBlock.ones).2 hpos
    (by omega)
  obtain ⟨r, s1⟩ := p
  obtain ⟨bs, t1, t2, t3⟩ := Blocks.trimLast_ones n (BitBlock.blocksRequiredFor n) rfl hn
  obtain ⟨g1, g2, s'', g3, g4⟩ := alloc_then_write hR hp bs t2 hpos
  obtain ⟨q1, q2⟩ := reads_after hR g4
  refine ⟨r, s'', bs, ?_, q1, by omega, ?_, q2⟩
  · unfold BitBlockStore.allocOneBits BitBlockStore.allocOneBlocks
    dsimp only
    rw [if_pos (by omega), hp, Out.ok_bind, g2, Out.ok_bind, t1, Out.ok_bind, g3]
    rfl
  · intro i hi
    rw [Blocks.getBit_eq, if_pos (by omega), t3]

/-- C11 / C04 for stores: `alloc_from_iter` and `alloc_from_bits_iter` build exactly the vectors of
`from_iter` / `from_bool_iter` (C04), after any history, leaving every other live slice alone. -/
theorem C11_alloc_from_bits_iter {cap : Nat} {s : Store BitBlock}
    (hs : BitBlockStore.new cap = .ok s) {c : Client BitBlock} {a : Heap BitBlock}
    (h : Reached s c a) (n : Nat) (items : List Bool) (hn : 0 < n)
    (hfit : c.store.len + (n + 255) / 256 + c.store.elemAlign < u32Max) :
    ∃ r s' bs, BitBlockStore.allocFromBitsIter c.store n items = .ok (r, s') ∧
      Store.readSlice s' r = .ok bs ∧ bs.length = (n + 255) / 256 ∧
      (∀ i, i < 256 * bs.length → Blocks.getBit bs i = .ok (items.getD i false)) ∧
      ∀ h' r' l, c.live h' = some r' → a.live h' = some l → h' ≠ c.next →
        Store.readSlice s' r' = .ok l := by
  have hR := h.rel hs
  have hk := BitBlock.blocksRequiredFor_eq n
  have hpos : 0 < BitBlock.blocksRequiredFor n := by omega
  obtain ⟨p, hp⟩ := (C11_alloc_succeeds hs h (BitBlock.blocksRequiredFor n) BitBlock.zeros).2 hpos
    (by omega)
  obtain ⟨r, s1⟩ := p
  obtain ⟨bs, t1, t2, t3⟩ := Blocks.fromBoolIterLoop_spec (BitBlock.blocksRequiredFor n) items
  obtain ⟨g1, g2, s'', g3, g4⟩ := alloc_then_write hR hp bs t2 hpos
  obtain ⟨q1, q2⟩ := reads_after hR g4
  refine ⟨r, s'', bs, ?_, q1, by omega, ?_, q2⟩
  · unfold BitBlockStore.allocFromBitsIter BitBlockStore.allocZeroBlocks
    dsimp only
    rw [if_pos (by omega), hp, Out.ok_bind, t1, Out.ok_bind, g3]
    rfl
  · intro i hi
    rw [Blocks.getBit_eq, if_pos (by omega), t3 i (by omega), List.getD_eq_getElem?_getD]

/-- C11 / C04: `alloc_from_iter` for `w`-bit integers. -/
theorem C11_alloc_from_iter {cap : Nat} {s : Store BitBlock}
    (hs : BitBlockStore.new cap = .ok s) {c : Client BitBlock} {a : Heap BitBlock}
    (h : Reached s c a) (w : Nat) (hw : 0 < w) (hd : w ∣ 256) (n : Nat) (items : List (BitVec w))
    (hn : 0 < n) (hfit : c.store.len + (n * w + 255) / 256 + c.store.elemAlign < u32Max) :
    ∃ r s' bs, BitBlockStore.allocFromIter w c.store n items = .ok (r, s') ∧
      Store.readSlice s' r = .ok bs ∧ Blocks.fromIter w n items = .ok bs ∧
      ∀ h' r' l, c.live h' = some r' → a.live h' = some l → h' ≠ c.next →
        Store.readSlice s' r' = .ok l := by
  have hR := h.rel hs
  have hk := BitBlock.blocksRequiredFor_eq (n * w)
  have hnw : 0 < n * w := Nat.mul_pos hn hw
  have hpos : 0 < BitBlock.blocksRequiredFor (n * w) := by omega
  obtain ⟨p, hp⟩ := (C11_alloc_succeeds hs h (BitBlock.blocksRequiredFor (n * w))
    BitBlock.zeros).2 hpos (by omega)
  obtain ⟨r, s1⟩ := p
  obtain ⟨t2, _⟩ := Blocks.fromIterLoop_spec hw hd (BitBlock.blocksRequiredFor (n * w)) items
  obtain ⟨g1, g2, s'', g3, g4⟩ := alloc_then_write hR hp _ t2 hpos
  obtain ⟨q1, q2⟩ := reads_after hR g4
  refine ⟨r, s'', _, ?_, q1, ?_, q2⟩
  · unfold BitBlockStore.allocFromIter BitBlockStore.allocZeroBlocks
    dsimp only
    rw [if_pos (by omega), hp, Out.ok_bind, g3]
    rfl
  · unfold Blocks.fromIter Blocks.zeroBlocks
    dsimp only
    rw [if_pos hpos]
    rfl

/-- Non-vacuity of C11: a block store reached by a history with a free, so that the next
allocation recycles memory; element alignment is 2 blocks (64 bytes). -/
example : ∃ s, BitBlockStore.new 16 = .ok s ∧ s.elemAlign = 2 ∧
    ∃ c a, Reached s c a ∧ c.store.len + (300 + 255) / 256 + c.store.elemAlign < u32Max := by
  refine ⟨_, rfl, rfl, _, _, ⟨[.alloc 3 BitBlock.ones, .alloc 1 BitBlock.ones, .free 0], _, rfl, rfl⟩, ?_⟩
  decide

/-! ### C12 -/

/-- C12: whenever `get_two_slices_mut` hands out two slices, they are the two requested ranges, lie
inside the buffer and share no element. -/
theorem C12_two_slices_disjoint (s : Store T) (r1 r2 q1 q2 : Range)
    (h : Store.getTwoSlicesMut s r1 r2 = .ok (q1, q2)) :
    q1 = r1 ∧ q2 = r2 ∧ r1.2 ≤ s.capacity ∧ r2.2 ≤ s.capacity ∧
    ∀ i, ¬ ((r1.1 ≤ i ∧ i < r1.2) ∧ (r2.1 ≤ i ∧ i < r2.2)) := by
  unfold Store.getTwoSlicesMut at h
  split at h <;> split at h <;> simp at h
  · rename_i h1 h2
    obtain ⟨rfl, rfl⟩ := h
    refine ⟨rfl, ?_, by omega, by omega, by omega⟩
    ext <;> simp
    omega
  · rename_i h1 h2
    obtain ⟨rfl, rfl⟩ := h
    refine ⟨?_, rfl, by omega, by omega, by omega⟩
    ext <;> simp
    omega

/-- C12: overlapping non-empty ranges are rejected, disjoint non-empty ranges are accepted. -/
theorem C12_two_slices_complete (s : Store T) (r1 r2 : Range) (h1 : r1.1 < r1.2)
    (h2 : r2.1 < r2.2) (c1 : r1.2 ≤ s.capacity) (c2 : r2.2 ≤ s.capacity) :
    ((r1.2 ≤ r2.1 ∨ r2.2 ≤ r1.1) → Store.getTwoSlicesMut s r1 r2 = .ok (r1, r2)) ∧
    (¬ (r1.2 ≤ r2.1 ∨ r2.2 ≤ r1.1) → Store.getTwoSlicesMut s r1 r2 = .panic) := by
  unfold Store.getTwoSlicesMut
  constructor
  · intro hd
    by_cases hlt : r1.1 < r2.1
    · rw [if_pos hlt, if_pos (by omega)]
      congr 1
      have : r2.1 + (r2.2 - r2.1) = r2.2 := by omega
      rw [this]
    · rw [if_neg hlt, if_pos (by omega)]
      congr 1
      have : r1.1 + (r1.2 - r1.1) = r1.2 := by omega
      rw [this]
  · intro hd
    by_cases hlt : r1.1 < r2.1
    · rw [if_pos hlt, if_neg (by omega)]
    · rw [if_neg hlt, if_neg (by omega)]

/-- Non-vacuity of C12: two disjoint ranges of a store of capacity 8. -/
example : ∃ s, Store.aligned Nat 8 8 8 8 = .ok s ∧
    Store.getTwoSlicesMut s (5, 8) (0, 5) = .ok ((5, 8), (0, 5)) ∧
    Store.getTwoSlicesMut s (0, 5) (4, 8) = .panic := ⟨_, rfl, rfl, rfl⟩

/-! ### C13 -/

theorem histLayoutLoop_get (bs : List Nat) : ∀ (acc j : Nat), j ≤ bs.length →
    (histLayoutLoop acc bs)[j]? = some (acc + (bs.take j).sum) := by
  induction bs with
  | nil =>
    intro acc j hj
    have : j = 0 := by simpa using hj
    subst this; simp [histLayoutLoop]
  | cons b bs ih =>
    intro acc j hj
    cases j with
    | zero => simp [histLayoutLoop]
    | succ j =>
      simp only [List.length_cons] at hj
      rw [histLayoutLoop, List.getElem?_cons_succ, ih _ _ (by omega)]
      simp; omega

/-- C13 (layout): feature `j` occupies the bins from the sum of the bin counts of the features
before it, for as many bins as it asked for; hence the regions of different features of the same
node are disjoint and the total is the sum of all bin counts. -/
theorem C13_layout (binSizes : List Nat) (j : Nat) (hj : j < binSizes.length) :
    histogramRange (histLayout binSizes) j =
      .ok ((binSizes.take j).sum, (binSizes.take j).sum + binSizes[j]) ∧
    (histLayout binSizes).getLast? = some binSizes.sum ∧
    ∀ i, i < j → (binSizes.take i).sum + binSizes.getD i 0 ≤ (binSizes.take j).sum := by
  have h1 := histLayoutLoop_get binSizes 0 j (by omega)
  have h2 := histLayoutLoop_get binSizes 0 (j + 1) (by omega)
  have hsum : ∀ i (hi : i < binSizes.length), (binSizes.take (i + 1)).sum =
      (binSizes.take i).sum + binSizes[i] := by
    intro i hi
    rw [List.take_succ_eq_append_getElem hi, List.sum_append]; simp
  refine ⟨?_, ?_, ?_⟩
  · unfold histogramRange histLayout
    rw [h1, h2, hsum j hj]
    simp
  · have hlen : ∀ (bs : List Nat) acc, (histLayoutLoop acc bs).length = bs.length + 1 := by
      intro bs
      induction bs with
      | nil => intro acc; rfl
      | cons b bs ih => intro acc; simp [histLayoutLoop, ih]
    unfold histLayout
    rw [List.getLast?_eq_getElem?, hlen, Nat.add_sub_cancel,
      histLayoutLoop_get binSizes 0 _ (Nat.le_refl _)]
    simp
  · intro i hij
    have hi : i < binSizes.length := by omega
    have e : binSizes.getD i 0 = binSizes[i] := by
      rw [List.getD_eq_getElem?_getD, List.getElem?_eq_getElem hi]; rfl
    rw [e, ← hsum i hi]
    have hmono : ∀ m n : Nat, m ≤ n → (binSizes.take m).sum ≤ (binSizes.take n).sum := by
      intro m n hmn
      have : binSizes.take m = (binSizes.take n).take m := by
        rw [List.take_take]; congr 1; omega
      rw [this]
      conv_rhs => rw [← List.take_append_drop m (binSizes.take n), List.sum_append]
      omega
    exact hmono _ _ hij

/-- C13: after any history of the histogram store, subtracting gives, for every feature and every
bin, parent minus left in the right node's histogram, and every other live histogram - parent and
left included - is unchanged. -/
theorem C13_subtract {alignT sizeT cap byteAlign : Nat} {s : Store T}
    (hs : Store.aligned T alignT sizeT cap byteAlign = .ok s) {c : Client T} {a : Heap T}
    (h : Reached s c a) (sub : T → T → T) (binSizes : List Nat)
    (p l r : Nat) (rp rl rr : Range) (lp ll lr : List T)
    (hp : c.live p = some rp) (hl : c.live l = some rl) (hr : c.live r = some rr)
    (ap : a.live p = some lp) (al : a.live l = some ll) (ar : a.live r = some lr)
    (np : lp.length = binSizes.sum) (nl : ll.length = binSizes.sum) (nr : lr.length = binSizes.sum)
    (hpr : p ≠ r) (hlr : l ≠ r) :
    ∃ s', Store.histsSubtract sub c.store rp rl rr = .ok s' ∧
      (∀ j, j < binSizes.length → ∃ P L,
        getHist c.store (histLayout binSizes) rp j = .ok P ∧
        getHist c.store (histLayout binSizes) rl j = .ok L ∧
        P.length = binSizes.getD j 0 ∧ L.length = binSizes.getD j 0 ∧
        getHist s' (histLayout binSizes) rr j = .ok (List.zipWith sub P L)) ∧
      (∀ h' r' l', h' ≠ r → c.live h' = some r' → a.live h' = some l' →
        Store.readSlice c.store r' = .ok l' ∧ Store.readSlice s' r' = .ok l') := by
  have hR := h.rel hs
  obtain ⟨c', g1, g2, _, _⟩ := step_zip (f := sub) hR ap al ar (by omega) (by omega) hpr hlr
  simp only [Client.step, hp, hl, hr, Out.bind_eq_ok] at g1
  obtain ⟨s', e1, e2⟩ := g1
  simp at e2
  rw [← e2] at g2
  have readOf : ∀ {c : Client T} {a : Heap T}, Rel c a → ∀ {h r l}, c.live h = some r →
      a.live h = some l → Store.readSlice c.store r = .ok l := by
    intro c a hR h r l hr hl
    have hread := step_read hR hl
    simp only [Client.step, hr, Out.bind_eq_ok] at hread
    obtain ⟨l', e1, e2⟩ := hread
    simp at e2
    rw [e1, e2]
  have histOf : ∀ (s : Store T) (rg : Range) (l : List T) (j : Nat) (hj : j < binSizes.length),
      Store.readSlice s rg = .ok l → l.length = binSizes.sum →
      getHist s (histLayout binSizes) rg j =
        .ok ((l.drop (binSizes.take j).sum).take binSizes[j]) ∧
      (binSizes.take j).sum + binSizes[j] ≤ l.length := by
    intro s rg l j hj hrd hlen
    obtain ⟨k1, _, _⟩ := C13_layout binSizes j hj
    have hle : (binSizes.take j).sum + binSizes[j] ≤ binSizes.sum := by
      have : (binSizes.take (j + 1)).sum = (binSizes.take j).sum + binSizes[j] := by
        rw [List.take_succ_eq_append_getElem hj, List.sum_append]; simp
      rw [← this]
      conv_rhs => rw [← List.take_append_drop (j + 1) binSizes, List.sum_append]
      omega
    refine ⟨?_, by omega⟩
    unfold getHist
    rw [k1, Out.ok_bind, hrd, Out.ok_bind, if_pos ⟨by simp, by simp only; omega⟩]
    simp
  refine ⟨s', e1, ?_, ?_⟩
  · intro j hj
    obtain ⟨u1, u2⟩ := histOf c.store rp lp j hj (readOf hR hp ap) np
    obtain ⟨v1, v2⟩ := histOf c.store rl ll j hj (readOf hR hl al) nl
    have hz : (List.zipWith sub lp ll).length = binSizes.sum := by
      rw [List.length_zipWith]; omega
    obtain ⟨w1, _⟩ := histOf s' rr (List.zipWith sub lp ll) j hj
      (readOf (c := ⟨s', c.live, c.next⟩) g2 hr (upd_same _ _ _)) hz
    have e : binSizes.getD j 0 = binSizes[j] := by
      rw [List.getD_eq_getElem?_getD, List.getElem?_eq_getElem hj]; rfl
    refine ⟨_, _, u1, v1, ?_, ?_, ?_⟩
    · rw [List.length_take, List.length_drop, e]; omega
    · rw [List.length_take, List.length_drop, e]; omega
    · rw [w1, List.drop_zipWith, List.take_zipWith]
  · intro h' r' l' hne hr' hl'
    refine ⟨readOf hR hr' hl', ?_⟩
    exact readOf (c := ⟨s', c.live, c.next⟩) g2 hr' (by show upd _ _ _ _ = _; rw [upd_ne _ _ hne]; exact hl')

/-- Non-vacuity of C13: three histograms of two features with 2 and 3 bins. -/
example : ∃ s, Store.aligned Int 8 8 32 8 = .ok s ∧ ∃ c a, Reached s c a ∧
    ∃ lp ll lr, a.live 0 = some lp ∧ a.live 1 = some ll ∧ a.live 2 = some lr ∧
      lp.length = [2, 3].sum ∧ ll.length = [2, 3].sum ∧ lr.length = [2, 3].sum :=
  ⟨_, rfl, _, _, ⟨[.alloc 5 7, .alloc 5 3, .alloc 5 0, .write 0 1 10, .write 1 1 4], _, rfl, rfl⟩,
    _, _, _, rfl, rfl, rfl, rfl, rfl, rfl⟩

end BitBoost.Props
