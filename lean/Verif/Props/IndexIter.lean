import Verif.Lemmas.IndexIter
import Mathlib.Data.List.Sort
/-!
# Properties C07 - C09: iterating over set bits
-/
namespace BitBoost.Props
open BitBoost

theorem blockLen_pos {w : Nat} (hw : 0 < w) (hd : w ∣ 256) {bs : Blocks} (h : bs ≠ []) :
    0 < Blocks.blockLen w bs := by
  rw [Blocks.lt_blockLen_iff hw hd]
  have : 0 < bs.length := List.length_pos_iff.mpr h
  omega

theorem eq_len_of_blockLen {w : Nat} (_hw : 0 < w) (_hd : w ∣ 256) {as bs : Blocks}
    (h : as.length = bs.length) : Blocks.blockLen w as = Blocks.blockLen w bs := by
  unfold Blocks.blockLen; rw [h]

theorem words_flat {w : Nat} (hw : 0 < w) (hd : w ∣ 256) (bs : Blocks) (p : Nat → Bool) :
    ((List.range (Blocks.blockLen w bs)).flatMap fun i =>
      ((List.range w).filter fun b => p (w * i + b)).map (fun b => b + w * i)) =
    (List.range (256 * bs.length)).filter p := by
  rw [flatMap_filter_range, Blocks.blockLen_mul hw hd, Nat.mul_comm]

theorem setBits_words_and {w : Nat} (hw : 0 < w) (hd : w ∣ 256) (bs ms : Blocks) (i : Nat) :
    setBits (Blocks.word w bs i &&& Blocks.word w ms i) =
      (List.range w).filter fun b => Blocks.bit bs (w * i + b) && Blocks.bit ms (w * i + b) := by
  unfold setBits
  apply List.filter_congr
  intro b hb
  have hb' := List.mem_range.mp hb
  rw [BitVec.getLsbD_and, Blocks.getLsbD_word hw hd _ _ hb', Blocks.getLsbD_word hw hd _ _ hb']

theorem setBits_words_andnot {w : Nat} (hw : 0 < w) (hd : w ∣ 256) (bs ms : Blocks) (i : Nat) :
    setBits (Blocks.word w bs i &&& ~~~(Blocks.word w ms i)) =
      (List.range w).filter fun b => Blocks.bit bs (w * i + b) && !Blocks.bit ms (w * i + b) := by
  unfold setBits
  apply List.filter_congr
  intro b hb
  have hb' := List.mem_range.mp hb
  rw [BitVec.getLsbD_and, BitVec.getLsbD_not, Blocks.getLsbD_word hw hd _ _ hb',
    Blocks.getLsbD_word hw hd _ _ hb']
  simp [hb']

/-- C07: `index_iter` yields exactly the set positions, in increasing order, each once, and then
`None` for ever. -/
theorem C07_index_iter (bs : Blocks) (h : bs ≠ []) :
    Spec.Yields (Blocks.indexIter bs) (Spec.setPositions bs) := by
  have := IndexIter.new_yields (w := 64) bs (fun _ => .ok (BitVec.allOnes 64)) (fun i => .ok i) id
    (fun i => i) (fun _ => BitVec.allOnes 64) (blockLen_pos (by decide) (by decide) h)
    (fun _ _ => rfl) (fun _ _ => rfl)
  unfold Blocks.indexIter
  have e : ((List.range (Blocks.blockLen 64 bs)).flatMap fun i =>
      (setBits (Blocks.word 64 bs i &&& id (BitVec.allOnes 64))).map (fun b => b + 64 * i)) =
      Spec.setPositions bs := by
    rw [setPositions_eq, ← words_flat (w := 64) (by decide) (by decide)]
    apply List.flatMap_congr
    intro i _
    congr 1
    rw [id, BitVec.and_allOnes, setBits_word (by decide) (by decide)]
  rw [e] at this
  exact this

/-- C07: the list of set positions is strictly increasing and contains exactly the positions whose
bit reads 1. -/
theorem C07_set_positions (bs : Blocks) :
    (Spec.setPositions bs).Pairwise (· < ·) ∧
    ∀ i, i ∈ Spec.setPositions bs ↔ Blocks.getBit bs i = .ok true := by
  constructor
  · exact List.Pairwise.filter _ List.pairwise_lt_range
  · intro i
    unfold Spec.setPositions
    rw [List.mem_filter, List.mem_range]
    simp only [decide_eq_true_eq, and_iff_right_iff_imp]
    intro h
    by_contra hc
    rw [Blocks.getBit_eq, if_neg (by omega)] at h
    exact absurd h (by simp)

/-- C07: `index_iter_and` yields the positions set in both vectors. -/
theorem C07_index_iter_and (bs ms : Blocks) (h : bs ≠ []) (hl : bs.length = ms.length) :
    Spec.Yields (Blocks.indexIterAnd bs ms)
      ((Spec.setPositions bs).filter fun i => decide (Blocks.getBit ms i = .ok true)) := by
  have hlen : Blocks.blockLen 64 bs = Blocks.blockLen 64 ms := eq_len_of_blockLen (by decide) (by decide) hl
  have := IndexIter.new_yields (w := 64) bs (fun i => Blocks.getUnchecked 64 ms i) (fun i => .ok i) id
    (fun i => i) (fun i => Blocks.word 64 ms i) (blockLen_pos (by decide) (by decide) h)
    (fun _ _ => rfl) (fun i hi => by
      unfold Blocks.getUnchecked; rw [if_pos (by omega)])
  unfold Blocks.indexIterAnd
  rw [hlen, beq_self_eq_true, Out.assert_true, Out.ok_bind]
  have e : ((List.range (Blocks.blockLen 64 bs)).flatMap fun i =>
      (setBits (Blocks.word 64 bs i &&& id (Blocks.word 64 ms i))).map (fun b => b + 64 * i)) =
      ((Spec.setPositions bs).filter fun i => decide (Blocks.getBit ms i = .ok true)) := by
    rw [setPositions_eq, List.filter_filter]
    rw [show (fun i => decide (Blocks.getBit ms i = .ok true) && Blocks.bit bs i) =
      fun i => Blocks.bit bs i && Blocks.bit ms i by
        funext i; rw [Blocks.decide_getBit, Bool.and_comm]]
    rw [← words_flat (w := 64) (by decide) (by decide)]
    apply List.flatMap_congr
    intro i _
    congr 1
    exact setBits_words_and (by decide) (by decide) bs ms i
  rw [e] at this
  exact this

/-- C07: `index_iter_andnot` yields the positions set in the first and clear in the second. -/
theorem C07_index_iter_andnot (bs ms : Blocks) (h : bs ≠ []) (hl : bs.length = ms.length) :
    Spec.Yields (Blocks.indexIterAndnot bs ms)
      ((Spec.setPositions bs).filter fun i => decide (Blocks.getBit ms i = .ok false)) := by
  have hlen : Blocks.blockLen 64 bs = Blocks.blockLen 64 ms := eq_len_of_blockLen (by decide) (by decide) hl
  have := IndexIter.new_yields (w := 64) bs (fun i => Blocks.getUnchecked 64 ms i) (fun i => .ok i)
    (fun x => ~~~x) (fun i => i) (fun i => Blocks.word 64 ms i)
    (blockLen_pos (by decide) (by decide) h)
    (fun _ _ => rfl) (fun i hi => by
      unfold Blocks.getUnchecked; rw [if_pos (by omega)])
  unfold Blocks.indexIterAndnot
  rw [hlen, beq_self_eq_true, Out.assert_true, Out.ok_bind]
  have e : ((List.range (Blocks.blockLen 64 bs)).flatMap fun i =>
      (setBits (Blocks.word 64 bs i &&& ~~~(Blocks.word 64 ms i))).map (fun b => b + 64 * i)) =
      ((Spec.setPositions bs).filter fun i => decide (Blocks.getBit ms i = .ok false)) := by
    rw [setPositions_eq, List.filter_filter]
    have e2 : (List.range (256 * bs.length)).filter
        (fun i => decide (Blocks.getBit ms i = .ok false) && Blocks.bit bs i) =
        (List.range (256 * bs.length)).filter (fun i => Blocks.bit bs i && !Blocks.bit ms i) := by
      apply List.filter_congr
      intro i hi
      have hi' := List.mem_range.mp hi
      rw [Blocks.getBit_eq, if_pos (by omega), Bool.and_comm]
      cases Blocks.bit ms i <;> simp
    rw [e2, ← words_flat (w := 64) (by decide) (by decide)]
    apply List.flatMap_congr
    intro i _
    congr 1
    exact setBits_words_andnot (by decide) (by decide) bs ms i
  rw [e] at this
  exact this

/-- C07: the `and` and `andnot` lists partition the set positions: every set position is in exactly
one of them, and together they are a permutation of all set positions. -/
theorem C07_partition (bs ms : Blocks) (hl : bs.length = ms.length) :
    (((Spec.setPositions bs).filter fun i => decide (Blocks.getBit ms i = .ok true)) ++
     ((Spec.setPositions bs).filter fun i => decide (Blocks.getBit ms i = .ok false))).Perm
      (Spec.setPositions bs) ∧
    ∀ i, ¬ (i ∈ (Spec.setPositions bs).filter (fun i => decide (Blocks.getBit ms i = .ok true)) ∧
        i ∈ (Spec.setPositions bs).filter (fun i => decide (Blocks.getBit ms i = .ok false))) := by
  constructor
  · have e : ((Spec.setPositions bs).filter fun i => decide (Blocks.getBit ms i = .ok false)) =
        (Spec.setPositions bs).filter (fun i => !decide (Blocks.getBit ms i = .ok true)) := by
      apply List.filter_congr
      intro i hi
      have : i < 256 * bs.length := by
        unfold Spec.setPositions at hi
        exact List.mem_range.mp (List.mem_filter.mp hi).1
      rw [Blocks.getBit_eq, if_pos (by omega)]
      cases Blocks.bit ms i <;> simp
    rw [e]
    exact List.filter_append_perm _ _
  · intro i ⟨h1, h2⟩
    have h1' := (List.mem_filter.mp h1).2
    have h2' := (List.mem_filter.mp h2).2
    simp only [decide_eq_true_eq] at h1' h2'
    rw [h1'] at h2'
    exact absurd h2' (by simp)

/-- C07: vectors of different lengths, and empty vectors, are rejected. -/
theorem C07_rejects (bs ms : Blocks) :
    (bs = [] → Blocks.indexIter bs = .panic) ∧
    (bs.length ≠ ms.length → Blocks.indexIterAnd bs ms = .panic ∧
      Blocks.indexIterAndnot bs ms = .panic) := by
  constructor
  · rintro rfl; rfl
  · intro h
    have hne : (Blocks.blockLen 64 bs == Blocks.blockLen 64 ms) = false := by
      rw [beq_eq_false_iff_ne]
      unfold Blocks.blockLen
      simp; omega
    constructor
    · unfold Blocks.indexIterAnd; rw [hne]; rfl
    · unfold Blocks.indexIterAndnot; rw [hne]; rfl

/-- Non-vacuity: two two-block vectors; the set positions of the first are 1, 3, 256 and 511. -/
example : ([5#256 <<< 1, 1#256 ||| 1#256 <<< 255] : Blocks) ≠ [] ∧
    ([5#256 <<< 1, 1#256 ||| 1#256 <<< 255] : Blocks).length = ([0#256, 1#256] : Blocks).length ∧
    Blocks.getBit [5#256 <<< 1, 1#256 ||| 1#256 <<< 255] 511 = .ok true := by
  decide

/-! ### C08 -/

theorem comprPositions_eq (mask indices : Blocks) :
    Spec.comprPositions mask indices =
      (List.range (Blocks.blockLen 32 mask)).flatMap fun k =>
        (setBits (Blocks.word 32 mask k)).map fun b => b + 32 * (Blocks.word 32 indices k).toNat := by
  unfold Spec.comprPositions
  apply List.flatMap_congr
  intro k _
  rw [setBits_word (by decide) (by decide)]
  have : (fun b => decide (Blocks.getBit mask (32 * k + b) = .ok true)) =
      fun b => Blocks.bit mask (32 * k + b) := by
    funext b; exact Blocks.decide_getBit _ _
  rw [this]
  apply List.map_congr_left
  intro b _
  omega

/-- C08: `index_iter_compr` yields exactly the represented example numbers. -/
theorem C08_index_iter_compr (mask indices : Blocks) (h : mask ≠ [])
    (hl : mask.length = indices.length) :
    Spec.Yields (Blocks.indexIterCompr mask indices) (Spec.comprPositions mask indices) := by
  have hlen : Blocks.blockLen 32 mask = Blocks.blockLen 32 indices := eq_len_of_blockLen (by decide) (by decide) hl
  have := IndexIter.new_yields (w := 32) mask (fun _ => .ok (BitVec.allOnes 32))
    (fun i => do let x ← Blocks.getUnchecked 32 indices i; return x.toNat) id
    (fun i => (Blocks.word 32 indices i).toNat) (fun _ => BitVec.allOnes 32)
    (blockLen_pos (by decide) (by decide) h)
    (fun i hi => by unfold Blocks.getUnchecked; rw [if_pos (by omega)]; rfl) (fun _ _ => rfl)
  unfold Blocks.indexIterCompr
  rw [hlen, beq_self_eq_true, Out.assert_true, Out.ok_bind, comprPositions_eq]
  simp only [id, BitVec.and_allOnes] at this
  exact this

theorem compr_filter (mask indices : Blocks) (p : Nat → Bool) :
    (Spec.comprPositions mask indices).filter p =
      (List.range (Blocks.blockLen 32 mask)).flatMap fun k =>
        ((setBits (Blocks.word 32 mask k)).filter fun b =>
          p (b + 32 * (Blocks.word 32 indices k).toNat)).map
            fun b => b + 32 * (Blocks.word 32 indices k).toNat := by
  rw [comprPositions_eq, List.filter_flatMap]
  apply List.flatMap_congr
  intro k _
  rw [List.filter_map]; rfl

/-- C08: `index_iter_and_compr` keeps exactly the represented examples whose bit in the
uncompressed vector is 1, provided all indices are in range (an index past the end panics). -/
theorem C08_index_iter_and_compr (mask indices other : Blocks) (h : mask ≠ [])
    (hl : mask.length = indices.length) (hle : mask.length ≤ other.length)
    (hidx : ∀ k, k < Blocks.blockLen 32 mask →
      (Blocks.word 32 indices k).toNat < Blocks.blockLen 32 other) :
    Spec.Yields (Blocks.indexIterAndCompr mask other indices)
      ((Spec.comprPositions mask indices).filter fun i =>
        decide (Blocks.getBit other i = .ok true)) := by
  have hlen : Blocks.blockLen 32 mask = Blocks.blockLen 32 indices := eq_len_of_blockLen (by decide) (by decide) hl
  have hle' : Blocks.blockLen 32 mask ≤ Blocks.blockLen 32 other := by
    unfold Blocks.blockLen; exact Nat.mul_le_mul_right _ hle
  have := IndexIter.new_yields (w := 32) mask (fun i => Blocks.get 32 other i)
    (fun i => do let x ← Blocks.getUnchecked 32 indices i; return x.toNat) id
    (fun i => (Blocks.word 32 indices i).toNat)
    (fun i => Blocks.word 32 other (Blocks.word 32 indices i).toNat)
    (blockLen_pos (by decide) (by decide) h)
    (fun i hi => by unfold Blocks.getUnchecked; rw [if_pos (by omega)]; rfl)
    (fun i hi => by unfold Blocks.get; rw [if_pos (hidx i hi)])
  unfold Blocks.indexIterAndCompr
  rw [← hlen, beq_self_eq_true, Out.assert_true, Out.ok_bind, decide_eq_true hle', Out.assert_true,
    Out.ok_bind, compr_filter]
  have e : ∀ k, setBits (Blocks.word 32 mask k &&&
        id (Blocks.word 32 other (Blocks.word 32 indices k).toNat)) =
      (setBits (Blocks.word 32 mask k)).filter fun b =>
          decide (Blocks.getBit other (b + 32 * (Blocks.word 32 indices k).toNat) = .ok true) := by
    intro k
    rw [id, setBits_and]
    apply List.filter_congr
    intro b hb
    unfold setBits at hb
    have hb' := List.mem_range.mp (List.mem_filter.mp hb).1
    rw [Blocks.decide_getBit, Blocks.getLsbD_word (by decide) (by decide) _ _ hb', Nat.add_comm]
  simp only [e] at this
  exact this

/-- C08: `index_iter_andnot_compr` keeps exactly the represented examples whose bit in the
uncompressed vector is 0. -/
theorem C08_index_iter_andnot_compr (mask indices other : Blocks) (h : mask ≠ [])
    (hl : mask.length = indices.length) (hle : mask.length ≤ other.length)
    (hidx : ∀ k, k < Blocks.blockLen 32 mask →
      (Blocks.word 32 indices k).toNat < Blocks.blockLen 32 other) :
    Spec.Yields (Blocks.indexIterAndnotCompr mask other indices)
      ((Spec.comprPositions mask indices).filter fun i =>
        decide (Blocks.getBit other i = .ok false)) := by
  have hlen : Blocks.blockLen 32 mask = Blocks.blockLen 32 indices := eq_len_of_blockLen (by decide) (by decide) hl
  have hle' : Blocks.blockLen 32 mask ≤ Blocks.blockLen 32 other := by
    unfold Blocks.blockLen; exact Nat.mul_le_mul_right _ hle
  have := IndexIter.new_yields (w := 32) mask (fun i => Blocks.get 32 other i)
    (fun i => do let x ← Blocks.getUnchecked 32 indices i; return x.toNat) (fun x => ~~~x)
    (fun i => (Blocks.word 32 indices i).toNat)
    (fun i => Blocks.word 32 other (Blocks.word 32 indices i).toNat)
    (blockLen_pos (by decide) (by decide) h)
    (fun i hi => by unfold Blocks.getUnchecked; rw [if_pos (by omega)]; rfl)
    (fun i hi => by unfold Blocks.get; rw [if_pos (hidx i hi)])
  unfold Blocks.indexIterAndnotCompr
  rw [← hlen, beq_self_eq_true, Out.assert_true, Out.ok_bind, decide_eq_true hle', Out.assert_true,
    Out.ok_bind, compr_filter]
  have e : ((List.range (Blocks.blockLen 32 mask)).flatMap fun k => (setBits (Blocks.word 32 mask k &&&
        ~~~(Blocks.word 32 other (Blocks.word 32 indices k).toNat))).map
          fun b => b + 32 * (Blocks.word 32 indices k).toNat) =
      (List.range (Blocks.blockLen 32 mask)).flatMap fun k =>
      ((setBits (Blocks.word 32 mask k)).filter fun b =>
          decide (Blocks.getBit other (b + 32 * (Blocks.word 32 indices k).toNat) = .ok false)).map
          fun b => b + 32 * (Blocks.word 32 indices k).toNat := by
    apply List.flatMap_congr
    intro k hk
    congr 1
    rw [setBits_and]
    apply List.filter_congr
    intro b hb
    unfold setBits at hb
    have hb' := List.mem_range.mp (List.mem_filter.mp hb).1
    have hk' := hidx k (List.mem_range.mp hk)
    rw [Blocks.lt_blockLen_iff (by decide) (by decide)] at hk'
    rw [Blocks.getBit_eq, if_pos (by omega), BitVec.getLsbD_not,
      Blocks.getLsbD_word (by decide) (by decide) _ _ hb', Nat.add_comm]
    cases Blocks.bit other (32 * (Blocks.word 32 indices k).toNat + b) <;> simp [hb']
  rw [e] at this
  exact this

theorem flatMap_sorted_cover {l : List Nat} {N : Nat} {f : Nat → List Nat}
    (hs : l.Pairwise (· < ·)) (hr : ∀ i ∈ l, i < N) (hc : ∀ i, i < N → f i ≠ [] → i ∈ l) :
    l.flatMap f = (List.range N).flatMap f := by
  have h1 : l = (List.range N).filter (fun i => decide (i ∈ l)) := by
    apply List.Perm.eq_of_pairwise (le := fun a b => a < b)
    · intro a b _ _ h1 h2; omega
    · exact hs
    · exact List.Pairwise.filter _ List.pairwise_lt_range
    · rw [List.perm_ext_iff_of_nodup (hs.imp (fun h => by omega)) (List.nodup_range.filter _)]
      intro a
      simp only [List.mem_filter, List.mem_range, decide_eq_true_eq]
      exact ⟨fun h => ⟨hr a h, h⟩, fun h => h.2⟩
  have h2 : ∀ (xs : List Nat), (∀ i ∈ xs, i < N) →
      (xs.filter (fun i => decide (i ∈ l))).flatMap f = xs.flatMap f := by
    intro xs
    induction xs with
    | nil => intro _; rfl
    | cons x xs ih =>
      intro hx
      rw [List.filter_cons, List.flatMap_cons]
      have := ih (fun i hi => hx i (by simp [hi]))
      by_cases hm : x ∈ l
      · simp only [hm, decide_true, if_true, List.flatMap_cons]
        rw [this]
      · have : f x = [] := by
          by_contra hne
          exact hm (hc x (hx x (by simp)) hne)
        simp only [hm, decide_false, this, List.nil_append]
        exact ih (fun i hi => hx i (by simp [hi]))
  conv_lhs => rw [h1]
  exact h2 _ (fun i hi => List.mem_range.mp hi)

/-- C08: if `(mask, indices)` compresses `full`, the compressed iteration lists exactly the set
positions of `full`. -/
theorem C08_compressed_same (mask indices full : Blocks) (h : Spec.Compresses mask indices full) :
    Spec.comprPositions mask indices = Spec.setPositions full := by
  obtain ⟨hlen, c, hc, hinc, hw, hz, hcov⟩ := h
  rw [comprPositions_eq, setPositions_eq, ← words_flat (w := 32) (by decide) (by decide)]
  have hsplit : Blocks.blockLen 32 mask = c + (Blocks.blockLen 32 mask - c) := by omega
  rw [hsplit, List.range_add, List.flatMap_append]
  have h2 : ((List.range (Blocks.blockLen 32 mask - c)).map (c + ·)).flatMap (fun k =>
        (setBits (Blocks.word 32 mask k)).map fun b => b + 32 * (Blocks.word 32 indices k).toNat)
      = [] := by
    rw [List.flatMap_eq_nil_iff]
    intro k hk
    rw [List.mem_map] at hk
    obtain ⟨a, ha, rfl⟩ := hk
    rw [hz _ (by omega) (by have := List.mem_range.mp ha; omega), setBits_zero]; rfl
  rw [h2, List.append_nil]
  have h3 : (List.range c).flatMap (fun k =>
        (setBits (Blocks.word 32 mask k)).map fun b => b + 32 * (Blocks.word 32 indices k).toNat)
      = ((List.range c).map fun k => (Blocks.word 32 indices k).toNat).flatMap (fun i =>
        (setBits (Blocks.word 32 full i)).map fun b => b + 32 * i) := by
    rw [List.flatMap_map]
    apply List.flatMap_congr
    intro k hk
    rw [(hw k (List.mem_range.mp hk)).2]
  rw [h3]
  have h4 : (List.range (Blocks.blockLen 32 full)).flatMap (fun i =>
      ((List.range 32).filter fun b => Blocks.bit full (32 * i + b)).map (fun b => b + 32 * i)) =
      (List.range (Blocks.blockLen 32 full)).flatMap (fun i =>
        (setBits (Blocks.word 32 full i)).map fun b => b + 32 * i) := by
    apply List.flatMap_congr
    intro i _
    rw [setBits_word (by decide) (by decide)]
  rw [h4]
  apply flatMap_sorted_cover
  · rw [List.pairwise_map]
    apply List.Pairwise.imp_of_mem (R := (· < ·)) _ List.pairwise_lt_range
    intro a b ha hb hab
    exact hinc a b hab (List.mem_range.mp hb)
  · intro i hi
    rw [List.mem_map] at hi
    obtain ⟨k, hk, rfl⟩ := hi
    exact (hw k (List.mem_range.mp hk)).1
  · intro i hi hne
    have : Blocks.word 32 full i ≠ 0#32 := by
      intro h0; rw [h0, setBits_zero] at hne; exact hne rfl
    obtain ⟨k, hk, rfl⟩ := hcov i hi this
    exact List.mem_map.mpr ⟨k, List.mem_range.mpr hk, rfl⟩

/-- Non-vacuity of C08: `full` has two non-zero words (numbers 2 and 9), the compressed form has
these two words at the front, index vector `[2, 9]`. -/
theorem compresses_example : Spec.Compresses [5#256 ||| (7#256 <<< 32)] [2#256 ||| (9#256 <<< 32)]
    [5#256 <<< 64, 7#256 <<< 32] := by
  refine ⟨by decide, 2, by decide, ?_, ?_, ?_, ?_⟩
  · intro k l hkl hl
    have : k = 0 ∧ l = 1 := by omega
    obtain ⟨rfl, rfl⟩ := this
    decide
  · decide
  · intro k hk hk2
    have h8 : k < 8 := hk2
    revert hk
    revert k
    decide
  · intro i hi
    have h8 : i < 16 := hi
    have key : ∀ i, i < 16 → Blocks.word 32 [5#256 <<< 64, 7#256 <<< 32] i ≠ 0#32 →
        (∃ k, k < 2 ∧ (Blocks.word 32 [2#256 ||| (9#256 <<< 32)] k).toNat = i) := by
      intro i hi hne
      by_cases h2 : i = 2
      · exact ⟨0, by decide, by rw [h2]; decide⟩
      · by_cases h9 : i = 9
        · exact ⟨1, by decide, by rw [h9]; decide⟩
        · exfalso
          revert hne h2 h9
          revert i
          decide
    exact key i h8

/-! ### C09 -/

theorem forEach_list (bs : Blocks) (L : Nat → BitVec 64) (p : Nat → Bool)
    (h : ∀ i, setBits (L i) = (List.range 64).filter fun b => p (64 * i + b)) :
    ((List.range (Blocks.blockLen 64 bs)).flatMap fun i =>
      (setBits (L i)).map (fun b => b + 64 * i)) = (List.range (256 * bs.length)).filter p := by
  rw [← words_flat (w := 64) (by decide) (by decide)]
  apply List.flatMap_congr
  intro i _
  rw [h i]

/-- C09: `for_each_index` calls the callback on the set positions in increasing order until it
asks to stop, for every callback with any internal state. -/
theorem C09_for_each_index {σ : Type} (bs : Blocks) (h : bs ≠ []) (f : Nat → σ → σ × Bool) (s : σ) :
    Blocks.forEachIndex bs f s = .ok (Spec.visit f (Spec.setPositions bs) s) := by
  have hpos := blockLen_pos (w := 64) (by decide) (by decide) h
  unfold Blocks.forEachIndex
  simp only [hpos, decide_true, Out.assert_true, Out.ok_bind]
  rw [Blocks.forEachStart_spec (w := 64) _ hpos _ (fun i => (Blocks.word 64 bs i, i))]
  · congr 2
    rw [setPositions_eq]
    exact forEach_list bs _ _ (fun i => setBits_word (by decide) (by decide) bs i)
  · intro i hi
    unfold Blocks.getUnchecked; rw [if_pos hi]; rfl

/-- C09: `for_each_index_and`. -/
theorem C09_for_each_index_and {σ : Type} (bs other : Blocks) (h : bs ≠ [])
    (hl : bs.length = other.length) (f : Nat → σ → σ × Bool) (s : σ) :
    Blocks.forEachIndexAnd bs other f s = .ok (Spec.visit f
      ((Spec.setPositions bs).filter fun i => decide (Blocks.getBit other i = .ok true)) s) := by
  have hpos := blockLen_pos (w := 64) (by decide) (by decide) h
  have hlen : Blocks.blockLen 64 bs = Blocks.blockLen 64 other := eq_len_of_blockLen (by decide) (by decide) hl
  unfold Blocks.forEachIndexAnd
  simp only [hpos, decide_true, Out.assert_true, Out.ok_bind]
  rw [← hlen, beq_self_eq_true, Out.assert_true, Out.ok_bind]
  rw [Blocks.forEachStart_spec (w := 64) _ hpos _
    (fun i => (Blocks.word 64 bs i &&& Blocks.word 64 other i, i))]
  · congr 2
    rw [setPositions_eq, List.filter_filter]
    rw [show (fun i => decide (Blocks.getBit other i = .ok true) && Blocks.bit bs i) =
      fun i => Blocks.bit bs i && Blocks.bit other i by
        funext i; rw [Blocks.decide_getBit, Bool.and_comm]]
    exact forEach_list bs _ _ (fun i => setBits_words_and (by decide) (by decide) bs other i)
  · intro i hi
    unfold Blocks.getUnchecked; rw [if_pos hi, Out.ok_bind, if_pos (by omega)]; rfl

/-- C09: `for_each_index_compr`. -/
theorem C09_for_each_index_compr {σ : Type} (mask indices : Blocks) (h : mask ≠ [])
    (hl : mask.length = indices.length) (f : Nat → σ → σ × Bool) (s : σ) :
    Blocks.forEachIndexCompr mask indices f s =
      .ok (Spec.visit f (Spec.comprPositions mask indices) s) := by
  have hpos := blockLen_pos (w := 32) (by decide) (by decide) h
  have hlen : Blocks.blockLen 32 mask = Blocks.blockLen 32 indices := eq_len_of_blockLen (by decide) (by decide) hl
  unfold Blocks.forEachIndexCompr
  simp only [hpos, decide_true, Out.assert_true, Out.ok_bind]
  rw [← hlen, beq_self_eq_true, Out.assert_true, Out.ok_bind]
  rw [Blocks.forEachStart_spec (w := 32) _ hpos _
    (fun i => (Blocks.word 32 mask i, (Blocks.word 32 indices i).toNat))]
  · rw [comprPositions_eq]
  · intro i hi
    unfold Blocks.getUnchecked; rw [if_pos (by omega), Out.ok_bind, if_pos (by omega)]; rfl

/-- C09: `for_each_index_and_compr`, under the precondition that every index is in range of
`other`. Without it the call reads out of bounds although it is a safe function, see
`C23_for_each_index_and_compr_unsound`. -/
theorem C09_for_each_index_and_compr {σ : Type} (mask indices other : Blocks) (h : mask ≠ [])
    (hl : mask.length = indices.length) (hle : mask.length ≤ other.length)
    (hidx : ∀ k, k < Blocks.blockLen 32 mask →
      (Blocks.word 32 indices k).toNat < Blocks.blockLen 32 other)
    (f : Nat → σ → σ × Bool) (s : σ) :
    Blocks.forEachIndexAndCompr mask other indices f s =
      .ok (Spec.visit f ((Spec.comprPositions mask indices).filter fun i =>
        decide (Blocks.getBit other i = .ok true)) s) := by
  have hpos := blockLen_pos (w := 32) (by decide) (by decide) h
  have hlen : Blocks.blockLen 32 mask = Blocks.blockLen 32 indices := eq_len_of_blockLen (by decide) (by decide) hl
  have hle' : Blocks.blockLen 32 mask ≤ Blocks.blockLen 32 other := by
    unfold Blocks.blockLen; exact Nat.mul_le_mul_right _ hle
  unfold Blocks.forEachIndexAndCompr
  simp only [hpos, hle', decide_true, Out.assert_true, Out.ok_bind]
  rw [← hlen, beq_self_eq_true, Out.assert_true, Out.ok_bind]
  rw [Blocks.forEachStart_spec (w := 32) _ hpos _
    (fun i => (Blocks.word 32 mask i &&& Blocks.word 32 other (Blocks.word 32 indices i).toNat,
      (Blocks.word 32 indices i).toNat))]
  · rw [compr_filter]
    congr 2
    apply List.flatMap_congr
    intro k _
    congr 1
    rw [setBits_and]
    apply List.filter_congr
    intro b hb
    unfold setBits at hb
    have hb' := List.mem_range.mp (List.mem_filter.mp hb).1
    rw [Blocks.decide_getBit, Blocks.getLsbD_word (by decide) (by decide) _ _ hb', Nat.add_comm]
  · intro i hi
    unfold Blocks.getUnchecked
    rw [if_pos (by omega), Out.ok_bind, if_pos (by omega), Out.ok_bind, if_pos (hidx i hi)]; rfl

/-- What `visit` means: the callback sees a prefix of the list, ending with the first index for
which it returns `true` (or all of the list if it never does). Shown for the logging callback that
stops at the first index satisfying `p`. -/
theorem C09_visit_prefix (p : Nat → Bool) (l acc : List Nat) :
    Spec.visit (fun i (log : List Nat) => (log ++ [i], p i)) l acc =
      acc ++ (l.takeWhile (fun i => !p i)) ++ (l.dropWhile (fun i => !p i)).take 1 := by
  induction l generalizing acc with
  | nil => simp [Spec.visit]
  | cons x xs ih =>
    unfold Spec.visit
    cases hp : p x
    · simp [hp, ih]
    · simp [hp]

/-- Non-vacuity of C09: a two-block vector and a callback that stops at the second index. -/
example : Spec.visit (fun i (log : List Nat) => (log ++ [i], decide (i = 3))) [1, 3, 300] [] =
    [1, 3] := by decide

end BitBoost.Props
