import Verif.Spec.Learner
import Verif.Props.Slices
import Verif.Props.IndexIter
import Verif.Lemmas.Masks
/-! Helper lemmas: what the masks, indices and gradients of a node stand for. -/
namespace BitBoost
open Finset

theorem list_sum_filter (p : Nat → Bool) (f : Nat → Nat) : ∀ n,
    (((List.range n).filter p).map f).sum = ∑ v ∈ range n, (p v).toNat * f v
  | 0 => by simp
  | n + 1 => by
      rw [List.range_succ, List.filter_append, List.map_append, List.sum_append, list_sum_filter p f n,
        Finset.sum_range_succ]
      cases h : p n <;> simp [h]

theorem list_length_filter (p : Nat → Bool) (n : Nat) :
    ((List.range n).filter p).length = ∑ v ∈ range n, (p v).toNat := by
  have := list_sum_filter p (fun _ => 1) n
  simpa using this

theorem filter_setPositions (M fm : Blocks) :
    (Spec.setPositions M).filter (Spec.bitAt fm) =
      (List.range (M.length * 256)).filter fun v => Blocks.bit M v && Blocks.bit fm v := by
  rw [setPositions_eq, List.filter_filter, Nat.mul_comm]
  apply List.filter_congr
  intro v _
  rw [BitSlice.bitAt_eq, Bool.and_comm]

/-- Draining an iterator gives what it yields. -/
theorem Learner.drain_spec {w : Nat} (it : IndexIter w) : ∀ (l : List Nat) (k : Nat) (s : IndexIter.St w),
    (∀ k, it.calls k s = .ok ((List.range k).map fun m => l[m]?)) → l.length < k → Learner.drain it k s = .ok l
  | l, 0, _, _, hk => absurd hk (by omega)
  | l, k + 1, s, h, hk => by
      have h1 := h 1
      unfold IndexIter.calls at h1
      obtain ⟨r, e, h1⟩ := Out.bind_eq_ok.1 h1
      unfold Learner.drain
      rw [e, Out.ok_bind]
      simp only [IndexIter.calls, Out.ok_bind, Out.pure_eq, Out.ok.injEq] at h1
      have hr : r.1 = l[0]? := by simpa using h1
      have htail : ∀ k, it.calls k r.2 = .ok ((List.range k).map fun m => l[m + 1]?) := by
        intro k
        have h2 := h (k + 1)
        unfold IndexIter.calls at h2
        rw [e, Out.ok_bind] at h2
        obtain ⟨r2, e2, h2⟩ := Out.bind_eq_ok.1 h2
        rw [e2]
        rw [Out.pure_eq, Out.ok.injEq, List.range_succ_eq_map] at h2
        simp only [List.map_cons, List.map_map, List.cons.injEq] at h2
        rw [h2.2]
        rfl
      cases l with
      | nil => rw [hr]; simp
      | cons x xs =>
        rw [hr]
        simp only [List.getElem?_cons_zero]
        rw [drain_spec it xs k r.2 (by simpa using htail) (by simpa using hk)]
        simp

theorem Learner.items_spec {w : Nat} {it : Out (IndexIter w × IndexIter.St w)} {l : List Nat}
    (h : Spec.Yields it l) (hn : ∀ p, it = .ok p → l.length ≤ p.1.n * w) : Learner.items it = .ok l := by
  obtain ⟨p, e, h⟩ := h
  unfold Learner.items
  rw [e, Out.ok_bind]
  exact drain_spec p.1 l _ p.2 h (by have := hn p e; omega)

namespace Learner

/-- `n` stands for the examples `ex` among the first `256 * L`, whose gradient codes are `codes`. -/
structure Rep (w L : Nat) (codes : List Nat) (n : Node) (ex : List Nat) : Prop where
  full : ∃ M : Blocks, M.length = L ∧ Spec.setPositions M = ex ∧ Spec.Compresses n.mask n.idx M ∧
    (n.compressed = false → n.mask = M)
  plain : n.compressed = false → ∀ k, k < 8 * L → Spec.indexAt n.idx k = k
  ne : n.mask ≠ []
  inRange : ∀ k, k < 8 * n.idx.length → Spec.indexAt n.idx k < 8 * L
  le : n.mask.length ≤ L
  glen : n.grads.length = n.mask.length * w
  vals : ∀ v, Blocks.bit n.mask v = true → Spec.valueAt w n.grads v = codes.getD (Spec.exampleAt n.idx v) 0

variable {w L : Nat} {codes : List Nat} {n : Node} {ex : List Nat}

theorem Rep.lens (h : Rep w L codes n ex) : n.mask.length = n.idx.length := by
  obtain ⟨M, _, _, hc, _⟩ := h.full
  exact CountSum.len_eq_of_compresses hc

theorem Rep.plainAt (h : Rep w L codes n ex) (hc : n.compressed = false) {v : Nat} (hv : v < L * 256) :
    Spec.exampleAt n.idx v = v := by
  unfold Spec.exampleAt
  rw [h.plain hc _ (by omega)]
  omega

theorem slots_len {w : Nat} (hw : validWidth w) {slice : Blocks} {k : Nat} (h : slice.length = k * w) :
    Spec.slots w slice = k * 256 := by
  unfold Spec.slots
  rw [h]
  rcases hw with rfl | rfl | rfl | rfl <;> omega

/-- The sums over the positions of the node are sums over its examples. -/
theorem Rep.sum (h : Rep w L codes n ex) (fm : Blocks) (G : Nat → Nat) :
    ∑ v ∈ range (n.mask.length * 256), (Blocks.bit n.mask v && Blocks.bit fm (Spec.exampleAt n.idx v)).toNat *
      G (Spec.exampleAt n.idx v) = ((ex.filter (Spec.bitAt fm)).map G).sum := by
  obtain ⟨M, hL, hM, hc, _⟩ := h.full
  rw [← hM, filter_setPositions, list_sum_filter]
  have := compress_sum hc (fun e => (Blocks.bit fm e).toNat * G e)
  simp only [← Nat.mul_assoc, ← Simd.bool_toNat_and] at this
  exact this

theorem Rep.count (h : Rep w L codes n ex) (fm : Blocks) :
    ∑ v ∈ range (n.mask.length * 256), (Blocks.bit n.mask v && Blocks.bit fm (Spec.exampleAt n.idx v)).toNat
      = (ex.filter (Spec.bitAt fm)).length := by
  have := h.sum fm (fun _ => 1)
  simpa using this

theorem Rep.small (h : Rep w L codes n ex) (fm : Blocks) :
    (ex.filter (Spec.bitAt fm)).length ≤ L * 256 := by
  obtain ⟨M, hL, hM, hc, _⟩ := h.full
  rw [← hM, filter_setPositions, ← hL]
  exact (List.length_filter_le _ _).trans (by simp)

theorem Rep.valsum (hw : validWidth w) (h : Rep w L codes n ex) (fm : Blocks) :
    ∑ v ∈ range (Spec.slots w n.grads), Spec.valueAt w n.grads v *
      (Blocks.bit n.mask v && Blocks.bit fm (Spec.exampleAt n.idx v)).toNat =
      ((ex.filter (Spec.bitAt fm)).map fun i => codes.getD i 0).sum := by
  rw [slots_len hw h.glen, ← h.sum fm (fun i => codes.getD i 0)]
  apply Finset.sum_congr rfl
  intro v _
  cases hb : Blocks.bit n.mask v
  · simp
  · rw [h.vals v hb, Nat.mul_comm]

theorem mod_count {a : Nat} (h : a ≤ L * 256) (hL : L < 2 ^ 24) :
    (BitVec.ofNat 64 a).toNat % 2 ^ 32 = a := by
  rw [BitVec.toNat_ofNat]
  omega

/-- The histogram value computed from the masks is the one of the examples. -/
theorem Rep.gradSum (F : FP) (cfg : Config) (bounds : Num × Num) (hw : validWidth w) (hL : L < 2 ^ 24)
    (h : Rep w L codes n ex) {fm : Blocks} (hfm : fm.length = L) :
    Learner.gradSum F cfg w bounds n fm = .ok (Spec.refHist F cfg w bounds codes ex fm) := by
  have hl := h.lens
  have hle := h.le
  have hw8 : w ≤ 8 := by rcases hw with rfl | rfl | rfl | rfl <;> omega
  have hg := h.glen
  have hgl : n.grads.length ≤ L * w := by rw [hg]; exact Nat.mul_le_mul_right _ hle
  have hgl2 : L * w ≤ L * 8 := Nat.mul_le_mul_left _ hw8
  have hsm : Simd.small w n.grads := by intro e; subst e; omega
  have hsum := h.valsum hw fm
  have hcount := h.count fm
  have hcl := h.small fm
  have hsl : ∀ sel : Nat → Bool, (BitVec.ofNat 64 (∑ v ∈ range (Spec.slots w n.grads),
      Spec.valueAt w n.grads v * (sel v).toNat)).toNat =
      ∑ v ∈ range (Spec.slots w n.grads), Spec.valueAt w n.grads v * (sel v).toNat := by
    intro sel
    rw [BitVec.toNat_ofNat, Nat.mod_eq_of_lt (Simd.masked_lt n.grads (by omega) sel)]
  unfold Learner.gradSum Spec.refHist
  cases hc : n.compressed
  · -- uncompressed
    rw [if_neg (by simp)]
    have hml : n.mask.length = L := by
      obtain ⟨M, hM, _, _, hu⟩ := h.full
      rw [hu hc, hM]
    have hcnt : Simd.countOnesAnd n.mask fm = .ok (BitVec.ofNat 64
        (∑ v ∈ range (n.mask.length * 256), (Blocks.bit n.mask v && Blocks.bit fm v).toNat)) := by
      unfold Simd.countOnesAnd Simd.bitvecCountAndUc
      rw [hml, hfm, Nat.min_self]
      exact Simd.count_shape _ _ _ (fun j hj => Simd.loadAnd_spec n.mask fm j (by omega) (by omega))
    have e1 : ∑ v ∈ range (n.mask.length * 256), (Blocks.bit n.mask v && Blocks.bit fm v).toNat =
        (ex.filter (Spec.bitAt fm)).length := by
      rw [← hcount]
      apply Finset.sum_congr rfl
      intro v hv
      rw [h.plainAt hc (by rw [← hml]; exact mem_range.mp hv)]
    rw [hcnt, Out.ok_bind, e1, mod_count hcl hL]
    simp only []
    split
    · rfl
    · rw [(Simd.kernel_uc hw n.grads n.mask fm hsm (by omega) (by rw [hfm]; exact hgl)).1, Out.ok_bind]
      have e2 : ∑ v ∈ range (Spec.slots w n.grads), Spec.valueAt w n.grads v *
          (Blocks.bit n.mask v && Blocks.bit fm v).toNat =
          ((ex.filter (Spec.bitAt fm)).map fun i => codes.getD i 0).sum := by
        rw [← hsum]
        apply Finset.sum_congr rfl
        intro v hv
        rw [h.plainAt hc (by rw [← hml, ← slots_len hw hg]; exact mem_range.mp hv)]
      rw [hsl, e2]
      rfl
  · rw [if_pos rfl]
    have hidx : Simd.IdxOk n.idx fm := Props.idxOk_of (fun k hk => by rw [hfm]; exact h.inRange k hk) (by omega)
    have hcnt : Simd.bitvecCountAndC n.mask n.idx fm = .ok (BitVec.ofNat 64
        (∑ v ∈ range (n.mask.length * 256),
          (Blocks.bit n.mask v && Blocks.bit fm (Spec.exampleAt n.idx v)).toNat)) := by
      unfold Simd.bitvecCountAndC
      rw [← hl, Nat.min_self]
      exact Simd.count_shape _ _ _
        (fun j hj => Simd.loadAndC_spec n.mask n.idx fm j (by omega) (by omega) hidx)
    rw [hcnt, Out.ok_bind, hcount, mod_count hcl hL]
    simp only []
    split
    · rfl
    · rw [(Simd.kernel_c hw n.grads n.idx n.mask fm hsm (by omega) (by rw [← hl]; omega) hidx).1, Out.ok_bind, hsl,
        hsum]
      rfl

/-- The iterators of a node give its examples. -/
theorem Rep.itemsAll (h : Rep w L codes n ex) : nodeItems n .all = .ok ex := by
  obtain ⟨M, hL, hM, hcm, hu⟩ := h.full
  unfold nodeItems
  simp only []
  have hlen : ex.length ≤ n.mask.length * 256 := by
    have := compress_sum hcm (fun _ => 1)
    simp only [Nat.mul_one] at this
    rw [← hM, setPositions_eq, list_length_filter, Nat.mul_comm 256, ← this, ← list_length_filter]
    exact (List.length_filter_le _ _).trans (by simp)
  split
  · apply items_spec
    · rw [← hM, ← Props.C08_compressed_same _ _ _ hcm]
      exact Props.C08_index_iter_compr _ _ h.ne h.lens
    · intro p hp
      unfold Blocks.indexIterCompr at hp
      obtain ⟨_, _, hp⟩ := Out.bind_eq_ok.1 hp
      unfold IndexIter.new at hp
      simp only [] at hp
      split at hp
      · cases hp
        simp only [Blocks.blockLen]
        omega
      · cases hp
  · rename_i hc
    apply items_spec
    · rw [← hM, ← hu (by simpa using hc)]
      exact Props.C07_index_iter _ h.ne
    · intro p hp
      unfold Blocks.indexIter IndexIter.new at hp
      simp only [] at hp
      split at hp
      · cases hp
        simp only [Blocks.blockLen]
        omega
      · cases hp

theorem getBit_lt {b : Blocks} {i : Nat} (h : i < b.length * 256) :
    decide (Blocks.getBit b i = .ok false) = !Spec.bitAt b i := by
  rw [BitSlice.bitAt_eq, Blocks.getBit_eq, if_pos h]
  cases Blocks.bit b i <;> simp

theorem Rep.lt (h : Rep w L codes n ex) {i : Nat} (hi : i ∈ ex) : i < L * 256 := by
  obtain ⟨M, hL, hM, _, _⟩ := h.full
  rw [← hM, setPositions_eq] at hi
  have := List.mem_range.1 (List.mem_filter.1 hi).1
  omega

theorem Rep.exLen (h : Rep w L codes n ex) : ex.length ≤ n.mask.length * 256 := by
  obtain ⟨M, hL, hM, hcm, hu⟩ := h.full
  have := compress_sum hcm (fun _ => 1)
  simp only [Nat.mul_one] at this
  rw [← hM, setPositions_eq, list_length_filter, Nat.mul_comm 256, ← this, ← list_length_filter]
  exact (List.length_filter_le _ _).trans (by simp)

theorem Rep.itemsLeft (h : Rep w L codes n ex) {fm : Blocks} (hfm : fm.length = L) :
    nodeItems n (.left fm) = .ok (ex.filter (Spec.bitAt fm)) := by
  obtain ⟨M, hL, hM, hcm, hu⟩ := h.full
  have hlen : (ex.filter (Spec.bitAt fm)).length ≤ n.mask.length * 256 :=
    (List.length_filter_le _ _).trans h.exLen
  unfold nodeItems
  simp only []
  split
  · apply items_spec
    · rw [← hM, ← Props.C08_compressed_same _ _ _ hcm]
      exact Props.C08_index_iter_and_compr _ _ _ h.ne h.lens (by rw [hfm]; exact h.le) (by
        intro k hk
        have := h.inRange k (by unfold Blocks.blockLen at hk; have := h.lens; omega)
        unfold Blocks.blockLen
        unfold Spec.indexAt at this
        omega)
    · intro p hp
      unfold Blocks.indexIterAndCompr at hp
      obtain ⟨_, _, hp⟩ := Out.bind_eq_ok.1 hp
      obtain ⟨_, _, hp⟩ := Out.bind_eq_ok.1 hp
      unfold IndexIter.new at hp
      simp only [] at hp
      split at hp
      · cases hp
        simp only [Blocks.blockLen]
        omega
      · cases hp
  · rename_i hc
    have hc : n.compressed = false := by simpa using hc
    apply items_spec
    · rw [← hM, ← hu hc]
      exact Props.C07_index_iter_and _ _ h.ne (by rw [hu hc, hL, hfm])
    · intro p hp
      unfold Blocks.indexIterAnd at hp
      obtain ⟨_, _, hp⟩ := Out.bind_eq_ok.1 hp
      unfold IndexIter.new at hp
      simp only [] at hp
      split at hp
      · cases hp
        simp only [Blocks.blockLen]
        omega
      · cases hp

theorem Rep.itemsRight (h : Rep w L codes n ex) {fm : Blocks} (hfm : fm.length = L) :
    nodeItems n (.right fm) = .ok (ex.filter fun i => !Spec.bitAt fm i) := by
  obtain ⟨M, hL, hM, hcm, hu⟩ := h.full
  have hlen : (ex.filter fun i => !Spec.bitAt fm i).length ≤ n.mask.length * 256 :=
    (List.length_filter_le _ _).trans h.exLen
  have e : (ex.filter fun i => !Spec.bitAt fm i) = ex.filter fun i => decide (Blocks.getBit fm i = .ok false) := by
    apply List.filter_congr
    intro i hi
    rw [getBit_lt (by rw [hfm]; exact h.lt hi)]
  rw [e] at hlen ⊢
  unfold nodeItems
  simp only []
  split
  · apply items_spec
    · rw [← hM, ← Props.C08_compressed_same _ _ _ hcm]
      exact Props.C08_index_iter_andnot_compr _ _ _ h.ne h.lens (by rw [hfm]; exact h.le) (by
        intro k hk
        have := h.inRange k (by unfold Blocks.blockLen at hk; have := h.lens; omega)
        unfold Blocks.blockLen
        unfold Spec.indexAt at this
        omega)
    · intro p hp
      unfold Blocks.indexIterAndnotCompr at hp
      obtain ⟨_, _, hp⟩ := Out.bind_eq_ok.1 hp
      obtain ⟨_, _, hp⟩ := Out.bind_eq_ok.1 hp
      unfold IndexIter.new at hp
      simp only [] at hp
      split at hp
      · cases hp
        simp only [Blocks.blockLen]
        omega
      · cases hp
  · rename_i hc
    have hc : n.compressed = false := by simpa using hc
    apply items_spec
    · rw [← hM, ← hu hc]
      exact Props.C07_index_iter_andnot _ _ h.ne (by rw [hu hc, hL, hfm])
    · intro p hp
      unfold Blocks.indexIterAndnot at hp
      obtain ⟨_, _, hp⟩ := Out.bind_eq_ok.1 hp
      unfold IndexIter.new at hp
      simp only [] at hp
      split at hp
      · cases hp
        simp only [Blocks.blockLen]
        omega
      · cases hp

end Learner
end BitBoost
