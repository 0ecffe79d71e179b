import Verif.Lemmas.NodeRep
/-! Helper lemmas: splitting and compressing the masks of a node. -/
namespace BitBoost

theorem Blocks.word_ext {a b : Blocks} {i k : Nat}
    (h : ∀ t, t < 32 → Blocks.bit a (32 * i + t) = Blocks.bit b (32 * k + t)) :
    Blocks.word 32 a i = Blocks.word 32 b k := by
  apply BitVec.eq_of_getLsbD_eq
  intro t ht
  rw [Blocks.getLsbD_word (by omega) (by omega) a i ht, Blocks.getLsbD_word (by omega) (by omega) b k ht, h t ht]

theorem Blocks.word_setWord {bs : Blocks} {i k : Nat} {v : BitVec 32} (hi : i < Blocks.blockLen 32 bs) :
    Blocks.word 32 (Blocks.setWord 32 bs i v) k = if k = i then v else Blocks.word 32 bs k := by
  have hi' := (Blocks.lt_blockLen_iff (w := 32) (by omega) (by omega) bs i).1 hi
  apply BitVec.eq_of_getLsbD_eq
  intro t ht
  rw [Blocks.getLsbD_word (by omega) (by omega) _ k ht]
  by_cases hk : 32 * k + t < bs.length * 256
  · rw [Blocks.bit_setWord (by omega) (by omega) bs i v _ hk]
    by_cases e : k = i
    · subst e
      rw [if_pos (by omega), if_pos rfl]
      congr 1
      omega
    · rw [if_neg (by omega), if_neg e, Blocks.getLsbD_word (by omega) (by omega) _ k ht]
  · have e : k ≠ i := by
      rintro rfl
      omega
    rw [if_neg e, Blocks.getLsbD_word (by omega) (by omega) _ k ht,
      Blocks.bit_of_ge _ (by rw [Blocks.length_setWord]; omega), Blocks.bit_of_ge _ (by omega)]

theorem Blocks.word_of_ge {bs : Blocks} {i : Nat} (h : Blocks.blockLen 32 bs ≤ i) : Blocks.word 32 bs i = 0#32 := by
  apply BitVec.eq_of_getLsbD_eq
  intro t ht
  rw [Blocks.getLsbD_word (by omega) (by omega) _ i ht, Blocks.bit_of_ge _ (by unfold Blocks.blockLen at h; omega)]
  simp

theorem Blocks.get_word {bs : Blocks} {i : Nat} (h : i < Blocks.blockLen 32 bs) :
    Blocks.get 32 bs i = .ok (Blocks.word 32 bs i) := by
  unfold Blocks.get; rw [if_pos h]

theorem Blocks.set_word {bs : Blocks} {i : Nat} {v : BitVec 32} (h : i < Blocks.blockLen 32 bs) :
    Blocks.set 32 bs i v = .ok (Blocks.setWord 32 bs i v) := by
  unfold Blocks.set; rw [if_pos h]

theorem Blocks.blockLen_setWord (bs : Blocks) (i : Nat) (v : BitVec 32) :
    Blocks.blockLen 32 (Blocks.setWord 32 bs i v) = Blocks.blockLen 32 bs := by
  unfold Blocks.blockLen; rw [Blocks.length_setWord]

theorem Blocks.word_take {bs : Blocks} {m i : Nat} (h : i < 8 * m) :
    Blocks.word 32 (bs.take m) i = Blocks.word 32 bs i := by
  unfold Blocks.word
  congr 1
  rw [List.getD_eq_getElem?_getD, List.getD_eq_getElem?_getD, List.getElem?_take, if_pos (by omega)]

theorem Blocks.word_replicate (m i : Nat) : Blocks.word 32 (List.replicate m BitBlock.zeros) i = 0#32 := by
  apply BitVec.eq_of_getLsbD_eq
  intro t ht
  rw [Blocks.getLsbD_word (by omega) (by omega) _ i ht]
  unfold Blocks.bit
  rw [List.getD_eq_getElem?_getD, List.getElem?_replicate]
  split <;> simp [BitBlock.zeros]

namespace Learner

/-- The words of a child mask. -/
def childWord (idx pmask fmask : Blocks) (neg : Bool) (j : Nat) : BitVec 32 :=
  Blocks.word 32 pmask j &&&
    (if neg then ~~~(Blocks.word 32 fmask (Spec.indexAt idx j)) else Blocks.word 32 fmask (Spec.indexAt idx j))

theorem splitLoop_spec (idx pmask fmask : Blocks) (neg : Bool) (hp : pmask.length = idx.length)
    (hr : ∀ k, k < 8 * idx.length → Spec.indexAt idx k < 8 * fmask.length) :
    ∀ (k j z : Nat) (cm : Blocks), j + k ≤ Blocks.blockLen 32 idx → cm.length = idx.length →
    ∃ cm', splitLoop idx pmask fmask neg k j z cm =
        .ok (z + ((List.range' j k).filter fun i => childWord idx pmask fmask neg i = 0#32).length, cm') ∧
      cm'.length = cm.length ∧ ∀ i, Blocks.word 32 cm' i =
        if j ≤ i ∧ i < j + k then childWord idx pmask fmask neg i else Blocks.word 32 cm i
  | 0, j, z, cm, _, _ => by
      refine ⟨cm, by simp [splitLoop], rfl, fun i => ?_⟩
      rw [if_neg (by omega)]
  | k + 1, j, z, cm, hj, hc => by
      have hlen : ∀ {b : Blocks}, b.length = idx.length → j < Blocks.blockLen 32 b := by
        intro b hb
        unfold Blocks.blockLen at hj ⊢
        omega
      have hix := hr j (by unfold Blocks.blockLen at hj; omega)
      unfold splitLoop
      rw [Blocks.get_word (hlen rfl), Out.ok_bind, Blocks.get_word (hlen hp), Out.ok_bind,
        Blocks.get_word (by unfold Blocks.blockLen; unfold Spec.indexAt at hix; omega), Out.ok_bind]
      simp only []
      rw [Blocks.set_word (hlen hc), Out.ok_bind]
      obtain ⟨cm', e, hl, hw⟩ := splitLoop_spec idx pmask fmask neg hp hr k (j + 1)
        (if childWord idx pmask fmask neg j = 0#32 then z + 1 else z)
        (Blocks.setWord 32 cm j (childWord idx pmask fmask neg j)) (by omega) (by rw [Blocks.length_setWord, hc])
      refine ⟨cm', ?_, by rw [hl, Blocks.length_setWord], ?_⟩
      · refine Eq.trans e ?_
        rw [List.range'_succ, List.filter_cons]
        congr 2
        by_cases hz : childWord idx pmask fmask neg j = 0#32
        · simp only [hz, if_true, decide_true, List.length_cons]; omega
        · simp only [hz, if_false, decide_false, Bool.false_eq_true]
      · intro i
        rw [hw i, Blocks.word_setWord (hlen hc)]
        by_cases e1 : i = j
        · subst e1
          rw [if_neg (by omega), if_pos rfl, if_pos (by omega)]
        · rw [if_neg e1]
          by_cases e2 : j + 1 ≤ i ∧ i < j + 1 + k
          · rw [if_pos e2, if_pos (by omega)]
          · rw [if_neg e2, if_neg (by omega)]

/-- Number of words that are not zero. -/
def nonzero (m : Blocks) : List Nat :=
  (List.range (Blocks.blockLen 32 m)).filter fun i => Blocks.word 32 m i ≠ 0#32

/-- The words below `j` that are not zero. -/
def nonzeroTo (m : Blocks) (j : Nat) : List Nat :=
  (List.range j).filter fun i => Blocks.word 32 m i ≠ 0#32

theorem nonzeroTo_succ (m : Blocks) (j : Nat) :
    nonzeroTo m (j + 1) = nonzeroTo m j ++ if Blocks.word 32 m j ≠ 0#32 then [j] else [] := by
  unfold nonzeroTo
  rw [List.range_succ, List.filter_append]
  congr 1
  by_cases h : Blocks.word 32 m j = 0#32 <;> simp [h]

theorem nonzeroTo_le (m : Blocks) (j : Nat) : (nonzeroTo m j).length ≤ j :=
  (List.length_filter_le _ _).trans (by simp)

theorem nonzeroTo_mono (m : Blocks) {i j : Nat} (h : i ≤ j) :
    (nonzeroTo m i).length ≤ (nonzeroTo m j).length := by
  unfold nonzeroTo
  have : (List.range i).Sublist (List.range j) := by
    rw [List.range_sublist]; exact h
  exact (this.filter _).length_le

/-- What the loop of `compress_examples!` has done after `j` words. -/
structure CInv (w : Nat) (m0 pidx pgrads : Blocks) (j : Nat) (mask cidx cgrads : Blocks) : Prop where
  mlen : mask.length = m0.length
  rest : ∀ i, j ≤ i → Blocks.word 32 mask i = Blocks.word 32 m0 i
  kept : ∀ i s, (nonzeroTo m0 j)[i]? = some s →
    Blocks.word 32 mask i = Blocks.word 32 m0 s ∧ Blocks.word 32 cidx i = Blocks.word 32 pidx s ∧
      ∀ b, b < 32 → BitSlice.getValue w cgrads (32 * i + b) = BitSlice.getValue w pgrads (32 * s + b)
  pad : ∀ i, (nonzeroTo m0 j).length ≤ i → Blocks.word 32 cidx i = 0#32

theorem compressLoop_spec {w : Nat} (hw : validWidth w) {m0 pidx pgrads : Blocks}
    (hl : m0.length = pidx.length) (hg : pgrads.length = pidx.length * w) (li lg : Nat)
    (hli : (nonzeroTo m0 (Blocks.blockLen 32 m0)).length ≤ 8 * li) (hlg : lg = li * w) :
    ∀ (n j : Nat) (mask cidx cgrads : Blocks), j + n = Blocks.blockLen 32 pidx →
      cidx.length = li → cgrads.length = lg → CInv w m0 pidx pgrads j mask cidx cgrads →
      ∃ mask' cidx' cgrads', compressLoop w pidx pgrads n j (nonzeroTo m0 j).length mask cidx cgrads =
          .ok ((nonzeroTo m0 (j + n)).length, mask', cidx', cgrads') ∧
        cidx'.length = li ∧ cgrads'.length = lg ∧ CInv w m0 pidx pgrads (j + n) mask' cidx' cgrads'
  | 0, j, mask, cidx, cgrads, _, h1, h2, hI => ⟨mask, cidx, cgrads, rfl, h1, h2, hI⟩
  | n + 1, j, mask, cidx, cgrads, hj, h1, h2, hI => by
      have hjp : j < Blocks.blockLen 32 pidx := by omega
      have hjm : j < Blocks.blockLen 32 mask := by
        unfold Blocks.blockLen at hjp ⊢
        rw [hI.mlen, hl]; exact hjp
      unfold compressLoop
      rw [Blocks.get_word hjp, Out.ok_bind, Blocks.get_word hjm, Out.ok_bind, hI.rest j (le_refl _)]
      have e0 : j + (n + 1) = j + 1 + n := by omega
      by_cases hz : Blocks.word 32 m0 j = 0#32
      · rw [if_pos hz]
        have hs : nonzeroTo m0 (j + 1) = nonzeroTo m0 j := by rw [nonzeroTo_succ]; simp [hz]
        rw [← hs, e0]
        apply compressLoop_spec hw hl hg li lg hli hlg n (j + 1) mask cidx cgrads (by omega) h1 h2
        exact ⟨hI.mlen, fun i hi => hI.rest i (by omega), fun i s h => hI.kept i s (by rw [← hs]; exact h),
          fun i h => hI.pad i (by rw [← hs]; exact h)⟩
      · rw [if_neg hz]
        have hs : nonzeroTo m0 (j + 1) = nonzeroTo m0 j ++ [j] := by rw [nonzeroTo_succ]; simp [hz]
        have hs' : (nonzeroTo m0 (j + 1)).length = (nonzeroTo m0 j).length + 1 := by rw [hs]; simp
        have hkl : (nonzeroTo m0 j).length < 8 * li := by
          have := nonzeroTo_mono m0 (i := j + 1) (j := Blocks.blockLen 32 m0) (by
            unfold Blocks.blockLen at hjp ⊢; rw [hl]; omega)
          omega
        have hkj := nonzeroTo_le m0 j
        have hkm : (nonzeroTo m0 j).length < Blocks.blockLen 32 mask := by omega
        have hki : (nonzeroTo m0 j).length < Blocks.blockLen 32 cidx := by unfold Blocks.blockLen; omega
        have hsp : 32 * j + 31 < Spec.slots w pgrads := by
          rw [slots_len hw hg]; unfold Blocks.blockLen at hjp; omega
        have hsc : 32 * (nonzeroTo m0 j).length + 31 < Spec.slots w cgrads := by
          rw [slots_len (k := li) hw (by omega)]; omega
        obtain ⟨cg', ec, hcl, hcv, hco⟩ := Props.C16_copy_block hw cgrads pgrads j _ hsp hsc
        rw [Blocks.set_word hkm, Out.ok_bind, Blocks.set_word hki, Out.ok_bind, ec, Out.ok_bind, ← hs', e0]
        apply compressLoop_spec hw hl hg li lg hli hlg n (j + 1) _ _ _ (by omega)
          (by rw [Blocks.length_setWord, h1]) (by rw [hcl, h2])
        refine ⟨by rw [Blocks.length_setWord, hI.mlen], ?_, ?_, ?_⟩
        · intro i hi
          rw [Blocks.word_setWord hkm, if_neg (by omega), hI.rest i (by omega)]
        · intro i s h
          rw [hs] at h
          by_cases hi : i < (nonzeroTo m0 j).length
          · rw [List.getElem?_append_left hi] at h
            obtain ⟨a, b, c⟩ := hI.kept i s h
            rw [Blocks.word_setWord hkm, if_neg (by omega), Blocks.word_setWord hki, if_neg (by omega)]
            exact ⟨a, b, fun t ht => by rw [hco _ (by omega)]; exact c t ht⟩
          · have hi2 : i = (nonzeroTo m0 j).length := by
              have := (List.getElem?_eq_some_iff.1 h).1
              simp at this
              omega
            subst hi2
            simp at h
            subst h
            rw [Blocks.word_setWord hkm, if_pos rfl, Blocks.word_setWord hki, if_pos rfl]
            exact ⟨rfl, rfl, hcv⟩
        · intro i hi
          rw [Blocks.word_setWord hki, if_neg (by omega), hI.pad i (by omega)]

theorem zeroWords_spec : ∀ (n j : Nat) (m : Blocks), j + n ≤ Blocks.blockLen 32 m →
    ∃ m', zeroWords n j m = .ok m' ∧ m'.length = m.length ∧
      ∀ i, Blocks.word 32 m' i = if j ≤ i ∧ i < j + n then 0#32 else Blocks.word 32 m i
  | 0, j, m, _ => ⟨m, rfl, rfl, fun i => by rw [if_neg (by omega)]⟩
  | n + 1, j, m, h => by
      have hj : j < Blocks.blockLen 32 m := by omega
      obtain ⟨m', e, hl, hw⟩ := zeroWords_spec n (j + 1) (Blocks.setWord 32 m j 0#32)
        (by rw [Blocks.blockLen_setWord]; omega)
      refine ⟨m', ?_, by rw [hl, Blocks.length_setWord], ?_⟩
      · unfold zeroWords
        rw [Blocks.set_word hj, Out.ok_bind, e]
      · intro i
        rw [hw i, Blocks.word_setWord hj]
        by_cases e1 : i = j
        · subst e1
          rw [if_neg (by omega), if_pos rfl, if_pos (by omega)]
        · rw [if_neg e1]
          by_cases e2 : j + 1 ≤ i ∧ i < j + 1 + n
          · rw [if_pos e2, if_pos (by omega)]
          · rw [if_neg e2, if_neg (by omega)]

theorem nonzeroTo_sorted (m : Blocks) (j : Nat) : (nonzeroTo m j).Pairwise (· < ·) := by
  unfold nonzeroTo
  exact List.Pairwise.filter _ List.pairwise_lt_range

/-- Compressing keeps the examples of a node. -/
theorem compress_rep {w L : Nat} (hw : validWidth w) {codes : List Nat} {p c : Node} {ex : List Nat}
    (h : Rep w L codes c ex) (hi : p.idx = c.idx) (hg : p.grads = c.grads)
    (hpos : 0 < (nonzero c.mask).length) :
    ∃ c', compress w p c (nonzero c.mask).length = .ok c' ∧ Rep w L codes c' ex ∧ c'.nodeId = c.nodeId ∧
      c'.exampleCount = c.exampleCount ∧ c'.gradSum = c.gradSum ∧ c'.hists = c.hists := by
  have hl := h.lens
  have hwpos : 0 < w := by rcases hw with rfl | rfl | rfl | rfl <;> omega
  generalize hS : nonzero c.mask = S at hpos ⊢
  have hSe : nonzeroTo c.mask (Blocks.blockLen 32 c.mask) = S := by rw [← hS]; rfl
  generalize hli : (S.length * 4 * 8 + 255) / 256 = li
  have hSle : S.length ≤ Blocks.blockLen 32 c.mask := by rw [← hSe]; exact nonzeroTo_le _ _
  have hSle' : S.length ≤ 8 * c.mask.length := by unfold Blocks.blockLen at hSle; omega
  have hli8 : S.length ≤ 8 * li := by omega
  have hlile : li ≤ c.mask.length := by omega
  have hlipos : 0 < li := by omega
  obtain ⟨cidx, ezi, hzil, hzib⟩ : ∃ cidx, Blocks.zeroBits (S.length * 4 * 8) = .ok cidx ∧ cidx.length = li ∧
      ∀ i, Blocks.word 32 cidx i = 0#32 := by
    unfold Blocks.zeroBits Blocks.zeroBlocks
    rw [BitBlock.blocksRequiredFor_eq, hli, if_pos hlipos]
    exact ⟨_, rfl, by simp, fun i => Blocks.word_replicate _ _⟩
  obtain ⟨cgr, ezg, hzgl⟩ : ∃ cgr, Blocks.zeroBlocks (li * w) = .ok cgr ∧ cgr.length = li * w := by
    unfold Blocks.zeroBlocks
    rw [if_pos (Nat.mul_pos hlipos hwpos)]
    exact ⟨_, rfl, by simp⟩
  have hbl : Blocks.blockLen 32 c.idx = Blocks.blockLen 32 c.mask := by unfold Blocks.blockLen; rw [hl]
  obtain ⟨m1, ci1, cg1, e1, hci, hcg, hI⟩ := compressLoop_spec (m0 := c.mask) (pidx := c.idx) (pgrads := c.grads)
    hw hl (by rw [h.glen, hl]) li (li * w) (by rw [hSe]; exact hli8) rfl (Blocks.blockLen 32 c.idx) 0 c.mask cidx cgr
    (by omega) hzil hzgl ⟨rfl, fun _ _ => rfl, fun i s hs => by simp [nonzeroTo] at hs, fun i _ => hzib i⟩
  rw [Nat.zero_add, hbl, hSe] at e1
  rw [Nat.zero_add, hbl] at hI
  have hI3 := hI.kept
  have hI4 := hI.pad
  rw [hSe] at hI3 hI4
  have e1' : compressLoop w c.idx c.grads (Blocks.blockLen 32 c.mask) 0 0 c.mask cidx cgr =
      .ok (S.length, m1, ci1, cg1) := by
    have : (nonzeroTo c.mask 0).length = 0 := by simp [nonzeroTo]
    rw [this] at e1
    exact e1
  have hm1 : Blocks.blockLen 32 m1 = Blocks.blockLen 32 c.mask := by unfold Blocks.blockLen; rw [hI.mlen]
  obtain ⟨m2, e2, hm2l, hm2⟩ := zeroWords_spec (Blocks.blockLen 32 c.mask - S.length) S.length m1 (by omega)
  -- the words of the new mask
  have hmw : ∀ i, i < 8 * li → Blocks.word 32 (m2.take li) i =
      if i < S.length then Blocks.word 32 m1 i else 0#32 := by
    intro i hi
    rw [Blocks.word_take hi, hm2 i]
    by_cases hiS : i < S.length
    · rw [if_neg (by omega), if_pos hiS]
    · rw [if_neg hiS]
      split
      · rfl
      · apply Blocks.word_of_ge; omega
  have hml : (m2.take li).length = li := by rw [List.length_take, hm2l, hI.mlen]; omega
  refine ⟨{ c with compressed := true, idx := ci1, grads := cg1, mask := m2.take li }, by
    unfold compress
    simp only []
    rw [ezi, Out.ok_bind, BitBlock.blocksRequiredFor_eq, hli, ezg, Out.ok_bind, hi, hg, hbl, e1', Out.ok_bind, e2,
      Out.ok_bind, hzil]
    rfl, ?_, rfl, rfl, rfl, rfl⟩
  obtain ⟨M, hML, hMex, hC, _⟩ := h.full
  obtain ⟨_, cp, hcp, hinc, huse, hzero, hcov⟩ := hC
  have hSlt : ∀ (i s : Nat), S[i]? = some s → s < cp ∧ Blocks.word 32 c.mask s ≠ 0#32 := by
    intro i s hs
    have hmem : s ∈ S := List.mem_of_getElem? hs
    rw [← hSe] at hmem
    unfold nonzeroTo at hmem
    simp only [List.mem_filter, List.mem_range, decide_eq_true_eq] at hmem
    refine ⟨?_, by simpa using hmem.2⟩
    by_contra hge
    exact absurd (hzero s (by omega) hmem.1) (by simpa using hmem.2)
  have hget : ∀ i : Nat, i < S.length → ∃ s : Nat, S[i]? = some s := fun i hi => ⟨S[i], List.getElem?_eq_getElem hi⟩
  refine ⟨⟨M, hML, hMex, ⟨?_, S.length, ?_, ?_, ?_, ?_, ?_⟩, fun hc => by simp at hc⟩, fun hc => by simp at hc, ?_, ?_,
    ?_, ?_, ?_⟩
  · show Blocks.blockLen 32 (m2.take li) = Blocks.blockLen 32 ci1
    unfold Blocks.blockLen
    rw [hml, hci]
  · show S.length ≤ Blocks.blockLen 32 (m2.take li)
    unfold Blocks.blockLen
    rw [hml]
    omega
  · intro k l hkl hlS
    show (Blocks.word 32 ci1 k).toNat < (Blocks.word 32 ci1 l).toNat
    obtain ⟨s, hs⟩ := hget k (by omega)
    obtain ⟨t, ht⟩ := hget l hlS
    rw [(hI3 k s hs).2.1, (hI3 l t ht).2.1]
    apply hinc s t _ (hSlt l t ht).1
    have hsort := nonzeroTo_sorted c.mask (Blocks.blockLen 32 c.mask)
    rw [hSe] at hsort
    have := List.pairwise_iff_getElem.1 hsort k l (by omega) hlS hkl
    rw [List.getElem?_eq_getElem (by omega)] at hs
    rw [List.getElem?_eq_getElem hlS] at ht
    simp only [Option.some.injEq] at hs ht
    omega
  · intro k hk
    show (Blocks.word 32 ci1 k).toNat < Blocks.blockLen 32 M ∧
      Blocks.word 32 (m2.take li) k = Blocks.word 32 M (Blocks.word 32 ci1 k).toNat
    obtain ⟨s, hs⟩ := hget k hk
    obtain ⟨a, b, _⟩ := hI3 k s hs
    rw [b, hmw k (by omega), if_pos hk, a]
    exact huse s (hSlt k s hs).1
  · intro k hk hkl
    show Blocks.word 32 (m2.take li) k = 0#32
    have hk2 : k < 8 * li := by
      change k < Blocks.blockLen 32 (m2.take li) at hkl
      unfold Blocks.blockLen at hkl
      rw [hml] at hkl
      omega
    rw [hmw k hk2, if_neg (by omega)]
  · intro i hiM hne
    obtain ⟨k, hk, hki⟩ := hcov i hiM hne
    have hkS : k ∈ S := by
      rw [← hSe]
      unfold nonzeroTo
      simp only [List.mem_filter, List.mem_range, decide_eq_true_eq]
      refine ⟨by omega, ?_⟩
      rw [(huse k hk).2, hki]
      simpa using hne
    obtain ⟨t, ht, hte⟩ := List.getElem_of_mem hkS
    refine ⟨t, ht, ?_⟩
    show (Blocks.word 32 ci1 t).toNat = i
    rw [(hI3 t k (by rw [List.getElem?_eq_getElem ht, hte])).2.1, hki]
  · show m2.take li ≠ []
    intro hnil
    rw [hnil] at hml
    simp at hml
    omega
  · intro k hk
    show Spec.indexAt ci1 k < 8 * L
    have hin := h.inRange
    unfold Spec.indexAt at hin ⊢
    by_cases hkS : k < S.length
    · obtain ⟨s, hs⟩ := hget k hkS
      rw [(hI3 k s hs).2.1]
      apply hin
      have := (hSlt k s hs).1
      unfold Blocks.blockLen at hcp
      omega
    · rw [hI4 k (by omega)]
      have := h.le
      simp only [BitVec.toNat_ofNat]
      omega
  · show (m2.take li).length ≤ L
    have := h.le
    omega
  · show cg1.length = (m2.take li).length * w
    rw [hcg, hml]
  · intro v hv
    show Spec.valueAt w cg1 v = codes.getD (Spec.exampleAt ci1 v) 0
    change Blocks.bit (m2.take li) v = true at hv
    have hvlt := Blocks.lt_of_bit hv
    rw [hml] at hvlt
    have hv2 : v = 32 * (v / 32) + v % 32 := by omega
    have hbit : (Blocks.word 32 (m2.take li) (v / 32)).getLsbD (v % 32) = true := by
      rw [Blocks.getLsbD_word (by omega) (by omega) _ _ (by omega), ← hv2]; exact hv
    rw [hmw _ (by omega)] at hbit
    by_cases hS2 : v / 32 < S.length
    · rw [if_pos hS2] at hbit
      obtain ⟨s, hs⟩ := hget _ hS2
      obtain ⟨a, b, cv⟩ := hI3 _ s hs
      rw [a, Blocks.getLsbD_word (by omega) (by omega) _ _ (by omega)] at hbit
      have hval := h.vals _ hbit
      have e3 : Spec.valueAt w cg1 v = Spec.valueAt w c.grads (32 * s + v % 32) := by
        unfold Spec.valueAt
        have := cv (v % 32) (by omega)
        rw [← hv2] at this
        rw [this]
      rw [e3, hval]
      congr 1
      rw [exampleAt_word _ _ _ (by omega)]
      unfold Spec.exampleAt Spec.indexAt
      rw [b]
    · rw [if_neg hS2] at hbit
      simp at hbit

/-- The part of the examples that goes to a child. -/
def childExamples (fm : Blocks) (neg : Bool) (ex : List Nat) : List Nat :=
  ex.filter fun i => if neg then !Spec.bitAt fm i else Spec.bitAt fm i

def childFull (M fm : Blocks) (neg : Bool) : Blocks :=
  List.zipWith (fun a b => a &&& if neg then ~~~b else b) M fm

theorem childFull_bit {M fm : Blocks} {neg : Bool} {v : Nat} (hl : fm.length = M.length) (hv : v < M.length * 256) :
    Blocks.bit (childFull M fm neg) v = (Blocks.bit M v && if neg then !Blocks.bit fm v else Blocks.bit fm v) := by
  have h1 : v / 256 < M.length := by omega
  have h2 : v % 256 < 256 := by omega
  unfold Blocks.bit childFull
  rw [List.getD_eq_getElem?_getD, List.getElem?_eq_getElem (by simp; omega), List.getElem_zipWith,
    List.getD_eq_getElem?_getD, List.getElem?_eq_getElem h1, List.getD_eq_getElem?_getD,
    List.getElem?_eq_getElem (by omega)]
  cases neg <;> simp [BitVec.getLsbD_and, BitVec.getLsbD_not, h2]

theorem childFull_len {M fm : Blocks} {neg : Bool} (hl : fm.length = M.length) :
    (childFull M fm neg).length = M.length := by
  unfold childFull
  rw [List.length_zipWith]
  omega

theorem childFull_word {M fm : Blocks} {neg : Bool} {k : Nat} (hl : fm.length = M.length)
    (hk : k < Blocks.blockLen 32 M) :
    Blocks.word 32 (childFull M fm neg) k =
      Blocks.word 32 M k &&& (if neg then ~~~(Blocks.word 32 fm k) else Blocks.word 32 fm k) := by
  unfold Blocks.blockLen at hk
  apply BitVec.eq_of_getLsbD_eq
  intro t ht
  rw [Blocks.getLsbD_word (by omega) (by omega) _ k ht, childFull_bit hl (by omega), BitVec.getLsbD_and,
    Blocks.getLsbD_word (by omega) (by omega) _ k ht]
  cases neg
  · simp only [Bool.false_eq_true, if_false]
    rw [Blocks.getLsbD_word (by omega) (by omega) _ k ht]
  · simp only [if_true, BitVec.getLsbD_not, ht, decide_true, Bool.true_and]
    rw [Blocks.getLsbD_word (by omega) (by omega) _ k ht]

theorem childFull_positions {M fm : Blocks} {neg : Bool} (hl : fm.length = M.length) :
    Spec.setPositions (childFull M fm neg) = childExamples fm neg (Spec.setPositions M) := by
  unfold childExamples
  rw [setPositions_eq, setPositions_eq, List.filter_filter, childFull_len hl]
  apply List.filter_congr
  intro v hv
  have hv := List.mem_range.1 hv
  rw [childFull_bit hl (by omega), Bool.and_comm, BitSlice.bitAt_eq]

theorem zeros_nonzero (m : Blocks) (p : Nat → BitVec 32) (n : Nat) (hn : Blocks.blockLen 32 m = n)
    (h : ∀ i, i < n → Blocks.word 32 m i = p i) :
    n - ((List.range' 0 n).filter fun i => p i = 0#32).length = (nonzero m).length := by
  unfold nonzero
  rw [hn, ← List.range_eq_range']
  have e : ((List.range n).filter fun i => Blocks.word 32 m i ≠ 0#32) =
      (List.range n).filter fun i => !decide (p i = 0#32) := by
    apply List.filter_congr
    intro i hi
    rw [h i (List.mem_range.1 hi)]
    simp
  rw [e]
  have := List.length_eq_length_filter_add (l := List.range n) (fun i => decide (p i = 0#32))
  rw [List.length_range] at this
  omega

/-- The child mask stands for the part of the examples. -/
theorem child_rep {w L : Nat} {codes : List Nat} {p : Node} {ex : List Nat} (h : Rep w L codes p ex)
    {fm cm : Blocks} (hfm : fm.length = L) {neg : Bool} (hl : cm.length = p.idx.length)
    (hw : ∀ i, i < Blocks.blockLen 32 p.idx → Blocks.word 32 cm i = childWord p.idx p.mask fm neg i)
    (id count : Nat) (g : Num) (hs : Hists) :
    Rep w L codes { p with nodeId := id, exampleCount := count, gradSum := g, hists := hs, mask := cm }
      (childExamples fm neg ex) := by
  have hpl := h.lens
  obtain ⟨M, hML, hMex, hC, hu⟩ := h.full
  obtain ⟨hclen, cp, hcp, hinc, huse, hzero, hcov⟩ := hC
  have hfM : fm.length = M.length := by rw [hfm, hML]
  have hbl : Blocks.blockLen 32 cm = Blocks.blockLen 32 p.idx := by unfold Blocks.blockLen; rw [hl]
  have hused : ∀ k, k < cp → Blocks.word 32 cm k =
      Blocks.word 32 (childFull M fm neg) (Blocks.word 32 p.idx k).toNat := by
    intro k hk
    rw [hw k (by omega), childFull_word hfM (huse k hk).1]
    unfold childWord Spec.indexAt
    rw [(huse k hk).2]
  have hbMc : Blocks.blockLen 32 (childFull M fm neg) = Blocks.blockLen 32 M := by
    unfold Blocks.blockLen; rw [childFull_len hfM]
  refine ⟨⟨childFull M fm neg, by rw [childFull_len hfM, hML], by rw [childFull_positions hfM, hMex],
    ⟨hbl, cp, ?_, hinc, ?_, ?_, ?_⟩, ?_⟩, h.plain, ?_, h.inRange, ?_, ?_, ?_⟩
  · show cp ≤ Blocks.blockLen 32 cm
    omega
  · intro k hk
    exact ⟨by rw [hbMc]; exact (huse k hk).1, hused k hk⟩
  · intro k hk hkl
    show Blocks.word 32 cm k = 0#32
    change k < Blocks.blockLen 32 cm at hkl
    rw [hw k (by omega)]
    unfold childWord
    rw [hzero k hk (by omega)]
    simp
  · intro i hi hne
    apply hcov i (by omega)
    intro hz
    apply hne
    rw [childFull_word hfM (by omega), hz]
    simp
  · intro hc
    show cm = childFull M fm neg
    change p.compressed = false at hc
    have hmM := hu hc
    apply Blocks.ext_bit (by rw [hl, ← hpl, hmM, childFull_len hfM])
    intro v hv
    have hlt : v / 32 < 8 * L := by rw [hl, ← hpl, hmM, hML] at hv; omega
    have hlt2 : v / 32 < Blocks.blockLen 32 p.idx := by
      unfold Blocks.blockLen; rw [hl] at hv; omega
    have hww : Blocks.word 32 cm (v / 32) = Blocks.word 32 (childFull M fm neg) (v / 32) := by
      rw [hw _ hlt2, childFull_word hfM (by unfold Blocks.blockLen; omega)]
      unfold childWord
      rw [h.plain hc _ hlt, hmM]
    have := word_eq_bit hww (t := v % 32) (by omega)
    have hv2 : 32 * (v / 32) + v % 32 = v := by omega
    rw [hv2] at this
    exact this
  · show cm ≠ []
    intro hnil
    subst hnil
    apply h.ne
    rw [← List.length_eq_zero_iff, hpl, ← hl]
    rfl
  · show cm.length ≤ L
    have := h.le
    omega
  · show p.grads.length = cm.length * w
    rw [h.glen, hl, hpl]
  · intro v hv
    change Blocks.bit cm v = true at hv
    have hvlt := Blocks.lt_of_bit hv
    apply h.vals
    have hv2 : 32 * (v / 32) + v % 32 = v := by omega
    rw [← hv2, ← Blocks.getLsbD_word (by omega) (by omega) _ _ (by omega),
      hw _ (by unfold Blocks.blockLen; omega)] at hv
    unfold childWord at hv
    rw [BitVec.getLsbD_and, Bool.and_eq_true, Blocks.getLsbD_word (by omega) (by omega) _ _ (by omega), hv2] at hv
    exact hv.1

theorem Rep.nonzero_pos {w L : Nat} {codes : List Nat} {n : Node} {ex : List Nat} (h : Rep w L codes n ex)
    (hne : ex ≠ []) : 0 < (nonzero n.mask).length := by
  obtain ⟨M, hML, hMex, hC, hu⟩ := h.full
  obtain ⟨hclen, cp, hcp, hinc, huse, hzero, hcov⟩ := hC
  obtain ⟨e, he⟩ := List.exists_mem_of_ne_nil _ hne
  rw [← hMex, setPositions_eq] at he
  simp only [List.mem_filter, List.mem_range] at he
  have hwne : Blocks.word 32 M (e / 32) ≠ 0#32 := by
    intro hz
    have := word_zero_bit hz (t := e % 32) (by omega)
    have e2 : 32 * (e / 32) + e % 32 = e := by omega
    rw [e2, he.2] at this
    exact absurd this (by simp)
  obtain ⟨k, hk, hke⟩ := hcov (e / 32) (by unfold Blocks.blockLen; omega) hwne
  apply List.length_pos_of_mem (a := k)
  unfold nonzero
  simp only [List.mem_filter, List.mem_range, decide_eq_true_eq]
  exact ⟨by omega, by rw [(huse k hk).2, hke]; simpa using hwne⟩

/-- `split_examples` gives a node that stands for the part of the examples. -/
theorem splitExamples_rep {F : FP} {cfg : Config} {ds : Dataset} {w L : Nat} (hvw : validWidth w) {codes : List Nat}
    {p : Node} {ex : List Nat} (h : Rep w L codes p ex) {fm : Blocks} (hfm : fm.length = L) {s : Split}
    (hget : ds.getBitvec s.crit.featureId s.splitId = .ok fm) {hs : Hists} (hh : newHists ds.data = .ok hs)
    (id : Nat) (neg : Bool) (hne : childExamples fm neg ex ≠ []) :
    ∃ c, splitExamples F cfg ds w p id s neg = .ok c ∧ Rep w L codes c (childExamples fm neg ex) ∧
      c.nodeId = id ∧ c.hists = hs := by
  have hpl := h.lens
  have hpos : 0 < p.idx.length := by
    rw [← hpl]; exact List.length_pos_iff.2 h.ne
  obtain ⟨cm, e1, hl, hw⟩ := splitLoop_spec p.idx p.mask fm neg hpl
    (fun k hk => by rw [hfm]; exact h.inRange k hk) (Blocks.blockLen 32 p.idx) 0 0
    (List.replicate p.idx.length BitBlock.zeros) (by omega) (by simp)
  rw [List.length_replicate] at hl
  have hw' : ∀ i, i < Blocks.blockLen 32 p.idx → Blocks.word 32 cm i = childWord p.idx p.mask fm neg i := by
    intro i hi
    rw [hw i, if_pos (by omega)]
  have hrep := child_rep h hfm hl hw' id 0 (.fin 0) hs
  unfold splitExamples
  rw [hget, Out.ok_bind]
  simp only []
  rw [hh, Out.ok_bind]
  have ez : Blocks.zeroBlocks p.idx.length = .ok (List.replicate p.idx.length BitBlock.zeros) := by
    unfold Blocks.zeroBlocks; rw [if_pos hpos]
  rw [ez, Out.ok_bind, e1, Out.ok_bind]
  simp only []
  split
  · have hz := zeros_nonzero cm (childWord p.idx p.mask fm neg) (Blocks.blockLen 32 p.idx)
      (by unfold Blocks.blockLen; rw [hl]) hw'
    rw [Nat.zero_add, hz]
    have hnz := hrep.nonzero_pos hne
    rw [decide_eq_true hnz, Out.assert_true, Out.ok_bind]
    obtain ⟨c', ec, hr, a, _, _, b⟩ := compress_rep hvw (p := p) hrep rfl rfl hnz
    exact ⟨c', ec, hr, a, b⟩
  · exact ⟨_, rfl, hrep, rfl, rfl⟩

end Learner
end BitBoost
