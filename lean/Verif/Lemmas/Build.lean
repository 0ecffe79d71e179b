import Verif.Lemmas.Bits
/-! Helper lemmas: constructors of block arrays (`one_bits`, `from_iter`, `from_bool_iter`). -/
namespace BitBoost
namespace Blocks

theorem trimLoop_spec : ∀ (i zeros : Nat) (b : BitBlock), i < 4 → zeros ≤ 64 * (i + 1) →
    (∀ n, n < 64 * (i + 1) → b.getLsbD n = true) →
    ∃ b', trimLoop i zeros b = .ok b' ∧
      ∀ n, n < 256 → b'.getLsbD n =
        if n < 64 * (i + 1) then decide (n < 64 * (i + 1) - zeros) else b.getLsbD n := by
  intro i
  induction i with
  | zero =>
    intro zeros b _ hz hb
    unfold trimLoop
    rw [if_neg (by omega)]
    refine ⟨_, rfl, ?_⟩
    intro n hn
    split
    · rename_i hz2
      rw [BitBlock.getLsbD_setWord _ _ _ _ _ hn (by omega)]
      by_cases h : n < 64
      · simp [h]; omega
      · simp [h]
    · rename_i hz2
      rw [BitBlock.getLsbD_setWord _ _ _ _ _ hn (by omega)]
      by_cases h : n < 64
      · rw [if_pos (by omega), if_pos (by omega), BitVec.getLsbD_ushiftRight,
          BitBlock.getLsbD_word]
        by_cases hk : zeros + (n - 64 * 0) < 64
        · rw [hb _ (by omega)]
          have : n < 64 * (0 + 1) - zeros := by omega
          simp [this]; omega
        · have : ¬ n < 64 * (0 + 1) - zeros := by omega
          simp [this]; omega
      · rw [if_neg (by omega), if_neg (by omega)]
  | succ i ih =>
    intro zeros b hi hz hb
    unfold trimLoop
    by_cases hgt : zeros > 64
    · rw [if_pos hgt]
      simp only []
      have hge : zeros ≥ 64 := by omega
      rw [if_pos hge]
      have hb' : ∀ n, n < 64 * (i + 1) →
          (BitBlock.setWord 64 b (i + 1) 0#64).getLsbD n = true := by
        intro n hn
        rw [BitBlock.getLsbD_setWord _ _ _ _ _ (by omega) (by omega), if_neg (by omega)]
        exact hb n (by omega)
      obtain ⟨b', hok, hbit⟩ := ih (zeros - 64) _ (by omega) (by omega) hb'
      refine ⟨b', hok, ?_⟩
      intro n hn
      rw [hbit n hn]
      by_cases h1 : n < 64 * (i + 1)
      · rw [if_pos h1, if_pos (by omega)]
        congr 1
        apply propext
        omega
      · rw [if_neg h1, BitBlock.getLsbD_setWord _ _ _ _ _ hn (by omega)]
        by_cases h2 : n < 64 * (i + 1 + 1)
        · rw [if_pos (by omega), if_pos h2]
          have : ¬ n < 64 * (i + 1 + 1) - zeros := by omega
          simp [this]
        · rw [if_neg (by omega), if_neg h2]
    · rw [if_neg hgt]
      refine ⟨_, rfl, ?_⟩
      intro n hn
      split
      · rw [BitBlock.getLsbD_setWord _ _ _ _ _ hn (by omega)]
        by_cases h : n < 64 * (i + 1 + 1)
        · rw [if_pos h]
          by_cases h2 : n < 64 * (i + 1)
          · rw [if_neg (by omega), hb n h]
            have : n < 64 * (i + 1 + 1) - zeros := by omega
            simp [this]
          · rw [if_pos (by omega)]
            have : ¬ n < 64 * (i + 1 + 1) - zeros := by omega
            simp [this]
        · rw [if_neg (by omega), if_neg h]
      · rw [BitBlock.getLsbD_setWord _ _ _ _ _ hn (by omega)]
        by_cases h : n < 64 * (i + 1 + 1)
        · rw [if_pos h]
          by_cases h2 : n < 64 * (i + 1)
          · rw [if_neg (by omega), hb n h]
            have : n < 64 * (i + 1 + 1) - zeros := by omega
            simp [this]
          · rw [if_pos (by omega), BitVec.getLsbD_ushiftRight, BitBlock.getLsbD_word]
            by_cases hk : zeros + (n - 64 * (i + 1)) < 64
            · rw [hb _ (by omega)]
              have : n < 64 * (i + 1 + 1) - zeros := by omega
              simp [this]; omega
            · have : ¬ n < 64 * (i + 1 + 1) - zeros := by omega
              simp [this]; omega
        · rw [if_neg (by omega), if_neg h]

theorem bit_replicate (k : Nat) (b : BitBlock) (n : Nat) :
    bit (List.replicate k b) n = (decide (n < k * 256) && b.getLsbD (n % 256)) := by
  unfold bit
  by_cases h : n < k * 256
  · rw [List.getD_eq_getElem?_getD, List.getElem?_replicate_of_lt (by omega)]
    simp [h]
  · rw [List.getD_eq_default _ _ (by simp; omega)]
    simp [h]

/-- Trimming an all-ones array of `⌈n/256⌉` blocks (used by `one_bits` and `alloc_one_bits`). -/
theorem trimLast_ones (n k : Nat) (hk : k = BitBlock.blocksRequiredFor n) (hn : 0 < n) :
    ∃ bs', trimLast n k (List.replicate k BitBlock.ones) = .ok bs' ∧ bs'.length = k ∧
      ∀ i, bit bs' i = decide (i < n) := by
  have hk' : k = (n + 255) / 256 := by rw [hk, BitBlock.blocksRequiredFor_eq]
  obtain ⟨k', rfl⟩ : ∃ k', k = k' + 1 := ⟨k - 1, by omega⟩
  unfold trimLast
  have hlast : (List.replicate (k' + 1) BitBlock.ones).getLast? = some BitBlock.ones := by
    simp [List.getLast?_replicate]
  rw [hlast]
  simp only [BitBlock.nbits]
  obtain ⟨b', hok, hbit⟩ := trimLoop_spec 3 ((k' + 1) * 256 - n) BitBlock.ones (by omega) (by omega)
    (by intro m hm; unfold BitBlock.ones; rw [BitVec.getLsbD_allOnes]; simp; omega)
  have h34 : (256 / 64 - 1) = 3 := by decide
  rw [h34, hok]
  refine ⟨_, rfl, by simp, ?_⟩
  intro i
  rw [bit_set _ _ _ _ (by simp)]
  simp only [List.length_replicate]
  by_cases hi : i / 256 = k'
  · rw [if_pos (by omega), hbit _ (Nat.mod_lt _ (by omega)), if_pos (by omega)]
    congr 1
    apply propext
    omega
  · rw [if_neg (by omega), bit_replicate]
    unfold BitBlock.ones
    rw [BitVec.getLsbD_allOnes]
    have : i % 256 < 256 := Nat.mod_lt _ (by omega)
    simp only [this, decide_true, Bool.and_true]
    congr 1
    apply propext
    omega

theorem oneBits_spec (n : Nat) (hn : 0 < n) :
    ∃ bs, oneBits n = .ok bs ∧ bs.length = (n + 255) / 256 ∧ ∀ i, bit bs i = decide (i < n) := by
  have hk := BitBlock.blocksRequiredFor_eq n
  unfold oneBits oneBlocks
  dsimp only
  rw [if_pos (by omega)]
  simp only [Out.ok_bind]
  obtain ⟨bs, h1, h2, h3⟩ := trimLast_ones n _ rfl hn
  exact ⟨bs, h1, by rw [h2, hk], h3⟩

theorem oneBits_zero : oneBits 0 = .panic := by decide

theorem zeroBits_spec (n : Nat) (hn : 0 < n) :
    ∃ bs, zeroBits n = .ok bs ∧ bs.length = (n + 255) / 256 ∧ ∀ i, bit bs i = false := by
  have hk := BitBlock.blocksRequiredFor_eq n
  unfold zeroBits zeroBlocks
  rw [if_pos (by omega)]
  refine ⟨_, rfl, by simp [hk], ?_⟩
  intro i
  rw [bit_replicate]
  simp [BitBlock.zeros]

end Blocks

/-! ### from_bool_iter -/
namespace BitBlock

theorem fromBoolIterLoop_spec : ∀ (n i : Nat) (bb : BitBlock) (it : List Bool), i + n = 256 →
    ∃ d bb', fromBoolIterLoop n i bb it = .ok (d, bb', it.drop n) ∧
      ∀ k, k < 256 → bb'.getLsbD k =
        if i ≤ k then (it[k - i]?).getD (bb.getLsbD k) else bb.getLsbD k := by
  intro n
  induction n with
  | zero =>
    intro i bb it hi
    refine ⟨false, bb, by simp [fromBoolIterLoop], ?_⟩
    intro k hk
    rw [if_neg (by omega)]
  | succ n ih =>
    intro i bb it hi
    cases it with
    | nil => exact ⟨true, bb, by simp [fromBoolIterLoop], by intro k hk; simp⟩
    | cons v it =>
      unfold fromBoolIterLoop
      rw [setBit_eq _ _ (by omega)]
      simp only [Out.ok_bind]
      obtain ⟨d, bb', h1, h2⟩ := ih (i + 1) (BitBoost.setBit bb i v) it (by omega)
      refine ⟨d, bb', by simpa using h1, ?_⟩
      intro k hk
      rw [h2 k hk, getLsbD_setBit _ _ _ _ hk]
      by_cases h3 : i + 1 ≤ k
      · have hne : ¬ k = i := by omega
        have hile : i ≤ k := by omega
        rw [if_pos h3, if_neg hne, if_pos hile]
        have : k - i = (k - (i + 1)) + 1 := by omega
        rw [this, List.getElem?_cons_succ]
      · rw [if_neg h3]
        by_cases h4 : k = i
        · subst h4; simp
        · rw [if_neg h4, if_neg (by omega)]

theorem fromBoolIter_spec (it : List Bool) :
    ∃ d bb, fromBoolIter it = .ok (d, bb, it.drop 256) ∧
      ∀ k, k < 256 → bb.getLsbD k = (it[k]?).getD false := by
  obtain ⟨d, bb, h1, h2⟩ := fromBoolIterLoop_spec 256 0 zeros it rfl
  refine ⟨d, bb, h1, ?_⟩
  intro k hk
  rw [h2 k hk]
  simp [zeros]

theorem fromIterLoop_spec {w : Nat} (hw : 0 < w) : ∀ (n i : Nat) (bb : BitBlock)
    (it : List (BitVec w)), (i + n) * w = 256 →
    (fromIterLoop w n i bb it).2.2 = it.drop n ∧
      ∀ k, k < 256 → (fromIterLoop w n i bb it).2.1.getLsbD k =
        if i ≤ k / w then ((it[k / w - i]?).map (fun v => v.getLsbD (k % w))).getD (bb.getLsbD k)
        else bb.getLsbD k := by
  intro n
  induction n with
  | zero =>
    intro i bb it hi
    refine ⟨by simp [fromIterLoop], ?_⟩
    intro k hk
    have : ¬ i ≤ k / w := by
      rw [Nat.le_div_iff_mul_le hw]; simp at hi; omega
    rw [if_neg this]; rfl
  | succ n ih =>
    intro i bb it hi
    cases it with
    | nil => exact ⟨by simp [fromIterLoop], by intro k hk; simp [fromIterLoop]⟩
    | cons v it =>
      unfold fromIterLoop
      obtain ⟨h1, h2⟩ := ih (i + 1) (setWord w bb i v) it (by rw [← hi]; congr 1; omega)
      refine ⟨by simpa using h1, ?_⟩
      intro k hk
      have hwle : w ≤ 256 := by
        calc w = 1 * w := by omega
          _ ≤ (i + (n + 1)) * w := Nat.mul_le_mul_right _ (by omega)
          _ = 256 := hi
      rw [h2 k hk, getLsbD_setWord _ _ _ _ _ hk hwle]
      have hdm := Nat.div_add_mod k w
      have hml := Nat.mod_lt k hw
      by_cases h3 : i + 1 ≤ k / w
      · have hge : w * (i + 1) ≤ k := by
          calc w * (i + 1) ≤ w * (k / w) := Nat.mul_le_mul_left _ h3
            _ ≤ k := by omega
        rw [Nat.mul_add, Nat.mul_one] at hge
        have hcond : ¬ (w * i ≤ k ∧ k < w * i + w) := by omega
        have hile : i ≤ k / w := by omega
        rw [if_pos h3, if_neg hcond, if_pos hile]
        have : k / w - i = (k / w - (i + 1)) + 1 := by omega
        rw [this, List.getElem?_cons_succ]
      · rw [if_neg h3]
        by_cases h4 : k / w = i
        · have e : w * (k / w) = w * i := by rw [h4]
          rw [if_pos (by omega), if_pos (by omega)]
          have e1 : k - w * i = k % w := by omega
          have e2 : k / w - i = 0 := by omega
          rw [e1, e2]; simp
        · have : k < w * i := by
            have : k / w < i := by omega
            calc k = w * (k / w) + k % w := by omega
              _ < w * (k / w) + w := by omega
              _ = w * (k / w + 1) := by rw [Nat.mul_add, Nat.mul_one]
              _ ≤ w * i := Nat.mul_le_mul_left _ (by omega)
          rw [if_neg (by omega), if_neg (by omega)]

theorem fromIter_spec {w : Nat} (hw : 0 < w) (hd : w ∣ 256) (it : List (BitVec w)) :
    (fromIter w it).2.2 = it.drop (256 / w) ∧
      ∀ k, k < 256 → (fromIter w it).2.1.getLsbD k =
        ((it[k / w]?).map (fun v => v.getLsbD (k % w))).getD false := by
  obtain ⟨h1, h2⟩ := fromIterLoop_spec hw (256 / w) 0 zeros it
    (by rw [Nat.zero_add]; exact Nat.div_mul_cancel hd)
  refine ⟨h1, ?_⟩
  intro k hk
  unfold fromIter
  rw [h2 k hk]
  simp [zeros]

end BitBlock

namespace Blocks

theorem bit_cons (b : BitBlock) (bs : Blocks) (n : Nat) :
    bit (b :: bs) n = if n < 256 then b.getLsbD n else bit bs (n - 256) := by
  unfold bit
  by_cases h : n < 256
  · rw [if_pos h, Nat.div_eq_of_lt h, Nat.mod_eq_of_lt h]; rfl
  · rw [if_neg h]
    have h1 : n / 256 = (n - 256) / 256 + 1 := by omega
    have h2 : n % 256 = (n - 256) % 256 := by omega
    rw [h1, h2]; rfl

theorem fromBoolIterLoop_spec : ∀ (k : Nat) (it : List Bool),
    ∃ bs, fromBoolIterLoop k it = .ok bs ∧ bs.length = k ∧
      ∀ n, n < k * 256 → bit bs n = (it[n]?).getD false := by
  intro k
  induction k with
  | zero => intro it; exact ⟨[], rfl, rfl, by intro n hn; omega⟩
  | succ k ih =>
    intro it
    obtain ⟨d, bb, h1, h2⟩ := BitBlock.fromBoolIter_spec it
    obtain ⟨bs, h3, h4, h5⟩ := ih (it.drop 256)
    refine ⟨bb :: bs, ?_, by simp [h4], ?_⟩
    · unfold fromBoolIterLoop
      rw [h1]
      simp only [Out.ok_bind]
      rw [h3]
      rfl
    · intro n hn
      rw [bit_cons]
      by_cases h : n < 256
      · rw [if_pos h, h2 n h]
      · rw [if_neg h, h5 _ (by omega), List.getElem?_drop]
        have e : 256 + (n - 256) = n := by omega
        rw [e]

theorem fromIterLoop_spec {w : Nat} (hw : 0 < w) (hd : w ∣ 256) : ∀ (k : Nat)
    (it : List (BitVec w)), (fromIterLoop w k it).length = k ∧
      ∀ n, n < k * 256 → bit (fromIterLoop w k it) n =
        ((it[n / w]?).map (fun v => v.getLsbD (n % w))).getD false := by
  intro k
  induction k with
  | zero => intro it; exact ⟨rfl, by intro n hn; omega⟩
  | succ k ih =>
    intro it
    obtain ⟨h1, h2⟩ := BitBlock.fromIter_spec hw hd it
    obtain ⟨h4, h5⟩ := ih (it.drop (256 / w))
    unfold fromIterLoop
    simp only [h1]
    refine ⟨by simp [h4], ?_⟩
    intro n hn
    rw [bit_cons]
    by_cases h : n < 256
    · rw [if_pos h, h2 n h]
    · rw [if_neg h, h5 _ (by omega), List.getElem?_drop]
      obtain ⟨c, hc⟩ := hd
      have hq : 256 / w = c := by rw [hc]; exact Nat.mul_div_cancel_left c hw
      have e1 : 256 / w + (n - 256) / w = n / w := by
        rw [hq]
        have : n = (n - 256) + w * c := by omega
        conv_rhs => rw [this, Nat.add_mul_div_left _ _ hw]
        omega
      have e2 : (n - 256) % w = n % w := by
        have : n = (n - 256) + w * c := by omega
        conv_rhs => rw [this, Nat.add_mul_mod_self_left]
      rw [e1, e2]

end Blocks
end BitBoost
