import Verif.Model.Bits
import Mathlib.Data.List.GetD
import Mathlib.Tactic.ByContra
/-! Helper lemmas on bits, words and arrays of blocks. -/
namespace BitBoost

theorem one_and_beq {w : Nat} (x : BitVec w) (hw : 0 < w) :
    ((1#w &&& x) == 1#w) = x.getLsbD 0 := by
  have key : (1#w &&& x) = if x.getLsbD 0 then 1#w else 0#w := by
    apply BitVec.eq_of_getLsbD_eq
    intro i hi
    rw [BitVec.getLsbD_and, BitVec.getLsbD_one]
    by_cases hx : x.getLsbD 0 = true
    · simp only [hx, if_true, BitVec.getLsbD_one]
      by_cases h0 : i = 0
      · subst h0; simp [hx]
      · simp [h0]
    · simp only [hx]
      by_cases h0 : i = 0
      · subst h0; simp [hx]
      · simp [h0]
  rw [key]
  have h01 : (0#w == 1#w) = false := by
    rw [beq_eq_false_iff_ne]
    intro h
    have := congrArg (fun v => BitVec.getLsbD v 0) h
    simp [hw] at this
  cases hx : x.getLsbD 0
  · simpa using h01
  · simp

theorem getBit_eq {w : Nat} (bits : BitVec w) {pos : Nat} (h : pos < w) :
    getBit bits pos = bits.getLsbD pos := by
  unfold getBit
  rw [one_and_beq _ (by omega)]
  simp

theorem getLsbD_one_shl {w : Nat} (pos i : Nat) (hi : i < w) :
    (1#w <<< pos).getLsbD i = decide (i = pos) := by
  rw [BitVec.getLsbD_shiftLeft, BitVec.getLsbD_one]
  by_cases h : i = pos
  · subst h; simp [hi]; omega
  · simp only [h, decide_false]
    by_cases h2 : i < pos
    · simp [h2]
    · have : i - pos ≠ 0 := by omega
      simp [this]

theorem getLsbD_enableBit {w : Nat} (bits : BitVec w) (pos i : Nat) (hi : i < w) :
    (enableBit bits pos).getLsbD i = (decide (i = pos) || bits.getLsbD i) := by
  unfold enableBit
  rw [BitVec.getLsbD_or, getLsbD_one_shl _ _ hi, Bool.or_comm]

theorem getLsbD_disableBit {w : Nat} (bits : BitVec w) (pos i : Nat) (hi : i < w) :
    (disableBit bits pos).getLsbD i = (!decide (i = pos) && bits.getLsbD i) := by
  unfold disableBit
  rw [BitVec.getLsbD_and, BitVec.getLsbD_not, getLsbD_one_shl _ _ hi, Bool.and_comm]
  simp [hi]

theorem getLsbD_setBit {w : Nat} (bits : BitVec w) (pos i : Nat) (v : Bool) (hi : i < w) :
    (setBit bits pos v).getLsbD i = if i = pos then v else bits.getLsbD i := by
  unfold setBit
  cases v
  · simp only [Bool.false_eq_true, if_false, getLsbD_disableBit _ _ _ hi]
    by_cases h : i = pos <;> simp [h]
  · simp only [if_true, getLsbD_enableBit _ _ _ hi]
    by_cases h : i = pos <;> simp [h]

/-! ### Blocks -/
namespace BitBlock

theorem getLsbD_word (w : Nat) (b : BitBlock) (i k : Nat) :
    (word w b i).getLsbD k = (decide (k < w) && b.getLsbD (w * i + k)) := by
  unfold word
  rw [BitVec.getLsbD_extractLsb']

theorem getLsbD_setWord (w : Nat) (b : BitBlock) (i : Nat) (v : BitVec w) (n : Nat) (hn : n < 256)
    (_hw : w ≤ 256) :
    (setWord w b i v).getLsbD n =
      if w * i ≤ n ∧ n < w * i + w then v.getLsbD (n - w * i) else b.getLsbD n := by
  unfold setWord
  simp only [BitVec.getLsbD_or, BitVec.getLsbD_and, BitVec.getLsbD_not, BitVec.getLsbD_shiftLeft,
    BitVec.getLsbD_setWidth, BitVec.getLsbD_allOnes, hn, decide_true, Bool.true_and]
  by_cases h1 : w * i ≤ n
  · have h1' : ¬ n < w * i := by omega
    have h3 : n - w * i < 256 := by omega
    by_cases h2 : n < w * i + w
    · have h2' : n - w * i < w := by omega
      simp [h1, h2, h1', h2', h3]
    · have h2' : ¬ n - w * i < w := by omega
      simp [h1, h1', h2, h2']
      intro _ hv
      exact absurd (BitVec.lt_of_getLsbD hv) h2'
  · have h1' : n < w * i := by omega
    simp [h1, h1']

theorem getBit_eq (b : BitBlock) {i : Nat} (h : i < 256) : getBit b i = .ok (b.getLsbD i) := by
  unfold getBit getBlockpos getBitpos
  have h1 : i / 8 < 32 := by omega
  rw [if_pos h1, BitBoost.getBit_eq _ (by omega), getLsbD_word]
  have h2 : i % 8 < 8 := by omega
  have h3 : 8 * (i / 8) + i % 8 = i := by omega
  simp [h2, h3]

theorem getBit_panic (b : BitBlock) {i : Nat} (h : ¬ i < 256) : getBit b i = .panic := by
  unfold getBit getBlockpos
  rw [if_neg (by omega)]

theorem enableBit_eq (b : BitBlock) {i : Nat} (h : i < 256) :
    enableBit b i = .ok (BitBoost.enableBit b i) := by
  unfold enableBit getBlockpos getBitpos
  have h1 : i / 8 < 32 := by omega
  rw [if_pos h1]
  congr 1
  apply BitVec.eq_of_getLsbD_eq
  intro n hn
  rw [getLsbD_setWord _ _ _ _ _ hn (by omega), getLsbD_enableBit _ _ _ hn]
  split
  · rename_i hc
    rw [getLsbD_enableBit _ _ _ (by omega), getLsbD_word]
    have h3 : n - 8 * (i / 8) < 8 := by omega
    have h4 : 8 * (i / 8) + (n - 8 * (i / 8)) = n := by omega
    have h5 : (n - 8 * (i / 8) = i % 8) ↔ n = i := by omega
    simp [h3, h4, h5]
  · rename_i hc
    have : n ≠ i := by omega
    simp [this]

theorem disableBit_eq (b : BitBlock) {i : Nat} (h : i < 256) :
    disableBit b i = .ok (BitBoost.disableBit b i) := by
  unfold disableBit getBlockpos getBitpos
  have h1 : i / 8 < 32 := by omega
  rw [if_pos h1]
  congr 1
  apply BitVec.eq_of_getLsbD_eq
  intro n hn
  rw [getLsbD_setWord _ _ _ _ _ hn (by omega), getLsbD_disableBit _ _ _ hn]
  split
  · rename_i hc
    rw [getLsbD_disableBit _ _ _ (by omega), getLsbD_word]
    have h3 : n - 8 * (i / 8) < 8 := by omega
    have h4 : 8 * (i / 8) + (n - 8 * (i / 8)) = n := by omega
    have h5 : (n - 8 * (i / 8) = i % 8) ↔ n = i := by omega
    simp [h3, h4, h5]
  · rename_i hc
    have : n ≠ i := by omega
    simp [this]

theorem enableBit_panic (b : BitBlock) {i : Nat} (h : ¬ i < 256) : enableBit b i = .panic := by
  unfold enableBit getBlockpos
  rw [if_neg (by omega)]

theorem disableBit_panic (b : BitBlock) {i : Nat} (h : ¬ i < 256) : disableBit b i = .panic := by
  unfold disableBit getBlockpos
  rw [if_neg (by omega)]

theorem setBit_eq (b : BitBlock) {i : Nat} (v : Bool) (h : i < 256) :
    setBit b i v = .ok (BitBoost.setBit b i v) := by
  unfold setBit BitBoost.setBit
  cases v
  · simpa using disableBit_eq b h
  · simpa using enableBit_eq b h

theorem setBit_panic (b : BitBlock) {i : Nat} (v : Bool) (h : ¬ i < 256) :
    setBit b i v = .panic := by
  unfold setBit
  cases v
  · simpa using disableBit_panic b h
  · simpa using enableBit_panic b h

theorem blocksRequiredFor_eq (n : Nat) : blocksRequiredFor n = (n + 255) / 256 := by
  unfold blocksRequiredFor nbits
  by_cases h : n % 256 = 0
  · simp [h]; omega
  · simp [h]; omega

end BitBlock

/-! ### Arrays of blocks -/
namespace Blocks

/-- Bit `n` of an array of blocks (false past the end). -/
def bit (bs : Blocks) (n : Nat) : Bool := (bs.getD (n / 256) 0#256).getLsbD (n % 256)

theorem bit_of_ge (bs : Blocks) {n : Nat} (h : bs.length * 256 ≤ n) : bit bs n = false := by
  unfold bit
  rw [List.getD_eq_default _ _ (by omega)]
  simp

theorem lt_of_bit {bs : Blocks} {n : Nat} (h : bit bs n = true) : n < bs.length * 256 := by
  by_contra hc
  rw [bit_of_ge bs (by omega)] at h
  exact absurd h (by simp)

theorem getBit_eq (bs : Blocks) (n : Nat) :
    getBit bs n = if n < bs.length * 256 then .ok (bit bs n) else .panic := by
  unfold getBit BitBlock.nbits
  split
  · rename_i b hb
    obtain ⟨hlt, hget⟩ := List.getElem?_eq_some_iff.mp hb
    rw [BitBlock.getBit_eq _ (by omega), if_pos (by omega)]
    unfold bit
    rw [List.getD_eq_getElem?_getD, hb]
    rfl
  · rename_i hb
    rw [List.getElem?_eq_none_iff] at hb
    rw [if_neg (by omega)]

theorem length_modify (bs : Blocks) (i : Nat) (f : BitBlock → BitBlock) :
    (List.modify bs i f).length = bs.length := by simp

theorem bit_modify (bs : Blocks) (i : Nat) (f : BitBlock → BitBlock) (n : Nat)
    (hn : n < bs.length * 256) :
    bit (List.modify bs i f) n =
      if n / 256 = i then (f (bs.getD i 0#256)).getLsbD (n % 256) else bit bs n := by
  unfold bit
  have hlt : n / 256 < bs.length := by omega
  simp only [List.getD_eq_getElem?_getD, List.getElem?_modify]
  by_cases h : i = n / 256
  · subst h
    simp [List.getElem?_eq_getElem hlt]
  · have h' : ¬ n / 256 = i := fun e => h e.symm
    simp [h, h']

theorem bit_set (bs : Blocks) (i : Nat) (b : BitBlock) (n : Nat) (hi : i < bs.length) :
    bit (List.set bs i b) n = if n / 256 = i then b.getLsbD (n % 256) else bit bs n := by
  unfold bit
  simp only [List.getD_eq_getElem?_getD, List.getElem?_set]
  by_cases h : i = n / 256
  · subst h
    simp [hi]
  · have h' : ¬ n / 256 = i := fun e => h e.symm
    simp [h, h']

theorem ext_bit {as bs : Blocks} (hl : as.length = bs.length)
    (h : ∀ n, n < as.length * 256 → bit as n = bit bs n) : as = bs := by
  apply List.ext_getElem hl
  intro i h1 h2
  apply BitVec.eq_of_getLsbD_eq
  intro k hk
  have := h (256 * i + k) (by omega)
  unfold bit at this
  have e1 : (256 * i + k) / 256 = i := by omega
  have e2 : (256 * i + k) % 256 = k := by omega
  rw [e1, e2] at this
  simpa [List.getD_eq_getElem?_getD, List.getElem?_eq_getElem h1,
    List.getElem?_eq_getElem h2] using this

/-- Sizes of integers that tile a block. -/
theorem div_mod_word {w i : Nat} (hw : 0 < w) (hd : w ∣ 256) {k : Nat} (hk : k < w) :
    (w * i + k) / 256 = i / (256 / w) ∧ (w * i + k) % 256 = w * (i % (256 / w)) + k := by
  obtain ⟨c, hc⟩ := hd
  have hc0 : 0 < c := by
    rcases Nat.eq_zero_or_pos c with h | h
    · subst h; omega
    · exact h
  have hq : 256 / w = c := by rw [hc]; exact Nat.mul_div_cancel_left c hw
  rw [hq, hc]
  have hmod : i % c < c := Nat.mod_lt _ hc0
  have hlt : w * (i % c) + k < w * c := by
    calc w * (i % c) + k < w * (i % c) + w := by omega
      _ = w * (i % c + 1) := by rw [Nat.mul_add, Nat.mul_one]
      _ ≤ w * c := Nat.mul_le_mul_left _ (by omega)
  have hdecomp : w * i + k = w * (i % c) + k + (w * c) * (i / c) := by
    have := Nat.mod_add_div i c
    calc w * i + k = w * (i % c + c * (i / c)) + k := by rw [this]
      _ = w * (i % c) + k + (w * c) * (i / c) := by rw [Nat.mul_add, Nat.mul_assoc]; omega
  rw [hdecomp]
  constructor
  · rw [Nat.add_mul_div_left _ _ (by omega), Nat.div_eq_of_lt hlt, Nat.zero_add]
  · rw [Nat.add_mul_mod_self_left, Nat.mod_eq_of_lt hlt]

theorem getLsbD_word {w : Nat} (hw : 0 < w) (hd : w ∣ 256) (bs : Blocks) (i : Nat) {k : Nat}
    (hk : k < w) : (word w bs i).getLsbD k = bit bs (w * i + k) := by
  unfold word bit
  rw [BitBlock.getLsbD_word]
  obtain ⟨h1, h2⟩ := div_mod_word (i := i) hw hd hk
  rw [h1, h2]
  simp [hk]

theorem lt_blockLen_iff {w : Nat} (hw : 0 < w) (hd : w ∣ 256) (bs : Blocks) (i : Nat) :
    i < blockLen w bs ↔ w * i < bs.length * 256 := by
  unfold blockLen
  obtain ⟨c, hc⟩ := hd
  have hq : 256 / w = c := by rw [hc]; exact Nat.mul_div_cancel_left c hw
  rw [hq]
  have : bs.length * 256 = w * (bs.length * c) := by rw [hc]; ac_rfl
  rw [this]
  exact (Nat.mul_lt_mul_left hw).symm

theorem blockLen_mul {w : Nat} (hw : 0 < w) (hd : w ∣ 256) (bs : Blocks) :
    w * blockLen w bs = bs.length * 256 := by
  unfold blockLen
  obtain ⟨c, hc⟩ := hd
  have hq : 256 / w = c := by rw [hc]; exact Nat.mul_div_cancel_left c hw
  rw [hq, hc]; ac_rfl

theorem bit_setWord {w : Nat} (hw : 0 < w) (hd : w ∣ 256) (bs : Blocks) (i : Nat) (v : BitVec w)
    (n : Nat) (hn : n < bs.length * 256) :
    bit (setWord w bs i v) n =
      if w * i ≤ n ∧ n < w * i + w then v.getLsbD (n - w * i) else bit bs n := by
  unfold setWord
  rw [bit_modify _ _ _ _ hn]
  have hwle : w ≤ 256 := Nat.le_of_dvd (by omega) hd
  by_cases hc : w * i ≤ n ∧ n < w * i + w
  · obtain ⟨k, rfl⟩ : ∃ k, n = w * i + k := ⟨n - w * i, by omega⟩
    have hk : k < w := by omega
    obtain ⟨h1, h2⟩ := div_mod_word (i := i) hw hd hk
    rw [if_pos h1, if_pos hc, h2,
      BitBlock.getLsbD_setWord _ _ _ _ _ (by rw [← h2]; exact Nat.mod_lt _ (by omega)) hwle,
      if_pos (by omega)]
    congr 1; omega
  · rw [if_neg hc]
    by_cases he : n / 256 = i / (256 / w)
    · rw [if_pos he, BitBlock.getLsbD_setWord _ _ _ _ _ (Nat.mod_lt _ (by omega)) hwle]
      have hz := div_mod_word (i := i) (k := 0) hw hd hw
      rw [if_neg]
      · unfold bit; rw [he]
      · have h1 := Nat.div_add_mod n 256
        have h2 := Nat.div_add_mod (w * i) 256
        have hz1 : w * i / 256 = i / (256 / w) := by simpa using hz.1
        have hz2 : w * i % 256 = w * (i % (256 / w)) := by simpa using hz.2
        rw [hz1, hz2] at h2
        rw [he] at h1
        omega
    · rw [if_neg he]

theorem length_setWord (w : Nat) (bs : Blocks) (i : Nat) (v : BitVec w) :
    (setWord w bs i v).length = bs.length := by
  unfold setWord; simp

theorem setBit_eq (bs : Blocks) (i : Nat) (v : Bool) (h : i < bs.length * 256) :
    ∃ bs', setBit bs i v = .ok bs' ∧ bs'.length = bs.length ∧
      ∀ n, bit bs' n = if n = i then v else bit bs n := by
  have hi : i / 256 < bs.length := by omega
  unfold setBit BitBlock.nbits
  rw [List.getElem?_eq_getElem hi]
  simp only [BitBlock.setBit_eq _ v (Nat.mod_lt i (by omega : 0 < 256)), Out.ok_bind, Out.pure_eq]
  refine ⟨_, rfl, by simp, ?_⟩
  intro n
  rw [bit_set _ _ _ _ hi, getLsbD_setBit _ _ _ _ (Nat.mod_lt _ (by omega))]
  by_cases hd : n / 256 = i / 256
  · rw [if_pos hd]
    have : n % 256 = i % 256 ↔ n = i := by omega
    simp only [this]
    split
    · rfl
    · unfold bit; rw [hd, List.getD_eq_getElem?_getD, List.getElem?_eq_getElem hi]; rfl
  · rw [if_neg hd, if_neg (by omega)]

theorem setBit_panic (bs : Blocks) (i : Nat) (v : Bool) (h : ¬ i < bs.length * 256) :
    setBit bs i v = .panic := by
  unfold setBit BitBlock.nbits
  rw [List.getElem?_eq_none_iff.mpr (by omega)]

theorem enableBit_eq_setBit (bs : Blocks) (i : Nat) : enableBit bs i = setBit bs i true := by
  unfold enableBit setBit BitBlock.setBit; rfl

end Blocks
end BitBoost
