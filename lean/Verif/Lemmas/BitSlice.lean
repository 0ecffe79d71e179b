import Verif.Spec.Slice
import Verif.Lemmas.Popcount
/-! Helper lemmas on bit slices. -/
namespace BitBoost
open Finset
namespace BitSlice

/-- Flat position of bit `k` of value `v`. -/
def fpos (w v k : Nat) : Nat := 256 * (v / (256 / w)) + k * (256 / w) + v % (256 / w)

theorem flat_pos {w : Nat} (hw : validWidth w) (v k : Nat) :
    32 * lanePos w (v / 32) k + v % 32 = fpos w v k := by
  unfold lanePos blockposU32 getIndices superblockWidth fpos
  rcases hw with rfl | rfl | rfl | rfl <;> simp only [] <;> omega

theorem lanePos_div {w : Nat} (hw : validWidth w) (v k : Nat) :
    lanePos w (v / 32) k = fpos w v k / 32 := by
  have := flat_pos hw v k
  omega

theorem fpos_lt {w : Nat} (hw : validWidth w) {v k : Nat} (hk : k < w) (n : Nat) :
    fpos w v k < n * 256 ↔ v < n * (256 / w) := by
  unfold fpos
  rcases hw with rfl | rfl | rfl | rfl <;> omega

theorem fpos_inj {w : Nat} (hw : validWidth w) {v v' k k' : Nat} (hk : k < w) (hk' : k' < w)
    (h : fpos w v k = fpos w v' k') : v = v' ∧ k = k' := by
  unfold fpos at h
  rcases hw with rfl | rfl | rfl | rfl <;> omega

theorem get32 (bs : Blocks) (i : Nat) :
    Blocks.get 32 bs i = if 32 * i < bs.length * 256 then .ok (Blocks.word 32 bs i) else .panic := by
  unfold Blocks.get
  have := Blocks.lt_blockLen_iff (w := 32) (by omega) (by omega) bs i
  simp only [this]

theorem lane_in_range {w : Nat} (hw : validWidth w) (bs : Blocks) {v k : Nat} (hk : k < w) :
    lanePos w (v / 32) k < Blocks.blockLen 32 bs ↔ v < bs.length * (256 / w) := by
  rw [Blocks.lt_blockLen_iff (by omega) (by omega), ← fpos_lt hw hk, ← flat_pos hw]
  omega

theorem getLoop_spec {w : Nat} (hw : validWidth w) (bs : Blocks) (v : Nat)
    (hv : v < bs.length * (256 / w)) : ∀ (n k : Nat) (res : BitVec 8), k + n = w →
    ∃ x, getLoop w bs (v / 32) (v % 32) n k res = .ok x ∧
      ∀ j, j < 8 → x.getLsbD j =
        if k ≤ j ∧ j < w then Blocks.bit bs (fpos w v j) else res.getLsbD j := by
  have hw8 : w ≤ 8 := by rcases hw with rfl | rfl | rfl | rfl <;> omega
  intro n
  induction n with
  | zero =>
    intro k res hk
    refine ⟨res, rfl, ?_⟩
    intro j hj
    rw [if_neg (by omega)]
  | succ n ih =>
    intro k res hk
    obtain ⟨x, h1, h2⟩ := ih (k + 1) (setBit res k (getBit (Blocks.word 32 bs (lanePos w (v / 32) k))
      (v % 32))) (by omega)
    refine ⟨x, ?_, ?_⟩
    · rw [getLoop, getBlock, Blocks.get, if_pos ((lane_in_range hw bs (by omega)).mpr hv),
        Out.ok_bind, h1]
    · intro j hj
      rw [h2 j hj]
      by_cases hjk : j = k
      · subst hjk
        rw [if_neg (by omega), if_pos (by omega), getLsbD_setBit _ _ _ _ (by omega), if_pos rfl,
          getBit_eq _ (by omega), Blocks.getLsbD_word (by omega) (by omega) _ _ (by omega),
          flat_pos hw]
      · rw [getLsbD_setBit _ _ _ _ (by omega), if_neg hjk]
        by_cases hc : k ≤ j ∧ j < w
        · rw [if_pos (by omega), if_pos hc]
        · rw [if_neg (by omega), if_neg hc]

theorem getValue_spec {w : Nat} (hw : validWidth w) (bs : Blocks) (v : Nat)
    (hv : v < bs.length * (256 / w)) :
    ∃ x, getValue w bs v = .ok x ∧
      ∀ j, x.getLsbD j = (decide (j < w) && Blocks.bit bs (fpos w v j)) := by
  have hw8 : w ≤ 8 := by rcases hw with rfl | rfl | rfl | rfl <;> omega
  obtain ⟨x, h1, h2⟩ := getLoop_spec hw bs v hv w 0 0#8 (by omega)
  refine ⟨x, h1, ?_⟩
  intro j
  by_cases hj : j < 8
  · rw [h2 j hj]
    by_cases hjw : j < w <;> simp [hjw]
  · have : ¬ j < w := by omega
    simp [this]
    exact BitVec.getLsbD_of_ge _ _ (by omega)

theorem getValue_panic {w : Nat} (hw : validWidth w) (bs : Blocks) (v : Nat)
    (hv : ¬ v < bs.length * (256 / w)) : getValue w bs v = .panic := by
  obtain ⟨w', rfl⟩ : ∃ w', w = w' + 1 := ⟨w - 1, by rcases hw with rfl | rfl | rfl | rfl <;> rfl⟩
  unfold getValue
  rw [getLoop, getBlock, Blocks.get, if_neg]
  · rfl
  · exact fun h => hv ((lane_in_range hw bs (by omega)).mp h)

theorem set_ok {w : Nat} (hw : validWidth w) (bs : Blocks) (v k : Nat) (hk : k < w)
    (hv : v < bs.length * (256 / w)) (x : BitVec 32) :
    Blocks.set 32 bs (lanePos w (v / 32) k) x =
      .ok (Blocks.setWord 32 bs (lanePos w (v / 32) k) x) := by
  rw [Blocks.set, if_pos ((lane_in_range hw bs hk).mpr hv)]

theorem setLoop_spec {w : Nat} (hw : validWidth w) (v : Nat) (value : BitVec 8) :
    ∀ (n k : Nat) (bs : Blocks), k + n = w → v < bs.length * (256 / w) →
    ∃ bs', setLoop w (v / 32) (v % 32) value n k bs = .ok bs' ∧ bs'.length = bs.length ∧
      (∀ j, k ≤ j → j < w → Blocks.bit bs' (fpos w v j) = value.getLsbD j) ∧
      (∀ p, p < bs.length * 256 → (∀ j, k ≤ j → j < w → p ≠ fpos w v j) →
        Blocks.bit bs' p = Blocks.bit bs p) := by
  have hw8 : w ≤ 8 := by rcases hw with rfl | rfl | rfl | rfl <;> omega
  intro n
  induction n with
  | zero =>
    intro k bs hk hv
    refine ⟨bs, rfl, rfl, ?_, ?_⟩
    · intro j h1 h2; omega
    · intro p hp _; rfl
  | succ n ih =>
    intro k bs hk hv
    have hkw : k < w := by omega
    let nb := setBit (Blocks.word 32 bs (lanePos w (v / 32) k)) (v % 32) (getBit value k)
    let bs1 := Blocks.setWord 32 bs (lanePos w (v / 32) k) nb
    have hl1 : bs1.length = bs.length := Blocks.length_setWord _ _ _ _
    obtain ⟨bs', h1, h2, h3, h4⟩ := ih (k + 1) bs1 (by omega) (by rw [hl1]; exact hv)
    have hbit1 : ∀ p, p < bs.length * 256 →
        Blocks.bit bs1 p = if p = fpos w v k then value.getLsbD k else Blocks.bit bs p := by
      intro p hp
      have hf := flat_pos hw v k
      show Blocks.bit (Blocks.setWord 32 bs _ _) p = _
      rw [Blocks.bit_setWord (by omega) (by omega) _ _ _ _ hp]
      split
      · rename_i hc
        rw [getLsbD_setBit _ _ _ _ (by omega), getBit_eq _ (by omega)]
        by_cases hpe : p = fpos w v k
        · rw [if_pos hpe, if_pos (by omega)]
        · rw [if_neg hpe, if_neg (by omega),
            Blocks.getLsbD_word (by omega) (by omega) _ _ (by omega)]
          congr 1; omega
      · rename_i hc
        rw [if_neg (by omega)]
    refine ⟨bs', ?_, by omega, ?_, ?_⟩
    · rw [setLoop, getBlock, Blocks.get, if_pos ((lane_in_range hw bs hkw).mpr hv), Out.ok_bind,
        set_ok hw bs v k hkw hv, Out.ok_bind]
      exact h1
    · intro j hj1 hj2
      by_cases hjk : j = k
      · subst hjk
        have hp : fpos w v j < bs.length * 256 := (fpos_lt hw hj2 _).mpr hv
        rw [h4 _ (by rw [hl1]; exact hp), hbit1 _ hp, if_pos rfl]
        intro j' hj1' hj2' he
        have := (fpos_inj hw hj2 hj2' he).2
        omega
      · exact h3 j (by omega) hj2
    · intro p hp hne
      rw [h4 p (by rw [hl1]; exact hp) (fun j h1 h2 => hne j (by omega) h2), hbit1 p hp,
        if_neg (hne k (Nat.le_refl _) hkw)]

theorem setValue_spec {w : Nat} (hw : validWidth w) (bs : Blocks) (v : Nat) (value : BitVec 8)
    (hv : v < bs.length * (256 / w)) :
    ∃ bs', setValue w bs v value = .ok bs' ∧ bs'.length = bs.length ∧
      ∀ v' k, k < w → v' < bs.length * (256 / w) →
        Blocks.bit bs' (fpos w v' k) =
          if v' = v then value.getLsbD k else Blocks.bit bs (fpos w v' k) := by
  obtain ⟨bs', h1, h2, h3, h4⟩ := setLoop_spec hw v value w 0 bs (by omega) hv
  refine ⟨bs', h1, h2, ?_⟩
  intro v' k hk hv'
  by_cases he : v' = v
  · subst he; rw [if_pos rfl]; exact h3 k (by omega) hk
  · rw [if_neg he]
    exact h4 _ ((fpos_lt hw hk _).mpr hv') fun j _ hj e => he (fpos_inj hw hk hj e).1

theorem setValue_panic {w : Nat} (hw : validWidth w) (bs : Blocks) (v : Nat) (x : BitVec 8)
    (hv : ¬ v < bs.length * (256 / w)) : setValue w bs v x = .panic := by
  obtain ⟨w', rfl⟩ : ∃ w', w = w' + 1 := ⟨w - 1, by rcases hw with rfl | rfl | rfl | rfl <;> rfl⟩
  unfold setValue
  rw [setLoop, getBlock, Blocks.get, if_neg]
  · rfl
  · exact fun h => hv ((lane_in_range hw bs (by omega)).mp h)

/-- Values as numbers. -/
theorem toNat_eq_sum : ∀ (w : Nat) (x : BitVec w),
    x.toNat = ∑ k ∈ range w, 2 ^ k * (x.getLsbD k).toNat := by
  intro w x
  have key : ∀ (n m : Nat), (m % 2 ^ n) = ∑ k ∈ range n, 2 ^ k * (m.testBit k).toNat := by
    intro n
    induction n with
    | zero => intro m; simp [Nat.mod_one]
    | succ n ih =>
      intro m
      rw [Finset.sum_range_succ, ← ih m]
      rw [Nat.mod_pow_succ, Nat.testBit_eq_decide_div_mod_eq]
      congr 2
      have : m / 2 ^ n % 2 = 0 ∨ m / 2 ^ n % 2 = 1 := by omega
      rcases this with h | h <;> simp [h]
  have := key w x.toNat
  rw [Nat.mod_eq_of_lt x.isLt] at this
  rw [this]
  rfl

theorem valueAt_eq {w : Nat} (hw : validWidth w) (bs : Blocks) (v : Nat)
    (hv : v < bs.length * (256 / w)) :
    Spec.valueAt w bs v = ∑ k ∈ range w, 2 ^ k * (Blocks.bit bs (fpos w v k)).toNat := by
  have hw8 : w ≤ 8 := by rcases hw with rfl | rfl | rfl | rfl <;> omega
  obtain ⟨x, h1, h2⟩ := getValue_spec hw bs v hv
  unfold Spec.valueAt
  rw [h1]
  simp only
  rw [toNat_eq_sum]
  symm
  apply Finset.sum_subset_zero_on_sdiff (Finset.range_subset_range.mpr hw8)
  · intro k hk
    simp only [mem_sdiff, mem_range] at hk
    rw [h2]; simp [hk.2]
  · intro k hk
    rw [h2]; simp [mem_range.mp hk]

theorem bitAt_eq (bs : Blocks) (i : Nat) : Spec.bitAt bs i = Blocks.bit bs i := by
  unfold Spec.bitAt
  rw [Blocks.getBit_eq]
  by_cases h : i < bs.length * 256
  · simp [h]
  · simp [h, Blocks.bit_of_ge bs (by omega : bs.length * 256 ≤ i)]

theorem lanePos_mul {w : Nat} (hw : validWidth w) (b t k : Nat) (ht : t < 32) :
    32 * lanePos w b k + t = fpos w (32 * b + t) k := by
  rw [← flat_pos hw]
  have h1 : (32 * b + t) / 32 = b := by omega
  have h2 : (32 * b + t) % 32 = t := by omega
  rw [h1, h2]

theorem lanePos_range {w : Nat} (hw : validWidth w) (bs : Blocks) {b k : Nat} (hk : k < w) :
    lanePos w b k < Blocks.blockLen 32 bs ↔ b < Blocks.blockLen 32 bs / w := by
  unfold lanePos blockposU32 getIndices superblockWidth Blocks.blockLen
  rcases hw with rfl | rfl | rfl | rfl <;> simp only [] <;> omega

theorem block_slots {w : Nat} (hw : validWidth w) (bs : Blocks) {b : Nat} :
    b < Blocks.blockLen 32 bs / w ↔ 32 * b + 31 < bs.length * (256 / w) := by
  unfold Blocks.blockLen
  rcases hw with rfl | rfl | rfl | rfl <;> omega

theorem copyLoop_spec {w : Nat} (hw : validWidth w) (other : Blocks) (f t : Nat)
    (hf : f < Blocks.blockLen 32 other / w) :
    ∀ (n k : Nat) (bs : Blocks), k + n = w → t < Blocks.blockLen 32 bs / w →
    ∃ bs', copyLoop w other f t n k bs = .ok bs' ∧ bs'.length = bs.length ∧
      (∀ j b, k ≤ j → j < w → b < 32 →
        Blocks.bit bs' (fpos w (32 * t + b) j) = Blocks.bit other (fpos w (32 * f + b) j)) ∧
      (∀ p, p < bs.length * 256 → (∀ j b, k ≤ j → j < w → b < 32 → p ≠ fpos w (32 * t + b) j) →
        Blocks.bit bs' p = Blocks.bit bs p) := by
  intro n
  induction n with
  | zero =>
    intro k bs hk hv
    refine ⟨bs, rfl, rfl, ?_, ?_⟩
    · intro j b h1 h2; omega
    · intro p hp _; rfl
  | succ n ih =>
    intro k bs hk ht
    have hkw : k < w := by omega
    let nb := Blocks.word 32 other (lanePos w f k)
    let bs1 := Blocks.setWord 32 bs (lanePos w t k) nb
    have hl1 : bs1.length = bs.length := Blocks.length_setWord _ _ _ _
    obtain ⟨bs', h1, h2, h3, h4⟩ := ih (k + 1) bs1 (by omega)
      (by unfold Blocks.blockLen at ht ⊢; rw [hl1]; exact ht)
    have hin : ∀ b, b < 32 → fpos w (32 * t + b) k < bs.length * 256 := by
      intro b hb
      rw [fpos_lt hw hkw]
      have := (block_slots hw bs).mp ht
      omega
    refine ⟨bs', ?_, by omega, ?_, ?_⟩
    · rw [copyLoop, Blocks.getUnchecked, if_pos ((lanePos_range hw other hkw).mpr hf), Out.ok_bind,
        Blocks.setUnchecked, if_pos ((lanePos_range hw bs hkw).mpr ht), Out.ok_bind]
      exact h1
    · intro j b hj1 hj2 hb
      by_cases hjk : j = k
      · subst hjk
        have hp := hin b hb
        rw [h4 _ (by rw [hl1]; exact hp)]
        · show Blocks.bit (Blocks.setWord 32 bs _ _) _ = _
          have e := lanePos_mul hw t b j hb
          rw [Blocks.bit_setWord (by omega) (by omega) _ _ _ _ hp, if_pos (by omega),
            Blocks.getLsbD_word (by omega) (by omega) _ _ (by omega)]
          congr 1
          rw [← lanePos_mul hw f b j hb]
          omega
        · intro j' b' hj1' hj2' hb' he
          have := (fpos_inj hw hj2 hj2' he).2
          omega
      · exact h3 j b (by omega) hj2 hb
    · intro p hp hne
      rw [h4 p (by rw [hl1]; exact hp) (fun j b h1 h2 => hne j b (by omega) h2)]
      show Blocks.bit (Blocks.setWord 32 bs _ _) _ = _
      rw [Blocks.bit_setWord (by omega) (by omega) _ _ _ _ hp, if_neg]
      intro hc
      refine hne k (p - 32 * lanePos w t k) (Nat.le_refl _) hkw (by omega) ?_
      rw [← lanePos_mul hw _ _ _ (by omega)]
      omega

theorem sumLoop_spec {w : Nat} (hw : validWidth w) (bs : Blocks) (b : Nat) (mask : BitVec 32)
    (hb : b < Blocks.blockLen 32 bs / w) : ∀ (n k s : Nat), k + n = w →
    sumLoop w bs b mask n k s = .ok (s + ∑ j ∈ Ico k w, 2 ^ j *
      ∑ t ∈ range 32, (Blocks.bit bs (fpos w (32 * b + t) j) && mask.getLsbD t).toNat) := by
  intro n
  induction n with
  | zero =>
    intro k s hk
    have : k = w := by omega
    subst this
    simp [sumLoop]
  | succ n ih =>
    intro k s hk
    rw [sumLoop, Blocks.getUnchecked, if_pos ((lanePos_range hw bs (by omega)).mpr hb), Out.ok_bind,
      ih (k + 1) _ (by omega), Finset.sum_eq_sum_Ico_succ_bot (by omega : k < w)]
    have hp : BitBlock.popcount (Blocks.word 32 bs (lanePos w b k) &&& mask) =
        ∑ t ∈ range 32, (Blocks.bit bs (fpos w (32 * b + t) k) && mask.getLsbD t).toNat := by
      rw [BitBlock.popcount_eq_sum]
      apply Finset.sum_congr rfl
      intro t ht
      have ht' := mem_range.mp ht
      rw [BitVec.getLsbD_and, Blocks.getLsbD_word (by omega) (by omega) _ _ ht',
        lanePos_mul hw _ _ _ ht']
    rw [hp, Nat.mul_comm _ (2 ^ k), Nat.add_assoc]

end BitSlice
end BitBoost
