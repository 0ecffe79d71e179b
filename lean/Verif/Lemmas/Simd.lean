import Verif.Model.Simd
import Verif.Lemmas.BitSlice
import Mathlib.Algebra.BigOperators.Ring.Finset
/-! Helper lemmas: lane-wise registers, carry-save adders, the Harley-Seal loop. -/
namespace BitBoost
open Finset
namespace Simd

theorem getLsbD_ofWords {lw : Nat} (hl : 0 < lw) (hd : lw ∣ 256) (f : Nat → BitVec lw) (n : Nat)
    (hn : n < 256) : (ofWords lw f).getLsbD n = (f (n / lw)).getLsbD (n % lw) := by
  have hle : lw ≤ 256 := Nat.le_of_dvd (by omega) hd
  have key : ∀ m, ((List.range m).foldl (fun b i => BitBlock.setWord lw b i (f i)) 0#256).getLsbD n
      = if n < lw * m then (f (n / lw)).getLsbD (n % lw) else false := by
    intro m
    induction m with
    | zero => simp
    | succ m ih =>
      rw [List.range_succ, List.foldl_append]
      simp only [List.foldl_cons, List.foldl_nil]
      rw [BitBlock.getLsbD_setWord _ _ _ _ _ hn hle, ih, Nat.mul_succ]
      by_cases hc : lw * m ≤ n ∧ n < lw * m + lw
      · rw [if_pos hc, if_pos (by omega)]
        have h1 : n / lw = m := by
          rw [Nat.div_eq_iff hl]
          have : m * lw = lw * m := Nat.mul_comm _ _
          omega
        have h2 : n - lw * m = n % lw := by
          have := Nat.div_add_mod n lw
          rw [h1] at this
          omega
        rw [h1, h2]
      · rw [if_neg hc]
        by_cases h2 : n < lw * m
        · rw [if_pos h2, if_pos (by omega)]
        · rw [if_neg h2, if_neg (by omega)]
  unfold ofWords
  rw [key, if_pos]
  rw [Nat.mul_div_cancel' hd]
  exact hn

theorem word_ofWords {lw : Nat} (hl : 0 < lw) (hd : lw ∣ 256) (f : Nat → BitVec lw) {i : Nat}
    (hi : i < 256 / lw) : BitBlock.word lw (ofWords lw f) i = f i := by
  have hb : lw * i + lw ≤ 256 := by
    calc lw * i + lw = lw * (i + 1) := by rw [Nat.mul_succ]
      _ ≤ lw * (256 / lw) := Nat.mul_le_mul_left _ hi
      _ = 256 := Nat.mul_div_cancel' hd
  apply BitVec.eq_of_getLsbD_eq
  intro k hk
  rw [BitBlock.getLsbD_word, getLsbD_ofWords hl hd _ _ (by omega)]
  have h1 : (lw * i + k) / lw = i := by
    rw [Nat.mul_add_div hl, Nat.div_eq_of_lt hk, Nat.add_zero]
  have h2 : (lw * i + k) % lw = k := by
    rw [Nat.mul_add_mod, Nat.mod_eq_of_lt hk]
  rw [h1, h2]
  simp [hk]

/-- Population count of a lane. -/
def P (lw lane : Nat) (v : M256) : Nat := BitBlock.popcount (BitBlock.word lw v lane)

theorem P_le (lw lane : Nat) (v : M256) : P lw lane v ≤ lw := BitBlock.popcount_le _

theorem P_zero (lw lane : Nat) : P lw lane 0#256 = 0 := by
  unfold P
  rw [BitBlock.popcount_word]
  simp

theorem csa_bit (a b c : M256) (i : Nat) :
    2 * ((csa a b c).1.getLsbD i).toNat + ((csa a b c).2.getLsbD i).toNat =
      (a.getLsbD i).toNat + (b.getLsbD i).toNat + (c.getLsbD i).toNat := by
  unfold csa
  simp only [BitVec.getLsbD_or, BitVec.getLsbD_and, BitVec.getLsbD_xor]
  cases a.getLsbD i <;> cases b.getLsbD i <;> cases c.getLsbD i <;> rfl

theorem csa_P (lw lane : Nat) (a b c : M256) :
    2 * P lw lane (csa a b c).1 + P lw lane (csa a b c).2 =
      P lw lane a + P lw lane b + P lw lane c := by
  unfold P
  simp only [BitBlock.popcount_word]
  rw [Finset.mul_sum, ← Finset.sum_add_distrib, ← Finset.sum_add_distrib, ← Finset.sum_add_distrib]
  apply Finset.sum_congr rfl
  intro k _
  exact csa_bit a b c _

theorem word_count {lw : Nat} (hl : 0 < lw) (hd : lw ∣ 256) (v : M256) {lane : Nat}
    (hi : lane < 256 / lw) :
    BitBlock.word lw (countOnesEpi lw v) lane = BitVec.ofNat lw (P lw lane v) := by
  unfold countOnesEpi; rw [word_ofWords hl hd _ hi]; rfl

theorem word_add {lw : Nat} (hl : 0 < lw) (hd : lw ∣ 256) (a b : M256) {lane : Nat}
    (hi : lane < 256 / lw) :
    BitBlock.word lw (addEpi lw a b) lane = BitBlock.word lw a lane + BitBlock.word lw b lane := by
  unfold addEpi; rw [word_ofWords hl hd _ hi]

theorem word_slli {lw : Nat} (hl : 0 < lw) (hd : lw ∣ 256) (a : M256) (k : Nat) {lane : Nat}
    (hi : lane < 256 / lw) :
    BitBlock.word lw (slliEpi lw a k) lane = BitBlock.word lw a lane <<< k := by
  unfold slliEpi; rw [word_ofWords hl hd _ hi]

theorem ofNat_shl (lw x k : Nat) : BitVec.ofNat lw x <<< k = BitVec.ofNat lw (2 ^ k * x) := by
  apply BitVec.eq_of_toNat_eq
  rw [BitVec.toNat_shiftLeft, BitVec.toNat_ofNat, BitVec.toNat_ofNat, Nat.shiftLeft_eq,
    Nat.mod_mul_mod, Nat.mul_comm]

theorem word64_toNat (v : M256) {m : Nat} :
    (BitBlock.word 64 v m).toNat =
      (BitBlock.word 32 v (2 * m)).toNat + 2 ^ 32 * (BitBlock.word 32 v (2 * m + 1)).toNat := by
  unfold BitBlock.word
  simp only [BitVec.extractLsb'_toNat, Nat.shiftRight_eq_div_pow]
  have e1 : 32 * (2 * m) = 64 * m := by omega
  have e2 : 32 * (2 * m + 1) = 64 * m + 32 := by omega
  rw [e1, e2, Nat.pow_add, ← Nat.div_div_eq_div_mul]
  omega

theorem word32_toNat_lt (v : M256) (i : Nat) : (BitBlock.word 32 v i).toNat < 2 ^ 32 :=
  (BitBlock.word 32 v i).isLt

/-- Adding 32-bit counters with a 64-bit addition: no difference as long as the even lanes do not
overflow. -/
theorem word32_add64 (a b : M256)
    (h : ∀ lane, lane < 8 →
      (BitBlock.word 32 a lane).toNat + (BitBlock.word 32 b lane).toNat < 2 ^ 32)
    {lane : Nat} (hi : lane < 8) :
    BitBlock.word 32 (addEpi 64 a b) lane = BitBlock.word 32 a lane + BitBlock.word 32 b lane := by
  obtain ⟨m, hm⟩ : ∃ m, lane = 2 * m ∨ lane = 2 * m + 1 := ⟨lane / 2, by omega⟩
  have hm4 : m < 256 / 64 := by omega
  have h64 := congrArg BitVec.toNat (word_add (by omega) (by omega) a b hm4)
  rw [BitVec.toNat_add, word64_toNat, word64_toNat, word64_toNat] at h64
  have l0 := h (2 * m) (by omega)
  have l1 := h (2 * m + 1) (by omega)
  have b0 := word32_toNat_lt (addEpi 64 a b) (2 * m)
  have b1 := word32_toNat_lt (addEpi 64 a b) (2 * m + 1)
  apply BitVec.eq_of_toNat_eq
  rw [BitVec.toNat_add]
  rcases hm with rfl | rfl <;> omega

/-! ### One iteration -/

theorem hsStep_spec (lw alw : Nat) {load : Nat → Out M256} {d : Nat → M256} {i : Nat} (s : HS)
    (hload : ∀ j, j < 16 → load (i + j) = .ok (d (i + j))) :
    ∃ s' b16, hsStep lw alw load i s = .ok s' ∧
      s'.total = addEpi alw s.total (countOnesEpi lw b16) ∧
      ∀ lane, 16 * P lw lane b16 + 8 * P lw lane s'.b08 + 4 * P lw lane s'.b04 +
          2 * P lw lane s'.b02 + P lw lane s'.b01 =
        8 * P lw lane s.b08 + 4 * P lw lane s.b04 + 2 * P lw lane s.b02 + P lw lane s.b01 +
          ∑ j ∈ range 16, P lw lane (d (i + j)) := by
  have h0 : load i = .ok (d i) := hload 0 (by omega)
  unfold hsStep
  simp only [h0, hload 1 (by omega), hload 2 (by omega), hload 3 (by omega), hload 4 (by omega),
    hload 5 (by omega), hload 6 (by omega), hload 7 (by omega), hload 8 (by omega),
    hload 9 (by omega), hload 10 (by omega), hload 11 (by omega), hload 12 (by omega),
    hload 13 (by omega), hload 14 (by omega), hload 15 (by omega), Out.ok_bind, Out.pure_eq]
  refine ⟨_, _, rfl, rfl, ?_⟩
  intro lane
  simp only [Finset.sum_range_succ, Finset.sum_range_zero, Nat.add_zero, Nat.zero_add]
  generalize hc1 : csa s.b01 (d i) (d (i + 1)) = c1
  generalize hc2 : csa c1.2 (d (i + 2)) (d (i + 3)) = c2
  generalize hc3 : csa s.b02 c1.1 c2.1 = c3
  generalize hc4 : csa c2.2 (d (i + 4)) (d (i + 5)) = c4
  generalize hc5 : csa c4.2 (d (i + 6)) (d (i + 7)) = c5
  generalize hc6 : csa c3.2 c4.1 c5.1 = c6
  generalize hc7 : csa s.b04 c3.1 c6.1 = c7
  generalize hc8 : csa c5.2 (d (i + 8)) (d (i + 9)) = c8
  generalize hc9 : csa c8.2 (d (i + 10)) (d (i + 11)) = c9
  generalize hc10 : csa c6.2 c8.1 c9.1 = c10
  generalize hc11 : csa c9.2 (d (i + 12)) (d (i + 13)) = c11
  generalize hc12 : csa c11.2 (d (i + 14)) (d (i + 15)) = c12
  generalize hc13 : csa c10.2 c11.1 c12.1 = c13
  generalize hc14 : csa c7.2 c10.1 c13.1 = c14
  generalize hc15 : csa s.b08 c7.1 c14.1 = c15
  have e1 := csa_P lw lane s.b01 (d i) (d (i + 1)); rw [hc1] at e1
  have e2 := csa_P lw lane c1.2 (d (i + 2)) (d (i + 3)); rw [hc2] at e2
  have e3 := csa_P lw lane s.b02 c1.1 c2.1; rw [hc3] at e3
  have e4 := csa_P lw lane c2.2 (d (i + 4)) (d (i + 5)); rw [hc4] at e4
  have e5 := csa_P lw lane c4.2 (d (i + 6)) (d (i + 7)); rw [hc5] at e5
  have e6 := csa_P lw lane c3.2 c4.1 c5.1; rw [hc6] at e6
  have e7 := csa_P lw lane s.b04 c3.1 c6.1; rw [hc7] at e7
  have e8 := csa_P lw lane c5.2 (d (i + 8)) (d (i + 9)); rw [hc8] at e8
  have e9 := csa_P lw lane c8.2 (d (i + 10)) (d (i + 11)); rw [hc9] at e9
  have e10 := csa_P lw lane c6.2 c8.1 c9.1; rw [hc10] at e10
  have e11 := csa_P lw lane c9.2 (d (i + 12)) (d (i + 13)); rw [hc11] at e11
  have e12 := csa_P lw lane c11.2 (d (i + 14)) (d (i + 15)); rw [hc12] at e12
  have e13 := csa_P lw lane c10.2 c11.1 c12.1; rw [hc13] at e13
  have e14 := csa_P lw lane c7.2 c10.1 c13.1; rw [hc14] at e14
  have e15 := csa_P lw lane s.b08 c7.1 c14.1; rw [hc15] at e15
  omega

/-! ### The loops -/

/-- Loop invariant: `T` is the exact value of the counters. -/
def HSInv (lw : Nat) (d : Nat → M256) (i : Nat) (s : HS) : Prop :=
  ∃ T : Nat → Nat,
    (∀ lane, lane < 256 / lw → BitBlock.word lw s.total lane = BitVec.ofNat lw (T lane)) ∧
    ∀ lane, 16 * T lane + 8 * P lw lane s.b08 + 4 * P lw lane s.b04 + 2 * P lw lane s.b02 +
      P lw lane s.b01 = ∑ j ∈ range i, P lw lane (d j)

theorem sum_P_le (lw lane : Nat) (d : Nat → M256) (i : Nat) :
    ∑ j ∈ range i, P lw lane (d j) ≤ i * lw := by
  have := Finset.sum_le_card_nsmul (range i) (fun j => P lw lane (d j)) lw
    (fun j _ => P_le lw lane (d j))
  simpa using this

theorem hsStep_inv {lw alw n : Nat} (hl : 0 < lw) (hd : lw ∣ 256)
    (hc : lw = alw ∨ (lw = 32 ∧ alw = 64 ∧ n < 2 ^ 31))
    {load : Nat → Out M256} {d : Nat → M256} {i : Nat} {s : HS} (hin : i + 16 ≤ n)
    (hload : ∀ j, j < n → load j = .ok (d j)) (hI : HSInv lw d i s) :
    ∃ s', hsStep lw alw load i s = .ok s' ∧ HSInv lw d (i + 16) s' := by
  obtain ⟨s', b16, h1, h2, h3⟩ := hsStep_spec lw alw (d := d) s
    (fun j hj => hload (i + j) (by omega))
  obtain ⟨T, hT1, hT2⟩ := hI
  refine ⟨s', h1, fun lane => T lane + P lw lane b16, ?_, ?_⟩
  · intro lane hlane
    have hadd : BitBlock.word lw s'.total lane =
        BitBlock.word lw s.total lane + BitBlock.word lw (countOnesEpi lw b16) lane := by
      rw [h2]
      rcases hc with rfl | ⟨rfl, rfl, hn⟩
      · exact word_add hl hd _ _ hlane
      · apply word32_add64 _ _ _ hlane
        intro lane' hlane'
        rw [hT1 lane' hlane', word_count (by omega) (by omega) _ hlane', BitVec.toNat_ofNat,
          BitVec.toNat_ofNat]
        have a1 := hT2 lane'
        have a2 := sum_P_le 32 lane' d i
        have a3 := P_le 32 lane' b16
        have a4 := Nat.mod_le (T lane') (2 ^ 32)
        have a5 := Nat.mod_le (P 32 lane' b16) (2 ^ 32)
        omega
    rw [hadd, hT1 lane hlane, word_count hl hd _ hlane, ← BitVec.ofNat_add]
  · intro lane
    have a1 := hT2 lane
    have a2 := h3 lane
    rw [Finset.sum_range_add]
    simp only
    omega

theorem hsLoop_spec {lw alw n : Nat} (hl : 0 < lw) (hd : lw ∣ 256)
    (hc : lw = alw ∨ (lw = 32 ∧ alw = 64 ∧ n < 2 ^ 31))
    {load : Nat → Out M256} {d : Nat → M256} (hload : ∀ j, j < n → load j = .ok (d j)) :
    ∀ (k i : Nat) (s : HS), i + 16 * k = n - n % 16 → HSInv lw d i s →
    ∃ s', hsLoop lw alw load n i s = .ok (n - n % 16, s') ∧ HSInv lw d (n - n % 16) s' := by
  intro k
  induction k with
  | zero =>
    intro i s hi hI
    have : i = n - n % 16 := by omega
    refine ⟨s, ?_, by rw [← this]; exact hI⟩
    rw [hsLoop, dif_neg (by omega), this]
  | succ k ih =>
    intro i s hi hI
    obtain ⟨s1, h1, h2⟩ := hsStep_inv hl hd hc (by omega) hload hI
    obtain ⟨s', h3, h4⟩ := ih (i + 16) s1 (by omega) h2
    refine ⟨s', ?_, h4⟩
    rw [hsLoop, dif_pos (by omega), h1, Out.ok_bind, h3]

theorem word_combine {lw : Nat} (hl : 0 < lw) (hd : lw ∣ 256) {d : Nat → M256} {i : Nat} {s : HS}
    (hI : HSInv lw d i s) {lane : Nat} (hlane : lane < 256 / lw) :
    BitBlock.word lw (combine lw s) lane = BitVec.ofNat lw (∑ j ∈ range i, P lw lane (d j)) := by
  obtain ⟨T, hT1, hT2⟩ := hI
  unfold combine
  simp only [word_add hl hd _ _ hlane, word_slli hl hd _ _ hlane, word_count hl hd _ hlane,
    hT1 lane hlane, ofNat_shl, ← BitVec.ofNat_add]
  rw [← hT2 lane]
  norm_num

theorem tailLoop_spec {lw n : Nat} (hl : 0 < lw) (hd : lw ∣ 256)
    {load : Nat → Out M256} {d : Nat → M256} (hload : ∀ j, j < n → load j = .ok (d j)) :
    ∀ (k i : Nat) (t : M256), i + k = n →
    (∀ lane, lane < 256 / lw →
      BitBlock.word lw t lane = BitVec.ofNat lw (∑ j ∈ range i, P lw lane (d j))) →
    ∃ t', tailLoop lw load n i t = .ok t' ∧ ∀ lane, lane < 256 / lw →
      BitBlock.word lw t' lane = BitVec.ofNat lw (∑ j ∈ range n, P lw lane (d j)) := by
  intro k
  induction k with
  | zero =>
    intro i t hi hI
    have : i = n := by omega
    subst this
    exact ⟨t, by rw [tailLoop, dif_neg (by omega)], hI⟩
  | succ k ih =>
    intro i t hi hI
    obtain ⟨t', h1, h2⟩ := ih (i + 1) (addEpi lw t (countOnesEpi lw (d i))) (by omega) (by
      intro lane hlane
      rw [word_add hl hd _ _ hlane, hI lane hlane, word_count hl hd _ hlane, ← BitVec.ofNat_add,
        Finset.sum_range_succ])
    refine ⟨t', ?_, h2⟩
    rw [tailLoop, dif_pos (by omega), hload i (by omega), Out.ok_bind, h1]

theorem harleySeal_spec {lw alw n : Nat} (hl : 0 < lw) (hd : lw ∣ 256)
    (hc : lw = alw ∨ (lw = 32 ∧ alw = 64 ∧ n < 2 ^ 31))
    {load : Nat → Out M256} {d : Nat → M256} (hload : ∀ j, j < n → load j = .ok (d j)) :
    ∃ t, harleySeal lw alw load n = .ok t ∧ ∀ lane, lane < 256 / lw →
      BitBlock.word lw t lane = BitVec.ofNat lw (∑ j ∈ range n, P lw lane (d j)) := by
  have hI0 : HSInv lw d 0 HS.init := by
    refine ⟨fun _ => 0, ?_, ?_⟩
    · intro lane _
      unfold HS.init BitBlock.word
      apply BitVec.eq_of_getLsbD_eq
      intro k hk
      simp
    · intro lane
      simp [HS.init, P_zero]
  obtain ⟨s', h1, h2⟩ := hsLoop_spec hl hd hc hload ((n - n % 16) / 16) 0 HS.init (by omega) hI0
  obtain ⟨t, h3, h4⟩ := tailLoop_spec hl hd hload (n - (n - n % 16)) (n - n % 16) (combine lw s')
    (by omega) (fun lane hlane => word_combine hl hd h2 hlane)
  refine ⟨t, ?_, h4⟩
  unfold harleySeal
  rw [h1, Out.ok_bind]
  exact h3

/-! ### Reductions -/

theorem reduce64_spec (ws : List Nat) (t : M256) (S : Nat → Nat)
    (h : ∀ lane, lane < 4 → BitBlock.word 64 t lane = BitVec.ofNat 64 (S lane)) :
    reduce64 ws t = BitVec.ofNat 64 (∑ lane ∈ range 4, ws.getD lane 0 * S lane) := by
  unfold reduce64
  rw [h 0 (by omega), h 1 (by omega), h 2 (by omega), h 3 (by omega)]
  simp only [← BitVec.ofNat_mul, ← BitVec.ofNat_add]
  simp [Finset.sum_range_succ]

theorem reduce32_spec (ws : List Nat) (t : M256) (S : Nat → Nat)
    (h : ∀ lane, lane < 8 → BitBlock.word 32 t lane = BitVec.ofNat 32 (S lane)) :
    reduce32 ws t = BitVec.ofNat 64 (∑ lane ∈ range 8, ws.getD lane 0 * (S lane % 2 ^ 32)) := by
  have lo : ∀ m, m < 4 → BitBlock.word 64 t m &&& 0xFFFFFFFF#64 =
      BitVec.ofNat 64 (S (2 * m) % 2 ^ 32) := by
    intro m hm
    apply BitVec.eq_of_toNat_eq
    have e : (0xFFFFFFFF#64).toNat = 2 ^ 32 - 1 := by decide
    rw [BitVec.toNat_and, e, Nat.and_two_pow_sub_one_eq_mod, word64_toNat, h _ (by omega),
      h _ (by omega), BitVec.toNat_ofNat, BitVec.toNat_ofNat, BitVec.toNat_ofNat]
    omega
  have hi : ∀ m, m < 4 → BitBlock.word 64 t m >>> 32 =
      BitVec.ofNat 64 (S (2 * m + 1) % 2 ^ 32) := by
    intro m hm
    apply BitVec.eq_of_toNat_eq
    rw [BitVec.toNat_ushiftRight, Nat.shiftRight_eq_div_pow, word64_toNat, h _ (by omega),
      h _ (by omega), BitVec.toNat_ofNat, BitVec.toNat_ofNat, BitVec.toNat_ofNat]
    omega
  unfold reduce32
  simp only []
  rw [lo 0 (by omega), lo 1 (by omega), lo 2 (by omega), lo 3 (by omega), hi 0 (by omega),
    hi 1 (by omega), hi 2 (by omega), hi 3 (by omega)]
  simp only [← BitVec.ofNat_mul, ← BitVec.ofNat_add]
  congr 1
  simp only [Finset.sum_range_succ, Finset.sum_range_zero]
  ring_nf

end Simd
end BitBoost
