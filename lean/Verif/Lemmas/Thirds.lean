import Verif.Lemmas.Ieee
/-!
# Dividing by three and multiplying by three in single precision
-/
namespace BitBoost.FP
open Spec

theorem even_sig_nat {s : ℕ} (h0 : 0 < s) (hs : s < 2 ^ 23) : EvenSig32 s := by
  have hl : Nat.log2 s < 23 := (Nat.log2_lt (by omega)).2 hs
  have h1 : 2 ^ Nat.log2 s ≤ s := Nat.log2_self_le (by omega)
  have h2 : s < 2 ^ (Nat.log2 s + 1) := Nat.lt_log2_self
  obtain ⟨k, hk⟩ : ∃ k, Nat.log2 s + (k + 1) = 23 := ⟨22 - Nat.log2 s, by omega⟩
  generalize Nat.log2 s = l at *
  have e1 : 2 ^ l * 2 ^ (k + 1) = 2 ^ 23 := by rw [← pow_add, hk]
  have e2 : 2 ^ (l + 1) * 2 ^ (k + 1) = 2 ^ 24 := by rw [← pow_add]; congr 1; omega
  have b1 : 2 ^ 23 ≤ s * 2 ^ (k + 1) := by rw [← e1]; exact Nat.mul_le_mul_right _ h1
  have b2 : s * 2 ^ (k + 1) < 2 ^ 24 := by rw [← e2]; exact Nat.mul_lt_mul_of_pos_right h2 (by positivity)
  have habs : |((s * 2 ^ (k + 1) : ℕ) : ℤ)| = ((s * 2 ^ (k + 1) : ℕ) : ℤ) := abs_of_nonneg (by positivity)
  refine ⟨((s * 2 ^ (k + 1) : ℕ) : ℤ), -((k + 1 : ℕ) : ℤ), ?_, by omega, .inl ?_, ?_, ?_⟩
  · rw [habs]; exact_mod_cast b2
  · rw [habs]; exact_mod_cast b1
  · refine ⟨((s * 2 ^ k : ℕ) : ℤ), ?_⟩
    push_cast
    ring
  · rw [zpow_neg, zpow_natCast]
    push_cast
    field_simp

/-- For whole numbers below `2 ^ 23`, dividing by 3 and multiplying by 3 gives the number again. -/
theorem third_nearest {s : ℕ} (hs : s < 2 ^ 23) : Nearest32 (round32 (s / 3) * 3) s := by
  have hgrid : Grid32 s := ⟨s, 0, by rw [abs_of_nonneg (by positivity)]; exact_mod_cast hs.trans (by norm_num), by norm_num,
    by simp⟩
  rcases Nat.eq_zero_or_pos s with rfl | h0
  · refine ⟨hgrid, fun r' _ => ?_⟩
    simp only [Nat.cast_zero, zero_div, round32_zero, zero_mul, sub_zero, abs_zero, zero_sub, abs_neg]
    exact ⟨abs_nonneg _, fun h hne => absurd (abs_eq_zero.1 h.symm) hne⟩
  have hsq : (1 : ℚ) ≤ s := by exact_mod_cast h0
  have hx0 : (s : ℚ) / 3 ≠ 0 := by positivity
  have habs : |(s : ℚ) / 3| = s / 3 := abs_of_nonneg (by positivity)
  have hk : -126 < expo ((s : ℚ) / 3) := by
    unfold expo
    refine lt_max_of_lt_left ?_
    have : (-2 : ℤ) ≤ Int.log 2 |(s : ℚ) / 3| := by
      rw [habs]
      refine (Int.zpow_le_iff_le_log (by norm_num) (by positivity)).1 ?_
      norm_num
      linarith
    omega
  obtain ⟨hm24, hlow⟩ := sig_bounds ((s : ℚ) / 3)
  obtain ⟨hm23, hlow⟩ := hlow hk hx0
  have hu := ulp_pos ((s : ℚ) / 3)
  have herr := rne_err ((s : ℚ) / 3 / ulp ((s : ℚ) / 3))
  unfold round32
  rw [abs_div, abs_of_pos hu, habs, le_div_iff₀ hu] at hlow
  -- the unit is `2 ^ -j` with `j ≥ 2`
  have hj : expo ((s : ℚ) / 3) - 23 ≤ -2 := by
    by_contra hc
    have h1 : (2 : ℚ) ^ (-1 : ℤ) ≤ ulp ((s : ℚ) / 3) := by
      unfold ulp
      exact zpow_le_zpow_right₀ (by norm_num) (by omega)
    have h2 : (s : ℚ) < 2 ^ 23 := by exact_mod_cast hs
    norm_num at h1
    linarith
  obtain ⟨j, hj'⟩ := Int.eq_ofNat_of_zero_le (show 0 ≤ -2 - (expo ((s : ℚ) / 3) - 23) by omega)
  have hudef : ulp ((s : ℚ) / 3) = 2 ^ (-((j + 2 : ℕ) : ℤ)) := by
    unfold ulp
    congr 1
    push_cast
    omega
  have hejs : expo ((s : ℚ) / 3) - 23 = -((j + 2 : ℕ) : ℤ) := by push_cast; omega
  generalize hmdef : rne ((s : ℚ) / 3 / ulp ((s : ℚ) / 3)) = m at *
  generalize ulp ((s : ℚ) / 3) = u at *
  have hsu : (s : ℚ) = ((4 * (s * 2 ^ j) : ℕ) : ℚ) * u := by
    rw [hudef, zpow_neg, zpow_natCast]
    push_cast
    field_simp
    ring
  generalize s * 2 ^ j = t at hsu
  have ht : (s : ℚ) / 3 / u = ((4 * t : ℕ) : ℚ) / 3 := by
    rw [hsu]
    field_simp
  have hclose : |3 * m - ((4 * t : ℕ) : ℤ)| ≤ 1 := by
    rw [ht] at herr
    have h3 : |(3 : ℚ) * m - ((4 * t : ℕ) : ℚ)| ≤ 3 / 2 := by
      have : (3 : ℚ) * m - ((4 * t : ℕ) : ℚ) = 3 * (m - ((4 * t : ℕ) : ℚ) / 3) := by ring
      rw [this, abs_mul, abs_of_pos (by norm_num : (0 : ℚ) < 3)]
      linarith
    have h4 : (|3 * m - ((4 * t : ℕ) : ℤ)| : ℚ) < 2 := by
      push_cast at h3 ⊢
      linarith
    have : |3 * m - ((4 * t : ℕ) : ℤ)| < 2 := by exact_mod_cast h4
    omega
  have htlow : (3 * 2 ^ 23 : ℤ) ≤ ((4 * t : ℕ) : ℤ) := by
    rw [hsu] at hlow
    have h1 : (2 : ℚ) ^ 23 ≤ ((4 * t : ℕ) : ℚ) / 3 := by
      by_contra hc
      have := mul_lt_mul_of_pos_right (not_le.1 hc) hu
      linarith
    have h2 : (3 * 2 ^ 23 : ℚ) ≤ ((4 * t : ℕ) : ℚ) := by linarith
    exact_mod_cast h2
  refine ⟨hgrid, fun r' hr' => ?_⟩
  have hdist : |(m : ℚ) * u * 3 - s| = (|3 * m - ((4 * t : ℕ) : ℤ)| : ℤ) * u := by
    rw [hsu]
    have : (m : ℚ) * u * 3 - ((4 * t : ℕ) : ℚ) * u = (((3 * m - ((4 * t : ℕ) : ℤ)) : ℤ) : ℚ) * u := by
      push_cast; ring
    rw [this, abs_mul, abs_of_pos hu, Int.cast_abs]
  refine ⟨?_, fun _ _ => even_sig_nat h0 hs⟩
  rw [hdist]
  rcases eq_or_ne (3 * m) ((4 * t : ℕ) : ℤ) with he | hne
  · rw [he]; simp
  have hone : |3 * m - ((4 * t : ℕ) : ℤ)| = 1 := le_antisymm hclose (Int.one_le_abs (sub_ne_zero.2 hne))
  rw [hone]
  push_cast
  rw [one_mul]
  obtain ⟨m', e', hm', he', rfl⟩ := hr'
  rcases le_or_gt e' (-((j + 2 : ℕ) : ℤ)) with hle | hgt
  · -- a finer number is too small
    have h1 : |(m' : ℚ) * 2 ^ e'| ≤ 2 ^ 24 * u := by
      rw [abs_mul, abs_of_pos (zpow_pos (by norm_num : (0 : ℚ) < 2) _)]
      refine mul_le_mul ?_ ?_ (zpow_nonneg (by norm_num) _) (by norm_num)
      · have : (|m'| : ℚ) < 2 ^ 24 := by exact_mod_cast hm'
        exact this.le
      · rw [hudef]
        exact zpow_le_zpow_right₀ (by norm_num) hle
    have h2 : (2 ^ 24 + 1 : ℤ) ≤ 3 * m := by
      have := (abs_le.1 hclose).1
      omega
    have h3 : ((2 : ℚ) ^ 24 + 1) * u ≤ m * u * 3 := by
      have : ((2 : ℚ) ^ 24 + 1) ≤ 3 * m := by exact_mod_cast h2
      have := mul_le_mul_of_nonneg_right this hu.le
      linarith
    have h4 := le_abs_self ((m : ℚ) * u * 3 - m' * 2 ^ e')
    have h5 := (abs_le.1 h1).2
    linarith
  · obtain ⟨n, hn⟩ := Int.eq_ofNat_of_zero_le (show 0 ≤ e' - (-((j + 2 : ℕ) : ℤ)) - 1 by omega)
    have hr2 : (m' : ℚ) * 2 ^ e' = ((2 * (m' * 2 ^ n) : ℤ) : ℚ) * u := by
      have : e' = -((j + 2 : ℕ) : ℤ) + 1 + (n : ℤ) := by omega
      rw [this, hudef, zpow_add₀ (by norm_num), zpow_add₀ (by norm_num), zpow_natCast]
      push_cast
      ring
    rw [hr2]
    have : (m : ℚ) * u * 3 - ((2 * (m' * 2 ^ n) : ℤ) : ℚ) * u = ((3 * m - 2 * (m' * 2 ^ n) : ℤ) : ℚ) * u := by
      push_cast; ring
    rw [this, abs_mul, abs_of_pos hu]
    have hodd : 3 * m - 2 * (m' * 2 ^ n) ≠ 0 := by
      intro hz
      generalize m' * 2 ^ n = z at hz
      rcases abs_eq (by norm_num) |>.1 hone with h | h <;> omega
    have : (1 : ℚ) ≤ |((3 * m - 2 * (m' * 2 ^ n) : ℤ) : ℚ)| := by
      have := Int.one_le_abs hodd
      exact_mod_cast this
    exact le_mul_of_one_le_left hu.le this

theorem thirds32 {s : ℕ} (hs : s < 2 ^ 23) :
    ∃ r, binary32.rnd (s / 3) = .fin r ∧ binary32.rnd (r * 3) = .fin s := by
  have hsq : (s : ℚ) < 2 ^ 23 := by exact_mod_cast hs
  have h0 : (0 : ℚ) ≤ s := Nat.cast_nonneg s
  have h1 : binary32.rnd (s / 3) = .fin (round32 (s / 3)) := by
    have hb : |round32 ((s : ℚ) / 3)| < 2 ^ 128 := by
      have := (round32_nearest ((s : ℚ) / 3)).2 0 ⟨0, 0, by norm_num, by norm_num, by simp⟩
      have h2 := this.1
      rw [sub_zero, abs_of_nonneg (by positivity : (0 : ℚ) ≤ s / 3)] at h2
      rw [abs_le] at h2
      rw [abs_lt]
      constructor <;> linarith
    show rnd32 _ = _
    unfold rnd32
    rw [if_neg (by rw [abs_lt] at hb; linarith), if_neg (by rw [abs_lt] at hb; linarith)]
  refine ⟨_, h1, ?_⟩
  have h2 := nearest_unique (third_nearest hs)
  show rnd32 _ = _
  unfold rnd32
  rw [← h2, if_neg (by norm_num; linarith), if_neg (by norm_num; linarith)]

end BitBoost.FP
