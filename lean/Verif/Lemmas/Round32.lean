import Verif.Lemmas.Float32
import Verif.Lemmas.Num
import Verif.Lemmas.Discretise
/-!
# Errors of single precision operations
-/
namespace BitBoost
namespace FP

/-- Error of one rounding. -/
theorem binary32_err {q : ℚ} (h : |q| ≤ 2 ^ 126) :
    ∃ r, binary32.rnd q = .fin r ∧ |r - q| ≤ |q| / 2 ^ 24 + 1 / 2 ^ 150 := by
  have herr : |round32 q - q| ≤ |q| / 2 ^ 24 + 1 / 2 ^ 150 := by
    by_cases hq : q = 0
    · subst hq; simp
    rcases le_or_gt ((2 : ℚ) ^ (-126 : ℤ)) |q| with h1 | h1
    · have := round32_err h1
      have h2 : (0 : ℚ) ≤ 1 / 2 ^ 150 := by positivity
      linarith
    · have he : expo q = -126 := by
        by_contra hne
        have hlt : -126 < expo q := by unfold expo at *; omega
        have h2 := two_pow_expo_le hq hlt
        have h3 : (2 : ℚ) ^ (-126 : ℤ) ≤ 2 ^ (expo q) := zpow_le_zpow_right₀ (by norm_num) hlt.le
        linarith
      have hu : ulp q = 1 / 2 ^ 149 := by
        unfold ulp; rw [he]
        rw [show (-126 - 23 : ℤ) = -((149 : ℕ) : ℤ) by norm_num, zpow_neg, zpow_natCast, one_div]
      have hr := rne_err (q / ulp q)
      have hup := ulp_pos q
      have h2 : round32 q - q = (rne (q / ulp q) - q / ulp q) * ulp q := by
        unfold round32; field_simp
      rw [h2, abs_mul, abs_of_pos hup]
      have h3 : |(rne (q / ulp q) : ℚ) - q / ulp q| * ulp q ≤ 1 / 2 * ulp q :=
        mul_le_mul_of_nonneg_right hr hup.le
      have h4 : (1 : ℚ) / 2 * ulp q = 1 / 2 ^ 150 := by rw [hu]; norm_num
      have h5 : 0 ≤ |q| / 2 ^ 24 := by positivity
      linarith
  refine ⟨round32 q, ?_, herr⟩
  have h6 : |round32 q| < 2 ^ 128 := by
    have : |round32 q| ≤ |round32 q - q| + |q| := by
      have := abs_add_le (round32 q - q) q
      simpa using this
    have h7 : |q| / 2 ^ 24 ≤ 2 ^ 126 := by
      have : |q| / 2 ^ 24 ≤ |q| := div_le_self (abs_nonneg _) (by norm_num)
      linarith
    have h8 : (1 : ℚ) / 2 ^ 150 < 2 ^ 126 := by norm_num
    have h9 : (3 : ℚ) * 2 ^ 126 < 2 ^ 128 := by norm_num
    linarith
  rw [abs_lt] at h6
  show rnd32 _ = _
  unfold rnd32
  rw [if_neg (by linarith), if_neg (by linarith)]

/-- Error of one rounding, for a number that is not negative. -/
theorem binary32_err_pos {q : ℚ} (h0 : 0 ≤ q) (h : q ≤ 2 ^ 126) :
    ∃ r, binary32.rnd q = .fin r ∧ 0 ≤ r ∧ q * (1 - 1 / 2 ^ 24) - 1 / 2 ^ 150 ≤ r ∧ r ≤ q * (1 + 1 / 2 ^ 24) + 1 / 2 ^ 150 := by
  obtain ⟨r, h1, h2⟩ := binary32_err (q := q) (by rw [abs_of_nonneg h0]; exact h)
  rw [abs_of_nonneg h0, abs_le] at h2
  refine ⟨r, h1, ?_, by linarith, by linarith⟩
  have := binary32.rnd_nonneg h0
  rw [h1] at this
  simpa using this

/-- One operation of single precision: the result is off by at most `2 ^ -24` times a bound of the result, and the
smallest number. -/
theorem step32 {q B : ℚ} (h : |q| ≤ B) (hB : B ≤ 2 ^ 126) :
    ∃ r, FP.binary32.rnd q = .fin r ∧ |r - q| ≤ B / 2 ^ 24 + 1 / 2 ^ 150 := by
  obtain ⟨r, h1, h2⟩ := FP.binary32_err (h.trans hB)
  refine ⟨r, h1, h2.trans ?_⟩
  have : |q| / 2 ^ 24 ≤ B / 2 ^ 24 := by
    apply div_le_div_of_nonneg_right h (by positivity)
  linarith

theorem proj32 {w N : Nat} {lo hi G : ℚ} (hw : validWidth w) (h1 : |lo| ≤ G) (h2 : |hi| ≤ G) (hG1 : 1 / 2 ^ 100 ≤ G) (hG2 : G ≤ 2 ^ 60)
    (hN1 : 1 ≤ N) (hN2 : N ≤ 2 ^ 32) (s n : Nat) (hn : n ≤ N) (hs : s ≤ n * (2 ^ w - 1)) : ∃ r,
    BitSlice.linproj .binary32 w (FP.binary32.ofNat s) (FP.binary32.ofNat n) (.fin lo) (.fin hi) = .fin r ∧
      |r - ((s : ℚ) / ((2 ^ w - 1 : ℕ) : ℚ) * (hi - lo) + (n : ℚ) * lo)| ≤ (N : ℚ) * G / 2 ^ 19 := by
  have hw8 : w ≤ 8 := by rcases hw with rfl | rfl | rfl | rfl <;> omega
  have hmn : 1 ≤ 2 ^ w - 1 := by rcases hw with rfl | rfl | rfl | rfl <;> norm_num
  have hmx : 2 ^ w - 1 ≤ 255 := by rcases hw with rfl | rfl | rfl | rfl <;> norm_num
  unfold BitSlice.linproj BitSlice.maxval
  rw [FP.binary32.ofNat_eq (n := 2 ^ w - 1) (by omega)]
  generalize 2 ^ w - 1 = mv at *
  have hmv : (1 : ℚ) ≤ (mv : ℚ) := by exact_mod_cast hmn
  have hmv' : (mv : ℚ) ≤ 255 := by exact_mod_cast hmx
  have hNq1 : (1 : ℚ) ≤ N := by exact_mod_cast hN1
  have hNq2 : (N : ℚ) ≤ 2 ^ 32 := by exact_mod_cast hN2
  have hnq : (n : ℚ) ≤ N := by exact_mod_cast hn
  have hn0 : (0 : ℚ) ≤ n := by positivity
  have hs0 : (0 : ℚ) ≤ s := by positivity
  have hsq : (s : ℚ) ≤ n * mv := by exact_mod_cast hs
  have hsx : (s : ℚ) / mv ≤ N := by
    rw [div_le_iff₀ (by linarith)]
    nlinarith
  have hsx0 : (0 : ℚ) ≤ (s : ℚ) / mv := by positivity
  have hmv0 : (0 : ℚ) < mv := by linarith
  have hNG1 : G ≤ N * G := by nlinarith
  have hNG2 : (N : ℚ) * G ≤ 2 ^ 92 := by
    calc (N : ℚ) * G ≤ 2 ^ 32 * 2 ^ 60 := mul_le_mul hNq2 hG2 (by linarith) (by norm_num)
      _ = 2 ^ 92 := by norm_num
  have hG0 : 0 < G := lt_of_lt_of_le (by norm_num) hG1
  have prod : ∀ {a b A B : ℚ}, |a| ≤ A → |b| ≤ B → |a * b| ≤ A * B := by
    intro a b A B ha hb
    rw [abs_mul]
    exact mul_le_mul ha hb (abs_nonneg _) ((abs_nonneg _).trans ha)
  -- the sum of the codes
  obtain ⟨a, ha, ea⟩ := step32 (q := (s : ℚ)) (B := N * mv) (by rw [abs_of_nonneg hs0]; nlinarith) (by
    calc (N : ℚ) * mv ≤ 2 ^ 32 * 255 := mul_le_mul hNq2 hmv' hmv0.le (by norm_num)
      _ ≤ 2 ^ 126 := by norm_num)
  have ha' : FP.binary32.ofNat s = .fin a := ha
  have eam : |a / mv - s / mv| ≤ N / 2 ^ 24 + 1 / 2 ^ 150 := by
    rw [← sub_div, abs_div, abs_of_pos hmv0, div_le_iff₀ hmv0]
    have : (1 : ℚ) / 2 ^ 150 ≤ 1 / 2 ^ 150 * mv := by nlinarith [show (0 : ℚ) < 1 / 2 ^ 150 by norm_num]
    calc _ ≤ _ := ea
      _ ≤ _ := by linarith [show ((N : ℚ) / 2 ^ 24 + 1 / 2 ^ 150) * mv = N * mv / 2 ^ 24 + 1 / 2 ^ 150 * mv by ring]
  have eam' := abs_le.1 eam
  norm_num at eam' hG1 hG2 hNG2
  have hNq3 : (N : ℚ) ≤ 4294967296 := by exact_mod_cast hN2
  -- the quotient
  obtain ⟨q, hq, eq⟩ := step32 (q := a / mv) (B := 2 * N) (by rw [abs_le]; constructor <;> linarith) (by
    norm_num; linarith)
  have eq' := abs_le.1 eq
  norm_num at eq'
  have eqx : |q - s / mv| ≤ 4 * N / 2 ^ 24 := by
    rw [abs_le]; norm_num; constructor <;> linarith
  have hq2 : |q| ≤ 2 * N := by
    have := abs_le.1 eqx
    norm_num at this
    rw [abs_le]; constructor <;> linarith
  -- the width
  have hwid : |hi - lo| ≤ 2 * G := by
    have k1 := abs_le.1 h1
    have k2 := abs_le.1 h2
    rw [abs_le]; constructor <;> linarith
  obtain ⟨dd, hdd, edd⟩ := step32 hwid (by norm_num; linarith)
  have edx : |dd - (hi - lo)| ≤ 3 * G / 2 ^ 24 := by
    have := abs_le.1 edd
    norm_num at this
    rw [abs_le]; norm_num; constructor <;> linarith
  have hd3 : |dd| ≤ 3 * G := by
    have k1 := abs_le.1 edx
    have k2 := abs_le.1 hwid
    norm_num at k1
    rw [abs_le]; constructor <;> linarith
  -- their product
  have hqd := prod hq2 hd3
  obtain ⟨p, hp, ep⟩ := step32 hqd (by norm_num; linarith)
  have k1 := prod eqx hd3
  have k2 := prod (show |(s : ℚ) / mv| ≤ N by rw [abs_of_nonneg hsx0]; exact hsx) edx
  have epx : |p - s / mv * (hi - lo)| ≤ 23 * (N * G) / 2 ^ 24 := by
    have e1 := abs_le.1 ep
    have e2 := abs_le.1 k1
    have e3 := abs_le.1 k2
    have id : q * dd - s / mv * (hi - lo) = (q - s / mv) * dd + s / mv * (dd - (hi - lo)) := by ring
    norm_num at e1 e2 e3
    rw [abs_le]; norm_num; constructor <;> linarith
  -- the count times the lower bound
  obtain ⟨cn, hcn, ecn⟩ := step32 (q := (n : ℚ)) (B := N) (by rw [abs_of_nonneg hn0]; exact hnq) (by norm_num; linarith)
  have hcn' : FP.binary32.ofNat n = .fin cn := hcn
  have ecn' : |cn - n| ≤ 2 * N / 2 ^ 24 := by
    have := abs_le.1 ecn
    norm_num at this
    rw [abs_le]; norm_num; constructor <;> linarith
  have hcn2 : |cn| ≤ 2 * N := by
    have := abs_le.1 ecn'
    norm_num at this
    rw [abs_le]; constructor <;> linarith
  obtain ⟨cl, hcl, ecl⟩ := step32 (prod hcn2 h1) (by norm_num; linarith)
  have k3 := prod ecn' h1
  have ecx : |cl - n * lo| ≤ 5 * (N * G) / 2 ^ 24 := by
    have e1 := abs_le.1 ecl
    have e2 := abs_le.1 k3
    norm_num at e1 e2
    rw [abs_le]; norm_num; constructor <;> linarith
  -- the sum
  have htrue : |(s : ℚ) / mv * (hi - lo) + n * lo| ≤ N * G := by
    have hy1 : (s : ℚ) / mv ≤ n := by rw [div_le_iff₀ hmv0]; exact hsq
    have e1 := prod (show |(n : ℚ) - s / mv| ≤ n - s / mv by rw [abs_of_nonneg (by linarith)]) h1
    have e2 := prod (show |(s : ℚ) / mv| ≤ s / mv by rw [abs_of_nonneg hsx0]) h2
    have e3 := mul_le_mul_of_nonneg_right hnq hG0.le
    calc |(s : ℚ) / mv * (hi - lo) + n * lo| = |(n - s / mv) * lo + s / mv * hi| := by congr 1; ring
      _ ≤ _ := abs_add_le _ _
      _ ≤ _ := add_le_add e1 e2
      _ = n * G := by ring
      _ ≤ _ := e3
  obtain ⟨r, hr, er⟩ := step32 (q := p + cl) (B := 2 * (N * G)) (by
    have e1 := abs_le.1 epx
    have e2 := abs_le.1 ecx
    have e3 := abs_le.1 htrue
    norm_num at e1 e2
    rw [abs_le]; constructor <;> linarith) (by norm_num; linarith)
  refine ⟨r, ?_, ?_⟩
  · rw [ha', hcn', FP.div_fin _ hmv0.ne', hq, FP.sub_fin, hdd, FP.mul_fin, hp, FP.mul_fin, hcl, FP.add_fin, hr]
  · have e1 := abs_le.1 epx
    have e2 := abs_le.1 ecx
    have e3 := abs_le.1 er
    norm_num at e1 e2 e3
    rw [abs_le]; norm_num; constructor <;> linarith

/-- The scaled value before rounding to a code. -/
theorem code32 {w : Nat} {lo hi c : ℚ} (hw : validWidth w) (hd1 : 1 / 2 ^ 100 ≤ hi - lo) (hd2 : hi - lo ≤ 2 ^ 100)
    (h1 : lo ≤ c) (h2 : c ≤ hi) :
    ∃ z, FP.binary32.mul (FP.binary32.div (FP.binary32.sub (.fin c) (.fin lo)) (FP.binary32.sub (.fin hi) (.fin lo)))
        (FP.binary32.ofNat (BitSlice.maxval w)) = .fin z ∧
      |z - (c - lo) / (hi - lo) * ((2 ^ w - 1 : ℕ) : ℚ)| ≤ ((2 ^ w - 1 : ℕ) : ℚ) / 2 ^ 20 := by
  have hmn : 1 ≤ 2 ^ w - 1 := by rcases hw with rfl | rfl | rfl | rfl <;> norm_num
  have hmx : 2 ^ w - 1 ≤ 255 := by rcases hw with rfl | rfl | rfl | rfl <;> norm_num
  unfold BitSlice.maxval
  rw [FP.binary32.ofNat_eq (n := 2 ^ w - 1) (by omega)]
  generalize 2 ^ w - 1 = mv at *
  have hmv : (1 : ℚ) ≤ (mv : ℚ) := by exact_mod_cast hmn
  have hmv' : (mv : ℚ) ≤ 255 := by exact_mod_cast hmx
  generalize hD : hi - lo = D at *
  generalize ha : c - lo = a
  have ha0 : 0 ≤ a := by linarith
  have haD : a ≤ D := by linarith
  have hD0 : 0 < D := lt_of_lt_of_le (by norm_num) hd1
  obtain ⟨A, hA, eA⟩ := step32 (q := a) (B := D) (by rw [abs_of_nonneg ha0]; exact haD) (hd2.trans (by norm_num))
  obtain ⟨dd, hdd, ed⟩ := step32 (q := D) (B := D) (by rw [abs_of_pos hD0]) (hd2.trans (by norm_num))
  have eA' := abs_le.1 eA
  have ed' := abs_le.1 ed
  norm_num at eA' ed' hd1
  have hdd0 : D / 2 ≤ dd := by linarith
  have hddp : 0 < dd := by linarith
  have hx1 : a / D ≤ 1 := by rw [div_le_one hD0]; exact haD
  have hx0 : 0 ≤ a / D := by positivity
  have hax : a = a / D * D := by field_simp
  have eq1 : |A / dd - a / D| ≤ 5 / 2 ^ 24 := by
    have : A / dd - a / D = ((A - a) + a / D * (D - dd)) / dd := by field_simp; ring
    rw [this, abs_div, abs_of_pos hddp, div_le_iff₀ hddp]
    have k1 : |a / D * (D - dd)| ≤ 1 * (D / 2 ^ 24 + 1 / 2 ^ 150) := by
      rw [abs_mul, abs_of_nonneg hx0]
      exact mul_le_mul hx1 (by rw [abs_sub_comm]; exact ed) (abs_nonneg _) (by norm_num)
    have k2 := abs_add_le (A - a) (a / D * (D - dd))
    have ht : (1 : ℚ) / 2 ^ 150 ≤ D / 2 ^ 26 := by norm_num; linarith
    have hq : (5 : ℚ) / 2 ^ 24 * (D / 2) ≤ 5 / 2 ^ 24 * dd := mul_le_mul_of_nonneg_left hdd0 (by norm_num)
    linarith
  have eq1' := abs_le.1 eq1
  norm_num at eq1'
  obtain ⟨y, hy, ey⟩ := step32 (q := A / dd) (B := 2) (by rw [abs_le]; constructor <;> linarith) (by norm_num)
  have ey' := abs_le.1 ey
  norm_num at ey'
  have eyx : |y - a / D| ≤ 8 / 2 ^ 24 := by
    rw [abs_le]; norm_num; constructor <;> linarith
  have k3 : |(y - a / D) * mv| ≤ 8 / 2 ^ 24 * mv := by
    rw [abs_mul, abs_of_nonneg (a := (mv : ℚ)) (by linarith)]
    exact mul_le_mul_of_nonneg_right eyx (by linarith)
  have k4 := abs_le.1 k3
  have k5 : a / D * mv ≤ mv := by nlinarith
  have k6 : 0 ≤ a / D * mv := by positivity
  norm_num at k4
  obtain ⟨z, hz, ez⟩ := step32 (q := y * mv) (B := 2 * mv) (by rw [abs_le]; constructor <;> linarith) (by norm_num; linarith)
  have ez' := abs_le.1 ez
  norm_num at ez'
  refine ⟨z, ?_, ?_⟩
  · rw [FP.sub_fin, FP.sub_fin, ha, hD, hA, hdd, FP.div_fin _ hddp.ne', hy, FP.mul_fin, hz]
  · rw [abs_le]; norm_num; constructor <;> linarith

end FP
end BitBoost
