import Verif.Model.Num
import Mathlib.Tactic.Positivity
import Mathlib.Tactic.FieldSimp
import Mathlib.Tactic.NormNum
import Mathlib.Tactic.Push
/-!
# binary32 is an `FP`
-/
namespace BitBoost
namespace FP

theorem rne_int (n : ℤ) : rne (n : ℚ) = n := by
  simp [rne]

theorem rne_err (q : ℚ) : |(rne q : ℚ) - q| ≤ 1 / 2 := by
  have h1 := Int.floor_le q
  have h2 := Int.lt_floor_add_one q
  unfold rne
  rw [abs_le]
  split_ifs <;> push_cast <;> constructor <;> linarith

theorem rne_mono {a b : ℚ} (h : a ≤ b) : rne a ≤ rne b := by
  have hf : ⌊a⌋ ≤ ⌊b⌋ := Int.floor_le_floor h
  rcases hf.lt_or_eq with hlt | heq
  · have h1 : rne a ≤ ⌊a⌋ + 1 := by unfold rne; split_ifs <;> omega
    have h2 : ⌊b⌋ ≤ rne b := by unfold rne; split_ifs <;> omega
    omega
  · unfold rne
    rw [heq]
    have : a - ⌊b⌋ ≤ b - ⌊b⌋ := by linarith
    split_ifs <;> first | omega | (exfalso; linarith)

theorem rne_neg (q : ℚ) : rne (-q) = -rne q := by
  by_cases hi : q = ⌊q⌋
  · rw [hi, rne_int]
    have : (-((⌊q⌋ : ℤ) : ℚ)) = ((-⌊q⌋ : ℤ) : ℚ) := by push_cast; rfl
    rw [this, rne_int]
  · have h1 : (⌊q⌋ : ℚ) < q := lt_of_le_of_ne (Int.floor_le q) (Ne.symm hi)
    have h2 := Int.lt_floor_add_one q
    have hfl : ⌊-q⌋ = -⌊q⌋ - 1 := by
      rw [Int.floor_eq_iff]; push_cast; constructor <;> linarith
    unfold rne
    rw [hfl]
    push_cast
    have hodd : ((-⌊q⌋ - 1) % 2 = 0) ↔ ¬ (⌊q⌋ % 2 = 0) := by omega
    split_ifs <;> first | omega | (exfalso; linarith)

theorem rne_le_of_le {q : ℚ} {n : ℤ} (h : q ≤ n) : rne q ≤ n := by
  rw [← rne_int n]; exact rne_mono h

theorem le_rne_of_le {q : ℚ} {n : ℤ} (h : (n : ℚ) ≤ q) : n ≤ rne q := by
  rw [← rne_int n]; exact rne_mono h

theorem expo_neg (q : ℚ) : expo (-q) = expo q := by simp [expo]
theorem ulp_neg (q : ℚ) : ulp (-q) = ulp q := by simp [ulp, expo_neg]
theorem ulp_pos (q : ℚ) : 0 < ulp q := zpow_pos (by norm_num) _

theorem round32_neg (q : ℚ) : round32 (-q) = -round32 q := by
  simp [round32, ulp_neg, neg_div, rne_neg]

theorem lt_two_pow_expo (q : ℚ) : |q| < (2 : ℚ) ^ (expo q + 1) := by
  have h := Int.lt_zpow_succ_log_self (b := 2) (by norm_num) |q|
  refine lt_of_lt_of_le (by exact_mod_cast h) ?_
  exact zpow_le_zpow_right₀ (by norm_num) (by unfold expo; omega)

theorem two_pow_expo_le {q : ℚ} (hq : q ≠ 0) (h : -126 < expo q) : (2 : ℚ) ^ (expo q) ≤ |q| := by
  have he : expo q = Int.log 2 |q| := by unfold expo at *; omega
  have := Int.zpow_log_le_self (b := 2) (by norm_num) (abs_pos.2 hq)
  rw [he]; exact_mod_cast this

theorem expo_mono {a b : ℚ} (ha : 0 < a) (h : a ≤ b) : expo a ≤ expo b := by
  have := Int.log_mono_right (b := 2) (abs_pos.2 ha.ne') (abs_le_abs_of_nonneg ha.le h)
  unfold expo; omega

@[simp] theorem round32_zero : round32 0 = 0 := by
  have := rne_int 0
  simp [round32] at *
  simp [this]

theorem two_pow_split (k : ℤ) (n : ℕ) : (2 : ℚ) ^ (k + n) = 2 ^ k * 2 ^ n := by
  rw [zpow_add₀ (by norm_num), zpow_natCast]

theorem round32_le_pow (q : ℚ) : round32 q ≤ (2 : ℚ) ^ (expo q + 1) := by
  have h := lt_two_pow_expo q
  have hu := ulp_pos q
  have h24 : (2 : ℚ) ^ (expo q + 1) = ulp q * 2 ^ 24 := by
    unfold ulp; rw [← two_pow_split]; congr 1; push_cast; ring
  have hle : q / ulp q ≤ ((2 ^ 24 : ℤ) : ℚ) := by
    rw [div_le_iff₀ hu]; push_cast
    have := le_abs_self q
    linarith
  have := rne_le_of_le hle
  unfold round32
  rw [h24, mul_comm]
  refine mul_le_mul_of_nonneg_left ?_ hu.le
  exact_mod_cast this

theorem pow_le_round32 {q : ℚ} (hq : 0 < q) (h : -126 < expo q) : (2 : ℚ) ^ (expo q) ≤ round32 q := by
  have h1 := two_pow_expo_le hq.ne' h
  rw [abs_of_pos hq] at h1
  have hu := ulp_pos q
  have h23 : (2 : ℚ) ^ (expo q) = ulp q * 2 ^ 23 := by
    unfold ulp; rw [← two_pow_split]; congr 1; push_cast; ring
  have hle : ((2 ^ 23 : ℤ) : ℚ) ≤ q / ulp q := by
    rw [le_div_iff₀ hu]; push_cast
    linarith
  have := le_rne_of_le hle
  unfold round32
  rw [h23, mul_comm]
  refine mul_le_mul_of_nonneg_right ?_ hu.le
  exact_mod_cast this

theorem round32_nonneg {q : ℚ} (h : 0 ≤ q) : 0 ≤ round32 q := by
  have hu := ulp_pos q
  have : (0 : ℤ) ≤ rne (q / ulp q) := le_rne_of_le (by push_cast; positivity)
  unfold round32
  have h2 : (0 : ℚ) ≤ rne (q / ulp q) := by exact_mod_cast this
  positivity

theorem round32_mono_pos {a b : ℚ} (ha : 0 < a) (h : a ≤ b) : round32 a ≤ round32 b := by
  rcases (expo_mono ha h).lt_or_eq with hlt | heq
  · have hb : 0 < b := by linarith
    have h1 := round32_le_pow a
    have h2 := pow_le_round32 hb (by unfold expo at *; omega)
    have h3 : (2 : ℚ) ^ (expo a + 1) ≤ 2 ^ expo b := zpow_le_zpow_right₀ (by norm_num) (by omega)
    linarith
  · have hu : ulp a = ulp b := by unfold ulp; rw [heq]
    unfold round32
    rw [hu]
    have hp := ulp_pos b
    refine mul_le_mul_of_nonneg_right ?_ hp.le
    exact_mod_cast rne_mono (div_le_div_of_nonneg_right h hp.le)

theorem round32_mono {a b : ℚ} (h : a ≤ b) : round32 a ≤ round32 b := by
  rcases lt_trichotomy a 0 with ha | ha | ha
  · rcases le_or_gt 0 b with hb | hb
    · have h1 := round32_nonneg hb
      have h2 := round32_nonneg (q := -a) (by linarith)
      rw [round32_neg] at h2
      linarith
    · have := round32_mono_pos (a := -b) (b := -a) (by linarith) (by linarith)
      rw [round32_neg, round32_neg] at this
      linarith
  · subst ha; rw [round32_zero]; exact round32_nonneg h
  · exact round32_mono_pos ha h

/-- A number with at most 24 significant bits and an exponent that is not too small is a fixed point. -/
theorem round32_fix (m k : ℤ) (hm : |m| ≤ 2 ^ 24) (hk : -126 ≤ k) :
    round32 (m * (2 : ℚ) ^ (k - 23)) = m * (2 : ℚ) ^ (k - 23) := by
  by_cases hm0 : m = 0
  · subst hm0; simp
  generalize hq : m * (2 : ℚ) ^ (k - 23) = q
  have hq0 : q ≠ 0 := by
    rw [← hq]; exact mul_ne_zero (by exact_mod_cast hm0) (zpow_ne_zero _ (by norm_num))
  have habs : |q| = |(m : ℚ)| * (2 : ℚ) ^ (k - 23) := by
    rw [← hq, abs_mul, abs_of_pos (a := (2 : ℚ) ^ (k - 23)) (zpow_pos (by norm_num) _)]
  have hmq : |(m : ℚ)| ≤ 2 ^ 24 := by exact_mod_cast hm
  have hpk : (0 : ℚ) < 2 ^ (k - 23) := zpow_pos (by norm_num) _
  -- q is an integer multiple of its ulp
  suffices h : ∃ n : ℤ, q = n * ulp q by
    obtain ⟨n, hn⟩ := h
    have hu := ulp_pos q
    unfold round32
    have : q / ulp q = n := by rw [div_eq_iff hu.ne']; exact hn
    rw [this, rne_int]; exact hn.symm
  by_cases hek : expo q ≤ k
  · obtain ⟨d, hd⟩ := Int.eq_ofNat_of_zero_le (show 0 ≤ k - expo q by omega)
    refine ⟨m * 2 ^ d, ?_⟩
    have : (m : ℚ) * 2 ^ (k - 23) = ((m * 2 ^ d : ℤ) : ℚ) * 2 ^ (expo q - 23) := by
      push_cast
      rw [mul_assoc, mul_comm ((2 : ℚ) ^ d), ← two_pow_split]; congr 2; omega
    exact hq.symm.trans this
  · have he : -126 < expo q := by omega
    have h1 := two_pow_expo_le hq0 he
    have h2 : (2 : ℚ) ^ (k + 1) ≤ 2 ^ (expo q) := zpow_le_zpow_right₀ (by norm_num) (by omega)
    have h3 : (2 : ℚ) ^ (k + 1) = 2 ^ (k - 23) * 2 ^ 24 := by
      rw [← two_pow_split]; congr 1; push_cast; ring
    have h4 : |q| ≤ 2 ^ (k + 1) := by
      rw [habs, h3, mul_comm]; exact mul_le_mul_of_nonneg_left hmq hpk.le
    have h5 : (2 : ℚ) ^ (expo q) ≤ 2 ^ (k + 1) := le_trans h1 h4
    have h6 : expo q = k + 1 := by
      have := (zpow_le_zpow_iff_right₀ (a := (2 : ℚ)) (by norm_num)).1 h5
      omega
    have h7 : |(m : ℚ)| = 2 ^ 24 := by
      have : 2 ^ (k - 23) * 2 ^ 24 ≤ |(m : ℚ)| * (2 : ℚ) ^ (k - 23) := by
        rw [← habs, ← h3]; exact le_trans h2 h1
      rw [mul_comm] at this
      exact le_antisymm hmq (le_of_mul_le_mul_right this hpk)
    have h8 : |m| = 2 ^ 24 := by exact_mod_cast h7
    have hu : ulp q = 2 ^ (k - 23) * 2 ^ 1 := by
      unfold ulp; rw [h6, ← two_pow_split]; congr 1; push_cast; ring
    rcases abs_choice m with hc | hc
    · refine ⟨2 ^ 23, ?_⟩
      rw [hu, ← hq]
      have : m = 2 ^ 24 := by omega
      rw [this]; push_cast; ring
    · refine ⟨-2 ^ 23, ?_⟩
      rw [hu, ← hq]
      have : m = -2 ^ 24 := by omega
      rw [this]; push_cast; ring

theorem round32_idem (q : ℚ) : round32 (round32 q) = round32 q := by
  have hk : -126 ≤ expo q := by unfold expo; omega
  have hb : |rne (q / ulp q)| ≤ 2 ^ 24 := by
    have hu := ulp_pos q
    have h := lt_two_pow_expo q
    have h24 : (2 : ℚ) ^ (expo q + 1) = ulp q * 2 ^ 24 := by
      unfold ulp; rw [← two_pow_split]; congr 1; push_cast; ring
    rw [h24, abs_lt] at h
    rw [abs_le]
    constructor
    · apply le_rne_of_le
      rw [le_div_iff₀ hu]; push_cast; linarith
    · apply rne_le_of_le
      rw [div_le_iff₀ hu]; push_cast; linarith
  exact round32_fix _ _ hb hk

theorem round32_int (n : ℤ) (h : |n| ≤ 2 ^ 24) : round32 n = n := by
  have := round32_fix n 23 h (by norm_num)
  simpa using this

/-- Relative error of one rounding in the normal range. -/
theorem round32_err {q : ℚ} (h : (2 : ℚ) ^ (-126 : ℤ) ≤ |q|) : |round32 q - q| ≤ |q| / 2 ^ 24 := by
  have hq : q ≠ 0 := by
    rintro rfl
    have : (0 : ℚ) < 2 ^ (-126 : ℤ) := zpow_pos (by norm_num) _
    simp at h
    linarith
  have he : expo q = Int.log 2 |q| := by
    have := (Int.zpow_le_iff_le_log (b := 2) (by norm_num) (abs_pos.2 hq) (x := -126)).1
      (by exact_mod_cast h)
    unfold expo; omega
  have h1 : (2 : ℚ) ^ (expo q) ≤ |q| := by
    have := Int.zpow_log_le_self (b := 2) (by norm_num) (abs_pos.2 hq)
    rw [he]; exact_mod_cast this
  have hu := ulp_pos q
  have h23 : (2 : ℚ) ^ (expo q) = ulp q * 2 ^ 23 := by
    unfold ulp; rw [← two_pow_split]; congr 1; push_cast; ring
  have := rne_err (q / ulp q)
  have h2 : round32 q - q = (rne (q / ulp q) - q / ulp q) * ulp q := by
    unfold round32; field_simp
  rw [h2, abs_mul, abs_of_pos hu]
  have h3 : |(rne (q / ulp q) : ℚ) - q / ulp q| * ulp q ≤ 1 / 2 * ulp q :=
    mul_le_mul_of_nonneg_right this hu.le
  rw [h23] at h1
  have h4 : ulp q * 2 ^ 23 / 2 ^ 24 ≤ |q| / 2 ^ 24 := div_le_div_of_nonneg_right h1 (by norm_num)
  have h5 : ulp q * 2 ^ 23 / 2 ^ 24 = 1 / 2 * ulp q := by ring
  linarith

/-- IEEE 754 binary32 with round-to-nearest-even, the arithmetic of Rust's `f32`. -/
def binary32 : FP where
  rnd := rnd32
  rnd_ne_nan q := by unfold rnd32; split_ifs <;> simp
  mono a b h := by
    have := round32_mono h
    have hp : (0 : ℚ) < 2 ^ 128 := by norm_num
    unfold rnd32
    split_ifs <;> simp [Num.le] <;> linarith
  idem q r h := by
    have hr : r = round32 q := by
      unfold rnd32 at h; split_ifs at h; simpa using h.symm
    subst hr
    unfold rnd32 at *
    rw [round32_idem]
    exact h
  int n h := by
    have hq : |(n : ℚ)| ≤ 2 ^ 24 := by exact_mod_cast h
    rw [abs_le] at hq
    unfold rnd32
    rw [round32_int n h]
    rw [if_neg, if_neg]
    · intro hc; linarith [show (2 : ℚ) ^ 24 < 2 ^ 128 by norm_num]
    · intro hc; linarith [show (2 : ℚ) ^ 24 < 2 ^ 128 by norm_num]
  symm q := by
    have hp : (0 : ℚ) < 2 ^ 128 := by norm_num
    unfold rnd32
    rw [round32_neg]
    split_ifs <;> simp [Num.neg] <;> linarith

/-- `f32` numbers are integer multiples of 2^-149. -/
theorem round32_multiple (q : ℚ) : ∃ m : ℤ, round32 q = m * (2 : ℚ) ^ (-149 : ℤ) := by
  have hk : -126 ≤ expo q := by unfold expo; omega
  obtain ⟨d, hd⟩ := Int.eq_ofNat_of_zero_le (show 0 ≤ expo q + 126 by omega)
  refine ⟨rne (q / ulp q) * 2 ^ d, ?_⟩
  unfold round32
  have : ulp q = (2 : ℚ) ^ d * 2 ^ (-149 : ℤ) := by
    unfold ulp
    rw [mul_comm, ← two_pow_split]; congr 1; omega
  rw [this]; push_cast; ring

theorem rnd32_fin {q r : ℚ} (h : rnd32 q = .fin r) : round32 q = r := by
  unfold rnd32 at h; split_ifs at h; simpa using h

/-- The difference of two different `f32` numbers does not underflow to zero. -/
theorem binary32_sub_pos {lo hi : ℚ} (h : lo < hi) (hlo : binary32.rnd lo = .fin lo)
    (hhi : binary32.rnd hi = .fin hi) (hov : hi - lo < 2 ^ 127) :
    ∃ d, binary32.rnd (hi - lo) = .fin d ∧ 0 < d := by
  have h1 : round32 lo = lo := rnd32_fin hlo
  have h2 : round32 hi = hi := rnd32_fin hhi
  obtain ⟨m, hm⟩ := round32_multiple lo
  obtain ⟨n, hn⟩ := round32_multiple hi
  rw [h1] at hm
  rw [h2] at hn
  have hp : (0 : ℚ) < 2 ^ (-149 : ℤ) := zpow_pos (by norm_num) _
  have hmn : m < n := by
    rw [hm, hn] at h
    have := lt_of_mul_lt_mul_right h hp.le
    exact_mod_cast this
  have hge : (2 : ℚ) ^ (-149 : ℤ) ≤ hi - lo := by
    rw [hm, hn]
    have : (1 : ℚ) ≤ n - m := by
      have : m + 1 ≤ n := hmn
      have : ((m + 1 : ℤ) : ℚ) ≤ n := by exact_mod_cast this
      push_cast at this; linarith
    nlinarith
  have hf := round32_fix 1 (-126) (by norm_num) (by norm_num)
  have hf' : round32 ((2 : ℚ) ^ (-149 : ℤ)) = 2 ^ (-149 : ℤ) := by
    have e : ((1 : ℤ) : ℚ) * 2 ^ ((-126 : ℤ) - 23) = 2 ^ (-149 : ℤ) := by push_cast; rw [one_mul]
    rw [e] at hf; exact hf
  have hlow := round32_mono hge
  rw [hf'] at hlow
  have htop := round32_fix 1 150 (by norm_num) (by norm_num)
  have htop' : round32 ((2 : ℚ) ^ (127 : ℕ)) = 2 ^ 127 := by
    have e : ((1 : ℤ) : ℚ) * 2 ^ ((150 : ℤ) - 23) = 2 ^ (127 : ℕ) := by
      push_cast; rw [one_mul, ← zpow_natCast]; rfl
    rw [e] at htop; exact htop
  have hhigh := round32_mono hov.le
  rw [htop'] at hhigh
  refine ⟨round32 (hi - lo), ?_, by linarith⟩
  show rnd32 (hi - lo) = _
  have hb : (2 : ℚ) ^ 127 < 2 ^ 128 := by norm_num
  have hz : (0 : ℚ) < 2 ^ 128 := by norm_num
  unfold rnd32
  rw [if_neg (by linarith), if_neg (by linarith)]

end FP
end BitBoost
