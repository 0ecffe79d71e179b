import Verif.Lemmas.Float32
import Verif.Spec.Ieee
import Mathlib.Tactic.NormNum
import Mathlib.Tactic.FieldSimp
/-!
# `round32` is rounding to nearest, ties to even
-/
namespace BitBoost.FP
open Spec

theorem rne_near (x : ℚ) (n : ℤ) (h : n ≠ rne x) : 1 / 2 ≤ |x - n| := by
  have h1 := rne_err x
  have h2 : (1 : ℚ) ≤ |(n : ℚ) - rne x| := by
    have : 1 ≤ |n - rne x| := Int.one_le_abs (sub_ne_zero.2 h)
    exact_mod_cast this
  rw [abs_le] at h1
  rcases le_abs.1 h2 with h3 | h3
  · exact le_abs.2 (.inr (by linarith [h1.1, h1.2]))
  · exact le_abs.2 (.inl (by linarith [h1.1, h1.2]))

theorem rne_half {x : ℚ} (h : |x - rne x| = 1 / 2) : Even (rne x) := by
  have h1 := Int.floor_le x
  have h2 := Int.lt_floor_add_one x
  unfold rne at h ⊢
  split_ifs at h ⊢ with c1 c2 c3
  · rw [abs_of_nonneg (by linarith)] at h; linarith
  · push_cast at h
    rw [abs_of_nonpos (by linarith)] at h; linarith
  · exact Int.even_iff.2 c3
  · exact Int.even_iff.2 (by omega)

/-- The rounded number in units of the last place. -/
theorem sig_bounds (q : ℚ) : |rne (q / ulp q)| ≤ 2 ^ 24 ∧
    (-126 < expo q → q ≠ 0 → 2 ^ 23 ≤ |rne (q / ulp q)| ∧ (2 : ℚ) ^ 23 ≤ |q / ulp q|) := by
  have hu := ulp_pos q
  have habs : |q / ulp q| = |q| / ulp q := by rw [abs_div, abs_of_pos hu]
  have hpow : ∀ n : ℕ, (2 : ℚ) ^ (expo q - 23 + n) / ulp q = 2 ^ n := fun n => by
    rw [two_pow_split]; unfold ulp at *; field_simp
  have hup : |q / ulp q| ≤ 2 ^ 24 := by
    rw [habs, ← hpow 24]
    refine (div_le_div_iff_of_pos_right hu).2 (lt_two_pow_expo q).le |>.trans ?_
    rw [show expo q - 23 + ((24 : ℕ) : ℤ) = expo q + 1 by push_cast; ring]
  constructor
  · rw [abs_le] at hup ⊢
    constructor
    · refine le_rne_of_le ?_
      push_cast; exact hup.1
    · refine rne_le_of_le ?_
      push_cast; exact hup.2
  · intro he hq
    have hlow : (2 : ℚ) ^ 23 ≤ |q / ulp q| := by
      rw [habs, ← hpow 23]
      refine le_trans (le_of_eq ?_) ((div_le_div_iff_of_pos_right hu).2 (two_pow_expo_le hq he))
      rw [show expo q - 23 + ((23 : ℕ) : ℤ) = expo q by push_cast; ring]
    refine ⟨?_, hlow⟩
    rcases le_abs.1 hlow with h | h
    · exact le_trans (le_rne_of_le (by push_cast; exact h)) (le_abs_self _)
    · refine le_trans ?_ (neg_le_abs _)
      have : rne (q / ulp q) ≤ -2 ^ 23 := rne_le_of_le (by push_cast; linarith)
      linarith

/-- A number on the grid is a multiple of the unit in the last place of `q`, or smaller than `q` by
a power of two. -/
theorem grid_cases (q r : ℚ) (h : Grid32 r) :
    (∃ n : ℤ, r = n * ulp q) ∨ (-126 < expo q ∧ |r| < (2 : ℚ) ^ 23 * ulp q) := by
  obtain ⟨m, e, hm, he, rfl⟩ := h
  rcases le_or_gt (expo q - 23) e with hle | hlt
  · left
    obtain ⟨d, hd⟩ := Int.eq_ofNat_of_zero_le (show 0 ≤ e - (expo q - 23) by omega)
    refine ⟨m * 2 ^ d, ?_⟩
    have : e = expo q - 23 + d := by omega
    rw [this, two_pow_split]; unfold ulp; push_cast; ring
  · right
    refine ⟨by omega, ?_⟩
    have hp : (0 : ℚ) < 2 ^ e := zpow_pos (by norm_num) _
    rw [abs_mul, abs_of_pos hp]
    have h1 : (|(m : ℚ)|) < 2 ^ 24 := by exact_mod_cast hm
    have h2 : (2 : ℚ) ^ (e + ((1 : ℕ) : ℤ)) ≤ ulp q :=
      zpow_le_zpow_right₀ (by norm_num) (by push_cast; omega)
    rw [two_pow_split] at h2
    nlinarith

theorem round32_grid (q : ℚ) : Grid32 (round32 q) := by
  have hk : -126 ≤ expo q := by unfold expo; omega
  rcases (sig_bounds q).1.lt_or_eq with h | h
  · exact ⟨rne (q / ulp q), expo q - 23, h, by omega, rfl⟩
  · refine ⟨rne (q / ulp q) / 2, expo q - 22, ?_, by omega, ?_⟩
    · rcases abs_eq (by norm_num) |>.1 h with h | h <;> rw [h] <;> norm_num
    · have : (2 : ℚ) ^ (expo q - 22) = ulp q * 2 := by
        unfold ulp
        have := two_pow_split (expo q - 23) 1
        rw [show expo q - 23 + ((1 : ℕ) : ℤ) = expo q - 22 by push_cast; ring] at this
        rw [this]; norm_num
      rw [this]
      unfold round32
      rcases abs_eq (by norm_num) |>.1 h with h | h <;> rw [h] <;> push_cast <;> norm_num <;> ring

theorem even_round32 {q : ℚ} (hq : q ≠ 0) (h : Even (rne (q / ulp q))) : EvenSig32 (round32 q) := by
  have hk : -126 ≤ expo q := by unfold expo; omega
  have hn : -126 < expo q → 2 ^ 23 ≤ |rne (q / ulp q)| := fun he => ((sig_bounds q).2 he hq).1
  rcases (sig_bounds q).1.lt_or_eq with hb | hb
  · refine ⟨rne (q / ulp q), expo q - 23, hb, by omega, ?_, h, rfl⟩
    rcases hk.lt_or_eq with he | he
    · exact .inl (hn he)
    · exact .inr (by omega)
  · refine ⟨rne (q / ulp q) / 2, expo q - 22, ?_, by omega, .inl ?_, ?_, ?_⟩
    · rcases abs_eq (by norm_num) |>.1 hb with h | h <;> rw [h] <;> norm_num
    · rcases abs_eq (by norm_num) |>.1 hb with h | h <;> rw [h] <;> norm_num
    · rcases abs_eq (by norm_num) |>.1 hb with h | h <;> rw [h] <;> exact Int.even_iff.2 (by norm_num)
    · have : (2 : ℚ) ^ (expo q - 22) = ulp q * 2 := by
        unfold ulp
        have := two_pow_split (expo q - 23) 1
        rw [show expo q - 23 + ((1 : ℕ) : ℤ) = expo q - 22 by push_cast; ring] at this
        rw [this]; norm_num
      rw [this]
      unfold round32
      rcases abs_eq (by norm_num) |>.1 hb with h | h <;> rw [h] <;> push_cast <;> norm_num <;> ring

theorem units (q : ℚ) (n : ℤ) : |q - n * ulp q| = |q / ulp q - n| * ulp q := by
  have hu := ulp_pos q
  conv_rhs => rw [← abs_of_pos hu, ← abs_mul, abs_of_pos hu]
  congr 1; field_simp

/-- A grid point that is not a multiple of the unit of `q` is farther away than `round32 q`. -/
theorem round32_far {q r : ℚ} (hq : q ≠ 0) (he : -126 < expo q) (hr : |r| < (2 : ℚ) ^ 23 * ulp q) :
    |q - round32 q| < |q - r| := by
  have hu := ulp_pos q
  have hlow := ((sig_bounds q).2 he hq).2
  rw [abs_div, abs_of_pos hu, le_div_iff₀ hu] at hlow
  have key : ∀ n : ℤ, |q - round32 q| ≤ |q - n * ulp q| := fun n => by
    unfold round32
    rw [units, units]
    refine mul_le_mul_of_nonneg_right ?_ hu.le
    by_cases hn : n = rne (q / ulp q)
    · rw [hn]
    · have h1 := rne_err (q / ulp q)
      rw [abs_sub_comm] at h1
      exact h1.trans (rne_near _ _ hn)
  have hr' := abs_lt.1 hr
  rcases le_or_gt 0 q with h0 | h0
  · rw [abs_of_nonneg h0] at hlow
    have := key (2 ^ 23)
    rw [show (((2 ^ 23 : ℤ)) : ℚ) = 2 ^ 23 by norm_num] at this
    rw [abs_of_nonneg (show 0 ≤ q - 2 ^ 23 * ulp q by linarith)] at this
    rw [abs_of_nonneg (show 0 ≤ q - r by linarith)]
    linarith
  · rw [abs_of_neg h0] at hlow
    have := key (-2 ^ 23)
    rw [show (((-2 ^ 23 : ℤ)) : ℚ) = -2 ^ 23 by norm_num] at this
    rw [abs_of_nonpos (show q - -2 ^ 23 * ulp q ≤ 0 by linarith)] at this
    rw [abs_of_nonpos (show q - r ≤ 0 by linarith)]
    linarith

theorem round32_nearest (q : ℚ) : Nearest32 q (round32 q) := by
  have hu := ulp_pos q
  by_cases hq : q = 0
  · subst hq
    refine ⟨round32_grid 0, fun r hr => ?_⟩
    rw [round32_zero]
    simp only [sub_self, abs_zero, zero_sub, abs_neg]
    exact ⟨abs_nonneg _, fun h1 h2 => absurd (abs_eq_zero.1 h1.symm) h2⟩
  refine ⟨round32_grid q, fun r hr => ?_⟩
  rcases grid_cases q r hr with ⟨n, rfl⟩ | ⟨he, hlt⟩
  · by_cases hn : n = rne (q / ulp q)
    · subst hn
      exact ⟨le_rfl, fun _ h => absurd rfl h⟩
    · have h1 := rne_err (q / ulp q)
      rw [abs_sub_comm] at h1
      have h2 := rne_near _ _ hn
      unfold round32
      rw [units, units]
      refine ⟨mul_le_mul_of_nonneg_right (h1.trans h2) hu.le, fun heq _ => ?_⟩
      have heq := mul_right_cancel₀ hu.ne' heq
      have hhalf : |q / ulp q - rne (q / ulp q)| = 1 / 2 := le_antisymm h1 (heq ▸ h2)
      exact even_round32 hq (rne_half hhalf)
  · have := round32_far hq he hlt
    exact ⟨this.le, fun h => absurd h this.ne⟩

theorem nearest_unique {q r : ℚ} (h : Nearest32 q r) : r = round32 q := by
  have hu := ulp_pos q
  have hs := round32_nearest q
  by_contra hne
  have h1 := (h.2 _ hs.1).1
  have h2 := (hs.2 _ h.1).1
  have heq := le_antisymm h1 h2
  have hq : q ≠ 0 := by
    rintro rfl
    rw [round32_zero] at hne heq
    simp only [sub_self, abs_zero, zero_sub, abs_neg] at heq
    exact hne (abs_eq_zero.1 heq)
  rcases grid_cases q r h.1 with ⟨n, hr⟩ | ⟨he, hlt⟩
  · have hn : n ≠ rne (q / ulp q) := fun e => hne (by rw [hr, e]; rfl)
    rw [hr] at heq
    unfold round32 at heq
    rw [units, units] at heq
    have heq := mul_right_cancel₀ hu.ne' heq
    have e1 := rne_err (q / ulp q)
    rw [abs_sub_comm] at e1
    have e2 := rne_near _ _ hn
    have hhalf : |q / ulp q - rne (q / ulp q)| = 1 / 2 := le_antisymm e1 (heq ▸ e2)
    have hev := rne_half hhalf
    -- `n` and `rne` are neighbours
    have hdist : |n - rne (q / ulp q)| = 1 := by
      refine le_antisymm ?_ (Int.one_le_abs (sub_ne_zero.2 hn))
      have : |(n : ℚ) - rne (q / ulp q)| ≤ 1 := by
        have := abs_sub_le (n : ℚ) (q / ulp q) (rne (q / ulp q))
        rw [abs_sub_comm (n : ℚ) (q / ulp q), heq, hhalf] at this
        linarith
      exact_mod_cast this
    have hodd : ¬ Even n := by
      rcases abs_eq (by norm_num) |>.1 hdist with h | h
      · rw [show n = rne (q / ulp q) + 1 by omega]
        exact fun h => by obtain ⟨a, ha⟩ := hev; obtain ⟨b, hb⟩ := h; omega
      · rw [show n = rne (q / ulp q) - 1 by omega]
        exact fun h => by obtain ⟨a, ha⟩ := hev; obtain ⟨b, hb⟩ := h; omega
    obtain ⟨m, e, hm, hle, hnorm, hme, hr'⟩ := (h.2 _ hs.1).2 (le_antisymm h1 h2) (Ne.symm hne)
    rw [hr] at hr'
    rcases le_or_gt (expo q - 23) e with hge | hlt
    · obtain ⟨d, hd⟩ := Int.eq_ofNat_of_zero_le (show 0 ≤ e - (expo q - 23) by omega)
      rw [show e = expo q - 23 + d by omega, two_pow_split] at hr'
      have : (n : ℚ) = m * 2 ^ d := by
        refine mul_right_cancel₀ hu.ne' ?_
        rw [hr']; unfold ulp; ring
      have : n = m * 2 ^ d := by exact_mod_cast this
      exact hodd (this ▸ hme.mul_right _)
    · have he : -126 < expo q := by omega
      have hlow := ((sig_bounds q).2 he hq).2
      have hp : (0 : ℚ) < 2 ^ e := zpow_pos (by norm_num) _
      have hm' : (|(m : ℚ)|) < 2 ^ 24 := by exact_mod_cast hm
      have h2' : (2 : ℚ) ^ (e + ((1 : ℕ) : ℤ)) ≤ ulp q :=
        zpow_le_zpow_right₀ (by norm_num) (by push_cast; omega)
      rw [two_pow_split] at h2'
      have hn23 : |(n : ℚ)| < 2 ^ 23 := by
        have : |(n : ℚ)| * ulp q = |(m : ℚ)| * 2 ^ e := by
          rw [← abs_of_pos hu, ← abs_mul, hr', abs_mul, abs_of_pos hp]
        by_contra hc
        push Not at hc
        nlinarith
      have hn23' : |n| ≤ 2 ^ 23 - 1 := by
        have : |n| < 2 ^ 23 := by exact_mod_cast hn23
        omega
      have : |(n : ℚ)| ≤ 2 ^ 23 - 1 := by exact_mod_cast hn23'
      have h3 := abs_sub_abs_le_abs_sub (q / ulp q) n
      rw [heq, hhalf] at h3
      linarith
  · exact absurd heq (round32_far hq he hlt).ne'

end BitBoost.FP
