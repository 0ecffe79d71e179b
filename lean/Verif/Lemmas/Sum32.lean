import Verif.Lemmas.Round32
import Verif.Lemmas.Objective
/-!
# Errors of sums and means in single precision
-/
namespace BitBoost
namespace FP

/-- The sum of at most 2^20 numbers of size at most `B`. -/
theorem sum32 {B : ℚ} (hB1 : 1 / 2 ^ 100 ≤ B) (hB2 : B ≤ 2 ^ 100) (l : List ℚ) (hl : ∀ x ∈ l, |x| ≤ B)
    (hn : l.length ≤ 2 ^ 20) :
    ∃ s, binary32.sum (l.map Num.fin) = .fin s ∧ |s - l.sum| ≤ (l.length : ℚ) ^ 2 * B / 2 ^ 23 ∧ |l.sum| ≤ l.length * B := by
  have hB0 : 0 < B := lt_of_lt_of_le (by norm_num) hB1
  induction l using List.reverseRecOn with
  | nil => exact ⟨0, rfl, by simp, by simp⟩
  | append_singleton l x ih =>
    obtain ⟨s, h1, h2, h3⟩ := ih (fun y hy => hl y (by simp [hy])) (by simp at hn; omega)
    have hx := hl x (by simp)
    have hn' : (l.length : ℚ) + 1 ≤ 2 ^ 20 := by
      have : l.length + 1 ≤ 2 ^ 20 := by simpa using hn
      exact_mod_cast this
    have hn0 : (0 : ℚ) ≤ l.length := by positivity
    obtain ⟨n, hnd⟩ : ∃ n : ℚ, n = l.length := ⟨_, rfl⟩
    rw [← hnd] at h2 h3 hn' hn0
    have hsum : |(l ++ [x]).sum| ≤ (n + 1) * B := by
      rw [List.sum_append, List.sum_singleton]
      have := abs_add_le l.sum x
      linarith
    have hb : |s + x| ≤ (n + 1) * B * (9 / 8) := by
      have e : s + x = (s - l.sum) + (l ++ [x]).sum := by rw [List.sum_append, List.sum_singleton]; ring
      rw [e]
      have h4 := abs_add_le (s - l.sum) (l ++ [x]).sum
      have h5 : n ^ 2 * B / 2 ^ 23 ≤ (n + 1) * B * (1 / 8) := by
        have : n * n ≤ (n + 1) * 2 ^ 20 := by nlinarith
        have h6 : n * n * B ≤ (n + 1) * 2 ^ 20 * B := mul_le_mul_of_nonneg_right this hB0.le
        rw [pow_two, div_le_iff₀ (by norm_num)]
        nlinarith
      linarith
    have hbig : (n + 1) * B * (9 / 8) ≤ 2 ^ 126 := by
      have : (n + 1) * B ≤ 2 ^ 20 * 2 ^ 100 := mul_le_mul hn' hB2 hB0.le (by norm_num)
      have e : (2 : ℚ) ^ 20 * 2 ^ 100 * (9 / 8) ≤ 2 ^ 126 := by norm_num
      linarith
    obtain ⟨r, hr, her⟩ := step32 hb hbig
    refine ⟨r, ?_, ?_, ?_⟩
    · rw [List.map_append, FP.sum, List.foldl_append]
      have : List.foldl binary32.add (.fin 0) (l.map Num.fin) = .fin s := h1
      rw [this]
      exact hr
    · rw [List.sum_append, List.sum_singleton, List.length_append, List.length_singleton]
      push_cast
      rw [← hnd]
      have e : r - (l.sum + x) = (r - (s + x)) + (s - l.sum) := by ring
      rw [e]
      have h4 := abs_add_le (r - (s + x)) (s - l.sum)
      have h5 : (1 : ℚ) / 2 ^ 150 ≤ (n + 1) * B / 2 ^ 40 := by
        have : 1 * (1 / 2 ^ 100) ≤ (n + 1) * B := mul_le_mul (by linarith) hB1 (by norm_num) (by linarith)
        rw [le_div_iff₀ (by norm_num)]
        refine le_trans ?_ this
        norm_num
      have h6 : (0 : ℚ) ≤ n * B := mul_nonneg hn0 hB0.le
      have h7 : (n + 1) ^ 2 * B / 2 ^ 23 = n ^ 2 * B / 2 ^ 23 + (2 * (n * B) + B) / 2 ^ 23 := by ring
      rw [h7]
      have h8 : (n + 1) * B = n * B + B := by ring
      rw [h8] at her h5
      have h9 : (n * B + B) * (9 / 8) / 2 ^ 24 + (n * B + B) / 2 ^ 40 ≤ (2 * (n * B) + B) / 2 ^ 23 := by
        have : (2 * (n * B) + B) / 2 ^ 23 - ((n * B + B) * (9 / 8) / 2 ^ 24 + (n * B + B) / 2 ^ 40) =
          n * B * (2 / 2 ^ 23 - 9 / 8 / 2 ^ 24 - 1 / 2 ^ 40) + B * (1 / 2 ^ 23 - 9 / 8 / 2 ^ 24 - 1 / 2 ^ 40) := by ring
        have h10 : 0 ≤ n * B * (2 / 2 ^ 23 - 9 / 8 / 2 ^ 24 - 1 / 2 ^ 40) := mul_nonneg h6 (by norm_num)
        have h11 : 0 ≤ B * (1 / 2 ^ 23 - 9 / 8 / 2 ^ 24 - 1 / 2 ^ 40) := mul_nonneg hB0.le (by norm_num)
        linarith
      linarith
    · rw [List.length_append, List.length_singleton]
      push_cast
      rw [← hnd]
      exact hsum

/-- The mean of at most 2^20 numbers of size at most `B`. -/
theorem mean32 {B : ℚ} (hB1 : 1 / 2 ^ 100 ≤ B) (hB2 : B ≤ 2 ^ 100) (l : List ℚ) (hl : ∀ x ∈ l, |x| ≤ B)
    (hn : l.length ≤ 2 ^ 20) (hne : l ≠ []) :
    ∃ m, binary32.div (binary32.sum (l.map Num.fin)) (binary32.ofNat l.length) = .fin m ∧
      |m - l.sum / l.length| ≤ (l.length + 1) * B / 2 ^ 23 ∧ |m| ≤ 2 * B := by
  have hB0 : 0 < B := lt_of_lt_of_le (by norm_num) hB1
  obtain ⟨s, h1, h2, h3⟩ := sum32 hB1 hB2 l hl hn
  have hpos : (1 : ℚ) ≤ l.length := by exact_mod_cast List.length_pos_of_ne_nil hne
  have hn' : (l.length : ℚ) ≤ 2 ^ 20 := by exact_mod_cast hn
  have hof : binary32.ofNat l.length = .fin l.length :=
    binary32.ofNat_eq (hn.trans (by norm_num))
  obtain ⟨n, hnd⟩ : ∃ n : ℚ, n = l.length := ⟨_, rfl⟩
  rw [hof, h1]
  rw [← hnd] at h2 h3 hpos hn' ⊢
  have hn0 : 0 < n := by linarith
  have hdiv : |s / n - l.sum / n| ≤ n * B / 2 ^ 23 := by
    rw [← sub_div, abs_div, abs_of_pos hn0, div_le_iff₀ hn0]
    calc |s - l.sum| ≤ n ^ 2 * B / 2 ^ 23 := h2
      _ = n * B / 2 ^ 23 * n := by ring
  have hmean : |l.sum / n| ≤ B := by
    rw [abs_div, abs_of_pos hn0, div_le_iff₀ hn0]; linarith
  have hnB : n * B / 2 ^ 23 ≤ B / 8 := by
    rw [div_le_div_iff₀ (by norm_num) (by norm_num)]
    nlinarith
  have hq : |s / n| ≤ B * (9 / 8) := by
    have e : s / n = (s / n - l.sum / n) + l.sum / n := by ring
    rw [e]
    have := abs_add_le (s / n - l.sum / n) (l.sum / n)
    linarith
  obtain ⟨r, hr, her⟩ := step32 hq (by
    have : (2 : ℚ) ^ 100 * (9 / 8) ≤ 2 ^ 126 := by norm_num
    linarith)
  have htiny : (1 : ℚ) / 2 ^ 150 ≤ B / 2 ^ 40 := by
    rw [le_div_iff₀ (by norm_num)]
    refine le_trans ?_ hB1
    norm_num
  refine ⟨r, ?_, ?_, ?_⟩
  · rw [FP.div_fin _ hn0.ne']; exact hr
  · have e : r - l.sum / n = (r - s / n) + (s / n - l.sum / n) := by ring
    rw [e]
    have := abs_add_le (r - s / n) (s / n - l.sum / n)
    have e2 : (n + 1) * B / 2 ^ 23 = n * B / 2 ^ 23 + B / 2 ^ 23 := by ring
    rw [e2]
    linarith
  · have e : r = (r - s / n) + s / n := by ring
    rw [e]
    have := abs_add_le (r - s / n) (s / n)
    linarith

end FP
end BitBoost
