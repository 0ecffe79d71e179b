import Verif.Lemmas.Sum32
/-!
# Errors of sums and means in single precision, relative to the mean absolute value
-/
namespace BitBoost
namespace FP

theorem abs_sum_le (l : List ℚ) : |l.sum| ≤ (l.map abs).sum := by
  induction l with
  | nil => simp
  | cons x l ih =>
    simp only [List.sum_cons, List.map_cons]
    have := abs_add_le x l.sum
    linarith

theorem sum_abs_nonneg (l : List ℚ) : 0 ≤ (l.map abs).sum := (abs_nonneg _).trans (abs_sum_le l)

/-- The sum of at most 2^20 numbers. -/
theorem sumRel32 (l : List ℚ) (hA : (l.map abs).sum ≤ 2 ^ 124) (hn : l.length ≤ 2 ^ 20) :
    ∃ s, binary32.sum (l.map Num.fin) = .fin s ∧
      |s - l.sum| ≤ (l.length : ℚ) * ((l.map abs).sum / 2 ^ 23) + l.length / 2 ^ 149 := by
  induction l using List.reverseRecOn with
  | nil => exact ⟨0, rfl, by simp⟩
  | append_singleton l x ih =>
    have e0 : ((l ++ [x]).map abs).sum = (l.map abs).sum + |x| := by simp
    rw [e0] at hA ⊢
    have hx0 := abs_nonneg x
    have hA0 := sum_abs_nonneg l
    obtain ⟨s, h1, h2⟩ := ih (by linarith) (by simp at hn; omega)
    have hl := abs_sum_le l
    have hn' : (l.length : ℚ) + 1 ≤ 2 ^ 20 := by
      have : l.length + 1 ≤ 2 ^ 20 := by simpa using hn
      exact_mod_cast this
    have hn0 : (0 : ℚ) ≤ l.length := by positivity
    rw [List.length_append, List.length_singleton, List.sum_append, List.sum_singleton]
    push_cast
    generalize (l.length : ℚ) = n at *
    generalize (l.map abs).sum = A at *
    have hnA : n * A ≤ 2 ^ 20 * A := mul_le_mul_of_nonneg_right (by linarith) hA0
    have hb : |s + x| ≤ (A + |x|) * (9 / 8) + 1 / 2 ^ 129 := by
      have e : s + x = (s - l.sum) + (l.sum + x) := by ring
      rw [e]
      have h4 := abs_add_le (s - l.sum) (l.sum + x)
      have h5 := abs_add_le l.sum x
      have h6 : n * (A / 2 ^ 23) ≤ A / 8 := by
        have : n * (A / 2 ^ 23) = n * A / 2 ^ 23 := by ring
        rw [this, div_le_div_iff₀ (by norm_num) (by norm_num)]
        linarith
      have h7 : n / 2 ^ 149 ≤ 1 / 2 ^ 129 := by
        rw [div_le_div_iff₀ (by norm_num) (by norm_num)]
        linarith
      linarith
    obtain ⟨r, hr, her⟩ := step32 hb (by
      have : (2 : ℚ) ^ 124 * (9 / 8) + 1 / 2 ^ 129 ≤ 2 ^ 126 := by norm_num
      linarith)
    refine ⟨r, ?_, ?_⟩
    · rw [List.map_append, FP.sum, List.foldl_append]
      have : List.foldl binary32.add (.fin 0) (l.map Num.fin) = .fin s := h1
      rw [this]
      exact hr
    · have e : r - (l.sum + x) = (r - (s + x)) + (s - l.sum) := by ring
      rw [e]
      have h4 := abs_add_le (r - (s + x)) (s - l.sum)
      have h5 : (n + 1) * ((A + |x|) / 2 ^ 23) = n * (A / 2 ^ 23) + n * |x| / 2 ^ 23 + (A + |x|) / 2 ^ 23 := by ring
      have h6 : 0 ≤ n * |x| / 2 ^ 23 := by positivity
      have h7 : (n + 1) / 2 ^ 149 = n / 2 ^ 149 + 1 / 2 ^ 149 := by ring
      rw [h5, h7]
      have h8 : ((A + |x|) * (9 / 8) + 1 / 2 ^ 129) / 2 ^ 24 + 1 / 2 ^ 150 ≤ (A + |x|) / 2 ^ 23 + 1 / 2 ^ 149 := by
        have : (A + |x|) / 2 ^ 23 + 1 / 2 ^ 149 - (((A + |x|) * (9 / 8) + 1 / 2 ^ 129) / 2 ^ 24 + 1 / 2 ^ 150) =
          (A + |x|) * (1 / 2 ^ 23 - 9 / 8 / 2 ^ 24) + (1 / 2 ^ 149 - 1 / 2 ^ 129 / 2 ^ 24 - 1 / 2 ^ 150) := by ring
        have h10 : 0 ≤ (A + |x|) * (1 / 2 ^ 23 - 9 / 8 / 2 ^ 24) := mul_nonneg (by linarith) (by norm_num)
        have h11 : (0 : ℚ) ≤ 1 / 2 ^ 149 - 1 / 2 ^ 129 / 2 ^ 24 - 1 / 2 ^ 150 := by norm_num
        linarith
      linarith

/-- The mean of at most 2^20 numbers, of mean absolute value at most `A`. -/
theorem meanRel32 {A : ℚ} (l : List ℚ) (hAl : (l.map abs).sum ≤ l.length * A) (hA : A ≤ 2 ^ 104)
    (hn : l.length ≤ 2 ^ 20) (hne : l ≠ []) :
    ∃ m, binary32.div (binary32.sum (l.map Num.fin)) (binary32.ofNat l.length) = .fin m ∧
      |m - l.sum / l.length| ≤ (l.length + 1) * (A / 2 ^ 23) + 1 / 2 ^ 148 ∧ |m| ≤ 5 / 4 * A + 1 / 2 ^ 148 := by
  have hpos : (1 : ℚ) ≤ l.length := by exact_mod_cast List.length_pos_of_ne_nil hne
  have hn' : (l.length : ℚ) ≤ 2 ^ 20 := by exact_mod_cast hn
  have hS0 := sum_abs_nonneg l
  have hA0 : 0 ≤ A := by
    by_contra h
    have : (l.length : ℚ) * A < 0 := mul_neg_of_pos_of_neg (by linarith) (by linarith)
    linarith
  have hbig : (l.length : ℚ) * A ≤ 2 ^ 20 * 2 ^ 104 := mul_le_mul hn' hA hA0 (by norm_num)
  obtain ⟨s, h1, h2⟩ := sumRel32 l (by
    have : (2 : ℚ) ^ 20 * 2 ^ 104 ≤ 2 ^ 124 := by norm_num
    linarith) hn
  have hl := abs_sum_le l
  have hof : binary32.ofNat l.length = .fin l.length := binary32.ofNat_eq (hn.trans (by norm_num))
  rw [hof, h1]
  generalize (l.length : ℚ) = n at *
  generalize (l.map abs).sum = S at *
  generalize l.sum = q at *
  have hn0 : 0 < n := by linarith
  have hdiv : |s / n - q / n| ≤ n * (A / 2 ^ 23) + 1 / 2 ^ 149 := by
    rw [← sub_div, abs_div, abs_of_pos hn0, div_le_iff₀ hn0]
    have h3 : S / 2 ^ 23 ≤ n * A / 2 ^ 23 := div_le_div_of_nonneg_right hAl (by norm_num)
    have h4 : n * (S / 2 ^ 23) ≤ n * (n * A / 2 ^ 23) := mul_le_mul_of_nonneg_left h3 hn0.le
    have e : (n * (A / 2 ^ 23) + 1 / 2 ^ 149) * n = n * (n * A / 2 ^ 23) + n / 2 ^ 149 := by ring
    rw [e]
    linarith
  have hmean : |q / n| ≤ A := by
    rw [abs_div, abs_of_pos hn0, div_le_iff₀ hn0]; linarith
  have hnB : n * (A / 2 ^ 23) ≤ A / 8 := by
    have : n * A ≤ 2 ^ 20 * A := mul_le_mul_of_nonneg_right hn' hA0
    have e : n * (A / 2 ^ 23) = n * A / 2 ^ 23 := by ring
    rw [e, div_le_div_iff₀ (by norm_num) (by norm_num)]
    linarith
  have hq : |s / n| ≤ A * (9 / 8) + 1 / 2 ^ 149 := by
    have e : s / n = (s / n - q / n) + q / n := by ring
    rw [e]
    have := abs_add_le (s / n - q / n) (q / n)
    linarith
  obtain ⟨r, hr, her⟩ := step32 hq (by
    have : (2 : ℚ) ^ 104 * (9 / 8) + 1 / 2 ^ 149 ≤ 2 ^ 126 := by norm_num
    linarith)
  refine ⟨r, by rw [FP.div_fin _ hn0.ne']; exact hr, ?_, ?_⟩
  · have e : r - q / n = (r - s / n) + (s / n - q / n) := by ring
    rw [e]
    have := abs_add_le (r - s / n) (s / n - q / n)
    have e2 : (n + 1) * (A / 2 ^ 23) = n * (A / 2 ^ 23) + A / 2 ^ 23 := by ring
    rw [e2]
    have h5 : (A * (9 / 8) + 1 / 2 ^ 149) / 2 ^ 24 + 1 / 2 ^ 150 + 1 / 2 ^ 149 ≤ A / 2 ^ 23 + 1 / 2 ^ 148 := by
      have : (1 : ℚ) / 2 ^ 149 / 2 ^ 24 + 1 / 2 ^ 150 + 1 / 2 ^ 149 ≤ 1 / 2 ^ 148 := by norm_num
      have e3 : (A * (9 / 8) + 1 / 2 ^ 149) / 2 ^ 24 = A * (9 / 8) / 2 ^ 24 + 1 / 2 ^ 149 / 2 ^ 24 := by ring
      rw [e3]
      linarith
    linarith
  · have e : r = (r - s / n) + s / n := by ring
    rw [e]
    have := abs_add_le (r - s / n) (s / n)
    have h5 : (A * (9 / 8) + 1 / 2 ^ 149) / 2 ^ 24 + 1 / 2 ^ 150 + (A * (9 / 8) + 1 / 2 ^ 149) ≤ 5 / 4 * A + 1 / 2 ^ 148 := by
      have : (1 : ℚ) / 2 ^ 149 / 2 ^ 24 + 1 / 2 ^ 150 + 1 / 2 ^ 149 ≤ 1 / 2 ^ 148 := by norm_num
      have e3 : (A * (9 / 8) + 1 / 2 ^ 149) / 2 ^ 24 = A * (9 / 8) / 2 ^ 24 + 1 / 2 ^ 149 / 2 ^ 24 := by ring
      rw [e3]
      linarith
    linarith

end FP
end BitBoost
