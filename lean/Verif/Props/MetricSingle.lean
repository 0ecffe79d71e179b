import Verif.Props.GradSingle
import Mathlib.Analysis.Complex.ExponentialBounds
/-!
# C51: the log loss metric in single precision
-/
namespace BitBoost.Props
open BitBoost Spec

private theorem log_close {a b s : ℝ} (hb : 0 < b) (hs : s ≤ 1 / 2) (h1 : b * (1 - s) ≤ a) (h2 : a ≤ b * (1 + s)) :
    |Real.log a - Real.log b| ≤ 2 * s := by
  have ha : 0 < a := lt_of_lt_of_le (mul_pos hb (by linarith)) h1
  have hs0 : 0 ≤ s := by nlinarith
  rw [abs_le]
  constructor
  · have := Real.log_le_sub_one_of_pos (div_pos hb ha)
    rw [Real.log_div hb.ne' ha.ne'] at this
    have h3 : b / a ≤ 1 + 2 * s := by
      rw [div_le_iff₀ ha]
      nlinarith
    linarith
  · have := Real.log_le_sub_one_of_pos (div_pos ha hb)
    rw [Real.log_div ha.ne' hb.ne'] at this
    have h3 : a / b ≤ 1 + s := by
      rw [div_le_iff₀ hb]
      linarith
    linarith

private theorem softplus_lip (x y : ℝ) : |Real.log (1 + Real.exp x) - Real.log (1 + Real.exp y)| ≤ |x - y| := by
  have key : ∀ x y : ℝ, Real.log (1 + Real.exp x) ≤ |x - y| + Real.log (1 + Real.exp y) := by
    intro x y
    have hy := Real.exp_pos y
    have hx := Real.exp_pos x
    rw [← Real.log_exp (|x - y|), ← Real.log_mul (Real.exp_ne_zero _) (by linarith)]
    apply Real.log_le_log (by linarith)
    have h1 : 1 ≤ Real.exp |x - y| := Real.one_le_exp (abs_nonneg _)
    have h2 : Real.exp x ≤ Real.exp |x - y| * Real.exp y := by
      rw [← Real.exp_add]
      exact Real.exp_le_exp.2 (by linarith [le_abs_self (x - y)])
    nlinarith
  rw [abs_le]
  have h1 := key x y
  have h2 := key y x
  rw [abs_sub_comm] at h2
  constructor <;> linarith

private theorem exp65 {x : ℝ} (h : x ≤ 65) : Real.exp x ≤ 2 ^ 94 := by
  have h1 : Real.exp x ≤ Real.exp 65 := Real.exp_le_exp.2 h
  have h2 : Real.exp 65 = Real.exp 1 ^ 65 := by rw [← Real.exp_nat_mul]; norm_num
  have h3 : Real.exp 1 ^ 65 ≤ (2.7182818286 : ℝ) ^ 65 :=
    pow_le_pow_left₀ (Real.exp_pos _).le Real.exp_one_lt_d9.le 65
  have h4 : (2.7182818286 : ℝ) ^ 65 ≤ 2 ^ 94 := by norm_num
  linarith

private theorem one32 (M : Libm) (d e : ℚ) (hd : d ≤ 1 / 8) (hd0 : 0 ≤ d)
    (hexp : ∀ x : ℚ, |x| ≤ 65 → ∃ r : ℚ, M.exp (.fin x) = .fin r ∧ |(r : ℝ) - Real.exp x| ≤ d * Real.exp x)
    (hln : ∀ x : ℚ, 1 ≤ x → x ≤ 2 ^ 100 → ∃ r : ℚ, M.ln (.fin x) = .fin r ∧ |(r : ℝ) - Real.log x| ≤ e) (t p : ℚ) :
    ∃ y : ℚ, (t = 0 ∨ t = 1) ∧ |p| ≤ 32 → Metric.binaryLossOne .binary32 M (.fin t) (.fin p) = .fin y ∧
      |(y : ℝ) - Real.log (1 + Real.exp (-2 * (2 * t - 1) * p))| ≤ 2 * d + e + 67 / 2 ^ 23 := by
  by_cases hb : (t = 0 ∨ t = 1) ∧ |p| ≤ 32
  swap
  · exact ⟨0, fun hc => absurd hc hb⟩
  obtain ⟨ht, hp⟩ := hb
  set y : ℚ := 2 * t - 1 with hy
  have hy1 : y = 1 ∨ y = -1 := by rcases ht with rfl | rfl <;> norm_num [hy]
  have hint : ∀ n : ℤ, |n| ≤ 2 ^ 24 → FP.binary32.rnd (n : ℚ) = .fin n := FP.binary32.int
  have ry : FP.binary32.rnd y = .fin y := by
    rcases hy1 with h | h <;> rw [h]
    · exact_mod_cast hint 1 (by norm_num)
    · exact_mod_cast hint (-1) (by norm_num)
  have r2t : FP.binary32.rnd (2 * t) = .fin (2 * t) := by
    rcases ht with h | h <;> rw [h]
    · simpa using FP.binary32.rnd_zero
    · have := hint 2 (by norm_num); norm_num at this ⊢; exact this
  have r2y : FP.binary32.rnd (-2 * y) = .fin (-2 * y) := by
    rcases hy1 with h | h <;> rw [h]
    · have := hint (-2) (by norm_num); norm_num at this ⊢; exact this
    · have := hint 2 (by norm_num); norm_num at this ⊢; exact this
  have hx : |-2 * y * p| ≤ 64 := by
    have : |-2 * y * p| = 2 * |p| := by
      rw [abs_mul]
      rcases hy1 with h | h <;> rw [h] <;> norm_num
    linarith
  obtain ⟨x, x1, x2⟩ := FP.step32 hx (by norm_num)
  have hx65 : |x| ≤ 65 := by
    have := abs_add_le (x - -2 * y * p) (-2 * y * p)
    rw [sub_add_cancel] at this
    linarith [show (64 : ℚ) / 2 ^ 24 + 1 / 2 ^ 150 ≤ 1 by norm_num]
  obtain ⟨r, r1, r2⟩ := hexp x hx65
  have hxR : |(x : ℝ)| ≤ 65 := by exact_mod_cast hx65
  have hE0 := Real.exp_pos (x : ℝ)
  have hE := exp65 (le_trans (le_abs_self _) hxR)
  have hdR : (d : ℝ) ≤ 1 / 8 := by
    have : ((d : ℚ) : ℝ) ≤ ((1 / 8 : ℚ) : ℝ) := by exact_mod_cast hd
    push_cast at this
    exact this
  have hdR0 : (0 : ℝ) ≤ d := by exact_mod_cast hd0
  rw [abs_le] at r2
  have hr0R : (0 : ℝ) ≤ r := by nlinarith [r2.1]
  have hr0 : 0 ≤ r := by exact_mod_cast hr0R
  have hr1R : (r : ℝ) ≤ 2 ^ 95 := by nlinarith [r2.2]
  have hr1 : r ≤ 2 ^ 95 := by exact_mod_cast hr1R
  obtain ⟨s, s1, s2, s3, s4⟩ := FP.binary32_err_pos (q := 1 + r) (by linarith)
    (by linarith [show (2 : ℚ) ^ 95 + 1 ≤ 2 ^ 126 by norm_num])
  have hs1 : 1 ≤ s := by
    have h1 := FP.binary32.mono 1 (1 + r) (by linarith)
    rw [s1, FP.binary32.rnd_one] at h1
    simpa [Num.le] using h1
  have hs2 : s ≤ 2 ^ 100 := by
    norm_num at s4 ⊢
    linarith
  obtain ⟨l, l1, l2⟩ := hln s hs1 hs2
  refine ⟨l, fun _ => ⟨?_, ?_⟩⟩
  · simp only [Metric.binaryLossOne, FP.mul_fin, r2t, FP.sub_fin]
    rw [← hy, ry]
    simp only [FP.mul_fin, r2y, x1, r1, FP.add_fin, s1, l1]
  · have a1 : |Real.log (s : ℝ) - Real.log (1 + r)| ≤ 2 * (1 / 2 ^ 23 / 2 + 1 / 2 ^ 140) := by
      have s3R : (1 + (r : ℝ)) * (1 - 1 / 2 ^ 24) - 1 / 2 ^ 150 ≤ s := by
        have : (((1 + r) * (1 - 1 / 2 ^ 24) - 1 / 2 ^ 150 : ℚ) : ℝ) ≤ (s : ℝ) := by exact_mod_cast s3
        push_cast at this
        exact this
      have s4R : (s : ℝ) ≤ (1 + (r : ℝ)) * (1 + 1 / 2 ^ 24) + 1 / 2 ^ 150 := by
        have : (s : ℝ) ≤ (((1 + r) * (1 + 1 / 2 ^ 24) + 1 / 2 ^ 150 : ℚ) : ℝ) := by exact_mod_cast s4
        push_cast at this
        exact this
      apply log_close (by linarith) (by norm_num)
      · norm_num at s3R ⊢
        nlinarith
      · norm_num at s4R ⊢
        nlinarith
    have a2 : |Real.log (1 + (r : ℝ)) - Real.log (1 + Real.exp x)| ≤ 2 * d := by
      apply log_close (by linarith) (by linarith)
      · nlinarith [r2.1]
      · nlinarith [r2.2]
    have a3 := softplus_lip x (-2 * (y : ℝ) * p)
    have x2R : |(x : ℝ) - -2 * y * p| ≤ 64 / 2 ^ 24 + 1 / 2 ^ 150 := by
      have : ((|x - -2 * y * p| : ℚ) : ℝ) ≤ ((64 / 2 ^ 24 + 1 / 2 ^ 150 : ℚ) : ℝ) := by exact_mod_cast x2
      push_cast at this
      exact this
    have hyR : (2 * (t : ℝ) - 1) = y := by rw [hy]; push_cast; ring
    rw [hyR]
    have b1 := abs_sub_le (l : ℝ) (Real.log s) (Real.log (1 + r))
    have b2 := abs_sub_le (l : ℝ) (Real.log (1 + r)) (Real.log (1 + Real.exp x))
    have b3 := abs_sub_le (l : ℝ) (Real.log (1 + Real.exp x)) (Real.log (1 + Real.exp (-2 * (y : ℝ) * p)))
    have hn : (2 : ℝ) * (1 / 2 ^ 23 / 2 + 1 / 2 ^ 140) + (64 / 2 ^ 24 + 1 / 2 ^ 150) ≤ 67 / 2 ^ 23 := by norm_num
    linarith

/-- In single precision `BinaryLoss` is within `2 d + e + (68 n + 140) / 2^23` of the mean log loss `ln (1 + exp (-2 y p))`,
`y = 2 t - 1`, for labels 0 and 1 and predictions up to 32, where `d` is the relative error of the library's `exp` and `e` the
error of its `ln`. -/
theorem C51_binary_loss_f32 (M : Libm) (d e : ℚ) (hd : d ≤ 1 / 8) (hd0 : 0 ≤ d) (he : e ≤ 1 / 8)
    (hexp : ∀ x : ℚ, |x| ≤ 65 → ∃ r : ℚ, M.exp (.fin x) = .fin r ∧ |(r : ℝ) - Real.exp x| ≤ d * Real.exp x)
    (hln : ∀ x : ℚ, 1 ≤ x → x ≤ 2 ^ 100 → ∃ r : ℚ, M.ln (.fin x) = .fin r ∧ |(r : ℝ) - Real.log x| ≤ e)
    (ts ps : List ℚ) (h : ts.length = ps.length) (hne : ts ≠ []) (ht : ∀ t ∈ ts, t = 0 ∨ t = 1) (hp : ∀ p ∈ ps, |p| ≤ 32)
    (hn : ts.length ≤ 2 ^ 20) :
    ∃ m : ℚ, Metric.eval .binary32 M .binaryLoss (column ts) (column ps) = .fin m ∧
      |(m : ℝ) - (List.zipWith (fun t p : ℚ => Real.log (1 + Real.exp (-2 * (2 * t - 1) * p))) ts ps).sum / ts.length| ≤
        2 * d + e + (68 * ts.length + 140) / 2 ^ 23 := by
  have hone := one32 M d e hd hd0 hexp hln
  choose Y hY using hone
  have hmem : ∀ tp ∈ ts.zip ps, (tp.1 = 0 ∨ tp.1 = 1) ∧ |tp.2| ≤ 32 := by
    rintro ⟨t, p⟩ htp
    exact ⟨ht t (List.of_mem_zip htp).1, hp p (List.of_mem_zip htp).2⟩
  have e1 := evalMean_fin .binary32 (Metric.binaryLossOne .binary32 M) Y (fun t p => (t = 0 ∨ t = 1) ∧ |p| ≤ 32)
    (fun t p hb => (hY t p hb).1) ts ps h hmem
  have hlen : (List.zipWith Y ts ps).length = ts.length := by simp [h]
  have hsmall : 2 * (d : ℝ) + e ≤ 3 / 8 := by
    have : ((2 * d + e : ℚ) : ℝ) ≤ ((3 / 8 : ℚ) : ℝ) := by exact_mod_cast (by linarith : 2 * d + e ≤ 3 / 8)
    push_cast at this
    exact this
  have hYB : ∀ x ∈ List.zipWith Y ts ps, |x| ≤ 68 := by
    intro x hx
    rw [← List.map_uncurry_zip_eq_zipWith, List.mem_map] at hx
    obtain ⟨⟨t, p⟩, htp, hx⟩ := hx
    have hx : Y t p = x := hx
    rw [← hx]
    obtain ⟨h0, h1⟩ := hmem (t, p) htp
    have h2 := (hY t p ⟨h0, h1⟩).2
    have hp1 : |(p : ℝ)| ≤ 32 := by exact_mod_cast h1
    have hx64 : |(-2 * (2 * t - 1) * p : ℝ) - 0| ≤ 64 := by
      have : |(-2 * (2 * t - 1) * p : ℝ)| = 2 * |(p : ℝ)| := by
        rw [abs_mul]
        rcases h0 with h0 | h0 <;> simp only at h0 <;> rw [h0] <;> norm_num
      rw [sub_zero, this]
      linarith
    have h3 := softplus_lip (-2 * (2 * t - 1) * p) 0
    rw [Real.exp_zero, show (1 : ℝ) + 1 = 2 by norm_num] at h3
    have hl2 : |Real.log 2| ≤ 1 := by
      rw [abs_of_nonneg (Real.log_nonneg (by norm_num))]
      linarith [Real.log_two_lt_d9]
    have hR : |(Y t p : ℝ)| ≤ 68 := by
      have c1 := abs_add_le ((Y t p : ℝ) - Real.log (1 + Real.exp (-2 * (2 * t - 1) * p))) (Real.log (1 + Real.exp (-2 * (2 * t - 1) * p)))
      have c2 := abs_add_le (Real.log (1 + Real.exp (-2 * (2 * t - 1) * p)) - Real.log 2) (Real.log 2)
      rw [sub_add_cancel] at c1 c2
      have : (67 : ℝ) / 2 ^ 23 ≤ 1 / 8 := by norm_num
      linarith
    exact_mod_cast hR
  obtain ⟨m, hm1, hm2, _⟩ := FP.mean32 (B := 68) (by norm_num) (by norm_num) (List.zipWith Y ts ps) hYB (by rw [hlen]; exact hn)
    (by intro hc; rw [hc] at hlen; exact hne (List.eq_nil_of_length_eq_zero hlen.symm))
  refine ⟨m, ?_, ?_⟩
  · show Metric.evalMean .binary32 (Metric.binaryLossOne .binary32 M) (column ts) (column ps) = _
    rw [e1, hm1]
  · rw [hlen] at hm2
    have hpos : (0 : ℝ) < ts.length := by exact_mod_cast List.length_pos_of_ne_nil hne
    have key : ∀ (ts ps : List ℚ), ts.length = ps.length → (∀ tp ∈ ts.zip ps, (tp.1 = 0 ∨ tp.1 = 1) ∧ |tp.2| ≤ 32) →
        |(((List.zipWith Y ts ps).sum : ℚ) : ℝ) -
          (List.zipWith (fun t p : ℚ => Real.log (1 + Real.exp (-2 * (2 * t - 1) * p))) ts ps).sum| ≤
          (2 * d + e + 67 / 2 ^ 23) * ts.length := by
      intro ts
      induction ts with
      | nil => intro ps _ _; simp
      | cons t ts ih =>
        intro ps hl hP
        cases ps with
        | nil => simp at hl
        | cons p ps =>
          have h1 := ih ps (by simpa using hl) (fun tp htp => hP tp (by simp [htp]))
          have h2 := (hY t p (hP (t, p) (by simp))).2
          simp only [List.zipWith_cons_cons, List.sum_cons, List.length_cons]
          rw [Rat.cast_add]
          rw [Nat.cast_succ]
          generalize (((List.zipWith Y ts ps).sum : ℚ) : ℝ) = S at *
          generalize (List.zipWith (fun t p : ℚ => Real.log (1 + Real.exp (-2 * (2 * t - 1) * p))) ts ps).sum = T at *
          generalize Real.log (1 + Real.exp (-2 * (2 * t - 1) * p)) = L at *
          have h3 := abs_add_le ((Y t p : ℝ) - L) (S - T)
          rw [show (Y t p : ℝ) + S - (L + T) = (Y t p : ℝ) - L + (S - T) by ring]
          linarith
    have hk := key ts ps h hmem
    generalize (List.zipWith (fun t p : ℚ => Real.log (1 + Real.exp (-2 * (2 * t - 1) * p))) ts ps).sum = T at *
    have hmR : |(m : ℝ) - ((List.zipWith Y ts ps).sum : ℚ) / ts.length| ≤ (ts.length + 1) * 68 / 2 ^ 23 := by
      have : ((|m - (List.zipWith Y ts ps).sum / ts.length| : ℚ) : ℝ) ≤ (((ts.length + 1) * 68 / 2 ^ 23 : ℚ) : ℝ) := by
        exact_mod_cast hm2
      push_cast at this ⊢
      exact this
    generalize (((List.zipWith Y ts ps).sum : ℚ) : ℝ) = S at *
    have hdiv : |S / ts.length - T / ts.length| ≤ 2 * d + e + 67 / 2 ^ 23 := by
      rw [← sub_div, abs_div, abs_of_pos hpos, div_le_iff₀ hpos]
      exact hk
    have := abs_sub_le (m : ℝ) (S / ts.length) (T / ts.length)
    generalize (ts.length : ℝ) = n at *
    linarith

/-- There are functions `exp` and `ln` as accurate as one likes, so the hypotheses of `C51_binary_loss_f32` can be met. -/
theorem accurate_libm (d e : ℚ) (hd : 0 < d) (he : 0 < e) : ∃ M : Libm,
    (∀ x : ℚ, |x| ≤ 65 → ∃ r : ℚ, M.exp (.fin x) = .fin r ∧ |(r : ℝ) - Real.exp x| ≤ d * Real.exp x) ∧
    ∀ x : ℚ, 1 ≤ x → x ≤ 2 ^ 100 → ∃ r : ℚ, M.ln (.fin x) = .fin r ∧ |(r : ℝ) - Real.log x| ≤ e := by
  have h1 : ∀ x : ℚ, ∃ r : ℚ, |(r : ℝ) - Real.exp x| ≤ d * Real.exp x := by
    intro x
    have hpos : (0 : ℝ) < d * Real.exp x := mul_pos (by exact_mod_cast hd) (Real.exp_pos _)
    obtain ⟨r, hr⟩ := exists_rat_near (Real.exp x) hpos
    exact ⟨r, by rw [abs_sub_comm]; exact hr.le⟩
  have h2 : ∀ x : ℚ, ∃ r : ℚ, |(r : ℝ) - Real.log x| ≤ e := by
    intro x
    obtain ⟨r, hr⟩ := exists_rat_near (Real.log x) (ε := (e : ℝ)) (by exact_mod_cast he)
    exact ⟨r, by rw [abs_sub_comm]; exact hr.le⟩
  choose ex hex using h1
  choose lo hlo using h2
  exact ⟨⟨fun v => match v with | .fin x => .fin (ex x) | v => v, fun v => match v with | .fin x => .fin (lo x) | v => v, id⟩,
    fun x _ => ⟨ex x, rfl, hex x⟩, fun x _ _ => ⟨lo x, rfl, hlo x⟩⟩

/-- C51: labels 0, 1, 1 and predictions -1, 1/2, 3. -/
example : ∃ M : Libm, ∃ m : ℚ, Metric.eval .binary32 M .binaryLoss (column [0, 1, 1]) (column [-1, 1 / 2, 3]) = .fin m ∧
    |(m : ℝ) - (List.zipWith (fun t p : ℚ => Real.log (1 + Real.exp (-2 * (2 * t - 1) * p))) [0, 1, 1] [-1, 1 / 2, 3]).sum / 3| ≤
      1 / 1000 := by
  obtain ⟨M, h1, h2⟩ := accurate_libm (1 / 10000) (1 / 10000) (by norm_num) (by norm_num)
  obtain ⟨m, e, h⟩ := C51_binary_loss_f32 M (1 / 10000) (1 / 10000) (by norm_num) (by norm_num) (by norm_num) h1 h2
    [0, 1, 1] [-1, 1 / 2, 3] rfl (by simp) (by simp) (by norm_num) (by norm_num)
  refine ⟨M, m, e, ?_⟩
  rw [show (([0, 1, 1] : List ℚ).length : ℝ) = 3 by norm_num] at h
  refine h.trans ?_
  norm_num

end BitBoost.Props
