import Verif.Lemmas.Round32
import Verif.Lemmas.Binner
/-!
# Errors of quantiles in single precision
-/
namespace BitBoost
namespace FP

/-- The width of a bin: 1024 bins between `l` and `h`. -/
theorem width32 {l h : ℚ} (hW1 : 1 / 2 ^ 60 ≤ h - l) (hW2 : h - l ≤ 2 ^ 61) :
    ∃ δ, binary32.div (binary32.rnd (h - l)) (binary32.rnd 1024) = .fin δ ∧
      |δ - (h - l) / 1024| ≤ (h - l) / 1024 / 2 ^ 22 := by
  obtain ⟨W, hW⟩ : ∃ W, W = h - l := ⟨_, rfl⟩
  rw [← hW] at hW1 hW2 ⊢
  have hW0 : 0 < W := lt_of_lt_of_le (by norm_num) hW1
  have h1024 : binary32.rnd 1024 = .fin 1024 := by
    have := binary32.int 1024 (by norm_num)
    exact_mod_cast this
  obtain ⟨D, e1, e2⟩ := step32 (q := W) (B := W) (by rw [abs_of_pos hW0]) (by
    have : (2 : ℚ) ^ 61 ≤ 2 ^ 126 := by norm_num
    linarith)
  have hty : (1 : ℚ) / 2 ^ 150 ≤ W / 2 ^ 90 := by
    rw [le_div_iff₀ (by norm_num)]
    exact le_trans (by norm_num) hW1
  have hD := abs_le.1 e2
  obtain ⟨δ, e3, e4⟩ := step32 (q := D / 1024) (B := W / 512) (by
    rw [abs_le]
    constructor <;> linarith) (by
    have : (2 : ℚ) ^ 61 ≤ 2 ^ 126 := by norm_num
    linarith)
  refine ⟨δ, ?_, ?_⟩
  · rw [e1, h1024, FP.div_fin _ (by norm_num), e3]
  · have h4 := abs_le.1 e4
    rw [abs_le]
    constructor <;> linarith

/-- A value between the limits and the representative of the bin after its own. -/
theorem quantile32 {l h x B δ : ℚ} (hW1 : 1 / 2 ^ 60 ≤ h - l) (hB : B ≤ 2 ^ 60) (hl : |l| ≤ B) (hh : |h| ≤ B)
    (hlx : l ≤ x) (hxh : x ≤ h)
    (hδ : |δ - (h - l) / 1024| ≤ (h - l) / 1024 / 2 ^ 22) :
    ∃ r, binary32.add (.fin l) (binary32.mul (binary32.ofNat
        (min (Binner.binOf 1024 (binary32.div (binary32.sub (.fin x) (.fin l)) (.fin δ)) + 1) 1023)) (.fin δ)) = .fin r ∧
      |r - x| ≤ (h - l) / 1000 + B / 2 ^ 21 := by
  obtain ⟨a, ha⟩ : ∃ a, a = (h - l) / 1024 := ⟨_, rfl⟩
  obtain ⟨y, hy⟩ : ∃ y, y = (x - l) / a := ⟨_, rfl⟩
  have ha1 : 1 / 2 ^ 70 ≤ a := by
    rw [ha, le_div_iff₀ (by norm_num)]
    exact le_trans (by norm_num) hW1
  have ha0 : 0 < a := lt_of_lt_of_le (by norm_num) ha1
  have hW : h - l = 1024 * a := by rw [ha]; ring
  have hxl : x - l = y * a := by rw [hy]; field_simp
  have hy0 : 0 ≤ y := by rw [hy]; exact div_nonneg (by linarith) ha0.le
  have hy1 : y ≤ 1024 := by
    rw [hy, div_le_iff₀ ha0]; linarith
  have hya : y * a ≤ 1024 * a := mul_le_mul_of_nonneg_right hy1 ha0.le
  have hya0 : 0 ≤ y * a := mul_nonneg hy0 ha0.le
  have hlB := abs_le.1 hl
  have hhB := abs_le.1 hh
  have haB : 1024 * a ≤ 2 * B := by linarith
  have hB0 : 0 < B := by linarith
  have hty : (1 : ℚ) / 2 ^ 150 ≤ a / 2 ^ 80 := by
    rw [le_div_iff₀ (by norm_num)]
    exact le_trans (by norm_num) ha1
  have hbig : (2 : ℚ) ^ 64 ≤ 2 ^ 126 := by norm_num
  have hB' : 16 * B ≤ 2 ^ 64 := by
    have : (16 : ℚ) * 2 ^ 60 = 2 ^ 64 := by norm_num
    linarith
  rw [← ha] at hδ
  have hδ' := abs_le.1 hδ
  have hδ0 : a / 2 ≤ δ := by linarith
  have hδpos : 0 < δ := by linarith
  have hδ2 : δ ≤ 2 * a := by linarith
  -- the difference
  obtain ⟨u, u1, u2⟩ := binary32_err_pos (q := x - l) (by linarith) (by linarith)
  rw [hxl] at u1 u2
  obtain ⟨u20, u21, u22⟩ := u2
  -- the quotient
  have hyd : |y * a - y * δ| ≤ a / 2 ^ 12 := by
    rw [← mul_sub, abs_mul, abs_of_nonneg hy0, abs_sub_comm]
    have := mul_le_mul hy1 hδ (abs_nonneg _) (by norm_num)
    linarith
  have hyd' := abs_le.1 hyd
  have huy : |u / δ - y| ≤ 1 / 2 ^ 10 := by
    have e : u / δ - y = (u - y * δ) / δ := by field_simp
    rw [e, abs_div, abs_of_pos hδpos, div_le_iff₀ hδpos, abs_le]
    constructor <;> linarith
  have huy' := abs_le.1 huy
  have hud0 : 0 ≤ u / δ := div_nonneg u20 hδpos.le
  obtain ⟨q, q1, q0, q2, q3⟩ := binary32_err_pos (q := u / δ) hud0 (by
    have : (1025 : ℚ) ≤ 2 ^ 126 := by norm_num
    linarith)
  have hqy : |q - y| ≤ 1 / 2 ^ 9 := by
    have h1 : u / δ ≤ 1025 := by linarith
    rw [abs_le]
    constructor <;> linarith
  have hqy' := abs_le.1 hqy
  have hdiv : binary32.div (binary32.sub (.fin x) (.fin l)) (.fin δ) = .fin q := by
    rw [FP.sub_fin, hxl, u1, FP.div_fin _ hδpos.ne', q1]
  have hq63 : q < 2 ^ 63 := by
    have : (1025 : ℚ) < 2 ^ 63 := by norm_num
    linarith
  rw [hdiv, Binner.binOf_fin q0 hq63]
  -- the bin
  obtain ⟨i, hi⟩ : ∃ i, i = min ⌊q⌋.toNat (1024 - 1) := ⟨_, rfl⟩
  rw [← hi]
  obtain ⟨k, hk⟩ : ∃ k, k = min (i + 1) 1023 := ⟨_, rfl⟩
  rw [← hk]
  have hf0 : 0 ≤ ⌊q⌋ := Int.floor_nonneg.2 q0
  have hiq : (i : ℚ) ≤ q := by
    have h1 : (i : ℤ) ≤ ⌊q⌋ := by omega
    have h2 : ((i : ℤ) : ℚ) ≤ (⌊q⌋ : ℚ) := by exact_mod_cast h1
    have := Int.floor_le q
    push_cast at h2
    linarith
  have hqi : i < 1023 → q < i + 1 := by
    intro hlt
    have h1 : ⌊q⌋ = i := by omega
    have := Int.lt_floor_add_one q
    rw [h1] at this
    exact_mod_cast this
  have hky : |(k : ℚ) - y| ≤ 1 + 1 / 2 ^ 9 := by
    have hk1 : (k : ℚ) ≤ i + 1 := by
      have : k ≤ i + 1 := by omega
      exact_mod_cast this
    rw [abs_le]
    refine ⟨?_, by linarith⟩
    by_cases hlt : i < 1023
    · have : (k : ℚ) = i + 1 := by
        have : k = i + 1 := by omega
        exact_mod_cast this
      have := hqi hlt
      linarith
    · have : (k : ℚ) = 1023 := by
        have : k = 1023 := by omega
        exact_mod_cast this
      linarith
  have hk0 : (0 : ℚ) ≤ k := by positivity
  have hk2 : (k : ℚ) ≤ 1024 := by
    have : k ≤ 1024 := by omega
    exact_mod_cast this
  have hka : |k * δ - k * a| ≤ a / 2 ^ 12 := by
    rw [← mul_sub, abs_mul, abs_of_nonneg hk0]
    have := mul_le_mul hk2 hδ (abs_nonneg _) (by norm_num)
    linarith
  have hka' := abs_le.1 hka
  have hkaa : (k : ℚ) * a ≤ 1024 * a := mul_le_mul_of_nonneg_right hk2 ha0.le
  have hkaa0 : 0 ≤ (k : ℚ) * a := mul_nonneg hk0 ha0.le
  have hkB : |(k : ℚ) * δ| ≤ 1025 * a := by
    rw [abs_le]
    constructor <;> linarith
  obtain ⟨p, p1, p2⟩ := step32 hkB (by linarith)
  have p2' := abs_le.1 p2
  have hpk : |p - k * a| ≤ a / 2 ^ 11 := by
    rw [abs_le]
    constructor <;> linarith
  have hpk' := abs_le.1 hpk
  have hlp : |l + p| ≤ 4 * B := by
    rw [abs_le]
    constructor <;> linarith
  obtain ⟨r, r1, r2⟩ := step32 hlp (by linarith)
  have r2' := abs_le.1 r2
  refine ⟨r, ?_, ?_⟩
  · rw [binary32.ofNat_eq (by omega)]
    show binary32.add (.fin l) (binary32.rnd _) = _
    rw [p1]
    exact r1
  · have hkya : |(k : ℚ) * a - y * a| ≤ (1 + 1 / 2 ^ 9) * a := by
      rw [← sub_mul, abs_mul, abs_of_pos ha0]
      exact mul_le_mul_of_nonneg_right hky ha0.le
    have hkya' := abs_le.1 hkya
    have hx : x = l + y * a := by linarith
    rw [hW, hx, abs_le]
    constructor <;> linarith

/-- The width of `n` bins in single precision. -/
theorem width32_any {l h : ℚ} {n : ℕ} (hn0 : 0 < n) (hn : n ≤ 2 ^ 20) (hW1 : 1 / 2 ^ 60 ≤ h - l) (hW2 : h - l ≤ 2 ^ 61) :
    ∃ δ, binary32.div (binary32.rnd (h - l)) (binary32.rnd n) = .fin δ ∧
      |δ - (h - l) / n| ≤ (h - l) / n / 2 ^ 22 := by
  obtain ⟨W, hW⟩ : ∃ W, W = h - l := ⟨_, rfl⟩
  rw [← hW] at hW1 hW2 ⊢
  have hW0 : 0 < W := lt_of_lt_of_le (by norm_num) hW1
  have hnq : (1 : ℚ) ≤ n := by exact_mod_cast hn0
  have hnq2 : (n : ℚ) ≤ 2 ^ 20 := by exact_mod_cast hn
  have hrn : binary32.rnd n = .fin n := binary32.rnd_nat (hn.trans (by norm_num))
  obtain ⟨D, e1, e2⟩ := step32 (q := W) (B := W) (by rw [abs_of_pos hW0]) (by
    have : (2 : ℚ) ^ 61 ≤ 2 ^ 126 := by norm_num
    linarith)
  obtain ⟨a, ha⟩ : ∃ a, a = W / n := ⟨_, rfl⟩
  have hWa : W = n * a := by rw [ha]; field_simp
  have ha1 : 1 / 2 ^ 80 ≤ a := by
    rw [ha, le_div_iff₀ (by linarith)]
    have : (1 : ℚ) / 2 ^ 80 * n ≤ 1 / 2 ^ 80 * 2 ^ 20 := mul_le_mul_of_nonneg_left hnq2 (by norm_num)
    refine this.trans (le_trans (by norm_num) hW1)
  have hty : (1 : ℚ) / 2 ^ 150 ≤ a / 2 ^ 60 := by
    rw [le_div_iff₀ (by norm_num)]
    exact le_trans (by norm_num) ha1
  have hDa : |D / n - a| ≤ a / 2 ^ 24 + 1 / 2 ^ 150 := by
    rw [ha, ← sub_div, abs_div, abs_of_pos (by linarith : (0 : ℚ) < n), div_le_iff₀ (by linarith)]
    refine e2.trans ?_
    have h1 : (W / n / 2 ^ 24 + 1 / 2 ^ 150) * n = W / 2 ^ 24 + n * (1 / 2 ^ 150) := by field_simp
    have h2 : (1 : ℚ) / 2 ^ 150 ≤ n * (1 / 2 ^ 150) := le_mul_of_one_le_left (by norm_num) hnq
    rw [h1]
    linarith
  have hD := abs_le.1 hDa
  have hW3 : a ≤ 2 ^ 61 := by
    have : a ≤ n * a := le_mul_of_one_le_left (by linarith [show (0 : ℚ) < 1 / 2 ^ 80 by norm_num]) hnq
    linarith
  obtain ⟨δ, e3, e4⟩ := step32 (q := D / n) (B := 2 * a) (by
    rw [abs_le]
    constructor <;> linarith) (by
    have : (2 : ℚ) ^ 61 * 2 ≤ 2 ^ 126 := by norm_num
    linarith)
  refine ⟨δ, ?_, ?_⟩
  · rw [e1, hrn, FP.div_fin _ (by linarith), e3]
  · rw [← ha]
    have h4 := abs_le.1 e4
    rw [abs_le]
    constructor <;> linarith

/-- A value between the limits and the representative of its bin. -/
theorem representative32 {l h x B δ : ℚ} {n : ℕ} (hn0 : 0 < n) (hn : n ≤ 2 ^ 20) (hW1 : 1 / 2 ^ 60 ≤ h - l) (hB : B ≤ 2 ^ 60)
    (hl : |l| ≤ B) (hh : |h| ≤ B) (hlx : l ≤ x) (hxh : x ≤ h) (hδ : |δ - (h - l) / n| ≤ (h - l) / n / 2 ^ 22) :
    ∃ r, binary32.add (.fin l) (binary32.mul (binary32.ofNat
        (min (Binner.binOf n (binary32.div (binary32.sub (.fin x) (.fin l)) (.fin δ))) (n - 1))) (.fin δ)) = .fin r ∧
      r ≤ x + B / 2 ^ 18 ∧ x ≤ r + (h - l) / n + B / 2 ^ 18 := by
  obtain ⟨a, ha⟩ : ∃ a, a = (h - l) / n := ⟨_, rfl⟩
  obtain ⟨W, hW⟩ : ∃ W, W = h - l := ⟨_, rfl⟩
  obtain ⟨m, hm⟩ : ∃ m : ℚ, m = n := ⟨_, rfl⟩
  have hnq : (1 : ℚ) ≤ m := by rw [hm]; exact_mod_cast hn0
  have hnq2 : m ≤ 2 ^ 20 := by rw [hm]; exact_mod_cast hn
  have hWa : W = m * a := by rw [ha, hW, hm]; field_simp
  rw [← hW] at hW1
  have ha1 : 1 / 2 ^ 80 ≤ a := by
    rw [ha, ← hm, ← hW, le_div_iff₀ (by linarith)]
    have : (1 : ℚ) / 2 ^ 80 * m ≤ 1 / 2 ^ 80 * 2 ^ 20 := mul_le_mul_of_nonneg_left hnq2 (by norm_num)
    refine this.trans (le_trans (by norm_num) hW1)
  have ha0 : 0 < a := lt_of_lt_of_le (by norm_num) ha1
  have haW : a ≤ W := by rw [hWa]; exact le_mul_of_one_le_left ha0.le hnq
  have hlB := abs_le.1 hl
  have hhB := abs_le.1 hh
  have hWB : W ≤ 2 * B := by linarith
  have hB0 : 0 < B := by linarith
  have hty : (1 : ℚ) / 2 ^ 150 ≤ a / 2 ^ 60 := by
    rw [le_div_iff₀ (by norm_num)]
    exact le_trans (by norm_num) ha1
  have hbig : (2 : ℚ) ^ 64 ≤ 2 ^ 126 := by norm_num
  have hB' : 16 * B ≤ 2 ^ 64 := by
    have : (16 : ℚ) * 2 ^ 60 = 2 ^ 64 := by norm_num
    linarith
  rw [← ha] at hδ
  have hδ' := abs_le.1 hδ
  have hδ0 : a / 2 ≤ δ := by linarith
  have hδpos : 0 < δ := by linarith
  have hδ2 : δ ≤ 2 * a := by linarith
  obtain ⟨u, u1, u20, u21, u22⟩ := binary32_err_pos (q := x - l) (by linarith) (by linarith)
  have hud0 : 0 ≤ u / δ := div_nonneg u20 hδpos.le
  have huW : u ≤ 2 * W := by linarith
  have hud1 : u / δ ≤ 2 ^ 22 := by
    rw [div_le_iff₀ hδpos]
    have h1 : W ≤ 2 ^ 20 * a := by rw [hWa]; exact mul_le_mul_of_nonneg_right hnq2 ha0.le
    linarith
  obtain ⟨q, q1, q0, q2, q3⟩ := binary32_err_pos (q := u / δ) hud0 (by
    have : (2 : ℚ) ^ 22 ≤ 2 ^ 126 := by norm_num
    linarith)
  have hqd : |q * δ - (x - l)| ≤ W / 2 ^ 22 := by
    have h1 : u / δ * δ = u := div_mul_cancel₀ _ hδpos.ne'
    have h2 := mul_le_mul_of_nonneg_right q2 hδpos.le
    have h3 := mul_le_mul_of_nonneg_right q3 hδpos.le
    have e2 : (u / δ * (1 - 1 / 2 ^ 24) - 1 / 2 ^ 150) * δ = u * (1 - 1 / 2 ^ 24) - δ / 2 ^ 150 := by
      calc _ = u / δ * δ * (1 - 1 / 2 ^ 24) - δ / 2 ^ 150 := by ring
        _ = _ := by rw [h1]
    have e3 : (u / δ * (1 + 1 / 2 ^ 24) + 1 / 2 ^ 150) * δ = u * (1 + 1 / 2 ^ 24) + δ / 2 ^ 150 := by
      calc _ = u / δ * δ * (1 + 1 / 2 ^ 24) + δ / 2 ^ 150 := by ring
        _ = _ := by rw [h1]
    rw [e2] at h2
    rw [e3] at h3
    generalize q * δ = Q at *
    rw [abs_le]
    constructor <;> linarith
  have hqd' := abs_le.1 hqd
  have hdiv : binary32.div (binary32.sub (.fin x) (.fin l)) (.fin δ) = .fin q := by
    rw [FP.sub_fin, u1, FP.div_fin _ hδpos.ne', q1]
  have hq63 : q < 2 ^ 63 := by
    have : (2 : ℚ) ^ 23 < 2 ^ 63 := by norm_num
    have : u / δ * (1 + 1 / 2 ^ 24) + 1 / 2 ^ 150 ≤ 2 ^ 23 := by
      generalize u / δ = U at *
      norm_num at *
      linarith
    linarith
  rw [hdiv, Binner.binOf_fin q0 hq63]
  obtain ⟨i, hi⟩ : ∃ i, i = min (min ⌊q⌋.toNat (n - 1)) (n - 1) := ⟨_, rfl⟩
  rw [← hi]
  have hf0 : 0 ≤ ⌊q⌋ := Int.floor_nonneg.2 q0
  have hiq : (i : ℚ) ≤ q := by
    have h1 : (i : ℤ) ≤ ⌊q⌋ := by omega
    have h2 : ((i : ℤ) : ℚ) ≤ (⌊q⌋ : ℚ) := by exact_mod_cast h1
    have := Int.floor_le q
    push_cast at h2
    linarith
  have hiup : (i : ℚ) * δ ≤ x - l + W / 2 ^ 22 := by
    have := mul_le_mul_of_nonneg_right hiq hδpos.le
    linarith
  have hilo : x - l - W / 2 ^ 22 - δ ≤ i * δ := by
    by_cases hlt : i < n - 1
    · have h1 : ⌊q⌋ = i := by omega
      have h2 := Int.lt_floor_add_one q
      rw [h1] at h2
      have h3 : q ≤ i + 1 := by exact_mod_cast h2.le
      have := mul_le_mul_of_nonneg_right h3 hδpos.le
      have e : ((i : ℚ) + 1) * δ = i * δ + δ := by ring
      rw [e] at this
      linarith
    · have h1 : i = n - 1 := by omega
      have h2 : (i : ℚ) = m - 1 := by
        rw [hm]
        have : i + 1 = n := by omega
        have : ((i + 1 : ℕ) : ℚ) = n := by rw [this]
        push_cast at this
        linarith
      have h3 := mul_le_mul_of_nonneg_left hδ'.1 (by linarith : 0 ≤ m)
      have e1 : m * -(a / 2 ^ 22) = - (W / 2 ^ 22) := by rw [hWa]; ring
      have e2 : m * (δ - a) = m * δ - W := by rw [hWa]; ring
      rw [e1, e2] at h3
      rw [h2, sub_mul, one_mul]
      generalize m * δ = Q at *
      linarith
  have hi0 : (0 : ℚ) ≤ i * δ := mul_nonneg (by positivity) hδpos.le
  obtain ⟨p, p1, p2⟩ := step32 (q := (i : ℚ) * δ) (B := 2 * W) (by
    rw [abs_le]
    constructor <;> linarith) (by linarith)
  obtain ⟨P, hP⟩ : ∃ P : ℚ, P = i * δ := ⟨_, rfl⟩
  rw [← hP] at hiup hilo hi0 p1 p2
  have p2' := abs_le.1 p2
  have hlp : |l + p| ≤ 8 * B := by
    rw [abs_le]
    constructor <;> linarith
  obtain ⟨r, r1, r2⟩ := step32 hlp (by linarith)
  have r2' := abs_le.1 r2
  refine ⟨r, ?_, ?_, ?_⟩
  · rw [binary32.ofNat_eq (by omega)]
    show binary32.add (.fin l) (binary32.rnd _) = _
    rw [← hP, p1]
    exact r1
  · linarith
  · rw [← ha]
    linarith

end FP
end BitBoost
