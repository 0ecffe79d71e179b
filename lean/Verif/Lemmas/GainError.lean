import Verif.Lemmas.SumError
/-!
# The error of the computed gains
-/
namespace BitBoost
open Spec Dataset
namespace Learner

variable {cfg : Config} {ds : Dataset} {w : Nat} {lo hi G : ℚ} {codes : List Nat}

/-- How an error in the sum changes the loss of a leaf. -/
theorem leafLoss_diff {lambda g s e G : ℚ} {n : Nat} (h0 : 0 ≤ lambda) (hn : 1 ≤ n) (hg : |g| ≤ n * G) (he : |s - g| ≤ e) :
    |leafLoss lambda s n - leafLoss lambda g n| ≤ e * G + e ^ 2 / 2 := by
  have hn1 : (1 : ℚ) ≤ n := by exact_mod_cast hn
  have he0 : 0 ≤ e := (abs_nonneg _).trans he
  have hm : (n : ℚ) ≤ n + lambda := by linarith
  have hm0 : 0 < (n : ℚ) + lambda := by linarith
  have hd : leafLoss lambda s n - leafLoss lambda g n = -((s - g) * (s - g + 2 * g)) / (2 * (n + lambda)) := by
    unfold leafLoss
    rw [← sub_div]
    congr 1
    ring
  rw [hd, abs_div, abs_neg, abs_mul, abs_of_pos (show 0 < 2 * ((n : ℚ) + lambda) by linarith), div_le_iff₀ (by linarith)]
  have h1 : |s - g + 2 * g| ≤ e + 2 * (n * G) := by
    refine (abs_add_le _ _).trans ?_
    rw [abs_mul, abs_two]
    linarith
  have h2 : |s - g| * |s - g + 2 * g| ≤ e * (e + 2 * (n * G)) := mul_le_mul he h1 (abs_nonneg _) he0
  have hG0 : 0 ≤ G := by
    have : 0 ≤ (n : ℚ) * G := (abs_nonneg _).trans hg
    by_contra hc
    push Not at hc
    nlinarith
  have h3 : (e * G + e ^ 2 / 2) * (2 * n) ≤ (e * G + e ^ 2 / 2) * (2 * (n + lambda)) :=
    mul_le_mul_of_nonneg_left (by linarith) (by positivity)
  have h4 : e ^ 2 * 1 ≤ e ^ 2 * n := mul_le_mul_of_nonneg_left hn1 (by positivity)
  nlinarith

theorem leafLoss_abs {lambda g G : ℚ} {n : Nat} (h0 : 0 ≤ lambda) (hn : 1 ≤ n) (hg : |g| ≤ n * G) :
    |leafLoss lambda g n| ≤ n * G ^ 2 / 2 := by
  have hn1 : (1 : ℚ) ≤ n := by exact_mod_cast hn
  unfold leafLoss
  rw [abs_div, abs_neg, abs_of_pos (show 0 < 2 * ((n : ℚ) + lambda) by linarith), div_le_iff₀ (by linarith), abs_pow]
  have h1 : |g| ^ 2 ≤ (n * G) ^ 2 := pow_le_pow_left₀ (abs_nonneg _) hg 2
  have h2 : 0 ≤ (n : ℚ) * G ^ 2 * lambda := by positivity
  nlinarith

/-- The loss of a leaf in single precision, for a given sum. -/
theorem loss32 {lambda s : ℚ} {n : Nat} (hlam : cfg.regLambda = .fin lambda) (h0 : 0 ≤ lambda) (h1 : lambda ≤ 2 ^ 60)
    (hn : 1 ≤ n) (hn2 : n ≤ 2 ^ 32) (hs : |s| ≤ 2 ^ 62) :
    ∃ L, getLoss .binary32 cfg (.fin s) n = .fin L ∧
      |L - leafLoss lambda s n| ≤ s ^ 2 / n / 2 ^ 20 + 1 / 2 ^ 147 := by
  have hn1 : (1 : ℚ) ≤ n := by exact_mod_cast hn
  have hn2' : (n : ℚ) ≤ 2 ^ 32 := by exact_mod_cast hn2
  have hX0 : 0 ≤ s * s := mul_self_nonneg s
  have hX1 : s * s ≤ 2 ^ 124 := by
    have : |s| * |s| ≤ 2 ^ 62 * 2 ^ 62 := mul_le_mul hs hs (abs_nonneg _) (by norm_num)
    rw [abs_mul_abs_self] at this
    exact this.trans (by norm_num)
  have big : (2 : ℚ) ^ 124 * 4 ≤ 2 ^ 126 := by norm_num
  have big2 : (2 : ℚ) ^ 32 * 2 + 2 ^ 60 ≤ 2 ^ 126 := by norm_num
  have t1 : (1 : ℚ) / 2 ^ 150 ≤ 1 / 2 ^ 40 := by norm_num
  obtain ⟨a, a1, a2⟩ := FP.step32 (q := s * s) (B := s * s) (by rw [abs_of_nonneg hX0]) (by linarith)
  obtain ⟨c, c1, c2⟩ := FP.step32 (q := (n : ℚ)) (B := n) (by rw [abs_of_nonneg (by linarith)]) (by linarith)
  have c2' := abs_le.1 c2
  have hcn : |c - n| ≤ n / 2 ^ 23 := by
    rw [abs_le]
    constructor <;> linarith
  have hcn' := abs_le.1 hcn
  have hc0 : 0 ≤ c := by linarith
  obtain ⟨m, hmd⟩ : ∃ m : ℚ, m = n + lambda := ⟨_, rfl⟩
  have hm1 : 1 ≤ m := by linarith
  have hcl : |c + lambda| ≤ 2 * m := by rw [abs_of_nonneg (by linarith)]; linarith
  obtain ⟨den, d1, d2⟩ := FP.step32 (q := c + lambda) (B := 2 * m) hcl (by linarith)
  have d2' := abs_le.1 d2
  have hden : |den - m| ≤ m / 2 ^ 21 := by
    rw [abs_le]
    constructor <;> linarith
  have hden' := abs_le.1 hden
  have hdl : m / 2 ≤ den := by linarith
  have hd0 : 0 < den := by linarith
  obtain ⟨T, hT⟩ : ∃ T : ℚ, T = s * s / m := ⟨_, rfl⟩
  have hT0 : 0 ≤ T := by rw [hT]; exact div_nonneg hX0 (by linarith)
  have hTX : T ≤ s * s := by rw [hT]; exact div_le_self hX0 hm1
  have hTm : T * m = s * s := by rw [hT]; field_simp
  -- the quotient
  have hq : |a / den - T| ≤ T / 2 ^ 20 + 1 / 2 ^ 149 := by
    have e : a / den - T = ((a - s * s) - T * (den - m)) / den := by
      rw [← hTm]
      field_simp
      ring
    rw [e, abs_div, abs_of_pos hd0, div_le_iff₀ hd0]
    have f1 : |T * (den - m)| ≤ T * (m / 2 ^ 21) := by
      rw [abs_mul, abs_of_nonneg hT0]
      exact mul_le_mul_of_nonneg_left hden hT0
    have f2 := abs_sub (a - s * s) (T * (den - m))
    have f3 : T * (m * (1 - 1 / 2 ^ 21)) ≤ T * den := mul_le_mul_of_nonneg_left (by linarith) hT0
    have f4 : (T / 2 ^ 20 + 1 / 2 ^ 149) * den = T * den / 2 ^ 20 + den / 2 ^ 149 := by ring
    have f5 : T * (m / 2 ^ 21) = s * s / 2 ^ 21 := by rw [← hTm]; ring
    have f6 : T * (m * (1 - 1 / 2 ^ 21)) = s * s * (1 - 1 / 2 ^ 21) := by rw [← hTm]; ring
    rw [f4]
    rw [f5] at f1
    rw [f6] at f3
    have f7 : (1 : ℚ) / 2 ^ 150 ≤ den / 2 ^ 149 := by
      rw [div_le_div_iff₀ (by norm_num) (by norm_num)]
      have : (2 : ℚ) ^ 150 = 2 * 2 ^ 149 := by norm_num
      rw [this]
      nlinarith
    linarith
  have hq' := abs_le.1 hq
  have t2 : (1 : ℚ) / 2 ^ 149 ≤ 1 := by norm_num
  have big3 : (2 : ℚ) * 2 ^ 124 + 1 ≤ 2 ^ 126 := by norm_num
  have t4 : (1 : ℚ) / 2 ^ 150 = 1 / 2 ^ 149 / 2 := by norm_num
  have t5 : (1 : ℚ) / 2 ^ 147 = 4 * (1 / 2 ^ 149) := by norm_num
  obtain ⟨η, hη⟩ : ∃ η : ℚ, η = 1 / 2 ^ 149 := ⟨_, rfl⟩
  have hη0 : 0 < η := by rw [hη]; norm_num
  rw [t4, ← hη] at a2 c2 d2
  rw [← hη] at hq' t2
  obtain ⟨q, q1, q2⟩ := FP.step32 (q := a / den) (B := 2 * T + η) (by rw [abs_le]; constructor <;> linarith) (by linarith)
  rw [t4, ← hη] at q2
  have q2' := abs_le.1 q2
  obtain ⟨L, l1, l2⟩ := FP.step32 (q := -1 / 2 * q) (B := T + η) (by rw [abs_le]; constructor <;> linarith) (by linarith)
  rw [t4, ← hη] at l2
  have l2' := abs_le.1 l2
  refine ⟨L, ?_, ?_⟩
  · unfold getLoss
    rw [hlam, FP.mul_fin, a1]
    change FP.binary32.mul (.fin (-1 / 2)) (FP.binary32.div (.fin a) (FP.binary32.add (FP.binary32.rnd n) (.fin lambda))) = _
    rw [c1, FP.add_fin, d1, FP.div_fin _ hd0.ne', q1, FP.mul_fin, l1]
  · have hl : leafLoss lambda s n = -(T / 2) := by
      unfold leafLoss
      rw [hT, ← hmd]
      field_simp
    have hTn : T ≤ s ^ 2 / n := by
      rw [hT, ← pow_two]
      exact div_le_div_of_nonneg_left (by positivity) (by linarith) (by linarith)
    rw [hl, t5, ← hη, abs_le]
    constructor <;> linarith

/-- The loss of a leaf in single precision, for a sum that is off by at most `e`. -/
theorem leaf32 {lambda s g e G H : ℚ} {n : Nat} (hlam : cfg.regLambda = .fin lambda) (h0 : 0 ≤ lambda) (h1 : lambda ≤ 2 ^ 60)
    (hn : 1 ≤ n) (hn2 : n ≤ 2 ^ 32) (hg : |g| ≤ n * G) (he : |s - g| ≤ e) (hG1 : 1 / 2 ^ 60 ≤ G) (hG2 : G ≤ 2 ^ 20)
    (he2 : e ≤ 2 ^ 60) (hH : n * G ^ 2 ≤ H) :
    ∃ L, getLoss .binary32 cfg (.fin s) n = .fin L ∧
      |L - leafLoss lambda g n| ≤ e * G + e ^ 2 / 2 + (H + 2 * e * G + e ^ 2) / 2 ^ 20 + 1 / 2 ^ 147 := by
  have hn1 : (1 : ℚ) ≤ n := by exact_mod_cast hn
  have hn2' : (n : ℚ) ≤ 2 ^ 32 := by exact_mod_cast hn2
  have hG0 : 0 < G := lt_of_lt_of_le (by norm_num) hG1
  have he0 : 0 ≤ e := (abs_nonneg _).trans he
  have hs : |s| ≤ n * G + e := by
    have := abs_add_le (s - g) g
    rw [sub_add_cancel] at this
    linarith
  have hnG : (n : ℚ) * G ≤ 2 ^ 32 * 2 ^ 20 := mul_le_mul hn2' hG2 hG0.le (by norm_num)
  have b1 : (2 : ℚ) ^ 32 * 2 ^ 20 + 2 ^ 60 ≤ 2 ^ 62 := by norm_num
  obtain ⟨L, l1, l2⟩ := loss32 (cfg := cfg) (s := s) hlam h0 h1 hn hn2 (by linarith)
  refine ⟨L, l1, ?_⟩
  have d := leafLoss_diff h0 hn hg he
  have hs2 : s ^ 2 / n ≤ H + 2 * e * G + e ^ 2 := by
    rw [div_le_iff₀ (by linarith)]
    have h2 : s ^ 2 ≤ (n * G + e) ^ 2 := by
      rw [← sq_abs s]
      exact pow_le_pow_left₀ (abs_nonneg _) hs 2
    have h3 : n * G ^ 2 * n ≤ H * n := mul_le_mul_of_nonneg_right hH (by linarith)
    have h4 : e ^ 2 * 1 ≤ e ^ 2 * n := mul_le_mul_of_nonneg_left hn1 (by positivity)
    nlinarith
  have h5 : s ^ 2 / n / 2 ^ 20 ≤ (H + 2 * e * G + e ^ 2) / 2 ^ 20 := div_le_div_of_nonneg_right hs2 (by norm_num)
  rw [abs_le] at l2 d ⊢
  constructor <;> linarith

/-- The gain of a candidate in single precision. -/
theorem gain32 {lambda sp sl g gl gr e e1 e2 G N : ℚ} {n nl : Nat} {v : HistVal} (hlam : cfg.regLambda = .fin lambda)
    (h0 : 0 ≤ lambda) (h1 : lambda ≤ 2 ^ 60) (hv : v.gradSum = .fin sl) (hc : v.count = nl)
    (hnl : 1 ≤ nl) (hnn : nl < n) (hn2 : n < 2 ^ 32)
    (hN : (n : ℚ) ≤ N) (hN2 : N ≤ 2 ^ 32) (hG1 : 1 / 2 ^ 60 ≤ G) (hG2 : G ≤ 2 ^ 20)
    (hg : |g| ≤ n * G) (hgl : |gl| ≤ nl * G) (hgr : |gr| ≤ (n - nl : ℕ) * G) (hsum : g = gl + gr)
    (hp : |sp - g| ≤ e1) (hl : |sl - gl| ≤ e2) (he : e1 + e2 + (N * G + e1 + e2) / 2 ^ 24 + 1 / 2 ^ 150 ≤ e)
    (he2 : e ≤ 2 ^ 60) (heN : N * G / 2 ^ 18 ≤ e) :
    ∃ q, gain .binary32 cfg (.fin sp) n v = .fin q ∧
      |q - splitGain lambda g n gl nl gr (n - nl)| ≤ 5 * e * G + 2 * e ^ 2 := by
  have hG0 : 0 < G := lt_of_lt_of_le (by norm_num) hG1
  have he10 : 0 ≤ e1 := (abs_nonneg _).trans hp
  have he20 : 0 ≤ e2 := (abs_nonneg _).trans hl
  have hnr : 1 ≤ n - nl := by omega
  have cast1 : (1 : ℚ) ≤ nl := by exact_mod_cast hnl
  have cast2 : (1 : ℚ) ≤ (n - nl : ℕ) := by exact_mod_cast hnr
  have cast3 : (nl : ℚ) ≤ n := by exact_mod_cast hnn.le
  have cast4 : ((n - nl : ℕ) : ℚ) ≤ n := by exact_mod_cast Nat.sub_le n nl
  have hN1 : 1 ≤ N := by linarith
  have hNG0 : 0 ≤ N * G := by positivity
  have ht0 : (0 : ℚ) < 1 / 2 ^ 150 := by norm_num
  have he0 : 0 ≤ e := by
    have : 0 ≤ (N * G + e1 + e2) / 2 ^ 24 := by positivity
    linarith
  have hq0 : 0 ≤ (N * G + e1 + e2) / 2 ^ 24 := by positivity
  have hNG : N * G ≤ 2 ^ 52 := by
    have : N * G ≤ 2 ^ 32 * 2 ^ 20 := mul_le_mul hN2 hG2 hG0.le (by norm_num)
    exact this.trans (by norm_num)
  obtain ⟨H, hH⟩ : ∃ H : ℚ, H = N * G ^ 2 := ⟨_, rfl⟩
  have hH' : ∀ k : ℚ, k ≤ n → k * G ^ 2 ≤ H := by
    intro k hk
    rw [hH]
    exact mul_le_mul_of_nonneg_right (hk.trans hN) (by positivity)
  -- the sum of the right part
  have hpl := abs_le.1 hp
  have hll := abs_le.1 hl
  have hgr' : |gr| ≤ N * G := hgr.trans (mul_le_mul_of_nonneg_right (cast4.trans hN) hG0.le)
  have hgrl := abs_le.1 hgr'
  have b60 : (2 : ℚ) ^ 52 + 2 ^ 60 ≤ 2 ^ 126 := by norm_num
  obtain ⟨sr, r1, r2⟩ := FP.step32 (q := sp - sl) (B := N * G + e1 + e2) (by rw [abs_le]; constructor <;> linarith)
    (by linarith)
  have r2' := abs_le.1 r2
  have hsr : |sr - gr| ≤ e := by rw [abs_le]; constructor <;> linarith
  obtain ⟨Lp, p1, p2⟩ := leaf32 hlam h0 h1 (by omega) hn2.le hg (hp.trans (by linarith : e1 ≤ e)) hG1 hG2 he2 (hH' _ le_rfl)
  obtain ⟨Ll, l1, l2⟩ := leaf32 hlam h0 h1 hnl (by omega) hgl (hl.trans (by linarith : e2 ≤ e)) hG1 hG2 he2 (hH' _ cast3)
  obtain ⟨Lr, q1, q2⟩ := leaf32 hlam h0 h1 hnr (by omega) hgr hsr hG1 hG2 he2 (hH' _ cast4)
  have m1 := leafLoss_abs h0 (show 1 ≤ n by omega) hg
  have m2 := leafLoss_abs h0 hnl hgl
  have m3 := leafLoss_abs h0 hnr hgr
  have k1 := hH' _ le_rfl
  have k2 := hH' _ cast3
  have k3 := hH' _ cast4
  obtain ⟨A, hA⟩ : ∃ A : ℚ, A = e * G := ⟨_, rfl⟩
  obtain ⟨Q, hQ⟩ : ∃ Q : ℚ, Q = e ^ 2 := ⟨_, rfl⟩
  have hA0 : 0 ≤ A := by rw [hA]; positivity
  have hQ0 : 0 ≤ Q := by rw [hQ]; positivity
  have hH0 : 1 / 2 ^ 120 ≤ H := by
    have : (1 / 2 ^ 60 : ℚ) ^ 2 ≤ G ^ 2 := pow_le_pow_left₀ (by norm_num) hG1 2
    have h3 : G ^ 2 * 1 ≤ G ^ 2 * N := mul_le_mul_of_nonneg_left hN1 (by positivity)
    calc (1 : ℚ) / 2 ^ 120 = (1 / 2 ^ 60) ^ 2 := by norm_num
      _ ≤ G ^ 2 := this
      _ ≤ H := by rw [hH]; linarith
  have hHA : H / 2 ^ 18 ≤ A := by
    have := mul_le_mul_of_nonneg_right heN hG0.le
    rw [hA, hH]
    calc N * G ^ 2 / 2 ^ 18 = N * G / 2 ^ 18 * G := by ring
      _ ≤ _ := this
  have hA1 : A ≤ 2 ^ 80 := by
    rw [hA]
    exact (mul_le_mul he2 hG2 hG0.le (by norm_num)).trans (by norm_num)
  have hQ1 : Q ≤ 2 ^ 120 := by
    rw [hQ]
    exact (pow_le_pow_left₀ he0 he2 2).trans (by norm_num)
  have hH1 : H ≤ 2 ^ 72 := by
    rw [hH]
    have : G ^ 2 ≤ (2 ^ 20) ^ 2 := pow_le_pow_left₀ hG0.le hG2 2
    exact (mul_le_mul hN2 this (by positivity) (by norm_num)).trans (by norm_num)
  rw [mul_assoc 2 e G, ← hA, ← hQ] at p2 l2 q2
  unfold splitGain
  rw [mul_assoc 5 e G, ← hA, ← hQ]
  generalize leafLoss lambda g n = tp at *
  generalize leafLoss lambda gl nl = tl at *
  generalize leafLoss lambda gr (n - nl) = tr at *
  have p3 := abs_le.1 p2
  have l3 := abs_le.1 l2
  have q3 := abs_le.1 q2
  have m1 := abs_le.1 m1
  have m2 := abs_le.1 m2
  have m3 := abs_le.1 m3
  have u1 : (1 : ℚ) / 2 ^ 147 = 1 / 2 ^ 120 / 2 ^ 27 := by norm_num
  have u2 : (1 : ℚ) / 2 ^ 150 = 1 / 2 ^ 120 / 2 ^ 30 := by norm_num
  have u3 : (2 : ℚ) ^ 80 * 8 + 2 ^ 120 * 8 + 2 ^ 72 * 8 ≤ 2 ^ 126 := by norm_num
  rw [u1] at p3 l3 q3
  obtain ⟨τ, hτ⟩ : ∃ τ : ℚ, τ = 1 / 2 ^ 120 := ⟨_, rfl⟩
  have hτ0 : 0 < τ := by rw [hτ]; norm_num
  rw [← hτ] at p3 l3 q3 hH0 u2
  obtain ⟨x, x1, x2⟩ := FP.step32 (q := Lp - Ll) (B := 2 * H + 4 * A + 4 * Q) (by rw [abs_le]; constructor <;> linarith)
    (by linarith)
  rw [u2] at x2
  have x3 := abs_le.1 x2
  obtain ⟨y, y1, y2⟩ := FP.step32 (q := x - Lr) (B := 4 * H + 8 * A + 8 * Q) (by rw [abs_le]; constructor <;> linarith)
    (by linarith)
  rw [u2] at y2
  have y3 := abs_le.1 y2
  refine ⟨y, ?_, ?_⟩
  · unfold gain
    rw [hv, hc, FP.sub_fin, r1, subU32_of_le hnn.le hn2, p1, l1, q1, FP.sub_fin, x1, FP.sub_fin, y1]
  · rw [abs_le]
    constructor <;> linarith

/-- The gain of a candidate in exact arithmetic, with sums that are off. -/
theorem gain_off {lambda sp sl g gl gr e e1 e2 G : ℚ} {n nl : Nat} {v : HistVal} (hlam : cfg.regLambda = .fin lambda)
    (h0 : 0 ≤ lambda) (hv : v.gradSum = .fin sl) (hc : v.count = nl)
    (hnl : 1 ≤ nl) (hnn : nl < n) (hn2 : n < 2 ^ 32)
    (hg : |g| ≤ n * G) (hgl : |gl| ≤ nl * G) (hgr : |gr| ≤ (n - nl : ℕ) * G) (hsum : g = gl + gr)
    (hp : |sp - g| ≤ e1) (hl : |sl - gl| ≤ e2) (he : e1 + e2 ≤ e) :
    ∃ q, gain .exact cfg (.fin sp) n v = .fin q ∧
      |q - splitGain lambda g n gl nl gr (n - nl)| ≤ 3 * e * G + 2 * e ^ 2 := by
  have he10 : 0 ≤ e1 := (abs_nonneg _).trans hp
  have he20 : 0 ≤ e2 := (abs_nonneg _).trans hl
  refine ⟨_, gain_exact hlam h0 hv hc hnl hnn hn2, ?_⟩
  have hr : |sp - sl - gr| ≤ e := by
    rw [abs_le] at hp hl ⊢
    constructor <;> linarith
  have d1 := leafLoss_diff h0 (show 1 ≤ n by omega) hg (hp.trans (by linarith : e1 ≤ e))
  have d2 := leafLoss_diff h0 hnl hgl (hl.trans (by linarith : e2 ≤ e))
  have d3 := leafLoss_diff h0 (show 1 ≤ n - nl by omega) hgr hr
  unfold splitGain
  have : 0 ≤ e ^ 2 := by positivity
  rw [mul_assoc 3 e G]
  generalize e * G = A at *
  rw [abs_le] at d1 d2 d3 ⊢
  constructor <;> linarith

variable {rows : List Nat} {gradients : List Num} {lambda : ℚ}

/-- From the error of the sums to the error of the gains. -/
theorem close_of {F : FP} {N D : Nat} {E ε : ℚ} (hw : validWidth w) (hlo : |lo| ≤ G) (hhi : |hi| ≤ G)
    (hmin : 1 ≤ cfg.minExamplesLeaf) (hcle : ∀ i, codes.getD i 0 ≤ 2 ^ w - 1)
    (hcodes : ∀ i < rows.length, codes.getD i 0 =
      (BitSlice.discretise F w (gradients.getD (rows.getD i 0) (.fin 0)) (.fin lo) (.fin hi)).toNat)
    (hgain : ∀ (n nl : Nat) (v : HistVal) (sp sl g gl gr : ℚ), v.gradSum = .fin sl → v.count = nl → 1 ≤ nl → nl < n →
      n < 2 ^ 32 → n ≤ N → |g| ≤ n * G → |gl| ≤ nl * G → |gr| ≤ (n - nl : ℕ) * G → g = gl + gr →
      |sp - g| ≤ (D : ℚ) ^ 2 * E → |sl - gl| ≤ D * E →
      ∃ q, gain F cfg (.fin sp) n v = .fin q ∧ |q - splitGain lambda g n gl nl gr (n - nl)| ≤ ε)
    {r : RefNode} (hok : RefOk ds r) (hsum : SumErr ds w lo hi codes N E r) (hE0 : 0 ≤ E) (hlev : level r.nodeId < D)
    (hnd : r.examples.Nodup) (hlt : ∀ i ∈ r.examples, i < rows.length) :
    Close F cfg ds w lo hi lambda gradients rows ε r := by
  refine ⟨fun f b m hc => ?_, fun f b m v hc hv ha hcnt => ?_⟩
  · obtain ⟨v, _, hv, _⟩ := hsum.hist f b m hc
    exact ⟨v, hv⟩
  · have cardE : r.examples.toFinset.card = r.examples.length := by rw [List.toFinset_card_of_nodup hnd]
    obtain ⟨v', sl, hv', hs', herr⟩ := hsum.hist f b m hc
    rw [hv] at hv'
    cases hv'
    obtain ⟨sp, hsp, hperr⟩ := hsum.total
    obtain ⟨c1, c2⟩ := card_split hnd rfl m
    obtain ⟨a1, a2⟩ := ha
    have hsm := hok.small
    have hL : (level r.nodeId : ℚ) + 1 ≤ D := by exact_mod_cast hlev
    have hL0 : (0 : ℚ) ≤ level r.nodeId := by positivity
    have d1 := gradientSum_eq (lo := lo) (hi := hi) hcodes hnd hlt
    have d2 := gradientSum_eq (lo := lo) (hi := hi) hcodes (hnd.filter (bitAt m))
      (fun i hi' => hlt i (List.mem_of_mem_filter hi'))
    have d3 := gradientSum_eq (lo := lo) (hi := hi) hcodes (hnd.filter fun i => !bitAt m i)
      (fun i hi' => hlt i (List.mem_of_mem_filter hi'))
    rw [inside_eq rfl] at d2
    rw [outside_eq rfl] at d3
    have b1 := abs_dsum hw hlo hhi hcle r.examples
    have b2 := abs_dsum hw hlo hhi hcle (r.examples.filter (bitAt m))
    have b3 := abs_dsum hw hlo hhi hcle (r.examples.filter fun i => !bitAt m i)
    rw [filter_compl] at b3
    unfold maskGain
    rw [← d1, ← d2, ← d3, c1, c2, cardE, hsp, hok.count]
    exact hgain _ _ v sp sl _ _ _ hs' hcnt (by omega) (by omega) hsm hsum.len b1 b2 b3
      (dsum_filter lo hi codes (bitAt m) r.examples)
      (hperr.trans (mul_le_mul_of_nonneg_right (by nlinarith) hE0)) (herr.trans (mul_le_mul_of_nonneg_right hL hE0))

end Learner
end BitBoost
