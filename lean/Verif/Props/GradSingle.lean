import Verif.Lemmas.Round32
import Verif.Props.Loss
import Verif.Props.Single
import Verif.Props.Sampling
/-!
# C56, C30, C51 in single precision
-/
namespace BitBoost.Props
open BitBoost Spec Dataset

/-! ## C56 -/

/-- Squared loss in single precision: each gradient is the derivative of half the squared error, up to the rounding of one
subtraction. -/
theorem C56_l2_f32 (M : Libm) (o o' : Objective) (ts ps : List ℚ) (hk : o.kind = .l2)
    (hp : o.predictions = column ps) (h : Objective.update .binary32 M o (column ts) = .ok o') (i : Nat)
    (hi : i < ts.length) (hB : |at' ts i - at' ps i| ≤ 2 ^ 126) :
    ∃ g g', o'.gradients[i]? = some (.fin g) ∧ IsSubgradient (fun p => (at' ts i - p) ^ 2 / 2) (at' ps i) g' ∧
      |g - g'| ≤ |g'| / 2 ^ 24 + 1 / 2 ^ 150 := by
  obtain ⟨h1, h2⟩ := update_inv h
  have hl : ps.length = ts.length := by rw [hp] at h1; simpa [Spec.column] using h1
  rw [update_eq _ M o _ h1 h2, hk] at h
  simp only [Out.ok.injEq] at h
  subst h
  obtain ⟨r, e, hr⟩ := FP.binary32_err hB
  refine ⟨-r, -(at' ts i - at' ps i), ?_, ?_, ?_⟩
  · simp only [hp, List.getElem?_map, zip_get _ ts ps hl i hi, FP.sub_fin, e]; rfl
  · intro q
    simp only
    nlinarith [sq_nonneg (q - at' ps i)]
  · rw [abs_neg, show -r - -(at' ts i - at' ps i) = -(r - (at' ts i - at' ps i)) by ring, abs_neg]
    exact hr

/-- The sign of a difference of two `f32` numbers is not lost. -/
theorem sub_sign32 {t p : ℚ} (ht : FP.binary32.rnd t = .fin t) (hp : FP.binary32.rnd p = .fin p)
    (hB : |t - p| < 2 ^ 126) : ∃ r, FP.binary32.rnd (t - p) = .fin r ∧ (r < 0 ↔ t - p < 0) ∧ (r = 0 ↔ t = p) := by
  obtain ⟨r, e, _⟩ := FP.binary32_err hB.le
  refine ⟨r, e, ?_⟩
  have hb := abs_lt.1 hB
  rcases lt_trichotomy t p with hc | hc | hc
  · obtain ⟨d, e1, e2⟩ := FP.binary32_sub_pos hc ht hp (by linarith [show (2 : ℚ) ^ 126 < 2 ^ 127 by norm_num])
    have := FP.binary32.symm (p - t)
    rw [e1, show -(p - t) = t - p by ring, e] at this
    have : r = -d := by simpa [Num.neg] using this
    subst this
    exact ⟨⟨fun _ => by linarith, fun _ => by linarith⟩, ⟨fun _ => by linarith, fun _ => by linarith⟩⟩
  · subst hc
    rw [sub_self, FP.binary32.rnd_zero] at e
    cases e
    simp
  · obtain ⟨d, e1, e2⟩ := FP.binary32_sub_pos hc hp ht (by linarith [show (2 : ℚ) ^ 126 < 2 ^ 127 by norm_num])
    rw [e] at e1
    cases e1
    exact ⟨⟨fun _ => by linarith, fun _ => by linarith⟩, ⟨fun _ => by linarith, fun _ => by linarith⟩⟩

/-- Absolute loss in single precision: the gradients are exactly (sub)derivatives of the absolute error, for targets and
predictions that are `f32` numbers. -/
theorem C56_l1_f32 (M : Libm) (o o' : Objective) (ts ps : List ℚ) (hk : o.kind = .l1)
    (hp : o.predictions = column ps) (h : Objective.update .binary32 M o (column ts) = .ok o') (i : Nat)
    (hi : i < ts.length) (ht : FP.binary32.rnd (at' ts i) = .fin (at' ts i))
    (hpi : FP.binary32.rnd (at' ps i) = .fin (at' ps i)) (hB : |at' ts i - at' ps i| < 2 ^ 126) :
    ∃ g, o'.gradients[i]? = some (.fin g) ∧ IsSubgradient (absLoss (at' ts i)) (at' ps i) g := by
  obtain ⟨h1, h2⟩ := update_inv h
  have hl : ps.length = ts.length := by rw [hp] at h1; simpa [Spec.column] using h1
  rw [update_eq _ M o _ h1 h2, hk] at h
  simp only [Out.ok.injEq] at h
  subst h
  obtain ⟨r, e, hs, _⟩ := sub_sign32 ht hpi hB
  refine ⟨if at' ts i - at' ps i < 0 then 1 else -1, ?_, ?_⟩
  · simp only [hp, List.getElem?_map, zip_get _ ts ps hl i hi, FP.sub_fin, Option.map_some, e, Num.signum, hs]
    split_ifs <;> simp [Num.neg]
  · intro q
    simp only [absLoss]
    split_ifs with hc
    · rw [abs_of_neg hc]
      have := neg_abs_le (at' ts i - q)
      linarith
    · rw [abs_of_nonneg (not_lt.1 hc)]
      have := le_abs_self (at' ts i - q)
      linarith

private theorem clamp_close (δ u r : ℚ) (hs : r < 0 ↔ u < 0) :
    |(if |r| ≤ δ then r else δ * (if r < 0 then -1 else 1)) - (if |u| ≤ δ then u else δ * (if u < 0 then -1 else 1))| ≤
      |r - u| := by
  by_cases hu : u < 0
  · have hr := hs.2 hu
    simp only [hu, hr, if_true, abs_of_neg]
    rcases le_total r u with hc | hc
    · rw [abs_of_nonpos (by linarith : r - u ≤ 0)]
      split_ifs <;> rw [abs_le] <;> constructor <;> linarith
    · rw [abs_of_nonneg (by linarith : 0 ≤ r - u)]
      split_ifs <;> rw [abs_le] <;> constructor <;> linarith
  · have hr : ¬ r < 0 := fun h => hu (hs.1 h)
    simp only [hu, hr, if_false]
    push Not at hu hr
    rw [abs_of_nonneg hr, abs_of_nonneg hu]
    rcases le_total r u with hc | hc
    · rw [abs_of_nonpos (by linarith : r - u ≤ 0)]
      split_ifs <;> rw [abs_le] <;> constructor <;> linarith
    · rw [abs_of_nonneg (by linarith : 0 ≤ r - u)]
      split_ifs <;> rw [abs_le] <;> constructor <;> linarith

/-- Huber loss in single precision: the *negated* gradients are derivatives of the Huber loss with the announced `delta`, up
to the rounding of the residual. (The sign is wrong, `C56_huber_refuted`.) -/
theorem C56_huber_f32_partial (M : Libm) (o o' : Objective) (ts ps : List ℚ) (δ : ℚ) (hk : o.kind = .huber)
    (hp : o.predictions = column ps) (h : Objective.update .binary32 M o (column ts) = .ok o')
    (hδ : o'.delta = .fin δ) (i : Nat) (hi : i < ts.length) (ht : FP.binary32.rnd (at' ts i) = .fin (at' ts i))
    (hpi : FP.binary32.rnd (at' ps i) = .fin (at' ps i)) (hB : |at' ts i - at' ps i| < 2 ^ 126) :
    ∃ g g', o'.gradients[i]? = some (.fin g) ∧ IsSubgradient (huberLoss δ (at' ts i)) (at' ps i) (-g') ∧
      |g - g'| ≤ |at' ts i - at' ps i| / 2 ^ 24 + 1 / 2 ^ 150 := by
  obtain ⟨h1, h2⟩ := update_inv h
  have hl : ps.length = ts.length := by rw [hp] at h1; simpa [Spec.column] using h1
  rw [update_eq _ M o _ h1 h2, hk] at h
  simp only at h
  rw [Out.bind_eq_ok] at h
  obtain ⟨q, hq, h⟩ := h
  simp only [Out.pure_eq, Out.ok.injEq] at h
  subst h
  simp only at hδ
  have hq' : ∃ x, q = FP.binary32.rnd x ∨ ¬ q.isFinite := by
    unfold Objective.quantile at hq
    obtain ⟨b, _, hq⟩ := Out.bind_eq_ok.1 hq
    obtain ⟨b', _, hq⟩ := Out.bind_eq_ok.1 hq
    obtain ⟨k, _, hq⟩ := Out.bind_eq_ok.1 hq
    simp only [Out.pure_eq, Out.ok.injEq] at hq
    subst hq
    unfold Binner.representative
    generalize FP.binary32.mul _ _ = y
    generalize b'.minValue = z
    cases z <;> cases y <;> first | exact ⟨_, Or.inl rfl⟩ | exact ⟨0, Or.inr (by simp [FP.add, Num.isFinite])⟩
  have hδ0 : 0 ≤ δ ∧ FP.binary32.rnd δ = .fin δ := by
    cases q with
    | fin r =>
      simp only [Num.abs, Num.fin.injEq] at hδ
      obtain ⟨x, hx | hx⟩ := hq'
      · have hr := FP.binary32.idem x r hx.symm
        refine ⟨by rw [← hδ]; exact abs_nonneg r, ?_⟩
        rw [← hδ]
        rcases abs_choice r with hc | hc <;> rw [hc]
        · exact hr
        · rw [FP.binary32.symm, hr]; rfl
      · simp [Num.isFinite] at hx
    | pinf => simp [Num.abs] at hδ
    | ninf => simp [Num.abs] at hδ
    | nan => simp [Num.abs] at hδ
  obtain ⟨hδ0, hδr⟩ := hδ0
  obtain ⟨r, e, hs, _⟩ := sub_sign32 ht hpi hB
  obtain ⟨r', e', herr⟩ := FP.binary32_err hB.le
  rw [e] at e'
  cases e'
  set u := at' ts i - at' ps i with hu
  refine ⟨if |r| ≤ δ then r else δ * (if r < 0 then -1 else 1), if |u| ≤ δ then u else δ * (if u < 0 then -1 else 1),
    ?_, ?_, (clamp_close δ u r hs).trans herr⟩
  · simp only [hp, List.getElem?_map, zip_get _ ts ps hl i hi, FP.sub_fin, Option.map_some, hδ, ← hu, e]
    simp only [Objective.huberGradient, Num.abs, Num.le, decide_eq_true_eq, Num.signum]
    split_ifs
    · rfl
    · rw [FP.mul_fin, mul_neg_one, FP.binary32.symm, hδr]; rfl
    · rw [FP.mul_fin, mul_one, hδr]
  · intro q'
    have := huber_convex δ u (at' ts i - q') hδ0
    have e : at' ts i - q' - u = -(q' - at' ps i) := by rw [hu]; ring
    rw [e] at this
    simp only [huberLoss]
    linarith

/-- Log loss in single precision: the gradient is the derivative of `ln (1 + exp (-2 y p))`, up to twice the error of the
computed `exp (2 y p)` and `5 / 2^24`. (`y` is 1 or -1, `q` is the computed `2 y p` and `e` the computed exponential.) -/
theorem C56_binary_f32 (M : Libm) (t p q e : ℚ) (ht : t = 0 ∨ t = 1)
    (hq : FP.binary32.rnd (2 * (2 * t - 1) * p) = .fin q) (he : M.exp (.fin q) = .fin e) (he0 : 0 ≤ e)
    (he1 : e ≤ 2 ^ 125) :
    ∃ (g : ℚ) (g' : ℝ), Objective.binaryGradient .binary32 M (.fin t) (.fin p) = .fin g ∧
      HasDerivAt (fun x : ℝ => Real.log (1 + Real.exp (-2 * (2 * t - 1) * x))) g' p ∧
      |(g : ℝ) - g'| ≤ 2 * |(e : ℝ) - Real.exp (2 * (2 * t - 1) * p)| + 5 / 2 ^ 24 := by
  let M' : Libm := { M with exp := fun _ => .fin e }
  obtain ⟨g0, g', e1, e2, e3⟩ := C56_binary M' t p e ht he0 rfl
  set y : ℚ := 2 * t - 1 with hy
  have hy1 : y = 1 ∨ y = -1 := by rcases ht with rfl | rfl <;> norm_num [hy]
  have hint : ∀ n : ℤ, |n| ≤ 2 ^ 24 → FP.binary32.rnd (n : ℚ) = .fin n := FP.binary32.int
  have ry : FP.binary32.rnd y = .fin y := by
    rcases hy1 with h | h <;> rw [h]
    · exact_mod_cast hint 1 (by norm_num)
    · exact_mod_cast hint (-1) (by norm_num)
  have r2t : FP.binary32.rnd (2 * t) = .fin (2 * t) := by
    rcases ht with h | h <;> rw [h]
    · simpa using FP.binary32.rnd_zero
    · have := hint 2 (by norm_num); norm_num at this ⊢; exact this
  have r2y : FP.binary32.rnd (2 * y) = .fin (2 * y) := by
    rcases hy1 with h | h <;> rw [h]
    · have := hint 2 (by norm_num); norm_num at this ⊢; exact this
    · have := hint (-2) (by norm_num); norm_num at this ⊢; exact this
  have hg0 : g0 = -(2 * y) / (1 + e) := by
    have hne : 1 + e ≠ 0 := by linarith
    have d0 : FP.exact.sub (FP.exact.mul (.fin 2) (.fin t)) (.fin 1) = .fin y := by
      show FP.exact.sub (.fin (2 * t)) (.fin 1) = _
      rw [FP.sub_fin]; rfl
    have d1 : FP.exact.mul (.fin 2) (.fin y) = .fin (2 * y) := rfl
    have d3 : FP.exact.add (.fin 1) (.fin e) = .fin (1 + e) := rfl
    simp only [Objective.binaryGradient, d0, d1, M', d3, Num.neg] at e1
    rw [FP.div_fin _ hne] at e1
    exact (Num.fin.inj e1).symm
  obtain ⟨s, s1, s2, s3, s4⟩ := FP.binary32_err_pos (q := 1 + e) (by linarith) (by linarith [show (2 : ℚ) ^ 125 + 1 ≤ 2 ^ 126 by norm_num])
  have hs1 : 1 ≤ s := by
    have h1 := FP.binary32.mono 1 (1 + e) (by linarith)
    rw [s1, FP.binary32.rnd_one] at h1
    simpa [Num.le] using h1
  have habs2 : |-(2 * y)| = 2 := by rcases hy1 with h | h <;> rw [h] <;> norm_num
  have hquot : |-(2 * y) / s| ≤ 2 := by
    rw [abs_div, habs2, abs_of_pos (by linarith), div_le_iff₀ (by linarith)]
    linarith
  obtain ⟨g, g1, g2⟩ := FP.step32 hquot (by norm_num)
  refine ⟨g, g', ?_, e2, ?_⟩
  · simp only [Objective.binaryGradient, FP.mul_fin, r2t, FP.sub_fin]
    rw [← hy, ry]
    simp only [FP.mul_fin, r2y, hq, he, FP.add_fin, s1, Num.neg]
    rw [FP.div_fin _ (by linarith), g1]
  · have hdiff : |-(2 * y) / s - g0| ≤ 2 / 2 ^ 24 + 2 / 2 ^ 150 := by
      have he1' : 0 < 1 + e := by linarith
      rw [hg0, div_sub_div _ _ (by linarith) he1'.ne', show -(2 * y) * (1 + e) - s * -(2 * y) = -(2 * y) * ((1 + e) - s) by ring,
        abs_div, abs_mul, habs2, abs_of_pos (mul_pos (by linarith) he1'), div_le_iff₀ (mul_pos (by linarith) he1')]
      have hd : |(1 + e) - s| ≤ (1 + e) / 2 ^ 24 + 1 / 2 ^ 150 := by
        rw [abs_le]; constructor <;> linarith
      have hm : (1 + e) ≤ s * (1 + e) := by nlinarith
      generalize s * (1 + e) = X at *
      linarith
    have hgg : |g - g0| ≤ 5 / 2 ^ 24 := by
      have := abs_sub_le g (-(2 * y) / s) g0
      have hn : (2 : ℚ) / 2 ^ 24 + 1 / 2 ^ 150 + (2 / 2 ^ 24 + 2 / 2 ^ 150) ≤ 5 / 2 ^ 24 := by norm_num
      linarith
    have hggR : |(g : ℝ) - g0| ≤ 5 / 2 ^ 24 := by
      have : ((|g - g0| : ℚ) : ℝ) ≤ ((5 / 2 ^ 24 : ℚ) : ℝ) := by exact_mod_cast hgg
      push_cast at this
      exact this
    have := abs_sub_le (g : ℝ) g0 g'
    linarith

/-! ## C30 -/

/-- In single precision the number of active examples is within `1/2 + n * fraction / 2^24` (and a tiny amount) of
`n * fraction`. -/
theorem C30_count_f32 (cfg : Config) (d : Data) (rng : Rng) (k : Nat) (ds : Dataset)
    (h : Updated .binary32 cfg d rng k ds) (hs : ds.exampleSampling = true) (rows : List Nat)
    (hr : Active ds rows) (frac : ℚ) (hf : cfg.exampleFraction = .fin frac) (hpos : 0 ≤ frac)
    (hn : d.nexamples ≤ 2 ^ 24) :
    |(rows.length : ℚ) - d.nexamples * frac| ≤ 1 / 2 + d.nexamples * frac / 2 ^ 24 + 1 / 2 ^ 150 := by
  obtain ⟨h1, _⟩ := C30_examples _ cfg d rng k ds h hs rows hr
  have hb := h.inv.bag
  have hlt : frac < 1 := by
    by_contra hge
    rw [if_neg (by rw [hf, Num.fin_lt_fin]; exact hge)] at hb
    simp [exampleSampling, hb] at hs
  have hnq : (d.nexamples : ℚ) ≤ 2 ^ 24 := by exact_mod_cast hn
  have hn0 : (0 : ℚ) ≤ d.nexamples := by positivity
  have hx0 : 0 ≤ (d.nexamples : ℚ) * frac := by positivity
  have hx1 : (d.nexamples : ℚ) * frac ≤ 2 ^ 24 := by nlinarith
  obtain ⟨x, e, x0, x1, x2⟩ := FP.binary32_err_pos hx0 (hx1.trans (by norm_num))
  rw [h1, hf, FP.binary32.ofNat_eq hn, FP.mul_fin, e]
  have hra : Num.roundAway x = ⌊x + 1 / 2⌋ := by
    unfold Num.roundAway; rw [if_pos x0]
  simp only [Num.round, Num.toUsize, Num.cast, hra, Num.trunc_int]
  have f0 : 0 ≤ ⌊x + 1 / 2⌋ := Int.floor_nonneg.2 (by positivity)
  have f1 : ⌊x + 1 / 2⌋ ≤ 2 ^ 63 := by
    have : (⌊x + 1 / 2⌋ : ℚ) ≤ x + 1 / 2 := Int.floor_le _
    have h2 : x ≤ 2 ^ 25 := by
      have : (d.nexamples : ℚ) * frac * (1 + 1 / 2 ^ 24) ≤ 2 ^ 24 * (1 + 1 / 2 ^ 24) := by
        apply mul_le_mul_of_nonneg_right hx1 (by norm_num)
      linarith
    have : (⌊x + 1 / 2⌋ : ℚ) ≤ (2 ^ 63 : ℤ) := by push_cast; linarith
    exact_mod_cast this
  rw [min_eq_right (by omega), max_eq_right f0]
  have hc : ((⌊x + 1 / 2⌋.toNat : ℕ) : ℚ) = (⌊x + 1 / 2⌋ : ℚ) := by
    exact_mod_cast Int.toNat_of_nonneg f0
  rw [hc]
  have a1 : (⌊x + 1 / 2⌋ : ℚ) ≤ x + 1 / 2 := Int.floor_le _
  have a2 : x + 1 / 2 < ⌊x + 1 / 2⌋ + 1 := Int.lt_floor_add_one _
  rw [abs_le]
  constructor <;> linarith

/-! ## C51 -/

private def Nn (x : Num) : Prop := x = .nan ∨ (Num.fin 0).le x = true

private theorem nn_add (F : FP) {a b : Num} (ha : Nn a) (hb : Nn b) : Nn (F.add a b) := by
  rcases ha with rfl | ha
  · left; rfl
  rcases hb with rfl | hb
  · left; cases a <;> rfl
  cases a <;> cases b <;> simp [Num.le] at ha hb
  · rw [FP.add_fin]; right; exact F.rnd_nonneg (by linarith)
  · right; rfl
  · right; rfl
  · right; rfl

private theorem nn_sq (F : FP) (d : Num) : Nn (F.mul d d) := by
  cases d with
  | fin q => rw [FP.mul_fin]; right; exact F.rnd_nonneg (mul_self_nonneg q)
  | pinf => right; rfl
  | ninf => right; rfl
  | nan => left; rfl

private theorem nn_div (F : FP) {a : Num} (ha : Nn a) (n : Nat) : Nn (F.div a (F.ofNat n)) := by
  have hn := F.rnd_nonneg (q := n) (by positivity)
  unfold FP.ofNat
  rcases ha with rfl | ha
  · left; rfl
  generalize F.rnd n = y at *
  cases a <;> cases y <;> simp [Num.le] at ha hn
  · rename_i a y
    by_cases hy : y = 0
    · subst hy
      simp only [FP.div, if_true, FP.sgn]
      split_ifs with h1 h2
      · right; rfl
      · linarith
      · left; rfl
    · rw [FP.div_fin _ hy]; right; exact F.rnd_nonneg (div_nonneg ha hn)
  · right; simp [FP.div, Num.le]
  · rename_i y
    right
    simp [FP.div, not_lt.2 hn, Num.le]
  · left; rfl

private theorem l2_nonneg (F : FP) (M : Libm) (ts ps : List Num) : Nn (Metric.eval F M .l2 ts ps) := by
  have key : ∀ (l : List (Num × Num)) (acc : Num × Nat), Nn acc.1 →
      Nn (l.foldl (fun (acc : Num × Nat) tp => (F.add acc.1 (Metric.l2One F tp.1 tp.2), acc.2 + 1)) acc).1 := by
    intro l
    induction l with
    | nil => intro acc h; exact h
    | cons x l ih => intro acc h; exact ih _ (nn_add F h (nn_sq F _))
  exact nn_div F (key _ _ (Or.inr rfl)) _

/-- In single precision `RMSE` is a root of the mean squared difference, up to the error of `L2` and the error of the square
root (`hsqrt`: a correctly rounded square root meets this). -/
theorem C51_rmse_f32 (M : Libm) (ts ps : List ℚ) (h : ts.length = ps.length) (hne : ts ≠ []) (B : ℚ)
    (hB1 : 1 / 2 ^ 40 ≤ B) (hB2 : B ≤ 2 ^ 40) (ht : ∀ t ∈ ts, |t| ≤ B) (hp : ∀ p ∈ ps, |p| ≤ B)
    (hn : ts.length ≤ 2 ^ 20)
    (hsqrt : ∀ q : ℚ, 0 ≤ q → ∃ r : ℚ, 0 ≤ r ∧ M.sqrt (.fin q) = .fin r ∧ |r ^ 2 - q| ≤ q / 2 ^ 22) :
    ∃ r : ℚ, 0 ≤ r ∧ Metric.eval .binary32 M .rmse (column ts) (column ps) = .fin r ∧
      |r ^ 2 - sqErr ts ps / ts.length| ≤ sqErr ts ps / ts.length / 2 ^ 22 + (10 * ts.length + 26) * B ^ 2 / 2 ^ 23 := by
  obtain ⟨m, e, hm⟩ := C51_l2_f32 M ts ps h hne B hB1 hB2 ht hp hn
  have hm0 : 0 ≤ m := by
    have := l2_nonneg .binary32 M (Spec.column ts) (Spec.column ps)
    rw [e] at this
    rcases this with h0 | h0
    · cases h0
    · simpa [Num.le] using h0
  obtain ⟨r, r0, e1, e2⟩ := hsqrt m hm0
  refine ⟨r, r0, ?_, ?_⟩
  · rw [← e1, ← e]; rfl
  · have := abs_sub_le (r ^ 2) m (sqErr ts ps / ts.length)
    have h1 := abs_le.1 hm
    have hmul : (10 * (ts.length : ℚ) + 23) * B ^ 2 / 2 ^ 23 / 2 ^ 22 ≤ 3 * B ^ 2 / 2 ^ 23 := by
      have hn' : (ts.length : ℚ) ≤ 2 ^ 20 := by exact_mod_cast hn
      rw [div_div, div_le_div_iff₀ (by norm_num) (by norm_num)]
      have : 0 ≤ B ^ 2 := sq_nonneg B
      nlinarith
    have hdv : m / 2 ^ 22 ≤ (sqErr ts ps / ts.length + (10 * (ts.length : ℚ) + 23) * B ^ 2 / 2 ^ 23) / 2 ^ 22 :=
      div_le_div_of_nonneg_right (by linarith) (by norm_num)
    rw [add_div] at hdv
    have e3 : (10 * (ts.length : ℚ) + 26) * B ^ 2 / 2 ^ 23 = (10 * (ts.length : ℚ) + 23) * B ^ 2 / 2 ^ 23 + 3 * B ^ 2 / 2 ^ 23 := by ring
    rw [e3]
    have hc := hdv.trans (add_le_add le_rfl hmul)
    exact this.trans ((add_le_add (e2.trans hc) hm).trans (le_of_eq (by ring)))

/-! ## The hypotheses are met -/

private def gradData : Data :=
  ⟨4, [], 1, 3, [⟨[.fin 0, .fin 1, .fin 1], .fin 0, .fin 1, .loCardCat, 2⟩,
    ⟨[.fin 0, .fin 1, .fin 5], .fin 0, .fin 5, .numerical, 0⟩]⟩

/-- Every objective can be updated in single precision with the targets 0, 1, 1, 0 and the predictions 0, 1, 0, 1, and the
`delta` of Huber is finite. -/
example (k : ObjKind) : ∃ o' δ, Objective.update .binary32 ⟨id, id, id⟩ (exObj k) (Spec.column [0, 1, 1, 0]) = .ok o' ∧
    o'.delta = .fin δ ∧ FP.binary32.rnd (at' [0, 1, 1, 0] 2) = .fin (at' [0, 1, 1, 0] 2) ∧
    FP.binary32.rnd (at' [0, 1, 0, 1] 2) = .fin (at' [0, 1, 0, 1] 2) ∧ |at' [0, 1, 1, 0] 2 - at' [0, 1, 0, 1] 2| < 2 ^ 126 := by
  have h : ∀ k : ObjKind, (match Objective.update .binary32 ⟨id, id, id⟩ (exObj k) (Spec.column [0, 1, 1, 0]) with
      | .ok o' => o'.delta.isFinite | _ => false) = true := by
    intro k; cases k <;> decide +kernel
  have hk := h k
  cases e : Objective.update .binary32 ⟨id, id, id⟩ (exObj k) (Spec.column [0, 1, 1, 0]) with
  | panic => rw [e] at hk; cases hk
  | ub => rw [e] at hk; cases hk
  | ok o' =>
    rw [e] at hk
    have h1 := FP.binary32.int 1 (by norm_num)
    have h0 := FP.binary32.rnd_zero
    cases hd : o'.delta with
    | fin δ =>
      refine ⟨o', δ, rfl, hd, ?_, ?_, ?_⟩ <;> norm_num [at'] <;> first | exact_mod_cast h1 | exact h0
    | pinf => simp [hd, Num.isFinite] at hk
    | ninf => simp [hd, Num.isFinite] at hk
    | nan => simp [hd, Num.isFinite] at hk

/-- Log loss: target 1, prediction 3, and an exponential of 403. -/
example : ∃ M : Libm, FP.binary32.rnd (2 * (2 * 1 - 1) * 3) = .fin 6 ∧ M.exp (.fin 6) = .fin 403 := by
  refine ⟨⟨fun _ => .fin 403, id, id⟩, ?_, rfl⟩
  have := FP.binary32.int 6 (by norm_num)
  norm_num at this ⊢
  exact this

/-- Sampling: after an update two of the three rows are active, for the fraction 0.6. -/
example : ∃ ds, Updated .binary32 { Config.new with exampleFraction := .fin (3 / 5), sampleFreq := 1 } gradData ⟨fun _ => 1⟩ 1 ds ∧
    ds.exampleSampling = true ∧ ∃ rows, Active ds rows ∧ rows.length = 2 := by
  obtain ⟨ds, h1, h2⟩ := exampleRun_check (F := .binary32)
    (cfg := { Config.new with exampleFraction := .fin (3 / 5), sampleFreq := 1 }) (d := gradData) (rng := ⟨fun _ => 1⟩)
    (gs := [([.fin 0, .fin 1, .fin (-1)], (.fin (-1), .fin 1))])
    (fun ds => ds.exampleSampling && decide (ds.activePairs = .ok ((List.range 2).zip [1, 2]))) (by decide +kernel)
  simp only [Bool.and_eq_true, decide_eq_true_eq] at h2
  exact ⟨ds, h1, h2.1, [1, 2], h2.2, rfl⟩

/-- A square root with the accuracy asked for. -/
example : ∃ M : Libm, ∀ q : ℚ, 0 ≤ q → ∃ r : ℚ, 0 ≤ r ∧ M.sqrt (.fin q) = .fin r ∧ |r ^ 2 - q| ≤ q / 2 ^ 22 := by
  have key : ∀ q : ℚ, 0 ≤ q → ∃ r : ℚ, 0 ≤ r ∧ |r ^ 2 - q| ≤ q / 2 ^ 22 := by
    intro q hq
    rcases hq.eq_or_lt with rfl | hq
    · exact ⟨0, le_rfl, by simp⟩
    · have h1 : ((q : ℝ)) < (q : ℝ) * (1 + 1 / 2 ^ 22) := by
        have : (0 : ℝ) < q := by exact_mod_cast hq
        nlinarith
      have h2 : Real.sqrt q < Real.sqrt (q * (1 + 1 / 2 ^ 22)) :=
        Real.sqrt_lt_sqrt (by exact_mod_cast hq.le) h1
      obtain ⟨r, hr1, hr2⟩ := exists_rat_btwn h2
      have hr0 : (0 : ℝ) ≤ r := (Real.sqrt_nonneg _).trans hr1.le
      refine ⟨r, by exact_mod_cast hr0, ?_⟩
      have a1 : (q : ℝ) ≤ (r : ℝ) ^ 2 := by
        rw [Real.sqrt_lt' (lt_of_le_of_lt (Real.sqrt_nonneg _) hr1)] at hr1
        exact hr1.le
      have a2 : (r : ℝ) ^ 2 ≤ q * (1 + 1 / 2 ^ 22) := by
        rw [Real.lt_sqrt hr0] at hr2
        exact hr2.le
      have a1' : q ≤ r ^ 2 := by exact_mod_cast a1
      have a2' : r ^ 2 ≤ q * (1 + 1 / 2 ^ 22) := by
        have : ((r ^ 2 : ℚ) : ℝ) ≤ ((q * (1 + 1 / 2 ^ 22) : ℚ) : ℝ) := by push_cast; exact a2
        exact_mod_cast this
      rw [abs_of_nonneg (by linarith)]
      linarith
  choose f hf using key
  refine ⟨⟨id, id, fun x => match x with | .fin q => if h : 0 ≤ q then .fin (f q h) else .nan | _ => .nan⟩, ?_⟩
  intro q hq
  exact ⟨f q hq, (hf q hq).1, by simp [hq], (hf q hq).2⟩

end BitBoost.Props
