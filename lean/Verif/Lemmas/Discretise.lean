import Verif.Model.Discretise
import Verif.Lemmas.Num
/-! # Lemmas on discretisation -/
namespace BitBoost
namespace BitSlice

theorem toU8_toNat (x : Num) : x.toU8.toNat = (Num.cast 0 255 x).toNat := by
  have h : 0 ≤ Num.cast 0 255 x ∧ Num.cast 0 255 x ≤ 255 := by
    cases x <;> simp [Num.cast]
  have : (2 ^ 8 - 1 : ℤ) = 255 := by norm_num
  unfold Num.toU8
  rw [this, BitVec.toNat_ofInt]
  congr 1
  norm_num
  omega

/-- Clamping to finite bounds gives a finite number within the bounds. -/
theorem clamp_fin {lo hi : ℚ} (h : lo ≤ hi) (v : Num) :
    ∃ c : ℚ, Num.min (.fin hi) (Num.max (.fin lo) v) = .fin c ∧ lo ≤ c ∧ c ≤ hi := by
  cases v with
  | fin q =>
    by_cases h1 : lo ≤ q
    · by_cases h2 : hi ≤ q
      · exact ⟨hi, by simp [Num.min, Num.max, h1, h2], h, le_rfl⟩
      · exact ⟨q, by simp [Num.min, Num.max, h1, h2], h1, by linarith⟩
    · refine ⟨lo, ?_, le_rfl, h⟩
      by_cases h2 : hi ≤ lo
      · have : hi = lo := le_antisymm h2 h
        simp [Num.min, Num.max, h1, this]
      · simp [Num.min, Num.max, h1, h2]
  | pinf => exact ⟨hi, by simp [Num.min, Num.max, Num.le], h, le_rfl⟩
  | ninf =>
    refine ⟨lo, ?_, le_rfl, h⟩
    by_cases h2 : hi ≤ lo
    · have : hi = lo := le_antisymm h2 h
      simp [Num.min, Num.max, Num.le, this]
    · simp [Num.min, Num.max, Num.le, h2]
  | nan =>
    refine ⟨lo, ?_, le_rfl, h⟩
    by_cases h2 : hi ≤ lo
    · have : hi = lo := le_antisymm h2 h
      simp [Num.min, Num.max, this]
    · simp [Num.min, Num.max, h2]

theorem maxval_le {w : Nat} (hw : w ≤ 8) : maxval w ≤ 255 := by
  unfold maxval
  have : 2 ^ w ≤ 2 ^ 8 := Nat.pow_le_pow_right (by norm_num) hw
  omega

theorem maxval_pos {w : Nat} (hw : 1 ≤ w) : 1 ≤ maxval w := by
  unfold maxval
  have : 2 ^ 1 ≤ 2 ^ w := Nat.pow_le_pow_right (by norm_num) hw
  omega

/-- The scaled value before rounding to an integer, for bounds with a finite positive difference. -/
theorem scaled_fin (F : FP) {w : Nat} (hw : w ≤ 8) {lo hi d c : ℚ} (hd : F.rnd (hi - lo) = .fin d)
    (hpos : 0 < d) (h1 : lo ≤ c) (h2 : c ≤ hi) :
    ∃ z : ℚ, F.mul (F.div (F.sub (.fin c) (.fin lo)) (F.sub (.fin hi) (.fin lo))) (F.ofNat (maxval w))
      = .fin z ∧ 0 ≤ z ∧ z ≤ maxval w := by
  have hmv := maxval_le hw
  rw [F.sub_fin, F.sub_fin, hd, F.ofNat_eq (by omega)]
  have ha := F.rnd_nonneg (q := c - lo) (by linarith)
  have hb := F.mono (c - lo) (hi - lo) (by linarith)
  rw [hd] at hb
  obtain ⟨x, hx⟩ : ∃ x, F.rnd (c - lo) = .fin x := by
    cases hr : F.rnd (c - lo) <;> rw [hr] at ha hb <;> simp [Num.le] at *
  rw [hx] at ha hb ⊢
  simp at ha hb
  rw [F.div_fin hpos.ne']
  have hy1 := F.rnd_nonneg (q := x / d) (by positivity)
  have hy2 := F.rnd_le_one (q := x / d) (by rw [div_le_one hpos]; exact hb)
  obtain ⟨y, hy⟩ : ∃ y, F.rnd (x / d) = .fin y := by
    cases hr : F.rnd (x / d) <;> rw [hr] at hy1 hy2 <;> simp [Num.le] at *
  rw [hy] at hy1 hy2 ⊢
  simp at hy1 hy2
  rw [F.mul_fin]
  have hz1 := F.rnd_nonneg (q := y * maxval w) (by positivity)
  have hz2 := F.rnd_le_nat (q := y * maxval w) (n := maxval w) (by omega)
    (by have : (0 : ℚ) ≤ maxval w := by positivity
        nlinarith)
  obtain ⟨z, hz⟩ : ∃ z, F.rnd (y * maxval w) = .fin z := by
    cases hr : F.rnd (y * maxval w) <;> rw [hr] at hz1 hz2 <;> simp [Num.le] at *
  rw [hz] at hz1 hz2
  exact ⟨z, hz, by simpa using hz1, by simpa using hz2⟩

/-- Degenerate range (difference underflows to zero or overflows): the scaled value rounds to 0. -/
theorem scaled_degenerate (F : FP) {w : Nat} {lo hi c : ℚ} (hw : w ≤ 8)
    (hd : ∀ d, F.rnd (hi - lo) = .fin d → ¬ 0 < d) (h1 : lo ≤ c) (h2 : c ≤ hi) :
    Num.cast 0 255 (Num.round (F.mul (F.div (F.sub (.fin c) (.fin lo)) (F.sub (.fin hi) (.fin lo)))
      (F.ofNat (maxval w)))) = 0 := by
  have hmv := maxval_le hw
  rw [F.sub_fin, F.sub_fin, F.ofNat_eq (by omega)]
  have ha := F.rnd_nonneg (q := c - lo) (by linarith)
  have hb := F.mono (c - lo) (hi - lo) (by linarith)
  cases hr : F.rnd (hi - lo) with
  | fin d =>
    have hd0 : ¬ 0 < d := hd d hr
    rw [hr] at hb
    cases hx : F.rnd (c - lo) with
    | fin x =>
      rw [hx] at ha hb
      simp at ha hb
      have : x = 0 := by linarith
      have : d = 0 := by linarith
      subst x d
      simp [FP.div, FP.infOf, FP.sgn, FP.mul, Num.round, Num.cast]
    | pinf => rw [hx] at hb; simp [Num.le] at hb
    | ninf => rw [hx] at ha; simp [Num.le] at ha
    | nan => exact absurd hx (F.rnd_ne_nan _)
  | pinf =>
    cases hx : F.rnd (c - lo) with
    | fin x =>
      simp [FP.div, FP.mul, F.rnd_zero, Num.round, Num.cast]
      have := Num.roundAway_int 0
      have h3 := Num.trunc_int 0
      simp at this h3
      simp [this, h3]
    | pinf => simp [FP.div, FP.mul, Num.round, Num.cast]
    | ninf => rw [hx] at ha; simp [Num.le] at ha
    | nan => exact absurd hx (F.rnd_ne_nan _)
  | ninf =>
    have := F.rnd_nonneg (q := hi - lo) (by linarith)
    rw [hr] at this; simp [Num.le] at this
  | nan => exact absurd hr (F.rnd_ne_nan _)

theorem cast_round_fin {z : ℚ} {n : Nat} (h1 : 0 ≤ z) (h2 : z ≤ n) (hn : n ≤ 255) :
    (Num.cast 0 255 (Num.round (.fin z))) = Num.roundAway z ∧ 0 ≤ Num.roundAway z ∧
      Num.roundAway z ≤ n := by
  have ha := Num.roundAway_mono h1
  have hb := Num.roundAway_mono h2
  have h0 := Num.roundAway_int 0
  have hn' := Num.roundAway_int n
  simp at h0 hn'
  rw [h0] at ha
  rw [hn'] at hb
  refine ⟨?_, ha, hb⟩
  simp only [Num.round, Num.cast, Num.trunc_int]
  omega

end BitSlice
end BitBoost
