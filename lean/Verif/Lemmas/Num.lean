import Verif.Lemmas.Float32
/-!
# Order and monotonicity of `f32` operations
-/
namespace BitBoost
namespace Num

theorem ne_nan_of_le_left {a b : Num} (h : a.le b = true) : a ≠ .nan := by
  rintro rfl; simp [le] at h
theorem ne_nan_of_le_right {a b : Num} (h : a.le b = true) : b ≠ .nan := by
  rintro rfl; cases a <;> simp [le] at h

theorem le_refl {a : Num} (h : a ≠ .nan) : a.le a = true := by
  cases a <;> simp [le] at *

theorem le_trans {a b c : Num} (h1 : a.le b = true) (h2 : b.le c = true) : a.le c = true := by
  cases a <;> cases b <;> cases c <;> simp [le] at * <;> linarith

theorem le_total {a b : Num} (ha : a ≠ .nan) (hb : b ≠ .nan) : a.le b = true ∨ b.le a = true := by
  cases a <;> cases b <;> simp [le] at * <;> exact _root_.le_total _ _

theorem le_antisymm {a b : Num} (h1 : a.le b = true) (h2 : b.le a = true) : a = b := by
  cases a <;> cases b <;> simp [le] at * <;> linarith

theorem lt_iff {a b : Num} (ha : a ≠ .nan) (hb : b ≠ .nan) : a.lt b = true ↔ ¬ b.le a = true := by
  cases a <;> cases b <;> simp [le, lt] at *

theorem le_of_lt {a b : Num} (h : a.lt b = true) : a.le b = true := by
  cases a <;> cases b <;> simp [le, lt] at * <;> linarith

theorem le_pinf {a : Num} (h : a ≠ .nan) : a.le .pinf = true := by
  cases a <;> simp [le] at *
theorem ninf_le {a : Num} (h : a ≠ .nan) : ninf.le a = true := by
  cases a <;> simp [le] at *

@[simp] theorem fin_le_fin {a b : ℚ} : (fin a).le (fin b) = true ↔ a ≤ b := by simp [le]
@[simp] theorem fin_lt_fin {a b : ℚ} : (fin a).lt (fin b) = true ↔ a < b := by simp [lt]
@[simp] theorem isNan_fin (a : ℚ) : (fin a).isNan = false := rfl
@[simp] theorem isNan_pinf : pinf.isNan = false := rfl
@[simp] theorem isNan_ninf : ninf.isNan = false := rfl
@[simp] theorem isNan_nan : nan.isNan = true := rfl
theorem isNan_iff {a : Num} : a.isNan = true ↔ a = .nan := by cases a <;> simp [isNan]
@[simp] theorem isFinite_fin (a : ℚ) : (fin a).isFinite = true := rfl
theorem isFinite_iff {a : Num} : a.isFinite = true ↔ ∃ q, a = .fin q := by
  cases a <;> simp [isFinite]

theorem min_le_left {a b : Num} (ha : a ≠ .nan) (hb : b ≠ .nan) : (min a b).le a = true := by
  unfold min
  simp only [isNan_iff, ha, hb, if_false]
  split_ifs with h
  · exact le_refl ha
  · exact (le_total ha hb).resolve_left h

theorem min_ne_nan {a b : Num} (ha : a ≠ .nan) : min a b ≠ .nan := by
  unfold min
  simp only [isNan_iff, ha, if_false]
  split_ifs <;> assumption

theorem max_ne_nan {a b : Num} (ha : a ≠ .nan) : max a b ≠ .nan := by
  unfold max
  simp only [isNan_iff, ha, if_false]
  split_ifs <;> assumption

theorem max_mono {a b c : Num} (ha : a ≠ .nan) (h : b.le c = true) : (max a b).le (max a c) = true := by
  have hb := ne_nan_of_le_left h
  have hc := ne_nan_of_le_right h
  unfold max
  simp only [isNan_iff, ha, hb, hc, if_false]
  split_ifs with h1 h2 h2
  · exact h
  · exact absurd (le_trans h1 h) h2
  · exact (le_total ha hb).elim (fun x => absurd x h1) (fun _ => h2)
  · exact le_refl ha

theorem min_mono {a b c : Num} (ha : a ≠ .nan) (h : b.le c = true) : (min a b).le (min a c) = true := by
  have hb := ne_nan_of_le_left h
  have hc := ne_nan_of_le_right h
  unfold min
  simp only [isNan_iff, ha, hb, hc, if_false]
  split_ifs with h1 h2 h2
  · exact le_refl ha
  · exact absurd (le_trans h1 h) h2
  · exact (le_total ha hb).resolve_left h1
  · exact h

theorem le_max_left {a b : Num} (ha : a ≠ .nan) : a.le (max a b) = true := by
  unfold max
  simp only [isNan_iff, ha, if_false]
  split_ifs with h1 h2
  · exact le_refl ha
  · exact h2
  · exact le_refl ha

theorem trunc_mono {a b : ℚ} (h : a ≤ b) : trunc a ≤ trunc b := by
  unfold trunc
  split_ifs with h1 h2 h2
  · exact Int.floor_le_floor h
  · exact absurd (by linarith) h2
  · have : ⌈a⌉ ≤ 0 := Int.ceil_le.2 (by push_cast; linarith)
    have : 0 ≤ ⌊b⌋ := Int.floor_nonneg.2 h2
    omega
  · exact Int.ceil_le_ceil h

theorem trunc_int (n : ℤ) : trunc n = n := by unfold trunc; split_ifs <;> simp

theorem cast_mono {lo hi : ℤ} (hlh : lo ≤ hi) {a b : Num} (h : a.le b = true) :
    cast lo hi a ≤ cast lo hi b := by
  cases a <;> cases b <;> simp only [le, cast, decide_eq_true_eq, reduceCtorEq, Bool.false_eq_true] at * <;> try omega
  have := trunc_mono h
  omega

theorem floor_mono {a b : Num} (h : a.le b = true) : (floor a).le (floor b) = true := by
  cases a <;> cases b <;> simp [le, floor] at *
  exact Int.floor_le_floor h

theorem roundAway_mono {a b : ℚ} (h : a ≤ b) : roundAway a ≤ roundAway b := by
  unfold roundAway
  split_ifs with h1 h2 h2
  · exact Int.floor_le_floor (by linarith)
  · exact absurd (by linarith) h2
  · have : 0 ≤ ⌊-a + 1 / 2⌋ := Int.floor_nonneg.2 (by linarith)
    have : 0 ≤ ⌊b + 1 / 2⌋ := Int.floor_nonneg.2 (by linarith)
    omega
  · exact neg_le_neg (Int.floor_le_floor (by linarith))

theorem roundAway_int (n : ℤ) : roundAway n = n := by
  unfold roundAway
  split_ifs
  · rw [Int.floor_eq_iff]; constructor <;> norm_num
  · have : ⌊-(n : ℚ) + 1 / 2⌋ = -n := by
      rw [Int.floor_eq_iff]; push_cast; constructor <;> norm_num
    omega

theorem roundAway_err (q : ℚ) : |(roundAway q : ℚ) - q| ≤ 1 / 2 := by
  unfold roundAway
  rw [abs_le]
  split_ifs
  · have h1 := Int.floor_le (q + 1 / 2)
    have h2 := Int.lt_floor_add_one (q + 1 / 2)
    constructor <;> linarith
  · have h1 := Int.floor_le (-q + 1 / 2)
    have h2 := Int.lt_floor_add_one (-q + 1 / 2)
    push_cast
    constructor <;> linarith

theorem round_mono {a b : Num} (h : a.le b = true) : (round a).le (round b) = true := by
  cases a <;> cases b <;> simp [le, round] at *
  exact roundAway_mono h

theorem neg_le_neg {a b : Num} (h : a.le b = true) : b.neg.le a.neg = true := by
  cases a <;> cases b <;> simp [le, neg] at * <;> linarith

@[simp] theorem neg_neg (a : Num) : a.neg.neg = a := by cases a <;> simp [neg]

end Num

namespace FP
variable (F : FP)

theorem rnd_zero : F.rnd 0 = .fin 0 := by simpa using F.int 0 (by norm_num)
theorem rnd_one : F.rnd 1 = .fin 1 := by simpa using F.int 1 (by norm_num)
theorem rnd_nat {n : Nat} (h : n ≤ 2 ^ 24) : F.rnd n = .fin n := by
  have := F.int n (by rw [abs_of_nonneg (by positivity)]; exact_mod_cast h)
  simpa using this

theorem ofNat_eq {n : Nat} (h : n ≤ 2 ^ 24) : F.ofNat n = .fin n := F.rnd_nat h

theorem rnd_nonneg {q : ℚ} (h : 0 ≤ q) : (Num.fin 0).le (F.rnd q) = true := by
  rw [← F.rnd_zero]; exact F.mono _ _ h

theorem rnd_le_one {q : ℚ} (h : q ≤ 1) : (F.rnd q).le (.fin 1) = true := by
  rw [← F.rnd_one]; exact F.mono _ _ h

theorem rnd_le_nat {q : ℚ} {n : Nat} (hn : n ≤ 2 ^ 24) (h : q ≤ n) :
    (F.rnd q).le (.fin n) = true := by
  rw [← F.rnd_nat hn]; exact F.mono _ _ h

theorem nat_le_rnd {q : ℚ} {n : Nat} (hn : n ≤ 2 ^ 24) (h : (n : ℚ) ≤ q) :
    (Num.fin n).le (F.rnd q) = true := by
  rw [← F.rnd_nat hn]; exact F.mono _ _ h

/-- Rounding is monotone, seen through finite results. -/
theorem rnd_mono_fin {a b x y : ℚ} (ha : F.rnd a = .fin x) (hb : F.rnd b = .fin y) (h : a ≤ b) :
    x ≤ y := by
  have := F.mono _ _ h
  rw [ha, hb] at this
  simpa using this

theorem sub_fin (a b : ℚ) : F.sub (.fin a) (.fin b) = F.rnd (a - b) := by
  simp [sub, Num.neg, add, sub_eq_add_neg]

@[simp] theorem add_fin (a b : ℚ) : F.add (.fin a) (.fin b) = F.rnd (a + b) := rfl
@[simp] theorem mul_fin (a b : ℚ) : F.mul (.fin a) (.fin b) = F.rnd (a * b) := rfl
theorem div_fin {a b : ℚ} (h : b ≠ 0) : F.div (.fin a) (.fin b) = F.rnd (a / b) := by
  simp [div, h]

/-- Subtracting a finite number is monotone and gives no NaN. -/
theorem sub_mono {a b : Num} (c : ℚ) (h : a.le b = true) :
    (F.sub a (.fin c)).le (F.sub b (.fin c)) = true := by
  cases a <;> cases b <;> simp [Num.le] at h
  · rw [F.sub_fin, F.sub_fin]; exact F.mono _ _ (by linarith)
  all_goals (simp only [sub, Num.neg, add])
  all_goals (first | rfl | exact Num.le_pinf (F.rnd_ne_nan _) | exact Num.ninf_le (F.rnd_ne_nan _))

/-- Dividing by a positive finite number is monotone. -/
theorem div_mono {a b : Num} {c : ℚ} (hc : 0 < c) (h : a.le b = true) :
    (F.div a (.fin c)).le (F.div b (.fin c)) = true := by
  have hn : ¬ c < 0 := not_lt.2 hc.le
  cases a <;> cases b <;> simp [Num.le] at h
  · rw [F.div_fin hc.ne', F.div_fin hc.ne']; exact F.mono _ _ (div_le_div_of_nonneg_right h hc.le)
  all_goals (simp only [div, hc.ne', if_false, hn])
  all_goals (first | rfl | exact Num.le_pinf (F.rnd_ne_nan _) | exact Num.ninf_le (F.rnd_ne_nan _))

/-- Multiplying by a positive finite number is monotone. -/
theorem mul_mono {a b : Num} {c : ℚ} (hc : 0 < c) (h : a.le b = true) :
    (F.mul a (.fin c)).le (F.mul b (.fin c)) = true := by
  cases a <;> cases b <;> simp [Num.le] at h
  · exact F.mono _ _ (mul_le_mul_of_nonneg_right h hc.le)
  all_goals (simp only [mul, infOf, sgn, hc])
  all_goals (first | rfl | exact Num.le_pinf (F.rnd_ne_nan _) | exact Num.ninf_le (F.rnd_ne_nan _))

end FP
end BitBoost
