import Verif.Lemmas.Ieee
import Verif.Lemmas.Num
/-!
# The numbers of the model are the `f32` numbers of the program

Checks of `Verif.Model.Num` against a separate statement of IEEE 754 binary32 and of the Rust
conversions (`Verif.Spec.Ieee`). They are not properties of bitboost; they support the claim of
`DESIGN.md` that `FP.binary32` is the arithmetic of the program.
-/
namespace BitBoost.Props
open Spec

/-- **IEEE 754.** The rounding of the model gives for every exact result the one that IEEE 754
binary32, round to nearest even, prescribes, and the standard leaves no other choice. -/
theorem ieee_rounding (q : ℚ) (x : Num) : Rounded32 q x ↔ FP.binary32.rnd q = x := by
  have hn := FP.round32_nearest q
  constructor
  · rintro ⟨r, hr, h⟩
    have := FP.nearest_unique hr
    subst this
    show FP.rnd32 q = x
    unfold FP.rnd32
    rcases h with ⟨h, rfl⟩ | ⟨h, rfl⟩ | ⟨h, rfl⟩
    · rw [if_pos h]
    · have : ¬ (2 : ℚ) ^ 128 ≤ FP.round32 q := fun hc => by
        have : (0 : ℚ) < 2 ^ 128 := by positivity
        linarith
      rw [if_neg this, if_pos h]
    · rw [abs_lt] at h
      rw [if_neg (not_le.2 h.2), if_neg (not_le.2 h.1)]
  · rintro rfl
    refine ⟨_, hn, ?_⟩
    show _ ∧ FP.rnd32 q = _ ∨ _ ∧ FP.rnd32 q = _ ∨ _ ∧ FP.rnd32 q = _
    unfold FP.rnd32
    split_ifs with h1 h2
    · exact .inl ⟨h1, rfl⟩
    · exact .inr (.inl ⟨h2, rfl⟩)
    · exact .inr (.inr ⟨abs_lt.2 ⟨not_le.1 h2, not_le.1 h1⟩, rfl⟩)

/-- The numbers that rounding leaves alone are the finite `f32` numbers. -/
theorem ieee_representable (r : ℚ) : FP.binary32.rnd r = .fin r ↔ Finite32 r := by
  constructor
  · intro h
    obtain ⟨s, hs, h⟩ := (ieee_rounding r (.fin r)).2 h
    rcases h with ⟨_, h⟩ | ⟨_, h⟩ | ⟨hb, h⟩
    · cases h
    · cases h
    · cases h; exact ⟨hs.1, hb⟩
  · rintro ⟨hg, hb⟩
    refine (ieee_rounding r (.fin r)).1 ⟨r, ⟨hg, fun r' _ => ?_⟩, .inr (.inr ⟨hb, rfl⟩)⟩
    rw [sub_self, abs_zero]
    exact ⟨abs_nonneg _, fun h hne => absurd (sub_eq_zero.1 (abs_eq_zero.1 h.symm)).symm hne⟩

/-- Every result of the program's arithmetic is an `f32` number. -/
theorem ieee_closed {q r : ℚ} (h : FP.binary32.rnd q = .fin r) : Finite32 r :=
  (ieee_representable r).1 (FP.binary32.idem q r h)

/-- The operations on finite numbers are the exact operations, rounded; a finite number other than
zero divided by zero is an infinity and `0 / 0` is NaN. -/
theorem ieee_finite_ops (a b : ℚ) :
    Rounded32 (a + b) (FP.binary32.add (.fin a) (.fin b)) ∧
    Rounded32 (a - b) (FP.binary32.sub (.fin a) (.fin b)) ∧
    Rounded32 (a * b) (FP.binary32.mul (.fin a) (.fin b)) ∧
    (b ≠ 0 → Rounded32 (a / b) (FP.binary32.div (.fin a) (.fin b))) ∧
    (0 < a → FP.binary32.div (.fin a) (.fin 0) = .pinf) ∧
    (a < 0 → FP.binary32.div (.fin a) (.fin 0) = .ninf) ∧
    FP.binary32.div (.fin 0) (.fin 0) = .nan := by
  refine ⟨(ieee_rounding _ _).2 rfl, (ieee_rounding _ _).2 ?_, (ieee_rounding _ _).2 rfl,
    fun h => (ieee_rounding _ _).2 ?_, fun h => ?_, fun h => ?_, ?_⟩
  · simp [FP.sub, FP.add, Num.neg, sub_eq_add_neg]
  · simp [FP.div, h]
  · simp [FP.div, FP.infOf, FP.sgn, h]
  · simp [FP.div, FP.infOf, FP.sgn, h, not_lt.2 h.le]
  · simp [FP.div, FP.infOf, FP.sgn]

/-- Operations with a NaN give NaN, and so do `inf - inf`, `0 * inf` and `inf / inf`. -/
theorem ieee_nan (F : FP) (x : Num) :
    F.add .nan x = .nan ∧ F.add x .nan = .nan ∧ F.sub .nan x = .nan ∧ F.sub x .nan = .nan ∧
    F.mul .nan x = .nan ∧ F.mul x .nan = .nan ∧ F.div .nan x = .nan ∧ F.div x .nan = .nan ∧
    F.add .pinf .ninf = .nan ∧ F.add .ninf .pinf = .nan ∧
    F.sub .pinf .pinf = .nan ∧ F.sub .ninf .ninf = .nan ∧
    F.mul (.fin 0) .pinf = .nan ∧ F.mul (.fin 0) .ninf = .nan ∧
    F.mul .pinf (.fin 0) = .nan ∧ F.mul .ninf (.fin 0) = .nan ∧
    F.div .pinf .pinf = .nan ∧ F.div .pinf .ninf = .nan ∧
    F.div .ninf .pinf = .nan ∧ F.div .ninf .ninf = .nan := by
  cases x <;> simp [FP.add, FP.sub, FP.mul, FP.div, Num.neg, FP.infOf, FP.sgn]

/-- Infinities in sums, products and quotients. -/
theorem ieee_inf (F : FP) (q : ℚ) :
    F.add .pinf (.fin q) = .pinf ∧ F.add (.fin q) .pinf = .pinf ∧ F.add .pinf .pinf = .pinf ∧
    F.add .ninf (.fin q) = .ninf ∧ F.add (.fin q) .ninf = .ninf ∧ F.add .ninf .ninf = .ninf ∧
    F.sub .pinf (.fin q) = .pinf ∧ F.sub (.fin q) .pinf = .ninf ∧
    F.sub .ninf (.fin q) = .ninf ∧ F.sub (.fin q) .ninf = .pinf ∧
    F.sub .pinf .ninf = .pinf ∧ F.sub .ninf .pinf = .ninf ∧
    (0 < q → F.mul .pinf (.fin q) = .pinf ∧ F.mul (.fin q) .pinf = .pinf ∧
      F.mul .ninf (.fin q) = .ninf ∧ F.mul (.fin q) .ninf = .ninf ∧
      F.div .pinf (.fin q) = .pinf ∧ F.div .ninf (.fin q) = .ninf) ∧
    (q < 0 → F.mul .pinf (.fin q) = .ninf ∧ F.mul (.fin q) .pinf = .ninf ∧
      F.mul .ninf (.fin q) = .pinf ∧ F.mul (.fin q) .ninf = .pinf ∧
      F.div .pinf (.fin q) = .ninf ∧ F.div .ninf (.fin q) = .pinf) ∧
    F.mul .pinf .pinf = .pinf ∧ F.mul .ninf .ninf = .pinf ∧
    F.mul .pinf .ninf = .ninf ∧ F.mul .ninf .pinf = .ninf ∧
    F.div .pinf (.fin 0) = .pinf ∧ F.div .ninf (.fin 0) = .ninf ∧
    F.div (.fin q) .pinf = .fin 0 ∧ F.div (.fin q) .ninf = .fin 0 := by
  refine ⟨rfl, rfl, rfl, rfl, rfl, rfl, rfl, rfl, rfl, rfl, rfl, rfl, fun h => ?_, fun h => ?_,
    ?_, ?_, ?_, ?_, ?_, ?_, rfl, rfl⟩
  · simp [FP.mul, FP.div, FP.infOf, FP.sgn, h, not_lt.2 h.le]
  · simp [FP.mul, FP.div, FP.infOf, FP.sgn, h, not_lt.2 h.le, Num.neg]
  all_goals simp [FP.mul, FP.div, FP.infOf, FP.sgn]

/-- Comparison: `<=` is the order of the extended line, `<` is its strict part, `==` is equality, and
all three are false on NaN. -/
theorem ieee_compare (a b : Num) :
    (a.le b = true ↔ Before a b) ∧
    (a.lt b = true ↔ Before a b ∧ ¬ Before b a) ∧
    (a.eqb b = true ↔ Before a b ∧ Before b a) ∧
    (Num.le a .nan = false ∧ Num.le .nan a = false ∧ Num.lt a .nan = false ∧
      Num.lt .nan a = false ∧ Num.eqb a .nan = false ∧ Num.eqb .nan a = false) := by
  refine ⟨?_, ?_, ?_, ?_⟩
  · cases a <;> cases b <;> simp [Num.le, Before]
  · cases a <;> cases b <;> simp [Num.lt, Before]
    exact fun h => h.le
  · cases a <;> cases b <;> simp [Num.eqb, Before]
    exact le_antisymm_iff
  · cases a <;> simp [Num.le, Num.lt, Num.eqb]

/-- `min` and `max` skip a NaN operand, and otherwise give one of the operands, on the right side of
both. -/
theorem ieee_min_max (a b : Num) :
    Num.min .nan b = b ∧ Num.min a .nan = a ∧ Num.max .nan b = b ∧ Num.max a .nan = a ∧
    (a ≠ .nan → b ≠ .nan →
      (Num.min a b = a ∨ Num.min a b = b) ∧ (Num.min a b).le a = true ∧ (Num.min a b).le b = true ∧
      (Num.max a b = a ∨ Num.max a b = b) ∧ a.le (Num.max a b) = true ∧
      b.le (Num.max a b) = true) := by
  refine ⟨by simp [Num.min, Num.isNan], ?_, by simp [Num.max, Num.isNan], ?_, fun ha hb => ?_⟩
  · cases a <;> simp [Num.min, Num.isNan]
  · cases a <;> simp [Num.max, Num.isNan]
  · cases a <;> cases b <;> simp_all [Num.min, Num.max, Num.isNan, Num.le]
    rename_i p q
    by_cases h : p ≤ q
    · simp [h]
    · have := (not_le.1 h).le
      simp [h, this]

/-- Sign operations. -/
theorem ieee_signs (q : ℚ) :
    Num.neg (.fin q) = .fin (-q) ∧ Num.neg .pinf = .ninf ∧ Num.neg .ninf = .pinf ∧
    Num.neg .nan = .nan ∧
    (0 ≤ q → Num.abs (.fin q) = .fin q ∧ Num.signum (.fin q) = .fin 1) ∧
    (q < 0 → Num.abs (.fin q) = .fin (-q) ∧ Num.signum (.fin q) = .fin (-1)) ∧
    Num.abs .pinf = .pinf ∧ Num.abs .ninf = .pinf ∧ Num.abs .nan = .nan ∧
    Num.signum .pinf = .fin 1 ∧ Num.signum .ninf = .fin (-1) ∧ Num.signum .nan = .nan := by
  refine ⟨rfl, rfl, rfl, rfl, fun h => ?_, fun h => ?_, rfl, rfl, rfl, rfl, rfl, rfl⟩
  · simp [Num.abs, Num.signum, abs_of_nonneg h, not_lt.2 h]
  · simp [Num.abs, Num.signum, abs_of_neg h, h]

/-- `floor` is the greatest integer that is not greater; `round` is the nearest integer, and of two
equally near ones the one farther from zero. Both leave infinities and NaN alone. -/
theorem ieee_floor_round (q : ℚ) :
    (∃ n : ℤ, Num.floor (.fin q) = .fin n ∧ (n : ℚ) ≤ q ∧ q < n + 1) ∧
    (∃ n : ℤ, Num.round (.fin q) = .fin n ∧ |q - n| ≤ 1 / 2 ∧
      (|q - n| = 1 / 2 → |q| < |(n : ℚ)|)) ∧
    Num.floor .pinf = .pinf ∧ Num.floor .ninf = .ninf ∧ Num.floor .nan = .nan ∧
    Num.round .pinf = .pinf ∧ Num.round .ninf = .ninf ∧ Num.round .nan = .nan := by
  refine ⟨⟨_, rfl, Int.floor_le q, Int.lt_floor_add_one q⟩, ⟨_, rfl, ?_, ?_⟩, rfl, rfl, rfl, rfl, rfl,
    rfl⟩
  · unfold Num.roundAway
    split_ifs with h
    · have h1 := Int.floor_le (q + 1 / 2)
      have h2 := Int.lt_floor_add_one (q + 1 / 2)
      exact abs_le.2 ⟨by linarith, by linarith⟩
    · have h1 := Int.floor_le (-q + 1 / 2)
      have h2 := Int.lt_floor_add_one (-q + 1 / 2)
      push_cast
      exact abs_le.2 ⟨by linarith, by linarith⟩
  · unfold Num.roundAway
    split_ifs with h
    · have h1 := Int.floor_le (q + 1 / 2)
      have h2 := Int.lt_floor_add_one (q + 1 / 2)
      intro he
      rw [abs_of_nonneg h]
      refine lt_of_lt_of_le ?_ (le_abs_self _)
      rcases abs_eq (by norm_num) |>.1 he with he | he <;> linarith
    · push Not at h
      have h1 := Int.floor_le (-q + 1 / 2)
      have h2 := Int.lt_floor_add_one (-q + 1 / 2)
      push_cast
      intro he
      rw [abs_of_neg h, abs_neg]
      refine lt_of_lt_of_le ?_ (le_abs_self _)
      rcases abs_eq (by norm_num) |>.1 he with he | he <;> linarith

private theorem cast_to {lo hi : ℤ} (h : lo ≤ hi) (x : Num) : CastTo lo hi x (Num.cast lo hi x) := by
  cases x with
  | fin q =>
    refine ⟨Num.trunc q, ?_, ?_, ?_, ?_⟩
    · unfold Num.trunc
      split_ifs with hq
      · have h1 := Int.floor_le q
        have h0 : (0 : ℚ) ≤ ⌊q⌋ := by exact_mod_cast Int.floor_nonneg.2 hq
        rw [abs_of_nonneg hq, abs_of_nonneg h0]; exact h1
      · push Not at hq
        have h1 := Int.le_ceil q
        have h0 : ((⌈q⌉ : ℤ) : ℚ) ≤ 0 := by exact_mod_cast Int.ceil_le.2 (by simpa using hq.le)
        rw [abs_of_neg hq, abs_of_nonpos h0]; linarith
    · unfold Num.trunc
      split_ifs with hq
      · have h1 := Int.floor_le q
        have h2 := Int.lt_floor_add_one q
        exact abs_lt.2 ⟨by linarith, by linarith⟩
      · have h1 := Int.le_ceil q
        have h2 := Int.ceil_lt_add_one q
        exact abs_lt.2 ⟨by linarith, by linarith⟩
    · unfold Num.trunc
      split_ifs with hq
      · have h0 : (0 : ℚ) ≤ ⌊q⌋ := by exact_mod_cast Int.floor_nonneg.2 hq
        positivity
      · push Not at hq
        have h0 : ((⌈q⌉ : ℤ) : ℚ) ≤ 0 := by exact_mod_cast Int.ceil_le.2 (by simpa using hq.le)
        exact mul_nonneg_of_nonpos_of_nonpos hq.le h0
    · simp only [Num.cast]
      omega
  | pinf => rfl
  | ninf => rfl
  | nan => rfl

/-- The conversions of the program from `f32` to integers truncate and saturate. -/
theorem ieee_casts (x : Num) :
    CastTo (-2 ^ 63) (2 ^ 63 - 1) x x.toIsize ∧ CastTo 0 (2 ^ 64 - 1) x (x.toUsize : ℤ) ∧
    CastTo 0 (2 ^ 32 - 1) x (x.toU32 : ℤ) ∧ CastTo 0 (2 ^ 8 - 1) x (x.toU8.toNat : ℤ) := by
  have nn : ∀ hi : ℤ, 0 ≤ hi → 0 ≤ Num.cast 0 hi x := fun hi h => by
    cases x <;> simp [Num.cast, h]
  have le : ∀ hi : ℤ, 0 ≤ hi → Num.cast 0 hi x ≤ hi := fun hi h => by
    cases x <;> simp [Num.cast, h]
  refine ⟨cast_to (by norm_num) x, ?_, ?_, ?_⟩
  · unfold Num.toUsize; rw [Int.toNat_of_nonneg (nn _ (by norm_num))]
    exact cast_to (by norm_num) x
  · unfold Num.toU32; rw [Int.toNat_of_nonneg (nn _ (by norm_num))]
    exact cast_to (by norm_num) x
  · have h1 := nn (2 ^ 8 - 1) (by norm_num)
    have h2 := le (2 ^ 8 - 1) (by norm_num)
    have : (x.toU8.toNat : ℤ) = Num.cast 0 (2 ^ 8 - 1) x := by
      unfold Num.toU8
      rw [BitVec.toNat_ofInt]
      omega
    rw [this]
    exact cast_to (by norm_num) x

/-- `n as f32` is the nearest `f32`, exact for integers of at most 24 bits. -/
theorem ieee_of_nat (n : ℕ) :
    Rounded32 n (FP.binary32.ofNat n) ∧ (n ≤ 2 ^ 24 → FP.binary32.ofNat n = .fin n) :=
  ⟨(ieee_rounding _ _).2 rfl, fun h => FP.ofNat_eq _ h⟩

/-- A sum is accumulated from `0.0`, from left to right, rounding every step. -/
theorem ieee_sum (F : FP) (l : List Num) (x : Num) :
    F.sum [] = .fin 0 ∧ F.sum (l ++ [x]) = F.add (F.sum l) x := by
  simp [FP.sum]

/-- Ties, overflow, gradual underflow and the precision of 24 bits, on numbers. -/
example : FP.binary32.rnd (2 ^ 24 + 1) = .fin (2 ^ 24) ∧
    FP.binary32.rnd (2 ^ 24 + 3) = .fin (2 ^ 24 + 4) ∧
    FP.binary32.rnd (2 ^ 128 - 2 ^ 103) = .pinf ∧
    FP.binary32.rnd (2 ^ 128 - 2 ^ 103 - 1) = .fin (2 ^ 128 - 2 ^ 104) ∧
    FP.binary32.rnd (1 / 2 ^ 150) = .fin 0 ∧ FP.binary32.rnd (3 / 2 ^ 150) = .fin (2 / 2 ^ 149) := by
  decide +kernel

end BitBoost.Props
