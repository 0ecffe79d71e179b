import Verif.Lemmas.Round32
import Verif.Props.Slices
/-!
# C15: gradient discretisation

`lo` and `hi` are finite bounds with `lo < hi`; `w` is the number of bits. Statements with `F : FP`
hold for every rounding, in particular for `FP.binary32` (Rust's `f32`); statements with `FP.exact`
are about exact arithmetic.
-/
namespace BitBoost.Props
open BitBoost

private theorem width_le {w : Nat} (hw : validWidth w) : 1 ≤ w ∧ w ≤ 8 := by
  rcases hw with rfl | rfl | rfl | rfl <;> omega

private theorem discretise_toNat (F : FP) (w : Nat) (v lo hi : Num) :
    (BitSlice.discretise F w v lo hi).toNat =
      (Num.cast 0 255 (Num.round (F.mul (F.div (F.sub (Num.min hi (Num.max lo v)) lo) (F.sub hi lo))
        (F.ofNat (BitSlice.maxval w))))).toNat := by
  unfold BitSlice.discretise
  rw [BitSlice.toU8_toNat]

/-- The stored code always fits in the `w` bits, for every value (also infinite or NaN): nothing is
cut off when it is stored. -/
theorem C15_code_in_range (F : FP) {w : Nat} (hw : validWidth w) (v : Num) (lo hi : ℚ) (h : lo < hi) :
    (BitSlice.discretise F w v (.fin lo) (.fin hi)).toNat ≤ 2 ^ w - 1 := by
  rw [discretise_toNat]
  obtain ⟨c, hc, h1, h2⟩ := BitSlice.clamp_fin h.le v
  rw [hc]
  by_cases hd : ∃ d, F.rnd (hi - lo) = .fin d ∧ 0 < d
  · obtain ⟨d, hd, hp⟩ := hd
    obtain ⟨z, hz, z1, z2⟩ := BitSlice.scaled_fin F (width_le hw).2 hd hp h1 h2
    rw [hz]
    obtain ⟨e1, e2, e3⟩ := BitSlice.cast_round_fin z1 z2 (BitSlice.maxval_le (width_le hw).2)
    rw [e1]
    unfold BitSlice.maxval at e3
    omega
  · rw [BitSlice.scaled_degenerate F (width_le hw).2 (fun d hd' hp => hd ⟨d, hd', hp⟩) h1 h2]
    simp

private theorem code_le_fin (F : FP) {w : Nat} (hw : validWidth w) (v : Num) (lo hi : ℚ) (h : lo ≤ hi) :
    (BitSlice.discretise F w v (.fin lo) (.fin hi)).toNat ≤ 2 ^ w - 1 := by
  rcases h.lt_or_eq with h | h
  · exact C15_code_in_range F hw v lo hi h
  · subst h
    obtain ⟨c, hc, h1, h2⟩ := BitSlice.clamp_fin le_rfl v
    rw [discretise_toNat, hc,
      BitSlice.scaled_degenerate F (width_le hw).2 (fun d hd hp => by
        rw [sub_self, F.rnd_zero] at hd; cases hd; exact lt_irrefl _ hp) h1 h2]
    simp

private theorem code_le_swapped (F : FP) {w : Nat} (hw : validWidth w) (v : Num) (lo hi : ℚ) (h : hi < lo) :
    (BitSlice.discretise F w v (.fin lo) (.fin hi)).toNat ≤ 2 ^ w - 1 := by
  have hmv := BitSlice.maxval_le (width_le hw).2
  have hc : Num.min (.fin hi) (Num.max (.fin lo) v) = .fin hi := by
    cases v with
    | fin q =>
      by_cases h1 : lo ≤ q
      · have : hi ≤ q := by linarith
        simp [Num.min, Num.max, h1, this]
      · simp [Num.min, Num.max, h1, h.le]
    | pinf => simp [Num.min, Num.max, Num.le]
    | ninf => simp [Num.min, Num.max, Num.le, h.le]
    | nan => simp [Num.min, Num.max, h.le]
  rw [discretise_toNat, hc, F.sub_fin]
  cases hs : F.rnd (hi - lo) with
  | fin s =>
    by_cases h0 : s = 0
    · subst h0
      simp [FP.div, FP.sgn, FP.infOf, FP.mul, Num.round, Num.cast]
    · rw [F.div_fin h0, div_self h0, F.rnd_one, F.ofNat_eq (by omega), F.mul_fin, one_mul, F.rnd_nat (by omega)]
      obtain ⟨e1, e2, e3⟩ := BitSlice.cast_round_fin (z := (BitSlice.maxval w : ℚ)) (n := BitSlice.maxval w)
        (by positivity) le_rfl hmv
      rw [e1]
      unfold BitSlice.maxval at e3 ⊢
      omega
  | pinf => simp [FP.div, FP.mul, Num.round, Num.cast]
  | ninf => simp [FP.div, FP.mul, Num.round, Num.cast]
  | nan => simp [FP.div, FP.mul, Num.round, Num.cast]

private theorem nan_code (F : FP) (w : Nat) {Q : Num} (h : Q = .nan ∨ Q = .fin 0) (hw : w ≤ 8) :
    (Num.cast 0 255 (Num.round (F.mul Q (F.ofNat (BitSlice.maxval w))))).toNat = 0 := by
  have hmv := BitSlice.maxval_le hw
  rcases h with rfl | rfl
  · simp [FP.mul, Num.round, Num.cast]
  · rw [F.ofNat_eq (by omega), F.mul_fin, zero_mul, F.rnd_zero]
    simp [Num.round, Num.cast, Num.roundAway, Num.trunc]
    norm_num

/-- The stored code fits in the `w` bits also for bounds that are infinite, NaN or in the wrong order. -/
theorem C15_code_in_range_any (F : FP) {w : Nat} (hw : validWidth w) (v lo hi : Num) :
    (BitSlice.discretise F w v lo hi).toNat ≤ 2 ^ w - 1 := by
  have hw8 := (width_le hw).2
  cases lo with
  | fin l =>
    cases hi with
    | fin h =>
      rcases le_or_gt l h with hle | hlt
      · exact code_le_fin F hw v l h hle
      · exact code_le_swapped F hw v l h hlt
    | pinf =>
      rw [discretise_toNat, nan_code F w _ hw8]
      · omega
      · cases v with
        | fin q =>
          by_cases h1 : l ≤ q
          · simp only [Num.min, Num.max, Num.isNan, Num.le, h1, decide_true, Bool.false_eq_true, if_false, if_true]
            simp only [FP.sub, Num.neg, FP.add]
            cases F.rnd (q + -l) <;> simp [FP.div]
          · simp only [Num.min, Num.max, Num.isNan, Num.le, h1, decide_false, Bool.false_eq_true, if_false]
            simp only [FP.sub, Num.neg, FP.add]
            cases F.rnd (l + -l) <;> simp [FP.div]
        | pinf => simp [Num.min, Num.max, Num.isNan, Num.le, FP.sub, Num.neg, FP.add, FP.div]
        | ninf =>
          simp only [Num.min, Num.max, Num.isNan, Num.le, Bool.false_eq_true, if_false]
          simp only [FP.sub, Num.neg, FP.add]
          cases F.rnd (l + -l) <;> simp [FP.div]
        | nan =>
          simp only [Num.min, Num.max, Num.isNan, Num.le, Bool.false_eq_true, if_false, if_true]
          simp only [FP.sub, Num.neg, FP.add]
          cases F.rnd (l + -l) <;> simp [FP.div]
    | ninf =>
      rw [discretise_toNat, nan_code F w _ hw8]
      · omega
      · left
        cases v with
        | fin q => by_cases h1 : l ≤ q <;> simp [Num.min, Num.max, Num.isNan, Num.le, h1, FP.sub, Num.neg, FP.add, FP.div]
        | pinf => simp [Num.min, Num.max, Num.isNan, Num.le, FP.sub, Num.neg, FP.add, FP.div]
        | ninf => simp [Num.min, Num.max, Num.isNan, Num.le, FP.sub, Num.neg, FP.add, FP.div]
        | nan => simp [Num.min, Num.max, Num.isNan, Num.le, FP.sub, Num.neg, FP.add, FP.div]
    | nan =>
      rw [discretise_toNat, nan_code F w _ hw8]
      · omega
      · left
        have : F.sub Num.nan (.fin l) = .nan := by simp [FP.sub, FP.add]
        rw [this]
        cases F.sub (Num.min Num.nan (Num.max (.fin l) v)) (.fin l) <;> simp [FP.div]
  | pinf =>
    rw [discretise_toNat, nan_code F w _ hw8]
    · omega
    · left
      have hm : Num.max Num.pinf v = .pinf := by cases v <;> simp [Num.max, Num.isNan, Num.le]
      rw [hm]
      cases hi <;> simp [Num.min, Num.isNan, Num.le, FP.sub, Num.neg, FP.add, FP.div]
  | ninf =>
    rw [discretise_toNat, nan_code F w _ hw8]
    · omega
    · left
      cases hi with
      | fin h =>
        cases v with
        | fin q =>
          by_cases h1 : h ≤ q <;> simp [Num.min, Num.max, Num.isNan, Num.le, h1, FP.sub, Num.neg, FP.add, FP.div]
        | _ => simp [Num.min, Num.max, Num.isNan, Num.le, FP.sub, Num.neg, FP.add, FP.div]
      | _ => cases v <;> simp [Num.min, Num.max, Num.isNan, Num.le, FP.sub, Num.neg, FP.add, FP.div]
  | nan =>
    rw [discretise_toNat, nan_code F w _ hw8]
    · omega
    · left
      have : ∀ x, F.sub x Num.nan = .nan := by intro x; cases x <;> simp [FP.sub, FP.add, Num.neg]
      rw [this]
      cases F.sub hi Num.nan <;> simp [FP.div]

example : (1 : ℚ) < 2 ∧ validWidth 4 := by constructor <;> norm_num [validWidth]

/-- Larger values never get smaller codes. -/
theorem C15_monotone (F : FP) {w : Nat} (hw : validWidth w) (v v' : Num) (lo hi : ℚ) (h : lo < hi)
    (hv : v.le v' = true) :
    (BitSlice.discretise F w v (.fin lo) (.fin hi)).toNat ≤
      (BitSlice.discretise F w v' (.fin lo) (.fin hi)).toNat := by
  rw [discretise_toNat, discretise_toNat]
  have hcl := Num.min_mono (a := .fin hi) (by simp) (Num.max_mono (a := .fin lo) (by simp) hv)
  obtain ⟨c, hc, h1, h2⟩ := BitSlice.clamp_fin h.le v
  obtain ⟨c', hc', h1', h2'⟩ := BitSlice.clamp_fin h.le v'
  rw [hc, hc'] at hcl ⊢
  by_cases hd : ∃ d, F.rnd (hi - lo) = .fin d ∧ 0 < d
  · obtain ⟨d, hd, hp⟩ := hd
    have hmv := BitSlice.maxval_le (width_le hw).2
    have hmp := BitSlice.maxval_pos (width_le hw).1
    apply Int.toNat_le_toNat
    apply Num.cast_mono (by norm_num)
    apply Num.round_mono
    rw [F.ofNat_eq (by omega)]
    apply F.mul_mono (by exact_mod_cast hmp)
    rw [F.sub_fin hi lo, hd]
    apply F.div_mono hp
    exact F.sub_mono _ hcl
  · rw [BitSlice.scaled_degenerate F (width_le hw).2 (fun d hd' hp => hd ⟨d, hd', hp⟩) h1 h2]
    simp

example : (Num.fin (1 / 2)).le .pinf = true := by rfl

/-- The lower bound and everything below it, and NaN, get code 0. -/
theorem C15_clamp_low (F : FP) {w : Nat} (hw : validWidth w) (v : Num) (lo hi : ℚ) (h : lo < hi)
    (hv : v.le (.fin lo) = true ∨ v = .nan) :
    BitSlice.discretise F w v (.fin lo) (.fin hi) = 0#8 := by
  apply BitVec.eq_of_toNat_eq
  rw [discretise_toNat]
  have hc : Num.min (.fin hi) (Num.max (.fin lo) v) = .fin lo := by
    have hh : ¬ hi ≤ lo := not_le.2 h
    rcases hv with hv | rfl
    · cases v <;> simp [Num.le] at hv
      · rename_i q
        by_cases hq : lo ≤ q
        · have : q = lo := le_antisymm hv hq
          simp [Num.min, Num.max, hh, this]
        · simp [Num.min, Num.max, hh, hq]
      · simp [Num.min, Num.max, hh, Num.le]
    · simp [Num.min, Num.max, hh]
  rw [hc]
  by_cases hd : ∃ d, F.rnd (hi - lo) = .fin d ∧ 0 < d
  · obtain ⟨d, hd, hp⟩ := hd
    have hmv := BitSlice.maxval_le (width_le hw).2
    have h0 := Num.roundAway_int 0
    have h3 := Num.trunc_int 0
    simp at h0 h3
    rw [F.sub_fin, F.sub_fin, hd, sub_self, F.rnd_zero, F.div_fin hp.ne', zero_div, F.rnd_zero,
      F.ofNat_eq (by omega), F.mul_fin, zero_mul, F.rnd_zero]
    simp [Num.round, Num.cast, h0, h3]
  · rw [BitSlice.scaled_degenerate F (width_le hw).2 (fun d hd' hp => hd ⟨d, hd', hp⟩) le_rfl h.le]
    simp

example : (Num.ninf).le (.fin 3) = true := rfl

/-- Every value at or above the upper bound gets the same code as the upper bound. -/
theorem C15_clamp_high (F : FP) (w : Nat) (v : Num) (lo hi : ℚ) (h : lo < hi)
    (hv : (Num.fin hi).le v = true) :
    BitSlice.discretise F w v (.fin lo) (.fin hi) = BitSlice.discretise F w (.fin hi) (.fin lo) (.fin hi) := by
  have hc : ∀ u : Num, (Num.fin hi).le u = true →
      Num.min (.fin hi) (Num.max (.fin lo) u) = .fin hi := by
    intro u hu
    cases u <;> simp [Num.le] at hu
    · rename_i q
      have : lo ≤ q := by linarith
      simp [Num.min, Num.max, this, hu]
    · simp [Num.min, Num.max, Num.le]
  unfold BitSlice.discretise
  rw [hc v hv, hc (.fin hi) (by simp)]

/-- The upper bound gets the largest code, whenever `hi - lo` computed by the machine is finite and
positive. -/
theorem C15_upper_bound (F : FP) {w : Nat} (hw : validWidth w) (lo hi d : ℚ) (h : lo < hi)
    (hd : F.sub (.fin hi) (.fin lo) = .fin d) (hp : 0 < d) :
    (BitSlice.discretise F w (.fin hi) (.fin lo) (.fin hi)).toNat = 2 ^ w - 1 := by
  have hmv := BitSlice.maxval_le (width_le hw).2
  rw [discretise_toNat]
  have hc : Num.min (.fin hi) (Num.max (.fin lo) (.fin hi)) = .fin hi := by
    simp [Num.min, Num.max, h.le]
  rw [hc, hd, F.div_fin hp.ne', div_self hp.ne', F.rnd_one, F.ofNat_eq (by omega), F.mul_fin, one_mul,
    F.rnd_nat (by omega)]
  obtain ⟨e1, e2, e3⟩ := BitSlice.cast_round_fin (z := BitSlice.maxval w) (n := BitSlice.maxval w)
    (by positivity) le_rfl hmv
  rw [e1]
  have := Num.roundAway_int (BitSlice.maxval w)
  simp only [Int.cast_natCast] at this
  rw [this, Int.toNat_natCast]
  rfl

/-- `f32`: the upper bound gets the largest code, whenever the bounds are `f32` numbers whose
difference does not overflow. -/
theorem C15_upper_bound_f32 {w : Nat} (hw : validWidth w) (lo hi : ℚ) (h : lo < hi)
    (hlo : FP.binary32.rnd lo = .fin lo) (hhi : FP.binary32.rnd hi = .fin hi)
    (hov : hi - lo < 2 ^ 127) :
    (BitSlice.discretise .binary32 w (.fin hi) (.fin lo) (.fin hi)).toNat = 2 ^ w - 1 := by
  obtain ⟨d, hd, hp⟩ := FP.binary32_sub_pos h hlo hhi hov
  exact C15_upper_bound _ hw lo hi d h (by rw [FP.sub_fin]; exact hd) hp

/-- The hypotheses are met by the bounds -1 and 2. -/
example : FP.binary32.rnd (-1) = .fin (-1) ∧ FP.binary32.rnd 2 = .fin 2 ∧ (2 : ℚ) - -1 < 2 ^ 127 := by
  refine ⟨?_, ?_, by norm_num⟩
  · simpa using FP.binary32.int (-1) (by norm_num)
  · simpa using FP.binary32.int 2 (by norm_num)

/-- Exact arithmetic, in terms of the API: storing a value inside the bounds with `set_scaled_value`
and reading it back with `get_scaled_value` changes it by at most half a quantisation step
`(hi - lo) / (2^w - 1)`. -/
theorem C15_half_step {w : Nat} (hw : validWidth w) (slice : Blocks) (i : Nat)
    (hi' : i < Spec.slots w slice) (x lo hi : ℚ) (h : lo < hi) (h1 : lo ≤ x) (h2 : x ≤ hi) :
    ∃ slice' code y, BitSlice.setScaledValue .exact w slice i (.fin x) (.fin lo) (.fin hi)
        = .ok (slice', code) ∧
      BitSlice.getScaledValue .exact w slice' i (.fin lo) (.fin hi) = .ok (.fin y) ∧
      |y - x| ≤ (hi - lo) / (2 ^ w - 1) / 2 := by
  have hcode := C15_code_in_range .exact hw (.fin x) lo hi h
  generalize hc : BitSlice.discretise .exact w (.fin x) (.fin lo) (.fin hi) = code at *
  have hpow : 2 ^ w = BitSlice.maxval w + 1 := by
    unfold BitSlice.maxval; have := Nat.pow_pos (n := w) (show 0 < 2 by norm_num); omega
  have hlt : code.toNat < 2 ^ w := by unfold BitSlice.maxval at hpow; omega
  obtain ⟨s', e1, _, e3, _⟩ := C14_get_set hw slice i code hlt hi'
  have hmp := BitSlice.maxval_pos (width_le hw).1
  have hmv := BitSlice.maxval_le (width_le hw).2
  have hd : 0 < hi - lo := by linarith
  have hM : (0 : ℚ) < BitSlice.maxval w := by exact_mod_cast hmp
  refine ⟨s', code, code.toNat / BitSlice.maxval w * (hi - lo) + lo, ?_, ?_, ?_⟩
  · simp only [BitSlice.setScaledValue, hc, e1]; rfl
  · simp only [BitSlice.getScaledValue, e3, Out.ok_bind, BitSlice.linproj]
    rw [FP.ofNat_eq _ (n := code.toNat) (by omega), FP.ofNat_eq _ (n := 1) (by omega),
      FP.ofNat_eq _ (n := BitSlice.maxval w) (by omega), FP.div_fin _ hM.ne', FP.sub_fin]
    simp [FP.exact]
  · have hcz : (code.toNat : ℤ) = Num.roundAway ((x - lo) / (hi - lo) * BitSlice.maxval w) := by
      rw [← hc, discretise_toNat]
      have hcl : Num.min (.fin hi) (Num.max (.fin lo) (.fin x)) = .fin x := by
        by_cases hx : hi ≤ x
        · have : x = hi := le_antisymm h2 hx
          subst this
          simp [Num.min, Num.max, h1]
        · simp [Num.min, Num.max, h1, hx]
      rw [hcl, FP.sub_fin, FP.sub_fin]
      simp only [FP.exact]
      rw [FP.div_fin _ hd.ne']
      simp only [FP.mul, FP.ofNat]
      obtain ⟨f1, f2, f3⟩ := BitSlice.cast_round_fin
        (z := (x - lo) / (hi - lo) * BitSlice.maxval w) (n := BitSlice.maxval w)
        (mul_nonneg (div_nonneg (by linarith) hd.le) hM.le)
        (by
          have : (x - lo) / (hi - lo) ≤ 1 := by rw [div_le_one hd]; linarith
          nlinarith) hmv
      rw [f1]
      omega
    have herr := Num.roundAway_err ((x - lo) / (hi - lo) * BitSlice.maxval w)
    rw [← hcz] at herr
    have hw' : (2 : ℚ) ^ w - 1 = BitSlice.maxval w := by
      have : ((2 ^ w : ℕ) : ℚ) = BitSlice.maxval w + 1 := by rw [hpow]; push_cast; ring
      push_cast at this; linarith
    rw [hw']
    have : (code.toNat : ℚ) / BitSlice.maxval w * (hi - lo) + lo - x =
        ((code.toNat : ℚ) - (x - lo) / (hi - lo) * BitSlice.maxval w) * ((hi - lo) / BitSlice.maxval w) := by
      field_simp; ring
    rw [this, abs_mul, abs_of_pos (a := (hi - lo) / BitSlice.maxval w) (by positivity)]
    have hs : 0 < (hi - lo) / BitSlice.maxval w := by positivity
    simp only [Int.cast_natCast] at herr
    nlinarith

example : ∃ (slice : Blocks), 3 < Spec.slots 2 slice ∧ ((-1 : ℚ) < 1 ∧ (-1 : ℚ) ≤ 1 / 3 ∧ (1 / 3 : ℚ) ≤ 1) :=
  ⟨[0#256], by decide, by norm_num⟩

/-- Single precision: storing a value inside the bounds and reading it back changes it by at most half a quantisation step
and a rounding error of `G / 2 ^ 18`, where `G` bounds the bounds. -/
theorem C15_half_step_f32 {w : Nat} (hw : validWidth w) (slice : Blocks) (i : Nat)
    (hi' : i < Spec.slots w slice) (x lo hi G : ℚ) (h1 : lo ≤ x) (h2 : x ≤ hi)
    (hlo : |lo| ≤ G) (hhi : |hi| ≤ G) (hd : 1 / 2 ^ 99 ≤ hi - lo) (hG : G ≤ 2 ^ 60) :
    ∃ slice' code y, BitSlice.setScaledValue .binary32 w slice i (.fin x) (.fin lo) (.fin hi)
        = .ok (slice', code) ∧
      BitSlice.getScaledValue .binary32 w slice' i (.fin lo) (.fin hi) = .ok (.fin y) ∧
      |y - x| ≤ (hi - lo) / (2 ^ w - 1) / 2 + G / 2 ^ 18 := by
  have h : lo < hi := by
    have : (0 : ℚ) < 1 / 2 ^ 99 := by norm_num
    linarith
  have kl := abs_le.1 hlo
  have kh := abs_le.1 hhi
  have hcode := C15_code_in_range .binary32 hw (.fin x) lo hi h
  obtain ⟨z, hz, ez⟩ := FP.code32 hw (c := x) (le_trans (by norm_num) hd) (by norm_num at hG ⊢; linarith) h1 h2
  obtain ⟨d, hdd, hdp⟩ : ∃ d, FP.binary32.rnd (hi - lo) = .fin d ∧ 0 < d := by
    obtain ⟨d, e1, e2⟩ := FP.step32 (q := hi - lo) (B := hi - lo) (by rw [abs_of_pos (by linarith)])
      (by norm_num at hG ⊢; linarith)
    refine ⟨d, e1, ?_⟩
    have := abs_le.1 e2
    norm_num at this hd
    linarith
  obtain ⟨z', hz', z1, z2⟩ := BitSlice.scaled_fin .binary32 (width_le hw).2 hdd hdp h1 h2
  rw [hz] at hz'
  cases hz'
  have hcl : Num.min (.fin hi) (Num.max (.fin lo) (.fin x)) = .fin x := by
    by_cases hx : hi ≤ x
    · have : x = hi := le_antisymm h2 hx
      subst this
      simp [Num.min, Num.max, h1]
    · simp [Num.min, Num.max, h1, hx]
  have hcz : ((BitSlice.discretise .binary32 w (.fin x) (.fin lo) (.fin hi)).toNat : ℤ) = Num.roundAway z := by
    rw [discretise_toNat, hcl, hz]
    obtain ⟨f1, f2, f3⟩ := BitSlice.cast_round_fin z1 z2 (BitSlice.maxval_le (width_le hw).2)
    rw [f1]
    omega
  generalize hc : BitSlice.discretise .binary32 w (.fin x) (.fin lo) (.fin hi) = code at *
  have hpow : 1 ≤ 2 ^ w := Nat.one_le_two_pow
  obtain ⟨s', e1, _, e3, _⟩ := C14_get_set hw slice i code (by omega) hi'
  obtain ⟨y, hy, ey⟩ := FP.proj32 (N := 1) hw hlo hhi (by norm_num at hd ⊢; linarith) hG le_rfl (by norm_num) code.toNat 1 le_rfl
    (by simpa using hcode)
  refine ⟨s', code, y, ?_, ?_, ?_⟩
  · simp only [BitSlice.setScaledValue, hc, e1]; rfl
  · simp only [BitSlice.getScaledValue, e3, Out.ok_bind, hy, Out.pure_eq]
  · have herr := Num.roundAway_err z
    rw [← hcz] at herr
    have hw' : (2 : ℚ) ^ w - 1 = ((2 ^ w - 1 : ℕ) : ℚ) := by push_cast [Nat.cast_sub hpow]; ring
    have hmp : 1 ≤ 2 ^ w - 1 := BitSlice.maxval_pos (width_le hw).1
    rw [hw']
    have hM : (1 : ℚ) ≤ ((2 ^ w - 1 : ℕ) : ℚ) := by exact_mod_cast hmp
    generalize ((2 ^ w - 1 : ℕ) : ℚ) = mv at *
    simp only [Int.cast_natCast] at herr
    have hs : 0 < (hi - lo) / mv := by
      have : 0 < hi - lo := by linarith
      positivity
    have e5 : |(code.toNat : ℚ) / mv * (hi - lo) + 1 * lo - x| ≤ (hi - lo) / mv * (1 / 2) + (hi - lo) / 2 ^ 20 := by
      have e6 : (code.toNat : ℚ) / mv * (hi - lo) + 1 * lo - x =
          (code.toNat - (x - lo) / (hi - lo) * mv) * ((hi - lo) / mv) := by
        have : hi - lo ≠ 0 := by linarith
        have : mv ≠ 0 := by linarith
        field_simp; ring
      rw [e6, abs_mul, abs_of_pos hs]
      have e7 : |(code.toNat : ℚ) - (x - lo) / (hi - lo) * mv| ≤ 1 / 2 + mv / 2 ^ 20 := by
        have := abs_le.1 herr
        have := abs_le.1 ez
        rw [abs_le]; constructor <;> linarith
      calc _ ≤ (1 / 2 + mv / 2 ^ 20) * ((hi - lo) / mv) := mul_le_mul_of_nonneg_right e7 hs.le
        _ = _ := by have : mv ≠ 0 := by linarith
                    field_simp
    have e8 := abs_le.1 e5
    have e9 := abs_le.1 ey
    norm_num at e8 e9
    rw [abs_le]; norm_num; constructor <;> linarith

example : ∃ (slice : Blocks), 3 < Spec.slots 2 slice ∧ (-1 : ℚ) ≤ 1 / 3 ∧ (1 / 3 : ℚ) ≤ 1 ∧ |(-1 : ℚ)| ≤ 1 ∧ |(1 : ℚ)| ≤ 1 ∧
    (1 : ℚ) / 2 ^ 99 ≤ 1 - -1 ∧ (1 : ℚ) ≤ 2 ^ 60 :=
  ⟨[0#256], by decide, by norm_num⟩

/-- Exact arithmetic: the bounds are represented exactly (stored as code 0 and `2^w - 1`, read back
as `lo` and `hi`). -/
theorem C15_endpoints {w : Nat} (hw : validWidth w) (slice : Blocks) (i : Nat)
    (hi' : i < Spec.slots w slice) (lo hi : ℚ) (h : lo < hi) :
    (∃ slice', BitSlice.setScaledValue .exact w slice i (.fin lo) (.fin lo) (.fin hi)
        = .ok (slice', 0#8) ∧
      BitSlice.getScaledValue .exact w slice' i (.fin lo) (.fin hi) = .ok (.fin lo)) ∧
    (∃ slice' code, BitSlice.setScaledValue .exact w slice i (.fin hi) (.fin lo) (.fin hi)
        = .ok (slice', code) ∧ code.toNat = 2 ^ w - 1 ∧
      BitSlice.getScaledValue .exact w slice' i (.fin lo) (.fin hi) = .ok (.fin hi)) := by
  have hmp := BitSlice.maxval_pos (width_le hw).1
  have hmv := BitSlice.maxval_le (width_le hw).2
  have hM : (0 : ℚ) < BitSlice.maxval w := by exact_mod_cast hmp
  constructor
  · have hc := C15_clamp_low .exact hw (.fin lo) lo hi h (Or.inl (by simp))
    obtain ⟨s', e1, _, e3, _⟩ := C14_get_set hw slice i 0#8 (by simp) hi'
    refine ⟨s', ?_, ?_⟩
    · simp only [BitSlice.setScaledValue, hc, e1]; rfl
    · simp only [BitSlice.getScaledValue, e3, Out.ok_bind, BitSlice.linproj]
      rw [FP.ofNat_eq _ (n := 1) (by omega),
        FP.ofNat_eq _ (n := BitSlice.maxval w) (by omega), FP.sub_fin]
      simp [FP.exact, FP.ofNat, FP.div, hM.ne']
  · have hc := C15_upper_bound .exact hw lo hi (hi - lo) h (by rw [FP.sub_fin]; rfl) (by linarith)
    generalize hcd : BitSlice.discretise .exact w (.fin hi) (.fin lo) (.fin hi) = code at *
    have hlt : code.toNat < 2 ^ w := by
      have := Nat.pow_pos (n := w) (show 0 < 2 by norm_num); omega
    obtain ⟨s', e1, _, e3, _⟩ := C14_get_set hw slice i code hlt hi'
    refine ⟨s', code, ?_, hc, ?_⟩
    · simp only [BitSlice.setScaledValue, hcd, e1]; rfl
    · simp only [BitSlice.getScaledValue, e3, Out.ok_bind, BitSlice.linproj]
      have hcm : code.toNat = BitSlice.maxval w := hc
      rw [hcm, FP.ofNat_eq _ (n := 1) (by omega),
        FP.ofNat_eq _ (n := BitSlice.maxval w) (by omega), FP.sub_fin, FP.div_fin _ hM.ne',
        div_self hM.ne']
      simp [FP.exact]

/-- Every rounding: the lower bound is represented exactly (stored as code 0 and read back as `lo`), if it is a number of
the format and the difference of the bounds does not overflow. -/
theorem C15_lower_endpoint (F : FP) {w : Nat} (hw : validWidth w) (slice : Blocks) (i : Nat)
    (hi' : i < Spec.slots w slice) (lo hi d : ℚ) (h : lo < hi) (hlo : F.rnd lo = .fin lo) (hd : F.rnd (hi - lo) = .fin d) :
    ∃ slice', BitSlice.setScaledValue F w slice i (.fin lo) (.fin lo) (.fin hi) = .ok (slice', 0#8) ∧
      BitSlice.getScaledValue F w slice' i (.fin lo) (.fin hi) = .ok (.fin lo) := by
  have hmp := BitSlice.maxval_pos (width_le hw).1
  have hmv := BitSlice.maxval_le (width_le hw).2
  have hM : (0 : ℚ) < BitSlice.maxval w := by exact_mod_cast hmp
  have hc := C15_clamp_low F hw (.fin lo) lo hi h (Or.inl (by simp))
  obtain ⟨s', e1, _, e3, _⟩ := C14_get_set hw slice i 0#8 (by simp) hi'
  refine ⟨s', ?_, ?_⟩
  · simp only [BitSlice.setScaledValue, hc, e1]; rfl
  · have z : (0#8).toNat = 0 := rfl
    simp only [BitSlice.getScaledValue, e3, Out.ok_bind, BitSlice.linproj, z]
    rw [FP.ofNat_eq _ (n := 0) (by omega), FP.ofNat_eq _ (n := 1) (by omega),
      FP.ofNat_eq _ (n := BitSlice.maxval w) (by omega), FP.sub_fin, hd, FP.div_fin _ hM.ne', Nat.cast_zero, zero_div,
      F.rnd_zero, FP.mul_fin, zero_mul, F.rnd_zero, FP.mul_fin, Nat.cast_one, one_mul, hlo, FP.add_fin, zero_add, hlo]
    rfl

example : FP.binary32.rnd (-3 : ℚ) = .fin (-3 : ℚ) ∧ FP.binary32.rnd (5 - -3 : ℚ) = .fin (8 : ℚ) := by
  have h1 := FP.binary32.int (-3) (by norm_num)
  have h2 := FP.binary32.int 8 (by norm_num)
  norm_num at h1 h2 ⊢
  exact ⟨h1, h2⟩

/-- `f32`, a limit of the code: when `hi - lo` overflows, every value gets code 0, also the upper
bound. -/
theorem C15_overflow_all_zero {w : Nat} (hw : validWidth w) (v : Num) (lo hi : ℚ) (h : lo < hi)
    (hov : (2 : ℚ) ^ 128 ≤ hi - lo) :
    BitSlice.discretise .binary32 w v (.fin lo) (.fin hi) = 0#8 := by
  have hp : FP.binary32.rnd (hi - lo) = .pinf := by
    have := FP.round32_mono hov
    have htop := FP.round32_fix 1 151 (by norm_num) (by norm_num)
    have e : ((1 : ℤ) : ℚ) * 2 ^ ((151 : ℤ) - 23) = 2 ^ (128 : ℕ) := by
      push_cast; rw [one_mul, ← zpow_natCast]; rfl
    rw [e] at htop
    rw [htop] at this
    show FP.rnd32 _ = _
    unfold FP.rnd32
    rw [if_pos this]
  apply BitVec.eq_of_toNat_eq
  rw [discretise_toNat]
  obtain ⟨c, hc, h1, h2⟩ := BitSlice.clamp_fin h.le v
  rw [hc, BitSlice.scaled_degenerate _ (width_le hw).2 (fun d hd' => by rw [hp] at hd'; simp at hd') h1 h2]
  simp

example : (-(2 : ℚ) ^ 127) < 2 ^ 127 ∧ (2 : ℚ) ^ 128 ≤ 2 ^ 127 - -(2 : ℚ) ^ 127 := by norm_num

open Finset in
/-- Exact arithmetic: `sum_scaled_masked` returns the sum of the `get_scaled_value`s of the selected
positions, and their number. -/
theorem C17_sum_scaled_masked {w : Nat} (hw : validWidth w) (slice : Blocks) (b : Nat)
    (mask : BitVec 32) (lo hi : ℚ) (hb : 32 * b + 31 < Spec.slots w slice) :
    ∃ g : Nat → ℚ, (∀ t < 32, BitSlice.getScaledValue .exact w slice (32 * b + t) (.fin lo) (.fin hi)
        = .ok (.fin (g t))) ∧
      BitSlice.sumScaledMasked .exact w slice b mask (.fin lo) (.fin hi) =
        .ok (.fin (∑ t ∈ (range 32).filter (fun t => mask.getLsbD t = true), g t),
          ((range 32).filter (fun t => mask.getLsbD t = true)).card) := by
  have hmp := BitSlice.maxval_pos (width_le hw).1
  have hM : (0 : ℚ) < BitSlice.maxval w := by exact_mod_cast hmp
  refine ⟨fun t => (Spec.valueAt w slice (32 * b + t) : ℚ) / BitSlice.maxval w * (hi - lo) + lo, ?_, ?_⟩
  · intro t ht
    obtain ⟨x, hx, _⟩ := (C14_out_of_range hw slice (32 * b + t)).2 (by omega)
    simp only [BitSlice.getScaledValue, hx, Out.ok_bind, BitSlice.linproj, Spec.valueAt]
    simp [FP.exact, FP.ofNat, FP.div, FP.sub, FP.add, FP.mul, Num.neg, hM.ne', sub_eq_add_neg]
  · have hb' : b < Blocks.blockLen 32 slice / w := by
      rw [BitSlice.block_slots hw slice]; rw [slots_def] at hb; exact hb
    have hs := C17_sum_masked hw slice b mask hb
    unfold BitSlice.sumMasked at hs
    rw [if_pos hb'] at hs
    unfold BitSlice.sumScaledMasked BitSlice.sumScaledMaskedUnsafe
    rw [if_pos hb', hs]
    simp only [Out.ok_bind, Out.pure_eq, BitSlice.linproj]
    have hpc : BitBlock.popcount mask = ((range 32).filter (fun t => mask.getLsbD t = true)).card := by
      rw [BitBlock.popcount_eq_sum, card_filter]
      exact sum_congr rfl fun i _ => by cases mask.getLsbD i <;> rfl
    rw [hpc]
    refine congrArg Out.ok (Prod.ext ?_ rfl)
    simp only [FP.exact, FP.ofNat, FP.div, hM.ne', if_false, FP.sub, FP.add, FP.mul, Num.neg]
    rw [← sum_filter]
    refine congrArg Num.fin ?_
    rw [sum_add_distrib, sum_const, ← sum_mul, nsmul_eq_mul]
    simp only [div_eq_mul_inv]
    rw [← sum_mul]
    push_cast
    ring

open Finset in
/-- Single precision: `sum_scaled_masked` returns the number of selected positions, and the sum of the exact values
`code / (2^w - 1) * (hi - lo) + lo` of their codes up to `G / 2^14`, where `G` bounds the bounds. -/
theorem C17_sum_scaled_masked_f32 {w : Nat} (hw : validWidth w) (slice : Blocks) (b : Nat)
    (mask : BitVec 32) (lo hi G : ℚ) (hb : 32 * b + 31 < Spec.slots w slice)
    (hlo : |lo| ≤ G) (hhi : |hi| ≤ G) (hG1 : 1 / 2 ^ 100 ≤ G) (hG2 : G ≤ 2 ^ 60) :
    ∃ r : ℚ, BitSlice.sumScaledMasked .binary32 w slice b mask (.fin lo) (.fin hi) =
        .ok (.fin r, ((range 32).filter (fun t => mask.getLsbD t = true)).card) ∧
      |r - ∑ t ∈ (range 32).filter (fun t => mask.getLsbD t = true),
        ((Spec.valueAt w slice (32 * b + t) : ℚ) / ((2 ^ w - 1 : ℕ) : ℚ) * (hi - lo) + lo)| ≤ G / 2 ^ 14 := by
  have hb' : b < Blocks.blockLen 32 slice / w := by
    rw [BitSlice.block_slots hw slice]; rw [slots_def] at hb; exact hb
  have hs := C17_sum_masked hw slice b mask hb
  unfold BitSlice.sumMasked at hs
  rw [if_pos hb'] at hs
  have hpc : BitBlock.popcount mask = ((range 32).filter (fun t => mask.getLsbD t = true)).card := by
    rw [BitBlock.popcount_eq_sum, card_filter]
    exact sum_congr rfl fun i _ => by cases mask.getLsbD i <;> rfl
  have hval : ∀ t, t < 32 → Spec.valueAt w slice (32 * b + t) ≤ 2 ^ w - 1 := by
    intro t ht
    obtain ⟨x, hx, hlt⟩ := (C14_out_of_range hw slice (32 * b + t)).2 (by omega)
    simp only [Spec.valueAt, hx]
    omega
  have hcard : ((range 32).filter (fun t => mask.getLsbD t = true)).card ≤ 32 :=
    (card_filter_le _ _).trans (by simp)
  obtain ⟨r, e, hr⟩ := FP.proj32 (w := w) (N := 32) hw hlo hhi hG1 hG2 (by norm_num) (by norm_num)
    (∑ t ∈ (range 32).filter (fun t => mask.getLsbD t = true), Spec.valueAt w slice (32 * b + t))
    ((range 32).filter (fun t => mask.getLsbD t = true)).card hcard
    (sum_le_card_nsmul _ _ _ fun t ht => hval t (mem_range.1 (mem_filter.1 ht).1))
  refine ⟨r, ?_, ?_⟩
  · unfold BitSlice.sumScaledMasked BitSlice.sumScaledMaskedUnsafe
    rw [if_pos hb', hs]
    simp only [Out.ok_bind, Out.pure_eq, hpc]
    rw [← sum_filter, e]
  · have e5 : ∑ t ∈ (range 32).filter (fun t => mask.getLsbD t = true),
        ((Spec.valueAt w slice (32 * b + t) : ℚ) / ((2 ^ w - 1 : ℕ) : ℚ) * (hi - lo) + lo) =
        ((∑ t ∈ (range 32).filter (fun t => mask.getLsbD t = true), Spec.valueAt w slice (32 * b + t) : ℕ) : ℚ) /
          ((2 ^ w - 1 : ℕ) : ℚ) * (hi - lo) + (((range 32).filter (fun t => mask.getLsbD t = true)).card : ℚ) * lo := by
      rw [sum_add_distrib, sum_const, ← sum_mul, nsmul_eq_mul]
      simp only [div_eq_mul_inv]
      rw [← sum_mul]
      push_cast
      ring
    rw [e5]
    refine hr.trans (le_of_eq ?_)
    push_cast
    ring

example : 32 * 0 + 31 < Spec.slots 2 [0x123456789#256] ∧ |(-1 : ℚ)| ≤ 2 ∧ |(2 : ℚ)| ≤ 2 ∧ (1 : ℚ) / 2 ^ 100 ≤ 2 ∧
    (2 : ℚ) ≤ 2 ^ 60 := by
  refine ⟨by decide, by norm_num, by norm_num, by norm_num, by norm_num⟩

end BitBoost.Props
