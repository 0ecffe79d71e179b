import Verif.Lemmas.Units
import Verif.Lemmas.Ieee
import Verif.Lemmas.Fixed
/-! Helper lemmas: numerical features in units that differ by a power of two, in `f32`. -/
namespace BitBoost
open Spec Dataset

namespace FP

theorem pow_log_le {r : ℚ} (hr : 0 < r) (x : ℤ) : (2 : ℚ) ^ x ≤ r ↔ x ≤ Int.log 2 r := by
  have := Int.zpow_le_iff_le_log (b := 2) (by norm_num) (x := x) hr
  exact_mod_cast this

theorem log_scale {q : ℚ} (hq : q ≠ 0) (k : ℤ) : Int.log 2 |(2 : ℚ) ^ k * q| = Int.log 2 |q| + k := by
  have h2 : (0 : ℚ) < 2 ^ k := zpow_pos (by norm_num) _
  have hq' : 0 < |q| := abs_pos.2 hq
  have hp : 0 < |(2 : ℚ) ^ k * q| := abs_pos.2 (mul_ne_zero h2.ne' hq)
  have e : |(2 : ℚ) ^ k * q| = 2 ^ k * |q| := by rw [abs_mul, abs_of_pos h2]
  apply le_antisymm
  · have h := (pow_log_le hp _).2 le_rfl
    conv at h => rhs; rw [e]
    have : (2 : ℚ) ^ (Int.log 2 |(2 : ℚ) ^ k * q| - k) ≤ |q| := by
      rw [zpow_sub₀ (by norm_num), div_le_iff₀ h2]; linarith
    have := (pow_log_le hq' _).1 this
    omega
  · rw [← pow_log_le hp, e, zpow_add₀ (by norm_num), mul_comm]
    exact mul_le_mul_of_nonneg_left ((pow_log_le hq' _).2 le_rfl) h2.le

theorem round32_scale {q : ℚ} {k : ℤ} (h1 : (2 : ℚ) ^ (-126 : ℤ) ≤ |q|) (h2 : (2 : ℚ) ^ (-126 : ℤ) ≤ |(2 : ℚ) ^ k * q|) :
    round32 ((2 : ℚ) ^ k * q) = 2 ^ k * round32 q := by
  have h0 : (0 : ℚ) < 2 ^ (-126 : ℤ) := zpow_pos (by norm_num) _
  have hq : q ≠ 0 := abs_pos.1 (h0.trans_le h1)
  have hl := log_scale hq k
  have e1 := (pow_log_le (h0.trans_le h1) _).1 h1
  have e2 := (pow_log_le (h0.trans_le h2) _).1 h2
  have he : expo ((2 : ℚ) ^ k * q) = expo q + k := by unfold expo; omega
  have hu : ulp ((2 : ℚ) ^ k * q) = 2 ^ k * ulp q := by
    unfold ulp
    rw [he, ← zpow_add₀ (by norm_num)]; congr 1; ring
  unfold round32
  rw [hu, mul_div_mul_left _ _ (zpow_pos (by norm_num : (0 : ℚ) < 2) k).ne']
  ring

theorem round32_pow (k : ℤ) (h : -126 ≤ k) : round32 ((2 : ℚ) ^ k) = 2 ^ k := by
  have := round32_fix (2 ^ 23) k (by norm_num) h
  rwa [show ((2 ^ 23 : ℤ) : ℚ) * (2 : ℚ) ^ (k - 23) = 2 ^ k by
    rw [show k = (k - 23) + (23 : ℕ) by push_cast; ring, two_pow_split]; push_cast
    rw [show k - 23 + 23 - 23 = k - 23 by ring]; ring] at this

theorem rnd32_small {q : ℚ} (h : |q| ≤ 2 ^ 127) : binary32.rnd q = .fin (round32 q) := by
  have hp := round32_pow 127 (by norm_num)
  have e : ((2 : ℚ) ^ (127 : ℤ)) = 2 ^ 127 := by norm_cast
  rw [e] at hp
  have h1 := round32_mono (abs_le.1 h).2
  have h2 := round32_mono (abs_le.1 h).1
  rw [hp] at h1
  rw [round32_neg, hp] at h2
  show rnd32 q = _
  unfold rnd32
  rw [if_neg (by push Not; refine h1.trans_lt ?_; norm_num), if_neg (by push Not; refine lt_of_lt_of_le ?_ h2; norm_num)]

theorem pow_le_of_abs {k : ℤ} (hk : |k| ≤ 30) : (1 : ℚ) / 2 ^ 30 ≤ 2 ^ k ∧ (2 : ℚ) ^ k ≤ 2 ^ 30 := by
  rw [abs_le] at hk
  constructor
  · have : (2 : ℚ) ^ (-30 : ℤ) ≤ 2 ^ k := zpow_le_zpow_right₀ (by norm_num) hk.1
    rw [zpow_neg] at this
    rw [one_div]; exact_mod_cast this
  · have : (2 : ℚ) ^ k ≤ 2 ^ (30 : ℤ) := zpow_le_zpow_right₀ (by norm_num) hk.2
    exact_mod_cast this

/-- Rounding commutes with a change of the exponent. -/
theorem rnd_scale {k : ℤ} (hk : |k| ≤ 30) {q : ℚ} (h : q = 0 ∨ (1 / 2 ^ 90 ≤ |q| ∧ |q| ≤ 2 ^ 90)) :
    binary32.rnd ((2 : ℚ) ^ k * q) = .fin ((2 : ℚ) ^ k * round32 q) ∧ binary32.rnd q = .fin (round32 q) := by
  obtain ⟨k1, k2⟩ := pow_le_of_abs hk
  rcases h with rfl | ⟨h1, h2⟩
  · rw [mul_zero, binary32.rnd_zero, round32_zero, mul_zero]; exact ⟨rfl, rfl⟩
  · have k0 : (0 : ℚ) < 2 ^ k := zpow_pos (by norm_num) _
    have e : |(2 : ℚ) ^ k * q| = 2 ^ k * |q| := by rw [abs_mul, abs_of_pos k0]
    have hs : (2 : ℚ) ^ (-126 : ℤ) ≤ 1 / 2 ^ 30 * (1 / 2 ^ 90) := by
      rw [zpow_neg]; norm_num
    have hle : (1 : ℚ) / 2 ^ 30 * (1 / 2 ^ 90) ≤ 2 ^ k * |q| :=
      mul_le_mul k1 h1 (by positivity) k0.le
    have hge : (2 : ℚ) ^ k * |q| ≤ 2 ^ 30 * 2 ^ 90 := mul_le_mul k2 h2 (abs_nonneg _) (by positivity)
    rw [rnd32_small (by rw [e]; refine hge.trans ?_; norm_num), rnd32_small (h2.trans (by norm_num)),
      round32_scale (by refine (hs.trans ?_).trans h1; norm_num) (by rw [e]; exact hs.trans hle)]
    exact ⟨rfl, rfl⟩

theorem grid_multiple {q : ℚ} {e : ℤ} (hg : Grid32 q) (h : q = 0 ∨ (2 : ℚ) ^ e ≤ |q|) : ∃ n : ℤ, q = n * (2 : ℚ) ^ (e - 23) := by
  rcases h with rfl | h
  · exact ⟨0, by simp⟩
  · obtain ⟨m, x, hm, _, rfl⟩ := hg
    have hp : (0 : ℚ) < 2 ^ x := zpow_pos (by norm_num) _
    rw [abs_mul, abs_of_pos hp] at h
    have hm' : |(m : ℚ)| < 2 ^ 24 := by exact_mod_cast hm
    have h3 : (2 : ℚ) ^ e < 2 ^ (x + (24 : ℕ)) := by
      rw [two_pow_split]
      nlinarith
    have h4 := (zpow_lt_zpow_iff_right₀ (a := (2 : ℚ)) (by norm_num)).1 h3
    obtain ⟨d, hd⟩ := Int.eq_ofNat_of_zero_le (show 0 ≤ x - (e - 23) by push_cast at h4; omega)
    refine ⟨m * 2 ^ d, ?_⟩
    push_cast
    rw [mul_assoc, mul_comm ((2 : ℚ) ^ d), ← two_pow_split]; congr 2; omega

theorem multiple_size {q : ℚ} {e n : ℤ} (h : q = n * (2 : ℚ) ^ e) : q = 0 ∨ (2 : ℚ) ^ e ≤ |q| := by
  by_cases hn : n = 0
  · left; rw [h, hn]; simp
  · right
    have hp : (0 : ℚ) < 2 ^ e := zpow_pos (by norm_num) _
    rw [h, abs_mul, abs_of_pos hp]
    have : (1 : ℚ) ≤ |(n : ℚ)| := by exact_mod_cast Int.one_le_abs hn
    nlinarith

/-- The rounded value of a positive number between two powers of two is between them, too. -/
theorem round32_between {q : ℚ} {a b : ℤ} (ha : -126 ≤ a) (hb : -126 ≤ b) (h1 : (2 : ℚ) ^ a ≤ q) (h2 : q ≤ 2 ^ b) :
    (2 : ℚ) ^ a ≤ round32 q ∧ round32 q ≤ 2 ^ b := by
  have e1 := round32_mono h1
  have e2 := round32_mono h2
  rw [round32_pow a ha] at e1
  rw [round32_pow b hb] at e2
  exact ⟨e1, e2⟩

end FP
open FP

/-- Powers of two are fine for the histogram of a column with values of ordinary size. -/
theorem fitRange_pow {k : ℤ} (hk : |k| ≤ 30) {lo hi : Num} {values : List Num} (h1 : lo.isFinite = true) (h2 : hi.isFinite = true)
    (h3 : lo.lt hi = true) (hlo : Ordinary lo) (hhi : Ordinary hi) (hv : ∀ x ∈ values, Ordinary x) :
    FitRange .binary32 ((2 : ℚ) ^ k, 0) lo hi values := by
  have k0 : (0 : ℚ) < 2 ^ k := zpow_pos (by norm_num) _
  cases lo with
  | pinf => cases h1
  | ninf => cases h1
  | nan => cases h1
  | fin l =>
  cases hi with
  | pinf => cases h2
  | ninf => cases h2
  | nan => cases h2
  | fin h =>
  have hlt : l < h := by simpa [Num.lt] using h3
  have p30 : (2 : ℚ) ^ (-30 : ℤ) = 1 / 2 ^ 30 := by rw [zpow_neg, one_div]; norm_cast
  have p53 : (2 : ℚ) ^ (-30 - 23 : ℤ) = 1 / 2 ^ 53 := by rw [show (-30 - 23 : ℤ) = -53 by norm_num, zpow_neg, one_div]; norm_cast
  have p62 : (2 : ℚ) ^ (-62 : ℤ) = 1 / 2 ^ 62 := by rw [zpow_neg, one_div]; norm_cast
  have p85 : (2 : ℚ) ^ (-62 - 23 : ℤ) = 1 / 2 ^ 85 := by rw [show (-62 - 23 : ℤ) = -85 by norm_num, zpow_neg, one_div]; norm_cast
  have p61 : (2 : ℚ) ^ (61 : ℤ) = 2 ^ 61 := by norm_cast
  have p52 : (2 : ℚ) ^ (52 : ℤ) = 2 ^ 52 := by norm_cast
  -- differences
  have hsub : ∀ a b : ℚ, Ordinary (.fin a) → Ordinary (.fin b) →
      (a - b = 0 ∨ (1 / 2 ^ 53 ≤ |a - b| ∧ |a - b| ≤ 2 ^ 61)) := by
    intro a b ha hb
    obtain ⟨n, hn⟩ := grid_multiple (e := -30) ha.1 (by rw [p30]; exact ha.2.imp_right And.left)
    obtain ⟨m, hm⟩ := grid_multiple (e := -30) hb.1 (by rw [p30]; exact hb.2.imp_right And.left)
    have := multiple_size (q := a - b) (n := n - m) (e := -30 - 23) (by rw [hn, hm]; push_cast; ring)
    rw [p53] at this
    refine this.imp_right fun h => ⟨h, ?_⟩
    have ha' : |a| ≤ 2 ^ 60 := by rcases ha.2 with rfl | h; · simp
                                  · exact h.2
    have hb' : |b| ≤ 2 ^ 60 := by rcases hb.2 with rfl | h; · simp
                                  · exact h.2
    calc |a - b| ≤ |a| + |b| := abs_sub _ _
      _ ≤ 2 ^ 61 := by linarith
  have wide : ∀ q : ℚ, (q = 0 ∨ (1 / 2 ^ 53 ≤ |q| ∧ |q| ≤ 2 ^ 61)) → (q = 0 ∨ (1 / 2 ^ 90 ≤ |q| ∧ |q| ≤ 2 ^ 90)) :=
    fun q hq => hq.imp_right fun h => ⟨le_trans (by norm_num) h.1, h.2.trans (by norm_num)⟩
  have eU : ∀ q : ℚ, inUnits ((2 : ℚ) ^ k, 0) (.fin q) = .fin (2 ^ k * q) := fun q => by simp [Spec.inUnits]
  have hsubs : ∀ a b : ℚ, Ordinary (.fin a) → Ordinary (.fin b) →
      FP.binary32.sub (.fin (2 ^ k * a)) (.fin (2 ^ k * b)) = .fin (2 ^ k * round32 (a - b)) ∧
      FP.binary32.sub (.fin a) (.fin b) = .fin (round32 (a - b)) := by
    intro a b ha hb
    rw [FP.sub_fin, FP.sub_fin, ← mul_sub]
    exact rnd_scale hk (wide _ (hsub a b ha hb))
  -- the width of the range
  have hD : 1 / 2 ^ 53 ≤ h - l ∧ h - l ≤ 2 ^ 61 := by
    have hpos : 0 < h - l := by linarith
    rcases hsub h l hhi hlo with h0 | h0
    · linarith
    · rwa [abs_of_pos hpos] at h0
  obtain ⟨D1, D2⟩ := round32_between (q := h - l) (a := -30 - 23) (b := 61) (by norm_num) (by norm_num) (by rw [p53]; exact hD.1) (by rw [p61]; exact hD.2)
  rw [p53] at D1
  rw [p61] at D2
  obtain ⟨s1, s2⟩ := hsubs h l hhi hlo
  generalize round32 (h - l) = D at *
  have h512 : FP.binary32.ofNat quantileNbins = .fin 512 := by
    rw [FP.ofNat_eq (F := .binary32) (n := quantileNbins) (by decide)]; rfl
  have hq : (1 : ℚ) / 2 ^ 62 ≤ D / 512 ∧ D / 512 ≤ 2 ^ 52 := by
    constructor
    · rw [le_div_iff₀ (by norm_num)]; refine le_trans (le_of_eq ?_) D1; norm_num
    · rw [div_le_iff₀ (by norm_num)]; refine D2.trans (le_of_eq ?_); norm_num
  have hδ := rnd_scale hk (q := D / 512) (.inr (by
    rw [abs_of_pos (lt_of_lt_of_le (by positivity) hq.1)]
    exact ⟨le_trans (by norm_num) hq.1, hq.2.trans (by norm_num)⟩))
  obtain ⟨δ1, δ2⟩ := round32_between (q := D / 512) (a := -62) (b := 52) (by norm_num) (by norm_num) (by rw [p62]; exact hq.1) (by rw [p52]; exact hq.2)
  rw [p62] at δ1
  rw [p52] at δ2
  have dd1 : FP.binary32.div (.fin (2 ^ k * D)) (.fin 512) = .fin (2 ^ k * round32 (D / 512)) := by
    rw [FP.div_fin _ (by norm_num), mul_div_assoc]; exact hδ.1
  have dd2 : FP.binary32.div (.fin D) (.fin 512) = .fin (round32 (D / 512)) := by
    rw [FP.div_fin _ (by norm_num)]; exact hδ.2
  generalize round32 (D / 512) = δ at *
  have hδ0 : 0 < δ := lt_of_lt_of_le (by positivity) δ1
  refine ⟨fun x hx => ?_, fun i hi => ?_⟩
  · rw [eU, eU, s1, s2, h512, dd1, dd2]
    have : FP.binary32.sub (inUnits ((2 : ℚ) ^ k, 0) x) (.fin (2 ^ k * l)) = stretch (2 ^ k) (FP.binary32.sub x (.fin l)) := by
      cases x with
      | fin q =>
        obtain ⟨e1, e2⟩ := hsubs q l (hv _ hx) hlo
        rw [eU, e1, e2]; rfl
      | _ => rfl
    rw [this, show (Num.fin (2 ^ k * δ)) = stretch (2 ^ k) (.fin δ) from rfl]
    generalize FP.binary32.sub x (.fin l) = y
    cases y with
    | fin p =>
      simp only [stretch]
      rw [FP.div_fin _ (mul_pos k0 hδ0).ne', FP.div_fin _ hδ0.ne', mul_div_mul_left _ _ k0.ne']
    | nan => rfl
    | pinf =>
      have n1 : ¬ (2 ^ k * δ < 0) := not_lt.2 (mul_pos k0 hδ0).le
      have n2 : ¬ (δ < 0) := not_lt.2 hδ0.le
      simp only [stretch, FP.div, n1, n2]
    | ninf =>
      have n1 : ¬ (2 ^ k * δ < 0) := not_lt.2 (mul_pos k0 hδ0).le
      have n2 : ¬ (δ < 0) := not_lt.2 hδ0.le
      simp only [stretch, FP.div, n1, n2]
  · rw [eU, eU, s1, s2, h512, dd1, dd2]
    have hi' : (i : ℚ) ≤ 512 := by exact_mod_cast (show i < 512 from hi).le
    rw [FP.ofNat_eq (F := .binary32) (n := i) (by have : i < 512 := hi; omega), FP.mul_fin, FP.mul_fin, mul_left_comm]
    have hm : ((i : ℚ) * δ = 0 ∨ (1 / 2 ^ 62 ≤ (i : ℚ) * δ ∧ (i : ℚ) * δ ≤ 2 ^ 61)) := by
      rcases Nat.eq_zero_or_pos i with h0 | h0
      · left; rw [h0]; simp
      · right
        have h1 : (1 : ℚ) ≤ i := by exact_mod_cast h0
        constructor <;> nlinarith
    have hm' := rnd_scale hk (q := (i : ℚ) * δ) (by
      rcases hm with h0 | h0
      · exact .inl h0
      · right
        rw [abs_of_pos (lt_of_lt_of_le (by positivity) h0.1)]
        exact ⟨le_trans (by norm_num) h0.1, h0.2.trans (by norm_num)⟩)
    rw [hm'.1, hm'.2, FP.add_fin, FP.add_fin, ← mul_add]
    have hr : (round32 ((i : ℚ) * δ) = 0 ∨ (1 / 2 ^ 62 ≤ |round32 ((i : ℚ) * δ)| ∧ |round32 ((i : ℚ) * δ)| ≤ 2 ^ 61)) := by
      rcases hm with h0 | h0
      · left; rw [h0, round32_zero]
      · right
        obtain ⟨r1, r2⟩ := round32_between (q := (i : ℚ) * δ) (a := -62) (b := 61) (by norm_num) (by norm_num) (by rw [p62]; exact h0.1) (by rw [p61]; exact h0.2)
        rw [p62] at r1
        rw [p61] at r2
        rw [abs_of_pos (lt_of_lt_of_le (by positivity) r1)]
        exact ⟨r1, r2⟩
    obtain ⟨n, hn⟩ := grid_multiple (e := -62) (round32_grid ((i : ℚ) * δ)) (by rw [p62]; exact hr.imp_right And.left)
    obtain ⟨m, hm⟩ := grid_multiple (e := -62) hlo.1 (by
      rw [p62]; exact hlo.2.imp_right fun h => le_trans (by norm_num) h.1)
    have hs := multiple_size (q := l + round32 ((i : ℚ) * δ)) (n := m + n) (e := -62 - 23) (by
      have : l + round32 ((i : ℚ) * δ) = m * (2 : ℚ) ^ (-62 - 23 : ℤ) + n * (2 : ℚ) ^ (-62 - 23 : ℤ) := by rw [← hm, ← hn]
      rw [this]; push_cast; ring)
    rw [p85] at hs
    have := rnd_scale hk (q := l + round32 ((i : ℚ) * δ)) (hs.imp_right fun h => ⟨le_trans (by norm_num) h, by
      have hl' : |l| ≤ 2 ^ 60 := by rcases hlo.2 with h | h
                                    · rw [h]; simp
                                    · exact h.2
      have hr' : |round32 ((i : ℚ) * δ)| ≤ 2 ^ 61 := by rcases hr with h | h
                                                        · rw [h]; simp
                                                        · exact h.2
      calc |l + round32 ((i : ℚ) * δ)| ≤ |l| + |round32 ((i : ℚ) * δ)| := abs_add_le _ _
        _ ≤ 2 ^ 90 := by norm_num at *; linarith⟩)
    rw [this.1, this.2, eU]

theorem Spec.BinaryUnits.ok {v : Nat → ℚ × ℚ} {d : Data} (h : BinaryUnits v d) (hg : GoodUnits v d) : UnitsOk .binary32 v d := by
  refine ⟨hg, fun f c hc _ h1 h2 h3 => ?_⟩
  rcases h f with e | ⟨k, hk, e, ho⟩
  · rw [e]
    exact ⟨fun x _ => by simp only [inUnits_one], fun i _ => by simp only [inUnits_one]⟩
  · rw [e]
    obtain ⟨o1, o2, o3⟩ := ho c hc
    exact fitRange_pow hk h1 h2 h3 o1 o2 o3

end BitBoost
