import Verif.Lemmas.MaskRead
import Verif.Lemmas.Float32
import Verif.Spec.Columns
/-! # Fixed-point columns: the `f32` bins are the exact bins -/
namespace BitBoost
open Spec

namespace FP

/-- Numbers with at most 24 significant bits are representable. -/
theorem binary32_repr (m e : ℤ) (hm : |m| ≤ 2 ^ 24) (h1 : -149 ≤ e) (h2 : e ≤ 103) :
    binary32.rnd (m * (2 : ℚ) ^ e) = .fin (m * (2 : ℚ) ^ e) := by
  have hr := round32_fix m (e + 23) hm (by omega)
  rw [show e + 23 - 23 = e by ring] at hr
  have hq : |(m : ℚ)| ≤ 2 ^ 24 := by exact_mod_cast hm
  have hp : (0 : ℚ) < 2 ^ e := zpow_pos (by norm_num) _
  have he : (2 : ℚ) ^ e ≤ 2 ^ (103 : ℤ) := zpow_le_zpow_right₀ (by norm_num) h2
  have habs : |(m : ℚ) * 2 ^ e| ≤ 2 ^ 127 := by
    rw [abs_mul, abs_of_pos hp]
    calc |(m : ℚ)| * 2 ^ e ≤ 2 ^ 24 * 2 ^ (103 : ℤ) := by
          apply mul_le_mul hq he hp.le (by norm_num)
      _ = 2 ^ 127 := by norm_num
  rw [abs_le] at habs
  have h128 : (2 : ℚ) ^ 127 < 2 ^ 128 := by norm_num
  show rnd32 _ = _
  unfold rnd32
  rw [hr, if_neg (by linarith), if_neg (by linarith)]

end FP

namespace Binner

/-- Rounding a quotient of small integers does not change its bin. -/
theorem binOf_round {p R : ℤ} (hR : 0 < R) (hR2 : R ≤ 2 ^ 15) :
    binOf 512 (FP.binary32.rnd ((512 * p : ℤ) / (R : ℚ))) = binOf 512 (.fin ((512 * p : ℤ) / (R : ℚ))) := by
  have hRq : (0 : ℚ) < R := by exact_mod_cast hR
  generalize hq : ((512 * p : ℤ) : ℚ) / (R : ℚ) = q
  rcases lt_or_ge q 0 with h0 | h0
  · have h1 := FP.binary32.mono q 0 h0.le
    rw [FP.rnd_zero] at h1
    have h2 := binOf_mono 512 h1
    have h3 : binOf 512 (.fin q) ≤ binOf 512 (.fin 0) := binOf_mono 512 (by simpa using h0.le)
    rw [binOf_zero] at h2 h3
    omega
  rcases lt_or_ge q 511 with h5 | h5
  · obtain ⟨n, hn⟩ := Int.eq_ofNat_of_zero_le (Int.floor_nonneg.2 h0)
    have hfl := Int.floor_le q
    have hlt := Int.lt_floor_add_one q
    rw [hn] at hfl hlt
    push_cast at hfl hlt
    have hn511 : n < 511 := by
      have : (n : ℚ) < 511 := by linarith
      exact_mod_cast this
    have hup : q ≤ ((((n : ℤ) + 1) * 2 ^ 15 - 1 : ℤ) : ℚ) * 2 ^ (-15 : ℤ) := by
      have h1 : ((512 * p : ℤ) : ℚ) < (((n : ℤ) + 1) * R : ℤ) := by
        rw [← hq, div_lt_iff₀ hRq] at hlt
        push_cast at hlt ⊢; linarith
      have h2 : 512 * p ≤ ((n : ℤ) + 1) * R - 1 := by
        have : 512 * p < ((n : ℤ) + 1) * R := by exact_mod_cast h1
        omega
      have h3 : ((512 * p : ℤ) : ℚ) ≤ ((((n : ℤ) + 1) * R - 1 : ℤ) : ℚ) := by exact_mod_cast h2
      rw [← hq, div_le_iff₀ hRq]
      refine h3.trans ?_
      push_cast
      have hR3 : (R : ℚ) ≤ 2 ^ 15 := by exact_mod_cast hR2
      norm_num at hR3 ⊢
      nlinarith
    have h1 := FP.binary32.mono _ _ hup
    rw [FP.binary32_repr _ (-15) (by rw [abs_le]; constructor <;> omega) (by norm_num) (by norm_num)] at h1
    have h2 := FP.binary32.mono _ _ hfl
    rw [show ((n : ℕ) : ℚ) = ((n : ℤ) : ℚ) by norm_cast, FP.binary32.int n (by rw [abs_le]; constructor <;> omega)] at h2
    have h1' := binOf_mono 512 h1
    have h2' := binOf_mono 512 h2
    have hf1 : ⌊((((n : ℤ) + 1) * 2 ^ 15 - 1 : ℤ) : ℚ) * 2 ^ (-15 : ℤ)⌋ = n := by
      rw [Int.floor_eq_iff]; push_cast; norm_num
      constructor <;> linarith
    have hf1 : ⌊((((n : ℤ) + 1) * 2 ^ 15 - 1 : ℤ) : ℚ) * 2 ^ (-15 : ℤ)⌋.toNat = n := by rw [hf1]; rfl
    have hnq : (n : ℚ) < 511 := by exact_mod_cast hn511
    have hn0 : (0 : ℚ) ≤ n := by positivity
    rw [binOf_fin (by push_cast; norm_num; linarith) (by push_cast; norm_num; linarith), hf1] at h1'
    rw [binOf_fin (by exact_mod_cast hn0) (by push_cast; linarith)] at h2'
    rw [binOf_fin h0 (by linarith), hn]
    simp only [Int.floor_intCast] at h2'
    omega
  · have h1 := FP.binary32.mono _ _ h5
    have : FP.binary32.rnd 511 = .fin 511 := by
      have := FP.binary32.int 511 (by norm_num)
      exact_mod_cast this
    rw [this] at h1
    rw [le_binOf (n := 512) (by norm_num) (by norm_num; exact h1), le_binOf (n := 512) (by norm_num) (by norm_num; simpa using h5)]

end Binner

namespace Dataset

/-- The bins of the values of the column, and their bounds, are those of exact arithmetic. -/
def Faithful (F : FP) (c : Column) : Prop :=
  (∀ n : Nat, Binner.representative F (numBinner F c) (n + 1) = Binner.representative .exact (numBinner .exact c) (n + 1)) ∧
    ∀ v ∈ c.values, v ≠ .nan → Binner.getBin F (numBinner F c) v = Binner.getBin .exact (numBinner .exact c) v

theorem faithful_exact (c : Column) : Faithful .exact c := ⟨fun _ => rfl, fun _ _ _ => rfl⟩

theorem faithful_fixed {c : Column} {l h : ℚ} (hl : c.lo = .fin l) (hh : c.hi = .fin h) (hlt : l < h)
    (hfix : FixedPoint c) : Faithful .binary32 c := by
  obtain ⟨e, e1, e2, hv⟩ := hfix
  obtain ⟨a, ha, hla⟩ := hv c.lo (by simp) (by rw [hl]; simp)
  obtain ⟨b, hb, hhb⟩ := hv c.hi (by simp) (by rw [hh]; simp)
  have hla' : l = a * (2 : ℚ) ^ e := by rw [hl] at hla; simpa using hla
  have hhb' : h = b * (2 : ℚ) ^ e := by rw [hh] at hhb; simpa using hhb
  have hp : (0 : ℚ) < 2 ^ e := zpow_pos (by norm_num) _
  have hab : a < b := by
    rw [hla', hhb'] at hlt
    exact_mod_cast lt_of_mul_lt_mul_right hlt hp.le
  rw [abs_le] at ha hb
  obtain ⟨R, hR⟩ : ∃ R : ℤ, R = b - a := ⟨_, rfl⟩
  have hR0 : 0 < R := by omega
  have hR1 : R ≤ 2 ^ 15 := by omega
  have h9 : (2 : ℚ) ^ e = 2 ^ (e - 9) * 512 := by
    have := FP.two_pow_split (e - 9) 9
    rw [show e - 9 + ((9 : ℕ) : ℤ) = e by push_cast; ring] at this
    rw [this]; norm_num
  have hdiff : ∀ k : ℤ, k * (2 : ℚ) ^ e - l = ((k - a : ℤ) : ℚ) * 2 ^ e := by
    intro k; rw [hla']; push_cast; ring
  have hu : (0 : ℚ) < 2 ^ (e - 9) := zpow_pos (by norm_num) _
  have h5 : ∀ F : FP, F.ofNat quantileNbins = .fin 512 := by
    intro F
    rw [F.ofNat_eq (by unfold quantileNbins; norm_num)]; unfold quantileNbins; norm_num
  have hd1 : h - l = R * (2 : ℚ) ^ e := by rw [hhb', hla', hR]; push_cast; ring
  have hd2 : h - l = R * (2 : ℚ) ^ (e - 9) * 512 := by rw [hd1, h9]; ring
  have hd3 : (h - l) / 512 = R * (2 : ℚ) ^ (e - 9) := by rw [hd2]; field_simp
  have hdelta : (numBinner .binary32 c).delta = .fin (R * (2 : ℚ) ^ (e - 9)) := by
    unfold numBinner
    simp only [hl, hh, FP.sub_fin, h5]
    rw [hd1, FP.binary32_repr R e (by rw [abs_le]; constructor <;> omega) (by omega) (by omega), ← hd1, FP.div_fin _ (by norm_num),
      hd3, FP.binary32_repr R (e - 9) (by rw [abs_le]; constructor <;> omega) (by omega) (by omega)]
  have hdelta' : (numBinner .exact c).delta = .fin (R * (2 : ℚ) ^ (e - 9)) := by
    unfold numBinner
    simp only [hl, hh, FP.sub_fin, h5]
    rw [show FP.exact.rnd (h - l) = .fin (h - l) from rfl, FP.div_fin _ (by norm_num), hd3]; rfl
  have hmin : ∀ F, (numBinner F c).minValue = .fin l := fun _ => hl
  have hRq : (0 : ℚ) < R := by exact_mod_cast hR0
  constructor
  · intro n
    unfold Binner.representative
    rw [numBinner_len, numBinner_len, hmin, hmin, hdelta, hdelta']
    obtain ⟨i, hi⟩ : ∃ i, i = Min.min (n + 1) (512 - 1) := ⟨_, rfl⟩
    have hi' : i ≤ 511 := by omega
    rw [← hi]
    rw [FP.ofNat_eq _ (by omega), FP.ofNat_eq _ (by omega), FP.mul_fin, FP.mul_fin]
    have hmul : (i : ℚ) * (R * (2 : ℚ) ^ (e - 9)) = ((i * R : ℤ) : ℚ) * 2 ^ (e - 9) := by push_cast; ring
    have hiR0 : 0 ≤ (i : ℤ) * R := by positivity
    have hiR : (i : ℤ) * R ≤ 511 * 2 ^ 15 := by
      apply mul_le_mul (by omega) hR1 (by omega) (by norm_num)
    rw [hmul, FP.binary32_repr _ _ (by rw [abs_le]; constructor <;> omega) (by omega) (by omega),
      show FP.exact.rnd (((i * R : ℤ) : ℚ) * 2 ^ (e - 9)) = .fin (((i * R : ℤ) : ℚ) * 2 ^ (e - 9)) from rfl,
      FP.add_fin, FP.add_fin]
    have hsum : l + ((i * R : ℤ) : ℚ) * 2 ^ (e - 9) = ((512 * a + i * R : ℤ) : ℚ) * 2 ^ (e - 9) := by
      rw [hla', h9]; push_cast; ring
    have hbound : (i : ℤ) * R ≤ 511 * (b - a) := by
      rw [hR]; exact mul_le_mul_of_nonneg_right (by omega) (by omega)
    rw [hsum, FP.binary32_repr _ _ (by rw [abs_le]; constructor <;> omega) (by omega) (by omega)]
    rfl
  · intro v hvm hnan
    obtain ⟨k, hk, rfl⟩ := hv v (by simp [hvm]) hnan
    rw [abs_le] at hk
    have hδ : (R : ℚ) * 2 ^ (e - 9) ≠ 0 := by positivity
    rw [Binner.getBin_eq, Binner.getBin_eq, numBinner_len, numBinner_len, hmin, hmin, hdelta, hdelta', FP.sub_fin, FP.sub_fin,
      hdiff, FP.binary32_repr _ _ (by rw [abs_le]; constructor <;> omega) (by omega) (by omega),
      show FP.exact.rnd (((k - a : ℤ) : ℚ) * 2 ^ e) = .fin (((k - a : ℤ) : ℚ) * 2 ^ e) from rfl, FP.div_fin _ hδ, FP.div_fin _ hδ]
    have hq : ((k - a : ℤ) : ℚ) * 2 ^ e / (R * 2 ^ (e - 9)) = ((512 * (k - a) : ℤ) : ℚ) / (R : ℚ) := by
      rw [h9]; push_cast; field_simp
    rw [hq]
    exact Binner.binOf_round hR0 hR1

/-- With faithful bins, the mask of a candidate and the test of the split value agree. -/
theorem numCat_faithful {F : FP} {c : Column} {l h : ℚ} (hl : c.lo = .fin l) (hh : c.hi = .fin h) (hlt : l < h)
    (hF : Faithful F c) {v : Num} (hvm : v ∈ c.values)
    (hv : v ≠ .nan) {qs : List Nat} (hqs : qs.Pairwise (· < ·)) {b q : Nat} (hb : qs[b]? = some q) :
    numCat F c (qs.map fun q => Binner.representative F (numBinner F c) (q + 1)) v ≤ b ↔
      (510 ≤ q ∨ v.lt (Binner.representative F (numBinner F c) (q + 1)) = true) := by
  have := numCat_exact hl hh hlt hv hqs hb
  unfold numCat at this ⊢
  simp only [hF.1, hF.2 v hvm hv]
  exact this

end Dataset
end BitBoost
