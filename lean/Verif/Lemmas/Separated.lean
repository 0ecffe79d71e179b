import Verif.Lemmas.Fixed
import Verif.Lemmas.Round32
/-! # Columns in general position: the `f32` bins agree with the `f32` split values -/
namespace BitBoost
open Spec

namespace Dataset

/-- Masks and split values agree on the values of the column. -/
def Agree (F : FP) (c : Column) : Prop :=
  ∀ v ∈ c.values, v ≠ .nan → ∀ (qs : List Nat) (b q : Nat), qs.Pairwise (· < ·) → qs[b]? = some q →
    (numCat F c (qs.map fun q => Binner.representative F (numBinner F c) (q + 1)) v ≤ b ↔
      (510 ≤ q ∨ v.lt (Binner.representative F (numBinner F c) (q + 1)) = true))

theorem agree_faithful {F : FP} {c : Column} {l h : ℚ} (hl : c.lo = .fin l) (hh : c.hi = .fin h) (hlt : l < h)
    (hF : Faithful F c) : Agree F c :=
  fun _ hvm hv _ _ _ hqs hb => numCat_faithful hl hh hlt hF hvm hv hqs hb

/-- Masks and split values agree on one value. -/
theorem agree_at {F : FP} {c : Column} (r : Nat → ℚ)
    (hr : ∀ n, Binner.representative F (numBinner F c) (n + 1) = .fin (r (Min.min n 510)))
    (hmono : ∀ n m, n < m → m ≤ 510 → r n < r m) (v : Num) (qs : List Nat) (b q : Nat)
    (hqs : qs.Pairwise (· < ·)) (hb : qs[b]? = some q)
    (hbin : q < 510 → (Binner.getBin F (numBinner F c) v ≤ q ↔ v.lt (.fin (r q)) = true)) :
    (numCat F c (qs.map fun q => Binner.representative F (numBinner F c) (q + 1)) v ≤ b ↔
      (510 ≤ q ∨ v.lt (Binner.representative F (numBinner F c) (q + 1)) = true)) := by
  have hle : ∀ n m, n ≤ m → m ≤ 510 → r n ≤ r m := by
    intro n m h1 h2
    rcases h1.lt_or_eq with h | rfl
    · exact (hmono n m h h2).le
    · exact le_rfl
  unfold numCat
  have hmap : (qs.map fun q => Binner.representative F (numBinner F c) (q + 1)) =
      (qs.map fun q => r (Min.min q 510)).map .fin := by
    rw [List.map_map]
    exact List.map_congr_left fun q _ => hr q
  rw [hmap, countBelow_sorted _ b (r (Min.min q 510)), hr, hr, ← Bool.not_eq_true, Num.fin_lt_fin, not_lt]
  · by_cases h5 : 510 ≤ q
    · simp only [h5, true_or, iff_true]
      exact hle _ _ (by omega) (by omega)
    · simp only [h5, false_or]
      rw [Nat.min_eq_left (by omega : q ≤ 510), ← hbin (by omega)]
      constructor
      · intro h
        by_contra hc
        have := hmono q (Min.min (Binner.getBin F (numBinner F c) v) 510) (by omega) (by omega)
        linarith
      · intro h
        exact hle _ _ (by omega) (by omega)
  · rw [List.pairwise_map]
    refine hqs.imp ?_
    intro a b hab
    exact hle _ _ (by omega) (by omega)
  · rw [List.getElem?_map, hb]; rfl

/-- The rounded bin bounds of a column whose limits are not too close together: they are close to the exact ones and
increasing, and a value that is not too close to a bound is on the right side of it. -/
theorem bounds32 {c : Column} {l h M : ℚ} (hl : c.lo = .fin l) (hh : c.hi = .fin h) (hlM : |l| ≤ M) (hhM : |h| ≤ M)
    (hM : M ≤ 2 ^ 100) (hML : M / 512 ≤ h - l) (hL : 1 / 2 ^ 90 ≤ h - l) :
    ∃ r : Nat → ℚ, (∀ n, Binner.representative .binary32 (numBinner .binary32 c) (n + 1) = .fin (r (Min.min n 510))) ∧
      (∀ n m, n < m → m ≤ 510 → r n < r m) ∧
      (∀ q < 511, |r q - (l + ((q + 1 : ℕ) : ℚ) * ((h - l) / 512))| ≤ 16 * M / 2 ^ 24) ∧
      ∀ (x : ℚ) (q : ℕ), l ≤ x → x ≤ h → q < 510 → M / 2 ^ 19 ≤ |x - (l + ((q + 1 : ℕ) : ℚ) * ((h - l) / 512))| →
        (Binner.getBin .binary32 (numBinner .binary32 c) (.fin x) ≤ q ↔ (Num.fin x).lt (.fin (r q)) = true) := by
  obtain ⟨L, hLd⟩ : ∃ L, L = h - l := ⟨_, rfl⟩
  rw [← hLd] at hML hL ⊢
  rw [abs_le] at hlM hhM
  have hL2 : L ≤ 2 * M := by linarith
  norm_num at hL hM
  have hL0 : 0 < L := by linarith
  have h5 : FP.binary32.ofNat quantileNbins = .fin 512 := by
    rw [FP.ofNat_eq _ (by unfold quantileNbins; norm_num)]; unfold quantileNbins; norm_num
  obtain ⟨D, hD1, hD0, hD2, hD3⟩ := FP.binary32_err_pos hL0.le (by norm_num; linarith)
  norm_num at hD2 hD3
  have hDpos : 0 < D := by linarith
  obtain ⟨δ, hδ1, hδ0, hδ2, hδ3⟩ := FP.binary32_err_pos (q := D / 512) (by positivity) (by norm_num; linarith)
  norm_num at hδ2 hδ3
  have hδpos : 0 < δ := by linarith
  have hdelta : (numBinner .binary32 c).delta = .fin δ := by
    unfold numBinner
    simp only [hl, hh, FP.sub_fin, h5]
    rw [← hLd, hD1, FP.div_fin _ (by norm_num), hδ1]
  have hmin : (numBinner .binary32 c).minValue = .fin l := hl
  -- the rounded inner bounds
  have hrep : ∀ i : ℕ, 1 ≤ i → i ≤ 511 → ∃ r, FP.binary32.add (.fin l) (FP.binary32.mul (FP.binary32.ofNat i) (.fin δ)) = .fin r ∧
      |r - (l + i * (L / 512))| ≤ 16 * M / 2 ^ 24 := by
    intro i h1 h2
    have hi0 : (0 : ℚ) ≤ i := by positivity
    have hi5 : (i : ℚ) ≤ 511 := by exact_mod_cast h2
    rw [FP.ofNat_eq _ (by omega), FP.mul_fin]
    have hiD : (i : ℚ) * L ≤ 511 * L := mul_le_mul_of_nonneg_right hi5 hL0.le
    have hiL0 : 0 ≤ (i : ℚ) * L := by positivity
    obtain ⟨N, hN⟩ : ∃ N, N = (i : ℚ) * δ := ⟨_, rfl⟩
    have e1 : (i : ℚ) * D ≤ i * L * (16777217 / 16777216) + 511 / 2 ^ 150 := by
      have := mul_le_mul_of_nonneg_left hD3 hi0
      norm_num; linarith
    have e2 : i * L * (16777215 / 16777216) - 511 / 2 ^ 150 ≤ (i : ℚ) * D := by
      have := mul_le_mul_of_nonneg_left hD2 hi0
      norm_num; linarith
    have e3 : N ≤ (i * D) / 512 * (16777217 / 16777216) + 511 / 2 ^ 150 := by
      have := mul_le_mul_of_nonneg_left hδ3 hi0
      rw [hN]; norm_num; linarith
    have e4 : (i * D) / 512 * (16777215 / 16777216) - 511 / 2 ^ 150 ≤ N := by
      have := mul_le_mul_of_nonneg_left hδ2 hi0
      rw [hN]; norm_num; linarith
    norm_num at e1 e2 e3 e4
    rw [← hN]
    obtain ⟨P, hP1, hP0, hP2, hP3⟩ := FP.binary32_err_pos (q := N) (by rw [hN]; positivity) (by norm_num; linarith)
    norm_num at hP2 hP3
    rw [hP1, FP.add_fin]
    have hsum : |l + P| ≤ 4 * M := by rw [abs_le]; constructor <;> linarith
    obtain ⟨r, hr1, hr2⟩ := FP.binary32_err (q := l + P) (by norm_num; linarith)
    refine ⟨r, hr1, ?_⟩
    have hr3 : |r - (l + P)| ≤ 4 * M / 2 ^ 24 + 1 / 2 ^ 150 := by
      refine hr2.trans ?_
      have := div_le_div_of_nonneg_right hsum (show (0 : ℚ) ≤ 2 ^ 24 by norm_num)
      linarith
    rw [abs_le] at hr3 ⊢
    norm_num at hr3 ⊢
    constructor <;> linarith
  choose! r hr1 hr2 using hrep
  refine ⟨fun n => r (n + 1), ?_, ?_, fun q hq => hr2 (q + 1) (by omega) (by omega), ?_⟩
  · intro n
    unfold Binner.representative
    rw [numBinner_len, hmin, hdelta, show Min.min (n + 1) (512 - 1) = Min.min n 510 + 1 by omega]
    exact hr1 _ (by omega) (by omega)
  · intro n m hnm hm
    have a1 := hr2 (n + 1) (by omega) (by omega)
    have a2 := hr2 (m + 1) (by omega) (by omega)
    rw [abs_le] at a1 a2
    have hnm' : (n : ℚ) + 1 ≤ m := by exact_mod_cast hnm
    have : ((n : ℚ) + 1) * (L / 512) ≤ m * (L / 512) := mul_le_mul_of_nonneg_right hnm' (by positivity)
    push_cast at a1 a2
    norm_num at a1 a2
    linarith
  · intro x q hx1 hx2 hq a3
    have a1 := hr2 (q + 1) (by omega) (by omega)
    have hn0 : (0 : ℚ) ≤ ((q + 1 : ℕ) : ℚ) := by positivity
    have hn5 : ((q + 1 : ℕ) : ℚ) ≤ 511 := by exact_mod_cast (by omega : q + 1 ≤ 511)
    rw [Binner.getBin_eq, numBinner_len, hmin, hdelta, FP.sub_fin]
    obtain ⟨w, hw1, hw0, hw2, hw3⟩ := FP.binary32_err_pos (q := x - l) (by linarith) (by norm_num; linarith)
    norm_num at hw2 hw3
    rw [hw1, FP.div_fin _ hδpos.ne', Num.fin_lt_fin]
    -- bounds for `(q+1) * δ`
    obtain ⟨n, hn⟩ : ∃ n, n = ((q + 1 : ℕ) : ℚ) := ⟨_, rfl⟩
    rw [← hn] at a1 a3 hn0 hn5
    have hnL : n * L ≤ 511 * L := mul_le_mul_of_nonneg_right hn5 hL0.le
    have hnL0 : 0 ≤ n * L := by positivity
    obtain ⟨N, hN⟩ : ∃ N, N = n * δ := ⟨_, rfl⟩
    have e1 : n * D ≤ n * L * (16777217 / 16777216) + 511 / 2 ^ 150 := by
      have := mul_le_mul_of_nonneg_left hD3 hn0
      norm_num; linarith
    have e2 : n * L * (16777215 / 16777216) - 511 / 2 ^ 150 ≤ n * D := by
      have := mul_le_mul_of_nonneg_left hD2 hn0
      norm_num; linarith
    have e3 : N ≤ (n * D) / 512 * (16777217 / 16777216) + 511 / 2 ^ 150 := by
      have := mul_le_mul_of_nonneg_left hδ3 hn0
      rw [hN]; norm_num; linarith
    have e4 : (n * D) / 512 * (16777215 / 16777216) - 511 / 2 ^ 150 ≤ N := by
      have := mul_le_mul_of_nonneg_left hδ2 hn0
      rw [hN]; norm_num; linarith
    norm_num at e1 e2 e3 e4
    rw [abs_le] at a1
    norm_num at a1 a3
    rcases le_abs.1 a3 with a3 | a3
    · -- to the right of the bound
      have hge : n ≤ w / δ := by rw [le_div_iff₀ hδpos, ← hN]; linarith
      have h1 := FP.nat_le_rnd FP.binary32 (q := w / δ) (n := q + 1) (by omega) (by rw [← hn]; exact hge)
      have h2 := Binner.binOf_mono 512 h1
      rw [← hn, Binner.binOf_fin hn0 (by linarith)] at h2
      have h3 : ⌊n⌋.toNat = q + 1 := by rw [hn, Int.floor_natCast]; rfl
      rw [h3] at h2
      constructor
      · intro h; omega
      · intro h; exfalso; linarith
    · have hy0 : 0 ≤ w / δ := by positivity
      have hlt : w < N := by linarith
      have hyn : w / δ < n := by rw [div_lt_iff₀ hδpos, ← hN]; exact hlt
      obtain ⟨y, hy1, hy2, hy3, hy4⟩ := FP.binary32_err_pos (q := w / δ) hy0 (by norm_num; linarith)
      have hyy : y < n := by
        refine lt_of_le_of_lt hy4 ?_
        rw [← mul_lt_mul_iff_left₀ hδpos, ← hN, add_mul, mul_right_comm, div_mul_cancel₀ _ hδpos.ne']
        norm_num
        linarith
      rw [hy1, Binner.binOf_fin hy2 (by linarith)]
      have h3 : ⌊y⌋ < (q : ℤ) + 1 := by
        rw [Int.floor_lt]; push_cast at hn ⊢; linarith
      constructor
      · intro _; linarith
      · intro _; omega

theorem agree_separated {c : Column} (hs : Separated c) : Agree .binary32 c := by
  obtain ⟨l, h, M, hl, hh, hlM, hhM, hM, hML, hL, hv⟩ := hs
  obtain ⟨r, h1, h2, _, h4⟩ := bounds32 hl hh hlM hhM hM hML hL
  intro v hvm hvn qs b q hqs hb
  obtain ⟨x, rfl, hx1, hx2, hx3⟩ := hv v hvm hvn
  exact agree_at r h1 h2 _ qs b q hqs hb fun hq => h4 x q hx1 hx2 hq (hx3 (q + 1) (by omega) (by omega))

/-- A value that is not close to the split value is on the right side of it. -/
theorem agree_apart {c : Column} {M : ℚ} (hw : WideLimits c M) (v : Num) (hvm : v ∈ c.values) (hvn : v ≠ .nan)
    (qs : List Nat) (b q : Nat) (hqs : qs.Pairwise (· < ·)) (hb : qs[b]? = some q)
    (ha : q < 510 → Apart M v (Binner.representative .binary32 (numBinner .binary32 c) (q + 1))) :
    (numCat .binary32 c (qs.map fun q => Binner.representative .binary32 (numBinner .binary32 c) (q + 1)) v ≤ b ↔
      (510 ≤ q ∨ v.lt (Binner.representative .binary32 (numBinner .binary32 c) (q + 1)) = true)) := by
  obtain ⟨l, h, hl, hh, hlM, hhM, hM, hML, hL, hB⟩ := hw
  obtain ⟨r, h1, h2, h3, h4⟩ := bounds32 hl hh hlM hhM hM hML hL
  refine agree_at r h1 h2 _ qs b q hqs hb fun hq => ?_
  obtain ⟨x, y, rfl, hy, hxy⟩ := ha hq
  obtain ⟨b1, b2⟩ := hB _ hvm hvn
  rw [hl, Num.fin_le_fin] at b1
  rw [hh, Num.fin_le_fin] at b2
  refine h4 x q b1 b2 hq ?_
  rw [h1, Nat.min_eq_left (by omega : q ≤ 510)] at hy
  cases hy
  have h3' := h3 q (by omega)
  have hM0 : 0 ≤ M := (abs_nonneg l).trans hlM
  generalize l + ((q + 1 : ℕ) : ℚ) * ((h - l) / 512) = z at h3' ⊢
  have h5 := abs_sub_abs_le_abs_sub (x - r q) (x - z)
  rw [show x - r q - (x - z) = -(r q - z) by ring, abs_neg] at h5
  norm_num at h3' hxy ⊢
  linarith

end Dataset
end BitBoost
