import Verif.Lemmas.Faithful
import Verif.Lemmas.GainError
/-!
# The gains in single precision when the sums are exact

When the gradients are between -1 and 1 and all sums are exact, the only errors are those in the formula of the gain.
-/
namespace BitBoost
namespace Learner
open Spec Dataset

variable {cfg : Config} {ds : Dataset} {w N : Nat} {lo hi lambda : ℚ} {codes rows : List Nat} {gradients : List Num}

theorem gain32_true {sp sl M : ℚ} {n nl : Nat} {v : HistVal} (hlam : cfg.regLambda = .fin lambda)
    (h0 : 0 ≤ lambda) (h1 : lambda ≤ 2 ^ 60) (hv : v.gradSum = .fin sl) (hc : v.count = nl)
    (hnl : 1 ≤ nl) (hnn : nl < n) (hn2 : n < 2 ^ 32) (hM : (n : ℚ) ≤ M)
    (hsp : |sp| ≤ n) (hsl : |sl| ≤ nl) (hsr : |sp - sl| ≤ (n - nl : ℕ))
    (hsub : FP.binary32.sub (.fin sp) (.fin sl) = .fin (sp - sl)) :
    ∃ q, gain .binary32 cfg (.fin sp) n v = .fin q ∧
      |q - splitGain lambda sp n sl nl (sp - sl) (n - nl)| ≤ M / 2 ^ 18 := by
  have hnr : 1 ≤ n - nl := by omega
  have cast1 : (1 : ℚ) ≤ nl := by exact_mod_cast hnl
  have cast2 : (1 : ℚ) ≤ (n - nl : ℕ) := by exact_mod_cast hnr
  have cast5 : ((n - nl : ℕ) : ℚ) = n - nl := by push_cast [Nat.cast_sub hnn.le]; ring
  have cast6 : (n : ℚ) ≤ 2 ^ 32 := by exact_mod_cast hn2.le
  have one : ∀ {s : ℚ} {k : Nat}, 1 ≤ k → k ≤ n → |s| ≤ k →
      ∃ L, getLoss .binary32 cfg (.fin s) k = .fin L ∧ |L - leafLoss lambda s k| ≤ k / 2 ^ 20 + 1 / 2 ^ 147 ∧
        |leafLoss lambda s k| ≤ k / 2 := by
    intro s k hk hkn hs
    have hk1 : (1 : ℚ) ≤ k := by exact_mod_cast hk
    have hkn' : (k : ℚ) ≤ n := by exact_mod_cast hkn
    have b : (2 : ℚ) ^ 32 ≤ 2 ^ 62 := by norm_num
    obtain ⟨L, l1, l2⟩ := loss32 (cfg := cfg) (s := s) (n := k) hlam h0 h1 hk (by omega) (by linarith)
    refine ⟨L, l1, l2.trans ?_, ?_⟩
    · have : s ^ 2 / k ≤ k := by
        rw [div_le_iff₀ (by linarith), ← sq_abs, pow_two]
        exact mul_le_mul hs hs (abs_nonneg _) (by linarith)
      have := div_le_div_of_nonneg_right this (show (0 : ℚ) ≤ 2 ^ 20 by norm_num)
      linarith
    · have := leafLoss_abs (G := 1) h0 hk (by simpa using hs)
      simpa using this
  obtain ⟨Lp, p1, p2, p3⟩ := one (show 1 ≤ n by omega) le_rfl hsp
  obtain ⟨Ll, l1, l2, l3⟩ := one hnl hnn.le hsl
  obtain ⟨Lr, r1, r2, r3⟩ := one hnr (by omega) hsr
  rw [cast5] at r2 r3
  unfold splitGain
  generalize leafLoss lambda sp n = tp at *
  generalize leafLoss lambda sl nl = tl at *
  generalize leafLoss lambda (sp - sl) (n - nl) = tr at *
  have p2 := abs_le.1 p2
  have l2 := abs_le.1 l2
  have r2 := abs_le.1 r2
  have p3 := abs_le.1 p3
  have l3 := abs_le.1 l3
  have r3 := abs_le.1 r3
  have t1 : (1 : ℚ) / 2 ^ 147 ≤ 1 / 2 ^ 40 := by norm_num
  have t2 : (1 : ℚ) / 2 ^ 150 ≤ 1 / 2 ^ 40 := by norm_num
  have big : (2 : ℚ) ^ 32 * 8 ≤ 2 ^ 126 := by norm_num
  rw [cast5] at cast2
  obtain ⟨x, x1, x2⟩ := FP.step32 (q := Lp - Ll) (B := 2 * n) (by rw [abs_le]; constructor <;> linarith) (by linarith)
  have x3 := abs_le.1 x2
  obtain ⟨y, y1, y2⟩ := FP.step32 (q := x - Lr) (B := 4 * n) (by rw [abs_le]; constructor <;> linarith) (by linarith)
  have y3 := abs_le.1 y2
  refine ⟨y, ?_, ?_⟩
  · unfold gain
    rw [hv, hc, hsub, subU32_of_le hnn.le hn2, p1, l1, r1, FP.sub_fin, x1, FP.sub_fin, y1]
  · rw [abs_le]
    constructor <;> linarith

theorem abs_dsum_one (h : ∀ i < N, |decode w lo hi (codes.getD i 0)| ≤ 1) : ∀ {ex : List Nat}, (∀ i ∈ ex, i < N) →
    |dsum w lo hi codes ex| ≤ ex.length
  | [], _ => by simp [dsum]
  | i :: ex, hlt => by
      have ih := abs_dsum_one h (ex := ex) fun j hj => hlt j (by simp [hj])
      have h1 := h i (hlt i (by simp))
      unfold dsum at ih ⊢
      simp only [List.map_cons, List.sum_cons, List.length_cons]
      have := abs_add_le (decode w lo hi (codes.getD i 0)) (ex.map fun i => decode w lo hi (codes.getD i 0)).sum
      push_cast
      linarith

theorem close_faithful (hf : Faithful .binary32 w lo hi rows.length) (hlam : cfg.regLambda = .fin lambda) (h0 : 0 ≤ lambda)
    (h1 : lambda ≤ 2 ^ 60) (hmin : 1 ≤ cfg.minExamplesLeaf) (hcle : ∀ i, codes.getD i 0 ≤ 2 ^ w - 1)
    (hcodes : ∀ i < rows.length, codes.getD i 0 =
      (BitSlice.discretise .binary32 w (gradients.getD (rows.getD i 0) (.fin 0)) (.fin lo) (.fin hi)).toNat)
    (hone : ∀ i < rows.length, |decode w lo hi (codes.getD i 0)| ≤ 1)
    {r : RefNode} (hok : RefOk ds r) (hsum : SumInv ds w lo hi codes r) (hnd : r.examples.Nodup)
    (hlt : ∀ i ∈ r.examples, i < rows.length) :
    Close .binary32 cfg ds w lo hi lambda gradients rows (rows.length / 2 ^ 18) r := by
  refine ⟨fun f b m hc => ?_, fun f b m v hc hv ha hcnt => ?_⟩
  · obtain ⟨v, hv, _⟩ := hsum.hist f b m hc
    exact ⟨v, hv⟩
  · have cardE : r.examples.toFinset.card = r.examples.length := by rw [List.toFinset_card_of_nodup hnd]
    obtain ⟨v', hv', hs'⟩ := hsum.hist f b m hc
    rw [hv] at hv'
    cases hv'
    obtain ⟨c1, c2⟩ := card_split hnd rfl m
    obtain ⟨a1, a2⟩ := ha
    have hsm := hok.small
    have hle : r.examples.length ≤ rows.length := by
      have : r.examples ⊆ List.range rows.length := fun i hi => List.mem_range.2 (hlt i hi)
      have := (hnd.subperm this).length_le
      rwa [List.length_range] at this
    have hlt2 : ∀ p : Nat → Bool, ∀ i ∈ r.examples.filter p, i < rows.length :=
      fun p i hi => hlt i (List.mem_of_mem_filter hi)
    have d1 := gradientSum_eq (lo := lo) (hi := hi) hcodes hnd hlt
    have d2 := gradientSum_eq (lo := lo) (hi := hi) hcodes (hnd.filter (bitAt m)) (hlt2 _)
    have d3 := gradientSum_eq (lo := lo) (hi := hi) hcodes (hnd.filter fun i => !bitAt m i) (hlt2 _)
    rw [inside_eq rfl] at d2
    rw [outside_eq rfl] at d3
    have b1 := abs_dsum_one hone hlt
    have b2 := abs_dsum_one hone (hlt2 (bitAt m))
    have b3 := abs_dsum_one hone (hlt2 fun i => !bitAt m i)
    rw [filter_compl] at b3
    have hd := dsum_filter (w := w) lo hi codes (bitAt m) r.examples
    have hd' : dsum w lo hi codes (r.examples.filter fun i => !bitAt m i) =
        dsum w lo hi codes r.examples - dsum w lo hi codes (r.examples.filter (bitAt m)) := by linarith
    unfold maskGain
    rw [← d1, ← d2, ← d3, c1, c2, cardE, hsum.total, hok.count, hd']
    rw [hd'] at b3
    exact gain32_true hlam h0 h1 hs' hcnt (by omega) (by omega) hsm (by exact_mod_cast hle) b1 b2 b3
      (hf.dsub hcle hle ((List.length_filter_le _ _).trans hle))

end Learner
end BitBoost
