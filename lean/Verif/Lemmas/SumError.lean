import Verif.Lemmas.Best
import Verif.Lemmas.Round32
/-!
# The error of gradient sums
-/
namespace BitBoost
open Spec Dataset
namespace Learner

variable {F : FP} {cfg : Config} {ds : Dataset} {w : Nat} {lo hi G : ℚ} {codes : List Nat}

theorem abs_decode (hw : validWidth w) (h1 : |lo| ≤ G) (h2 : |hi| ≤ G) {c : Nat} (hc : c ≤ 2 ^ w - 1) :
    |decode w lo hi c| ≤ G := by
  have hmv : (0 : ℚ) < ((2 ^ w - 1 : ℕ) : ℚ) := by
    rcases hw with rfl | rfl | rfl | rfl <;> norm_num
  have hc' : (c : ℚ) ≤ ((2 ^ w - 1 : ℕ) : ℚ) := by exact_mod_cast hc
  have h0 : (0 : ℚ) ≤ c / ((2 ^ w - 1 : ℕ) : ℚ) := by positivity
  have h3 : (c : ℚ) / ((2 ^ w - 1 : ℕ) : ℚ) ≤ 1 := by rw [div_le_one hmv]; exact hc'
  have e : decode w lo hi c = (1 - c / ((2 ^ w - 1 : ℕ) : ℚ)) * lo + c / ((2 ^ w - 1 : ℕ) : ℚ) * hi := by
    unfold decode; ring
  rw [e]
  generalize (c : ℚ) / ((2 ^ w - 1 : ℕ) : ℚ) = x at h0 h3
  rw [abs_le] at h1 h2 ⊢
  constructor <;> nlinarith

theorem abs_dsum (hw : validWidth w) (h1 : |lo| ≤ G) (h2 : |hi| ≤ G) (hc : ∀ i, codes.getD i 0 ≤ 2 ^ w - 1) :
    ∀ ex : List Nat, |dsum w lo hi codes ex| ≤ ex.length * G
  | [] => by simp [dsum]
  | i :: ex => by
      have ih := abs_dsum hw h1 h2 hc ex
      have := abs_decode hw h1 h2 (hc i)
      unfold dsum at ih ⊢
      simp only [List.map_cons, List.sum_cons, List.length_cons]
      push_cast
      calc _ ≤ _ := abs_add_le _ _
        _ ≤ _ := add_le_add this ih
        _ = _ := by ring

theorem codes_sum_le (hc : ∀ i, codes.getD i 0 ≤ 2 ^ w - 1) : ∀ ex : List Nat,
    (ex.map fun i => codes.getD i 0).sum ≤ ex.length * (2 ^ w - 1)
  | [] => by simp
  | i :: ex => by
      have ih := codes_sum_le hc ex
      have := hc i
      simp only [List.map_cons, List.sum_cons, List.length_cons]
      calc _ ≤ (2 ^ w - 1) + ex.length * (2 ^ w - 1) := add_le_add this ih
        _ = _ := by ring

/-- How accurate the arithmetic is on the numbers that occur: results up to `M` are off by at most `δ`, the scaled sum of
the codes of up to `N` examples by at most `β`. -/
structure Accurate (F : FP) (w : Nat) (lo hi : ℚ) (N : Nat) (M δ β : ℚ) : Prop where
  rnd : ∀ q, |q| ≤ M → ∃ r, F.rnd q = .fin r ∧ |r - q| ≤ δ
  proj : ∀ s n : Nat, n ≤ N → s ≤ n * (2 ^ w - 1) → ∃ r,
    BitSlice.linproj F w (F.ofNat s) (F.ofNat n) (.fin lo) (.fin hi) = .fin r ∧
      |r - ((s : ℚ) / ((2 ^ w - 1 : ℕ) : ℚ) * (hi - lo) + (n : ℚ) * lo)| ≤ β

/-- How deep a node is. -/
def level (x : Nat) : Nat := Nat.log2 (x + 1)

theorem level_left (x : Nat) : level (2 * x + 1) = level x + 1 := by
  unfold level
  rw [Nat.log2_def, if_pos (by omega), show (2 * x + 1 + 1) / 2 = x + 1 by omega]

theorem level_right (x : Nat) : level (2 * x + 2) = level x + 1 := by
  unfold level
  rw [Nat.log2_def, if_pos (by omega), show (2 * x + 2 + 1) / 2 = x + 1 by omega]

/-- The sums of a node are right up to an error that grows with its level. -/
structure SumErr (ds : Dataset) (w : Nat) (lo hi : ℚ) (codes : List Nat) (N : Nat) (E : ℚ) (r : RefNode) : Prop where
  len : r.examples.length ≤ N
  total : ∃ s, r.gradSum = .fin s ∧ |s - dsum w lo hi codes r.examples| ≤ ((level r.nodeId : ℚ) + 1) ^ 2 * E
  hist : ∀ f b m, Candidate ds f b m → ∃ v s, histAt r.hists f b = .ok v ∧ v.gradSum = .fin s ∧
    |s - dsum w lo hi codes (r.examples.filter (bitAt m))| ≤ ((level r.nodeId : ℚ) + 1) * E

variable {N D : Nat} {M δ β E : ℚ}

theorem refHist_err (hw : validWidth w) (hacc : Accurate F w lo hi N M δ β) (h1 : |lo| ≤ G) (h2 : |hi| ≤ G)
    (hmin : 1 ≤ cfg.minExamplesLeaf) (h0 : 0 ≤ β)
    (hc : ∀ i, codes.getD i 0 ≤ 2 ^ w - 1) {ex : List Nat} (hex : ex.length ≤ N) (m : Blocks) :
    ∃ s, (refHist F cfg w (.fin lo, .fin hi) codes ex m).gradSum = .fin s ∧
      |s - dsum w lo hi codes (ex.filter (bitAt m))| ≤ β + ((cfg.minExamplesLeaf : ℚ) - 1) * G := by
  have hG : 0 ≤ G := (abs_nonneg _).trans h1
  have hm1 : (0 : ℚ) ≤ (cfg.minExamplesLeaf : ℚ) - 1 := by
    have : (1 : ℚ) ≤ cfg.minExamplesLeaf := by exact_mod_cast hmin
    linarith
  unfold refHist
  simp only
  split
  · rename_i h
    refine ⟨0, rfl, ?_⟩
    have h3 := abs_dsum hw h1 h2 hc (ex.filter (bitAt m))
    have h4 : ((ex.filter (bitAt m)).length : ℚ) + 1 ≤ cfg.minExamplesLeaf := by exact_mod_cast h
    rw [zero_sub, abs_neg]
    nlinarith
  · simp only
    obtain ⟨r, h3, h4⟩ := hacc.proj _ _ ((List.length_filter_le (bitAt m) ex).trans hex) (codes_sum_le (w := w) hc _)
    refine ⟨r, h3, ?_⟩
    rw [dsum_eq]
    have := mul_nonneg hm1 hG
    linarith

theorem sumErr_root (hw : validWidth w) (hacc : Accurate F w lo hi N M δ β) (h1 : |lo| ≤ G) (h2 : |hi| ≤ G)
    (hmin : 1 ≤ cfg.minExamplesLeaf) (h0 : 0 ≤ β) (hE : β + ((cfg.minExamplesLeaf : ℚ) - 1) * G ≤ E)
    (hc : ∀ i, codes.getD i 0 ≤ 2 ^ w - 1) {root : RefNode} (hcl : codes.length = ds.nactiveExamples)
    (hN : ds.nactiveExamples ≤ N)
    (h : refRoot F cfg ds w (.fin lo, .fin hi) codes = .ok root) : SumErr ds w lo hi codes N E root := by
  have hG : 0 ≤ G := (abs_nonneg _).trans h1
  have hm1 : (0 : ℚ) ≤ (cfg.minExamplesLeaf : ℚ) - 1 := by
    have : (1 : ℚ) ≤ cfg.minExamplesLeaf := by exact_mod_cast hmin
    linarith
  unfold refRoot at h
  obtain ⟨hs, e, h⟩ := Out.bind_eq_ok.1 h
  simp only [Out.pure_eq, Out.ok.injEq] at h
  subst h
  have hl : level 0 = 0 := by decide
  refine ⟨by simpa using hN, ?_, fun f b m hcd => ?_⟩
  · simp only [hl]
    have : (List.range ds.nactiveExamples).map (fun i => codes.getD i 0) = codes := by
      rw [← hcl]
      apply List.ext_getElem?
      intro i
      rw [List.getElem?_map]
      by_cases hi : i < codes.length
      · rw [List.getElem?_range hi, Option.map_some, List.getD_eq_getElem?_getD, List.getElem?_eq_getElem hi]; rfl
      · rw [List.getElem?_eq_none (by rw [List.length_range]; omega), List.getElem?_eq_none (by omega)]; rfl
    have hle := codes_sum_le (w := w) hc (List.range ds.nactiveExamples)
    rw [this, List.length_range] at hle
    obtain ⟨r, h3, h4⟩ := hacc.proj _ _ hN hle
    refine ⟨r, h3, ?_⟩
    rw [dsum_eq, this, List.length_range]
    have := mul_nonneg hm1 hG
    rw [Nat.cast_zero, zero_add, one_pow, one_mul]
    linarith
  · obtain ⟨s, h3, h4⟩ := refHist_err hw hacc h1 h2 hmin h0 hc (ex := List.range ds.nactiveExamples)
      (by simpa using hN) m
    refine ⟨_, s, refHists_cand e hcd, h3, ?_⟩
    simp only [hl]
    rw [Nat.cast_zero, zero_add, one_mul]
    linarith

theorem sumErr_children (hw : validWidth w) (hacc : Accurate F w lo hi N M δ β) (h1 : |lo| ≤ G) (h2 : |hi| ≤ G)
    (hmin : 1 ≤ cfg.minExamplesLeaf) (h0 : 0 ≤ β) (hδ : 0 ≤ δ) (hE : β + ((cfg.minExamplesLeaf : ℚ) - 1) * G + δ ≤ E)
    (hM : (N : ℚ) * G + ((D : ℚ) + 1) ^ 2 * E ≤ M)
    (hc : ∀ i, codes.getD i 0 ≤ 2 ^ w - 1) {n : RefNode} {s : Split} {ch : RefNode × RefNode}
    (hn : SumErr ds w lo hi codes N E n) (hD : level n.nodeId < D)
    (hs : findBestSplit F cfg ds n.gradSum n.exampleCount n.hists = .ok s) (hne : s.crit.isNone = false)
    (h : refChildren F cfg ds w (.fin lo, .fin hi) codes n s = .ok ch) :
    SumErr ds w lo hi codes N E ch.1 ∧ SumErr ds w lo hi codes N E ch.2 := by
  have hG : 0 ≤ G := (abs_nonneg _).trans h1
  have hm1 : (0 : ℚ) ≤ (cfg.minExamplesLeaf : ℚ) - 1 := by
    have : (1 : ℚ) ≤ cfg.minExamplesLeaf := by exact_mod_cast hmin
    linarith
  have hmG := mul_nonneg hm1 hG
  have hE0 : 0 ≤ E := by linarith
  obtain ⟨l, m, hl, e1, e2, e3, ⟨i1, x1, s1, k1⟩, i2, x2, s2, k2⟩ := refChildren_parts h
  obtain ⟨fs, js, v, hfs, hjs, hmem, hv, _⟩ := findBestSplit_some hs hne
  have hcand : Candidate ds s.crit.featureId s.splitId m := by
    obtain ⟨a1, a2⟩ := (mem_histJobs hjs _ _).1 hmem
    exact ⟨⟨fs, hfs, a1⟩, a2, e2⟩
  obtain ⟨v', sl, hv', hsl, herr⟩ := hn.hist _ _ _ hcand
  rw [e1] at hv'
  cases hv'
  obtain ⟨sp, hsp, hperr⟩ := hn.total
  have hL : (level n.nodeId : ℚ) + 1 ≤ D := by exact_mod_cast hD
  have hL0 : (0 : ℚ) ≤ level n.nodeId := by positivity
  have l1 : level ch.1.nodeId = level n.nodeId + 1 := by rw [i1, level_left]
  have l2 : level ch.2.nodeId = level n.nodeId + 1 := by rw [i2, level_right]
  have hlen1 : ch.1.examples.length ≤ N := by rw [x1]; exact (List.length_filter_le _ _).trans hn.len
  have hlen2 : ch.2.examples.length ≤ N := by rw [x2]; exact (List.length_filter_le _ _).trans hn.len
  have hbound : ∀ ex : List Nat, ex.length ≤ N → |dsum w lo hi codes ex| ≤ N * G := by
    intro ex hex
    refine (abs_dsum hw h1 h2 hc ex).trans ?_
    have : (ex.length : ℚ) ≤ N := by exact_mod_cast hex
    exact mul_le_mul_of_nonneg_right this hG
  have A1 : ((level n.nodeId : ℚ) + 1) * E ≤ ((level n.nodeId : ℚ) + 1 + 1) ^ 2 * E :=
    mul_le_mul_of_nonneg_right (by nlinarith) hE0
  have A2 : ((level n.nodeId : ℚ) + 1) ^ 2 * E + ((level n.nodeId : ℚ) + 1) * E + E ≤
      ((level n.nodeId : ℚ) + 1 + 1) ^ 2 * E := by
    have := mul_le_mul_of_nonneg_right (a := E)
      (show ((level n.nodeId : ℚ) + 1) ^ 2 + ((level n.nodeId : ℚ) + 1) + 1 ≤ ((level n.nodeId : ℚ) + 1 + 1) ^ 2 by nlinarith)
      hE0
    linarith
  have A3 : ((level n.nodeId : ℚ) + 1) ^ 2 * E + ((level n.nodeId : ℚ) + 1) * E + E ≤ ((D : ℚ) + 1) ^ 2 * E :=
    A2.trans (mul_le_mul_of_nonneg_right (by nlinarith) hE0)
  have A4 : ((level n.nodeId : ℚ) + 1) * E + E = ((level n.nodeId : ℚ) + 1 + 1) * E := by ring
  have A5 : 0 ≤ ((level n.nodeId : ℚ) + 1) ^ 2 * E := by positivity
  have A6 : 0 ≤ ((level n.nodeId : ℚ) + 1) * E := by positivity
  constructor
  · refine ⟨hlen1, ⟨sl, by rw [s1, hsl], ?_⟩, fun f b m' hcd => ?_⟩
    · rw [l1, x1]
      push_cast
      exact herr.trans A1
    · obtain ⟨sb, h3, h4⟩ := refHist_err hw hacc h1 h2 hmin h0 hc hlen1 m'
      refine ⟨_, sb, by rw [k1]; exact refHists_cand e3 hcd, by rw [← x1]; exact h3, ?_⟩
      rw [l1]
      push_cast
      linarith
  · refine ⟨hlen2, ?_, fun f b m' hcd => ?_⟩
    · have hsum := dsum_filter (w := w) lo hi codes (bitAt m) n.examples
      have hb := hbound _ hlen2
      rw [x2] at hb
      rw [abs_le] at hperr herr hb
      have hle : |sp - sl| ≤ M := by
        rw [abs_le]
        constructor <;> linarith
      obtain ⟨r, hr, hrerr⟩ := hacc.rnd _ hle
      refine ⟨r, by rw [s2, hsp, hsl, FP.sub_fin, hr], ?_⟩
      rw [l2, x2]
      push_cast
      rw [abs_le] at hrerr ⊢
      constructor <;> linarith
    · obtain ⟨y, sy, hy, hys, hyerr⟩ := hn.hist f b m' hcd
      obtain ⟨sb, h3, h4⟩ := refHist_err hw hacc h1 h2 hmin h0 hc hlen1 m'
      have hsum := dsum_filter (w := w) lo hi codes (bitAt m) (n.examples.filter (bitAt m'))
      have c1 : (n.examples.filter (bitAt m')).filter (bitAt m) = (n.examples.filter (bitAt m)).filter (bitAt m') := by
        rw [List.filter_filter, List.filter_filter]
        congr 1
        funext i
        exact Bool.and_comm _ _
      have c2 : (n.examples.filter (bitAt m')).filter (fun i => !bitAt m i) =
          (n.examples.filter fun i => !bitAt m i).filter (bitAt m') := by
        rw [List.filter_filter, List.filter_filter]
        congr 1
        funext i
        exact Bool.and_comm _ _
      rw [c1, c2] at hsum
      have hb := hbound (ch.2.examples.filter (bitAt m')) ((List.length_filter_le _ _).trans hlen2)
      rw [x2] at hb
      rw [x1] at h4 h3
      rw [abs_le] at hyerr h4 hb
      have hle : |sy - sb| ≤ M := by
        rw [abs_le]
        constructor <;> linarith
      obtain ⟨r, hr, hrerr⟩ := hacc.rnd _ hle
      refine ⟨_, r, by rw [k2]; exact histAt_sub_ok hy (refHists_cand e3 hcd), ?_, ?_⟩
      · unfold HistVal.sub
        simp only
        rw [hys, h3, FP.sub_fin, hr]
      · rw [l2, x2]
        push_cast
        rw [abs_le] at hrerr ⊢
        constructor <;> linarith

/-- All nodes that ever get on the stack, down to level `D`. -/
theorem sumErr_all {sc : List (List Nat)} {o : Objective} {targets : List Num} {rows : List Nat}
    (hw : validWidth w) (hacc : Accurate F w lo hi N M δ β) (h1 : |lo| ≤ G) (h2 : |hi| ≤ G)
    (hmin : 1 ≤ cfg.minExamplesLeaf) (h0 : 0 ≤ β) (hδ : 0 ≤ δ) (hE : β + ((cfg.minExamplesLeaf : ℚ) - 1) * G + δ ≤ E)
    (hM : (N : ℚ) * G + ((D : ℚ) + 1) ^ 2 * E ≤ M)
    (hc : ∀ i, codes.getD i 0 ≤ 2 ^ w - 1) (hb : o.bounds = (.fin lo, .fin hi))
    (hr : RowsOk ds rows) (htgt : target ds.data = .ok targets) (hpos : 0 < ds.nactiveExamples)
    (hn2 : ds.nactiveExamples < 2 ^ 32) (hcl : codes.length = ds.nactiveExamples) (hN : ds.nactiveExamples ≤ N)
    {st : RefState} (h : RefReached F cfg ds sc w codes o st) :
    ∀ n ∈ st.stack, level n.nodeId ≤ D → SumErr ds w lo hi codes N E n := by
  refine refReached_nodes (P := fun n => level n.nodeId ≤ D → SumErr ds w lo hi codes N E n) hpos hr htgt hmin hn2 ?_ ?_ h
  · intro root hroot _
    rw [hb] at hroot
    exact sumErr_root hw hacc h1 h2 hmin h0 (by linarith) hc hcl hN hroot
  · intro n s ch hn _ hs hne hch
    rw [hb] at hch
    obtain ⟨_, _, _, _, _, _, ⟨i1, _⟩, i2, _⟩ := refChildren_parts hch
    rw [i1, i2, level_left, level_right]
    refine ⟨fun hl => ?_, fun hl => ?_⟩
    · exact (sumErr_children hw hacc h1 h2 hmin h0 hδ hE hM hc (hn (by omega)) (by omega) hs hne hch).1
    · exact (sumErr_children hw hacc h1 h2 hmin h0 hδ hE hM hc (hn (by omega)) (by omega) hs hne hch).2

theorem accurate_exact (hw : validWidth w) (lo hi : ℚ) (N : Nat) (M : ℚ) : Accurate .exact w lo hi N M 0 0 where
  rnd q _ := ⟨q, rfl, by simp⟩
  proj s n _ _ := ⟨_, linproj_exact hw lo hi s n, by simp⟩

theorem accurate32 (hw : validWidth w) (h1 : |lo| ≤ G) (h2 : |hi| ≤ G) (hG1 : 1 / 2 ^ 100 ≤ G) (hG2 : G ≤ 2 ^ 60)
    (hN1 : 1 ≤ N) (hN2 : N ≤ 2 ^ 32) (hM : M ≤ 2 ^ 126) :
    Accurate .binary32 w lo hi N M (M / 2 ^ 24 + 1 / 2 ^ 150) ((N : ℚ) * G / 2 ^ 19) where
  rnd _ h := FP.step32 h hM
  proj s n hn hs := FP.proj32 hw h1 h2 hG1 hG2 hN1 hN2 s n hn hs

end Learner
end BitBoost
