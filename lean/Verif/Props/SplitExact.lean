import Verif.Lemmas.GainFaithful
import Verif.Spec.TrueGain
import Verif.Props.Split
import Verif.Props.Objective
/-!
# C42, C43: gradient sums without error in single precision

For the hinge loss (two bits, as its objective demands) and the absolute loss with one bit, discretising loses nothing and
the sums are whole numbers: the learner's gradient sums, computed in `f32`, are exactly the sums of the gradients.
-/
namespace BitBoost.Props
open BitBoost Spec Dataset Learner

private theorem sums_faithful (F : FP) (cfg : Config) (d : Data) (rng : Rng) (k : Nat) (ds : Dataset)
    (hds : Updated F cfg d rng k ds) (rows : List Nat) (hrows : Active ds rows) (hd : Rectangular d)
    (hsize : rows.length ≤ 2 ^ 32 - 256) (hmin : cfg.minExamplesLeaf = 1)
    (o : Objective) (w : Nat) (hw : width cfg = .ok w) (lo hi : ℚ) (hb : o.bounds = (.fin lo, .fin hi))
    (hf : Faithful F w lo hi rows.length)
    (st : State) (hst : Training F cfg ds ds.supercats w o st) :
    ∃ msk, SplitMasks F ds st.tree msk ∧ ∀ n ∈ st.stack,
      n.gradSum = .fin (gradientSum F w lo hi o.gradients rows (examplesAt st.tree msk rows.length n.nodeId)) ∧
      ∀ f b m, Candidate ds f b m → ∃ v, histAt n.hists f b = .ok v ∧
        v.gradSum = .fin (gradientSum F w lo hi o.gradients rows
          (inside (examplesAt st.tree msk rows.length n.nodeId) m)) := by
  obtain ⟨ps, codes, rst, targets, done, msk, h1, h2, h3, h4, h5, htgt, hinv⟩ :=
    split_reach F cfg d rng k ds hds rows hrows hd hsize (by omega) o w hw hst
  have hr := rowsOk hds hrows
  have hn2 : ds.nactiveExamples < 2 ^ 32 := by rw [← hr.len]; omega
  rw [h5.tree]
  refine ⟨msk, hinv.parts.tests, fun n hn => ?_⟩
  obtain ⟨r, hrm, hnr⟩ := forall₂_left h5.stack hn
  have hpm : (r.nodeId, r.examples) ∈ done ++ open' rst := by
    rw [List.mem_append]
    exact Or.inr (List.mem_map.2 ⟨r, hrm, rfl⟩)
  obtain ⟨hnd, hE⟩ := parts_examples hinv.parts hpm
  simp only at hnd hE
  rw [← hr.len] at hE
  obtain ⟨hcl, hcodes⟩ := codes_get hrows h1 h2
  rw [hb] at hcodes
  have hlt : ∀ i ∈ r.examples, i < rows.length := by
    intro i hi'
    rw [hr.len]
    exact hinv.parts.lt hpm hi'
  have hcle : ∀ i, codes.getD i 0 ≤ 2 ^ w - 1 := by
    intro i
    by_cases hi' : i < rows.length
    · rw [hcodes i hi']
      exact C15_code_in_range_any F (width_valid hw) _ _ _
    · rw [List.getD_eq_getElem?_getD, List.getElem?_eq_none (by omega)]
      exact Nat.zero_le _
  have hsum := sumFaith_all hf hmin hcle hb hr htgt h3 hn2 (by rw [hcl, hr.len]) (by rw [hr.len]) h4 r hrm
  rw [hnr.id, hnr.sum, hnr.hists, ← hE]
  refine ⟨?_, fun f b m hc => ?_⟩
  · rw [hsum.total, gradientSum_eq hcodes hnd hlt]
  · obtain ⟨v, hv, hs⟩ := hsum.hist f b m hc
    refine ⟨v, hv, ?_⟩
    rw [hs, gradientSum_eq hcodes (hnd.filter _) (fun i hi' => hlt i (List.mem_of_mem_filter hi')), inside_eq rfl]

private theorem gradientSum_true {F : FP} {w : Nat} {lo hi : ℚ} {gradients : List Num} {rows : List Nat} {g : Nat → ℚ}
    {P : ℚ → Prop} (hd : ∀ q, P q → discretised F w lo hi (.fin q) = q)
    (hg : ∀ r ∈ rows, gradients[r]? = some (.fin (g r)) ∧ P (g r)) {E : Finset Nat} (hE : ∀ i ∈ E, i < rows.length) :
    gradientSum F w lo hi gradients rows E = ∑ i ∈ E, g (rows.getD i 0) := by
  unfold gradientSum
  refine Finset.sum_congr rfl fun i hi => ?_
  have hlt := hE i hi
  have hmem : rows.getD i 0 ∈ rows := by
    rw [List.getD_eq_getElem?_getD, List.getElem?_eq_getElem hlt]
    exact List.getElem_mem hlt
  obtain ⟨h1, h2⟩ := hg _ hmem
  have h3 : gradients.getD (rows.getD i 0) (.fin 0) = .fin (g (rows.getD i 0)) := by
    rw [List.getD_eq_getElem?_getD, h1]; rfl
  rw [h3]
  exact hd _ h2

theorem examplesAt_lt {t : Tree} {msk : Nat → Blocks} {N x : Nat} : ∀ i ∈ examplesAt t msk N x, i < N := by
  intro i hi
  unfold examplesAt at hi
  simp only [Finset.mem_filter, Finset.mem_range] at hi
  exact hi.1

theorem inside_lt {t : Tree} {msk : Nat → Blocks} {N x : Nat} {m : Blocks} :
    ∀ i ∈ inside (examplesAt t msk N x) m, i < N := by
  intro i hi
  unfold inside at hi
  simp only [Finset.mem_filter] at hi
  exact examplesAt_lt i hi.1

theorem hinge_discretised {q : ℚ} (h : q = -1 ∨ q = 0 ∨ q = 1) : discretised .binary32 2 (-1) 2 (.fin q) = q := by
  rcases h with rfl | rfl | rfl <;> decide +kernel

theorem unit_discretised {q : ℚ} (h : q = -1 ∨ q = 1) : discretised .binary32 1 (-1) 1 (.fin q) = q := by
  rcases h with rfl | rfl <;> decide +kernel

/-- Hinge loss in single precision, with its two bits per gradient, `min_examples_leaf = 1` and at most `2 ^ 21` active
examples. `g r` is the gradient of row `r`, which is -1, 0 or 1 (`C48_hinge`). At every node the learner has on its stack
the gradient sum is exactly the sum of the gradients of the examples of the node, and the histogram of every candidate has
exactly the sum of the gradients of those of them that are in the mask of the candidate. -/
theorem C42_sums_hinge_f32 (cfg : Config) (d : Data) (rng : Rng) (k : Nat) (ds : Dataset)
    (hds : Updated .binary32 cfg d rng k ds) (rows : List Nat) (hrows : Active ds rows) (hd : Rectangular d)
    (hsize : rows.length ≤ 2 ^ 21) (hmin : cfg.minExamplesLeaf = 1)
    (o : Objective) (hk : o.kind = .hinge) (hw : width cfg = .ok 2) (g : Nat → ℚ)
    (hg : ∀ r ∈ rows, o.gradients[r]? = some (.fin (g r)) ∧ (g r = -1 ∨ g r = 0 ∨ g r = 1))
    (st : State) (hst : Training .binary32 cfg ds ds.supercats 2 o st) :
    ∃ msk, SplitMasks .binary32 ds st.tree msk ∧ ∀ n ∈ st.stack,
      n.gradSum = .fin (∑ i ∈ examplesAt st.tree msk rows.length n.nodeId, g (rows.getD i 0)) ∧
      ∀ f b m, Candidate ds f b m → ∃ v, histAt n.hists f b = .ok v ∧
        v.gradSum = .fin (∑ i ∈ inside (examplesAt st.tree msk rows.length n.nodeId) m, g (rows.getD i 0)) := by
  obtain ⟨msk, h1, h2⟩ := sums_faithful .binary32 cfg d rng k ds hds rows hrows hd (by omega) hmin o 2 hw (-1) 2
    (by simp [Objective.bounds, hk]) (faithful_hinge hsize) st hst
  refine ⟨msk, h1, fun n hn => ?_⟩
  obtain ⟨h3, h4⟩ := h2 n hn
  refine ⟨?_, fun f b m hc => ?_⟩
  · rw [h3, gradientSum_true (fun q => hinge_discretised) hg examplesAt_lt]
  · obtain ⟨v, h5, h6⟩ := h4 f b m hc
    exact ⟨v, h5, by rw [h6, gradientSum_true (fun q => hinge_discretised) hg inside_lt]⟩

/-- Absolute loss in single precision with one bit per gradient, `min_examples_leaf = 1` and at most `2 ^ 22` active
examples: the same. The gradients are -1 and 1. -/
theorem C42_sums_l1_f32 (cfg : Config) (d : Data) (rng : Rng) (k : Nat) (ds : Dataset)
    (hds : Updated .binary32 cfg d rng k ds) (rows : List Nat) (hrows : Active ds rows) (hd : Rectangular d)
    (hsize : rows.length ≤ 2 ^ 22) (hmin : cfg.minExamplesLeaf = 1)
    (o : Objective) (hk : o.kind = .l1) (hw : width cfg = .ok 1) (g : Nat → ℚ)
    (hg : ∀ r ∈ rows, o.gradients[r]? = some (.fin (g r)) ∧ (g r = -1 ∨ g r = 1))
    (st : State) (hst : Training .binary32 cfg ds ds.supercats 1 o st) :
    ∃ msk, SplitMasks .binary32 ds st.tree msk ∧ ∀ n ∈ st.stack,
      n.gradSum = .fin (∑ i ∈ examplesAt st.tree msk rows.length n.nodeId, g (rows.getD i 0)) ∧
      ∀ f b m, Candidate ds f b m → ∃ v, histAt n.hists f b = .ok v ∧
        v.gradSum = .fin (∑ i ∈ inside (examplesAt st.tree msk rows.length n.nodeId) m, g (rows.getD i 0)) := by
  obtain ⟨msk, h1, h2⟩ := sums_faithful .binary32 cfg d rng k ds hds rows hrows hd (by omega) hmin o 1 hw (-1) 1
    (by simp [Objective.bounds, hk]) (faithful_unit _ hsize) st hst
  refine ⟨msk, h1, fun n hn => ?_⟩
  obtain ⟨h3, h4⟩ := h2 n hn
  refine ⟨?_, fun f b m hc => ?_⟩
  · rw [h3, gradientSum_true (fun q => unit_discretised) hg examplesAt_lt]
  · obtain ⟨v, h5, h6⟩ := h4 f b m hc
    exact ⟨v, h5, by rw [h6, gradientSum_true (fun q => unit_discretised) hg inside_lt]⟩

/-! ## C43: the choice of the splits -/

/-- Common part of the two theorems below. -/
private theorem tree_faithful {P : ℚ → Prop} (hone : ∀ q, P q → |q| ≤ 1) (cfg : Config) (d : Data) (rng : Rng) (k : Nat)
    (ds : Dataset) (hds : Updated .binary32 cfg d rng k ds) (rows : List Nat) (hrows : Active ds rows) (hd : Rectangular d)
    (hsize : rows.length ≤ 2 ^ 32 - 256) (hmin : cfg.minExamplesLeaf = 1)
    (o : Objective) (w : Nat) (hw : width cfg = .ok w) (lo hi : ℚ) (hb : o.bounds = (.fin lo, .fin hi))
    (hf : Faithful .binary32 w lo hi rows.length) (hdis : ∀ q, P q → discretised .binary32 w lo hi (.fin q) = q)
    (g : Nat → ℚ) (hg : ∀ r ∈ rows, o.gradients[r]? = some (.fin (g r)) ∧ P (g r))
    (fuel : Nat) (t : Tree) (o' : Objective)
    (ht : train .binary32 cfg ds ds.supercats o fuel = .ok (some (t, o')))
    (lambda : ℚ) (hlam : cfg.regLambda = .fin lambda) (h0 : 0 ≤ lambda) (h60 : lambda ≤ 2 ^ 60)
    (mg : ℚ) (hmg : cfg.minGain = .fin mg) :
    ∃ msk, SplitMasks .binary32 ds t msk ∧
      (∀ (n : Nat) (c : SplitCrit), t.splitCrits[n]? = some c → c.splitType ≠ .noSplit →
        NearBestSplit .binary32 cfg ds mg (rows.length / 2 ^ 18)
          (trueGain lambda g rows (examplesAt t msk rows.length n)) (examplesAt t msk rows.length n) c (msk n)) ∧
      (∀ n, IsLeaf t n → n < 2 ^ cfg.maxTreeDepth - 1 →
        NoSplitPays cfg ds (mg + rows.length / 2 ^ 18)
          (trueGain lambda g rows (examplesAt t msk rows.length n)) (examplesAt t msk rows.length n)) := by
  have hr := rowsOk hds hrows
  have hn : ds.nactiveExamples ≤ 2 ^ 32 - 256 := by rw [← hr.len]; exact hsize
  obtain ⟨targets, htgt⟩ : ∃ targets, target ds.data = .ok targets := by
    have hl : d.nfeatures < d.cols.length := by rw [hd.1]; omega
    refine ⟨d.cols[d.nfeatures].values, ?_⟩
    rw [hds.inv.data]
    unfold target
    rw [at?_lt hl]
    rfl
  obtain ⟨w', ps, codes, o1, hw', h1, h2, h3, h4, _⟩ := train_reached hn hds.masksOk (by omega) ht
  rw [hw] at hw'
  cases hw'
  obtain ⟨hcl, hcodes⟩ := codes_get hrows h1 h2
  rw [hb] at hcodes
  have hcle : ∀ i, codes.getD i 0 ≤ 2 ^ w - 1 := by
    intro i
    by_cases hi' : i < rows.length
    · rw [hcodes i hi']
      exact C15_code_in_range_any .binary32 (width_valid hw) _ _ _
    · rw [List.getD_eq_getElem?_getD, List.getElem?_eq_none (by omega)]
      exact Nat.zero_le _
  have hval : ∀ i < rows.length, |decode w lo hi (codes.getD i 0)| ≤ 1 := by
    intro i hi'
    have hmem : rows.getD i 0 ∈ rows := by
      rw [List.getD_eq_getElem?_getD, List.getElem?_eq_getElem hi']
      exact List.getElem_mem hi'
    obtain ⟨g1, g2⟩ := hg _ hmem
    have h3 : o.gradients.getD (rows.getD i 0) (.fin 0) = .fin (g (rows.getD i 0)) := by
      rw [List.getD_eq_getElem?_getD, g1]; rfl
    have h4 : decode w lo hi (codes.getD i 0) = g (rows.getD i 0) := by
      rw [hcodes i hi', h3]
      exact hdis _ g2
    rw [h4]
    exact hone _ g2
  obtain ⟨done, msk, hinv, a1, a2⟩ := decided (ε := rows.length / 2 ^ 18) (lambda := lambda) (gradients := o.gradients) hmg
    (by omega) hr htgt h3 (by omega)
    (fun {st'} h n hn hinn hok hnd hlt => close_faithful hf hlam h0 h60 (by omega) hcle hcodes hval hok
      (sumFaith_all hf hmin hcle hb hr htgt h3 (by omega) (by rw [hcl, hr.len]) (by rw [hr.len]) h n hn) hnd hlt) h4
  have hgain : ∀ x m, maskGain .binary32 lambda w lo hi o.gradients rows (examplesAt t msk rows.length x) m =
      trueGain lambda g rows (examplesAt t msk rows.length x) m := by
    intro x m
    unfold maskGain trueGain trueSum
    rw [gradientSum_true hdis hg examplesAt_lt, gradientSum_true hdis hg inside_lt, gradientSum_true hdis hg]
    intro i hi'
    unfold outside at hi'
    simp only [Finset.mem_filter] at hi'
    exact examplesAt_lt i hi'.1
  refine ⟨msk, hinv.parts.tests, fun n c hc hne => ?_, fun n hn hnd => ?_⟩
  · have := a1 n c hc hne
    unfold NearBestSplit at this ⊢
    simpa only [hgain] using this
  · have := (hinv.parts.leaves n).1 hn
    simp only [open', List.map_nil, List.append_nil] at this
    obtain ⟨p, hp, rfl⟩ := List.mem_map.1 this
    have := a2 p hp hnd
    unfold NoSplitPays at this ⊢
    simpa only [hgain] using this

/-- Hinge loss in single precision, with its two bits per gradient, `min_examples_leaf = 1` and `N` active examples, at most
`2 ^ 21`. `g r` is the gradient of row `r`. In a trained tree every split is, up to `N / 2 ^ 17`, a best admissible split of
the examples of its node for the gradients themselves (nothing is lost by discretising), and gains more than
`min_gain - N / 2 ^ 18`; and no leaf above the maximal depth has an admissible split that gains more than
`min_gain + N / 2 ^ 18`. The error does not depend on the depth. (Missing: that the error is zero, which is false of
arithmetic with rounding.) -/
theorem C43_tree_hinge_f32_partial (cfg : Config) (d : Data) (rng : Rng) (k : Nat) (ds : Dataset)
    (hds : Updated .binary32 cfg d rng k ds) (rows : List Nat) (hrows : Active ds rows) (hd : Rectangular d)
    (hsize : rows.length ≤ 2 ^ 21) (hmin : cfg.minExamplesLeaf = 1)
    (o : Objective) (hk : o.kind = .hinge) (hw : width cfg = .ok 2) (g : Nat → ℚ)
    (hg : ∀ r ∈ rows, o.gradients[r]? = some (.fin (g r)) ∧ (g r = -1 ∨ g r = 0 ∨ g r = 1))
    (fuel : Nat) (t : Tree) (o' : Objective)
    (ht : train .binary32 cfg ds ds.supercats o fuel = .ok (some (t, o')))
    (lambda : ℚ) (hlam : cfg.regLambda = .fin lambda) (h0 : 0 ≤ lambda) (h60 : lambda ≤ 2 ^ 60)
    (mg : ℚ) (hmg : cfg.minGain = .fin mg) :
    ∃ msk, SplitMasks .binary32 ds t msk ∧
      (∀ (n : Nat) (c : SplitCrit), t.splitCrits[n]? = some c → c.splitType ≠ .noSplit →
        NearBestSplit .binary32 cfg ds mg (rows.length / 2 ^ 18)
          (trueGain lambda g rows (examplesAt t msk rows.length n)) (examplesAt t msk rows.length n) c (msk n)) ∧
      (∀ n, IsLeaf t n → n < 2 ^ cfg.maxTreeDepth - 1 →
        NoSplitPays cfg ds (mg + rows.length / 2 ^ 18)
          (trueGain lambda g rows (examplesAt t msk rows.length n)) (examplesAt t msk rows.length n)) :=
  tree_faithful (P := fun q => q = -1 ∨ q = 0 ∨ q = 1) (by rintro q (rfl | rfl | rfl) <;> norm_num) cfg d rng k ds hds rows
    hrows hd (by omega) hmin o 2 hw (-1) 2 (by simp [Objective.bounds, hk]) (faithful_hinge hsize)
    (fun q => hinge_discretised) g hg fuel t o' ht lambda hlam h0 h60 mg hmg

/-- Absolute loss in single precision with one bit per gradient: the same, for at most `2 ^ 22` active examples. (Missing: the
same.) -/
theorem C43_tree_l1_f32_partial (cfg : Config) (d : Data) (rng : Rng) (k : Nat) (ds : Dataset)
    (hds : Updated .binary32 cfg d rng k ds) (rows : List Nat) (hrows : Active ds rows) (hd : Rectangular d)
    (hsize : rows.length ≤ 2 ^ 22) (hmin : cfg.minExamplesLeaf = 1)
    (o : Objective) (hk : o.kind = .l1) (hw : width cfg = .ok 1) (g : Nat → ℚ)
    (hg : ∀ r ∈ rows, o.gradients[r]? = some (.fin (g r)) ∧ (g r = -1 ∨ g r = 1))
    (fuel : Nat) (t : Tree) (o' : Objective)
    (ht : train .binary32 cfg ds ds.supercats o fuel = .ok (some (t, o')))
    (lambda : ℚ) (hlam : cfg.regLambda = .fin lambda) (h0 : 0 ≤ lambda) (h60 : lambda ≤ 2 ^ 60)
    (mg : ℚ) (hmg : cfg.minGain = .fin mg) :
    ∃ msk, SplitMasks .binary32 ds t msk ∧
      (∀ (n : Nat) (c : SplitCrit), t.splitCrits[n]? = some c → c.splitType ≠ .noSplit →
        NearBestSplit .binary32 cfg ds mg (rows.length / 2 ^ 18)
          (trueGain lambda g rows (examplesAt t msk rows.length n)) (examplesAt t msk rows.length n) c (msk n)) ∧
      (∀ n, IsLeaf t n → n < 2 ^ cfg.maxTreeDepth - 1 →
        NoSplitPays cfg ds (mg + rows.length / 2 ^ 18)
          (trueGain lambda g rows (examplesAt t msk rows.length n)) (examplesAt t msk rows.length n)) :=
  tree_faithful (P := fun q => q = -1 ∨ q = 1) (by rintro q (rfl | rfl) <;> norm_num) cfg d rng k ds hds rows
    hrows hd (by omega) hmin o 1 hw (-1) 1 (by simp [Objective.bounds, hk]) (faithful_unit _ hsize)
    (fun q => unit_discretised) g hg fuel t o' ht lambda hlam h0 h60 mg hmg

private def exactCfg (bits : Nat) : Config :=
  { Config.new with maxNbins := 3, maxTreeDepth := 2, minExamplesLeaf := 1, discrNbits := bits }
private def exactData : Data :=
  ⟨3, [], 2, 9,
    [⟨[.fin 0, .fin 0, .fin 0, .fin 1, .fin 1, .fin 1, .fin 1, .fin 1, .fin 1], .fin 0, .fin 1, .loCardCat, 2⟩,
     ⟨[.fin 0, .fin 1, .fin 2, .fin 0, .fin 0, .fin 1, .fin 1, .fin 2, .fin 2], .fin 0, .fin 2, .loCardCat, 3⟩,
     ⟨[.fin 0, .fin 0, .fin 0, .fin 1, .fin 1, .fin 1, .fin 1, .fin 0, .fin 0], .fin 0, .fin 1, .numerical, 0⟩]⟩
private def hingeObj : Objective :=
  { Objective.new .hinge with
    learningRate := .fin 1, predictions := List.replicate 9 (.fin 0)
    gradients := [.fin 1, .fin 1, .fin 0, .fin (-1), .fin (-1), .fin (-1), .fin 0, .fin 1, .fin 0] }
private def absObj : Objective :=
  { Objective.new .l1 with
    learningRate := .fin 1, limits := (.fin (-12), .fin 12), predictions := List.replicate 9 (.fin 0)
    gradients := [.fin 1, .fin 1, .fin 1, .fin (-1), .fin (-1), .fin (-1), .fin (-1), .fin 1, .fin (-1)] }

/-- A state in the middle of training with the hinge loss, which meets the hypotheses of `C42_sums_hinge_f32`. -/
example : ∃ ds st, Updated .binary32 (exactCfg 2) exactData ⟨fun _ => 2⟩ 1 ds ∧
    Active ds (List.range 9) ∧ Rectangular exactData ∧ (exactCfg 2).minExamplesLeaf = 1 ∧ hingeObj.kind = .hinge ∧
    width (exactCfg 2) = .ok 2 ∧
    (∃ g : Nat → ℚ, ∀ r ∈ List.range 9, hingeObj.gradients[r]? = some (.fin (g r)) ∧ (g r = -1 ∨ g r = 0 ∨ g r = 1)) ∧
    Training .binary32 (exactCfg 2) ds ds.supercats 2 hingeObj st ∧
    st.stack.map Node.nodeId = [1, 2] ∧ st.stack.map Node.gradSum = [.fin 2, .fin (-2)] ∧
    st.stack.map (fun n => histAt n.hists 1 0) = [.ok ⟨.fin 1, 1⟩, .ok ⟨.fin (-2), 2⟩] := by
  obtain ⟨ds, h1, h2⟩ := exampleRun_check (F := .binary32) (cfg := exactCfg 2) (d := exactData)
    (rng := ⟨fun _ => 2⟩) (gs := [(hingeObj.gradients, hingeObj.bounds)])
    (fun ds => decide (ds.activePairs = .ok ((List.range 9).zip (List.range 9))) &&
      match start .binary32 (exactCfg 2) ds ds.supercats 2 hingeObj with
      | .ok st => (match st.stack with
        | [n] => (match expand .binary32 (exactCfg 2) ds 2 n ⟨st.tree, st.obj, []⟩ with
          | .ok st' => decide (st'.stack.map Node.nodeId = [1, 2]) && decide (st'.stack.map Node.gradSum = [.fin 2, .fin (-2)]) &&
            decide (st'.stack.map (fun n => histAt n.hists 1 0) = [.ok ⟨.fin 1, 1⟩, .ok ⟨.fin (-2), 2⟩])
          | _ => false)
        | _ => false)
      | _ => false) (by decide +kernel)
  rw [Bool.and_eq_true, decide_eq_true_eq] at h2
  obtain ⟨ha, h2⟩ := h2
  cases e1 : start .binary32 (exactCfg 2) ds ds.supercats 2 hingeObj with
  | panic => rw [e1] at h2; cases h2
  | ub => rw [e1] at h2; cases h2
  | ok st =>
    rw [e1] at h2
    obtain ⟨t, o, stack⟩ := st
    simp only at h2
    match stack, h2, e1 with
    | [], h2, _ => cases h2
    | _ :: _ :: _, h2, _ => cases h2
    | [n], h2, e1 =>
      simp only at h2
      cases e2 : expand .binary32 (exactCfg 2) ds 2 n ⟨t, o, []⟩ with
      | panic => rw [e2] at h2; cases h2
      | ub => rw [e2] at h2; cases h2
      | ok st' =>
        rw [e2] at h2
        simp only [Bool.and_eq_true, decide_eq_true_eq] at h2
        refine ⟨ds, st', h1, ?_, ⟨by decide, by decide⟩, rfl, rfl, rfl,
          ⟨fun r => match hingeObj.gradients.getD r (.fin 0) with | .fin q => q | _ => 0, by decide +kernel⟩,
          .round (.start e1) e2, h2.1.1, h2.1.2, h2.2⟩
        unfold Active
        rw [List.length_range]
        exact ha

/-- The same with the absolute loss, for `C42_sums_l1_f32`. -/
example : ∃ ds st, Updated .binary32 (exactCfg 1) exactData ⟨fun _ => 2⟩ 1 ds ∧
    Active ds (List.range 9) ∧ Rectangular exactData ∧ (exactCfg 1).minExamplesLeaf = 1 ∧ absObj.kind = .l1 ∧
    width (exactCfg 1) = .ok 1 ∧
    (∃ g : Nat → ℚ, ∀ r ∈ List.range 9, absObj.gradients[r]? = some (.fin (g r)) ∧ (g r = -1 ∨ g r = 1)) ∧
    Training .binary32 (exactCfg 1) ds ds.supercats 1 absObj st ∧
    st.stack.map Node.nodeId = [1, 2] ∧ st.stack.map Node.gradSum = [.fin 3, .fin (-4)] ∧
    st.stack.map (fun n => histAt n.hists 1 0) = [.ok ⟨.fin 1, 1⟩, .ok ⟨.fin (-2), 2⟩] := by
  obtain ⟨ds, h1, h2⟩ := exampleRun_check (F := .binary32) (cfg := exactCfg 1) (d := exactData)
    (rng := ⟨fun _ => 2⟩) (gs := [(absObj.gradients, absObj.bounds)])
    (fun ds => decide (ds.activePairs = .ok ((List.range 9).zip (List.range 9))) &&
      match start .binary32 (exactCfg 1) ds ds.supercats 1 absObj with
      | .ok st => (match st.stack with
        | [n] => (match expand .binary32 (exactCfg 1) ds 1 n ⟨st.tree, st.obj, []⟩ with
          | .ok st' => decide (st'.stack.map Node.nodeId = [1, 2]) && decide (st'.stack.map Node.gradSum = [.fin 3, .fin (-4)]) &&
            decide (st'.stack.map (fun n => histAt n.hists 1 0) = [.ok ⟨.fin 1, 1⟩, .ok ⟨.fin (-2), 2⟩])
          | _ => false)
        | _ => false)
      | _ => false) (by decide +kernel)
  rw [Bool.and_eq_true, decide_eq_true_eq] at h2
  obtain ⟨ha, h2⟩ := h2
  cases e1 : start .binary32 (exactCfg 1) ds ds.supercats 1 absObj with
  | panic => rw [e1] at h2; cases h2
  | ub => rw [e1] at h2; cases h2
  | ok st =>
    rw [e1] at h2
    obtain ⟨t, o, stack⟩ := st
    simp only at h2
    match stack, h2, e1 with
    | [], h2, _ => cases h2
    | _ :: _ :: _, h2, _ => cases h2
    | [n], h2, e1 =>
      simp only at h2
      cases e2 : expand .binary32 (exactCfg 1) ds 1 n ⟨t, o, []⟩ with
      | panic => rw [e2] at h2; cases h2
      | ub => rw [e2] at h2; cases h2
      | ok st' =>
        rw [e2] at h2
        simp only [Bool.and_eq_true, decide_eq_true_eq] at h2
        refine ⟨ds, st', h1, ?_, ⟨by decide, by decide⟩, rfl, rfl, rfl,
          ⟨fun r => match absObj.gradients.getD r (.fin 0) with | .fin q => q | _ => 0, by decide +kernel⟩,
          .round (.start e1) e2, h2.1.1, h2.1.2, h2.2⟩
        unfold Active
        rw [List.length_range]
        exact ha

/-- Whole trees that meet the hypotheses of `C43_tree_hinge_f32_partial` and `C43_tree_l1_f32_partial`: trained with the hinge
loss, and with the absolute loss and other targets. Both split at the root with the first category of feature 0. -/
private def absData : Data :=
  ⟨3, [], 2, 9,
    [⟨[.fin 0, .fin 0, .fin 0, .fin 1, .fin 1, .fin 1, .fin 1, .fin 1, .fin 1], .fin 0, .fin 1, .loCardCat, 2⟩,
     ⟨[.fin 0, .fin 1, .fin 2, .fin 0, .fin 0, .fin 1, .fin 1, .fin 2, .fin 2], .fin 0, .fin 2, .loCardCat, 3⟩,
     ⟨[.fin 1, .fin 2, .fin 3, .fin 5, .fin 6, .fin 8, .fin 9, .fin 10, .fin 12], .fin 1, .fin 12, .numerical, 0⟩]⟩
private def absCfg : Config := { exactCfg 1 with maxTreeDepth := 1 }

example : ∃ ds t o', Updated .binary32 (exactCfg 2) absData ⟨fun _ => 2⟩ 1 ds ∧ Active ds (List.range 9) ∧
    train .binary32 (exactCfg 2) ds ds.supercats hingeObj 7 = .ok (some (t, o')) ∧ (exactCfg 2).regLambda = .fin 0 ∧
    (∃ mg, (exactCfg 2).minGain = .fin mg) ∧ t.splitCrits[0]? = some ⟨.loCardCatEq, 0, .fin 0⟩ := by
  obtain ⟨ds, h1, h2⟩ := exampleRun_check (F := .binary32) (cfg := exactCfg 2) (d := absData)
    (rng := ⟨fun _ => 2⟩) (gs := [(hingeObj.gradients, hingeObj.bounds)])
    (fun ds => decide (ds.activePairs = .ok ((List.range 9).zip (List.range 9))) &&
      match train .binary32 (exactCfg 2) ds ds.supercats hingeObj 7 with
      | .ok (some (t, _)) => decide (t.splitCrits[0]? = some ⟨.loCardCatEq, 0, .fin 0⟩)
      | _ => false) (by decide +kernel)
  rw [Bool.and_eq_true, decide_eq_true_eq] at h2
  obtain ⟨ha, h2⟩ := h2
  split at h2
  · rename_i t o' e
    refine ⟨ds, t, o', h1, ?_, e, rfl, ⟨_, rfl⟩, of_decide_eq_true h2⟩
    unfold Active
    rw [List.length_range]
    exact ha
  · cases h2

example : ∃ ds t o', Updated .binary32 absCfg absData ⟨fun _ => 2⟩ 1 ds ∧ Active ds (List.range 9) ∧
    train .binary32 absCfg ds ds.supercats absObj 7 = .ok (some (t, o')) ∧ absCfg.regLambda = .fin 0 ∧
    (∃ mg, absCfg.minGain = .fin mg) ∧ t.splitCrits[0]? = some ⟨.loCardCatEq, 0, .fin 0⟩ := by
  obtain ⟨ds, h1, h2⟩ := exampleRun_check (F := .binary32) (cfg := absCfg) (d := absData)
    (rng := ⟨fun _ => 2⟩) (gs := [(absObj.gradients, absObj.bounds)])
    (fun ds => decide (ds.activePairs = .ok ((List.range 9).zip (List.range 9))) &&
      match train .binary32 absCfg ds ds.supercats absObj 7 with
      | .ok (some (t, _)) => decide (t.splitCrits[0]? = some ⟨.loCardCatEq, 0, .fin 0⟩)
      | _ => false) (by decide +kernel)
  rw [Bool.and_eq_true, decide_eq_true_eq] at h2
  obtain ⟨ha, h2⟩ := h2
  split at h2
  · rename_i t o' e
    refine ⟨ds, t, o', h1, ?_, e, rfl, ⟨_, rfl⟩, of_decide_eq_true h2⟩
    unfold Active
    rw [List.length_range]
    exact ha
  · cases h2

end BitBoost.Props
