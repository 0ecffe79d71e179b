import Verif.Lemmas.GainError
import Verif.Props.Discretise
import Verif.Props.Tree
/-!
# C42, C43: histograms and the choice of the split

`Training F cfg ds supercats w o st` are the states of the learner while it trains a tree; `n ∈ st.stack` are the nodes
it still has to look at. The examples that belong to a node are given by the masks of the splits above it
(`examplesAt`). The hypotheses on the data set are those of `Props/Training.lean`.
-/
namespace BitBoost.Props
open BitBoost Spec Dataset Learner

private theorem target_ok (d : Data) (hd : Rectangular d) (ds : Dataset) (h : ds.data = d) :
    ∃ targets, target ds.data = .ok targets := by
  have hl : d.nfeatures < d.cols.length := by rw [hd.1]; omega
  refine ⟨d.cols[d.nfeatures].values, ?_⟩
  rw [h]
  unfold target
  rw [at?_lt hl]
  rfl

theorem forall₂_left {α β : Type} {R : α → β → Prop} : ∀ {as : List α} {bs : List β}, List.Forall₂ R as bs →
    ∀ {a : α}, a ∈ as → ∃ b ∈ bs, R a b
  | _, _, .nil, _, h => by cases h
  | _, _, .cons h1 h2, a, h => by
      rcases List.mem_cons.1 h with rfl | h
      · exact ⟨_, by simp, h1⟩
      · obtain ⟨b, hb, hr⟩ := forall₂_left h2 h
        exact ⟨b, by simp [hb], hr⟩

section
variable (F : FP) (cfg : Config) (d : Data) (rng : Rng) (k : Nat) (ds : Dataset)
  (hds : Updated F cfg d rng k ds) (rows : List Nat) (hrows : Active ds rows) (hd : Rectangular d)
  (hsize : rows.length ≤ 2 ^ 32 - 256) (hmin : 1 ≤ cfg.minExamplesLeaf)
  (o : Objective) (w : Nat) (hw : width cfg = .ok w)
include hds hrows hd hsize hmin hw

theorem split_reach {st : State} (hst : Training F cfg ds ds.supercats w o st) :
    ∃ ps codes rst targets done msk, ds.activePairs = .ok ps ∧ gradCodes F w o.bounds o.gradients ps = .ok codes ∧
      0 < ds.nactiveExamples ∧ RefReached F cfg ds ds.supercats w codes o rst ∧ StateRel w ds codes st rst ∧
      target ds.data = .ok targets ∧ TreeInv F cfg ds ds.supercats targets rows o rst done msk := by
  have hr := rowsOk hds hrows
  have hn : ds.nactiveExamples ≤ 2 ^ 32 - 256 := by rw [← hr.len]; exact hsize
  obtain ⟨targets, htgt⟩ := target_ok d hd ds hds.inv.data
  obtain ⟨ps, codes, rst, h1, h2, h3, h4, h5⟩ := reached_ref (width_valid hw) hn hds.masksOk hmin hst
  obtain ⟨done, msk, hinv⟩ := refReached_inv hr htgt hmin h3 (by omega) h4
  exact ⟨ps, codes, rst, targets, done, msk, h1, h2, h3, h4, h5, htgt, hinv⟩

/-! ## C42 -/

/-- The counts in the histograms are exact: the node knows how many examples it has, and the histogram of every
candidate says how many of them are in its mask. -/
theorem C42_counts (st : State) (hst : Training F cfg ds ds.supercats w o st) :
    ∃ msk, SplitMasks F ds st.tree msk ∧ ∀ n ∈ st.stack, IsLeaf st.tree n.nodeId ∧
      n.exampleCount = (examplesAt st.tree msk rows.length n.nodeId).card ∧
      ∀ f b m, Candidate ds f b m → ∃ v, histAt n.hists f b = .ok v ∧
        v.count = (inside (examplesAt st.tree msk rows.length n.nodeId) m).card := by
  obtain ⟨ps, codes, rst, targets, done, msk, h1, h2, h3, h4, h5, htgt, hinv⟩ :=
    split_reach F cfg d rng k ds hds rows hrows hd hsize hmin o w hw hst
  have hr := rowsOk hds hrows
  have hn2 : ds.nactiveExamples < 2 ^ 32 := by rw [← hr.len]; omega
  rw [h5.tree]
  refine ⟨msk, hinv.parts.tests, fun n hn => ?_⟩
  obtain ⟨r, hrm, hnr⟩ := forall₂_left h5.stack hn
  have hpm : (r.nodeId, r.examples) ∈ done ++ open' rst := by
    rw [List.mem_append]
    exact Or.inr (List.mem_map.2 ⟨r, hrm, rfl⟩)
  obtain ⟨hnd, hE⟩ := parts_examples hinv.parts hpm
  simp only at hnd hE
  rw [← hr.len] at hE
  have hhist := refReached_nodes (P := HistInv F cfg ds w o.bounds codes) h3 hr htgt hmin hn2
    (fun root h => histInv_root h) (fun n s ch hn _ _ _ h => (histInv_children hn h)) h4 r hrm
  rw [hnr.id, hnr.cnt, hnr.hists, ← hE]
  refine ⟨(hinv.parts.leaves r.nodeId).2 (List.mem_map.2 ⟨_, hpm, rfl⟩), ?_, ?_⟩
  · rw [List.toFinset_card_of_nodup hnd]
    exact (hinv.ok r hrm).count
  · intro f b m hc
    obtain ⟨v, hv⟩ := hhist.ex f b m hc
    refine ⟨v, hv, ?_⟩
    rw [← inside_eq rfl m, List.toFinset_card_of_nodup (hnd.filter _)]
    obtain ⟨⟨fs, hfs, hf⟩, hb, hm⟩ := hc
    obtain ⟨js, hjs⟩ := histJobs_ok_of_reach h4 hfs
    exact (hinv.ok r hrm).hist fs js f b v m hfs hjs ((mem_histJobs hjs f b).2 ⟨hf, hb⟩) hv hm

/-- The gradient sums of the root and of left children, which are computed from the examples: for every rounding mode,
the sum of the codes of the gradients, scaled to the bounds (left out, as 0, when there are too few examples). -/
theorem C42_built (st : State) (hst : Training F cfg ds ds.supercats w o st) :
    ∃ msk, SplitMasks F ds st.tree msk ∧ ∀ n ∈ st.stack, n.nodeId = 0 ∨ n.nodeId % 2 = 1 →
      ∀ f b m, Candidate ds f b m → ∃ v, histAt n.hists f b = .ok v ∧
        v.gradSum = if (inside (examplesAt st.tree msk rows.length n.nodeId) m).card < cfg.minExamplesLeaf then .fin 0
          else BitSlice.linproj F w
            (F.ofNat (∑ i ∈ inside (examplesAt st.tree msk rows.length n.nodeId) m,
              (BitSlice.discretise F w (o.gradients.getD (rows.getD i 0) (.fin 0)) o.bounds.1 o.bounds.2).toNat))
            (F.ofNat (inside (examplesAt st.tree msk rows.length n.nodeId) m).card) o.bounds.1 o.bounds.2 := by
  obtain ⟨ps, codes, rst, targets, done, msk, h1, h2, h3, h4, h5, htgt, hinv⟩ :=
    split_reach F cfg d rng k ds hds rows hrows hd hsize hmin o w hw hst
  have hr := rowsOk hds hrows
  have hn2 : ds.nactiveExamples < 2 ^ 32 := by rw [← hr.len]; omega
  rw [h5.tree]
  refine ⟨msk, hinv.parts.tests, fun n hn hbuilt f b m hc => ?_⟩
  obtain ⟨r, hrm, hnr⟩ := forall₂_left h5.stack hn
  have hpm : (r.nodeId, r.examples) ∈ done ++ open' rst := by
    rw [List.mem_append]
    exact Or.inr (List.mem_map.2 ⟨r, hrm, rfl⟩)
  obtain ⟨hnd, hE⟩ := parts_examples hinv.parts hpm
  simp only at hnd hE
  rw [← hr.len] at hE
  have hhist := refReached_nodes (P := HistInv F cfg ds w o.bounds codes) h3 hr htgt hmin hn2
    (fun root h => histInv_root h) (fun n s ch hn _ _ _ h => (histInv_children hn h)) h4 r hrm
  obtain ⟨_, hcodes⟩ := codes_get hrows h1 h2
  rw [hnr.id] at hbuilt ⊢
  rw [hnr.hists, ← hE]
  refine ⟨_, hhist.built hbuilt f b m hc, ?_⟩
  rw [← inside_eq rfl m, List.toFinset_card_of_nodup (hnd.filter _), List.sum_toFinset _ (hnd.filter _)]
  unfold refHist
  simp only
  have hmap : (r.examples.filter (bitAt m)).map (fun i => codes.getD i 0) =
      (r.examples.filter (bitAt m)).map (fun i =>
        (BitSlice.discretise F w (o.gradients.getD (rows.getD i 0) (.fin 0)) o.bounds.1 o.bounds.2).toNat) := by
    apply List.map_congr_left
    intro i hi
    refine hcodes i ?_
    rw [hr.len]
    exact hinv.parts.lt hpm (List.mem_of_mem_filter hi)
  rw [hmap]
  split <;> rfl

/-! ## C43 -/

/-- What a round does with its node, for every rounding mode. The gain of a candidate is computed in the rounded
arithmetic, from the sums and counts in the histograms of the node. Either no admissible candidate has a gain above
`min_gain`, and the node stays a leaf; or the node is split with an admissible candidate whose gain is above `min_gain`;
no admissible candidate has a larger gain, and those that come before it in the search and are above `min_gain` have a
smaller gain (NaN gains are never chosen). -/
theorem C43_round (t : Tree) (o1 : Objective) (n : Node) (rest : List Node) (st' : State)
    (hst : Training F cfg ds ds.supercats w o ⟨t, o1, n :: rest⟩) (he : expand F cfg ds w n ⟨t, o1, rest⟩ = .ok st') :
    ∃ msk, SplitMasks F ds t msk ∧
      ((IsLeaf st'.tree n.nodeId ∧ ∀ f b m v, Candidate ds f b m → histAt n.hists f b = .ok v →
          Admissible cfg (examplesAt t msk rows.length n.nodeId) m →
          cfg.minGain.lt (gain F cfg n.gradSum n.exampleCount v) = false) ∨
       ∃ f b m v c, st'.tree.splitCrits[n.nodeId]? = some c ∧ Candidate ds f b m ∧ TestFor F ds f b c ∧
         Admissible cfg (examplesAt t msk rows.length n.nodeId) m ∧ histAt n.hists f b = .ok v ∧
         cfg.minGain.lt (gain F cfg n.gradSum n.exampleCount v) = true ∧
         ∀ f' b' m' v', Candidate ds f' b' m' → histAt n.hists f' b' = .ok v' →
           Admissible cfg (examplesAt t msk rows.length n.nodeId) m' →
           (gain F cfg n.gradSum n.exampleCount v).lt (gain F cfg n.gradSum n.exampleCount v') = false ∧
           ∀ fs, ds.activeFeatures = .ok fs → Earlier fs f' b' f b →
             cfg.minGain.lt (gain F cfg n.gradSum n.exampleCount v') = true →
             (gain F cfg n.gradSum n.exampleCount v').lt (gain F cfg n.gradSum n.exampleCount v) = true) := by
  obtain ⟨ps, codes, ⟨t', o', stack⟩, targets, done, msk, h1, h2, h3, h4, h5, htgt, hinv⟩ :=
    split_reach F cfg d rng k ds hds rows hrows hd hsize hmin o w hw hst
  have hr := rowsOk hds hrows
  have hn : ds.nactiveExamples ≤ 2 ^ 32 - 256 := by rw [← hr.len]; exact hsize
  have e1 := h5.tree
  have e2 := h5.obj
  have e3 := h5.stack
  simp only at e1 e2 e3
  subst e1 e2
  cases e3 with
  | @cons _ r _ rest' hnr hrest =>
  have hsim := expand_sim (F := F) (cfg := cfg) (width_valid hw) hn hds.masksOk hmin hnr (a := ⟨t, o1, rest⟩)
    (b := ⟨t, o1, rest'⟩) ⟨rfl, rfl, hrest⟩
  obtain ⟨rst', er, hrel⟩ := hsim.left_ok he
  obtain ⟨done', msk', hinv', s, hs, hstep⟩ := refExpand_step hr htgt hmin hinv er
  have hpm : (r.nodeId, r.examples) ∈ done ++ open' ⟨t, o1, r :: rest'⟩ := by simp [open']
  obtain ⟨hnd, hE⟩ := parts_examples hinv.parts hpm
  simp only at hnd hE
  rw [← hr.len] at hE
  have hok := hinv.ok r (by simp)
  have hleaf : IsLeaf t r.nodeId := (hinv.parts.leaves r.nodeId).2 (List.mem_map.2 ⟨_, hpm, rfl⟩)
  have adm : ∀ f b m v, Candidate ds f b m → histAt r.hists f b = .ok v →
      (Admissible cfg (examplesAt t msk rows.length r.nodeId) m ↔
        cfg.minExamplesLeaf ≤ v.count ∧ cfg.minExamplesLeaf ≤ subU32 r.exampleCount v.count) := by
    rintro f b m v ⟨⟨fs, hfs, hf⟩, hb, hm⟩ hv
    obtain ⟨js, hjs⟩ := histJobs_ok_of_reach h4 hfs
    have hc := hok.hist fs js f b v m hfs hjs ((mem_histJobs hjs f b).2 ⟨hf, hb⟩) hv hm
    have hle := List.length_filter_le (bitAt m) r.examples
    have hsm := hok.small
    unfold Admissible
    rw [hc, hok.count, subU32_of_le hle hsm, ← inside_eq hE m, ← outside_eq hE m,
      List.toFinset_card_of_nodup (hnd.filter _), List.toFinset_card_of_nodup (hnd.filter _), filter_compl]
  refine ⟨msk, hinv.parts.tests, ?_⟩
  rw [hrel.tree, hnr.id, hnr.hists, hnr.sum, hnr.cnt]
  rcases best_hist hs with ⟨g1, g2⟩ | ⟨g1, fs, v, k1, k2, k3, k4, k5, k6, k7, k8, k9⟩
  · left
    rcases hstep with ⟨_, _, _, ht⟩ | ⟨hc, _⟩
    · refine ⟨(isLeaf_congr ht.symm _).1 hleaf, fun f b m v hc hv ha => ?_⟩
      obtain ⟨a1, a2⟩ := (adm f b m v hc hv).1 ha
      exact g2 f b m v hc hv a1 a2
    · rw [g1] at hc; cases hc
  · right
    rcases hstep with ⟨hc, _⟩ | ⟨_, m, hm, _, _, hlen, ht⟩
    · rw [g1] at hc; cases hc
    · have hc : Candidate ds s.crit.featureId s.splitId m := ⟨⟨fs, k1, k2⟩, k7, hm⟩
      refine ⟨_, _, m, v, s.crit, by rw [ht, List.getElem?_set_self hlen], hc, k6, (adm _ _ m v hc k3).2 ⟨k4, k5⟩,
        k3, k8, fun f' b' m' v' hc' hv' ha' => ?_⟩
      obtain ⟨a1, a2⟩ := (adm f' b' m' v' hc' hv').1 ha'
      obtain ⟨q1, q2⟩ := k9 f' b' m' v' hc' hv' a1 a2
      refine ⟨q1, fun fs' hfs' hear => ?_⟩
      rw [k1] at hfs'
      cases hfs'
      refine q2 ?_ hear
      unfold activeFeatures at k1
      rw [prefix_ok] at k1
      obtain ⟨_, rfl⟩ := k1
      exact hds.inv.nodup.sublist (List.take_sublist _ _)

end

/-- With exact arithmetic and `min_examples_leaf = 1` all sums are exact: the node knows the sum of the discretised gradients
of its examples, and the histogram of every candidate has the sum for the examples in its mask. (Missing: `f32`
rounding; larger values of `min_examples_leaf`, where it is false, see `C42_min_examples_refuted`.) -/
theorem C42_sums_partial (cfg : Config) (d : Data) (rng : Rng) (k : Nat) (ds : Dataset)
    (hds : Updated .exact cfg d rng k ds) (rows : List Nat) (hrows : Active ds rows) (hd : Rectangular d)
    (hsize : rows.length ≤ 2 ^ 32 - 256) (hmin : cfg.minExamplesLeaf = 1)
    (o : Objective) (w : Nat) (hw : width cfg = .ok w) (lo hi : ℚ) (hb : o.bounds = (.fin lo, .fin hi))
    (st : State) (hst : Training .exact cfg ds ds.supercats w o st) :
    ∃ msk, SplitMasks .exact ds st.tree msk ∧ ∀ n ∈ st.stack,
      n.gradSum = .fin (gradientSum .exact w lo hi o.gradients rows (examplesAt st.tree msk rows.length n.nodeId)) ∧
      ∀ f b m, Candidate ds f b m → ∃ v, histAt n.hists f b = .ok v ∧
        v.gradSum = .fin (gradientSum .exact w lo hi o.gradients rows
          (inside (examplesAt st.tree msk rows.length n.nodeId) m)) := by
  obtain ⟨ps, codes, rst, targets, done, msk, h1, h2, h3, h4, h5, htgt, hinv⟩ :=
    split_reach .exact cfg d rng k ds hds rows hrows hd hsize (by omega) o w hw hst
  have hr := rowsOk hds hrows
  have hn2 : ds.nactiveExamples < 2 ^ 32 := by rw [← hr.len]; omega
  rw [h5.tree]
  refine ⟨msk, hinv.parts.tests, fun n hn => ?_⟩
  obtain ⟨r, hrm, hnr⟩ := forall₂_left h5.stack hn
  have hpm : (r.nodeId, r.examples) ∈ done ++ open' rst := by
    rw [List.mem_append]
    exact Or.inr (List.mem_map.2 ⟨r, hrm, rfl⟩)
  obtain ⟨hnd, hE⟩ := parts_examples hinv.parts hpm
  simp only at hnd hE
  rw [← hr.len] at hE
  obtain ⟨hcl, hcodes⟩ := codes_get hrows h1 h2
  rw [hb] at hcodes
  have hlt : ∀ i ∈ r.examples, i < rows.length := by
    intro i hi'
    rw [hr.len]
    exact hinv.parts.lt hpm hi'
  have hsum := sumInv_all (width_valid hw) hmin hb hr htgt h3 hn2 (by rw [hcl, hr.len]) h4 r hrm
  rw [hnr.id, hnr.sum, hnr.hists, ← hE]
  refine ⟨?_, fun f b m hc => ?_⟩
  · rw [hsum.total, gradientSum_eq hcodes hnd hlt]
  · obtain ⟨v, hv, hs⟩ := hsum.hist f b m hc
    refine ⟨v, hv, ?_⟩
    rw [hs, gradientSum_eq hcodes (hnd.filter _) (fun i hi' => hlt i (List.mem_of_mem_filter hi')), inside_eq rfl]

private theorem sums_err (F : FP) (cfg : Config) (d : Data) (rng : Rng) (k : Nat) (ds : Dataset)
    (hds : Updated F cfg d rng k ds) (rows : List Nat) (hrows : Active ds rows) (hd : Rectangular d)
    (hsize : rows.length ≤ 2 ^ 32 - 256) (hmin : 1 ≤ cfg.minExamplesLeaf)
    (o : Objective) (w : Nat) (hw : width cfg = .ok w) (lo hi G : ℚ) (hb : o.bounds = (.fin lo, .fin hi))
    (hlo : |lo| ≤ G) (hhi : |hi| ≤ G) {M δ β E : ℚ}
    (hacc : 0 < rows.length → Accurate F w lo hi rows.length M δ β) (h0 : 0 ≤ β) (hδ : 0 ≤ δ)
    (hE : β + ((cfg.minExamplesLeaf : ℚ) - 1) * G + δ ≤ E)
    (hM : (rows.length : ℚ) * G + ((cfg.maxTreeDepth : ℚ) + 1) ^ 2 * E ≤ M)
    (st : State) (hst : Training F cfg ds ds.supercats w o st) :
    ∃ msk, SplitMasks F ds st.tree msk ∧ ∀ n ∈ st.stack,
      (∃ s, n.gradSum = .fin s ∧
        |s - gradientSum F w lo hi o.gradients rows (examplesAt st.tree msk rows.length n.nodeId)| ≤
          (cfg.maxTreeDepth : ℚ) ^ 2 * E) ∧
      ∀ f b m, Candidate ds f b m → ∃ v s, histAt n.hists f b = .ok v ∧ v.gradSum = .fin s ∧
        |s - gradientSum F w lo hi o.gradients rows (inside (examplesAt st.tree msk rows.length n.nodeId) m)| ≤
          (cfg.maxTreeDepth : ℚ) * E := by
  obtain ⟨ps, codes, rst, targets, done, msk, h1, h2, h3, h4, h5, htgt, hinv⟩ :=
    split_reach F cfg d rng k ds hds rows hrows hd hsize hmin o w hw hst
  have hr := rowsOk hds hrows
  have hn2 : ds.nactiveExamples < 2 ^ 32 := by rw [← hr.len]; omega
  have hG : 0 ≤ G := (abs_nonneg _).trans hlo
  have hE0 : 0 ≤ E := by
    have hm1 : (0 : ℚ) ≤ (cfg.minExamplesLeaf : ℚ) - 1 := by
      have : (1 : ℚ) ≤ cfg.minExamplesLeaf := by exact_mod_cast hmin
      linarith
    have := mul_nonneg hm1 hG
    linarith
  rw [h5.tree]
  refine ⟨msk, hinv.parts.tests, fun n hn => ?_⟩
  obtain ⟨r, hrm, hnr⟩ := forall₂_left h5.stack hn
  have hpm : (r.nodeId, r.examples) ∈ done ++ open' rst := by
    rw [List.mem_append]
    exact Or.inr (List.mem_map.2 ⟨r, hrm, rfl⟩)
  obtain ⟨hnd, hE'⟩ := parts_examples hinv.parts hpm
  simp only at hnd hE'
  rw [← hr.len] at hE'
  obtain ⟨hcl, hcodes⟩ := codes_get hrows h1 h2
  rw [hb] at hcodes
  have hlt : ∀ i ∈ r.examples, i < rows.length := by
    intro i hi'
    rw [hr.len]
    exact hinv.parts.lt hpm hi'
  have hcle : ∀ i, codes.getD i 0 ≤ 2 ^ w - 1 := by
    intro i
    by_cases hi' : i < rows.length
    · rw [hcodes i hi']
      exact C15_code_in_range_any F (width_valid hw) _ _ _
    · rw [List.getD_eq_getElem?_getD, List.getElem?_eq_none (by omega)]
      exact Nat.zero_le _
  have hin := hinv.inner r hrm
  have hlev : level r.nodeId + 1 ≤ cfg.maxTreeDepth := by
    unfold level
    exact (Nat.log2_lt (by omega)).2 (by omega)
  have hlevq : (level r.nodeId : ℚ) + 1 ≤ cfg.maxTreeDepth := by exact_mod_cast hlev
  have hlev0 : (0 : ℚ) ≤ (level r.nodeId : ℚ) := by positivity
  have hsum := sumErr_all (width_valid hw) (hacc (by rw [hr.len]; exact h3)) hlo hhi hmin h0 hδ hE hM hcle hb hr htgt h3 hn2
    (by rw [hcl, hr.len]) (by rw [hr.len]) h4 r hrm (by omega)
  rw [hnr.id, hnr.sum, hnr.hists, ← hE']
  refine ⟨?_, fun f b m hc => ?_⟩
  · obtain ⟨s, hs, herr⟩ := hsum.total
    rw [gradientSum_eq hcodes hnd hlt] at herr
    exact ⟨s, hs, herr.trans (mul_le_mul_of_nonneg_right (by nlinarith) hE0)⟩
  · obtain ⟨v, s, hv, hs, herr⟩ := hsum.hist f b m hc
    rw [gradientSum_eq hcodes (hnd.filter _) (fun i hi' => hlt i (List.mem_of_mem_filter hi')), inside_eq rfl] at herr
    exact ⟨v, s, hv, hs, herr.trans (mul_le_mul_of_nonneg_right hlevq hE0)⟩

/-- Any `min_examples_leaf`, exact arithmetic: the sum in the histogram of a candidate is off by at most
`max_tree_depth * (min_examples_leaf - 1) * G`, where `G` bounds the discretised gradients; the sum of the node by
at most `max_tree_depth` times that. So it is exact for `min_examples_leaf = 1`. (Missing: that the sums are exact for
larger values, which is false, see `C42_min_examples_refuted`.) -/
theorem C42_sums_min_partial (cfg : Config) (d : Data) (rng : Rng) (k : Nat) (ds : Dataset)
    (hds : Updated .exact cfg d rng k ds) (rows : List Nat) (hrows : Active ds rows) (hd : Rectangular d)
    (hsize : rows.length ≤ 2 ^ 32 - 256) (hmin : 1 ≤ cfg.minExamplesLeaf)
    (o : Objective) (w : Nat) (hw : width cfg = .ok w) (lo hi G : ℚ) (hb : o.bounds = (.fin lo, .fin hi))
    (hlo : |lo| ≤ G) (hhi : |hi| ≤ G) (st : State) (hst : Training .exact cfg ds ds.supercats w o st) :
    ∃ msk, SplitMasks .exact ds st.tree msk ∧ ∀ n ∈ st.stack,
      (∃ s, n.gradSum = .fin s ∧
        |s - gradientSum .exact w lo hi o.gradients rows (examplesAt st.tree msk rows.length n.nodeId)| ≤
          (cfg.maxTreeDepth : ℚ) ^ 2 * (((cfg.minExamplesLeaf : ℚ) - 1) * G)) ∧
      ∀ f b m, Candidate ds f b m → ∃ v s, histAt n.hists f b = .ok v ∧ v.gradSum = .fin s ∧
        |s - gradientSum .exact w lo hi o.gradients rows (inside (examplesAt st.tree msk rows.length n.nodeId) m)| ≤
          (cfg.maxTreeDepth : ℚ) * (((cfg.minExamplesLeaf : ℚ) - 1) * G) :=
  sums_err .exact cfg d rng k ds hds rows hrows hd hsize hmin o w hw lo hi G hb hlo hhi
    (fun _ => accurate_exact (width_valid hw) lo hi _ _) le_rfl le_rfl (by linarith) le_rfl st hst

/-- The accuracy of single precision for the sums of a tree. -/
private theorem conds32 {w N m D : Nat} {lo hi G : ℚ} (hw : validWidth w) (hpos : 0 < N) (hsize : N ≤ 2 ^ 32 - 256)
    (hmin : 1 ≤ m) (hmin2 : m < 2 ^ 32) (hdep : D ≤ 500) (hlo : |lo| ≤ G) (hhi : |hi| ≤ G) (hG1 : 1 / 2 ^ 100 ≤ G)
    (hG2 : G ≤ 2 ^ 60) :
    ∃ M δ β, Accurate .binary32 w lo hi N M δ β ∧ 0 ≤ β ∧ 0 ≤ δ ∧
      β + ((m : ℚ) - 1) * G + δ ≤ G * (2 * ((m : ℚ) - 1) + N / 2 ^ 18) ∧
      (N : ℚ) * G + ((D : ℚ) + 1) ^ 2 * (G * (2 * ((m : ℚ) - 1) + N / 2 ^ 18)) ≤ M := by
  have hG0 : 0 < G := lt_of_lt_of_le (by norm_num) hG1
  have hm1 : (1 : ℚ) ≤ m := by exact_mod_cast hmin
  have hm2 : (m : ℚ) ≤ 4294967296 := by exact_mod_cast hmin2.le
  have hN1 : (1 : ℚ) ≤ N := by exact_mod_cast hpos
  have hN2 : (N : ℚ) ≤ 4294967296 := by exact_mod_cast hsize.trans (by norm_num)
  have hD0 : (0 : ℚ) ≤ D := by positivity
  have hD : (D : ℚ) ≤ 500 := by exact_mod_cast hdep
  have hlen : N ≤ 2 ^ 32 := hsize.trans (by norm_num)
  generalize hx : (m : ℚ) - 1 = x
  have hx0 : 0 ≤ x := by linarith
  have hx1 : x ≤ 4294967296 := by linarith
  have hNG : G ≤ N * G := by nlinarith
  have hNG2 : (N : ℚ) * G ≤ 4294967296 * 2 ^ 60 := mul_le_mul hN2 hG2 hG0.le (by norm_num)
  have hxG0 : 0 ≤ x * G := mul_nonneg hx0 hG0.le
  have hxG : x * G ≤ 4294967296 * 2 ^ 60 := mul_le_mul hx1 hG2 hG0.le (by norm_num)
  have hQ : ((D : ℚ) + 1) ^ 2 ≤ 251001 := by nlinarith
  have hQ0 : 0 ≤ ((D : ℚ) + 1) ^ 2 := by positivity
  have hacc := accurate32 (M := 4 * (N * G) + 2 ^ 20 * (x * G)) hw hlo hhi
    hG1 hG2 hpos hlen (by norm_num at hNG2 hxG ⊢; linarith)
  refine ⟨_, _, _, hacc, by positivity, by positivity, ?_, ?_⟩
  · norm_num at hG1 ⊢
    linarith
  · have h1 : G * (2 * x + (N : ℚ) / 2 ^ 18) ≤ 2 * (x * G) + N * G / 2 ^ 18 := by
      apply le_of_eq; ring
    have h2 : 0 ≤ 2 * (x * G) + N * G / 2 ^ 18 := by positivity
    calc _ ≤ (N : ℚ) * G + 251001 * (2 * (x * G) + N * G / 2 ^ 18) :=
          add_le_add le_rfl (mul_le_mul hQ h1 (by positivity) (by norm_num))
      _ ≤ _ := by norm_num; linarith

/-- Single precision, any `min_examples_leaf`: the sum in the histogram of a candidate is finite and differs from the exact
sum of the discretised gradients of the examples by at most `max_tree_depth * G * (2 * (min_examples_leaf - 1) + N / 2 ^ 18)`,
where `G` bounds the gradient bounds and `N` is the number of active examples; the sum of the node by at most
`max_tree_depth` times that. For `min_examples_leaf = 1` this is the accumulated rounding error. (Missing: equality, which is
false.) -/
theorem C42_sums_f32_partial (cfg : Config) (d : Data) (rng : Rng) (k : Nat) (ds : Dataset)
    (hds : Updated .binary32 cfg d rng k ds) (rows : List Nat) (hrows : Active ds rows) (hd : Rectangular d)
    (hsize : rows.length ≤ 2 ^ 32 - 256) (hmin : 1 ≤ cfg.minExamplesLeaf) (hmin2 : cfg.minExamplesLeaf < 2 ^ 32)
    (hdep : cfg.maxTreeDepth ≤ 500)
    (o : Objective) (w : Nat) (hw : width cfg = .ok w) (lo hi G : ℚ) (hb : o.bounds = (.fin lo, .fin hi))
    (hlo : |lo| ≤ G) (hhi : |hi| ≤ G) (hG1 : 1 / 2 ^ 100 ≤ G) (hG2 : G ≤ 2 ^ 60)
    (st : State) (hst : Training .binary32 cfg ds ds.supercats w o st) :
    ∃ msk, SplitMasks .binary32 ds st.tree msk ∧ ∀ n ∈ st.stack,
      (∃ s, n.gradSum = .fin s ∧
        |s - gradientSum .binary32 w lo hi o.gradients rows (examplesAt st.tree msk rows.length n.nodeId)| ≤
          (cfg.maxTreeDepth : ℚ) ^ 2 * (G * (2 * ((cfg.minExamplesLeaf : ℚ) - 1) + rows.length / 2 ^ 18))) ∧
      ∀ f b m, Candidate ds f b m → ∃ v s, histAt n.hists f b = .ok v ∧ v.gradSum = .fin s ∧
        |s - gradientSum .binary32 w lo hi o.gradients rows (inside (examplesAt st.tree msk rows.length n.nodeId) m)| ≤
          (cfg.maxTreeDepth : ℚ) * (G * (2 * ((cfg.minExamplesLeaf : ℚ) - 1) + rows.length / 2 ^ 18)) := by
  have hpos : 0 < rows.length := by
    obtain ⟨ps, codes, rst, targets, done, msk, h1, h2, h3, h4, h5, htgt, hinv⟩ :=
      split_reach .binary32 cfg d rng k ds hds rows hrows hd hsize hmin o w hw hst
    rw [(rowsOk hds hrows).len]
    exact h3
  obtain ⟨M, δ, β, hacc, hβ, hδ, hE, hM⟩ := conds32 (width_valid hw) hpos hsize hmin hmin2 hdep hlo hhi hG1 hG2
  exact sums_err .binary32 cfg d rng k ds hds rows hrows hd hsize hmin o w hw lo hi G hb hlo hhi (fun _ => hacc) hβ hδ hE hM
    st hst

/-- With exact arithmetic and `min_examples_leaf = 1`, every split of a trained tree is a best admissible split of the
examples of its node for the discretised gradients, and gains more than `min_gain`; and no leaf above the maximal depth has
an admissible split that gains more than `min_gain`. (Missing: `f32` rounding; larger values of `min_examples_leaf`, where
it is false, see `C43_min_examples_refuted`.) -/
theorem C43_tree_partial (cfg : Config) (d : Data) (rng : Rng) (k : Nat) (ds : Dataset)
    (hds : Updated .exact cfg d rng k ds) (rows : List Nat) (hrows : Active ds rows) (hd : Rectangular d)
    (hsize : rows.length ≤ 2 ^ 32 - 256) (hmin : cfg.minExamplesLeaf = 1)
    (o : Objective) (fuel : Nat) (t : Tree) (o' : Objective)
    (ht : train .exact cfg ds ds.supercats o fuel = .ok (some (t, o')))
    (lo hi : ℚ) (hb : o.bounds = (.fin lo, .fin hi)) (lambda : ℚ) (hlam : cfg.regLambda = .fin lambda) (h0 : 0 ≤ lambda)
    (mg : ℚ) (hmg : cfg.minGain = .fin mg) :
    ∃ msk, SplitMasks .exact ds t msk ∧
      (∀ (n : Nat) (c : SplitCrit), t.splitCrits[n]? = some c → c.splitType ≠ .noSplit →
        BestSplit .exact cfg ds mg
          (maskGain .exact lambda cfg.discrNbits lo hi o.gradients rows (examplesAt t msk rows.length n))
          (examplesAt t msk rows.length n) c (msk n)) ∧
      (∀ n, IsLeaf t n → n < 2 ^ cfg.maxTreeDepth - 1 →
        NoSplitPays cfg ds mg
          (maskGain .exact lambda cfg.discrNbits lo hi o.gradients rows (examplesAt t msk rows.length n))
          (examplesAt t msk rows.length n)) := by
  have hr := rowsOk hds hrows
  have hn : ds.nactiveExamples ≤ 2 ^ 32 - 256 := by rw [← hr.len]; exact hsize
  obtain ⟨targets, htgt⟩ := target_ok d hd ds hds.inv.data
  obtain ⟨w, ps, codes, o1, hw, h1, h2, h3, h4, _⟩ := train_reached hn hds.masksOk (by omega) ht
  have hwd : w = cfg.discrNbits := by
    unfold width at hw
    split at hw
    · exact (Out.ok.inj hw).symm
    · cases hw
  obtain ⟨hcl, hcodes⟩ := codes_get hrows h1 h2
  rw [hb] at hcodes
  obtain ⟨done, msk, hinv, a1, a2⟩ := decided (ε := 0) hmg (by omega) hr htgt h3 (by omega)
    (fun h n hn _ hok hnd hlt => close_exact hlam h0 (by omega) hcodes hok
      (sumInv_all (width_valid hw) hmin hb hr htgt h3 (by omega) (by rw [hcl, hr.len]) h n hn) hnd hlt) h4
  rw [← hwd]
  refine ⟨msk, hinv.parts.tests, fun n c hc hne => ?_, fun n hn hnd => ?_⟩
  · obtain ⟨f, b, q1, q2, q3, q4, q5⟩ := a1 n c hc hne
    simp only [mul_zero, add_zero, sub_zero] at q4 q5
    exact ⟨f, b, q1, q2, q3, q4, q5⟩
  · have := (hinv.parts.leaves n).1 hn
    simp only [open', List.map_nil, List.append_nil] at this
    obtain ⟨p, hp, rfl⟩ := List.mem_map.1 this
    have := a2 p hp hnd
    rwa [add_zero] at this

/-- Common part of the two theorems below. -/
private theorem tree_close (F : FP) (cfg : Config) (d : Data) (rng : Rng) (k : Nat) (ds : Dataset)
    (hds : Updated F cfg d rng k ds) (rows : List Nat) (hrows : Active ds rows) (hd : Rectangular d)
    (hsize : rows.length ≤ 2 ^ 32 - 256) (hmin : 1 ≤ cfg.minExamplesLeaf)
    (o : Objective) (fuel : Nat) (t : Tree) (o' : Objective)
    (ht : train F cfg ds ds.supercats o fuel = .ok (some (t, o')))
    (lo hi G : ℚ) (hb : o.bounds = (.fin lo, .fin hi)) (hlo : |lo| ≤ G) (hhi : |hi| ≤ G) (lambda : ℚ)
    (mg : ℚ) (hmg : cfg.minGain = .fin mg) (E ε : ℚ)
    (hacc : ∀ w, validWidth w → 0 < rows.length → ∃ M δ β, Accurate F w lo hi rows.length M δ β ∧ 0 ≤ β ∧ 0 ≤ δ ∧
      β + ((cfg.minExamplesLeaf : ℚ) - 1) * G + δ ≤ E ∧
      (rows.length : ℚ) * G + ((cfg.maxTreeDepth : ℚ) + 1) ^ 2 * E ≤ M)
    (hgain : ∀ (n nl : Nat) (v : HistVal) (sp sl g gl gr : ℚ), v.gradSum = .fin sl → v.count = nl → 1 ≤ nl → nl < n →
      n < 2 ^ 32 → n ≤ rows.length → |g| ≤ n * G → |gl| ≤ nl * G → |gr| ≤ (n - nl : ℕ) * G → g = gl + gr →
      |sp - g| ≤ (cfg.maxTreeDepth : ℚ) ^ 2 * E → |sl - gl| ≤ cfg.maxTreeDepth * E →
      ∃ q, gain F cfg (.fin sp) n v = .fin q ∧ |q - splitGain lambda g n gl nl gr (n - nl)| ≤ ε) :
    ∃ msk, SplitMasks F ds t msk ∧
      (∀ (n : Nat) (c : SplitCrit), t.splitCrits[n]? = some c → c.splitType ≠ .noSplit →
        NearBestSplit F cfg ds mg ε
          (maskGain F lambda cfg.discrNbits lo hi o.gradients rows (examplesAt t msk rows.length n))
          (examplesAt t msk rows.length n) c (msk n)) ∧
      (∀ n, IsLeaf t n → n < 2 ^ cfg.maxTreeDepth - 1 →
        NoSplitPays cfg ds (mg + ε)
          (maskGain F lambda cfg.discrNbits lo hi o.gradients rows (examplesAt t msk rows.length n))
          (examplesAt t msk rows.length n)) := by
  have hr := rowsOk hds hrows
  have hn : ds.nactiveExamples ≤ 2 ^ 32 - 256 := by rw [← hr.len]; exact hsize
  obtain ⟨targets, htgt⟩ := target_ok d hd ds hds.inv.data
  obtain ⟨w, ps, codes, o1, hw, h1, h2, h3, h4, _⟩ := train_reached hn hds.masksOk hmin ht
  have hwd : w = cfg.discrNbits := by
    unfold width at hw
    split at hw
    · exact (Out.ok.inj hw).symm
    · cases hw
  obtain ⟨hcl, hcodes⟩ := codes_get hrows h1 h2
  rw [hb] at hcodes
  have hG : 0 ≤ G := (abs_nonneg _).trans hlo
  have hcle : ∀ i, codes.getD i 0 ≤ 2 ^ w - 1 := by
    intro i
    by_cases hi' : i < rows.length
    · rw [hcodes i hi']
      exact C15_code_in_range_any F (width_valid hw) _ _ _
    · rw [List.getD_eq_getElem?_getD, List.getElem?_eq_none (by omega)]
      exact Nat.zero_le _
  obtain ⟨M, δ, β, ha, hβ, hδ, hE, hM⟩ := hacc w (width_valid hw) (by rw [hr.len]; exact h3)
  have hE0 : 0 ≤ E := by
    have hm1 : (0 : ℚ) ≤ (cfg.minExamplesLeaf : ℚ) - 1 := by
      have : (1 : ℚ) ≤ cfg.minExamplesLeaf := by exact_mod_cast hmin
      linarith
    have := mul_nonneg hm1 hG
    linarith
  obtain ⟨done, msk, hinv, a1, a2⟩ := decided (ε := ε) (lambda := lambda) hmg hmin hr htgt h3 (by omega)
    (fun {st'} h n hn hinn hok hnd hlt => by
      have hlev : level n.nodeId < cfg.maxTreeDepth := by
        unfold level
        exact (Nat.log2_lt (by omega)).2 (by omega)
      exact close_of (width_valid hw) hlo hhi hmin hcle hcodes hgain hok
        (sumErr_all (width_valid hw) ha hlo hhi hmin hβ hδ hE hM hcle hb hr htgt h3 (by omega)
          (by rw [hcl, hr.len]) (by rw [hr.len]) h n hn hlev.le) hE0 hlev hnd hlt) h4
  rw [← hwd]
  refine ⟨msk, hinv.parts.tests, a1, fun n hn hnd => ?_⟩
  have := (hinv.parts.leaves n).1 hn
  simp only [open', List.map_nil, List.append_nil] at this
  obtain ⟨p, hp, rfl⟩ := List.mem_map.1 this
  exact a2 p hp hnd

/-- The same for any `min_examples_leaf`, up to an error: with `G` a bound of the gradient bounds, and
`r = (max_tree_depth + 1) ^ 2 * (min_examples_leaf - 1)`, all gains are computed up to an error `(3 r + 2 r ^ 2) G ^ 2`. So
the split of a node is best up to twice this error, and a leaf above the maximal depth has no admissible split that gains
more than `min_gain` and this error. (Missing: the error can be avoided only for `min_examples_leaf = 1`, see
`C43_min_examples_refuted`.) -/
theorem C43_tree_min_partial (cfg : Config) (d : Data) (rng : Rng) (k : Nat) (ds : Dataset)
    (hds : Updated .exact cfg d rng k ds) (rows : List Nat) (hrows : Active ds rows) (hd : Rectangular d)
    (hsize : rows.length ≤ 2 ^ 32 - 256) (hmin : 1 ≤ cfg.minExamplesLeaf)
    (o : Objective) (fuel : Nat) (t : Tree) (o' : Objective)
    (ht : train .exact cfg ds ds.supercats o fuel = .ok (some (t, o')))
    (lo hi G : ℚ) (hb : o.bounds = (.fin lo, .fin hi)) (hlo : |lo| ≤ G) (hhi : |hi| ≤ G)
    (lambda : ℚ) (hlam : cfg.regLambda = .fin lambda) (h0 : 0 ≤ lambda) (mg : ℚ) (hmg : cfg.minGain = .fin mg) :
    let r := ((cfg.maxTreeDepth : ℚ) + 1) ^ 2 * ((cfg.minExamplesLeaf : ℚ) - 1)
    let ε := (3 * r + 2 * r ^ 2) * G ^ 2
    ∃ msk, SplitMasks .exact ds t msk ∧
      (∀ (n : Nat) (c : SplitCrit), t.splitCrits[n]? = some c → c.splitType ≠ .noSplit →
        NearBestSplit .exact cfg ds mg ε
          (maskGain .exact lambda cfg.discrNbits lo hi o.gradients rows (examplesAt t msk rows.length n))
          (examplesAt t msk rows.length n) c (msk n)) ∧
      (∀ n, IsLeaf t n → n < 2 ^ cfg.maxTreeDepth - 1 →
        NoSplitPays cfg ds (mg + ε)
          (maskGain .exact lambda cfg.discrNbits lo hi o.gradients rows (examplesAt t msk rows.length n))
          (examplesAt t msk rows.length n)) := by
  intro r ε
  have hG : 0 ≤ G := (abs_nonneg _).trans hlo
  have hm1 : (0 : ℚ) ≤ (cfg.minExamplesLeaf : ℚ) - 1 := by
    have : (1 : ℚ) ≤ cfg.minExamplesLeaf := by exact_mod_cast hmin
    linarith
  refine tree_close .exact cfg d rng k ds hds rows hrows hd hsize hmin o fuel t o' ht lo hi G hb hlo hhi lambda mg hmg
    (((cfg.minExamplesLeaf : ℚ) - 1) * G) ε
    (fun w hw _ => ⟨_, 0, 0, accurate_exact hw lo hi _ _, le_rfl, le_rfl, by linarith, le_rfl⟩) ?_
  intro n nl v sp sl g gl gr hv hc h1 h2 h3 _ hg hgl hgr hs hp hl
  obtain ⟨q, q1, q2⟩ := gain_off (e := r * G) hlam h0 hv hc h1 h2 h3 hg hgl hgr hs hp hl (by
    have hD0 : (0 : ℚ) ≤ cfg.maxTreeDepth := by positivity
    have := mul_nonneg hm1 hG
    simp only [r]
    nlinarith)
  refine ⟨q, q1, q2.trans (le_of_eq ?_)⟩
  simp only [ε]
  ring

private theorem numbers32 {D N m G x : ℚ} (hD0 : 0 ≤ D) (hD : D ≤ 500) (hN1 : 1 ≤ N) (hN2 : N ≤ 2 ^ 32) (hm1 : 1 ≤ m)
    (hm2 : m ≤ 2 ^ 20) (hG1 : 1 / 2 ^ 60 ≤ G) (hG2 : G ≤ 2 ^ 20) (hx : x = 2 * (m - 1) + N / 2 ^ 18) :
    D ^ 2 * (G * x) + D * (G * x) + (N * G + D ^ 2 * (G * x) + D * (G * x)) / 2 ^ 24 + 1 / 2 ^ 150 ≤
        (D + 1) ^ 2 * x * G ∧ (D + 1) ^ 2 * x * G ≤ 2 ^ 60 ∧ N * G / 2 ^ 18 ≤ (D + 1) ^ 2 * x * G := by
  have hG0 : 0 < G := lt_of_lt_of_le (by norm_num) hG1
  have hx0 : N / 2 ^ 18 ≤ x := by linarith
  have hx1 : x ≤ 2 ^ 22 := by
    have : N / 2 ^ 18 ≤ 2 ^ 14 := by
      rw [div_le_iff₀ (by norm_num)]
      exact hN2.trans (by norm_num)
    have e : (2 : ℚ) * 2 ^ 20 + 2 ^ 14 ≤ 2 ^ 22 := by norm_num
    linarith
  have hxp : 0 < x := lt_of_lt_of_le (by positivity) hx0
  have hQ : (D + 1) ^ 2 ≤ 501 ^ 2 := pow_le_pow_left₀ (by linarith) (by linarith) 2
  have hQ1 : 1 ≤ (D + 1) ^ 2 := one_le_pow₀ (by linarith)
  have hGx : 0 < G * x := mul_pos hG0 hxp
  have hGx2 : G * x ≤ 2 ^ 20 * 2 ^ 22 := mul_le_mul hG2 hx1 hxp.le (by norm_num)
  have hNG : N * G / 2 ^ 18 ≤ G * x := by
    calc N * G / 2 ^ 18 = G * (N / 2 ^ 18) := by ring
      _ ≤ G * x := mul_le_mul_of_nonneg_left hx0 hG0.le
  have hrG : (D + 1) ^ 2 * x * G = (D + 1) ^ 2 * (G * x) := by ring
  have hsm : (1 : ℚ) / 2 ^ 150 ≤ G * x / 4 := by
    have h4 : G * 1 ≤ N * G := by rw [mul_comm N]; exact mul_le_mul_of_nonneg_left hN1 hG0.le
    have h5 : (1 : ℚ) / 2 ^ 60 / 2 ^ 18 ≤ N * G / 2 ^ 18 := div_le_div_of_nonneg_right (by linarith) (by norm_num)
    have h6 : (1 : ℚ) / 2 ^ 150 ≤ 1 / 2 ^ 60 / 2 ^ 18 / 4 := by norm_num
    linarith
  rw [hrG]
  clear hG1 hG2 hx hx0 hx1 hN1 hN2 hm1 hm2
  refine ⟨?_, ?_, ?_⟩
  · have k0 : D ^ 2 + D ≤ 250500 := by
      have := pow_le_pow_left₀ hD0 hD 2
      linarith
    have k1 := mul_le_mul_of_nonneg_right k0 hGx.le
    have k2 : (D + 1) ^ 2 * (G * x) = D ^ 2 * (G * x) + D * (G * x) + D * (G * x) + G * x := by ring
    have k3 : 0 ≤ D * (G * x) := mul_nonneg hD0 hGx.le
    rw [add_mul] at k1
    rw [k2]
    generalize D ^ 2 * (G * x) = A at *
    generalize D * (G * x) = B at *
    generalize G * x = y at *
    generalize N * G = z at *
    have k5 : (z + A + B) / 2 ^ 24 = z / 2 ^ 18 / 64 + (A + B) / 2 ^ 24 := by ring
    have k6 : (A + B) / 2 ^ 24 ≤ 250500 * y / 2 ^ 24 := div_le_div_of_nonneg_right k1 (by norm_num)
    rw [k5]
    have k7 : 250500 * y / 2 ^ 24 = 250500 / 2 ^ 24 * y := by ring
    have k8 : (250500 : ℚ) / 2 ^ 24 ≤ 1 / 4 := by norm_num
    have k9 := mul_le_mul_of_nonneg_right k8 hGx.le
    linarith
  · calc (D + 1) ^ 2 * (G * x) ≤ 501 ^ 2 * (2 ^ 20 * 2 ^ 22) := mul_le_mul hQ hGx2 hGx.le (by norm_num)
      _ ≤ 2 ^ 60 := by norm_num
  · have : 1 * (G * x) ≤ (D + 1) ^ 2 * (G * x) := mul_le_mul_of_nonneg_right hQ1 hGx.le
    linarith

/-- The same for the `f32` arithmetic of the code: with `N` active examples, `G` a bound of the gradient bounds, and
`r = (max_tree_depth + 1) ^ 2 * (2 * (min_examples_leaf - 1) + N / 2 ^ 18)`, all gains are computed up to an error
`(5 r + 2 r ^ 2) G ^ 2`. For `min_examples_leaf = 1` this is the accumulated rounding error. (Missing: without an error the
property is false.) -/
theorem C43_tree_f32_partial (cfg : Config) (d : Data) (rng : Rng) (k : Nat) (ds : Dataset)
    (hds : Updated .binary32 cfg d rng k ds) (rows : List Nat) (hrows : Active ds rows) (hd : Rectangular d)
    (hsize : rows.length ≤ 2 ^ 32 - 256) (hmin : 1 ≤ cfg.minExamplesLeaf) (hmin2 : cfg.minExamplesLeaf ≤ 2 ^ 20)
    (hdep : cfg.maxTreeDepth ≤ 500)
    (o : Objective) (fuel : Nat) (t : Tree) (o' : Objective)
    (ht : train .binary32 cfg ds ds.supercats o fuel = .ok (some (t, o')))
    (lo hi G : ℚ) (hb : o.bounds = (.fin lo, .fin hi)) (hlo : |lo| ≤ G) (hhi : |hi| ≤ G) (hG1 : 1 / 2 ^ 60 ≤ G)
    (hG2 : G ≤ 2 ^ 20) (lambda : ℚ) (hlam : cfg.regLambda = .fin lambda) (h0 : 0 ≤ lambda) (hlam2 : lambda ≤ 2 ^ 60)
    (mg : ℚ) (hmg : cfg.minGain = .fin mg) :
    let r := ((cfg.maxTreeDepth : ℚ) + 1) ^ 2 * (2 * ((cfg.minExamplesLeaf : ℚ) - 1) + rows.length / 2 ^ 18)
    let ε := (5 * r + 2 * r ^ 2) * G ^ 2
    ∃ msk, SplitMasks .binary32 ds t msk ∧
      (∀ (n : Nat) (c : SplitCrit), t.splitCrits[n]? = some c → c.splitType ≠ .noSplit →
        NearBestSplit .binary32 cfg ds mg ε
          (maskGain .binary32 lambda cfg.discrNbits lo hi o.gradients rows (examplesAt t msk rows.length n))
          (examplesAt t msk rows.length n) c (msk n)) ∧
      (∀ n, IsLeaf t n → n < 2 ^ cfg.maxTreeDepth - 1 →
        NoSplitPays cfg ds (mg + ε)
          (maskGain .binary32 lambda cfg.discrNbits lo hi o.gradients rows (examplesAt t msk rows.length n))
          (examplesAt t msk rows.length n)) := by
  intro r ε
  have hG0 : 0 < G := lt_of_lt_of_le (by norm_num) hG1
  have hpos : 1 ≤ rows.length := by
    obtain ⟨w, ps, codes, o1, hw, h1, h2, h3, h4, _⟩ := train_reached (by rw [← (rowsOk hds hrows).len]; exact hsize)
      hds.masksOk hmin ht
    rw [(rowsOk hds hrows).len]
    exact h3
  have hm1 : (1 : ℚ) ≤ cfg.minExamplesLeaf := by exact_mod_cast hmin
  have hm2 : (cfg.minExamplesLeaf : ℚ) ≤ 2 ^ 20 := by exact_mod_cast hmin2
  have hN1 : (1 : ℚ) ≤ rows.length := by exact_mod_cast hpos
  have hN2 : (rows.length : ℚ) ≤ 2 ^ 32 := by exact_mod_cast hsize.trans (by norm_num)
  have hD0 : (0 : ℚ) ≤ cfg.maxTreeDepth := by positivity
  have hD : (cfg.maxTreeDepth : ℚ) ≤ 500 := by exact_mod_cast hdep
  refine tree_close .binary32 cfg d rng k ds hds rows hrows hd hsize hmin o fuel t o' ht lo hi G hb hlo hhi lambda mg hmg
    (G * (2 * ((cfg.minExamplesLeaf : ℚ) - 1) + rows.length / 2 ^ 18)) ε
    (fun w hw hp => conds32 hw hp hsize hmin (by omega) hdep hlo hhi (le_trans (by norm_num) hG1)
      (hG2.trans (by norm_num))) ?_
  intro n nl v sp sl g gl gr hv hc h1 h2 h3 hle hg hgl hgr hs hp hl
  have hle' : (n : ℚ) ≤ rows.length := by exact_mod_cast hle
  obtain ⟨x, hx⟩ : ∃ x : ℚ, x = 2 * ((cfg.minExamplesLeaf : ℚ) - 1) + rows.length / 2 ^ 18 := ⟨_, rfl⟩
  rw [← hx] at hp hl
  have hr' : r = ((cfg.maxTreeDepth : ℚ) + 1) ^ 2 * x := by simp only [r, hx]
  obtain ⟨c1, c2, c3⟩ := numbers32 hD0 hD hN1 hN2 hm1 hm2 hG1 hG2 hx
  obtain ⟨q, q1, q2⟩ := gain32 (e := r * G) (N := rows.length) hlam h0 hlam2 hv hc h1 h2 h3 hle' hN2 hG1 hG2 hg hgl hgr hs hp hl
    (by rw [hr']; exact c1) (by rw [hr']; exact c2) (by rw [hr']; exact c3)
  refine ⟨q, q1, q2.trans (le_of_eq ?_)⟩
  simp only [ε]
  ring

/-! ## Larger values of `min_examples_leaf` -/

private theorem run_check {F : FP} {cfg : Config} {d : Data} {rng : Rng} {gs : List (List Num × (Num × Num))}
    {o : Objective} {fuel : Nat} (p : Dataset → Tree → Objective → Bool)
    (h : (match exampleRun F cfg d rng gs with
      | .ok ds => (match train F cfg ds ds.supercats o fuel with | .ok (some (t, o')) => p ds t o' | _ => false)
      | _ => false) = true) :
    ∃ ds t o', Updated F cfg d rng gs.length ds ∧ train F cfg ds ds.supercats o fuel = .ok (some (t, o')) ∧
      p ds t o' = true := by
  obtain ⟨ds, h1, h2⟩ := exampleRun_check (fun ds => match train F cfg ds ds.supercats o fuel with
    | .ok (some (t, o')) => p ds t o' | _ => false) h
  cases e : train F cfg ds ds.supercats o fuel with
  | panic => rw [e] at h2; cases h2
  | ub => rw [e] at h2; cases h2
  | ok r =>
    rw [e] at h2
    cases r with
    | none => cases h2
    | some q => exact ⟨ds, q.1, q.2, h1, e, h2⟩

private def minCfg : Config := { Config.new with maxNbins := 3, maxTreeDepth := 2, minExamplesLeaf := 2 }
private def minData : Data :=
  ⟨3, [], 2, 9,
    [⟨[.fin 0, .fin 0, .fin 0, .fin 1, .fin 1, .fin 1, .fin 1, .fin 1, .fin 1], .fin 0, .fin 1, .loCardCat, 2⟩,
     ⟨[.fin 0, .fin 1, .fin 2, .fin 0, .fin 0, .fin 1, .fin 1, .fin 2, .fin 2], .fin 0, .fin 2, .loCardCat, 3⟩,
     ⟨[.fin (-7), .fin (-7), .fin (-7), .fin 2, .fin 2, .fin 0, .fin 0, .fin 0, .fin 0], .fin (-7), .fin 2, .numerical, 0⟩]⟩
private def minObj : Objective :=
  { Objective.new .l2 with
    learningRate := .fin 1, predictions := List.replicate 9 (.fin 0)
    gradients := [.fin 7, .fin 7, .fin 7, .fin (-2), .fin (-2), .fin 0, .fin 0, .fin 0, .fin 0]
    l2bounds := (.fin (-8), .fin 7) }

/-- The facts about the run that are found by evaluation. -/
private def bits (ds : Dataset) (f b : Nat) : List Bool :=
  match ds.getBitvec f b with
  | .ok m => (List.range 9).map (bitAt m)
  | _ => []

private structure MinRun (ds : Dataset) : Prop where
  rows : ds.activePairs = .ok ((List.range 9).zip (List.range 9))
  feats : ds.activeFeatures = .ok [0, 1]
  nb0 : ds.getNbins 0 = .ok 1
  nb1 : ds.getNbins 1 = .ok 3
  v0 : ds.getSplitValue .exact 1 0 = .ok (.fin 0)
  v1 : ds.getSplitValue .exact 1 1 = .ok (.fin 1)
  v2 : ds.getSplitValue .exact 1 2 = .ok (.fin 2)
  b00 : bits ds 0 0 = [true, true, true, false, false, false, false, false, false]
  b10 : bits ds 1 0 = [true, false, false, true, true, false, false, false, false]
  b11 : bits ds 1 1 = [false, true, false, false, false, true, true, false, false]

private def minRunB (ds : Dataset) : Bool :=
  decide (ds.activePairs = .ok ((List.range 9).zip (List.range 9))) && decide (ds.activeFeatures = .ok [0, 1]) &&
  decide (ds.getNbins 0 = .ok 1) && decide (ds.getNbins 1 = .ok 3) &&
  decide (ds.getSplitValue .exact 1 0 = .ok (.fin 0)) && decide (ds.getSplitValue .exact 1 1 = .ok (.fin 1)) &&
  decide (ds.getSplitValue .exact 1 2 = .ok (.fin 2)) &&
  decide (bits ds 0 0 = [true, true, true, false, false, false, false, false, false]) &&
  decide (bits ds 1 0 = [true, false, false, true, true, false, false, false, false]) &&
  decide (bits ds 1 1 = [false, true, false, false, false, true, true, false, false])

private theorem minRun {ds : Dataset} (h : minRunB ds = true) : MinRun ds := by
  simp only [minRunB, Bool.and_eq_true, decide_eq_true_eq] at h
  obtain ⟨⟨⟨⟨⟨⟨⟨⟨⟨a1, a2⟩, a3⟩, a4⟩, a5⟩, a6⟩, a7⟩, a8⟩, a9⟩, a10⟩ := h
  exact ⟨a1, a2, a3, a4, a5, a6, a7, a8, a9, a10⟩

private theorem bits_at {m : Blocks} {bs : List Bool} (h : (List.range 9).map (bitAt m) = bs) {i : Nat} (hi : i < 9) :
    inMask m i ↔ bs.getD i false = true := by
  rw [← bitAt_iff, ← h, List.getD_eq_getElem?_getD, List.getElem?_map, List.getElem?_range hi]
  rfl

private theorem inside_bits {m : Blocks} {bs : List Bool} (h : (List.range 9).map (bitAt m) = bs) {E : Finset Nat}
    (hE : ∀ i ∈ E, i < 9) :
    inside E m = E.filter (fun i => bs.getD i false = true) ∧ outside E m = E.filter fun i => ¬ bs.getD i false = true := by
  unfold inside outside
  constructor
  · ext i
    simp only [Finset.mem_filter]
    exact and_congr_right fun hi => bits_at h (hE i hi)
  · ext i
    simp only [Finset.mem_filter]
    exact and_congr_right fun hi => not_congr (bits_at h (hE i hi))

private theorem bits_ok {ds : Dataset} {f b : Nat} {x : Bool} {bs : List Bool} (h : bits ds f b = x :: bs) :
    ∃ m, ds.getBitvec f b = .ok m ∧ (List.range 9).map (bitAt m) = x :: bs := by
  unfold bits at h
  split at h
  · rename_i m hm
    exact ⟨m, hm, h⟩
  · cases h

/-- The right child of the root. -/
private theorem examplesAt_right {t : Tree} {msk : Nat → Blocks} {N : Nat} (h : IsSplit t 0) :
    examplesAt t msk N 2 = outside (Finset.range N) (msk 0) := by
  unfold examplesAt outside
  ext i
  simp only [Finset.mem_filter, Finset.mem_range]
  refine and_congr_right fun _ => ⟨fun hi => ?_, fun hi => .right .root h hi⟩
  generalize hx : 2 = x at hi
  cases hi with
  | root => cases hx
  | left _ _ _ => omega
  | @right n _ _ h3 =>
    have : n = 0 := by omega
    subst this
    exact h3

private theorem min_node2 {ds : Dataset} (hr : MinRun ds) {t : Tree} {msk : Nat → Blocks}
    (hc0 : t.splitCrits[0]? = some ⟨.loCardCatEq, 0, .fin 0⟩) (hm : SplitMasks .exact ds t msk) :
    examplesAt t msk 9 2 = {3, 4, 5, 6, 7, 8} := by
  have hsp : IsSplit t 0 := ⟨_, hc0, by simp⟩
  obtain ⟨f, b, ⟨_, ⟨n, hn, hb⟩, hmb⟩, ⟨s, col, _, _, hct⟩, _⟩ := hm 0 _ hc0 (by simp)
  have hf : f = 0 := by
    have := congrArg SplitCrit.featureId hct
    simpa [testOf] using this.symm
  subst hf
  rw [hr.nb0] at hn
  cases hn
  have hb0 : b = 0 := by omega
  subst hb0
  obtain ⟨m, hm1, hm2⟩ := bits_ok hr.b00
  rw [hmb] at hm1
  cases hm1
  rw [examplesAt_right hsp, (inside_bits hm2 (E := Finset.range 9) (fun i hi => Finset.mem_range.1 hi)).2]
  decide

/-- For `min_examples_leaf = 2` the sums can be wrong, even in exact arithmetic: a histogram value of fewer than 2
examples is stored as 0, and the histograms of right children are computed by subtraction. After the first round,
node 2 has the examples 3, ..., 8. The examples 3 and 4 are those with category 0 in feature 1: the histogram has the right
count 2 and the sum 3, but the sum of their gradients is -4. -/
theorem C42_min_examples_refuted :
    ∃ ds st n v m, Updated .exact minCfg minData ⟨fun _ => 2⟩ 1 ds ∧ Active ds (List.range 9) ∧
      Training .exact minCfg ds ds.supercats 4 minObj st ∧ n ∈ st.stack ∧ n.nodeId = 2 ∧
      minObj.bounds = (.fin (-8), .fin 7) ∧
      Candidate ds 1 0 m ∧ histAt n.hists 1 0 = .ok v ∧ v.count = 2 ∧ v.gradSum = .fin 3 ∧
      ∀ msk, SplitMasks .exact ds st.tree msk →
        inside (examplesAt st.tree msk 9 2) m = {3, 4} ∧
        gradientSum .exact 4 (-8) 7 minObj.gradients (List.range 9) (inside (examplesAt st.tree msk 9 2) m) = -4 := by
  obtain ⟨ds, h1, h2⟩ := exampleRun_check (F := .exact) (cfg := minCfg) (d := minData) (rng := ⟨fun _ => 2⟩)
    (gs := [(minObj.gradients, minObj.l2bounds)])
    (fun ds => minRunB ds && match start .exact minCfg ds ds.supercats 4 minObj with
      | .ok st => (match st.stack with
        | [n] => (match expand .exact minCfg ds 4 n ⟨st.tree, st.obj, []⟩ with
          | .ok st' => decide (st'.tree.splitCrits[0]? = some ⟨.loCardCatEq, 0, .fin 0⟩) && (match st'.stack with
            | [_, n'] => decide (n'.nodeId = 2) && decide (histAt n'.hists 1 0 = .ok ⟨.fin 3, 2⟩)
            | _ => false)
          | _ => false)
        | _ => false)
      | _ => false) (by decide +kernel)
  rw [Bool.and_eq_true] at h2
  obtain ⟨hr, h2⟩ := h2
  have hr := minRun hr
  cases e1 : start .exact minCfg ds ds.supercats 4 minObj with
  | panic => rw [e1] at h2; cases h2
  | ub => rw [e1] at h2; cases h2
  | ok st =>
    rw [e1] at h2
    obtain ⟨t, o, stack⟩ := st
    simp only at h2
    match stack, h2, e1 with
    | [], h2, _ => cases h2
    | _ :: _ :: _, h2, _ => cases h2
    | [n], h2, e1 =>
      simp only at h2
      cases e2 : expand .exact minCfg ds 4 n ⟨t, o, []⟩ with
      | panic => rw [e2] at h2; cases h2
      | ub => rw [e2] at h2; cases h2
      | ok st' =>
        rw [e2] at h2
        obtain ⟨t', o', stack'⟩ := st'
        simp only [Bool.and_eq_true, decide_eq_true_eq] at h2
        obtain ⟨hc0, h2⟩ := h2
        match stack', h2, e2 with
        | [], h2, _ => cases h2
        | [_], h2, _ => cases h2
        | _ :: _ :: _ :: _, h2, _ => cases h2
        | [n1, n2], h2, e2 =>
          simp only [Bool.and_eq_true, decide_eq_true_eq] at h2
          obtain ⟨m, hm1, hm2⟩ := bits_ok hr.b10
          refine ⟨ds, ⟨t', o', [n1, n2]⟩, n2, ⟨.fin 3, 2⟩, m, h1, ?_, .round (.start e1) e2, by simp, h2.1, rfl,
            ⟨⟨[0, 1], hr.feats, by simp⟩, ⟨3, hr.nb1, by omega⟩, hm1⟩, h2.2, rfl, rfl, fun msk hmsk => ?_⟩
          · unfold Active
            rw [List.length_range]
            exact hr.rows
          · rw [min_node2 hr hc0 hmsk, (inside_bits hm2 (by decide)).1]
            exact ⟨by decide, by decide +kernel⟩

/-- So a wrong split can be chosen: the trained tree splits node 2 on category 1 of feature 1, which gains 2/3, although
the admissible split on category 0 gains 8/3. -/
theorem C43_min_examples_refuted :
    ∃ ds t o', Updated .exact minCfg minData ⟨fun _ => 2⟩ 1 ds ∧ Active ds (List.range 9) ∧
      train .exact minCfg ds ds.supercats minObj 3 = .ok (some (t, o')) ∧
      minObj.bounds = (.fin (-8), .fin 7) ∧ minCfg.regLambda = .fin 0 ∧ minCfg.discrNbits = 4 ∧
      ∃ c, t.splitCrits[2]? = some c ∧ c.splitType ≠ .noSplit ∧
        ∀ msk, SplitMasks .exact ds t msk →
          maskGain .exact 0 4 (-8) 7 minObj.gradients (List.range 9) (examplesAt t msk 9 2) (msk 2) = 2 / 3 ∧
          ∃ f b m, Candidate ds f b m ∧ Admissible minCfg (examplesAt t msk 9 2) m ∧
            maskGain .exact 0 4 (-8) 7 minObj.gradients (List.range 9) (examplesAt t msk 9 2) m = 8 / 3 := by
  obtain ⟨ds, t, o', h1, h2, h3⟩ := run_check (F := .exact) (cfg := minCfg) (d := minData) (rng := ⟨fun _ => 2⟩)
    (gs := [(minObj.gradients, minObj.l2bounds)]) (o := minObj) (fuel := 3)
    (fun ds t _ => minRunB ds && decide (t.splitCrits[0]? = some (⟨.loCardCatEq, 0, .fin 0⟩ : SplitCrit)) &&
      decide (t.splitCrits[2]? = some (⟨.loCardCatEq, 1, .fin 1⟩ : SplitCrit))) (by decide +kernel)
  simp only [Bool.and_eq_true, decide_eq_true_eq] at h3
  obtain ⟨⟨hr, hc0⟩, hc2⟩ := h3
  have hr := minRun hr
  refine ⟨ds, t, o', h1, ?_, h2, rfl, rfl, rfl, _, hc2, by simp, fun msk hmsk => ?_⟩
  · unfold Active
    rw [List.length_range]
    exact hr.rows
  rw [min_node2 hr hc0 hmsk]
  constructor
  · obtain ⟨f, b, ⟨_, ⟨n, hn, hb⟩, hmb⟩, ⟨s, col, hs, _, hct⟩, _⟩ := hmsk 2 _ hc2 (by simp)
    have hf : f = 1 := by
      have := congrArg SplitCrit.featureId hct
      simpa [testOf] using this.symm
    have hsv : s = .fin 1 := by
      have := congrArg SplitCrit.splitValue hct
      simpa [testOf] using this.symm
    subst hf hsv
    rw [hr.nb1] at hn
    cases hn
    have hb1 : b = 1 := by
      have hb3 : b = 0 ∨ b = 1 ∨ b = 2 := by omega
      rcases hb3 with rfl | rfl | rfl
      · rw [hr.v0] at hs; simp at hs
      · rfl
      · rw [hr.v2] at hs; simp at hs
    subst hb1
    obtain ⟨m, hm1, hm2⟩ := bits_ok hr.b11
    rw [hmb] at hm1
    cases hm1
    unfold maskGain
    rw [(inside_bits hm2 (by decide)).1, (inside_bits hm2 (by decide)).2]
    decide +kernel
  · obtain ⟨m, hm1, hm2⟩ := bits_ok hr.b10
    refine ⟨1, 0, m, ⟨⟨[0, 1], hr.feats, by simp⟩, ⟨3, hr.nb1, by omega⟩, hm1⟩, ?_, ?_⟩
    · unfold Admissible
      rw [(inside_bits hm2 (by decide)).1, (inside_bits hm2 (by decide)).2]
      decide
    · unfold maskGain
      rw [(inside_bits hm2 (by decide)).1, (inside_bits hm2 (by decide)).2]
      decide +kernel

/-- C42, C43: the same data with `min_examples_leaf = 1` meets the hypotheses of the theorems; the trained tree has three
splits. -/
example : ∃ ds t o', Updated .exact { minCfg with minExamplesLeaf := 1 } minData ⟨fun _ => 2⟩ 1 ds ∧
    Active ds (List.range 9) ∧ Rectangular minData ∧
    train .exact { minCfg with minExamplesLeaf := 1 } ds ds.supercats minObj 3 = .ok (some (t, o')) ∧
    width { minCfg with minExamplesLeaf := 1 } = .ok 4 ∧ minObj.bounds = (.fin (-8), .fin 7) ∧
    minCfg.regLambda = .fin 0 ∧ minCfg.minGain = .fin (1 / 1000000) ∧
    t.splitCrits.take 3 = [⟨.loCardCatEq, 0, .fin 0⟩, ⟨.noSplit, 0, .fin 0⟩, ⟨.loCardCatEq, 1, .fin 0⟩] := by
  obtain ⟨ds, t, o', h1, h2, h3⟩ := run_check (F := .exact) (cfg := { minCfg with minExamplesLeaf := 1 }) (d := minData)
    (rng := ⟨fun _ => 2⟩) (gs := [(minObj.gradients, minObj.l2bounds)]) (o := minObj) (fuel := 3)
    (fun ds t _ => decide (ds.activePairs = .ok ((List.range 9).zip (List.range 9))) &&
      decide (t.splitCrits.take 3 = [⟨.loCardCatEq, 0, .fin 0⟩, ⟨.noSplit, 0, .fin 0⟩, ⟨.loCardCatEq, 1, .fin 0⟩]))
    (by decide +kernel)
  simp only [Bool.and_eq_true, decide_eq_true_eq] at h3
  refine ⟨ds, t, o', h1, ?_, ⟨by decide, by decide⟩, h2, rfl, rfl, rfl, rfl, h3.2⟩
  unfold Active
  rw [List.length_range]
  exact h3.1

/-- A state in the middle of training, with two nodes on the stack. -/
example : ∃ ds st, Updated .exact { minCfg with minExamplesLeaf := 1 } minData ⟨fun _ => 2⟩ 1 ds ∧
    Training .exact { minCfg with minExamplesLeaf := 1 } ds ds.supercats 4 minObj st ∧
    st.stack.map Node.nodeId = [1, 2] ∧ st.stack.map Node.exampleCount = [3, 6] ∧
    st.stack.map (fun n => histAt n.hists 1 0) = [.ok ⟨.fin 7, 1⟩, .ok ⟨.fin (-4), 2⟩] := by
  obtain ⟨ds, h1, h2⟩ := exampleRun_check (F := .exact) (cfg := { minCfg with minExamplesLeaf := 1 }) (d := minData)
    (rng := ⟨fun _ => 2⟩) (gs := [(minObj.gradients, minObj.l2bounds)])
    (fun ds => match start .exact { minCfg with minExamplesLeaf := 1 } ds ds.supercats 4 minObj with
      | .ok st => (match st.stack with
        | [n] => (match expand .exact { minCfg with minExamplesLeaf := 1 } ds 4 n ⟨st.tree, st.obj, []⟩ with
          | .ok st' => decide (st'.stack.map Node.nodeId = [1, 2]) && decide (st'.stack.map Node.exampleCount = [3, 6]) &&
            decide (st'.stack.map (fun n => histAt n.hists 1 0) = [.ok ⟨.fin 7, 1⟩, .ok ⟨.fin (-4), 2⟩])
          | _ => false)
        | _ => false)
      | _ => false) (by decide +kernel)
  cases e1 : start .exact { minCfg with minExamplesLeaf := 1 } ds ds.supercats 4 minObj with
  | panic => rw [e1] at h2; cases h2
  | ub => rw [e1] at h2; cases h2
  | ok st =>
    rw [e1] at h2
    obtain ⟨t, o, stack⟩ := st
    simp only at h2
    match stack, h2, e1 with
    | [], h2, _ => cases h2
    | _ :: _ :: _, h2, _ => cases h2
    | [n], h2, e1 =>
      simp only at h2
      cases e2 : expand .exact { minCfg with minExamplesLeaf := 1 } ds 4 n ⟨t, o, []⟩ with
      | panic => rw [e2] at h2; cases h2
      | ub => rw [e2] at h2; cases h2
      | ok st' =>
        rw [e2] at h2
        simp only [Bool.and_eq_true, decide_eq_true_eq] at h2
        exact ⟨ds, st', h1, .round (.start e1) e2, h2.1.1, h2.1.2, h2.2⟩

private def minObj32 : Objective := { minObj with l2bounds := (.fin (-8), .fin 6) }

/-- C42 in single precision with `min_examples_leaf = 2` and bounds -8 and 6, which make the sums inexact. Node 2 has the sum
-419431/131072 instead of -3.2, and its histogram of category 0 of feature 1 has 1.2 (rounded) instead of -4.8, because the
gradient of the one such example of node 1 was not subtracted. -/
example : ∃ ds st, Updated .binary32 minCfg minData ⟨fun _ => 2⟩ 1 ds ∧
    Training .binary32 minCfg ds ds.supercats 4 minObj32 st ∧
    st.stack.map Node.nodeId = [1, 2] ∧ st.stack.map Node.gradSum = [.fin 18, .fin (-419431 / 131072)] ∧
    st.stack.map (fun n => histAt n.hists 1 0) = [.ok ⟨.fin 0, 1⟩, .ok ⟨.fin (629145 / 524288), 2⟩] := by
  obtain ⟨ds, h1, h2⟩ := exampleRun_check (F := .binary32) (cfg := minCfg) (d := minData)
    (rng := ⟨fun _ => 2⟩) (gs := [(minObj32.gradients, minObj32.l2bounds)])
    (fun ds => match start .binary32 minCfg ds ds.supercats 4 minObj32 with
      | .ok st => (match st.stack with
        | [n] => (match expand .binary32 minCfg ds 4 n ⟨st.tree, st.obj, []⟩ with
          | .ok st' => decide (st'.stack.map Node.nodeId = [1, 2]) && decide (st'.stack.map Node.gradSum = [.fin 18, .fin (-419431 / 131072)]) &&
            decide (st'.stack.map (fun n => histAt n.hists 1 0) = [.ok ⟨.fin 0, 1⟩, .ok ⟨.fin (629145 / 524288), 2⟩])
          | _ => false)
        | _ => false)
      | _ => false) (by decide +kernel)
  cases e1 : start .binary32 minCfg ds ds.supercats 4 minObj32 with
  | panic => rw [e1] at h2; cases h2
  | ub => rw [e1] at h2; cases h2
  | ok st =>
    rw [e1] at h2
    obtain ⟨t, o, stack⟩ := st
    simp only at h2
    match stack, h2, e1 with
    | [], h2, _ => cases h2
    | _ :: _ :: _, h2, _ => cases h2
    | [n], h2, e1 =>
      simp only at h2
      cases e2 : expand .binary32 minCfg ds 4 n ⟨t, o, []⟩ with
      | panic => rw [e2] at h2; cases h2
      | ub => rw [e2] at h2; cases h2
      | ok st' =>
        rw [e2] at h2
        simp only [Bool.and_eq_true, decide_eq_true_eq] at h2
        exact ⟨ds, st', h1, .round (.start e1) e2, h2.1.1, h2.1.2, h2.2⟩

/-- C43 in single precision: a trained tree with two splits meets the hypotheses of `C43_tree_f32_partial` (with `G = 8`), and
the same tree in exact arithmetic those of `C43_tree_min_partial`. -/
example : ∃ ds t o', Updated .binary32 { minCfg with minExamplesLeaf := 1 } minData ⟨fun _ => 2⟩ 1 ds ∧
    Active ds (List.range 9) ∧ Rectangular minData ∧
    train .binary32 { minCfg with minExamplesLeaf := 1 } ds ds.supercats minObj32 3 = .ok (some (t, o')) ∧
    minObj32.bounds = (.fin (-8), .fin 6) ∧ |(-8 : ℚ)| ≤ 8 ∧ |(6 : ℚ)| ≤ 8 ∧
    minCfg.regLambda = .fin 0 ∧ minCfg.minGain = .fin (1 / 1000000) ∧ minCfg.maxTreeDepth ≤ 500 ∧
    t.splitCrits.take 3 = [⟨.loCardCatEq, 0, .fin 0⟩, ⟨.noSplit, 0, .fin 0⟩, ⟨.loCardCatEq, 1, .fin 0⟩] := by
  obtain ⟨ds, t, o', h1, h2, h3⟩ := run_check (F := .binary32) (cfg := { minCfg with minExamplesLeaf := 1 }) (d := minData)
    (rng := ⟨fun _ => 2⟩) (gs := [(minObj32.gradients, minObj32.l2bounds)]) (o := minObj32) (fuel := 3)
    (fun ds t _ => decide (ds.activePairs = .ok ((List.range 9).zip (List.range 9))) &&
      decide (t.splitCrits.take 3 = [⟨.loCardCatEq, 0, .fin 0⟩, ⟨.noSplit, 0, .fin 0⟩, ⟨.loCardCatEq, 1, .fin 0⟩]))
    (by decide +kernel)
  simp only [Bool.and_eq_true, decide_eq_true_eq] at h3
  refine ⟨ds, t, o', h1, ?_, ⟨by decide, by decide⟩, h2, rfl, by norm_num, by norm_num, rfl, rfl, by decide, h3.2⟩
  unfold Active
  rw [List.length_range]
  exact h3.1

end BitBoost.Props
