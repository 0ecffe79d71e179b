import Verif.Lemmas.Consistent
import Verif.Lemmas.Reached
import Verif.Lemmas.LearnerStack
import Verif.Lemmas.Float32
import Verif.Lemmas.Threshold
import Verif.Props.Tree
/-!
# C40, C44, C46, C58: training one tree

In the theorems about a trained tree the data set is reachable: created from data `d` and updated `k` times with
any gradients and any random numbers; `rows` are the rows of its active examples; `o` is the objective before
training, with any gradients and predictions, and `o'` the objective afterwards. The tree gets the super-categories of
the data set, as in `src/boost.rs:88-89`. `hsize` is what the `u32` counters of the learner can hold. `hmin` leaves
out `min_examples_leaf = 0`, which allows splits with an empty side.
-/
namespace BitBoost.Props
open BitBoost Spec Dataset Learner

section
variable (F : FP) (cfg : Config) (d : Data) (rng : Rng) (k : Nat) (ds : Dataset)
  (hds : Updated F cfg d rng k ds) (rows : List Nat) (hrows : Active ds rows)
  (hfull : ds.exampleSampling = false → rows.length = d.nexamples) (hd : Rectangular d)
  (hsize : rows.length ≤ 2 ^ 32 - 256) (hmin : 1 ≤ cfg.minExamplesLeaf)
  (o : Objective) (fuel : Nat) (t : Tree) (o' : Objective)
  (ht : train F cfg ds ds.supercats o fuel = .ok (some (t, o')))
include hds hrows hfull hd hsize hmin ht

omit hfull in
private theorem final : ∃ targets o1 done msk, target d = .ok targets ∧
    TreeInv F cfg ds ds.supercats targets rows o ⟨t, o1, []⟩ done msk ∧ outOfBag F ds t o1 = .ok o' := by
  have hl : d.nfeatures < d.cols.length := by rw [hd.1]; omega
  have htgt0 : target d = .ok d.cols[d.nfeatures].values := by
    unfold target
    rw [at?_lt hl]
    rfl
  have htgt := htgt0
  rw [← congrArg target hds.inv.data] at htgt
  obtain ⟨o1, done, msk, h1, h2⟩ := train_inv hds hrows (by rw [← (rowsOk hds hrows).len]; exact hsize) hmin htgt ht
  exact ⟨_, o1, done, msk, htgt0, h1, h2⟩

/-! ## C40 -/

/-- Every active example belongs to exactly one leaf of the trained tree: the masks of the splits on the way lead it
there and to no other leaf. Its running prediction is increased by the value of this leaf. -/
theorem C40_one_leaf :
    ∃ msk, SplitMasks F ds t msk ∧
      ∀ (i r : Nat), rows[i]? = some r → ∃ n v x, IsLeaf t n ∧ TrainedTo t msk i n ∧
        (∀ n', IsLeaf t n' → TrainedTo t msk i n' → n' = n) ∧ t.nodeValue n = .ok v ∧
        o.predictions[r]? = some x ∧ o'.predictions[r]? = some (F.add x v) := by
  obtain ⟨targets, o1, done, msk, _, hinv, hoob⟩ := final F cfg d rng k ds hds rows hrows hd hsize hmin o fuel t o' ht
  have hp := hinv.parts
  rw [show open' ⟨t, o1, []⟩ = [] from rfl, List.append_nil] at hp
  obtain ⟨_, hact, _⟩ := outOfBag_ok hds hrows hfull hoob
  have hlen := (rowsOk hds hrows).len
  refine ⟨msk, hp.tests, fun i r hir => ?_⟩
  have hil : i < ds.nactiveExamples := by
    rw [← hlen]; exact (List.getElem?_eq_some_iff.1 hir).1
  obtain ⟨p, hpm, hip⟩ := List.mem_flatMap.1 (hp.perm.mem_iff.2 (List.mem_range.2 hil))
  have hleaf : IsLeaf t p.1 := (hp.leaves p.1).2 (List.mem_map.2 ⟨p, hpm, rfl⟩)
  have htr := hp.routed p hpm i hip
  obtain ⟨q, hv, _, hx⟩ := hinv.preds.value p hpm
  obtain ⟨x, hx1, hx2⟩ := hx i hip
  have hrow : rowAt rows i = r := by
    have := rowAt_eq (rows := rows) (i := i) (by omega)
    rw [hir] at this
    exact (Option.some.inj this).symm
  rw [hrow] at hx1 hx2
  refine ⟨p.1, .fin q, x, hleaf, htr, fun n' h1 h2 => h2.unique htr h1.2 hleaf.2, ?_, hx1, ?_⟩
  · unfold Tree.nodeValue
    rw [show t.nodeValues[p.1]? = some (.fin q) from hv]
  · rw [hact r (List.mem_of_getElem? hir)]
    exact hx2

/-- The objective is asked for the value of each leaf once, with the rows of the leaf; each active row is in one of
the calls, and only once. Nothing else changes in the objective, apart from the examples that were left out. -/
theorem C40_calls :
    ∃ targets leaves o1, target d = .ok targets ∧ leaves.flatten.Perm rows ∧
      leaves.length = {n | IsLeaf t n}.ncard ∧ LeafCalls F targets o leaves o1 ∧
      (∀ r ∈ rows, o'.predictions[r]? = o1.predictions[r]?) ∧
      o' = { o1 with predictions := o'.predictions } := by
  obtain ⟨targets, o1, done, msk, htgt, hinv, hoob⟩ := final F cfg d rng k ds hds rows hrows hd hsize hmin o fuel t o' ht
  have hp := hinv.parts
  rw [show open' ⟨t, o1, []⟩ = [] from rfl, List.append_nil] at hp
  obtain ⟨hobj, hact, _⟩ := outOfBag_ok hds hrows hfull hoob
  have hlen := (rowsOk hds hrows).len
  refine ⟨targets, _, o1, htgt, ?_, ?_, hinv.preds.calls, hact, hobj⟩
  · have h1 : (done.map fun p => p.2.map (rowAt rows)).flatten = (done.flatMap Prod.snd).map (rowAt rows) := by
      rw [List.map_flatMap, List.flatMap_def]
    rw [h1]
    refine (hp.perm.map (rowAt rows)).trans ?_
    have : (List.range ds.nactiveExamples).map (rowAt rows) = rows := by
      apply List.ext_getElem?
      intro i
      rw [List.getElem?_map]
      by_cases hi : i < rows.length
      · rw [List.getElem?_range (by omega), rowAt_eq hi]; rfl
      · rw [List.getElem?_eq_none (by rw [List.length_range]; omega), List.getElem?_eq_none (by omega)]; rfl
    rw [this]
  · have : {n | IsLeaf t n} = ((done.map Prod.fst).toFinset : Set Nat) := by
      ext n
      simp only [Set.mem_ofPred_eq, List.coe_toFinset]
      exact hp.leaves n
    rw [this, Set.ncard_coe_finset, List.toFinset_card_of_nodup hp.nodup]
    simp

omit hfull in
/-- The value of a leaf is the learning rate times what the objective asks for (C67) for the rows of its examples, in order,
with the predictions before this tree: the other leaves, and the order in which they are finished, do not matter. Every leaf has
an example, and every example a leaf. -/
theorem C40_leaf_values :
    ∃ targets msk, target d = .ok targets ∧ SplitMasks F ds t msk ∧
      (∀ i, i < rows.length → ∃ n, IsLeaf t n ∧ TrainedTo t msk i n) ∧
      ∀ n, IsLeaf t n → ∃ (examples : List Nat) (u : Num), examples ≠ [] ∧ examples.Pairwise (· < ·) ∧ (∀ i, i ∈ examples ↔ i < rows.length ∧ TrainedTo t msk i n) ∧
      Objective.leafValue F o targets (examples.map fun i => rows.getD i 0) = .ok u ∧
      t.nodeValue n = .ok (F.mul o.learningRate u) := by
  obtain ⟨targets, o1, done, msk, htgt, hinv, hoob⟩ := final F cfg d rng k ds hds rows hrows hd hsize hmin o fuel t o' ht
  have hp := hinv.parts
  rw [show open' ⟨t, o1, []⟩ = [] from rfl, List.append_nil] at hp
  have hlen := (rowsOk hds hrows).len
  refine ⟨targets, msk, htgt, hp.tests, fun i hi => ?_, fun n hn => ?_⟩
  · obtain ⟨p, hpm, hip⟩ := List.mem_flatMap.1 (hp.perm.mem_iff.2 (List.mem_range.2 (by rw [← hlen]; exact hi)))
    exact ⟨p.1, (hp.leaves p.1).2 (List.mem_map.2 ⟨p, hpm, rfl⟩), hp.routed p hpm i hip⟩
  obtain ⟨p, hpm, rfl⟩ := List.mem_map.1 ((hp.leaves n).1 hn)
  obtain ⟨g0, u, g1, g2⟩ := hinv.preds.given p hpm
  obtain ⟨_, hE⟩ := parts_examples hp hpm
  refine ⟨p.2, u, g0, hinv.preds.sorted p.2 (List.mem_append_left _ (List.mem_map.2 ⟨p, hpm, rfl⟩)), fun i => ?_, g1, ?_⟩
  · rw [← List.mem_toFinset, hE, hlen]
    simp [examplesAt]
  · unfold Tree.nodeValue
    rw [show t.nodeValues[p.1]? = _ from g2]

/-- The examples that are not active, of which there are some only when examples are sampled, get the prediction of
the new tree added, once. -/
theorem C40_out_of_bag (r : Nat) (hr : r < d.nexamples) (hna : r ∉ rows) :
    ∃ x p, o.predictions[r]? = some x ∧ t.predictSingle F d r = .ok p ∧
      o'.predictions[r]? = some (F.add x p) := by
  obtain ⟨targets, o1, done, msk, _, hinv, hoob⟩ := final F cfg d rng k ds hds rows hrows hd hsize hmin o fuel t o' ht
  obtain ⟨_, _, hout⟩ := outOfBag_ok hds hrows hfull hoob
  obtain ⟨x, p, h1, h2, h3⟩ := hout r hr hna
  exact ⟨x, p, by rw [← h1]; exact (hinv.preds.others r hna).symm, h2, h3⟩

/-- If training and prediction agree on the splits (C35), the leaf of an active example is the one prediction finds for
its row. -/
theorem C40_prediction (hc : Consistent F ds rows) :
    ∃ msk, SplitMasks F ds t msk ∧ ∀ (i r : Nat), rows[i]? = some r → ∃ n, IsLeaf t n ∧ TrainedTo t msk i n ∧
        (∀ n', IsLeaf t n' → TrainedTo t msk i n' → n' = n) ∧ t.predictLeafId d r = .ok n := by
  obtain ⟨msk, hm, hall⟩ := C40_one_leaf F cfg d rng k ds hds rows hrows hfull hd hsize hmin o fuel t o' ht
  obtain ⟨targets, o1, done, msk', _, hinv, _⟩ := final F cfg d rng k ds hds rows hrows hd hsize hmin o fuel t o' ht
  obtain ⟨j, hg⟩ := hinv.grown
  refine ⟨msk, hm, fun i r hir => ?_⟩
  obtain ⟨n, v, x, h1, h2, h3, _⟩ := hall i r hir
  obtain ⟨v0, hv0⟩ := cell_some hd (Nat.zero_le _) (row_lt hds hrows hfull (List.mem_of_getElem? hir))
  refine ⟨n, h1, h2, h3, ?_⟩
  have := predict_of_trained hg (row_agrees hc hm hir) (by rw [hds.inv.data]; exact hv0) h2 h1
  rwa [hds.inv.data] at this

/-- Without numerical features the leaf of an active example is the one prediction finds for its row, whatever the
rounding. The hypotheses on the data are what the loaders guarantee (C27, C28); the limit 2^24 is where `f32` stops
to count. -/
theorem C40_prediction_categorical (hcard : ∀ c ∈ d.cols, c.card ≤ 2 ^ 24) (hnb : d.maxNbins ≤ 2 ^ 24)
    (hcat : ∀ f c, f < d.nfeatures → d.cols[f]? = some c → c.ftype ≠ .numerical ∧ ∀ v ∈ c.values, IsCategory v) :
    ∃ msk, SplitMasks F ds t msk ∧ ∀ (i r : Nat), rows[i]? = some r → ∃ n, IsLeaf t n ∧ TrainedTo t msk i n ∧
        (∀ n', IsLeaf t n' → TrainedTo t msk i n' → n' = n) ∧ t.predictLeafId d r = .ok n := by
  refine C40_prediction F cfg d rng k ds hds rows hrows hfull hd hsize hmin o fuel t o' ht ?_
  refine consistent_of hds hrows hfull hd hcard hnb (fun f c hf hc _ => (hcat f c hf hc).2) ?_
  rintro f b m c ⟨⟨fs, hfs, hf⟩, _⟩ hc hn
  unfold activeFeatures at hfs
  rw [prefix_ok] at hfs
  obtain ⟨_, rfl⟩ := hfs
  exact absurd hn (hcat f c ((hds.inv.useful f).1 (List.mem_of_mem_take hf)).1 hc).1

/-! ## C58 -/

omit hfull in
/-- Every leaf of a tree that is not a single leaf has at least `min_examples_leaf` active examples: there are that many
different active examples that belong to it. -/
theorem C58_leaf_size :
    ∃ msk, SplitMasks F ds t msk ∧ ∀ n, IsLeaf t n → n ≠ 0 →
      cfg.minExamplesLeaf ≤ {i | i < rows.length ∧ TrainedTo t msk i n}.ncard := by
  obtain ⟨targets, o1, done, msk, _, hinv, hoob⟩ := final F cfg d rng k ds hds rows hrows hd hsize hmin o fuel t o' ht
  have hp := hinv.parts
  rw [show open' ⟨t, o1, []⟩ = [] from rfl, List.append_nil] at hp
  have hlen := (rowsOk hds hrows).len
  refine ⟨msk, hp.tests, fun n hn hn0 => ?_⟩
  obtain ⟨p, hpm, rfl⟩ := List.mem_map.1 ((hp.leaves n).1 hn)
  refine (hp.sized p hpm hn0).trans ?_
  have hnd : p.2.Nodup := by
    have h1 : (done.flatMap Prod.snd).Nodup := hp.perm.nodup_iff.2 List.nodup_range
    exact (List.nodup_flatMap.1 h1).1 p hpm
  rw [← List.toFinset_card_of_nodup hnd, ← Set.ncard_coe_finset]
  refine Set.ncard_le_ncard ?_ (Set.Finite.subset (Set.finite_lt_nat rows.length) (by intro i hi; exact hi.1))
  intro i hi
  simp only [List.coe_toFinset, Set.mem_ofPred_eq] at hi ⊢
  exact ⟨by rw [hlen]; exact hp.lt hpm hi, hp.routed p hpm i hi⟩

end

/-- With exact arithmetic and without missing values in numerical features, the leaf of an active example is the one
prediction finds for its row. (Missing: `f32` arithmetic with numerical features, where it is false, see
`C40_rounding_refuted`; missing values, where it is false by C35.) -/
theorem C40_prediction_exact_partial (cfg : Config) (d : Data) (rng : Rng) (k : Nat) (ds : Dataset)
    (hds : Updated .exact cfg d rng k ds) (rows : List Nat) (hrows : Active ds rows)
    (hfull : ds.exampleSampling = false → rows.length = d.nexamples) (hd : Rectangular d)
    (hsize : rows.length ≤ 2 ^ 32 - 256) (hmin : 1 ≤ cfg.minExamplesLeaf)
    (o : Objective) (fuel : Nat) (t : Tree) (o' : Objective)
    (ht : train .exact cfg ds ds.supercats o fuel = .ok (some (t, o')))
    (hcard : ∀ c ∈ d.cols, c.card ≤ 2 ^ 24) (hnb : d.maxNbins ≤ 2 ^ 24)
    (hcat : ∀ f c, f < d.nfeatures → d.cols[f]? = some c → c.ftype ≠ .numerical → ∀ v ∈ c.values, IsCategory v)
    (hnan : ∀ f c, f < d.nfeatures → d.cols[f]? = some c → c.ftype = .numerical → Num.nan ∉ c.values) :
    ∃ msk, SplitMasks .exact ds t msk ∧ ∀ (i r : Nat), rows[i]? = some r → ∃ n, IsLeaf t n ∧ TrainedTo t msk i n ∧
        (∀ n', IsLeaf t n' → TrainedTo t msk i n' → n' = n) ∧ t.predictLeafId d r = .ok n := by
  refine C40_prediction .exact cfg d rng k ds hds rows hrows hfull hd hsize hmin o fuel t o' ht ?_
  refine consistent_of hds hrows hfull hd hcard hnb hcat ?_
  rintro f b m c ⟨⟨fs, hfs, hf⟩, hm⟩ hc hn hsome
  have hfs' := hfs
  unfold activeFeatures at hfs'
  rw [prefix_ok] at hfs'
  obtain ⟨_, rfl⟩ := hfs'
  have hfl := ((hds.inv.useful f).1 (List.mem_of_mem_take hf)).1
  obtain ⟨s, h1, h2⟩ := C35_numerical_partial cfg d rng k ds hds rows hrows hfull _ hfs f b hf m hm c hc hn hsome
  refine ⟨s, h1, fun i r v hr hv => h2 i r v hr hv ?_⟩
  rintro rfl
  refine hnan f c hfl hc hn ?_
  simp only [cell, hc, Option.bind_some] at hv
  exact List.mem_of_getElem? hv

/-- Training and prediction agree in `f32` arithmetic when the numerical features are fixed-point columns or columns in general
position, without missing values. -/
theorem consistent_f32 {cfg : Config} {d : Data} {rng : Rng} {k : Nat} {ds : Dataset} {rows : List Nat}
    (hds : Updated .binary32 cfg d rng k ds) (hrows : Active ds rows)
    (hfull : ds.exampleSampling = false → rows.length = d.nexamples) (hd : Rectangular d)
    (hcard : ∀ c ∈ d.cols, c.card ≤ 2 ^ 24) (hnb : d.maxNbins ≤ 2 ^ 24)
    (hcat : ∀ f c, f < d.nfeatures → d.cols[f]? = some c → c.ftype ≠ .numerical → ∀ v ∈ c.values, IsCategory v)
    (hfix : ∀ f c, f < d.nfeatures → d.cols[f]? = some c → c.ftype = .numerical →
      (FixedPoint c ∨ Separated c) ∧ Num.nan ∉ c.values) :
    Consistent .binary32 ds rows := by
  refine consistent_of hds hrows hfull hd hcard hnb hcat ?_
  rintro f b m c ⟨⟨fs, hfs, hf⟩, hm⟩ hc hn hsome
  have hfs' := hfs
  unfold activeFeatures at hfs'
  rw [prefix_ok] at hfs'
  obtain ⟨_, rfl⟩ := hfs'
  have hfl := ((hds.inv.useful f).1 (List.mem_of_mem_take hf)).1
  obtain ⟨g1, g2⟩ := hfix f c hfl hc hn
  obtain ⟨s, h1, h2⟩ :=
    C35_numerical_f32_partial cfg d rng k ds hds rows hrows hfull _ hfs f b hf m hm c hc hn g1 hsome
  refine ⟨s, h1, fun i r v hr hv => h2 i r v hr hv ?_⟩
  rintro rfl
  refine g2 ?_
  simp only [cell, hc, Option.bind_some] at hv
  exact List.mem_of_getElem? hv

/-- With the `f32` arithmetic of the code, when the numerical features are fixed-point columns (`Spec.FixedPoint`: up to a
power of two, integers of 14 bits) or columns in general position (`Spec.Separated`: no value too close to a bin bound),
without missing values, the leaf of an active example is the one prediction finds for
its row. (Missing: other numerical columns, where it is false, see `C40_rounding_refuted`.) -/
theorem C40_prediction_f32_partial (cfg : Config) (d : Data) (rng : Rng) (k : Nat) (ds : Dataset)
    (hds : Updated .binary32 cfg d rng k ds) (rows : List Nat) (hrows : Active ds rows)
    (hfull : ds.exampleSampling = false → rows.length = d.nexamples) (hd : Rectangular d)
    (hsize : rows.length ≤ 2 ^ 32 - 256) (hmin : 1 ≤ cfg.minExamplesLeaf)
    (o : Objective) (fuel : Nat) (t : Tree) (o' : Objective)
    (ht : train .binary32 cfg ds ds.supercats o fuel = .ok (some (t, o')))
    (hcard : ∀ c ∈ d.cols, c.card ≤ 2 ^ 24) (hnb : d.maxNbins ≤ 2 ^ 24)
    (hcat : ∀ f c, f < d.nfeatures → d.cols[f]? = some c → c.ftype ≠ .numerical → ∀ v ∈ c.values, IsCategory v)
    (hfix : ∀ f c, f < d.nfeatures → d.cols[f]? = some c → c.ftype = .numerical →
      (FixedPoint c ∨ Separated c) ∧ Num.nan ∉ c.values) :
    ∃ msk, SplitMasks .binary32 ds t msk ∧ ∀ (i r : Nat), rows[i]? = some r → ∃ n, IsLeaf t n ∧ TrainedTo t msk i n ∧
        (∀ n', IsLeaf t n' → TrainedTo t msk i n' → n' = n) ∧ t.predictLeafId d r = .ok n :=
  C40_prediction .binary32 cfg d rng k ds hds rows hrows hfull hd hsize hmin o fuel t o' ht
    (consistent_f32 hds hrows hfull hd hcard hnb hcat hfix)

/-! ## C44 -/

/-- The trained tree and the new predictions do not depend on `compression_threshold`: any two values (infinities and
NaN included) give the same result. -/
theorem C44_compression (F : FP) (cfg : Config) (d : Data) (rng : Rng) (k : Nat) (ds : Dataset)
    (hds : Updated F cfg d rng k ds) (rows : List Nat) (hrows : Active ds rows) (hsize : rows.length ≤ 2 ^ 32 - 256)
    (hmin : 1 ≤ cfg.minExamplesLeaf) (supercats : List (List Nat)) (o : Objective) (fuel : Nat) (a b : Num) :
    train F { cfg with compressionThreshold := a } ds supercats o fuel =
      train F { cfg with compressionThreshold := b } ds supercats o fuel := by
  have hn : ds.nactiveExamples ≤ 2 ^ 32 - 256 := by rw [← (rowsOk hds hrows).len]; exact hsize
  rw [train_eq (cfg := { cfg with compressionThreshold := a }) hn hds.masksOk hmin,
    train_eq (cfg := { cfg with compressionThreshold := b }) hn hds.masksOk hmin]
  exact (refTrain_thr a supercats o fuel).trans (refTrain_thr b supercats o fuel).symm

/-! ## C46 -/

/-- A trained tree is never deeper than `max_tree_depth`, so it has at most `2 ^ max_tree_depth` leaves. No assumption on
the data set or the configuration. -/
theorem C46_limits (F : FP) (cfg : Config) (ds : Dataset) (supercats : List (List Nat)) (o : Objective) (fuel : Nat)
    (t : Tree) (o' : Objective) (ht : train F cfg ds supercats o fuel = .ok (some (t, o'))) :
    (∀ n, IsNode t n → ∃ turns : List Bool, turns.length ≤ cfg.maxTreeDepth ∧ nodeAt turns = n) ∧
    {n | IsLeaf t n}.ncard ≤ 2 ^ cfg.maxTreeDepth ∧ t.nleafs = {n | IsLeaf t n}.ncard := by
  unfold train at ht
  obtain ⟨w, e1, ht⟩ := Out.bind_eq_ok.1 ht
  obtain ⟨st, e2, ht⟩ := Out.bind_eq_ok.1 ht
  obtain ⟨r, e3, ht⟩ := Out.bind_eq_ok.1 ht
  cases r with
  | none => simp at ht
  | some st' =>
    obtain ⟨o2, _, ht⟩ := Out.bind_eq_ok.1 ht
    simp only [Out.pure_eq, Out.ok.injEq, Option.some.injEq, Prod.mk.injEq] at ht
    obtain ⟨rfl, rfl⟩ := ht
    obtain ⟨hst, _⟩ := loop_stack fuel (start_stack e2).1 e3
    obtain ⟨j, hg⟩ := hst.grown
    obtain ⟨h1, _, h3, _⟩ := C37_depth F _ j _ _ hg
    obtain ⟨_, c2, _, _, c5, _⟩ := C37_counts F _ j _ _ hg
    have hmd := hg.built.inv.2.1
    unfold Tree.maxNleafs at h3
    rw [hmd] at h3
    refine ⟨h1, by rw [c5, ← c2]; exact h3, by rw [c5, c2]⟩

/-- Training terminates: `2 ^ max_tree_depth - 1` rounds are always enough (and more rounds change nothing). -/
theorem C46_terminates (F : FP) (cfg : Config) (ds : Dataset) (supercats : List (List Nat)) (o : Objective)
    (fuel : Nat) (hfuel : 2 ^ cfg.maxTreeDepth - 1 ≤ fuel) :
    train F cfg ds supercats o fuel ≠ .ok none ∧
    train F cfg ds supercats o fuel = train F cfg ds supercats o (2 ^ cfg.maxTreeDepth - 1) := by
  have key : ∀ w st, start F cfg ds supercats w o = .ok st →
      loop F cfg ds w fuel st ≠ .ok none ∧
      loop F cfg ds w fuel st = loop F cfg ds w (2 ^ cfg.maxTreeDepth - 1) st := by
    intro w st hst
    obtain ⟨h1, h2⟩ := start_stack hst
    exact ⟨(loop_ends fuel h1 (by omega)).1, (loop_ends _ h1 (le_of_eq h2)).2 fuel hfuel⟩
  unfold train
  cases hw : width cfg with
  | panic => exact ⟨(by intro h; cases h), rfl⟩
  | ub => exact ⟨(by intro h; cases h), rfl⟩
  | ok w =>
    simp only [Out.ok_bind]
    cases hs : start F cfg ds supercats w o with
    | panic => exact ⟨(by intro h; cases h), rfl⟩
    | ub => exact ⟨(by intro h; cases h), rfl⟩
    | ok st =>
      simp only [Out.ok_bind]
      obtain ⟨h1, h2⟩ := key w st hs
      refine ⟨?_, by rw [h2]⟩
      intro h
      obtain ⟨r, e, h⟩ := Out.bind_eq_ok.1 h
      cases r with
      | none => exact h1 e
      | some st' =>
        obtain ⟨_, _, h⟩ := Out.bind_eq_ok.1 h
        simp at h

/-! ## Examples -/

private theorem trained_check {F : FP} {cfg : Config} {d : Data} {rng : Rng} {gs : List (List Num × (Num × Num))}
    {o : Objective} {fuel : Nat} (p : Dataset → Tree → Objective → Bool)
    (h : (match exampleRun F cfg d rng gs with
      | .ok ds => (match train F cfg ds ds.supercats o fuel with | .ok (some (t, o')) => p ds t o' | _ => false)
      | _ => false) = true) :
    ∃ ds t o', Updated F cfg d rng gs.length ds ∧ train F cfg ds ds.supercats o fuel = .ok (some (t, o')) ∧
      p ds t o' = true := by
  obtain ⟨ds, h1, h2⟩ := exampleRun_check (fun ds => match train F cfg ds ds.supercats o fuel with
    | .ok (some (t, o')) => p ds t o' | _ => false) h
  cases e : train F cfg ds ds.supercats o fuel with
  | panic => rw [e] at h2; cases h2
  | ub => rw [e] at h2; cases h2
  | ok r =>
    rw [e] at h2
    cases r with
    | none => cases h2
    | some q => exact ⟨ds, q.1, q.2, h1, e, h2⟩

private def trainCfg : Config := { Config.new with maxNbins := 3, exampleFraction := .fin (4 / 5), maxTreeDepth := 2 }
private def trainData : Data :=
  ⟨3, [], 3, 5,
    [⟨[.fin 0, .fin 1, .fin 2, .fin 1, .fin 1], .fin 0, .fin 2, .loCardCat, 3⟩,
     ⟨[.fin 0, .fin 1, .fin 2, .fin 3, .fin 4], .fin 0, .fin 4, .hiCardCat, 5⟩,
     ⟨[.fin 0, .fin 1, .fin 3, .fin 7, .fin 9], .fin 0, .fin 9, .numerical, 0⟩,
     ⟨[.fin 0, .fin 1, .fin 3, .fin 1, .fin 8], .fin 0, .fin 8, .numerical, 0⟩]⟩
private def trainObj : Objective :=
  { Objective.new .l2 with
    learningRate := .fin 1, predictions := List.replicate 5 (.fin 0)
    gradients := [.fin 0, .fin (-1), .fin (-3), .fin (-1), .fin (-8)], l2bounds := (.fin (-8), .fin 8) }

/-- C40, C46, C58: a data set with a feature of each type; the rows 0, 1, 2 and 4 are active. The tree has two splits,
a numerical and a categorical one, and the leaf values 8, 3 and 1/2. The active examples get the values of their
leaves, row 3, which is not active, gets the prediction 8. -/
example : ∃ ds t o', Updated .exact trainCfg trainData ⟨fun i => i⟩ 1 ds ∧
    train .exact trainCfg ds ds.supercats trainObj 3 = .ok (some (t, o')) ∧ ds.exampleSampling = true ∧
    Active ds [0, 1, 2, 4] ∧ t.nleafs = 3 ∧ t.splitCrits.take 2 = [⟨.numLt, 2, .fin (1539 / 512)⟩, ⟨.loCardCatEq, 0, .fin 2⟩] ∧
    t.nodeValues.take 5 = [.fin 0, .fin 0, .fin 8, .fin 3, .fin (1 / 2)] ∧
    o'.predictions = [.fin (1 / 2), .fin (1 / 2), .fin 3, .fin 8, .fin 8] := by
  obtain ⟨ds, t, o', h1, h2, h3⟩ := trained_check (F := .exact) (cfg := trainCfg) (d := trainData) (rng := ⟨fun i => i⟩)
    (gs := [(trainObj.gradients, trainObj.l2bounds)]) (o := trainObj) (fuel := 3)
    (fun ds t o' => ds.exampleSampling && decide (ds.activePairs = .ok ((List.range 4).zip [0, 1, 2, 4])) &&
      decide (t.nleafs = 3) && decide (t.splitCrits.take 2 = [⟨.numLt, 2, .fin (1539 / 512)⟩, ⟨.loCardCatEq, 0, .fin 2⟩]) &&
      decide (t.nodeValues.take 5 = [.fin 0, .fin 0, .fin 8, .fin 3, .fin (1 / 2)]) &&
      decide (o'.predictions = [.fin (1 / 2), .fin (1 / 2), .fin 3, .fin 8, .fin 8])) (by decide +kernel)
  simp only [Bool.and_eq_true, decide_eq_true_eq] at h3
  obtain ⟨⟨⟨⟨⟨a1, a2⟩, a3⟩, a4⟩, a5⟩, a6⟩ := h3
  exact ⟨ds, t, o', h1, h2, a1, a2, a3, a4, a5, a6⟩

/-- C31, C35, C40 in `f32` arithmetic: the same tree. -/
example : ∃ ds t o', Updated .binary32 trainCfg trainData ⟨fun i => i⟩ 1 ds ∧
    train .binary32 trainCfg ds ds.supercats trainObj 3 = .ok (some (t, o')) ∧ ds.exampleSampling = true ∧
    Active ds [0, 1, 2, 4] ∧ t.nleafs = 3 ∧ t.splitCrits.take 2 = [⟨.numLt, 2, .fin (1539 / 512)⟩, ⟨.loCardCatEq, 0, .fin 2⟩] := by
  obtain ⟨ds, t, o', h1, h2, h3⟩ := trained_check (F := .binary32) (cfg := trainCfg) (d := trainData) (rng := ⟨fun i => i⟩)
    (gs := [(trainObj.gradients, trainObj.l2bounds)]) (o := trainObj) (fuel := 3)
    (fun ds t _ => ds.exampleSampling && decide (ds.activePairs = .ok ((List.range 4).zip [0, 1, 2, 4])) &&
      decide (t.nleafs = 3) && decide (t.splitCrits.take 2 = [⟨.numLt, 2, .fin (1539 / 512)⟩, ⟨.loCardCatEq, 0, .fin 2⟩]))
    (by decide +kernel)
  simp only [Bool.and_eq_true, decide_eq_true_eq] at h3
  obtain ⟨⟨⟨a1, a2⟩, a3⟩, a4⟩ := h3
  exact ⟨ds, t, o', h1, h2, a1, a2, a3, a4⟩

/-- Its numerical feature is a fixed-point column without missing values. -/
example : ∀ f c, f < trainData.nfeatures → trainData.cols[f]? = some c → c.ftype = .numerical →
    FixedPoint c ∧ Num.nan ∉ c.values := by
  intro f c hf hc ht
  have h3 : f = 0 ∨ f = 1 ∨ f = 2 := by simp only [trainData] at hf; omega
  rcases h3 with rfl | rfl | rfl <;> simp [trainData] at hc <;> subst hc
  · cases ht
  · cases ht
  · refine ⟨⟨0, by norm_num, by norm_num, ?_⟩, by simp⟩
    intro v hv _
    have hv' : v = .fin 0 ∨ v = .fin 1 ∨ v = .fin 3 ∨ v = .fin 7 ∨ v = .fin 9 := by
      simp at hv; tauto
    rcases hv' with rfl | rfl | rfl | rfl | rfl
    · exact ⟨0, by norm_num, by norm_num⟩
    · exact ⟨1, by norm_num, by norm_num⟩
    · exact ⟨3, by norm_num, by norm_num⟩
    · exact ⟨7, by norm_num, by norm_num⟩
    · exact ⟨9, by norm_num, by norm_num⟩

/-- The other hypotheses hold for this data. -/
example : Rectangular trainData ∧ 1 ≤ trainCfg.minExamplesLeaf ∧ (∀ c ∈ trainData.cols, c.card ≤ 2 ^ 24) ∧
    (∀ f c, f < trainData.nfeatures → trainData.cols[f]? = some c → c.ftype ≠ .numerical → ∀ v ∈ c.values, IsCategory v) ∧
    ∀ f c, f < trainData.nfeatures → trainData.cols[f]? = some c → c.ftype = .numerical → Num.nan ∉ c.values := by
  refine ⟨⟨by decide, by decide⟩, by decide, by decide, ?_, ?_⟩
  · intro f c hf hc ht v hv
    have h3 : f = 0 ∨ f = 1 ∨ f = 2 := by simp only [trainData] at hf; omega
    rcases h3 with rfl | rfl | rfl <;> simp [trainData] at hc <;> subst hc
    · simp at hv
      rcases hv with rfl | rfl | rfl | rfl
      · exact Or.inr ⟨0, by norm_num⟩
      · exact Or.inr ⟨1, by norm_num⟩
      · exact Or.inr ⟨2, by norm_num⟩
      · exact Or.inr ⟨1, by norm_num⟩
    · simp at hv
      rcases hv with rfl | rfl | rfl | rfl | rfl
      · exact Or.inr ⟨0, by norm_num⟩
      · exact Or.inr ⟨1, by norm_num⟩
      · exact Or.inr ⟨2, by norm_num⟩
      · exact Or.inr ⟨3, by norm_num⟩
      · exact Or.inr ⟨4, by norm_num⟩
    · exact absurd rfl ht
  · intro f c hf hc ht
    have h3 : f = 0 ∨ f = 1 ∨ f = 2 := by simp only [trainData] at hf; omega
    rcases h3 with rfl | rfl | rfl <;> simp [trainData] at hc <;> subst hc
    · cases ht
    · cases ht
    · simp

private def bigVals : List Num :=
  (List.range 300).map fun i => if i < 250 then .fin 0 else if i < 290 then .fin 1 else .fin 2
private def bigCfg : Config := { Config.new with maxNbins := 3, maxTreeDepth := 2 }
private def bigData : Data :=
  ⟨3, [], 1, 300, [⟨bigVals, .fin 0, .fin 2, .loCardCat, 3⟩, ⟨bigVals, .fin 0, .fin 2, .numerical, 0⟩]⟩
private def bigObj : Objective :=
  { Objective.new .l2 with
    learningRate := .fin 1, predictions := List.replicate 300 (.fin 0)
    gradients := bigVals.map fun v => FP.exact.sub (.fin 0) v, l2bounds := (.fin (-2), .fin 2) }

/-- Is a child of the root compressed? -/
private def compresses (cfg : Config) (ds : Dataset) : Bool :=
  match rootNode .exact cfg ds 4 bigObj with
  | .ok n => (match findBestSplit .exact cfg ds n.gradSum n.exampleCount n.hists with
    | .ok s => (match childNodes .exact cfg ds 4 bigObj.bounds n s with
      | .ok ch => ch.1.compressed || ch.2.compressed
      | _ => false)
    | _ => false)
  | _ => false

/-- C44: 300 examples with three categories, all active. With the threshold 1/2 the learner compresses a child of the
root, with the threshold 2 it does not; training succeeds with three leaves. -/
example : ∃ ds t o', Updated .exact bigCfg bigData ⟨fun _ => 2⟩ 1 ds ∧
    train .exact bigCfg ds ds.supercats bigObj 3 = .ok (some (t, o')) ∧ Active ds (List.range 300) ∧
    compresses bigCfg ds = true ∧ compresses { bigCfg with compressionThreshold := .fin 2 } ds = false ∧
    t.nleafs = 3 ∧ 1 ≤ bigCfg.minExamplesLeaf := by
  obtain ⟨ds, t, o', h1, h2, h3⟩ := trained_check (F := .exact) (cfg := bigCfg) (d := bigData) (rng := ⟨fun _ => 2⟩)
    (gs := [(bigObj.gradients, bigObj.l2bounds)]) (o := bigObj) (fuel := 3)
    (fun ds t _ => decide (ds.activePairs = .ok ((List.range 300).zip (List.range 300))) && compresses bigCfg ds &&
      !compresses { bigCfg with compressionThreshold := .fin 2 } ds && decide (t.nleafs = 3)) (by decide +kernel)
  simp only [Bool.and_eq_true, decide_eq_true_eq, Bool.not_eq_true'] at h3
  obtain ⟨⟨⟨a1, a2⟩, a3⟩, a4⟩ := h3
  exact ⟨ds, t, o', h1, h2, by unfold Active; rw [List.length_range]; exact a1, a2, a3, a4, by decide⟩

private def roundCfg : Config := { Config.new with maxNbins := 1, maxTreeDepth := 2 }
private def roundData : Data :=
  ⟨1, [], 1, 4,
    [⟨[.fin 0, .fin (5 / 2), .fin (3 + 1 / 2 ^ 22), .fin (512 + 1 / 2 ^ 14)], .fin 0, .fin (512 + 1 / 2 ^ 14),
        .numerical, 0⟩,
     ⟨[.fin 0, .fin (-1), .fin 0, .fin 0], .fin (-1), .fin 0, .numerical, 0⟩]⟩
private def roundObj : Objective :=
  { Objective.new .l2 with
    learningRate := .fin 1, predictions := List.replicate 4 (.fin 0)
    gradients := [.fin 0, .fin 1, .fin 0, .fin 0], l2bounds := (.fin (-1), .fin 1) }

/-- With `f32` arithmetic the leaf of an active example need not be the one prediction finds: all four rows are active,
the tree has one split and the leaves 1 and 2 with the values -1/2 and 0. Row 2 belongs to leaf 2 in training, so its
running prediction stays 0, but prediction sends it to leaf 1 and returns -1/2. -/
theorem C40_rounding_refuted :
    ∃ ds t o', Updated .binary32 roundCfg roundData ⟨fun _ => 2⟩ 1 ds ∧ Active ds [0, 1, 2, 3] ∧
      train .binary32 roundCfg ds ds.supercats roundObj 3 = .ok (some (t, o')) ∧
      t.nleafs = 2 ∧ t.nodeValue 1 = .ok (.fin (-1 / 2)) ∧ t.nodeValue 2 = .ok (.fin 0) ∧
      o'.predictions = [.fin (-1 / 2), .fin (-1 / 2), .fin 0, .fin 0] ∧
      t.predictLeafId roundData 2 = .ok 1 ∧ t.predictSingle .binary32 roundData 2 = .ok (.fin (-1 / 2)) := by
  obtain ⟨ds, t, o', h1, h2, h3⟩ := trained_check (F := .binary32) (cfg := roundCfg) (d := roundData)
    (rng := ⟨fun _ => 2⟩) (gs := [(roundObj.gradients, roundObj.l2bounds)]) (o := roundObj) (fuel := 3)
    (fun ds t o' => decide (ds.activePairs = .ok ((List.range 4).zip [0, 1, 2, 3])) && decide (t.nleafs = 2) &&
      decide (t.nodeValue 1 = .ok (.fin (-1 / 2))) && decide (t.nodeValue 2 = .ok (.fin 0)) &&
      decide (o'.predictions = [.fin (-1 / 2), .fin (-1 / 2), .fin 0, .fin 0]) &&
      decide (t.predictLeafId roundData 2 = .ok 1) &&
      decide (t.predictSingle .binary32 roundData 2 = .ok (.fin (-1 / 2)))) (by decide +kernel)
  simp only [Bool.and_eq_true, decide_eq_true_eq] at h3
  obtain ⟨⟨⟨⟨⟨⟨a1, a2⟩, a3⟩, a4⟩, a5⟩, a6⟩, a7⟩ := h3
  exact ⟨ds, t, o', h1, a1, h2, a2, a3, a4, a5, a6, a7⟩

end BitBoost.Props
