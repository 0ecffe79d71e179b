import Verif.Lemmas.BoostLoss
import Verif.Lemmas.Reuse
/-!
# Boosting: C41, C44, C47, C59, C60, C61

`Boosting F M cfg d rng metrics o k b`: the booster for data `d`, given the objective `o` (in any state), is in the
state `b` after `k` iterations. `Booster.run` ends in such a state with `k = niterations` (`C59_run`). The hypotheses
`hn` (at most 2^24 examples) and `hf` (`example_fraction` at most 1) make the sample of examples well defined (C30).
-/
namespace BitBoost.Props
open BitBoost Spec Dataset Learner

section
variable (F : FP) (M : Libm) (cfg : Config) (d : Data) (rng : Rng) (metrics : List Metric) (o : Objective)

/-! ## C41 -/

/-- **C41** for data without numerical features, any rounding: after any number of iterations the running predictions
are exactly what the ensemble of the trees so far predicts for the training data. -/
theorem C41_categorical (k : Nat) (b : Booster) (hb : Boosting F M cfg d rng metrics o k b) (hd : Rectangular d)
    (hn : d.nexamples ≤ 2 ^ 24) (hf : cfg.exampleFraction.le (.fin 1) = true) (hmin : 1 ≤ cfg.minExamplesLeaf)
    (hcard : ∀ c ∈ d.cols, c.card ≤ 2 ^ 24) (hnb : d.maxNbins ≤ 2 ^ 24)
    (hcat : ∀ f c, f < d.nfeatures → d.cols[f]? = some c → c.ftype ≠ .numerical ∧ ∀ v ∈ c.values, IsCategory v) :
    b.ensemble.predict F d = .ok b.objective.predictions :=
  Booster.boosting_predict hb hd hn hf hmin
    (fun _ _ _ h1 h2 h3 => consistent_categorical h1 h2 h3 hd hcard hnb hcat)

/-- **C41** in exact arithmetic, with numerical features without missing values. (Missing: `f32` arithmetic with
numerical features, where it is false, see `C41_rounding_refuted`.) -/
theorem C41_exact_partial (k : Nat) (b : Booster) (hb : Boosting .exact M cfg d rng metrics o k b) (hd : Rectangular d)
    (hn : d.nexamples ≤ 2 ^ 24) (hf : cfg.exampleFraction.le (.fin 1) = true) (hmin : 1 ≤ cfg.minExamplesLeaf)
    (hcard : ∀ c ∈ d.cols, c.card ≤ 2 ^ 24) (hnb : d.maxNbins ≤ 2 ^ 24)
    (hcat : ∀ f c, f < d.nfeatures → d.cols[f]? = some c → c.ftype ≠ .numerical → ∀ v ∈ c.values, IsCategory v)
    (hnan : ∀ f c, f < d.nfeatures → d.cols[f]? = some c → c.ftype = .numerical → Num.nan ∉ c.values) :
    b.ensemble.predict .exact d = .ok b.objective.predictions :=
  Booster.boosting_predict hb hd hn hf hmin
    (fun _ _ _ h1 h2 h3 => consistent_exact h1 h2 h3 hd hcard hnb hcat hnan)

/-- **C41** with the `f32` arithmetic of the code, when the numerical features are fixed-point columns (`Spec.FixedPoint`:
up to a power of two, integers of 14 bits) or columns in general position (`Spec.Separated`: no value too close to a bin
bound), without missing values. (Missing: other numerical columns, where it is false,
see `C41_rounding_refuted`.) -/
theorem C41_f32_partial (k : Nat) (b : Booster) (hb : Boosting .binary32 M cfg d rng metrics o k b)
    (hd : Rectangular d) (hn : d.nexamples ≤ 2 ^ 24) (hf : cfg.exampleFraction.le (.fin 1) = true)
    (hmin : 1 ≤ cfg.minExamplesLeaf) (hcard : ∀ c ∈ d.cols, c.card ≤ 2 ^ 24) (hnb : d.maxNbins ≤ 2 ^ 24)
    (hcat : ∀ f c, f < d.nfeatures → d.cols[f]? = some c → c.ftype ≠ .numerical → ∀ v ∈ c.values, IsCategory v)
    (hfix : ∀ f c, f < d.nfeatures → d.cols[f]? = some c → c.ftype = .numerical →
      (FixedPoint c ∨ Separated c) ∧ Num.nan ∉ c.values) :
    b.ensemble.predict .binary32 d = .ok b.objective.predictions :=
  Booster.boosting_predict hb hd hn hf hmin
    (fun _ _ _ h1 h2 h3 => consistent_f32 h1 h2 h3 hd hcard hnb hcat hfix)

/-- **C41** for all data and any rounding, for the rows that were left out of the sample in an iteration: their running
prediction grows by exactly what the new tree predicts for them. -/
theorem C41_out_of_bag (k : Nat) (b b' : Booster) (hb : Boosting F M cfg d rng metrics o k b)
    (hs : Booster.trainOneIter F M cfg d metrics b = .ok b') (hd : Rectangular d)
    (hn : d.nexamples ≤ 2 ^ 24) (hf : cfg.exampleFraction.le (.fin 1) = true) (hmin : 1 ≤ cfg.minExamplesLeaf)
    (rows : List Nat) (hrows : Active b'.dataset rows) (r : Nat) (hr : r < d.nexamples) (hna : r ∉ rows) :
    ∃ t x p, b'.ensemble.trees = b.ensemble.trees ++ [t] ∧ b.objective.predictions[r]? = some x ∧
      t.predictSingle F d r = .ok p ∧ b'.objective.predictions[r]? = some (F.add x p) := by
  obtain ⟨ts, o1, ds, t, o', e1, e2, e3, e4, rfl⟩ := Booster.trainOneIter_ok hs
  obtain ⟨_, _, _, u4, _⟩ := Booster.update_same e2
  have hds := Updated.update (Booster.boosting_updated hb).1 e3
  obtain ⟨rows', r1, r2, r3, _⟩ := active_rows hds hn hf
  have hl : rows'.length = rows.length := by rw [(rowsOk hds r1).len, (rowsOk hds hrows).len]
  obtain ⟨x, p, h1, h2, h3⟩ := C40_out_of_bag F cfg d rng _ ds hds rows hrows
    (fun h => by rw [← hl]; exact r2 h) hd (by omega) hmin o1 _ t o' e4 r hr hna
  exact ⟨t, x, p, rfl, by rw [← u4]; exact h1, h2, h3⟩

/-! ## C44 -/

private theorem updateFeature_thr (a : Num) (grad : List Num) (bounds : Num × Num) (bagged : Bool)
    (ex : List Nat) (f : Nat) (ds : Dataset) :
    updateFeature F { cfg with compressionThreshold := a } grad bounds bagged ex f ds =
      updateFeature F cfg grad bounds bagged ex f ds := rfl

private theorem updateFeatures_thr (a : Num) (grad : List Num) (bounds : Num × Num) (bagged : Bool)
    (ex : List Nat) : ∀ (fs : List Nat) (ds : Dataset),
    updateFeatures F { cfg with compressionThreshold := a } grad bounds bagged ex fs ds =
      updateFeatures F cfg grad bounds bagged ex fs ds
  | [], _ => rfl
  | f :: fs, ds => by
      unfold updateFeatures
      simp only [updateFeature_thr, updateFeatures_thr a grad bounds bagged ex fs]

private theorem update_thr (a : Num) (ds : Dataset) (grad : List Num) (bounds : Num × Num) :
    ds.update F { cfg with compressionThreshold := a } grad bounds = ds.update F cfg grad bounds := by
  unfold Dataset.update refresh
  simp only [updateFeatures_thr]

private theorem new_thr (a : Num) : Dataset.new F { cfg with compressionThreshold := a } d rng =
    Dataset.new F cfg d rng := by
  unfold Dataset.new Dataset.inner
  rfl

private theorem init_thr (a : Num) (o : Objective) (ts : List Num) :
    o.init F M { cfg with compressionThreshold := a } ts = o.init F M cfg ts := by
  unfold Objective.init
  cases o.kind <;> simp only [Objective.initializeBase]

private theorem evalMetrics_thr (a : Num) (k : Nat) (ts ps : List Num) :
    Booster.evalMetrics F M { cfg with compressionThreshold := a } metrics k ts ps =
      Booster.evalMetrics F M cfg metrics k ts ps := by
  unfold Booster.evalMetrics Booster.runMetrics
  rfl

private theorem learnTree_thr (hn : d.nexamples ≤ 2 ^ 24) (hf : cfg.exampleFraction.le (.fin 1) = true)
    (hmin : 1 ≤ cfg.minExamplesLeaf) (a c : Num) (k : Nat) (ds : Dataset) (hds : Updated F cfg d rng k ds)
    (o : Objective) : Booster.learnTree F { cfg with compressionThreshold := a } ds o =
      Booster.learnTree F { cfg with compressionThreshold := c } ds o := by
  obtain ⟨rows, r1, r2, r3, _⟩ := active_rows hds hn hf
  have := C44_compression F cfg d rng k ds hds rows r1 r3 hmin ds.supercats o (2 ^ cfg.maxTreeDepth - 1) a c
  unfold Booster.learnTree
  simp only
  rw [this]

private theorem trainOneIter_thr (hn : d.nexamples ≤ 2 ^ 24) (hf : cfg.exampleFraction.le (.fin 1) = true)
    (hmin : 1 ≤ cfg.minExamplesLeaf) (a c : Num) (k : Nat) (b : Booster) (hb : Updated F cfg d rng k b.dataset) :
    Booster.trainOneIter F M { cfg with compressionThreshold := a } d metrics b =
      Booster.trainOneIter F M { cfg with compressionThreshold := c } d metrics b := by
  unfold Booster.trainOneIter
  simp only [update_thr, evalMetrics_thr]
  cases ht : target d with
  | panic => rw [Out.panic_bind, Out.panic_bind]
  | ub => rw [Out.ub_bind, Out.ub_bind]
  | ok ts =>
    rw [Out.ok_bind, Out.ok_bind]
    cases hu : b.objective.update F M ts with
    | panic => rw [Out.panic_bind, Out.panic_bind]
    | ub => rw [Out.ub_bind, Out.ub_bind]
    | ok o1 =>
      rw [Out.ok_bind, Out.ok_bind]
      cases hd : b.dataset.update F cfg o1.gradients o1.bounds with
      | panic => rw [Out.panic_bind, Out.panic_bind]
      | ub => rw [Out.ub_bind, Out.ub_bind]
      | ok ds =>
        rw [Out.ok_bind, Out.ok_bind]
        rw [learnTree_thr F cfg d rng hn hf hmin a c (k + 1) ds (.update hb hd) o1]

private theorem iterate_thr (hn : d.nexamples ≤ 2 ^ 24) (hf : cfg.exampleFraction.le (.fin 1) = true)
    (hmin : 1 ≤ cfg.minExamplesLeaf) (a c : Num) :
    ∀ (n k : Nat) (b : Booster), Updated F cfg d rng k b.dataset →
      Booster.iterate F M { cfg with compressionThreshold := a } d metrics n b =
        Booster.iterate F M { cfg with compressionThreshold := c } d metrics n b
  | 0, k, b, hb => rfl
  | n + 1, k, b, hb => by
      unfold Booster.iterate
      rw [trainOneIter_thr F M cfg d rng metrics hn hf hmin a c k b hb]
      cases hs : Booster.trainOneIter F M { cfg with compressionThreshold := c } d metrics b with
      | panic => rw [Out.panic_bind, Out.panic_bind]
      | ub => rw [Out.ub_bind, Out.ub_bind]
      | ok b' =>
        rw [Out.ok_bind, Out.ok_bind]
        obtain ⟨ts, o1, ds, t, o', e1, e2, e3, e4, rfl⟩ := Booster.trainOneIter_ok hs
        rw [update_thr] at e3
        exact iterate_thr hn hf hmin a c n (k + 1) _ (.update hb e3)

/-- **C44** for whole training runs: the trees, the running predictions, the printed metrics, and whether training
panics, do not depend on `compression_threshold`. -/
theorem C44_booster (hn : d.nexamples ≤ 2 ^ 24) (hf : cfg.exampleFraction.le (.fin 1) = true)
    (hmin : 1 ≤ cfg.minExamplesLeaf) (a c : Num) :
    Booster.run F M { cfg with compressionThreshold := a } d rng metrics o =
      Booster.run F M { cfg with compressionThreshold := c } d rng metrics o := by
  unfold Booster.run Booster.new
  simp only [new_thr]
  cases hds : Dataset.new F cfg d rng with
  | panic => simp only [Out.panic_bind]
  | ub => simp only [Out.ub_bind]
  | ok ds =>
    simp only [Out.ok_bind, Out.pure_eq]
    unfold Booster.train Booster.prepare
    simp only [init_thr]
    rw [show (((0 : Nat) == 0) : Bool) = true from rfl, Out.assert_true, Out.ok_bind, Out.ok_bind]
    cases ht : target d with
    | panic => simp only [Out.panic_bind]
    | ub => simp only [Out.ub_bind]
    | ok ts =>
      simp only [Out.ok_bind]
      cases hi : o.init F M cfg ts with
      | panic => simp only [Out.panic_bind]
      | ub => simp only [Out.ub_bind]
      | ok o1 =>
        simp only [Out.ok_bind, Out.pure_eq]
        exact iterate_thr F M cfg d rng metrics hn hf hmin a c _ 0 _ (.new hds)

/-! ## C47 -/

private theorem boosting_l2 (k : Nat) (b : Booster) (hb : Boosting .exact M cfg d rng metrics o k b)
    (hd : Rectangular d) (hn : d.nexamples ≤ 2 ^ 24) (hf : cfg.exampleFraction.le (.fin 1) = true)
    (hmin : 1 ≤ cfg.minExamplesLeaf) (hk : o.kind = .l2) (r : ℚ) (hr : cfg.learningRate = .fin r) (h0 : 0 ≤ r)
    (h2 : r ≤ 2) (ts : List ℚ) (ht : target d = .ok (Spec.column ts)) :
    ∃ ps, b.objective.predictions = Spec.column ps ∧ ps.length = d.nexamples := by
  have hlt : ts.length = d.nexamples := by rw [← column_length ts]; exact Booster.target_length hd ht
  induction hb with
  | start g0 g1 =>
    obtain ⟨ds, e, rfl⟩ := Booster.new_ok g0
    obtain ⟨ts', o1, e1, e2, rfl⟩ := Booster.prepare_ok g1
    rw [ht] at e1
    cases e1
    have hp := (C49_predictions_are_bias .exact M _ _ cfg _ e2).1
    rw [column_length] at hp
    by_cases hne : ts = []
    · subst hne
      exact ⟨[], hp, hlt⟩
    · obtain ⟨o2, e3, e4⟩ := C49_l2_mean M o cfg ts hne hk
      simp only at e2
      rw [e2] at e3
      cases e3
      refine ⟨List.replicate ts.length (ts.sum / ts.length), ?_, by simpa using hlt⟩
      simp only
      rw [hp, e4, Spec.column, List.map_replicate]
  | iter hb hs ih =>
    obtain ⟨ps, q1, q2⟩ := ih
    obtain ⟨b1, b2, _, _⟩ := Booster.boosting_objective hb hd hn hf hmin
    obtain ⟨ts', o1, ds, t, o', e1, e2, e3, e4, rfl⟩ := Booster.trainOneIter_ok hs
    obtain ⟨u1, u2, _, u4, _⟩ := Booster.update_same e2
    have hds := Updated.update (Booster.boosting_updated hb).1 e3
    obtain ⟨rows, r1, r2, r3, r4, r5⟩ := active_rows hds hn hf
    obtain ⟨ps', w1, w2, _⟩ := train_l2 hds r1 r2 hd r3 hmin e4 r4 r5 ht (by rw [u1, b1, hk]) (by rw [u2, b2, hr])
      h0 h2 (by rw [u4, q1]) q2 hlt
    exact ⟨ps', w1, w2⟩

/-- **C47** for the booster: with squared loss and a learning rate between 0 and 2, an iteration does not increase the
squared error of the examples it was trained on (`rows`). -/
theorem C47_iteration (k : Nat) (b b' : Booster) (hb : Boosting .exact M cfg d rng metrics o k b)
    (hs : Booster.trainOneIter .exact M cfg d metrics b = .ok b')
    (hd : Rectangular d) (hn : d.nexamples ≤ 2 ^ 24) (hf : cfg.exampleFraction.le (.fin 1) = true)
    (hmin : 1 ≤ cfg.minExamplesLeaf) (hk : o.kind = .l2) (r : ℚ) (hr : cfg.learningRate = .fin r) (h0 : 0 ≤ r)
    (h2 : r ≤ 2) (ts : List ℚ) (ht : target d = .ok (Spec.column ts)) (rows : List Nat)
    (hrows : Active b'.dataset rows) :
    ∃ ps ps', b.objective.predictions = Spec.column ps ∧ b'.objective.predictions = Spec.column ps' ∧
      ps.length = ts.length ∧ ps'.length = ts.length ∧
      (rows.map fun i => (at' ts i - at' ps' i) ^ 2).sum ≤ (rows.map fun i => (at' ts i - at' ps i) ^ 2).sum := by
  have hlt : ts.length = d.nexamples := by rw [← column_length ts]; exact Booster.target_length hd ht
  obtain ⟨ps, q1, q2⟩ := boosting_l2 M cfg d rng metrics o k b hb hd hn hf hmin hk r hr h0 h2 ts ht
  obtain ⟨b1, b2, _, _⟩ := Booster.boosting_objective hb hd hn hf hmin
  obtain ⟨ts', o1, ds, t, o', e1, e2, e3, e4, rfl⟩ := Booster.trainOneIter_ok hs
  obtain ⟨u1, u2, _, u4, _⟩ := Booster.update_same e2
  have hds := Updated.update (Booster.boosting_updated hb).1 e3
  obtain ⟨rows', r1, r2, r3, r4, r5⟩ := active_rows hds hn hf
  obtain rfl : rows = rows' := active_unique hrows r1
  obtain ⟨ps', w1, w2, w3⟩ := train_l2 hds r1 r2 hd r3 hmin e4 r4 r5 ht (by rw [u1, b1, hk]) (by rw [u2, b2, hr])
    h0 h2 (by rw [u4, q1]) q2 hlt
  exact ⟨ps, ps', q1, w1, by omega, by omega, w3⟩

/-- **C47** for whole training runs without sampling of examples: the squared training error never increases, from any
iteration `j` to any later iteration `k`. -/
theorem C47_run (j k : Nat) (hjk : j ≤ k) (b b' : Booster) (hb : Boosting .exact M cfg d rng metrics o j b)
    (hb' : Boosting .exact M cfg d rng metrics o k b')
    (hd : Rectangular d) (hn : d.nexamples ≤ 2 ^ 24) (hf : cfg.exampleFraction = .fin 1)
    (hmin : 1 ≤ cfg.minExamplesLeaf) (hk : o.kind = .l2) (r : ℚ) (hr : cfg.learningRate = .fin r) (h0 : 0 ≤ r)
    (h2 : r ≤ 2) (ts : List ℚ) (ht : target d = .ok (Spec.column ts)) :
    ∃ ps ps', b.objective.predictions = Spec.column ps ∧ b'.objective.predictions = Spec.column ps' ∧
      ps.length = ts.length ∧ ps'.length = ts.length ∧ sqErr ts ps' ≤ sqErr ts ps := by
  have hlt : ts.length = d.nexamples := by rw [← column_length ts]; exact Booster.target_length hd ht
  have hf' : cfg.exampleFraction.le (.fin 1) = true := by rw [hf]; rfl
  induction hb' with
  | start g0 g1 =>
    have : j = 0 := by omega
    subst this
    have := Booster.boosting_unique hb (.start g0 g1)
    subst this
    obtain ⟨ps, q1, q2⟩ := boosting_l2 M cfg d rng metrics o 0 b hb hd hn hf' hmin hk r hr h0 h2 ts ht
    exact ⟨ps, ps, q1, q1, by omega, by omega, le_refl _⟩
  | @iter k b1 b2 hb1 hs ih =>
    by_cases hj : j ≤ k
    · obtain ⟨ps, ps1, q1, q2, q3, q4, q5⟩ := ih hj
      have hu := (Booster.boosting_updated (.iter hb1 hs)).1
      obtain ⟨_, ha⟩ := C30_no_sampling .exact cfg d rng _ _ hu hf hn
      obtain ⟨ps1', ps2, w1, w2, w3, w4, w5⟩ := C47_iteration M cfg d rng metrics o k b1 b2 hb1 hs hd hn hf' hmin hk r hr
        h0 h2 ts ht _ ha
      have : ps1' = ps1 := by
        rw [q2] at w1
        exact (List.map_injective_iff.2 (fun a b h => by cases h; rfl) w1).symm
      subst this
      refine ⟨ps, ps2, q1, w2, q3, w4, le_trans ?_ q5⟩
      have hr1 := sqErr_split ts ps2 (by omega) (List.range d.nexamples) List.nodup_range
        (fun r h => by rw [hlt]; exact List.mem_range.1 h)
      have hr2 := sqErr_split ts ps1' (by omega) (List.range d.nexamples) List.nodup_range
        (fun r h => by rw [hlt]; exact List.mem_range.1 h)
      have hemp : Finset.range ts.length \ (List.range d.nexamples).toFinset = ∅ := by
        rw [hlt]; ext i; simp
      rw [hemp, Finset.sum_empty, add_zero] at hr1 hr2
      rw [hr1, hr2]
      exact w5
    · have : j = k + 1 := by omega
      subst this
      have := Booster.boosting_unique hb (.iter hb1 hs)
      subst this
      obtain ⟨ps, q1, q2⟩ := boosting_l2 M cfg d rng metrics o _ b hb hd hn hf' hmin hk r hr h0 h2 ts ht
      exact ⟨ps, ps, q1, q1, by omega, by omega, le_refl _⟩

/-! ## C59 -/

/-- **C59.** A training run that returns has made exactly `niterations` iterations, and the ensemble has that many trees,
each at most `max_tree_depth` deep. -/
theorem C59_run (b : Booster) (h : Booster.run F M cfg d rng metrics o = .ok b) :
    Boosting F M cfg d rng metrics o cfg.niterations b ∧ b.iterCount = cfg.niterations ∧
      b.ensemble.trees.length = cfg.niterations :=
  ⟨Booster.run_boosting h, (Booster.boosting_updated (Booster.run_boosting h)).2⟩

/-- **C59.** Every tree of the ensemble keeps the limits, and the trees of earlier iterations are never changed. -/
theorem C59_trees (k : Nat) (b : Booster) (hb : Boosting F M cfg d rng metrics o k b) :
    (∀ t ∈ b.ensemble.trees, (∀ n, IsNode t n → ∃ turns : List Bool, turns.length ≤ cfg.maxTreeDepth ∧
        nodeAt turns = n) ∧ {n | IsLeaf t n}.ncard ≤ 2 ^ cfg.maxTreeDepth) ∧
    ∀ b', Booster.trainOneIter F M cfg d metrics b = .ok b' →
      ∃ t, b'.ensemble.trees = b.ensemble.trees ++ [t] ∧ b'.ensemble.bias = b.ensemble.bias := by
  constructor
  · induction hb with
    | start h0 h1 =>
      obtain ⟨ds, e, rfl⟩ := Booster.new_ok h0
      obtain ⟨ts, o1, _, _, rfl⟩ := Booster.prepare_ok h1
      intro t ht
      simp [AdditiveTree.setBias, AdditiveTree.new] at ht
    | iter _ hs ih =>
      obtain ⟨ts, o1, ds, t, o', e1, e2, e3, e4, rfl⟩ := Booster.trainOneIter_ok hs
      intro t' ht'
      simp only [AdditiveTree.pushTree, List.mem_append, List.mem_singleton] at ht'
      rcases ht' with h | rfl
      · exact ih t' h
      · obtain ⟨h1, h2, _⟩ := C46_limits F cfg ds ds.supercats o1 _ _ o' e4
        exact ⟨h1, h2⟩
  · intro b' hs
    obtain ⟨ts, o1, ds, t, o', e1, e2, e3, e4, rfl⟩ := Booster.trainOneIter_ok hs
    exact ⟨t, rfl, rfl⟩

/-! ## C60 -/

/-- What the metrics print in iteration `j` if the predictions are then `ps`. -/
private def report (ts : List Num) (ps : Nat → List Num) (j : Nat) : List Printed :=
  if metrics ≠ [] ∧ 0 < cfg.metricFrequency ∧ cfg.metricFrequency ∣ j then
    metrics.map fun m => ⟨j, m, m.eval F M ts (ps j)⟩
  else []

private theorem evalMetrics_report (ts : List Num) (ps : Nat → List Num) (j : Nat) :
    Booster.evalMetrics F M cfg metrics j ts (ps j) = report F M cfg metrics ts ps j := by
  unfold Booster.evalMetrics Booster.runMetrics report
  by_cases h1 : metrics = [] <;> by_cases h2 : 0 < cfg.metricFrequency <;>
    by_cases h3 : cfg.metricFrequency ∣ j <;>
    simp [h1, h2, h3, Nat.dvd_iff_mod_eq_zero] <;> simp_all [Nat.dvd_iff_mod_eq_zero]

/-- **C60.** The metrics are printed after iterations `metric_frequency`, `2 * metric_frequency`, ..., each time all of
them in order, and the values are those of the running predictions at that time. -/
theorem C60_metrics (k : Nat) (b : Booster) (hb : Boosting F M cfg d rng metrics o k b) :
    ∃ (ts : List Num) (states : Nat → Booster), target d = .ok ts ∧ states k = b ∧
      (∀ j ≤ k, Boosting F M cfg d rng metrics o j (states j)) ∧
      b.printed = (List.range' 1 k).flatMap fun j =>
        if metrics ≠ [] ∧ 0 < cfg.metricFrequency ∧ cfg.metricFrequency ∣ j then
          metrics.map fun m => ⟨j, m, m.eval F M ts (states j).objective.predictions⟩
        else [] := by
  induction hb with
  | @start b0 b h0 h1 =>
    obtain ⟨ds, e, rfl⟩ := Booster.new_ok h0
    obtain ⟨ts, o1, e1, _, rfl⟩ := Booster.prepare_ok h1
    refine ⟨ts, fun _ => _, e1, rfl, ?_, rfl⟩
    intro j hj
    have : j = 0 := by omega
    subst this
    exact .start h0 h1
  | @iter k b b' hb hs ih =>
    obtain ⟨ts, states, e1, hk, hst, hp⟩ := ih
    obtain ⟨ts', o1, ds, t, o', e1', e2, e3, e4, hb'⟩ := Booster.trainOneIter_ok hs
    rw [e1] at e1'
    cases e1'
    have hcnt := (Booster.boosting_updated hb).2.1
    refine ⟨ts, fun j => if j ≤ k then states j else b', e1, by simp, ?_, ?_⟩
    · intro j hj
      by_cases h : j ≤ k
      · simp only [h, if_true]
        exact hst j h
      · have : j = k + 1 := by omega
        subst this
        simp only [h, if_false]
        exact .iter hb hs
    · rw [List.range'_1_concat, List.flatMap_append]
      conv_lhs => rw [hb']
      simp only
      congr 1
      · rw [hp]
        apply List.flatMap_congr
        intro j hj
        have : j ≤ k := by
          rw [List.mem_range'_1] at hj
          omega
        simp [this]
      · simp only [List.flatMap_cons, List.flatMap_nil, List.append_nil]
        have hne : ¬ (1 + k ≤ k) := by omega
        simp only [hne, if_false]
        rw [hcnt, Nat.add_comm k 1]
        have := evalMetrics_report F M cfg metrics ts (fun _ => o'.predictions) (1 + k)
        rw [this]
        unfold report
        rw [hb']

/-! ## C61 -/

/-- **C61.** An objective object that was used before gives the same training run as a new one: the outcome depends only
on which of the five objectives it is. -/
theorem C61_objective_reuse (o' : Objective) (hk : o.kind = o'.kind) :
    (do let b ← Booster.run F M cfg d rng metrics o
        return (b.ensemble, b.objective.predictions, b.printed, b.dataset)) =
    (do let b ← Booster.run F M cfg d rng metrics o'
        return (b.ensemble, b.objective.predictions, b.printed, b.dataset) : Out _) := by
  refine Out.Sim.eq (Out.Sim.bind (Booster.run_sim hk) fun b b' h => ?_)
  rw [h.dataset, h.ensemble, h.printed, h.obj.preds]
  exact .ok rfl

end

/-! ## Examples -/

def runLibm : Libm := ⟨fun _ => .fin 1, fun _ => .fin 0, fun x => x⟩

theorem boosted_check {F : FP} {cfg : Config} {d : Data} {rng : Rng} {metrics : List Metric}
    {o : Objective} (p : Booster → Bool)
    (h : (match Booster.run F runLibm cfg d rng metrics o with | .ok b => p b | _ => false) = true) :
    ∃ b, Booster.run F runLibm cfg d rng metrics o = .ok b ∧ p b = true := by
  cases e : Booster.run F runLibm cfg d rng metrics o with
  | panic => rw [e] at h; cases h
  | ub => rw [e] at h; cases h
  | ok b => rw [e] at h; exact ⟨b, rfl, h⟩

private def roundCfg1 : Config := { Config.new with maxNbins := 1, maxTreeDepth := 2, niterations := 1 }
private def roundData1 : Data :=
  ⟨1, [], 1, 4,
    [⟨[.fin 0, .fin (5 / 2), .fin (3 + 1 / 2 ^ 22), .fin (512 + 1 / 2 ^ 14)], .fin 0, .fin (512 + 1 / 2 ^ 14),
        .numerical, 0⟩,
     ⟨[.fin 0, .fin (-1), .fin 0, .fin 0], .fin (-1), .fin 0, .numerical, 0⟩]⟩

/-- **C41** is false with `f32` arithmetic and numerical features: after one iteration on four rows, the running
prediction of row 2 is 0, the ensemble predicts -1/2 for it. -/
theorem C41_rounding_refuted :
    ∃ b, Booster.run .binary32 runLibm roundCfg1 roundData1 ⟨fun _ => 2⟩ [] (Objective.new .l2) = .ok b ∧
      b.objective.predictions = [.fin (-1 / 2), .fin (-1 / 2), .fin 0, .fin 0] ∧
      b.ensemble.predict .binary32 roundData1 = .ok [.fin (-1 / 2), .fin (-1 / 2), .fin (-1 / 2), .fin 0] := by
  obtain ⟨b, h1, h2⟩ := boosted_check (F := .binary32) (cfg := roundCfg1) (d := roundData1) (rng := ⟨fun _ => 2⟩)
    (metrics := []) (o := Objective.new .l2)
    (fun b => decide (b.objective.predictions = [.fin (-1 / 2), .fin (-1 / 2), .fin 0, .fin 0]) &&
      decide (b.ensemble.predict .binary32 roundData1 = .ok [.fin (-1 / 2), .fin (-1 / 2), .fin (-1 / 2), .fin 0]))
    (by decide +kernel)
  simp only [Bool.and_eq_true, decide_eq_true_eq] at h2
  exact ⟨b, h1, h2.1, h2.2⟩

def runCfg : Config :=
  { Config.new with maxNbins := 3, maxTreeDepth := 2, niterations := 2, exampleFraction := .fin (4 / 5)
                    learningRate := .fin (1 / 2), metricFrequency := 2 }
def runData : Data :=
  ⟨3, [], 2, 5,
    [⟨[.fin 0, .fin 1, .fin 2, .fin 1, .fin 1], .fin 0, .fin 2, .loCardCat, 3⟩,
     ⟨[.fin 0, .fin 1, .fin 2, .fin 3, .fin 4], .fin 0, .fin 4, .hiCardCat, 5⟩,
     ⟨[.fin 0, .fin 1, .fin 3, .fin 1, .fin 8], .fin 0, .fin 8, .numerical, 0⟩]⟩

/-- C41, C44, C59, C60, C61: two iterations in `f32` arithmetic on data with two categorical features, with four of the
five rows active in each iteration. There are two trees, with 2 and 3 leaves; the metrics are printed once, after the
second iteration. -/
example : ∃ b, Booster.run .binary32 runLibm runCfg runData ⟨fun i => i⟩ [.l2, .binaryError] (Objective.new .l2) = .ok b ∧
    b.dataset.exampleSampling = true ∧ b.ensemble.trees.map (fun t : Tree => t.nleafs) = [2, 3] ∧
    b.objective.predictions = [.fin (5452595 / 8388608), .fin (4508877 / 2097152), .fin (6606029 / 2097152),
      .fin (4508877 / 2097152), .fin (4508877 / 2097152)] ∧
    b.printed = [⟨2, .l2, .fin (15649997 / 2097152)⟩, ⟨2, .binaryError, .fin (13421773 / 67108864)⟩] := by
  obtain ⟨b, h1, h2⟩ := boosted_check (F := .binary32) (cfg := runCfg) (d := runData) (rng := ⟨fun i => i⟩)
    (metrics := [.l2, .binaryError]) (o := Objective.new .l2)
    (fun b => b.dataset.exampleSampling && decide (b.ensemble.trees.map (fun t : Tree => t.nleafs) = [2, 3]) &&
      decide (b.objective.predictions = [.fin (5452595 / 8388608), .fin (4508877 / 2097152), .fin (6606029 / 2097152),
        .fin (4508877 / 2097152), .fin (4508877 / 2097152)]) &&
      decide (b.printed = [⟨2, .l2, .fin (15649997 / 2097152)⟩, ⟨2, .binaryError, .fin (13421773 / 67108864)⟩]))
    (by decide +kernel)
  simp only [Bool.and_eq_true, decide_eq_true_eq] at h2
  obtain ⟨⟨⟨a1, a2⟩, a3⟩, a4⟩ := h2
  exact ⟨b, h1, a1, a2, a3, a4⟩

/-- The other hypotheses of C41, C44 and C47 hold for it. -/
example : Rectangular runData ∧ runData.nexamples ≤ 2 ^ 24 ∧ runCfg.exampleFraction.le (.fin 1) = true ∧
    1 ≤ runCfg.minExamplesLeaf ∧ (∀ c ∈ runData.cols, c.card ≤ 2 ^ 24) ∧ runData.maxNbins ≤ 2 ^ 24 ∧
    (∀ f c, f < runData.nfeatures → runData.cols[f]? = some c → c.ftype ≠ .numerical ∧ ∀ v ∈ c.values, IsCategory v) ∧
    target runData = .ok (Spec.column [0, 1, 3, 1, 8]) := by
  refine ⟨⟨by decide, by decide⟩, by decide, by decide +kernel, by decide, by decide, by decide, ?_, rfl⟩
  intro f c hf hc
  have h3 : f = 0 ∨ f = 1 := by simp only [runData] at hf; omega
  rcases h3 with rfl | rfl <;> simp [runData] at hc <;> subst hc <;> refine ⟨by simp, fun v hv => ?_⟩ <;> simp at hv
  · rcases hv with rfl | rfl | rfl | rfl
    · exact Or.inr ⟨0, by norm_num⟩
    · exact Or.inr ⟨1, by norm_num⟩
    · exact Or.inr ⟨2, by norm_num⟩
    · exact Or.inr ⟨1, by norm_num⟩
  · rcases hv with rfl | rfl | rfl | rfl | rfl
    · exact Or.inr ⟨0, by norm_num⟩
    · exact Or.inr ⟨1, by norm_num⟩
    · exact Or.inr ⟨2, by norm_num⟩
    · exact Or.inr ⟨3, by norm_num⟩
    · exact Or.inr ⟨4, by norm_num⟩

private def fixCfg : Config :=
  { Config.new with maxNbins := 3, maxTreeDepth := 2, niterations := 2, exampleFraction := .fin (4 / 5)
                    learningRate := .fin (1 / 2) }
private def fixData : Data :=
  ⟨3, [], 1, 5,
    [⟨[.fin (-3 / 4), .fin (1 / 4), .fin (7 / 4), .fin (9 / 4), .fin 5], .fin (-3 / 4), .fin 5, .numerical, 0⟩,
     ⟨[.fin 0, .fin 1, .fin 3, .fin 2, .fin 8], .fin 0, .fin 8, .numerical, 0⟩]⟩

/-- `C41_f32_partial`: two iterations in `f32` arithmetic on a numerical feature, with four of the five rows active; both
trees have a split. -/
example : ∃ b, Booster.run .binary32 runLibm fixCfg fixData ⟨fun i => i⟩ [] (Objective.new .l2) = .ok b ∧
    b.dataset.exampleSampling = true ∧ b.ensemble.trees.map (fun t : Tree => t.nleafs) = [2, 2] ∧
    b.ensemble.predict .binary32 fixData = .ok b.objective.predictions ∧
    b.objective.predictions = [.fin (1887437 / 4194304), .fin (2569011 / 1048576), .fin (3093299 / 1048576),
      .fin (3093299 / 1048576), .fin (3093299 / 1048576)] := by
  obtain ⟨b, h1, h2⟩ := boosted_check (F := .binary32) (cfg := fixCfg) (d := fixData) (rng := ⟨fun i => i⟩)
    (metrics := []) (o := Objective.new .l2)
    (fun b => b.dataset.exampleSampling && decide (b.ensemble.trees.map (fun t : Tree => t.nleafs) = [2, 2]) &&
      decide (b.ensemble.predict .binary32 fixData = .ok b.objective.predictions) &&
      decide (b.objective.predictions = [.fin (1887437 / 4194304), .fin (2569011 / 1048576), .fin (3093299 / 1048576),
        .fin (3093299 / 1048576), .fin (3093299 / 1048576)]))
    (by decide +kernel)
  simp only [Bool.and_eq_true, decide_eq_true_eq] at h2
  obtain ⟨⟨⟨a1, a2⟩, a3⟩, a4⟩ := h2
  exact ⟨b, h1, a1, a2, a3, a4⟩

/-- Its feature is a fixed-point column with the unit 1/4. -/
example : ∀ f c, f < fixData.nfeatures → fixData.cols[f]? = some c → c.ftype = .numerical →
    FixedPoint c ∧ Num.nan ∉ c.values := by
  intro f c hf hc ht
  have h3 : f = 0 := by simp only [fixData] at hf; omega
  subst h3
  simp [fixData] at hc; subst hc
  refine ⟨⟨-2, by norm_num, by norm_num, ?_⟩, by simp⟩
  intro v hv _
  have hv' : v = .fin (-3 / 4) ∨ v = .fin 4⁻¹ ∨ v = .fin (7 / 4) ∨ v = .fin (9 / 4) ∨ v = .fin 5 := by
    simp at hv; tauto
  rcases hv' with rfl | rfl | rfl | rfl | rfl
  · exact ⟨-3, by norm_num, by norm_num⟩
  · exact ⟨1, by norm_num, by norm_num⟩
  · exact ⟨7, by norm_num, by norm_num⟩
  · exact ⟨9, by norm_num, by norm_num⟩
  · exact ⟨20, by norm_num, by norm_num⟩

/-- C47: two iterations on the same data in exact arithmetic, all rows active, learning rate 1/2. The squared error falls
from 206/5 to 1097/360. -/
example : ∃ b ps, Booster.run .exact runLibm { runCfg with exampleFraction := .fin 1 } runData ⟨fun i => i⟩ []
      (Objective.new .l2) = .ok b ∧ b.objective.predictions = Spec.column ps ∧
    sqErr [0, 1, 3, 1, 8] ps = 1097 / 360 ∧ sqErr [0, 1, 3, 1, 8] (List.replicate 5 (13 / 5)) = 206 / 5 := by
  obtain ⟨b, h1, h2⟩ := boosted_check (F := .exact) (cfg := { runCfg with exampleFraction := .fin 1 }) (d := runData)
    (rng := ⟨fun i => i⟩) (metrics := []) (o := Objective.new .l2)
    (fun b => decide (b.objective.predictions = Spec.column [49 / 60, 131 / 90, 118 / 45, 131 / 90, 133 / 20]))
    (by decide +kernel)
  simp only [decide_eq_true_eq] at h2
  exact ⟨b, _, h1, h2, by norm_num [sqErr], by norm_num [sqErr, List.replicate]⟩

end BitBoost.Props
