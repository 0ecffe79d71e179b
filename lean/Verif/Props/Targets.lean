import Verif.Lemmas.ScaleRun
import Verif.Props.Boost
/-!
# C75: what training depends on in the targets

Training reads nothing of the target but its values (`C75_values`). The objective `hinge` uses only whether a target is below
one half (`C75_classes`); the objective `binary` also uses the value, so the labels have to be 0 and 1
(`C75_labels_refuted`). For the objectives `l2`, `l1` and `huber` it does not matter, but for rounding, where the zero of the
targets is: when a constant is added to all targets, the trees stay the same and all predictions move by the constant
(`C75_shift_exact_partial`, `C75_shift_predictions_partial`); in 32-bit arithmetic this is false (`C75_shift_refuted`). For the
objective `l1` it does not matter either, but for rounding, in which units the targets are measured (`C75_units_partial`,
`C75_units_predictions_partial`); for `l2` and `huber` it does (`C75_units_refuted`), because of `min_gain` and of the weights of
numerical features, and only because of them (`C75_units_categorical_partial`, `C75_units_numerical_refuted`).
-/
namespace BitBoost.Props
open Spec Objective Learner

/-! ## Values -/

/-- With any rounding and any objective: two data sets with the same features and the same target values give the same model,
the same printed metrics and the same running predictions, whatever else is recorded about the target (its limits,
its type, its cardinality) and whatever the names of the columns are. -/
theorem C75_values (F : FP) (M : Libm) (cfg : Config) (d d' : Data) (ts : List Num) (rng : Rng) (metrics : List Metric)
    (o : Objective) (h : SameFeatures d d' ts ts) (hnf : 0 < d.nfeatures) (b : Booster)
    (hb : Booster.run F M cfg d rng metrics o = .ok b) :
    ∃ b', Booster.run F M cfg d' rng metrics o = .ok b' ∧ b'.ensemble = b.ensemble ∧ b'.printed = b.printed ∧
      b'.objective = b.objective := by
  have hR : TargetSim F M ts ts (fun o o' => o' = o) := by
    refine ⟨?_, ?_, ?_, ?_, ?_⟩
    · rintro _ o rfl a e; exact ⟨a, e, rfl⟩
    · rintro _ o rfl; rfl
    · rintro _ o rfl; rfl
    · rintro _ o rfl ex a e; exact ⟨a, e, rfl, rfl⟩
    · rintro _ o rfl i v a e; exact ⟨a, e, rfl⟩
  obtain ⟨b', h1, h2⟩ := run_on (metrics := metrics) (same := True) h hR hnf
    (fun _ m _ o o' e => by rw [e]) (o := o) (cfg := cfg) (fun a e => ⟨a, e, rfl⟩) rng b hb
  obtain ⟨o1, o2, e, e1, e2⟩ := h2.bias
  refine ⟨b', h1, ?_, h2.printed trivial, h2.obj⟩
  have h3 := h2.trees
  have h4 : b'.ensemble.bias = b.ensemble.bias := by rw [e1, e2, e]
  cases hx : b'.ensemble; cases hy : b.ensemble
  rw [hx, hy] at h3 h4
  simp only at h3 h4
  rw [h3, h4]

/-! ## Classes -/

/-- With any rounding, `f32` included, for the objective `hinge`: if each target of one data set is below one half exactly when
the target of the same row of the other data set is, then the models, the running predictions and the printed classification
errors are the same. -/
theorem C75_classes (F : FP) (M : Libm) (cfg : Config) (d d' : Data) (ts ts' : List Num) (rng : Rng) (metrics : List Metric)
    (o : Objective) (ho : o.kind = .hinge) (h : SameFeatures d d' ts ts') (hc : List.Forall₂ SameClass ts ts')
    (hnf : 0 < d.nfeatures) (b : Booster) (hb : Booster.run F M cfg d rng metrics o = .ok b) :
    ∃ b', Booster.run F M cfg d' rng metrics o = .ok b' ∧ b'.ensemble = b.ensemble ∧ b'.objective = b.objective ∧
      ((∀ m ∈ metrics, m = .binaryError ∨ m = .binaryError01) → b'.printed = b.printed) := by
  obtain ⟨b', h1, h2⟩ := run_on (metrics := metrics) (same := ∀ m ∈ metrics, m = .binaryError ∨ m = .binaryError01) h
    (hinge_sim hc) hnf (fun hm m hmm o o' e => by rw [e.1, classes_metric hc (hm m hmm)]) (o := o) (cfg := cfg)
    (hinge_init hc cfg o ho) rng b hb
  obtain ⟨o1, o2, e, e1, e2⟩ := h2.bias
  refine ⟨b', h1, ?_, h2.obj.1, h2.printed⟩
  have h3 := h2.trees
  have h4 : b'.ensemble.bias = b.ensemble.bias := by rw [e1, e2, e.1]
  cases hx : b'.ensemble; cases hy : b.ensemble
  rw [hx, hy] at h3 h4
  simp only at h3 h4
  rw [h3, h4]

/-! ## A constant added to the targets -/

/-- In exact arithmetic, for the objectives `l2`, `l1` and `huber`: if a constant is added to all targets, training succeeds
again with the same trees; the bias and the running predictions move by the constant; the printed regression metrics are the
same. -/
theorem C75_shift_exact_partial (M : Libm) (cfg : Config) (d d' : Data) (ts : List Num) (c : ℚ) (rng : Rng) (metrics : List Metric)
    (o : Objective) (ho : o.kind = .l2 ∨ o.kind = .l1 ∨ o.kind = .huber) (h : SameFeatures d d' ts (ts.map (shift c)))
    (hnf : 0 < d.nfeatures) (b : Booster) (hb : Booster.run .exact M cfg d rng metrics o = .ok b) :
    ∃ b', Booster.run .exact M cfg d' rng metrics o = .ok b' ∧ b'.ensemble.trees = b.ensemble.trees ∧
      b'.ensemble.bias = shift c b.ensemble.bias ∧ b'.objective.predictions = b.objective.predictions.map (shift c) ∧
      ((∀ m ∈ metrics, m = .l2 ∨ m = .rmse) → b'.printed = b.printed) := by
  obtain ⟨b', h1, h2⟩ := run_on (metrics := metrics) (same := ∀ m ∈ metrics, m = .l2 ∨ m = .rmse) h
    (moved_sim M c ts) hnf (fun hm m hmm o o' e => by rw [e.1]; exact shift_metric M c (hm m hmm) _ _) (o := o) (cfg := cfg)
    (moved_init M cfg c ts o ho) rng b hb
  obtain ⟨o1, o2, e, e1, e2⟩ := h2.bias
  refine ⟨b', h1, h2.trees, ?_, ?_, h2.printed⟩
  · rw [e1, e2, e.1]; rfl
  · rw [h2.obj.1]; rfl

theorem predictLoop_shift (c : ℚ) (d : Data) (t : Tree) : ∀ (buf : List Num) (i : Nat) (ps : List Num),
    t.predictLoop .exact d (fun p a => FP.exact.add a p) i buf = .ok ps →
    t.predictLoop .exact d (fun p a => FP.exact.add a p) i (buf.map (shift c)) = .ok (ps.map (shift c))
  | [], i, ps, e => by
      simp only [Tree.predictLoop, Out.ok.injEq] at e
      subst e
      rfl
  | x :: buf, i, ps, e => by
      simp only [List.map_cons, Tree.predictLoop] at e ⊢
      obtain ⟨p, e1, e⟩ := Out.bind_eq_ok.1 e
      obtain ⟨rest, e2, e⟩ := Out.bind_eq_ok.1 e
      simp only [Out.pure_eq, Out.ok.injEq] at e
      subst e
      refine Out.bind_eq_ok.2 ⟨p, e1, Out.bind_eq_ok.2 ⟨_, predictLoop_shift c d t buf (i + 1) rest e2, ?_⟩⟩
      simp only [Out.pure_eq, List.map_cons, shift_add_left]

theorem addTrees_shift (c : ℚ) (d : Data) : ∀ (ts : List Tree) (buf ps : List Num),
    AdditiveTree.addTrees .exact d ts buf = .ok ps →
    AdditiveTree.addTrees .exact d ts (buf.map (shift c)) = .ok (ps.map (shift c))
  | [], buf, ps, h => by
      simp only [AdditiveTree.addTrees, Out.ok.injEq] at h ⊢
      rw [h]
  | t :: ts, buf, ps, h => by
      simp only [AdditiveTree.addTrees] at h ⊢
      obtain ⟨buf', e, h⟩ := Out.bind_eq_ok.1 h
      refine Out.bind_eq_ok.2 ⟨buf'.map (shift c), ?_, addTrees_shift c d ts buf' ps h⟩
      unfold Tree.predictAnd at e ⊢
      rw [List.length_map]
      obtain ⟨u, e0, e⟩ := Out.bind_eq_ok.1 e
      exact Out.bind_eq_ok.2 ⟨u, e0, predictLoop_shift c d t buf 0 buf' e⟩

/-- … and so does every prediction of the model, for any data, seen in training or not. -/
theorem C75_shift_predictions_partial (M : Libm) (cfg : Config) (d d' : Data) (ts : List Num) (c : ℚ) (rng : Rng)
    (metrics : List Metric) (o : Objective) (ho : o.kind = .l2 ∨ o.kind = .l1 ∨ o.kind = .huber)
    (h : SameFeatures d d' ts (ts.map (shift c))) (hnf : 0 < d.nfeatures) (b : Booster)
    (hb : Booster.run .exact M cfg d rng metrics o = .ok b) (other : Data) (ps : List Num)
    (hp : b.ensemble.predict .exact other = .ok ps) :
    ∃ b', Booster.run .exact M cfg d' rng metrics o = .ok b' ∧ b'.ensemble.predict .exact other = .ok (ps.map (shift c)) := by
  obtain ⟨b', h1, h2, h3, _⟩ := C75_shift_exact_partial M cfg d d' ts c rng metrics o ho h hnf b hb
  refine ⟨b', h1, ?_⟩
  unfold AdditiveTree.predict AdditiveTree.predictBuf at hp ⊢
  rw [h2, h3]
  have := addTrees_shift c other _ _ _ hp
  rwa [List.map_map] at this

/-! ## Targets in other units -/

theorem treeTimes_eq (a : ℚ) : Tree.withValues (stretch a) = treeTimes a := by
  funext t
  simp only [Tree.withValues, treeTimes, stretch_eq]

/-- In exact arithmetic, for the objective `l1`: if all targets are multiplied by a positive number `u.1` and `u.2` is added,
training succeeds again; the trees have the same tests, their values are multiplied by `u.1`, and the bias and the running
predictions are converted like the targets. -/
theorem C75_units_partial (M : Libm) (cfg : Config) (d d' : Data) (ts : List Num) (u : ℚ × ℚ) (hu : 0 < u.1) (rng : Rng)
    (metrics : List Metric) (o : Objective) (ho : o.kind = .l1) (h : SameFeatures d d' ts (ts.map (Spec.inUnits u)))
    (hnf : 0 < d.nfeatures) (b : Booster) (hb : Booster.run .exact M cfg d rng metrics o = .ok b) :
    ∃ b', Booster.run .exact M cfg d' rng metrics o = .ok b' ∧ b'.ensemble.trees = b.ensemble.trees.map (treeTimes u.1) ∧
      b'.ensemble.bias = Spec.inUnits u b.ensemble.bias ∧
      b'.objective.predictions = b.objective.predictions.map (Spec.inUnits u) := by
  obtain ⟨b', h1, h2⟩ := run_scale (metrics := metrics) h (stretch_valueMap hu) (absolute_sim hu M ts) hnf (o := o) (cfg := cfg)
    (absolute_init hu M cfg ts o ho) rng b hb
  obtain ⟨o1, o2, ⟨⟨lim, e⟩, _⟩, e1, e2⟩ := h2.bias
  obtain ⟨⟨lim', e'⟩, _⟩ := h2.obj
  refine ⟨b', h1, ?_, ?_, ?_⟩
  · rw [h2.trees, treeTimes_eq]
  · rw [e1, e2, e]; rfl
  · rw [e']; rfl

theorem predictLoop_times {u : ℚ × ℚ} (hu : 0 < u.1) (d : Data) {t : Tree} (ht : t.shrinkage = .fin 1 ∧ t.bias = .fin 0) :
    ∀ (buf : List Num) (i : Nat) (ps : List Num), t.predictLoop .exact d (fun p a => FP.exact.add a p) i buf = .ok ps →
    (t.withValues (stretch u.1)).predictLoop .exact d (fun p a => FP.exact.add a p) i (buf.map (Spec.inUnits u)) =
      .ok (ps.map (Spec.inUnits u))
  | [], i, ps, e => by
      simp only [Tree.predictLoop, Out.ok.injEq] at e
      subst e
      rfl
  | x :: buf, i, ps, e => by
      simp only [List.map_cons, Tree.predictLoop] at e ⊢
      obtain ⟨p, e1, e⟩ := Out.bind_eq_ok.1 e
      obtain ⟨rest, e2, e⟩ := Out.bind_eq_ok.1 e
      simp only [Out.pure_eq, Out.ok.injEq] at e
      subst e
      obtain ⟨p', e3, e4⟩ := predictSingle_withValues (stretch_valueMap hu) ht i p e1
      refine Out.bind_eq_ok.2 ⟨p', e3, Out.bind_eq_ok.2 ⟨_, predictLoop_times hu d ht buf (i + 1) rest e2, ?_⟩⟩
      simp only [Out.pure_eq, List.map_cons, e4, stretch_zero_add]

theorem addTrees_times {u : ℚ × ℚ} (hu : 0 < u.1) (d : Data) : ∀ (ts : List Tree) (buf ps : List Num),
    (∀ t ∈ ts, t.shrinkage = .fin 1 ∧ t.bias = .fin 0) → AdditiveTree.addTrees .exact d ts buf = .ok ps →
    AdditiveTree.addTrees .exact d (ts.map (Tree.withValues (stretch u.1))) (buf.map (Spec.inUnits u)) = .ok (ps.map (Spec.inUnits u))
  | [], buf, ps, _, h => by
      simp only [AdditiveTree.addTrees, List.map_nil, Out.ok.injEq] at h ⊢
      rw [h]
  | t :: ts, buf, ps, ht, h => by
      simp only [AdditiveTree.addTrees, List.map_cons] at h ⊢
      obtain ⟨buf', e, h⟩ := Out.bind_eq_ok.1 h
      refine Out.bind_eq_ok.2 ⟨buf'.map (Spec.inUnits u), ?_, addTrees_times hu d ts buf' ps (fun t h => ht t (by simp [h])) h⟩
      unfold Tree.predictAnd at e ⊢
      rw [List.length_map]
      obtain ⟨u, e0, e⟩ := Out.bind_eq_ok.1 e
      exact Out.bind_eq_ok.2 ⟨u, e0, predictLoop_times hu d (ht t (by simp)) buf 0 buf' e⟩

/-- … and every prediction of the model, for any data, is converted like the targets. -/
theorem C75_units_predictions_partial (M : Libm) (cfg : Config) (d d' : Data) (ts : List Num) (u : ℚ × ℚ) (hu : 0 < u.1) (rng : Rng)
    (metrics : List Metric) (o : Objective) (ho : o.kind = .l1) (h : SameFeatures d d' ts (ts.map (Spec.inUnits u)))
    (hnf : 0 < d.nfeatures) (b : Booster) (hb : Booster.run .exact M cfg d rng metrics o = .ok b) (other : Data) (ps : List Num)
    (hp : b.ensemble.predict .exact other = .ok ps) :
    ∃ b', Booster.run .exact M cfg d' rng metrics o = .ok b' ∧
      b'.ensemble.predict .exact other = .ok (ps.map (Spec.inUnits u)) := by
  obtain ⟨b', h1, h2⟩ := run_scale (metrics := metrics) h (stretch_valueMap hu) (absolute_sim hu M ts) hnf (o := o) (cfg := cfg)
    (absolute_init hu M cfg ts o ho) rng b hb
  obtain ⟨o1, o2, ⟨⟨lim, e⟩, _⟩, e1, e2⟩ := h2.bias
  have e3 : b'.ensemble.bias = Spec.inUnits u b.ensemble.bias := by rw [e1, e2, e]; rfl
  refine ⟨b', h1, ?_⟩
  unfold AdditiveTree.predict AdditiveTree.predictBuf at hp ⊢
  rw [h2.trees, e3]
  have := addTrees_times hu other _ _ _ h2.plain hp
  rwa [List.map_map] at this

/-- In exact arithmetic, for the objectives `l2` and `huber`, when all features are categorical: if all targets are multiplied by
a positive number `u.1`, `u.2` is added, and `min_gain` is multiplied by the square of `u.1`, training succeeds again; the trees
have the same tests, their values are multiplied by `u.1`, and the bias, the running predictions and every prediction of the
model, for any data, are converted like the targets. With `min_gain = 0` nothing changes in the configuration. -/
theorem C75_units_categorical_partial (M : Libm) (cfg : Config) (d d' : Data) (ts : List Num) (u : ℚ × ℚ) (hu : 0 < u.1) (rng : Rng)
    (metrics : List Metric) (o : Objective) (ho : o.kind = .l2 ∨ o.kind = .huber) (h : SameFeatures d d' ts (ts.map (Spec.inUnits u)))
    (hc : ∀ f, f ≠ d.nfeatures → ∀ c, d.cols[f]? = some c → c.ftype ≠ .numerical) (hnf : 0 < d.nfeatures) (b : Booster)
    (hb : Booster.run .exact M cfg d rng metrics o = .ok b) :
    ∃ b', Booster.run .exact M (minGainTimes (u.1 * u.1) cfg) d' rng metrics o = .ok b' ∧
      b'.ensemble.trees = b.ensemble.trees.map (treeTimes u.1) ∧
      b'.ensemble.bias = Spec.inUnits u b.ensemble.bias ∧
      b'.objective.predictions = b.objective.predictions.map (Spec.inUnits u) ∧
      (∀ (other : Data) (ps : List Num), b.ensemble.predict .exact other = .ok ps →
        b'.ensemble.predict .exact other = .ok (ps.map (Spec.inUnits u))) ∧
      (cfg.minGain = .fin 0 → minGainTimes (u.1 * u.1) cfg = cfg) := by
  obtain ⟨b', h1, h2⟩ := run_times (metrics := metrics) hu hc h (regression_sim hu M ts) hnf (o := o) (cfg := cfg)
    (regression_init hu M cfg ts o ho) rng b hb
  obtain ⟨o1, o2, ⟨g, l2, lim, δ, e, _⟩, e1, e2⟩ := h2.bias
  obtain ⟨g', l2', lim', δ', e', _⟩ := h2.obj
  have e3 : b'.ensemble.bias = Spec.inUnits u b.ensemble.bias := by rw [e1, e2, e]; rfl
  refine ⟨b', h1, ?_, e3, ?_, fun other ps hp => ?_, fun hm => ?_⟩
  · rw [h2.trees, treeTimes_eq]
  · rw [e']; rfl
  · unfold AdditiveTree.predict AdditiveTree.predictBuf at hp ⊢
    rw [h2.trees, e3]
    have := addTrees_times hu other _ _ _ h2.plain hp
    rwa [List.map_map] at this
  · unfold minGainTimes
    rw [hm, show Spec.inUnits (u.1 * u.1, 0) (.fin 0) = .fin 0 by simp [Spec.inUnits], ← hm]

/-! ## What is false -/

private def targetCfg : Config :=
  { Config.new with maxNbins := 4, maxTreeDepth := 2, niterations := 1, learningRate := .fin 1, metricFrequency := 1
                    discrNbits := 2 }
private def targetData (x y z w : ℚ) : Data :=
  ⟨4, [], 1, 4,
    [⟨[.fin 0, .fin 1, .fin 2, .fin 2], .fin 0, .fin 2, .loCardCat, 3⟩,
     ⟨[.fin x, .fin y, .fin z, .fin w], .fin 0, .fin 1, .numerical, 0⟩]⟩

private theorem targetData_same (x y z w x' y' z' w' : ℚ) :
    SameFeatures (targetData x y z w) (targetData x' y' z' w') [.fin x, .fin y, .fin z, .fin w]
      [.fin x', .fin y', .fin z', .fin w'] := by
  refine ⟨rfl, rfl, rfl, fun f hf => ?_, ⟨_, rfl, rfl⟩, ⟨_, rfl, rfl⟩⟩
  rcases f with _ | _ | f
  · rfl
  · exact absurd rfl hf
  · rfl

/-- For the objective `binary` the classes of the targets are not enough: with the labels -1 and 1 in place of 0 and 1, the
row of the negative class gets the prediction 1 of the positive class (the two rows with the same features and different
labels, 3 and 4, stay out of it). The run takes only the values exp 0 = 1 and ln 1 = 0 of the mathematical functions, which are right in
`runLibm`. -/
theorem C75_labels_refuted : ∃ (cfg : Config) (d d' : Data) (ts ts' : List Num) (rng : Rng) (b b' : Booster),
    SameFeatures d d' ts ts' ∧ List.Forall₂ SameClass ts ts' ∧ 0 < d.nfeatures ∧
    ts = [.fin 0, .fin 1, .fin 1, .fin 0] ∧ ts' = [.fin (-1), .fin 1, .fin 1, .fin (-1)] ∧
    runLibm.exp (.fin 0) = .fin 1 ∧ runLibm.ln (.fin 1) = .fin 0 ∧
    Booster.run .binary32 runLibm cfg d rng [] (Objective.new .binary) = .ok b ∧
    Booster.run .binary32 runLibm cfg d' rng [] (Objective.new .binary) = .ok b' ∧
    b.objective.predictions.head? = some (.fin (-8388607 / 8388608)) ∧ b'.objective.predictions.head? = some (.fin 1) ∧
    b'.ensemble.trees ≠ b.ensemble.trees := by
  obtain ⟨b, h1, h2⟩ := boosted_check (F := .binary32) (cfg := targetCfg) (d := targetData 0 1 1 0) (rng := ⟨fun i => i⟩)
    (metrics := []) (o := Objective.new .binary) (fun b => decide (b.objective.predictions.head? = some (.fin (-8388607 / 8388608)) ∧
      (b.ensemble.trees.map (fun t : Tree => t.nodeValues[1]?)) = [some (Num.fin (-8388607 / 8388608))])) (by decide +kernel)
  obtain ⟨b', g1, g2⟩ := boosted_check (F := .binary32) (cfg := targetCfg) (d := targetData (-1) 1 1 (-1)) (rng := ⟨fun i => i⟩)
    (metrics := []) (o := Objective.new .binary) (fun b => decide (b.objective.predictions.head? = some (.fin 1) ∧
      (b.ensemble.trees.map (fun t : Tree => t.nodeValues[1]?)) = [some (Num.fin 1)])) (by decide +kernel)
  simp only [decide_eq_true_eq] at h2 g2
  refine ⟨targetCfg, targetData 0 1 1 0, targetData (-1) 1 1 (-1), _, _, ⟨fun i => i⟩, b, b', targetData_same _ _ _ _ _ _ _ _,
    ?_, by decide, rfl, rfl, rfl, rfl, h1, g1, h2.1, g2.1, ?_⟩
  · refine .cons ?_ (.cons ?_ (.cons ?_ (.cons ?_ .nil))) <;> simp only [SameClass] <;> decide +kernel
  · intro h
    have e := g2.2
    rw [h, h2.2] at e
    exact absurd e (by decide +kernel)

/-- In 32-bit arithmetic the trees depend on where the zero of the targets is: with the targets 0, 1, 2, 4 the value of the
first leaf is 5/4, with 2^22 added to the targets it is 1. -/
theorem C75_shift_refuted : ∃ (cfg : Config) (d d' : Data) (ts : List Num) (c : ℚ) (rng : Rng) (b b' : Booster),
    SameFeatures d d' ts (ts.map (shift c)) ∧ 0 < d.nfeatures ∧ ts = [.fin 0, .fin 1, .fin 2, .fin 4] ∧ c = 2 ^ 22 ∧
    Booster.run .binary32 runLibm cfg d rng [] (Objective.new .l2) = .ok b ∧
    Booster.run .binary32 runLibm cfg d' rng [] (Objective.new .l2) = .ok b' ∧
    b.ensemble.trees.map (fun t : Tree => t.nodeValues[1]?) = [some (Num.fin (5 / 4))] ∧
    b'.ensemble.trees.map (fun t : Tree => t.nodeValues[1]?) = [some (Num.fin 1)] := by
  obtain ⟨b, h1, h2⟩ := boosted_check (F := .binary32) (cfg := targetCfg) (d := targetData 0 1 2 4) (rng := ⟨fun i => i⟩)
    (metrics := []) (o := Objective.new .l2)
    (fun b => decide ((b.ensemble.trees.map (fun t : Tree => t.nodeValues[1]?)) = [some (Num.fin (5 / 4))])) (by decide +kernel)
  obtain ⟨b', g1, g2⟩ := boosted_check (F := .binary32) (cfg := targetCfg)
    (d := targetData (0 + 2 ^ 22) (1 + 2 ^ 22) (2 + 2 ^ 22) (4 + 2 ^ 22)) (rng := ⟨fun i => i⟩)
    (metrics := []) (o := Objective.new .l2)
    (fun b => decide ((b.ensemble.trees.map (fun t : Tree => t.nodeValues[1]?)) = [some (Num.fin 1)])) (by decide +kernel)
  simp only [decide_eq_true_eq] at h2 g2
  exact ⟨targetCfg, _, _, _, 2 ^ 22, ⟨fun i => i⟩, b, b', targetData_same _ _ _ _ _ _ _ _, by decide, rfl, rfl, h1, g1, h2, g2⟩

/-- For the objectives `l2` and `huber` the units of the targets matter, in exact arithmetic, too: with the targets 0, 1, 2, 4
the tree has two tests, with the same targets in units of 10000 it has none, because the gains are less than `min_gain`. -/
theorem C75_units_refuted (k : ObjKind) (hk : k = .l2 ∨ k = .huber) : ∃ (cfg : Config) (d d' : Data) (ts : List Num) (rng : Rng) (b b' : Booster),
    cfg.minGain = Config.new.minGain ∧ SameFeatures d d' ts (ts.map (Spec.inUnits (1 / 10000, 0))) ∧ 0 < d.nfeatures ∧
    ts = [.fin 0, .fin 1, .fin 2, .fin 4] ∧
    Booster.run .exact runLibm cfg d rng [] (Objective.new k) = .ok b ∧
    Booster.run .exact runLibm cfg d' rng [] (Objective.new k) = .ok b' ∧
    b.ensemble.trees.map Tree.ninternal = [2] ∧ b'.ensemble.trees.map Tree.ninternal = [0] := by
  have hs : SameFeatures (targetData 0 1 2 4) (targetData (1 / 10000 * 0 + 0) (1 / 10000 * 1 + 0) (1 / 10000 * 2 + 0) (1 / 10000 * 4 + 0))
      [.fin 0, .fin 1, .fin 2, .fin 4] ([Num.fin 0, .fin 1, .fin 2, .fin 4].map (Spec.inUnits (1 / 10000, 0))) :=
    targetData_same _ _ _ _ _ _ _ _
  rcases hk with rfl | rfl
  · obtain ⟨b, h1, h2⟩ := boosted_check (F := .exact) (cfg := targetCfg) (d := targetData 0 1 2 4) (rng := ⟨fun i => i⟩)
      (metrics := []) (o := Objective.new .l2) (fun b => decide (b.ensemble.trees.map Tree.ninternal = [2])) (by decide +kernel)
    obtain ⟨b', g1, g2⟩ := boosted_check (F := .exact) (cfg := targetCfg)
      (d := targetData (1 / 10000 * 0 + 0) (1 / 10000 * 1 + 0) (1 / 10000 * 2 + 0) (1 / 10000 * 4 + 0)) (rng := ⟨fun i => i⟩)
      (metrics := []) (o := Objective.new .l2) (fun b => decide (b.ensemble.trees.map Tree.ninternal = [0])) (by decide +kernel)
    exact ⟨targetCfg, _, _, _, ⟨fun i => i⟩, b, b', rfl, hs, by decide, rfl, h1, g1, of_decide_eq_true h2, of_decide_eq_true g2⟩
  · obtain ⟨b, h1, h2⟩ := boosted_check (F := .exact) (cfg := targetCfg) (d := targetData 0 1 2 4) (rng := ⟨fun i => i⟩)
      (metrics := []) (o := Objective.new .huber) (fun b => decide (b.ensemble.trees.map Tree.ninternal = [2])) (by decide +kernel)
    obtain ⟨b', g1, g2⟩ := boosted_check (F := .exact) (cfg := targetCfg)
      (d := targetData (1 / 10000 * 0 + 0) (1 / 10000 * 1 + 0) (1 / 10000 * 2 + 0) (1 / 10000 * 4 + 0)) (rng := ⟨fun i => i⟩)
      (metrics := []) (o := Objective.new .huber) (fun b => decide (b.ensemble.trees.map Tree.ninternal = [0])) (by decide +kernel)
    exact ⟨targetCfg, _, _, _, ⟨fun i => i⟩, b, b', rfl, hs, by decide, rfl, h1, g1, of_decide_eq_true h2, of_decide_eq_true g2⟩

private def stumpCfg : Config :=
  { Config.new with maxNbins := 1, maxTreeDepth := 1, niterations := 1, learningRate := .fin 1, metricFrequency := 1
                    discrNbits := 2, minGain := .fin 0 }
private def stumpData (a : ℚ) : Data :=
  ⟨1, [], 1, 6,
    [⟨[.fin 0, .fin 1, .fin 2, .fin 3, .fin 4, .fin 5], .fin 0, .fin 5, .numerical, 0⟩,
     ⟨[.fin (a * 0 + 0), .fin (a * 0 + 0), .fin (a * 0 + 0), .fin (a * 0 + 0), .fin (a * 8 + 0), .fin (a * 60 + 0)],
       .fin 0, .fin 1, .numerical, 0⟩]⟩

/-- With a numerical feature they matter for the objective `l2` even if `min_gain` is 0: the rows count for the thresholds of
the feature with the weights |gradient| + EPSILON, and EPSILON has no unit. With the targets 0, 0, 0, 0, 8, 60 the root asks if
the feature is below 1025/256, with the same targets in units of 2^40 if it is below 385/128. -/
theorem C75_units_numerical_refuted : ∃ (cfg : Config) (d d' : Data) (ts : List Num) (rng : Rng) (b b' : Booster),
    cfg.minGain = .fin 0 ∧ SameFeatures d d' ts (ts.map (Spec.inUnits (1 / 2 ^ 40, 0))) ∧ 0 < d.nfeatures ∧
    ts = [.fin 0, .fin 0, .fin 0, .fin 0, .fin 8, .fin 60] ∧
    Booster.run .exact runLibm cfg d rng [] (Objective.new .l2) = .ok b ∧
    Booster.run .exact runLibm cfg d' rng [] (Objective.new .l2) = .ok b' ∧
    b.ensemble.trees.map (fun t => t.splitCrits[0]?) = [some (SplitCrit.mk .numLt 0 (Num.fin (1025 / 256)))] ∧
    b'.ensemble.trees.map (fun t => t.splitCrits[0]?) = [some (SplitCrit.mk .numLt 0 (Num.fin (385 / 128)))] := by
  have hs : SameFeatures (stumpData 1) (stumpData (1 / 2 ^ 40)) [.fin (1 * 0 + 0), .fin (1 * 0 + 0), .fin (1 * 0 + 0), .fin (1 * 0 + 0), .fin (1 * 8 + 0), .fin (1 * 60 + 0)]
      ([Num.fin 0, .fin 0, .fin 0, .fin 0, .fin 8, .fin 60].map (Spec.inUnits (1 / 2 ^ 40, 0))) := by
    refine ⟨rfl, rfl, rfl, fun f hf => ?_, ⟨_, rfl, rfl⟩, ⟨_, rfl, rfl⟩⟩
    rcases f with _ | _ | f
    · rfl
    · exact absurd rfl hf
    · rfl
  obtain ⟨b, h1, h2⟩ := boosted_check (F := .exact) (cfg := stumpCfg) (d := stumpData 1) (rng := ⟨fun i => i⟩)
    (metrics := []) (o := Objective.new .l2)
    (fun b => decide (b.ensemble.trees.map (fun t => t.splitCrits[0]?) = [some (SplitCrit.mk .numLt 0 (Num.fin (1025 / 256)))])) (by decide +kernel)
  obtain ⟨b', g1, g2⟩ := boosted_check (F := .exact) (cfg := stumpCfg) (d := stumpData (1 / 2 ^ 40)) (rng := ⟨fun i => i⟩)
    (metrics := []) (o := Objective.new .l2)
    (fun b => decide (b.ensemble.trees.map (fun t => t.splitCrits[0]?) = [some (SplitCrit.mk .numLt 0 (Num.fin (385 / 128)))])) (by decide +kernel)
  refine ⟨stumpCfg, _, _, [.fin 0, .fin 0, .fin 0, .fin 0, .fin 8, .fin 60], ⟨fun i => i⟩, b, b', rfl, ?_, by decide, rfl, h1, g1, of_decide_eq_true h2, of_decide_eq_true g2⟩
  have e : [Num.fin (1 * 0 + 0), .fin (1 * 0 + 0), .fin (1 * 0 + 0), .fin (1 * 0 + 0), .fin (1 * 8 + 0), .fin (1 * 60 + 0)] =
      [.fin 0, .fin 0, .fin 0, .fin 0, .fin 8, .fin 60] := by norm_num
  rw [e] at hs
  exact hs

/-! ## Examples -/

/-- C75_units_categorical_partial: the objectives `l2` and `huber`, degrees Celsius and Fahrenheit, a tree with 5 nodes. -/
example (k : ObjKind) (hk : k = .l2 ∨ k = .huber) : (0 : ℚ) < ((9 / 5, 32) : ℚ × ℚ).1 ∧ SameFeatures (targetData 0 1 2 4)
      (targetData (9 / 5 * 0 + 32) (9 / 5 * 1 + 32) (9 / 5 * 2 + 32) (9 / 5 * 4 + 32))
      [.fin 0, .fin 1, .fin 2, .fin 4] ([Num.fin 0, .fin 1, .fin 2, .fin 4].map (Spec.inUnits (9 / 5, 32))) ∧
    (∀ f, f ≠ (targetData 0 1 2 4).nfeatures → ∀ c, (targetData 0 1 2 4).cols[f]? = some c → c.ftype ≠ .numerical) ∧
    0 < (targetData 0 1 2 4).nfeatures ∧ ((Objective.new k).kind = .l2 ∨ (Objective.new k).kind = .huber) ∧
    ∃ b, Booster.run .exact runLibm targetCfg (targetData 0 1 2 4) ⟨fun i => i⟩ [] (Objective.new k) = .ok b ∧
      b.ensemble.trees.map Tree.nnodes = [5] ∧ b.ensemble.predict .exact (targetData 0 1 2 4) = .ok b.objective.predictions := by
  refine ⟨by norm_num, targetData_same _ _ _ _ _ _ _ _, ?_, by decide, hk, ?_⟩
  · rintro (_ | _ | f) hf c e
    · cases e; decide
    · exact absurd rfl hf
    · cases e
  rcases hk with rfl | rfl
  · obtain ⟨b, h1, h2⟩ := boosted_check (F := .exact) (cfg := targetCfg) (d := targetData 0 1 2 4) (rng := ⟨fun i => i⟩)
      (metrics := []) (o := Objective.new .l2)
      (fun b => decide (b.ensemble.trees.map Tree.nnodes = [5] ∧
        b.ensemble.predict .exact (targetData 0 1 2 4) = .ok b.objective.predictions)) (by decide +kernel)
    exact ⟨b, h1, of_decide_eq_true h2⟩
  · obtain ⟨b, h1, h2⟩ := boosted_check (F := .exact) (cfg := targetCfg) (d := targetData 0 1 2 4) (rng := ⟨fun i => i⟩)
      (metrics := []) (o := Objective.new .huber)
      (fun b => decide (b.ensemble.trees.map Tree.nnodes = [5] ∧
        b.ensemble.predict .exact (targetData 0 1 2 4) = .ok b.objective.predictions)) (by decide +kernel)
    exact ⟨b, h1, of_decide_eq_true h2⟩

/-- C75_units_partial, C75_units_predictions_partial: the objective `l1`, degrees Celsius and Fahrenheit. -/
example : (0 : ℚ) < ((9 / 5, 32) : ℚ × ℚ).1 ∧ SameFeatures (targetData 0 1 2 4)
      (targetData (9 / 5 * 0 + 32) (9 / 5 * 1 + 32) (9 / 5 * 2 + 32) (9 / 5 * 4 + 32))
      [.fin 0, .fin 1, .fin 2, .fin 4] ([Num.fin 0, .fin 1, .fin 2, .fin 4].map (Spec.inUnits (9 / 5, 32))) ∧
    0 < (targetData 0 1 2 4).nfeatures ∧ (Objective.new .l1).kind = .l1 ∧
    ∃ b, Booster.run .exact runLibm targetCfg (targetData 0 1 2 4) ⟨fun i => i⟩ [] (Objective.new .l1) = .ok b ∧
      b.ensemble.trees.map Tree.nnodes = [3] ∧
      ∃ ps, b.ensemble.predict .exact (targetData 0 1 2 4) = .ok ps ∧ ps = b.objective.predictions ∧ ps.dedup.length = 2 := by
  refine ⟨by norm_num, targetData_same _ _ _ _ _ _ _ _, by decide, rfl, ?_⟩
  obtain ⟨b, h1, h2⟩ := boosted_check (F := .exact) (cfg := targetCfg) (d := targetData 0 1 2 4) (rng := ⟨fun i => i⟩)
    (metrics := []) (o := Objective.new .l1)
    (fun b => decide (b.ensemble.trees.map Tree.nnodes = [3] ∧
      b.ensemble.predict .exact (targetData 0 1 2 4) = .ok b.objective.predictions ∧ b.objective.predictions.dedup.length = 2)) (by decide +kernel)
  simp only [decide_eq_true_eq] at h2
  exact ⟨b, h1, h2.1, _, h2.2.1, rfl, h2.2.2⟩

/-- C75_shift_exact_partial, C75_shift_predictions_partial: the objective `huber`, the constant -7/3, a tree with 5 nodes,
and predictions for the training data. -/
example : SameFeatures (targetData 0 1 2 4) (targetData (0 + -7 / 3) (1 + -7 / 3) (2 + -7 / 3) (4 + -7 / 3))
      [.fin 0, .fin 1, .fin 2, .fin 4] ([Num.fin 0, .fin 1, .fin 2, .fin 4].map (shift (-7 / 3))) ∧
    0 < (targetData 0 1 2 4).nfeatures ∧ (Objective.new .huber).kind = .huber ∧
    ∃ b, Booster.run .exact runLibm targetCfg (targetData 0 1 2 4) ⟨fun i => i⟩ [.l2] (Objective.new .huber) = .ok b ∧
      b.ensemble.trees.map Tree.nnodes = [5] ∧ b.printed.length = 1 ∧
      ∃ ps, b.ensemble.predict .exact (targetData 0 1 2 4) = .ok ps ∧ ps = b.objective.predictions := by
  refine ⟨targetData_same _ _ _ _ _ _ _ _, by decide, rfl, ?_⟩
  obtain ⟨b, h1, h2⟩ := boosted_check (F := .exact) (cfg := targetCfg) (d := targetData 0 1 2 4) (rng := ⟨fun i => i⟩)
    (metrics := [.l2]) (o := Objective.new .huber)
    (fun b => decide (b.ensemble.trees.map Tree.nnodes = [5] ∧ b.printed.length = 1 ∧
      b.ensemble.predict .exact (targetData 0 1 2 4) = .ok b.objective.predictions)) (by decide +kernel)
  simp only [decide_eq_true_eq] at h2
  exact ⟨b, h1, h2.1, h2.2.1, _, h2.2.2, rfl⟩

/-- C75_classes: in `f32` arithmetic, with the labels 0, 1 and -1, 7. -/
example : SameFeatures (targetData 0 1 1 0) (targetData (-1) 7 1 0) [.fin 0, .fin 1, .fin 1, .fin 0] [.fin (-1), .fin 7, .fin 1, .fin 0] ∧
    List.Forall₂ SameClass [.fin 0, .fin 1, .fin 1, .fin 0] [.fin (-1), .fin 7, .fin 1, .fin 0] ∧
    0 < (targetData 0 1 1 0).nfeatures ∧ (Objective.new .hinge).kind = .hinge ∧
    ∃ b, Booster.run .binary32 runLibm targetCfg (targetData 0 1 1 0) ⟨fun i => i⟩ [.binaryError] (Objective.new .hinge) = .ok b ∧
      b.ensemble.trees.map Tree.nnodes = [5] ∧ b.printed.length = 1 := by
  refine ⟨targetData_same _ _ _ _ _ _ _ _, ?_, by decide, rfl, ?_⟩
  · refine .cons ?_ (.cons ?_ (.cons ?_ (.cons ?_ .nil))) <;> simp only [SameClass] <;> decide +kernel
  obtain ⟨b, h1, h2⟩ := boosted_check (F := .binary32) (cfg := targetCfg) (d := targetData 0 1 1 0) (rng := ⟨fun i => i⟩)
    (metrics := [.binaryError]) (o := Objective.new .hinge)
    (fun b => decide (b.ensemble.trees.map Tree.nnodes = [5] ∧ b.printed.length = 1)) (by decide +kernel)
  simp only [decide_eq_true_eq] at h2
  exact ⟨b, h1, h2⟩

/-- C75_values: the target is recorded as a categorical column with other limits, and the columns have names. -/
example : SameFeatures (targetData 0 1 2 4)
      ⟨4, ["kind", "price"], 1, 4,
        [⟨[.fin 0, .fin 1, .fin 2, .fin 2], .fin 0, .fin 2, .loCardCat, 3⟩,
         ⟨[.fin 0, .fin 1, .fin 2, .fin 4], .fin 0, .fin 4, .hiCardCat, 5⟩]⟩
      [.fin 0, .fin 1, .fin 2, .fin 4] [.fin 0, .fin 1, .fin 2, .fin 4] ∧
    ∃ b, Booster.run .binary32 runLibm targetCfg (targetData 0 1 2 4) ⟨fun i => i⟩ [.l2] (Objective.new .l2) = .ok b ∧
      b.ensemble.trees.map Tree.nnodes = [5] := by
  refine ⟨⟨rfl, rfl, rfl, fun f hf => ?_, ⟨_, rfl, rfl⟩, ⟨_, rfl, rfl⟩⟩, ?_⟩
  · rcases f with _ | _ | f
    · rfl
    · exact absurd rfl hf
    · rfl
  obtain ⟨b, h1, h2⟩ := boosted_check (F := .binary32) (cfg := targetCfg) (d := targetData 0 1 2 4) (rng := ⟨fun i => i⟩)
    (metrics := [.l2]) (o := Objective.new .l2)
    (fun b => decide (b.ensemble.trees.map Tree.nnodes = [5])) (by decide +kernel)
  simp only [decide_eq_true_eq] at h2
  exact ⟨b, h1, h2⟩

end BitBoost.Props
