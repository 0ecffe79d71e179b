import Verif.Lemmas.Units32
import Verif.Props.Boost
/-!
# C77: the units of numerical features

It does not matter, but for rounding, in which units the numerical features are measured: with `a * x + b`, `a > 0`, in place
of `x` the trees are the same but for the thresholds, which are converted, and the predictions are the same
(`C77_units_partial`, `C77_predictions_partial`, `C77_ends_partial`). Data read from a CSV text can be converted in this way
(`C77_csv`). Data handed over through the C API, as the Python package does, can be multiplied (`C77_c_api`), but adding a
constant changes the model even in exact arithmetic (`C77_c_api_shift_refuted`), because 0 is always taken as one of the
values. In 32-bit arithmetic the statement is false (`C77_units_refuted`), but true of factors that are powers of two, with
values of ordinary size (`C77_units_f32_partial`, `C77_predictions_f32_partial`).
-/
namespace BitBoost.Props
open Spec Learner

/-! ## Training -/

/-- In exact arithmetic: training with the numerical features in other units gives the same trees with converted thresholds,
the same bias, the same printed metrics and the same running predictions. Missing for the full property: `f32` arithmetic. -/
theorem C77_units_partial (M : Libm) (cfg : Config) (u : Nat → ℚ × ℚ) (d d' : Data) (rng : Rng) (metrics : List Metric)
    (o : Objective) (h : OtherUnits u d d') (hu : GoodUnits u d) (b : Booster)
    (hb : Booster.run .exact M cfg d rng metrics o = .ok b) :
    ∃ b', Booster.run .exact M cfg d' rng metrics o = .ok b' ∧
      b'.ensemble.trees = b.ensemble.trees.map (treeInUnits u) ∧ b'.ensemble.bias = b.ensemble.bias ∧
      b'.printed = b.printed ∧ b'.objective = b.objective := by
  obtain ⟨b', h1, h2⟩ := run_units (M := M) (cfg := cfg) h hu.exact rng metrics o b hb
  exact ⟨b', h1, h2.trees, h2.bias, h2.printed, h2.obj⟩

/-- In exact arithmetic: the two models give the same predictions for other data in the two units; the predictions
may be computed with any rounding. -/
theorem C77_predictions_partial (F : FP) (M : Libm) (cfg : Config) (u : Nat → ℚ × ℚ) (d d' e e' : Data) (rng : Rng)
    (metrics : List Metric) (o : Objective) (h : OtherUnits u d d') (hu : GoodUnits u d) (he : OtherUnits u e e') (b b' : Booster)
    (hb : Booster.run .exact M cfg d rng metrics o = .ok b) (hb' : Booster.run .exact M cfg d' rng metrics o = .ok b') :
    b'.ensemble.predict F e' = b.ensemble.predict F e := by
  obtain ⟨b1, h1, h2⟩ := run_units (M := M) (cfg := cfg) h hu.exact rng metrics o b hb
  rw [hb'] at h1
  cases h1
  unfold AdditiveTree.predict AdditiveTree.predictBuf
  rw [h2.bias, h2.trees, he.nexamples, addTrees_units F he hu.pos _ _ h2.fits]

/-- In exact arithmetic: training on one of the data sets ends without a panic exactly when training on the other does. -/
theorem C77_ends_partial (M : Libm) (cfg : Config) (u : Nat → ℚ × ℚ) (d d' : Data) (rng : Rng) (metrics : List Metric)
    (o : Objective) (h : OtherUnits u d d') (hu : GoodUnits u d) :
    (∃ b, Booster.run .exact M cfg d rng metrics o = .ok b) ↔ ∃ b', Booster.run .exact M cfg d' rng metrics o = .ok b' := by
  constructor
  · rintro ⟨b, hb⟩
    obtain ⟨b', h1, _⟩ := run_units (M := M) (cfg := cfg) h hu.exact rng metrics o b hb
    exact ⟨b', h1⟩
  · rintro ⟨b, hb⟩
    obtain ⟨b', h1, _⟩ := run_units (M := M) (cfg := cfg) (h.symm hu) (hu.symm h).exact rng metrics o b hb
    exact ⟨b', h1⟩

/-- In `f32` arithmetic: when the factors are powers of two, nothing is added, and the values are of ordinary size, training
with the numerical features in other units gives the same trees with converted thresholds, the same bias, the
same printed metrics and the same running predictions, bit for bit. Missing for the full property: other units, for which it is
false (`C77_units_refuted`). -/
theorem C77_units_f32_partial (M : Libm) (cfg : Config) (u : Nat → ℚ × ℚ) (d d' : Data) (rng : Rng) (metrics : List Metric)
    (o : Objective) (h : OtherUnits u d d') (hu : GoodUnits u d) (hb : BinaryUnits u d) (b : Booster)
    (hr : Booster.run .binary32 M cfg d rng metrics o = .ok b) :
    ∃ b', Booster.run .binary32 M cfg d' rng metrics o = .ok b' ∧
      b'.ensemble.trees = b.ensemble.trees.map (treeInUnits u) ∧ b'.ensemble.bias = b.ensemble.bias ∧
      b'.printed = b.printed ∧ b'.objective = b.objective := by
  obtain ⟨b', h1, h2⟩ := run_units (M := M) (cfg := cfg) h (hb.ok hu) rng metrics o b hr
  exact ⟨b', h1, h2.trees, h2.bias, h2.printed, h2.obj⟩

/-- … and the two models give the same predictions for other data in the two units. -/
theorem C77_predictions_f32_partial (M : Libm) (cfg : Config) (u : Nat → ℚ × ℚ) (d d' e e' : Data) (rng : Rng)
    (metrics : List Metric) (o : Objective) (h : OtherUnits u d d') (hu : GoodUnits u d) (hb : BinaryUnits u d)
    (he : OtherUnits u e e') (b b' : Booster)
    (hr : Booster.run .binary32 M cfg d rng metrics o = .ok b) (hr' : Booster.run .binary32 M cfg d' rng metrics o = .ok b') :
    b'.ensemble.predict .binary32 e' = b.ensemble.predict .binary32 e := by
  obtain ⟨b1, h1, h2⟩ := run_units (M := M) (cfg := cfg) h (hb.ok hu) rng metrics o b hr
  rw [hr'] at h1
  cases h1
  unfold AdditiveTree.predict AdditiveTree.predictBuf
  rw [h2.bias, h2.trees, he.nexamples, addTrees_units _ he hu.pos _ _ h2.fits]

/-! ## Loading -/

/-- Two sets of data built through the C API, one with its numerical features multiplied by positive factors: the calls for
one succeed exactly when those for the other do, and at the end the one is the other in other units. (`set_feature_data`
of the target and of categorical features: the same values for both, factor 1.) -/
theorem C77_c_api (cfg : Config) (u : Nat → ℚ × ℚ) (hu : ∀ f, 0 < (u f).1 ∧ (u f).2 = 0) (nf ne : Nat)
    (calls : List (Nat × List Num × Bool)) (hc : ∀ c ∈ calls, c.2.2 = true → u c.1 = (1, 0)) (d : Data)
    (hd : setAll calls (Data.empty cfg nf ne) = .ok (d, true)) :
    ∃ d', setAll (calls.map fun c => (c.1, c.2.1.map (inUnits (u c.1)), c.2.2)) (Data.empty cfg nf ne) = .ok (d', true) ∧
      OtherUnits u d d' := by
  exact setAll_units (fun f => (hu f).1) calls hc _ _ (empty_units cfg nf ne hu) d hd

/-- Data read from CSV records, with the numerical columns converted, `a * x + b`. -/
theorem C77_csv (cfg : Config) (u : Nat → ℚ × ℚ) (hu : ∀ f, 0 < (u f).1) (hc : ∀ f ∈ cfg.categoricalFeatures, u f = (1, 0))
    (items : List Data.CsvItem) (header : Option (List String)) (d : Data)
    (hd : Data.fromCsv cfg items header = .ok (.ok d)) :
    ∃ d', Data.fromCsv cfg (items.map (itemInUnits u)) header = .ok (.ok d') ∧ OtherUnits u d d' := by
  exact fromCsv_units hu hc items header d hd

/-! ## What is false -/

private def unitsCfg : Config :=
  { Config.new with maxNbins := 4, maxTreeDepth := 2, niterations := 1, learningRate := .fin 1, metricFrequency := 1
                    discrNbits := 2 }
/-- A numerical feature, a categorical feature, the target. -/
private def unitsData (a b : ℚ) : Data :=
  ⟨4, [], 2, 4,
    [⟨[.fin (a * 0 + b), .fin (a * 1 + b), .fin (a * 1 + b), .fin (a * 0 + b)], .fin (a * 0 + b), .fin (a * 1 + b), .numerical, 0⟩,
     ⟨[.fin 0, .fin 0, .fin 1, .fin 1], .fin 0, .fin 1, .loCardCat, 2⟩,
     ⟨[.fin 0, .fin 4, .fin 5, .fin 1], .fin 0, .fin 5, .numerical, 0⟩]⟩

private def unitsOf (a b : ℚ) (f : Nat) : ℚ × ℚ := if f = 0 then (a, b) else (1, 0)

private theorem unitsData_other (a b : ℚ) : OtherUnits (unitsOf a b) (unitsData 1 0) (unitsData a b) := by
  refine ⟨rfl, rfl, rfl, fun f => ?_⟩
  rcases f with _ | _ | _ | f <;> simp [unitsData, unitsOf, columnInUnits, inUnits]

private theorem unitsData_good (a b : ℚ) (ha : 0 < a) : GoodUnits (unitsOf a b) (unitsData 1 0) := by
  refine ⟨fun f => ?_, fun f c hc ht => ?_, rfl⟩
  · unfold unitsOf; split <;> simp [ha]
  · rcases f with _ | f
    · simp only [unitsData, List.getElem?_cons_zero, Option.some.injEq] at hc
      subst hc
      exact absurd rfl ht
    · rfl

/-- In 32-bit arithmetic: the values 0 and 1 of a feature, and 2^23 more. The first two values are told apart, the other two
are not when the model is used: the rounded threshold is 2^23, and no value is below it. -/
theorem C77_units_refuted : ∃ (cfg : Config) (u : Nat → ℚ × ℚ) (d d' : Data) (rng : Rng) (b b' : Booster),
    OtherUnits u d d' ∧ GoodUnits u d ∧ u 0 = (1, 2 ^ 23) ∧
    Booster.run .binary32 runLibm cfg d rng [] (Objective.new .l2) = .ok b ∧
    Booster.run .binary32 runLibm cfg d' rng [] (Objective.new .l2) = .ok b' ∧
    b.ensemble.predict .binary32 d = .ok [.fin 0, .fin 4, .fin 5, .fin 1] ∧
    b'.ensemble.predict .binary32 d' = .ok [.fin 4, .fin 4, .fin 5, .fin 5] := by
  obtain ⟨b, h1, h2⟩ := boosted_check (F := .binary32) (cfg := unitsCfg) (d := unitsData 1 0) (rng := ⟨fun i => i⟩)
    (metrics := []) (o := Objective.new .l2)
    (fun b => decide (b.ensemble.predict .binary32 (unitsData 1 0) = .ok [.fin 0, .fin 4, .fin 5, .fin 1])) (by decide +kernel)
  obtain ⟨b', g1, g2⟩ := boosted_check (F := .binary32) (cfg := unitsCfg) (d := unitsData 1 (2 ^ 23)) (rng := ⟨fun i => i⟩)
    (metrics := []) (o := Objective.new .l2)
    (fun b => decide (b.ensemble.predict .binary32 (unitsData 1 (2 ^ 23)) = .ok [.fin 4, .fin 4, .fin 5, .fin 5])) (by decide +kernel)
  simp only [decide_eq_true_eq] at h2 g2
  exact ⟨unitsCfg, unitsOf 1 (2 ^ 23), _, _, _, b, b', unitsData_other _ _, unitsData_good _ _ one_pos, rfl, h1, g1, h2, g2⟩

private def capiCalls (b : ℚ) : List (Nat × List Num × Bool) :=
  [(0, [.fin b, .fin (1 + b), .fin (1 + b), .fin b], false), (1, [.fin 0, .fin 4, .fin 5, .fin 1], false)]

private def capiData (b : ℚ) : Data :=
  match setAll (capiCalls b) (Data.empty unitsCfg 1 4) with
  | .ok (d, _) => d
  | _ => Data.empty unitsCfg 1 4

/-- Through the C API, in exact arithmetic: a feature with the values 0 and 1 splits the rows; when 10000 is added to
all its values, it does not: the range of the values is taken to be 0 to 10001, and both values fall into the same
512th part of it. -/
theorem C77_c_api_shift_refuted : ∃ (cfg : Config) (calls calls' : List (Nat × List Num × Bool)) (d d' : Data) (rng : Rng)
    (b b' : Booster),
    calls = [(0, [.fin 0, .fin 1, .fin 1, .fin 0], false), (1, [.fin 0, .fin 4, .fin 5, .fin 1], false)] ∧
    calls' = [(0, [.fin 10000, .fin 10001, .fin 10001, .fin 10000], false), (1, [.fin 0, .fin 4, .fin 5, .fin 1], false)] ∧
    setAll calls (Data.empty cfg 1 4) = .ok (d, true) ∧ setAll calls' (Data.empty cfg 1 4) = .ok (d', true) ∧
    Booster.run .exact runLibm cfg d rng [] (Objective.new .l2) = .ok b ∧
    Booster.run .exact runLibm cfg d' rng [] (Objective.new .l2) = .ok b' ∧
    b.ensemble.predict .exact d = .ok [.fin (1 / 2), .fin (9 / 2), .fin (9 / 2), .fin (1 / 2)] ∧
    b'.ensemble.predict .exact d' = .ok [.fin (5 / 2), .fin (5 / 2), .fin (5 / 2), .fin (5 / 2)] := by
  obtain ⟨b, h1, h2⟩ := boosted_check (F := .exact) (cfg := unitsCfg) (d := capiData 0) (rng := ⟨fun i => i⟩)
    (metrics := []) (o := Objective.new .l2)
    (fun b => decide (b.ensemble.predict .exact (capiData 0) = .ok [.fin (1 / 2), .fin (9 / 2), .fin (9 / 2), .fin (1 / 2)]))
    (by decide +kernel)
  obtain ⟨b', g1, g2⟩ := boosted_check (F := .exact) (cfg := unitsCfg) (d := capiData 10000) (rng := ⟨fun i => i⟩)
    (metrics := []) (o := Objective.new .l2)
    (fun b => decide (b.ensemble.predict .exact (capiData 10000) = .ok [.fin (5 / 2), .fin (5 / 2), .fin (5 / 2), .fin (5 / 2)]))
    (by decide +kernel)
  simp only [decide_eq_true_eq] at h2 g2
  exact ⟨unitsCfg, capiCalls 0, capiCalls 10000, _, _, _, b, b', by simp [capiCalls], by simp [capiCalls]; norm_num, by decide +kernel, by decide +kernel,
    h1, g1, h2, g2⟩

/-! ## Examples -/

/-- C77_units_partial, C77_predictions_partial, C77_ends_partial: degrees Fahrenheit for degrees Celsius; the tree tests the
numerical feature and the categorical one. -/
example : OtherUnits (unitsOf (9 / 5) 32) (unitsData 1 0) (unitsData (9 / 5) 32) ∧
    GoodUnits (unitsOf (9 / 5) 32) (unitsData 1 0) ∧
    (∃ b, Booster.run .exact runLibm unitsCfg (unitsData 1 0) ⟨fun i => i⟩ [.l2] (Objective.new .l2) = .ok b ∧
      b.ensemble.trees.map (fun t : Tree => (t.splitCrits.take 2)) =
        [[⟨.numLt, 0, .fin (1 / 512)⟩, ⟨.loCardCatEq, 1, .fin 0⟩]]) ∧
    ∃ b, Booster.run .exact runLibm unitsCfg (unitsData (9 / 5) 32) ⟨fun i => i⟩ [.l2] (Objective.new .l2) = .ok b ∧
      b.ensemble.trees.map (fun t : Tree => (t.splitCrits.take 2)) =
        [[⟨.numLt, 0, .fin (9 / 5 * (1 / 512) + 32)⟩, ⟨.loCardCatEq, 1, .fin 0⟩]] := by
  refine ⟨unitsData_other _ _, unitsData_good _ _ (by norm_num), ?_, ?_⟩
  · obtain ⟨b, h1, h2⟩ := boosted_check (F := .exact) (cfg := unitsCfg) (d := unitsData 1 0) (rng := ⟨fun i => i⟩)
      (metrics := [.l2]) (o := Objective.new .l2)
      (fun b => decide (b.ensemble.trees.map (fun t : Tree => (t.splitCrits.take 2)) =
        [[⟨.numLt, 0, Num.fin (1 / 512)⟩, ⟨.loCardCatEq, 1, Num.fin 0⟩]])) (by decide +kernel)
    exact ⟨b, h1, of_decide_eq_true h2⟩
  · obtain ⟨b, h1, h2⟩ := boosted_check (F := .exact) (cfg := unitsCfg) (d := unitsData (9 / 5) 32) (rng := ⟨fun i => i⟩)
      (metrics := [.l2]) (o := Objective.new .l2)
      (fun b => decide (b.ensemble.trees.map (fun t : Tree => (t.splitCrits.take 2)) =
        [[⟨.numLt, 0, Num.fin (9 / 5 * (1 / 512) + 32)⟩, ⟨.loCardCatEq, 1, Num.fin 0⟩]])) (by decide +kernel)
    exact ⟨b, h1, of_decide_eq_true h2⟩

/-- C77_units_f32_partial, C77_predictions_f32_partial: kibibytes and bytes. -/
example : OtherUnits (unitsOf 1024 0) (unitsData 1 0) (unitsData 1024 0) ∧
    GoodUnits (unitsOf 1024 0) (unitsData 1 0) ∧ BinaryUnits (unitsOf 1024 0) (unitsData 1 0) ∧
    (∃ b, Booster.run .binary32 runLibm unitsCfg (unitsData 1 0) ⟨fun i => i⟩ [.l2] (Objective.new .l2) = .ok b ∧
      b.ensemble.trees.map (fun t : Tree => (t.splitCrits.take 2)) =
        [[⟨.numLt, 0, .fin (1 / 512)⟩, ⟨.loCardCatEq, 1, .fin 0⟩]]) ∧
    ∃ b, Booster.run .binary32 runLibm unitsCfg (unitsData 1024 0) ⟨fun i => i⟩ [.l2] (Objective.new .l2) = .ok b ∧
      b.ensemble.trees.map (fun t : Tree => (t.splitCrits.take 2)) =
        [[⟨.numLt, 0, .fin 2⟩, ⟨.loCardCatEq, 1, .fin 0⟩]] := by
  refine ⟨unitsData_other _ _, unitsData_good _ _ (by norm_num), fun f => ?_, ?_, ?_⟩
  · rcases f with _ | f
    · refine .inr ⟨10, by decide, by simp only [unitsOf, if_true]; norm_num, fun c hc => ?_⟩
      have o0 : Ordinary (.fin (1 * 0 + 0)) := ⟨⟨0, 0, by norm_num, by norm_num, by norm_num⟩, .inl (by norm_num)⟩
      have o1 : Ordinary (.fin (1 * 1 + 0)) := ⟨⟨1, 0, by norm_num, by norm_num, by norm_num⟩, .inr (by norm_num)⟩
      simp only [unitsData, List.getElem?_cons_zero, Option.some.injEq] at hc
      subst hc
      refine ⟨o0, o1, fun x hx => ?_⟩
      simp only [List.mem_cons, List.not_mem_nil, or_false] at hx
      rcases hx with rfl | rfl | rfl | rfl <;> assumption
    · exact .inl rfl
  · obtain ⟨b, h1, h2⟩ := boosted_check (F := .binary32) (cfg := unitsCfg) (d := unitsData 1 0) (rng := ⟨fun i => i⟩)
      (metrics := [.l2]) (o := Objective.new .l2)
      (fun b => decide (b.ensemble.trees.map (fun t : Tree => (t.splitCrits.take 2)) =
        [[⟨.numLt, 0, Num.fin (1 / 512)⟩, ⟨.loCardCatEq, 1, Num.fin 0⟩]])) (by decide +kernel)
    exact ⟨b, h1, of_decide_eq_true h2⟩
  · obtain ⟨b, h1, h2⟩ := boosted_check (F := .binary32) (cfg := unitsCfg) (d := unitsData 1024 0) (rng := ⟨fun i => i⟩)
      (metrics := [.l2]) (o := Objective.new .l2)
      (fun b => decide (b.ensemble.trees.map (fun t : Tree => (t.splitCrits.take 2)) =
        [[⟨.numLt, 0, Num.fin 2⟩, ⟨.loCardCatEq, 1, Num.fin 0⟩]])) (by decide +kernel)
    exact ⟨b, h1, of_decide_eq_true h2⟩

/-- C77_c_api: kilometres and metres. -/
example : (∀ f, 0 < (unitsOf 1000 0 f).1 ∧ (unitsOf 1000 0 f).2 = 0) ∧
    (∀ c ∈ capiCalls 3, c.2.2 = true → unitsOf 1000 0 c.1 = (1, 0)) ∧
    ∃ d, setAll (capiCalls 3) (Data.empty unitsCfg 1 4) = .ok (d, true) ∧ d.cols.map Column.hi = [.fin 4, .fin 5] := by
  refine ⟨fun f => ?_, fun c hc h => ?_, _, rfl, by decide +kernel⟩
  · unfold unitsOf; split <;> simp
  · simp only [capiCalls, List.mem_cons, List.not_mem_nil, or_false] at hc
    rcases hc with rfl | rfl <;> cases h

/-- C77_csv: a numerical and a categorical column. -/
example : (∀ f, 0 < (unitsOf (9 / 5) 32 f).1) ∧
    (∀ f ∈ ({ unitsCfg with categoricalFeatures := [1], csvHasHeader := false } : Config).categoricalFeatures,
      unitsOf (9 / 5) 32 f = (1, 0)) ∧
    ∃ d, Data.fromCsv { unitsCfg with categoricalFeatures := [1], csvHasHeader := false }
      [.record [some (.fin 20), some (.fin 0), some (.fin 7)], .record [some (.fin (-5)), some (.fin 2), some (.fin 3)]] none =
        .ok (.ok d) ∧ d.cols.map Column.lo = [.fin (-5), .fin 0, .fin 3] := by
  refine ⟨fun f => ?_, fun f hf => ?_, ⟨4, ["", "", ""], 2, 2, [⟨[.fin 20, .fin (-5)], .fin (-5), .fin 20, .numerical, 0⟩,
    ⟨[.fin 0, .fin 2], .fin 0, .fin 2, .loCardCat, 3⟩, ⟨[.fin 7, .fin 3], .fin 3, .fin 7, .numerical, 0⟩]⟩,
    by decide +kernel, by decide +kernel⟩
  · unfold unitsOf; split <;> norm_num
  · simp only [List.mem_singleton] at hf
    subst hf
    rfl

end BitBoost.Props
