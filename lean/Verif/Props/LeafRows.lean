import Verif.Spec.LeafRows
import Verif.Props.Boost
/-!
# The value of a leaf in terms of the rows that end there: C80

For a booster after any number of iterations and the tree `t` of the next one: the value of a leaf is the learning rate times what
the objective asks for the rows it was trained on that prediction sends to this leaf, given what the ensemble so far predicts for
them. For squared loss this is the mean of the differences of target and prediction.
-/
namespace BitBoost.Props
open BitBoost Spec Dataset Learner

section
variable (F : FP) (M : Libm) (cfg : Config) (d : Data) (rng : Rng) (metrics : List Metric) (o : Objective)

theorem eq_of_sorted_of_mem : ∀ {l l' : List Nat}, l.Pairwise (· < ·) → l'.Pairwise (· < ·) → (∀ i, i ∈ l ↔ i ∈ l') → l = l' := by
  intro l l' h h' hm
  have hp : l.Perm l' := (List.perm_ext_iff_of_nodup (h.imp Nat.ne_of_lt) (h'.imp Nat.ne_of_lt)).2 hm
  exact hp.eq_of_pairwise (fun a b _ _ h1 h2 => by omega) h h'

/-- One tree. -/
theorem train_leafRows {F : FP} {cfg : Config} {d : Data} {rng : Rng} {k : Nat} {ds : Dataset} (hds : Updated F cfg d rng k ds)
    {rows : List Nat} (hrows : Active ds rows) (hfull : ds.exampleSampling = false → rows.length = d.nexamples) (hd : Rectangular d)
    (hsize : rows.length ≤ 2 ^ 32 - 256) (hmin : 1 ≤ cfg.minExamplesLeaf) {o : Objective} {fuel : Nat} {t : Tree} {o' : Objective}
    (ht : train F cfg ds ds.supercats o fuel = .ok (some (t, o'))) (hc : Consistent F ds rows) (n : Nat) (hn : IsLeaf t n) :
    ∃ targets u, target d = .ok targets ∧ rowsAtLeaf t d rows n ≠ [] ∧
      Objective.leafValue F o targets (rowsAtLeaf t d rows n) = .ok u ∧ t.nodeValue n = .ok (F.mul o.learningRate u) := by
  obtain ⟨targets, msk, htgt, hm, hcov, hall⟩ := C40_leaf_values F cfg d rng k ds hds rows hrows hd hsize hmin o fuel t o' ht
  obtain ⟨_, _, _, _, _, hinv, _⟩ := train_final hds hrows hd hsize hmin ht
  obtain ⟨j, hg⟩ := hinv.grown
  have hpred : ∀ i r m, rows[i]? = some r → IsLeaf t m → TrainedTo t msk i m → t.predictLeafId d r = .ok m := by
    intro i r m hir h1 h2
    obtain ⟨v0, hv0⟩ := cell_some hd (Nat.zero_le _) (row_lt hds hrows hfull (List.mem_of_getElem? hir))
    have := predict_of_trained hg (row_agrees hc hm hir) (by rw [hds.inv.data]; exact hv0) h2 h1
    rwa [hds.inv.data] at this
  obtain ⟨ex, u, h0, h1, h2, h3, h4⟩ := hall n hn
  have e : ex = (List.range rows.length).filter fun i => decide (t.predictLeafId d (rows.getD i 0) = .ok n) := by
    refine eq_of_sorted_of_mem h1 (List.pairwise_lt_range.filter _) fun i => ?_
    rw [h2, List.mem_filter, List.mem_range, decide_eq_true_iff]
    refine and_congr_right fun hi => ?_
    have hir : rows[i]? = some (rows.getD i 0) := by
      rw [List.getD_eq_getElem?_getD, List.getElem?_eq_getElem hi]; rfl
    refine ⟨hpred i _ n hir hn, fun e => ?_⟩
    obtain ⟨m, g1, g2⟩ := hcov i hi
    have := hpred i _ m hir g1 g2
    rw [e] at this
    cases this
    exact g2
  have e2 : ex.map (fun i => rows.getD i 0) = rowsAtLeaf t d rows n := by
    rw [e]
    unfold rowsAtLeaf
    have : rows = (List.range rows.length).map fun i => rows.getD i 0 := by
      apply List.ext_getElem
      · simp
      · intro i h1 h2
        simp [List.getD_eq_getElem?_getD, h1]
    conv_rhs => rw [this]
    rw [List.filter_map]
    rfl
  refine ⟨targets, u, htgt, ?_, ?_, h4⟩
  · rw [← e2]
    simpa using h0
  · rw [← e2]
    exact h3

/-- One iteration. -/
theorem iter_leafRows {k : Nat} {b b' : Booster} (hb : Boosting F M cfg d rng metrics o k b)
    (hs : Booster.trainOneIter F M cfg d metrics b = .ok b') (hd : Rectangular d) (hn : d.nexamples ≤ 2 ^ 24)
    (hf : cfg.exampleFraction.le (.fin 1) = true) (hmin : 1 ≤ cfg.minExamplesLeaf)
    (hc : ∀ (j : Nat) (ds : Dataset) (rows : List Nat), Updated F cfg d rng j ds → Active ds rows →
      (ds.exampleSampling = false → rows.length = d.nexamples) → Consistent F ds rows)
    (rows : List Nat) (hrows : Active b'.dataset rows) :
    ∃ t ts o1, b'.ensemble.trees = b.ensemble.trees ++ [t] ∧ target d = .ok ts ∧ b.objective.update F M ts = .ok o1 ∧
      o1.predictions = b.objective.predictions ∧ o1.kind = o.kind ∧
      b.ensemble.predict F d = .ok o1.predictions ∧ (∀ r ∈ rows, r < d.nexamples) ∧ o1.predictions.length = d.nexamples ∧
      ∀ n, IsLeaf t n → ∃ u, rowsAtLeaf t d rows n ≠ [] ∧ Objective.leafValue F o1 ts (rowsAtLeaf t d rows n) = .ok u ∧
        t.nodeValue n = .ok (F.mul cfg.learningRate u) := by
  have hpr := Booster.boosting_predict hb hd hn hf hmin hc
  obtain ⟨b1, b2, _, b4⟩ := Booster.boosting_objective hb hd hn hf hmin
  obtain ⟨ts, o1, ds, t, o', e1, e2, e3, e4, rfl⟩ := Booster.trainOneIter_ok hs
  obtain ⟨u1, u2, _, u4, _⟩ := Booster.update_same e2
  have hds := Updated.update (Booster.boosting_updated hb).1 e3
  obtain ⟨rows', r1, r2, r3, r4, r5⟩ := active_rows hds hn hf
  obtain rfl : rows = rows' := active_unique hrows r1
  refine ⟨t, ts, o1, rfl, e1, e2, u4, u1.trans b1, by rw [u4]; exact hpr, r5, by rw [u4]; exact b4, fun n hl => ?_⟩
  obtain ⟨ts', u, g1, g2, g3, g4⟩ := train_leafRows hds r1 r2 hd r3 hmin e4 (hc _ _ _ hds r1 r2) n hl
  rw [e1] at g1
  cases g1
  exact ⟨u, g2, g3, by rw [g4, u2, b2]⟩

/-! ## Any objective -/

/-- **C80** for data without numerical features, any rounding, any objective, with or without sampling: `rows` are the rows the
tree `t` was trained on; `o1` is the objective before the tree, its predictions are those of the ensemble so far. -/
theorem C80_categorical (k : Nat) (b b' : Booster) (hb : Boosting F M cfg d rng metrics o k b)
    (hs : Booster.trainOneIter F M cfg d metrics b = .ok b') (hd : Rectangular d) (hn : d.nexamples ≤ 2 ^ 24)
    (hf : cfg.exampleFraction.le (.fin 1) = true) (hmin : 1 ≤ cfg.minExamplesLeaf) (hcard : ∀ c ∈ d.cols, c.card ≤ 2 ^ 24)
    (hnb : d.maxNbins ≤ 2 ^ 24)
    (hcat : ∀ f c, f < d.nfeatures → d.cols[f]? = some c → c.ftype ≠ .numerical ∧ ∀ v ∈ c.values, IsCategory v)
    (rows : List Nat) (hrows : Active b'.dataset rows) :
    ∃ t ts o1, b'.ensemble.trees = b.ensemble.trees ++ [t] ∧ target d = .ok ts ∧ b.objective.update F M ts = .ok o1 ∧
      o1.kind = o.kind ∧ b.ensemble.predict F d = .ok o1.predictions ∧
      ∀ n, IsLeaf t n → ∃ u, rowsAtLeaf t d rows n ≠ [] ∧ Objective.leafValue F o1 ts (rowsAtLeaf t d rows n) = .ok u ∧
        t.nodeValue n = .ok (F.mul cfg.learningRate u) := by
  obtain ⟨t, ts, o1, h1, h2, h3, _, h4, h5, _, _, h6⟩ := iter_leafRows F M cfg d rng metrics o hb hs hd hn hf hmin
    (fun _ _ _ h1 h2 h3 => consistent_categorical h1 h2 h3 hd hcard hnb hcat) rows hrows
  exact ⟨t, ts, o1, h1, h2, h3, h4, h5, h6⟩

/-- **C80** in exact arithmetic, with numerical features without missing values. -/
theorem C80_exact (k : Nat) (b b' : Booster) (hb : Boosting .exact M cfg d rng metrics o k b)
    (hs : Booster.trainOneIter .exact M cfg d metrics b = .ok b') (hd : Rectangular d) (hn : d.nexamples ≤ 2 ^ 24)
    (hf : cfg.exampleFraction.le (.fin 1) = true) (hmin : 1 ≤ cfg.minExamplesLeaf) (hcard : ∀ c ∈ d.cols, c.card ≤ 2 ^ 24)
    (hnb : d.maxNbins ≤ 2 ^ 24)
    (hcat : ∀ f c, f < d.nfeatures → d.cols[f]? = some c → c.ftype ≠ .numerical → ∀ v ∈ c.values, IsCategory v)
    (hnan : ∀ f c, f < d.nfeatures → d.cols[f]? = some c → c.ftype = .numerical → Num.nan ∉ c.values)
    (rows : List Nat) (hrows : Active b'.dataset rows) :
    ∃ t ts o1, b'.ensemble.trees = b.ensemble.trees ++ [t] ∧ target d = .ok ts ∧ b.objective.update .exact M ts = .ok o1 ∧
      o1.kind = o.kind ∧ b.ensemble.predict .exact d = .ok o1.predictions ∧
      ∀ n, IsLeaf t n → ∃ u, rowsAtLeaf t d rows n ≠ [] ∧ Objective.leafValue .exact o1 ts (rowsAtLeaf t d rows n) = .ok u ∧
        t.nodeValue n = .ok (FP.exact.mul cfg.learningRate u) := by
  obtain ⟨t, ts, o1, h1, h2, h3, _, h4, h5, _, _, h6⟩ := iter_leafRows .exact M cfg d rng metrics o hb hs hd hn hf hmin
    (fun _ _ _ h1 h2 h3 => consistent_exact h1 h2 h3 hd hcard hnb hcat hnan) rows hrows
  exact ⟨t, ts, o1, h1, h2, h3, h4, h5, h6⟩

/-- **C80** in `f32`, with numerical features without missing values that are fixed-point columns or in general position. -/
theorem C80_f32 (k : Nat) (b b' : Booster) (hb : Boosting .binary32 M cfg d rng metrics o k b)
    (hs : Booster.trainOneIter .binary32 M cfg d metrics b = .ok b') (hd : Rectangular d) (hn : d.nexamples ≤ 2 ^ 24)
    (hf : cfg.exampleFraction.le (.fin 1) = true) (hmin : 1 ≤ cfg.minExamplesLeaf) (hcard : ∀ c ∈ d.cols, c.card ≤ 2 ^ 24)
    (hnb : d.maxNbins ≤ 2 ^ 24)
    (hcat : ∀ f c, f < d.nfeatures → d.cols[f]? = some c → c.ftype ≠ .numerical → ∀ v ∈ c.values, IsCategory v)
    (hfix : ∀ f c, f < d.nfeatures → d.cols[f]? = some c → c.ftype = .numerical →
      (FixedPoint c ∨ Separated c) ∧ Num.nan ∉ c.values)
    (rows : List Nat) (hrows : Active b'.dataset rows) :
    ∃ t ts o1, b'.ensemble.trees = b.ensemble.trees ++ [t] ∧ target d = .ok ts ∧ b.objective.update .binary32 M ts = .ok o1 ∧
      o1.kind = o.kind ∧ b.ensemble.predict .binary32 d = .ok o1.predictions ∧
      ∀ n, IsLeaf t n → ∃ u, rowsAtLeaf t d rows n ≠ [] ∧ Objective.leafValue .binary32 o1 ts (rowsAtLeaf t d rows n) = .ok u ∧
        t.nodeValue n = .ok (FP.binary32.mul cfg.learningRate u) := by
  obtain ⟨t, ts, o1, h1, h2, h3, _, h4, h5, _, _, h6⟩ := iter_leafRows .binary32 M cfg d rng metrics o hb hs hd hn hf hmin
    (fun _ _ _ h1 h2 h3 => consistent_f32 h1 h2 h3 hd hcard hnb hcat hfix) rows hrows
  exact ⟨t, ts, o1, h1, h2, h3, h4, h5, h6⟩

/-! ## Squared loss -/

theorem leafValue_l2 {F : FP} {o : Objective} {ts : List Num} {rows : List Nat} (hk : o.kind = .l2)
    (h1 : ∀ r ∈ rows, r < ts.length) (h2 : ∀ r ∈ rows, r < o.predictions.length) :
    Objective.leafValue F o ts rows = .ok (F.div (F.sum (differences F ts o.predictions rows)) (F.ofNat rows.length)) := by
  have : Objective.residuals F o ts rows = .ok (differences F ts o.predictions rows) := by
    unfold Objective.residuals differences
    refine Objective.forExamples_ok _ _ _ fun i hi => ?_
    unfold Objective.targetPred Objective.index
    rw [List.getElem?_eq_getElem (h1 i hi), List.getElem?_eq_getElem (h2 i hi)]
    simp [List.getD_eq_getElem?_getD, h1 i hi, h2 i hi]
  unfold Objective.leafValue
  rw [hk, this]
  rfl

/-- **C80** for squared loss, any rounding, without numerical features: the value of a leaf is the learning rate times the sum
of the differences of target and prediction in the rows of the leaf, divided by their number. -/
theorem C80_squared (k : Nat) (b b' : Booster) (hb : Boosting F M cfg d rng metrics o k b)
    (hs : Booster.trainOneIter F M cfg d metrics b = .ok b') (hd : Rectangular d) (hn : d.nexamples ≤ 2 ^ 24)
    (hf : cfg.exampleFraction.le (.fin 1) = true) (hmin : 1 ≤ cfg.minExamplesLeaf) (hcard : ∀ c ∈ d.cols, c.card ≤ 2 ^ 24)
    (hnb : d.maxNbins ≤ 2 ^ 24)
    (hcat : ∀ f c, f < d.nfeatures → d.cols[f]? = some c → c.ftype ≠ .numerical ∧ ∀ v ∈ c.values, IsCategory v)
    (hk : o.kind = .l2) (rows : List Nat) (hrows : Active b'.dataset rows) :
    ∃ t ts ps, b'.ensemble.trees = b.ensemble.trees ++ [t] ∧ target d = .ok ts ∧ b.ensemble.predict F d = .ok ps ∧
      ∀ n, IsLeaf t n → rowsAtLeaf t d rows n ≠ [] ∧
        t.nodeValue n = .ok (F.mul cfg.learningRate
          (F.div (F.sum (differences F ts ps (rowsAtLeaf t d rows n))) (F.ofNat (rowsAtLeaf t d rows n).length))) := by
  obtain ⟨t, ts, o1, h1, h2, h3, _, h4, h5, g1, g2, h6⟩ := iter_leafRows F M cfg d rng metrics o hb hs hd hn hf hmin
    (fun _ _ _ h1 h2 h3 => consistent_categorical h1 h2 h3 hd hcard hnb hcat) rows hrows
  refine ⟨t, ts, o1.predictions, h1, h2, h5, fun n hl => ?_⟩
  obtain ⟨u, a1, a2, a3⟩ := h6 n hl
  have hlt : ∀ r ∈ rowsAtLeaf t d rows n, r < d.nexamples := fun r hr => g1 r (List.mem_filter.1 hr).1
  rw [leafValue_l2 (h4.trans hk) (fun r hr => by rw [Booster.target_length hd h2]; exact hlt r hr)
    (fun r hr => by rw [g2]; exact hlt r hr)] at a2
  cases a2
  exact ⟨a1, a3⟩

/-- **C80** for squared loss in exact arithmetic, with numerical features without missing values: the value of a leaf is the
learning rate times the mean difference of target and prediction in the rows of the leaf. -/
theorem C80_squared_exact (k : Nat) (b b' : Booster) (hb : Boosting .exact M cfg d rng metrics o k b)
    (hs : Booster.trainOneIter .exact M cfg d metrics b = .ok b') (hd : Rectangular d) (hn : d.nexamples ≤ 2 ^ 24)
    (hf : cfg.exampleFraction.le (.fin 1) = true) (hmin : 1 ≤ cfg.minExamplesLeaf) (hcard : ∀ c ∈ d.cols, c.card ≤ 2 ^ 24)
    (hnb : d.maxNbins ≤ 2 ^ 24)
    (hcat : ∀ f c, f < d.nfeatures → d.cols[f]? = some c → c.ftype ≠ .numerical → ∀ v ∈ c.values, IsCategory v)
    (hnan : ∀ f c, f < d.nfeatures → d.cols[f]? = some c → c.ftype = .numerical → Num.nan ∉ c.values)
    (hk : o.kind = .l2) (lr : ℚ) (hlr : cfg.learningRate = .fin lr) (ts ps : List ℚ) (ht : target d = .ok (Spec.column ts))
    (hp : b.ensemble.predict .exact d = .ok (Spec.column ps)) (rows : List Nat) (hrows : Active b'.dataset rows) :
    ∃ t, b'.ensemble.trees = b.ensemble.trees ++ [t] ∧ ∀ n, IsLeaf t n → rowsAtLeaf t d rows n ≠ [] ∧
      t.nodeValue n = .ok (.fin (lr * meanResidual ts ps (rowsAtLeaf t d rows n))) := by
  obtain ⟨t, ts', o1, h1, h2, h3, _, h4, h5, g1, g2, h6⟩ := iter_leafRows .exact M cfg d rng metrics o hb hs hd hn hf hmin
    (fun _ _ _ h1 h2 h3 => consistent_exact h1 h2 h3 hd hcard hnb hcat hnan) rows hrows
  rw [ht] at h2
  cases h2
  rw [hp] at h5
  have hpred : o1.predictions = Spec.column ps := (Out.ok.inj h5).symm
  have lt1 : ts.length = d.nexamples := by rw [← column_length ts]; exact Booster.target_length hd ht
  have lt2 : ps.length = d.nexamples := by rw [← column_length ps, ← hpred, g2]
  refine ⟨t, h1, fun n hl => ?_⟩
  obtain ⟨u, a1, a2, a3⟩ := h6 n hl
  have hlt : ∀ r ∈ rowsAtLeaf t d rows n, r < d.nexamples := fun r hr => g1 r (List.mem_filter.1 hr).1
  refine ⟨a1, ?_⟩
  rw [a3, hlr]
  unfold Objective.leafValue at a2
  rw [h4.trans hk] at a2
  simp only at a2
  rw [residuals_exact o1 ts ps hpred _ (fun r hr => by rw [lt1]; exact hlt r hr) (fun r hr => by rw [lt2]; exact hlt r hr)] at a2
  have hne : ((rowsAtLeaf t d rows n).length : ℚ) ≠ 0 := by
    have := List.length_pos_of_ne_nil a1
    positivity
  simp only [Out.ok_bind, Out.pure_eq, Spec.column, Objective.sum_exact] at a2
  rw [show FP.exact.ofNat (rowsAtLeaf t d rows n).length = .fin (rowsAtLeaf t d rows n).length from rfl, FP.div_fin _ hne] at a2
  cases a2
  rfl

end

/-! ## Example -/

private def leafCfg : Config := { runCfg with niterations := 1 }

/-- C80: `f32` arithmetic, squared loss, two categorical features, four of five rows in use. The tree of the second iteration has
three leaves with the rows 2; 1 and 3; 0. The hypotheses about `runData` are those of the second example of `Verif.Props.Boost`. -/
example : ∃ b b' t, Boosting .binary32 runLibm leafCfg runData ⟨fun i => i⟩ [] (Objective.new .l2) 1 b ∧
    Booster.trainOneIter .binary32 runLibm leafCfg runData [] b = .ok b' ∧ Active b'.dataset [0, 1, 2, 3] ∧
    b'.ensemble.trees = b.ensemble.trees ++ [t] ∧ t.nleafs = 3 ∧
    rowsAtLeaf t runData [0, 1, 2, 3] 1 = [2] ∧ t.nodeValue 1 = .ok (.fin (-1258291 / 8388608)) ∧
    rowsAtLeaf t runData [0, 1, 2, 3] 5 = [1, 3] ∧ t.nodeValue 5 = .ok (.fin (-9646899 / 8388608)) ∧
    rowsAtLeaf t runData [0, 1, 2, 3] 6 = [0] ∧ t.nodeValue 6 = .ok (.fin (-5452595 / 8388608)) := by
  obtain ⟨b, h1, h2⟩ := boosted_check (F := .binary32) (cfg := leafCfg) (d := runData) (rng := ⟨fun i => i⟩)
    (metrics := []) (o := Objective.new .l2)
    (fun b => match Booster.trainOneIter .binary32 runLibm leafCfg runData [] b with
      | .ok b' => decide (b'.dataset.activePairs = .ok ((List.range 4).zip [0, 1, 2, 3])) &&
        match b'.ensemble.trees[1]? with
        | some t => decide (b'.ensemble.trees = b.ensemble.trees ++ [t]) && decide (t.nleafs = 3) &&
          (decide (rowsAtLeaf t runData [0, 1, 2, 3] 1 = [2]) && decide (t.nodeValue 1 = .ok (Num.fin (-1258291 / 8388608)))) &&
          (decide (rowsAtLeaf t runData [0, 1, 2, 3] 5 = [1, 3]) && decide (t.nodeValue 5 = .ok (Num.fin (-9646899 / 8388608)))) &&
          (decide (rowsAtLeaf t runData [0, 1, 2, 3] 6 = [0]) && decide (t.nodeValue 6 = .ok (Num.fin (-5452595 / 8388608))))
        | none => false
      | _ => false)
    (by decide +kernel)
  cases e : Booster.trainOneIter .binary32 runLibm leafCfg runData [] b with
  | panic => rw [e] at h2; cases h2
  | ub => rw [e] at h2; cases h2
  | ok b' =>
    rw [e] at h2
    simp only [Bool.and_eq_true, decide_eq_true_eq] at h2
    obtain ⟨h2, h3⟩ := h2
    cases et : b'.ensemble.trees[1]? with
    | none => rw [et] at h3; cases h3
    | some t =>
      rw [et] at h3
      simp only [Bool.and_eq_true, decide_eq_true_eq] at h3
      obtain ⟨⟨⟨⟨a1, a2⟩, a3, a4⟩, a5, a6⟩, a7, a8⟩ := h3
      exact ⟨b, b', t, Booster.run_boosting h1, e, h2, a1, a2, a3, a4, a5, a6, a7, a8⟩

end BitBoost.Props
