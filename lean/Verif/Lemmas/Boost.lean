import Verif.Spec.Boost
import Verif.Props.Training
import Verif.Props.Loss
import Verif.Props.Sampling
/-! Helper lemmas: boosting. -/
namespace BitBoost
open Spec Dataset Learner

/-! ### Lengths of the columns of the objective -/

namespace Objective

theorem addLoop_length {F : FP} {v : Num} : ∀ {is : List Nat} {p p' : List Num},
    addLoop F v is p = .ok p' → p'.length = p.length
  | [], p, p', h => by simp only [addLoop, Out.ok.injEq] at h; rw [h]
  | i :: is, p, p', h => by
      unfold addLoop at h
      cases hp : p[i]? with
      | none => rw [hp] at h; cases h
      | some x =>
        rw [hp] at h
        simp only at h
        obtain ⟨_, _, h⟩ := Out.bind_eq_ok.1 h
        rw [addLoop_length h, List.length_set]

theorem predictLeafValue_same {F : FP} {o o' : Objective} {ts : List Num} {ex : List Nat} {v : Num}
    (h : predictLeafValue F o ts ex = .ok (v, o')) :
    o' = { o with predictions := o'.predictions } ∧ o'.predictions.length = o.predictions.length := by
  unfold predictLeafValue at h
  obtain ⟨x, _, h⟩ := Out.bind_eq_ok.1 h
  unfold updatePredictions at h
  simp only at h
  obtain ⟨ps, e, h⟩ := Out.bind_eq_ok.1 h
  simp only [Out.pure_eq, Out.ok.injEq, Prod.mk.injEq] at h
  obtain ⟨_, rfl⟩ := h
  exact ⟨rfl, addLoop_length e⟩

theorem leafCalls_length {F : FP} {ts : List Num} {o o' : Objective} {ls : List (List Nat)}
    (h : LeafCalls F ts o ls o') : o'.predictions.length = o.predictions.length := by
  induction h with
  | nil => rfl
  | cons v hv _ ih => rw [ih, (predictLeafValue_same hv).2]

end Objective

theorem outOfBagLoop_length {F : FP} {d : Data} {t : Tree} : ∀ {is : List Nat} {o o' : Objective},
    outOfBagLoop F d t is o = .ok o' → o'.predictions.length = o.predictions.length
  | [], o, o', h => by simp only [outOfBagLoop, Out.ok.injEq] at h; rw [h]
  | i :: is, o, o', h => by
      unfold outOfBagLoop at h
      obtain ⟨p, _, h⟩ := Out.bind_eq_ok.1 h
      obtain ⟨o1, e, h⟩ := Out.bind_eq_ok.1 h
      rw [outOfBagLoop_length h]
      unfold Objective.updateOutOfBag at e
      cases hp : o.predictions[i]? with
      | none => rw [hp] at e; cases e
      | some x =>
        rw [hp] at e
        simp only at e
        obtain ⟨_, _, e⟩ := Out.bind_eq_ok.1 e
        simp only [Out.pure_eq, Out.ok.injEq] at e
        subst e
        simp

theorem outOfBag_length {F : FP} {ds : Dataset} {t : Tree} {o o' : Objective} (h : outOfBag F ds t o = .ok o') :
    o'.predictions.length = o.predictions.length := by
  unfold outOfBag at h
  split at h
  · obtain ⟨is, _, h⟩ := Out.bind_eq_ok.1 h
    exact outOfBagLoop_length h
  · simp only [Out.ok.injEq] at h; rw [h]

/-! ### One tree -/

section
variable {F : FP} {cfg : Config} {d : Data} {rng : Rng} {k : Nat} {ds : Dataset} {rows : List Nat}

/-- At the end of training, the tree, the parts and the predictions. -/
theorem train_final (hds : Updated F cfg d rng k ds) (hrows : Active ds rows) (hd : Rectangular d)
    (hsize : rows.length ≤ 2 ^ 32 - 256) (hmin : 1 ≤ cfg.minExamplesLeaf) {o : Objective} {fuel : Nat} {t : Tree}
    {o' : Objective} (ht : train F cfg ds ds.supercats o fuel = .ok (some (t, o'))) :
    ∃ targets o1 done msk, target d = .ok targets ∧
      TreeInv F cfg ds ds.supercats targets rows o ⟨t, o1, []⟩ done msk ∧ outOfBag F ds t o1 = .ok o' := by
  have hl : d.nfeatures < d.cols.length := by rw [hd.1]; omega
  have htgt0 : target d = .ok d.cols[d.nfeatures].values := by
    unfold target
    rw [at?_lt hl]
    rfl
  have htgt := htgt0
  rw [← congrArg target hds.inv.data] at htgt
  obtain ⟨o1, done, msk, h1, h2⟩ := train_inv hds hrows (by rw [← (rowsOk hds hrows).len]; exact hsize) hmin htgt ht
  exact ⟨_, o1, done, msk, htgt0, h1, h2⟩

/-- Training changes nothing in the objective but the predictions, and not their number. -/
theorem train_objective (hds : Updated F cfg d rng k ds) (hrows : Active ds rows)
    (hfull : ds.exampleSampling = false → rows.length = d.nexamples) (hd : Rectangular d)
    (hsize : rows.length ≤ 2 ^ 32 - 256) (hmin : 1 ≤ cfg.minExamplesLeaf) {o : Objective} {fuel : Nat} {t : Tree}
    {o' : Objective} (ht : train F cfg ds ds.supercats o fuel = .ok (some (t, o'))) :
    o' = { o with predictions := o'.predictions } ∧ o'.predictions.length = o.predictions.length := by
  obtain ⟨targets, o1, done, msk, _, hinv, hoob⟩ := train_final hds hrows hd hsize hmin ht
  obtain ⟨hobj, _, _⟩ := outOfBag_ok hds hrows hfull hoob
  have h1 : o1 = { o with predictions := o1.predictions } := hinv.preds.obj
  refine ⟨?_, ?_⟩
  · rw [hobj]
    conv_lhs => rw [h1]
  · rw [outOfBag_length hoob, Objective.leafCalls_length hinv.preds.calls]

/-- When training and prediction agree on a row, the row gets the prediction of the new tree added. -/
theorem train_predictions_row (hds : Updated F cfg d rng k ds) (hrows : Active ds rows)
    (hfull : ds.exampleSampling = false → rows.length = d.nexamples) (hd : Rectangular d)
    (hsize : rows.length ≤ 2 ^ 32 - 256) (hmin : 1 ≤ cfg.minExamplesLeaf) {o : Objective} {fuel : Nat} {t : Tree}
    {o' : Objective} (ht : train F cfg ds ds.supercats o fuel = .ok (some (t, o')))
    {r : Nat} (hc : ∀ msk i, SplitMasks F ds t msk → rows[i]? = some r → RowAgrees ds t msk i r) (hr : r < d.nexamples) :
    ∃ x p, o.predictions[r]? = some x ∧ t.predictSingle F d r = .ok p ∧
      o'.predictions[r]? = some (F.add x p) := by
  by_cases hm : r ∈ rows
  · obtain ⟨targets, o1, done, msk, _, hinv, hoob⟩ := train_final hds hrows hd hsize hmin ht
    obtain ⟨i, hir⟩ := List.mem_iff_getElem?.1 hm
    have hp := hinv.parts
    rw [show open' ⟨t, o1, []⟩ = [] from rfl, List.append_nil] at hp
    obtain ⟨_, hact, _⟩ := outOfBag_ok hds hrows hfull hoob
    have hlen := (rowsOk hds hrows).len
    have hil : i < ds.nactiveExamples := by
      rw [← hlen]; exact (List.getElem?_eq_some_iff.1 hir).1
    obtain ⟨p, hpm, hip⟩ := List.mem_flatMap.1 (hp.perm.mem_iff.2 (List.mem_range.2 hil))
    have hleaf : IsLeaf t p.1 := (hp.leaves p.1).2 (List.mem_map.2 ⟨p, hpm, rfl⟩)
    have htr := hp.routed p hpm i hip
    obtain ⟨q, hv, hq, hx⟩ := hinv.preds.value p hpm
    obtain ⟨x, hx1, hx2⟩ := hx i hip
    have hrow : rowAt rows i = r := by
      have := rowAt_eq (rows := rows) (i := i) (by omega)
      rw [hir] at this
      exact (Option.some.inj this).symm
    rw [hrow] at hx1 hx2
    obtain ⟨j, hg⟩ := hinv.grown
    obtain ⟨v0, hv0⟩ := cell_some hd (Nat.zero_le _) hr
    have hid := predict_of_trained hg (hc _ _ hp.tests hir) (by rw [hds.inv.data]; exact hv0) htr hleaf
    rw [hds.inv.data] at hid
    refine ⟨x, .fin q, hx1, ?_, ?_⟩
    · unfold Tree.predictSingle
      rw [hid, Out.ok_bind]
      have hnv : t.nodeValue p.1 = .ok (.fin q) := by
        unfold Tree.nodeValue
        rw [show t.nodeValues[p.1]? = some (.fin q) from hv]
      rw [hnv, Out.ok_bind, Out.pure_eq, show t.shrinkage = .fin 1 from hinv.shr, show t.bias = .fin 0 from hinv.bias]
      rw [FP.add_fin, add_zero, hq, FP.mul_fin, one_mul, hq]
    · rw [hact r hm]
      exact hx2
  · exact Props.C40_out_of_bag F cfg d rng k ds hds rows hrows hfull hd hsize hmin o fuel t o' ht r hr hm

/-- When training and prediction agree on the splits, every row gets the prediction of the new tree added. -/
theorem train_predictions (hds : Updated F cfg d rng k ds) (hrows : Active ds rows)
    (hfull : ds.exampleSampling = false → rows.length = d.nexamples) (hd : Rectangular d)
    (hsize : rows.length ≤ 2 ^ 32 - 256) (hmin : 1 ≤ cfg.minExamplesLeaf) {o : Objective} {fuel : Nat} {t : Tree}
    {o' : Objective} (ht : train F cfg ds ds.supercats o fuel = .ok (some (t, o'))) (hc : Consistent F ds rows)
    {r : Nat} (hr : r < d.nexamples) :
    ∃ x p, o.predictions[r]? = some x ∧ t.predictSingle F d r = .ok p ∧
      o'.predictions[r]? = some (F.add x p) :=
  train_predictions_row hds hrows hfull hd hsize hmin ht (fun _ _ hm hir => row_agrees hc hm hir) hr

/-- Training and prediction agree on data without numerical features. -/
theorem consistent_categorical (hds : Updated F cfg d rng k ds) (hrows : Active ds rows)
    (hfull : ds.exampleSampling = false → rows.length = d.nexamples) (hd : Rectangular d)
    (hcard : ∀ c ∈ d.cols, c.card ≤ 2 ^ 24) (hnb : d.maxNbins ≤ 2 ^ 24)
    (hcat : ∀ f c, f < d.nfeatures → d.cols[f]? = some c → c.ftype ≠ .numerical ∧ ∀ v ∈ c.values, IsCategory v) :
    Consistent F ds rows := by
  refine consistent_of hds hrows hfull hd hcard hnb (fun f c hf hc _ => (hcat f c hf hc).2) ?_
  rintro f b m c ⟨⟨fs, hfs, hf⟩, _⟩ hc hn
  unfold activeFeatures at hfs
  rw [prefix_ok] at hfs
  obtain ⟨_, rfl⟩ := hfs
  exact absurd hn (hcat f c ((hds.inv.useful f).1 (List.mem_of_mem_take hf)).1 hc).1

end

/-- Training and prediction agree in exact arithmetic, without missing values in numerical features. -/
theorem consistent_exact {cfg : Config} {d : Data} {rng : Rng} {k : Nat} {ds : Dataset} {rows : List Nat}
    (hds : Updated .exact cfg d rng k ds) (hrows : Active ds rows)
    (hfull : ds.exampleSampling = false → rows.length = d.nexamples) (hd : Rectangular d)
    (hcard : ∀ c ∈ d.cols, c.card ≤ 2 ^ 24) (hnb : d.maxNbins ≤ 2 ^ 24)
    (hcat : ∀ f c, f < d.nfeatures → d.cols[f]? = some c → c.ftype ≠ .numerical → ∀ v ∈ c.values, IsCategory v)
    (hnan : ∀ f c, f < d.nfeatures → d.cols[f]? = some c → c.ftype = .numerical → Num.nan ∉ c.values) :
    Consistent .exact ds rows := by
  refine consistent_of hds hrows hfull hd hcard hnb hcat ?_
  rintro f b m c ⟨⟨fs, hfs, hf⟩, hm⟩ hc hn hsome
  have hfs' := hfs
  unfold activeFeatures at hfs'
  rw [prefix_ok] at hfs'
  obtain ⟨_, rfl⟩ := hfs'
  have hfl := ((hds.inv.useful f).1 (List.mem_of_mem_take hf)).1
  obtain ⟨s, h1, h2⟩ := Props.C35_numerical_partial cfg d rng k ds hds rows hrows hfull _ hfs f b hf m hm c hc hn hsome
  refine ⟨s, h1, fun i r v hr hv => h2 i r v hr hv ?_⟩
  rintro rfl
  refine hnan f c hfl hc hn ?_
  simp only [cell, hc, Option.bind_some] at hv
  exact List.mem_of_getElem? hv

/-- With at most 2^24 examples and a fraction of at most 1, there is a list of active rows. -/
theorem active_rows {F : FP} {cfg : Config} {d : Data} {rng : Rng} {k : Nat} {ds : Dataset}
    (hds : Updated F cfg d rng k ds) (hn : d.nexamples ≤ 2 ^ 24) (hf : cfg.exampleFraction.le (.fin 1) = true) :
    ∃ rows, Active ds rows ∧ (ds.exampleSampling = false → rows.length = d.nexamples) ∧
      rows.length ≤ 2 ^ 32 - 256 ∧ rows.Nodup ∧ ∀ r ∈ rows, r < d.nexamples := by
  obtain ⟨rows, hrows⟩ := Props.C30_examples_exist F cfg d rng k ds hds hn
  cases hs : ds.exampleSampling with
  | true =>
    obtain ⟨_, hp, hlt, _⟩ := Props.C30_examples F cfg d rng k ds hds hs rows hrows
    have hnd : rows.Nodup := hp.imp (fun h => by omega)
    have hsub : rows ⊆ List.range d.nexamples := fun r hr => List.mem_range.2 (hlt r hr)
    have hle := (hnd.subperm hsub).length_le
    rw [List.length_range] at hle
    exact ⟨rows, hrows, by simp, by omega, hnd, hlt⟩
  | false =>
    have hb := hds.inv.bag
    have hib : ds.indexBuffer = [] := by simpa [exampleSampling] using hs
    split at hb
    · rename_i hlt
      have hn0 : d.nexamples = 0 := by
        have := hb.1.length_eq
        rw [hib, List.length_range] at this
        simpa using this.symm
      have h0 : ds.nactiveExamples = 0 := by rw [hds.inv.ne, hn0, share_zero]
      have hl := (rowsOk hds hrows).len
      rw [h0] at hl
      have hr0 : rows = [] := List.eq_nil_of_length_eq_zero hl
      subst hr0
      exact ⟨[], hrows, fun _ => by rw [hn0]; rfl, by simp, List.nodup_nil, by simp⟩
    · rename_i hlt
      have h1 : cfg.exampleFraction = .fin 1 := by
        cases hq : cfg.exampleFraction with
        | fin q =>
          rw [hq] at hlt hf
          rw [Num.fin_lt_fin] at hlt
          rw [Num.fin_le_fin] at hf
          rw [le_antisymm hf (not_lt.1 hlt)]
        | pinf => rw [hq] at hf; cases hf
        | ninf => rw [hq] at hlt; exact absurd rfl hlt
        | nan => rw [hq] at hf; cases hf
      obtain ⟨_, ha⟩ := Props.C30_no_sampling F cfg d rng k ds hds h1 hn
      exact ⟨_, ha, fun _ => by simp, by simp; omega, List.nodup_range, fun r hr => List.mem_range.1 hr⟩

/-! ### Ensembles -/

namespace AdditiveTree

theorem addTrees_append {F : FP} {d : Data} : ∀ (ts : List Tree) (t : Tree) (buf : List Num),
    addTrees F d (ts ++ [t]) buf = (addTrees F d ts buf >>= fun b => t.predictAnd F d b fun p a => F.add a p)
  | [], t, buf => by
      simp only [List.nil_append, addTrees, Out.ok_bind]
      cases t.predictAnd F d buf fun p a => F.add a p <;> rfl
  | s :: ts, t, buf => by
      simp only [List.cons_append, addTrees, Out.bind_assoc]
      congr 1
      funext b
      exact addTrees_append ts t b

theorem predict_push {F : FP} {d : Data} {e : AdditiveTree} {t : Tree} {ps : List Num} (h : e.predict F d = .ok ps) :
    (e.pushTree t).predict F d = t.predictAnd F d ps fun p a => F.add a p := by
  unfold predict predictBuf at h ⊢
  unfold pushTree
  simp only
  rw [addTrees_append, h, Out.ok_bind]

end AdditiveTree

theorem predictLoop_of {F : FP} {t : Tree} {d : Data} {f : Num → Num → Num} : ∀ {buf out : List Num} {i : Nat},
    out.length = buf.length →
    (∀ j < buf.length, ∃ x p, buf[j]? = some x ∧ t.predictSingle F d (i + j) = .ok p ∧ out[j]? = some (f p x)) →
    Tree.predictLoop F t d f i buf = .ok out
  | [], out, i, hl, h => by
      have : out = [] := List.eq_nil_of_length_eq_zero hl
      subst this
      rfl
  | b :: buf, [], i, hl, h => by simp at hl
  | b :: buf, y :: out, i, hl, h => by
      obtain ⟨x, p, h1, h2, h3⟩ := h 0 (by simp)
      simp only [List.getElem?_cons_zero, Option.some.injEq, Nat.add_zero] at h1 h2 h3
      subst h1 h3
      unfold Tree.predictLoop
      rw [h2, Out.ok_bind, predictLoop_of (i := i + 1) (out := out) (by simpa using hl), Out.ok_bind, Out.pure_eq]
      intro j hj
      obtain ⟨x, p, g1, g2, g3⟩ := h (j + 1) (by simpa using hj)
      refine ⟨x, p, by simpa using g1, ?_, by simpa using g3⟩
      rw [← g2]
      congr 1
      omega

/-! ### The booster -/

namespace Booster

theorem learnTree_ok {F : FP} {cfg : Config} {ds : Dataset} {o : Objective} {r : Tree × Objective}
    (h : learnTree F cfg ds o = .ok r) :
    Learner.train F cfg ds ds.supercats o (2 ^ cfg.maxTreeDepth - 1) = .ok (some (r.1, r.2)) := by
  unfold learnTree at h
  obtain ⟨x, e, h⟩ := Out.bind_eq_ok.1 h
  cases x with
  | none => cases h
  | some p =>
    simp only [Out.pure_eq, Out.ok.injEq] at h
    subst h
    exact e

/-- The parts of an iteration. -/
theorem trainOneIter_ok {F : FP} {M : Libm} {cfg : Config} {d : Data} {metrics : List Metric} {b b' : Booster}
    (h : trainOneIter F M cfg d metrics b = .ok b') :
    ∃ targets o ds t o', Learner.target d = .ok targets ∧ b.objective.update F M targets = .ok o ∧
      b.dataset.update F cfg o.gradients o.bounds = .ok ds ∧
      Learner.train F cfg ds ds.supercats o (2 ^ cfg.maxTreeDepth - 1) = .ok (some (t, o')) ∧
      b' = { dataset := ds, objective := o', iterCount := b.iterCount + 1, ensemble := b.ensemble.pushTree t
             printed := b.printed ++ evalMetrics F M cfg metrics (b.iterCount + 1) targets o'.predictions } := by
  unfold trainOneIter at h
  obtain ⟨targets, e1, h⟩ := Out.bind_eq_ok.1 h
  obtain ⟨o, e2, h⟩ := Out.bind_eq_ok.1 h
  obtain ⟨ds, e3, h⟩ := Out.bind_eq_ok.1 h
  obtain ⟨r, e4, h⟩ := Out.bind_eq_ok.1 h
  simp only [Out.pure_eq, Out.ok.injEq] at h
  exact ⟨targets, o, ds, r.1, r.2, e1, e2, e3, learnTree_ok e4, h.symm⟩

theorem iterate_boosting {F : FP} {M : Libm} {cfg : Config} {d : Data} {rng : Rng} {metrics : List Metric}
    {o : Objective} : ∀ {n k : Nat} {b b' : Booster}, Boosting F M cfg d rng metrics o k b →
      iterate F M cfg d metrics n b = .ok b' → Boosting F M cfg d rng metrics o (k + n) b'
  | 0, k, b, b', hb, h => by
      simp only [iterate, Out.ok.injEq] at h
      subst h
      exact hb
  | n + 1, k, b, b', hb, h => by
      unfold iterate at h
      obtain ⟨b1, e, h⟩ := Out.bind_eq_ok.1 h
      have := iterate_boosting (.iter hb e) h
      rwa [show k + 1 + n = k + (n + 1) by omega] at this

theorem run_boosting {F : FP} {M : Libm} {cfg : Config} {d : Data} {rng : Rng} {metrics : List Metric}
    {o : Objective} {b : Booster} (h : run F M cfg d rng metrics o = .ok b) :
    Boosting F M cfg d rng metrics o cfg.niterations b := by
  unfold run at h
  obtain ⟨b0, e0, h⟩ := Out.bind_eq_ok.1 h
  unfold train at h
  obtain ⟨_, _, h⟩ := Out.bind_eq_ok.1 h
  obtain ⟨b1, e1, h⟩ := Out.bind_eq_ok.1 h
  have := iterate_boosting (.start e0 e1) h
  rwa [Nat.zero_add] at this

theorem new_ok {F : FP} {cfg : Config} {d : Data} {rng : Rng} {o : Objective} {b : Booster}
    (h : new F cfg d rng o = .ok b) : ∃ ds, Dataset.new F cfg d rng = .ok ds ∧
      b = { dataset := ds, objective := o, iterCount := 0, ensemble := AdditiveTree.new, printed := [] } := by
  unfold new at h
  obtain ⟨ds, e, h⟩ := Out.bind_eq_ok.1 h
  simp only [Out.pure_eq, Out.ok.injEq] at h
  exact ⟨ds, e, h.symm⟩

theorem prepare_ok {F : FP} {M : Libm} {cfg : Config} {d : Data} {b b' : Booster}
    (h : prepare F M cfg d b = .ok b') : ∃ targets o, Learner.target d = .ok targets ∧
      b.objective.init F M cfg targets = .ok o ∧
      b' = { b with objective := o, ensemble := b.ensemble.setBias o.bias } := by
  unfold prepare at h
  obtain ⟨ts, e1, h⟩ := Out.bind_eq_ok.1 h
  obtain ⟨o, e2, h⟩ := Out.bind_eq_ok.1 h
  simp only [Out.pure_eq, Out.ok.injEq] at h
  exact ⟨ts, o, e1, e2, h.symm⟩

theorem target_length {d : Data} (hd : Rectangular d) {ts : List Num} (h : Learner.target d = .ok ts) :
    ts.length = d.nexamples := by
  unfold Learner.target at h
  obtain ⟨c, e, h⟩ := Out.bind_eq_ok.1 h
  simp only [Out.pure_eq, Out.ok.injEq] at h
  subst h
  exact hd.2 c (List.mem_of_getElem? (at?_ok.1 e))

/-- What `update` keeps. -/
theorem update_same {F : FP} {M : Libm} {o o' : Objective} {ts : List Num} (h : o.update F M ts = .ok o') :
    o'.kind = o.kind ∧ o'.learningRate = o.learningRate ∧ o'.bias = o.bias ∧ o'.predictions = o.predictions ∧
      o'.predictions.length = ts.length := by
  unfold Objective.update at h
  obtain ⟨_, h1, h⟩ := Out.bind_eq_ok.1 h
  obtain ⟨_, _, h⟩ := Out.bind_eq_ok.1 h
  have hl : o.predictions.length = ts.length := by simpa using assert_ok.1 h1
  simp only at h
  cases hk : o.kind <;> rw [hk] at h <;> simp only at h
  · simp only [Out.pure_eq, Out.ok.injEq] at h; subst h; exact ⟨hk.symm ▸ rfl, rfl, rfl, rfl, hl⟩
  · simp only [Out.pure_eq, Out.ok.injEq] at h; subst h; exact ⟨hk.symm ▸ rfl, rfl, rfl, rfl, hl⟩
  · obtain ⟨q, _, h⟩ := Out.bind_eq_ok.1 h
    simp only [Out.pure_eq, Out.ok.injEq] at h; subst h; exact ⟨hk.symm ▸ rfl, rfl, rfl, rfl, hl⟩
  · simp only [Out.pure_eq, Out.ok.injEq] at h; subst h; exact ⟨hk.symm ▸ rfl, rfl, rfl, rfl, hl⟩
  · simp only [Out.pure_eq, Out.ok.injEq] at h; subst h; exact ⟨hk.symm ▸ rfl, rfl, rfl, rfl, hl⟩

theorem boosting_updated {F : FP} {M : Libm} {cfg : Config} {d : Data} {rng : Rng} {metrics : List Metric}
    {o : Objective} {k : Nat} {b : Booster} (h : Boosting F M cfg d rng metrics o k b) :
    Updated F cfg d rng k b.dataset ∧ b.iterCount = k ∧ b.ensemble.trees.length = k := by
  induction h with
  | start h0 h1 =>
    obtain ⟨ds, e, rfl⟩ := new_ok h0
    obtain ⟨ts, o1, _, _, rfl⟩ := prepare_ok h1
    exact ⟨.new e, rfl, rfl⟩
  | iter _ hs ih =>
    obtain ⟨ts, o1, ds, t, o', _, _, e3, _, rfl⟩ := trainOneIter_ok hs
    obtain ⟨i1, i2, i3⟩ := ih
    exact ⟨.update i1 e3, by simp [i2], by simp [AdditiveTree.pushTree, i3]⟩

/-- The general facts about the objective while boosting. -/
theorem boosting_objective {F : FP} {M : Libm} {cfg : Config} {d : Data} {rng : Rng} {metrics : List Metric}
    {o : Objective} {k : Nat} {b : Booster} (h : Boosting F M cfg d rng metrics o k b) (hd : Rectangular d)
    (hn : d.nexamples ≤ 2 ^ 24) (hf : cfg.exampleFraction.le (.fin 1) = true) (hmin : 1 ≤ cfg.minExamplesLeaf) :
    b.objective.kind = o.kind ∧ b.objective.learningRate = cfg.learningRate ∧
      b.ensemble.bias = b.objective.bias ∧ b.objective.predictions.length = d.nexamples := by
  induction h with
  | start h0 h1 =>
    obtain ⟨ds, e, rfl⟩ := new_ok h0
    obtain ⟨ts, o1, e1, e2, rfl⟩ := prepare_ok h1
    obtain ⟨p1, _, p3, p4⟩ := Props.C49_predictions_are_bias F M _ _ cfg ts e2
    exact ⟨p4, p3, rfl, by simp only; rw [p1, List.length_replicate, target_length hd e1]⟩
  | iter hb hs ih =>
    obtain ⟨ts, o1, ds, t, o', e1, e2, e3, e4, rfl⟩ := trainOneIter_ok hs
    obtain ⟨i1, i2, i3, i4⟩ := ih
    obtain ⟨u1, u2, u3, u4, u5⟩ := update_same e2
    have hds := Updated.update (boosting_updated hb).1 e3
    obtain ⟨rows, r1, r2, r3, _⟩ := active_rows hds hn hf
    obtain ⟨v1, v2⟩ := train_objective hds r1 r2 hd r3 hmin e4
    have w1 : o'.kind = o1.kind := by rw [v1]
    have w2 : o'.learningRate = o1.learningRate := by rw [v1]
    have w3 : o'.bias = o1.bias := by rw [v1]
    refine ⟨w1.trans (u1.trans i1), w2.trans (u2.trans i2), ?_, ?_⟩
    · simp only [AdditiveTree.pushTree]
      rw [i3, w3, u3]
    · simp only
      rw [v2, u4, i4]

/-- The running predictions are those of the ensemble as long as training and prediction agree on the splits. -/
theorem boosting_predict {F : FP} {M : Libm} {cfg : Config} {d : Data} {rng : Rng} {metrics : List Metric}
    {o : Objective} {k : Nat} {b : Booster} (h : Boosting F M cfg d rng metrics o k b) (hd : Rectangular d)
    (hn : d.nexamples ≤ 2 ^ 24) (hf : cfg.exampleFraction.le (.fin 1) = true) (hmin : 1 ≤ cfg.minExamplesLeaf)
    (hc : ∀ (j : Nat) (ds : Dataset) (rows : List Nat), Updated F cfg d rng j ds → Active ds rows →
      (ds.exampleSampling = false → rows.length = d.nexamples) → Consistent F ds rows) :
    b.ensemble.predict F d = .ok b.objective.predictions := by
  induction h with
  | start h0 h1 =>
    obtain ⟨ds, e, rfl⟩ := new_ok h0
    obtain ⟨ts, o1, e1, e2, rfl⟩ := prepare_ok h1
    exact Props.C49_empty_ensemble F M _ _ cfg d ts (target_length hd e1).symm e2
  | iter hb hs ih =>
    have hlen := (boosting_objective hb hd hn hf hmin).2.2.2
    obtain ⟨ts, o1, ds, t, o', e1, e2, e3, e4, rfl⟩ := trainOneIter_ok hs
    obtain ⟨_, _, _, u4, _⟩ := update_same e2
    have hds := Updated.update (boosting_updated hb).1 e3
    obtain ⟨rows, r1, r2, r3, _⟩ := active_rows hds hn hf
    obtain ⟨_, v2⟩ := train_objective hds r1 r2 hd r3 hmin e4
    simp only
    rw [AdditiveTree.predict_push ih]
    unfold Tree.predictAnd
    rw [assert_ok.2 (by simpa using hlen), Out.ok_bind]
    apply predictLoop_of
    · rw [v2, u4]
    · intro j hj
      rw [hlen] at hj
      obtain ⟨x, p, g1, g2, g3⟩ := train_predictions hds r1 r2 hd r3 hmin e4 (hc _ ds rows hds r1 r2) hj
      exact ⟨x, p, by rw [← u4]; exact g1, by rw [Nat.zero_add]; exact g2, g3⟩

end Booster
end BitBoost
