import Verif.Spec.Near
import Verif.Props.Boost
import Verif.Lemmas.WellTree
/-!
# Training and prediction can differ only for values next to a split value: C35, C40, C41

In `f32` arithmetic a training example and its row can go to different sides of a numerical split (`C35_rounding_refuted`).
This happens only to values that are within a few roundings of the split value; all other examples are routed, and their
running predictions computed, exactly as by the returned trees. The statements are about one row; nothing is assumed
about the others.
-/
namespace BitBoost.Props
open BitBoost Spec Dataset Learner

/-- A numerical candidate whose mask leaves out some active example, in the `f32` arithmetic of the code, for a column with
limits of magnitude at most `M` that are not too close together: if an active example with a number is on one side of the split in
training, and its row on the other side in prediction, then its value is within `M / 2^18` of the split value. -/
theorem C35_near_f32 (cfg : Config) (d : Data) (rng : Rng) (k : Nat) (ds : Dataset)
    (hds : Updated .binary32 cfg d rng k ds) (rows : List Nat) (hrows : Active ds rows)
    (hfull : ds.exampleSampling = false → rows.length = d.nexamples)
    (fs : List Nat) (hfs : ds.activeFeatures = .ok fs)
    (f b : Nat) (hf : f ∈ fs) (m : Blocks) (hm : MaskOf ds f b m) (c : Column)
    (hc : d.cols[f]? = some c) (ht : c.ftype = .numerical) (M : ℚ) (hw : WideLimits c M)
    (hsome : ∃ i r, rows[i]? = some r ∧ r < c.values.length ∧ ¬ inMask m i) :
    ∃ s, ds.getSplitValue .binary32 f b = .ok s ∧
      ∀ (i r : Nat) (v : Num), rows[i]? = some r → cell d f r = some v → v ≠ .nan →
        ¬ (inMask m i ↔ Tree.test ds.supercats (testOf c.ftype f s) v = .ok (some true)) →
        ∃ x y : ℚ, v = .fin x ∧ s = .fin y ∧ |x - y| < M / 2 ^ 18 := by
  have hi := hds.inv
  have h := mask_featOk hi hrows hfull hfs hf hm
  have hc' := hc
  rw [← hi.data] at hc
  obtain ⟨sp, qs, h1, hb, f1, f2, f3, hsp, hqs, hq, h4⟩ := mask_num h hm hc ht
  obtain ⟨l, hh, e1, e2, e3⟩ := finite_lt f1 f2 f3
  have hbq : b < qs.length := by rw [hsp] at hb; simpa using hb
  have hqb : qs[b]? = some qs[b] := List.getElem?_eq_getElem hbq
  have hq5 : qs[b] < 510 := by
    by_contra h510
    obtain ⟨i, r, hr, hlt, hnot⟩ := hsome
    refine hnot ((h4 i).2 ⟨r, _, hr, List.getElem?_eq_getElem hlt, ?_⟩)
    by_cases hn : c.values[r] = .nan
    · rw [hn, hsp, numCat_nan _ e1 e2 e3]; exact Nat.zero_le _
    · rw [hsp, agree_apart hw _ (List.getElem_mem hlt) hn _ _ _ hqs hqb (fun h => absurd h h510)]
      exact Or.inl (by omega)
  refine ⟨Binner.representative .binary32 (numBinner .binary32 c) (qs[b] + 1), ?_, ?_⟩
  · unfold getSplitValue Dataset.column
    rw [(at?_ok (l := ds.data.cols) (i := f)).2 hc]
    simp only [Out.ok_bind, ht]
    rw [(at?_ok (l := ds.splitCandidates) (i := f)).2 h1]
    simp only [Out.ok_bind]
    rw [at?_ok, hsp, List.getElem?_map, hqb]; rfl
  · intro i r v hr hv hn hdis
    obtain ⟨l', h', a1, a2, a3, a4, a5, a6, a7, a8⟩ := id hw
    obtain ⟨rr, r1, _, _, _⟩ := bounds32 a1 a2 a3 a4 a5 a6 a7
    rw [cell_eq hc'] at hv
    have hvm := List.mem_of_getElem? hv
    obtain ⟨b1, b2⟩ := a8 v hvm hn
    obtain ⟨x, rfl⟩ : ∃ x, v = .fin x := by
      rw [a1] at b1; rw [a2] at b2
      cases v with
      | fin x => exact ⟨x, rfl⟩
      | nan => exact absurd rfl hn
      | pinf => simp [Num.le] at b2
      | ninf => simp [Num.le] at b1
    refine ⟨x, _, rfl, r1 _, ?_⟩
    by_contra hge
    push Not at hge
    refine hdis ?_
    have key := agree_apart hw _ hvm hn _ _ _ hqs hqb (fun _ => ⟨x, _, rfl, r1 _, hge⟩)
    rw [← hsp] at key
    simp only [show ¬ 510 ≤ qs[b] by omega, false_or] at key
    rw [h4, ht]
    simp only [testOf, Tree.test, Out.ok.injEq, Option.some.injEq]
    rw [← key]
    constructor
    · rintro ⟨j, w, g1, g2, g3⟩
      rw [hr] at g1; cases g1
      rw [hv] at g2; cases g2
      exact g3
    · intro hle; exact ⟨r, _, hr, hv, hle⟩

/-- Training and prediction agree on an example if they agree on it for the numerical tests. -/
theorem row_agrees_of {F : FP} {cfg : Config} {d : Data} {rng : Rng} {k : Nat} {ds : Dataset} {rows : List Nat}
    (h : Updated F cfg d rng k ds) (hr : Active ds rows)
    (hfull : ds.exampleSampling = false → rows.length = d.nexamples) (hd : Rectangular d)
    (hcard : ∀ c ∈ d.cols, c.card ≤ 2 ^ 24) (hnb : d.maxNbins ≤ 2 ^ 24)
    (hcat : ∀ f c, f < d.nfeatures → d.cols[f]? = some c → c.ftype ≠ .numerical → ∀ v ∈ c.values, IsCategory v)
    {t : Tree} {msk : Nat → Blocks} (hm : SplitMasks F ds t msk) {i r : Nat} (hir : rows[i]? = some r)
    (hnum : ∀ (n : Nat) (c : SplitCrit) (b : Nat) (col : Column) (v : Num), t.splitCrits[n]? = some c → c.splitType = .numLt →
      Candidate ds c.featureId b (msk n) → d.cols[c.featureId]? = some col → col.ftype = .numerical →
      ds.getSplitValue F c.featureId b = .ok c.splitValue → cell d c.featureId r = some v →
      (∃ (i r : Nat), rows[i]? = some r ∧ r < col.values.length ∧ ¬ inMask (msk n) i) →
      (inMask (msk n) i ↔ v.lt c.splitValue = true)) :
    RowAgrees ds t msk i r := by
  intro n c hcn hct
  obtain ⟨f, b, hcand, ⟨s, col, hs, hcol, rfl⟩, hin, hout⟩ := hm n c hcn hct
  have hi := h.inv
  rw [hi.data] at hcol ⊢
  have hrm : r ∈ rows := List.mem_of_getElem? hir
  have hrl := row_lt h hr hfull hrm
  obtain ⟨⟨fs, hfs, hf⟩, hmask⟩ := id hcand
  have hfu : Useful d f := by
    have hfs' := hfs
    unfold activeFeatures at hfs'
    rw [prefix_ok] at hfs'
    obtain ⟨_, rfl⟩ := hfs'
    exact (hi.useful f).1 (List.mem_of_mem_take hf)
  obtain ⟨v, hv⟩ := cell_some hd (f := f) (by have := hfu.1; omega) hrl
  refine ⟨v, hv, ?_⟩
  have key : inMask (msk n) i ↔ Tree.test ds.supercats (testOf col.ftype f s) v = .ok (some true) := by
    by_cases hn : col.ftype = .numerical
    · obtain ⟨i', hi', hnot⟩ := hout
      have hlen : rows.length = ds.nactiveExamples := (rowsOk h hr).len
      have hir' : rows[i']? = some (rowAt rows i') := rowAt_eq (by omega)
      have hvl : col.values.length = d.nexamples := hd.2 _ (List.mem_of_getElem? hcol)
      have := hnum n _ b col v hcn (by simp [testOf, hn]) hcand hcol hn hs hv
        ⟨i', _, hir', by rw [hvl]; exact row_lt h hr hfull (List.mem_of_getElem? hir'), hnot⟩
      rw [this, hn]
      simp only [testOf, Tree.test, Out.ok.injEq, Option.some.injEq]
    · obtain ⟨s', hs', hall⟩ := C35_categorical F cfg d rng k ds h rows hr hfull fs hfs f b hf (msk n) hmask col hcol hn
        (hcat f col hfu.1 hcol hn) (cand_small h hcard hnb hcol hcand)
      rw [hs] at hs'
      cases hs'
      exact hall i r v hir hv
  have htot : ∃ l, Tree.test ds.supercats (testOf col.ftype f s) v = .ok (some l) := by
    cases ht : col.ftype with
    | loCardCat => simp only [testOf, Tree.test]; exact ⟨_, rfl⟩
    | numerical => simp only [testOf, Tree.test]; exact ⟨_, rfl⟩
    | hiCardCat =>
      obtain ⟨_, sc, hsc, _⟩ := C31_hicard F cfg d rng k ds h rows hr hfull fs hfs f b hf (msk n) hmask col hcol ht
      simp only [testOf, Tree.test, hsc]
      exact ⟨_, rfl⟩
  obtain ⟨l, hl⟩ := htot
  refine ⟨l, hl, ?_⟩
  rw [key]
  show l = true ↔ Tree.test ds.supercats (testOf col.ftype f s) v = .ok (some true)
  rw [hl]
  simp

/-- A row that is clear of the split values of the tree is routed like its example. -/
theorem row_agrees_f32 {cfg : Config} {d : Data} {rng : Rng} {k : Nat} {ds : Dataset} {rows : List Nat}
    (h : Updated .binary32 cfg d rng k ds) (hr : Active ds rows)
    (hfull : ds.exampleSampling = false → rows.length = d.nexamples) (hd : Rectangular d)
    (hcard : ∀ c ∈ d.cols, c.card ≤ 2 ^ 24) (hnb : d.maxNbins ≤ 2 ^ 24)
    (hcat : ∀ f c, f < d.nfeatures → d.cols[f]? = some c → c.ftype ≠ .numerical → ∀ v ∈ c.values, IsCategory v)
    {t : Tree} {msk : Nat → Blocks} (hm : SplitMasks .binary32 ds t msk) {i r : Nat} (hir : rows[i]? = some r)
    (hclear : ClearRow d t r) : RowAgrees ds t msk i r := by
  refine row_agrees_of h hr hfull hd hcard hnb hcat hm hir ?_
  rintro n c b col v hcn hct ⟨⟨fs, hfs, hf⟩, hmask⟩ hcol hn hs hv hsome
  have hv' := hv
  rw [cell_eq hcol] at hv'
  obtain ⟨hnn, hcl⟩ := hclear n c hcn hct col v hcol hv'
  have hlt : ∀ s', (Tree.test ds.supercats (testOf .numerical c.featureId s') v = .ok (some true)) ↔ v.lt s' = true := by
    intro s'; simp only [testOf, Tree.test, Out.ok.injEq, Option.some.injEq]
  rcases hcl with hfix | ⟨M, hw, hap⟩
  · obtain ⟨s', h1, h2⟩ :=
      C35_numerical_f32_partial cfg d rng k ds h rows hr hfull fs hfs _ b hf _ hmask col hcol hn (Or.inl hfix) hsome
    rw [hs] at h1
    cases h1
    have := h2 i r v hir hv hnn
    rwa [hn, hlt] at this
  · obtain ⟨s', h1, h2⟩ :=
      C35_near_f32 cfg d rng k ds h rows hr hfull fs hfs _ b hf _ hmask col hcol hn M hw hsome
    rw [hs] at h1
    cases h1
    have h3 := h2 i r v hir hv hnn
    rw [hn, hlt] at h3
    by_contra hne
    obtain ⟨x, y, rfl, e2, h4⟩ := h3 hne
    obtain ⟨x', y', e3, e4, h5⟩ := hap
    cases e3
    rw [e2] at e4
    cases e4
    linarith

/-- With the `f32` arithmetic of the code: an active example whose row is clear of the split values of the trained tree is in the
leaf that prediction finds for its row. Nothing is assumed about the numerical values of the other rows. -/
theorem C40_near_f32 (cfg : Config) (d : Data) (rng : Rng) (k : Nat) (ds : Dataset)
    (hds : Updated .binary32 cfg d rng k ds) (rows : List Nat) (hrows : Active ds rows)
    (hfull : ds.exampleSampling = false → rows.length = d.nexamples) (hd : Rectangular d)
    (hsize : rows.length ≤ 2 ^ 32 - 256) (hmin : 1 ≤ cfg.minExamplesLeaf)
    (o : Objective) (fuel : Nat) (t : Tree) (o' : Objective)
    (ht : train .binary32 cfg ds ds.supercats o fuel = .ok (some (t, o')))
    (hcard : ∀ c ∈ d.cols, c.card ≤ 2 ^ 24) (hnb : d.maxNbins ≤ 2 ^ 24)
    (hcat : ∀ f c, f < d.nfeatures → d.cols[f]? = some c → c.ftype ≠ .numerical → ∀ v ∈ c.values, IsCategory v) :
    ∃ msk, SplitMasks .binary32 ds t msk ∧ ∀ (i r : Nat), rows[i]? = some r → ClearRow d t r →
      ∃ n, IsLeaf t n ∧ TrainedTo t msk i n ∧
        (∀ n', IsLeaf t n' → TrainedTo t msk i n' → n' = n) ∧ t.predictLeafId d r = .ok n := by
  obtain ⟨msk, hm, hall⟩ := C40_one_leaf .binary32 cfg d rng k ds hds rows hrows hfull hd hsize hmin o fuel t o' ht
  obtain ⟨targets, o1, done, msk', _, hinv, _⟩ := train_final hds hrows hd hsize hmin ht
  obtain ⟨j, hg⟩ := hinv.grown
  refine ⟨msk, hm, fun i r hir hcl => ?_⟩
  obtain ⟨n, v, x, h1, h2, h3, _⟩ := hall i r hir
  obtain ⟨v0, hv0⟩ := cell_some hd (Nat.zero_le _) (row_lt hds hrows hfull (List.mem_of_getElem? hir))
  refine ⟨n, h1, h2, h3, ?_⟩
  have := predict_of_trained hg (row_agrees_f32 hds hrows hfull hd hcard hnb hcat hm hir hcl)
    (by rw [hds.inv.data]; exact hv0) h2 h1
  rwa [hds.inv.data] at this

private theorem loop_get {F : FP} {t : Tree} {d : Data} {f : Num → Num → Num} : ∀ {buf out : List Num} {i : Nat},
    Tree.predictLoop F t d f i buf = .ok out → ∀ (j : Nat) (x p : Num), buf[j]? = some x →
      t.predictSingle F d (i + j) = .ok p → out[j]? = some (f p x)
  | [], out, i, h, j, x, p, h1, h2 => by simp at h1
  | b :: buf, out, i, h, j, x, p, h1, h2 => by
      unfold Tree.predictLoop at h
      obtain ⟨q, e1, h⟩ := Out.bind_eq_ok.1 h
      obtain ⟨rest, e2, h⟩ := Out.bind_eq_ok.1 h
      simp only [Out.pure_eq, Out.ok.injEq] at h
      subst h
      cases j with
      | zero =>
        simp only [List.getElem?_cons_zero, Option.some.injEq, Nat.add_zero] at h1 h2 ⊢
        subst h1
        rw [e1] at h2
        cases h2
        rfl
      | succ j =>
        simp only [List.getElem?_cons_succ] at h1 ⊢
        exact loop_get e2 j x p h1 (by rw [← h2]; congr 1; omega)

/-- The running prediction of one row is that of the ensemble as long as training and prediction agree on the row. -/
theorem boosting_predict_row {F : FP} {M : Libm} {cfg : Config} {d : Data} {rng : Rng} {metrics : List Metric}
    {o : Objective} {k : Nat} {b : Booster} (h : Boosting F M cfg d rng metrics o k b) (hd : Rectangular d)
    (hnf : 0 < d.nfeatures)
    (hn : d.nexamples ≤ 2 ^ 24) (hf : cfg.exampleFraction.le (.fin 1) = true) (hmin : 1 ≤ cfg.minExamplesLeaf)
    {r : Nat} (hr : r < d.nexamples)
    (hc : ∀ t ∈ b.ensemble.trees, ∀ (j : Nat) (ds : Dataset) (rows : List Nat), Updated F cfg d rng j ds → Active ds rows →
      (ds.exampleSampling = false → rows.length = d.nexamples) → ∀ msk i, SplitMasks F ds t msk → rows[i]? = some r →
        RowAgrees ds t msk i r) :
    ∃ ps, b.ensemble.predict F d = .ok ps ∧ ps[r]? = b.objective.predictions[r]? := by
  induction h with
  | start h0 h1 =>
    obtain ⟨ds, e, rfl⟩ := Booster.new_ok h0
    obtain ⟨ts, o1, e1, e2, rfl⟩ := Booster.prepare_ok h1
    exact ⟨_, C49_empty_ensemble F M _ _ cfg d ts (Booster.target_length hd e1).symm e2, rfl⟩
  | iter hb hs ih =>
    have hw := Booster.boosting_well hnf (Boosting.iter hb hs)
    have hlen := (Booster.boosting_objective hb hd hn hf hmin).2.2.2
    obtain ⟨ts, o1, ds, t, o', e1, e2, e3, e4, rfl⟩ := Booster.trainOneIter_ok hs
    obtain ⟨_, _, _, u4, _⟩ := Booster.update_same e2
    have hds := Updated.update (Booster.boosting_updated hb).1 e3
    obtain ⟨rows, r1, r2, r3, _⟩ := active_rows hds hn hf
    simp only [AdditiveTree.pushTree, List.mem_append, List.mem_singleton] at hc
    obtain ⟨ps, i1, i2⟩ := ih fun t ht => hc t (Or.inl ht)
    obtain ⟨out, ho, _⟩ := AdditiveTree.predict_well F hw hd rfl
    obtain ⟨x, p, g1, g2, g3⟩ := train_predictions_row hds r1 r2 hd r3 hmin e4
      (fun msk i hm hir => hc t (Or.inr rfl) _ ds rows hds r1 r2 msk i hm hir) hr
    refine ⟨out, ho, ?_⟩
    simp only at ho ⊢
    rw [AdditiveTree.predict_push i1] at ho
    unfold Tree.predictAnd at ho
    obtain ⟨_, _, ho⟩ := Out.bind_eq_ok.1 ho
    rw [g3]
    exact loop_get ho r x p (by rw [i2, ← u4]; exact g1) (by rw [Nat.zero_add]; exact g2)

/-- With the `f32` arithmetic of the code: after any number of iterations the running prediction of a row that is clear of the
split values of all the trees so far is exactly what the ensemble predicts for it. Nothing is assumed about the numerical
values of the other rows. -/
theorem C41_near_f32 (M : Libm) (cfg : Config) (d : Data) (rng : Rng) (metrics : List Metric) (o : Objective)
    (k : Nat) (b : Booster) (hb : Boosting .binary32 M cfg d rng metrics o k b) (hd : Rectangular d)
    (hnf : 0 < d.nfeatures) (hn : d.nexamples ≤ 2 ^ 24) (hf : cfg.exampleFraction.le (.fin 1) = true)
    (hmin : 1 ≤ cfg.minExamplesLeaf) (hcard : ∀ c ∈ d.cols, c.card ≤ 2 ^ 24) (hnb : d.maxNbins ≤ 2 ^ 24)
    (hcat : ∀ f c, f < d.nfeatures → d.cols[f]? = some c → c.ftype ≠ .numerical → ∀ v ∈ c.values, IsCategory v)
    (r : Nat) (hr : r < d.nexamples) (hclear : ∀ t ∈ b.ensemble.trees, ClearRow d t r) :
    ∃ ps, b.ensemble.predict .binary32 d = .ok ps ∧ ps[r]? = b.objective.predictions[r]? :=
  boosting_predict_row hb hd hnf hn hf hmin hr fun t ht _ _ _ h1 h2 h3 _ _ hm hir =>
    row_agrees_f32 h1 h2 h3 hd hcard hnb hcat hm hir (hclear t ht)

/-- In exact arithmetic: after any number of iterations the running prediction of a row that has a number (not NaN) wherever the
trees test a numerical feature is exactly what the ensemble predicts for it, also when other rows have missing values. (Missing: `f32`
arithmetic, see `C41_near_f32`.) -/
theorem C41_row_exact_partial (M : Libm) (cfg : Config) (d : Data) (rng : Rng) (metrics : List Metric) (o : Objective)
    (k : Nat) (b : Booster) (hb : Boosting .exact M cfg d rng metrics o k b) (hd : Rectangular d)
    (hnf : 0 < d.nfeatures) (hn : d.nexamples ≤ 2 ^ 24) (hf : cfg.exampleFraction.le (.fin 1) = true)
    (hmin : 1 ≤ cfg.minExamplesLeaf) (hcard : ∀ c ∈ d.cols, c.card ≤ 2 ^ 24) (hnb : d.maxNbins ≤ 2 ^ 24)
    (hcat : ∀ f c, f < d.nfeatures → d.cols[f]? = some c → c.ftype ≠ .numerical → ∀ v ∈ c.values, IsCategory v)
    (r : Nat) (hr : r < d.nexamples)
    (hnan : ∀ t ∈ b.ensemble.trees, ∀ (n : Nat) (c : SplitCrit), t.splitCrits[n]? = some c → c.splitType = .numLt →
      cell d c.featureId r ≠ some .nan) :
    ∃ ps, b.ensemble.predict .exact d = .ok ps ∧ ps[r]? = b.objective.predictions[r]? := by
  refine boosting_predict_row hb hd hnf hn hf hmin hr fun t ht j ds rows h1 h2 h3 msk i hm hir => ?_
  refine row_agrees_of h1 h2 h3 hd hcard hnb hcat hm hir ?_
  rintro n c b' col v hcn hct ⟨⟨fs, hfs, hf⟩, hmask⟩ hcol hnum hs hv hsome
  obtain ⟨s', g1, g2⟩ :=
    C35_numerical_partial cfg d rng j ds h1 rows h2 h3 fs hfs _ b' hf _ hmask col hcol hnum hsome
  rw [hs] at g1
  cases g1
  have hnn : v ≠ .nan := by rintro rfl; exact hnan t ht n c hcn hct hv
  have := g2 i r v hir hv hnn
  rw [hnum] at this
  simpa only [testOf, Tree.test, Out.ok.injEq, Option.some.injEq] using this

/-! ## Example -/

private def nearCfg : Config := { Config.new with maxNbins := 1, maxTreeDepth := 2, niterations := 1 }
private def nearCol : Column :=
  ⟨[.fin 0, .fin (5 / 2), .fin (3 + 1 / 2 ^ 22), .fin (512 + 1 / 2 ^ 14)], .fin 0, .fin (512 + 1 / 2 ^ 14), .numerical, 0⟩
private def nearData : Data :=
  ⟨1, [], 1, 4, [nearCol, ⟨[.fin 0, .fin (-1), .fin 0, .fin 0], .fin (-1), .fin 0, .numerical, 0⟩]⟩

private theorem nearWide : WideLimits nearCol 1024 := by
  refine ⟨0, 512 + 1 / 2 ^ 14, rfl, rfl, by norm_num, by norm_num [abs_le], by norm_num, by norm_num, by norm_num, ?_⟩
  unfold Bounded nearCol
  intro v hv _
  simp only [List.mem_cons, List.not_mem_nil, or_false] at hv
  rcases hv with rfl | rfl | rfl | rfl <;> simp only [Num.fin_le_fin] <;> norm_num

/-- The run of `C41_rounding_refuted`, in which row 2 is sent to different leaves: the tree has one split, at 3 + 2^-21. The other
three rows are clear of it; for them the theorems apply. Row 2, with the value 3 + 2^-22, is not. -/
example : ∃ b, Booster.run .binary32 runLibm nearCfg nearData ⟨fun _ => 2⟩ [] (Objective.new .l2) = .ok b ∧
    Boosting .binary32 runLibm nearCfg nearData ⟨fun _ => 2⟩ [] (Objective.new .l2) 1 b ∧
    (∀ t ∈ b.ensemble.trees, ClearRow nearData t 0 ∧ ClearRow nearData t 1 ∧ ClearRow nearData t 3) ∧
    (∃ t ∈ b.ensemble.trees, ¬ ClearRow nearData t 2) := by
  obtain ⟨b, h1, h2⟩ := boosted_check (F := .binary32) (cfg := nearCfg) (d := nearData) (rng := ⟨fun _ => 2⟩)
    (metrics := []) (o := Objective.new .l2)
    (fun b => decide (b.ensemble.trees.map (fun t => t.splitCrits.filter fun c => !c.isNone) =
      [[⟨.numLt, 0, .fin (3 + 1 / 2 ^ 21)⟩]])) (by decide +kernel)
  simp only [decide_eq_true_eq] at h2
  have key : ∀ t ∈ b.ensemble.trees, ∀ (n : Nat) (c : SplitCrit), t.splitCrits[n]? = some c → c.splitType = .numLt →
      c = ⟨.numLt, 0, .fin (3 + 1 / 2 ^ 21)⟩ := by
    intro t ht n c hc hn
    have h3 : (t.splitCrits.filter fun c => !c.isNone) ∈ [[(⟨.numLt, 0, .fin (3 + 1 / 2 ^ 21)⟩ : SplitCrit)]] := by
      rw [← h2]; exact List.mem_map.2 ⟨t, ht, rfl⟩
    rw [List.mem_singleton] at h3
    have h4 : c ∈ t.splitCrits.filter fun c => !c.isNone :=
      List.mem_filter.2 ⟨List.mem_of_getElem? hc, by simp [SplitCrit.isNone, hn]⟩
    rw [h3] at h4
    simpa using h4
  have clear : ∀ (r : Nat) (x : ℚ), nearCol.values[r]? = some (.fin x) → 1 / 2 ^ 8 ≤ |x - (3 + 1 / 2 ^ 21)| →
      ∀ t ∈ b.ensemble.trees, ClearRow nearData t r := by
    intro r x hx hd t ht n c hc hn col v hcol hv
    obtain rfl := key t ht n c hc hn
    cases hcol
    rw [hx] at hv
    cases hv
    exact ⟨by simp, Or.inr ⟨1024, nearWide, x, _, rfl, rfl, by norm_num at hd ⊢; exact hd⟩⟩
  refine ⟨b, h1, Booster.run_boosting h1, fun t ht => ⟨clear 0 0 rfl ?_ t ht, clear 1 (5 / 2) rfl ?_ t ht,
    clear 3 (512 + 1 / 2 ^ 14) rfl ?_ t ht⟩, ?_⟩
  · norm_num [abs_of_neg]
  · norm_num [abs_of_neg]
  · norm_num [abs_of_pos]
  · cases ht : b.ensemble.trees with
    | nil => rw [ht] at h2; cases h2
    | cons t ts =>
      rw [ht] at h2
      simp only [List.map_cons, List.cons.injEq] at h2
      refine ⟨t, by simp, fun hcl => ?_⟩
      have hm : (⟨.numLt, 0, .fin (3 + 1 / 2 ^ 21)⟩ : SplitCrit) ∈ t.splitCrits.filter fun c => !c.isNone := by
        rw [h2.1]; simp
      obtain ⟨n, hn⟩ := List.mem_iff_getElem?.1 (List.mem_filter.1 hm).1
      obtain ⟨_, h5 | ⟨M, h5, x, y, e1, e2, h6⟩⟩ := hcl n _ hn rfl nearCol (.fin (3 + 1 / 2 ^ 22)) rfl rfl
      · obtain ⟨e, _, _, h7⟩ := h5
        obtain ⟨k', hk', h9⟩ := h7 (.fin (3 + 1 / 2 ^ 22)) (by simp [nearCol]) (by simp)
        obtain ⟨k3, hk3, h10⟩ := h7 (.fin (512 + 1 / 2 ^ 14)) (by simp [nearCol]) (by simp)
        simp only [Num.fin.injEq] at h9 h10
        -- the ratio of the two numbers has a denominator that is too large
        have hp : (2 : ℚ) ^ e ≠ 0 := by positivity
        have h11 : (k' : ℚ) * (512 + 1 / 2 ^ 14) = k3 * (3 + 1 / 2 ^ 22) := by
          rw [h9, h10]; ring
        have h12 : k' * (512 * 2 ^ 22 + 2 ^ 8) = k3 * (3 * 2 ^ 22 + 1) := by
          have : ((k' * (512 * 2 ^ 22 + 2 ^ 8) : ℤ) : ℚ) = ((k3 * (3 * 2 ^ 22 + 1) : ℤ) : ℚ) := by
            push_cast; linarith
          exact_mod_cast this
        have hk0 : k3 ≠ 0 := by
          rintro rfl
          norm_num at h10
        have h13 : (512 * 2 ^ 22 + 2 ^ 8 : ℤ) ∣ k3 := by
          have hco : IsCoprime (512 * 2 ^ 22 + 2 ^ 8 : ℤ) (3 * 2 ^ 22 + 1) := by
            rw [Int.isCoprime_iff_gcd_eq_one]
            decide +kernel
          exact hco.dvd_of_dvd_mul_right ⟨k', by linarith⟩
        have := Int.le_of_dvd (abs_pos.2 hk0) ((dvd_abs _ _).2 h13)
        norm_num at this hk3
        omega
      · cases e1
        cases e2
        obtain ⟨l, h, w1, w2, w3, w4, _, _, w7, _⟩ := h5
        cases w1
        cases w2
        have : 512 ≤ M := le_trans (by norm_num [abs_of_pos]) w4
        norm_num [abs_of_neg] at h6
        linarith

private def gapData : Data :=
  ⟨1, [], 1, 5, [⟨[.fin 0, .fin 1, .nan, .fin 7, .fin 9], .fin 0, .fin 9, .numerical, 0⟩,
    ⟨[.fin 0, .fin 0, .fin 1, .fin 1, .fin 1], .fin 0, .fin 1, .numerical, 0⟩]⟩

/-- `C41_row_exact_partial`: row 2 has no value; the tree tests the column; the theorem applies to the other rows. -/
example : ∃ b, Boosting .exact runLibm nearCfg gapData ⟨fun _ => 2⟩ [] (Objective.new .l2) 1 b ∧
    (b.ensemble.trees.map fun t => (t.splitCrits.filter fun c => !c.isNone).length) = [1] ∧
    ∀ r ∈ [0, 1, 3, 4], ∀ t ∈ b.ensemble.trees, ∀ (n : Nat) (c : SplitCrit), t.splitCrits[n]? = some c →
      c.splitType = .numLt → cell gapData c.featureId r ≠ some .nan := by
  obtain ⟨b, h1, h2⟩ := boosted_check (F := .exact) (cfg := nearCfg) (d := gapData) (rng := ⟨fun _ => 2⟩)
    (metrics := []) (o := Objective.new .l2)
    (fun b => decide ((b.ensemble.trees.map fun t => (t.splitCrits.filter fun c => !c.isNone).length) = [1]) &&
      decide (∀ t ∈ b.ensemble.trees, ∀ c ∈ t.splitCrits, c.splitType = .numLt → c.featureId = 0)) (by decide +kernel)
  simp only [Bool.and_eq_true, decide_eq_true_eq] at h2
  refine ⟨b, Booster.run_boosting h1, h2.1, fun r hr t ht n c hc hn => ?_⟩
  rw [h2.2 t ht c (List.mem_of_getElem? hc) hn]
  simp only [List.mem_cons, List.not_mem_nil, or_false] at hr
  rcases hr with rfl | rfl | rfl | rfl <;> decide +kernel

end BitBoost.Props
