import Verif.Lemmas.Constant
import Verif.Props.Units
import Verif.Props.Data
import Verif.Lemmas.CApi
import Verif.Props.Training
/-!
# C78: a column that holds one value only plays no role

A feature whose recorded limits are equal is never tested by a tree (`C78_untested`); training with and without it gives the
same model, but for the numbers of the features (`C78_without`, `C78_predictions`), and it does not matter which value it holds
(`C78_value`). This holds with any rounding, any objective, any sampling. A column read from CSV with equal values is such
a feature (`C78_csv`). There must be another feature with more than one value: if there is none, the value matters
(`C78_alone_refuted`). Through the C API the limits are those of the values and 0 (C28), so a column of equal values other than 0
can change the model when features are sampled (`C78_c_api_refuted`); a column of zeros cannot (`C78_c_api`). But however the
data was loaded, no tree tests a feature that has the same value in all rows (`C78_two_values`, `C78_untested_values`).
-/
namespace BitBoost.Props
open Spec Objective Learner

/-- With and without a column of one value, whatever the rounding, the objective, the metrics, the settings and the random
numbers: training succeeds for both or for none, and then the models have the same trees, up to the numbers of the
features, and the same bias, and the running predictions and the printed metrics are the same. -/
theorem C78_without (F : FP) (M : Libm) (cfg : Config) (d d' : Data) (k : Nat) (rng : Rng) (metrics : List Metric) (o : Objective)
    (hr : Rectangular d) (hw : WithoutColumn k d d') (hk : OneValue k d) (ho : OtherFeature k d) :
    (∀ b, Booster.run F M cfg d rng metrics o = .ok b → ∃ b', Booster.run F M cfg d' rng metrics o = .ok b' ∧
      List.Forall₂ (TreeWith k) b.ensemble.trees b'.ensemble.trees ∧ b'.ensemble.bias = b.ensemble.bias ∧
      b'.objective = b.objective ∧ b'.printed = b.printed) ∧
    (∀ b', Booster.run F M cfg d' rng metrics o = .ok b' → ∃ b, Booster.run F M cfg d rng metrics o = .ok b ∧
      List.Forall₂ (TreeWith k) b.ensemble.trees b'.ensemble.trees ∧ b'.ensemble.bias = b.ensemble.bias ∧
      b'.objective = b.objective ∧ b'.printed = b.printed) := by
  have h := run_dropped (F := F) (M := M) (cfg := cfg) (metrics := metrics) ⟨hw, hr, ho⟩ hk rng o
  constructor
  · intro b e
    rw [e] at h
    generalize Booster.run F M cfg d' rng metrics o = y at h ⊢
    cases h with
    | ok h => exact ⟨_, rfl, h.trees, h.bias, h.obj, h.printed⟩
  · intro b' e
    rw [e] at h
    generalize Booster.run F M cfg d rng metrics o = y at h ⊢
    cases h with
    | ok h => exact ⟨_, rfl, h.trees, h.bias, h.obj, h.printed⟩

theorem forall₂_mem {α β : Type} {R : α → β → Prop} {l : List α} {l' : List β} (h : List.Forall₂ R l l') {x : α} (hx : x ∈ l) :
    ∃ y, R x y := by
  induction h with
  | nil => cases hx
  | cons h _ ih =>
    rcases List.mem_cons.1 hx with rfl | hx
    · exact ⟨_, h⟩
    · exact ih hx

/-- No tree tests the column: every test is about another feature. -/
theorem C78_untested (F : FP) (M : Libm) (cfg : Config) (d d' : Data) (k : Nat) (rng : Rng) (metrics : List Metric) (o : Objective)
    (hr : Rectangular d) (hw : WithoutColumn k d d') (hk : OneValue k d) (ho : OtherFeature k d) (b : Booster)
    (hb : Booster.run F M cfg d rng metrics o = .ok b) :
    ∀ t ∈ b.ensemble.trees, ∀ c ∈ t.splitCrits, c.splitType ≠ .noSplit → c.featureId ≠ k := by
  obtain ⟨b', _, h, _⟩ := (C78_without F M cfg d d' k rng metrics o hr hw hk ho).1 b hb
  intro t ht c hc hs
  obtain ⟨t', htt⟩ := forall₂_mem h ht
  rw [htt.crits] at hc
  obtain ⟨c', _, rfl⟩ := List.mem_map.1 hc
  have hn : c'.isNone = false := by
    by_contra hcon
    have hcon' : c'.isNone = true := by simpa using hcon
    apply hs
    unfold critWith
    rw [if_pos hcon']
    simpa [SplitCrit.isNone] using hcon'
  rw [critWith_id hn]
  exact skip_ne k _

/-- The two models make the same predictions, for any data, seen in training or not, with any values in column `k`. -/
theorem C78_predictions (F : FP) (M : Libm) (cfg : Config) (d d' : Data) (k : Nat) (rng : Rng) (metrics : List Metric) (o : Objective)
    (hr : Rectangular d) (hw : WithoutColumn k d d') (hk : OneValue k d) (ho : OtherFeature k d) (b b' : Booster)
    (hb : Booster.run F M cfg d rng metrics o = .ok b) (hb' : Booster.run F M cfg d' rng metrics o = .ok b')
    (other other' : Data) (hor : Rectangular other) (how : WithoutColumn k other other') :
    b'.ensemble.predict F other' = b.ensemble.predict F other := by
  obtain ⟨b2, e, h1, h2, _⟩ := (C78_without F M cfg d d' k rng metrics o hr hw hk ho).1 b hb
  rw [hb'] at e
  cases e
  unfold AdditiveTree.predict AdditiveTree.predictBuf
  rw [how.nexamples, h2]
  exact addTrees_dropped how hor h1 _

theorem treeWith_eq {k : Nat} {t1 t2 t' : Tree} (h1 : TreeWith k t1 t') (h2 : TreeWith k t2 t')
    (hl : t1.supercats.length = t2.supercats.length) : t1 = t2 := by
  have hs : t1.supercats = t2.supercats := by
    refine List.ext_getElem? fun f => ?_
    by_cases hf : f = k
    · subst hf
      have e1 := h1.unused
      have e2 := h2.unused
      by_cases hlt : f < t1.supercats.length
      · rw [List.getElem?_eq_getElem hlt] at e1 ⊢
        rw [List.getElem?_eq_getElem (by omega)] at e2 ⊢
        simp only [Option.getD_some] at e1 e2
        rw [e1, e2]
      · rw [List.getElem?_eq_none (by omega), List.getElem?_eq_none (by omega)]
    · obtain ⟨g, rfl⟩ := skip_onto hf
      rw [← erase_get, ← erase_get, ← h1.supercats, ← h2.supercats]
  obtain ⟨c1, v1, n1, m1, s1, b1, _, _, _⟩ := h1
  obtain ⟨c2, v2, n2, m2, s2, b2, _, _, _⟩ := h2
  cases t1
  cases t2
  simp only at c1 v1 n1 m1 s1 b1 c2 v2 n2 m2 s2 b2 hs
  rw [c1, v1, n1, m1, s1, b1, c2, v2, n2, m2, s2, b2, hs]

/-- Which value the column holds does not matter: if two data sets differ in column `k` only, and each has one value there,
then the models are the same, and so are the running predictions and the printed metrics. -/
theorem C78_value (F : FP) (M : Libm) (cfg : Config) (d1 d2 : Data) (k : Nat) (rng : Rng) (metrics : List Metric) (o : Objective)
    (hr1 : Rectangular d1) (hr2 : Rectangular d2) (hk1 : OneValue k d1) (hk2 : OneValue k d2) (ho : OtherFeature k d1)
    (hf : k < d1.nfeatures) (hsame : d2.maxNbins = d1.maxNbins ∧ d2.nfeatures = d1.nfeatures ∧ d2.nexamples = d1.nexamples)
    (hcols : ∀ f, f ≠ k → d2.cols[f]? = d1.cols[f]?) (b1 : Booster) (hb : Booster.run F M cfg d1 rng metrics o = .ok b1) :
    ∃ b2, Booster.run F M cfg d2 rng metrics o = .ok b2 ∧ b2.ensemble = b1.ensemble ∧ b2.objective = b1.objective ∧
      b2.printed = b1.printed := by
  obtain ⟨s1, s2, s3⟩ := hsame
  let d' : Data := { d1 with nfeatures := d1.nfeatures - 1, cols := d1.cols.eraseIdx k }
  have w1 : WithoutColumn k d1 d' := ⟨rfl, rfl, hf, rfl, rfl⟩
  have w2 : WithoutColumn k d2 d' := by
    refine ⟨s1.symm, s3.symm, by omega, by rw [s2], List.ext_getElem? fun f => ?_⟩
    exact (erase_get d1.cols f).trans ((hcols _ (skip_ne k f)).symm.trans (erase_get d2.cols f).symm)
  have ho2 : OtherFeature k d2 := by
    obtain ⟨f, c, h1, h2, h3, h4, h5⟩ := ho
    exact ⟨f, c, h1, by omega, by rw [hcols f h1]; exact h3, h4, by rw [s1]; exact h5⟩
  have h1 := run_dropped (F := F) (M := M) (cfg := cfg) (metrics := metrics) ⟨w1, hr1, ho⟩ hk1 rng o
  have h2 := run_dropped (F := F) (M := M) (cfg := cfg) (metrics := metrics) ⟨w2, hr2, ho2⟩ hk2 rng o
  rw [hb] at h1
  generalize e : Booster.run F M cfg d' rng metrics o = y at h1 h2
  cases h1 with
  | @ok _ b' h1 =>
    generalize e2 : Booster.run F M cfg d2 rng metrics o = z at h2 ⊢
    cases h2 with
    | @ok b2 _ h2 =>
      refine ⟨b2, rfl, ?_, h2.obj.symm.trans h1.obj, h2.printed.symm.trans h1.printed⟩
      have hlen1 := fun t ht => (Booster.boosting_well (by omega) (Booster.run_boosting hb) t ht).sup
      have hlen2 := fun t ht => (Booster.boosting_well (by omega) (Booster.run_boosting e2) t ht).sup
      have ht : b2.ensemble.trees = b1.ensemble.trees := by
        have : ∀ {l1 l2 l' : List Tree}, List.Forall₂ (TreeWith k) l1 l' → List.Forall₂ (TreeWith k) l2 l' →
            (∀ t ∈ l1, t.supercats.length = d1.nfeatures) → (∀ t ∈ l2, t.supercats.length = d1.nfeatures) → l2 = l1 := by
          intro l1 l2 l' g1
          induction g1 generalizing l2 with
          | nil => intro g2 _ _; cases g2; rfl
          | @cons a a' l1 l' ga _ ih =>
            intro g2 q1 q2
            cases g2 with
            | @cons c _ l2 _ gc g2 =>
              rw [treeWith_eq gc ga (by rw [q1 a (by simp), q2 c (by simp)]),
                ih g2 (fun t ht => q1 t (by simp [ht])) (fun t ht => q2 t (by simp [ht]))]
        exact this h1.trees h2.trees hlen1 (by rw [← s2]; exact hlen2)
      have hbias : b2.ensemble.bias = b1.ensemble.bias := h2.bias.symm.trans h1.bias
      cases hx : b2.ensemble
      cases hy : b1.ensemble
      rw [hx, hy] at ht hbias
      simp only at ht hbias
      rw [ht, hbias]

/-- A column read from CSV whose values are all the same (and not NaN) has one value. -/
theorem C78_csv (cfg : Config) (items : List Data.CsvItem) (header : Option (List String)) (d : Data)
    (hd : Data.fromCsv cfg items header = .ok (.ok d)) (k : Nat) (c : Column) (hc : d.cols[k]? = some c) (x : Num) (hx : x ≠ .nan)
    (hv : ∀ v ∈ c.values, v = x) : OneValue k d := by
  obtain ⟨hk, rfl⟩ := List.getElem?_eq_some_iff.1 hc
  obtain ⟨first, rest, _, _, _, _, _, h7⟩ := C27_values cfg items header d hd
  have hlim := C27_limits cfg items header d hd d.cols[k] (List.getElem_mem hk)
  have hne : ∃ v ∈ d.cols[k].values, v ≠ .nan := by
    have := congrArg List.length (h7 k hk)
    cases hl : d.cols[k].values with
    | nil => rw [hl] at this; simp at this
    | cons v vs => exact ⟨v, by simp, by rw [hv v (by rw [hl]; simp)]; exact hx⟩
  obtain ⟨h1, h2⟩ := hlim.2 hne
  refine ⟨_, hc, ?_⟩
  rw [hv _ h1, hv _ h2]
  cases x with
  | nan => exact absurd rfl hx
  | fin q => simp [Num.eqb]
  | pinf => rfl
  | ninf => rfl

/-- Whether an active example is in a mask depends on the value of the feature in its row only. -/
private theorem mask_same {F : FP} {cfg : Config} {d : Data} {rng : Rng} {k : Nat} {ds : Dataset} (hds : Updated F cfg d rng k ds)
    {rows : List Nat} (hrows : Active ds rows) (hfull : ds.exampleSampling = false → rows.length = d.nexamples)
    {fs : List Nat} (hfs : ds.activeFeatures = .ok fs) {f b : Nat} (hf : f ∈ fs) {m : Blocks} (hm : MaskOf ds f b m)
    {c : Column} (hc : ds.data.cols[f]? = some c) {i i' r r' : Nat} (hr : rows[i]? = some r) (hr' : rows[i']? = some r')
    (hv : c.values[r]? = c.values[r']?) (h1 : inMask m i) : inMask m i' := by
  have hok := Dataset.mask_featOk hds.inv hrows hfull hfs hf hm
  cases ht : c.ftype with
  | loCardCat =>
    have h := Dataset.mask_locard hok hm hc ht
    obtain ⟨j, v, a1, a2, a3⟩ := (h i).1 h1
    rw [hr] at a1; cases a1
    exact (h i').2 ⟨r', v, hr', by rw [← hv]; exact a2, a3⟩
  | hiCardCat =>
    obtain ⟨_, sc, _, _, _, h⟩ := Dataset.mask_hicard hok hm hc ht
    obtain ⟨j, v, s, a1, a2, a3⟩ := (h i).1 h1
    rw [hr] at a1; cases a1
    exact (h i').2 ⟨r', v, s, hr', by rw [← hv]; exact a2, a3⟩
  | numerical =>
    obtain ⟨_, _, _, _, _, _, _, _, _, _, h⟩ := Dataset.mask_num hok hm hc ht
    obtain ⟨j, v, a1, a2, a3⟩ := (h i).1 h1
    rw [hr] at a1; cases a1
    exact (h i').2 ⟨r', v, hr', by rw [← hv]; exact a2, a3⟩

/-- However the data was loaded, if `min_examples_leaf` is at least 1: a tree tests only features that take different values in
the rows it is trained on. (`ds` is any data set reached from `d` by updates, `rows` its active rows.) -/
theorem C78_two_values (F : FP) (cfg : Config) (d : Data) (rng : Rng) (k : Nat) (ds : Dataset) (hds : Updated F cfg d rng k ds)
    (rows : List Nat) (hrows : Active ds rows) (hfull : ds.exampleSampling = false → rows.length = d.nexamples)
    (hd : Rectangular d) (hsize : rows.length ≤ 2 ^ 32 - 256) (hmin : 1 ≤ cfg.minExamplesLeaf) (o : Objective) (fuel : Nat)
    (t : Tree) (o' : Objective) (ht : train F cfg ds ds.supercats o fuel = .ok (some (t, o')))
    (c : SplitCrit) (hc : c ∈ t.splitCrits) (hs : c.splitType ≠ .noSplit) :
    ∃ r ∈ rows, ∃ r' ∈ rows, cell d c.featureId r ≠ cell d c.featureId r' := by
  obtain ⟨msk, hm, _⟩ := C58_leaf_size F cfg d rng k ds hds rows hrows hd hsize hmin o fuel t o' ht
  obtain ⟨n, hn⟩ := List.mem_iff_getElem?.1 hc
  obtain ⟨f, b, ⟨⟨fs, hfs, hf⟩, hmask⟩, ⟨s, col, _, hcol, rfl⟩, ⟨i, hi, h1⟩, i', hi', h2⟩ := hm n c hn hs
  have hlen := (rowsOk hds hrows).len
  have e1 : rows[i]? = some rows[i] := List.getElem?_eq_getElem (by omega)
  have e2 : rows[i']? = some rows[i'] := List.getElem?_eq_getElem (by omega)
  refine ⟨rows[i], List.getElem_mem _, rows[i'], List.getElem_mem _, fun hv => h2 ?_⟩
  refine mask_same hds hrows hfull hfs hf hmask hcol e1 e2 ?_ h1
  rw [hds.inv.data] at hcol
  simpa only [testOf, cell, hcol, Option.bind_some] using hv

/-- So no tree of a model tests a feature that has the same value in all rows, whatever its recorded limits. -/
theorem C78_untested_values (F : FP) (M : Libm) (cfg : Config) (d : Data) (rng : Rng) (metrics : List Metric) (o : Objective)
    (hd : Rectangular d) (hn : d.nexamples ≤ 2 ^ 24) (hfrac : cfg.exampleFraction.le (.fin 1) = true)
    (hmin : 1 ≤ cfg.minExamplesLeaf) (b : Booster)
    (hb : Booster.run F M cfg d rng metrics o = .ok b) (k : Nat) (col : Column) (hk : d.cols[k]? = some col) (x : Num)
    (hx : ∀ v ∈ col.values, v = x) : ∀ t ∈ b.ensemble.trees, ∀ c ∈ t.splitCrits, c.splitType ≠ .noSplit → c.featureId ≠ k := by
  have key : ∀ {n : Nat} {b : Booster}, Boosting F M cfg d rng metrics o n b →
      ∀ t ∈ b.ensemble.trees, ∀ c ∈ t.splitCrits, c.splitType ≠ .noSplit → c.featureId ≠ k := by
    intro n b h
    induction h with
    | start h0 h1 =>
      obtain ⟨ds, e, rfl⟩ := Booster.new_ok h0
      obtain ⟨ts, o1, _, _, rfl⟩ := Booster.prepare_ok h1
      intro t ht
      cases ht
    | iter hb hs ih =>
      obtain ⟨ts, o1, ds, t, o', _, _, e3, e4, rfl⟩ := Booster.trainOneIter_ok hs
      have hu := Updated.update (Booster.boosting_updated hb).1 e3
      intro t' ht'
      simp only [AdditiveTree.pushTree] at ht'
      rcases List.mem_append.1 ht' with h1 | h1
      · exact ih t' h1
      · rw [List.mem_singleton] at h1
        subst h1
        intro c hc hs hck
        obtain ⟨rows, hrows, hfull, hsize, _, hlt⟩ := active_rows hu hn hfrac
        obtain ⟨r, hr, r', hr', hne⟩ := C78_two_values F cfg d rng _ ds hu rows hrows hfull hd hsize hmin o1 _ t' o' e4 c hc hs
        apply hne
        have hcell : ∀ r ∈ rows, cell d c.featureId r = some x := by
          intro r hr
          have hlen := hd.2 col (List.mem_of_getElem? hk)
          have hrl : r < col.values.length := by rw [hlen]; exact hlt r hr
          simp only [hck, cell, hk, Option.bind_some]
          rw [List.getElem?_eq_getElem hrl, hx _ (List.getElem_mem hrl)]
        rw [hcell r hr, hcell r' hr']
  exact key (Booster.run_boosting hb)

private theorem setLoop_zero (cat : Bool) : ∀ (vs : List Num) (i : Nat) (c : Column), (∀ v ∈ vs, v = .fin 0) → c.lo = .fin 0 →
    c.hi = .fin 0 → (Data.setLoop cat vs i c).1.lo = .fin 0 ∧ (Data.setLoop cat vs i c).1.hi = .fin 0
  | [], i, c, _, h1, h2 => ⟨h1, h2⟩
  | v :: vs, i, c, h, h1, h2 => by
      have hv := h v (by simp)
      subst hv
      unfold Data.setLoop
      obtain ⟨_, e2, e3, _⟩ := addStats_spec cat { c with values := c.values.set i (.fin 0) } (.fin 0)
      cases hs : Data.addStats cat { c with values := c.values.set i (.fin 0) } (.fin 0) with
      | mk c' b =>
        rw [hs] at e2 e3
        simp only [h1, h2] at e2 e3
        have l1 : c'.lo = .fin 0 := by rw [e2]; rfl
        have l2 : c'.hi = .fin 0 := by rw [e3]; rfl
        cases b
        · exact ⟨l1, l2⟩
        · exact setLoop_zero cat vs (i + 1) c' (fun v hv => h v (by simp [hv])) l1 l2

/-- Through the C API, after any calls (also failed ones) of which those for column `k` handed over zeros only, column `k` has
one value. -/
theorem C78_c_api (cfg : Config) (nfeatures nexamples : Nat) (calls : List SetCall) (k : Nat) (hk : k ≤ nfeatures)
    (h0 : ∀ c ∈ calls, c.feat = k → ∀ v ∈ c.data, v = .fin 0) : OneValue k (history cfg nfeatures nexamples calls) := by
  have key : ∀ (calls : List SetCall) (d : Data), (∀ c ∈ calls, c.feat = k → ∀ v ∈ c.data, v = .fin 0) →
      (∃ c, d.cols[k]? = some c ∧ c.lo = .fin 0 ∧ c.hi = .fin 0) →
      ∃ c, (calls.foldl applySet d).cols[k]? = some c ∧ c.lo = .fin 0 ∧ c.hi = .fin 0 := by
    intro calls
    induction calls with
    | nil => intro d _ h; exact h
    | cons a calls ih =>
      rintro d h ⟨c, hc, l1, l2⟩
      refine ih _ (fun c hc => h c (by simp [hc])) ?_
      rcases applySet_cases d a with e | ⟨col, _, col', e, e1, _, _, b, _, _, e2⟩
      · rw [e]; exact ⟨c, hc, l1, l2⟩
      · rw [e]
        by_cases hak : a.feat = k
        · rw [hak] at e1 ⊢
          rw [hc] at e1
          cases e1
          have hlt := (List.getElem?_eq_some_iff.1 hc).1
          refine ⟨col', by simp [hlt], ?_⟩
          obtain ⟨g1, g2⟩ := setLoop_zero a.categorical a.data 0 c (h a (by simp) hak) l1 l2
          rw [e2]
          split_ifs <;> exact ⟨g1, g2⟩
        · exact ⟨c, by rw [List.getElem?_set_ne hak]; exact hc, l1, l2⟩
  obtain ⟨c, hc, l1, l2⟩ := key calls (Data.empty cfg nfeatures nexamples) h0
    ⟨_, by rw [Data.empty, List.getElem?_replicate, if_pos (by omega)], rfl, rfl⟩
  exact ⟨c, hc, by rw [l1, l2]; rfl⟩

/-- And if a column has one value after some calls, every value in it is 0 or missing. -/
theorem C78_c_api_only (cfg : Config) (nfeatures nexamples : Nat) (calls : List SetCall) (k : Nat) (c : Column)
    (hc : (history cfg nfeatures nexamples calls).cols[k]? = some c) (h : OneValue k (history cfg nfeatures nexamples calls)) :
    ∀ v ∈ c.values, v = .fin 0 ∨ v = .nan := by
  obtain ⟨c', hc', he⟩ := h
  rw [hc] at hc'
  cases hc'
  obtain ⟨z1, z2⟩ := C28_limits_include_zero_partial cfg nfeatures nexamples calls c (List.mem_of_getElem? hc)
  have hb := C28_limits_bound_partial cfg nfeatures nexamples calls c (List.mem_of_getElem? hc)
  intro v hv
  by_cases hn : v = .nan
  · exact .inr hn
  obtain ⟨b1, b2⟩ := hb v hv hn
  left
  generalize c.lo = lo at *
  generalize c.hi = hi at *
  cases lo <;> cases hi <;> simp [Num.eqb, Num.le] at he z1 z2
  rename_i a b
  subst he
  have : a = 0 := le_antisymm z1 z2
  subst this
  cases v <;> simp [Num.le] at b1 b2 hn ⊢
  exact le_antisymm b2 b1

/-! ## What is false -/

private def aloneData (x : ℚ) (n : Nat) : Data :=
  ⟨4, [], 1, 4, [⟨[.fin x, .fin x, .fin x, .fin x], .fin x, .fin x, .loCardCat, n⟩,
    ⟨[.fin 0, .fin 4, .fin 5, .fin 1], .fin 0, .fin 5, .numerical, 0⟩]⟩

private def oneCfg : Config :=
  { Config.new with maxNbins := 4, maxTreeDepth := 2, niterations := 1, learningRate := .fin 1, metricFrequency := 1
                    discrNbits := 2, featureFraction := .fin (1 / 2) }

/-- If there is no other feature, the value matters: on the CSV records `0,0`, `0,4`, `0,5`, `0,1` (the first column is
categorical) training panics, on `1,0`, `1,4`, `1,5`, `1,1` it succeeds. -/
theorem C78_alone_refuted : ∃ (cfg : Config) (d1 d2 : Data) (rng : Rng),
    Data.fromCsv { cfg with categoricalFeatures := [0], csvHasHeader := false }
      [.record [some (.fin 0), some (.fin 0)], .record [some (.fin 0), some (.fin 4)], .record [some (.fin 0), some (.fin 5)],
       .record [some (.fin 0), some (.fin 1)]] none = .ok (.ok d1) ∧
    Data.fromCsv { cfg with categoricalFeatures := [0], csvHasHeader := false }
      [.record [some (.fin 1), some (.fin 0)], .record [some (.fin 1), some (.fin 4)], .record [some (.fin 1), some (.fin 5)],
       .record [some (.fin 1), some (.fin 1)]] none = .ok (.ok d2) ∧
    OneValue 0 d1 ∧ OneValue 0 d2 ∧
    Booster.run .binary32 runLibm cfg d1 rng [] (Objective.new .l2) = .panic ∧
    ∃ b, Booster.run .binary32 runLibm cfg d2 rng [] (Objective.new .l2) = .ok b := by
  obtain ⟨b, h1, _⟩ := boosted_check (F := .binary32) (cfg := oneCfg) (d := { aloneData 1 2 with names := ["", ""] })
    (rng := ⟨fun i => i⟩) (metrics := []) (o := Objective.new .l2) (fun _ => true) (by decide +kernel)
  refine ⟨oneCfg, { aloneData 0 1 with names := ["", ""] }, { aloneData 1 2 with names := ["", ""] }, ⟨fun i => i⟩,
    by decide +kernel, by decide +kernel, ⟨_, rfl, by decide +kernel⟩, ⟨_, rfl, by decide +kernel⟩, ?_, b, h1⟩
  have : (match Booster.run .binary32 runLibm oneCfg { aloneData 0 1 with names := ["", ""] } ⟨fun i => i⟩ []
      (Objective.new .l2) with | .panic => true | _ => false) = true := by decide +kernel
  cases e : Booster.run .binary32 runLibm oneCfg { aloneData 0 1 with names := ["", ""] } ⟨fun i => i⟩ [] (Objective.new .l2) with
  | panic => rfl
  | ub => rw [e] at this; cases this
  | ok b => rw [e] at this; cases this

private def capiOne (calls : List (Nat × List Num × Bool)) (n : Nat) : Data :=
  match setAll calls (Data.empty oneCfg n 4) with
  | .ok (d, _) => d
  | _ => Data.empty oneCfg n 4

private def capiOne2 : Data :=
  capiOne [(0, [.fin 7, .fin 7, .fin 7, .fin 7], false), (1, [.fin 0, .fin 1, .fin 1, .fin 0], false),
    (2, [.fin 0, .fin 4, .fin 5, .fin 1], false)] 2

private def capiOne1 : Data :=
  capiOne [(0, [.fin 0, .fin 1, .fin 1, .fin 0], false), (1, [.fin 0, .fin 4, .fin 5, .fin 1], false)] 1

/-- Through the C API a column of equal values is a feature like any other: with half of the features in each sample, a tree
learned with and without a column of sevens predicts different values for the same rows. -/
theorem C78_c_api_refuted : ∃ (cfg : Config) (d d' : Data) (rng : Rng) (b b' : Booster),
    setAll [(0, [.fin 7, .fin 7, .fin 7, .fin 7], false), (1, [.fin 0, .fin 1, .fin 1, .fin 0], false),
      (2, [.fin 0, .fin 4, .fin 5, .fin 1], false)] (Data.empty cfg 2 4) = .ok (d, true) ∧
    setAll [(0, [.fin 0, .fin 1, .fin 1, .fin 0], false), (1, [.fin 0, .fin 4, .fin 5, .fin 1], false)]
      (Data.empty cfg 1 4) = .ok (d', true) ∧
    WithoutColumn 0 d d' ∧
    Booster.run .binary32 runLibm cfg d rng [] (Objective.new .l2) = .ok b ∧
    Booster.run .binary32 runLibm cfg d' rng [] (Objective.new .l2) = .ok b' ∧
    b.ensemble.predict .binary32 d = .ok [.fin (5 / 2), .fin (5 / 2), .fin (5 / 2), .fin (5 / 2)] ∧
    b'.ensemble.predict .binary32 d' = .ok [.fin (1 / 2), .fin (9 / 2), .fin (9 / 2), .fin (1 / 2)] := by
  obtain ⟨b, h1, h2⟩ := boosted_check (F := .binary32) (cfg := oneCfg)
    (d := capiOne2) (rng := ⟨fun _ => 0⟩)
    (metrics := []) (o := Objective.new .l2)
    (fun b => decide (b.ensemble.predict .binary32 capiOne2 =
        .ok [.fin (5 / 2), .fin (5 / 2), .fin (5 / 2), .fin (5 / 2)])) (by decide +kernel)
  obtain ⟨b', g1, g2⟩ := boosted_check (F := .binary32) (cfg := oneCfg)
    (d := capiOne1)
    (rng := ⟨fun _ => 0⟩) (metrics := []) (o := Objective.new .l2)
    (fun b => decide (b.ensemble.predict .binary32 capiOne1 =
        .ok [.fin (1 / 2), .fin (9 / 2), .fin (9 / 2), .fin (1 / 2)])) (by decide +kernel)
  simp only [decide_eq_true_eq] at h2 g2
  refine ⟨oneCfg, capiOne2, capiOne1, _, b, b', by decide +kernel, by decide +kernel, ⟨rfl, rfl, by decide +kernel, rfl, by decide +kernel⟩,
    h1, g1, h2, g2⟩

/-! ## Examples -/

private def constFull (x : ℚ) : Data :=
  ⟨4, [], 3, 4,
    [⟨[.fin 0, .fin 1, .fin 1, .fin 0], .fin 0, .fin 1, .numerical, 0⟩,
     ⟨[.fin x, .fin x, .fin x, .fin x], .fin x, .fin x, .numerical, 0⟩,
     ⟨[.fin 0, .fin 0, .fin 1, .fin 1], .fin 0, .fin 1, .loCardCat, 2⟩,
     ⟨[.fin 0, .fin 4, .fin 5, .fin 1], .fin 0, .fin 5, .numerical, 0⟩]⟩

private def constDrop : Data :=
  ⟨4, [], 2, 4,
    [⟨[.fin 0, .fin 1, .fin 1, .fin 0], .fin 0, .fin 1, .numerical, 0⟩,
     ⟨[.fin 0, .fin 0, .fin 1, .fin 1], .fin 0, .fin 1, .loCardCat, 2⟩,
     ⟨[.fin 0, .fin 4, .fin 5, .fin 1], .fin 0, .fin 5, .numerical, 0⟩]⟩

/-- C78_without, C78_untested, C78_predictions, C78_value: three features, the second one is constant; the tree tests the first
and the third. -/
example (x : ℚ) : Rectangular (constFull x) ∧ WithoutColumn 1 (constFull x) constDrop ∧ OneValue 1 (constFull x) ∧ OtherFeature 1 (constFull x) ∧
    (∀ f, f ≠ 1 → (constFull 7).cols[f]? = (constFull 3).cols[f]?) ∧
    ∃ b, Booster.run .binary32 runLibm { oneCfg with featureFraction := .fin 1 } (constFull 3) ⟨fun i => i⟩ [.l2] (Objective.new .l2) =
      .ok b ∧ b.ensemble.trees.map (fun t : Tree => (t.splitCrits.take 2)) =
        [[⟨.numLt, 0, .fin (1 / 512)⟩, ⟨.loCardCatEq, 2, .fin 0⟩]] := by
  refine ⟨⟨rfl, fun c hc => ?_⟩, ⟨rfl, rfl, by simp [constFull], rfl, rfl⟩, ⟨_, rfl, by simp [Num.eqb]⟩,
    ⟨0, _, by decide, by simp [constFull], rfl, by simp [Num.eqb], by simp [constFull, Data.colMaxNbins]⟩, fun f hf => ?_, ?_⟩
  · simp only [constFull, List.mem_cons, List.not_mem_nil, or_false] at hc
    rcases hc with rfl | rfl | rfl | rfl <;> rfl
  · rcases f with _ | _ | f
    · rfl
    · exact absurd rfl hf
    · rfl
  · obtain ⟨b, h1, h2⟩ := boosted_check (F := .binary32) (cfg := { oneCfg with featureFraction := .fin 1 }) (d := constFull 3)
      (rng := ⟨fun i => i⟩) (metrics := [.l2]) (o := Objective.new .l2)
      (fun b => decide (b.ensemble.trees.map (fun t : Tree => (t.splitCrits.take 2)) =
        [[⟨.numLt, 0, Num.fin (1 / 512)⟩, ⟨.loCardCatEq, 2, Num.fin 0⟩]])) (by decide +kernel)
    exact ⟨b, h1, of_decide_eq_true h2⟩

/-- C78_untested_values (and C78_two_values): a column of sevens handed over through the C API, with limits 0 and 7; the tree
tests the other feature. -/
example : Rectangular capiOne2 ∧ capiOne2.cols[0]?.map (fun c => (c.values, c.lo, c.hi)) =
      some ([.fin 7, .fin 7, .fin 7, .fin 7], .fin 0, .fin 7) ∧ 1 ≤ oneCfg.minExamplesLeaf ∧
    ∃ b, Booster.run .binary32 runLibm { oneCfg with featureFraction := .fin 1 } capiOne2 ⟨fun i => i⟩ [.l2] (Objective.new .l2) =
      .ok b ∧ b.ensemble.trees.map (fun t : Tree => t.splitCrits.head?) = [some ⟨.numLt, 1, .fin (1 / 512)⟩] := by
  refine ⟨⟨by decide +kernel, by decide +kernel⟩, by decide +kernel, by decide, ?_⟩
  obtain ⟨b, h1, h2⟩ := boosted_check (F := .binary32) (cfg := { oneCfg with featureFraction := .fin 1 }) (d := capiOne2)
    (rng := ⟨fun i => i⟩) (metrics := [.l2]) (o := Objective.new .l2)
    (fun b => decide (b.ensemble.trees.map (fun t : Tree => t.splitCrits.head?) =
      [some ⟨.numLt, 1, Num.fin (1 / 512)⟩])) (by decide +kernel)
  exact ⟨b, h1, of_decide_eq_true h2⟩

/-- C78_c_api: a column of zeros that is set twice, once in vain, between other calls. -/
example : ∀ c ∈ [SetCall.mk 0 [.fin 0, .fin 0] false, ⟨1, [.fin 3, .fin 4], false⟩, ⟨0, [.fin 0], false⟩, ⟨0, [.fin 0, .fin 0], true⟩],
    c.feat = 0 → ∀ v ∈ c.data, v = .fin 0 := by decide +kernel

end BitBoost.Props
