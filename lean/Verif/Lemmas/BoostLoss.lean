import Verif.Lemmas.Boost
import Verif.Props.Objective
/-! Helper lemmas: boosting with squared loss. -/
namespace BitBoost
open Spec Dataset Learner

theorem column_of_finite : ∀ (l : List Num), (∀ x ∈ l, ∃ q, x = .fin q) → ∃ qs, l = Spec.column qs
  | [], _ => ⟨[], rfl⟩
  | x :: l, h => by
      obtain ⟨q, rfl⟩ := h x (by simp)
      obtain ⟨qs, hqs⟩ := column_of_finite l (fun y hy => h y (by simp [hy]))
      exact ⟨q :: qs, by rw [hqs]; rfl⟩

theorem column_length (qs : List ℚ) : (Spec.column qs).length = qs.length := by simp [Spec.column]

/-- Prediction ends in a leaf. -/
theorem predictLeafId_leaf {t : Tree} {d : Data} {i n : Nat} (h : t.predictLeafId d i = .ok n) : IsLeaf t n := by
  obtain ⟨q, _, hq, rfl, c, v, hc, hn, _⟩ := leafFrom_ok [] (by intro k b hk; simp at hk) h
  constructor
  · have key : ∀ k ≤ q.length, IsNode t (nodeAt (q.take k)) := by
      intro k
      induction k with
      | zero => intro _; exact .root
      | succ k ih =>
        intro hk
        obtain ⟨c, v, h1, h2, h3⟩ := hq k q[k] (List.getElem?_eq_getElem (by omega))
        have hs : IsSplit t (nodeAt (q.take k)) := by
          refine ⟨c, h1, ?_⟩
          intro hno
          unfold Tree.test at h3
          rw [hno] at h3
          cases h3
        have hrec := ih (by omega)
        rw [List.take_succ_eq_append_getElem (by omega)]
        have e : nodeAt (q.take k ++ [q[k]]) = if q[k] then 2 * nodeAt (q.take k) + 1 else 2 * nodeAt (q.take k) + 2 := by
          simp only [nodeAt, List.foldl_append, List.foldl_cons, List.foldl_nil]
        rw [e]
        split
        · exact .left hrec hs
        · exact .right hrec hs
    have := key q.length le_rfl
    rwa [List.take_length] at this
  · rintro ⟨c', h1, h2⟩
    rw [hc] at h1
    cases h1
    exact h2 hn

section
variable {F : FP} {cfg : Config} {d : Data} {rng : Rng} {k : Nat} {ds : Dataset} {rows : List Nat}

/-- The calls of the objective while a tree is trained, and the predictions after them. -/
theorem train_calls (hds : Updated F cfg d rng k ds) (hrows : Active ds rows)
    (hfull : ds.exampleSampling = false → rows.length = d.nexamples) (hd : Rectangular d)
    (hsize : rows.length ≤ 2 ^ 32 - 256) (hmin : 1 ≤ cfg.minExamplesLeaf) {o : Objective} {fuel : Nat} {t : Tree}
    {o' : Objective} (ht : train F cfg ds ds.supercats o fuel = .ok (some (t, o'))) :
    ∃ targets leaves o1, target d = .ok targets ∧ leaves.flatten.Perm rows ∧ LeafCalls F targets o leaves o1 ∧
      (∀ r, r ∉ rows → o1.predictions[r]? = o.predictions[r]?) ∧
      (∀ r ∈ rows, o'.predictions[r]? = o1.predictions[r]?) ∧
      ∀ r < d.nexamples, r ∉ rows → ∃ x q, o.predictions[r]? = some x ∧ o'.predictions[r]? = some (F.add x q) ∧
        ∃ v, q = F.mul (.fin 1) (F.add (.fin v) (.fin 0)) := by
  obtain ⟨targets, o1, done, msk, htgt, hinv, hoob⟩ := train_final hds hrows hd hsize hmin ht
  have hp := hinv.parts
  rw [show open' ⟨t, o1, []⟩ = [] from rfl, List.append_nil] at hp
  obtain ⟨hobj, hact, hout⟩ := outOfBag_ok hds hrows hfull hoob
  have hlen := (rowsOk hds hrows).len
  refine ⟨targets, _, o1, htgt, ?_, hinv.preds.calls, hinv.preds.others, hact, ?_⟩
  · have h1 : (done.map fun p => p.2.map (rowAt rows)).flatten = (done.flatMap Prod.snd).map (rowAt rows) := by
      rw [List.map_flatMap, List.flatMap_def]
    rw [h1]
    refine (hp.perm.map (rowAt rows)).trans ?_
    have : (List.range ds.nactiveExamples).map (rowAt rows) = rows := by
      apply List.ext_getElem?
      intro i
      rw [List.getElem?_map]
      by_cases hi : i < rows.length
      · rw [List.getElem?_range (by omega), rowAt_eq hi]; rfl
      · rw [List.getElem?_eq_none (by rw [List.length_range]; omega), List.getElem?_eq_none (by omega)]; rfl
    rw [this]
  · intro r hr hna
    obtain ⟨x, p, h1, h2, h3⟩ := hout r hr hna
    refine ⟨x, p, by rw [← h1]; exact (hinv.preds.others r hna).symm, h3, ?_⟩
    unfold Tree.predictSingle at h2
    obtain ⟨n, e1, h2⟩ := Out.bind_eq_ok.1 h2
    obtain ⟨v, e2, h2⟩ := Out.bind_eq_ok.1 h2
    rw [show t.shrinkage = .fin 1 from hinv.shr, show t.bias = .fin 0 from hinv.bias] at h2
    simp only [Out.pure_eq, Out.ok.injEq] at h2
    obtain ⟨p', hp', hpe⟩ := List.mem_map.1 ((hp.leaves n).1 (predictLeafId_leaf e1))
    obtain ⟨q, hq, _⟩ := hinv.preds.value p' hp'
    rw [hpe] at hq
    unfold Tree.nodeValue at e2
    rw [show t.nodeValues[n]? = some (.fin q) from hq] at e2
    simp only [Out.ok.injEq] at e2
    exact ⟨q, by rw [← h2, ← e2]⟩

end

/-- The squared error of some rows. -/
theorem sqErr_split (ts ps : List ℚ) (h : ts.length = ps.length) (rows : List Nat) (hnd : rows.Nodup)
    (hlt : ∀ r ∈ rows, r < ts.length) :
    sqErr ts ps = (rows.map fun i => (at' ts i - at' ps i) ^ 2).sum +
      ∑ i ∈ Finset.range ts.length \ rows.toFinset, (at' ts i - at' ps i) ^ 2 := by
  unfold sqErr
  rw [Props.zip_sum _ _ _ h, Props.list_sum _ _ hnd, add_comm]
  refine (Finset.sum_sdiff ?_).symm
  intro i hi
  simp only [List.mem_toFinset] at hi
  simpa using hlt i hi

/-- One tree with squared loss in exact arithmetic. -/
theorem train_l2 {cfg : Config} {d : Data} {rng : Rng} {k : Nat} {ds : Dataset} {rows : List Nat}
    (hds : Updated .exact cfg d rng k ds) (hrows : Active ds rows)
    (hfull : ds.exampleSampling = false → rows.length = d.nexamples) (hd : Rectangular d)
    (hsize : rows.length ≤ 2 ^ 32 - 256) (hmin : 1 ≤ cfg.minExamplesLeaf) {o : Objective} {fuel : Nat} {t : Tree}
    {o' : Objective} (ht : train .exact cfg ds ds.supercats o fuel = .ok (some (t, o')))
    (hnd : rows.Nodup) (hlt : ∀ r ∈ rows, r < d.nexamples) {ts ps : List ℚ} {r : ℚ}
    (htgt : target d = .ok (Spec.column ts)) (hk : o.kind = .l2) (hr : o.learningRate = .fin r) (h0 : 0 ≤ r) (h2 : r ≤ 2)
    (hp : o.predictions = Spec.column ps) (hl : ps.length = d.nexamples) (hlt' : ts.length = d.nexamples) :
    ∃ ps', o'.predictions = Spec.column ps' ∧ ps'.length = d.nexamples ∧
      (rows.map fun i => (at' ts i - at' ps' i) ^ 2).sum ≤ (rows.map fun i => (at' ts i - at' ps i) ^ 2).sum := by
  obtain ⟨targets, leaves, o1, e1, hperm, hcalls, hoth, hact, hout⟩ := train_calls hds hrows hfull hd hsize hmin ht
  rw [htgt] at e1
  cases e1
  obtain ⟨_, hlen'⟩ := train_objective hds hrows hfull hd hsize hmin ht
  have hfl := hperm.nodup_iff.2 hnd
  obtain ⟨ps1, f1, f2, f3⟩ := Props.C47_no_increase (Spec.column ts) o o1 leaves hcalls ts ps r rfl hk hr h0 h2 hp (by omega)
    (fun l hl => ⟨(List.nodup_flatten.1 hfl).1 l hl, fun i hi => by
      rw [hlt']; exact hlt i (hperm.mem_iff.1 (List.mem_flatten.2 ⟨l, hl, hi⟩))⟩)
  have hfin : ∀ x ∈ o'.predictions, ∃ q, x = .fin q := by
    intro x hx
    obtain ⟨i, hi⟩ := List.mem_iff_getElem?.1 hx
    have hil : i < d.nexamples := by
      have := (List.getElem?_eq_some_iff.1 hi).1
      rw [hlen', hp, column_length, hl] at this
      exact this
    by_cases hm : i ∈ rows
    · rw [hact i hm, f1, Props.column_get ps1 (by omega)] at hi
      exact ⟨_, (Option.some.inj hi).symm⟩
    · obtain ⟨x0, q, g1, g2, v, g3⟩ := hout i hil hm
      rw [hp, Props.column_get ps (by omega)] at g1
      cases g1
      rw [g2] at hi
      cases hi
      rw [g3]
      exact ⟨_, rfl⟩
  obtain ⟨ps', hps'⟩ := column_of_finite _ hfin
  have hl' : ps'.length = d.nexamples := by
    rw [← hl, ← column_length ps', ← hps', hlen', hp, column_length]
  refine ⟨ps', hps', hl', ?_⟩
  have s1 := sqErr_split ts ps (by omega) rows hnd (fun r h => by rw [hlt']; exact hlt r h)
  have s2 := sqErr_split ts ps1 (by omega) rows hnd (fun r h => by rw [hlt']; exact hlt r h)
  have s3 : ∑ i ∈ Finset.range ts.length \ rows.toFinset, (at' ts i - at' ps1 i) ^ 2 =
      ∑ i ∈ Finset.range ts.length \ rows.toFinset, (at' ts i - at' ps i) ^ 2 := by
    apply Finset.sum_congr rfl
    intro i hi
    simp only [Finset.mem_sdiff, Finset.mem_range, List.mem_toFinset] at hi
    have := hoth i hi.2
    rw [f1, hp, Props.column_get ps1 (by omega), Props.column_get ps (by omega)] at this
    simp only [Option.some.injEq, Num.fin.injEq] at this
    rw [this]
  have s4 : (rows.map fun i => (at' ts i - at' ps' i) ^ 2) = rows.map fun i => (at' ts i - at' ps1 i) ^ 2 := by
    apply List.map_congr_left
    intro i hi
    have hlti := hlt i hi
    have := hact i hi
    rw [f1, hps', Props.column_get ps' (by omega), Props.column_get ps1 (by omega)] at this
    simp only [Option.some.injEq, Num.fin.injEq] at this
    rw [this]
  rw [s4]
  rw [s1, s2, s3] at f3
  linarith

theorem active_unique {ds : Dataset} {rows rows' : List Nat} (h : Active ds rows) (h' : Active ds rows') :
    rows = rows' := by
  unfold Active at h h'
  rw [h] at h'
  simp only [Out.ok.injEq] at h'
  have hz : ∀ l : List Nat, ((List.range l.length).zip l).map Prod.snd = l := fun l => by
    rw [List.map_snd_zip]; simp
  rw [← hz rows, ← hz rows', h']

/-- The states of a run are unique. -/
theorem Booster.boosting_unique {F : FP} {M : Libm} {cfg : Config} {d : Data} {rng : Rng} {metrics : List Metric}
    {o : Objective} {k : Nat} {b b' : Booster} (h : Boosting F M cfg d rng metrics o k b)
    (h' : Boosting F M cfg d rng metrics o k b') : b = b' := by
  induction h generalizing b' with
  | start g0 g1 =>
    cases h' with
    | start g0' g1' =>
      rw [g0] at g0'
      cases g0'
      rw [g1] at g1'
      cases g1'
      rfl
  | iter hb hs ih =>
    cases h' with
    | iter hb' hs' =>
      have := ih hb'
      subst this
      rw [hs] at hs'
      cases hs'
      rfl

end BitBoost
