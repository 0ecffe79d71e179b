import Verif.Lemmas.ProgressData
import Verif.Lemmas.Boost
import Verif.Lemmas.Parallel
import Verif.Lemmas.LearnerStore
import Verif.Lemmas.WellTree
/-! Helper lemmas: training a tree does not panic when the objective can compute the leaf values. -/
namespace BitBoost
namespace Learner
open Spec Dataset Parallel

/-! ### The candidates of the data set -/

/-- All that training looks up in the data set is there. -/
structure Trainable (F : FP) (ds : Dataset) (fs : List Nat) (js : List (Nat × Nat)) (h0 : Hists) : Prop where
  active : ds.activeFeatures = .ok fs
  jobs : histJobs ds fs = .ok js
  hists : newHists ds.data = .ok h0
  masks : ∀ f b, (f, b) ∈ js → ∃ m, ds.getBitvec f b = .ok m
  crits : ∀ f b, (f, b) ∈ js → ∃ c, critOf F ds f b = .ok c
  range : ∀ f b, (f, b) ∈ js → InRange h0 f b

theorem histJobs_ends {ds : Dataset} : ∀ (fs : List Nat), (∀ f ∈ fs, (ds.getNbins f).Ends) → (histJobs ds fs).Ends
  | [], _ => Out.ends_ok []
  | f :: fs, h => by
      unfold histJobs
      exact Out.Ends.bind (h f (by simp)) fun _ _ =>
        Out.Ends.bind (histJobs_ends fs fun g hg => h g (by simp [hg])) fun _ _ => Out.ends_pure _

theorem binSizes_ok {d : Data} (h : ∀ f, f < d.nfeatures → ∃ c, d.cols[f]? = some c) :
    ∃ ns, StoreLearner.binSizes d = .ok ns ∧ ∀ f c, f < d.nfeatures → d.cols[f]? = some c →
      ns[f]? = some (Data.colMaxNbins d.maxNbins c) := by
  have key : ∀ (l : List Nat), (∀ f ∈ l, f < d.nfeatures) → ∃ ns, (l.foldr (fun f (r : Out (List Nat)) => do
      let n ← Data.featMaxNbins d f
      let ns ← r
      return n :: ns) (.ok [])) = .ok ns ∧ ∀ (i f : Nat) (c : Column), l[i]? = some f → d.cols[f]? = some c →
        ns[i]? = some (Data.colMaxNbins d.maxNbins c) := by
    intro l
    induction l with
    | nil => intro _; exact ⟨[], rfl, by simp⟩
    | cons f l ih =>
      intro hl
      obtain ⟨ns, e, hns⟩ := ih fun g hg => hl g (by simp [hg])
      obtain ⟨c, hc⟩ := h f (hl f (by simp))
      refine ⟨Data.colMaxNbins d.maxNbins c :: ns, ?_, ?_⟩
      · rw [List.foldr_cons, e]
        unfold Data.featMaxNbins
        rw [hc]
        rfl
      · intro i g c' hi hc'
        cases i with
        | zero =>
          simp only [List.getElem?_cons_zero, Option.some.injEq] at hi
          subst hi
          rw [hc] at hc'
          cases hc'
          rfl
        | succ i => exact hns i g c' (by simpa using hi) hc'
  obtain ⟨ns, e, hns⟩ := key (List.range d.nfeatures) (fun f hf => List.mem_range.1 hf)
  refine ⟨ns, e, fun f c hf hc => hns f f c ?_ hc⟩
  rw [List.getElem?_range hf]

section
variable {F : FP} {cfg : Config} {d : Data} {k : Nat} {ds : Dataset}

theorem trainable (hc : ValidConfig cfg) (hd : ValidData cfg d) (hi : Inv F cfg d k ds) :
    ∃ fs js h0, Trainable F ds fs js h0 := by
  have hi0 := hi.toInv0
  have hnf := nf_le hc hd hi0
  have hcols : ∀ f, f < d.nfeatures → ∃ c, d.cols[f]? = some c := by
    intro f hf
    exact ⟨_, List.getElem?_eq_getElem (by rw [hd.shape.1]; omega)⟩
  have hact : ds.activeFeatures = .ok (ds.useful.take ds.nactiveFeatures) := prefix_ok.2 ⟨hnf, rfl⟩
  have hu : ∀ f ∈ ds.useful.take ds.nactiveFeatures, Useful d f := fun f hf =>
    (hi0.useful f).1 (List.mem_of_mem_take hf)
  obtain ⟨js, ej⟩ := histJobs_ends (ds := ds) (ds.useful.take ds.nactiveFeatures) fun f hf => at?_ends (by
    rw [hi0.lnb]; exact (hu f hf).1)
  obtain ⟨ns, en, hns⟩ := binSizes_ok hcols
  have hsum : 0 < ns.sum := by
    obtain ⟨f, c, h1, h2, h3⟩ := hd.room
    have := List.mem_of_getElem? (hns f c h1 h2)
    have := List.le_sum_of_mem this
    omega
  have eh : newHists ds.data = .ok (ns.map fun n => List.replicate n HistVal.zero) := by
    rw [hi0.data, StoreLearner.newHists_eq en, assert_ok.2 (by simpa using hsum)]
    rfl
  have hjob : ∀ f b, (f, b) ∈ js → ∃ nb, ds.usedNbins[f]? = some nb ∧ b < nb ∧ f ∈ ds.useful.take ds.nactiveFeatures ∧
      FeatOk F cfg (rowsOf ds) ds f := by
    intro f b hm
    obtain ⟨h1, nb, h2, h3⟩ := (mem_histJobs ej f b).1 hm
    have h2' := at?_ok.1 h2
    refine ⟨nb, h2', h3, h1, ?_⟩
    rcases hi0.feats f h1 with h0 | h0
    · rw [h0] at h2'; cases h2'; omega
    · exact h0
  refine ⟨_, js, _, hact, ej, eh, ?_, ?_, ?_⟩
  · intro f b hm
    obtain ⟨nb, h1, h2, h3, c, bvs, nb', g1, g2, g3, g4, _⟩ := hjob f b hm
    rw [h1] at g3
    cases g3
    unfold Dataset.getBitvec
    rw [at?_ok.2 g2, Out.ok_bind]
    exact at?_ends (by omega)
  · intro f b hm
    obtain ⟨nb, h1, h2, h3, c, bvs, nb', g1, g2, g3, g4, g5⟩ := hjob f b hm
    rw [h1] at g3
    cases g3
    have hv : (ds.getSplitValue F f b).Ends := by
      unfold Dataset.getSplitValue Dataset.column
      rw [at?_ok.2 g1, Out.ok_bind]
      cases ht : c.ftype with
      | loCardCat => exact Out.ends_pure _
      | hiCardCat => exact Out.ends_pure _
      | numerical =>
        rw [ht] at g5
        obtain ⟨_, _, splits, qs, s1, s2, _⟩ := g5
        simp only
        rw [at?_ok.2 s1, Out.ok_bind]
        exact at?_ends (by omega)
    obtain ⟨v, ev⟩ := hv
    unfold critOf Dataset.column
    rw [ev, Out.ok_bind, at?_ok.2 g1]
    exact ⟨_, rfl⟩
  · intro f b hm
    obtain ⟨nb, h1, h2, h3, c, bvs, nb', g1, g2, g3, g4, _⟩ := hjob f b hm
    rw [h1] at g3
    cases g3
    obtain ⟨c', bvs', k1, k2, k3⟩ := hi0.feat f (List.mem_of_mem_take h3)
    rw [hi0.data, k1] at g1
    obtain rfl : c' = c := Option.some.inj g1
    rw [g2] at k2
    cases k2
    refine ⟨List.replicate (Data.colMaxNbins d.maxNbins c') HistVal.zero, ?_, ?_⟩
    · rw [List.getElem?_map, hns f c' (hu f h3).1 k1]
      rfl
    · rw [List.length_replicate]; omega

end

section
variable {F : FP} {cfg : Config} {ds : Dataset} {fs : List Nat} {js : List (Nat × Nat)} {h0 : Hists}

/-- There is a value for every candidate. -/
def HasAll (js : List (Nat × Nat)) (h : Hists) : Prop := ∀ f b, (f, b) ∈ js → ∃ v, histAt h f b = .ok v

theorem refHists_ends (ht : Trainable F ds fs js h0) (w : Nat) (bounds : Num × Num) (codes ex : List Nat) :
    ∃ h, refHists F cfg ds w bounds codes ex = .ok h ∧ HasAll js h := by
  have he : ∃ h, refHists F cfg ds w bounds codes ex = .ok h := by
    unfold refHists
    rw [ht.hists, Out.ok_bind, ht.active, Out.ok_bind, ht.jobs, Out.ok_bind]
    refine runJobs_iff.2 fun f b hm => ⟨?_, ht.range f b hm⟩
    obtain ⟨m, em⟩ := ht.masks f b hm
    show ∃ v, (ds.getBitvec f b >>= fun m => pure (refHist F cfg w bounds codes ex m)) = .ok v
    rw [em]
    exact ⟨_, rfl⟩
  obtain ⟨h, e⟩ := he
  refine ⟨h, e, fun f b hm => ?_⟩
  obtain ⟨m, _, h2⟩ := refHists_at e ht.active ht.jobs hm
  exact ⟨_, h2⟩

theorem scanBins_ends {pg : Num} {pc : Nat} {h : Hists} {f : Nat} : ∀ (k b : Nat) (best : Num × Split),
    (∀ b', b ≤ b' → b' < b + k → (∃ v, histAt h f b' = .ok v) ∧ ∃ c, critOf F ds f b' = .ok c) →
    (scanBins F cfg ds pg pc h f k b best).Ends
  | 0, _, best, _ => Out.ends_ok best
  | k + 1, b, best, hb => by
      unfold scanBins
      obtain ⟨⟨v, ev⟩, c, ec⟩ := hb b (Nat.le_refl _) (by omega)
      rw [ev, Out.ok_bind]
      refine Out.Ends.bind ?_ fun _ _ => scanBins_ends k (b + 1) _ fun b' h1 h2 => hb b' (by omega) (by omega)
      unfold tryCandidate
      split
      · exact Out.ends_ok _
      · split
        · rw [ec, Out.ok_bind]; exact Out.ends_pure _
        · exact Out.ends_ok _

theorem scanFeatures_ends {pg : Num} {pc : Nat} {h : Hists} : ∀ (fs : List Nat) (best : Num × Split),
    (∀ f ∈ fs, ∃ n, ds.getNbins f = .ok n ∧ ∀ b, b < n → (∃ v, histAt h f b = .ok v) ∧ ∃ c, critOf F ds f b = .ok c) →
    (scanFeatures F cfg ds pg pc h fs best).Ends
  | [], best, _ => Out.ends_ok best
  | f :: fs, best, hf => by
      unfold scanFeatures
      obtain ⟨n, en, hb⟩ := hf f (by simp)
      rw [en, Out.ok_bind]
      exact Out.Ends.bind (scanBins_ends n 0 best fun b' _ h2 => hb b' (by omega)) fun _ _ =>
        scanFeatures_ends fs _ fun g hg => hf g (by simp [hg])

theorem findBestSplit_ends (ht : Trainable F ds fs js h0) {h : Hists} (hh : HasAll js h) (pg : Num) (pc : Nat) :
    (findBestSplit F cfg ds pg pc h).Ends := by
  unfold findBestSplit
  rw [ht.active, Out.ok_bind]
  refine Out.Ends.bind (scanFeatures_ends fs _ fun f hf => ?_) fun _ _ => Out.ends_pure _
  have hn : ∀ (fs : List Nat) (js : List (Nat × Nat)), histJobs ds fs = .ok js → ∀ f ∈ fs, ∃ n, ds.getNbins f = .ok n := by
    intro fs
    induction fs with
    | nil => intro _ _ f hf; simp at hf
    | cons g gs ih =>
      intro js e f hf
      unfold histJobs at e
      obtain ⟨n, e1, e⟩ := Out.bind_eq_ok.1 e
      obtain ⟨js', e2, e⟩ := Out.bind_eq_ok.1 e
      rcases List.mem_cons.1 hf with rfl | hf
      · exact ⟨n, e1⟩
      · exact ih js' e2 f hf
  obtain ⟨n, en⟩ := hn fs js ht.jobs f hf
  refine ⟨n, en, fun b hb => ?_⟩
  have hm := (mem_histJobs ht.jobs f b).2 ⟨hf, n, en, hb⟩
  exact ⟨hh f b hm, ht.crits f b hm⟩

theorem refChildren_ends (ht : Trainable F ds fs js h0) {n : RefNode} (hh : HasAll js n.hists) {s : Split}
    (hs : findBestSplit F cfg ds n.gradSum n.exampleCount n.hists = .ok s) (hne : s.crit.isNone = false) (w : Nat)
    (bounds : Num × Num) (codes : List Nat) :
    ∃ ch, refChildren F cfg ds w bounds codes n s = .ok ch ∧ HasAll js ch.1.hists ∧ HasAll js ch.2.hists := by
  obtain ⟨fs', js', v, a1, a2, hm, hv, _⟩ := findBestSplit_some hs hne
  rw [ht.active] at a1
  cases a1
  rw [ht.jobs] at a2
  cases a2
  obtain ⟨m, em⟩ := ht.masks _ _ hm
  obtain ⟨h, eh, hall⟩ := refHists_ends (cfg := cfg) ht w bounds codes (n.examples.filter (bitAt m))
  unfold refChildren
  rw [hv, Out.ok_bind, em, Out.ok_bind]
  simp only
  rw [eh, Out.ok_bind]
  generalize subU32 n.exampleCount v.count = x
  generalize F.sub n.gradSum v.gradSum = y
  refine ⟨_, rfl, hall, ?_⟩
  intro f b hfb
  obtain ⟨p, hp⟩ := hh f b hfb
  obtain ⟨q, hq⟩ := hall f b hfb
  exact ⟨_, histAt_sub_ok hp hq⟩

theorem refRoot_ends (ht : Trainable F ds fs js h0) (w : Nat) (bounds : Num × Num) (codes : List Nat) :
    ∃ r, refRoot F cfg ds w bounds codes = .ok r ∧ HasAll js r.hists := by
  obtain ⟨h, eh, hall⟩ := refHists_ends (cfg := cfg) ht w bounds codes (List.range ds.nactiveExamples)
  unfold refRoot
  simp only
  rw [eh, Out.ok_bind]
  exact ⟨_, rfl, hall⟩

end

/-! ### Leaves -/

/-- A number of the machine of size at most `V`. -/
def Settled (F : FP) (V : ℚ) (v : Num) : Prop := ∃ q : ℚ, v = .fin q ∧ |q| ≤ V ∧ F.rnd q = .fin q

theorem Settled.finite {F : FP} {V : ℚ} {v : Num} (h : Settled F V v) : v.isFinite = true := by
  obtain ⟨q, rfl, _⟩ := h
  rfl

/-- A tree whose tables have the right sizes and whose values are all of size at most `V`. -/
structure SoundTree (F : FP) (V : ℚ) (nf : Nat) (t : Tree) : Prop where
  well : WellTree nf t
  vals : ∀ v ∈ t.nodeValues, Settled F V v

theorem SoundTree.setValue {F : FP} {V : ℚ} {nf n : Nat} {v : Num} {t t' : Tree} (ht : SoundTree F V nf t)
    (hv : Settled F V v) (h : t.setValue n v = .ok t') : SoundTree F V nf t' := by
  refine ⟨Tree.setValue_well ht.well h, ?_⟩
  obtain ⟨_, _, rfl⟩ := Tree.setValue_ok h
  intro x hx
  rcases List.mem_or_eq_of_mem_set hx with h1 | rfl
  · exact ht.vals x h1
  · exact hv

theorem SoundTree.splitNode {F : FP} {V : ℚ} {nf n : Nat} {c : SplitCrit} {t t' : Tree} (ht : SoundTree F V nf t)
    (hc : c.featureId < nf) (h : t.splitNode n c = .ok t') : SoundTree F V nf t' := by
  refine ⟨Tree.splitNode_well ht.well hc h, ?_⟩
  obtain ⟨_, _, _, rfl⟩ := Tree.splitNode_ok h
  exact ht.vals

theorem SoundTree.new {F : FP} {V : ℚ} (hV : 0 ≤ V) {nf depth : Nat} (hnf : 0 < nf) {sc : List (List Nat)}
    (hsc : sc.length = nf) {t : Tree} (h : Tree.new depth sc = .ok t) : SoundTree F V nf t := by
  refine ⟨Tree.new_well hnf hsc h, ?_⟩
  unfold Tree.new at h
  obtain ⟨_, _, h⟩ := Out.bind_eq_ok.1 h
  simp only [Out.pure_eq, Out.ok.injEq] at h
  subst h
  intro v hv
  exact ⟨0, List.eq_of_mem_replicate hv, by simpa using hV, F.rnd_zero⟩

/-- The objective can compute a value of size at most `V` for every leaf: for every set of rows whose predictions are still
those the objective had at the start. -/
def LeavesOk (F : FP) (n : Nat) (targets : List Num) (V : ℚ) (o0 : Objective) : Prop :=
  ∀ (o : Objective) (rs : List Nat), o = { o0 with predictions := o.predictions } → rs ≠ [] → rs.Nodup →
    (∀ r ∈ rs, r < n ∧ o.predictions[r]? = o0.predictions[r]?) →
    ∃ v o', o.predictLeafValue F targets rs = .ok (v, o') ∧ Settled F V v

section
variable {F : FP} {cfg : Config} {d : Data} {rng : Rng} {k : Nat} {ds : Dataset} {rows : List Nat} {V : ℚ}

theorem leafRows_ends (hr : Active ds rows) {is : List Nat} (hlt : ∀ i ∈ is, i < rows.length) (hne : is ≠ []) :
    (leafRows ds is).Ends := by
  unfold leafRows
  by_cases hs : ds.exampleSampling = true
  · rw [if_pos hs]
    have ha : ds.activeExamples = .ok rows := by
      have hr' := hr
      unfold Active Dataset.activePairs at hr'
      rw [if_pos hs] at hr'
      obtain ⟨a, e1, e2⟩ := Out.bind_eq_ok.1 hr'
      simp only [Out.pure_eq, Out.ok.injEq] at e2
      rw [e1, zip_inj e2]
    have key : ∀ is : List Nat, (∀ i ∈ is, i < rows.length) → ∃ rs, mapItems ds is = .ok rs ∧ rs.length = is.length := by
      intro is
      induction is with
      | nil => intro _; exact ⟨[], rfl, rfl⟩
      | cons i is ih =>
        intro hi
        obtain ⟨rs, e, hl⟩ := ih fun j hj => hi j (by simp [hj])
        have hil : i < rows.length := hi i (by simp)
        have e1 : ds.mapIndex i = .ok rows[i] := by
          unfold Dataset.mapIndex
          rw [ha, Out.ok_bind, at?_lt hil]
        refine ⟨rows[i] :: rs, ?_, by simp [hl]⟩
        unfold mapItems
        rw [e1, Out.ok_bind, e]
        rfl
    obtain ⟨rs, e, hl⟩ := key is hlt
    rw [e, Out.ok_bind]
    refine Out.Ends.bind (Out.ends_assert ?_) fun _ _ => Out.ends_pure _
    cases rs with
    | nil => simp at hl; exact absurd (List.length_eq_zero_iff.1 hl.symm) hne
    | cons _ _ => rfl
  · rw [if_neg hs, Out.ok_bind]
    refine Out.Ends.bind (Out.ends_assert ?_) fun _ _ => Out.ends_pure _
    cases is with
    | nil => exact absurd rfl hne
    | cons _ _ => rfl

theorem leafFor_ends {targets : List Num} {o0 o : Objective} {nv : List Num} {done : List (Nat × List Nat)} {ex : List Nat}
    {rest : List (List Nat)} (ha : Active ds rows) (hr : RowsOk ds rows) (hrl : ∀ r ∈ rows, r < d.nexamples)
    (htgt : target ds.data = .ok targets) (hp : Preds F targets rows o0 nv o done (ex :: rest)) (hne : ex ≠ [])
    (hl : LeavesOk F d.nexamples targets V o0) : ∃ v o', leafFor F ds ex o = .ok (v, o') ∧ Settled F V v := by
  have hexlt : ∀ i ∈ ex, i < rows.length := fun i hi => hp.lt i (by simp [hi])
  obtain ⟨rs, ers⟩ := leafRows_ends ha hexlt hne
  obtain ⟨rfl, _⟩ := hr.map ex rs ers hexlt
  have hdisj := hp.disj
  have hexnd : ex.Nodup := by
    rw [List.nodup_append, List.flatten_cons, List.nodup_append] at hdisj
    exact hdisj.2.1.1
  have hnd : (ex.map (rowAt rows)).Nodup :=
    List.Nodup.map_on (fun i hi j hj e => rowAt_inj hr.nodup (hexlt i hi) (hexlt j hj) e) hexnd
  obtain ⟨v, o', e, hv⟩ := hl o _ hp.obj (by simpa using hne) hnd (by
    intro r hrm
    obtain ⟨i, hi, rfl⟩ := List.mem_map.1 hrm
    exact ⟨hrl _ (rowAt_mem (hexlt i hi)), hp.todo i (by simp [hi])⟩)
  refine ⟨v, o', ?_, hv⟩
  unfold leafFor
  rw [ers, Out.ok_bind, htgt, Out.ok_bind]
  exact e

end

/-! ### Rounds -/

theorem setValue_ends {t : Tree} {n : Nat} {v : Num} (hv : v.isFinite = true) (hn : n < t.nodeValues.length) :
    t.setValue n v = .ok { t with nodeValues := t.nodeValues.set n v } := by
  unfold Tree.setValue
  rw [assert_ok.2 hv, Out.ok_bind, assert_ok.2 (by simpa using hn)]
  rfl

theorem splitNode_ends {t : Tree} {n : Nat} {c : SplitCrit} (hl : ¬ IsSplit t n) (hlen : n < t.splitCrits.length)
    (hc : c.isNone = false) (hn : n < 2 ^ t.maxDepth - 1) :
    t.splitNode n c = .ok { t with splitCrits := t.splitCrits.set n c, ninternal := t.ninternal + 1 } := by
  unfold Tree.splitNode
  rw [List.getElem?_eq_getElem hlen]
  have h1 : t.splitCrits[n].isNone = true := by
    by_contra h0
    refine hl ⟨t.splitCrits[n], List.getElem?_eq_getElem hlen, ?_⟩
    intro h2
    exact h0 (by unfold SplitCrit.isNone; rw [h2]; rfl)
  simp only
  rw [assert_ok.2 h1, Out.ok_bind, assert_ok.2 (by rw [hc]; rfl), Out.ok_bind, assert_ok.2 (by
    simp only [Tree.isMaxLeafNode, Tree.maxNinternal, Bool.not_eq_true']; exact decide_eq_false (by omega))]
  rfl

section
variable {F : FP} {cfg : Config} {d : Data} {ds : Dataset} {w : Nat} {codes : List Nat} {sc : List (List Nat)}
  {targets : List Num} {rows : List Nat} {o0 : Objective} {fs : List Nat} {js : List (Nat × Nat)} {h0 : Hists} {nf : Nat} {V : ℚ}

theorem refExpand_ends (ha : Active ds rows) (hr : RowsOk ds rows) (hrl : ∀ r ∈ rows, r < d.nexamples)
    (htgt : target ds.data = .ok targets) (hmin : 1 ≤ cfg.minExamplesLeaf) (ht : Trainable F ds fs js h0)
    (hfs : ∀ f ∈ fs, f < nf) (hl : LeavesOk F d.nexamples targets V o0) {n : RefNode} {t : Tree} {o : Objective}
    {rest : List RefNode} {done : List (Nat × List Nat)} {msk : Nat → Blocks}
    (h : TreeInv F cfg ds sc targets rows o0 ⟨t, o, n :: rest⟩ done msk) (hh : ∀ r ∈ n :: rest, HasAll js r.hists)
    (hw : SoundTree F V nf t) :
    ∃ st', refExpand F cfg ds w codes n ⟨t, o, rest⟩ = .ok st' ∧ (∀ r ∈ st'.stack, HasAll js r.hists) ∧
      SoundTree F V nf st'.tree := by
  obtain ⟨k, hg⟩ := h.grown
  obtain ⟨_, hmd, _, hsl, hnl, _⟩ := hg.built.inv
  simp only at hmd hsl hnl
  have hok : RefOk ds n := h.ok n (by simp)
  have hinn : n.nodeId < 2 ^ cfg.maxTreeDepth - 1 := h.inner n (by simp)
  have hpow : (2 : Nat) ^ (cfg.maxTreeDepth + 1) = 2 * 2 ^ cfg.maxTreeDepth := by rw [pow_succ]; ring
  have hopen : open' ⟨t, o, n :: rest⟩ = (n.nodeId, n.examples) :: open' ⟨t, o, rest⟩ := rfl
  have hleaf : IsLeaf t n.nodeId := (h.parts.leaves n.nodeId).2 (by rw [hopen]; simp)
  have hdl : ∀ m ∈ done.map Prod.fst, IsLeaf t m := by
    intro m hm
    refine (h.parts.leaves m).2 ?_
    rw [List.map_append, List.mem_append]
    exact Or.inl hm
  obtain ⟨s, hs⟩ := findBestSplit_ends (cfg := cfg) ht (hh n (by simp)) n.gradSum n.exampleCount
  have hrest : ∀ r ∈ rest, HasAll js r.hists := fun r hr' => hh r (by simp [hr'])
  unfold refExpand
  rw [hs, Out.ok_bind]
  cases hne : s.crit.isNone with
  | true =>
    rw [if_pos rfl]
    obtain ⟨v, o', e, hv⟩ := leafFor_ends ha hr hrl htgt h.preds hok.ne hl
    have e2 := setValue_ends (t := t) (n := n.nodeId) hv.finite (by omega)
    simp only
    rw [e, Out.ok_bind]
    simp only
    rw [e2]
    exact ⟨_, rfl, hrest, hw.setValue hv e2⟩
  | false =>
    rw [if_neg (by simp)]
    obtain ⟨fs', js', v, a1, a2, hm, _⟩ := findBestSplit_some hs hne
    rw [ht.active] at a1
    cases a1
    rw [ht.jobs] at a2
    cases a2
    have hfeat : s.crit.featureId < nf := hfs _ ((mem_histJobs ht.jobs _ _).1 hm).1
    obtain ⟨m, em⟩ := ht.masks _ _ hm
    split
    · obtain ⟨ch, ech, hc1, hc2⟩ := refChildren_ends ht (hh n (by simp)) hs hne w o.bounds codes
      have e2 := splitNode_ends (c := s.crit) hleaf.2 (by omega) hne (by rw [hmd]; exact hinn)
      simp only
      rw [ech, Out.ok_bind, e2]
      refine ⟨_, rfl, ?_, hw.splitNode hfeat e2⟩
      intro r hr'
      simp only [List.mem_cons] at hr'
      rcases hr' with rfl | rfl | hr'
      · exact hc1
      · exact hc2
      · exact hrest r hr'
    · obtain ⟨f1, f2, f3, f4⟩ := splitFacts hok hs hne hmin em
      have hne1 : n.examples.filter (bitAt m) ≠ [] := by
        intro h0; rw [h0] at f3; simp at f3; omega
      have hne2 : (n.examples.filter fun i => !bitAt m i) ≠ [] := by
        intro h0; rw [h0] at f4; simp at f4; omega
      have hn1 : 2 * n.nodeId + 1 ∉ done.map Prod.fst := fun hc =>
        not_node_child hleaf (Or.inl rfl) (hdl _ hc)
      have gp0 := Preds.split (bitAt m) h.preds
      obtain ⟨lv, o1, e1, hlv⟩ := leafFor_ends ha hr hrl htgt gp0 hne1 hl
      have gp1 := Preds.leaf hr htgt gp0 e1 hn1 (show _ < t.nodeValues.length by omega) hlv.finite
      obtain ⟨rv, o2, e2, hrv⟩ := leafFor_ends ha hr hrl htgt gp1 hne2 hl
      have e3 := setValue_ends (t := t) (n := 2 * n.nodeId + 1) hlv.finite (by omega)
      have w3 := hw.setValue hlv e3
      have e4 := setValue_ends (t := { t with nodeValues := t.nodeValues.set (2 * n.nodeId + 1) lv })
        (n := 2 * n.nodeId + 2) hrv.finite (by simp only [List.length_set]; omega)
      have w4 := w3.setValue hrv e4
      have e5 := splitNode_ends (t := { t with nodeValues := ((t.nodeValues.set (2 * n.nodeId + 1) lv).set (2 * n.nodeId + 2) rv) }) (c := s.crit) hleaf.2 (show n.nodeId < t.splitCrits.length by omega) hne (by
          show n.nodeId < 2 ^ t.maxDepth - 1
          rw [hmd]; exact hinn)
      simp only
      rw [em, Out.ok_bind, e1, Out.ok_bind]
      simp only
      rw [e2, Out.ok_bind]
      simp only
      rw [e3, Out.ok_bind, e4, Out.ok_bind, e5]
      exact ⟨_, rfl, hrest, w4.splitNode hfeat e5⟩

theorem refLoop_progress (ha : Active ds rows) (hr : RowsOk ds rows) (hrl : ∀ r ∈ rows, r < d.nexamples)
    (htgt : target ds.data = .ok targets) (hmin : 1 ≤ cfg.minExamplesLeaf) (ht : Trainable F ds fs js h0)
    (hfs : ∀ f ∈ fs, f < nf) (hl : LeavesOk F d.nexamples targets V o0) : ∀ (fuel : Nat) (st : RefState)
    (done : List (Nat × List Nat)) (msk : Nat → Blocks), TreeInv F cfg ds sc targets rows o0 st done msk →
    (∀ r ∈ st.stack, HasAll js r.hists) → SoundTree F V nf st.tree →
    ∃ r, refLoop F cfg ds w codes fuel st = .ok r ∧ ∀ st', r = some st' →
      SoundTree F V nf st'.tree ∧ ∃ done' msk', TreeInv F cfg ds sc targets rows o0 st' done' msk' := by
  intro fuel
  induction fuel with
  | zero =>
    rintro ⟨t, o, stack⟩ done msk h hh hw
    unfold refLoop
    cases stack with
    | nil => exact ⟨_, rfl, fun st' e => by cases e; exact ⟨hw, done, msk, h⟩⟩
    | cons n rest => exact ⟨_, rfl, fun st' e => by cases e⟩
  | succ fuel ih =>
    rintro ⟨t, o, stack⟩ done msk h hh hw
    unfold refLoop
    cases stack with
    | nil => exact ⟨_, rfl, fun st' e => by cases e; exact ⟨hw, done, msk, h⟩⟩
    | cons n rest =>
      obtain ⟨st1, e1, hh1, hw1⟩ := refExpand_ends (w := w) (codes := codes) ha hr hrl htgt hmin ht hfs hl h hh hw
      obtain ⟨done1, msk1, h1⟩ := refExpand_inv hr htgt hmin h e1
      simp only
      rw [e1, Out.ok_bind]
      exact ih st1 done1 msk1 h1 hh1 hw1

theorem gradCodes_ends {bounds : Num × Num} {gradients : List Num} : ∀ ps : List (Nat × Nat),
    (∀ p ∈ ps, p.2 < gradients.length) → (gradCodes F w bounds gradients ps).Ends
  | [], _ => Out.ends_ok []
  | (i, j) :: ps, h => by
      unfold gradCodes
      exact Out.Ends.bind (at?_ends (h (i, j) (by simp))) fun _ _ =>
        Out.Ends.bind (gradCodes_ends ps fun p hp => h p (by simp [hp])) fun _ _ => Out.ends_pure _

theorem outOfBagLoop_ends (hd : Rectangular d) {t : Tree} (hw : WellTree d.nfeatures t) : ∀ (is : List Nat) (o : Objective),
    is.Nodup → (∀ i ∈ is, i < d.nexamples) → (∀ i ∈ is, ∃ q, o.predictions[i]? = some (.fin q)) →
    (outOfBagLoop F d t is o).Ends
  | [], o, _, _, _ => Out.ends_ok o
  | i :: is, o, hnd, hlt, hp => by
      obtain ⟨p, ep⟩ := Tree.predictSingle_well F hw hd rfl (hlt i (by simp))
      obtain ⟨q, hq⟩ := hp i (by simp)
      rw [List.nodup_cons] at hnd
      unfold outOfBagLoop
      rw [ep, Out.ok_bind]
      unfold Objective.updateOutOfBag
      rw [hq]
      simp only
      rw [assert_ok.2 (show (Num.fin q).isFinite = true from rfl), Out.ok_bind, Out.pure_eq, Out.ok_bind]
      refine outOfBagLoop_ends hd hw is _ hnd.2 (fun j hj => hlt j (by simp [hj])) fun j hj => ?_
      obtain ⟨q', hq'⟩ := hp j (by simp [hj])
      refine ⟨q', ?_⟩
      simp only
      rw [List.getElem?_set_ne]
      · exact hq'
      · rintro rfl; exact hnd.1 hj

end

/-- Learning a tree works when the objective can compute the leaf values, and adds values of their size to the predictions. -/
theorem learnTree_ends {F : FP} {cfg : Config} {d : Data} {rng : Rng} {k : Nat} {ds : Dataset} (hc : ValidConfig cfg)
    (hd : ValidData cfg d) (hds : Updated F cfg d rng k ds) (hk : k ≠ 0) {targets : List Num}
    (htgt : target d = .ok targets) {o : Objective} {V : ℚ} (hV : 0 ≤ V) (hg : o.gradients.length = d.nexamples)
    (hp : ∀ i, i < d.nexamples → ∃ q, o.predictions[i]? = some (.fin q)) (hl : LeavesOk F d.nexamples targets V o) :
    ∃ t o', Booster.learnTree F cfg ds o = .ok (t, o') ∧ o' = { o with predictions := o'.predictions } ∧
      ∀ r, r < d.nexamples → ∃ x v, o.predictions[r]? = some x ∧ Settled F V v ∧
        o'.predictions[r]? = some (F.add x v) := by
  obtain ⟨qe, he, _, he1⟩ := hc.examples
  obtain ⟨rows, hrows, hfull, hsize, hnd, hrl⟩ := BitBoost.active_rows hds hd.size (by
    rw [he]; simpa [Num.le] using he1)
  have hinv := hds.inv
  obtain ⟨fs, js, h0, ht⟩ := trainable hc hd hinv
  have hro := rowsOk hds hrows
  have hdat := hinv.data
  have htgt' : target ds.data = .ok targets := by rw [hdat]; exact htgt
  have hpos : 0 < ds.nactiveExamples := by
    have := (nactive_bounds (F := F) hc hd).1
    rw [hinv.ne]; omega
  have hfs : ∀ f ∈ fs, f < d.nfeatures := by
    intro f hf
    have := ht.active
    unfold Dataset.activeFeatures at this
    obtain ⟨_, rfl⟩ := prefix_ok.1 this
    exact ((hinv.useful f).1 (List.mem_of_mem_take hf)).1
  have hnf : 0 < d.nfeatures := by
    obtain ⟨f, _, hf, _⟩ := hd.room
    omega
  have hsc : ds.supercats.length = d.nfeatures := by rw [hinv.lsup, if_neg hk]
  have hlen : ds.nactiveExamples ≤ 2 ^ 32 - 256 := by rw [← hro.len]; exact hsize
  have hends : ∃ r, train F cfg ds ds.supercats o (2 ^ cfg.maxTreeDepth - 1) = .ok r ∧
      ∀ t o', r = some (t, o') → SoundTree F V d.nfeatures t := by
    rw [train_eq hlen hds.masksOk hc.leaf]
    unfold refTrain width
    rw [if_pos hc.bits, Out.ok_bind]
    have et : ∃ t, Tree.new cfg.maxTreeDepth ds.supercats = .ok t := by
      unfold Tree.new
      rw [assert_ok.2 (decide_eq_true (show 0 < cfg.maxTreeDepth from hc.depth))]
      exact ⟨_, rfl⟩
    obtain ⟨t, et⟩ := et
    have ea : ds.activePairs = .ok ((List.range rows.length).zip rows) := hrows
    rw [et, Out.ok_bind, assert_ok.2 (by simpa using hpos), Out.ok_bind, ea, Out.ok_bind]
    obtain ⟨codes, ec⟩ := gradCodes_ends (F := F) (w := cfg.discrNbits) (bounds := o.bounds) (gradients := o.gradients)
      ((List.range rows.length).zip rows) (by
        intro p hp
        rw [hg]
        exact hrl _ (List.of_mem_zip hp).2)
    rw [ec, Out.ok_bind]
    obtain ⟨root, er, hroot⟩ := refRoot_ends (cfg := cfg) ht cfg.discrNbits o.bounds codes
    rw [er, Out.ok_bind]
    obtain ⟨r, el, hst⟩ := refLoop_progress (w := cfg.discrNbits) (codes := codes) hrows hro hrl htgt' hc.leaf ht hfs hl
      (2 ^ cfg.maxTreeDepth - 1) ⟨t, o, [root]⟩ [] (fun _ => []) (treeInv_start hro hpos (by omega) et er o)
      (by intro r hr; simp only [List.mem_singleton] at hr; rw [hr]; exact hroot) (SoundTree.new hV hnf hsc et)
    rw [el, Out.ok_bind]
    cases r with
    | none => exact ⟨_, rfl, fun t o' e => by cases e⟩
    | some st =>
      obtain ⟨hw, done, msk, hti⟩ := hst st rfl
      have hoob : (outOfBag F ds st.tree st.obj).Ends := by
        unfold outOfBag
        by_cases hs : ds.exampleSampling = true
        · rw [if_pos hs]
          obtain ⟨_, _, _, h4⟩ := Props.C30_examples F cfg d rng k ds hds hs rows hrows
          rw [h4, Out.ok_bind, hdat]
          refine outOfBagLoop_ends hd.shape hw.well _ _ (List.nodup_range.filter _) ?_ ?_
          · intro i hi
            exact List.mem_range.1 (List.mem_filter.1 hi).1
          · intro i hi
            obtain ⟨h5, h6⟩ := List.mem_filter.1 hi
            rw [hti.preds.others i (by simpa using h6)]
            exact hp i (List.mem_range.1 h5)
        · rw [if_neg hs]; exact Out.ends_ok _
      obtain ⟨o', eo⟩ := hoob
      simp only
      rw [eo]
      exact ⟨_, rfl, fun t o' e => by cases e; exact hw⟩
  obtain ⟨r, er, hsound⟩ := hends
  have hnn := (Props.C46_terminates F cfg ds ds.supercats o _ (Nat.le_refl _)).1
  cases r with
  | none => exact absurd er hnn
  | some p =>
    obtain ⟨t, o'⟩ := p
    have ht' := hsound t o' rfl
    refine ⟨t, o', ?_, ?_, ?_⟩
    · unfold Booster.learnTree
      rw [er]
      rfl
    · exact (train_objective hds hrows hfull hd.shape hsize hc.leaf er).1
    · obtain ⟨targets', o1, done, msk, _, hti, hoob⟩ := train_final hds hrows hd.shape hsize hc.leaf er
      obtain ⟨_, hact, hina⟩ := outOfBag_ok hds hrows hfull hoob
      intro r hr
      by_cases hm : r ∈ rows
      · obtain ⟨i, hir⟩ := List.mem_iff_getElem?.1 hm
        have hp := hti.parts
        rw [show open' ⟨t, o1, []⟩ = [] from rfl, List.append_nil] at hp
        have hlen := hro.len
        have hil : i < ds.nactiveExamples := by
          rw [← hlen]; exact (List.getElem?_eq_some_iff.1 hir).1
        obtain ⟨p, hpm, hip⟩ := List.mem_flatMap.1 (hp.perm.mem_iff.2 (List.mem_range.2 hil))
        obtain ⟨q, hv, hq, hx⟩ := hti.preds.value p hpm
        obtain ⟨x, hx1, hx2⟩ := hx i hip
        have hrow : rowAt rows i = r := by
          have := rowAt_eq (rows := rows) (i := i) (by omega)
          rw [hir] at this
          exact (Option.some.inj this).symm
        rw [hrow] at hx1 hx2
        refine ⟨x, .fin q, hx1, ht'.vals _ (List.mem_of_getElem? hv), ?_⟩
        rw [hact r hm]
        exact hx2
      · obtain ⟨x, p, h1, h2, h3⟩ := hina r hr hm
        refine ⟨x, p, ?_, ?_, h3⟩
        · rw [← hti.preds.others r hm]; exact h1
        · unfold Tree.predictSingle at h2
          obtain ⟨leaf, _, h2⟩ := Out.bind_eq_ok.1 h2
          obtain ⟨v, e1, h2⟩ := Out.bind_eq_ok.1 h2
          simp only [Out.pure_eq, Out.ok.injEq] at h2
          have hvm : v ∈ t.nodeValues := by
            unfold Tree.nodeValue at e1
            split at e1
            · rename_i v' hv'
              cases e1
              exact List.mem_of_getElem? hv'
            · cases e1
          obtain ⟨q, rfl, hq, hrq⟩ := ht'.vals v hvm
          have hs1 : t.shrinkage = .fin 1 := hti.shr
          have hs2 : t.bias = .fin 0 := hti.bias
          rw [hs1, hs2, F.add_fin, add_zero, hrq, F.mul_fin, one_mul, hrq] at h2
          exact ⟨q, h2.symm, hq, hrq⟩

end Learner
end BitBoost
