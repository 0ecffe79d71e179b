import Verif.Spec.Targets
import Verif.Lemmas.RowOrder
import Verif.Lemmas.DatasetInv
import Verif.Lemmas.Best
/-! Helper lemmas for runs on two data sets that differ only in the targets. -/
namespace BitBoost
open Spec Dataset Learner

/-- The same training view of other data. -/
def Dataset.on (d' : Data) (ds : Dataset) : Dataset := { ds with data := d' }

/-- Two training views of data with the same features. -/
structure Dataset.On (d d' : Data) (a b : Dataset) : Prop where
  eq : b = a.on d'
  data : a.data = d
  useful : ∀ u ∈ a.useful, u ≠ d.nfeatures

section
variable {F : FP} {cfg : Config} {d d' : Data} {ts ts' : List Num} {ds : Dataset}

theorem Spec.SameFeatures.column (h : SameFeatures d d' ts ts') {f : Nat} (hf : f ≠ d.nfeatures) :
    Dataset.column d' f = Dataset.column d f := by
  unfold Dataset.column at?
  rw [h.cols f hf]

theorem Spec.SameFeatures.targets (h : SameFeatures d d' ts ts') : target d = .ok ts ∧ target d' = .ok ts' := by
  obtain ⟨c, e1, rfl⟩ := h.left
  obtain ⟨c', e2, rfl⟩ := h.right
  unfold target at?
  rw [h.nfeatures, e1, e2]
  exact ⟨rfl, rfl⟩

/-! ### The data set -/

theorem updateLocard_on (h : SameFeatures d d' ts ts') (hd : ds.data = d) (hu : ∀ u ∈ ds.useful, u ≠ d.nfeatures) {f : Nat}
    (hf : f ≠ d.nfeatures) (ex : List Nat) :
    Out.Leads (On d d') (updateLocard ds f ex) (updateLocard (ds.on d') f ex) := by
  unfold updateLocard
  simp only [Dataset.on]
  rw [h.column hf, hd]
  refine .same fun c _ => .same fun b _ => .same fun v _ => .same fun m _ => .same fun _ _ => ?_
  refine Out.Leads.ok ⟨?_, rfl, hu⟩
  simp only [Dataset.on, h.maxNbins]

theorem updateHicard_on (h : SameFeatures d d' ts ts') (hd : ds.data = d) (hu : ∀ u ∈ ds.useful, u ≠ d.nfeatures) {f : Nat}
    (hf : f ≠ d.nfeatures) (ex : List Nat) (g : List Num) (bs : Num × Num) :
    Out.Leads (On d d') (updateHicard F cfg ds f ex g bs) (updateHicard F cfg (ds.on d') f ex g bs) := by
  unfold updateHicard
  simp only [Dataset.on]
  rw [h.column hf, hd]
  refine .same fun c _ => .same fun b _ => .same fun v _ => .same fun m _ => .same fun _ _ => .same fun _ _ =>
    .same fun _ _ => .same fun _ _ => .same fun _ _ => ?_
  exact Out.Leads.ok ⟨rfl, rfl, hu⟩

theorem updateNum_on (h : SameFeatures d d' ts ts') (hd : ds.data = d) (hu : ∀ u ∈ ds.useful, u ≠ d.nfeatures) {f : Nat}
    (hf : f ≠ d.nfeatures) (ex : List Nat) (g : List Num) :
    Out.Leads (On d d') (updateNum F cfg ds f ex g) (updateNum F cfg (ds.on d') f ex g) := by
  unfold updateNum
  simp only [Dataset.on]
  rw [h.column hf, hd]
  refine .same fun c _ => .same fun b _ => .same fun v _ => .same fun m _ => .same fun _ _ => .same fun _ _ =>
    .same fun _ _ => .same fun _ _ => .same fun _ _ => ?_
  exact Out.Leads.ok ⟨rfl, rfl, hu⟩

theorem initLocard_on (h : SameFeatures d d' ts ts') (ex : List Nat) : ∀ (fs : List Nat) (ds : Dataset), ds.data = d →
    (∀ u ∈ ds.useful, u ≠ d.nfeatures) → (∀ f ∈ fs, f ≠ d.nfeatures) →
    Out.Leads (On d d') (initLocard ex fs ds) (initLocard ex fs (ds.on d'))
  | [], ds, hd, hu, _ => Out.Leads.ok ⟨rfl, hd, hu⟩
  | f :: fs, ds, hd, hu, hf => by
      simp only [initLocard]
      refine Out.Leads.bind (R := On d d') ?_ fun a b _ hab => ?_
      · simp only [initFeature]
        rw [show (ds.on d').data = d' from rfl, h.column (hf f (by simp)), hd]
        refine .same fun c _ => ?_
        split
        · exact updateLocard_on h hd hu (hf f (by simp)) ex
        · exact Out.Leads.ok ⟨rfl, hd, hu⟩
      · rw [hab.eq]
        exact initLocard_on h ex fs a hab.data hab.useful fun g hg => hf g (by simp [hg])

theorem scan_on (h : SameFeatures d d' ts ts') (n : Nat) : ∀ k feat, feat + k ≤ d.nfeatures →
    Dataset.scanFeatures d' n k feat = Dataset.scanFeatures d n k feat
  | 0, _, _ => rfl
  | k + 1, feat, hk => by
      simp only [Dataset.scanFeatures]
      rw [h.column (by omega), h.maxNbins, scan_on h n k (feat + 1) (by omega)]

theorem new_on (h : SameFeatures d d' ts ts') (rng : Rng) :
    Out.Leads (On d d') (Dataset.new F cfg d rng) (Dataset.new F cfg d' rng) := by
  unfold Dataset.new
  refine Out.Leads.bind (R := On d d') ?_ fun a b e hab => ?_
  · unfold inner
    simp only [h.nexamples, h.nfeatures]
    rw [scan_on h _ _ 0 (by omega)]
    refine .same fun r e => ?_
    obtain ⟨u, bv, hh⟩ := r
    refine Out.Leads.ok ⟨rfl, rfl, fun x hx => ?_⟩
    have := (scanFeatures_spec d _ _ _ u bv hh e).2.2.1 x hx
    omega
  · rw [h.nexamples, hab.eq]
    split
    · refine Out.Leads.ok ⟨rfl, hab.data, hab.useful⟩
    · exact initLocard_on h _ _ a hab.data hab.useful hab.useful

theorem updateFeatures_on (h : SameFeatures d d' ts ts') (g : List Num) (bs : Num × Num) (bagged : Bool) (ex : List Nat) :
    ∀ (fs : List Nat) (ds : Dataset), ds.data = d → (∀ u ∈ ds.useful, u ≠ d.nfeatures) → (∀ f ∈ fs, f ≠ d.nfeatures) →
    Out.Leads (On d d') (updateFeatures F cfg g bs bagged ex fs ds) (updateFeatures F cfg g bs bagged ex fs (ds.on d'))
  | [], ds, hd, hu, _ => Out.Leads.ok ⟨rfl, hd, hu⟩
  | f :: fs, ds, hd, hu, hf => by
      simp only [updateFeatures]
      refine Out.Leads.bind (R := On d d') ?_ fun a b _ hab => ?_
      · unfold updateFeature
        rw [show (ds.on d').data = d' from rfl, h.column (hf f (by simp)), hd]
        refine .same fun c _ => ?_
        cases c.ftype with
        | loCardCat =>
          simp only
          split
          · exact updateLocard_on h hd hu (hf f (by simp)) ex
          · exact Out.Leads.ok ⟨rfl, hd, hu⟩
        | hiCardCat => exact updateHicard_on h hd hu (hf f (by simp)) ex g bs
        | numerical => exact updateNum_on h hd hu (hf f (by simp)) ex g
      · rw [hab.eq]
        exact updateFeatures_on h g bs bagged ex fs a hab.data hab.useful fun x hx => hf x (by simp [hx])

theorem prefix_mem {α : Type} {l l' : List α} {n : Nat} (e : prefix' l n = .ok l') {x : α} (hx : x ∈ l') : x ∈ l := by
  rw [prefix_ok] at e
  obtain ⟨_, rfl⟩ := e
  exact List.mem_of_mem_take hx

theorem update_on (h : SameFeatures d d' ts ts') (hd : ds.data = d) (hu : ∀ u ∈ ds.useful, u ≠ d.nfeatures)
    (g : List Num) (bs : Num × Num) :
    Out.Leads (On d d') (ds.update F cfg g bs) ((ds.on d').update F cfg g bs) := by
  unfold Dataset.update
  simp only
  have e0 : initSupercats { ds.on d' with updateCount := (ds.on d').updateCount + 1 } =
      (initSupercats { ds with updateCount := ds.updateCount + 1 }).on d' := by
    unfold initSupercats Dataset.on
    simp only [h.nfeatures, hd]
  rw [e0]
  generalize hx : initSupercats { ds with updateCount := ds.updateCount + 1 } = x
  have hxd : x.data = d := by rw [← hx]; exact hd
  have hxu : ∀ u ∈ x.useful, u ≠ d.nfeatures := by rw [← hx]; exact hu
  rw [show (x.on d').updateCount = x.updateCount from rfl]
  split
  · exact Out.Leads.ok ⟨rfl, hxd, hxu⟩
  · unfold refresh
    refine Out.Leads.bind (R := On d d') ?_ fun a b _ hab => ?_
    · unfold sampleFeatures
      rw [show (x.on d').featureSampling = x.featureSampling from rfl]
      split
      · refine .same fun r e => ?_
        obtain ⟨u, r⟩ := r
        refine Out.Leads.ok ⟨rfl, hxd, fun v hv => hxu v ?_⟩
        exact (shuffleFirstK_spec e).1.mem_iff.1 hv
      · exact Out.Leads.ok ⟨rfl, hxd, hxu⟩
    · rw [hab.eq, show (a.on d').exampleSampling = a.exampleSampling from rfl,
        show (a.on d').hasNonLocard = a.hasNonLocard from rfl]
      split
      · refine Out.Leads.bind (R := On d d') ?_ fun a2 b2 _ h2 => ?_
        · unfold sampleExamples
          refine .same fun r e => ?_
          obtain ⟨u, r⟩ := r
          exact Out.Leads.ok ⟨rfl, hab.data, hab.useful⟩
        · rw [h2.eq]
          refine .same fun ex _ => .same fun fs e => ?_
          exact updateFeatures_on h g bs true ex fs a2 h2.data h2.useful fun f hf => h2.useful f (prefix_mem e hf)
      · split
        · refine .same fun fs e => ?_
          rw [show (a.on d').data = d' from rfl, hab.data, h.nexamples]
          exact updateFeatures_on h g bs false _ fs a hab.data hab.useful fun f hf => hab.useful f (prefix_mem e hf)
        · exact Out.Leads.ok ⟨rfl, hab.data, hab.useful⟩

/-! ### The learner -/

theorem critOf_on (h : SameFeatures d d' ts ts') (hd : ds.data = d) {f : Nat} (hf : f ≠ d.nfeatures) (b : Nat) :
    critOf F (ds.on d') f b = critOf F ds f b := by
  unfold critOf getSplitValue
  rw [show (ds.on d').data = d' from rfl, h.column hf, hd]
  rfl

theorem scanBins_on (h : SameFeatures d d' ts ts') (hd : ds.data = d) {f : Nat} (hf : f ≠ d.nfeatures) (pg : Num) (pc : Nat)
    (hs : Hists) : ∀ (k b : Nat) (best : Num × Split),
    scanBins F cfg (ds.on d') pg pc hs f k b best = scanBins F cfg ds pg pc hs f k b best
  | 0, _, _ => rfl
  | k + 1, b, best => by
      simp only [scanBins, tryCandidate, critOf_on h hd hf, scanBins_on h hd hf pg pc hs k]

theorem scanFeatures_on (h : SameFeatures d d' ts ts') (hd : ds.data = d) (pg : Num) (pc : Nat) (hs : Hists) :
    ∀ (fs : List Nat) (best : Num × Split), (∀ f ∈ fs, f ≠ d.nfeatures) →
    Learner.scanFeatures F cfg (ds.on d') pg pc hs fs best = Learner.scanFeatures F cfg ds pg pc hs fs best
  | [], _, _ => rfl
  | f :: fs, best, hf => by
      simp only [Learner.scanFeatures, scanBins_on h hd (hf f (by simp))]
      refine bind_congr fun n => bind_congr fun b => ?_
      exact scanFeatures_on h hd pg pc hs fs b fun g hg => hf g (by simp [hg])

theorem findBestSplit_on (h : SameFeatures d d' ts ts') (hd : ds.data = d) (hu : ∀ u ∈ ds.useful, u ≠ d.nfeatures)
    (pg : Num) (pc : Nat) (hs : Hists) :
    findBestSplit F cfg (ds.on d') pg pc hs = findBestSplit F cfg ds pg pc hs := by
  unfold findBestSplit
  rw [show (ds.on d').activeFeatures = ds.activeFeatures from rfl]
  cases e : ds.activeFeatures with
  | panic => rfl
  | ub => rfl
  | ok fs =>
    simp only [Out.ok_bind]
    rw [scanFeatures_on h hd pg pc hs fs _ fun f hf => hu f (prefix_mem e hf)]

theorem histJobs_on : ∀ fs : List Nat, histJobs (ds.on d') fs = histJobs ds fs
  | [] => rfl
  | f :: fs => by
      simp only [histJobs, histJobs_on fs]
      rfl

theorem buildHists_on (w : Nat) (bs : Num × Num) (n : Node) :
    buildHists F cfg (ds.on d') w bs n = buildHists F cfg ds w bs n := by
  unfold buildHists
  simp only [histJobs_on]
  rfl

theorem newHists_on (h : SameFeatures d d' ts ts') : newHists d' = newHists d := by
  have : ∀ l : List Nat, (∀ f ∈ l, f ≠ d.nfeatures) →
      l.foldr (fun f r => do
        let n ← Data.featMaxNbins d' f
        let ns ← r
        return n :: ns) (Out.ok []) = l.foldr (fun f r => do
        let n ← Data.featMaxNbins d f
        let ns ← r
        return n :: ns) (Out.ok []) := by
    intro l
    induction l with
    | nil => intro _; rfl
    | cons f fs ih =>
      intro hf
      simp only [List.foldr_cons]
      rw [ih fun g hg => hf g (by simp [hg])]
      unfold Data.featMaxNbins
      rw [h.cols f (hf f (by simp)), h.maxNbins]
  unfold newHists
  rw [h.nfeatures, this _ fun f hf => (List.mem_range.1 hf).ne]

theorem splitExamples_on (h : SameFeatures d d' ts ts') (hd : ds.data = d) (w : Nat) (p : Node) (c : Nat) (s : Split)
    (neg : Bool) : splitExamples F cfg (ds.on d') w p c s neg = splitExamples F cfg ds w p c s neg := by
  unfold splitExamples
  rw [show (ds.on d').data = d' from rfl, newHists_on h, hd]
  rfl

theorem childNodes_on (h : SameFeatures d d' ts ts') (hd : ds.data = d) (w : Nat) (bs : Num × Num) (p : Node) (s : Split) :
    childNodes F cfg (ds.on d') w bs p s = childNodes F cfg ds w bs p s := by
  unfold childNodes
  simp only [splitExamples_on h hd, buildHists_on]

theorem mapItems_on : ∀ is : List Nat, mapItems (ds.on d') is = mapItems ds is
  | [] => rfl
  | i :: is => by
      simp only [mapItems, mapItems_on is]
      rfl

theorem leafRows_on (is : List Nat) : leafRows (ds.on d') is = leafRows ds is := by
  unfold leafRows
  simp only [mapItems_on]
  rfl

theorem rootNode_on (h : SameFeatures d d' ts ts') (hd : ds.data = d) (w : Nat) {o o' : Objective}
    (hg : o'.gradients = o.gradients) (hb : o'.bounds = o.bounds) :
    rootNode F cfg (ds.on d') w o' = rootNode F cfg ds w o := by
  unfold rootNode
  simp only [buildHists_on, hg, hb]
  rw [show (ds.on d').data = d' from rfl, newHists_on h, hd]
  rfl

/-! ### Objectives -/

/-- The objectives of two runs, with targets `ts` and `ts'`, stay related, have the same gradients and give the leaves the
same values. -/
structure TargetSim (F : FP) (M : Libm) (ts ts' : List Num) (R : Objective → Objective → Prop) : Prop where
  update : ∀ {o o'}, R o o' → Out.Leads R (o.update F M ts) (o'.update F M ts')
  grads : ∀ {o o'}, R o o' → o'.gradients = o.gradients
  bounds : ∀ {o o'}, R o o' → o'.bounds = o.bounds
  leaf : ∀ {o o'}, R o o' → ∀ ex : List Nat, Out.Leads (fun a b => b.1 = a.1 ∧ R a.2 b.2) (o.predictLeafValue F ts ex)
    (o'.predictLeafValue F ts' ex)
  oob : ∀ {o o'}, R o o' → ∀ (i : Nat) (v : Num), Out.Leads R (o.updateOutOfBag F i v) (o'.updateOutOfBag F i v)

variable {M : Libm} {R : Objective → Objective → Prop}

theorem leafFor_on (h : SameFeatures d d' ts ts') (hR : TargetSim F M ts ts' R) (hd : ds.data = d) {o o' : Objective}
    (ho : R o o') (is : List Nat) :
    Out.Leads (fun a b => b.1 = a.1 ∧ R a.2 b.2) (leafFor F ds is o) (leafFor F (ds.on d') is o') := by
  unfold leafFor
  rw [leafRows_on, show (ds.on d').data = d' from rfl, hd, h.targets.1, h.targets.2]
  refine .same fun rows _ => ?_
  simp only [Out.ok_bind]
  exact hR.leaf ho rows

/-- No test of the tree looks at the target. -/
def NoTarget (d : Data) (t : Tree) : Prop := ∀ c ∈ t.splitCrits, c.featureId ≠ d.nfeatures

theorem setValue_crits {t t' : Tree} {n : Nat} {v : Num} (e : t.setValue n v = .ok t') : t'.splitCrits = t.splitCrits := by
  unfold Tree.setValue at e
  obtain ⟨_, _, e⟩ := Out.bind_eq_ok.1 e
  obtain ⟨_, _, e⟩ := Out.bind_eq_ok.1 e
  simp only [Out.pure_eq, Out.ok.injEq] at e
  rw [← e]

theorem splitNode_noTarget {t t' : Tree} {n : Nat} {c : SplitCrit} (h : NoTarget d t) (hc : c.featureId ≠ d.nfeatures)
    (e : t.splitNode n c = .ok t') : NoTarget d t' := by
  unfold Tree.splitNode at e
  split at e
  · cases e
  · obtain ⟨_, _, e⟩ := Out.bind_eq_ok.1 e
    obtain ⟨_, _, e⟩ := Out.bind_eq_ok.1 e
    obtain ⟨_, _, e⟩ := Out.bind_eq_ok.1 e
    simp only [Out.pure_eq, Out.ok.injEq] at e
    intro x hx
    rw [← e] at hx
    rcases List.mem_or_eq_of_mem_set hx with hx | rfl
    · exact h x hx
    · exact hc

theorem noTarget_congr {t t' : Tree} (h : NoTarget d t) (e : t'.splitCrits = t.splitCrits) : NoTarget d t' := by
  unfold NoTarget
  rw [e]
  exact h

/-- Two states of the learner. -/
structure StateOn (d : Data) (R : Objective → Objective → Prop) (s s' : State) : Prop where
  tree : s'.tree = s.tree
  obj : R s.obj s'.obj
  stack : s'.stack = s.stack
  free : NoTarget d s.tree

theorem leafValue_on (h : SameFeatures d d' ts ts') (hR : TargetSim F M ts ts' R) (hd : ds.data = d) {o o' : Objective}
    (ho : R o o') (n : Node) {t : Tree} (ht : NoTarget d t) :
    Out.Leads (fun a b => b.1 = a.1 ∧ R a.2 b.2 ∧ NoTarget d a.1) (leafValue F ds n t o) (leafValue F (ds.on d') n t o') := by
  unfold Learner.leafValue
  refine .same fun is _ => (leafFor_on h hR hd ho is).bind fun a b _ hab => ?_
  rw [hab.1]
  refine .same fun t' e => ?_
  exact Out.Leads.ok ⟨rfl, hab.2, noTarget_congr ht (setValue_crits e)⟩

theorem childLeafValues_on (h : SameFeatures d d' ts ts') (hR : TargetSim F M ts ts' R) (hd : ds.data = d) {o o' : Objective}
    (ho : R o o') (n : Node) (s : Split) {t : Tree} (ht : NoTarget d t) :
    Out.Leads (fun a b => b.1 = a.1 ∧ R a.2 b.2 ∧ NoTarget d a.1) (childLeafValues F ds n s t o)
      (childLeafValues F (ds.on d') n s t o') := by
  unfold childLeafValues
  rw [show (ds.on d').getBitvec = ds.getBitvec from rfl]
  refine .same fun fm _ => .same fun is _ => (leafFor_on h hR hd ho is).bind fun a b _ hab => ?_
  refine .same fun js _ => (leafFor_on h hR hd hab.2 js).bind fun a2 b2 _ hab2 => ?_
  rw [hab.1, hab2.1]
  refine .same fun t1 e1 => .same fun t2 e2 => ?_
  exact Out.Leads.ok ⟨rfl, hab2.2, noTarget_congr (noTarget_congr ht (setValue_crits e1)) (setValue_crits e2)⟩

theorem expand_on (h : SameFeatures d d' ts ts') (hR : TargetSim F M ts ts' R) (hd : ds.data = d)
    (hu : ∀ u ∈ ds.useful, u ≠ d.nfeatures) (w : Nat) (n : Node) {s s' : State} (hs : StateOn d R s s') :
    Out.Leads (StateOn d R) (expand F cfg ds w n s) (expand F cfg (ds.on d') w n s') := by
  obtain ⟨t, o, stack⟩ := s
  obtain ⟨t', o', stack'⟩ := s'
  obtain ⟨h1, ho, h3, ht⟩ := hs
  simp only at h1 ho h3 ht
  subst h1 h3
  unfold expand
  rw [findBestSplit_on h hd hu]
  refine .same fun sp e => ?_
  simp only
  split
  · refine (leafValue_on h hR hd ho n ht).bind fun a b _ hab => ?_
    exact Out.Leads.ok ⟨hab.1, hab.2.1, rfl, hab.2.2⟩
  · rename_i hne
    have hf : sp.crit.featureId ≠ d.nfeatures := by
      obtain ⟨fs, js, v, hfs, hjs, hmem, _⟩ := findBestSplit_some e (by simpa using hne)
      exact hu _ (prefix_mem hfs ((mem_histJobs hjs _ _).1 hmem).1)
    split
    · rw [childNodes_on h hd, hR.bounds ho]
      refine .same fun ch _ => .same fun t2 e2 => ?_
      exact Out.Leads.ok ⟨rfl, ho, rfl, splitNode_noTarget ht hf e2⟩
    · refine (childLeafValues_on h hR hd ho n sp ht).bind fun a b _ hab => ?_
      rw [hab.1]
      refine .same fun t2 e2 => ?_
      exact Out.Leads.ok ⟨rfl, hab.2.1, rfl, splitNode_noTarget hab.2.2 hf e2⟩

theorem loop_on (h : SameFeatures d d' ts ts') (hR : TargetSim F M ts ts' R) (hd : ds.data = d)
    (hu : ∀ u ∈ ds.useful, u ≠ d.nfeatures) (w : Nat) : ∀ (fuel : Nat) (s s' : State), StateOn d R s s' →
    Out.Leads (Option.Rel (StateOn d R)) (loop F cfg ds w fuel s) (loop F cfg (ds.on d') w fuel s')
  | fuel, ⟨t, o, []⟩, ⟨t', o', stack'⟩, hs => by
      have : stack' = [] := hs.stack
      subst this
      unfold loop
      exact Out.Leads.ok (.some hs)
  | 0, ⟨t, o, n :: rest⟩, ⟨t', o', stack'⟩, hs => by
      have : stack' = n :: rest := hs.stack
      subst this
      unfold loop
      exact Out.Leads.ok .none
  | fuel + 1, ⟨t, o, n :: rest⟩, ⟨t', o', stack'⟩, hs => by
      have : stack' = n :: rest := hs.stack
      subst this
      unfold loop
      simp only
      refine Out.Leads.bind (expand_on h hR hd hu w n ⟨hs.tree, hs.obj, rfl, hs.free⟩) fun a b _ hab => ?_
      exact loop_on h hR hd hu w fuel a b hab

theorem leafFrom_on (h : SameFeatures d d' ts ts') {t : Tree} (ht : NoTarget d t) (i : Nat) : ∀ k n,
    t.splitCrits.length - n ≤ k → Tree.leafFrom t d' i n = Tree.leafFrom t d i n
  | k, n, hk => by
      conv_lhs => rw [Tree.leafFrom]
      conv_rhs => rw [Tree.leafFrom]
      split
      · rename_i hn
        have hr : Tree.read d' t.splitCrits[n].featureId i = Tree.read d t.splitCrits[n].featureId i := by
          unfold Tree.read
          rw [h.cols _ (ht _ (List.getElem_mem hn))]
        rw [hr]
        match k with
        | 0 => omega
        | k + 1 =>
          rw [leafFrom_on h ht i k (Tree.leftChild n) (by unfold Tree.leftChild; omega),
            leafFrom_on h ht i k (Tree.rightChild n) (by unfold Tree.rightChild; omega)]
      · rfl

theorem predictSingle_on (h : SameFeatures d d' ts ts') {t : Tree} (ht : NoTarget d t) (i : Nat) :
    t.predictSingle F d' i = t.predictSingle F d i := by
  unfold Tree.predictSingle Tree.predictLeafId
  rw [leafFrom_on h ht i _ _ le_rfl]

theorem outOfBagLoop_on (h : SameFeatures d d' ts ts') (hR : TargetSim F M ts ts' R) {t : Tree} (ht : NoTarget d t) :
    ∀ (is : List Nat) (o o' : Objective), R o o' → Out.Leads R (outOfBagLoop F d t is o) (outOfBagLoop F d' t is o')
  | [], _, _, ho => Out.Leads.ok ho
  | i :: is, o, o', ho => by
      unfold outOfBagLoop
      rw [predictSingle_on h ht]
      refine .same fun p _ => (hR.oob ho i p).bind fun a b _ hab => ?_
      exact outOfBagLoop_on h hR ht is a b hab

theorem train_on (h : SameFeatures d d' ts ts') (hR : TargetSim F M ts ts' R) (hnf : 0 < d.nfeatures) (hd : ds.data = d)
    (hu : ∀ u ∈ ds.useful, u ≠ d.nfeatures) (sc : List (List Nat)) (fuel : Nat) {o o' : Objective} (ho : R o o') :
    Out.Leads (Option.Rel fun a b => b.1 = a.1 ∧ R a.2 b.2) (train F cfg ds sc o fuel) (train F cfg (ds.on d') sc o' fuel) := by
  unfold Learner.train
  refine .same fun w _ => ?_
  refine Out.Leads.bind (R := StateOn d R) ?_ fun a b _ hab => ?_
  · unfold start
    rw [rootNode_on h hd w (hR.grads ho) (hR.bounds ho)]
    refine .same fun t e => .same fun root _ => Out.Leads.ok ⟨rfl, ho, rfl, ?_⟩
    unfold Tree.new at e
    obtain ⟨_, _, e⟩ := Out.bind_eq_ok.1 e
    simp only [Out.pure_eq, Out.ok.injEq] at e
    rw [← e]
    intro c hc
    rw [List.eq_of_mem_replicate hc]
    exact hnf.ne
  · refine (loop_on h hR hd hu w fuel a b hab).bind fun r r' _ hr => ?_
    cases hr with
    | none => exact Out.Leads.ok .none
    | @some s s' hs =>
      simp only
      refine Out.Leads.bind (R := R) ?_ fun a b _ hab => Out.Leads.ok (.some ⟨hs.tree, hab⟩)
      unfold outOfBag
      rw [show (ds.on d').exampleSampling = ds.exampleSampling from rfl, hs.tree]
      split
      · unfold inactiveExamples
        rw [show (ds.on d').data = d' from rfl, h.nexamples, hd]
        refine Out.Leads.bind (R := Eq) (Out.Leads.of_eq rfl) fun x y _ e => ?_
        subst e
        exact outOfBagLoop_on h hR hs.free _ _ _ hs.obj
      · exact Out.Leads.ok hs.obj

/-! ### Whole runs -/

/-- Two boosters. -/
structure BoostOn (d d' : Data) (R : Objective → Objective → Prop) (same : Prop) (b b' : Booster) : Prop where
  data : On d d' b.dataset b'.dataset
  obj : R b.objective b'.objective
  iter : b'.iterCount = b.iterCount
  trees : b'.ensemble.trees = b.ensemble.trees
  bias : ∃ o o', R o o' ∧ b.ensemble.bias = o.bias ∧ b'.ensemble.bias = o'.bias
  printed : same → b'.printed = b.printed

theorem trainOneIter_on (h : SameFeatures d d' ts ts') (hR : TargetSim F M ts ts' R) (hnf : 0 < d.nfeatures)
    {metrics : List Metric} {same : Prop}
    (hm : same → ∀ m ∈ metrics, ∀ o o', R o o' → m.eval F M ts' o'.predictions = m.eval F M ts o.predictions)
    {b b' : Booster} (hb : BoostOn d d' R same b b') :
    Out.Leads (BoostOn d d' R same) (Booster.trainOneIter F M cfg d metrics b) (Booster.trainOneIter F M cfg d' metrics b') := by
  unfold Booster.trainOneIter
  rw [h.targets.1, h.targets.2]
  simp only [Out.ok_bind]
  refine (hR.update hb.obj).bind fun o o' _ ho => ?_
  refine Out.Leads.bind (R := On d d') ?_ fun ds ds' _ hds => ?_
  · rw [hb.data.eq, hR.grads ho, hR.bounds ho]
    exact update_on h hb.data.data hb.data.useful _ _
  · refine Out.Leads.bind (R := fun a b => b.1 = a.1 ∧ R a.2 b.2) ?_ fun r r' _ hr => ?_
    · unfold Booster.learnTree
      rw [hds.eq]
      refine (train_on h hR hnf hds.data hds.useful _ _ ho).bind fun x y _ hxy => ?_
      cases hxy with
      | none => intro a e; cases e
      | some hp => exact Out.Leads.ok hp
    · refine Out.Leads.ok ⟨hds, hr.2, by simp only [hb.iter], ?_, hb.bias, fun hs => ?_⟩
      · simp only [AdditiveTree.pushTree, hb.trees, hr.1]
      · simp only
        rw [hb.printed hs, hb.iter]
        congr 1
        unfold Booster.evalMetrics
        split
        · refine List.map_congr_left fun m hmm => ?_
          rw [hm hs m hmm _ _ hr.2]
        · rfl

theorem iterate_on (h : SameFeatures d d' ts ts') (hR : TargetSim F M ts ts' R) (hnf : 0 < d.nfeatures)
    {metrics : List Metric} {same : Prop}
    (hm : same → ∀ m ∈ metrics, ∀ o o', R o o' → m.eval F M ts' o'.predictions = m.eval F M ts o.predictions) :
    ∀ (n : Nat) (b b' : Booster), BoostOn d d' R same b b' →
    Out.Leads (BoostOn d d' R same) (Booster.iterate F M cfg d metrics n b) (Booster.iterate F M cfg d' metrics n b')
  | 0, _, _, hb => Out.Leads.ok hb
  | n + 1, b, b', hb => by
      unfold Booster.iterate
      exact (trainOneIter_on h hR hnf hm hb).bind fun x y _ hxy => iterate_on h hR hnf hm n x y hxy

theorem run_on (h : SameFeatures d d' ts ts') (hR : TargetSim F M ts ts' R) (hnf : 0 < d.nfeatures)
    {metrics : List Metric} {same : Prop}
    (hm : same → ∀ m ∈ metrics, ∀ o o', R o o' → m.eval F M ts' o'.predictions = m.eval F M ts o.predictions)
    {o : Objective} (hinit : Out.Leads R (o.init F M cfg ts) (o.init F M cfg ts')) (rng : Rng) :
    Out.Leads (BoostOn d d' R same) (Booster.run F M cfg d rng metrics o) (Booster.run F M cfg d' rng metrics o) := by
  unfold Booster.run Booster.new
  rw [Out.bind_assoc, Out.bind_assoc]
  refine (new_on h rng).bind fun ds ds' _ hds => ?_
  simp only [Out.pure_eq, Out.ok_bind]
  unfold Booster.train Booster.prepare
  refine Out.Leads.same fun _ _ => ?_
  rw [h.targets.1, h.targets.2]
  simp only [Out.ok_bind]
  refine Out.Leads.bind (R := BoostOn d d' R same) ?_ fun a b _ hab => iterate_on h hR hnf hm _ _ _ hab
  refine hinit.bind fun o1 o2 _ ho => Out.Leads.ok ⟨hds, ho, rfl, rfl, ⟨o1, o2, ho, rfl, rfl⟩, fun _ => rfl⟩

end
end BitBoost
