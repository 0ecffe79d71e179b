import Verif.Spec.SettingsUsed
import Verif.Lemmas.RowOrder
import Verif.Lemmas.DatasetInv
/-! Helper lemmas: which settings training reads; runs with another random generator. -/
namespace BitBoost
open Spec Dataset Learner

variable {F : FP} {M : Libm} {c c' : Config} {d : Data}

/-! ### Settings -/

namespace Spec.SameLearner

theorem getLoss (h : SameLearner c c') : Learner.getLoss F c' = Learner.getLoss F c := by
  funext g n; simp only [Learner.getLoss, h.regLambda]

theorem gain (h : SameLearner c c') : Learner.gain F c' = Learner.gain F c := by
  funext pg pc l; simp only [Learner.gain, h.getLoss]

theorem tryCandidate (h : SameLearner c c') : Learner.tryCandidate F c' = Learner.tryCandidate F c := by
  funext ds pg pc f b v best; simp only [Learner.tryCandidate, h.gain, h.minExamplesLeaf]

theorem scanBins (h : SameLearner c c') (ds : Dataset) (pg : Num) (pc : Nat) (hs : Hists) (f : Nat) : ∀ (k b : Nat) (best : Num × Split),
    Learner.scanBins F c' ds pg pc hs f k b best = Learner.scanBins F c ds pg pc hs f k b best
  | 0, _, _ => rfl
  | k + 1, b, best => by simp only [Learner.scanBins, h.tryCandidate, scanBins h ds pg pc hs f k]

theorem scanFeatures (h : SameLearner c c') (ds : Dataset) (pg : Num) (pc : Nat) (hs : Hists) : ∀ (fs : List Nat) (best : Num × Split),
    Learner.scanFeatures F c' ds pg pc hs fs best = Learner.scanFeatures F c ds pg pc hs fs best
  | [], _ => rfl
  | f :: fs, best => by simp only [Learner.scanFeatures, h.scanBins, scanFeatures h ds pg pc hs fs]

theorem findBestSplit (h : SameLearner c c') : Learner.findBestSplit F c' = Learner.findBestSplit F c := by
  funext ds pg pc hs; simp only [Learner.findBestSplit, h.scanFeatures, h.minGain]

theorem gradSum (h : SameLearner c c') : Learner.gradSum F c' = Learner.gradSum F c := by
  funext w bs n m; simp only [Learner.gradSum, h.minExamplesLeaf]

theorem histJob (h : SameLearner c c') : Learner.histJob F c' = Learner.histJob F c := by
  funext ds w bs n f b; simp only [Learner.histJob, h.gradSum]

theorem buildHists (h : SameLearner c c') : Learner.buildHists F c' = Learner.buildHists F c := by
  funext ds w bs n; simp only [Learner.buildHists, h.histJob]

theorem rootNode (h : SameLearner c c') : Learner.rootNode F c' = Learner.rootNode F c := by
  funext ds w o; simp only [Learner.rootNode, h.buildHists]

theorem shouldCompress (h : SameLearner c c') : Learner.shouldCompress F c' = Learner.shouldCompress F c := by
  funext z n; simp only [Learner.shouldCompress, h.compressionThreshold]

theorem splitExamples (h : SameLearner c c') : Learner.splitExamples F c' = Learner.splitExamples F c := by
  funext ds w p i s neg; simp only [Learner.splitExamples, h.shouldCompress]

theorem childNodes (h : SameLearner c c') : Learner.childNodes F c' = Learner.childNodes F c := by
  funext ds w bs p s; simp only [Learner.childNodes, h.splitExamples, h.buildHists]

theorem expand (h : SameLearner c c') : Learner.expand F c' = Learner.expand F c := by
  funext ds w n st; simp only [Learner.expand, h.findBestSplit, h.childNodes]

theorem loop (h : SameLearner c c') (ds : Dataset) (w : Nat) : ∀ (k : Nat) (st : State),
    Learner.loop F c' ds w k st = Learner.loop F c ds w k st
  | 0, st => by unfold Learner.loop; rfl
  | k + 1, st => by
      unfold Learner.loop
      split
      · rfl
      · simp only [h.expand, loop h ds w k]

theorem train (h : SameLearner c c') : Learner.train F c' = Learner.train F c := by
  funext ds sc o k
  simp only [Learner.train, Learner.width, Learner.start, h.discrNbits, h.maxTreeDepth, h.rootNode, h.loop]

theorem learnTree (h : SameLearner c c') : Booster.learnTree F c' = Booster.learnTree F c := by
  funext ds o
  simp only [Booster.learnTree, h.train, h.maxTreeDepth]

theorem updateFeature (h : SameLearner c c') : Dataset.updateFeature F c' = Dataset.updateFeature F c := by
  funext g bs bagged ex f ds
  simp only [Dataset.updateFeature, Dataset.updateHicard, Dataset.updateNum, h.maxNbins]

theorem updateFeatures (h : SameLearner c c') (g : List Num) (bs : Num × Num) (bagged : Bool) (ex : List Nat) :
    ∀ (fs : List Nat) (ds : Dataset), Dataset.updateFeatures F c' g bs bagged ex fs ds = Dataset.updateFeatures F c g bs bagged ex fs ds
  | [], _ => rfl
  | f :: fs, ds => by simp only [Dataset.updateFeatures, h.updateFeature, updateFeatures h g bs bagged ex fs]

theorem update (h : SameLearner c c') : Dataset.update F c' = Dataset.update F c := by
  funext ds g bs
  simp only [Dataset.update, Dataset.refresh, h.sampleFreq, h.updateFeatures]

theorem new (h : SameLearner c c') : Dataset.new F c' = Dataset.new F c := by
  funext d r
  simp only [Dataset.new, Dataset.inner, h.exampleFraction, h.featureFraction]

theorem init (h : SameLearner c c') {o : Objective} (ho : SameObjective o.kind c c') (ts : List Num) :
    o.init F M c' ts = o.init F M c ts := by
  unfold Objective.init Objective.initializeBase
  simp only [h.learningRate, h.discrNbits]
  cases e : o.kind with
  | huber => simp only [ho.huber e]
  | binary => simp only [ho.binary e]
  | _ => rfl

end Spec.SameLearner

/-! ### Another random generator -/

/-- The data set with another random generator. -/
def Dataset.reseed (r : Rng) (ds : Dataset) : Dataset := { ds with rng := r }

/-- The same data set but for the random generator; no sampling. -/
structure Dataset.Reseeded (a b : Dataset) : Prop where
  eq : ∃ r, b = a.reseed r
  rows : a.exampleSampling = false
  feats : a.featureSampling = false

section
variable {ds : Dataset} {r : Rng}

theorem updateLocard_seed (f : Nat) (ex : List Nat) (he : ds.exampleSampling = false) (hf : ds.featureSampling = false) :
    Out.Leads Reseeded (updateLocard ds f ex) (updateLocard (ds.reseed r) f ex) := by
  unfold updateLocard
  refine .same fun c _ => .same fun b _ => .same fun v _ => .same fun m _ => .same fun _ _ => ?_
  exact Out.Leads.ok ⟨⟨r, rfl⟩, he, hf⟩

theorem initLocard_seed (ex : List Nat) : ∀ (fs : List Nat) (ds : Dataset) (r : Rng), ds.exampleSampling = false →
    ds.featureSampling = false → Out.Leads Reseeded (initLocard ex fs ds) (initLocard ex fs (ds.reseed r))
  | [], ds, r, he, hf => Out.Leads.ok ⟨⟨r, rfl⟩, he, hf⟩
  | f :: fs, ds, r, he, hf => by
      simp only [initLocard]
      refine Out.Leads.bind (R := Reseeded) ?_ fun a b _ hab => ?_
      · simp only [initFeature]
        refine .same fun c _ => ?_
        split
        · exact updateLocard_seed f ex he hf
        · exact Out.Leads.ok ⟨⟨r, rfl⟩, he, hf⟩
      · obtain ⟨r', e⟩ := hab.eq
        rw [e]
        exact initLocard_seed ex fs a r' hab.rows hab.feats

theorem updateFeatures_seed (g : List Num) (bs : Num × Num) (bagged : Bool) (ex : List Nat) : ∀ (fs : List Nat) (ds : Dataset) (r : Rng),
    ds.exampleSampling = false → ds.featureSampling = false →
    Out.Leads Reseeded (updateFeatures F c g bs bagged ex fs ds) (updateFeatures F c g bs bagged ex fs (ds.reseed r))
  | [], ds, r, he, hf => Out.Leads.ok ⟨⟨r, rfl⟩, he, hf⟩
  | f :: fs, ds, r, he, hf => by
      simp only [updateFeatures]
      refine Out.Leads.bind (R := Reseeded) ?_ fun a b _ hab => ?_
      · unfold updateFeature
        refine .same fun c _ => ?_
        cases c.ftype with
        | loCardCat =>
          simp only
          split
          · exact updateLocard_seed f ex he hf
          · exact Out.Leads.ok ⟨⟨r, rfl⟩, he, hf⟩
        | hiCardCat =>
          simp only
          unfold updateHicard
          refine .same fun c _ => .same fun b _ => .same fun v _ => .same fun m _ => .same fun _ _ => .same fun _ _ =>
            .same fun _ _ => .same fun _ _ => .same fun _ _ => ?_
          exact Out.Leads.ok ⟨⟨r, rfl⟩, he, hf⟩
        | numerical =>
          simp only
          unfold updateNum
          refine .same fun c _ => .same fun b _ => .same fun v _ => .same fun m _ => .same fun _ _ => .same fun _ _ =>
            .same fun _ _ => .same fun _ _ => .same fun _ _ => ?_
          exact Out.Leads.ok ⟨⟨r, rfl⟩, he, hf⟩
      · obtain ⟨r', e⟩ := hab.eq
        rw [e]
        exact updateFeatures_seed g bs bagged ex fs a r' hab.rows hab.feats

theorem update_seed (g : List Num) (bs : Num × Num) (he : ds.exampleSampling = false) (hf : ds.featureSampling = false) :
    Out.Leads Reseeded (ds.update F c g bs) ((ds.reseed r).update F c g bs) := by
  unfold Dataset.update
  simp only
  rw [show initSupercats { ds.reseed r with updateCount := (ds.reseed r).updateCount + 1 } =
      (initSupercats { ds with updateCount := ds.updateCount + 1 }).reseed r from rfl]
  generalize hx : initSupercats { ds with updateCount := ds.updateCount + 1 } = x
  have hxe : x.exampleSampling = false := by rw [← hx]; exact he
  have hxf : x.featureSampling = false := by rw [← hx]; exact hf
  rw [show (x.reseed r).updateCount = x.updateCount from rfl]
  split
  · exact Out.Leads.ok ⟨⟨r, rfl⟩, hxe, hxf⟩
  · unfold refresh sampleFeatures
    rw [show (x.reseed r).featureSampling = x.featureSampling from rfl, hxf]
    simp only [Bool.false_eq_true, if_false, Out.ok_bind]
    rw [show (x.reseed r).exampleSampling = x.exampleSampling from rfl, hxe, show (x.reseed r).hasNonLocard = x.hasNonLocard from rfl]
    simp only [Bool.false_eq_true, if_false]
    split
    · refine .same fun fs _ => ?_
      exact updateFeatures_seed g bs false _ fs x r hxe hxf
    · exact Out.Leads.ok ⟨⟨r, rfl⟩, hxe, hxf⟩

theorem scanBins_seed (pg : Num) (pc : Nat) (hs : Hists) (f : Nat) : ∀ (k b : Nat) (best : Num × Split),
    scanBins F c (ds.reseed r) pg pc hs f k b best = scanBins F c ds pg pc hs f k b best
  | 0, _, _ => rfl
  | k + 1, b, best => by
      simp only [scanBins, scanBins_seed pg pc hs f k]
      rfl

theorem scanFeatures_seed (pg : Num) (pc : Nat) (hs : Hists) : ∀ (fs : List Nat) (best : Num × Split),
    Learner.scanFeatures F c (ds.reseed r) pg pc hs fs best = Learner.scanFeatures F c ds pg pc hs fs best
  | [], _ => rfl
  | f :: fs, best => by
      simp only [Learner.scanFeatures, scanBins_seed, scanFeatures_seed pg pc hs fs]
      rfl

theorem histJobs_seed : ∀ fs : List Nat, histJobs (ds.reseed r) fs = histJobs ds fs
  | [] => rfl
  | f :: fs => by
      simp only [histJobs, histJobs_seed fs]
      rfl

theorem buildHists_seed (w : Nat) (bs : Num × Num) (n : Node) :
    buildHists F c (ds.reseed r) w bs n = buildHists F c ds w bs n := by
  unfold buildHists
  simp only [histJobs_seed]
  rfl

theorem findBestSplit_seed (pg : Num) (pc : Nat) (hs : Hists) :
    findBestSplit F c (ds.reseed r) pg pc hs = findBestSplit F c ds pg pc hs := by
  unfold findBestSplit
  simp only [scanFeatures_seed]
  rfl

theorem childNodes_seed (w : Nat) (bs : Num × Num) (p : Node) (s : Split) :
    childNodes F c (ds.reseed r) w bs p s = childNodes F c ds w bs p s := by
  unfold childNodes
  simp only [buildHists_seed]
  rw [show splitExamples F c (ds.reseed r) = splitExamples F c ds from rfl]

theorem mapItems_seed : ∀ is : List Nat, mapItems (ds.reseed r) is = mapItems ds is
  | [] => rfl
  | i :: is => by
      simp only [mapItems, mapItems_seed is]
      rfl

theorem leafFor_seed (is : List Nat) (o : Objective) : leafFor F (ds.reseed r) is o = leafFor F ds is o := by
  unfold leafFor leafRows
  simp only [mapItems_seed]
  rfl

theorem expand_seed (w : Nat) (n : Node) (s : State) : expand F c (ds.reseed r) w n s = expand F c ds w n s := by
  unfold expand leafValue childLeafValues
  simp only [findBestSplit_seed, childNodes_seed, leafFor_seed]
  rw [show (ds.reseed r).getBitvec = ds.getBitvec from rfl]

theorem loop_seed (w : Nat) : ∀ (k : Nat) (st : State), loop F c (ds.reseed r) w k st = loop F c ds w k st
  | 0, st => by unfold loop; rfl
  | k + 1, st => by
      unfold loop
      split
      · rfl
      · simp only [expand_seed, loop_seed w k]

theorem train_seed (sc : List (List Nat)) (o : Objective) (k : Nat) : train F c (ds.reseed r) sc o k = train F c ds sc o k := by
  unfold train start rootNode outOfBag
  simp only [buildHists_seed, loop_seed]
  rfl

theorem learnTree_seed (o : Objective) : Booster.learnTree F c (ds.reseed r) o = Booster.learnTree F c ds o := by
  unfold Booster.learnTree
  rw [train_seed]
  rfl

/-! ### Whole runs -/

/-- The same data set, or, without sampling, one with another random generator. -/
def SameView (a b : Dataset) : Prop := b = a ∨ Reseeded a b

theorem SameView.update {a b : Dataset} (h : SameView a b) (g : List Num) (bs : Num × Num) :
    Out.Leads SameView (a.update F c g bs) (b.update F c g bs) := by
  rcases h with rfl | h
  · exact (Out.Leads.refl _).mono fun x y _ _ e => .inl e.symm
  · obtain ⟨r, rfl⟩ := h.eq
    exact (update_seed g bs h.rows h.feats).mono fun x y _ _ e => .inr e

theorem SameView.learnTree {a b : Dataset} (h : SameView a b) (o : Objective) :
    Booster.learnTree F c b o = Booster.learnTree F c a o := by
  rcases h with rfl | h
  · rfl
  · obtain ⟨r, rfl⟩ := h.eq
    exact learnTree_seed o

/-- The same model so far. -/
structure SameModel (same : Prop) (b b' : Booster) : Prop where
  data : SameView b.dataset b'.dataset
  obj : b'.objective = b.objective
  iter : b'.iterCount = b.iterCount
  ens : b'.ensemble = b.ensemble
  printed : same → b'.printed = b.printed

theorem trainOneIter_same {same : Prop} {metrics metrics' : List Metric} (h : SameLearner c c')
    (hp : same → metrics' = metrics ∧ c'.metricFrequency = c.metricFrequency) {b b' : Booster} (hb : SameModel same b b') :
    Out.Leads (SameModel same) (Booster.trainOneIter F M c d metrics b) (Booster.trainOneIter F M c' d metrics' b') := by
  unfold Booster.trainOneIter
  rw [hb.obj, h.update, h.learnTree]
  refine .same fun t _ => .same fun o _ => ?_
  refine (hb.data.update _ _).bind fun x y _ hxy => ?_
  rw [hxy.learnTree]
  refine .same fun q _ => Out.Leads.ok ⟨hxy, rfl, by simp only [hb.iter], by simp only [hb.ens], fun hs => ?_⟩
  simp only
  rw [hb.printed hs, hb.iter]
  congr 1
  unfold Booster.evalMetrics Booster.runMetrics
  rw [(hp hs).1, (hp hs).2]

theorem iterate_same {same : Prop} {metrics metrics' : List Metric} (h : SameLearner c c')
    (hp : same → metrics' = metrics ∧ c'.metricFrequency = c.metricFrequency) : ∀ (n : Nat) (b b' : Booster), SameModel same b b' →
    Out.Leads (SameModel same) (Booster.iterate F M c d metrics n b) (Booster.iterate F M c' d metrics' n b')
  | 0, _, _, hb => Out.Leads.ok hb
  | n + 1, b, b', hb => by
      unfold Booster.iterate
      exact (trainOneIter_same h hp hb).bind fun x y _ hxy => iterate_same h hp n x y hxy

theorem new_same {r r' : Rng} (h : SameLearner c c')
    (hr : r' = r ∨ c.exampleFraction = .fin 1 ∧ c.featureFraction = .fin 1 ∧ d.nfeatures ≤ 2 ^ 24) :
    Out.Leads SameView (Dataset.new F c d r) (Dataset.new F c' d r') := by
  rw [h.new]
  rcases hr with rfl | ⟨h1, h2, h3⟩
  · exact (Out.Leads.refl _).mono fun x y _ _ e => .inl e.symm
  · unfold Dataset.new inner
    rw [Out.bind_assoc, Out.bind_assoc]
    refine .same fun q e => ?_
    obtain ⟨u, bv, nl⟩ := q
    simp only [Out.pure_eq, Out.ok_bind]
    rw [if_neg (by rw [h1]; decide +kernel), if_neg (by rw [h1]; decide +kernel)]
    refine (initLocard_seed _ u _ r' rfl ?_).mono fun x y _ _ e => .inr e
    have hs := scanFeatures_spec d _ _ _ u bv nl e
    have hu : u.length ≤ 2 ^ 24 := by
      have hsub : u ⊆ List.range d.nfeatures := fun f hf => List.mem_range.2 (by have := hs.2.2.1 f hf; omega)
      have hnd : u.Nodup := hs.2.1.imp fun hlt => hlt.ne
      have := (hnd.subperm hsub).length_le
      rw [List.length_range] at this
      omega
    simp only [featureSampling, decide_eq_false_iff_not, not_lt]
    rw [h2]
    unfold share
    rw [F.ofNat_eq hu, FP.mul_fin, mul_one, F.rnd_nat hu]
    simp only [Num.round, Num.toUsize, Num.cast]
    rw [show ((u.length : ℕ) : ℚ) = ((u.length : ℤ) : ℚ) by push_cast; rfl, Num.roundAway_int, Num.trunc_int]
    omega

theorem run_same {same : Prop} {metrics metrics' : List Metric} {o : Objective} {r r' : Rng} (h : SameLearner c c')
    (ho : SameObjective o.kind c c') (hp : same → metrics' = metrics ∧ c'.metricFrequency = c.metricFrequency)
    (hr : r' = r ∨ c.exampleFraction = .fin 1 ∧ c.featureFraction = .fin 1 ∧ d.nfeatures ≤ 2 ^ 24)
    (hn : c'.niterations = c.niterations) :
    Out.Leads (SameModel same) (Booster.run F M c d r metrics o) (Booster.run F M c' d r' metrics' o) := by
  unfold Booster.run Booster.new
  rw [Out.bind_assoc, Out.bind_assoc]
  refine (new_same h hr).bind fun ds ds' _ hds => ?_
  simp only [Out.pure_eq, Out.ok_bind]
  unfold Booster.train Booster.prepare
  refine .same fun _ _ => ?_
  rw [hn]
  refine Out.Leads.bind (R := SameModel same) ?_ fun a b _ hab => iterate_same h hp _ _ _ hab
  refine .same fun t _ => ?_
  simp only [h.init ho]
  exact .same fun o1 _ => Out.Leads.ok ⟨hds, rfl, rfl, rfl, fun _ => rfl⟩

end
end BitBoost
