import Verif.Lemmas.Boost
import Verif.Lemmas.LearnerSafe
import Verif.Props.Safety
/-! Helper lemmas: a training run performs no raw access out of bounds. -/
namespace BitBoost
open Props (safe_bind safe_assert safe_ok safe_of_ok)

/-- Take a function apart at its binds and branches. -/
macro "out_safe" : tactic => `(tactic| repeat' first
  | exact trivial | assumption | apply safe_bind | (intro _ _) | split
  | (dsimp only [Out.pure_eq]; exact trivial))

theorem safe_pure {α : Type} (a : α) : (pure a : Out α).safe := trivial

theorem assert_safe (c : Bool) : (Out.assert c).safe := by cases c <;> trivial

theorem at?_safe {α : Type} (l : List α) (i : Nat) : (at? l i).safe := by
  unfold at?; split <;> trivial

theorem objIndex_safe {α : Type} (l : List α) (i : Nat) : (Objective.index l i).safe := by
  unfold Objective.index; split <;> trivial

theorem prefix_safe {α : Type} (l : List α) (n : Nat) : (Dataset.prefix' l n).safe := by
  unfold Dataset.prefix'; split <;> trivial

theorem enableBit_safe (b : Blocks) (i : Nat) : (Blocks.enableBit b i).safe := by
  unfold Blocks.enableBit
  split
  · refine safe_bind ?_ fun _ _ => trivial
    unfold BitBlock.enableBit
    split <;> trivial
  · trivial

/-- `out_safe` with the lemmas about the small functions. -/
macro "out_safe'" : tactic => `(tactic| repeat' first
  | exact trivial | assumption | exact safe_pure _ | exact assert_safe _ | exact at?_safe _ _
  | exact objIndex_safe _ _ | exact prefix_safe _ _
  | exact enableBit_safe _ _ | apply safe_bind | (intro _ _) | split)

/-! ## The binner -/
namespace Binner
variable {β : Type}

theorem new_safe (F : FP) (bins : List β) (lo hi : Num) : (Binner.new F bins lo hi).safe := by
  unfold Binner.new; out_safe'

theorem insert_safe {δ : Type} (F : FP) (comb : δ → β → β) (b : Binner β) (v : Num) (d : δ) :
    (Binner.insert F comb b v d).safe := by
  unfold Binner.insert; dsimp only; out_safe'

theorem insertAll_safe {δ : Type} (F : FP) (comb : δ → β → β) : ∀ (l : List (Num × δ)) (b : Binner β),
    (Binner.insertAll F comb b l).safe
  | [], _ => trivial
  | (v, d) :: l, b => safe_bind (insert_safe F comb b v d) fun b' _ => insertAll_safe F comb l b'

theorem rankNext_safe {R : Type} (o : RankOps R) (ext : β → R) (bins : List β) (s : RankState R) (rank : R) :
    (rankNext o ext bins s rank).safe := by
  unfold rankNext; dsimp only; split <;> trivial

theorem rankIter_safe {R : Type} (o : RankOps R) (ext : β → R) (bins : List β) : ∀ (rs : List R) (s : RankState R),
    (rankIter o ext bins rs s).safe
  | [], _ => trivial
  | r :: rs, s => safe_bind (rankNext_safe o ext bins s r) fun p _ =>
      safe_bind (rankIter_safe o ext bins rs p.2) fun _ _ => trivial

theorem binWithRank_safe {R : Type} (o : RankOps R) (ext : β → R) (bins : List β) (rank : R) :
    (binWithRank o ext bins rank).safe := safe_bind (rankNext_safe _ _ _ _ _) fun _ _ => trivial

end Binner

/-! ## Objectives -/
namespace Objective

theorem quantile_safe (F : FP) (q : Num) (l : Num × Num) (vs : List Num) : (quantile F q l vs).safe := by
  unfold quantile
  refine safe_bind (Binner.new_safe _ _ _ _) fun b _ => ?_
  refine safe_bind (Binner.insertAll_safe _ _ _ _) fun b _ => ?_
  exact safe_bind (Binner.binWithRank_safe _ _ _ _) fun _ _ => trivial

theorem init_safe (F : FP) (M : Libm) (o : Objective) (c : Config) (ts : List Num) : (o.init F M c ts).safe := by
  unfold init median
  dsimp only
  have := fun q l vs => quantile_safe F q l vs
  split
  · trivial
  · exact safe_bind (this _ _ _) fun _ _ => trivial
  · exact safe_bind (this _ _ _) fun _ _ => safe_bind (assert_safe _) fun _ _ => trivial
  · trivial
  · exact safe_bind (assert_safe _) fun _ _ => trivial

theorem update_safe (F : FP) (M : Libm) (o : Objective) (ts : List Num) : (o.update F M ts).safe := by
  unfold update
  refine safe_bind (assert_safe _) fun _ _ => safe_bind (assert_safe _) fun _ _ => ?_
  dsimp only
  split
  · trivial
  · trivial
  · exact safe_bind (quantile_safe _ _ _ _) fun _ _ => trivial
  · trivial
  · trivial

theorem forExamples_safe {α : Type} {f : Nat → Out α} (hf : ∀ i, (f i).safe) : ∀ is, (forExamples f is).safe
  | [] => trivial
  | i :: is => safe_bind (hf i) fun _ _ => safe_bind (forExamples_safe hf is) fun _ _ => trivial

theorem targetPred_safe (o : Objective) (ts : List Num) (i : Nat) : (targetPred o ts i).safe := by
  unfold targetPred; out_safe'

theorem residuals_safe (F : FP) (o : Objective) (ts : List Num) (ex : List Nat) : (residuals F o ts ex).safe := by
  unfold residuals
  apply forExamples_safe
  intro i
  exact safe_bind (targetPred_safe _ _ _) fun _ _ => trivial

theorem addLoop_safe (F : FP) (v : Num) : ∀ (is : List Nat) (ps : List Num), (addLoop F v is ps).safe
  | [], _ => trivial
  | i :: is, ps => by
    unfold addLoop
    split
    · trivial
    · exact safe_bind (assert_safe _) fun _ _ => addLoop_safe F v is _

theorem leafValue_safe (F : FP) (o : Objective) (ts : List Num) (ex : List Nat) : (leafValue F o ts ex).safe := by
  unfold leafValue median
  split
  · exact safe_bind (residuals_safe _ _ _ _) fun _ _ => trivial
  · exact safe_bind (residuals_safe _ _ _ _) fun _ _ => quantile_safe _ _ _ _
  · exact safe_bind (residuals_safe _ _ _ _) fun _ _ => safe_bind (quantile_safe _ _ _ _) fun _ _ => trivial
  · exact safe_bind (forExamples_safe (fun i => objIndex_safe _ _) _) fun _ _ => trivial
  · exact safe_bind (forExamples_safe (fun i => targetPred_safe _ _ _) _) fun _ _ => trivial

theorem predictLeafValue_safe (F : FP) (o : Objective) (ts : List Num) (ex : List Nat) :
    (predictLeafValue F o ts ex).safe := by
  unfold predictLeafValue updatePredictions
  exact safe_bind (leafValue_safe _ _ _ _) fun _ _ => safe_bind (addLoop_safe _ _ _ _) fun _ _ => trivial

theorem updateOutOfBag_safe (F : FP) (o : Objective) (i : Nat) (v : Num) : (updateOutOfBag F o i v).safe := by
  unfold updateOutOfBag; out_safe'

end Objective

/-! ## Trees -/
namespace Tree

theorem new_safe (n : Nat) (sc : List (List Nat)) : (Tree.new n sc).safe := by
  unfold Tree.new; out_safe'

theorem setValue_safe (t : Tree) (n : Nat) (v : Num) : (t.setValue n v).safe := by
  unfold Tree.setValue; out_safe'

theorem splitNode_safe (t : Tree) (n : Nat) (c : SplitCrit) : (t.splitNode n c).safe := by
  unfold Tree.splitNode; out_safe'

theorem test_safe (sc : List (List Nat)) (c : SplitCrit) (v : Num) : (Tree.test sc c v).safe := by
  unfold Tree.test; out_safe'

theorem read_safe (d : Data) (f i : Nat) : (Tree.read d f i).safe := by
  unfold Tree.read; split <;> trivial

theorem leafFrom_safe (t : Tree) (d : Data) (i : Nat) : ∀ (k n : Nat), t.splitCrits.length - n ≤ k →
    (t.leafFrom d i n).safe := by
  intro k
  induction k with
  | zero => intro n hn; rw [Tree.leafFrom, dif_neg (by omega)]; trivial
  | succ k ih =>
    intro n hn
    rw [Tree.leafFrom]
    split
    · rename_i hlt
      have h1 := read_safe d t.splitCrits[n].featureId i
      split
      · rename_i v _
        have h2 := test_safe t.supercats t.splitCrits[n] v
        split
        · exact ih _ (by simp only [leftChild]; omega)
        · exact ih _ (by simp only [rightChild]; omega)
        · trivial
        · trivial
        · rename_i e; rw [e] at h2; exact h2
      · trivial
      · rename_i e; rw [e] at h1; exact h1
    · trivial

theorem predictSingle_safe (F : FP) (t : Tree) (d : Data) (i : Nat) : (t.predictSingle F d i).safe := by
  unfold predictSingle predictLeafId nodeValue
  refine safe_bind (leafFrom_safe t d i _ 0 (Nat.le_refl _)) fun _ _ => ?_
  refine safe_bind ?_ fun _ _ => trivial
  split <;> trivial

theorem predictLoop_safe (F : FP) (t : Tree) (d : Data) (f : Num → Num → Num) : ∀ (buf : List Num) (i : Nat),
    (t.predictLoop F d f i buf).safe
  | [], _ => trivial
  | _ :: buf, i => safe_bind (predictSingle_safe F t d i) fun _ _ =>
      safe_bind (predictLoop_safe F t d f buf (i + 1)) fun _ _ => trivial

theorem predictAnd_safe (F : FP) (t : Tree) (d : Data) (f : Num → Num → Num) (buf : List Num) :
    (t.predictAnd F d buf f).safe := by
  unfold predictAnd
  exact safe_bind (assert_safe _) fun _ _ => predictLoop_safe F t d f buf 0

end Tree

namespace AdditiveTree

theorem addTrees_safe (F : FP) (d : Data) : ∀ (ts : List Tree) (buf : List Num), (addTrees F d ts buf).safe
  | [], _ => trivial
  | t :: ts, buf => safe_bind (Tree.predictAnd_safe F t d _ buf) fun b _ => addTrees_safe F d ts b

theorem predictBuf_safe (F : FP) (e : AdditiveTree) (d : Data) (buf : List Num) : (e.predictBuf F d buf).safe :=
  addTrees_safe F d _ _

end AdditiveTree

/-! ## Datasets -/
namespace Dataset

theorem allocMany_safe (n : Nat) : ∀ m, (allocMany n m).safe
  | 0 => trivial
  | m + 1 => by
    refine safe_bind ?_ fun _ _ => safe_bind (allocMany_safe n m) fun _ _ => trivial
    unfold allocZero Blocks.zeroBits Blocks.zeroBlocks
    split <;> trivial

theorem column_safe (d : Data) (f : Nat) : (column d f).safe := at?_safe _ _

theorem scanFeatures_safe (d : Data) (n : Nat) : ∀ k f, (scanFeatures d n k f).safe
  | 0, _ => trivial
  | k + 1, f => by
    unfold scanFeatures
    refine safe_bind (column_safe _ _) fun c _ => ?_
    dsimp only
    split
    · exact safe_bind (scanFeatures_safe d n k _) fun _ _ => trivial
    · exact safe_bind (allocMany_safe _ _) fun _ _ => safe_bind (scanFeatures_safe d n k _) fun _ _ => trivial

theorem fillMasks_safe : ∀ (cs : List Nat) (i : Nat) (bvs : List Blocks), (fillMasks cs i bvs).safe
  | [], _, _ => trivial
  | c :: cs, i, bvs => by
    unfold fillMasks
    split
    · exact safe_bind (enableBit_safe _ _) fun _ _ => fillMasks_safe cs _ _
    · exact fillMasks_safe cs _ _

theorem gather_safe {α : Type} (vs : List α) : ∀ js, (gather vs js).safe
  | [] => trivial
  | _ :: js => safe_bind (at?_safe _ _) fun _ _ => safe_bind (gather_safe vs js) fun _ _ => trivial

theorem updateLocard_safe (ds : Dataset) (f : Nat) (ex : List Nat) : (updateLocard ds f ex).safe := by
  unfold updateLocard
  exact safe_bind (column_safe _ _) fun _ _ => safe_bind (at?_safe _ _) fun _ _ =>
    safe_bind (gather_safe _ _) fun _ _ => safe_bind (fillMasks_safe _ _ _) fun _ _ =>
    safe_bind (assert_safe _) fun _ _ => trivial

theorem gradStats_safe (F : FP) (g : List Num) : ∀ (vs : List Num) (i : Nat) (st : List (Num × Nat)),
    (gradStats F g vs i st).safe
  | [], _, _ => trivial
  | _ :: vs, i, st => safe_bind (at?_safe _ _) fun _ _ => safe_bind (at?_safe _ _) fun _ _ =>
      gradStats_safe F g vs (i + 1) _

theorem hicardWeights_safe (F : FP) (m n : Nat) (st : List (Num × Nat)) (b : Num × Num) :
    (hicardWeights F m n st b).safe := by
  unfold hicardWeights
  exact safe_bind (Binner.new_safe _ _ _ _) fun _ _ => safe_bind (Binner.insertAll_safe _ _ _ _) fun _ _ =>
    safe_bind (Binner.rankIter_safe _ _ _ _ _) fun _ _ => trivial

theorem buildMasks_safe (bvs : List Blocks) (n : Nat) (cs : List Nat) : (buildMasks bvs n cs).safe := by
  unfold buildMasks
  refine safe_bind (prefix_safe _ _) fun _ _ => safe_bind (fillMasks_safe _ _ _) fun x _ =>
    safe_bind ?_ fun _ _ => trivial
  cases x <;> trivial

theorem updateHicard_safe (F : FP) (cfg : Config) (ds : Dataset) (f : Nat) (ex : List Nat) (g : List Num)
    (b : Num × Num) : (updateHicard F cfg ds f ex g b).safe := by
  unfold updateHicard
  exact safe_bind (column_safe _ _) fun _ _ => safe_bind (gather_safe _ _) fun _ _ =>
    safe_bind (gradStats_safe _ _ _ _ _) fun _ _ => safe_bind (hicardWeights_safe _ _ _ _ _) fun _ _ =>
    safe_bind (at?_safe _ _) fun _ _ => safe_bind (gather_safe _ _) fun _ _ =>
    safe_bind (buildMasks_safe _ _ _) fun _ _ => safe_bind (assert_safe _) fun _ _ =>
    safe_bind (assert_safe _) fun _ _ => trivial

theorem numSplits_safe (F : FP) (m : Nat) (lo hi : Num) (vs gs : List Num) : (numSplits F m lo hi vs gs).safe := by
  unfold numSplits
  exact safe_bind (Binner.new_safe _ _ _ _) fun _ _ => safe_bind (Binner.insertAll_safe _ _ _ _) fun _ _ =>
    safe_bind (Binner.rankIter_safe _ _ _ _ _) fun _ _ => safe_bind (assert_safe _) fun _ _ =>
    safe_bind (assert_safe _) fun _ _ => trivial

theorem updateNum_safe (F : FP) (cfg : Config) (ds : Dataset) (f : Nat) (ex : List Nat) (g : List Num) :
    (updateNum F cfg ds f ex g).safe := by
  unfold updateNum
  exact safe_bind (column_safe _ _) fun _ _ => safe_bind (gather_safe _ _) fun _ _ =>
    safe_bind (gather_safe _ _) fun _ _ => safe_bind (numSplits_safe _ _ _ _ _ _) fun _ _ =>
    safe_bind (at?_safe _ _) fun _ _ => safe_bind (gather_safe _ _) fun _ _ =>
    safe_bind (buildMasks_safe _ _ _) fun _ _ => safe_bind (assert_safe _) fun _ _ =>
    safe_bind (assert_safe _) fun _ _ => trivial

theorem initLocard_safe (ex : List Nat) : ∀ (fs : List Nat) (ds : Dataset), (initLocard ex fs ds).safe
  | [], _ => trivial
  | f :: fs, ds => by
    refine safe_bind ?_ fun d _ => initLocard_safe ex fs d
    unfold initFeature
    refine safe_bind (column_safe _ _) fun _ _ => ?_
    split
    · exact updateLocard_safe _ _ _
    · trivial

theorem new_safe (F : FP) (cfg : Config) (d : Data) (rng : Rng) : (Dataset.new F cfg d rng).safe := by
  unfold Dataset.new inner
  refine safe_bind (safe_bind (scanFeatures_safe _ _ _ _) fun _ _ => trivial) fun ds _ => ?_
  split
  · trivial
  · exact initLocard_safe _ _ _

theorem shuffleLoop_safe : ∀ (k i : Nat) (r : Rng) (buf : List Nat), (shuffleLoop k i r buf).safe
  | 0, _, _, _ => trivial
  | k + 1, i, r, buf => by
    unfold shuffleLoop
    refine safe_bind ?_ fun _ _ => safe_bind ?_ fun _ _ => shuffleLoop_safe k _ _ _
    · unfold Rng.genRange; split <;> trivial
    · unfold swapAt; out_safe'

theorem shuffleFirstK_safe (r : Rng) (k : Nat) (buf : List Nat) : (shuffleFirstK r k buf).safe := by
  unfold shuffleFirstK
  exact safe_bind (shuffleLoop_safe _ _ _ _) fun _ _ => safe_bind (assert_safe _) fun _ _ => trivial

theorem updateFeature_safe (F : FP) (cfg : Config) (g : List Num) (b : Num × Num) (bg : Bool) (ex : List Nat) (f : Nat)
    (ds : Dataset) : (updateFeature F cfg g b bg ex f ds).safe := by
  unfold updateFeature
  refine safe_bind (column_safe _ _) fun _ _ => ?_
  split
  · split
    · exact updateLocard_safe _ _ _
    · trivial
  · exact updateHicard_safe _ _ _ _ _ _ _
  · exact updateNum_safe _ _ _ _ _ _

theorem updateFeatures_safe (F : FP) (cfg : Config) (g : List Num) (b : Num × Num) (bg : Bool) (ex : List Nat) :
    ∀ (fs : List Nat) (ds : Dataset), (updateFeatures F cfg g b bg ex fs ds).safe
  | [], _ => trivial
  | f :: fs, ds => safe_bind (updateFeature_safe F cfg g b bg ex f ds) fun d _ =>
      updateFeatures_safe F cfg g b bg ex fs d

theorem update_safe (F : FP) (cfg : Config) (ds : Dataset) (g : List Num) (b : Num × Num) :
    (ds.update F cfg g b).safe := by
  unfold Dataset.update
  dsimp only
  split
  · trivial
  · unfold refresh sampleFeatures sampleExamples
    refine safe_bind ?_ fun ds _ => ?_
    · split
      · exact safe_bind (shuffleFirstK_safe _ _ _) fun _ _ => trivial
      · trivial
    · split
      · exact safe_bind (safe_bind (shuffleFirstK_safe _ _ _) fun _ _ => trivial) fun _ _ =>
          safe_bind (prefix_safe _ _) fun _ _ => safe_bind (prefix_safe _ _) fun _ _ =>
          updateFeatures_safe _ _ _ _ _ _ _ _
      · split
        · exact safe_bind (prefix_safe _ _) fun _ _ => updateFeatures_safe _ _ _ _ _ _ _ _
        · trivial

theorem activePairs_safe (ds : Dataset) : ds.activePairs.safe := by
  unfold activePairs activeExamples; out_safe'

theorem mapIndex_safe (ds : Dataset) (i : Nat) : (ds.mapIndex i).safe := by
  unfold mapIndex activeExamples; out_safe'

theorem inactive_safe (ds : Dataset) : ds.inactiveExamples.safe := by
  unfold inactiveExamples activeExamples; out_safe'

theorem getBitvec_safe (ds : Dataset) (f b : Nat) : (ds.getBitvec f b).safe := by
  unfold getBitvec; out_safe'

theorem getSplitValue_safe (F : FP) (ds : Dataset) (f b : Nat) : (ds.getSplitValue F f b).safe := by
  unfold getSplitValue
  refine safe_bind (column_safe _ _) fun _ _ => ?_
  out_safe'

end Dataset

/-! ## The learner -/
namespace Learner
open Spec (RefNode RefState)

theorem newHists_safe (d : Data) : (newHists d).safe := by
  unfold newHists
  refine safe_bind ?_ fun _ _ => safe_bind (assert_safe _) fun _ _ => trivial
  generalize List.range d.nfeatures = l
  induction l with
  | nil => trivial
  | cons f l ih =>
    refine safe_bind ?_ fun _ _ => safe_bind ih fun _ _ => trivial
    unfold Data.featMaxNbins; split <;> trivial

theorem histAt_safe (h : Hists) (f b : Nat) : (histAt h f b).safe := by
  unfold histAt; out_safe'

theorem setHist_safe (h : Hists) (f b : Nat) (v : HistVal) : (setHist h f b v).safe := by
  unfold setHist; out_safe'

theorem histJobs_safe (ds : Dataset) : ∀ fs, (histJobs ds fs).safe
  | [] => trivial
  | f :: fs => safe_bind (at?_safe _ _) fun _ _ => safe_bind (histJobs_safe ds fs) fun _ _ => trivial

theorem runJobs_safe {job : Nat → Nat → Out HistVal} (hj : ∀ f b, (job f b).safe) :
    ∀ (js : List (Nat × Nat)) (h : Hists), (runJobs job js h).safe
  | [], _ => trivial
  | (f, b) :: js, h => safe_bind (hj f b) fun _ _ => safe_bind (setHist_safe _ _ _ _) fun _ _ => runJobs_safe hj js _

theorem findBestSplit_safe (F : FP) (cfg : Config) (ds : Dataset) (pg : Num) (pc : Nat) (h : Hists) :
    (findBestSplit F cfg ds pg pc h).safe := by
  have bins : ∀ (f k b : Nat) (best : Num × Split), (scanBins F cfg ds pg pc h f k b best).safe := by
    intro f k
    induction k with
    | zero => intro _ _; trivial
    | succ k ih =>
      intro b best
      refine safe_bind (histAt_safe _ _ _) fun _ _ => safe_bind ?_ fun _ _ => ih _ _
      unfold tryCandidate
      split
      · trivial
      · split
        · refine safe_bind ?_ fun _ _ => trivial
          unfold critOf
          exact safe_bind (Dataset.getSplitValue_safe _ _ _ _) fun _ _ =>
            safe_bind (Dataset.column_safe _ _) fun _ _ => trivial
        · trivial
  have feats : ∀ (fs : List Nat) (best : Num × Split), (scanFeatures F cfg ds pg pc h fs best).safe := by
    intro fs
    induction fs with
    | nil => intro _; trivial
    | cons f fs ih =>
      intro best
      exact safe_bind (at?_safe _ _) fun _ _ => safe_bind (bins _ _ _ _) fun _ _ => ih _
  unfold findBestSplit Dataset.activeFeatures
  exact safe_bind (prefix_safe _ _) fun _ _ => safe_bind (feats _ _) fun _ _ => trivial

theorem mapItems_safe (ds : Dataset) : ∀ is, (mapItems ds is).safe
  | [] => trivial
  | _ :: is => safe_bind (Dataset.mapIndex_safe _ _) fun _ _ => safe_bind (mapItems_safe ds is) fun _ _ => trivial

theorem target_safe (d : Data) : (target d).safe := safe_bind (at?_safe _ _) fun _ _ => trivial

theorem leafFor_safe (F : FP) (ds : Dataset) (is : List Nat) (o : Objective) : (leafFor F ds is o).safe := by
  unfold leafFor leafRows
  refine safe_bind (?_ : Out.safe _) fun _ _ => safe_bind (target_safe _) fun _ _ =>
    Objective.predictLeafValue_safe _ _ _ _
  split
  · exact safe_bind (mapItems_safe _ _) fun _ _ => safe_bind (assert_safe _) fun _ _ => trivial
  · exact safe_bind (safe_ok _) fun _ _ => safe_bind (assert_safe _) fun _ _ => trivial

theorem outOfBag_safe (F : FP) (ds : Dataset) (t : Tree) (o : Objective) : (outOfBag F ds t o).safe := by
  have lp : ∀ (is : List Nat) (o : Objective), (outOfBagLoop F ds.data t is o).safe := by
    intro is
    induction is with
    | nil => intro _; trivial
    | cons i is ih =>
      intro o
      exact safe_bind (Tree.predictSingle_safe _ _ _ _) fun _ _ =>
        safe_bind (Objective.updateOutOfBag_safe _ _ _ _) fun _ _ => ih _
  unfold outOfBag
  split
  · exact safe_bind (Dataset.inactive_safe _) fun _ _ => lp _ _
  · trivial

theorem gradCodes_safe (F : FP) (w : Nat) (b : Num × Num) (g : List Num) : ∀ ps, (Spec.gradCodes F w b g ps).safe
  | [] => trivial
  | (_, _) :: ps => safe_bind (at?_safe _ _) fun _ _ => safe_bind (gradCodes_safe F w b g ps) fun _ _ => trivial

theorem refHists_safe (F : FP) (cfg : Config) (ds : Dataset) (w : Nat) (b : Num × Num) (cs ex : List Nat) :
    (Spec.refHists F cfg ds w b cs ex).safe := by
  unfold Spec.refHists Dataset.activeFeatures
  refine safe_bind (newHists_safe _) fun _ _ => safe_bind (prefix_safe _ _) fun _ _ =>
    safe_bind (histJobs_safe _ _) fun _ _ => ?_
  apply runJobs_safe
  intro f b
  exact safe_bind (Dataset.getBitvec_safe _ _ _) fun _ _ => trivial

theorem refExpand_safe (F : FP) (cfg : Config) (ds : Dataset) (w : Nat) (cs : List Nat) (n : RefNode) (st : RefState) :
    (Spec.refExpand F cfg ds w cs n st).safe := by
  unfold Spec.refExpand
  refine safe_bind (findBestSplit_safe _ _ _ _ _ _) fun s _ => ?_
  split
  · exact safe_bind (leafFor_safe _ _ _ _) fun _ _ => safe_bind (Tree.setValue_safe _ _ _) fun _ _ => trivial
  · split
    · refine safe_bind ?_ fun _ _ => safe_bind (Tree.splitNode_safe _ _ _) fun _ _ => trivial
      unfold Spec.refChildren
      exact safe_bind (histAt_safe _ _ _) fun _ _ => safe_bind (Dataset.getBitvec_safe _ _ _) fun _ _ =>
        safe_bind (refHists_safe _ _ _ _ _ _ _) fun _ _ => trivial
    · exact safe_bind (Dataset.getBitvec_safe _ _ _) fun _ _ => safe_bind (leafFor_safe _ _ _ _) fun _ _ =>
        safe_bind (leafFor_safe _ _ _ _) fun _ _ => safe_bind (Tree.setValue_safe _ _ _) fun _ _ =>
        safe_bind (Tree.setValue_safe _ _ _) fun _ _ => safe_bind (Tree.splitNode_safe _ _ _) fun _ _ => trivial

theorem refLoop_safe (F : FP) (cfg : Config) (ds : Dataset) (w : Nat) (cs : List Nat) : ∀ (fuel : Nat) (st : RefState),
    (Spec.refLoop F cfg ds w cs fuel st).safe := by
  intro fuel
  induction fuel with
  | zero => intro st; unfold Spec.refLoop; split <;> trivial
  | succ k ih =>
    intro st
    unfold Spec.refLoop
    split
    · trivial
    · exact safe_bind (refExpand_safe _ _ _ _ _ _ _) fun _ _ => ih _

theorem refTrain_safe (F : FP) (cfg : Config) (ds : Dataset) (sc : List (List Nat)) (o : Objective) (fuel : Nat) :
    (Spec.refTrain F cfg ds sc o fuel).safe := by
  unfold Spec.refTrain
  refine safe_bind ?_ fun w _ => ?_
  · unfold width; split <;> trivial
  refine safe_bind (Tree.new_safe _ _) fun _ _ => safe_bind (assert_safe _) fun _ _ =>
    safe_bind (Dataset.activePairs_safe _) fun _ _ => safe_bind (gradCodes_safe _ _ _ _ _) fun _ _ =>
    safe_bind ?_ fun _ _ => safe_bind (refLoop_safe _ _ _ _ _ _ _) fun r _ => ?_
  · unfold Spec.refRoot
    exact safe_bind (refHists_safe _ _ _ _ _ _ _) fun _ _ => trivial
  · split
    · trivial
    · exact safe_bind (outOfBag_safe _ _ _ _) fun _ _ => trivial

theorem gradCodes_rows {F : FP} {w : Nat} {b : Num × Num} {g : List Num} : ∀ {ps : List (Nat × Nat)} {cs : List Nat},
    Spec.gradCodes F w b g ps = .ok cs → ∀ p ∈ ps, p.2 < g.length
  | [], _, _, p, hp => by cases hp
  | (i, j) :: ps, cs, h, p, hp => by
      unfold Spec.gradCodes at h
      obtain ⟨v, e1, h⟩ := Out.bind_eq_ok.1 h
      obtain ⟨cs', e2, _⟩ := Out.bind_eq_ok.1 h
      rcases List.mem_cons.1 hp with rfl | hp
      · exact (List.getElem?_eq_some_iff.1 (at?_ok.1 e1)).1
      · exact gradCodes_rows e2 p hp

/-- With too many active examples for the gradients or the index buffer, the root node is not built. -/
theorem rootNode_many {F : FP} {cfg : Config} {ds : Dataset} {w : Nat} (hw : validWidth w) {o : Objective}
    (hg : o.gradients.length < ds.nactiveExamples) (hb : ds.indexBuffer.length < ds.nactiveExamples) :
    rootNode F cfg ds w o = .panic := by
  have hwp : 0 < w := by rcases hw with rfl | rfl | rfl | rfl <;> omega
  have hpos : 0 < ds.nactiveExamples := by omega
  have hL : 0 < (ds.nactiveExamples + 255) / 256 := by omega
  unfold rootNode
  simp only [BitBlock.blocksRequiredFor_eq]
  have e1 := zeroBlocks_len (Nat.mul_pos hL hwp)
  obtain ⟨mask, em, hml, _⟩ := Blocks.oneBits_spec ds.nactiveExamples hpos
  have hbm : 0 < Blocks.blockLen 32 mask := by unfold Blocks.blockLen; rw [hml]; omega
  obtain ⟨idx, ei, _, _⟩ := Props.C04_from_iter 32 (by omega) (by omega) (Blocks.blockLen 32 mask)
    ((List.range (Blocks.blockLen 32 mask)).map (BitVec.ofNat 32)) (by omega)
  simp only [e1, em, ei, Out.ok_bind]
  cases ha : Out.assert (decide (ds.nactiveExamples < 2 ^ 32 - 1)) with
  | panic => rfl
  | ub => exact absurd ha (by cases decide (ds.nactiveExamples < 2 ^ 32 - 1) <;> simp [Out.assert])
  | ok _ =>
  rw [Out.ok_bind]
  cases hps : ds.activePairs with
  | panic => rfl
  | ub => have := Dataset.activePairs_safe ds; rw [hps] at this; exact this.elim
  | ok ps =>
  rw [Out.ok_bind]
  have hno : ds.exampleSampling = false ∧ ps = (List.range ds.nactiveExamples).map fun i => (i, i) := by
    unfold Dataset.activePairs at hps
    split at hps
    · obtain ⟨a, e, _⟩ := Out.bind_eq_ok.1 hps
      unfold Dataset.activeExamples at e
      have := (Dataset.prefix_ok.1 e).1
      omega
    · rename_i h
      cases hps
      exact ⟨by simpa using h, rfl⟩
  obtain ⟨rows, hr, hz⟩ := activePairs_rows hps
  have hz' : ps = (List.range' 0 rows.length).zip rows := by rw [hz, List.range_eq_range']
  have hgl : (List.replicate ((ds.nactiveExamples + 255) / 256 * w) BitBlock.zeros).length =
    (ds.nactiveExamples + 255) / 256 * w := List.length_replicate
  generalize List.replicate ((ds.nactiveExamples + 255) / 256 * w) BitBlock.zeros = g0 at *
  have hfill := fillGrads_spec F hw o.bounds o.gradients rows 0 0 g0
    (by rw [slots_len hw hgl]; omega) ps hz'
  split at hfill
  · rename_i cs ecs
    exfalso
    have := gradCodes_rows ecs (o.gradients.length, o.gradients.length) (by
      rw [hno.2]
      exact List.mem_map.2 ⟨_, List.mem_range.2 hg, rfl⟩)
    simp at this
  · rw [hfill]; rfl
  · exact hfill.elim

/-- Training a tree makes no raw access out of bounds. -/
theorem train_safe {F : FP} {cfg : Config} {ds : Dataset} (hM : MasksOk ds) {o : Objective}
    (hg : o.gradients.length ≤ 2 ^ 32 - 256) (hb : ds.indexBuffer.length ≤ 2 ^ 32 - 256)
    (sc : List (List Nat)) (fuel : Nat) : (train F cfg ds sc o fuel).safe := by
  by_cases hn : ds.nactiveExamples ≤ 2 ^ 32 - 256
  · have hle : Out.Le (fun _ _ => True) (train F cfg ds sc o fuel) (Spec.refTrain F cfg ds sc o fuel) := by
      unfold train Spec.refTrain start
      apply Out.Le.same
      intro w hw
      have hvw := width_valid hw
      simp only [Out.bind_assoc]
      apply Out.Le.same
      intro t _
      have hroot := root_sim (F := F) (cfg := cfg) hvw hn hM o (S := fun a (p : List Nat × RefNode) => NodeLike w ds p.1 a p.2)
        (f := fun a => .ok a) (g := fun codes b => .ok (codes, b)) (fun codes a b h _ => .ok h.like)
      have hroot' : Out.Le (fun a (p : List Nat × RefNode) => NodeLike w ds p.1 a p.2) (rootNode F cfg ds w o) (do
          Out.assert (decide (0 < ds.nactiveExamples))
          let ps ← ds.activePairs
          let codes ← Spec.gradCodes F w o.bounds o.gradients ps
          let root ← Spec.refRoot F cfg ds w o.bounds codes
          .ok (codes, root)) := by
        have e : (rootNode F cfg ds w o >>= fun a => .ok a) = rootNode F cfg ds w o := by
          cases rootNode F cfg ds w o <;> rfl
        rw [e] at hroot
        exact hroot.le
      have hk := Out.Le.bind (S := fun _ _ => True) hroot' (f := fun a => do
          let r ← loop F cfg ds w fuel ⟨t, o, [a]⟩
          match r with
          | none => pure (none : Option (Tree × Objective))
          | some st => do
              let o' ← outOfBag F ds st.tree st.obj
              pure (some (st.tree, o')))
        (g := fun p => do
          let r ← Spec.refLoop F cfg ds w p.1 fuel ⟨t, o, [p.2]⟩
          match r with
          | none => pure (none : Option (Tree × Objective))
          | some st => do
              let o' ← outOfBag F ds st.tree st.obj
              pure (some (st.tree, o'))) ?_
      · simp only [Out.bind_assoc, Out.ok_bind] at hk
        simp only [Out.pure_eq, Out.ok_bind]
        exact hk
      · rintro a ⟨codes, b⟩ hab
        refine Out.Le.bind (loop_le hvw hn hM fuel (a := ⟨t, o, [a]⟩) (b := ⟨t, o, [b]⟩)
          ⟨rfl, rfl, .cons hab .nil⟩) ?_
        intro x y hxy
        cases hxy with
        | none => exact .ok trivial
        | some h =>
          simp only []
          rw [h.tree, h.obj]
          exact Out.Le.refl (fun _ => trivial) _
    have := hle.ne_ub (by
      intro h
      have := refTrain_safe F cfg ds sc o fuel
      rw [h] at this
      exact this)
    revert this
    cases train F cfg ds sc o fuel <;> simp [Out.safe]
  · unfold train start
    refine safe_bind ?_ fun w hw => ?_
    · unfold width; split <;> trivial
    · rw [Out.bind_assoc]
      refine safe_bind (Tree.new_safe _ _) fun t _ => ?_
      rw [rootNode_many (width_valid hw) (by omega) (by omega)]
      trivial

end Learner

/-! ## The booster -/
namespace Booster
open Spec

theorem gradients_length {F : FP} {M : Libm} {o o' : Objective} {ts : List Num} (h : o.update F M ts = .ok o') :
    o'.gradients.length = ts.length := by
  obtain ⟨h1, h2⟩ := Props.update_inv h
  have hz : ∀ {α : Type} (f : Num → Num → α), (List.zipWith f ts o.predictions).length = ts.length := by
    intro α f
    rw [List.length_zipWith, h1, Nat.min_self]
  rw [Props.update_eq F M o ts h1 h2] at h
  cases hk : o.kind <;> rw [hk] at h <;> simp only at h
  · cases h; simp [hz, h1]
  · cases h; simp [hz, h1]
  · obtain ⟨q, _, h⟩ := Out.bind_eq_ok.1 h
    cases h; simp [hz, h1]
  · cases h; simp [hz, h1]
  · cases h; simp [hz, h1]

variable {F : FP} {M : Libm} {cfg : Config} {d : Data} {rng : Rng}

theorem indexBuffer_length {k : Nat} {ds : Dataset} (h : Updated F cfg d rng k ds) :
    ds.indexBuffer.length ≤ d.nexamples := by
  have hb := h.inv.bag
  split at hb
  · rw [hb.1.length_eq, List.length_range]
  · rw [hb]; simp

theorem trainOneIter_safe (hd : Rectangular d) (hn : d.nexamples ≤ 2 ^ 32 - 256) (metrics : List Metric)
    {k : Nat} {b : Booster} (hds : Updated F cfg d rng k b.dataset) :
    (trainOneIter F M cfg d metrics b).safe := by
  unfold trainOneIter
  refine safe_bind (Learner.target_safe _) fun ts hts => safe_bind (Objective.update_safe _ _ _ _) fun o ho =>
    safe_bind (Dataset.update_safe _ _ _ _ _) fun ds hds' => safe_bind ?_ fun _ _ => trivial
  have hu : Updated F cfg d rng (k + 1) ds := .update hds hds'
  unfold learnTree
  refine safe_bind (Learner.train_safe hu.masksOk ?_ ?_ _ _) fun r _ => ?_
  · rw [gradients_length ho, target_length hd hts]; exact hn
  · exact (indexBuffer_length hu).trans hn
  · split <;> trivial

theorem iterate_safe (hd : Rectangular d) (hn : d.nexamples ≤ 2 ^ 32 - 256) (metrics : List Metric) :
    ∀ (n k : Nat) (b : Booster), Updated F cfg d rng k b.dataset → (iterate F M cfg d metrics n b).safe
  | 0, _, _, _ => trivial
  | n + 1, k, b, h => by
      unfold iterate
      refine safe_bind (trainOneIter_safe hd hn metrics h) fun b' hb' => ?_
      obtain ⟨ts, o1, ds, t, o', _, _, e3, _, rfl⟩ := trainOneIter_ok hb'
      exact iterate_safe hd hn metrics n (k + 1) _ (.update h e3)

/-- A whole training run makes no raw access out of bounds, whatever the configuration. -/
theorem run_safe (hd : Rectangular d) (hn : d.nexamples ≤ 2 ^ 32 - 256) (cfg : Config) (rng : Rng)
    (metrics : List Metric) (o : Objective) : (run F M cfg d rng metrics o).safe := by
  unfold run
  refine safe_bind ?_ fun b hb => ?_
  · unfold new
    exact safe_bind (Dataset.new_safe _ _ _ _) fun _ _ => trivial
  · obtain ⟨ds, e, rfl⟩ := new_ok hb
    unfold train
    refine safe_bind (assert_safe _) fun _ _ => safe_bind ?_ fun b1 hb1 => ?_
    · unfold prepare
      exact safe_bind (Learner.target_safe _) fun _ _ => safe_bind (Objective.init_safe _ _ _ _ _) fun _ _ => trivial
    · obtain ⟨ts, o1, _, _, rfl⟩ := prepare_ok hb1
      exact iterate_safe hd hn metrics _ 0 _ (.new e)

end Booster
end BitBoost
