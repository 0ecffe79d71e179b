import Verif.Spec.Learner
/-! Helper lemmas: the reference learner does not look at `compression_threshold`. -/
namespace BitBoost
namespace Learner
open Spec

variable {F : FP} {cfg : Config} {ds : Dataset} (a : Num)

theorem scanBins_thr (pg : Num) (pc : Nat) (h : Hists) (f : Nat) : ∀ (k b : Nat) (best : Num × Split),
    scanBins F { cfg with compressionThreshold := a } ds pg pc h f k b best = scanBins F cfg ds pg pc h f k b best
  | 0, _, _ => rfl
  | k + 1, b, best => by
      unfold scanBins
      simp only [scanBins_thr pg pc h f k]
      rfl

theorem scanFeatures_thr (pg : Num) (pc : Nat) (h : Hists) : ∀ (fs : List Nat) (best : Num × Split),
    scanFeatures F { cfg with compressionThreshold := a } ds pg pc h fs best = scanFeatures F cfg ds pg pc h fs best
  | [], _ => rfl
  | f :: fs, best => by
      unfold scanFeatures
      simp only [scanFeatures_thr pg pc h fs, scanBins_thr]

theorem findBestSplit_thr (pg : Num) (pc : Nat) (h : Hists) :
    findBestSplit F { cfg with compressionThreshold := a } ds pg pc h = findBestSplit F cfg ds pg pc h := by
  unfold findBestSplit
  simp only [scanFeatures_thr]

theorem refHists_thr (w : Nat) (bounds : Num × Num) (codes ex : List Nat) :
    refHists F { cfg with compressionThreshold := a } ds w bounds codes ex = refHists F cfg ds w bounds codes ex := rfl

theorem refExpand_thr (w : Nat) (codes : List Nat) (n : RefNode) (st : RefState) :
    refExpand F { cfg with compressionThreshold := a } ds w codes n st = refExpand F cfg ds w codes n st := by
  unfold refExpand
  simp only [findBestSplit_thr]
  rfl

theorem refLoop_thr (w : Nat) (codes : List Nat) : ∀ (fuel : Nat) (st : RefState),
    refLoop F { cfg with compressionThreshold := a } ds w codes fuel st = refLoop F cfg ds w codes fuel st
  | 0, st => by
      unfold refLoop
      rfl
  | fuel + 1, st => by
      unfold refLoop
      cases st.stack with
      | nil => rfl
      | cons n rest => simp only [refExpand_thr, refLoop_thr w codes fuel]

theorem refTrain_thr (supercats : List (List Nat)) (o : Objective) (fuel : Nat) :
    refTrain F { cfg with compressionThreshold := a } ds supercats o fuel = refTrain F cfg ds supercats o fuel := by
  unfold refTrain
  simp only [refLoop_thr]
  rfl

end Learner
end BitBoost
