import Verif.Lemmas.LearnerSim
import Verif.Lemmas.Boost
/-! Helper lemmas: what training sees of an objective. -/
namespace BitBoost
open Spec Dataset Learner

namespace Objective

/-- The two objectives agree on what `update` reads. -/
structure SameInit (a b : Objective) : Prop where
  kind : a.kind = b.kind
  rate : a.learningRate = b.learningRate
  bias : a.bias = b.bias
  preds : a.predictions = b.predictions
  grads : a.gradients = b.gradients
  alpha : a.kind = .huber → a.alpha = b.alpha
  bound : a.kind = .binary → a.bound = b.bound

/-- The two objectives agree on what the learner reads. -/
structure SameUse (a b : Objective) : Prop extends SameInit a b where
  l2bounds : a.kind = .l2 → a.l2bounds = b.l2bounds
  limits : a.kind = .l1 ∨ a.kind = .huber → a.limits = b.limits
  delta : a.kind = .huber → a.delta = b.delta

theorem SameUse.bounds {a b : Objective} (h : SameUse a b) : a.bounds = b.bounds := by
  unfold Objective.bounds
  rw [← h.kind]
  cases hk : a.kind with
  | l2 => exact h.l2bounds hk
  | huber => simp only; rw [h.delta hk]
  | binary => simp only; rw [h.bound hk]
  | l1 => rfl
  | hinge => rfl

theorem init_same (F : FP) (M : Libm) {a b : Objective} (hk : a.kind = b.kind) (cfg : Config) (ts : List Num) :
    Out.Sim SameInit (a.init F M cfg ts) (b.init F M cfg ts) := by
  unfold Objective.init
  rw [← hk]
  cases h : a.kind <;> simp only
  · exact .ok ⟨h.trans (h.symm.trans hk), rfl, rfl, rfl, rfl, fun e => by simp [initializeBase, h] at e, fun e => by simp [initializeBase, h] at e⟩
  · refine Out.Sim.same fun x _ => ?_
    exact .ok ⟨h.trans (h.symm.trans hk), rfl, rfl, rfl, rfl, fun e => by simp [initializeBase, h] at e, fun e => by simp [initializeBase, h] at e⟩
  · refine Out.Sim.same fun x _ => Out.Sim.same fun _ _ => ?_
    exact .ok ⟨h.trans (h.symm.trans hk), rfl, rfl, rfl, rfl, fun _ => rfl, fun e => by simp [initializeBase, h] at e⟩
  · exact .ok ⟨h.trans (h.symm.trans hk), rfl, rfl, rfl, rfl, fun e => by simp [initializeBase, h] at e, fun _ => rfl⟩
  · refine Out.Sim.same fun _ _ => ?_
    exact .ok ⟨h.trans (h.symm.trans hk), rfl, rfl, rfl, rfl, fun e => by simp [initializeBase, h] at e, fun e => by simp [initializeBase, h] at e⟩

theorem update_use (F : FP) (M : Libm) {a b : Objective} (hs : SameInit a b) (ts : List Num) :
    Out.Sim SameUse (a.update F M ts) (b.update F M ts) := by
  unfold Objective.update
  rw [← hs.kind, ← hs.preds, ← hs.grads]
  refine Out.Sim.same fun _ _ => Out.Sim.same fun _ _ => ?_
  cases h : a.kind <;> simp only
  · exact .ok ⟨⟨rfl, hs.rate, hs.bias, rfl, rfl, fun e => by simp at e, fun e => by simp at e⟩, fun _ => rfl,
      fun e => by simp at e, fun e => by simp at e⟩
  · exact .ok ⟨⟨rfl, hs.rate, hs.bias, rfl, rfl, fun e => by simp at e, fun e => by simp at e⟩, fun e => by simp at e,
      fun _ => rfl, fun e => by simp at e⟩
  · rw [← hs.alpha h]
    refine Out.Sim.same fun _ _ => ?_
    exact .ok ⟨⟨rfl, hs.rate, hs.bias, rfl, rfl, fun _ => rfl, fun e => by simp at e⟩, fun e => by simp at e,
      fun _ => rfl, fun _ => rfl⟩
  · exact .ok ⟨⟨rfl, hs.rate, hs.bias, rfl, rfl, fun e => by simp at e, fun _ => hs.bound h⟩, fun e => by simp at e,
      fun e => by simp at e, fun e => by simp at e⟩
  · exact .ok ⟨⟨rfl, hs.rate, hs.bias, rfl, rfl, fun e => by simp at e, fun e => by simp at e⟩, fun e => by simp at e,
      fun e => by simp at e, fun e => by simp at e⟩

theorem SameUse.with_preds {a b : Objective} (h : SameUse a b) (ps : List Num) :
    SameUse { a with predictions := ps } { b with predictions := ps } :=
  ⟨⟨h.kind, h.rate, h.bias, rfl, h.grads, h.alpha, h.bound⟩, h.l2bounds, h.limits, h.delta⟩

theorem leafValue_same {F : FP} {a b : Objective} (h : SameUse a b) (ts : List Num) (ex : List Nat) :
    a.leafValue F ts ex = b.leafValue F ts ex := by
  unfold Objective.leafValue residuals targetPred
  rw [← h.kind, ← h.preds, ← h.grads]
  cases hk : a.kind <;> simp only
  · rw [h.limits (.inl hk)]
  · rw [h.limits (.inr hk), h.delta hk]

theorem predictLeafValue_sim (F : FP) {a b : Objective} (h : SameUse a b) (ts : List Num) (ex : List Nat) :
    Out.Sim (fun x y : Num × Objective => x.1 = y.1 ∧ SameUse x.2 y.2) (a.predictLeafValue F ts ex)
      (b.predictLeafValue F ts ex) := by
  unfold predictLeafValue updatePredictions
  rw [← leafValue_same h, ← h.rate, ← h.preds]
  refine Out.Sim.same fun v _ => Out.Sim.same fun ps _ => ?_
  exact .ok ⟨rfl, ⟨⟨h.kind, rfl, h.bias, rfl, h.grads, h.alpha, h.bound⟩, h.l2bounds, h.limits, h.delta⟩⟩

theorem updateOutOfBag_sim (F : FP) {a b : Objective} (h : SameUse a b) (i : Nat) (v : Num) :
    Out.Sim SameUse (a.updateOutOfBag F i v) (b.updateOutOfBag F i v) := by
  unfold updateOutOfBag
  rw [← h.preds]
  cases a.predictions[i]? with
  | none => exact .panic
  | some p => exact Out.Sim.same fun _ _ => .ok (h.with_preds _)

end Objective

namespace Learner
open Objective

private abbrev TO (x y : Tree × Objective) : Prop := x.1 = y.1 ∧ SameUse x.2 y.2
private abbrev NO (x y : Num × Objective) : Prop := x.1 = y.1 ∧ SameUse x.2 y.2

theorem leafFor_sim {F : FP} {ds : Dataset} {is : List Nat} {a b : Objective} (h : SameUse a b) :
    Out.Sim NO (leafFor F ds is a) (leafFor F ds is b) := by
  unfold leafFor
  exact Out.Sim.same fun _ _ => Out.Sim.same fun _ _ => predictLeafValue_sim F h _ _

theorem leafValue_sim {F : FP} {ds : Dataset} {n : Node} {t : Tree} {a b : Objective} (h : SameUse a b) :
    Out.Sim TO (leafValue F ds n t a) (leafValue F ds n t b) := by
  unfold leafValue
  refine Out.Sim.same fun _ _ => Out.Sim.bind (leafFor_sim h) ?_
  rintro ⟨v, x⟩ ⟨v', y⟩ ⟨rfl, hxy⟩
  exact Out.Sim.same fun _ _ => .ok ⟨rfl, hxy⟩

theorem childLeafValues_sim {F : FP} {ds : Dataset} {n : Node} {s : Split} {t : Tree} {a b : Objective}
    (h : SameUse a b) : Out.Sim TO (childLeafValues F ds n s t a) (childLeafValues F ds n s t b) := by
  unfold childLeafValues
  refine Out.Sim.same fun _ _ => Out.Sim.same fun _ _ => Out.Sim.bind (leafFor_sim h) ?_
  rintro ⟨v, x⟩ ⟨v', y⟩ ⟨rfl, hxy⟩
  refine Out.Sim.same fun _ _ => Out.Sim.bind (leafFor_sim hxy) ?_
  rintro ⟨v, x⟩ ⟨v', y⟩ ⟨rfl, hxy⟩
  exact Out.Sim.same fun _ _ => Out.Sim.same fun _ _ => .ok ⟨rfl, hxy⟩

/-- The states agree on what matters. -/
private structure SameState (x y : State) : Prop where
  tree : x.tree = y.tree
  obj : SameUse x.obj y.obj
  stack : x.stack = y.stack

private theorem expand_use {F : FP} {cfg : Config} {ds : Dataset} {w : Nat} {n : Node} {x y : State} (h : SameState x y) :
    Out.Sim SameState (expand F cfg ds w n x) (expand F cfg ds w n y) := by
  obtain ⟨t, a, st⟩ := x
  obtain ⟨t', b, st'⟩ := y
  obtain ⟨h1, h2, h3⟩ := h
  simp only at h1 h2 h3
  subst h1 h3
  unfold expand
  refine Out.Sim.same fun s _ => ?_
  split
  · refine Out.Sim.bind (leafValue_sim h2) ?_
    rintro ⟨v, x⟩ ⟨v', y⟩ ⟨rfl, hxy⟩
    exact .ok ⟨rfl, hxy, rfl⟩
  · split
    · simp only
      rw [h2.bounds]
      refine Out.Sim.same fun _ _ => Out.Sim.same fun _ _ => ?_
      exact .ok ⟨rfl, h2, rfl⟩
    · refine Out.Sim.bind (childLeafValues_sim h2) ?_
      rintro ⟨v, x⟩ ⟨v', y⟩ ⟨rfl, hxy⟩
      exact Out.Sim.same fun _ _ => .ok ⟨rfl, hxy, rfl⟩

private abbrev OS (x y : Option State) : Prop :=
  (x = none ∧ y = none) ∨ ∃ a b, x = some a ∧ y = some b ∧ SameState a b

private theorem loop_use {F : FP} {cfg : Config} {ds : Dataset} {w : Nat} : ∀ (fuel : Nat) {x y : State},
    SameState x y → Out.Sim OS (loop F cfg ds w fuel x) (loop F cfg ds w fuel y)
  | fuel, x, y, h => by
    unfold loop
    rw [← h.stack]
    cases hst : x.stack with
    | nil => exact .ok (.inr ⟨x, y, rfl, rfl, h⟩)
    | cons n rest =>
      cases fuel with
      | zero => exact .ok (.inl ⟨rfl, rfl⟩)
      | succ fuel =>
        simp only
        refine Out.Sim.bind (expand_use (x := { x with stack := rest }) (y := { y with stack := rest })
          ⟨h.tree, h.obj, rfl⟩) ?_
        intro a b hab
        exact loop_use fuel hab

private theorem outOfBagLoop_sim {F : FP} {d : Data} {t : Tree} : ∀ (is : List Nat) {a b : Objective},
    SameUse a b → Out.Sim SameUse (outOfBagLoop F d t is a) (outOfBagLoop F d t is b)
  | [], a, b, h => .ok h
  | i :: is, a, b, h => by
      unfold outOfBagLoop
      refine Out.Sim.same fun p _ => Out.Sim.bind (updateOutOfBag_sim F h i p) ?_
      intro a b hab
      exact outOfBagLoop_sim is hab

private theorem outOfBag_sim {F : FP} {ds : Dataset} {t : Tree} {a b : Objective} (h : SameUse a b) :
    Out.Sim SameUse (outOfBag F ds t a) (outOfBag F ds t b) := by
  unfold outOfBag
  split
  · exact Out.Sim.same fun _ _ => outOfBagLoop_sim _ h
  · exact .ok h

theorem rootNode_same {F : FP} {cfg : Config} {ds : Dataset} {w : Nat} {a b : Objective} (h : SameUse a b) :
    rootNode F cfg ds w a = rootNode F cfg ds w b := by
  unfold rootNode
  rw [h.bounds, h.grads]

/-- The results of the learner agree. -/
abbrev SameResult (x y : Option (Tree × Objective)) : Prop :=
  (x = none ∧ y = none) ∨ ∃ a b, x = some a ∧ y = some b ∧ a.1 = b.1 ∧ SameUse a.2 b.2

theorem train_sim {F : FP} {cfg : Config} {ds : Dataset} {sc : List (List Nat)} {fuel : Nat} {a b : Objective}
    (h : SameUse a b) : Out.Sim SameResult (train F cfg ds sc a fuel) (train F cfg ds sc b fuel) := by
  unfold train
  refine Out.Sim.same fun w _ => ?_
  have hs : Out.Sim SameState (start F cfg ds sc w a) (start F cfg ds sc w b) := by
    unfold start
    rw [rootNode_same h]
    exact Out.Sim.same fun _ _ => Out.Sim.same fun _ _ => .ok ⟨rfl, h, rfl⟩
  refine Out.Sim.bind hs fun x y hxy => Out.Sim.bind (loop_use fuel hxy) ?_
  rintro r r' (⟨rfl, rfl⟩ | ⟨x, y, rfl, rfl, hxy⟩)
  · exact .ok (.inl ⟨rfl, rfl⟩)
  · simp only
    rw [← hxy.tree]
    refine Out.Sim.bind (outOfBag_sim hxy.obj) fun o o' ho => ?_
    exact .ok (.inr ⟨_, _, rfl, rfl, rfl, ho⟩)

end Learner

namespace Booster
open Objective

/-- The boosters agree on everything that can be seen. -/
structure SameBooster (x y : Booster) : Prop where
  dataset : x.dataset = y.dataset
  obj : SameInit x.objective y.objective
  count : x.iterCount = y.iterCount
  ensemble : x.ensemble = y.ensemble
  printed : x.printed = y.printed

theorem learnTree_sim {F : FP} {cfg : Config} {ds : Dataset} {a b : Objective} (h : SameUse a b) :
    Out.Sim (fun x y : Tree × Objective => x.1 = y.1 ∧ SameUse x.2 y.2) (learnTree F cfg ds a) (learnTree F cfg ds b) := by
  unfold learnTree
  refine Out.Sim.bind (Learner.train_sim h) ?_
  rintro r r' (⟨rfl, rfl⟩ | ⟨x, y, rfl, rfl, hxy⟩)
  · exact .panic
  · exact .ok hxy

theorem trainOneIter_sim {F : FP} {M : Libm} {cfg : Config} {d : Data} {metrics : List Metric} {x y : Booster}
    (h : SameBooster x y) :
    Out.Sim SameBooster (trainOneIter F M cfg d metrics x) (trainOneIter F M cfg d metrics y) := by
  obtain ⟨h1, h2, h3, h4, h5⟩ := h
  unfold trainOneIter
  refine Out.Sim.same fun ts _ => Out.Sim.bind (update_use F M h2 ts) fun a b hab => ?_
  rw [h1, hab.grads, hab.bounds]
  refine Out.Sim.same fun ds _ => Out.Sim.bind (learnTree_sim hab) ?_
  rintro ⟨t, a⟩ ⟨t', b⟩ ⟨rfl, hab⟩
  refine .ok ⟨rfl, hab.toSameInit, by simp only; rw [h3], by simp only; rw [h4], ?_⟩
  simp only
  rw [h5, h3, hab.preds]

theorem iterate_sim {F : FP} {M : Libm} {cfg : Config} {d : Data} {metrics : List Metric} : ∀ (n : Nat) {x y : Booster},
    SameBooster x y → Out.Sim SameBooster (iterate F M cfg d metrics n x) (iterate F M cfg d metrics n y)
  | 0, _, _, h => .ok h
  | n + 1, _, _, h => by
      unfold iterate
      exact Out.Sim.bind (trainOneIter_sim h) fun _ _ h' => iterate_sim n h'

theorem run_sim {F : FP} {M : Libm} {cfg : Config} {d : Data} {rng : Rng} {metrics : List Metric} {a b : Objective}
    (hk : a.kind = b.kind) :
    Out.Sim SameBooster (run F M cfg d rng metrics a) (run F M cfg d rng metrics b) := by
  unfold run new
  simp only [Out.bind_assoc, Out.pure_eq, Out.ok_bind]
  refine Out.Sim.same fun ds _ => ?_
  unfold train prepare
  simp only [Out.bind_assoc, Out.pure_eq, Out.ok_bind]
  refine Out.Sim.same fun _ _ => Out.Sim.same fun ts _ => Out.Sim.bind (init_same F M hk cfg ts) fun o o' ho => ?_
  refine iterate_sim _ ⟨rfl, ho, rfl, ?_, rfl⟩
  simp only
  rw [ho.bias]

end Booster
end BitBoost
