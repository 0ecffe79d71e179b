import Verif.Lemmas.PruneValues
import Verif.Props.Settings
/-!
# A smaller tree is a pruned larger tree: C79

With a smaller `max_tree_depth`, a larger `min_gain`, or both, the first tree of a run is the first tree of the other run with
some of its splits undone: every node it splits is split in the larger tree by the same test (`C79_tests`), every row ends
where it ends in the larger tree or above (`C79_leaves`), and the leaves the two trees have in common have the same values
(`C79_values`), so that the predictions for the rows that end there are the same (`C79_predictions`). With the same `min_gain` the two trees have the same tests above the
smaller depth (`C79_depth`). For later trees this is false (`C79_second_refuted`), and a larger `min_examples_leaf` does not prune
(`C79_min_examples_refuted`).
-/
namespace BitBoost.Props
open Spec Dataset Learner

/-- The first tree of a run. -/
theorem first_tree {F : FP} {M : Libm} {c : Config} {d : Data} {rng : Rng} {metrics : List Metric} {o : Objective} {b : Booster}
    (hb : Booster.run F M c d rng metrics o = .ok b) {t : Tree} (ht : b.ensemble.trees[0]? = some t) :
    ∃ ts ds0 o0 o1 ds o2, Learner.target d = .ok ts ∧ Dataset.new F c d rng = .ok ds0 ∧ o.init F M c ts = .ok o0 ∧
      o0.update F M ts = .ok o1 ∧ ds0.update F c o1.gradients o1.bounds = .ok ds ∧
      Learner.train F c ds ds.supercats o1 (2 ^ c.maxTreeDepth - 1) = .ok (some (t, o2)) := by
  unfold Booster.run at hb
  obtain ⟨b0, e0, hb⟩ := Out.bind_eq_ok.1 hb
  obtain ⟨ds0, h1, rfl⟩ := Booster.new_ok e0
  unfold Booster.train at hb
  obtain ⟨_, _, hb⟩ := Out.bind_eq_ok.1 hb
  obtain ⟨b1, e1, hb⟩ := Out.bind_eq_ok.1 hb
  obtain ⟨ts, o0, h2, h3, rfl⟩ := Booster.prepare_ok e1
  cases hn : c.niterations with
  | zero =>
    rw [hn] at hb
    simp only [Booster.iterate, Out.ok.injEq] at hb
    subst hb
    cases ht
  | succ n =>
    rw [hn] at hb
    simp only [Booster.iterate] at hb
    obtain ⟨b2, e2, hb⟩ := Out.bind_eq_ok.1 hb
    obtain ⟨ts', o1, ds, t', o2, h4, h5, h6, h7, rfl⟩ := Booster.trainOneIter_ok e2
    rw [h2] at h4
    cases h4
    obtain ⟨_, ⟨l, h8, _⟩, _⟩ := iterate_extends _ _ _ hb
    have : t' = t := by
      rw [h8] at ht
      simpa [AdditiveTree.pushTree, AdditiveTree.setBias, AdditiveTree.new] using ht
    subst this
    exact ⟨ts, ds0, o0, o1, ds, o2, h2, h1, h3, h5, h6, h7⟩

/-- The first trees of the two runs, while they grow. -/
theorem first_trees {F : FP} {M : Libm} {c c' : Config} {d : Data} {rng : Rng} {metrics metrics' : List Metric} {o : Objective}
    {b b' : Booster} (h : AsksForSmaller c c') (ho : SameObjective o.kind c c') (hb : Booster.run F M c d rng metrics o = .ok b)
    (hb' : Booster.run F M c' d rng metrics' o = .ok b') {t t' : Tree} (ht : b.ensemble.trees[0]? = some t)
    (ht' : b'.ensemble.trees[0]? = some t') :
    ∃ ds w root o1 o2 o2', rootNode F c ds w o1 = .ok root ∧ Grows F c ds ds.supercats w o1.bounds root t o2 [] ∧
      Grows F (c.limited c'.maxTreeDepth c'.minGain) ds ds.supercats w o1.bounds root t' o2' [] := by
  obtain ⟨ts, ds0, o0, o1, ds, o2, h1, h2, h3, h4, h5, h6⟩ := first_tree hb ht
  obtain ⟨ts', ds0', o0', o1', ds', o2', g1, g2, g3, g4, g5, g6⟩ := first_tree hb' ht'
  rw [h1] at g1
  cases g1
  rw [h.same.new, new_limited, h2] at g2
  cases g2
  rw [h.same.init ⟨ho.huber, ho.binary⟩, init_limited, h3] at g3
  cases g3
  rw [h4] at g4
  cases g4
  rw [h.same.update, update_limited, h5] at g5
  cases g5
  rw [h.same.train] at g6
  obtain ⟨w, root, o3, k1, k2, k3⟩ := train_grows h6
  obtain ⟨w', root', o3', j1, j2, j3⟩ := train_grows g6
  rw [show width (c.limited c'.maxTreeDepth c'.minGain) = width c from rfl, k1] at j1
  cases j1
  rw [rootNode_limited, k2] at j2
  cases j2
  exact ⟨ds, w, root, o1, o3, o3', k2, k3, j3⟩

/-- The leaves that the first trees of the two runs have in common. -/
theorem first_values {F : FP} {M : Libm} {c c' : Config} {d : Data} {rng : Rng} {metrics metrics' : List Metric} {o : Objective}
    {b b' : Booster} (h : AsksForSmaller c c') (ho : SameObjective o.kind c c') (hn : d.nexamples ≤ 2 ^ 24)
    (hf : c.exampleFraction.le (.fin 1) = true) (hmin : 1 ≤ c.minExamplesLeaf) (hb : Booster.run F M c d rng metrics o = .ok b)
    (hb' : Booster.run F M c' d rng metrics' o = .ok b') {t t' : Tree} (ht : b.ensemble.trees[0]? = some t)
    (ht' : b'.ensemble.trees[0]? = some t') {n : Nat} (hl : IsLeaf t n) (hl' : IsLeaf t' n) :
    ∃ v, t.nodeValue n = .ok v ∧ t'.nodeValue n = .ok v ∧ t.shrinkage = .fin 1 ∧ t.bias = .fin 0 ∧ t'.shrinkage = .fin 1 ∧
      t'.bias = .fin 0 := by
  obtain ⟨ts, ds0, o0, o1, ds, o2, h1, h2, h3, h4, h5, h6⟩ := first_tree hb ht
  obtain ⟨ts', ds0', o0', o1', ds', o2', g1, g2, g3, g4, g5, g6⟩ := first_tree hb' ht'
  rw [h1] at g1
  cases g1
  rw [h.same.new, new_limited, h2] at g2
  cases g2
  rw [h.same.init ⟨ho.huber, ho.binary⟩, init_limited, h3] at g3
  cases g3
  rw [h4] at g4
  cases g4
  rw [h.same.update, update_limited, h5] at g5
  cases g5
  rw [h.same.train] at g6
  have hds : Updated F c d rng 1 ds := .update (.new h2) h5
  have hds' : Updated F (c.limited c'.maxTreeDepth c'.minGain) d rng 1 ds :=
    .update (.new (by rw [new_limited]; exact h2)) (by rw [update_limited]; exact h5)
  obtain ⟨rows, r1, _, r2, _⟩ := active_rows hds hn hf
  rw [(rowsOk hds r1).len] at r2
  have htgt : target ds.data = .ok ts := by rw [hds.inv.data]; exact h1
  obtain ⟨w, ps, codes, root, k1, k2, k3, k4, k5, k6, k7⟩ := train_parts hds r1 r2 hmin htgt h6
  obtain ⟨w', ps', codes', root', j1, j2, j3, j4, j5, j6, j7⟩ := train_parts hds' r1 r2 hmin htgt g6
  rw [show width (c.limited c'.maxTreeDepth c'.minGain) = width c from rfl, k1] at j1
  cases j1
  rw [k2] at j2
  cases j2
  rw [k3] at j3
  cases j3
  rw [refRoot_limited, k4] at j4
  cases j4
  obtain ⟨ex, u, a1, a2, a3⟩ := k7 n hl
  obtain ⟨ex', u', b1, b2, b3⟩ := j7 n hl'
  have := a1.agree h.gain k5 b1
  subst this
  rw [a2] at b2
  cases b2
  refine ⟨F.mul o1.learningRate u, ?_, ?_, k6.1, k6.2, j6.1, j6.2⟩
  · unfold Tree.nodeValue
    rw [a3]
  · unfold Tree.nodeValue
    rw [b3]

/-- With any rounding, with or without sampling: the first trees of two runs whose configurations agree in the settings of the
learner and of the objective, but that the second asks for a smaller depth or a larger `min_gain`. Every split of the smaller
tree is in the larger tree, at the same node. -/
theorem C79_tests (F : FP) (M : Libm) (c c' : Config) (d : Data) (rng : Rng) (metrics metrics' : List Metric) (o : Objective)
    (b b' : Booster) (h : AsksForSmaller c c') (ho : SameObjective o.kind c c') (hb : Booster.run F M c d rng metrics o = .ok b)
    (hb' : Booster.run F M c' d rng metrics' o = .ok b') (t t' : Tree) (ht : b.ensemble.trees[0]? = some t)
    (ht' : b'.ensemble.trees[0]? = some t') (n : Nat) (s : SplitCrit) (hn : t'.splitCrits[n]? = some s)
    (hs : s.splitType ≠ .noSplit) : t.splitCrits[n]? = some s := by
  obtain ⟨ds, w, root, o1, o2, o2', h1, h2, h3⟩ := first_trees h ho hb hb' ht ht'
  exact (pruned_forward h.gain h.depth (rootNode_id h1) h2 h3 n s hn (by simpa [SplitCrit.isNone] using hs)).1

/-- … and every row that can be predicted by both trees ends in the larger tree in the leaf where it ends in the smaller tree,
or below it. -/
theorem C79_leaves (F : FP) (M : Libm) (c c' : Config) (d : Data) (rng : Rng) (metrics metrics' : List Metric) (o : Objective)
    (b b' : Booster) (h : AsksForSmaller c c') (ho : SameObjective o.kind c c') (hb : Booster.run F M c d rng metrics o = .ok b)
    (hb' : Booster.run F M c' d rng metrics' o = .ok b') (t t' : Tree) (ht : b.ensemble.trees[0]? = some t)
    (ht' : b'.ensemble.trees[0]? = some t') (other : Data) (i n m : Nat) (hn : t'.predictLeafId other i = .ok n)
    (hm : t.predictLeafId other i = .ok m) : Below n m := by
  obtain ⟨ds, w, root, o1, o2, o2', h1, h2, h3⟩ := first_trees h ho hb hb' ht ht'
  exact leafFrom_pruned (by rw [h2.sup, h3.sup])
    (fun n s hn hs => (pruned_forward h.gain h.depth (rootNode_id h1) h2 h3 n s hn hs).1) _ _ _ _ le_rfl hn hm

/-- With the same `min_gain`, the nodes above the smaller depth (node 0 is the root, 1 and 2 its children, 3 to 6 theirs, and so
on) have the same tests in both trees. -/
theorem C79_depth (F : FP) (M : Libm) (c c' : Config) (d : Data) (rng : Rng) (metrics metrics' : List Metric) (o : Objective)
    (b b' : Booster) (h : AsksForSmaller c c') (hg : c'.minGain = c.minGain) (ho : SameObjective o.kind c c')
    (hb : Booster.run F M c d rng metrics o = .ok b) (hb' : Booster.run F M c' d rng metrics' o = .ok b') (t t' : Tree)
    (ht : b.ensemble.trees[0]? = some t) (ht' : b'.ensemble.trees[0]? = some t') (n : Nat) (hn : n < 2 ^ c'.maxTreeDepth - 1)
    (s : SplitCrit) (hs : s.splitType ≠ .noSplit) : t.splitCrits[n]? = some s ↔ t'.splitCrits[n]? = some s := by
  obtain ⟨ds, w, root, o1, o2, o2', h1, h2, h3⟩ := first_trees h ho hb hb' ht ht'
  have hg' := h.gain
  rw [hg] at h3 hg'
  have h0 := rootNode_id h1
  have hs' : s.isNone = false := by simpa [SplitCrit.isNone] using hs
  refine ⟨fun e => ?_, fun e => (pruned_forward hg' h.depth h0 h2 h3 n s e hs').1⟩
  obtain ⟨s2, e2, e3⟩ := pruned_backward hg' h.depth h0 h2 h3 n hn ⟨s, e, hs'⟩
  have := (pruned_forward hg' h.depth h0 h2 h3 n s2 e2 e3).1
  rw [e] at this
  cases this
  exact e2

/-- The leaves the two trees have in common have the same values. The limit 2^24 is where `f32` stops to count, and `hmin`
leaves out splits with an empty side. -/
theorem C79_values (F : FP) (M : Libm) (c c' : Config) (d : Data) (rng : Rng) (metrics metrics' : List Metric) (o : Objective)
    (b b' : Booster) (h : AsksForSmaller c c') (ho : SameObjective o.kind c c') (hn : d.nexamples ≤ 2 ^ 24)
    (hf : c.exampleFraction.le (.fin 1) = true) (hmin : 1 ≤ c.minExamplesLeaf) (hb : Booster.run F M c d rng metrics o = .ok b)
    (hb' : Booster.run F M c' d rng metrics' o = .ok b') (t t' : Tree) (ht : b.ensemble.trees[0]? = some t)
    (ht' : b'.ensemble.trees[0]? = some t') (n : Nat) (hl : IsLeaf t n) (hl' : IsLeaf t' n) :
    ∃ v, t.nodeValue n = .ok v ∧ t'.nodeValue n = .ok v := by
  obtain ⟨v, h1, h2, _⟩ := first_values h ho hn hf hmin hb hb' ht ht' hl hl'
  exact ⟨v, h1, h2⟩

/-- … and the predictions for a row that ends in one of them are the same. -/
theorem C79_predictions (F : FP) (M : Libm) (c c' : Config) (d : Data) (rng : Rng) (metrics metrics' : List Metric) (o : Objective)
    (b b' : Booster) (h : AsksForSmaller c c') (ho : SameObjective o.kind c c') (hn : d.nexamples ≤ 2 ^ 24)
    (hf : c.exampleFraction.le (.fin 1) = true) (hmin : 1 ≤ c.minExamplesLeaf) (hb : Booster.run F M c d rng metrics o = .ok b)
    (hb' : Booster.run F M c' d rng metrics' o = .ok b') (t t' : Tree) (ht : b.ensemble.trees[0]? = some t)
    (ht' : b'.ensemble.trees[0]? = some t') (other : Data) (i n : Nat) (hi : t.predictLeafId other i = .ok n)
    (hi' : t'.predictLeafId other i = .ok n) :
    ∃ v, t.predictSingle F other i = .ok v ∧ t'.predictSingle F other i = .ok v := by
  obtain ⟨v, h1, h2, h3, h4, h5, h6⟩ := first_values h ho hn hf hmin hb hb' ht ht' (predictLeafId_leaf hi) (predictLeafId_leaf hi')
  refine ⟨F.mul (.fin 1) (F.add v (.fin 0)), ?_, ?_⟩
  · unfold Tree.predictSingle
    rw [hi, Out.ok_bind, h1, Out.ok_bind, h3, h4]
    rfl
  · unfold Tree.predictSingle
    rw [hi', Out.ok_bind, h2, Out.ok_bind, h5, h6]
    rfl

/-! ## What is false -/

private def pruneCfg (depth mel : Nat) (g : ℚ) : Config :=
  { Config.new with maxNbins := 4, maxTreeDepth := depth, niterations := 2, learningRate := .fin 1, minExamplesLeaf := mel
                    minGain := .fin g }
private def pruneData (x y z u v w : ℚ) : Data :=
  ⟨4, [], 2, 6,
    [⟨[.fin 0, .fin 0, .fin 0, .fin 1, .fin 1, .fin 2], .fin 0, .fin 2, .loCardCat, 3⟩,
     ⟨[.fin 0, .fin 0, .fin 1, .fin 0, .fin 1, .fin 1], .fin 0, .fin 1, .loCardCat, 2⟩,
     ⟨[.fin x, .fin y, .fin z, .fin u, .fin v, .fin w], .fin 0, .fin 9, .numerical, 0⟩]⟩

/-- For the later trees it is false: with depth 2 the second tree asks at the root if the first feature is 2, with depth 3 if it
is 0. -/
theorem C79_second_refuted : ∃ (c c' : Config) (d : Data) (rng : Rng) (b b' : Booster), AsksForSmaller c c' ∧
    c'.minGain = c.minGain ∧ c'.maxTreeDepth = 2 ∧
    Booster.run .exact runLibm c d rng [] (Objective.new .l2) = .ok b ∧ Booster.run .exact runLibm c' d rng [] (Objective.new .l2) = .ok b' ∧
    b.ensemble.trees.map (fun t : Tree => t.splitCrits[0]?) =
      [some (SplitCrit.mk .loCardCatEq 0 (Num.fin 0)), some (SplitCrit.mk .loCardCatEq 0 (Num.fin 0))] ∧
    b'.ensemble.trees.map (fun t : Tree => t.splitCrits[0]?) =
      [some (SplitCrit.mk .loCardCatEq 0 (Num.fin 0)), some (SplitCrit.mk .loCardCatEq 0 (Num.fin 2))] := by
  obtain ⟨b, h1, h2⟩ := boosted_check (F := .exact) (cfg := pruneCfg 3 1 (1 / 1000000)) (d := pruneData 0 1 2 4 6 9)
    (rng := ⟨fun i => i⟩) (metrics := []) (o := Objective.new .l2)
    (fun b => decide (b.ensemble.trees.map (fun t : Tree => t.splitCrits[0]?) =
      [some (SplitCrit.mk .loCardCatEq 0 (Num.fin 0)), some (SplitCrit.mk .loCardCatEq 0 (Num.fin 0))])) (by decide +kernel)
  obtain ⟨b', g1, g2⟩ := boosted_check (F := .exact) (cfg := pruneCfg 2 1 (1 / 1000000)) (d := pruneData 0 1 2 4 6 9)
    (rng := ⟨fun i => i⟩) (metrics := []) (o := Objective.new .l2)
    (fun b => decide (b.ensemble.trees.map (fun t : Tree => t.splitCrits[0]?) =
      [some (SplitCrit.mk .loCardCatEq 0 (Num.fin 0)), some (SplitCrit.mk .loCardCatEq 0 (Num.fin 2))])) (by decide +kernel)
  exact ⟨pruneCfg 3 1 (1 / 1000000), pruneCfg 2 1 (1 / 1000000), _, _, b, b',
    ⟨⟨rfl, rfl, rfl, rfl, rfl, rfl, rfl, rfl, rfl, rfl, rfl⟩, by decide, by decide +kernel⟩, rfl, rfl, h1, g1,
    of_decide_eq_true h2, of_decide_eq_true g2⟩

/-- A larger `min_examples_leaf` does not prune the tree: with 1 the root of the first tree asks if the first feature is 2, with 2
if it is 0. -/
theorem C79_min_examples_refuted : ∃ (c : Config) (d : Data) (rng : Rng) (b b' : Booster), c.minExamplesLeaf = 1 ∧
    Booster.run .exact runLibm c d rng [] (Objective.new .l2) = .ok b ∧
    Booster.run .exact runLibm { c with minExamplesLeaf := 2 } d rng [] (Objective.new .l2) = .ok b' ∧
    (b.ensemble.trees.map (fun t : Tree => t.splitCrits[0]?))[0]? = some (some (SplitCrit.mk .loCardCatEq 0 (Num.fin 2))) ∧
    (b'.ensemble.trees.map (fun t : Tree => t.splitCrits[0]?))[0]? = some (some (SplitCrit.mk .loCardCatEq 0 (Num.fin 0))) := by
  obtain ⟨b, h1, h2⟩ := boosted_check (F := .exact) (cfg := pruneCfg 2 1 (1 / 1000)) (d := pruneData 0 0 0 1 1 9)
    (rng := ⟨fun i => i⟩) (metrics := []) (o := Objective.new .l2)
    (fun b => decide ((b.ensemble.trees.map (fun t : Tree => t.splitCrits[0]?))[0]? =
      some (some (SplitCrit.mk .loCardCatEq 0 (Num.fin 2))))) (by decide +kernel)
  obtain ⟨b', g1, g2⟩ := boosted_check (F := .exact) (cfg := pruneCfg 2 2 (1 / 1000)) (d := pruneData 0 0 0 1 1 9)
    (rng := ⟨fun i => i⟩) (metrics := []) (o := Objective.new .l2)
    (fun b => decide ((b.ensemble.trees.map (fun t : Tree => t.splitCrits[0]?))[0]? =
      some (some (SplitCrit.mk .loCardCatEq 0 (Num.fin 0))))) (by decide +kernel)
  exact ⟨pruneCfg 2 1 (1 / 1000), _, _, b, b', rfl, h1, g1, of_decide_eq_true h2, of_decide_eq_true g2⟩

/-! ## Examples -/

/-- C79_tests, C79_leaves: in `f32`, depth 3 and `min_gain` 1/1000, depth 2 and `min_gain` 1, on the same data; the trees
have four splits and two, and there is a row that ends in node 1 of the smaller tree, and in node 3, below it, of the larger tree. -/
example : AsksForSmaller (pruneCfg 3 1 (1 / 1000)) (pruneCfg 2 1 1) ∧
    SameObjective (Objective.new .l2).kind (pruneCfg 3 1 (1 / 1000)) (pruneCfg 2 1 1) ∧
    ∃ b b' t t', Booster.run .binary32 runLibm (pruneCfg 3 1 (1 / 1000)) (pruneData 0 1 2 4 6 9) ⟨fun i => i⟩ [] (Objective.new .l2) = .ok b ∧
      Booster.run .binary32 runLibm (pruneCfg 2 1 1) (pruneData 0 1 2 4 6 9) ⟨fun i => i⟩ [] (Objective.new .l2) = .ok b' ∧
      b.ensemble.trees[0]? = some t ∧ b'.ensemble.trees[0]? = some t' ∧ t.ninternal = 4 ∧ t'.ninternal = 2 ∧
      t'.predictLeafId (pruneData 0 1 2 4 6 9) 0 = .ok 1 ∧ t.predictLeafId (pruneData 0 1 2 4 6 9) 0 = .ok 3 := by
  refine ⟨⟨⟨rfl, rfl, rfl, rfl, rfl, rfl, rfl, rfl, rfl, rfl, rfl⟩, by decide, by decide +kernel⟩, ⟨nofun, nofun⟩, ?_⟩
  obtain ⟨b, h1, h2⟩ := boosted_check (F := .binary32) (cfg := pruneCfg 3 1 (1 / 1000)) (d := pruneData 0 1 2 4 6 9)
    (rng := ⟨fun i => i⟩) (metrics := []) (o := Objective.new .l2)
    (fun b => match b.ensemble.trees[0]? with
      | some t => decide (t.ninternal = 4 ∧ t.predictLeafId (pruneData 0 1 2 4 6 9) 0 = .ok 3)
      | none => false) (by decide +kernel)
  obtain ⟨b', g1, g2⟩ := boosted_check (F := .binary32) (cfg := pruneCfg 2 1 1) (d := pruneData 0 1 2 4 6 9)
    (rng := ⟨fun i => i⟩) (metrics := []) (o := Objective.new .l2)
    (fun b => match b.ensemble.trees[0]? with
      | some t => decide (t.ninternal = 2 ∧ t.predictLeafId (pruneData 0 1 2 4 6 9) 0 = .ok 1)
      | none => false) (by decide +kernel)
  split at h2
  · rename_i t ht
    split at g2
    · rename_i t' ht'
      simp only [decide_eq_true_eq] at h2 g2
      exact ⟨b, b', t, t', h1, g1, ht, ht', h2.1, g2.1, g2.2, h2.2⟩
    · cases g2
  · cases h2

/-- C79_values, C79_predictions: with these configurations and these data, the fourth row ends in node 5 of both trees. -/
example : (pruneData 0 1 2 4 6 9).nexamples ≤ 2 ^ 24 ∧ (pruneCfg 3 1 (1 / 1000)).exampleFraction.le (.fin 1) = true ∧
    1 ≤ (pruneCfg 3 1 (1 / 1000)).minExamplesLeaf ∧
    ∃ b b' t t', Booster.run .binary32 runLibm (pruneCfg 3 1 (1 / 1000)) (pruneData 0 1 2 4 6 9) ⟨fun i => i⟩ [] (Objective.new .l2) = .ok b ∧
      Booster.run .binary32 runLibm (pruneCfg 2 1 1) (pruneData 0 1 2 4 6 9) ⟨fun i => i⟩ [] (Objective.new .l2) = .ok b' ∧
      b.ensemble.trees[0]? = some t ∧ b'.ensemble.trees[0]? = some t' ∧
      t'.predictLeafId (pruneData 0 1 2 4 6 9) 3 = .ok 5 ∧ t.predictLeafId (pruneData 0 1 2 4 6 9) 3 = .ok 5 := by
  refine ⟨by decide, by decide +kernel, by decide, ?_⟩
  obtain ⟨b, h1, h2⟩ := boosted_check (F := .binary32) (cfg := pruneCfg 3 1 (1 / 1000)) (d := pruneData 0 1 2 4 6 9)
    (rng := ⟨fun i => i⟩) (metrics := []) (o := Objective.new .l2)
    (fun b => match b.ensemble.trees[0]? with
      | some t => decide (t.predictLeafId (pruneData 0 1 2 4 6 9) 3 = .ok 5)
      | none => false) (by decide +kernel)
  obtain ⟨b', g1, g2⟩ := boosted_check (F := .binary32) (cfg := pruneCfg 2 1 1) (d := pruneData 0 1 2 4 6 9)
    (rng := ⟨fun i => i⟩) (metrics := []) (o := Objective.new .l2)
    (fun b => match b.ensemble.trees[0]? with
      | some t => decide (t.predictLeafId (pruneData 0 1 2 4 6 9) 3 = .ok 5)
      | none => false) (by decide +kernel)
  split at h2
  · rename_i t ht
    split at g2
    · rename_i t' ht'
      simp only [decide_eq_true_eq] at h2 g2
      exact ⟨b, b', t, t', h1, g1, ht, ht', g2, h2⟩
    · cases g2
  · cases h2

/-- C79_depth: the same with the same `min_gain`; the first trees have four splits and three. -/
example : AsksForSmaller (pruneCfg 3 1 (1 / 1000)) (pruneCfg 2 1 (1 / 1000)) ∧
    (pruneCfg 2 1 (1 / 1000)).minGain = (pruneCfg 3 1 (1 / 1000)).minGain ∧
    SameObjective (Objective.new .l2).kind (pruneCfg 3 1 (1 / 1000)) (pruneCfg 2 1 (1 / 1000)) ∧
    ∃ b b', Booster.run .binary32 runLibm (pruneCfg 3 1 (1 / 1000)) (pruneData 0 1 2 4 6 9) ⟨fun i => i⟩ [] (Objective.new .l2) = .ok b ∧
      Booster.run .binary32 runLibm (pruneCfg 2 1 (1 / 1000)) (pruneData 0 1 2 4 6 9) ⟨fun i => i⟩ [] (Objective.new .l2) = .ok b' ∧
      (b.ensemble.trees.map Tree.ninternal)[0]? = some 4 ∧ (b'.ensemble.trees.map Tree.ninternal)[0]? = some 3 := by
  refine ⟨⟨⟨rfl, rfl, rfl, rfl, rfl, rfl, rfl, rfl, rfl, rfl, rfl⟩, by decide, by decide +kernel⟩, rfl, ⟨nofun, nofun⟩, ?_⟩
  obtain ⟨b, h1, h2⟩ := boosted_check (F := .binary32) (cfg := pruneCfg 3 1 (1 / 1000)) (d := pruneData 0 1 2 4 6 9)
    (rng := ⟨fun i => i⟩) (metrics := []) (o := Objective.new .l2)
    (fun b => decide ((b.ensemble.trees.map Tree.ninternal)[0]? = some 4)) (by decide +kernel)
  obtain ⟨b', g1, g2⟩ := boosted_check (F := .binary32) (cfg := pruneCfg 2 1 (1 / 1000)) (d := pruneData 0 1 2 4 6 9)
    (rng := ⟨fun i => i⟩) (metrics := []) (o := Objective.new .l2)
    (fun b => decide ((b.ensemble.trees.map Tree.ninternal)[0]? = some 3)) (by decide +kernel)
  exact ⟨b, b', h1, g1, of_decide_eq_true h2, of_decide_eq_true g2⟩

end BitBoost.Props
