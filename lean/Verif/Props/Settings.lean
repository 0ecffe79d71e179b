import Verif.Lemmas.Settings
import Verif.Props.Boost
/-!
# C76: which settings a trained model depends on

The trees, the bias and the running predictions depend only on the settings of the learner and of the objective in use
(`C76_settings`); not on the metrics and how often they are evaluated, the names and the format of the files, the settings of
the other objectives; without sampling not on the random seed (`C76_seed`; with sampling they do, `C76_seed_matters`). Training for fewer iterations gives the
first trees of the longer training (`C76_iterations`).
-/
namespace BitBoost.Props
open Spec Dataset Learner

/-- With any rounding: two runs whose configurations agree in the settings of the learner, of the objective and the number of
iterations give the same model and the same running predictions, whatever metrics are evaluated; the printed metrics are
the same if the metrics and their frequency are. -/
theorem C76_settings (F : FP) (M : Libm) (c c' : Config) (d : Data) (rng : Rng) (metrics metrics' : List Metric) (o : Objective)
    (h : SameLearner c c') (ho : SameObjective o.kind c c') (hn : c'.niterations = c.niterations) (b : Booster)
    (hb : Booster.run F M c d rng metrics o = .ok b) :
    ∃ b', Booster.run F M c' d rng metrics' o = .ok b' ∧ b'.ensemble = b.ensemble ∧ b'.objective = b.objective ∧
      (metrics' = metrics → c'.metricFrequency = c.metricFrequency → b'.printed = b.printed) := by
  obtain ⟨b', h1, h2⟩ := run_same (F := F) (M := M) (d := d) (o := o)
    (same := metrics' = metrics ∧ c'.metricFrequency = c.metricFrequency) h ho (fun e => e) (.inl rfl : rng = rng ∨ _) hn b hb
  exact ⟨b', h1, h2.ens, h2.obj, fun e1 e2 => h2.printed ⟨e1, e2⟩⟩

/-- With any rounding: without sampling of examples and features, the random seed does not matter. -/
theorem C76_seed (F : FP) (M : Libm) (c : Config) (d : Data) (rng rng' : Rng) (metrics : List Metric) (o : Objective)
    (he : c.exampleFraction = .fin 1) (hf : c.featureFraction = .fin 1) (hnf : d.nfeatures ≤ 2 ^ 24) (b : Booster)
    (hb : Booster.run F M c d rng metrics o = .ok b) :
    ∃ b', Booster.run F M c d rng' metrics o = .ok b' ∧ b'.ensemble = b.ensemble ∧ b'.objective = b.objective ∧
      b'.printed = b.printed := by
  obtain ⟨b', h1, h2⟩ := run_same (F := F) (M := M) (d := d) (o := o) (r := rng) (r' := rng') (c := c) (c' := c)
    (metrics := metrics) (metrics' := metrics) (same := True) ⟨rfl, rfl, rfl, rfl, rfl, rfl, rfl, rfl, rfl, rfl, rfl⟩
    ⟨fun _ => rfl, fun _ => rfl⟩ (fun _ => ⟨rfl, rfl⟩) (.inr ⟨he, hf, hnf⟩) rfl b hb
  exact ⟨b', h1, h2.ens, h2.obj, h2.printed trivial⟩

theorem iterate_add {F : FP} {M : Libm} {c : Config} {d : Data} {metrics : List Metric} : ∀ (k n : Nat) (b : Booster),
    Booster.iterate F M c d metrics (k + n) b = (Booster.iterate F M c d metrics k b >>= Booster.iterate F M c d metrics n)
  | 0, n, b => by rw [Nat.zero_add]; rfl
  | k + 1, n, b => by
      rw [show k + 1 + n = (k + n) + 1 from by omega, Booster.iterate, Booster.iterate, Out.bind_assoc]
      refine bind_congr fun x => ?_
      exact iterate_add k n x

theorem iterate_extends {F : FP} {M : Libm} {c : Config} {d : Data} {metrics : List Metric} : ∀ (n : Nat) (b b' : Booster),
    Booster.iterate F M c d metrics n b = .ok b' →
    b'.ensemble.bias = b.ensemble.bias ∧ (∃ l, b'.ensemble.trees = b.ensemble.trees ++ l ∧ l.length = n) ∧
      b.printed <+: b'.printed
  | 0, b, b', h => by
      simp only [Booster.iterate, Out.ok.injEq] at h
      subst h
      exact ⟨rfl, ⟨[], by simp, rfl⟩, List.prefix_refl _⟩
  | n + 1, b, b', h => by
      simp only [Booster.iterate] at h
      obtain ⟨x, e, h⟩ := Out.bind_eq_ok.1 h
      obtain ⟨h1, ⟨l, h2, hl⟩, h3⟩ := iterate_extends n x b' h
      unfold Booster.trainOneIter at e
      obtain ⟨t, _, e⟩ := Out.bind_eq_ok.1 e
      obtain ⟨o, _, e⟩ := Out.bind_eq_ok.1 e
      obtain ⟨ds, _, e⟩ := Out.bind_eq_ok.1 e
      obtain ⟨q, _, e⟩ := Out.bind_eq_ok.1 e
      simp only [Out.pure_eq, Out.ok.injEq] at e
      subst e
      refine ⟨h1, ⟨q.1 :: l, ?_, by simp [hl]⟩, (List.prefix_append _ _).trans h3⟩
      rw [h2]
      simp [AdditiveTree.pushTree]

/-- With any rounding: if training for `n` iterations succeeds, so does training for `k ≤ n` iterations, and it gives the
same bias, the first `k` trees and the first part of what is printed. -/
theorem C76_iterations (F : FP) (M : Libm) (c : Config) (d : Data) (rng : Rng) (metrics : List Metric) (o : Objective) (k : Nat)
    (hk : k ≤ c.niterations) (b : Booster) (hb : Booster.run F M c d rng metrics o = .ok b) :
    ∃ b', Booster.run F M { c with niterations := k } d rng metrics o = .ok b' ∧ b'.ensemble.bias = b.ensemble.bias ∧
      b'.ensemble.trees = b.ensemble.trees.take k ∧ b'.ensemble.trees.length = k ∧ b'.printed <+: b.printed := by
  have h0 : SameLearner c { c with niterations := k } := ⟨rfl, rfl, rfl, rfl, rfl, rfl, rfl, rfl, rfl, rfl, rfl⟩
  -- the run of `k` iterations with the original configuration
  have key : ∃ b1, Booster.run F M { c with niterations := k } d rng metrics o = .ok b1 ∧
      Booster.iterate F M c d metrics (c.niterations - k) b1 = .ok b := by
    unfold Booster.run at hb
    obtain ⟨s, e1, hb⟩ := Out.bind_eq_ok.1 hb
    unfold Booster.train at hb
    obtain ⟨u, e2, hb⟩ := Out.bind_eq_ok.1 hb
    obtain ⟨p, e3, hb⟩ := Out.bind_eq_ok.1 hb
    rw [show c.niterations = k + (c.niterations - k) from by omega, iterate_add] at hb
    obtain ⟨x, e4, hb⟩ := Out.bind_eq_ok.1 hb
    have hi : ∀ (n : Nat) (y : Booster), Booster.iterate F M { c with niterations := k } d metrics n y =
        Booster.iterate F M c d metrics n y := by
      intro n
      induction n with
      | zero => intro y; rfl
      | succ n ih =>
        intro y
        simp only [Booster.iterate, ih]
        congr 1
        unfold Booster.trainOneIter
        simp only [h0.update, h0.learnTree]
        rfl
    refine ⟨x, ?_, hb⟩
    unfold Booster.run Booster.new
    rw [h0.new]
    unfold Booster.new at e1
    refine Out.bind_eq_ok.2 ⟨s, e1, ?_⟩
    unfold Booster.train
    refine Out.bind_eq_ok.2 ⟨u, e2, Out.bind_eq_ok.2 ⟨p, ?_, ?_⟩⟩
    · unfold Booster.prepare at e3 ⊢
      obtain ⟨t, e5, e3⟩ := Out.bind_eq_ok.1 e3
      refine Out.bind_eq_ok.2 ⟨t, e5, ?_⟩
      rw [h0.init ⟨fun _ => rfl, fun _ => rfl⟩]
      exact e3
    · rw [hi]; exact e4
  obtain ⟨b1, h1, h2⟩ := key
  obtain ⟨g1, ⟨l, g2, gl⟩, g3⟩ := iterate_extends _ _ _ h2
  have hlen : b1.ensemble.trees.length = k := (C59_run _ _ _ _ _ _ _ b1 h1).2.2
  refine ⟨b1, h1, g1.symm, ?_, hlen, g3⟩
  rw [g2, ← hlen, List.take_left]

/-! ## Sampling -/

/-- With sampling the seed matters: the trees trained with four of the five rows differ. -/
theorem C76_seed_matters : ∃ (c : Config) (d : Data) (rng rng' : Rng) (b b' : Booster), c.exampleFraction = .fin (4 / 5) ∧
    c.featureFraction = .fin 1 ∧ Booster.run .binary32 runLibm c d rng [] (Objective.new .l2) = .ok b ∧
    Booster.run .binary32 runLibm c d rng' [] (Objective.new .l2) = .ok b' ∧ b'.ensemble.trees ≠ b.ensemble.trees := by
  obtain ⟨b, h1, h2⟩ := boosted_check (F := .binary32) (cfg := runCfg) (d := runData) (rng := ⟨fun i => i⟩)
    (metrics := []) (o := Objective.new .l2) (fun b => decide (b.ensemble.trees.map (fun t : Tree => t.nleafs) = [2, 3])) (by decide +kernel)
  obtain ⟨b', g1, g2⟩ := boosted_check (F := .binary32) (cfg := runCfg) (d := runData) (rng := ⟨fun _ => 0⟩)
    (metrics := []) (o := Objective.new .l2) (fun b => decide (b.ensemble.trees.map (fun t : Tree => t.nleafs) ≠ [2, 3])) (by decide +kernel)
  simp only [decide_eq_true_eq] at h2 g2
  refine ⟨runCfg, runData, _, _, b, b', rfl, rfl, h1, g1, fun h => ?_⟩
  rw [h] at g2
  exact g2 h2

/-! ## Examples -/

/-- C76_settings: other metrics, files, seed and settings of other objectives; sampling of the rows, `f32`. -/
example : SameLearner runCfg { runCfg with metricFrequency := 7, train := ['a'], csvHasHeader := false, randomSeed := 5
                                           huberAlpha := .fin 2, binaryGradientBound := .fin 3, categoricalFeatures := [1] } ∧
    SameObjective (Objective.new .l2).kind runCfg { runCfg with metricFrequency := 7, train := ['a'], csvHasHeader := false
                                                                randomSeed := 5, huberAlpha := .fin 2
                                                                binaryGradientBound := .fin 3, categoricalFeatures := [1] } ∧
    ∃ b, Booster.run .binary32 runLibm runCfg runData ⟨fun i => i⟩ [.l2] (Objective.new .l2) = .ok b ∧
      b.ensemble.trees.map (fun t : Tree => t.nleafs) = [2, 3] ∧ b.printed.length = 1 := by
  refine ⟨⟨rfl, rfl, rfl, rfl, rfl, rfl, rfl, rfl, rfl, rfl, rfl⟩, ⟨nofun, nofun⟩, ?_⟩
  obtain ⟨b, h1, h2⟩ := boosted_check (F := .binary32) (cfg := runCfg) (d := runData) (rng := ⟨fun i => i⟩)
    (metrics := [.l2]) (o := Objective.new .l2)
    (fun b => decide (b.ensemble.trees.map (fun t : Tree => t.nleafs) = [2, 3] ∧ b.printed.length = 1)) (by decide +kernel)
  simp only [decide_eq_true_eq] at h2
  exact ⟨b, h1, h2⟩

/-- C76_seed: all rows and features. -/
example : ({ runCfg with exampleFraction := .fin 1 } : Config).exampleFraction = .fin 1 ∧
    ({ runCfg with exampleFraction := .fin 1 } : Config).featureFraction = .fin 1 ∧ runData.nfeatures ≤ 2 ^ 24 ∧
    ∃ b, Booster.run .binary32 runLibm { runCfg with exampleFraction := .fin 1 } runData ⟨fun i => i⟩ [] (Objective.new .l2) = .ok b ∧
      b.ensemble.trees.length = 2 := by
  refine ⟨rfl, rfl, by decide, ?_⟩
  obtain ⟨b, h1, h2⟩ := boosted_check (F := .binary32) (cfg := { runCfg with exampleFraction := .fin 1 }) (d := runData)
    (rng := ⟨fun i => i⟩) (metrics := []) (o := Objective.new .l2) (fun b => decide (b.ensemble.trees.length = 2)) (by decide +kernel)
  simp only [decide_eq_true_eq] at h2
  exact ⟨b, h1, h2⟩

/-- C76_iterations: the first of two iterations. -/
example : 1 ≤ runCfg.niterations ∧ ∃ b, Booster.run .binary32 runLibm runCfg runData ⟨fun i => i⟩ [.l2] (Objective.new .l2) = .ok b := by
  refine ⟨by decide, ?_⟩
  obtain ⟨b, h1, _⟩ := boosted_check (F := .binary32) (cfg := runCfg) (d := runData) (rng := ⟨fun i => i⟩)
    (metrics := [.l2]) (o := Objective.new .l2) (fun _ => true) (by decide +kernel)
  exact ⟨b, h1⟩

end BitBoost.Props
