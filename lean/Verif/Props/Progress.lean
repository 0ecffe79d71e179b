import Verif.Lemmas.ProgressRun
import Verif.Props.Boost
/-!
# C69: training ends on valid inputs

`Spec.ValidConfig` and `Spec.ValidData` say which settings and data training can work with, `Spec.Startable` and
`Spec.Learnable` what the objective needs at the start and in an iteration. `Spec.Wide F E` says how large the numbers of the
arithmetic get; it holds with `E = 103` for binary32 (`wide_binary32`) and with every `E` for exact arithmetic.
-/
namespace BitBoost.Props
open BitBoost Spec Dataset Learner

section
variable (F : FP) (M : Libm) (cfg : Config) (d : Data) (rng : Rng) (metrics : List Metric) (o : Objective)

/-- **C69.** A booster can be made from valid settings and data, with every objective and random seed. -/
theorem C69_new (hc : ValidConfig cfg) (hd : ValidData cfg d) : ∃ b, Booster.new F cfg d rng o = .ok b :=
  Booster.new_ends hc hd

/-- **C69.** Training starts when the objective can start; the first predictions have a known size. -/
theorem C69_start (hc : ValidConfig cfg) (hd : ValidData cfg d) (E a : ℕ) (hw : Wide F E) (ha : startSize o.kind a ≤ E)
    (targets : List Num) (htgt : Learner.target d = .ok targets)
    (ht : o.kind = .l2 ∨ o.kind = .l1 ∨ o.kind = .huber → ∀ t ∈ targets, SizeLe (2 ^ a) t)
    (hs : Startable M cfg targets o.kind) :
    ∃ b0 b, Booster.new F cfg d rng o = .ok b0 ∧ Booster.prepare F M cfg d b0 = .ok b ∧
      ∀ p ∈ b.objective.predictions, SizeLe (2 ^ startSize o.kind a) p := by
  obtain ⟨b0, e0⟩ := Booster.new_ends (F := F) (rng := rng) (o := o) hc hd
  obtain ⟨ds, _, rfl⟩ := Booster.new_ok e0
  have htl := Booster.target_length hd.shape htgt
  have hn0 := Booster.nexamples_pos hc hd
  obtain ⟨o1, e1, h1⟩ := Objective.init_ends hw (cfg := cfg) (o := o) (by
    intro h; rw [h] at htl; simp at htl; omega) (by rw [htl]; exact hd.size) ha ht hs
  refine ⟨_, { dataset := ds, objective := o1, iterCount := 0, ensemble := AdditiveTree.new.setBias o1.bias
               printed := [] }, e0, ?_, h1⟩
  unfold Booster.prepare
  rw [htgt, Out.ok_bind, e1, Out.ok_bind]
  rfl

/-- **C69.** From every state training can reach, the next iteration ends without a panic if the targets and predictions are
of size at most `2 ^ a`, the arithmetic has room for the leaf values they can lead to, and the objective can learn from
them. The new predictions have a known size too. -/
theorem C69_iteration (hc : ValidConfig cfg) (hd : ValidData cfg d) (k : ℕ) (b : Booster)
    (hb : Boosting F M cfg d rng metrics o k b) (E a : ℕ) (hw : Wide F E) (ha : max a (leafSize o.kind a) ≤ E)
    (targets : List Num) (htgt : Learner.target d = .ok targets) (ht : ∀ t ∈ targets, SizeLe (2 ^ a) t)
    (hp : ∀ p ∈ b.objective.predictions, SizeLe (2 ^ a) p) (hr : Learnable F M d targets b.objective) :
    ∃ b', Booster.trainOneIter F M cfg d metrics b = .ok b' ∧ b'.ensemble.trees.length = k + 1 ∧
      ∀ p ∈ b'.objective.predictions, SizeLe (2 ^ (max a (leafSize o.kind a) + 1)) p := by
  have hC : F.rnd ((2 : ℚ) ^ (max a (leafSize o.kind a) + 1)) = .fin (2 ^ (max a (leafSize o.kind a) + 1)) :=
    hw.pow (by omega)
  obtain ⟨b', e, h⟩ := Booster.trainOneIter_ends hb hc hd hw (by omega) htgt (fun _ => ht) (fun _ => hp) hr hp hC (by
    have h1 : (2 : ℚ) ^ a ≤ 2 ^ max a (leafSize o.kind a) := pow_le_pow_right₀ (by norm_num) (by omega)
    have h2 : (2 : ℚ) ^ leafSize o.kind a ≤ 2 ^ max a (leafSize o.kind a) := pow_le_pow_right₀ (by norm_num) (by omega)
    rw [pow_succ]; linarith)
  exact ⟨b', e, (Booster.boosting_updated (Boosting.iter hb e)).2.2, h⟩

theorem iterate_ends {Q : ℕ → Booster → Prop} {N : ℕ}
    (hstep : ∀ k b, k < N → Boosting F M cfg d rng metrics o k b → Q k b →
      ∃ b', Booster.trainOneIter F M cfg d metrics b = .ok b' ∧ Q (k + 1) b') :
    ∀ (n k : ℕ) (b : Booster), k + n = N → Boosting F M cfg d rng metrics o k b → Q k b →
      ∃ b', Booster.iterate F M cfg d metrics n b = .ok b' ∧ Q N b'
  | 0, k, b, hk, _, hq => ⟨b, rfl, by rw [← hk]; exact hq⟩
  | n + 1, k, b, hk, hb, hq => by
      obtain ⟨b', e, hq'⟩ := hstep k b (by omega) hb hq
      obtain ⟨b'', e2, h2⟩ := iterate_ends hstep n (k + 1) b' (by omega) (Boosting.iter hb e) hq'
      refine ⟨b'', ?_, h2⟩
      unfold Booster.iterate
      rw [e, Out.ok_bind]
      exact e2

/-- A run ends when it starts and every iteration keeps an invariant. -/
theorem run_ends {Q : ℕ → Booster → Prop}
    (hstart : ∃ b0 b, Booster.new F cfg d rng o = .ok b0 ∧ Booster.prepare F M cfg d b0 = .ok b ∧ Q 0 b)
    (hstep : ∀ k b, k < cfg.niterations → Boosting F M cfg d rng metrics o k b → Q k b →
      ∃ b', Booster.trainOneIter F M cfg d metrics b = .ok b' ∧ Q (k + 1) b') :
    ∃ b, Booster.run F M cfg d rng metrics o = .ok b ∧ b.ensemble.trees.length = cfg.niterations ∧
      Q cfg.niterations b := by
  obtain ⟨b0, b, e0, e1, hq⟩ := hstart
  obtain ⟨b', e2, hq'⟩ := iterate_ends F M cfg d rng metrics o hstep cfg.niterations 0 b (by omega)
    (Boosting.start e0 e1) hq
  have e : Booster.run F M cfg d rng metrics o = .ok b' := by
    unfold Booster.run Booster.train
    rw [e0, Out.ok_bind]
    have : b0.iterCount = 0 := by
      obtain ⟨ds, _, rfl⟩ := Booster.new_ok e0
      rfl
    rw [this, show Out.assert (0 == 0) = .ok () from rfl, Out.ok_bind, e1, Out.ok_bind]
    exact e2
  exact ⟨b', e, (Booster.boosting_updated (Booster.run_boosting e)).2.2, hq'⟩

/-- **C69.** A whole run ends without a panic, with the number of trees asked for, if in every state it reaches before the
last iteration the sizes are in range and the objective can learn. -/
theorem C69_run (hc : ValidConfig cfg) (hd : ValidData cfg d) (E a : ℕ) (hw : Wide F E) (ha : startSize o.kind a ≤ E)
    (targets : List Num) (htgt : Learner.target d = .ok targets) (ht : ∀ t ∈ targets, SizeLe (2 ^ a) t)
    (hs : Startable M cfg targets o.kind)
    (hstates : ∀ k b, k < cfg.niterations → Boosting F M cfg d rng metrics o k b →
      Learnable F M d targets b.objective ∧
        ∃ c, a ≤ c ∧ max c (leafSize o.kind c) ≤ E ∧ ∀ p ∈ b.objective.predictions, SizeLe (2 ^ c) p) :
    ∃ b, Booster.run F M cfg d rng metrics o = .ok b ∧ b.ensemble.trees.length = cfg.niterations := by
  obtain ⟨b, e, h, _⟩ := run_ends F M cfg d rng metrics o (Q := fun _ _ => True) (by
    obtain ⟨b0, b, e0, e1, _⟩ := C69_start F M cfg d rng o hc hd E a hw ha targets htgt (fun _ => ht) hs
    exact ⟨b0, b, e0, e1, trivial⟩) (by
    intro k b hk hb _
    obtain ⟨hr, c, hac, hcE, hp⟩ := hstates k b hk hb
    obtain ⟨b', e, _⟩ := C69_iteration F M cfg d rng metrics o hc hd k b hb E c hw hcE targets htgt
      (fun t h => (ht t h).mono (pow_le_pow_right₀ (by norm_num) hac)) hp hr
    exact ⟨b', e, trivial⟩)
  exact ⟨b, e, h⟩

/-- **C69**, log loss: with labels 0 and 1 that both occur, a whole run ends without a panic, with the number of trees asked
for. This holds for binary32 arithmetic (`E = 103`) and for every other one with a large enough range, whatever `exp` and `ln`
return within what is asked of them. -/
theorem C69_binary (hc : ValidConfig cfg) (hd : ValidData cfg d) (E : ℕ) (hw : Wide F E) (hE : 48 ≤ E)
    (hk : o.kind = .binary) (targets : List Num) (htgt : Learner.target d = .ok targets)
    (hcls : ∀ t ∈ targets, t = .fin 0 ∨ t = .fin 1) (h0 : Num.fin 0 ∈ targets) (h1 : Num.fin 1 ∈ targets)
    (hexp : ExpLike M) (hln : LnLike M)
    (hbound : HasHicard d → ∃ q : ℚ, cfg.binaryGradientBound = .fin q ∧ 0 < q) (hit : cfg.niterations < 2 ^ 24) :
    ∃ b, Booster.run F M cfg d rng metrics o = .ok b ∧ b.ensemble.trees.length = cfg.niterations ∧
      ∀ p ∈ b.objective.predictions, SizeLe ((cfg.niterations + 1) * 2 ^ 48) p := by
  obtain ⟨b, e, h, hq⟩ := run_ends F M cfg d rng metrics o
    (Q := fun k b => ∀ p ∈ b.objective.predictions, SizeLe ((k + 1 : ℕ) * 2 ^ 48) p) (by
      obtain ⟨b0, b, e0, e1, hp⟩ := C69_start F M cfg d rng o hc hd E 0 hw (by rw [hk]; simp only [startSize]; omega) targets
        htgt (by rw [hk]; simp) (by
          rw [hk]
          exact ⟨by simp, by simp, fun _ => ⟨hcls, h0, h1, hln⟩, by simp⟩)
      refine ⟨b0, b, e0, e1, fun p h => (hp p h).mono ?_⟩
      rw [hk]
      norm_num [startSize]) (by
      intro k b hkn hb hp
      have hobj : b.objective.kind = .binary := by
        obtain ⟨qe, he, _, he1⟩ := hc.examples
        rw [(Booster.boosting_objective hb hd.shape hd.size (by rw [he]; simpa [Num.le] using he1) hc.leaf).1, hk]
      have hbd := (Booster.boosting_gradients hb hc hd).2 hk
      refine Booster.trainOneIter_ends (a := 0) hb hc hd hw (by rw [hk]; exact hE) htgt (fun h => absurd hk h)
        (fun h => absurd hk h) ⟨?_, fun _ => ⟨hcls, hexp⟩, ?_⟩ hp (hw.mul (k := k + 1 + 1) (j := 48) (by omega) hE) ?_
      · rw [hobj]; simp
      · intro hh o' ho'
        obtain ⟨g1, g2⟩ := update_inv ho'
        rw [update_eq F M _ _ g1 g2, hobj] at ho'
        cases ho'
        obtain ⟨q, eq, hq⟩ := hbound hh
        refine ⟨q, ?_, hq⟩
        simp only [Objective.bounds, hobj]
        rw [hbd, eq]
      · rw [hk]
        simp only [leafSize]
        push_cast; linarith)
  refine ⟨b, e, h, fun p hp => ?_⟩
  have := hq p hp
  push_cast at this
  exact this

/-- **C69**, squared error: with targets of size at most `2 ^ a` and no high-cardinality feature, a whole run of `N`
iterations with `a + 2 N ≤ E + 1` ends without a panic (`E = 103` for binary32). -/
theorem C69_l2 (hc : ValidConfig cfg) (hd : ValidData cfg d) (E a : ℕ) (hw : Wide F E)
    (hk : o.kind = .l2) (targets : List Num) (htgt : Learner.target d = .ok targets)
    (ht : ∀ t ∈ targets, SizeLe (2 ^ a) t) (hh : ¬ HasHicard d) (hE : a + 2 * cfg.niterations ≤ E + 1) (haE : a ≤ E) :
    ∃ b, Booster.run F M cfg d rng metrics o = .ok b ∧ b.ensemble.trees.length = cfg.niterations ∧
      ∀ p ∈ b.objective.predictions, SizeLe (2 ^ (a + 2 * cfg.niterations)) p := by
  refine run_ends F M cfg d rng metrics o
    (Q := fun k b => ∀ p ∈ b.objective.predictions, SizeLe (2 ^ (a + 2 * k)) p) ?_ ?_
  · obtain ⟨b0, b, e0, e1, hp⟩ := C69_start F M cfg d rng o hc hd E a hw (by rw [hk]; exact haE) targets
      htgt (fun _ => ht) (by rw [hk]; exact ⟨by simp, by simp, by simp, by simp⟩)
    refine ⟨b0, b, e0, e1, fun p h => (hp p h).mono ?_⟩
    rw [hk]
    simp [startSize]
  · intro k b hkn hb hp
    have hobj : b.objective.kind = .l2 := by
      obtain ⟨qe, he, _, he1⟩ := hc.examples
      rw [(Booster.boosting_objective hb hd.shape hd.size (by rw [he]; simpa [Num.le] using he1) hc.leaf).1, hk]
    obtain ⟨b', e, _, h⟩ := C69_iteration F M cfg d rng metrics o hc hd k b hb E (a + 2 * k) hw
      (by rw [hk]; simp only [leafSize]; omega) targets htgt
      (fun t h => (ht t h).mono (pow_le_pow_right₀ (by norm_num) (by omega))) hp
      ⟨by rw [hobj]; simp, by rw [hobj]; simp, fun h => absurd h hh⟩
    refine ⟨b', e, fun p hpm => (h p hpm).mono (pow_le_pow_right₀ (by norm_num) ?_)⟩
    rw [hk]; simp only [leafSize]; omega

end

theorem size_exists : ∀ l : List Num, (∀ x ∈ l, ∃ q, x = .fin q) → ∃ a : ℕ, ∀ x ∈ l, SizeLe (2 ^ a) x
  | [], _ => ⟨0, by simp⟩
  | x :: l, h => by
      obtain ⟨a, ha⟩ := size_exists l fun y hy => h y (by simp [hy])
      obtain ⟨q, rfl⟩ := h x (by simp)
      obtain ⟨n, hn⟩ := exists_nat_ge |q|
      have hn2 : (n : ℚ) ≤ 2 ^ n := by exact_mod_cast Nat.lt_two_pow_self.le
      refine ⟨max a n, fun y hy => ?_⟩
      rcases List.mem_cons.1 hy with rfl | hy
      · exact ⟨q, rfl, (hn.trans hn2).trans (pow_le_pow_right₀ (by norm_num) (by omega))⟩
      · exact (ha y hy).mono (pow_le_pow_right₀ (by norm_num) (by omega))

/-- **C69**, without rounding errors and without a limit of the range: a whole run with squared error (and no
high-cardinality feature) or with the hinge loss (and two bits per gradient) ends without a panic, for every number of
iterations. -/
theorem C69_exact (M : Libm) (cfg : Config) (d : Data) (rng : Rng) (metrics : List Metric) (o : Objective)
    (hc : ValidConfig cfg) (hd : ValidData cfg d)
    (hk : o.kind = .l2 ∧ ¬ HasHicard d ∨ o.kind = .hinge ∧ cfg.discrNbits = 2) (targets : List Num)
    (htgt : Learner.target d = .ok targets) (ht : ∀ t ∈ targets, ∃ q, t = .fin q) :
    ∃ b, Booster.run .exact M cfg d rng metrics o = .ok b ∧ b.ensemble.trees.length = cfg.niterations := by
  obtain ⟨a, ha⟩ := size_exists targets ht
  obtain ⟨b, e, h, _⟩ := run_ends .exact M cfg d rng metrics o
    (Q := fun _ b => ∀ p ∈ b.objective.predictions, ∃ q, p = .fin q) (by
      obtain ⟨b0, b, e0, e1, hp⟩ := C69_start .exact M cfg d rng o hc hd (startSize o.kind a) a (wide_exact _) le_rfl targets
        htgt (fun _ => ha) (by rcases hk with ⟨h, _⟩ | ⟨h, hb⟩ <;> rw [h] <;> exact ⟨by simp, by simp, by simp, by simp [*]⟩)
      refine ⟨b0, b, e0, e1, fun p h => ?_⟩
      obtain ⟨q, hq, _⟩ := hp p h
      exact ⟨q, hq⟩) (by
      intro k b hkn hb hp
      have hobj : b.objective.kind = o.kind := by
        obtain ⟨qe, he, _, he1⟩ := hc.examples
        exact (Booster.boosting_objective hb hd.shape hd.size (by rw [he]; simpa [Num.le] using he1) hc.leaf).1
      obtain ⟨c, hcp⟩ := size_exists _ hp
      obtain ⟨b', e, _, h⟩ := C69_iteration .exact M cfg d rng metrics o hc hd k b hb _ (max a c) (wide_exact _) le_rfl targets htgt
        (fun t h => (ha t h).mono (pow_le_pow_right₀ (by norm_num) (by omega)))
        (fun p h => (hcp p h).mono (pow_le_pow_right₀ (by norm_num) (by omega))) (by
          rcases hk with ⟨h, hh⟩ | ⟨h, hb⟩ <;> refine ⟨by rw [hobj, h]; simp, by rw [hobj, h]; simp, ?_⟩
          · exact fun h => absurd h hh
          · intro _ o' ho'
            have : o'.kind = .hinge := by rw [(Booster.update_same ho').1, hobj, h]
            exact ⟨2, by simp only [Objective.bounds, this], by norm_num⟩)
      refine ⟨b', e, fun p hpm => ?_⟩
      obtain ⟨q, hq, _⟩ := h p hpm
      exact ⟨q, hq⟩)
  exact ⟨b, e, h⟩

/-- **C69**, `f32` arithmetic: a whole run with the log loss on labels 0 and 1 that both occur ends without a panic. -/
theorem C69_binary_f32 (M : Libm) (cfg : Config) (d : Data) (rng : Rng) (metrics : List Metric)
    (hc : ValidConfig cfg) (hd : ValidData cfg d) (targets : List Num) (htgt : Learner.target d = .ok targets)
    (hcls : ∀ t ∈ targets, t = .fin 0 ∨ t = .fin 1) (h0 : Num.fin 0 ∈ targets) (h1 : Num.fin 1 ∈ targets)
    (hexp : ExpLike M) (hln : LnLike M)
    (hbound : HasHicard d → ∃ q : ℚ, cfg.binaryGradientBound = .fin q ∧ 0 < q) (hit : cfg.niterations < 2 ^ 24) :
    ∃ b, Booster.run .binary32 M cfg d rng metrics (Objective.new .binary) = .ok b ∧
      b.ensemble.trees.length = cfg.niterations := by
  obtain ⟨b, e, h, _⟩ := C69_binary .binary32 M cfg d rng metrics (Objective.new .binary) hc hd 103 wide_binary32 (by norm_num)
    rfl targets htgt hcls h0 h1 hexp hln hbound hit
  exact ⟨b, e, h⟩

/-- **C69**, `f32` arithmetic: a whole run with squared error and no high-cardinality feature ends without a panic when the
targets are of size at most `2 ^ a` and `a + 2 niterations ≤ 103`. -/
theorem C69_l2_f32 (M : Libm) (cfg : Config) (d : Data) (rng : Rng) (metrics : List Metric)
    (hc : ValidConfig cfg) (hd : ValidData cfg d) (targets : List Num) (htgt : Learner.target d = .ok targets) (a : ℕ)
    (ht : ∀ t ∈ targets, SizeLe (2 ^ a) t) (hh : ¬ HasHicard d) (hE : a + 2 * cfg.niterations ≤ 103) :
    ∃ b, Booster.run .binary32 M cfg d rng metrics (Objective.new .l2) = .ok b ∧
      b.ensemble.trees.length = cfg.niterations := by
  obtain ⟨b, e, h, _⟩ := C69_l2 .binary32 M cfg d rng metrics (Objective.new .l2) hc hd 103 a wide_binary32
    rfl targets htgt ht hh (by omega) (by omega)
  exact ⟨b, e, h⟩

/-! ### What goes wrong -/

def divergeCfg : Config :=
  { Config.new with maxNbins := 4, maxTreeDepth := 1, niterations := 13, discrNbits := 2, minExamplesLeaf := 2 }
def divergeData : Data :=
  ⟨4, [], 1, 3,
    [⟨[.fin 0, .fin 1, .fin 1], .fin 0, .fin 1, .loCardCat, 2⟩,
     ⟨[.fin 0, .fin 1, .fin 1], .fin 0, .fin 1, .numerical, 0⟩]⟩

theorem divergeCfg_valid : ValidConfig divergeCfg where
  bits := by simp [divergeCfg]
  depth := by simp [divergeCfg]
  leaf := by simp [divergeCfg]
  bins := by simp [divergeCfg]
  features := ⟨1, rfl, by norm_num, by norm_num⟩
  examples := ⟨1, rfl, by norm_num, by norm_num⟩
  rate := ⟨1, rfl, by norm_num⟩

theorem divergeData_valid : ValidData divergeCfg divergeData where
  shape := by simp [Rectangular, divergeData]
  size := by simp [divergeData]
  width := by simp [divergeData]
  sampled := by
    intro q hq
    cases hq
    norm_num [divergeData]
  bins := by simp [divergeData, divergeCfg]
  room := ⟨0, _, by simp [divergeData], rfl, by simp [Data.colMaxNbins]⟩
  limits := by
    rintro f c ⟨hf, _⟩ hc hn
    have : f = 0 := by simp [divergeData] at hf; omega
    subst this
    simp [divergeData] at hc
    subst hc
    simp at hn
  cats := by
    rintro f c ⟨hf, _⟩ hc hn
    have : f = 0 := by simp [divergeData] at hf; omega
    subst this
    simp [divergeData] at hc
    subst hc
    simp at hn

/-- **C69** is false for the hinge loss in `f32` arithmetic, with the default learning rate 1: the predictions of three rows
in one leaf go -0.2, 2.0, -91, 5641, -10610635, ... and their square overflows in iteration 13, where the
assertion that predictions are finite stops training. In exact arithmetic this run ends (`C69_exact`). -/
theorem C69_hinge_refuted : ValidConfig divergeCfg ∧ ValidData divergeCfg divergeData ∧
    Learner.target divergeData = .ok [.fin 0, .fin 1, .fin 1] ∧
    (∀ M, Startable M divergeCfg [.fin 0, .fin 1, .fin 1] .hinge) ∧ ¬ HasHicard divergeData ∧
    Booster.run .binary32 runLibm divergeCfg divergeData ⟨fun i => i⟩ [] (Objective.new .hinge) = .panic := by
  refine ⟨divergeCfg_valid, divergeData_valid, rfl, fun M => ⟨by simp, by simp, by simp, fun _ => rfl⟩, ?_, ?_⟩
  · rintro ⟨f, c, ⟨hf, _⟩, hc, hh⟩
    have : f = 0 := by simp [divergeData] at hf; omega
    subst this
    simp [divergeData] at hc
    subst hc
    simp at hh
  · have h : (match Booster.run .binary32 runLibm divergeCfg divergeData ⟨fun i => i⟩ [] (Objective.new .hinge) with
      | .panic => true | _ => false) = true := by decide +kernel
    cases e : Booster.run .binary32 runLibm divergeCfg divergeData ⟨fun i => i⟩ [] (Objective.new .hinge) with
    | panic => rfl
    | ub => rw [e] at h; cases h
    | ok b => rw [e] at h; cases h

def fitCfg : Config := { Config.new with maxNbins := 2, maxTreeDepth := 1, niterations := 2 }
def fitData : Data :=
  ⟨2, [], 2, 4,
    [⟨[.fin 0, .fin 0, .fin 1, .fin 1], .fin 0, .fin 1, .loCardCat, 2⟩,
     ⟨[.fin 0, .fin 1, .fin 2, .fin 3], .fin 0, .fin 3, .hiCardCat, 4⟩,
     ⟨[.fin 1, .fin 1, .fin 3, .fin 3], .fin 1, .fin 3, .numerical, 0⟩]⟩

theorem fitCfg_valid : ValidConfig fitCfg where
  bits := by simp [fitCfg, Config.new]
  depth := by simp [fitCfg]
  leaf := by simp [fitCfg, Config.new]
  bins := by simp [fitCfg]
  features := ⟨1, rfl, by norm_num, by norm_num⟩
  examples := ⟨1, rfl, by norm_num, by norm_num⟩
  rate := ⟨1, rfl, by norm_num⟩

theorem fitData_valid : ValidData fitCfg fitData where
  shape := by simp [Rectangular, fitData]
  size := by simp [fitData]
  width := by simp [fitData]
  sampled := by
    intro q hq
    cases hq
    norm_num [fitData]
  bins := by simp [fitData, fitCfg]
  room := ⟨0, _, by simp [fitData], rfl, by simp [Data.colMaxNbins]⟩
  limits := by
    rintro f c ⟨hf, _⟩ hc hn
    have : f = 0 ∨ f = 1 := by simp [fitData] at hf; omega
    rcases this with rfl | rfl <;> simp [fitData] at hc <;> subst hc <;> simp at hn
  cats := by
    rintro f c ⟨hf, _⟩ hc hn
    have : f = 0 ∨ f = 1 := by simp [fitData] at hf; omega
    rcases this with rfl | rfl
    · simp [fitData] at hc; subst hc; simp at hn
    · simp [fitData] at hc; subst hc
      simp only
      decide +kernel

/-- **C69** is false for squared error with a high-cardinality feature: when the first tree fits the targets perfectly, the
gradient bounds are `(0, 0)` and the second iteration panics. -/
theorem C69_fit_refuted : ValidConfig fitCfg ∧ ValidData fitCfg fitData ∧
    Learner.target fitData = .ok [.fin 1, .fin 1, .fin 3, .fin 3] ∧
    (∃ b, Booster.run .binary32 runLibm { fitCfg with niterations := 1 } fitData ⟨fun i => i⟩ [] (Objective.new .l2) = .ok b ∧
      b.objective.predictions = [.fin 1, .fin 1, .fin 3, .fin 3]) ∧
    Booster.run .binary32 runLibm fitCfg fitData ⟨fun i => i⟩ [] (Objective.new .l2) = .panic := by
  refine ⟨fitCfg_valid, fitData_valid, rfl, ?_, ?_⟩
  · obtain ⟨b, h1, h2⟩ := boosted_check (F := .binary32) (cfg := { fitCfg with niterations := 1 }) (d := fitData)
      (rng := ⟨fun i => i⟩) (metrics := []) (o := Objective.new .l2)
      (fun b => decide (b.objective.predictions = [.fin 1, .fin 1, .fin 3, .fin 3])) (by decide +kernel)
    exact ⟨b, h1, by simpa using h2⟩
  · have h : (match Booster.run .binary32 runLibm fitCfg fitData ⟨fun i => i⟩ [] (Objective.new .l2) with
      | .panic => true | _ => false) = true := by decide +kernel
    cases e : Booster.run .binary32 runLibm fitCfg fitData ⟨fun i => i⟩ [] (Objective.new .l2) with
    | panic => rfl
    | ub => rw [e] at h; cases h
    | ok b => rw [e] at h; cases h

/-- Data with one numerical feature and a target, set as through the C interface. -/
def columnData (cfg : Config) (values targets : List Num) : Out (Data × Bool × Bool) := do
  let (d, ok) ← (Data.empty cfg 1 targets.length).setFeatureData 0 values false
  let (d, ok') ← d.setFeatureData 1 targets false
  return (d, ok, ok')

/-- **C69** needs finite limits: a numerical feature with an infinite value is accepted when the data is set, and a feature
with only NaN when it is read from a CSV file; training panics for both. -/
theorem C69_limits_refuted :
    (∃ d, columnData divergeCfg [.fin 0, .pinf] [.fin 0, .fin 1] = .ok (d, true, true) ∧
      Booster.run .binary32 runLibm divergeCfg d ⟨fun i => i⟩ [] (Objective.new .l2) = .panic) ∧
    (∃ d, Data.fromCsv { divergeCfg with csvHasHeader := false }
        [.record [some .nan, some (.fin 0)], .record [some .nan, some (.fin 1)]] none = .ok (.ok d) ∧
      Booster.run .binary32 runLibm divergeCfg d ⟨fun i => i⟩ [] (Objective.new .l2) = .panic) := by
  have key : ∀ d, (match Booster.run .binary32 runLibm divergeCfg d ⟨fun i => i⟩ [] (Objective.new .l2) with
      | .panic => true | _ => false) = true →
      Booster.run .binary32 runLibm divergeCfg d ⟨fun i => i⟩ [] (Objective.new .l2) = .panic := by
    intro d h
    cases e : Booster.run .binary32 runLibm divergeCfg d ⟨fun i => i⟩ [] (Objective.new .l2) with
    | panic => rfl
    | ub => rw [e] at h; cases h
    | ok b => rw [e] at h; cases h
  refine ⟨⟨_, rfl, key _ ?_⟩, ⟨_, rfl, key _ ?_⟩⟩ <;> decide +kernel

/-! ### The hypotheses can be met -/

/-- The log loss on the data with a high-cardinality feature, for labels 0 and 1. -/
def fitLabels : Data :=
  ⟨2, [], 2, 4,
    [⟨[.fin 0, .fin 0, .fin 1, .fin 1], .fin 0, .fin 1, .loCardCat, 2⟩,
     ⟨[.fin 0, .fin 1, .fin 2, .fin 3], .fin 0, .fin 3, .hiCardCat, 4⟩,
     ⟨[.fin 0, .fin 1, .fin 1, .fin 0], .fin 0, .fin 1, .numerical, 0⟩]⟩

theorem fitLabels_valid : ValidData fitCfg fitLabels where
  shape := by simp [Rectangular, fitLabels]
  size := by simp [fitLabels]
  width := by simp [fitLabels]
  sampled := by
    intro q hq
    cases hq
    norm_num [fitLabels]
  bins := by simp [fitLabels, fitCfg]
  room := ⟨0, _, by simp [fitLabels], rfl, by simp [Data.colMaxNbins]⟩
  limits := by
    rintro f c ⟨hf, _⟩ hc hn
    have : f = 0 ∨ f = 1 := by simp [fitLabels] at hf; omega
    rcases this with rfl | rfl <;> simp [fitLabels] at hc <;> subst hc <;> simp at hn
  cats := by
    rintro f c ⟨hf, _⟩ hc hn
    have : f = 0 ∨ f = 1 := by simp [fitLabels] at hf; omega
    rcases this with rfl | rfl
    · simp [fitLabels] at hc; subst hc; simp at hn
    · simp [fitLabels] at hc; subst hc
      simp only
      decide +kernel

/-- C69: 50 iterations in `f32` arithmetic, with whatever random numbers. -/
example (rng : Rng) : ∃ b, Booster.run .binary32 runLibm { fitCfg with niterations := 50 } fitLabels rng []
    (Objective.new .binary) = .ok b ∧ b.ensemble.trees.length = 50 := by
  refine C69_binary_f32 runLibm { fitCfg with niterations := 50 } fitLabels rng [] ?_ ?_ _ rfl ?_ ?_ ?_ ?_ ?_ ?_ ?_
  · exact ⟨fitCfg_valid.bits, fitCfg_valid.depth, fitCfg_valid.leaf, fitCfg_valid.bins, fitCfg_valid.features,
      fitCfg_valid.examples, fitCfg_valid.rate⟩
  · exact ⟨fitLabels_valid.shape, fitLabels_valid.size, fitLabels_valid.width, fitLabels_valid.sampled, fitLabels_valid.bins,
      fitLabels_valid.room, fitLabels_valid.limits, fitLabels_valid.cats⟩
  · simp [fitLabels]
  · simp [fitLabels]
  · simp [fitLabels]
  · intro x _; exact .inr ⟨1, rfl, by norm_num⟩
  · intro q _ _; exact ⟨0, rfl, by norm_num⟩
  · intro _; exact ⟨5 / 4, rfl, by norm_num⟩
  · simp

/-- C69: 40 iterations with squared error in `f32` arithmetic, targets at most 1. -/
example (rng : Rng) : ∃ b, Booster.run .binary32 runLibm { divergeCfg with niterations := 40 } divergeData rng []
    (Objective.new .l2) = .ok b ∧ b.ensemble.trees.length = 40 := by
  refine C69_l2_f32 runLibm { divergeCfg with niterations := 40 } divergeData rng [] ?_ ?_ _ rfl 0 ?_ C69_hinge_refuted.2.2.2.2.1
    (by norm_num)
  · exact ⟨divergeCfg_valid.bits, divergeCfg_valid.depth, divergeCfg_valid.leaf, divergeCfg_valid.bins, divergeCfg_valid.features,
      divergeCfg_valid.examples, divergeCfg_valid.rate⟩
  · exact ⟨divergeData_valid.shape, divergeData_valid.size, divergeData_valid.width, divergeData_valid.sampled,
      divergeData_valid.bins, divergeData_valid.room, divergeData_valid.limits, divergeData_valid.cats⟩
  · simp [divergeData, SizeLe]

def oneCfg : Config := { divergeCfg with niterations := 1 }

/-- C69: an iteration with the absolute loss or the Huber loss in `f32` arithmetic; the residuals of the labels differ. -/
example (k : ObjKind) (hk : k = .l1 ∨ k = .huber) : ∃ b, Booster.run .binary32 runLibm oneCfg
    divergeData ⟨fun i => i⟩ [] (Objective.new k) = .ok b ∧ b.ensemble.trees.length = 1 := by
  refine C69_run .binary32 runLibm oneCfg divergeData ⟨fun i => i⟩ [] (Objective.new k) ?_ ?_ 103 0
    wide_binary32 ?_ _ rfl ?_ ?_ ?_
  · exact ⟨divergeCfg_valid.bits, divergeCfg_valid.depth, divergeCfg_valid.leaf, divergeCfg_valid.bins, divergeCfg_valid.features,
      divergeCfg_valid.examples, divergeCfg_valid.rate⟩
  · exact ⟨divergeData_valid.shape, divergeData_valid.size, divergeData_valid.width, divergeData_valid.sampled,
      divergeData_valid.bins, divergeData_valid.room, divergeData_valid.limits, divergeData_valid.cats⟩
  · rcases hk with rfl | rfl <;> simp [Objective.new, startSize]
  · simp [divergeData, SizeLe]
  · refine ⟨fun _ => ⟨.fin 0, by simp [divergeData], .fin 1, by simp [divergeData], by simp⟩, fun _ => ⟨19 / 20, rfl, by norm_num, by norm_num⟩, ?_, ?_⟩
    · rcases hk with rfl | rfl <;> simp [Objective.new]
    · rcases hk with rfl | rfl <;> simp [Objective.new]
  · intro j b hj hb
    have hj0 : j = 0 := by have : j < 1 := hj; omega
    subst hj0
    have hpred : b.objective.predictions = [.fin (1023 / 1024), .fin (1023 / 1024), .fin (1023 / 1024)] ∧ b.objective.kind = k := by
      cases hb with
      | start e0 e1 =>
        have h : ∀ k, k = ObjKind.l1 ∨ k = .huber →
            (match Booster.new .binary32 oneCfg divergeData ⟨fun i => i⟩ (Objective.new k) with
            | .ok b0 => (match Booster.prepare .binary32 runLibm oneCfg divergeData b0 with
              | .ok b => decide (b.objective.predictions = [.fin (1023 / 1024), .fin (1023 / 1024), .fin (1023 / 1024)] ∧ b.objective.kind = k)
              | _ => false)
            | _ => false) = true := by
          rintro k (rfl | rfl) <;> decide +kernel
        have h := h k hk
        rw [e0] at h
        simp only at h
        rw [e1] at h
        simpa using h
    obtain ⟨hpred, hkind⟩ := hpred
    have r1 : FP.binary32.sub (.fin 0) (.fin (1023 / 1024)) = .fin (-(1023 / 1024)) := by decide +kernel
    have r2 : FP.binary32.sub (.fin 1) (.fin (1023 / 1024)) = .fin (1 / 1024) := by decide +kernel
    refine ⟨⟨fun _ => ?_, ?_, ?_⟩, 0, le_rfl, ?_, ?_⟩
    · rw [hpred]
      refine ⟨_, List.mem_cons_self .., .fin (1 / 1024), ?_, ?_⟩
      · simp only [Spec.residuals, List.zipWith_cons_cons, r2]
        simp
      · rw [r1]; norm_num
    · rw [hkind]; rcases hk with rfl | rfl <;> simp
    · exact fun h => absurd h C69_hinge_refuted.2.2.2.2.1
    · rcases hk with rfl | rfl <;> simp [Objective.new, leafSize]
    · rw [hpred]
      intro p hp
      simp only [List.mem_cons, List.not_mem_nil, or_false, or_self] at hp
      rw [hp]
      exact ⟨_, rfl, by norm_num⟩

end BitBoost.Props
