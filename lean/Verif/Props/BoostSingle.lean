import Verif.Props.Single
import Verif.Props.Boost
import Mathlib.Tactic.IntervalCases
/-!
# C47 in single precision: training
-/
namespace BitBoost.Props
open BitBoost Spec Dataset Learner

/-- One tree with squared loss in single precision. -/
private theorem train_l2_f32 {cfg : Config} {d : Data} {rng : Rng} {k : Nat} {ds : Dataset} {rows : List Nat}
    (hds : Updated .binary32 cfg d rng k ds) (hrows : Active ds rows)
    (hfull : ds.exampleSampling = false → rows.length = d.nexamples) (hd : Rectangular d)
    (hsize : rows.length ≤ 2 ^ 20) (hmin : 1 ≤ cfg.minExamplesLeaf) {o : Objective} {fuel : Nat} {t : Tree}
    {o' : Objective} (ht : train .binary32 cfg ds ds.supercats o fuel = .ok (some (t, o')))
    (hnd : rows.Nodup) (hlt : ∀ r ∈ rows, r < d.nexamples) {ts ps : List ℚ} {r B : ℚ}
    (htgt : target d = .ok (Spec.column ts)) (hk : o.kind = .l2) (hr : o.learningRate = .fin r) (h0 : 0 ≤ r) (h1 : r ≤ 1)
    (hp : o.predictions = Spec.column ps) (hl : ps.length = d.nexamples) (hlt' : ts.length = d.nexamples)
    (hB1 : 1 / 2 ^ 40 ≤ B) (hB2 : B ≤ 2 ^ 60) (htB : ∀ i ∈ rows, |at' ts i| ≤ B) (hpB : ∀ i ∈ rows, |at' ps i| ≤ B) :
    ∃ ps', ps'.length = d.nexamples ∧ (∀ i ∈ rows, o'.predictions[i]? = some (.fin (at' ps' i))) ∧
      (rows.map fun i => (at' ts i - at' ps' i) ^ 2).sum ≤ (rows.map fun i => (at' ts i - at' ps i) ^ 2).sum +
        rows.length * (9 * (3 * rows.length + 14) * B ^ 2 / 2 ^ 23) := by
  obtain ⟨targets, leaves, o1, e1, hperm, hcalls, hoth, hact, hout⟩ := train_calls hds hrows hfull hd (by omega) hmin ht
  rw [htgt] at e1
  cases e1
  have hmem : ∀ i ∈ leaves.flatten, i ∈ rows := fun i hi => hperm.mem_iff.1 hi
  obtain ⟨ps1, f1, f2, f3, f4⟩ := C47_no_increase_f32 (Spec.column ts) o o1 leaves hcalls ts ps r B rfl hk hr h0 h1 hp
    (by omega) hB1 hB2 (fun i hi => htB i (hmem i hi)) (fun i hi => hpB i (hmem i hi)) (by rw [hperm.length_eq]; exact hsize)
    (hperm.nodup_iff.2 hnd) (fun i hi => by rw [hlt']; exact hlt i (hmem i hi))
  refine ⟨ps1, by omega, ?_, ?_⟩
  · intro i hi
    rw [hact i hi, f1, column_get ps1 (by have := hlt i hi; omega)]
  · rw [hperm.length_eq, (hperm.map _).sum_eq, (hperm.map _).sum_eq] at f4
    exact f4

/-- **C47** for the booster in single precision: with squared loss and a learning rate between 0 and 1, an iteration raises
the squared error of the `n` examples it was trained on (`rows`) by at most `n * 9 (3 n + 14) B^2 / 2^23`, where `B` bounds
their targets and their predictions before the iteration. -/
theorem C47_iteration_f32 (M : Libm) (cfg : Config) (d : Data) (rng : Rng) (metrics : List Metric) (o : Objective)
    (k : Nat) (b b' : Booster) (hb : Boosting .binary32 M cfg d rng metrics o k b)
    (hs : Booster.trainOneIter .binary32 M cfg d metrics b = .ok b')
    (hd : Rectangular d) (hn : d.nexamples ≤ 2 ^ 20) (hf : cfg.exampleFraction.le (.fin 1) = true)
    (hmin : 1 ≤ cfg.minExamplesLeaf) (hk : o.kind = .l2) (r : ℚ) (hr : cfg.learningRate = .fin r) (h0 : 0 ≤ r)
    (h1 : r ≤ 1) (ts ps : List ℚ) (ht : target d = .ok (Spec.column ts))
    (hp : b.objective.predictions = Spec.column ps) (rows : List Nat) (hrows : Active b'.dataset rows)
    (B : ℚ) (hB1 : 1 / 2 ^ 40 ≤ B) (hB2 : B ≤ 2 ^ 60) (htB : ∀ i ∈ rows, |at' ts i| ≤ B)
    (hpB : ∀ i ∈ rows, |at' ps i| ≤ B) :
    ∃ ps', ps'.length = ps.length ∧ (∀ i ∈ rows, b'.objective.predictions[i]? = some (.fin (at' ps' i))) ∧
      (rows.map fun i => (at' ts i - at' ps' i) ^ 2).sum ≤ (rows.map fun i => (at' ts i - at' ps i) ^ 2).sum +
        rows.length * (9 * (3 * rows.length + 14) * B ^ 2 / 2 ^ 23) := by
  have hlt : ts.length = d.nexamples := by rw [← column_length ts]; exact Booster.target_length hd ht
  have hn24 : d.nexamples ≤ 2 ^ 24 := by omega
  obtain ⟨b1, b2, _, b3⟩ := Booster.boosting_objective hb hd hn24 hf hmin
  have hlp : ps.length = d.nexamples := by rw [← column_length ps, ← hp]; exact b3
  obtain ⟨ts', o1, ds, t, o', e1, e2, e3, e4, rfl⟩ := Booster.trainOneIter_ok hs
  obtain ⟨u1, u2, _, u4, _⟩ := Booster.update_same e2
  have hds := Updated.update (Booster.boosting_updated hb).1 e3
  obtain ⟨rows', r1, r2, r3, r4, r5⟩ := active_rows hds hn24 hf
  obtain rfl : rows = rows' := active_unique hrows r1
  have hsz : rows.length ≤ 2 ^ 20 := by
    have h1 := (List.nodup_range (n := d.nexamples))
    have : rows.length ≤ (List.range d.nexamples).length :=
      (r4.subperm (fun i hi => List.mem_range.2 (r5 i hi))).length_le
    rw [List.length_range] at this
    omega
  obtain ⟨ps', w1, w2, w3⟩ := train_l2_f32 hds r1 r2 hd hsz hmin e4 r4 r5 ht (by rw [u1, b1, hk]) (by rw [u2, b2, hr])
    h0 h1 (by rw [u4, hp]) hlp hlt hB1 hB2 htB hpB
  exact ⟨ps', by omega, w2, w3⟩

/-- **C47** for whole training runs in single precision, without sampling of examples: from any iteration `j` to any later
iteration `k` the squared training error rises by at most `n * 9 (3 n + 14) B^2 / 2^23` per iteration, where `B` bounds the
targets and the predictions in between. -/
theorem C47_run_f32 (M : Libm) (cfg : Config) (d : Data) (rng : Rng) (metrics : List Metric) (o : Objective)
    (j k : Nat) (hjk : j ≤ k) (b b' : Booster) (hb : Boosting .binary32 M cfg d rng metrics o j b)
    (hb' : Boosting .binary32 M cfg d rng metrics o k b')
    (hd : Rectangular d) (hn : d.nexamples ≤ 2 ^ 20) (hf : cfg.exampleFraction = .fin 1)
    (hmin : 1 ≤ cfg.minExamplesLeaf) (hk : o.kind = .l2) (r : ℚ) (hr : cfg.learningRate = .fin r) (h0 : 0 ≤ r)
    (h1 : r ≤ 1) (ts ps : List ℚ) (ht : target d = .ok (Spec.column ts)) (hp : b.objective.predictions = Spec.column ps)
    (B : ℚ) (hB1 : 1 / 2 ^ 40 ≤ B) (hB2 : B ≤ 2 ^ 60) (htB : ∀ t ∈ ts, |t| ≤ B)
    (hpB : ∀ m bm qs, j ≤ m → m < k → Boosting .binary32 M cfg d rng metrics o m bm →
      bm.objective.predictions = Spec.column qs → ∀ q ∈ qs, |q| ≤ B) :
    ∃ ps', b'.objective.predictions = Spec.column ps' ∧ ps'.length = ts.length ∧
      sqErr ts ps' ≤ sqErr ts ps + ((k - j : ℕ) : ℚ) * (ts.length * (9 * (3 * ts.length + 14) * B ^ 2 / 2 ^ 23)) := by
  have hlt : ts.length = d.nexamples := by rw [← column_length ts]; exact Booster.target_length hd ht
  have hf' : cfg.exampleFraction.le (.fin 1) = true := by rw [hf]; rfl
  have hn24 : d.nexamples ≤ 2 ^ 24 := by omega
  have hatB : ∀ (l : List ℚ), (∀ q ∈ l, |q| ≤ B) → ∀ i, |at' l i| ≤ B := by
    intro l hl i
    rw [at', List.getD_eq_getElem?_getD]
    cases e : l[i]? with
    | none => simp only [Option.getD_none, abs_zero]; linarith [show (0 : ℚ) < 1 / 2 ^ 40 by norm_num]
    | some q => exact hl q (List.mem_of_getElem? e)
  have hlen0 : ps.length = ts.length := by
    obtain ⟨_, _, _, b3⟩ := Booster.boosting_objective hb hd hn24 hf' hmin
    rw [← column_length ps, ← hp, b3, hlt]
  induction hb' with
  | start g0 g1 =>
    have : j = 0 := by omega
    subst this
    have := Booster.boosting_unique hb (.start g0 g1)
    subst this
    exact ⟨ps, hp, hlen0, by simp⟩
  | @iter k b1 b2 hb1 hs ih =>
    by_cases hj : j ≤ k
    · obtain ⟨ps1, q1, q2, q3⟩ := ih hj fun m bm qs a1 a2 => hpB m bm qs a1 (by omega)
      have hu := (Booster.boosting_updated (.iter hb1 hs)).1
      obtain ⟨_, ha⟩ := C30_no_sampling .binary32 cfg d rng _ _ hu hf hn24
      have hps1 := hpB k b1 ps1 hj (by omega) hb1 q1
      obtain ⟨ps2, w1, w2, w3⟩ := C47_iteration_f32 M cfg d rng metrics o k b1 b2 hb1 hs hd hn hf' hmin hk r hr
        h0 h1 ts ps1 ht q1 _ ha B hB1 hB2 (fun i _ => hatB ts htB i) (fun i _ => hatB ps1 hps1 i)
      obtain ⟨_, _, _, b3⟩ := Booster.boosting_objective (.iter hb1 hs) hd hn24 hf' hmin
      have hcol : b2.objective.predictions = Spec.column ps2 := by
        apply List.ext_getElem?
        intro i
        by_cases hi : i < d.nexamples
        · rw [w2 i (List.mem_range.2 hi), column_get ps2 (by omega)]
        · rw [List.getElem?_eq_none (by omega), List.getElem?_eq_none (by rw [column_length]; omega)]
      refine ⟨ps2, hcol, by omega, ?_⟩
      have hr1 := sqErr_split ts ps2 (by omega) (List.range d.nexamples) List.nodup_range
        (fun r h => by rw [hlt]; exact List.mem_range.1 h)
      have hr2 := sqErr_split ts ps1 (by omega) (List.range d.nexamples) List.nodup_range
        (fun r h => by rw [hlt]; exact List.mem_range.1 h)
      have hemp : Finset.range ts.length \ (List.range d.nexamples).toFinset = ∅ := by
        rw [hlt]; ext i; simp
      rw [hemp, Finset.sum_empty, add_zero] at hr1 hr2
      rw [List.length_range, ← hr1, ← hr2, ← hlt] at w3
      have hsub : ((k + 1 - j : ℕ) : ℚ) = ((k - j : ℕ) : ℚ) + 1 := by
        rw [Nat.sub_add_comm hj]; push_cast; ring
      rw [hsub]
      linarith
    · have : j = k + 1 := by omega
      subst this
      have := Booster.boosting_unique hb (.iter hb1 hs)
      subst this
      exact ⟨ps, hp, hlen0, by simp⟩

/-- The hypotheses of `C47_iteration_f32` hold for the second iteration on `runData` (with `B = 8`). -/
example : ∃ b b' : Booster, Boosting .binary32 runLibm { runCfg with niterations := 1 } runData ⟨fun i => i⟩ [] (Objective.new .l2) 1 b ∧
    Booster.trainOneIter .binary32 runLibm { runCfg with niterations := 1 } runData [] b = .ok b' ∧
    ∃ ps, b.objective.predictions = Spec.column ps ∧ (∀ i < 5, |at' ps i| ≤ 8) ∧ ∀ i < 5, |at' [0, 1, 3, 1, 8] i| ≤ 8 := by
  obtain ⟨b, h1, h2⟩ := boosted_check (F := .binary32) (cfg := { runCfg with niterations := 1 }) (d := runData)
    (rng := ⟨fun i => i⟩) (metrics := []) (o := Objective.new .l2)
    (fun b => (match Booster.trainOneIter .binary32 runLibm { runCfg with niterations := 1 } runData [] b with
      | .ok _ => true | _ => false) && b.objective.predictions.all fun x => decide (Num.le (.fin (-8)) x ∧ Num.le x (.fin 8)))
    (by decide +kernel)
  simp only [Bool.and_eq_true, List.all_eq_true, decide_eq_true_eq] at h2
  obtain ⟨h2, h3⟩ := h2
  cases e : Booster.trainOneIter .binary32 runLibm { runCfg with niterations := 1 } runData [] b with
  | panic => rw [e] at h2; cases h2
  | ub => rw [e] at h2; cases h2
  | ok b' =>
    have hfin : ∀ x ∈ b.objective.predictions, ∃ q : ℚ, x = .fin q := by
      intro x hx
      have := h3 x hx
      cases x <;> simp_all [Num.le]
    obtain ⟨ps, hps⟩ := column_of_finite _ hfin
    refine ⟨b, b', (C59_run .binary32 runLibm { runCfg with niterations := 1 } runData ⟨fun i => i⟩ [] (Objective.new .l2) b h1).1,
      e, ps, hps, ?_, ?_⟩
    · intro i _
      by_cases hi : i < ps.length
      · have hm : Num.fin (at' ps i) ∈ b.objective.predictions := by
          rw [hps]
          exact List.mem_iff_getElem?.2 ⟨i, column_get ps hi⟩
        have := h3 _ hm
        simp only [Num.le, decide_eq_true_eq] at this
        exact abs_le.2 this
      · simp [at', List.getElem?_eq_none (Nat.le_of_not_lt hi)]
    · intro i hi
      interval_cases i <;> norm_num [at']

/-- The hypotheses of `C47_run_f32` hold from the first iteration to the second on `runData` with all rows active (and
`B = 8`). -/
example : ∃ b b' : Booster, ∃ ps,
    Boosting .binary32 runLibm { runCfg with niterations := 1, exampleFraction := .fin 1 } runData ⟨fun i => i⟩ [] (Objective.new .l2) 1 b ∧
    Boosting .binary32 runLibm { runCfg with niterations := 1, exampleFraction := .fin 1 } runData ⟨fun i => i⟩ [] (Objective.new .l2) 2 b' ∧
    b.objective.predictions = Spec.column ps ∧
    ∀ m bm qs, 1 ≤ m → m < 2 → Boosting .binary32 runLibm { runCfg with niterations := 1, exampleFraction := .fin 1 } runData
        ⟨fun i => i⟩ [] (Objective.new .l2) m bm →
      bm.objective.predictions = Spec.column qs → ∀ q ∈ qs, |q| ≤ (8 : ℚ) := by
  obtain ⟨b, h1, h2⟩ := boosted_check (F := .binary32) (cfg := { runCfg with niterations := 1, exampleFraction := .fin 1 }) (d := runData)
    (rng := ⟨fun i => i⟩) (metrics := []) (o := Objective.new .l2)
    (fun b => (match Booster.trainOneIter .binary32 runLibm { runCfg with niterations := 1, exampleFraction := .fin 1 } runData [] b with
      | .ok _ => true | _ => false) && b.objective.predictions.all fun x => decide (Num.le (.fin (-8)) x ∧ Num.le x (.fin 8)))
    (by decide +kernel)
  simp only [Bool.and_eq_true, List.all_eq_true, decide_eq_true_eq] at h2
  obtain ⟨h2, h3⟩ := h2
  cases e : Booster.trainOneIter .binary32 runLibm { runCfg with niterations := 1, exampleFraction := .fin 1 } runData [] b with
  | panic => rw [e] at h2; cases h2
  | ub => rw [e] at h2; cases h2
  | ok b' =>
    have hfin : ∀ x ∈ b.objective.predictions, ∃ q : ℚ, x = .fin q := by
      intro x hx
      have := h3 x hx
      cases x <;> simp_all [Num.le]
    obtain ⟨ps, hps⟩ := column_of_finite _ hfin
    have hB := (C59_run .binary32 runLibm { runCfg with niterations := 1, exampleFraction := .fin 1 } runData ⟨fun i => i⟩ []
      (Objective.new .l2) b h1).1
    refine ⟨b, b', ps, hB, .iter hB e, hps, ?_⟩
    intro m bm qs m1 m2 hbm hqs q hq
    obtain rfl : m = 1 := by omega
    obtain rfl := Booster.boosting_unique hB hbm
    have := h3 (.fin q) (by rw [hqs]; exact List.mem_map_of_mem hq)
    simp only [Num.le, decide_eq_true_eq] at this
    exact abs_le.2 this

end BitBoost.Props
