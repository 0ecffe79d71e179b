import Verif.Spec.LearnerStore
import Verif.Lemmas.LearnerStore
import Verif.Lemmas.Safe
import Verif.Lemmas.ProgressData
/-!
# The memory of the tree learner (C54, C63)
-/
namespace BitBoost.Props
open Spec StoreLearner

/-- A context a program can have is fit for another tree. -/
theorem Used.usable {d : Data} {c : Context} (hu : Used d c) : ∃ ns, binSizes d = .ok ns ∧ Usable ns c := by
  induction hu with
  | fresh h =>
    obtain ⟨ns, hns⟩ := newContext_ok h
    exact ⟨ns, hns, newContext_usable hns h⟩
  | @again F cfg ds sc o fuel c c' r _ hd h ih =>
    obtain ⟨ns, hns, hu⟩ := ih
    have ht := train_tri (F := F) (cfg := cfg) (sc := sc) (o := o) (fuel := fuel) (P := False) (fun h => h.elim) (fun h => h.elim) (by rw [hd]; exact hns) hu hu
    refine ⟨ns, hns, ?_⟩
    rw [h] at ht
    revert ht
    generalize Learner.train F cfg ds sc o fuel = z
    intro ht
    cases ht with
    | ok hh =>
      cases hh with
      | some hs => exact hs.2.2

variable {d : Data} {c : Context}

/-- **C54.** Training with a context that was used before, for any trees, gives what training with a new context gives:
the same tree and the same predictions, or the same failure. -/
theorem C54_reuse (F : FP) (cfg cfg' : Config) (ds : Dataset) (supercats : List (List Nat)) (o : Objective)
    (fuel : Nat) (hd : ds.data = d) (hu : Used d c) (new : Context) (hn : newContext cfg' d = .ok new) :
    modelOf (train F cfg ds supercats o fuel c) = modelOf (train F cfg ds supercats o fuel new) := by
  obtain ⟨ns, hns, h1⟩ := Used.usable hu
  have h2 := newContext_usable hns hn
  have ht := train_tri (F := F) (cfg := cfg) (sc := supercats) (o := o) (fuel := fuel) (P := False) (fun h => h.elim) (fun h => h.elim) (by rw [hd]; exact hns) h1 h2
  revert ht
  generalize train F cfg ds supercats o fuel c = x
  generalize train F cfg ds supercats o fuel new = y
  generalize Learner.train F cfg ds supercats o fuel = z
  intro ht
  cases ht with
  | panic => rfl
  | ub => rfl
  | ok hh =>
    cases hh with
    | none => rfl
    | some hs =>
      unfold modelOf
      simp only [Option.map_some]
      rw [hs.1, hs.2.1]

/-- **C63.** The slices of a tree are in stores that hand out freed memory again. Training a tree fails, or gives the
tree and predictions that it gives when every slice is a list of its own. -/
theorem C63_train (F : FP) (cfg : Config) (ds : Dataset) (supercats : List (List Nat)) (o : Objective)
    (fuel : Nat) (hd : ds.data = d) (hu : Used d c) :
    modelOf (train F cfg ds supercats o fuel c) = .panic ∨
      modelOf (train F cfg ds supercats o fuel c) = Learner.train F cfg ds supercats o fuel := by
  obtain ⟨ns, hns, h1⟩ := Used.usable hu
  have ht := train_tri (F := F) (cfg := cfg) (sc := supercats) (o := o) (fuel := fuel) (P := False) (fun h => h.elim) (fun h => h.elim) (by rw [hd]; exact hns) h1 h1
  revert ht
  generalize train F cfg ds supercats o fuel c = x
  generalize Learner.train F cfg ds supercats o fuel = z
  intro ht
  cases ht with
  | panic => exact .inl rfl
  | ub => exact .inr rfl
  | ok hh =>
    right
    cases hh with
    | none => rfl
    | some hs =>
      unfold modelOf
      simp only [Option.map_some]
      rw [hs.1]

/-- **C63.** The same for a whole run of the booster, in which one context is used for all trees. -/
theorem C63_run (F : FP) (M : Libm) (cfg : Config) (d : Data) (rng : Rng) (metrics : List Metric) (o : Objective) :
    StoreLearner.run F M cfg d rng metrics o = .panic ∨
      StoreLearner.run F M cfg d rng metrics o = Booster.run F M cfg d rng metrics o := by
  rcases run_tri False (F := F) (M := M) (cfg := cfg) (d := d) (rng := rng) (ms := metrics) (o := o)
    (Q := fun _ => True) (fun h => h.elim) (fun h => h.elim) (fun h => h.elim) (fun h => h.elim) with h | h
  · exact .inl h.2
  · exact .inr h

theorem binSizes_eq {d : Data} (hd : d.nfeatures ≤ d.cols.length) :
    binSizes d = .ok ((d.cols.take d.nfeatures).map (binsOf d.maxNbins)) := by
  have hcol : ∀ c : Column, Data.colMaxNbins d.maxNbins c = binsOf d.maxNbins c := by
    intro c
    unfold Data.colMaxNbins binsOf
    cases c.ftype with
    | loCardCat =>
      match c.card with
      | 0 => rfl
      | 1 => rfl
      | 2 => rfl
      | n + 3 => simp
    | hiCardCat => rfl
    | numerical => rfl
  have key : ∀ l : List Nat, (∀ f ∈ l, f < d.cols.length) →
      l.foldr (fun f r => do
        let n ← Data.featMaxNbins d f
        let ns ← r
        return n :: ns) (Out.ok []) = .ok (l.map fun f => ((d.cols[f]?).map (binsOf d.maxNbins)).getD 0) := by
    intro l
    induction l with
    | nil => intro _; rfl
    | cons f l ih =>
      intro hl
      rw [List.foldr_cons, ih fun g hg => hl g (List.mem_cons_of_mem _ hg)]
      have hf : f < d.cols.length := hl f (List.mem_cons_self ..)
      unfold Data.featMaxNbins
      rw [List.getElem?_eq_getElem hf]
      simp [hcol, List.getElem?_eq_getElem hf]
  unfold binSizes
  rw [key _ (fun f hf => by rw [List.mem_range] at hf; omega)]
  congr 1
  apply List.ext_getElem
  · simp [hd]
  · intro i h1 h2
    simp at h1 h2
    simp [List.getElem?_eq_getElem h2.2]

theorem newContext_total {cfg : Config} (hd : d.nfeatures ≤ d.cols.length) (hb : 0 < cfg.discrNbits) :
    ∃ c, newContext cfg d = .ok c := by
  unfold newContext
  rw [binSizes_eq hd, Out.ok_bind]
  have key : ∀ n, 0 < n → ∃ s, BitBlockStore.new n = .ok s := by
    intro n h
    unfold BitBlockStore.new Store.aligned
    rw [if_pos ⟨by decide, by decide, by decide, h⟩]
    exact ⟨_, rfl⟩
  obtain ⟨s1, e1⟩ : ∃ s, Store.new HistVal 4 8 8192 = .ok s := by
    unfold Store.new Store.aligned
    rw [if_pos (by decide +kernel)]
    exact ⟨_, rfl⟩
  obtain ⟨s2, e2⟩ := key 4096 (by decide)
  obtain ⟨s3, e3⟩ := key (4096 * cfg.discrNbits) (by omega)
  rw [e1, e2, e3]
  exact ⟨_, rfl⟩

/-- The data sets of a training run: the sampled rows are not more than the rows, the active features are features. -/
theorem inv_facts {F : FP} {cfg : Config} {k : Nat} {ds : Dataset} {q : ℚ} (hn : d.nexamples ≤ 2 ^ 24)
    (he : cfg.exampleFraction = .fin q) (hq : q ≤ 1) (hi : Dataset.Inv F cfg d k ds) :
    ds.nactiveExamples ≤ d.nexamples ∧ ∀ fs, ds.activeFeatures = .ok fs → ∀ f ∈ fs, f < d.nfeatures := by
  constructor
  · rw [hi.ne, he]
    exact F.share_bounds hn hq
  · intro fs h f hf
    unfold Dataset.activeFeatures Dataset.prefix' at h
    split at h
    · cases h
      exact ((hi.useful f).1 (List.mem_of_mem_take hf)).1
    · cases h

theorem room_of {cfg : Config} {n : Nat} (hm : treeMemory cfg d < 2 ^ 32 - 1) (hn : n ≤ d.nexamples) :
    Room cfg ((d.cols.take d.nfeatures).map (binsOf d.maxNbins)) n := by
  intro w hw
  have hw : w = cfg.discrNbits := by
    unfold Learner.width at hw
    split at hw <;> cases hw
    rfl
  subst hw
  refine Nat.lt_of_le_of_lt ?_ (show treeMemory cfg d < u32Max from hm)
  unfold treeMemory totalBins
  have h2 : 1 + 2 * (2 ^ cfg.maxTreeDepth - 1) = 2 ^ (cfg.maxTreeDepth + 1) - 1 := by
    rw [pow_succ]
    have := Nat.one_le_two_pow (n := cfg.maxTreeDepth)
    omega
  rw [h2]
  apply Nat.mul_le_mul_left
  have : BitBlock.blocksRequiredFor n ≤ (d.nexamples + 255) / 256 := by
    unfold BitBlock.blocksRequiredFor BitBlock.nbits
    simp only [beq_iff_eq]
    split <;> omega
  have := Nat.mul_le_mul_right cfg.discrNbits this
  omega

/-- **C63.** When the memory a tree can need fits in the `u32` indices of the stores, the stores change nothing at all: a run
of the booster with the stores is the run with separate lists, also when that one panics. -/
theorem C63_enough (F : FP) (M : Libm) (cfg : Config) (d : Data) (rng : Rng) (metrics : List Metric) (o : Objective)
    (hd : Rectangular d) (hn : d.nexamples ≤ 2 ^ 24) (hb : 0 < cfg.discrNbits)
    (he : ∃ q : ℚ, cfg.exampleFraction = .fin q ∧ q ≤ 1) (hm : treeMemory cfg d < 2 ^ 32 - 1) :
    StoreLearner.run F M cfg d rng metrics o = Booster.run F M cfg d rng metrics o := by
  obtain ⟨q, he, hq⟩ := he
  have hcols : d.nfeatures ≤ d.cols.length := by rw [hd.1]; omega
  rcases run_tri True (F := F) (M := M) (cfg := cfg) (d := d) (rng := rng) (ms := metrics) (o := o)
    (Q := fun ds => ∃ k, Dataset.Inv F cfg d k ds) (fun _ => newContext_total hcols hb)
    (fun _ ds h => ⟨0, Dataset.inv_new h⟩) (fun _ ds ds' g bd ⟨k, hk⟩ h => ⟨k + 1, Dataset.inv_update hk h⟩)
    (by
      rintro - ns hns ds ⟨k, hi⟩
      rw [binSizes_eq hcols] at hns
      cases hns
      obtain ⟨h1, h2⟩ := inv_facts hn he hq hi
      refine ⟨room_of hm h1, fun fs h f hf => ?_⟩
      have := h2 fs h f hf
      simp
      omega) with h | h
  · exact absurd trivial h.1
  · exact h

/-- **C63.** The same for one tree, with a context that was used before for any trees. -/
theorem C63_enough_train (F : FP) (cfg : Config) (ds : Dataset) (supercats : List (List Nat)) (o : Objective)
    (hd : ds.data = d) (hr : d.nfeatures ≤ d.cols.length) (hu : Used d c) (hn : ds.nactiveExamples ≤ d.nexamples)
    (hf : ∀ fs, ds.activeFeatures = .ok fs → ∀ f ∈ fs, f < d.nfeatures) (hm : treeMemory cfg d < 2 ^ 32 - 1) :
    modelOf (train F cfg ds supercats o (2 ^ cfg.maxTreeDepth - 1) c) =
      Learner.train F cfg ds supercats o (2 ^ cfg.maxTreeDepth - 1) := by
  obtain ⟨ns, hns, h1⟩ := Used.usable hu
  have hns' := hns
  rw [binSizes_eq hr] at hns'
  have hlen : ns.length = d.nfeatures := by
    cases hns'
    simp only [List.length_map, List.length_take]
    omega
  have ht := train_tri (P := True) (F := F) (cfg := cfg) (ds := ds) (sc := supercats) (o := o)
    (fuel := 2 ^ cfg.maxTreeDepth - 1) (ns := ns) (fun _ => by cases hns'; exact room_of hm hn)
    (fun _ fs h f hfs => by rw [hlen]; exact hf fs h f hfs) (by rw [hd]; exact hns) h1 h1
  revert ht
  generalize train F cfg ds supercats o _ c = x
  generalize Learner.train F cfg ds supercats o _ = z
  intro ht
  cases ht with
  | panic h => rw [h trivial]; rfl
  | ub => rfl
  | ok hh =>
    cases hh with
    | none => rfl
    | some hs =>
      unfold modelOf
      simp only [Option.map_some]
      rw [hs.1]

/-- **C62**, with the stores: no configuration makes training read or write outside the memory of a store, or outside
of a slice, by a raw access. -/
theorem C62_stores (F : FP) (M : Libm) (cfg : Config) (d : Data) (rng : Rng) (metrics : List Metric) (o : Objective)
    (hd : Rectangular d) (hn : d.nexamples ≤ 2 ^ 32 - 256) : (StoreLearner.run F M cfg d rng metrics o).safe := by
  rcases C63_run F M cfg d rng metrics o with h | h
  · rw [h]; trivial
  · rw [h]; exact Booster.run_safe hd hn cfg rng metrics o

/-! ## A case -/

private def libm : Libm := ⟨fun _ => .fin 1, fun _ => .fin 0, fun x => x⟩
private def storeCfg : Config :=
  { Config.new with maxNbins := 3, maxTreeDepth := 3, niterations := 2, exampleFraction := .fin (4 / 5)
                    learningRate := .fin (1 / 2) }
private def storeData : Data :=
  ⟨3, [], 2, 5,
    [⟨[.fin 0, .fin 1, .fin 2, .fin 1, .fin 1], .fin 0, .fin 2, .loCardCat, 3⟩,
     ⟨[.fin 0, .fin 1, .fin 2, .fin 3, .fin 4], .fin 0, .fin 4, .hiCardCat, 5⟩,
     ⟨[.fin 0, .fin 1, .fin 3, .fin 1, .fin 8], .fin 0, .fin 8, .numerical, 0⟩]⟩

/-- The hypotheses of `C63_enough`: a tree needs at most 105 elements of a store. -/
example : Rectangular storeData ∧ storeData.nexamples ≤ 2 ^ 24 ∧ 0 < storeCfg.discrNbits ∧
    (∃ q : ℚ, storeCfg.exampleFraction = .fin q ∧ q ≤ 1) ∧ treeMemory storeCfg storeData = 105 :=
  ⟨⟨rfl, by decide⟩, by decide, by decide, ⟨4 / 5, rfl, by norm_num⟩, by decide +kernel⟩

/-- Two trees, of 2 and 3 leaves, are trained with one context; the result is not a failure. -/
example : ∃ b, StoreLearner.run .binary32 libm storeCfg storeData ⟨fun i => i⟩ [] (Objective.new .l2) = .ok b ∧
    b.ensemble.trees.map (fun t : Tree => t.nleafs) = [2, 3] := by
  have h : (match StoreLearner.run .binary32 libm storeCfg storeData ⟨fun i => i⟩ [] (Objective.new .l2) with
      | .ok b => decide (b.ensemble.trees.map (fun t : Tree => t.nleafs) = [2, 3])
      | _ => false) = true := by decide +kernel
  cases e : StoreLearner.run .binary32 libm storeCfg storeData ⟨fun i => i⟩ [] (Objective.new .l2) with
  | panic => rw [e] at h; cases h
  | ub => rw [e] at h; cases h
  | ok b => rw [e] at h; exact ⟨b, rfl, by simpa using h⟩

/-- A context that was used for a tree, and the hypotheses of `C54_reuse`: after the first tree the memory of the context
is not that of a new one. -/
example : ∃ c c' ds o r, newContext storeCfg storeData = .ok c ∧ ds.data = storeData ∧ Used storeData c ∧
    train .binary32 storeCfg ds [] o 7 c = .ok (some (r, c')) ∧ Used storeData c' ∧ r.1.nleafs = 3 ∧
    c.mask.mem 0 = none ∧ c'.mask.mem 0 ≠ none := by
  have h : (match newContext storeCfg storeData, Dataset.new .binary32 { storeCfg with exampleFraction := .fin 1 } storeData ⟨fun i => i⟩ with
    | .ok c, .ok ds =>
      c.mask.mem 0 == none &&
      match (Objective.new .l2).init .binary32 libm storeCfg [.fin 0, .fin 1, .fin 3, .fin 1, .fin 8] with
      | .ok o =>
        match o.update .binary32 libm [.fin 0, .fin 1, .fin 3, .fin 1, .fin 8] with
        | .ok o =>
          match train .binary32 storeCfg ds [] o 7 c with
          | .ok (some (r, c')) => decide (r.1.nleafs = 3) && (c'.mask.mem 0).isSome
          | _ => false
        | _ => false
      | _ => false
    | _, _ => false) = true := by decide +kernel
  split at h
  · rename_i c ds e1 e2
    simp only [Bool.and_eq_true] at h
    obtain ⟨h0, h⟩ := h
    split at h
    · split at h
      · split at h
        · rename_i o _ _ r c' e3
          simp only [Bool.and_eq_true, decide_eq_true_eq] at h
          refine ⟨c, c', ds, _, r, e1, Dataset.new_data e2, .fresh e1, e3, .again (.fresh e1) (Dataset.new_data e2) e3, h.1,
            by simpa using h0, ?_⟩
          intro hn
          rw [hn] at h
          simp at h
        · cases h
      · cases h
    · cases h
  · cases h

end BitBoost.Props
