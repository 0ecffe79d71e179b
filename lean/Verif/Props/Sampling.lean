import Verif.Lemmas.DatasetInv
import Verif.Lemmas.Float32
/-!
# C30, C34: samples of examples and features
-/
namespace BitBoost.Props
open BitBoost Spec Dataset

private theorem zip_range_inj {a b : List Nat}
    (h : (List.range a.length).zip a = (List.range b.length).zip b) : a = b := by
  have := congrArg (List.map Prod.snd) h
  rwa [List.map_snd_zip (by simp), List.map_snd_zip (by simp)] at this

private theorem zip_range_range (n : Nat) :
    (List.range n).map (fun i => (i, i)) = (List.range n).zip (List.range n) := by
  apply List.ext_getElem <;> simp

/-! ## C30 -/

/-- After creation and any number of updates with any gradients, for every output of the random
generator: when the examples are sampled, the active ones are exactly `round(n * fraction)` different rows
of the data in increasing order, and the iterator over the inactive ones yields exactly the other rows, in
increasing order. -/
theorem C30_examples (F : FP) (cfg : Config) (d : Data) (rng : Rng) (k : Nat) (ds : Dataset)
    (h : Updated F cfg d rng k ds) (hs : ds.exampleSampling = true) (rows : List Nat)
    (hr : Active ds rows) :
    rows.length = (F.mul (F.ofNat d.nexamples) cfg.exampleFraction).round.toUsize ∧
    rows.Pairwise (· < ·) ∧ (∀ r ∈ rows, r < d.nexamples) ∧
    ds.inactiveExamples = .ok ((List.range d.nexamples).filter fun i => decide (i ∉ rows)) := by
  have hi := h.inv
  have hb := hi.bag
  have hib : ds.indexBuffer ≠ [] := by
    intro h0; simp [exampleSampling, h0] at hs
  split at hb
  swap
  · exact absurd hb hib
  obtain ⟨hp, hso⟩ := hb
  unfold Active activePairs at hr
  rw [if_pos hs] at hr
  obtain ⟨a, e1, hr⟩ := Out.bind_eq_ok.1 hr
  simp only [Out.pure_eq, Out.ok.injEq] at hr
  have := zip_range_inj hr
  subst this
  have e1' := e1
  unfold activeExamples at e1
  rw [prefix_ok] at e1
  obtain ⟨hle, rfl⟩ := e1
  have hnd : (ds.indexBuffer.take ds.nactiveExamples).Nodup :=
    (hp.nodup_iff.2 List.nodup_range).sublist (List.take_sublist _ _)
  have hlt : (ds.indexBuffer.take ds.nactiveExamples).Pairwise (· < ·) :=
    hso.imp₂ (fun a b h1 h2 => by omega) hnd
  refine ⟨?_, hlt, ?_, ?_⟩
  · rw [List.length_take, Nat.min_eq_left hle, hi.ne]; rfl
  · intro r hr
    exact List.mem_range.1 (hp.mem_iff.1 (List.mem_of_mem_take hr))
  · unfold inactiveExamples
    rw [hs, e1']
    simp only [Out.assert, Out.ok_bind, Out.pure_eq, if_true]
    rw [inactiveLoop_spec _ _ _ _ rfl hlt (by simp), hi.data, List.range_eq_range']
    rfl

/-- With exact arithmetic the number of active examples is `n * fraction`, rounded half up. -/
theorem C30_count_exact (cfg : Config) (d : Data) (rng : Rng) (k : Nat) (ds : Dataset)
    (h : Updated .exact cfg d rng k ds) (hs : ds.exampleSampling = true) (rows : List Nat)
    (hr : Active ds rows) (frac : ℚ) (hf : cfg.exampleFraction = .fin frac) (hpos : 0 ≤ frac)
    (hn : d.nexamples < 2 ^ 64) :
    rows.length = ⌊(d.nexamples : ℚ) * frac + 1 / 2⌋.toNat := by
  obtain ⟨h1, _⟩ := C30_examples _ cfg d rng k ds h hs rows hr
  have hb := h.inv.bag
  have hlt : frac < 1 := by
    by_contra hge
    rw [if_neg (by rw [hf, Num.fin_lt_fin]; exact hge)] at hb
    simp [exampleSampling, hb] at hs
  rw [h1, hf]
  have e : FP.exact.mul (FP.exact.ofNat d.nexamples) (.fin frac) = .fin ((d.nexamples : ℚ) * frac) := rfl
  rw [e]
  have hq : 0 ≤ (d.nexamples : ℚ) * frac := by positivity
  simp only [Num.round, Num.toUsize, Num.cast]
  have hra : Num.roundAway ((d.nexamples : ℚ) * frac) = ⌊(d.nexamples : ℚ) * frac + 1 / 2⌋ := by
    unfold Num.roundAway; rw [if_pos hq]
  rw [hra, Num.trunc_int]
  have h0 : 0 ≤ ⌊(d.nexamples : ℚ) * frac + 1 / 2⌋ := Int.floor_nonneg.2 (by positivity)
  have hle : ⌊(d.nexamples : ℚ) * frac + 1 / 2⌋ ≤ d.nexamples := by
    have h2 : (d.nexamples : ℚ) * frac ≤ d.nexamples := by
      have : (0 : ℚ) ≤ d.nexamples := by positivity
      nlinarith
    have : ⌊(d.nexamples : ℚ) * frac + 1 / 2⌋ < (d.nexamples : ℤ) + 1 := by
      rw [Int.floor_lt]; push_cast; linarith
    omega
  congr 1
  omega

private theorem share_le (F : FP) (n : Nat) (hn : n ≤ 2 ^ 24) (frac : Num) (hf : frac.lt (.fin 1) = true) :
    share F n frac ≤ n := by
  unfold share
  rw [F.ofNat_eq hn]
  have key : ∀ x : Num, x.le (.fin n) = true → x.round.toUsize ≤ n := by
    intro x hx
    have h1 := Num.round_mono hx
    have h2 : Num.round (.fin n) = .fin n := by
      have := Num.roundAway_int n
      simp only [Num.round]
      rw [show ((n : ℕ) : ℚ) = ((n : ℤ) : ℚ) by push_cast; rfl, this]
    rw [h2] at h1
    have h3 := Num.cast_mono (lo := 0) (hi := 2 ^ 64 - 1) (by norm_num) h1
    have h4 : Num.cast 0 (2 ^ 64 - 1) (.fin n) ≤ n := by
      simp only [Num.cast]
      rw [show ((n : ℕ) : ℚ) = ((n : ℤ) : ℚ) by push_cast; rfl, Num.trunc_int]
      omega
    unfold Num.toUsize
    omega
  cases frac with
  | fin q =>
    rw [FP.mul_fin]
    refine key _ (F.rnd_le_nat hn ?_)
    rw [Num.fin_lt_fin] at hf
    have : (0 : ℚ) ≤ n := by positivity
    nlinarith
  | pinf => simp [Num.lt] at hf
  | nan => simp [Num.lt] at hf
  | ninf =>
    rcases Nat.eq_zero_or_pos n with rfl | hp
    · simp [FP.mul, FP.sgn, FP.infOf, Num.round, Num.toUsize, Num.cast]
    · have : (0 : ℚ) < n := by exact_mod_cast hp
      simp [FP.mul, FP.sgn, FP.infOf, Num.round, Num.toUsize, Num.cast]
      split_ifs <;> simp_all [Num.round, Num.toUsize, Num.cast]

/-- With at most 2^24 examples the active examples are always defined: after creation and any number of
updates there is a list of active rows. -/
theorem C30_examples_exist (F : FP) (cfg : Config) (d : Data) (rng : Rng) (k : Nat) (ds : Dataset)
    (h : Updated F cfg d rng k ds) (hn : d.nexamples ≤ 2 ^ 24) : ∃ rows, Active ds rows := by
  have hi := h.inv
  have hb := hi.bag
  unfold Active activePairs
  by_cases hs : ds.exampleSampling = true
  · have hib : ds.indexBuffer ≠ [] := by
      intro h0; simp [exampleSampling, h0] at hs
    split at hb
    swap
    · exact absurd hb hib
    rename_i hlt
    have hle : ds.nactiveExamples ≤ ds.indexBuffer.length := by
      rw [hb.1.length_eq, List.length_range, hi.ne]
      exact share_le F _ hn _ hlt
    refine ⟨ds.indexBuffer.take ds.nactiveExamples, ?_⟩
    rw [if_pos hs]
    unfold activeExamples
    rw [(prefix_ok).2 ⟨hle, rfl⟩]
    rfl
  · rw [if_neg hs]
    exact ⟨List.range ds.nactiveExamples, by rw [zip_range_range]; simp⟩

/-- Without sampling (fraction 1, at most 2^24 examples) all rows are active, in order. -/
theorem C30_no_sampling (F : FP) (cfg : Config) (d : Data) (rng : Rng) (k : Nat) (ds : Dataset)
    (h : Updated F cfg d rng k ds) (hf : cfg.exampleFraction = .fin 1) (hn : d.nexamples ≤ 2 ^ 24) :
    ds.exampleSampling = false ∧ Active ds (List.range d.nexamples) := by
  have hi := h.inv
  have hb := hi.bag
  rw [if_neg (by rw [hf, Num.fin_lt_fin]; exact lt_irrefl _)] at hb
  have hne : ds.nactiveExamples = d.nexamples := by
    rw [hi.ne, hf]
    unfold share
    rw [F.ofNat_eq hn, FP.mul_fin, mul_one, F.rnd_nat hn]
    simp only [Num.round, Num.toUsize, Num.cast]
    have := Num.roundAway_int d.nexamples
    rw [show ((d.nexamples : ℕ) : ℚ) = ((d.nexamples : ℤ) : ℚ) by push_cast; rfl, this, Num.trunc_int]
    omega
  refine ⟨by simp [exampleSampling, hb], ?_⟩
  unfold Active activePairs
  rw [if_neg (by simp [exampleSampling, hb]), hne, zip_range_range]
  simp

/-- The active features are exactly `round(u * fraction)` different features in increasing order, all
useful, where `u` is the number of useful features. -/
theorem C30_features (F : FP) (cfg : Config) (d : Data) (rng : Rng) (k : Nat) (ds : Dataset)
    (h : Updated F cfg d rng k ds) (fs : List Nat) (hfs : ds.activeFeatures = .ok fs) :
    ∃ useful : List Nat, useful.Nodup ∧ (∀ f, f ∈ useful ↔ Useful d f) ∧
      fs.length = (F.mul (F.ofNat useful.length) cfg.featureFraction).round.toUsize ∧
      fs.Pairwise (· < ·) ∧ ∀ f ∈ fs, Useful d f := by
  have hi := h.inv
  unfold activeFeatures at hfs
  rw [prefix_ok] at hfs
  obtain ⟨hle, rfl⟩ := hfs
  refine ⟨ds.useful, hi.nodup, hi.useful, ?_, ?_, ?_⟩
  · rw [List.length_take, Nat.min_eq_left hle, hi.nf]; rfl
  · exact hi.sorted.imp₂ (fun a b h1 h2 => by omega) (hi.nodup.sublist (List.take_sublist _ _))
  · intro f hf; exact (hi.useful f).1 (List.mem_of_mem_take hf)

/-- With the full feature fraction all useful features are active. -/
theorem C30_all_features (F : FP) (cfg : Config) (d : Data) (rng : Rng) (k : Nat) (ds : Dataset)
    (h : Updated F cfg d rng k ds) (hf : cfg.featureFraction = .fin 1) (hn : d.nfeatures ≤ 2 ^ 24) :
    ∃ fs, ds.activeFeatures = .ok fs ∧ ∀ f, f ∈ fs ↔ Useful d f := by
  have hi := h.inv
  have hlen : ds.useful.length ≤ d.nfeatures := by
    have hsub : ds.useful ⊆ List.range d.nfeatures := fun f hf => List.mem_range.2 ((hi.useful f).1 hf).1
    simpa using (hi.nodup.subperm hsub).length_le
  have hnf : ds.nactiveFeatures = ds.useful.length := by
    rw [hi.nf, hf]
    unfold share
    rw [F.ofNat_eq (by omega), FP.mul_fin, mul_one, F.rnd_nat (by omega)]
    simp only [Num.round, Num.toUsize, Num.cast]
    rw [show ((ds.useful.length : ℕ) : ℚ) = ((ds.useful.length : ℤ) : ℚ) by push_cast; rfl,
      Num.roundAway_int, Num.trunc_int]
    omega
  refine ⟨ds.useful, ?_, hi.useful⟩
  unfold activeFeatures
  rw [prefix_ok]
  exact ⟨by omega, by rw [hnf, List.take_length]⟩

/-- No sample is excluded: whatever was drawn before, every strictly increasing list of the right number
of rows is drawn next for some output of the random generator. -/
theorem C30_every_sample_possible (F : FP) (cfg : Config) (d : Data) (rng : Rng) (k : Nat) (ds : Dataset)
    (h : Updated F cfg d rng k ds) (hs : ds.exampleSampling = true) (rows : List Nat)
    (hrows : rows.Pairwise (· < ·)) (hlt : ∀ r ∈ rows, r < d.nexamples)
    (hlen : rows.length = (F.mul (F.ofNat d.nexamples) cfg.exampleFraction).round.toUsize) :
    ∃ rng' ds', Dataset.sampleExamples { ds with rng := rng' } = .ok ds' ∧ Active ds' rows := by
  have hi := h.inv
  have hb := hi.bag
  have hib : ds.indexBuffer ≠ [] := by
    intro h0; simp [exampleSampling, h0] at hs
  split at hb
  swap
  · exact absurd hb hib
  have hne : ds.nactiveExamples = rows.length := by rw [hi.ne, hlen]; rfl
  obtain ⟨r, r', buf', h1, h2⟩ := shuffleFirstK_reach rows ds.indexBuffer
    (hb.1.nodup_iff.2 List.nodup_range) hrows
    (fun t ht => hb.1.mem_iff.2 (List.mem_range.2 (hlt t ht)))
  have hperm := (shuffleFirstK_spec h1).1
  refine ⟨r, { ds with indexBuffer := buf', rng := r' }, ?_, ?_⟩
  · unfold sampleExamples
    simp only [hne, h1, Out.ok_bind, Out.pure_eq]
  · unfold Active activePairs
    have hne' : buf' ≠ [] := by
      intro h0; rw [h0] at hperm; exact hib hperm.symm.eq_nil
    rw [if_pos (by simp [exampleSampling, hne'])]
    unfold activeExamples
    have hle : rows.length ≤ buf'.length := by
      have := congrArg List.length h2
      rw [List.length_take] at this; omega
    rw [(prefix_ok (l' := rows)).2 ⟨by simp only [hne]; exact hle, by simp only [hne, h2]⟩]
    rfl

/-! ## C34 -/

/-- An update that is not due - not the first one, and not a multiple of `sample_freq`, or `sample_freq` is
0 - changes nothing but the number of updates (and makes room for super-categories, the first time): the
active examples and features, all masks, split candidates and super-categories stay as they are, and no
random numbers are used. -/
theorem C34_between_samples (F : FP) (cfg : Config) (d : Data) (rng : Rng) (k : Nat) (ds ds' : Dataset)
    (h : Updated F cfg d rng k ds) (grad : List Num) (bounds : Num × Num)
    (hu : ds.update F cfg grad bounds = .ok ds')
    (hk : cfg.sampleFreq = 0 ∨ (k + 1 ≠ 1 ∧ ¬ cfg.sampleFreq ∣ k + 1)) :
    ds'.activePairs = ds.activePairs ∧ ds'.activeFeatures = ds.activeFeatures ∧
    (∀ f, ds'.getNbins f = ds.getNbins f) ∧ (∀ f b, ds'.getBitvec f b = ds.getBitvec f b) ∧
    (∀ f b, ds'.getSplitValue F f b = ds.getSplitValue F f b) ∧
    (∀ (f : Nat) (sc : List Nat), ds.supercats[f]? = some sc → ds'.supercats[f]? = some sc) ∧
    ds'.rng = ds.rng ∧ ds'.data = ds.data := by
  have hi := h.inv
  unfold update at hu
  simp only at hu
  have hsk : skipped cfg.sampleFreq (initSupercats { ds with updateCount := ds.updateCount + 1 }).updateCount = true := by
    unfold skipped initSupercats
    simp only [hi.uc, decide_eq_true_eq]
    rcases hk with hk | ⟨hk, hk'⟩
    · exact Or.inl hk
    · right; exact ⟨by omega, fun h0 => hk' (Nat.dvd_of_mod_eq_zero h0)⟩
  rw [if_pos hsk] at hu
  simp only [Out.ok.injEq] at hu
  subst hu
  refine ⟨rfl, rfl, fun _ => rfl, fun _ _ => rfl, fun _ _ => rfl, ?_, rfl, rfl⟩
  apply initSupercats_get
  have := hi.lsup
  rw [hi.data]
  split at this <;> omega

/-- `C34_due` for any data set that meets the invariant. -/
theorem due_of_inv {F : FP} {cfg : Config} {d : Data} {k : Nat} {ds ds' : Dataset}
    (hi : Inv F cfg d k ds) {grad : List Num} {bounds : Num × Num} (hz : cfg.sampleFreq ≠ 0)
    (hk : k + 1 = 1 ∨ cfg.sampleFreq ∣ k + 1) (hs : ds.exampleSampling = true)
    (hu : ds.update F cfg grad bounds = .ok ds') :
    ∃ features r1 rows r2,
      (if ds.featureSampling then shuffleFirstK ds.rng ds.nactiveFeatures ds.useful = .ok (features, r1)
        else features = ds.useful ∧ r1 = ds.rng) ∧
      shuffleFirstK r1 ds.nactiveExamples ds.indexBuffer = .ok (rows, r2) ∧
      ds'.activeFeatures = .ok (features.take ds.nactiveFeatures) ∧
      Active ds' (rows.take ds.nactiveExamples) := by
  unfold update at hu
  simp only at hu
  have hsk : skipped cfg.sampleFreq (initSupercats { ds with updateCount := ds.updateCount + 1 }).updateCount = false := by
    unfold skipped initSupercats
    simp only [hi.uc, decide_eq_false_iff_not]
    rintro (h0 | ⟨h1, h2⟩)
    · exact hz h0
    · rcases hk with hk | hk
      · omega
      · exact h2 (Nat.mod_eq_zero_of_dvd hk)
  rw [hsk] at hu
  simp only [Bool.false_eq_true, if_false] at hu
  unfold refresh at hu
  obtain ⟨ds1, e1, hu⟩ := Out.bind_eq_ok.1 hu
  have step : ∃ u r1, ds1 = { initSupercats { ds with updateCount := ds.updateCount + 1 } with useful := u, rng := r1 } ∧
      (if ds.featureSampling then shuffleFirstK ds.rng ds.nactiveFeatures ds.useful = .ok (u, r1)
        else u = ds.useful ∧ r1 = ds.rng) := by
    unfold sampleFeatures at e1
    have hfs : (initSupercats { ds with updateCount := ds.updateCount + 1 }).featureSampling = ds.featureSampling := rfl
    rw [hfs] at e1
    split at e1
    · rename_i hf
      obtain ⟨⟨u, r1⟩, e2, e1⟩ := Out.bind_eq_ok.1 e1
      simp only [Out.pure_eq, Out.ok.injEq] at e1
      refine ⟨u, r1, e1.symm, ?_⟩
      rw [if_pos hf]; exact e2
    · rename_i hf
      simp only [Out.ok.injEq] at e1
      refine ⟨ds.useful, ds.rng, e1.symm, ?_⟩
      rw [if_neg hf]; exact ⟨rfl, rfl⟩
  obtain ⟨u, r1, rfl, hu1⟩ := step
  rw [if_pos (by exact hs)] at hu
  obtain ⟨ds2, e2, hu⟩ := Out.bind_eq_ok.1 hu
  unfold sampleExamples at e2
  obtain ⟨⟨buf, r2⟩, e3, e2⟩ := Out.bind_eq_ok.1 e2
  simp only [Out.pure_eq, Out.ok.injEq] at e2
  subst e2
  obtain ⟨rows, e4, hu⟩ := Out.bind_eq_ok.1 hu
  obtain ⟨feats, e5, hu⟩ := Out.bind_eq_ok.1 hu
  obtain ⟨k1, k2, k3, k4⟩ := updateFeatures_keeps _ _ _ hu
  rw [prefix_ok] at e4 e5
  have hne : buf ≠ [] := by
    have hp := (shuffleFirstK_spec e3).1
    intro h0
    rw [h0] at hp
    have h1 := hp.symm.eq_nil
    have h2 : ds.indexBuffer = [] := h1
    simp [exampleSampling, h2] at hs
  refine ⟨u, r1, buf, r2, hu1, e3, ?_, ?_⟩
  · unfold activeFeatures
    rw [k3, k4, prefix_ok]
    exact ⟨e5.1, rfl⟩
  · unfold Active activePairs activeExamples
    rw [if_pos (by simp [exampleSampling, k1, hne]), k1, k2,
      (prefix_ok (l' := buf.take ds.nactiveExamples)).2 ⟨e4.1, rfl⟩]
    rfl

/-- In the other iterations - the first one and every multiple of `sample_freq` - a new sample is drawn
without replacement: first the features (when they are sampled), then the examples. The drawn elements come
first, sorted, and are the active ones. -/
theorem C34_due (F : FP) (cfg : Config) (d : Data) (rng : Rng) (k : Nat) (ds ds' : Dataset)
    (h : Updated F cfg d rng k ds) (grad : List Num) (bounds : Num × Num) (hz : cfg.sampleFreq ≠ 0)
    (hk : k + 1 = 1 ∨ cfg.sampleFreq ∣ k + 1) (hs : ds.exampleSampling = true)
    (hu : ds.update F cfg grad bounds = .ok ds') :
    ∃ features r1 rows r2,
      (if ds.featureSampling then shuffleFirstK ds.rng ds.nactiveFeatures ds.useful = .ok (features, r1)
        else features = ds.useful ∧ r1 = ds.rng) ∧
      shuffleFirstK r1 ds.nactiveExamples ds.indexBuffer = .ok (rows, r2) ∧
      ds'.activeFeatures = .ok (features.take ds.nactiveFeatures) ∧
      Active ds' (rows.take ds.nactiveExamples) :=
  due_of_inv h.inv hz hk hs hu

/-! ## Non-vacuity -/

private def exCfg : Config :=
  { Config.new with maxNbins := 2, exampleFraction := .fin (3 / 5), featureFraction := .fin (1 / 2), sampleFreq := 2 }
private def exData : Data :=
  ⟨2, [], 2, 5,
    [⟨[.fin 0, .fin 1, .fin 0, .fin 1, .fin 1], .fin 0, .fin 1, .loCardCat, 2⟩,
     ⟨[.fin 0, .fin 1, .fin 2, .fin 3, .fin 4], .fin 0, .fin 4, .numerical, 0⟩,
     ⟨[.fin 0, .fin 1, .fin 0, .fin 1, .fin 1], .fin 0, .fin 1, .numerical, 0⟩]⟩
private def exRng : Rng := ⟨fun i => 7 * i + 1⟩
private def exGrad : List Num := [.fin (-1), .fin 1, .fin 1, .fin (-1), .fin 0]

private def exRun : List (List Num × (Num × Num)) := List.replicate 3 (exGrad, (.fin (-1), .fin 1))

/-- After three updates (the third one is not due) the rows 0, 1 and 3 and the feature 0 are active. -/
example : ∃ ds, Updated .exact exCfg exData exRng 3 ds ∧ ds.exampleSampling = true ∧
    Active ds [0, 1, 3] ∧ ds.activeFeatures = .ok [0] ∧ ds.inactiveExamples = .ok [2, 4] := by
  obtain ⟨ds, h1, h2⟩ := exampleRun_check (F := .exact) (cfg := exCfg) (d := exData) (rng := exRng) (gs := exRun)
    (fun ds => ds.exampleSampling && decide (ds.activePairs = .ok ((List.range 3).zip [0, 1, 3])) &&
      decide (ds.activeFeatures = .ok [0]) && decide (ds.inactiveExamples = .ok [2, 4])) (by decide +kernel)
  simp only [Bool.and_eq_true, decide_eq_true_eq] at h2
  exact ⟨ds, h1, h2.1.1.1, h2.1.1.2, h2.1.2, h2.2⟩

end BitBoost.Props
