import Verif.Lemmas.Hicard
import Verif.Lemmas.Separated
/-!
# C31-C33, C35: masks, split candidates, super-categories, and the split tests of the tree

In all theorems the data set is reachable: created and updated `k` times with any gradients and any random
numbers. `rows` are the rows of the active examples, `fs` the active features. When examples are not sampled,
all rows must be active (`hfull`); `C30_no_sampling` shows that they are, for the fraction 1 and at most 2^24
examples.
-/
namespace BitBoost.Props
open BitBoost Spec Dataset

theorem cell_eq {d : Data} {f : Nat} {c : Column} (hc : d.cols[f]? = some c) (r : Nat) :
    cell d f r = c.values[r]? := by simp [cell, hc]

theorem finite_lt {lo hi : Num} (h1 : lo.isFinite = true) (h2 : hi.isFinite = true) (h3 : lo.lt hi = true) :
    ∃ l h, lo = .fin l ∧ hi = .fin h ∧ l < h := by
  obtain ⟨l, rfl⟩ := Num.isFinite_iff.1 h1
  obtain ⟨h, rfl⟩ := Num.isFinite_iff.1 h2
  exact ⟨l, h, rfl, rfl, by simpa using h3⟩

private theorem toU32_nat {n : Nat} (h : n < 2 ^ 32) : (Num.fin (n : ℚ)).toU32 = n := by
  simp only [Num.toU32, Num.cast]
  rw [show ((n : ℕ) : ℚ) = ((n : ℤ) : ℚ) by push_cast; rfl, Num.trunc_int]
  omega

/-- A valid category is the number `b` iff it is read as `b`. -/
private theorem category_iff {v : Num} (hv : IsCategory v) {b : Nat} (hb : b ≤ 2 ^ 24) :
    v.toU32 = b ↔ v = .fin (b : ℚ) := by
  rcases hv with rfl | ⟨n, rfl⟩
  · simp [Num.toU32, Num.cast]; omega
  · constructor
    · intro h
      have hn : n = b := by
        simp only [Num.toU32, Num.cast] at h
        rw [show ((n : ℕ) : ℚ) = ((n : ℤ) : ℚ) by push_cast; rfl, Num.trunc_int] at h
        omega
      rw [hn]
    · intro h
      rw [h, toU32_nat (by omega)]

section
variable (F : FP) (cfg : Config) (d : Data) (rng : Rng) (k : Nat) (ds : Dataset)
  (hds : Updated F cfg d rng k ds) (rows : List Nat) (hrows : Active ds rows)
  (hfull : ds.exampleSampling = false → rows.length = d.nexamples)
  (fs : List Nat) (hfs : ds.activeFeatures = .ok fs)
include hds hrows hfull hfs

/-! ## C31 -/

/-- Low-cardinality categorical features: the mask of candidate `b` holds exactly the active examples whose
category is the split value of the candidate. -/
theorem C31_locard (f b : Nat) (hf : f ∈ fs) (m : Blocks) (hm : MaskOf ds f b m) (c : Column)
    (hc : d.cols[f]? = some c) (ht : c.ftype = .loCardCat) (hcat : ∀ v ∈ c.values, IsCategory v)
    (hb : b ≤ 2 ^ 24) :
    ∃ s, ds.getSplitValue F f b = .ok s ∧
      ∀ i, inMask m i ↔ ∃ r, rows[i]? = some r ∧ cell d f r = some s := by
  have hi := hds.inv
  have h := mask_featOk hi hrows hfull hfs hf hm
  have hc' := hc
  rw [← hi.data] at hc
  refine ⟨.fin b, ?_, fun i => ?_⟩
  · unfold getSplitValue column
    rw [(at?_ok (l := ds.data.cols) (i := f)).2 hc]
    simp only [Out.ok_bind, ht, Out.pure_eq, F.ofNat_eq hb]
  · rw [mask_locard h hm hc ht]
    constructor
    · rintro ⟨j, v, h1, h2, h3⟩
      refine ⟨j, h1, ?_⟩
      rw [cell_eq hc', h2]
      exact congrArg some ((category_iff (hcat v (List.mem_of_getElem? h2)) hb).1 h3)
    · rintro ⟨j, h1, h2⟩
      rw [cell_eq hc'] at h2
      exact ⟨j, _, h1, h2, toU32_nat (by omega)⟩

/-- High-cardinality categorical features: the mask of candidate `b` holds exactly the active examples whose
category has a super-category of at most the split value `b`. -/
theorem C31_hicard (f b : Nat) (hf : f ∈ fs) (m : Blocks) (hm : MaskOf ds f b m) (c : Column)
    (hc : d.cols[f]? = some c) (ht : c.ftype = .hiCardCat) :
    ds.getSplitValue F f b = .ok (F.ofNat b) ∧
    ∃ sc : List Nat, ds.supercats[f]? = some sc ∧ sc.length = c.card ∧
      ∀ i, inMask m i ↔ ∃ r v s, rows[i]? = some r ∧ cell d f r = some v ∧ sc[v.toU32]? = some s ∧ s ≤ b := by
  have hi := hds.inv
  have h := mask_featOk hi hrows hfull hfs hf hm
  have hc' := hc
  rw [← hi.data] at hc
  obtain ⟨_, sc, h1, h2, h3, h4⟩ := mask_hicard h hm hc ht
  refine ⟨?_, sc, h1, h2, fun i => ?_⟩
  · unfold getSplitValue column
    rw [(at?_ok (l := ds.data.cols) (i := f)).2 hc]
    simp only [Out.ok_bind, ht, Out.pure_eq]
  · rw [h4 i]
    simp only [cell_eq hc']
    exact Iff.rfl

/-- The masks of a high-cardinality or numerical feature are nested. -/
theorem C31_nested (f b b' : Nat) (hf : f ∈ fs) (m m' : Blocks) (hm : MaskOf ds f b m) (hm' : MaskOf ds f b' m')
    (hbb : b ≤ b') (c : Column) (hc : d.cols[f]? = some c) (ht : c.ftype ≠ .loCardCat) (i : Nat)
    (hin : inMask m i) : inMask m' i := by
  have hi := hds.inv
  have h := mask_featOk hi hrows hfull hfs hf hm
  rw [← hi.data] at hc
  cases htt : c.ftype with
  | loCardCat => exact absurd htt ht
  | hiCardCat =>
    obtain ⟨_, sc, h1, h2, h3, h4⟩ := mask_hicard h hm hc htt
    obtain ⟨_, sc', h1', h2', h3', h4'⟩ := mask_hicard h hm' hc htt
    rw [h1] at h1'; cases h1'
    obtain ⟨j, v, s, a1, a2, a3, a4⟩ := (h4 i).1 hin
    exact (h4' i).2 ⟨j, v, s, a1, a2, a3, by omega⟩
  | numerical =>
    obtain ⟨sp, qs, h1, _, _, _, _, _, _, _, h4⟩ := mask_num h hm hc htt
    obtain ⟨sp', qs', h1', _, _, _, _, _, _, _, h4'⟩ := mask_num h hm' hc htt
    rw [h1] at h1'; cases h1'
    obtain ⟨j, v, a1, a2, a3⟩ := (h4 i).1 hin
    exact (h4' i).2 ⟨j, v, a1, a2, by omega⟩

/-- Numerical features, whatever the rounding: with an example, a mask holds all active examples with at most
its value. -/
theorem C31_numerical_below (f b : Nat) (hf : f ∈ fs) (m : Blocks) (hm : MaskOf ds f b m) (c : Column)
    (hc : d.cols[f]? = some c) (ht : c.ftype = .numerical) (i i' r r' : Nat) (v v' : Num)
    (hr : rows[i]? = some r) (hr' : rows[i']? = some r') (hv : cell d f r = some v) (hv' : cell d f r' = some v')
    (hle : v.le v' = true) (hin : inMask m i') : inMask m i := by
  have hi := hds.inv
  have h := mask_featOk hi hrows hfull hfs hf hm
  rw [cell_eq hc] at hv hv'
  rw [← hi.data] at hc
  obtain ⟨sp, qs, h1, _, f1, f2, f3, _, _, _, h4⟩ := mask_num h hm hc ht
  obtain ⟨l, hh, e1, e2, e3⟩ := finite_lt f1 f2 f3
  obtain ⟨j, w, a1, a2, a3⟩ := (h4 i').1 hin
  rw [hr'] at a1; cases a1
  rw [hv'] at a2; cases a2
  have := numCat_mono F e1 e2 e3 sp hle
  exact (h4 i).2 ⟨r, v, hr, hv, by omega⟩

/-- An active example without a value (NaN) is in all masks of a numerical feature. -/
theorem C31_numerical_nan (f b : Nat) (hf : f ∈ fs) (m : Blocks) (hm : MaskOf ds f b m) (c : Column)
    (hc : d.cols[f]? = some c) (ht : c.ftype = .numerical) (i r : Nat)
    (hr : rows[i]? = some r) (hv : cell d f r = some .nan) : inMask m i := by
  have hi := hds.inv
  have h := mask_featOk hi hrows hfull hfs hf hm
  rw [cell_eq hc] at hv
  rw [← hi.data] at hc
  obtain ⟨sp, qs, h1, _, f1, f2, f3, hsp, _, _, h4⟩ := mask_num h hm hc ht
  obtain ⟨l, hh, e1, e2, e3⟩ := finite_lt f1 f2 f3
  refine (h4 i).2 ⟨r, .nan, hr, hv, ?_⟩
  rw [hsp, numCat_nan F e1 e2 e3]
  exact Nat.zero_le _

/-- Bits that do not belong to an active example are 0. -/
theorem C31_padding (f b : Nat) (hf : f ∈ fs) (m : Blocks) (hm : MaskOf ds f b m) (i : Nat)
    (hpad : rows.length ≤ i) : ¬ inMask m i := by
  have hi := hds.inv
  have h := mask_featOk hi hrows hfull hfs hf hm
  have hn : rows[i]? = none := List.getElem?_eq_none hpad
  obtain ⟨c, bvs, nb, h1, _⟩ := h
  have h := mask_featOk hi hrows hfull hfs hf hm
  cases ht : c.ftype with
  | loCardCat =>
    rw [mask_locard h hm h1 ht]
    rintro ⟨j, v, a1, _⟩; rw [hn] at a1; cases a1
  | hiCardCat =>
    obtain ⟨_, sc, _, _, _, h4⟩ := mask_hicard h hm h1 ht
    rw [h4]
    rintro ⟨j, v, s, a1, _⟩; rw [hn] at a1; cases a1
  | numerical =>
    obtain ⟨sp, qs, _, _, _, _, _, _, _, _, h4⟩ := mask_num h hm h1 ht
    rw [h4]
    rintro ⟨j, v, a1, _⟩; rw [hn] at a1; cases a1

end

/-- Numerical features where masks and split values agree. -/
theorem mask_agree (F : FP) (cfg : Config) (d : Data) (rng : Rng) (k : Nat) (ds : Dataset)
    (hds : Updated F cfg d rng k ds) (rows : List Nat) (hrows : Active ds rows)
    (hfull : ds.exampleSampling = false → rows.length = d.nexamples)
    (fs : List Nat) (hfs : ds.activeFeatures = .ok fs)
    (f b : Nat) (hf : f ∈ fs) (m : Blocks) (hm : MaskOf ds f b m) (c : Column)
    (hc : d.cols[f]? = some c) (ht : c.ftype = .numerical) (hF : Agree F c) :
    ∃ s, ds.getSplitValue F f b = .ok s ∧
      ((∀ (i r : Nat), rows[i]? = some r → r < c.values.length → inMask m i) ∨
       ∀ (i r : Nat) (v : Num), rows[i]? = some r → cell d f r = some v → v ≠ .nan →
         (inMask m i ↔ v.lt s = true)) := by
  have hi := hds.inv
  have h := mask_featOk hi hrows hfull hfs hf hm
  have hc' := hc
  rw [← hi.data] at hc
  obtain ⟨sp, qs, h1, hb, f1, f2, f3, hsp, hqs, hq, h4⟩ := mask_num h hm hc ht
  obtain ⟨l, hh, e1, e2, e3⟩ := finite_lt f1 f2 f3
  have hbq : b < qs.length := by rw [hsp] at hb; simpa using hb
  have hqb : qs[b]? = some qs[b] := List.getElem?_eq_getElem hbq
  refine ⟨Binner.representative F (numBinner F c) (qs[b] + 1), ?_, ?_⟩
  · unfold getSplitValue column
    rw [(at?_ok (l := ds.data.cols) (i := f)).2 hc]
    simp only [Out.ok_bind, ht]
    rw [(at?_ok (l := ds.splitCandidates) (i := f)).2 h1]
    simp only [Out.ok_bind]
    rw [at?_ok, hsp, List.getElem?_map, hqb]; rfl
  · by_cases h510 : 510 ≤ qs[b]
    · left
      intro i r hr hlt
      have hv : c.values[r]? = some c.values[r] := List.getElem?_eq_getElem hlt
      rw [h4]
      refine ⟨r, _, hr, hv, ?_⟩
      by_cases hn : c.values[r] = .nan
      · rw [hn, hsp, numCat_nan F e1 e2 e3]; exact Nat.zero_le _
      · rw [hsp, hF _ (List.mem_of_getElem? hv) hn _ _ _ hqs hqb]; exact Or.inl h510
    · right
      intro i r v hr hv hn
      rw [cell_eq hc'] at hv
      rw [h4]
      have key := hF _ (List.mem_of_getElem? hv) hn _ _ _ hqs hqb
      rw [← hsp] at key
      simp only [h510, false_or] at key
      rw [← key]
      constructor
      · rintro ⟨j, w, a1, a2, a3⟩
        rw [hr] at a1; cases a1
        rw [hv] at a2; cases a2
        exact a3
      · intro hle; exact ⟨r, v, hr, hv, hle⟩

/-- Numerical features, with exact arithmetic: a mask that does not hold all active examples holds exactly
the active examples with a value (not NaN) below the split value. (With `f32` rounding an example whose value
is within rounding errors of the split value can be on the other side, see `C35_rounding_refuted`; a mask
that holds all active examples is never used in a split, see C43.) -/
theorem C31_numerical_partial (cfg : Config) (d : Data) (rng : Rng) (k : Nat) (ds : Dataset)
    (hds : Updated .exact cfg d rng k ds) (rows : List Nat) (hrows : Active ds rows)
    (hfull : ds.exampleSampling = false → rows.length = d.nexamples)
    (fs : List Nat) (hfs : ds.activeFeatures = .ok fs)
    (f b : Nat) (hf : f ∈ fs) (m : Blocks) (hm : MaskOf ds f b m) (c : Column)
    (hc : d.cols[f]? = some c) (ht : c.ftype = .numerical) :
    ∃ s, ds.getSplitValue .exact f b = .ok s ∧
      ((∀ (i r : Nat), rows[i]? = some r → r < c.values.length → inMask m i) ∨
       ∀ (i r : Nat) (v : Num), rows[i]? = some r → cell d f r = some v → v ≠ .nan →
         (inMask m i ↔ v.lt s = true)) :=
  mask_agree .exact cfg d rng k ds hds rows hrows hfull fs hfs f b hf m hm c hc ht
    (fun _ _ hv _ _ _ hqs hb => by
      have hi := hds.inv
      have h := mask_featOk hi hrows hfull hfs hf hm
      rw [← hi.data] at hc
      obtain ⟨sp, qs, h1, _, f1, f2, f3, _⟩ := mask_num h hm hc ht
      obtain ⟨l, hh, e1, e2, e3⟩ := finite_lt f1 f2 f3
      exact numCat_exact e1 e2 e3 hv hqs hb)

/-- Numerical features with the `f32` arithmetic of the code, for fixed-point columns (`Spec.FixedPoint`: whole
numbers and the like) and for columns in general position (`Spec.Separated`: no value too close to a bin bound): a mask that
does not hold all active examples holds exactly the active examples with a value (not NaN) below the split value.
(For other columns it is false, see `C35_rounding_refuted`.) -/
theorem C31_numerical_f32_partial (cfg : Config) (d : Data) (rng : Rng) (k : Nat) (ds : Dataset)
    (hds : Updated .binary32 cfg d rng k ds) (rows : List Nat) (hrows : Active ds rows)
    (hfull : ds.exampleSampling = false → rows.length = d.nexamples)
    (fs : List Nat) (hfs : ds.activeFeatures = .ok fs)
    (f b : Nat) (hf : f ∈ fs) (m : Blocks) (hm : MaskOf ds f b m) (c : Column)
    (hc : d.cols[f]? = some c) (ht : c.ftype = .numerical) (hfix : FixedPoint c ∨ Separated c) :
    ∃ s, ds.getSplitValue .binary32 f b = .ok s ∧
      ((∀ (i r : Nat), rows[i]? = some r → r < c.values.length → inMask m i) ∨
       ∀ (i r : Nat) (v : Num), rows[i]? = some r → cell d f r = some v → v ≠ .nan →
         (inMask m i ↔ v.lt s = true)) := by
  refine mask_agree .binary32 cfg d rng k ds hds rows hrows hfull fs hfs f b hf m hm c hc ht ?_
  have hi := hds.inv
  have h := mask_featOk hi hrows hfull hfs hf hm
  rw [← hi.data] at hc
  obtain ⟨sp, qs, h1, hb, f1, f2, f3, hsp, hqs, hq, h4⟩ := mask_num h hm hc ht
  obtain ⟨l, hh, e1, e2, e3⟩ := finite_lt f1 f2 f3
  rcases hfix with hfix | hfix
  · exact agree_faithful e1 e2 e3 (faithful_fixed e1 e2 e3 hfix)
  · exact agree_separated hfix

/-! ## C32 -/

/-- After the first update (with `sample_freq > 0`) every active feature has at least one and at most
`max_nbins` split candidates, and each candidate has a mask with a bit for every active example, and a split
value. A low-cardinality feature has one candidate per category, so its cardinality must not be above
`max_nbins`: that is how the type is chosen, see C27 and C29. -/
theorem C32_candidates (F : FP) (cfg : Config) (d : Data) (rng : Rng) (k : Nat) (ds : Dataset)
    (hds : Updated F cfg d rng (k + 1) ds) (hfreq : cfg.sampleFreq ≠ 0)
    (rows : List Nat) (hrows : Active ds rows) (fs : List Nat) (hfs : ds.activeFeatures = .ok fs)
    (hlo : ∀ f ∈ fs, ∀ c, d.cols[f]? = some c → c.ftype = .loCardCat → c.card ≤ cfg.maxNbins)
    (f : Nat) (hf : f ∈ fs) :
    ∃ n, ds.getNbins f = .ok n ∧ 1 ≤ n ∧ n ≤ cfg.maxNbins ∧
      ∀ b < n, ∃ m s, ds.getBitvec f b = .ok m ∧ ds.getSplitValue F f b = .ok s ∧
        ∀ i < rows.length, ∃ bit, m.getBit i = .ok bit := by
  have hi := hds.inv
  have hfs' := hfs
  unfold activeFeatures at hfs
  rw [prefix_ok] at hfs
  obtain ⟨_, rfl⟩ := hfs
  obtain ⟨c, bvs, nb, h1, h2, h3, h4, h5⟩ := hi.done (by omega) hfreq f hf
  have hu := (hi.useful f).1 (List.mem_of_mem_take hf)
  obtain ⟨hfl, c', hc', hne, _⟩ := hu
  have h1' := h1
  rw [hi.data, hc'] at h1'
  cases h1'
  have hnb : 1 ≤ nb ∧ nb ≤ cfg.maxNbins := by
    cases ht : c.ftype with
    | loCardCat =>
      rw [ht] at h5
      have hcard := hlo f hf c hc' ht
      have hnb := h5.1
      rw [hi.data] at hnb
      refine ⟨by omega, ?_⟩
      rw [hnb]
      unfold Data.colMaxNbins at hne ⊢
      rw [ht] at hne ⊢
      simp only at hne ⊢
      split_ifs at hne ⊢ with h2' h1' <;> omega
    | hiCardCat => rw [ht] at h5; exact ⟨h5.1, h5.2.1⟩
    | numerical => rw [ht] at h5; exact ⟨h5.1, h5.2.1⟩
  refine ⟨nb, by unfold getNbins; rw [at?_ok]; exact h3, hnb.1, hnb.2, ?_⟩
  intro b hb
  have hbl : b < bvs.length := by omega
  have hbm : bvs[b]? = some bvs[b] := List.getElem?_eq_getElem hbl
  have hlen := hi.lens f bvs h2 _ (List.getElem_mem hbl)
  have hrl : rows.length ≤ ds.nactiveExamples := by
    unfold Active activePairs at hrows
    split at hrows
    · obtain ⟨a, e1, hrows⟩ := Out.bind_eq_ok.1 hrows
      unfold activeExamples at e1
      rw [prefix_ok] at e1
      simp only [Out.pure_eq, Out.ok.injEq] at hrows
      have := congrArg List.length hrows
      rw [e1.2] at this
      simp at this
      omega
    · simp only [Out.ok.injEq] at hrows
      have := congrArg List.length hrows
      simp at this
      omega
  have hs : ∃ s, ds.getSplitValue F f b = .ok s := by
    unfold getSplitValue column
    rw [(at?_ok (l := ds.data.cols) (i := f)).2 h1]
    simp only [Out.ok_bind]
    cases ht : c.ftype with
    | loCardCat => exact ⟨_, rfl⟩
    | hiCardCat => exact ⟨_, rfl⟩
    | numerical =>
      rw [ht] at h5
      obtain ⟨_, _, sp, qs, g1, g2, _⟩ := h5
      simp only
      rw [(at?_ok (l := ds.splitCandidates) (i := f)).2 g1]
      simp only [Out.ok_bind]
      rw [at?_lt (by omega)]
      exact ⟨_, rfl⟩
  obtain ⟨s, hs⟩ := hs
  refine ⟨bvs[b], s, getBitvec_ok.2 ⟨bvs, h2, hbm⟩, hs, ?_⟩
  intro i hi'
  rw [Blocks.getBit_eq, if_pos (by omega)]
  exact ⟨_, rfl⟩

/-! ## C33 -/

/-- Without sampling of examples: after an update that is due, the super-category of each category of an
active high-cardinality feature is the number of thresholds below the category's score, where the score is the
mean of the gradients of exactly the examples of this category, and the thresholds are the same for all
categories of the feature. So categories are ordered by their own gradients. (With sampling of examples this
is false: `C33_bagging_refuted`.) -/
theorem C33_scores_partial (F : FP) (cfg : Config) (d : Data) (rng : Rng) (k : Nat) (ds ds' : Dataset)
    (hds : Updated F cfg d rng k ds) (grad : List Num) (bounds : Num × Num)
    (hu : ds.update F cfg grad bounds = .ok ds') (hz : cfg.sampleFreq ≠ 0)
    (hdue : k + 1 = 1 ∨ cfg.sampleFreq ∣ k + 1) (hbag : ds.exampleSampling = false)
    (fs : List Nat) (hfs : ds'.activeFeatures = .ok fs) (f : Nat) (hf : f ∈ fs) (c : Column)
    (hc : d.cols[f]? = some c) (ht : c.ftype = .hiCardCat) :
    ∃ (sc : List Nat) (thresholds : List Num), ds'.supercats[f]? = some sc ∧
      (∀ cat < c.card, sc[cat]? = some (thresholds.takeWhile
        (fun t => t.lt (categoryScore F d f (List.range d.nexamples) grad cat))).length) ∧
      ∀ cat cat' s s', sc[cat]? = some s → sc[cat']? = some s' → cat < c.card → cat' < c.card →
        (categoryScore F d f (List.range d.nexamples) grad cat).le
          (categoryScore F d f (List.range d.nexamples) grad cat') = true → s ≤ s' := by
  have hi := hds.inv
  have hi' := (Updated.update hds hu).inv
  unfold update at hu
  simp only at hu
  have hsk : skipped cfg.sampleFreq (initSupercats { ds with updateCount := ds.updateCount + 1 }).updateCount = false := by
    unfold skipped initSupercats
    simp only [hi.uc, decide_eq_false_iff_not]
    rintro (h0 | ⟨h1, h2⟩)
    · exact hz h0
    · rcases hdue with hk | hk
      · omega
      · exact h2 (Nat.mod_eq_zero_of_dvd hk)
  rw [hsk] at hu
  simp only [Bool.false_eq_true, if_false] at hu
  unfold refresh at hu
  obtain ⟨ds1, e1, hu⟩ := Out.bind_eq_ok.1 hu
  have step : ∃ u r1, ds1 = { initSupercats { ds with updateCount := ds.updateCount + 1 } with useful := u, rng := r1 } ∧
      u.Perm ds.useful := by
    unfold sampleFeatures at e1
    split at e1
    · obtain ⟨⟨u, r1⟩, e2, e1⟩ := Out.bind_eq_ok.1 e1
      simp only [Out.pure_eq, Out.ok.injEq] at e1
      exact ⟨u, r1, e1.symm, (shuffleFirstK_spec e2).1⟩
    · simp only [Out.ok.injEq] at e1
      exact ⟨ds.useful, ds.rng, e1.symm, List.Perm.refl _⟩
  obtain ⟨u, r1, rfl, hperm⟩ := step
  rw [if_neg (by
    have : exampleSampling ({ initSupercats { ds with updateCount := ds.updateCount + 1 } with useful := u, rng := r1 } : Dataset) = ds.exampleSampling := rfl
    rw [this, hbag]; simp)] at hu
  unfold activeFeatures at hfs
  rw [prefix_ok] at hfs
  obtain ⟨_, rfl⟩ := hfs
  have hcd : ds.data.cols[f]? = some c := by rw [hi.data]; exact hc
  split at hu
  swap
  · rename_i hnl
    exfalso
    have hnl' : ds.hasNonLocard = false := by simpa [initSupercats] using hnl
    cases hu
    have hfu : f ∈ ds.useful := hperm.mem_iff.1 (List.mem_of_mem_take hf)
    have := hi.nonlo hnl' f hfu c hc
    rw [ht] at this; cases this
  · obtain ⟨feats, e2, hu⟩ := Out.bind_eq_ok.1 hu
    rw [prefix_ok] at e2
    obtain ⟨_, rfl⟩ := e2
    obtain ⟨k1, k2, k3, k4⟩ := updateFeatures_keeps _ _ _ hu
    have hnd : u.Nodup := hperm.nodup_iff.2 hi.nodup
    rw [k3, k4] at hf
    obtain ⟨sc, w, g1, g2⟩ := (updateFeatures_scores (grad' := grad) (by
      intro j r hj
      obtain ⟨hj1, rfl⟩ := List.getElem?_eq_some_iff.1 hj
      simp) _ _ _ (hnd.sublist (List.take_sublist _ _)) hu).2 f hf c hcd ht
    have hdd : ({ initSupercats { ds with updateCount := ds.updateCount + 1 } with useful := u, rng := r1 } : Dataset).data = d := hi.data
    rw [hdd] at g2
    have hcb : ∀ x, countBelow x w = (w.takeWhile fun t => t.lt x).length := by
      intro x
      clear g2
      induction w with
      | nil => rfl
      | cons a w ih =>
        simp only [countBelow, List.takeWhile_cons]
        split <;> simp [*]
    refine ⟨sc, w, g1, fun cat hcat => by rw [g2 cat hcat, hcb], ?_⟩
    intro cat cat' s s' h1 h2 h3 h4 hle
    rw [g2 cat h3] at h1
    rw [g2 cat' h4] at h2
    cases h1; cases h2
    exact countBelow_mono hle (Num.ne_nan_of_le_right hle) _

/-- With sampling of examples: what the code computes instead. The gradient it takes for the `i`-th active example is the one
at position `i` of the list of gradients, not the one of the row of the example. So super-categories are right for the
gradients `grad'` that have this number in the place of the row, and C33 holds when these are the gradients (as they are for
samples of the first rows, and for samples of rows with equal gradients). -/
theorem C33_bagging_partial (F : FP) (cfg : Config) (d : Data) (rng : Rng) (k : Nat) (ds ds' : Dataset)
    (hds : Updated F cfg d rng k ds) (grad : List Num) (bounds : Num × Num)
    (hu : ds.update F cfg grad bounds = .ok ds') (hz : cfg.sampleFreq ≠ 0)
    (hdue : k + 1 = 1 ∨ cfg.sampleFreq ∣ k + 1) (hbag : ds.exampleSampling = true)
    (fs : List Nat) (hfs : ds'.activeFeatures = .ok fs) (f : Nat) (hf : f ∈ fs) (c : Column)
    (hc : d.cols[f]? = some c) (ht : c.ftype = .hiCardCat) (rows : List Nat) (hrows : Active ds' rows)
    (grad' : List Num) (hg : ∀ i r : Nat, rows[i]? = some r → grad'[r]? = grad[i]?) :
    ∃ (sc : List Nat) (thresholds : List Num), ds'.supercats[f]? = some sc ∧
      (∀ cat < c.card, sc[cat]? = some (thresholds.takeWhile
        (fun t => t.lt (categoryScore F d f rows grad' cat))).length) ∧
      ∀ cat cat' s s', sc[cat]? = some s → sc[cat']? = some s' → cat < c.card → cat' < c.card →
        (categoryScore F d f rows grad' cat).le
          (categoryScore F d f rows grad' cat') = true → s ≤ s' := by
  have hi := hds.inv
  have hi' := (Updated.update hds hu).inv
  unfold update at hu
  simp only at hu
  have hsk : skipped cfg.sampleFreq (initSupercats { ds with updateCount := ds.updateCount + 1 }).updateCount = false := by
    unfold skipped initSupercats
    simp only [hi.uc, decide_eq_false_iff_not]
    rintro (h0 | ⟨h1, h2⟩)
    · exact hz h0
    · rcases hdue with hk | hk
      · omega
      · exact h2 (Nat.mod_eq_zero_of_dvd hk)
  rw [hsk] at hu
  simp only [Bool.false_eq_true, if_false] at hu
  unfold refresh at hu
  obtain ⟨ds1, e1, hu⟩ := Out.bind_eq_ok.1 hu
  have step : ∃ u r1, ds1 = { initSupercats { ds with updateCount := ds.updateCount + 1 } with useful := u, rng := r1 } ∧
      u.Perm ds.useful := by
    unfold sampleFeatures at e1
    split at e1
    · obtain ⟨⟨u, r1⟩, e2, e1⟩ := Out.bind_eq_ok.1 e1
      simp only [Out.pure_eq, Out.ok.injEq] at e1
      exact ⟨u, r1, e1.symm, (shuffleFirstK_spec e2).1⟩
    · simp only [Out.ok.injEq] at e1
      exact ⟨ds.useful, ds.rng, e1.symm, List.Perm.refl _⟩
  obtain ⟨u, r1, rfl, hperm⟩ := step
  rw [if_pos (by
    have : exampleSampling ({ initSupercats { ds with updateCount := ds.updateCount + 1 } with useful := u, rng := r1 } : Dataset) = ds.exampleSampling := rfl
    rw [this, hbag])] at hu
  unfold activeFeatures at hfs
  rw [prefix_ok] at hfs
  obtain ⟨_, rfl⟩ := hfs
  have hcd : ds.data.cols[f]? = some c := by rw [hi.data]; exact hc
  obtain ⟨ds2, e2, hu⟩ := Out.bind_eq_ok.1 hu
  unfold sampleExamples at e2
  obtain ⟨⟨buf, r2⟩, e3, e2⟩ := Out.bind_eq_ok.1 e2
  simp only [Out.pure_eq, Out.ok.injEq] at e2
  subst e2
  obtain ⟨rs, e4, hu⟩ := Out.bind_eq_ok.1 hu
  obtain ⟨feats, e5, hu⟩ := Out.bind_eq_ok.1 hu
  rw [prefix_ok] at e4 e5
  obtain ⟨hle4, rfl⟩ := e4
  obtain ⟨_, rfl⟩ := e5
  obtain ⟨k1, k2, k3, k4⟩ := updateFeatures_keeps _ _ _ hu
  have hne : buf ≠ [] := by
    have hp := (shuffleFirstK_spec e3).1
    intro h0
    rw [h0] at hp
    have h1 := hp.symm.eq_nil
    have h2 : ds.indexBuffer = [] := h1
    simp [exampleSampling, h2] at hbag
  have hrs : rows = buf.take ds.nactiveExamples := by
    unfold Active activePairs activeExamples at hrows
    rw [if_pos (by simp [exampleSampling, k1, hne]), k1, k2,
      (prefix_ok (l' := buf.take ds.nactiveExamples)).2 ⟨hle4, rfl⟩] at hrows
    have := congrArg (List.map Prod.snd) (Out.ok.inj hrows)
    rw [List.map_snd_zip (by simp), List.map_snd_zip (by simp)] at this
    exact this.symm
  subst hrs
  have hnd : u.Nodup := hperm.nodup_iff.2 hi.nodup
  rw [k3, k4] at hf
  obtain ⟨sc, w, g1, g2⟩ := (updateFeatures_scores hg _ _ _ (hnd.sublist (List.take_sublist _ _)) hu).2 f hf c hcd ht
  have hdd : ({ initSupercats { ds with updateCount := ds.updateCount + 1 } with useful := u, rng := r1, indexBuffer := buf } : Dataset).data = d := hi.data
  rw [hdd] at g2
  have hcb : ∀ x, countBelow x w = (w.takeWhile fun t => t.lt x).length := by
    intro x
    clear g2
    induction w with
    | nil => rfl
    | cons a w ih =>
      simp only [countBelow, List.takeWhile_cons]
      split <;> simp [*]
  refine ⟨sc, w, g1, fun cat hcat => by rw [g2 cat hcat, hcb], ?_⟩
  intro cat cat' s s' h1 h2 h3 h4 hle
  rw [g2 cat h3] at h1
  rw [g2 cat' h4] at h2
  cases h1; cases h2
  exact countBelow_mono hle (Num.ne_nan_of_le_right hle) _

private def bagCfg : Config := { Config.new with maxNbins := 1, exampleFraction := .fin (1 / 2) }
private def bagData : Data :=
  ⟨1, [], 1, 4,
    [⟨[.fin 0, .fin 1, .fin 0, .fin 1], .fin 0, .fin 1, .hiCardCat, 2⟩,
     ⟨[.fin 0, .fin 1, .fin 0, .fin 1], .fin 0, .fin 1, .numerical, 0⟩]⟩
private def bagGrad : List Num := [.fin (-1), .fin 1, .fin 1, .fin (-1)]

/-- With sampling of examples C33 is false. Four rows with the categories 0, 1, 0, 1 and the gradients
-1, 1, 1, -1; the last two rows are active. The mean gradient of the active examples is 1 for category 0 and
-1 for category 1, but category 0 gets the lower super-category: the code sums the gradients of rows 0 and 1. -/
theorem C33_bagging_refuted :
    ∃ ds, Updated .exact bagCfg bagData ⟨fun _ => 2⟩ 1 ds ∧ Active ds [2, 3] ∧
      categoryScore .exact bagData 0 [2, 3] bagGrad 0 = .fin 1 ∧
      categoryScore .exact bagData 0 [2, 3] bagGrad 1 = .fin (-1) ∧
      ds.supercats = [[0, 1]] := by
  obtain ⟨ds, h1, h2⟩ := exampleRun_check (F := .exact) (cfg := bagCfg) (d := bagData) (rng := ⟨fun _ => 2⟩)
    (gs := [(bagGrad, (.fin (-1), .fin 1))])
    (fun ds => decide (ds.activePairs = .ok ((List.range 2).zip [2, 3])) && decide (ds.supercats = [[0, 1]]))
    (by decide +kernel)
  simp only [Bool.and_eq_true, decide_eq_true_eq] at h2
  exact ⟨ds, h1, h2.1, by decide +kernel, by decide +kernel, h2.2⟩

/-- `C33_bagging_partial` in this case: with the first two gradients in the places of the rows 2 and 3. -/
example : ∃ ds ds', Updated .exact bagCfg bagData ⟨fun _ => 2⟩ 0 ds ∧ ds.exampleSampling = true ∧
    ds.update .exact bagCfg bagGrad (.fin (-1), .fin 1) = .ok ds' ∧ Active ds' [2, 3] ∧ ds'.activeFeatures = .ok [0] ∧
    (∀ i r : Nat, [2, 3][i]? = some r → ([.fin 0, .fin 0, .fin (-1), .fin 1] : List Num)[r]? = bagGrad[i]?) ∧
    categoryScore .exact bagData 0 [2, 3] [.fin 0, .fin 0, .fin (-1), .fin 1] 0 = .fin (-1) ∧
    categoryScore .exact bagData 0 [2, 3] [.fin 0, .fin 0, .fin (-1), .fin 1] 1 = .fin 1 := by
  obtain ⟨ds, h1, h2⟩ := exampleRun_check (F := .exact) (cfg := bagCfg) (d := bagData) (rng := ⟨fun _ => 2⟩) (gs := [])
    (fun ds => ds.exampleSampling && match ds.update .exact bagCfg bagGrad (.fin (-1), .fin 1) with
      | .ok ds' => decide (ds'.activePairs = .ok ((List.range 2).zip [2, 3])) && decide (ds'.activeFeatures = .ok [0])
      | _ => false) (by decide +kernel)
  simp only [Bool.and_eq_true] at h2
  obtain ⟨h2, h3⟩ := h2
  split at h3
  · rename_i ds' hds'
    simp only [Bool.and_eq_true, decide_eq_true_eq] at h3
    refine ⟨ds, ds', h1, h2, hds', h3.1, h3.2, ?_, by decide +kernel, by decide +kernel⟩
    intro i r hr
    match i, hr with
    | 0, hr => cases hr; rfl
    | 1, hr => cases hr; rfl
    | i + 2, hr => simp at hr
  · cases h3

/-- The same data without sampling: category 1 has the higher mean and the higher super-category. -/
example : ∃ ds, Updated .exact { bagCfg with exampleFraction := .fin 1 } bagData ⟨fun _ => 2⟩ 1 ds ∧
    ds.exampleSampling = false ∧ ds.activeFeatures = .ok [0] ∧
    categoryScore .exact bagData 0 [0, 1, 2, 3] [.fin (-1), .fin 1, .fin (-1), .fin 1] 0 = .fin (-1) ∧
    categoryScore .exact bagData 0 [0, 1, 2, 3] [.fin (-1), .fin 1, .fin (-1), .fin 1] 1 = .fin 1 ∧
    ds.supercats = [[0, 1]] := by
  obtain ⟨ds, h1, h2⟩ := exampleRun_check (F := .exact) (cfg := { bagCfg with exampleFraction := .fin 1 })
    (d := bagData) (rng := ⟨fun _ => 2⟩)
    (gs := [([.fin (-1), .fin 1, .fin (-1), .fin 1], (.fin (-1), .fin 1))])
    (fun ds => !ds.exampleSampling && decide (ds.activeFeatures = .ok [0]) && decide (ds.supercats = [[0, 1]]))
    (by decide +kernel)
  simp only [Bool.and_eq_true, decide_eq_true_eq, Bool.not_eq_true'] at h2
  exact ⟨ds, h1, h2.1.1, h2.1.2, by decide +kernel, by decide +kernel, h2.2⟩

/-! ## C35 -/

section
variable (F : FP) (cfg : Config) (d : Data) (rng : Rng) (k : Nat) (ds : Dataset)
  (hds : Updated F cfg d rng k ds) (rows : List Nat) (hrows : Active ds rows)
  (hfull : ds.exampleSampling = false → rows.length = d.nexamples)
  (fs : List Nat) (hfs : ds.activeFeatures = .ok fs)
include hds hrows hfull hfs

/-- Categorical features: an active example is in the mask of a candidate exactly when a tree with the
super-categories of the data set, split on this candidate, sends its row to the left child. -/
theorem C35_categorical (f b : Nat) (hf : f ∈ fs) (m : Blocks) (hm : MaskOf ds f b m) (c : Column)
    (hc : d.cols[f]? = some c) (ht : c.ftype ≠ .numerical) (hcat : ∀ v ∈ c.values, IsCategory v)
    (hb : b ≤ 2 ^ 24) :
    ∃ s, ds.getSplitValue F f b = .ok s ∧
      ∀ (i r : Nat) (v : Num), rows[i]? = some r → cell d f r = some v →
        (inMask m i ↔ Tree.test ds.supercats (testOf c.ftype f s) v = .ok (some true)) := by
  have hi := hds.inv
  cases htt : c.ftype with
  | numerical => exact absurd htt ht
  | loCardCat =>
    obtain ⟨s, h1, h2⟩ := C31_locard F cfg d rng k ds hds rows hrows hfull fs hfs f b hf m hm c hc htt hcat hb
    have hs : s = .fin b := by
      unfold getSplitValue column at h1
      rw [hi.data, (at?_ok (l := d.cols) (i := f)).2 hc] at h1
      simp only [Out.ok_bind, htt, Out.pure_eq, F.ofNat_eq hb, Out.ok.injEq] at h1
      exact h1.symm
    refine ⟨s, h1, fun i r v hr hv => ?_⟩
    rw [h2 i]
    have hvc := hcat v (by rw [cell_eq hc] at hv; exact List.mem_of_getElem? hv)
    simp only [testOf, Tree.test, Out.ok.injEq, Option.some.injEq]
    constructor
    · rintro ⟨r', h3, h4⟩
      rw [hr] at h3; cases h3
      rw [hv] at h4; cases h4
      rw [hs]; simp [Num.eqb]
    · intro h3
      refine ⟨r, hr, ?_⟩
      rw [hv]
      congr 1
      rw [hs] at h3 ⊢
      rcases hvc with rfl | ⟨n, rfl⟩ <;> simp [Num.eqb] at h3 ⊢
      exact h3
  | hiCardCat =>
    have h := mask_featOk hi hrows hfull hfs hf hm
    have hc' := hc
    rw [← hi.data] at hc'
    obtain ⟨hbn, sc, h1, h2, h3, h4⟩ := mask_hicard h hm hc' htt
    refine ⟨F.ofNat b, (C31_hicard F cfg d rng k ds hds rows hrows hfull fs hfs f b hf m hm c hc htt).1, ?_⟩
    intro i r v hr hv
    rw [h4 i]
    have hv' := hv
    rw [cell_eq hc] at hv'
    have hlt : intoCat v < sc.length := by rw [h2]; exact h3 i r v hr hv'
    have hbb : intoCat (F.ofNat b) = b := by
      rw [F.ofNat_eq hb]; exact toU32_nat (by omega)
    simp only [testOf, Tree.test, h1, Out.ok.injEq, Option.some.injEq, decide_eq_true_eq, hbb, if_pos hlt,
      List.getElem?_eq_getElem hlt, Option.getD_some]
    constructor
    · rintro ⟨j, w, s, a1, a2, a3, a4⟩
      rw [hr] at a1; cases a1
      rw [hv'] at a2; cases a2
      rw [List.getElem?_eq_getElem hlt] at a3; cases a3
      exact a4
    · intro h5
      exact ⟨r, v, _, hr, hv', List.getElem?_eq_getElem hlt, h5⟩

/-- False for an active example without a value (NaN) in a numerical feature: it is in the mask of every
candidate, but a tree sends its row to the right, whatever the candidate. -/
theorem C35_nan_refuted (f b : Nat) (hf : f ∈ fs) (m : Blocks) (hm : MaskOf ds f b m) (c : Column)
    (hc : d.cols[f]? = some c) (ht : c.ftype = .numerical) (i r : Nat)
    (hr : rows[i]? = some r) (hv : cell d f r = some .nan) :
    inMask m i ∧ ∀ s, Tree.test ds.supercats (testOf c.ftype f s) .nan = .ok (some false) := by
  refine ⟨C31_numerical_nan F cfg d rng k ds hds rows hrows hfull fs hfs f b hf m hm c hc ht i r hr hv, ?_⟩
  intro s
  rw [ht]
  simp only [testOf, Tree.test, Num.lt]

end

/-- Numerical features, with exact arithmetic: a candidate whose mask leaves out some active example sends
an active example with a value (not NaN) left in training exactly when a tree split on this candidate sends
its row to the left child. (With `f32` arithmetic see `C35_rounding_refuted`.) -/
theorem C35_numerical_partial (cfg : Config) (d : Data) (rng : Rng) (k : Nat) (ds : Dataset)
    (hds : Updated .exact cfg d rng k ds) (rows : List Nat) (hrows : Active ds rows)
    (hfull : ds.exampleSampling = false → rows.length = d.nexamples)
    (fs : List Nat) (hfs : ds.activeFeatures = .ok fs)
    (f b : Nat) (hf : f ∈ fs) (m : Blocks) (hm : MaskOf ds f b m) (c : Column)
    (hc : d.cols[f]? = some c) (ht : c.ftype = .numerical)
    (hsome : ∃ i r, rows[i]? = some r ∧ r < c.values.length ∧ ¬ inMask m i) :
    ∃ s, ds.getSplitValue .exact f b = .ok s ∧
      ∀ (i r : Nat) (v : Num), rows[i]? = some r → cell d f r = some v → v ≠ .nan →
        (inMask m i ↔ Tree.test ds.supercats (testOf c.ftype f s) v = .ok (some true)) := by
  obtain ⟨s, h1, h2⟩ := C31_numerical_partial cfg d rng k ds hds rows hrows hfull fs hfs f b hf m hm c hc ht
  refine ⟨s, h1, ?_⟩
  rcases h2 with h2 | h2
  · obtain ⟨i, r, a1, a2, a3⟩ := hsome
    exact absurd (h2 i r a1 a2) a3
  · intro i r v hr hv hn
    rw [h2 i r v hr hv hn, ht]
    simp only [testOf, Tree.test, Out.ok.injEq, Option.some.injEq]

/-- Numerical features with the `f32` arithmetic of the code, for fixed-point columns (`Spec.FixedPoint`: whole
numbers and the like) and for columns in general position (`Spec.Separated`: no value too close to a bin bound): a candidate
whose mask leaves out some active example sends an active example with a value (not NaN) left in training exactly when a
tree split on this candidate sends its row to the left child. (For other columns see `C35_rounding_refuted`.) -/
theorem C35_numerical_f32_partial (cfg : Config) (d : Data) (rng : Rng) (k : Nat) (ds : Dataset)
    (hds : Updated .binary32 cfg d rng k ds) (rows : List Nat) (hrows : Active ds rows)
    (hfull : ds.exampleSampling = false → rows.length = d.nexamples)
    (fs : List Nat) (hfs : ds.activeFeatures = .ok fs)
    (f b : Nat) (hf : f ∈ fs) (m : Blocks) (hm : MaskOf ds f b m) (c : Column)
    (hc : d.cols[f]? = some c) (ht : c.ftype = .numerical) (hfix : FixedPoint c ∨ Separated c)
    (hsome : ∃ i r, rows[i]? = some r ∧ r < c.values.length ∧ ¬ inMask m i) :
    ∃ s, ds.getSplitValue .binary32 f b = .ok s ∧
      ∀ (i r : Nat) (v : Num), rows[i]? = some r → cell d f r = some v → v ≠ .nan →
        (inMask m i ↔ Tree.test ds.supercats (testOf c.ftype f s) v = .ok (some true)) := by
  obtain ⟨s, h1, h2⟩ := C31_numerical_f32_partial cfg d rng k ds hds rows hrows hfull fs hfs f b hf m hm c hc ht hfix
  refine ⟨s, h1, ?_⟩
  rcases h2 with h2 | h2
  · obtain ⟨i, r, a1, a2, a3⟩ := hsome
    exact absurd (h2 i r a1 a2) a3
  · intro i r v hr hv hn
    rw [h2 i r v hr hv hn, ht]
    simp only [testOf, Tree.test, Out.ok.injEq, Option.some.injEq]

private def roundCfg : Config := { Config.new with maxNbins := 1 }
private def roundData : Data :=
  ⟨1, [], 1, 4,
    [⟨[.fin 0, .fin (5 / 2), .fin (3 + 1 / 2 ^ 22), .fin (512 + 1 / 2 ^ 14)], .fin 0, .fin (512 + 1 / 2 ^ 14),
        .numerical, 0⟩,
     ⟨[.fin 0, .fin 1, .fin 0, .fin 1], .fin 0, .fin 1, .numerical, 0⟩]⟩

/-- With `f32` arithmetic C35 (and C31) is false for numerical features: the third example has the value
3 + 2^-22, the split value is 3 + 2^-21, so a tree sends the row to the left; the mask, which leaves out
two of the four examples, does not hold it. All numbers are `f32` numbers. -/
theorem C35_rounding_refuted :
    ∃ ds m s, Updated .binary32 roundCfg roundData ⟨fun _ => 2⟩ 1 ds ∧ Active ds [0, 1, 2, 3] ∧
      ds.activeFeatures = .ok [0] ∧ MaskOf ds 0 0 m ∧ ds.getSplitValue .binary32 0 0 = .ok s ∧
      inMask m 0 ∧ inMask m 1 ∧ ¬ inMask m 2 ∧ ¬ inMask m 3 ∧
      cell roundData 0 2 = some (.fin (3 + 1 / 2 ^ 22)) ∧ s = .fin (3 + 1 / 2 ^ 21) ∧
      Tree.test ds.supercats (testOf .numerical 0 s) (.fin (3 + 1 / 2 ^ 22)) = .ok (some true) ∧
      ∀ c ∈ roundData.cols, ∀ v ∈ c.values, ∃ q, v = .fin q ∧ FP.binary32.rnd q = .fin q := by
  obtain ⟨ds, h1, h2⟩ := exampleRun_check (F := .binary32) (cfg := roundCfg) (d := roundData) (rng := ⟨fun _ => 2⟩)
    (gs := [([.fin 0, .fin 1, .fin 0, .fin 0], (.fin (-1), .fin 1))])
    (fun ds => decide (ds.activePairs = .ok ((List.range 4).zip [0, 1, 2, 3])) &&
      decide (ds.activeFeatures = .ok [0]) && decide (ds.getNbins 0 = .ok 1) &&
      decide (ds.getSplitValue .binary32 0 0 = .ok (.fin (3 + 1 / 2 ^ 21))) &&
      match ds.getBitvec 0 0 with
      | .ok m => decide ((List.range 4).map m.getBit = [.ok true, .ok true, .ok false, .ok false])
      | _ => false)
    (by decide +kernel)
  simp only [Bool.and_eq_true, decide_eq_true_eq] at h2
  obtain ⟨⟨⟨⟨a1, a2⟩, a3⟩, a4⟩, a5⟩ := h2
  cases hm : ds.getBitvec 0 0 with
  | panic => rw [hm] at a5; cases a5
  | ub => rw [hm] at a5; cases a5
  | ok m =>
    rw [hm] at a5
    simp only [decide_eq_true_eq] at a5
    have b : ∀ i x, ([.ok true, .ok true, .ok false, .ok false] : List (Out Bool))[i]? = some x →
        i < 4 → m.getBit i = x := by
      intro i x hx hi
      rw [← a5, List.getElem?_map, List.getElem?_range hi] at hx
      simpa using hx
    refine ⟨ds, m, _, h1, a1, a2, ⟨⟨1, a3, by omega⟩, hm⟩, a4, b 0 _ rfl (by omega), b 1 _ rfl (by omega), ?_, ?_,
      by decide +kernel, rfl, ?_, ?_⟩
    · unfold inMask; rw [b 2 _ rfl (by omega)]; simp
    · unfold inMask; rw [b 3 _ rfl (by omega)]; simp
    · simp only [testOf, Tree.test, Out.ok.injEq, Option.some.injEq]; decide +kernel
    · intro c hc v hv
      have h3 : ∀ c ∈ roundData.cols, ∀ v ∈ c.values, (match v with
          | .fin q => decide (FP.binary32.rnd q = .fin q) | _ => false) = true := by decide +kernel
      have := h3 c hc v hv
      cases v with
      | fin q => exact ⟨q, rfl, by simpa using this⟩
      | _ => cases this

/-! ## Non-vacuity of C31, C32, C35 -/

private def exCfg : Config := { Config.new with maxNbins := 3, exampleFraction := .fin (4 / 5) }
private def exData : Data :=
  ⟨3, [], 3, 5,
    [⟨[.fin 0, .fin 1, .fin 2, .fin 1, .fin 1], .fin 0, .fin 2, .loCardCat, 3⟩,
     ⟨[.fin 0, .fin 1, .fin 2, .fin 3, .fin 4], .fin 0, .fin 4, .hiCardCat, 5⟩,
     ⟨[.fin 0, .fin 1, .nan, .fin 7, .fin 9], .fin 0, .fin 9, .numerical, 0⟩,
     ⟨[.fin 0, .fin 1, .fin 0, .fin 1, .fin 1], .fin 0, .fin 1, .numerical, 0⟩]⟩

/-- A data set with a feature of each type, a missing value, and sampled examples: the rows 0, 1, 2 and 4
are active; the masks hold some of them and not all. -/
example : ∃ ds, Updated .exact exCfg exData ⟨fun i => i⟩ 1 ds ∧ ds.exampleSampling = true ∧
    Active ds [0, 1, 2, 4] ∧ ds.activeFeatures = .ok [0, 1, 2] ∧
    (∃ m, MaskOf ds 0 1 m ∧ ∀ i x, [false, true, false, true][i]? = some x → (inMask m i ↔ x = true)) ∧
    (∃ m, MaskOf ds 1 0 m ∧ ∀ i x, [true, false, false, true][i]? = some x → (inMask m i ↔ x = true)) ∧
    (∃ m, MaskOf ds 2 1 m ∧ ∀ i x, [true, true, true, false][i]? = some x → (inMask m i ↔ x = true)) := by
  obtain ⟨ds, h1, h2⟩ := exampleRun_check (F := .exact) (cfg := exCfg) (d := exData) (rng := ⟨fun i => i⟩)
    (gs := [([.fin (-1), .fin 1, .fin 1, .fin (-1), .fin 0], (.fin (-1), .fin 1))])
    (fun ds => ds.exampleSampling && decide (ds.activePairs = .ok ((List.range 4).zip [0, 1, 2, 4])) &&
      decide (ds.activeFeatures = .ok [0, 1, 2]) && hasMask ds 0 1 [false, true, false, true] &&
      hasMask ds 1 0 [true, false, false, true] && hasMask ds 2 1 [true, true, true, false])
    (by decide +kernel)
  simp only [Bool.and_eq_true, decide_eq_true_eq] at h2
  obtain ⟨⟨⟨⟨⟨a1, a2⟩, a3⟩, a4⟩, a5⟩, a6⟩ := h2
  exact ⟨ds, h1, a1, a2, a3, hasMask_spec a4, hasMask_spec a5, hasMask_spec a6⟩

/-- `hfull` and `hcat` hold of the first two features without sampling. -/
example : ∃ ds, Updated .exact { exCfg with exampleFraction := .fin 1 } exData ⟨fun i => i⟩ 1 ds ∧
    Active ds [0, 1, 2, 3, 4] ∧ exData.nexamples = 5 ∧ ds.activeFeatures = .ok [0, 1, 2] := by
  obtain ⟨ds, h1, h2⟩ := exampleRun_check (F := .exact) (cfg := { exCfg with exampleFraction := .fin 1 })
    (d := exData) (rng := ⟨fun i => i⟩)
    (gs := [([.fin (-1), .fin 1, .fin 1, .fin (-1), .fin 0], (.fin (-1), .fin 1))])
    (fun ds => decide (ds.activePairs = .ok ((List.range 5).zip [0, 1, 2, 3, 4])) &&
      decide (ds.activeFeatures = .ok [0, 1, 2]))
    (by decide +kernel)
  simp only [Bool.and_eq_true, decide_eq_true_eq] at h2
  exact ⟨ds, h1, h2.1, rfl, h2.2⟩

private def sepCfg : Config := { Config.new with maxNbins := 2 }
private def sepCol : Column :=
  ⟨[.fin 0, .fin (5 / 2), .nan, .fin (13841203 / 4194304), .fin 512], .fin 0, .fin 512, .numerical, 0⟩
private def sepData : Data := ⟨2, [], 1, 5, [sepCol, ⟨[.fin 0, .fin 1, .fin 0, .fin 1, .fin 1], .fin 0, .fin 1, .numerical, 0⟩]⟩

/-- A column in general position: values that are not multiples of a simple fraction, and a missing value. -/
example : Separated sepCol := by
  refine ⟨0, 512, 512, rfl, rfl, by norm_num, by norm_num, by norm_num, by norm_num, by norm_num, ?_⟩
  have key : ∀ (x : ℚ) (k : ℕ), (k : ℚ) + 1 / 1024 ≤ x ∨ k = 0 → x + 1 / 1024 ≤ k + 1 → ∀ i : ℕ, 1 ≤ i →
      (512 : ℚ) / 2 ^ 19 ≤ |x - (0 + i * ((512 - 0) / 512))| := by
    intro x k h1 h2 i hi
    rw [le_abs]
    rcases Nat.lt_or_ge k i with h | h
    · right
      have : (k : ℚ) + 1 ≤ i := by exact_mod_cast h
      norm_num; linarith
    · left
      have h' : (i : ℚ) ≤ k := by exact_mod_cast h
      rcases h1 with h1 | h1
      · norm_num; linarith
      · omega
  intro v hv hn
  simp only [sepCol, List.mem_cons, List.not_mem_nil, or_false] at hv
  rcases hv with rfl | rfl | rfl | rfl | rfl
  · exact ⟨_, rfl, by norm_num, by norm_num, fun i h1 _ => key _ 0 (by norm_num) (by norm_num) i h1⟩
  · exact ⟨_, rfl, by norm_num, by norm_num, fun i h1 _ => key _ 2 (by norm_num) (by norm_num) i h1⟩
  · exact absurd rfl hn
  · exact ⟨_, rfl, by norm_num, by norm_num, fun i h1 _ => key _ 3 (by norm_num) (by norm_num) i h1⟩
  · refine ⟨_, rfl, by norm_num, by norm_num, fun i h1 h2 => ?_⟩
    rw [le_abs]; left
    have : (i : ℚ) ≤ 511 := by exact_mod_cast h2
    norm_num; linarith

/-- C31, C35 in `f32` arithmetic: a mask of this column that leaves out active examples. -/
example : ∃ ds, Updated .binary32 sepCfg sepData ⟨fun i => i⟩ 1 ds ∧ Active ds [0, 1, 2, 3, 4] ∧
    ds.activeFeatures = .ok [0] ∧
    (∃ m, MaskOf ds 0 1 m ∧ ∀ i x, [true, true, true, false, false][i]? = some x → (inMask m i ↔ x = true)) := by
  obtain ⟨ds, h1, h2⟩ := exampleRun_check (F := .binary32) (cfg := sepCfg) (d := sepData) (rng := ⟨fun i => i⟩)
    (gs := [([.fin (-1), .fin 1, .fin 1, .fin (-1), .fin 0], (.fin (-1), .fin 1))])
    (fun ds => decide (ds.activePairs = .ok ((List.range 5).zip [0, 1, 2, 3, 4])) &&
      decide (ds.activeFeatures = .ok [0]) && hasMask ds 0 1 [true, true, true, false, false])
    (by decide +kernel)
  simp only [Bool.and_eq_true, decide_eq_true_eq] at h2
  exact ⟨ds, h1, h2.1.1, h2.1.2, hasMask_spec h2.2⟩

end BitBoost.Props
