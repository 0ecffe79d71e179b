import Verif.Lemmas.LearnerResult
import Verif.Props.Masks
/-! Helper lemmas: when training and prediction agree on the splits. -/
namespace BitBoost
namespace Learner
open Spec Dataset

section
variable {F : FP} {cfg : Config} {d : Data} {rng : Rng} {k : Nat} {ds : Dataset} {rows : List Nat}

/-- The rows of active examples are rows of the data. -/
theorem row_lt (h : Updated F cfg d rng k ds) (hr : Active ds rows)
    (hfull : ds.exampleSampling = false → rows.length = d.nexamples) {r : Nat} (hm : r ∈ rows) : r < d.nexamples := by
  by_cases hs : ds.exampleSampling = true
  · exact (Props.C30_examples F cfg d rng k ds h hs rows hr).2.2.1 r hm
  · have hl := hfull (by simpa using hs)
    have hr' := hr
    unfold Active activePairs at hr'
    rw [if_neg hs] at hr'
    simp only [Out.ok.injEq] at hr'
    have h1 := congrArg (List.map Prod.snd) hr'
    rw [List.map_snd_zip (by simp)] at h1
    rw [← h1] at hm
    have hl' := congrArg List.length hr'
    simp at hl'
    simp only [List.map_map, List.mem_map, List.mem_range, Function.comp] at hm
    obtain ⟨a, ha, rfl⟩ := hm
    omega

theorem cell_some (hd : Rectangular d) {f r : Nat} (hf : f ≤ d.nfeatures) (hr : r < d.nexamples) :
    ∃ v, cell d f r = some v := by
  have h1 : f < d.cols.length := by rw [hd.1]; omega
  have h2 := hd.2 _ (List.getElem_mem h1)
  exact ⟨(d.cols[f].values)[r]'(by omega), by
    simp [cell, List.getElem?_eq_getElem h1, List.getElem?_eq_getElem (show r < d.cols[f].values.length by omega)]⟩

theorem cand_small (h : Updated F cfg d rng k ds) (hcard : ∀ c ∈ d.cols, c.card ≤ 2 ^ 24) (hnb : d.maxNbins ≤ 2 ^ 24)
    {f b : Nat} {m : Blocks} {c : Column} (hc : d.cols[f]? = some c) (hcand : Candidate ds f b m) : b ≤ 2 ^ 24 := by
  obtain ⟨⟨fs, hfs, hf⟩, ⟨n, hn, hb⟩, hm⟩ := hcand
  have hi := h.inv
  unfold activeFeatures at hfs
  rw [prefix_ok] at hfs
  obtain ⟨_, rfl⟩ := hfs
  obtain ⟨c', bvs, h1, h2, h3⟩ := hi.feat f (List.mem_of_mem_take hf)
  rw [hc] at h1
  cases h1
  obtain ⟨bvs', h4, h5⟩ := getBitvec_ok.1 hm
  rw [h2] at h4
  cases h4
  have h6 := (List.getElem?_eq_some_iff.1 h5).1
  have h7 : Data.colMaxNbins d.maxNbins c ≤ 2 ^ 24 := by
    have := hcard c (List.mem_of_getElem? hc)
    unfold Data.colMaxNbins
    cases c.ftype
    · simp only; split
      · omega
      · split <;> omega
    · exact hnb
    · exact hnb
  omega

/-- Training and prediction agree if they agree on the numerical features. -/
theorem consistent_of (h : Updated F cfg d rng k ds) (hr : Active ds rows)
    (hfull : ds.exampleSampling = false → rows.length = d.nexamples) (hd : Rectangular d)
    (hcard : ∀ c ∈ d.cols, c.card ≤ 2 ^ 24) (hnb : d.maxNbins ≤ 2 ^ 24)
    (hcat : ∀ f c, f < d.nfeatures → d.cols[f]? = some c → c.ftype ≠ .numerical → ∀ v ∈ c.values, IsCategory v)
    (hnum : ∀ (f b : Nat) (m : Blocks) (c : Column), Candidate ds f b m → d.cols[f]? = some c → c.ftype = .numerical →
      (∃ (i r : Nat), rows[i]? = some r ∧ r < c.values.length ∧ ¬ inMask m i) → ∃ s, ds.getSplitValue F f b = .ok s ∧
        ∀ (i r : Nat) (v : Num), rows[i]? = some r → cell d f r = some v →
          (inMask m i ↔ Tree.test ds.supercats (testOf c.ftype f s) v = .ok (some true))) :
    Consistent F ds rows := by
  rintro c m ⟨f, b, hcand, ⟨s, col, hs, hcol, rfl⟩, hin, hout⟩ i r hir
  have hi := h.inv
  rw [hi.data] at hcol ⊢
  have hrm : r ∈ rows := List.mem_of_getElem? hir
  have hrl := row_lt h hr hfull hrm
  obtain ⟨⟨fs, hfs, hf⟩, hmask⟩ := id hcand
  have hfu : Useful d f := by
    have hfs' := hfs
    unfold activeFeatures at hfs'
    rw [prefix_ok] at hfs'
    obtain ⟨_, rfl⟩ := hfs'
    exact (hi.useful f).1 (List.mem_of_mem_take hf)
  obtain ⟨v, hv⟩ := cell_some hd (f := f) (by have := hfu.1; omega) hrl
  refine ⟨v, hv, ?_⟩
  have key : inMask m i ↔ Tree.test ds.supercats (testOf col.ftype f s) v = .ok (some true) := by
    by_cases hn : col.ftype = .numerical
    · obtain ⟨i', hi', hnot⟩ := hout
      have hlen : rows.length = ds.nactiveExamples := (rowsOk h hr).len
      have hir' : rows[i']? = some (rowAt rows i') := rowAt_eq (by omega)
      have hvl : col.values.length = d.nexamples := hd.2 _ (List.mem_of_getElem? hcol)
      obtain ⟨s', hs', hall⟩ := hnum f b m col hcand hcol hn
        ⟨i', _, hir', by rw [hvl]; exact row_lt h hr hfull (List.mem_of_getElem? hir'), hnot⟩
      rw [hs] at hs'
      cases hs'
      exact hall i r v hir hv
    · obtain ⟨s', hs', hall⟩ := Props.C35_categorical F cfg d rng k ds h rows hr hfull fs hfs f b hf m hmask col hcol hn
        (hcat f col hfu.1 hcol hn) (cand_small h hcard hnb hcol hcand)
      rw [hs] at hs'
      cases hs'
      exact hall i r v hir hv
  have htot : ∃ l, Tree.test ds.supercats (testOf col.ftype f s) v = .ok (some l) := by
    cases ht : col.ftype with
    | loCardCat => simp only [testOf, Tree.test]; exact ⟨_, rfl⟩
    | numerical => simp only [testOf, Tree.test]; exact ⟨_, rfl⟩
    | hiCardCat =>
      obtain ⟨_, sc, hsc, _⟩ := Props.C31_hicard F cfg d rng k ds h rows hr hfull fs hfs f b hf m hmask col hcol ht
      simp only [testOf, Tree.test, hsc]
      exact ⟨_, rfl⟩
  obtain ⟨l, hl⟩ := htot
  refine ⟨l, hl, ?_⟩
  rw [key]
  show l = true ↔ Tree.test ds.supercats (testOf col.ftype f s) v = .ok (some true)
  rw [hl]
  simp

end
end Learner
end BitBoost
