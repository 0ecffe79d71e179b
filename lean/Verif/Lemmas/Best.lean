import Verif.Lemmas.Reached
import Mathlib.Algebra.BigOperators.Group.Finset.Basic
/-! Helper lemmas: the split that is chosen. -/
namespace BitBoost
namespace Learner
open Spec

/-! ### The order of the search -/

section
variable {F : FP} {cfg : Config} {ds : Dataset}

theorem histJobs_pairwise : ∀ {fs : List Nat} {js : List (Nat × Nat)}, histJobs ds fs = .ok js →
    js.Pairwise fun p q => Earlier fs p.1 p.2 q.1 q.2
  | [], js, h => by
      simp only [histJobs, Out.ok.injEq] at h
      subst h
      exact .nil
  | f :: fs, js, h => by
      unfold histJobs at h
      obtain ⟨n, _, h⟩ := Out.bind_eq_ok.1 h
      obtain ⟨js', e, h⟩ := Out.bind_eq_ok.1 h
      simp only [Out.pure_eq, Out.ok.injEq] at h
      subst h
      rw [List.pairwise_append]
      refine ⟨?_, ?_, ?_⟩
      · rw [List.pairwise_map]
        exact List.pairwise_lt_range.imp fun h => Or.inr ⟨rfl, h⟩
      · refine (histJobs_pairwise e).imp ?_
        rintro p q (⟨i, j, h1, h2, h3⟩ | h)
        · exact Or.inl ⟨i + 1, j + 1, by omega, h2, h3⟩
        · exact Or.inr h
      · intro p hp q hq
        obtain ⟨b, _, rfl⟩ := List.mem_map.1 hp
        obtain ⟨hq1, _⟩ := (mem_histJobs e q.1 q.2).1 hq
        obtain ⟨j, hj⟩ := List.getElem?_of_mem hq1
        exact Or.inl ⟨0, j + 1, by omega, rfl, hj⟩

theorem earlier_asymm {fs : List Nat} (hnd : fs.Nodup) {f b f' b' : Nat} (h : Earlier fs f' b' f b) :
    ¬ Earlier fs f b f' b' := by
  have inj : ∀ {i j x : Nat}, fs[i]? = some x → fs[j]? = some x → i = j := by
    intro i j x h1 h2
    obtain ⟨hi, e1⟩ := List.getElem?_eq_some_iff.1 h1
    obtain ⟨hj, e2⟩ := List.getElem?_eq_some_iff.1 h2
    exact (List.Nodup.getElem_inj_iff hnd).1 (e1.trans e2.symm)
  rintro (⟨i, j, h1, h2, h3⟩ | ⟨h1, h2⟩)
  · rcases h with ⟨i', j', g1, g2, g3⟩ | ⟨g1, g2⟩
    · have := inj h2 g3
      have := inj h3 g2
      omega
    · subst g1
      have := inj h2 h3
      omega
  · subst h1
    rcases h with ⟨i', j', g1, g2, g3⟩ | ⟨g1, g2⟩
    · have := inj g2 g3
      omega
    · omega

theorem Num.lt_irrefl (a : Num) : a.lt a = false := by
  cases a <;> simp [Num.lt]

theorem Num.lt_asymm {a b : Num} (h : a.lt b = true) : b.lt a = false := by
  cases hc : b.lt a with
  | false => rfl
  | true => rw [← Num.lt_irrefl a, Num.lt_trans' h hc]

/-- The chosen split, in terms of candidates. -/
theorem best_hist {pg : Num} {pc : Nat} {h : Hists} {s : Split} (e : findBestSplit F cfg ds pg pc h = .ok s) :
    (s.crit.isNone = true ∧ ∀ f b m v, Candidate ds f b m → histAt h f b = .ok v → cfg.minExamplesLeaf ≤ v.count →
      cfg.minExamplesLeaf ≤ subU32 pc v.count → cfg.minGain.lt (gain F cfg pg pc v) = false) ∨
    (s.crit.isNone = false ∧ ∃ fs v, ds.activeFeatures = .ok fs ∧ s.crit.featureId ∈ fs ∧
      histAt h s.crit.featureId s.splitId = .ok v ∧ cfg.minExamplesLeaf ≤ v.count ∧
      cfg.minExamplesLeaf ≤ subU32 pc v.count ∧ TestFor F ds s.crit.featureId s.splitId s.crit ∧
      (∃ n, ds.getNbins s.crit.featureId = .ok n ∧ s.splitId < n) ∧
      cfg.minGain.lt (gain F cfg pg pc v) = true ∧
      ∀ f b m v', Candidate ds f b m → histAt h f b = .ok v' → cfg.minExamplesLeaf ≤ v'.count →
        cfg.minExamplesLeaf ≤ subU32 pc v'.count → (gain F cfg pg pc v).lt (gain F cfg pg pc v') = false ∧
        (fs.Nodup → Earlier fs f b s.crit.featureId s.splitId → cfg.minGain.lt (gain F cfg pg pc v') = true →
          (gain F cfg pg pc v').lt (gain F cfg pg pc v) = true)) := by
  obtain ⟨fs, js, r, e1, e2, rfl, hr⟩ := findBestSplit_spec e
  have hmem : ∀ f b m, Candidate ds f b m → (f, b) ∈ js := by
    rintro f b m ⟨⟨fs', hfs, hf⟩, hb, _⟩
    rw [e1] at hfs
    cases hfs
    exact (mem_histJobs e2 f b).2 ⟨hf, hb⟩
  rcases hr with ⟨rfl, hall⟩ | ⟨pre, post, f, b, v, crit, hj, c1, c2, c3, c4, rfl, c6, c7, c8⟩
  · exact Or.inl ⟨rfl, fun f b m v hc => hall f b v (hmem f b m hc)⟩
  · obtain ⟨g1, rfl, c, g3, g4, g5⟩ := critOf_fields c4
    have hin : (crit.featureId, b) ∈ js := by rw [hj]; simp
    obtain ⟨k1, k2⟩ := (mem_histJobs e2 _ _).1 hin
    refine Or.inr ⟨g1, fs, v, e1, k1, c1, c2, c3, ⟨_, c, g4, g3, g5⟩, ?_, c6, ?_⟩
    · exact k2
    · intro f' b' m' v' hc hv h1 h2
      have hm' := hmem f' b' m' hc
      rw [hj] at hm'
      have key : (f', b') ∈ pre ∨ (f', b') = (crit.featureId, b) ∨ (f', b') ∈ post := by
        simpa using hm'
      refine ⟨?_, ?_⟩
      · rcases key with hk | hk | hk
        · by_cases hg : cfg.minGain.lt (gain F cfg pg pc v') = true
          · have := c7 f' b' v' hk hv h1 h2 hg
            exact Num.lt_asymm this
          · by_contra hcc
            have hcc : (gain F cfg pg pc v).lt (gain F cfg pg pc v') = true := by simpa using hcc
            exact hg (Num.lt_trans' c6 hcc)
        · cases hk
          rw [c1] at hv
          cases hv
          exact Num.lt_irrefl _
        · exact c8 f' b' v' hk hv h1 h2
      · intro hnd hear hg
        rcases key with hk | hk | hk
        · exact c7 f' b' v' hk hv h1 h2 hg
        · cases hk
          exact absurd hear (earlier_asymm hnd hear)
        · have hp := histJobs_pairwise e2
          rw [hj, List.pairwise_append] at hp
          have := (List.pairwise_cons.1 hp.2.1).1 _ hk
          exact absurd this (earlier_asymm hnd hear)

end

/-! ### Exact arithmetic -/

section
variable {cfg : Config} {ds : Dataset} {w : Nat} {rows codes : List Nat} {lo hi lambda mg : ℚ} {gradients : List Num}

theorem getLoss_exact (hlam : cfg.regLambda = .fin lambda) {g : ℚ} {n : Nat} (h : (n : ℚ) + lambda ≠ 0) :
    getLoss .exact cfg (.fin g) n = .fin (leafLoss lambda g n) := by
  have hr : ∀ q : ℚ, FP.exact.rnd q = .fin q := fun q => rfl
  have ho : ∀ k : Nat, FP.exact.ofNat k = .fin k := fun k => rfl
  unfold getLoss leafLoss
  rw [hlam, ho, FP.mul_fin, FP.add_fin, hr, hr, FP.div_fin _ h, hr, FP.mul_fin, hr]
  congr 1
  rw [div_mul_eq_div_div]
  ring

theorem gain_exact (hlam : cfg.regLambda = .fin lambda) (h0 : 0 ≤ lambda) {g gl : ℚ} {n nl : Nat} {v : HistVal}
    (hv : v.gradSum = .fin gl) (hc : v.count = nl) (h1 : 0 < nl) (h2 : nl < n) (h3 : n < 2 ^ 32) :
    gain .exact cfg (.fin g) n v = .fin (splitGain lambda g n gl nl (g - gl) (n - nl)) := by
  have pos : ∀ k : Nat, 0 < k → (k : ℚ) + lambda ≠ 0 := by
    intro k hk
    have : (0 : ℚ) < k := by exact_mod_cast hk
    positivity
  unfold gain splitGain
  rw [hv, hc, exact_sub, subU32_of_le (by omega) h3, getLoss_exact hlam (pos _ (by omega)),
    getLoss_exact hlam (pos _ h1), getLoss_exact hlam (pos _ (by omega)), exact_sub, exact_sub]

theorem gradientSum_eq {F : FP} (hcodes : ∀ i < rows.length, codes.getD i 0 =
      (BitSlice.discretise F w (gradients.getD (rows.getD i 0) (.fin 0)) (.fin lo) (.fin hi)).toNat)
    {ex : List Nat} (hnd : ex.Nodup) (hlt : ∀ i ∈ ex, i < rows.length) :
    dsum w lo hi codes ex = gradientSum F w lo hi gradients rows ex.toFinset := by
  unfold dsum gradientSum
  rw [List.sum_toFinset _ hnd]
  congr 1
  apply List.map_congr_left
  intro i hi'
  unfold decode discretised
  rw [hcodes i (hlt i hi')]

theorem filter_compl (ex : List Nat) (m : Blocks) :
    (ex.filter fun i => !bitAt m i).length = ex.length - (ex.filter (bitAt m)).length := by
  have := (List.filter_append_perm (bitAt m) ex).length_eq
  rw [List.length_append] at this
  omega

/-- The gains of the admissible candidates of a node are computed up to an error `ε`. -/
structure Close (F : FP) (cfg : Config) (ds : Dataset) (w : Nat) (lo hi lambda : ℚ) (gradients : List Num) (rows : List Nat)
    (ε : ℚ) (r : RefNode) : Prop where
  ex : ∀ f b m, Candidate ds f b m → ∃ v, histAt r.hists f b = .ok v
  gain : ∀ f b m v, Candidate ds f b m → histAt r.hists f b = .ok v → Admissible cfg r.examples.toFinset m →
    v.count = (r.examples.filter (bitAt m)).length →
    ∃ q, gain F cfg r.gradSum r.exampleCount v = .fin q ∧
      |q - maskGain F lambda w lo hi gradients rows r.examples.toFinset m| ≤ ε

/-- Numbers of examples inside and outside of a mask. -/
theorem card_split {ex : List Nat} {E : Finset Nat} (hnd : ex.Nodup) (hE : ex.toFinset = E) (m : Blocks) :
    (inside E m).card = (ex.filter (bitAt m)).length ∧
      (outside E m).card = ex.length - (ex.filter (bitAt m)).length := by
  rw [← inside_eq hE m, ← outside_eq hE m, List.toFinset_card_of_nodup (hnd.filter _),
    List.toFinset_card_of_nodup (hnd.filter _), filter_compl]
  exact ⟨rfl, rfl⟩

/-- In exact arithmetic with the right sums, the gains are exact. -/
theorem close_exact (hlam : cfg.regLambda = .fin lambda) (h0 : 0 ≤ lambda) (hmin : 1 ≤ cfg.minExamplesLeaf)
    (hcodes : ∀ i < rows.length, codes.getD i 0 =
      (BitSlice.discretise .exact w (gradients.getD (rows.getD i 0) (.fin 0)) (.fin lo) (.fin hi)).toNat)
    {r : RefNode} (hok : RefOk ds r) (hsum : SumInv ds w lo hi codes r) (hnd : r.examples.Nodup)
    (hlt : ∀ i ∈ r.examples, i < rows.length) :
    Close .exact cfg ds w lo hi lambda gradients rows 0 r := by
  refine ⟨fun f b m hc => ?_, fun f b m v hc hv ha hcnt => ?_⟩
  · obtain ⟨v, hv, _⟩ := hsum.hist f b m hc
    exact ⟨v, hv⟩
  · have cardE : r.examples.toFinset.card = r.examples.length := by rw [List.toFinset_card_of_nodup hnd]
    obtain ⟨v', hv', hs'⟩ := hsum.hist f b m hc
    rw [hv] at hv'
    cases hv'
    obtain ⟨c1, c2⟩ := card_split hnd rfl m
    obtain ⟨a1, a2⟩ := ha
    have hsm := hok.small
    refine ⟨maskGain .exact lambda w lo hi gradients rows r.examples.toFinset m, ?_, by simp⟩
    rw [hsum.total, hok.count, gain_exact hlam h0 hs' hcnt (by omega) (by omega) hsm]
    unfold maskGain
    have d1 := gradientSum_eq (lo := lo) (hi := hi) hcodes hnd hlt
    have d2 := gradientSum_eq (lo := lo) (hi := hi) hcodes (hnd.filter (bitAt m))
      (fun i hi' => hlt i (List.mem_of_mem_filter hi'))
    have d3 := gradientSum_eq (lo := lo) (hi := hi) hcodes (hnd.filter fun i => !bitAt m i)
      (fun i hi' => hlt i (List.mem_of_mem_filter hi'))
    rw [inside_eq rfl] at d2
    rw [outside_eq rfl] at d3
    rw [← d1, ← d2, ← d3, c1, c2, cardE, dsum_filter lo hi codes (bitAt m) r.examples]
    congr 2
    ring

/-- The split found at a node whose gains are computed up to an error. -/
theorem best_close {F : FP} {ε : ℚ} (hmg : cfg.minGain = .fin mg)
    {r : RefNode} (hok : RefOk ds r) (hcl : Close F cfg ds w lo hi lambda gradients rows ε r) {E : Finset Nat}
    (hnd : r.examples.Nodup) (hE : r.examples.toFinset = E) {s : Split}
    (e : findBestSplit F cfg ds r.gradSum r.exampleCount r.hists = .ok s) :
    (s.crit.isNone = true ∧ ∀ f b m, Candidate ds f b m → Admissible cfg E m →
      maskGain F lambda w lo hi gradients rows E m ≤ mg + ε) ∨
    (s.crit.isNone = false ∧ ∀ m, ds.getBitvec s.crit.featureId s.splitId = .ok m →
      Candidate ds s.crit.featureId s.splitId m ∧ TestFor F ds s.crit.featureId s.splitId s.crit ∧
      Admissible cfg E m ∧ mg - ε < maskGain F lambda w lo hi gradients rows E m ∧
      ∀ f b m', Candidate ds f b m' → Admissible cfg E m' →
        maskGain F lambda w lo hi gradients rows E m' ≤ maskGain F lambda w lo hi gradients rows E m + 2 * ε) := by
  have card := card_split hnd hE
  have count : ∀ f b m v, Candidate ds f b m → histAt r.hists f b = .ok v →
      v.count = (r.examples.filter (bitAt m)).length := by
    rintro f b m v ⟨⟨fs, hfs, hf⟩, hb, hm⟩ hv
    obtain ⟨js, hjs⟩ : ∃ js, histJobs ds fs = .ok js := by
      unfold findBestSplit at e
      obtain ⟨fs', e1, e⟩ := Out.bind_eq_ok.1 e
      obtain ⟨r', e2, _⟩ := Out.bind_eq_ok.1 e
      rw [hfs] at e1
      cases e1
      obtain ⟨js, e3, _⟩ := scanFeatures_ok e2
      exact ⟨js, e3⟩
    exact hok.hist fs js f b v m hfs hjs ((mem_histJobs hjs f b).2 ⟨hf, hb⟩) hv hm
  have hgain : ∀ f b m v, Candidate ds f b m → histAt r.hists f b = .ok v → Admissible cfg E m →
      ∃ q, gain F cfg r.gradSum r.exampleCount v = .fin q ∧
        |q - maskGain F lambda w lo hi gradients rows E m| ≤ ε := by
    intro f b m v hc hv ha
    subst hE
    exact hcl.gain f b m v hc hv ha (count f b m v hc hv)
  have adm : ∀ f b m v, Candidate ds f b m → histAt r.hists f b = .ok v →
      (Admissible cfg E m ↔ cfg.minExamplesLeaf ≤ v.count ∧ cfg.minExamplesLeaf ≤ subU32 r.exampleCount v.count) := by
    intro f b m v hc hv
    obtain ⟨c1, c2⟩ := card m
    have hle := List.length_filter_le (bitAt m) r.examples
    have hsm := hok.small
    unfold Admissible
    rw [count f b m v hc hv, hok.count, subU32_of_le hle hsm, c1, c2]
  rcases best_hist e with ⟨h1, h2⟩ | ⟨h1, fs, v, g1, g2, g3, g4, g5, g6, g7, g8, g9⟩
  · refine Or.inl ⟨h1, fun f b m hc ha => ?_⟩
    obtain ⟨v, hv⟩ := hcl.ex f b m hc
    obtain ⟨a1, a2⟩ := (adm f b m v hc hv).1 ha
    have := h2 f b m v hc hv a1 a2
    obtain ⟨q, hq, herr⟩ := hgain f b m v hc hv ha
    rw [hq, hmg] at this
    have hle : q ≤ mg := by simpa [Num.lt] using this
    have := abs_le.1 herr
    linarith
  · refine Or.inr ⟨h1, fun m hm => ?_⟩
    have hc : Candidate ds s.crit.featureId s.splitId m := ⟨⟨fs, g1, g2⟩, g7, hm⟩
    have ha : Admissible cfg E m := (adm _ _ m v hc g3).2 ⟨g4, g5⟩
    obtain ⟨q, hq, herr⟩ := hgain _ _ m v hc g3 ha
    have herr := abs_le.1 herr
    refine ⟨hc, g6, ha, ?_, ?_⟩
    · rw [hq, hmg] at g8
      have hle : mg < q := by simpa [Num.lt] using g8
      linarith
    · intro f b m' hc' ha'
      obtain ⟨v', hv'⟩ := hcl.ex f b m' hc'
      obtain ⟨a1, a2⟩ := (adm f b m' v' hc' hv').1 ha'
      have := (g9 f b m' v' hc' hv' a1 a2).1
      obtain ⟨q', hq', herr'⟩ := hgain _ _ m' v' hc' hv' ha'
      have herr' := abs_le.1 herr'
      rw [hq, hq'] at this
      have hle : q' ≤ q := by simpa [Num.lt] using this
      linarith

/-! ### Growing keeps the examples of the nodes -/

theorem node_child {t : Tree} {n x : Nat} (h : IsNode t x) (hx : x = 2 * n + 1 ∨ x = 2 * n + 2) :
    IsNode t n ∧ IsSplit t n := by
  cases h with
  | root => omega
  | @left k h1 h2 =>
    have : k = n := by omega
    subst this
    exact ⟨h1, h2⟩
  | @right k h1 h2 =>
    have : k = n := by omega
    subst this
    exact ⟨h1, h2⟩

theorem examplesAt_grow {t t' : Tree} {msk msk' : Nat → Blocks} {N x : Nat} (hx : IsNode t x)
    (hc : ∀ m, IsSplit t m → IsSplit t' m ∧ msk' m = msk m) : examplesAt t' msk' N x = examplesAt t msk N x := by
  unfold examplesAt
  ext i
  simp only [Finset.mem_filter, Finset.mem_range]
  refine and_congr_right fun _ => ⟨fun h => ?_, fun h => h.mono hc⟩
  induction h with
  | root => exact .root
  | left _ h1 h2 ih =>
    obtain ⟨k1, k2⟩ := node_child hx (Or.inl rfl)
    exact .left (ih k1) k2 (by rw [← (hc _ k2).2]; exact h2)
  | right _ h1 h2 ih =>
    obtain ⟨k1, k2⟩ := node_child hx (Or.inr rfl)
    exact .right (ih k1) k2 (by rw [← (hc _ k2).2]; exact h2)


/-! ### All decisions -/

variable {sc : List (List Nat)} {o : Objective} {targets : List Num}

theorem sumInv_all (hw : validWidth w) (hmin1 : cfg.minExamplesLeaf = 1) (hb : o.bounds = (.fin lo, .fin hi))
    (hr : RowsOk ds rows) (htgt : target ds.data = .ok targets) (hpos : 0 < ds.nactiveExamples)
    (hn2 : ds.nactiveExamples < 2 ^ 32) (hcl : codes.length = ds.nactiveExamples) {st : RefState}
    (h : RefReached .exact cfg ds sc w codes o st) : ∀ n ∈ st.stack, SumInv ds w lo hi codes n := by
  refine refReached_nodes hpos hr htgt (by omega) hn2 ?_ ?_ h
  · intro root hroot
    rw [hb] at hroot
    exact sumInv_root hw (by omega) hcl hroot
  · intro n s ch hn _ hs hne hch
    rw [hb] at hch
    exact sumInv_children hw (by omega) hn hs hne hch

theorem decided {F : FP} {ε : ℚ} (hmg : cfg.minGain = .fin mg) (hmin : 1 ≤ cfg.minExamplesLeaf)
    (hr : RowsOk ds rows) (htgt : target ds.data = .ok targets) (hpos : 0 < ds.nactiveExamples)
    (hn2 : ds.nactiveExamples < 2 ^ 32)
    (hclose : ∀ {st' : RefState}, RefReached F cfg ds sc w codes o st' → ∀ n ∈ st'.stack,
      n.nodeId < 2 ^ cfg.maxTreeDepth - 1 → RefOk ds n → n.examples.Nodup → (∀ i ∈ n.examples, i < rows.length) →
      Close F cfg ds w lo hi lambda gradients rows ε n)
    {st : RefState} (h : RefReached F cfg ds sc w codes o st) :
    ∃ done msk, TreeInv F cfg ds sc targets rows o st done msk ∧
      (∀ (x : Nat) (c : SplitCrit), st.tree.splitCrits[x]? = some c → c.splitType ≠ .noSplit →
        NearBestSplit F cfg ds mg ε (maskGain F lambda w lo hi gradients rows (examplesAt st.tree msk rows.length x))
          (examplesAt st.tree msk rows.length x) c (msk x)) ∧
      (∀ p ∈ done, p.1 < 2 ^ cfg.maxTreeDepth - 1 →
        NoSplitPays cfg ds (mg + ε) (maskGain F lambda w lo hi gradients rows (examplesAt st.tree msk rows.length p.1))
          (examplesAt st.tree msk rows.length p.1)) := by
  induction h with
  | @start t root h1 h2 =>
    refine ⟨[], _, treeInv_start hr hpos hn2 h1 h2 o, ?_, by simp⟩
    intro x c hc hne
    exact absurd ⟨c, hc, hne⟩ (new_notSplit h1 x)
  | @round t o1 n rest st' hreach he ih =>
    obtain ⟨done, msk, hinv, hsp, hdn⟩ := ih
    have hok : RefOk ds n := hinv.ok n (by simp)
    have hpm : (n.nodeId, n.examples) ∈ done ++ open' ⟨t, o1, n :: rest⟩ := by simp [open']
    obtain ⟨hnd, hE⟩ := parts_examples hinv.parts hpm
    simp only at hnd hE
    have hlt : ∀ i ∈ n.examples, i < rows.length := by
      intro i hi'
      rw [hr.len]
      exact hinv.parts.lt hpm hi'
    rw [← hr.len] at hE
    obtain ⟨k, hg⟩ := hinv.grown
    have hleaf : IsLeaf t n.nodeId := (hinv.parts.leaves n.nodeId).2 (List.mem_map.2 ⟨_, hpm, rfl⟩)
    obtain ⟨done', msk', hinv', s, hs, hstep⟩ := refExpand_step hr htgt (by omega) hinv he
    have hbest := best_close hmg hok (hclose hreach n (by simp) (hinv.inner n (by simp)) hok hnd hlt) hnd hE hs
    refine ⟨done', msk', hinv', ?_⟩
    rcases hstep with ⟨hn, hd, hm, ht⟩ | ⟨hn, m, hm, hd, hmk, hlen, ht⟩
    · subst hm
      have hsame : ∀ x, IsNode t x → examplesAt st'.tree msk' rows.length x = examplesAt t msk' rows.length x := by
        intro x hx
        refine examplesAt_grow hx ?_
        rintro y ⟨c, hc, hne⟩
        exact ⟨⟨c, by rw [ht]; exact hc, hne⟩, rfl⟩
      constructor
      · intro x c hc hne
        rw [ht] at hc
        rw [hsame x (hg.split_node x ⟨c, hc, hne⟩)]
        exact hsp x c hc hne
      · intro p hp hpd
        rw [hd, List.mem_append, List.mem_singleton] at hp
        rcases hp with hp | rfl
        · rw [hsame p.1 ((hinv.parts.leaves p.1).2 (List.mem_map.2 ⟨p, by simp [hp], rfl⟩)).1]
          exact hdn p hp hpd
        · rw [hsame _ hleaf.1]
          rcases hbest with ⟨_, h2⟩ | ⟨h2, _⟩
          · exact h2
          · rw [hn] at h2; cases h2
    · have hmono : ∀ y, IsSplit t y → IsSplit st'.tree y ∧ msk' y = msk y := by
        rintro y ⟨c, hc, hne⟩
        have hy : y ≠ n.nodeId := by
          rintro rfl
          exact hleaf.2 ⟨c, hc, hne⟩
        refine ⟨⟨c, ?_, hne⟩, by rw [hmk]; exact if_neg hy⟩
        rw [ht, List.getElem?_set_ne (Ne.symm hy)]
        exact hc
      constructor
      · intro x c hc hne
        by_cases hx : x = n.nodeId
        · subst hx
          rw [ht, List.getElem?_set_self hlen] at hc
          cases hc
          rw [examplesAt_grow hleaf.1 hmono]
          rcases hbest with ⟨h2, _⟩ | ⟨_, h2⟩
          · rw [hn] at h2; cases h2
          · have hmm : msk' n.nodeId = m := by rw [hmk]; simp
            rw [hmm]
            obtain ⟨q1, q2, q3, q4, q5⟩ := h2 m hm
            exact ⟨_, _, q1, q2, q3, q4, q5⟩
        · rw [ht, List.getElem?_set_ne (Ne.symm hx)] at hc
          rw [examplesAt_grow (hg.split_node x ⟨c, hc, hne⟩) hmono, (hmono x ⟨c, hc, hne⟩).2]
          exact hsp x c hc hne
      · intro p hp hpd
        have hpd' : p ∈ done := by
          rcases hd with hd | ⟨l, r, hd, hdeep, _⟩
          · rw [← hd]; exact hp
          · rw [hd] at hp
            simp only [List.mem_append, List.mem_singleton] at hp
            rcases hp with (hp | rfl) | rfl
            · exact hp
            · simp only at hpd; omega
            · simp only at hpd; omega
        rw [examplesAt_grow ((hinv.parts.leaves p.1).2 (List.mem_map.2 ⟨p, by simp [hpd'], rfl⟩)).1 hmono]
        exact hdn p hpd' hpd

end

section
variable {F : FP} {cfg : Config} {ds : Dataset} {w : Nat} {codes : List Nat} {sc : List (List Nat)} {o : Objective}

theorem refLoop_reached : ∀ (fuel : Nat) {st st' : RefState}, RefReached F cfg ds sc w codes o st →
    refLoop F cfg ds w codes fuel st = .ok (some st') → RefReached F cfg ds sc w codes o st' ∧ st'.stack = [] := by
  intro fuel
  induction fuel with
  | zero =>
    rintro ⟨t, o1, stack⟩ st' h e
    unfold refLoop at e
    cases stack with
    | nil =>
      simp only [Out.ok.injEq, Option.some.injEq] at e
      subst e
      exact ⟨h, rfl⟩
    | cons n rest => simp at e
  | succ fuel ih =>
    rintro ⟨t, o1, stack⟩ st' h e
    unfold refLoop at e
    cases stack with
    | nil =>
      simp only [Out.ok.injEq, Option.some.injEq] at e
      subst e
      exact ⟨h, rfl⟩
    | cons n rest =>
      simp only at e
      obtain ⟨st1, e1, e⟩ := Out.bind_eq_ok.1 e
      exact ih (.round h e1) e

theorem histJobs_ok_of_reach {st : RefState} (h : RefReached F cfg ds sc w codes o st) {fs : List Nat}
    (hfs : ds.activeFeatures = .ok fs) : ∃ js, histJobs ds fs = .ok js := by
  induction h with
  | start _ h2 =>
    unfold refRoot at h2
    obtain ⟨hs, e, _⟩ := Out.bind_eq_ok.1 h2
    unfold refHists at e
    obtain ⟨h0, _, e⟩ := Out.bind_eq_ok.1 e
    obtain ⟨fs', e1, e⟩ := Out.bind_eq_ok.1 e
    obtain ⟨js, e2, _⟩ := Out.bind_eq_ok.1 e
    rw [hfs] at e1
    cases e1
    exact ⟨js, e2⟩
  | round _ _ ih => exact ih

/-- A successful training ends in a reached state with an empty stack. -/
theorem train_reached (hn : ds.nactiveExamples ≤ 2 ^ 32 - 256) (hM : MasksOk ds) (hmin : 1 ≤ cfg.minExamplesLeaf)
    {fuel : Nat} {t : Tree} {o' : Objective} (ht : train F cfg ds sc o fuel = .ok (some (t, o'))) :
    ∃ w ps codes o1, width cfg = .ok w ∧ ds.activePairs = .ok ps ∧ gradCodes F w o.bounds o.gradients ps = .ok codes ∧
      0 < ds.nactiveExamples ∧ RefReached F cfg ds sc w codes o ⟨t, o1, []⟩ ∧ outOfBag F ds t o1 = .ok o' := by
  rw [train_eq hn hM hmin] at ht
  unfold refTrain at ht
  obtain ⟨w, ew, ht⟩ := Out.bind_eq_ok.1 ht
  obtain ⟨t0, et, ht⟩ := Out.bind_eq_ok.1 ht
  obtain ⟨_, ea, ht⟩ := Out.bind_eq_ok.1 ht
  obtain ⟨ps, ep, ht⟩ := Out.bind_eq_ok.1 ht
  obtain ⟨codes, ec, ht⟩ := Out.bind_eq_ok.1 ht
  obtain ⟨root, er, ht⟩ := Out.bind_eq_ok.1 ht
  obtain ⟨res, el, ht⟩ := Out.bind_eq_ok.1 ht
  have hpos : 0 < ds.nactiveExamples := by
    by_contra hc
    simp [Out.assert, hc] at ea
  cases res with
  | none => simp at ht
  | some st =>
    obtain ⟨o2, eo, ht⟩ := Out.bind_eq_ok.1 ht
    simp only [Out.pure_eq, Out.ok.injEq, Option.some.injEq, Prod.mk.injEq] at ht
    obtain ⟨rfl, rfl⟩ := ht
    obtain ⟨hr, hs⟩ := refLoop_reached fuel (.start et er) el
    refine ⟨w, ps, codes, st.obj, ew, ep, ec, hpos, ?_, eo⟩
    have : (⟨st.tree, st.obj, []⟩ : RefState) = st := by
      cases st; simp only at hs; rw [hs]
    rw [this]
    exact hr

end
end Learner
end BitBoost
