import Verif.Lemmas.SumError
import Verif.Lemmas.Thirds
/-!
# When the sums of the learner are exact in rounded arithmetic

When the bounds of the gradients are whole numbers and the distance between two neighbouring codes is a whole number too,
all sums are whole numbers, and whole numbers below `2 ^ 24` are added and subtracted without error.
-/
namespace BitBoost
namespace Learner
open Spec Dataset

variable {F : FP} {cfg : Config} {ds : Dataset} {w N : Nat} {lo hi : ℚ} {codes : List Nat}

/-- The value a sum of codes stands for. -/
def projected (w : Nat) (lo hi : ℚ) (s n : Nat) : ℚ := (s : ℚ) / ((2 ^ w - 1 : ℕ) : ℚ) * (hi - lo) + (n : ℚ) * lo

/-- Sums for at most `N` examples are computed without error. -/
structure Faithful (F : FP) (w : Nat) (lo hi : ℚ) (N : Nat) : Prop where
  proj : ∀ s n, n ≤ N → s ≤ n * (2 ^ w - 1) →
    BitSlice.linproj F w (F.ofNat s) (F.ofNat n) (.fin lo) (.fin hi) = .fin (projected w lo hi s n)
  sub : ∀ s n s' n', n ≤ N → s ≤ n * (2 ^ w - 1) → n' ≤ N → s' ≤ n' * (2 ^ w - 1) →
    F.sub (.fin (projected w lo hi s n)) (.fin (projected w lo hi s' n')) =
      .fin (projected w lo hi s n - projected w lo hi s' n')

theorem Faithful.dsub (h : Faithful F w lo hi N) (hc : ∀ i, codes.getD i 0 ≤ 2 ^ w - 1) {a b : List Nat}
    (ha : a.length ≤ N) (hb : b.length ≤ N) :
    F.sub (.fin (dsum w lo hi codes a)) (.fin (dsum w lo hi codes b)) =
      .fin (dsum w lo hi codes a - dsum w lo hi codes b) := by
  rw [dsum_eq, dsum_eq]
  exact h.sub _ _ _ _ ha (codes_sum_le hc a) hb (codes_sum_le hc b)

theorem refHist_faithful (h : Faithful F w lo hi N) (hmin : cfg.minExamplesLeaf ≤ 1)
    (hc : ∀ i, codes.getD i 0 ≤ 2 ^ w - 1) {ex : List Nat} (hex : ex.length ≤ N) (m : Blocks) :
    (refHist F cfg w (.fin lo, .fin hi) codes ex m).gradSum = .fin (dsum w lo hi codes (ex.filter (bitAt m))) := by
  unfold refHist
  simp only
  split
  · rename_i h
    have : ex.filter (bitAt m) = [] := List.length_eq_zero_iff.1 (by omega)
    rw [this]
    simp [dsum]
  · simp only
    rw [h.proj _ _ ((List.length_filter_le (bitAt m) ex).trans hex) (codes_sum_le hc _), dsum_eq]
    rfl

/-- A node with at most `N` examples whose sums are right. -/
structure SumFaith (ds : Dataset) (w : Nat) (lo hi : ℚ) (codes : List Nat) (N : Nat) (r : RefNode) : Prop where
  inv : SumInv ds w lo hi codes r
  len : r.examples.length ≤ N

theorem sumFaith_root (hf : Faithful F w lo hi N) (hmin : cfg.minExamplesLeaf ≤ 1)
    (hc : ∀ i, codes.getD i 0 ≤ 2 ^ w - 1) {root : RefNode} (hcl : codes.length = ds.nactiveExamples)
    (hN : ds.nactiveExamples ≤ N)
    (h : refRoot F cfg ds w (.fin lo, .fin hi) codes = .ok root) : SumFaith ds w lo hi codes N root := by
  unfold refRoot at h
  obtain ⟨hs, e, h⟩ := Out.bind_eq_ok.1 h
  simp only [Out.pure_eq, Out.ok.injEq] at h
  subst h
  refine ⟨⟨?_, fun f b m hcd => ⟨_, refHists_cand e hcd, refHist_faithful hf hmin hc (by simpa using hN) m⟩⟩,
    by simpa using hN⟩
  have : (List.range ds.nactiveExamples).map (fun i => codes.getD i 0) = codes := by
    rw [← hcl]
    apply List.ext_getElem?
    intro i
    rw [List.getElem?_map]
    by_cases hi : i < codes.length
    · rw [List.getElem?_range hi, Option.map_some, List.getD_eq_getElem?_getD, List.getElem?_eq_getElem hi]; rfl
    · rw [List.getElem?_eq_none (by rw [List.length_range]; omega), List.getElem?_eq_none (by omega)]; rfl
  have hle := codes_sum_le (w := w) hc (List.range ds.nactiveExamples)
  rw [this, List.length_range] at hle
  simp only
  rw [hf.proj _ _ hN hle, dsum_eq, this, List.length_range]
  rfl

theorem sumFaith_children (hf : Faithful F w lo hi N) (hmin : cfg.minExamplesLeaf ≤ 1)
    (hc : ∀ i, codes.getD i 0 ≤ 2 ^ w - 1) {n : RefNode} {s : Split}
    {ch : RefNode × RefNode} (hn : SumFaith ds w lo hi codes N n)
    (hs : findBestSplit F cfg ds n.gradSum n.exampleCount n.hists = .ok s) (hne : s.crit.isNone = false)
    (h : refChildren F cfg ds w (.fin lo, .fin hi) codes n s = .ok ch) :
    SumFaith ds w lo hi codes N ch.1 ∧ SumFaith ds w lo hi codes N ch.2 := by
  obtain ⟨hn, hlen⟩ := hn
  obtain ⟨l, m, hl, e1, e2, e3, ⟨_, x1, s1, h1⟩, _, x2, s2, h2⟩ := refChildren_parts h
  obtain ⟨fs, js, v, hfs, hjs, hmem, hv, _⟩ := findBestSplit_some hs hne
  have hcand : Candidate ds s.crit.featureId s.splitId m := by
    obtain ⟨a1, a2⟩ := (mem_histJobs hjs _ _).1 hmem
    exact ⟨⟨fs, hfs, a1⟩, a2, e2⟩
  obtain ⟨v', hv', hsum⟩ := hn.hist _ _ _ hcand
  rw [e1] at hv'
  cases hv'
  have hfl : ∀ p : Nat → Bool, (n.examples.filter p).length ≤ N := fun p => (List.length_filter_le _ _).trans hlen
  have hfl2 : ∀ p q : Nat → Bool, ((n.examples.filter p).filter q).length ≤ N :=
    fun p q => (List.length_filter_le _ _).trans (hfl p)
  constructor
  · refine ⟨⟨by rw [s1, x1, hsum], fun f b m' hcd => ⟨_, by rw [h1]; exact refHists_cand e3 hcd, ?_⟩⟩, by rw [x1]; exact hfl _⟩
    rw [x1]
    exact refHist_faithful hf hmin hc (hfl _) m'
  · refine ⟨⟨?_, ?_⟩, by rw [x2]; exact hfl _⟩
    · rw [s2, hn.total, hsum, hf.dsub hc hlen (hfl _), x2, dsum_filter lo hi codes (bitAt m) n.examples]
      congr 1
      ring
    · intro f b m' hcd
      obtain ⟨y, hy, hys⟩ := hn.hist f b m' hcd
      refine ⟨_, by rw [h2]; exact histAt_sub_ok hy (refHists_cand e3 hcd), ?_⟩
      unfold HistVal.sub
      simp only
      rw [hys, refHist_faithful hf hmin hc (hfl _), hf.dsub hc (hfl _) (hfl2 _ _), x2,
        dsum_filter lo hi codes (bitAt m) (n.examples.filter (bitAt m'))]
      congr 1
      have c1 : (n.examples.filter (bitAt m')).filter (bitAt m) = (n.examples.filter (bitAt m)).filter (bitAt m') := by
        rw [List.filter_filter, List.filter_filter]
        congr 1
        funext i
        exact Bool.and_comm _ _
      have c2 : (n.examples.filter (bitAt m')).filter (fun i => !bitAt m i) =
          (n.examples.filter fun i => !bitAt m i).filter (bitAt m') := by
        rw [List.filter_filter, List.filter_filter]
        congr 1
        funext i
        exact Bool.and_comm _ _
      rw [c1, c2]
      ring

theorem sumFaith_all {sc : List (List Nat)} {o : Objective} {targets : List Num} {rows : List Nat}
    (hf : Faithful F w lo hi N) (hmin1 : cfg.minExamplesLeaf = 1)
    (hc : ∀ i, codes.getD i 0 ≤ 2 ^ w - 1) (hb : o.bounds = (.fin lo, .fin hi))
    (hr : RowsOk ds rows) (htgt : target ds.data = .ok targets) (hpos : 0 < ds.nactiveExamples)
    (hn2 : ds.nactiveExamples < 2 ^ 32) (hcl : codes.length = ds.nactiveExamples) (hN : ds.nactiveExamples ≤ N)
    {st : RefState} (h : RefReached F cfg ds sc w codes o st) : ∀ n ∈ st.stack, SumInv ds w lo hi codes n := by
  intro n hn
  refine (refReached_nodes (P := SumFaith ds w lo hi codes N) hpos hr htgt (by omega) hn2 ?_ ?_ h n hn).inv
  · intro root hroot
    rw [hb] at hroot
    exact sumFaith_root hf (by omega) hc hcl hN hroot
  · intro n s ch hn _ hs hne hch
    rw [hb] at hch
    exact sumFaith_children hf (by omega) hc hn hs hne hch

/-! ### Where it holds -/

private theorem sub_int (F : FP) {a b : ℤ} (h : |a - b| ≤ 2 ^ 24) :
    F.sub (.fin a) (.fin b) = .fin ((a : ℚ) - b) := by
  rw [FP.sub_fin]
  have := F.int (a - b) h
  push_cast at this
  exact this

/-- One bit, gradients between -1 and 1, at most `2 ^ 22` examples: in every rounding mode. -/
theorem faithful_unit (F : FP) (hN : N ≤ 2 ^ 22) : Faithful F 1 (-1) 1 N where
  proj s n hn hs := by
    have hs' : s ≤ n := by omega
    have hsq : (s : ℚ) ≤ n := by exact_mod_cast hs'
    have h1 : F.ofNat (BitSlice.maxval 1) = .fin 1 := by
      rw [FP.ofNat_eq _ (by decide)]; norm_num [BitSlice.maxval]
    have h2 : F.sub (.fin 1) (.fin (-1)) = .fin 2 := by
      rw [FP.sub_fin]; have := F.int 2 (by norm_num); norm_num at this ⊢; exact this
    have h3 : F.rnd (s * 2) = .fin (s * 2) := by
      have := F.rnd_nat (n := s * 2) (by omega); push_cast at this; exact this
    have h4 : F.rnd ((n : ℚ) * -1) = .fin (n * -1) := by
      have := F.int (n * -1) (by rw [abs_le]; constructor <;> omega)
      push_cast at this; exact this
    have h5 : F.rnd ((s : ℚ) * 2 + n * -1) = .fin (s * 2 + n * -1) := by
      have := F.int (s * 2 + n * -1) (by rw [abs_le]; constructor <;> omega)
      push_cast at this; exact this
    unfold BitSlice.linproj projected
    rw [F.ofNat_eq (n := s) (by omega), F.ofNat_eq (n := n) (by omega), h1, FP.div_fin _ one_ne_zero, div_one,
      F.rnd_nat (by omega), h2, FP.mul_fin, h3, FP.mul_fin, h4, FP.add_fin, h5]
    congr 1
    norm_num
  sub s n s' n' hn hs hn' hs' := by
    have e : ∀ s n : ℕ, projected 1 (-1) 1 s n = ((2 * s - n : ℤ) : ℚ) := by
      intro s n; unfold projected; push_cast; norm_num; ring
    rw [e, e]
    exact sub_int F (by rw [abs_le]; constructor <;> omega)

/-- Two bits, gradients between -1 and 2, at most `2 ^ 21` examples, single precision. -/
theorem faithful_hinge (hN : N ≤ 2 ^ 21) : Faithful .binary32 2 (-1) 2 N where
  proj s n hn hs := by
    have hs' : s ≤ 3 * n := by omega
    have h1 : FP.binary32.ofNat (BitSlice.maxval 2) = .fin 3 := by
      rw [FP.ofNat_eq _ (by decide)]; norm_num [BitSlice.maxval]
    have h2 : FP.binary32.sub (.fin 2) (.fin (-1)) = .fin 3 := by
      rw [FP.sub_fin]; have := FP.binary32.int 3 (by norm_num); norm_num at this ⊢; exact this
    obtain ⟨r, hr1, hr2⟩ := FP.thirds32 (s := s) (by omega)
    have h4 : FP.binary32.rnd ((n : ℚ) * -1) = .fin (n * -1) := by
      have := FP.binary32.int (n * -1) (by rw [abs_le]; constructor <;> omega)
      push_cast at this; exact this
    have h5 : FP.binary32.rnd ((s : ℚ) + n * -1) = .fin (s + n * -1) := by
      have := FP.binary32.int (s + n * -1) (by rw [abs_le]; constructor <;> omega)
      push_cast at this; exact this
    unfold BitSlice.linproj projected
    rw [FP.ofNat_eq _ (n := s) (by omega), FP.ofNat_eq _ (n := n) (by omega), h1, FP.div_fin _ (by norm_num), hr1, h2,
      FP.mul_fin, hr2, FP.mul_fin, h4, FP.add_fin, h5]
    congr 1
    norm_num
  sub s n s' n' hn hs hn' hs' := by
    have e : ∀ s n : ℕ, projected 2 (-1) 2 s n = ((s - n : ℤ) : ℚ) := by
      intro s n; unfold projected; push_cast; norm_num; ring
    rw [e, e]
    exact sub_int _ (by rw [abs_le]; constructor <;> omega)

end Learner
end BitBoost
