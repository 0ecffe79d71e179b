import Verif.Lemmas.DatasetInv
/-! Reading masks of reachable data sets. -/
namespace BitBoost
namespace Dataset
open Spec

theorem inMask_iff {m : Blocks} {i : Nat} : inMask m i ↔ Blocks.bit m i = true := by
  unfold inMask
  rw [Blocks.getBit_eq]
  constructor
  · intro h
    split at h
    · simpa using h
    · cases h
  · intro h
    rw [if_pos, h]
    by_contra hc
    unfold Blocks.bit at h
    rw [List.getD_eq_getElem?_getD, List.getElem?_eq_none (by omega)] at h
    simp [BitBlock.zeros] at h

theorem active_rows {F : FP} {cfg : Config} {d : Data} {k : Nat} {ds : Dataset} (hi : Inv F cfg d k ds)
    {rows : List Nat} (hr : Active ds rows) (hfull : ds.exampleSampling = false → rows.length = d.nexamples) :
    rows = rowsOf ds := by
  have zinj : ∀ {a b : List Nat}, (List.range a.length).zip a = (List.range b.length).zip b → a = b := by
    intro a b h
    have := congrArg (List.map Prod.snd) h
    rwa [List.map_snd_zip (by simp), List.map_snd_zip (by simp)] at this
  unfold Active activePairs at hr
  unfold rowsOf
  by_cases hs : ds.exampleSampling = true
  · rw [if_pos hs] at hr
    have hne : ds.indexBuffer ≠ [] := by
      intro h0; simp [exampleSampling, h0] at hs
    rw [if_neg hne]
    obtain ⟨a, e1, hr⟩ := Out.bind_eq_ok.1 hr
    unfold activeExamples at e1
    rw [prefix_ok] at e1
    simp only [Out.pure_eq, Out.ok.injEq] at hr
    rw [← e1.2]
    exact (zinj hr).symm
  · rw [if_neg hs] at hr
    have h0 : ds.indexBuffer = [] := by
      simpa [exampleSampling] using hs
    rw [if_pos h0, hi.data]
    have hl := hfull (by simpa using hs)
    simp only [Out.ok.injEq] at hr
    have hlen := congrArg List.length hr
    simp at hlen
    have := congrArg (List.map Prod.snd) hr
    rw [List.map_snd_zip (by simp)] at this
    rw [← this, ← hl, hlen]
    apply List.ext_getElem <;> simp

/-- The situation of a mask of an active feature of a reachable data set. -/
theorem mask_featOk {F : FP} {cfg : Config} {d : Data} {k : Nat} {ds : Dataset} (hi : Inv F cfg d k ds)
    {rows : List Nat} (hr : Active ds rows) (hfull : ds.exampleSampling = false → rows.length = d.nexamples)
    {fs : List Nat} (hfs : ds.activeFeatures = .ok fs) {f b : Nat} (hf : f ∈ fs) {m : Blocks}
    (hm : MaskOf ds f b m) : FeatOk F cfg rows ds f := by
  unfold activeFeatures at hfs
  rw [prefix_ok] at hfs
  obtain ⟨_, rfl⟩ := hfs
  rw [active_rows hi hr hfull]
  rcases hi.feats f hf with h0 | h
  · obtain ⟨⟨n, h1, h2⟩, _⟩ := hm
    unfold getNbins at h1
    rw [at?_ok, h0] at h1
    simp only [Option.some.injEq] at h1
    omega
  · exact h

theorem getBitvec_ok {ds : Dataset} {f b : Nat} {m : Blocks} :
    ds.getBitvec f b = .ok m ↔ ∃ bvs : List Blocks, ds.bitvecs[f]? = some bvs ∧ bvs[b]? = some m := by
  unfold getBitvec
  constructor
  · intro h
    obtain ⟨bvs, e1, h⟩ := Out.bind_eq_ok.1 h
    rw [at?_ok] at e1 h
    exact ⟨bvs, e1, h⟩
  · rintro ⟨bvs, e1, e2⟩
    rw [(at?_ok (l := ds.bitvecs) (i := f)).2 e1, Out.ok_bind, at?_ok]
    exact e2

/-- Low-cardinality masks. -/
theorem mask_locard {F : FP} {cfg : Config} {rows : List Nat} {ds : Dataset} {f b : Nat} {m : Blocks} {c : Column}
    (h : FeatOk F cfg rows ds f) (hm : MaskOf ds f b m) (hc : ds.data.cols[f]? = some c)
    (ht : c.ftype = .loCardCat) (i : Nat) :
    inMask m i ↔ ∃ j v, rows[i]? = some j ∧ c.values[j]? = some v ∧ intoCat v = b := by
  obtain ⟨c', bvs, nb, h1, h2, h3, h4, h5⟩ := h
  rw [hc] at h1; cases h1
  rw [ht] at h5
  obtain ⟨⟨n, g1, g2⟩, g3⟩ := hm
  unfold getNbins at g1
  rw [at?_ok, h3] at g1
  cases g1
  obtain ⟨bvs', e1, e2⟩ := getBitvec_ok.1 g3
  rw [h2] at e1; cases e1
  obtain ⟨m', e3, e4⟩ := h5.2 b g2
  rw [e2] at e3; cases e3
  rw [inMask_iff]; exact e4 i

/-- High-cardinality masks. -/
theorem mask_hicard {F : FP} {cfg : Config} {rows : List Nat} {ds : Dataset} {f b : Nat} {m : Blocks} {c : Column}
    (h : FeatOk F cfg rows ds f) (hm : MaskOf ds f b m) (hc : ds.data.cols[f]? = some c)
    (ht : c.ftype = .hiCardCat) :
    b < cfg.maxNbins ∧ ∃ sc : List Nat, ds.supercats[f]? = some sc ∧ sc.length = c.card ∧
      (∀ (i j : Nat) (v : Num), rows[i]? = some j → c.values[j]? = some v → intoCat v < c.card) ∧
      ∀ i, inMask m i ↔ ∃ (j : Nat) (v : Num) (s : Nat), rows[i]? = some j ∧ c.values[j]? = some v ∧
        sc[intoCat v]? = some s ∧ s ≤ b := by
  obtain ⟨c', bvs, nb, h1, h2, h3, h4, h5⟩ := h
  rw [hc] at h1; cases h1
  rw [ht] at h5
  obtain ⟨⟨n, g1, g2⟩, g3⟩ := hm
  unfold getNbins at g1
  rw [at?_ok, h3] at g1
  cases g1
  obtain ⟨bvs', e1, e2⟩ := getBitvec_ok.1 g3
  rw [h2] at e1; cases e1
  obtain ⟨a0, a1, sc, a2, a3, a4, a5, a6⟩ := h5
  obtain ⟨m', e3, e4⟩ := a6 b g2
  rw [e2] at e3; cases e3
  exact ⟨by omega, sc, a2, a3, a5, fun i => by rw [inMask_iff]; exact e4 i⟩

/-- Numerical masks. -/
theorem mask_num {F : FP} {cfg : Config} {rows : List Nat} {ds : Dataset} {f b : Nat} {m : Blocks} {c : Column}
    (h : FeatOk F cfg rows ds f) (hm : MaskOf ds f b m) (hc : ds.data.cols[f]? = some c)
    (ht : c.ftype = .numerical) :
    ∃ (splits : List Num) (qs : List Nat), ds.splitCandidates[f]? = some splits ∧ b < splits.length ∧
      c.lo.isFinite = true ∧ c.hi.isFinite = true ∧ c.lo.lt c.hi = true ∧
      splits = qs.map (fun q => Binner.representative F (numBinner F c) (q + 1)) ∧
      qs.Pairwise (· < ·) ∧ (∀ q ∈ qs, q < quantileNbins) ∧
      ∀ i, inMask m i ↔ ∃ (j : Nat) (v : Num), rows[i]? = some j ∧ c.values[j]? = some v ∧
        numCat F c splits v ≤ b := by
  obtain ⟨c', bvs, nb, h1, h2, h3, h4, h5⟩ := h
  rw [hc] at h1; cases h1
  rw [ht] at h5
  obtain ⟨⟨n, g1, g2⟩, g3⟩ := hm
  unfold getNbins at g1
  rw [at?_ok, h3] at g1
  cases g1
  obtain ⟨bvs', e1, e2⟩ := getBitvec_ok.1 g3
  rw [h2] at e1; cases e1
  obtain ⟨a0, a1, splits, qs, a2, a3, a4, a5, a6, a7, a8, a9, a10⟩ := h5
  obtain ⟨m', e3, e4⟩ := a10 b g2
  rw [e2] at e3; cases e3
  exact ⟨splits, qs, a2, by omega, a4, a5, a6, a7, a8, a9, fun i => by rw [inMask_iff]; exact e4 i⟩

theorem countBelow_mono {x y : Num} (h : x.le y = true) (hy : y ≠ .nan) (l : List Num) :
    countBelow x l ≤ countBelow y l := by
  induction l with
  | nil => simp [countBelow]
  | cons s ss ih =>
    simp only [countBelow]
    by_cases hs : s.lt x = true
    · have : s.lt y = true := by
        revert hs h; cases s <;> cases x <;> cases y <;> simp [Num.lt, Num.le]
        intro h1 h2; exact lt_of_lt_of_le h2 h1
      rw [if_pos hs, if_pos this]; omega
    · rw [if_neg hs]; omega

/-- For a list sorted by `≤`, being above `b` is being above all up to `b`. -/
theorem countBelow_sorted {x : Num} : ∀ (l : List ℚ) (b : Nat) (s : ℚ), l.Pairwise (· ≤ ·) → l[b]? = some s →
    (countBelow x (l.map .fin) ≤ b ↔ (Num.fin s).lt x = false) := by
  intro l
  induction l with
  | nil => intro b s _ h; simp at h
  | cons a l ih =>
    intro b s hs hb
    rw [List.pairwise_cons] at hs
    simp only [List.map_cons, countBelow]
    cases b with
    | zero =>
      simp only [List.getElem?_cons_zero, Option.some.injEq] at hb
      subst hb
      by_cases h : (Num.fin a).lt x = true
      · simp [h]
      · simp [h]
    | succ b =>
      simp only [List.getElem?_cons_succ] at hb
      by_cases h : (Num.fin a).lt x = true
      · rw [if_pos h, Nat.add_le_add_iff_right]
        exact ih b s hs.2 hb
      · rw [if_neg h]
        simp only [Nat.zero_le, true_iff]
        have has := hs.1 s (List.mem_of_getElem? hb)
        revert h; cases x <;> simp [Num.lt]
        intro h; linarith

/-- Check the first bits of a mask (for examples). -/
def hasMask (ds : Dataset) (f b : Nat) (bits : List Bool) : Bool :=
  (match ds.getNbins f with | .ok n => decide (b < n) | _ => false) &&
  match ds.getBitvec f b with
  | .ok m => decide ((List.range bits.length).map m.getBit = bits.map .ok)
  | _ => false

theorem hasMask_spec {ds : Dataset} {f b : Nat} {bits : List Bool} (h : hasMask ds f b bits = true) :
    ∃ m, MaskOf ds f b m ∧ ∀ i x, bits[i]? = some x → (inMask m i ↔ x = true) := by
  unfold hasMask at h
  rw [Bool.and_eq_true] at h
  obtain ⟨h1, h2⟩ := h
  split at h1
  · rename_i n hn
    split at h2
    · rename_i m hm
      simp only [decide_eq_true_eq] at h1 h2
      refine ⟨m, ⟨⟨n, hn, h1⟩, hm⟩, fun i x hx => ?_⟩
      have hi := (List.getElem?_eq_some_iff.1 hx).1
      have := congrArg (·[i]?) h2
      simp only [List.getElem?_map, List.getElem?_range hi, hx, Option.map_some, Option.some.injEq] at this
      unfold inMask
      rw [this]; simp
    · cases h2
  · cases h1

/-! ## Numerical features -/

theorem numBinner_delta (F : FP) {c : Column} {l h : ℚ} (hl : c.lo = .fin l) (hh : c.hi = .fin h) (hlt : l < h) :
    (numBinner F c).delta = .pinf ∨ ∃ q, (numBinner F c).delta = .fin q ∧ 0 ≤ q := by
  unfold numBinner
  simp only [hl, hh, F.sub_fin]
  have h5 : F.ofNat quantileNbins = .fin 512 := by
    rw [F.ofNat_eq (by unfold quantileNbins; norm_num)]; unfold quantileNbins; norm_num
  rw [h5]
  rcases Binner.rnd_cases F (q := h - l) (by linarith) with hd | ⟨d, hd, hd0⟩ <;> rw [hd]
  · left; simp [FP.div]
  · rw [F.div_fin (by norm_num)]
    exact Binner.rnd_cases F (by positivity)

theorem numBinner_len (F : FP) (c : Column) : (numBinner F c).bins.length = 512 := by
  unfold numBinner quantileNbins
  rw [List.length_replicate]

/-- The upper ends of the bins are increasing, whatever the rounding. -/
theorem rep_mono (F : FP) {c : Column} {l h : ℚ} (hl : c.lo = .fin l) (hh : c.hi = .fin h) (hlt : l < h)
    {a b : Nat} (hab : a ≤ b) :
    (Binner.representative F (numBinner F c) (a + 1)).le (Binner.representative F (numBinner F c) (b + 1)) = true := by
  unfold Binner.representative
  rw [numBinner_len]
  have hmin : (numBinner F c).minValue = .fin l := hl
  rw [hmin]
  have key : ∀ n : Nat, F.ofNat (Min.min (n + 1) (512 - 1)) = .fin ((Min.min (n + 1) 511 : ℕ) : ℚ) := by
    intro n
    exact F.ofNat_eq (by omega)
  rw [key, key]
  have hmn : ((Min.min (a + 1) 511 : ℕ) : ℚ) ≤ ((Min.min (b + 1) 511 : ℕ) : ℚ) := by
    exact_mod_cast (by omega : Min.min (a + 1) 511 ≤ Min.min (b + 1) 511)
  have hp : ∀ n : Nat, (0 : ℚ) < ((Min.min (n + 1) 511 : ℕ) : ℚ) := by
    intro n; exact_mod_cast (by omega : 0 < Min.min (n + 1) 511)
  have ha := hp a
  have hb := hp b
  generalize ((Min.min (a + 1) 511 : ℕ) : ℚ) = x at *
  generalize ((Min.min (b + 1) 511 : ℕ) : ℚ) = y at *
  rcases numBinner_delta F hl hh hlt with hd | ⟨q, hd, hq⟩ <;> rw [hd]
  · have : ∀ z : ℚ, 0 < z → F.mul (.fin z) .pinf = .pinf := by
      intro z hz; simp [FP.mul, FP.sgn, hz, FP.infOf]
    rw [this x ha, this y hb]
    simp [FP.add, Num.le]
  · rw [FP.mul_fin, FP.mul_fin]
    have hm := F.mono (x * q) (y * q) (by nlinarith)
    rcases Binner.rnd_cases F (q := x * q) (by positivity) with h1 | ⟨r1, h1, _⟩ <;>
      rcases Binner.rnd_cases F (q := y * q) (by positivity) with h2 | ⟨r2, h2, _⟩ <;> rw [h1, h2] at hm ⊢
    · simp [FP.add, Num.le]
    · simp [Num.le] at hm
    · rw [show F.add (.fin l) .pinf = .pinf from rfl]
      exact Num.le_pinf (F.rnd_ne_nan _)
    · rw [FP.add_fin, FP.add_fin]
      apply F.mono
      have : r1 ≤ r2 := by simpa using hm
      linarith

theorem getBin_le (F : FP) {c : Column} {l h : ℚ} (hl : c.lo = .fin l) (hh : c.hi = .fin h) (hlt : l < h)
    {v w : Num} (hvw : v.le w = true) :
    Binner.getBin F (numBinner F c) v ≤ Binner.getBin F (numBinner F c) w := by
  refine Binner.getBin_mono F _ (l := l) hl ?_ hvw
  rcases numBinner_delta F hl hh hlt with hd | hd
  · exact Or.inr (Or.inl hd)
  · exact Or.inr (Or.inr hd)

theorem numCat_mono (F : FP) {c : Column} {l h : ℚ} (hl : c.lo = .fin l) (hh : c.hi = .fin h) (hlt : l < h)
    (splits : List Num) {v w : Num} (hvw : v.le w = true) : numCat F c splits v ≤ numCat F c splits w := by
  unfold numCat
  have h1 := rep_mono F hl hh hlt (getBin_le F hl hh hlt hvw)
  exact countBelow_mono h1 (Num.ne_nan_of_le_right h1) _

/-- An example without a value is to the left of all candidates. -/
theorem numCat_nan (F : FP) {c : Column} {l h : ℚ} (hl : c.lo = .fin l) (hh : c.hi = .fin h) (hlt : l < h)
    (qs : List Nat) :
    numCat F c (qs.map fun q => Binner.representative F (numBinner F c) (q + 1)) .nan = 0 := by
  unfold numCat
  have hb : Binner.getBin F (numBinner F c) .nan = 0 := by
    rw [Binner.getBin_eq]
    have : F.sub .nan (numBinner F c).minValue = .nan := by
      unfold FP.sub; cases (numBinner F c).minValue <;> rfl
    rw [this]
    have : F.div .nan (numBinner F c).delta = .nan := by cases (numBinner F c).delta <;> rfl
    rw [this]; simp
  rw [hb]
  cases qs with
  | nil => rfl
  | cons q qs =>
    have h1 := rep_mono F hl hh hlt (Nat.zero_le q)
    simp only [List.map_cons, countBelow]
    rw [if_neg]
    revert h1
    generalize Binner.representative F (numBinner F c) (0 + 1) = x
    generalize Binner.representative F (numBinner F c) (q + 1) = y
    cases x <;> cases y <;> simp [Num.le, Num.lt]

theorem rep_exact {c : Column} {l h : ℚ} (hl : c.lo = .fin l) (hh : c.hi = .fin h) (n : Nat) :
    Binner.representative .exact (numBinner .exact c) (n + 1) =
      .fin (l + ((Min.min (n + 1) 511 : ℕ) : ℚ) * ((h - l) / 512)) := by
  unfold Binner.representative
  rw [numBinner_len]
  have hmin : (numBinner .exact c).minValue = .fin l := hl
  have hd : (numBinner .exact c).delta = .fin ((h - l) / 512) := by
    unfold numBinner
    simp only [hl, hh, FP.sub_fin]
    have h5 : FP.exact.ofNat quantileNbins = .fin 512 := by
      rw [FP.exact.ofNat_eq (by unfold quantileNbins; norm_num)]; unfold quantileNbins; norm_num
    rw [h5, show FP.exact.rnd (h - l) = .fin (h - l) from rfl, FP.div_fin _ (by norm_num)]
    rfl
  rw [hmin, hd]
  rfl

theorem getBin_exact {c : Column} {l h : ℚ} (hl : c.lo = .fin l) (hh : c.hi = .fin h) (hlt : l < h) {v : Num}
    (hv : v ≠ .nan) {q : Nat} (hq : q < 511) :
    Binner.getBin .exact (numBinner .exact c) v ≤ q ↔
      v.lt (.fin (l + ((q + 1 : ℕ) : ℚ) * ((h - l) / 512))) = true := by
  rw [Binner.getBin_eq, numBinner_len]
  have hmin : (numBinner .exact c).minValue = .fin l := hl
  have hdp : 0 < (h - l) / 512 := by
    have : 0 < h - l := by linarith
    positivity
  have hd : (numBinner .exact c).delta = .fin ((h - l) / 512) := by
    unfold numBinner
    simp only [hl, hh, FP.sub_fin]
    have h5 : FP.exact.ofNat quantileNbins = .fin 512 := by
      rw [FP.exact.ofNat_eq (by unfold quantileNbins; norm_num)]; unfold quantileNbins; norm_num
    rw [h5, show FP.exact.rnd (h - l) = .fin (h - l) from rfl, FP.div_fin _ (by norm_num)]
    rfl
  rw [hmin, hd]
  generalize (h - l) / 512 = δ at *
  cases v with
  | nan => exact absurd rfl hv
  | ninf =>
    have : FP.exact.sub .ninf (.fin l) = .ninf := rfl
    rw [this]
    have : FP.exact.div .ninf (.fin δ) = .ninf := by
      simp [FP.div, not_lt.2 hdp.le]
    rw [this]; simp [Num.lt]
  | pinf =>
    have : FP.exact.sub .pinf (.fin l) = .pinf := rfl
    rw [this]
    have : FP.exact.div .pinf (.fin δ) = .pinf := by
      simp [FP.div, not_lt.2 hdp.le]
    rw [this]
    simp [Num.lt, Binner.binOf, Num.floor, Num.toIsize, Num.cast]
    omega
  | fin x =>
    rw [FP.sub_fin, show FP.exact.rnd (x - l) = .fin (x - l) from rfl, FP.div_fin _ hdp.ne',
      show FP.exact.rnd ((x - l) / δ) = .fin ((x - l) / δ) from rfl, Num.fin_lt_fin]
    have hfl : ⌊(x - l) / δ⌋ < ((q : ℤ) + 1) ↔ x < l + ((q + 1 : ℕ) : ℚ) * δ := by
      rw [Int.floor_lt, div_lt_iff₀ hdp]
      push_cast
      constructor <;> intro h <;> linarith
    rw [← hfl]
    simp only [Binner.binOf, Num.floor, Num.toIsize, Num.cast, Num.trunc_int]
    omega

theorem numCat_exact {c : Column} {l h : ℚ} (hl : c.lo = .fin l) (hh : c.hi = .fin h) (hlt : l < h) {v : Num}
    (hv : v ≠ .nan) {qs : List Nat} (hqs : qs.Pairwise (· < ·)) {b q : Nat} (hb : qs[b]? = some q) :
    numCat .exact c (qs.map fun q => Binner.representative .exact (numBinner .exact c) (q + 1)) v ≤ b ↔
      (510 ≤ q ∨ v.lt (Binner.representative .exact (numBinner .exact c) (q + 1)) = true) := by
  have hdp : 0 < (h - l) / 512 := by
    have : 0 < h - l := by linarith
    positivity
  unfold numCat
  have hmap : (qs.map fun q => Binner.representative .exact (numBinner .exact c) (q + 1)) =
      (qs.map fun q => l + ((Min.min (q + 1) 511 : ℕ) : ℚ) * ((h - l) / 512)).map .fin := by
    rw [List.map_map]
    apply List.map_congr_left
    intro q _
    exact rep_exact hl hh q
  rw [hmap, countBelow_sorted _ b (l + ((Min.min (q + 1) 511 : ℕ) : ℚ) * ((h - l) / 512)), rep_exact hl hh, rep_exact hl hh]
  · have hlin : ∀ a b : ℕ, (Num.fin (l + (a : ℚ) * ((h - l) / 512))).lt (.fin (l + (b : ℚ) * ((h - l) / 512))) = false ↔
        b ≤ a := by
      intro a b
      rw [← Bool.not_eq_true, Num.fin_lt_fin, not_lt]
      constructor
      · intro hh
        have : (b : ℚ) * ((h - l) / 512) ≤ a * ((h - l) / 512) := by linarith
        exact_mod_cast (mul_le_mul_iff_left₀ hdp).1 this
      · intro hh
        have : (b : ℚ) ≤ a := by exact_mod_cast hh
        have := mul_le_mul_of_nonneg_right this hdp.le
        linarith
    rw [hlin]
    by_cases h510 : 510 ≤ q
    · simp only [h510, true_or, iff_true]; omega
    · simp only [h510, false_or]
      have e : Min.min (q + 1) 511 = q + 1 := by omega
      rw [e, ← getBin_exact hl hh hlt hv (by omega)]
      omega
  · rw [List.pairwise_map]
    refine hqs.imp ?_
    intro a b hab
    have : ((Min.min (a + 1) 511 : ℕ) : ℚ) ≤ ((Min.min (b + 1) 511 : ℕ) : ℚ) := by
      exact_mod_cast (by omega : Min.min (a + 1) 511 ≤ Min.min (b + 1) 511)
    have := mul_le_mul_of_nonneg_right this hdp.le
    linarith
  · rw [List.getElem?_map, hb]; rfl

end Dataset
end BitBoost
