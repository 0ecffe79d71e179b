import Verif.Lemmas.DatasetInv
import Verif.Spec.Progress
/-! Helper lemmas: making and updating a data set does not panic on valid input. -/
namespace BitBoost

/-- The call ends normally. -/
def Out.Ends {α : Type} (x : Out α) : Prop := ∃ a, x = .ok a

theorem Out.Ends.bind {α β : Type} {x : Out α} {f : α → Out β} (h : x.Ends) (hf : ∀ a, x = .ok a → (f a).Ends) :
    (x >>= f).Ends := by
  obtain ⟨a, rfl⟩ := h
  exact hf a rfl

theorem Out.ends_ok {α : Type} (a : α) : (Out.ok a).Ends := ⟨a, rfl⟩

theorem Out.ends_pure {α : Type} (a : α) : (pure a : Out α).Ends := ⟨a, rfl⟩

theorem Out.ends_assert {c : Bool} (h : c = true) : (Out.assert c).Ends := ⟨(), by rw [h]; rfl⟩

theorem at?_ends {α : Type} {l : List α} {i : Nat} (h : i < l.length) : (at? l i).Ends := ⟨_, at?_lt h⟩

namespace FP
variable (F : FP)

theorem share_bounds {n : Nat} {q : ℚ} (hn : n ≤ 2 ^ 24) (h1 : q ≤ 1) : Dataset.share F n (.fin q) ≤ n := by
  unfold Dataset.share
  rw [F.ofNat_eq hn, F.mul_fin]
  have hle : (F.rnd (n * q)).le (.fin n) = true := by
    apply F.rnd_le_nat hn
    have : (0 : ℚ) ≤ n := Nat.cast_nonneg n
    nlinarith
  have := Num.cast_mono (lo := 0) (hi := 2 ^ 64 - 1) (by norm_num) (Num.round_mono hle)
  unfold Num.toUsize
  have e : Num.cast 0 (2 ^ 64 - 1) (Num.fin n).round ≤ n := by
    simp only [Num.round, Num.cast]
    have h2 : Num.roundAway ((n : ℕ) : ℚ) = n := by
      have := Num.roundAway_int (n : ℤ)
      simpa using this
    rw [h2, Num.trunc_int]
    omega
  omega

theorem share_pos {n : Nat} {q : ℚ} (hn : n ≤ 2 ^ 24) (h1 : 1 ≤ n * q) : 1 ≤ Dataset.share F n (.fin q) := by
  unfold Dataset.share
  rw [F.ofNat_eq hn, F.mul_fin]
  have hle : (Num.fin ((1 : ℕ) : ℚ)).le (F.rnd (n * q)) = true := by
    apply F.nat_le_rnd (by norm_num)
    simpa using h1
  have := Num.cast_mono (lo := 0) (hi := 2 ^ 64 - 1) (by norm_num) (Num.round_mono hle)
  unfold Num.toUsize
  have e : Num.cast 0 (2 ^ 64 - 1) (Num.fin ((1 : ℕ) : ℚ)).round = 1 := by
    simp only [Num.round, Num.cast]
    have h2 : Num.roundAway ((1 : ℕ) : ℚ) = 1 := by
      have := Num.roundAway_int (1 : ℤ)
      simpa using this
    rw [h2, show (((1 : ℤ) : ℚ)) = ((1 : ℤ) : ℚ) from rfl, Num.trunc_int]
    norm_num
  omega

end FP

namespace Binner

/-- Ranks that are not negative are found. -/
theorem rankIter_ends {β R : Type} (o : RankOps R) (ext : β → R) (bins : List β) (hne : bins ≠ []) :
    ∀ (ranks : List R) (s : RankState R), (∀ r ∈ ranks, s.binIndex = 0 → s.accum = o.zero ∧ o.le o.zero r = true) →
      (rankIter o ext bins ranks s).Ends := by
  have hloop : ∀ (rank : R) (xs : List R) (s : RankState R), s.binIndex ≤ (rankLoop o rank xs s).binIndex := by
    intro rank xs
    induction xs with
    | nil => intro s; simp [rankLoop]
    | cons x xs ih =>
      intro s
      simp only [rankLoop]
      split
      · have := ih { accum := o.add s.accum x, prevAccum := s.accum, binIndex := s.binIndex + 1 }
        simp only at this
        omega
      · exact Nat.le_refl _
  intro ranks
  induction ranks with
  | nil => intro s _; exact ⟨[], rfl⟩
  | cons r rs ih =>
    intro s hs
    have hpos : 0 < (rankLoop o r ((bins.drop s.binIndex).map ext) s).binIndex := by
      rcases Nat.eq_zero_or_pos s.binIndex with h0 | h0
      · obtain ⟨h1, h2⟩ := hs r (by simp) h0
        rw [h0, List.drop_zero]
        cases bins with
        | nil => exact absurd rfl hne
        | cons b bs =>
          simp only [List.map_cons, rankLoop]
          rw [h1, if_pos h2]
          have := hloop r (bs.map ext) { accum := o.add o.zero (ext b), prevAccum := o.zero, binIndex := s.binIndex + 1 }
          simp only at this
          omega
      · exact Nat.lt_of_lt_of_le h0 (hloop _ _ _)
    unfold rankIter
    refine Out.Ends.bind ?_ ?_
    · unfold rankNext
      simp only
      rw [if_neg (by omega)]
      exact Out.ends_ok _
    · rintro ⟨i, s'⟩ e
      unfold rankNext at e
      simp only at e
      rw [if_neg (by omega)] at e
      simp only [Out.ok.injEq, Prod.mk.injEq] at e
      obtain ⟨_, rfl⟩ := e
      refine Out.Ends.bind (ih _ ?_) (fun a _ => Out.ends_pure _)
      intro r' _ h0
      omega

theorem natRanks_end (bins : List Nat) (hne : bins ≠ []) (ranks : List Nat) :
    (rankIter natOps id bins ranks (rankStart natOps)).Ends :=
  rankIter_ends natOps id bins hne ranks _ fun _ _ _ => ⟨rfl, by simp [natOps]⟩

theorem numRanks_end (F : FP) (bins : List Num) (hne : bins ≠ []) (ranks : List Num)
    (h : ∀ r ∈ ranks, (Num.fin 0).le r = true) :
    (rankIter (numOps F) id bins ranks (rankStart (numOps F))).Ends :=
  rankIter_ends (numOps F) id bins hne ranks _ fun r hr _ => ⟨rfl, h r hr⟩

theorem new_ends {β : Type} (F : FP) {bins : List β} (hne : bins ≠ []) {l h : ℚ} (hlh : l < h) :
    (new F bins (.fin l) (.fin h)).Ends := ⟨_, new_eq_ok.2 ⟨l, h, rfl, rfl, hlh, hne, rfl⟩⟩

end Binner

namespace Dataset
open Spec

/-! ### Weights -/

theorem add_nonneg (F : FP) {a b : Num} (ha : (Num.fin 0).le a = true) (hb : (Num.fin 0).le b = true) :
    (Num.fin 0).le (F.add a b) = true := by
  cases a <;> cases b <;> simp [Num.le] at ha hb <;> try simp [FP.add, Num.le]
  rename_i x y
  exact F.rnd_nonneg (_root_.add_nonneg ha hb)

theorem numWeight_nonneg (F : FP) {g : Num} (h : g ≠ .nan) : (Num.fin 0).le (numWeight F g) = true := by
  unfold numWeight
  apply add_nonneg
  · cases g with
    | fin q => simp [Num.abs, Num.le]
    | pinf => rfl
    | ninf => rfl
    | nan => exact absurd rfl h
  · simp [epsilon, Num.le]

theorem sum_nonneg (F : FP) : ∀ (l : List Num) (s : Num), (Num.fin 0).le s = true →
    (∀ x ∈ l, (Num.fin 0).le x = true) → (Num.fin 0).le (l.foldl F.add s) = true
  | [], s, hs, _ => hs
  | x :: l, s, hs, h => sum_nonneg F l _ (add_nonneg F hs (h x (by simp))) (fun y hy => h y (by simp [hy]))

theorem div_nonneg (F : FP) {a : Num} {n : Nat} (hn : 1 ≤ n) (hn2 : n ≤ 2 ^ 24) (ha : (Num.fin 0).le a = true) :
    (Num.fin 0).le (F.div a (F.ofNat n)) = true := by
  rw [F.ofNat_eq hn2]
  have hp : (0 : ℚ) < n := by exact_mod_cast hn
  cases a <;> simp [Num.le] at ha
  · rename_i q
    rw [F.div_fin hp.ne']
    exact F.rnd_nonneg (_root_.div_nonneg ha hp.le)
  · simp only [FP.div]
    rw [if_neg (not_lt.2 hp.le)]
    rfl

theorem mul_nonneg (F : FP) {a : Num} {n : Nat} (hn : 1 ≤ n) (hn2 : n ≤ 2 ^ 24) (ha : (Num.fin 0).le a = true) :
    (Num.fin 0).le (F.mul (F.ofNat n) a) = true := by
  rw [F.ofNat_eq hn2]
  have hp : (0 : ℚ) < n := by exact_mod_cast hn
  cases a <;> simp [Num.le] at ha
  · rename_i q
    rw [F.mul_fin]
    exact F.rnd_nonneg (_root_.mul_nonneg hp.le ha)
  · have h1 : 1 ≤ n := hn
    simp [FP.mul, FP.sgn, FP.infOf, Num.le]
    have : 0 < n := by omega
    simp [this]

theorem dedup_ne {qs : List Nat} {n : Nat} (hne : qs ≠ []) (hlt : ∀ q ∈ qs, q < n) (hn : n ≤ 2 ^ 64 - 1) :
    dedupLoop (2 ^ 64 - 1) qs ≠ [] := by
  cases qs with
  | nil => exact absurd rfl hne
  | cons q qs =>
    have := hlt q (by simp)
    unfold dedupLoop
    rw [if_neg (by omega)]
    simp

theorem numSplits_ends (F : FP) {k : Nat} (hk : 1 ≤ k) (hk2 : k < 2 ^ 24) {l h : ℚ} (hlh : l < h) (vals grads : List Num)
    (hg : ∀ g ∈ grads, g ≠ .nan) :
    ∃ splits b, numSplits F k (.fin l) (.fin h) vals grads = .ok (splits, b) ∧ splits ≠ [] ∧ splits.length ≤ k ∧
      b.bins.length = quantileNbins := by
  have hbn : (List.replicate quantileNbins (Num.fin 0)) ≠ [] := by
    intro h0
    have := congrArg List.length h0
    rw [List.length_replicate] at this
    exact absurd this (by decide)
  obtain ⟨b0, e0⟩ := Binner.new_ends F hbn hlh
  obtain ⟨_, _, _, _, _, _, hb0⟩ := Binner.new_eq_ok.1 e0
  obtain ⟨b, e1, _, _, hbl, _⟩ := Binner.insertAll_ok F (fun (d x : Num) => F.add x d)
    (vals.zip (grads.map (numWeight F))) b0 (by rw [hb0]; exact hbn)
  have hlen : b.bins.length = quantileNbins := by
    rw [hbl, hb0]; exact List.length_replicate
  have hbne : b.bins ≠ [] := by
    intro h0; rw [h0] at hlen; exact absurd hlen (by decide)
  have hsum : (Num.fin 0).le (F.sum (grads.map (numWeight F))) = true := by
    unfold FP.sum
    apply sum_nonneg
    · simp [Num.le]
    · intro x hx
      obtain ⟨g, h1, rfl⟩ := List.mem_map.1 hx
      exact numWeight_nonneg F (hg g h1)
  have hstep := div_nonneg F (n := k + 1) (by omega) (by omega) hsum
  obtain ⟨qs, e2⟩ := Binner.numRanks_end F b.bins hbne
    ((List.range k).map fun i => F.mul (F.ofNat (i + 1)) (F.div (F.sum (grads.map (numWeight F))) (F.ofNat (k + 1)))) (by
      intro r hr
      obtain ⟨i, hi, rfl⟩ := List.mem_map.1 hr
      have := List.mem_range.1 hi
      exact mul_nonneg F (by omega) (by omega) hstep)
  obtain ⟨m1, m2, m3⟩ := Binner.rankIter_mono _ _ _ _ _ _ (by simp [Binner.rankStart]) e2
  have hql : qs.length = k := by rw [m1]; simp
  have hqlt : ∀ q ∈ qs, q < quantileNbins := fun q hq => by rw [← hlen]; exact (m3 q hq).2
  have hdl := (dedupLoop_spec qs (2 ^ 64 - 1) m2 (Or.inr (fun q hq => by
    have := hqlt q hq; unfold quantileNbins at this; omega))).2.1
  have hdn := dedup_ne (n := quantileNbins) (by intro h0; rw [h0] at hql; simp at hql; omega) hqlt (by
    unfold quantileNbins; omega)
  refine ⟨(dedupLoop (2 ^ 64 - 1) qs).map fun q => Binner.representative F b (q + 1), b, ?_, ?_, ?_, hlen⟩
  · unfold numSplits
    rw [e0, Out.ok_bind]
    simp only
    rw [e1, Out.ok_bind, e2, Out.ok_bind]
    rw [assert_ok.2 (by simp only [List.length_map, decide_eq_true_eq]; omega), Out.ok_bind]
    rw [assert_ok.2 (by
      simp only [List.length_map, decide_eq_true_eq]; exact List.length_pos_iff.2 hdn), Out.ok_bind]
    rfl
  · simpa using hdn
  · simp only [List.length_map]; omega

theorem hicardWeights_ends (F : FP) {k n : Nat} (hk : 1 ≤ k) (stats : List (Num × Nat)) {l h : ℚ} (hlh : l < h) :
    ∃ w, hicardWeights F k n stats (.fin l, .fin h) = .ok w ∧ w ≠ [] := by
  have hbn : (List.replicate quantileNbins 0) ≠ [] := by
    intro h0
    have := congrArg List.length h0
    rw [List.length_replicate] at this
    exact absurd this (by decide)
  obtain ⟨b0, e0⟩ := Binner.new_ends F hbn hlh
  obtain ⟨_, _, _, _, _, _, hb0⟩ := Binner.new_eq_ok.1 e0
  obtain ⟨b, e1, _, _, hbl, _⟩ := Binner.insertAll_ok F (fun (d x : Nat) => x + d)
    ((stats.filter fun p => p.2 != 0).map fun p => (meanOf F p, p.2)) b0 (by rw [hb0]; exact hbn)
  have hlen : b.bins.length = quantileNbins := by
    rw [hbl, hb0]; exact List.length_replicate
  have hbne : b.bins ≠ [] := by
    intro h0; rw [h0] at hlen; exact absurd hlen (by decide)
  obtain ⟨qs, e2⟩ := Binner.natRanks_end b.bins hbne
    ((List.range k).map fun i => hicardRank F (F.div (F.ofNat n) (F.ofNat (k + 1))) (i + 1))
  obtain ⟨m1, m2, m3⟩ := Binner.rankIter_mono _ _ _ _ _ _ (by simp [Binner.rankStart]) e2
  have hql : qs.length = k := by rw [m1]; simp
  have hqlt : ∀ q ∈ qs, q < quantileNbins := fun q hq => by rw [← hlen]; exact (m3 q hq).2
  have hdn := dedup_ne (n := quantileNbins) (by intro h0; rw [h0] at hql; simp at hql; omega) hqlt (by
    unfold quantileNbins; omega)
  refine ⟨(dedupLoop (2 ^ 64 - 1) qs).map fun q => Binner.representative F b (q + 1), ?_, ?_⟩
  · unfold hicardWeights
    simp only
    rw [e0, Out.ok_bind, e1, Out.ok_bind, e2, Out.ok_bind]
    rfl
  · simpa using hdn

theorem buildMasks_ends {bvs : List Blocks} {k L : Nat} {cats : List Nat} (hL : ∀ b ∈ bvs, b.length = L) (hk : 1 ≤ k)
    (hk2 : k ≤ bvs.length) (hc : cats.length ≤ L * 256) : (buildMasks bvs k cats).Ends := by
  unfold buildMasks
  refine Out.Ends.bind ⟨_, prefix_ok.2 ⟨hk2, rfl⟩⟩ fun front e => ?_
  obtain ⟨_, rfl⟩ := prefix_ok.1 e
  refine Out.Ends.bind (fillMasks_total _ _ _ ?_) fun filled e2 => ?_
  · intro b hb
    unfold zeroMasks at hb
    obtain ⟨b', h1, rfl⟩ := List.mem_map.1 hb
    rw [List.length_map, hL b' (List.mem_of_mem_take h1)]
    omega
  · have hl := (fillMasks_spec _ _ _ _ e2).1
    rw [zeroMasks_length, List.length_take] at hl
    refine Out.Ends.bind ?_ fun _ _ => Out.ends_pure _
    cases filled with
    | nil => simp at hl; omega
    | cons b bs => exact Out.ends_ok _

theorem gradStats_ends (F : FP) (grad : List Num) : ∀ (vs : List Num) (i : Nat) (st : List (Num × Nat)),
    (∀ v ∈ vs, intoCat v < st.length) → i + vs.length ≤ grad.length → (gradStats F grad vs i st).Ends
  | [], _, st, _, _ => ⟨st, rfl⟩
  | v :: vs, i, st, h, hl => by
      simp only [List.length_cons] at hl
      unfold gradStats
      refine Out.Ends.bind (at?_ends (h v (by simp))) fun e _ => ?_
      refine Out.Ends.bind (at?_ends (by omega)) fun g _ => ?_
      apply gradStats_ends
      · intro x hx; rw [List.length_set]; exact h x (by simp [hx])
      · omega

/-! ### A data set that can be updated -/

/-- The tables of the data set have the right sizes. -/
structure Ready (d : Data) (n : Nat) (ds : Dataset) : Prop where
  data : ds.data = d
  ne : ds.nactiveExamples = n
  feat : ∀ f, Useful d f → ∃ c bvs, d.cols[f]? = some c ∧ ds.bitvecs[f]? = some bvs ∧
    bvs.length = Data.colMaxNbins d.maxNbins c ∧ ∀ b ∈ bvs, b.length = (n + 255) / 256
  lnb : ds.usedNbins.length = d.nfeatures
  lsc : ds.splitCandidates.length = d.nfeatures

theorem Ready.frame {d : Data} {n : Nat} {S : List Nat} {ds ds' : Dataset} (h : Ready d n ds) (hf : Frame S ds ds') :
    Ready d n ds' := by
  refine ⟨hf.data.trans h.data, hf.ne.trans h.ne, ?_, hf.lnb.trans h.lnb, hf.lsc.trans h.lsc⟩
  intro f hu
  obtain ⟨c, bvs, h1, h2, h3, h4⟩ := h.feat f hu
  obtain ⟨b', g1, g2, g3⟩ := hf.lens f bvs h2
  exact ⟨c, b', h1, g1, g2.trans h3, g3 _ h4⟩

section
variable {F : FP} {cfg : Config} {d : Data} {n : Nat} {rows : List Nat}

theorem updateLocard_ends (hd : Rectangular d) {ds : Dataset} (h : Ready d n ds) {f : Nat} (hu : Useful d f)
    (hr : rows.length = n) (hlt : ∀ r ∈ rows, r < d.nexamples) : (updateLocard ds f rows).Ends := by
  obtain ⟨c, bvs, h1, h2, h3, h4⟩ := h.feat f hu
  unfold updateLocard column
  rw [h.data, at?_ok.2 h1, Out.ok_bind, at?_ok.2 h2, Out.ok_bind]
  have hvl := hd.2 c (List.mem_of_getElem? h1)
  refine Out.Ends.bind (gather_total _ _ (by rw [hvl]; exact hlt)) fun vals e => ?_
  refine Out.Ends.bind (fillMasks_total _ _ _ ?_) fun b e2 => ?_
  · intro b hb
    unfold zeroMasks at hb
    obtain ⟨b', g1, rfl⟩ := List.mem_map.1 hb
    rw [List.length_map, List.length_map, h4 b' g1, gather_length e, hr]
    omega
  · exact Out.Ends.bind (Out.ends_assert (by rw [h.lnb]; simpa using hu.1)) fun _ _ => Out.ends_pure _

theorem updateNum_ends (hc : ValidConfig cfg) (hd : ValidData cfg d) {ds : Dataset} (h : Ready d n ds) {f : Nat}
    (hu : Useful d f) {c : Column} (hcol : d.cols[f]? = some c) (ht : c.ftype = .numerical) (hr : rows.length = n)
    (hlt : ∀ r ∈ rows, r < d.nexamples) {grad : List Num} (hgl : grad.length = d.nexamples)
    (hg : ∀ g ∈ grad, g ≠ .nan) : (updateNum F cfg ds f rows grad).Ends := by
  obtain ⟨c', bvs, h1, h2, h3, h4⟩ := h.feat f hu
  rw [hcol] at h1
  cases h1
  obtain ⟨l, hh, e1, e2, hlh⟩ := hd.limits f c hu hcol ht
  have hlt' : l < hh := by
    obtain ⟨_, c2, g1, _, g2⟩ := hu
    rw [hcol] at g1
    cases g1
    rw [e1, e2] at g2
    have : l ≠ hh := by simpa [Num.eqb] using g2
    exact lt_of_le_of_ne hlh this
  unfold updateNum column
  rw [h.data, at?_ok.2 hcol, Out.ok_bind]
  have hvl := hd.shape.2 c (List.mem_of_getElem? hcol)
  refine Out.Ends.bind (gather_total _ _ (by rw [hvl]; exact hlt)) fun vals ev => ?_
  refine Out.Ends.bind (gather_total _ _ (by rw [hgl]; exact hlt)) fun grads eg => ?_
  have hgn : ∀ g ∈ grads, g ≠ .nan := by
    intro g hgm
    obtain ⟨i, hi⟩ := List.mem_iff_getElem?.1 hgm
    rw [gather_get eg] at hi
    obtain ⟨j, _, hj⟩ := Option.bind_eq_some_iff.1 hi
    exact hg g (List.mem_of_getElem? hj)
  obtain ⟨splits, b, e3, hne, hsl, hbl⟩ := numSplits_ends F hc.bins.1 hc.bins.2 hlt' vals grads hgn
  rw [e1, e2, e3, Out.ok_bind]
  simp only
  rw [at?_ok.2 h2, Out.ok_bind]
  refine Out.Ends.bind (gather_total _ _ ?_) fun cats ec => ?_
  · intro j hj
    obtain ⟨v, _, rfl⟩ := List.mem_map.1 hj
    have := Binner.getBin_lt F b v (by intro h0; rw [h0] at hbl; simp [quantileNbins] at hbl)
    rw [hbl] at this
    simpa [binCats] using this
  have hcm : Data.colMaxNbins d.maxNbins c = d.maxNbins := by unfold Data.colMaxNbins; rw [ht]
  refine Out.Ends.bind (buildMasks_ends h4 (List.length_pos_iff.2 hne) (by
    rw [h3, hcm]; exact Nat.le_trans hsl hd.bins) ?_) fun _ _ => ?_
  · rw [gather_length ec, List.length_map, gather_length ev, hr]; omega
  refine Out.Ends.bind (Out.ends_assert (by rw [h.lnb]; simpa using hu.1)) fun _ _ => ?_
  exact Out.Ends.bind (Out.ends_assert (by rw [h.lsc]; simpa using hu.1)) fun _ _ => Out.ends_pure _

theorem updateHicard_ends (hc : ValidConfig cfg) (hd : ValidData cfg d) {ds : Dataset} (h : Ready d n ds)
    (hsup : ds.supercats.length = d.nfeatures) {f : Nat} (hu : Useful d f) {c : Column} (hcol : d.cols[f]? = some c)
    (ht : c.ftype = .hiCardCat) (hr : rows.length = n) (hn : n ≤ d.nexamples) (hlt : ∀ r ∈ rows, r < d.nexamples)
    {grad : List Num} (hgl : grad.length = d.nexamples) {lo hi : ℚ} (hb : lo < hi) :
    (updateHicard F cfg ds f rows grad (.fin lo, .fin hi)).Ends := by
  obtain ⟨c', bvs, h1, h2, h3, h4⟩ := h.feat f hu
  rw [hcol] at h1
  cases h1
  unfold updateHicard column
  rw [h.data, at?_ok.2 hcol, Out.ok_bind]
  have hvl := hd.shape.2 c (List.mem_of_getElem? hcol)
  refine Out.Ends.bind (gather_total _ _ (by rw [hvl]; exact hlt)) fun vals ev => ?_
  have hcard : ∀ v ∈ vals, intoCat v < c.card := by
    intro v hv
    obtain ⟨i, hi'⟩ := List.mem_iff_getElem?.1 hv
    rw [gather_get ev] at hi'
    obtain ⟨j, _, hj⟩ := Option.bind_eq_some_iff.1 hi'
    exact hd.cats f c hu hcol ht v (List.mem_of_getElem? hj)
  refine Out.Ends.bind (gradStats_ends F grad vals 0 _ (by simpa using hcard) ?_) fun stats es => ?_
  · rw [gather_length ev, hgl]; omega
  have hsl : stats.length = c.card := by
    rw [(gradStats_length F grad vals 0 _ stats es).1, List.length_replicate]
  obtain ⟨w, ew, hwne⟩ := hicardWeights_ends F (n := ds.nactiveExamples) hc.bins.1 stats hb
  rw [ew, Out.ok_bind]
  simp only
  rw [at?_ok.2 h2, Out.ok_bind]
  refine Out.Ends.bind (gather_total _ _ ?_) fun cats ec => ?_
  · intro j hj
    obtain ⟨v, hv, rfl⟩ := List.mem_map.1 hj
    rw [List.length_map, hsl]
    exact hcard v hv
  have hcm : Data.colMaxNbins d.maxNbins c = d.maxNbins := by unfold Data.colMaxNbins; rw [ht]
  refine Out.Ends.bind (buildMasks_ends h4 (List.length_pos_iff.2 hwne) (by
    rw [h3, hcm]; exact Nat.le_trans (hicardWeights_length ew) hd.bins) ?_) fun _ _ => ?_
  · rw [gather_length ec, List.length_map, gather_length ev, hr]; omega
  refine Out.Ends.bind (Out.ends_assert (by rw [h.lnb]; simpa using hu.1)) fun _ _ => ?_
  exact Out.Ends.bind (Out.ends_assert (by rw [hsup]; simpa using hu.1)) fun _ _ => Out.ends_pure _

/-- Gradients and bounds the data set can be updated with. -/
structure GradsOk (d : Data) (grad : List Num) (bounds : Num × Num) : Prop where
  len : grad.length = d.nexamples
  num : ∀ g ∈ grad, g ≠ .nan
  bounds : HasHicard d → ∃ lo hi : ℚ, bounds = (.fin lo, .fin hi) ∧ lo < hi

theorem updateFeatures_ends (hc : ValidConfig cfg) (hd : ValidData cfg d) (hr : rows.length = n)
    (hn : n ≤ d.nexamples) (hlt : ∀ r ∈ rows, r < d.nexamples) {grad : List Num} {bounds : Num × Num}
    (hg : GradsOk d grad bounds) (bagged : Bool) : ∀ (fs : List Nat) (ds : Dataset), Ready d n ds →
    ds.supercats.length = d.nfeatures → (∀ f ∈ fs, Useful d f) →
    (updateFeatures F cfg grad bounds bagged rows fs ds).Ends
  | [], ds, _, _, _ => Out.ends_ok ds
  | f :: fs, ds, h, hsup, hf => by
      have hu := hf f (by simp)
      obtain ⟨c, bvs, h1, h2, h3, h4⟩ := h.feat f hu
      have hlen' : ∀ b, ds.bitvecs[f]? = some b → b.length = Data.colMaxNbins ds.data.maxNbins c := by
        intro b hb; rw [h2] at hb; cases hb; rw [h.data]; exact h3
      have hL' : ∀ b, ds.bitvecs[f]? = some b → ∀ x ∈ b, x.length = (n + 255) / 256 := by
        intro b hb; rw [h2] at hb; cases hb; exact h4
      have hcd : ds.data.cols[f]? = some c := by rw [h.data]; exact h1
      have key : ∃ ds', updateFeature F cfg grad bounds bagged rows f ds = .ok ds' ∧ Frame [f] ds ds' := by
        unfold updateFeature column
        rw [at?_ok.2 hcd, Out.ok_bind]
        cases ht : c.ftype with
        | loCardCat =>
          simp only
          cases bagged with
          | true =>
            obtain ⟨ds', e⟩ := updateLocard_ends hd.shape h hu hr hlt
            exact ⟨ds', e, (updateLocard_spec F cfg hcd ht hlen' e).1⟩
          | false => exact ⟨ds, rfl, Frame.refl _ _⟩
        | hiCardCat =>
          simp only
          obtain ⟨lo, hi, rfl, hb⟩ := hg.bounds ⟨f, c, hu, h1, ht⟩
          obtain ⟨ds', e⟩ := updateHicard_ends (F := F) hc hd h hsup hu h1 ht hr hn hlt hg.len hb
          exact ⟨ds', e, (updateHicard_spec hcd ht hL' e).1⟩
        | numerical =>
          simp only
          obtain ⟨ds', e⟩ := updateNum_ends (F := F) hc hd h hu h1 ht hr hlt hg.len hg.num
          exact ⟨ds', e, (updateNum_spec hcd ht hL' e).1⟩
      obtain ⟨ds', e, hfr⟩ := key
      unfold updateFeatures
      rw [e, Out.ok_bind]
      exact updateFeatures_ends hc hd hr hn hlt hg bagged fs ds' (h.frame hfr) (hfr.lsup.trans hsup)
        (fun g hg' => hf g (by simp [hg']))

theorem initLocard_ends (hd : Rectangular d) (hr : rows.length = n) (hlt : ∀ r ∈ rows, r < d.nexamples) :
    ∀ (fs : List Nat) (ds : Dataset), Ready d n ds → (∀ f ∈ fs, Useful d f) → (initLocard rows fs ds).Ends
  | [], ds, _, _ => Out.ends_ok ds
  | f :: fs, ds, h, hf => by
      have hu := hf f (by simp)
      obtain ⟨c, bvs, h1, h2, h3, h4⟩ := h.feat f hu
      have hlen' : ∀ b, ds.bitvecs[f]? = some b → b.length = Data.colMaxNbins ds.data.maxNbins c := by
        intro b hb; rw [h2] at hb; cases hb; rw [h.data]; exact h3
      have hcd : ds.data.cols[f]? = some c := by rw [h.data]; exact h1
      have key : ∃ ds', initFeature rows f ds = .ok ds' ∧ Ready d n ds' := by
        unfold initFeature column
        rw [at?_ok.2 hcd, Out.ok_bind]
        by_cases ht : c.ftype = .loCardCat
        · rw [if_pos ht]
          obtain ⟨ds', e⟩ := updateLocard_ends hd h hu hr hlt
          exact ⟨ds', e, h.frame (updateLocard_spec FP.exact Config.new hcd ht hlen' e).1⟩
        · rw [if_neg ht]
          exact ⟨ds, rfl, h⟩
      obtain ⟨ds', e, h'⟩ := key
      unfold initLocard
      rw [e, Out.ok_bind]
      exact initLocard_ends hd hr hlt fs ds' h' (fun g hg' => hf g (by simp [hg']))

end

/-! ### Creation -/

theorem allocMany_ends {n : Nat} (hn : 0 < n) : ∀ m : Nat, (allocMany n m).Ends
  | 0 => Out.ends_ok []
  | m + 1 => by
      obtain ⟨z, z1, _⟩ := Blocks.zeroBits_spec n hn
      unfold allocMany allocZero
      rw [z1, Out.ok_bind]
      exact Out.Ends.bind (allocMany_ends hn m) fun _ _ => Out.ends_pure _

theorem scanFeatures_ends {d : Data} {n : Nat} (hn : 0 < n) : ∀ (k feat : Nat), feat + k ≤ d.cols.length →
    (scanFeatures d n k feat).Ends
  | 0, _, _ => Out.ends_ok _
  | k + 1, feat, h => by
      unfold scanFeatures column
      refine Out.Ends.bind (at?_ends (by omega)) fun c _ => ?_
      simp only
      split
      · exact Out.Ends.bind (scanFeatures_ends hn k (feat + 1) (by omega)) fun ⟨_, _, _⟩ _ => Out.ends_pure _
      · refine Out.Ends.bind (allocMany_ends hn _) fun _ _ => ?_
        exact Out.Ends.bind (scanFeatures_ends hn k (feat + 1) (by omega)) fun ⟨_, _, _⟩ _ => Out.ends_pure _

section
variable {F : FP} {cfg : Config} {d : Data} {rng : Rng}

theorem nactive_bounds (hc : ValidConfig cfg) (hd : ValidData cfg d) :
    1 ≤ share F d.nexamples cfg.exampleFraction ∧ share F d.nexamples cfg.exampleFraction ≤ d.nexamples := by
  obtain ⟨q, e, _, h1⟩ := hc.examples
  rw [e]
  exact ⟨F.share_pos hd.size (hd.sampled q e), F.share_bounds hd.size h1⟩

theorem share_full {n : Nat} (hn : n ≤ 2 ^ 24) : share F n (.fin 1) = n := by
  have h := F.share_bounds (n := n) (q := 1) hn (le_refl _)
  unfold share at *
  rw [F.ofNat_eq hn, F.mul_fin, mul_one, F.rnd_nat hn] at *
  have h2 : Num.roundAway ((n : ℕ) : ℚ) = n := by
    have := Num.roundAway_int (n : ℤ)
    simpa using this
  simp only [Num.round, h2, Num.toUsize, Num.cast, Num.trunc_int] at *
  omega

/-- Without sampling all examples are active. -/
theorem nactive_full (hc : ValidConfig cfg) (hd : ValidData cfg d) (h : cfg.exampleFraction.lt (.fin 1) = false) :
    share F d.nexamples cfg.exampleFraction = d.nexamples := by
  obtain ⟨q, e, _, h1⟩ := hc.examples
  rw [e] at h ⊢
  have : q = 1 := by
    simp [Num.lt] at h
    exact le_antisymm h1 h
  rw [this]
  exact share_full hd.size

theorem new_ends (hc : ValidConfig cfg) (hd : ValidData cfg d) : (Dataset.new F cfg d rng).Ends := by
  obtain ⟨hpos, hle⟩ := nactive_bounds (F := F) hc hd
  unfold Dataset.new
  have hin : (inner F cfg d rng).Ends := by
    unfold inner
    exact Out.Ends.bind (scanFeatures_ends hpos _ _ (by rw [hd.shape.1]; omega)) fun ⟨_, _, _⟩ _ => Out.ends_pure _
  refine Out.Ends.bind hin fun ds e => ?_
  split
  · exact Out.ends_pure _
  · rename_i hb
    have hfull := nactive_full (F := F) hc hd (by simpa using hb)
    unfold inner at e
    obtain ⟨⟨u, bv, hn⟩, e1, e⟩ := Out.bind_eq_ok.1 e
    simp only [Out.pure_eq, Out.ok.injEq] at e
    obtain ⟨s1, s2, s3, s4, s5⟩ := scanFeatures_spec _ _ _ _ _ _ _ e1
    simp only [Nat.zero_le, Nat.zero_add, true_and, Nat.sub_zero, forall_true_left] at s3 s4
    subst e
    refine initLocard_ends (n := share F d.nexamples cfg.exampleFraction) hd.shape (by rw [List.length_range, hfull])
      (by intro r hr; exact List.mem_range.1 hr) _ _ ?_ ?_
    · refine ⟨rfl, rfl, ?_, by simp, by simp⟩
      intro f hu
      obtain ⟨h1, c, h2, h3⟩ := hu
      obtain ⟨c', bvs, g1, g2, g3, g4, g5, _⟩ := s4 f h1
      rw [h2] at g1; cases g1
      exact ⟨c, bvs, h2, g2, g5 (g4.2 h3), g3⟩
    · intro f hf
      obtain ⟨c, bvs, g1, g2, g3, g4, _⟩ := s4 f (s3 f hf)
      exact ⟨s3 f hf, c, g1, g4.1 hf⟩

/-! ### Update -/

theorem useful_length {k : Nat} {ds : Dataset} (hi : Inv0 F cfg d k ds) : ds.useful.length ≤ d.nfeatures := by
  have hsub : ds.useful ⊆ List.range d.nfeatures := fun f hf => List.mem_range.2 ((hi.useful f).1 hf).1
  have := (hi.nodup.subperm hsub).length_le
  simpa using this

theorem nf_le (hc : ValidConfig cfg) (hd : ValidData cfg d) {k : Nat} {ds : Dataset} (hi : Inv0 F cfg d k ds) :
    ds.nactiveFeatures ≤ ds.useful.length := by
  obtain ⟨q, e, _, h1⟩ := hc.features
  rw [hi.nf, e]
  exact F.share_bounds (Nat.le_trans (useful_length hi) hd.width) h1

theorem ready_inv {k : Nat} {ds : Dataset} (hi : Inv0 F cfg d k ds) : Ready d ds.nactiveExamples ds := by
  refine ⟨hi.data, rfl, ?_, hi.lnb, hi.lsc⟩
  intro f hu
  obtain ⟨c, bvs, h1, h2, h3⟩ := hi.feat f ((hi.useful f).2 hu)
  exact ⟨c, bvs, h1, h2, h3, hi.lens f bvs h2⟩

theorem refresh_ends (hc : ValidConfig cfg) (hd : ValidData cfg d) {k : Nat} {ds : Dataset} (hi : Inv0 F cfg d k ds)
    (hk : k ≠ 0) {grad : List Num} {bounds : Num × Num} (hg : GradsOk d grad bounds) :
    (refresh F cfg ds grad bounds).Ends := by
  have hnf := nf_le hc hd hi
  obtain ⟨hpos, hle⟩ := nactive_bounds (F := F) hc hd
  rw [← hi.ne] at hpos hle
  have hsup : ds.supercats.length = d.nfeatures := by rw [hi.lsup, if_neg hk]
  have hready := ready_inv hi
  unfold refresh
  have hs : ∃ u r, sampleFeatures ds = .ok { ds with useful := u, rng := r } ∧ u.Perm ds.useful := by
    unfold sampleFeatures
    split
    · obtain ⟨⟨u, r⟩, e⟩ := shuffleFirstK_total ds.rng hnf
      refine ⟨u, r, ?_, (shuffleFirstK_spec e).1⟩
      rw [e]; rfl
    · exact ⟨ds.useful, ds.rng, rfl, List.Perm.refl _⟩
  obtain ⟨u, r1, e1, hperm⟩ := hs
  have hul : u.length = ds.useful.length := hperm.length_eq
  have huu : ∀ f ∈ u.take ds.nactiveFeatures, Useful d f := fun f hf =>
    (hi.useful f).1 (hperm.mem_iff.1 (List.mem_of_mem_take hf))
  rw [e1, Out.ok_bind]
  split
  · rename_i hs
    have hib : ds.indexBuffer ≠ [] := by
      intro h0; unfold exampleSampling at hs; simp [h0] at hs
    have hbag := hi.bag
    have hlt : cfg.exampleFraction.lt (.fin 1) = true := by
      by_contra hc
      rw [if_neg hc] at hbag; exact hib hbag
    rw [if_pos hlt] at hbag
    have hbl : ds.indexBuffer.length = d.nexamples := by rw [hbag.1.length_eq, List.length_range]
    obtain ⟨⟨buf, r2⟩, e2⟩ := shuffleFirstK_total r1 (k := ds.nactiveExamples) (buf := ds.indexBuffer) (by omega)
    have hbp := (shuffleFirstK_spec e2).1
    unfold sampleExamples
    simp only [e2, Out.ok_bind, Out.pure_eq]
    have hbl2 : buf.length = d.nexamples := by rw [hbp.length_eq, hbl]
    rw [prefix_ok.2 ⟨by omega, rfl⟩, Out.ok_bind, prefix_ok.2 ⟨by omega, rfl⟩, Out.ok_bind]
    refine updateFeatures_ends (n := ds.nactiveExamples) hc hd (by rw [List.length_take]; omega) hle ?_ hg true _ _ ?_ hsup huu
    · intro r hr
      have := (hbp.trans hbag.1).mem_iff.1 (List.mem_of_mem_take hr)
      exact List.mem_range.1 this
    · exact ⟨hready.data, rfl, hready.feat, hready.lnb, hready.lsc⟩
  · rename_i hs
    split
    · have hib : ds.indexBuffer = [] := by
        unfold exampleSampling at hs; simpa using hs
      have hnlt : cfg.exampleFraction.lt (.fin 1) = false := by
        by_contra hc2
        have hbag := hi.bag
        rw [if_pos (by simpa using hc2)] at hbag
        have := hbag.1.length_eq
        rw [hib, List.length_range] at this
        simp at this
        omega
      have hfull := nactive_full (F := F) hc hd hnlt
      rw [← hi.ne] at hfull
      simp only
      rw [prefix_ok.2 ⟨by omega, rfl⟩, Out.ok_bind, hi.data]
      refine updateFeatures_ends (n := ds.nactiveExamples) hc hd (by rw [List.length_range]; omega) hle
        (fun r hr => List.mem_range.1 hr) hg false _ _ ?_ hsup huu
      exact ⟨rfl, rfl, hready.feat, hready.lnb, hready.lsc⟩
    · exact Out.ends_ok _

theorem update_ends (hc : ValidConfig cfg) (hd : ValidData cfg d) {k : Nat} {ds : Dataset} (hi : Inv F cfg d k ds)
    {grad : List Num} {bounds : Num × Num} (hg : GradsOk d grad bounds) : (ds.update F cfg grad bounds).Ends := by
  have hi0 := hi.toInv0
  unfold update
  simp only
  split
  · exact Out.ends_ok _
  · -- the invariant after a (skipped) update
    have core := (inv_update (cfg := { cfg with sampleFreq := 0 }) (ds := ds) (grad := grad) (bounds := bounds)
      (k := k) (d := d) (F := F) (ds' := initSupercats { ds with updateCount := ds.updateCount + 1 }) ?_ ?_)
    · refine refresh_ends hc hd (k := k + 1) ?_ (by omega) hg
      have c0 := core.toInv0
      exact ⟨c0.data, c0.uc, c0.ne, c0.nf, c0.lbv, c0.lnb, c0.lsc, c0.lsup, c0.lens, c0.feat, c0.useful, c0.nodup,
        c0.sorted, c0.pos, c0.nonlo, c0.bag, c0.lo, c0.feats⟩
    · refine ⟨⟨hi0.data, hi0.uc, hi0.ne, hi0.nf, hi0.lbv, hi0.lnb, hi0.lsc, hi0.lsup, hi0.lens, hi0.feat, hi0.useful,
        hi0.nodup, hi0.sorted, hi0.pos, hi0.nonlo, hi0.bag, hi0.lo, hi0.feats⟩, ?_, ?_⟩
      · intro _ h; exact absurd rfl h
      · intro _ h; exact absurd rfl h
    · unfold update
      simp [skipped]

end
end Dataset
end BitBoost
