import Verif.Lemmas.Sampling
import Verif.Lemmas.Binner
/-! Invariants of the data set. -/
namespace BitBoost
namespace Binner

/-- The bins of a rank iterator never decrease, and are valid, whatever the ranks are. -/
theorem rankIter_mono {β R : Type} (o : RankOps R) (ext : β → R) (bins : List β) (ranks : List R) :
    ∀ (s : RankState R) (qs : List Nat), s.binIndex ≤ bins.length →
      rankIter o ext bins ranks s = .ok qs →
      qs.length = ranks.length ∧ qs.Pairwise (· ≤ ·) ∧
        ∀ q ∈ qs, s.binIndex ≤ q + 1 ∧ q < bins.length := by
  have hloop : ∀ (rank : R) (xs : List R) (s : RankState R),
      s.binIndex ≤ (rankLoop o rank xs s).binIndex ∧
        (rankLoop o rank xs s).binIndex ≤ s.binIndex + xs.length := by
    intro rank xs
    induction xs with
    | nil => intro s; simp [rankLoop]
    | cons x xs ih =>
      intro s
      simp only [rankLoop]
      split
      · have := ih { accum := o.add s.accum x, prevAccum := s.accum, binIndex := s.binIndex + 1 }
        simp only [List.length_cons] at *
        omega
      · simp
  induction ranks with
  | nil =>
    intro s qs _ h
    simp only [rankIter, Out.ok.injEq] at h
    subst h
    simp
  | cons r rs ih =>
    intro s qs hs h
    simp only [rankIter] at h
    obtain ⟨⟨i, s'⟩, e1, h⟩ := Out.bind_eq_ok.1 h
    obtain ⟨l, e2, h⟩ := Out.bind_eq_ok.1 h
    simp only [Out.pure_eq, Out.ok.injEq] at h
    subst h
    unfold rankNext at e1
    have hb := hloop r ((bins.drop s.binIndex).map ext) s
    simp only [List.length_map, List.length_drop] at hb
    simp only at e1
    split at e1
    · cases e1
    · rename_i hne
      simp only [Out.ok.injEq, Prod.mk.injEq] at e1
      obtain ⟨rfl, rfl⟩ := e1
      simp only at e2
      generalize hS : rankLoop o r ((bins.drop s.binIndex).map ext) s = S at *
      obtain ⟨a1, a2, a3⟩ := ih S _ (by omega) e2
      refine ⟨by simp [a1], List.pairwise_cons.2 ⟨?_, a2⟩, ?_⟩
      · intro q hq
        have := (a3 q hq).1
        omega
      · intro q hq
        rcases List.mem_cons.1 hq with rfl | hq
        · constructor
          · omega
          · have := hb.2; omega
        · have := a3 q hq; omega

end Binner

namespace Dataset

theorem dedupLoop_spec : ∀ (qs : List Nat) (last : Nat), qs.Pairwise (· ≤ ·) →
    ((∀ q ∈ qs, last ≤ q) ∨ (∀ q ∈ qs, q < last)) →
    (dedupLoop last qs).Pairwise (· < ·) ∧ (dedupLoop last qs).length ≤ qs.length ∧
      (∀ q ∈ dedupLoop last qs, q ∈ qs) ∧
      ((∀ q ∈ qs, last ≤ q) → ∀ q ∈ dedupLoop last qs, last < q) ∧
      ((∀ q ∈ qs, q < last) → qs ≠ [] → dedupLoop last qs ≠ []) := by
  intro qs
  induction qs with
  | nil => intro last _ _; simp [dedupLoop]
  | cons q qs ih =>
    intro last hs hl
    rw [List.pairwise_cons] at hs
    simp only [dedupLoop]
    split
    · rename_i hq
      subst hq
      obtain ⟨h1, h2, h3, h4, _⟩ := ih q hs.2 (Or.inl hs.1)
      refine ⟨h1, by simp only [List.length_cons]; omega, fun x hx => by simp [h3 x hx], fun _ => h4 hs.1, ?_⟩
      intro h
      exact absurd (h q (by simp)) (by omega)
    · rename_i hq
      obtain ⟨h1, h2, h3, h4, _⟩ := ih q hs.2 (Or.inl hs.1)
      refine ⟨List.pairwise_cons.2 ⟨fun x hx => h4 hs.1 x hx, h1⟩,
        by simp only [List.length_cons]; omega, ?_, ?_, by simp⟩
      · intro x hx
        rcases List.mem_cons.1 hx with rfl | hx
        · simp
        · simp [h3 x hx]
      · intro h x hx
        have h5 := h q (by simp)
        rcases List.mem_cons.1 hx with rfl | hx
        · omega
        · have := h4 hs.1 x hx; omega

theorem countBelow_le (x : Num) (l : List Num) : countBelow x l ≤ l.length := by
  induction l with
  | nil => simp [countBelow]
  | cons s ss ih => simp only [countBelow]; split <;> simp; omega

/-- An update of some features leaves everything else alone. -/
structure Frame (S : List Nat) (ds ds' : Dataset) : Prop where
  data : ds'.data = ds.data
  rng : ds'.rng = ds.rng
  useful : ds'.useful = ds.useful
  nf : ds'.nactiveFeatures = ds.nactiveFeatures
  ne : ds'.nactiveExamples = ds.nactiveExamples
  nonlo : ds'.hasNonLocard = ds.hasNonLocard
  ib : ds'.indexBuffer = ds.indexBuffer
  uc : ds'.updateCount = ds.updateCount
  lbv : ds'.bitvecs.length = ds.bitvecs.length
  lnb : ds'.usedNbins.length = ds.usedNbins.length
  lsc : ds'.splitCandidates.length = ds.splitCandidates.length
  lsup : ds'.supercats.length = ds.supercats.length
  bv : ∀ g, g ∉ S → ds'.bitvecs[g]? = ds.bitvecs[g]?
  nb : ∀ g, g ∉ S → ds'.usedNbins[g]? = ds.usedNbins[g]?
  sc : ∀ g, g ∉ S → ds'.splitCandidates[g]? = ds.splitCandidates[g]?
  sup : ∀ g, g ∉ S → ds'.supercats[g]? = ds.supercats[g]?
  lens : ∀ (f : Nat) (bvs : List Blocks), ds.bitvecs[f]? = some bvs → ∃ (bvs' : List Blocks), ds'.bitvecs[f]? = some bvs' ∧
    bvs'.length = bvs.length ∧ ∀ L, (∀ b ∈ bvs, b.length = L) → ∀ b ∈ bvs', b.length = L

/-- The binner used for the values of a numerical column. -/
def numBinner (F : FP) (c : Column) : Binner Num :=
  ⟨List.replicate quantileNbins (.fin 0), c.lo,
    F.div (F.sub c.hi c.lo) (F.ofNat quantileNbins)⟩

/-- Number of leading split candidates below the upper end of the bin of `v`. -/
def numCat (F : FP) (c : Column) (splits : List Num) (v : Num) : Nat :=
  countBelow (Binner.representative F (numBinner F c) (Binner.getBin F (numBinner F c) v + 1)) splits

/-- The masks of a feature are those of the rows `rows`. -/
def FeatOk (F : FP) (cfg : Config) (rows : List Nat) (ds : Dataset) (f : Nat) : Prop :=
  ∃ c bvs nb, ds.data.cols[f]? = some c ∧ ds.bitvecs[f]? = some bvs ∧ ds.usedNbins[f]? = some nb ∧
    nb ≤ bvs.length ∧
    match c.ftype with
    | .loCardCat => nb = Data.colMaxNbins ds.data.maxNbins c ∧ ∀ b < nb, ∃ m, bvs[b]? = some m ∧
        ∀ i, Blocks.bit m i = true ↔ ∃ (j : Nat) (v : Num), rows[i]? = some j ∧ c.values[j]? = some v ∧ intoCat v = b
    | .hiCardCat => 0 < nb ∧ nb ≤ cfg.maxNbins ∧ ∃ (sc : List Nat), ds.supercats[f]? = some sc ∧
        sc.length = c.card ∧ (∀ s ∈ sc, s ≤ nb) ∧
        (∀ (i j : Nat) (v : Num), rows[i]? = some j → c.values[j]? = some v → intoCat v < c.card) ∧
        ∀ b < nb, ∃ m, bvs[b]? = some m ∧
          ∀ i, Blocks.bit m i = true ↔ ∃ (j : Nat) (v : Num) (s : Nat), rows[i]? = some j ∧ c.values[j]? = some v ∧
            sc[intoCat v]? = some s ∧ s ≤ b
    | .numerical => 0 < nb ∧ nb ≤ cfg.maxNbins ∧ ∃ (splits : List Num) (qs : List Nat), ds.splitCandidates[f]? = some splits ∧
        splits.length = nb ∧ c.lo.isFinite = true ∧ c.hi.isFinite = true ∧ c.lo.lt c.hi = true ∧
        splits = qs.map (fun q => Binner.representative F (numBinner F c) (q + 1)) ∧
        qs.Pairwise (· < ·) ∧ (∀ q ∈ qs, q < quantileNbins) ∧
        ∀ b < nb, ∃ m, bvs[b]? = some m ∧
          ∀ i, Blocks.bit m i = true ↔ ∃ (j : Nat) (v : Num), rows[i]? = some j ∧ c.values[j]? = some v ∧
            numCat F c splits v ≤ b

theorem FeatOk.frame {F : FP} {cfg : Config} {rows : List Nat} {ds ds' : Dataset} {S : List Nat} {g : Nat}
    (h : FeatOk F cfg rows ds g) (hf : Frame S ds ds') (hne : g ∉ S) : FeatOk F cfg rows ds' g := by
  unfold FeatOk at *
  rw [hf.data, hf.bv g hne, hf.nb g hne, hf.sup g hne, hf.sc g hne]
  exact h

theorem Frame.refl (S : List Nat) (ds : Dataset) : Frame S ds ds :=
  ⟨rfl, rfl, rfl, rfl, rfl, rfl, rfl, rfl, rfl, rfl, rfl, rfl, fun _ _ => rfl, fun _ _ => rfl,
    fun _ _ => rfl, fun _ _ => rfl, fun _ bvs h => ⟨bvs, h, rfl, fun _ h => h⟩⟩

theorem Frame.trans {S T : List Nat} {a b c : Dataset} (h : Frame S a b) (h' : Frame T b c) :
    Frame (S ++ T) a c := by
  refine ⟨h'.data.trans h.data, h'.rng.trans h.rng, h'.useful.trans h.useful, h'.nf.trans h.nf,
    h'.ne.trans h.ne, h'.nonlo.trans h.nonlo, h'.ib.trans h.ib, h'.uc.trans h.uc, h'.lbv.trans h.lbv,
    h'.lnb.trans h.lnb, h'.lsc.trans h.lsc, h'.lsup.trans h.lsup, ?_, ?_, ?_, ?_, ?_⟩
  · intro g hg; rw [List.mem_append, not_or] at hg; rw [h'.bv g hg.2, h.bv g hg.1]
  · intro g hg; rw [List.mem_append, not_or] at hg; rw [h'.nb g hg.2, h.nb g hg.1]
  · intro g hg; rw [List.mem_append, not_or] at hg; rw [h'.sc g hg.2, h.sc g hg.1]
  · intro g hg; rw [List.mem_append, not_or] at hg; rw [h'.sup g hg.2, h.sup g hg.1]
  · intro f bvs hb
    obtain ⟨b1, e1, e2, e3⟩ := h.lens f bvs hb
    obtain ⟨b2, g1, g2, g3⟩ := h'.lens f b1 e1
    exact ⟨b2, g1, g2.trans e2, fun L hL => g3 L (e3 L hL)⟩

theorem zeroMasks_length {bvs : List Blocks} : (zeroMasks bvs).length = bvs.length := by simp [zeroMasks]

theorem fillMasks_lens {cats : List Nat} {bvs bvs' : List Blocks} {L : Nat}
    (h : fillMasks cats 0 (zeroMasks bvs) = .ok bvs') (hL : ∀ b ∈ bvs, b.length = L) :
    ∀ b ∈ bvs', b.length = L := by
  obtain ⟨h1, h2⟩ := fillMasks_spec _ _ _ _ h
  intro b hb
  obtain ⟨k, hk⟩ := List.mem_iff_getElem?.1 hb
  have hkl : k < bvs.length := by
    have := (List.getElem?_eq_some_iff.1 hk).1; rw [h1, zeroMasks_length] at this; exact this
  obtain ⟨b', g1, g2, _⟩ := h2 k (bvs[k].map fun _ => BitBlock.zeros)
    (by rw [zeroMasks_get, List.getElem?_eq_getElem hkl]; rfl)
  rw [hk] at g1; cases g1
  rw [g2]; simpa using hL _ (List.getElem_mem _)

theorem updateLocard_spec (F : FP) (cfg : Config) {ds ds' : Dataset} {f : Nat} {rows : List Nat}
    {c : Column} (hc : ds.data.cols[f]? = some c) (ht : c.ftype = .loCardCat)
    (hlen : ∀ bvs, ds.bitvecs[f]? = some bvs → bvs.length = Data.colMaxNbins ds.data.maxNbins c)
    (h : updateLocard ds f rows = .ok ds') : Frame [f] ds ds' ∧ FeatOk F cfg rows ds' f := by
  unfold updateLocard at h
  obtain ⟨c', e0, h'⟩ := Out.bind_eq_ok.1 h
  clear h
  rename' h' => h
  unfold column at e0
  rw [at?_ok, hc] at e0
  cases e0
  obtain ⟨bvs, e1, h⟩ := Out.bind_eq_ok.1 h
  obtain ⟨vals, e2, h⟩ := Out.bind_eq_ok.1 h
  obtain ⟨bvs', e3, h⟩ := Out.bind_eq_ok.1 h
  obtain ⟨_, e4, h⟩ := Out.bind_eq_ok.1 h
  rw [at?_ok] at e1
  rw [assert_ok] at e4
  simp only [decide_eq_true_eq] at e4
  simp only [Out.pure_eq, Out.ok.injEq] at h
  subst h
  obtain ⟨h1, h2⟩ := fillMasks_spec _ _ _ _ e3
  have hfl : f < ds.bitvecs.length := (List.getElem?_eq_some_iff.1 e1).1
  constructor
  · refine ⟨rfl, rfl, rfl, rfl, rfl, rfl, rfl, rfl, by simp, by simp, rfl, rfl, ?_, ?_, fun _ _ => rfl,
      fun _ _ => rfl, ?_⟩
    · intro g hg; simp at hg; simp [List.getElem?_set_ne (Ne.symm hg)]
    · intro g hg; simp at hg; simp [List.getElem?_set_ne (Ne.symm hg)]
    · intro g b hb
      by_cases hg : g = f
      swap
      · exact ⟨b, by simpa [List.getElem?_set_ne (Ne.symm hg)] using hb, rfl, fun _ h => h⟩
      subst hg
      rw [e1] at hb; cases hb
      exact ⟨bvs', by simp [hfl], by rw [h1, zeroMasks_length], fun L hL => fillMasks_lens e3 hL⟩
  · refine ⟨c, bvs', Data.colMaxNbins ds.data.maxNbins c, hc, by simp [hfl], by simp [e4], ?_, ?_⟩
    · rw [h1, zeroMasks_length, hlen bvs e1]
    · rw [ht]
      refine ⟨rfl, fun b hb => ?_⟩
      rw [← hlen bvs e1] at hb
      obtain ⟨m, g1, g2, g3⟩ := h2 b (bvs[b].map fun _ => BitBlock.zeros)
        (by rw [zeroMasks_get, List.getElem?_eq_getElem hb]; rfl)
      refine ⟨m, g1, fun i => ?_⟩
      rw [g3, bit_zero]
      simp only [Nat.zero_le, true_and, Nat.sub_zero, Bool.false_or, decide_eq_true_eq,
        List.getElem?_map, gather_get e2]
      constructor
      · intro hh
        cases hj : rows[i]? with
        | none => rw [hj] at hh; simp at hh
        | some j =>
          rw [hj] at hh
          simp only [Option.bind_some] at hh
          cases hv : c.values[j]? with
          | none => rw [hv] at hh; simp at hh
          | some v => rw [hv] at hh; simp at hh; exact ⟨j, v, rfl, hv, hh⟩
      · rintro ⟨j, v, hj, hv, rfl⟩
        rw [hj]; simp [hv]

theorem gradStats_length (F : FP) (grad : List Num) : ∀ (vs : List Num) (i : Nat)
    (st st' : List (Num × Nat)), gradStats F grad vs i st = .ok st' →
    st'.length = st.length ∧ ∀ v ∈ vs, intoCat v < st.length := by
  intro vs
  induction vs with
  | nil => intro i st st' h; simp only [gradStats, Out.ok.injEq] at h; subst h; simp
  | cons v vs ih =>
    intro i st st' h
    simp only [gradStats] at h
    obtain ⟨e, e1, h⟩ := Out.bind_eq_ok.1 h
    obtain ⟨g, e2, h⟩ := Out.bind_eq_ok.1 h
    obtain ⟨h1, h2⟩ := ih _ _ _ h
    simp only [List.length_set] at h1 h2
    rw [at?_ok] at e1
    refine ⟨h1, fun x hx => ?_⟩
    rcases List.mem_cons.1 hx with rfl | hx
    · exact (List.getElem?_eq_some_iff.1 e1).1
    · exact h2 x hx

theorem hicardWeights_length {F : FP} {k n : Nat} {stats : List (Num × Nat)} {bounds : Num × Num}
    {w : List Num} (h : hicardWeights F k n stats bounds = .ok w) : w.length ≤ k := by
  unfold hicardWeights at h
  obtain ⟨b, e1, h⟩ := Out.bind_eq_ok.1 h
  obtain ⟨b', e2, h⟩ := Out.bind_eq_ok.1 h
  obtain ⟨qs, e3, h⟩ := Out.bind_eq_ok.1 h
  simp only [Out.pure_eq, Out.ok.injEq] at h
  subst h
  obtain ⟨l, hh, _, _, _, hne, hb⟩ := Binner.new_eq_ok.1 e1
  obtain ⟨b2, a1, _, _, a2, _⟩ := Binner.insertAll_ok F (fun (d x : Nat) => x + d)
    ((stats.filter fun p => p.2 != 0).map fun p => (meanOf F p, p.2)) b (by rw [hb]; exact hne)
  rw [a1] at e2; cases e2
  obtain ⟨m1, m2, m3⟩ := Binner.rankIter_mono _ _ _ _ _ _ (by simp [Binner.rankStart]) e3
  have hlen : b'.bins.length = quantileNbins := by rw [a2, hb]; simp
  have := (dedupLoop_spec qs (2 ^ 64 - 1) m2 (Or.inr (fun q hq => by
    have := (m3 q hq).2; rw [hlen] at this; unfold quantileNbins at this; omega))).2.1
  simp only [List.length_map]
  rw [m1] at this
  simpa using this

theorem updateHicard_spec {F : FP} {cfg : Config} {ds ds' : Dataset} {f : Nat} {rows : List Nat}
    {grad : List Num} {bounds : Num × Num} {L : Nat}
    {c : Column} (hc : ds.data.cols[f]? = some c) (ht : c.ftype = .hiCardCat)
    (hL : ∀ bvs, ds.bitvecs[f]? = some bvs → ∀ b ∈ bvs, b.length = L)
    (h : updateHicard F cfg ds f rows grad bounds = .ok ds') :
    Frame [f] ds ds' ∧ FeatOk F cfg rows ds' f := by
  unfold updateHicard at h
  obtain ⟨c', e0, h'⟩ := Out.bind_eq_ok.1 h
  clear h
  rename' h' => h
  unfold column at e0
  rw [at?_ok, hc] at e0
  cases e0
  obtain ⟨vals, e1, h⟩ := Out.bind_eq_ok.1 h
  obtain ⟨stats, e2, h⟩ := Out.bind_eq_ok.1 h
  obtain ⟨w, e3, h⟩ := Out.bind_eq_ok.1 h
  obtain ⟨bvs, e4, h⟩ := Out.bind_eq_ok.1 h
  obtain ⟨cats, e5, h⟩ := Out.bind_eq_ok.1 h
  obtain ⟨bvs', e6, h⟩ := Out.bind_eq_ok.1 h
  obtain ⟨_, e7, h⟩ := Out.bind_eq_ok.1 h
  obtain ⟨_, e8, h⟩ := Out.bind_eq_ok.1 h
  rw [at?_ok] at e4
  rw [assert_ok] at e7 e8
  simp only [decide_eq_true_eq] at e7 e8
  simp only [Out.pure_eq, Out.ok.injEq] at h
  subst h
  have hfl : f < ds.bitvecs.length := (List.getElem?_eq_some_iff.1 e4).1
  obtain ⟨b1, b2, b3, b4, b5⟩ := buildMasks_spec (hL bvs e4) e6
  obtain ⟨s1, s2⟩ := gradStats_length _ _ _ _ _ _ e2
  simp only [List.length_replicate] at s1 s2
  constructor
  · refine ⟨rfl, rfl, rfl, rfl, rfl, rfl, rfl, rfl, by simp, by simp, rfl, by simp, ?_, ?_, fun _ _ => rfl,
      ?_, ?_⟩
    · intro g hg; simp at hg; simp [List.getElem?_set_ne (Ne.symm hg)]
    · intro g hg; simp at hg; simp [List.getElem?_set_ne (Ne.symm hg)]
    · intro g hg; simp at hg; simp [List.getElem?_set_ne (Ne.symm hg)]
    · intro g b hb
      by_cases hg : g = f
      swap
      · exact ⟨b, by simpa [List.getElem?_set_ne (Ne.symm hg)] using hb, rfl, fun _ h => h⟩
      subst hg
      rw [e4] at hb; cases hb
      exact ⟨bvs', by simp [hfl], b3, fun L' hL' => (buildMasks_spec hL' e6).2.2.2.1⟩
  · refine ⟨c, bvs', w.length, hc, by simp [hfl], by simp [e7], by omega, ?_⟩
    rw [ht]
    refine ⟨b1, hicardWeights_length e3, stats.map fun p => countBelow (meanOf F p) w, by simp [e8],
      by simpa using s1, ?_, ?_, ?_⟩
    · intro s hs
      obtain ⟨p, _, rfl⟩ := List.mem_map.1 hs
      exact countBelow_le _ _
    · intro i j v hj hv
      apply s2
      have := gather_get e1 i
      rw [hj] at this
      simp only [Option.bind_some, hv] at this
      exact List.mem_of_getElem? this
    · intro b hb
      obtain ⟨m, g1, g2⟩ := b5 b hb
      refine ⟨m, g1, fun i => ?_⟩
      rw [g2, gather_get e5, List.getElem?_map, gather_get e1]
      constructor
      · rintro ⟨k, hk, hh⟩
        cases hj : rows[i]? with
        | none => rw [hj] at hh; simp at hh
        | some j =>
          rw [hj] at hh
          simp only [Option.bind_some] at hh
          cases hv : c.values[j]? with
          | none => rw [hv] at hh; simp at hh
          | some v =>
            rw [hv] at hh
            simp only [Option.map_some, Option.bind_some] at hh
            exact ⟨j, v, k, rfl, hv, hh, hk⟩
      · rintro ⟨j, v, s, hj, hv, hs, hle⟩
        refine ⟨s, hle, ?_⟩
        rw [hj]
        simp only [Option.bind_some, hv, Option.map_some]
        exact hs

theorem updateNum_spec {F : FP} {cfg : Config} {ds ds' : Dataset} {f : Nat} {rows : List Nat}
    {grad : List Num} {L : Nat}
    {c : Column} (hc : ds.data.cols[f]? = some c) (ht : c.ftype = .numerical)
    (hL : ∀ bvs, ds.bitvecs[f]? = some bvs → ∀ b ∈ bvs, b.length = L)
    (h : updateNum F cfg ds f rows grad = .ok ds') :
    Frame [f] ds ds' ∧ FeatOk F cfg rows ds' f := by
  unfold updateNum at h
  obtain ⟨c', e0, h'⟩ := Out.bind_eq_ok.1 h
  clear h
  rename' h' => h
  unfold column at e0
  rw [at?_ok, hc] at e0
  cases e0
  obtain ⟨vals, e1, h⟩ := Out.bind_eq_ok.1 h
  obtain ⟨grads, e2, h⟩ := Out.bind_eq_ok.1 h
  obtain ⟨⟨splits, bn⟩, e3, h⟩ := Out.bind_eq_ok.1 h
  obtain ⟨bvs, e4, h⟩ := Out.bind_eq_ok.1 h
  obtain ⟨cats, e5, h⟩ := Out.bind_eq_ok.1 h
  obtain ⟨bvs', e6, h⟩ := Out.bind_eq_ok.1 h
  obtain ⟨_, e7, h⟩ := Out.bind_eq_ok.1 h
  obtain ⟨_, e8, h⟩ := Out.bind_eq_ok.1 h
  rw [at?_ok] at e4
  rw [assert_ok] at e7 e8
  simp only [decide_eq_true_eq] at e7 e8
  simp only [Out.pure_eq, Out.ok.injEq] at h
  subst h
  have hfl : f < ds.bitvecs.length := (List.getElem?_eq_some_iff.1 e4).1
  obtain ⟨b1, b2, b3, b4, b5⟩ := buildMasks_spec (hL bvs e4) e6
  -- the splits
  unfold numSplits at e3
  obtain ⟨bn0, n1, e3⟩ := Out.bind_eq_ok.1 e3
  obtain ⟨bn1, n2, e3⟩ := Out.bind_eq_ok.1 e3
  obtain ⟨qs, n3, e3⟩ := Out.bind_eq_ok.1 e3
  obtain ⟨_, n4, e3⟩ := Out.bind_eq_ok.1 e3
  obtain ⟨_, n5, e3⟩ := Out.bind_eq_ok.1 e3
  simp only [Out.pure_eq, Out.ok.injEq, Prod.mk.injEq] at e3
  obtain ⟨rfl, rfl⟩ := e3
  rw [assert_ok] at n4 n5
  simp only [decide_eq_true_eq] at n4 n5
  obtain ⟨l, hh, hlo, hhi, hlt, hne, hb⟩ := Binner.new_eq_ok.1 n1
  obtain ⟨b2', a1, a3, a4, a2, a5⟩ := Binner.insertAll_ok F (fun (d x : Num) => F.add x d)
    (vals.zip (grads.map (numWeight F))) bn0 (by rw [hb]; exact hne)
  rw [a1] at n2; cases n2
  have hlen : bn1.bins.length = quantileNbins := by rw [a2, hb]; simp
  have hmin : bn1.minValue = (numBinner F c).minValue := by rw [a3, hb, ← hlo]; rfl
  have hdelta : bn1.delta = (numBinner F c).delta := by
    rw [a4, hb]
    simp only [numBinner, hlo, hhi, FP.sub_fin, List.length_replicate]; rfl
  have hlen' : bn1.bins.length = (numBinner F c).bins.length := by
    rw [hlen]; simp [numBinner]
  have hrep : ∀ k, Binner.representative F bn1 k = Binner.representative F (numBinner F c) k := by
    intro k; unfold Binner.representative; rw [hmin, hdelta, hlen']
  have hbin : ∀ v, Binner.getBin F bn1 v = Binner.getBin F (numBinner F c) v := by
    intro v; unfold Binner.getBin; rw [hmin, hdelta, hlen']
  obtain ⟨m1, m2, m3⟩ := Binner.rankIter_mono _ _ _ _ _ _ (by simp [Binner.rankStart]) n3
  obtain ⟨d1, d2, d3, _, _⟩ := dedupLoop_spec qs (2 ^ 64 - 1) m2 (Or.inr (fun q hq => by
    have := (m3 q hq).2; rw [hlen] at this; unfold quantileNbins at this; omega))
  have hsp : (dedupLoop (2 ^ 64 - 1) qs).map (fun q => Binner.representative F bn1 (q + 1)) =
      (dedupLoop (2 ^ 64 - 1) qs).map (fun q => Binner.representative F (numBinner F c) (q + 1)) :=
    List.map_congr_left (fun q _ => hrep _)
  generalize hS : (dedupLoop (2 ^ 64 - 1) qs).map (fun q => Binner.representative F bn1 (q + 1)) = splits at *
  generalize dedupLoop (2 ^ 64 - 1) qs = Q at *
  have hcats : ∀ i : Nat, cats[i]? = (rows[i]?.bind fun j => c.values[j]?).map (numCat F c splits) := by
    intro i
    rw [gather_get e5, List.getElem?_map, gather_get e1]
    cases hv : (rows[i]?.bind fun j => c.values[j]?) with
    | none => rfl
    | some v =>
      simp only [Option.map_some, Option.bind_some]
      unfold binCats numCat
      have hlt2 : Binner.getBin F bn1 v < quantileNbins := by
        rw [← hlen]; exact Binner.getBin_lt F bn1 v (by
          intro h0; rw [h0] at hlen; simp [quantileNbins] at hlen)
      rw [List.getElem?_map, List.getElem?_range hlt2]
      simp only [Option.map_some, hrep, hbin]
  constructor
  · refine ⟨rfl, rfl, rfl, rfl, rfl, rfl, rfl, rfl, by simp, by simp, by simp, rfl, ?_, ?_, ?_,
      fun _ _ => rfl, ?_⟩
    · intro g hg; simp at hg; simp [List.getElem?_set_ne (Ne.symm hg)]
    · intro g hg; simp at hg; simp [List.getElem?_set_ne (Ne.symm hg)]
    · intro g hg; simp at hg; simp [List.getElem?_set_ne (Ne.symm hg)]
    · intro g b hb
      by_cases hg : g = f
      swap
      · exact ⟨b, by simpa [List.getElem?_set_ne (Ne.symm hg)] using hb, rfl, fun _ h => h⟩
      subst hg
      rw [e4] at hb; cases hb
      exact ⟨bvs', by simp [hfl], b3, fun L' hL' => (buildMasks_spec hL' e6).2.2.2.1⟩
  · refine ⟨c, bvs', splits.length, hc, by simp [hfl], by simp [e7], by omega, ?_⟩
    rw [ht]
    refine ⟨n5, n4, splits, Q, by simp [e8], rfl, by rw [hlo]; rfl, by rw [hhi]; rfl,
      by rw [hlo, hhi]; simpa using hlt, hsp, d1, ?_, ?_⟩
    · intro q hq
      have := (m3 q (d3 q hq)).2; rw [hlen] at this; exact this
    · intro b hb
      obtain ⟨m, g1, g2⟩ := b5 b hb
      refine ⟨m, g1, fun i => ?_⟩
      rw [g2, hcats]
      constructor
      · rintro ⟨k, hk, hh⟩
        cases hj : rows[i]? with
        | none => rw [hj] at hh; simp at hh
        | some j =>
          rw [hj] at hh
          simp only [Option.bind_some] at hh
          cases hv : c.values[j]? with
          | none => rw [hv] at hh; simp at hh
          | some v =>
            rw [hv] at hh
            simp only [Option.map_some, Option.some.injEq] at hh
            exact ⟨j, v, rfl, hv, by omega⟩
      · rintro ⟨j, v, hj, hv, hle⟩
        exact ⟨_, hle, by rw [hj]; simp [hv]⟩

theorem updateFeatures_spec {F : FP} {cfg : Config} {grad : List Num} {bounds : Num × Num} {bagged : Bool}
    {rows : List Nat} {L : Nat} : ∀ (fs : List Nat) (ds ds' : Dataset), fs.Nodup →
    (∀ f ∈ fs, ∃ c bvs, ds.data.cols[f]? = some c ∧ ds.bitvecs[f]? = some bvs ∧
      bvs.length = Data.colMaxNbins ds.data.maxNbins c ∧ (∀ b ∈ bvs, b.length = L) ∧
      (c.ftype = .loCardCat → bagged = false → FeatOk F cfg rows ds f)) →
    updateFeatures F cfg grad bounds bagged rows fs ds = .ok ds' →
    Frame fs ds ds' ∧ ∀ f ∈ fs, FeatOk F cfg rows ds' f := by
  intro fs
  induction fs with
  | nil =>
    intro ds ds' _ _ h
    simp only [updateFeatures, Out.ok.injEq] at h
    subst h
    exact ⟨Frame.refl _ _, by simp⟩
  | cons f fs ih =>
    intro ds ds' hnd hfs h
    rw [List.nodup_cons] at hnd
    obtain ⟨c, bvs, hc, hb, hlen, hL, hlo⟩ := hfs f (by simp)
    simp only [updateFeatures] at h
    obtain ⟨ds1, e1, h⟩ := Out.bind_eq_ok.1 h
    unfold updateFeature column at e1
    rw [(at?_ok (l := ds.data.cols) (i := f)).2 hc] at e1
    simp only [Out.ok_bind] at e1
    have key : Frame [f] ds ds1 ∧ FeatOk F cfg rows ds1 f := by
      have hlen' : ∀ bvs, ds.bitvecs[f]? = some bvs → bvs.length = Data.colMaxNbins ds.data.maxNbins c := by
        intro b hb'; rw [hb] at hb'; cases hb'; exact hlen
      have hL' : ∀ bvs, ds.bitvecs[f]? = some bvs → ∀ b ∈ bvs, b.length = L := by
        intro b hb'; rw [hb] at hb'; cases hb'; exact hL
      cases ht : c.ftype with
      | loCardCat =>
        rw [ht] at e1
        cases hbag : bagged with
        | true =>
          rw [hbag] at e1
          exact updateLocard_spec F cfg hc ht hlen' e1
        | false =>
          rw [hbag] at e1
          simp only [Bool.false_eq_true, if_false, Out.ok.injEq] at e1
          subst e1
          exact ⟨Frame.refl _ _, hlo ht hbag⟩
      | hiCardCat =>
        rw [ht] at e1
        exact updateHicard_spec hc ht hL' e1
      | numerical =>
        rw [ht] at e1
        exact updateNum_spec hc ht hL' e1
    obtain ⟨k1, k2⟩ := key
    obtain ⟨r1, r2⟩ := ih ds1 ds' hnd.2 (by
      intro g hg
      obtain ⟨c', bvs', hc', hb', hlen', hL', hlo'⟩ := hfs g (by simp [hg])
      have hne : g ∉ [f] := by simp; rintro rfl; exact hnd.1 hg
      refine ⟨c', bvs', by rw [k1.data]; exact hc', by rw [k1.bv g hne]; exact hb', by rw [k1.data]; exact hlen',
        hL', fun h1 h2 => (hlo' h1 h2).frame k1 hne⟩) h
    refine ⟨k1.trans r1, fun g hg => ?_⟩
    rcases List.mem_cons.1 hg with rfl | hg
    · exact k2.frame r1 hnd.1
    · exact r2 g hg

theorem initLocard_spec {F : FP} {cfg : Config} {rows : List Nat} : ∀ (fs : List Nat) (ds ds' : Dataset),
    fs.Nodup → (∀ f ∈ fs, ∃ c bvs, ds.data.cols[f]? = some c ∧ ds.bitvecs[f]? = some bvs ∧
      bvs.length = Data.colMaxNbins ds.data.maxNbins c) →
    initLocard rows fs ds = .ok ds' →
    Frame fs ds ds' ∧ (∀ f ∈ fs, ∀ c, ds.data.cols[f]? = some c →
      (c.ftype = .loCardCat → FeatOk F cfg rows ds' f) ∧
      (c.ftype ≠ .loCardCat → ds'.usedNbins[f]? = ds.usedNbins[f]?)) ∧
      ds'.splitCandidates = ds.splitCandidates ∧ ds'.supercats = ds.supercats := by
  intro fs
  induction fs with
  | nil =>
    intro ds ds' _ _ h
    simp only [initLocard, Out.ok.injEq] at h
    subst h
    exact ⟨Frame.refl _ _, by simp, rfl, rfl⟩
  | cons f fs ih =>
    intro ds ds' hnd hfs h
    rw [List.nodup_cons] at hnd
    obtain ⟨c, bvs, hc, hb, hlen⟩ := hfs f (by simp)
    simp only [initLocard] at h
    obtain ⟨ds1, e1, h⟩ := Out.bind_eq_ok.1 h
    unfold initFeature column at e1
    rw [(at?_ok (l := ds.data.cols) (i := f)).2 hc] at e1
    simp only [Out.ok_bind] at e1
    have hlen' : ∀ bvs, ds.bitvecs[f]? = some bvs → bvs.length = Data.colMaxNbins ds.data.maxNbins c := by
      intro b hb'; rw [hb] at hb'; cases hb'; exact hlen
    have key : Frame [f] ds ds1 ∧ (c.ftype = .loCardCat → FeatOk F cfg rows ds1 f) ∧
        (c.ftype ≠ .loCardCat → ds1 = ds) ∧
        ds1.splitCandidates = ds.splitCandidates ∧ ds1.supercats = ds.supercats := by
      by_cases ht : c.ftype = .loCardCat
      · rw [if_pos ht] at e1
        have := updateLocard_spec F cfg hc ht hlen' e1
        refine ⟨this.1, fun _ => this.2, fun h => absurd ht h, ?_⟩
        unfold updateLocard at e1
        obtain ⟨_, _, e1⟩ := Out.bind_eq_ok.1 e1
        obtain ⟨_, _, e1⟩ := Out.bind_eq_ok.1 e1
        obtain ⟨_, _, e1⟩ := Out.bind_eq_ok.1 e1
        obtain ⟨_, _, e1⟩ := Out.bind_eq_ok.1 e1
        obtain ⟨_, _, e1⟩ := Out.bind_eq_ok.1 e1
        simp only [Out.pure_eq, Out.ok.injEq] at e1
        subst e1
        exact ⟨rfl, rfl⟩
      · rw [if_neg ht] at e1
        simp only [Out.ok.injEq] at e1
        subst e1
        exact ⟨Frame.refl _ _, fun h => absurd h ht, fun _ => rfl, rfl, rfl⟩
    obtain ⟨k1, k2, k3, k4, k5⟩ := key
    obtain ⟨r1, r2, r3, r4⟩ := ih ds1 ds' hnd.2 (by
      intro g hg
      obtain ⟨c', bvs', hc', hb', hlen'⟩ := hfs g (by simp [hg])
      have hne : g ∉ [f] := by simp; rintro rfl; exact hnd.1 hg
      exact ⟨c', bvs', by rw [k1.data]; exact hc', by rw [k1.bv g hne]; exact hb', by rw [k1.data]; exact hlen'⟩) h
    refine ⟨k1.trans r1, fun g hg c' hc' => ?_, r3.trans k4, r4.trans k5⟩
    rcases List.mem_cons.1 hg with rfl | hg'
    · rw [hc] at hc'; cases hc'
      refine ⟨fun ht => (k2 ht).frame r1 hnd.1, fun ht => ?_⟩
      rw [r1.nb _ hnd.1, k3 ht]
    · have hne : g ∉ [f] := by simp; rintro rfl; exact hnd.1 hg'
      obtain ⟨q1, q2⟩ := r2 g hg' c' (by rw [k1.data]; exact hc')
      exact ⟨q1, fun ht => by rw [q2 ht, k1.nb g hne]⟩

end Dataset
end BitBoost
