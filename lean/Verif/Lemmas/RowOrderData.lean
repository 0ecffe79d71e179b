import Verif.Lemmas.RowOrderTree
import Verif.Lemmas.ProgressData
import Verif.Lemmas.Hicard
/-! Helper lemmas for the order of the rows: the training view of the data. -/
namespace BitBoost
open Spec
namespace Dataset

theorem gather_range {α : Type} {n : Nat} {l : List α} (h : l.length = n) : gather l (List.range n) = .ok l := by
  obtain ⟨vs, e⟩ := gather_total l (List.range n) (by intro j hj; rw [h]; exact List.mem_range.1 hj)
  rw [e]
  congr 1
  apply List.ext_getElem?
  intro i
  rw [gather_get e]
  by_cases hi : i < n
  · rw [List.getElem?_range hi]; rfl
  · rw [List.getElem?_eq_none (by simpa using hi), List.getElem?_eq_none (by omega)]
    rfl

theorem localGrads_zip (c : Nat) : ∀ (vs grad : List Num) (i : Nat),
    localGrads grad c vs i = ((vs.zip (grad.drop i)).filter fun p => decide (intoCat p.1 = c)).map Prod.snd
  | [], _, _ => rfl
  | v :: vs, grad, i => by
      unfold localGrads
      rw [localGrads_zip c vs grad (i + 1)]
      by_cases hi : i < grad.length
      · rw [List.getElem?_eq_getElem hi, List.drop_eq_getElem_cons hi, List.zip_cons_cons]
        by_cases hc : intoCat v = c
        · simp [hc]
        · simp [hc]
      · rw [List.getElem?_eq_none (by omega), List.drop_eq_nil_of_le (by omega), List.drop_eq_nil_of_le (by omega)]
        simp

section
variable {F : FP} {cfg : Config} {σ : List Nat} {n : Nat}

theorem freeLocal {g : List Num} (h : FreeGrads F g) (c : Nat) (vs : List Num) :
    FreeGrads F (localGrads g c vs 0) := by
  refine h.imp id fun ⟨hs, hl⟩ => ?_
  rw [localGrads_zip, List.drop_zero]
  refine ⟨fun x hx => ?_, ?_⟩
  · obtain ⟨p, hp, rfl⟩ := List.mem_map.1 hx
    exact hs _ (List.of_mem_zip (List.mem_of_mem_filter hp)).2
  · rw [List.length_map]
    refine (List.length_filter_le _ _).trans ?_
    rw [List.length_zip]
    omega

theorem gradStats_same {g : List Num} (hF : FreeGrads F g) (hσ : σ.Perm (List.range n)) {g' vs vs' : List Num} (hg : Reordered σ g g')
    (hv : Reordered σ vs vs') (k : Nat) {st : List (Num × Nat)}
    (e : gradStats F g vs 0 (List.replicate k (.fin 0, 0)) = .ok st) :
    gradStats F g' vs' 0 (List.replicate k (.fin 0, 0)) = .ok st := by
  obtain ⟨h1, h2⟩ := gradStats_length F g vs 0 _ _ e
  have hlg := hg.length_right
  have hlv := hv.length_right
  obtain ⟨st', e'⟩ := gradStats_ends F g' vs' 0 (List.replicate k (.fin 0, 0))
    (fun v hv' => h2 v ((hv.perm hσ).mem_iff.1 hv')) (by omega)
  rw [e']
  congr 1
  obtain ⟨h1', _⟩ := gradStats_length F g' vs' 0 _ _ e'
  apply List.ext_getElem?
  intro c
  by_cases hc : c < k
  · have h0 : (List.replicate k ((.fin 0 : Num), (0 : Nat)))[c]? = some (.fin 0, 0) := List.getElem?_replicate_of_lt hc
    rw [gradStats_spec F g vs 0 _ _ e c _ h0, gradStats_spec F g' vs' 0 _ _ e' c _ h0]
    have hp : (localGrads g' c vs' 0).Perm (localGrads g c vs 0) := by
      rw [localGrads_zip, localGrads_zip]
      simp only [List.drop_zero]
      exact (((hv.zip hσ hg).perm hσ).filter _).map _
    rw [hp.length_eq, (freeLocal hF c vs).foldl hp]
  · rw [List.getElem?_eq_none (by rw [h1']; simpa using hc), List.getElem?_eq_none (by rw [h1]; simpa using hc)]

theorem freeWeights {g : List Num} (h : FreeGrads F g) : ∀ d ∈ g.map (numWeight F), ∀ e ∈ g.map (numWeight F), ∀ x,
    F.add (F.add x d) e = F.add (F.add x e) d := by
  rcases h with h | ⟨hs, _⟩
  · intro d _ e _ x; exact h x d e
  · have key : ∀ d ∈ g.map (numWeight F), d = numWeight F (.fin 1) ∨ d = .nan := by
      intro d hd
      obtain ⟨x, hx, rfl⟩ := List.mem_map.1 hd
      rcases hs x hx with rfl | rfl | rfl
      · exact .inl rfl
      · left; unfold numWeight; simp [Num.abs]
      · right; unfold numWeight; exact F.nan_add _
    intro d hd e he x
    rcases key d hd with rfl | rfl <;> rcases key e he with rfl | rfl <;> simp only [F.add_nan, F.nan_add]

theorem numSplits_same {g : List Num} (hF : FreeGrads F g) (hσ : σ.Perm (List.range n)) (k : Nat) (lo hi : Num) {g' vs vs' : List Num}
    (hg : Reordered σ g g') (hv : Reordered σ vs vs') : numSplits F k lo hi vs' g' = numSplits F k lo hi vs g := by
  unfold numSplits
  have h1 : (vs'.zip (g'.map (numWeight F))).Perm (vs.zip (g.map (numWeight F))) := (hv.zip hσ (hg.map _)).perm hσ
  have h2 : (g'.map (numWeight F)).Perm (g.map (numWeight F)) := (hg.map _).perm hσ
  have h3 : F.sum (g'.map (numWeight F)) = F.sum (g.map (numWeight F)) :=
    (h2.symm.foldl_eq' (fun x hx y hy z => freeWeights hF x hx y hy z) _).symm
  have h4 := fun b => Binner.insertAll_perm_on F (fun (d x : Num) => F.add x d) (l := vs.zip (g.map (numWeight F)))
    (fun p hp q hq x => freeWeights hF q.2 (List.of_mem_zip hq).2 p.2 (List.of_mem_zip hp).2 x) h1.symm b
  simp only [← h4, h3]

theorem useful_same {d d' : Data} (h : ReorderedData σ d d') {f : Nat} (hu : Useful d f) : Useful d' f := by
  obtain ⟨h1, c, h2, h3, h4⟩ := hu
  rcases forall₂_at h.cols f with ⟨c1, c', e1, e2, hc⟩ | ⟨e1, e2⟩
  · rw [h2] at e1
    cases e1
    refine ⟨by rw [h.nfeatures]; exact h1, c', e2, ?_, by rw [hc.lo, hc.hi]; exact h4⟩
    unfold Data.colMaxNbins at *
    rw [hc.ftype, hc.card, h.maxNbins]
    exact h3
  · rw [h2] at e1
    cases e1

theorem colMaxNbins_same {d d' : Data} (h : ReorderedData σ d d') {c c' : Column} (hc : ReorderedColumn σ c c') :
    Data.colMaxNbins d'.maxNbins c' = Data.colMaxNbins d.maxNbins c := by
  unfold Data.colMaxNbins
  rw [hc.ftype, hc.card, h.maxNbins]

/-- Two data sets, the same up to the order of the rows and ready for an update. -/
structure ReadyPair (σ : List Nat) (d d' : Data) (ds ds' : Dataset) : Prop where
  same : SameSet σ ds ds'
  left : Ready d d.nexamples ds
  right : Ready d' d.nexamples ds'

theorem updateHicard_leads {g : List Num} (hF : FreeGrads F g) {d d' : Data} {ds ds' : Dataset} (h : ReadyPair σ d d' ds ds') {f : Nat}
    (hu : Useful d f) {c : Column} (hcol : d.cols[f]? = some c) (ht : c.ftype = .hiCardCat) {g' : List Num}
    (hg : Reordered σ g g') (bounds : Num × Num) :
    Out.Leads (ReadyPair σ d d') (updateHicard F cfg ds f (List.range d.nexamples) g bounds)
      (updateHicard F cfg ds' f (List.range d.nexamples) g' bounds) := by
  intro ds1 e
  have hd := h.same.data
  rw [h.left.data, h.right.data] at hd
  have hσ := hd.perm
  have hn := perm_length hσ
  obtain ⟨c1, bvs, a1, a2, a3, a4⟩ := h.left.feat f hu
  rw [hcol] at a1; cases a1
  obtain ⟨c', bvs', b1, b2, b3, b4⟩ := h.right.feat f (useful_same hd hu)
  have hc : ReorderedColumn σ c c' := by
    rcases forall₂_at hd.cols f with ⟨x, x', e1, e2, hc⟩ | ⟨e1, _⟩
    · rw [hcol] at e1; cases e1
      rw [b1] at e2; cases e2
      exact hc
    · rw [hcol] at e1; cases e1
  have hv := hc.values
  have hcd : ds.data.cols[f]? = some c := by rw [h.left.data]; exact hcol
  have hcd' : ds'.data.cols[f]? = some c' := by rw [h.right.data]; exact b1
  have hL : ∀ x, ds.bitvecs[f]? = some x → ∀ b ∈ x, b.length = (d.nexamples + 255) / 256 := by
    intro x hx; rw [a2] at hx; cases hx; exact a4
  have hL' : ∀ x, ds'.bitvecs[f]? = some x → ∀ b ∈ x, b.length = (d.nexamples + 255) / 256 := by
    intro x hx; rw [b2] at hx; cases hx; exact b4
  have e0 := e
  unfold updateHicard column at e
  rw [at?_ok.2 hcd] at e
  simp only [Out.ok_bind] at e
  rw [gather_range (by rw [hv.length_left, hn]), Out.ok_bind] at e
  obtain ⟨stats, e1, e⟩ := Out.bind_eq_ok.1 e
  obtain ⟨w, e2, e⟩ := Out.bind_eq_ok.1 e
  obtain ⟨bv, e3, e⟩ := Out.bind_eq_ok.1 e
  obtain ⟨cats, e4, e⟩ := Out.bind_eq_ok.1 e
  obtain ⟨bv1, e5, e⟩ := Out.bind_eq_ok.1 e
  obtain ⟨_, e6, e⟩ := Out.bind_eq_ok.1 e
  obtain ⟨_, e7, e8⟩ := Out.bind_eq_ok.1 e
  simp only [Out.pure_eq, Out.ok.injEq] at e8
  rw [at?_ok, a2] at e3
  cases e3
  obtain ⟨m1, m2, _⟩ := buildMasks_spec a4 e5
  obtain ⟨s1, s2⟩ := gradStats_length F g c.values 0 _ _ e1
  rw [List.length_replicate] at s1 s2
  obtain ⟨cats', e4'⟩ := gather_total (stats.map fun p => countBelow (meanOf F p) w) (c'.values.map intoCat) (by
    intro j hj
    obtain ⟨v, hv1, rfl⟩ := List.mem_map.1 hj
    rw [List.length_map, s1]
    exact s2 v ((hv.perm hσ).mem_iff.1 hv1))
  obtain ⟨bv1', e5'⟩ := buildMasks_ends (cats := cats') b4 m1 (by
    rw [b3, colMaxNbins_same hd hc, ← a3]; exact m2) (by
    rw [gather_length e4', List.length_map, hv.length_right, hn]; omega)
  have res : updateHicard F cfg ds' f (List.range d.nexamples) g' bounds = .ok
      { ds' with bitvecs := ds'.bitvecs.set f bv1'
                 usedNbins := ds'.usedNbins.set f w.length
                 supercats := ds'.supercats.set f (stats.map fun p => countBelow (meanOf F p) w) } := by
    unfold updateHicard column
    rw [at?_ok.2 hcd', Out.ok_bind, gather_range (by rw [hv.length_right, hn]), Out.ok_bind, hc.card,
      gradStats_same hF hσ hg hv c.card e1, Out.ok_bind, h.same.ne, e2, Out.ok_bind]
    simp only
    rw [at?_ok.2 b2, Out.ok_bind, e4', Out.ok_bind, e5', Out.ok_bind, h.same.nb, e6, Out.ok_bind, h.same.sup, e7]
    rfl
  refine ⟨_, res, ⟨?_, h.left.frame (updateHicard_spec hcd ht hL e0).1,
    h.right.frame (updateHicard_spec hcd' (hc.ftype.trans ht) hL' res).1⟩⟩
  subst e8
  exact ⟨h.same.data, h.same.rng, h.same.useful, h.same.nf, h.same.ne, h.same.all, by simp only [h.same.sup], h.same.cand,
    by simp only [h.same.nb], h.same.nonlo, h.same.buf, h.same.buf', h.same.uc⟩

theorem updateNum_leads {g : List Num} (hF : FreeGrads F g) {d d' : Data} {ds ds' : Dataset} (h : ReadyPair σ d d' ds ds') {f : Nat}
    (hu : Useful d f) {c : Column} (hcol : d.cols[f]? = some c) (ht : c.ftype = .numerical) {g' : List Num}
    (hg : Reordered σ g g') :
    Out.Leads (ReadyPair σ d d') (updateNum F cfg ds f (List.range d.nexamples) g)
      (updateNum F cfg ds' f (List.range d.nexamples) g') := by
  intro ds1 e
  have hd := h.same.data
  rw [h.left.data, h.right.data] at hd
  have hσ := hd.perm
  have hn := perm_length hσ
  obtain ⟨c1, bvs, a1, a2, a3, a4⟩ := h.left.feat f hu
  rw [hcol] at a1; cases a1
  obtain ⟨c', bvs', b1, b2, b3, b4⟩ := h.right.feat f (useful_same hd hu)
  have hc : ReorderedColumn σ c c' := by
    rcases forall₂_at hd.cols f with ⟨x, x', e1, e2, hc⟩ | ⟨e1, _⟩
    · rw [hcol] at e1; cases e1
      rw [b1] at e2; cases e2
      exact hc
    · rw [hcol] at e1; cases e1
  have hv := hc.values
  have hcd : ds.data.cols[f]? = some c := by rw [h.left.data]; exact hcol
  have hcd' : ds'.data.cols[f]? = some c' := by rw [h.right.data]; exact b1
  have hL : ∀ x, ds.bitvecs[f]? = some x → ∀ b ∈ x, b.length = (d.nexamples + 255) / 256 := by
    intro x hx; rw [a2] at hx; cases hx; exact a4
  have hL' : ∀ x, ds'.bitvecs[f]? = some x → ∀ b ∈ x, b.length = (d.nexamples + 255) / 256 := by
    intro x hx; rw [b2] at hx; cases hx; exact b4
  have e0 := e
  unfold updateNum column at e
  rw [at?_ok.2 hcd] at e
  simp only [Out.ok_bind] at e
  rw [gather_range (by rw [hv.length_left, hn]), Out.ok_bind, gather_range (by rw [hg.length_left, hn]), Out.ok_bind] at e
  obtain ⟨⟨splits, b⟩, e1, e⟩ := Out.bind_eq_ok.1 e
  simp only at e
  obtain ⟨bv, e3, e⟩ := Out.bind_eq_ok.1 e
  obtain ⟨cats, e4, e⟩ := Out.bind_eq_ok.1 e
  obtain ⟨bv1, e5, e⟩ := Out.bind_eq_ok.1 e
  obtain ⟨_, e6, e⟩ := Out.bind_eq_ok.1 e
  obtain ⟨_, e7, e8⟩ := Out.bind_eq_ok.1 e
  simp only [Out.pure_eq, Out.ok.injEq] at e8
  rw [at?_ok, a2] at e3
  cases e3
  obtain ⟨m1, m2, _⟩ := buildMasks_spec a4 e5
  obtain ⟨cats', e4'⟩ := gather_total (binCats F b splits) (c'.values.map (Binner.getBin F b)) (by
    intro j hj
    obtain ⟨v, hv1, rfl⟩ := List.mem_map.1 hj
    have hmem : Binner.getBin F b v ∈ c.values.map (Binner.getBin F b) :=
      List.mem_map_of_mem ((hv.perm hσ).mem_iff.1 hv1)
    obtain ⟨i, hi⟩ := List.mem_iff_getElem?.1 hmem
    have hil : i < cats.length := by
      rw [gather_length e4]; exact (List.getElem?_eq_some_iff.1 hi).1
    have := gather_get e4 (i := i)
    rw [hi, List.getElem?_eq_getElem hil] at this
    simp only [Option.bind_some] at this
    exact (List.getElem?_eq_some_iff.1 this.symm).1)
  obtain ⟨bv1', e5'⟩ := buildMasks_ends (cats := cats') b4 m1 (by
    rw [b3, colMaxNbins_same hd hc, ← a3]; exact m2) (by
    rw [gather_length e4', List.length_map, hv.length_right, hn]; omega)
  have res : updateNum F cfg ds' f (List.range d.nexamples) g' = .ok
      { ds' with bitvecs := ds'.bitvecs.set f bv1'
                 usedNbins := ds'.usedNbins.set f splits.length
                 splitCandidates := ds'.splitCandidates.set f splits } := by
    unfold updateNum column
    rw [at?_ok.2 hcd', Out.ok_bind, gather_range (by rw [hv.length_right, hn]), Out.ok_bind,
      gather_range (by rw [hg.length_right, hn]), Out.ok_bind, hc.lo, hc.hi, numSplits_same hF hσ _ _ _ hg hv, e1, Out.ok_bind]
    simp only
    rw [at?_ok.2 b2, Out.ok_bind, e4', Out.ok_bind, e5', Out.ok_bind, h.same.nb, e6, Out.ok_bind, h.same.cand, e7]
    rfl
  refine ⟨_, res, ⟨?_, h.left.frame (updateNum_spec hcd ht hL e0).1,
    h.right.frame (updateNum_spec hcd' (hc.ftype.trans ht) hL' res).1⟩⟩
  subst e8
  exact ⟨h.same.data, h.same.rng, h.same.useful, h.same.nf, h.same.ne, h.same.all, h.same.sup, by simp only [h.same.cand],
    by simp only [h.same.nb], h.same.nonlo, h.same.buf, h.same.buf', h.same.uc⟩

theorem updateFeature_leads {d d' : Data} {g : List Num} (hF : FreeGrads F g) {ds ds' : Dataset} (h : ReadyPair σ d d' ds ds') {f : Nat}
    (hu : Useful d f) {g' : List Num} (hg : Reordered σ g g') (bounds : Num × Num) :
    Out.Leads (ReadyPair σ d d') (updateFeature F cfg g bounds false (List.range d.nexamples) f ds)
      (updateFeature F cfg g' bounds false (List.range d.nexamples) f ds') := by
  obtain ⟨c, bvs, a1, a2, a3, a4⟩ := h.left.feat f hu
  have hd := h.same.data
  rw [h.left.data, h.right.data] at hd
  rcases forall₂_at hd.cols f with ⟨x, c', e1, e2, hc⟩ | ⟨e1, _⟩
  · rw [a1] at e1; cases e1
    unfold updateFeature column
    rw [h.left.data, h.right.data, at?_ok.2 a1, at?_ok.2 e2, Out.ok_bind, Out.ok_bind, hc.ftype]
    cases ht : c.ftype with
    | loCardCat => exact .ok h
    | hiCardCat => exact updateHicard_leads hF h hu a1 ht hg bounds
    | numerical => exact updateNum_leads hF h hu a1 ht hg
  · rw [a1] at e1; cases e1

theorem updateFeatures_leads {d d' : Data} {g g' : List Num} (hF : FreeGrads F g) (hg : Reordered σ g g')
    (bounds : Num × Num) : ∀ (fs : List Nat) (ds ds' : Dataset), ReadyPair σ d d' ds ds' → (∀ f ∈ fs, Useful d f) →
    Out.Leads (ReadyPair σ d d') (updateFeatures F cfg g bounds false (List.range d.nexamples) fs ds)
      (updateFeatures F cfg g' bounds false (List.range d.nexamples) fs ds')
  | [], _, _, h, _ => .ok h
  | f :: fs, ds, ds', h, hf => by
      unfold updateFeatures
      refine (updateFeature_leads hF h (hf f (by simp)) hg bounds).bind fun a b _ hab => ?_
      exact updateFeatures_leads hF hg bounds fs a b hab fun f' hf' => hf f' (by simp [hf'])


theorem sampleFeatures_leads {d d' : Data} {ds ds' : Dataset} (h : ReadyPair σ d d' ds ds') :
    Out.Leads (fun a b => ReadyPair σ d d' a b ∧ a.hasNonLocard = ds.hasNonLocard ∧ a.useful.Perm ds.useful)
      (sampleFeatures ds) (sampleFeatures ds') := by
  unfold sampleFeatures featureSampling
  rw [h.same.useful, h.same.nf, h.same.rng]
  split
  · apply Out.Leads.same
    intro ⟨u, r⟩ e
    refine .ok ⟨⟨⟨h.same.data, rfl, rfl, rfl, h.same.ne, h.same.all, h.same.sup, h.same.cand, h.same.nb, h.same.nonlo,
      h.same.buf, h.same.buf', h.same.uc⟩, ⟨h.left.data, h.left.ne, h.left.feat, h.left.lnb, h.left.lsc⟩,
      ⟨h.right.data, h.right.ne, h.right.feat, h.right.lnb, h.right.lsc⟩⟩, rfl, (shuffleFirstK_spec e).1⟩
  · exact .ok ⟨h, rfl, .refl _⟩

theorem update_leads {d d' : Data} {k : Nat} {g g' : List Num} (hF : FreeGrads F g) {ds ds' : Dataset} (h : SameSet σ ds ds')
    (hi : Inv F cfg d k ds) (hi' : Inv F cfg d' k ds') (hg : Reordered σ g g') (bounds : Num × Num) :
    Out.Leads (SameSet σ) (ds.update F cfg g bounds) (ds'.update F cfg g' bounds) := by
  have hd := h.data
  rw [hi.data, hi'.data] at hd
  have hne : ds.nactiveExamples = d.nexamples := by rw [h.all, hi.data]
  have hne' : ds'.nactiveExamples = d.nexamples := by rw [h.ne, hne]
  have hr : Ready d d.nexamples ds := by rw [← hne]; exact ready_inv hi.toInv0
  have hr' : Ready d' d.nexamples ds' := by rw [← hne']; exact ready_inv hi'.toInv0
  have h1 : ReadyPair σ d d' (initSupercats { ds with updateCount := ds.updateCount + 1 })
      (initSupercats { ds' with updateCount := ds'.updateCount + 1 }) := by
    refine ⟨⟨h.data, h.rng, h.useful, h.nf, h.ne, h.all, ?_, h.cand, h.nb, h.nonlo, h.buf, h.buf', ?_⟩,
      ⟨hr.data, hr.ne, hr.feat, hr.lnb, hr.lsc⟩, ⟨hr'.data, hr'.ne, hr'.feat, hr'.lnb, hr'.lsc⟩⟩
    · simp only [initSupercats, h.sup, h.data.nfeatures]
    · simp only [initSupercats, h.uc]
  have hus : (initSupercats { ds with updateCount := ds.updateCount + 1 }).useful = ds.useful := rfl
  unfold update
  simp only
  rw [h1.same.uc]
  generalize initSupercats { ds with updateCount := ds.updateCount + 1 } = a at *
  generalize initSupercats { ds' with updateCount := ds'.updateCount + 1 } = a' at *
  split
  · exact .ok h1.same
  · unfold refresh
    refine (sampleFeatures_leads h1).bind fun b b' _ hb => ?_
    obtain ⟨hb, _, hu⟩ := hb
    unfold exampleSampling
    rw [hb.same.buf, hb.same.buf', hb.same.nonlo]
    simp only [List.isEmpty_nil, Bool.not_true, Bool.false_eq_true, if_false]
    split
    · rw [hb.same.useful, hb.same.nf]
      apply Out.Leads.same
      intro fs hfs
      rw [hb.left.data, hb.right.data, hd.nexamples]
      refine (updateFeatures_leads hF hg bounds fs b b' hb ?_).mono fun _ _ _ _ hp => hp.same
      intro f hf
      obtain ⟨_, rfl⟩ := prefix_ok.1 hfs
      have := hu.mem_iff.1 (List.mem_of_mem_take hf)
      rw [hus] at this
      exact (hi.useful f).1 this
    · exact .ok hb.same

theorem scanFeatures_same {d d' : Data} (h : ReorderedData σ d d') (m : Nat) : ∀ (k feat : Nat),
    scanFeatures d' m k feat = scanFeatures d m k feat
  | 0, _ => rfl
  | k + 1, feat => by
      unfold scanFeatures column at?
      rcases forall₂_at h.cols feat with ⟨c, c', e1, e2, hc⟩ | ⟨e1, e2⟩
      · rw [e1, e2]
        simp only [Out.ok_bind, colMaxNbins_same h hc, hc.lo, hc.hi, hc.ftype, scanFeatures_same h m k]
      · rw [e1, e2]
        rfl

theorem initLocard_leads {d d' : Data} : ∀ (fs : List Nat) (ds ds' : Dataset), ReadyPair σ d d' ds ds' →
    (∀ f ∈ fs, Useful d f) →
    Out.Leads (ReadyPair σ d d') (initLocard (List.range d.nexamples) fs ds) (initLocard (List.range d.nexamples) fs ds')
  | [], _, _, h, _ => .ok h
  | f :: fs, ds, ds', h, hf => by
      unfold initLocard
      refine Out.Leads.bind (R := ReadyPair σ d d') ?_ fun a b _ hab =>
        initLocard_leads fs a b hab fun f' hf' => hf f' (by simp [hf'])
      have hu := hf f (by simp)
      have hd := h.same.data
      rw [h.left.data, h.right.data] at hd
      have hn := perm_length hd.perm
      obtain ⟨c, bvs, a1, a2, a3, a4⟩ := h.left.feat f hu
      obtain ⟨c', bvs', b1, b2, b3, b4⟩ := h.right.feat f (useful_same hd hu)
      rcases forall₂_at hd.cols f with ⟨x, x', e1, e2, hc⟩ | ⟨e1, _⟩
      · rw [a1] at e1; cases e1
        rw [b1] at e2; cases e2
        have hcd : ds.data.cols[f]? = some c := by rw [h.left.data]; exact a1
        have hcd' : ds'.data.cols[f]? = some c' := by rw [h.right.data]; exact b1
        unfold initFeature column
        rw [at?_ok.2 hcd, at?_ok.2 hcd', Out.ok_bind, Out.ok_bind, hc.ftype]
        split
        · rename_i ht
          intro ds1 e
          have e0 := e
          unfold updateLocard column at e
          rw [at?_ok.2 hcd] at e
          simp only [Out.ok_bind] at e
          rw [at?_ok.2 a2, Out.ok_bind, gather_range (by rw [hc.values.length_left, hn]), Out.ok_bind] at e
          obtain ⟨bv1, e3, e⟩ := Out.bind_eq_ok.1 e
          obtain ⟨_, e4, e5⟩ := Out.bind_eq_ok.1 e
          simp only [Out.pure_eq, Out.ok.injEq] at e5
          obtain ⟨bv1', e3'⟩ := fillMasks_total (c'.values.map intoCat) 0 (zeroMasks bvs') (by
            intro b hb
            unfold zeroMasks at hb
            obtain ⟨b', h1, rfl⟩ := List.mem_map.1 hb
            rw [List.length_map, List.length_map, b4 b' h1, hc.values.length_right, hn]
            omega)
          have res : updateLocard ds' f (List.range d.nexamples) = .ok
              { ds' with usedNbins := ds'.usedNbins.set f (Data.colMaxNbins ds'.data.maxNbins c')
                         bitvecs := ds'.bitvecs.set f bv1' } := by
            unfold updateLocard column
            rw [at?_ok.2 hcd', Out.ok_bind, at?_ok.2 b2, Out.ok_bind, gather_range (by rw [hc.values.length_right, hn]),
              Out.ok_bind, e3', Out.ok_bind, h.same.nb, e4]
            rfl
          have hlen : ∀ b, ds.bitvecs[f]? = some b → b.length = Data.colMaxNbins ds.data.maxNbins c := by
            intro b hb; rw [a2] at hb; cases hb; rw [h.left.data]; exact a3
          have hlen' : ∀ b, ds'.bitvecs[f]? = some b → b.length = Data.colMaxNbins ds'.data.maxNbins c' := by
            intro b hb; rw [b2] at hb; cases hb; rw [h.right.data]; exact b3
          refine ⟨_, res, ⟨?_, h.left.frame (updateLocard_spec FP.exact Config.new hcd ht hlen e0).1,
            h.right.frame (updateLocard_spec FP.exact Config.new hcd' (hc.ftype.trans ht) hlen' res).1⟩⟩
          subst e5
          exact ⟨h.same.data, h.same.rng, h.same.useful, h.same.nf, h.same.ne, h.same.all, h.same.sup, h.same.cand,
            by simp only [h.same.nb, colMaxNbins_same h.same.data hc], h.same.nonlo, h.same.buf, h.same.buf', h.same.uc⟩
        · exact .ok h
      · rw [a1] at e1; cases e1

theorem new_leads {d d' : Data} {rng : Rng} (h : ReorderedData σ d d') (hlt : cfg.exampleFraction.lt (.fin 1) = false)
    (hs : share F d.nexamples cfg.exampleFraction = d.nexamples) :
    Out.Leads (SameSet σ) (Dataset.new F cfg d rng) (Dataset.new F cfg d' rng) := by
  unfold Dataset.new inner
  simp only [hlt, h.nexamples, hs, h.nfeatures, scanFeatures_same h, Out.bind_assoc, Bool.false_eq_true, if_false]
  apply Out.Leads.same
  intro ⟨u, bv, hn⟩ e1
  obtain ⟨s1, s2, s3, s4, s5⟩ := scanFeatures_spec _ _ _ _ _ _ _ e1
  simp only [Nat.zero_le, Nat.zero_add, true_and, Nat.sub_zero, forall_true_left] at s3 s4
  simp only [Out.pure_eq, Out.ok_bind]
  have hready : ∀ f, Useful d f → ∃ (c : Column) (bvs : List Blocks), d.cols[f]? = some c ∧ bv[f]? = some bvs ∧
      bvs.length = Data.colMaxNbins d.maxNbins c ∧ ∀ b ∈ bvs, b.length = (d.nexamples + 255) / 256 := by
    intro f hu
    obtain ⟨h1, c, h2, h3⟩ := hu
    obtain ⟨c', bvs, g1, g2, g3, g4, g5, _⟩ := s4 f h1
    rw [h2] at g1; cases g1
    exact ⟨c, bvs, h2, g2, g5 (g4.2 h3), g3⟩
  refine Out.Leads.mono (R := ReadyPair σ d d') ?_ fun _ _ _ _ hp => hp.same
  refine initLocard_leads u _ _ ⟨⟨h, rfl, rfl, rfl, rfl, rfl, rfl, rfl, rfl, rfl, rfl, rfl, rfl⟩,
    ⟨rfl, rfl, hready, ?_, ?_⟩, ⟨rfl, rfl, ?_, ?_, ?_⟩⟩ ?_
  · simp
  · simp
  · intro f hu
    have hu2 : Useful d f := by
      obtain ⟨u1, c', u2, u3, u4⟩ := hu
      rcases forall₂_at h.cols f with ⟨c, x', e1, e2, hc⟩ | ⟨_, e2⟩
      · rw [u2] at e2; cases e2
        exact ⟨by rw [← h.nfeatures]; exact u1, c, e1, by rw [← colMaxNbins_same h hc]; exact u3,
          by rw [← hc.lo, ← hc.hi]; exact u4⟩
      · rw [u2] at e2; cases e2
    obtain ⟨c, bvs, g1, g2, g3, g4⟩ := hready f hu2
    rcases forall₂_at h.cols f with ⟨x, c', e1, e2, hc⟩ | ⟨e1, _⟩
    · rw [g1] at e1; cases e1
      exact ⟨c', bvs, e2, g2, by rw [colMaxNbins_same h hc]; exact g3, g4⟩
    · rw [g1] at e1; cases e1
  · simp [h.nfeatures]
  · simp [h.nfeatures]
  · intro f hf
    obtain ⟨c, bvs, g1, g2, g3, g4, _⟩ := s4 f (s3 f hf)
    exact ⟨s3 f hf, c, g1, g4.1 hf⟩

end
end Dataset
end BitBoost
