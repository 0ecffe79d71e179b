import Verif.Lemmas.RowOrder
import Verif.Spec.Learner
import Verif.Lemmas.Hist
/-! Helper lemmas for the order of the rows: the reference learner. -/
namespace BitBoost
open Spec

/-- The same data set up to the order of the rows; nothing is said about the masks. -/
structure Dataset.SameSet (σ : List Nat) (ds ds' : Dataset) : Prop where
  data : ReorderedData σ ds.data ds'.data
  rng : ds'.rng = ds.rng
  useful : ds'.useful = ds.useful
  nf : ds'.nactiveFeatures = ds.nactiveFeatures
  ne : ds'.nactiveExamples = ds.nactiveExamples
  all : ds.nactiveExamples = ds.data.nexamples
  sup : ds'.supercats = ds.supercats
  cand : ds'.splitCandidates = ds.splitCandidates
  nb : ds'.usedNbins = ds.usedNbins
  nonlo : ds'.hasNonLocard = ds.hasNonLocard
  buf : ds.indexBuffer = []
  buf' : ds'.indexBuffer = []
  uc : ds'.updateCount = ds.updateCount

theorem forall₂_at {α β : Type} {R : α → β → Prop} {l : List α} {l' : List β} (h : List.Forall₂ R l l') (i : Nat) :
    (∃ a b, l[i]? = some a ∧ l'[i]? = some b ∧ R a b) ∨ (l[i]? = none ∧ l'[i]? = none) := by
  induction h generalizing i with
  | nil => exact .inr ⟨by simp, by simp⟩
  | cons hab _ ih =>
    cases i with
    | zero => exact .inl ⟨_, _, by simp, by simp, hab⟩
    | succ i => simpa using ih i

namespace Learner
open Dataset Objective

section
variable {F : FP} {cfg : Config} {σ : List Nat} {ds ds' : Dataset}

theorem featMaxNbins_same (h : SameSet σ ds ds') (f : Nat) : Data.featMaxNbins ds'.data f = Data.featMaxNbins ds.data f := by
  unfold Data.featMaxNbins
  rcases forall₂_at h.data.cols f with ⟨c, c', e1, e2, hc⟩ | ⟨e1, e2⟩
  · rw [e1, e2]
    simp only [Data.colMaxNbins, hc.ftype, hc.card, h.data.maxNbins]
  · rw [e1, e2]

theorem newHists_same (h : SameSet σ ds ds') : newHists ds'.data = newHists ds.data := by
  unfold newHists
  simp only [h.data.nfeatures, featMaxNbins_same h]

theorem getSplitValue_same (h : SameSet σ ds ds') (f b : Nat) : ds'.getSplitValue F f b = ds.getSplitValue F f b := by
  unfold getSplitValue column at?
  rcases forall₂_at h.data.cols f with ⟨c, c', e1, e2, hc⟩ | ⟨e1, e2⟩
  · rw [e1, e2]
    simp only [Out.ok_bind, hc.ftype, h.cand]
  · rw [e1, e2]
    rfl

theorem critOf_same (h : SameSet σ ds ds') (f b : Nat) : critOf F ds' f b = critOf F ds f b := by
  unfold critOf
  rw [getSplitValue_same h]
  unfold column at?
  rcases forall₂_at h.data.cols f with ⟨c, c', e1, e2, hc⟩ | ⟨e1, e2⟩
  · rw [e1, e2]
    simp only [Out.ok_bind, hc.ftype]
  · rw [e1, e2]

theorem scanBins_same (h : SameSet σ ds ds') (pg : Num) (pc : Nat) (hs : Hists) (f : Nat) :
    ∀ (k b : Nat) (best : Num × Split), scanBins F cfg ds' pg pc hs f k b best = scanBins F cfg ds pg pc hs f k b best
  | 0, _, _ => rfl
  | k + 1, b, best => by
      unfold scanBins tryCandidate
      simp only [scanBins_same h pg pc hs f k, critOf_same h]

theorem scanFeatures_same (h : SameSet σ ds ds') (pg : Num) (pc : Nat) (hs : Hists) :
    ∀ (fs : List Nat) (best : Num × Split), scanFeatures F cfg ds' pg pc hs fs best = scanFeatures F cfg ds pg pc hs fs best
  | [], _ => rfl
  | f :: fs, best => by
      unfold scanFeatures getNbins
      simp only [scanFeatures_same h pg pc hs fs, scanBins_same h, h.nb]

theorem activeFeatures_same (h : SameSet σ ds ds') : ds'.activeFeatures = ds.activeFeatures := by
  unfold activeFeatures
  rw [h.useful, h.nf]

theorem findBestSplit_same (h : SameSet σ ds ds') (pg : Num) (pc : Nat) (hs : Hists) :
    findBestSplit F cfg ds' pg pc hs = findBestSplit F cfg ds pg pc hs := by
  unfold findBestSplit
  simp only [scanFeatures_same h, activeFeatures_same h]

theorem histJobs_same (h : SameSet σ ds ds') : ∀ fs : List Nat, histJobs ds' fs = histJobs ds fs
  | [] => rfl
  | f :: fs => by
      unfold histJobs getNbins
      simp only [histJobs_same h fs, h.nb]

theorem target_leads (h : ReorderedData σ ds.data ds'.data) : Out.Leads (Reordered σ) (target ds.data) (target ds'.data) := by
  unfold target at?
  rw [h.nfeatures]
  rcases forall₂_at h.cols ds.data.nfeatures with ⟨c, c', e1, e2, hc⟩ | ⟨e1, e2⟩
  · rw [e1, e2]
    exact .ok hc.values
  · rw [e1, e2]
    intro a e
    cases e

/-- The mask of the same candidate holds the same rows. -/
def SameMask (σ : List Nat) (m m' : Blocks) : Prop := ∀ i j : Nat, σ[i]? = some j → bitAt m' i = bitAt m j

/-- The masks of all candidates hold the same rows. -/
def SameMasks (σ : List Nat) (ds ds' : Dataset) : Prop := ∀ fs js f b, ds.activeFeatures = .ok fs →
  histJobs ds fs = .ok js → (f, b) ∈ js → Out.Leads (SameMask σ) (ds.getBitvec f b) (ds'.getBitvec f b)

theorem SameMask.filter {ex ex' : List Nat} (hex : SameExamples σ ex ex') {m m' : Blocks} (h : SameMask σ m m') :
    SameExamples σ (ex.filter (bitAt m)) (ex'.filter (bitAt m')) :=
  hex.filter _ _ fun i hi => h i _ (hex.mem hi).1

theorem SameMask.filter_not {ex ex' : List Nat} (hex : SameExamples σ ex ex') {m m' : Blocks} (h : SameMask σ m m') :
    SameExamples σ (ex.filter fun i => !bitAt m i) (ex'.filter fun i => !bitAt m' i) :=
  hex.filter _ _ fun i hi => by rw [h i _ (hex.mem hi).1]

theorem codes_sum {codes codes' : List Nat} (hc : Reordered σ codes codes') {ex ex' : List Nat}
    (hex : SameExamples σ ex ex') : (ex'.map fun i => codes'.getD i 0).sum = (ex.map fun i => codes.getD i 0).sum := by
  have h1 : (ex'.map fun i => codes'.getD i 0) = (ex'.map fun i => σ.getD i 0).map fun i => codes.getD i 0 := by
    rw [List.map_map]
    apply List.map_congr_left
    intro i hi
    have := hc.get (hex.mem hi).1
    simp only [Function.comp_apply, List.getD_eq_getElem?_getD, this]
  rw [h1]
  exact (hex.perm.map _).sum_eq

theorem refHist_same (w : Nat) (bounds : Num × Num) {codes codes' : List Nat} (hc : Reordered σ codes codes')
    {ex ex' : List Nat} (hex : SameExamples σ ex ex') {m m' : Blocks} (hm : SameMask σ m m') :
    refHist F cfg w bounds codes' ex' m' = refHist F cfg w bounds codes ex m := by
  unfold refHist
  have h := hm.filter hex
  simp only [h.length, codes_sum hc h]

theorem runJobs_leads {job job' : Nat → Nat → Out HistVal} : ∀ (js : List (Nat × Nat)) (h : Hists),
    (∀ f b, (f, b) ∈ js → Out.Leads Eq (job f b) (job' f b)) → Out.Leads Eq (runJobs job js h) (runJobs job' js h)
  | [], h, _ => .refl _
  | (f, b) :: js, h, hj => by
      unfold runJobs
      refine (hj f b (by simp)).bind fun v v' _ hv => ?_
      subst hv
      apply Out.Leads.same
      intro h' _
      exact runJobs_leads js h' fun f b hfb => hj f b (by simp [hfb])

theorem refHists_leads (h : SameSet σ ds ds') (hm : SameMasks σ ds ds') (w : Nat) (bounds : Num × Num) {codes codes' : List Nat}
    (hc : Reordered σ codes codes') {ex ex' : List Nat} (hex : SameExamples σ ex ex') :
    Out.Leads Eq (refHists F cfg ds w bounds codes ex) (refHists F cfg ds' w bounds codes' ex') := by
  unfold refHists
  rw [newHists_same h, activeFeatures_same h]
  apply Out.Leads.same
  intro h0 _
  apply Out.Leads.same
  intro fs hfs
  rw [histJobs_same h]
  apply Out.Leads.same
  intro js hjs
  apply runJobs_leads
  intro f b hfb
  refine (hm fs js f b hfs hjs hfb).bind fun m m' _ hmm => ?_
  rw [refHist_same w bounds hc hex hmm]
  exact .refl _

/-- The same node up to the order of the rows. -/
structure SameNode (σ : List Nat) (n n' : RefNode) : Prop where
  id : n'.nodeId = n.nodeId
  ex : SameExamples σ n.examples n'.examples
  nodup : n.examples.Nodup
  cnt : n'.exampleCount = n.exampleCount
  sum : n'.gradSum = n.gradSum
  hists : n'.hists = n.hists

/-- The same state up to the order of the rows. -/
structure SameState (σ : List Nat) (k : ObjKind) (s s' : RefState) : Prop where
  tree : s'.tree = s.tree
  obj : SameUpTo σ s.obj s'.obj
  kind : s.obj.kind = k
  stack : List.Forall₂ (SameNode σ) s.stack s'.stack

theorem range_same {n : Nat} (hσ : σ.Perm (List.range n)) : SameExamples σ (List.range n) (List.range n) := by
  have hl := perm_length hσ
  refine ⟨fun i hi => by rw [hl]; exact List.mem_range.1 hi, ?_⟩
  have : (List.range n).map (fun i => σ.getD i 0) = σ := by
    apply List.ext_getElem?
    intro i
    rw [List.getElem?_map]
    by_cases hi : i < n
    · have hi' : i < σ.length := by omega
      rw [List.getElem?_range hi, List.getElem?_eq_getElem hi']
      simp [List.getD, hi']
    · rw [List.getElem?_eq_none (by simpa using hi), List.getElem?_eq_none (by omega)]
      rfl
  rw [this]
  exact hσ

theorem leafFor_leads (h : SameSet σ ds ds') {o o' : Objective} (hF : FreeKind F o.kind) (ho : SameUpTo σ o o')
    {ex ex' : List Nat} (hex : SameExamples σ ex ex') (hn : ex.Nodup) :
    Out.Leads (fun a b => b.1 = a.1 ∧ SameUpTo σ a.2 b.2 ∧ a.2.kind = o.kind) (leafFor F ds ex o) (leafFor F ds' ex' o') := by
  unfold leafFor leafRows exampleSampling
  rw [h.buf, h.buf']
  have hemp : ex'.isEmpty = ex.isEmpty := by
    have := hex.length
    cases ex <;> cases ex' <;> simp_all
  simp only [List.isEmpty_nil, Bool.not_true, Bool.false_eq_true, if_false, Out.ok_bind, hemp, Out.bind_assoc, Out.pure_eq]
  apply Out.Leads.same
  intro _ _
  refine (target_leads h.data).bind fun t t' _ ht => ?_
  exact predictLeaf_leads h.data.perm hF ho ht hex hn

theorem refChildren_leads (h : SameSet σ ds ds') (hm : SameMasks σ ds ds') (w : Nat) (bounds : Num × Num)
    {codes codes' : List Nat} (hc : Reordered σ codes codes') {n n' : RefNode} (hn : SameNode σ n n') {s : Split}
    (hs : ∃ fs js, ds.activeFeatures = .ok fs ∧ histJobs ds fs = .ok js ∧ (s.crit.featureId, s.splitId) ∈ js) :
    Out.Leads (fun a b => SameNode σ a.1 b.1 ∧ SameNode σ a.2 b.2) (refChildren F cfg ds w bounds codes n s)
      (refChildren F cfg ds' w bounds codes' n' s) := by
  obtain ⟨fs, js, e1, e2, e3⟩ := hs
  unfold refChildren
  rw [hn.hists]
  apply Out.Leads.same
  intro l _
  refine (hm fs js _ _ e1 e2 e3).bind fun m m' _ hmm => ?_
  simp only
  refine (refHists_leads h hm w bounds hc (hmm.filter hn.ex)).bind fun hl hl' _ he => ?_
  subst he
  rw [hn.id, hn.cnt, hn.sum]
  refine .ok ⟨⟨rfl, hmm.filter hn.ex, hn.nodup.filter _, rfl, rfl, rfl⟩,
    ⟨rfl, hmm.filter_not hn.ex, hn.nodup.filter _, rfl, rfl, rfl⟩⟩

theorem refExpand_leads (h : SameSet σ ds ds') (hm : SameMasks σ ds ds') (w : Nat) {k : ObjKind} (hF : FreeKind F k)
    {codes codes' : List Nat} (hc : Reordered σ codes codes') {n n' : RefNode} (hn : SameNode σ n n')
    {st st' : RefState} (hst : SameState σ k st st') :
    Out.Leads (SameState σ k) (refExpand F cfg ds w codes n st) (refExpand F cfg ds' w codes' n' st') := by
  unfold refExpand
  rw [findBestSplit_same h, hn.sum, hn.cnt, hn.hists, hn.id, hst.tree, hst.obj.bounds]
  apply Out.Leads.same
  intro s hs
  have hF' : FreeKind F st.obj.kind := by rw [hst.kind]; exact hF
  by_cases hnone : s.crit.isNone = true
  · rw [if_pos hnone, if_pos hnone]
    refine (leafFor_leads h hF' hst.obj hn.ex hn.nodup).bind fun r r' _ hr => ?_
    rw [hr.1]
    apply Out.Leads.same
    intro t _
    exact .ok ⟨rfl, hr.2.1, hr.2.2.trans hst.kind, hst.stack⟩
  · rw [if_neg hnone, if_neg hnone]
    obtain ⟨fs, js, v, e1, e2, e3, _⟩ := findBestSplit_some hs (by simpa using hnone)
    by_cases hmax : (!st.tree.isMaxLeafNode (2 * n.nodeId + 1)) = true
    · rw [if_pos hmax, if_pos hmax]
      refine (refChildren_leads h hm w _ hc hn ⟨fs, js, e1, e2, e3⟩).bind fun ch ch' _ hch => ?_
      apply Out.Leads.same
      intro t _
      exact .ok ⟨rfl, hst.obj, hst.kind, .cons hch.1 (.cons hch.2 hst.stack)⟩
    · rw [if_neg hmax, if_neg hmax]
      refine (hm fs js _ _ e1 e2 e3).bind fun m m' _ hmm => ?_
      refine (leafFor_leads h hF' hst.obj (hmm.filter hn.ex) (hn.nodup.filter _)).bind fun l l' _ hl => ?_
      refine (leafFor_leads h (by rw [hl.2.2]; exact hF') hl.2.1 (hmm.filter_not hn.ex) (hn.nodup.filter _)).bind
        fun r r' _ hr => ?_
      rw [hl.1, hr.1]
      apply Out.Leads.same
      intro t _
      apply Out.Leads.same
      intro t2 _
      apply Out.Leads.same
      intro t3 _
      exact .ok ⟨rfl, hr.2.1, (hr.2.2.trans hl.2.2).trans hst.kind, hst.stack⟩

theorem refLoop_leads (h : SameSet σ ds ds') (hm : SameMasks σ ds ds') (w : Nat) {k : ObjKind} (hF : FreeKind F k)
    {codes codes' : List Nat} (hc : Reordered σ codes codes') : ∀ (fuel : Nat) {st st' : RefState}, SameState σ k st st' →
    Out.Leads (Option.Rel (SameState σ k)) (refLoop F cfg ds w codes fuel st) (refLoop F cfg ds' w codes' fuel st')
  | fuel, st, st', hst => by
      unfold refLoop
      have hs := hst.stack
      cases e : st.stack with
      | nil =>
        rw [e] at hs
        cases e' : st'.stack with
        | nil => exact .ok (.some hst)
        | cons _ _ => rw [e'] at hs; cases hs
      | cons n rest =>
        rw [e] at hs
        cases e' : st'.stack with
        | nil => rw [e'] at hs; cases hs
        | cons n' rest' =>
          rw [e'] at hs
          cases hs with
          | cons hn hrest =>
            cases fuel with
            | zero => exact .ok .none
            | succ fuel =>
              refine (refExpand_leads h hm w hF hc hn (st := { st with stack := rest }) (st' := { st' with stack := rest' })
                ⟨hst.tree, hst.obj, hst.kind, hrest⟩).bind fun a b _ hab => ?_
              exact refLoop_leads h hm w hF hc fuel hab

theorem gradCodes_all (w : Nat) (bounds : Num × Num) (g : List Num) : ∀ ps : List (Nat × Nat), (∀ p ∈ ps, p.2 < g.length) →
    gradCodes F w bounds g ps = .ok (ps.map fun p => (BitSlice.discretise F w (g.getD p.2 (.fin 0)) bounds.1 bounds.2).toNat)
  | [], _ => rfl
  | p :: ps, h => by
      have hp := h p (by simp)
      unfold gradCodes at?
      rw [gradCodes_all w bounds g ps (fun q hq => h q (by simp [hq])), List.getElem?_eq_getElem hp]
      simp [hp]

theorem gradCodes_leads (h : SameSet σ ds ds') (w : Nat) (bounds : Num × Num) {g g' : List Num} (hg : Reordered σ g g') :
    ∃ codes codes', (ds.activePairs >>= fun ps => gradCodes F w bounds g ps) = .ok codes ∧
      (ds'.activePairs >>= fun ps => gradCodes F w bounds g' ps) = .ok codes' ∧ Reordered σ codes codes' := by
  have hl := perm_length h.data.perm
  have key : ∀ (x : List Num), x.length = ds.data.nexamples →
      gradCodes F w bounds x ((List.range ds.data.nexamples).map fun i => (i, i)) =
        .ok (x.map fun v => (BitSlice.discretise F w v bounds.1 bounds.2).toNat) := by
    intro x hx
    rw [gradCodes_all w bounds x _ (by
      intro p hp
      obtain ⟨i, hi, rfl⟩ := List.mem_map.1 hp
      rw [hx]
      exact List.mem_range.1 hi)]
    congr 1
    apply List.ext_getElem?
    intro i
    rw [List.map_map, List.getElem?_map, List.getElem?_map]
    by_cases hi : i < ds.data.nexamples
    · have hi' : i < x.length := by omega
      rw [List.getElem?_range hi, List.getElem?_eq_getElem hi']
      simp [List.getD, hi']
    · rw [List.getElem?_eq_none (by simpa using hi), List.getElem?_eq_none (by omega)]
      rfl
  refine ⟨_, _, ?_, ?_, hg.map fun v => (BitSlice.discretise F w v bounds.1 bounds.2).toNat⟩
  · unfold activePairs exampleSampling
    rw [h.buf, h.all]
    simp only [List.isEmpty_nil, Bool.not_true, Bool.false_eq_true, if_false, Out.ok_bind]
    exact key g (by rw [hg.length_left, hl])
  · unfold activePairs exampleSampling
    rw [h.buf', h.ne, h.all]
    simp only [List.isEmpty_nil, Bool.not_true, Bool.false_eq_true, if_false, Out.ok_bind]
    exact key g' (by rw [hg.length_right, hl])

theorem refTrain_leads (h : SameSet σ ds ds') (hm : SameMasks σ ds ds') {o o' : Objective} (hF : FreeKind F o.kind)
    (ho : SameUpTo σ o o') (sc : List (List Nat)) (fuel : Nat) :
    Out.Leads (Option.Rel fun a b => b.1 = a.1 ∧ SameUpTo σ a.2 b.2 ∧ a.2.kind = o.kind) (refTrain F cfg ds sc o fuel)
      (refTrain F cfg ds' sc o' fuel) := by
  unfold refTrain
  apply Out.Leads.same
  intro w _
  apply Out.Leads.same
  intro t _
  rw [h.ne]
  apply Out.Leads.same
  intro _ _
  obtain ⟨codes, codes', e1, e2, hc⟩ := gradCodes_leads (F := F) h w o.bounds ho.grads
  obtain ⟨ps, p1, p2⟩ := Out.bind_eq_ok.1 e1
  obtain ⟨ps', q1, q2⟩ := Out.bind_eq_ok.1 e2
  rw [p1, q1, Out.ok_bind, Out.ok_bind, ho.bounds, p2, q2, Out.ok_bind, Out.ok_bind]
  have hr := range_same h.data.perm
  rw [← h.all] at hr
  have hroot : Out.Leads (SameNode σ) (refRoot F cfg ds w o.bounds codes) (refRoot F cfg ds' w o.bounds codes') := by
    unfold refRoot
    simp only [h.ne]
    refine (refHists_leads h hm w o.bounds hc hr).bind fun a b _ hab => ?_
    subst hab
    have hsum : codes'.sum = codes.sum := (hc.perm h.data.perm).sum_eq
    exact .ok ⟨rfl, hr, List.nodup_range, rfl, by simp only [hsum], rfl⟩
  refine hroot.bind fun n n' _ hn => ?_
  refine (refLoop_leads h hm w hF hc fuel (st := ⟨t, o, [n]⟩) (st' := ⟨t, o', [n']⟩)
    ⟨rfl, ho, rfl, .cons hn .nil⟩).bind fun a b _ hab => ?_
  cases hab with
  | none => exact .ok .none
  | some hst =>
    simp only [outOfBag, exampleSampling, h.buf, h.buf', List.isEmpty_nil, Bool.not_true, Bool.false_eq_true, if_false,
      Out.ok_bind, Out.pure_eq]
    exact .ok (.some ⟨hst.tree, hst.obj, hst.kind⟩)

end
end Learner
end BitBoost
