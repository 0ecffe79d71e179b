import Verif.Lemmas.Boost
/-! Helper lemmas: a trained ensemble can predict every data set with the same number of features. -/
namespace BitBoost
open Spec

/-- A tree that can be asked for predictions on data with `nf` features. -/
structure WellTree (nf : Nat) (t : Tree) : Prop where
  crits : t.splitCrits.length = 2 ^ (t.maxDepth + 1) - 1
  vals : t.nodeValues.length = 2 ^ (t.maxDepth + 1) - 1
  feats : ∀ c ∈ t.splitCrits, c.featureId < nf
  inner : ∀ (n : Nat) (c : SplitCrit), t.splitCrits[n]? = some c → c.isNone = false → n < 2 ^ t.maxDepth - 1
  sup : t.supercats.length = nf

namespace Tree

theorem new_well {nf depth : Nat} (hnf : 0 < nf) {sc : List (List Nat)} (hsc : sc.length = nf) {t : Tree}
    (h : Tree.new depth sc = .ok t) : WellTree nf t := by
  unfold Tree.new at h
  obtain ⟨_, _, h⟩ := Out.bind_eq_ok.1 h
  simp only [Out.pure_eq, Out.ok.injEq] at h
  subst h
  refine ⟨by simp, by simp, ?_, ?_, hsc⟩
  · intro c hc
    rw [(List.mem_replicate.1 hc).2]
    exact hnf
  · intro n c hc hn
    have := List.mem_of_getElem? hc
    rw [(List.mem_replicate.1 this).2] at hn
    simp [SplitCrit.isNone, SplitCrit.none] at hn

theorem setValue_well {nf n : Nat} {v : Num} {t t' : Tree} (ht : WellTree nf t) (h : t.setValue n v = .ok t') :
    WellTree nf t' := by
  unfold Tree.setValue at h
  obtain ⟨_, _, h⟩ := Out.bind_eq_ok.1 h
  obtain ⟨_, _, h⟩ := Out.bind_eq_ok.1 h
  simp only [Out.pure_eq, Out.ok.injEq] at h
  subst h
  exact ⟨ht.crits, by simpa using ht.vals, ht.feats, ht.inner, ht.sup⟩

theorem splitNode_well {nf n : Nat} {c : SplitCrit} {t t' : Tree} (ht : WellTree nf t) (hc : c.featureId < nf)
    (h : t.splitNode n c = .ok t') : WellTree nf t' := by
  unfold Tree.splitNode at h
  cases hn : t.splitCrits[n]? with
  | none => rw [hn] at h; cases h
  | some old =>
    rw [hn] at h
    simp only at h
    obtain ⟨_, _, h⟩ := Out.bind_eq_ok.1 h
    obtain ⟨_, _, h⟩ := Out.bind_eq_ok.1 h
    obtain ⟨_, h3, h⟩ := Out.bind_eq_ok.1 h
    simp only [Out.pure_eq, Out.ok.injEq] at h
    subst h
    have hmax : n < 2 ^ t.maxDepth - 1 := by
      have := assert_ok.1 h3
      simp [Tree.isMaxLeafNode, Tree.maxNinternal] at this
      omega
    refine ⟨by simpa using ht.crits, ht.vals, ?_, ?_, ht.sup⟩
    · intro x hx
      rcases List.mem_or_eq_of_mem_set hx with h1 | rfl
      · exact ht.feats x h1
      · exact hc
    · intro m x hx hnone
      simp only at hx ⊢
      by_cases hm : m = n
      · rw [hm]; exact hmax
      · rw [List.getElem?_set_ne (by omega)] at hx
        exact ht.inner m x hx hnone

theorem leafFrom_well {nf : Nat} {t : Tree} (ht : WellTree nf t) {d : Data} (hd : Rectangular d)
    (hnf : d.nfeatures = nf) {i : Nat} (hi : i < d.nexamples) :
    ∀ (k n : Nat), 2 ^ (t.maxDepth + 1) - 1 - n ≤ k → n < 2 ^ (t.maxDepth + 1) - 1 →
      ∃ l, t.leafFrom d i n = .ok l ∧ l < 2 ^ (t.maxDepth + 1) - 1 := by
  intro k
  induction k with
  | zero => intro n h1 h2; omega
  | succ k ih =>
    intro n h1 h2
    have hlt : n < t.splitCrits.length := by rw [ht.crits]; exact h2
    have hf : t.splitCrits[n].featureId < nf := ht.feats _ (List.getElem_mem hlt)
    have hcol : t.splitCrits[n].featureId < d.cols.length := by rw [hd.1, hnf]; omega
    have hrow : i < (d.cols[t.splitCrits[n].featureId]).values.length := by
      rw [hd.2 _ (List.getElem_mem hcol)]; exact hi
    have hread : read d t.splitCrits[n].featureId i =
        .ok (d.cols[t.splitCrits[n].featureId].values[i]) := by
      unfold read
      rw [List.getElem?_eq_getElem hcol]
      simp [List.getElem?_eq_getElem hrow]
    unfold leafFrom
    rw [dif_pos hlt, hread]
    simp only
    generalize d.cols[t.splitCrits[n].featureId].values[i] = v
    have htest : ∃ r, test t.supercats t.splitCrits[n] v = .ok r ∧
        (r ≠ none → t.splitCrits[n].isNone = false) := by
      unfold test SplitCrit.isNone
      cases hs : t.splitCrits[n].splitType with
      | noSplit => exact ⟨none, rfl, fun h => absurd rfl h⟩
      | loCardCatEq => exact ⟨_, rfl, fun _ => by rfl⟩
      | numLt => exact ⟨_, rfl, fun _ => by rfl⟩
      | hiCardCatLt =>
        simp only
        rw [List.getElem?_eq_getElem (by rw [ht.sup]; exact hf)]
        exact ⟨_, rfl, fun _ => by rfl⟩
    obtain ⟨r, hr, hnone⟩ := htest
    rw [hr]
    have hchild : r ≠ none → n < 2 ^ t.maxDepth - 1 := fun h =>
      ht.inner n _ (List.getElem?_eq_getElem hlt) (hnone h)
    have hpow : 2 ^ (t.maxDepth + 1) = 2 * 2 ^ t.maxDepth := by rw [Nat.pow_succ]; omega
    match r, hchild with
    | none, _ => exact ⟨n, rfl, h2⟩
    | some true, hc =>
      have := hc (by simp)
      simp only
      exact ih _ (by unfold leftChild; omega) (by unfold leftChild; omega)
    | some false, hc =>
      have := hc (by simp)
      simp only
      exact ih _ (by unfold rightChild; omega) (by unfold rightChild; omega)

theorem predictSingle_well (F : FP) {nf : Nat} {t : Tree} (ht : WellTree nf t) {d : Data} (hd : Rectangular d)
    (hnf : d.nfeatures = nf) {i : Nat} (hi : i < d.nexamples) : ∃ p, t.predictSingle F d i = .ok p := by
  have hpos : 0 < 2 ^ (t.maxDepth + 1) - 1 := by
    have := Nat.one_lt_two_pow (n := t.maxDepth + 1) (by omega)
    omega
  obtain ⟨l, h1, h2⟩ := leafFrom_well ht hd hnf hi _ 0 (Nat.le_refl _) hpos
  unfold predictSingle predictLeafId
  rw [h1, Out.ok_bind]
  unfold nodeValue
  rw [List.getElem?_eq_getElem (by rw [ht.vals]; exact h2)]
  exact ⟨_, rfl⟩

theorem predictLoop_well (F : FP) {nf : Nat} {t : Tree} (ht : WellTree nf t) {d : Data} (hd : Rectangular d)
    (hnf : d.nfeatures = nf) (f : Num → Num → Num) : ∀ (buf : List Num) (i : Nat), i + buf.length ≤ d.nexamples →
    ∃ out, t.predictLoop F d f i buf = .ok out ∧ out.length = buf.length
  | [], _, _ => ⟨[], rfl, rfl⟩
  | b :: buf, i, h => by
      simp only [List.length_cons] at h
      obtain ⟨p, hp⟩ := predictSingle_well F ht hd hnf (i := i) (by omega)
      obtain ⟨out, ho, hl⟩ := predictLoop_well F ht hd hnf f buf (i + 1) (by omega)
      unfold predictLoop
      rw [hp, Out.ok_bind, ho, Out.ok_bind]
      exact ⟨_, rfl, by simp [hl]⟩

end Tree

namespace AdditiveTree

theorem addTrees_well (F : FP) {nf : Nat} {d : Data} (hd : Rectangular d) (hnf : d.nfeatures = nf) :
    ∀ (ts : List Tree) (buf : List Num), (∀ t ∈ ts, WellTree nf t) → buf.length = d.nexamples →
      ∃ out, addTrees F d ts buf = .ok out ∧ out.length = d.nexamples
  | [], buf, _, hb => ⟨buf, rfl, hb⟩
  | t :: ts, buf, h, hb => by
      obtain ⟨out, ho, hl⟩ := Tree.predictLoop_well F (h t (by simp)) hd hnf (fun p a => F.add a p) buf 0 (by omega)
      obtain ⟨out', ho', hl'⟩ := addTrees_well F hd hnf ts out (fun t' ht' => h t' (by simp [ht'])) (by omega)
      refine ⟨out', ?_, hl'⟩
      unfold addTrees Tree.predictAnd
      rw [hb, decide_eq_true rfl, Out.assert_true, Out.ok_bind, ho, Out.ok_bind, ho']

theorem predict_well (F : FP) {nf : Nat} {e : AdditiveTree} (he : ∀ t ∈ e.trees, WellTree nf t) {d : Data}
    (hd : Rectangular d) (hnf : d.nfeatures = nf) : ∃ out, e.predict F d = .ok out ∧ out.length = d.nexamples := by
  unfold predict predictBuf
  exact addTrees_well F hd hnf _ _ he (by simp)

end AdditiveTree

namespace Learner

variable {F : FP} {cfg : Config} {ds : Dataset} {w : Nat}

theorem histJobs_feat : ∀ {fs : List Nat} {js : List (Nat × Nat)}, histJobs ds fs = .ok js →
    ∀ p ∈ js, p.1 < ds.usedNbins.length
  | [], js, h, p, hp => by cases h; cases hp
  | f :: fs, js, h, p, hp => by
      unfold histJobs at h
      obtain ⟨n, e1, h⟩ := Out.bind_eq_ok.1 h
      obtain ⟨js', e2, h⟩ := Out.bind_eq_ok.1 h
      simp only [Out.pure_eq, Out.ok.injEq] at h
      subst h
      rcases List.mem_append.1 hp with h1 | h1
      · obtain ⟨b, _, rfl⟩ := List.mem_map.1 h1
        exact (List.getElem?_eq_some_iff.1 (at?_ok.1 e1)).1
      · exact histJobs_feat e2 p h1

theorem expand_well {nf : Nat} (hnb : ds.usedNbins.length = nf) {n : Node} {a a' : State}
    (h : expand F cfg ds w n a = .ok a') (ht : WellTree nf a.tree) : WellTree nf a'.tree := by
  unfold expand at h
  obtain ⟨s, hs, h⟩ := Out.bind_eq_ok.1 h
  cases hne : s.crit.isNone with
  | true =>
    rw [hne] at h
    simp only [if_true] at h
    obtain ⟨r, hr, h⟩ := Out.bind_eq_ok.1 h
    cases h
    unfold leafValue at hr
    obtain ⟨_, _, hr⟩ := Out.bind_eq_ok.1 hr
    obtain ⟨_, _, hr⟩ := Out.bind_eq_ok.1 hr
    obtain ⟨t, e, hr⟩ := Out.bind_eq_ok.1 hr
    cases hr
    exact Tree.setValue_well ht e
  | false =>
    obtain ⟨fs, js, _, _, hjs, hmem, _⟩ := findBestSplit_some hs hne
    have hf : s.crit.featureId < nf := by rw [← hnb]; exact histJobs_feat hjs _ hmem
    rw [hne] at h
    simp only [Bool.false_eq_true, if_false] at h
    split at h
    · obtain ⟨ch, _, h⟩ := Out.bind_eq_ok.1 h
      obtain ⟨t, e, h⟩ := Out.bind_eq_ok.1 h
      cases h
      exact Tree.splitNode_well ht hf e
    · obtain ⟨r, hr, h⟩ := Out.bind_eq_ok.1 h
      obtain ⟨t, e, h⟩ := Out.bind_eq_ok.1 h
      cases h
      refine Tree.splitNode_well ?_ hf e
      unfold childLeafValues at hr
      obtain ⟨_, _, hr⟩ := Out.bind_eq_ok.1 hr
      obtain ⟨_, _, hr⟩ := Out.bind_eq_ok.1 hr
      obtain ⟨_, _, hr⟩ := Out.bind_eq_ok.1 hr
      obtain ⟨_, _, hr⟩ := Out.bind_eq_ok.1 hr
      obtain ⟨_, _, hr⟩ := Out.bind_eq_ok.1 hr
      obtain ⟨t1, e1, hr⟩ := Out.bind_eq_ok.1 hr
      obtain ⟨t2, e2, hr⟩ := Out.bind_eq_ok.1 hr
      cases hr
      exact Tree.setValue_well (Tree.setValue_well ht e1) e2

theorem loop_well {nf : Nat} (hnb : ds.usedNbins.length = nf) : ∀ (fuel : Nat) {a a' : State},
    loop F cfg ds w fuel a = .ok (some a') → WellTree nf a.tree → WellTree nf a'.tree
  | 0, a, a', h, ht => by
      unfold loop at h
      split at h
      · cases h; exact ht
      · cases h
  | fuel + 1, a, a', h, ht => by
      unfold loop at h
      split at h
      · cases h; exact ht
      · obtain ⟨a1, e, h⟩ := Out.bind_eq_ok.1 h
        exact loop_well hnb fuel h (expand_well hnb e ht)

theorem train_well {nf : Nat} (hnf : 0 < nf) (hnb : ds.usedNbins.length = nf) {sc : List (List Nat)}
    (hsc : sc.length = nf) {o : Objective} {fuel : Nat} {t : Tree} {o' : Objective}
    (h : train F cfg ds sc o fuel = .ok (some (t, o'))) : WellTree nf t := by
  unfold train start at h
  obtain ⟨w, _, h⟩ := Out.bind_eq_ok.1 h
  obtain ⟨st, e, h⟩ := Out.bind_eq_ok.1 h
  obtain ⟨r, e2, h⟩ := Out.bind_eq_ok.1 h
  obtain ⟨t0, e0, e⟩ := Out.bind_eq_ok.1 e
  obtain ⟨root, _, e⟩ := Out.bind_eq_ok.1 e
  cases e
  cases r with
  | none => simp at h
  | some st' =>
    obtain ⟨o2, _, h⟩ := Out.bind_eq_ok.1 h
    cases h
    exact loop_well hnb fuel e2 (Tree.new_well hnf hsc e0)

end Learner

namespace Booster

theorem boosting_well {F : FP} {M : Libm} {cfg : Config} {d : Data} {rng : Rng} {metrics : List Metric}
    {o : Objective} {k : Nat} {b : Booster} (hnf : 0 < d.nfeatures) (h : Boosting F M cfg d rng metrics o k b) :
    ∀ t ∈ b.ensemble.trees, WellTree d.nfeatures t := by
  induction h with
  | start h0 h1 =>
    obtain ⟨ds, e, rfl⟩ := new_ok h0
    obtain ⟨ts, o1, _, _, rfl⟩ := prepare_ok h1
    intro t ht
    cases ht
  | iter hb hs ih =>
    obtain ⟨ts, o1, ds, t, o', _, _, e3, e4, rfl⟩ := trainOneIter_ok hs
    have hu := Updated.update (boosting_updated hb).1 e3
    intro t' ht'
    simp only [AdditiveTree.pushTree] at ht'
    rcases List.mem_append.1 ht' with h1 | h1
    · exact ih t' h1
    · rw [List.mem_singleton] at h1
      subst h1
      refine Learner.train_well hnf hu.inv.lnb ?_ e4
      have := hu.inv.lsup
      simpa using this

end Booster
end BitBoost
