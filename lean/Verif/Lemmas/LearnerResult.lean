import Verif.Lemmas.LearnerInv
import Verif.Props.Sampling
/-! Helper lemmas: the result of training a tree. -/
namespace BitBoost
namespace Learner
open Spec

theorem zip_inj {a b : List Nat} (h : (List.range a.length).zip a = (List.range b.length).zip b) : a = b := by
  have := congrArg (List.map Prod.snd) h
  rwa [List.map_snd_zip (by simp), List.map_snd_zip (by simp)] at this

theorem mapItems_ok {ds : Dataset} {rows : List Nat} (ha : ds.activeExamples = .ok rows) :
    ∀ (is rs : List Nat), mapItems ds is = .ok rs → rs = is.map (rowAt rows)
  | [], rs, h => by
      simp only [mapItems, Out.ok.injEq] at h
      subst h; rfl
  | i :: is, rs, h => by
      unfold mapItems at h
      obtain ⟨j, e1, h⟩ := Out.bind_eq_ok.1 h
      obtain ⟨js, e2, h⟩ := Out.bind_eq_ok.1 h
      simp only [Out.pure_eq, Out.ok.injEq] at h
      subst h
      unfold Dataset.mapIndex at e1
      rw [ha, Out.ok_bind, at?_ok] at e1
      rw [mapItems_ok ha is js e2]
      simp only [List.map_cons, List.cons.injEq, and_true]
      unfold rowAt
      rw [List.getD_eq_getElem?_getD, e1]
      rfl

section
variable {F : FP} {cfg : Config} {d : Data} {rng : Rng} {k : Nat} {ds : Dataset} {rows : List Nat}

theorem rowsOk (h : Updated F cfg d rng k ds) (hr : Active ds rows) : RowsOk ds rows := by
  obtain ⟨rows', hl, hz⟩ := activePairs_rows hr
  have := zip_inj hz
  subst this
  by_cases hs : ds.exampleSampling = true
  · have hnd : rows.Nodup :=
      (Props.C30_examples F cfg d rng k ds h hs rows hr).2.1.imp (by intro a b hab; omega)
    have ha : ds.activeExamples = .ok rows := by
      have hr' := hr
      unfold Active Dataset.activePairs at hr'
      rw [if_pos hs] at hr'
      obtain ⟨a, e1, e2⟩ := Out.bind_eq_ok.1 hr'
      simp only [Out.pure_eq, Out.ok.injEq] at e2
      rw [e1, zip_inj e2]
    refine ⟨hl, hnd, ?_⟩
    intro is rs hlr hlt
    unfold leafRows at hlr
    rw [if_pos hs] at hlr
    obtain ⟨rs', e1, hlr⟩ := Out.bind_eq_ok.1 hlr
    obtain ⟨_, e2, hlr⟩ := Out.bind_eq_ok.1 hlr
    simp only [Out.pure_eq, Out.ok.injEq] at hlr
    subst hlr
    have := mapItems_ok ha is rs' e1
    refine ⟨this, ?_⟩
    rintro rfl
    rw [this] at e2
    simp [Out.assert] at e2
  · have hrr : rows = List.range ds.nactiveExamples := by
      have hr' := hr
      unfold Active Dataset.activePairs at hr'
      rw [if_neg hs] at hr'
      simp only [Out.ok.injEq] at hr'
      apply zip_inj
      rw [← hr', List.length_range]
      apply List.ext_getElem?
      intro i
      simp only [List.getElem?_map, List.zip]
      rw [List.getElem?_zipWith]
      by_cases hi : i < ds.nactiveExamples <;> simp [hi]
    refine ⟨hl, hrr ▸ List.nodup_range, ?_⟩
    intro is rs hlr hlt
    unfold leafRows at hlr
    rw [if_neg hs] at hlr
    obtain ⟨rs', e1, hlr⟩ := Out.bind_eq_ok.1 hlr
    obtain ⟨_, e2, hlr⟩ := Out.bind_eq_ok.1 hlr
    simp only [Out.pure_eq, Out.ok.injEq] at hlr e1
    subst hlr e1
    refine ⟨?_, ?_⟩
    · have : ∀ i ∈ is, rowAt rows i = i := by
        intro i hi
        have h1 := rowAt_eq (hlt i hi)
        rw [hrr, List.getElem?_range (by rw [← hl]; exact hlt i hi)] at h1
        rw [hrr]
        simpa using h1.symm
      rw [List.map_congr_left this, List.map_id']
    · rintro rfl
      simp [Out.assert] at e2

variable {sc : List (List Nat)} {o o' : Objective} {fuel : Nat} {t : Tree} {targets : List Num}

theorem treeInv_start {w : Nat} {bounds : Num × Num} {codes : List Nat} (hr : RowsOk ds rows)
    (hn : 0 < ds.nactiveExamples) (hn2 : ds.nactiveExamples < 2 ^ 32) {t : Tree}
    (ht : Tree.new cfg.maxTreeDepth sc = .ok t) {root : RefNode}
    (hroot : refRoot F cfg ds w bounds codes = .ok root) (o : Objective) :
    TreeInv F cfg ds sc targets rows o ⟨t, o, [root]⟩ [] (fun _ => []) := by
  have hg : Grown F cfg.maxTreeDepth sc 0 t := .new ht
  have hok := refRoot_ok hroot hn hn2
  obtain ⟨hD, _⟩ := hg.built.inv
  have hr2 : root.nodeId = 0 ∧ root.examples = List.range ds.nactiveExamples := by
    unfold refRoot at hroot
    obtain ⟨hs, _, h⟩ := Out.bind_eq_ok.1 hroot
    simp only [Out.pure_eq, Out.ok.injEq] at h
    subst h
    exact ⟨rfl, rfl⟩
  have hnew : t.shrinkage = .fin 1 ∧ t.bias = .fin 0 := by
    simp only [Tree.new, Out.bind_eq_ok] at ht
    obtain ⟨_, _, h⟩ := ht
    simp only [Out.pure_eq, Out.ok.injEq] at h
    subst h
    exact ⟨rfl, rfl⟩
  have hopen : open' ⟨t, o, [root]⟩ = [(0, List.range ds.nactiveExamples)] := by
    simp only [open', List.map_cons, List.map_nil, hr2.1, hr2.2]
  refine ⟨⟨0, hg⟩, hnew.1, hnew.2, ?_, ?_, ?_, ?_⟩
  · rw [List.nil_append, hopen]
    refine ⟨?_, by simp, by simp, ?_, ?_, ?_, rfl⟩
    · intro m
      show IsLeaf t m ↔ _
      rw [new_leaf ht]; simp
    · intro p hp hp0
      simp only [List.mem_singleton] at hp
      subst hp
      exact absurd rfl hp0
    · intro p hp i _
      simp only [List.mem_singleton] at hp
      subst hp
      exact .root
    · intro m c hc hne
      exact absurd ⟨c, hc, hne⟩ (new_notSplit ht m)
  · intro r hr'
    simp only [List.mem_singleton] at hr'
    subst hr'
    rw [hr2.1]
    have : 1 < 2 ^ cfg.maxTreeDepth := Nat.one_lt_two_pow (by omega)
    omega
  · intro r hr'
    simp only [List.mem_singleton] at hr'
    subst hr'
    exact hok
  · have hfl : ([root].map RefNode.examples).flatten = List.range ds.nactiveExamples := by simp [hr2.2]
    refine ⟨rfl, ?_, ?_, ?_, fun _ _ => rfl, fun _ _ => rfl, .nil _, ?_, ?_⟩
    · simp only [List.flatMap_nil, List.nil_append, hfl]; exact List.nodup_range
    · simp only [List.flatMap_nil, List.nil_append, hfl, hr.len]; intro i hi; exact List.mem_range.1 hi
    · intro p hp; cases hp
    · intro p hp; cases hp
    · intro l hl
      simp only [List.map_nil, List.nil_append, List.map_cons, List.mem_singleton, hr2.2] at hl
      subst hl
      exact List.pairwise_lt_range

/-- What is known when training has finished. -/
theorem train_inv (h : Updated F cfg d rng k ds) (hr : Active ds rows) (hn : ds.nactiveExamples ≤ 2 ^ 32 - 256)
    (hmin : 1 ≤ cfg.minExamplesLeaf) (htgt : target ds.data = .ok targets)
    (ht : train F cfg ds sc o fuel = .ok (some (t, o'))) :
    ∃ o1 done msk, TreeInv F cfg ds sc targets rows o ⟨t, o1, []⟩ done msk ∧ outOfBag F ds t o1 = .ok o' := by
  rw [train_eq hn h.masksOk hmin] at ht
  unfold refTrain at ht
  obtain ⟨w, ew, ht⟩ := Out.bind_eq_ok.1 ht
  obtain ⟨t0, et, ht⟩ := Out.bind_eq_ok.1 ht
  obtain ⟨_, ea, ht⟩ := Out.bind_eq_ok.1 ht
  obtain ⟨ps, ep, ht⟩ := Out.bind_eq_ok.1 ht
  obtain ⟨codes, ec, ht⟩ := Out.bind_eq_ok.1 ht
  obtain ⟨root, er, ht⟩ := Out.bind_eq_ok.1 ht
  obtain ⟨res, el, ht⟩ := Out.bind_eq_ok.1 ht
  have hpos : 0 < ds.nactiveExamples := by
    by_contra hc
    simp [Out.assert, hc] at ea
  have hro := rowsOk h hr
  cases res with
  | none => simp at ht
  | some st =>
    obtain ⟨o2, eo, ht⟩ := Out.bind_eq_ok.1 ht
    simp only [Out.pure_eq, Out.ok.injEq, Option.some.injEq, Prod.mk.injEq] at ht
    obtain ⟨rfl, rfl⟩ := ht
    obtain ⟨hs, done, msk, hinv⟩ := refLoop_inv hro htgt hmin fuel
      (treeInv_start hro hpos (by omega) et er o) el
    refine ⟨st.obj, done, msk, ?_, eo⟩
    have : (⟨st.tree, st.obj, []⟩ : RefState) = st := by
      cases st; simp only at hs; rw [hs]
    rw [this]
    exact hinv

end

/-! ### Out-of-bag examples -/

theorem outOfBagLoop_ok {F : FP} {d : Data} {t : Tree} : ∀ (is : List Nat) (o o' : Objective), is.Nodup →
    outOfBagLoop F d t is o = .ok o' →
    o' = { o with predictions := o'.predictions } ∧
    (∀ r, r ∉ is → o'.predictions[r]? = o.predictions[r]?) ∧
    ∀ r ∈ is, ∃ x p, o.predictions[r]? = some x ∧ t.predictSingle F d r = .ok p ∧
      o'.predictions[r]? = some (F.add x p)
  | [], o, o', _, h => by
      simp only [outOfBagLoop, Out.ok.injEq] at h
      subst h
      exact ⟨rfl, fun _ _ => rfl, by simp⟩
  | i :: is, o, o', hnd, h => by
      unfold outOfBagLoop at h
      obtain ⟨p, e1, h⟩ := Out.bind_eq_ok.1 h
      obtain ⟨o1, e2, h⟩ := Out.bind_eq_ok.1 h
      rw [List.nodup_cons] at hnd
      obtain ⟨a1, a2, a3⟩ := outOfBagLoop_ok is o1 o' hnd.2 h
      unfold Objective.updateOutOfBag at e2
      cases hx : o.predictions[i]? with
      | none => rw [hx] at e2; cases e2
      | some x =>
        rw [hx] at e2
        obtain ⟨_, _, e2⟩ := Out.bind_eq_ok.1 e2
        simp only [Out.pure_eq, Out.ok.injEq] at e2
        subst e2
        have hlt := (List.getElem?_eq_some_iff.1 hx).1
        refine ⟨a1, ?_, ?_⟩
        · intro r hr
          simp only [List.mem_cons, not_or] at hr
          rw [a2 r hr.2]
          simp only
          rw [List.getElem?_set_ne (Ne.symm hr.1)]
        · intro r hr
          rw [List.mem_cons] at hr
          rcases hr with rfl | hr
          · refine ⟨x, p, hx, e1, ?_⟩
            rw [a2 r hnd.1]
            simp only
            rw [List.getElem?_set_self hlt]
          · obtain ⟨y, p', b1, b2, b3⟩ := a3 r hr
            refine ⟨y, p', ?_, b2, b3⟩
            simp only at b1
            rwa [List.getElem?_set_ne (by rintro rfl; exact hnd.1 hr)] at b1

theorem outOfBag_ok {F : FP} {cfg : Config} {d : Data} {rng : Rng} {k : Nat} {ds : Dataset} {rows : List Nat}
    (h : Updated F cfg d rng k ds) (hr : Active ds rows)
    (hfull : ds.exampleSampling = false → rows.length = d.nexamples) {t : Tree} {o o' : Objective}
    (ho : outOfBag F ds t o = .ok o') :
    o' = { o with predictions := o'.predictions } ∧ (∀ r ∈ rows, o'.predictions[r]? = o.predictions[r]?) ∧
    (∀ r, r < d.nexamples → r ∉ rows → ∃ x p, o.predictions[r]? = some x ∧ t.predictSingle F d r = .ok p ∧
      o'.predictions[r]? = some (F.add x p)) := by
  have hd := h.inv.data
  unfold outOfBag at ho
  by_cases hs : ds.exampleSampling = true
  · rw [if_pos hs] at ho
    obtain ⟨is, e1, ho⟩ := Out.bind_eq_ok.1 ho
    obtain ⟨_, _, _, h4⟩ := Props.C30_examples F cfg d rng k ds h hs rows hr
    rw [h4] at e1
    cases e1
    rw [hd] at ho
    obtain ⟨a1, a2, a3⟩ := outOfBagLoop_ok _ _ _ (List.nodup_range.filter _) ho
    refine ⟨a1, ?_, ?_⟩
    · intro r hr'
      exact a2 r (by simp [hr'])
    · intro r h1 h2
      exact a3 r (by simp [h1, h2])
  · rw [if_neg hs] at ho
    cases ho
    refine ⟨rfl, fun _ _ => rfl, ?_⟩
    intro r h1 h2
    exfalso
    apply h2
    have hs' : ds.exampleSampling = false := by simpa using hs
    have hl := hfull hs'
    obtain ⟨rows', hl', hz⟩ := activePairs_rows hr
    have := zip_inj hz
    subst this
    have hr' := hr
    unfold Active Dataset.activePairs at hr'
    rw [if_neg hs] at hr'
    simp only [Out.ok.injEq] at hr'
    have hm : (r, r) ∈ (List.range rows.length).zip rows := by
      rw [← hr', ← hl', hl]
      exact List.mem_map.2 ⟨r, List.mem_range.2 h1, rfl⟩
    exact (List.of_mem_zip hm).2

/-! ### Prediction follows training -/

/-- The tests of the tree send a row the way the masks send the active example. -/
def RowAgrees (ds : Dataset) (t : Tree) (msk : Nat → Blocks) (i r : Nat) : Prop :=
  ∀ (n : Nat) (c : SplitCrit), t.splitCrits[n]? = some c → c.splitType ≠ .noSplit →
    ∃ v, cell ds.data c.featureId r = some v ∧
      ∃ left, Tree.test ds.supercats c v = .ok (some left) ∧ (left = true ↔ inMask (msk n) i)

theorem row_agrees {F : FP} {ds : Dataset} {rows : List Nat} {t : Tree} {msk : Nat → Blocks}
    (hc : Consistent F ds rows) (hm : SplitMasks F ds t msk) {i r : Nat} (hi : rows[i]? = some r) :
    RowAgrees ds t msk i r := fun n c h1 hn => hc _ _ (hm n c h1 hn) i r hi

theorem trained_follows {ds : Dataset} {t : Tree} {msk : Nat → Blocks} {i r : Nat} (hc : RowAgrees ds t msk i r)
    (hsc : t.supercats = ds.supercats) {n : Nat} (h : TrainedTo t msk i n) :
    ∃ q, nodeAt q = n ∧ Follows t ds.data r q := by
  induction h with
  | root => exact ⟨[], rfl, by intro k b hk; simp at hk⟩
  | left _ h1 h3 ih =>
    obtain ⟨q, rfl, hq⟩ := ih
    obtain ⟨c, h1, hn⟩ := h1
    obtain ⟨v, hv, l, hl, hll⟩ := hc _ c h1 hn
    have : l = true := hll.2 h3
    subst this
    exact ⟨q ++ [true], by rw [nodeAt_snoc]; rfl, hq.snoc h1 hv (by rw [hsc]; exact hl)⟩
  | right _ h1 h3 ih =>
    obtain ⟨q, rfl, hq⟩ := ih
    obtain ⟨c, h1, hn⟩ := h1
    obtain ⟨v, hv, l, hl, hll⟩ := hc _ c h1 hn
    have : l = false := by
      cases l with
      | false => rfl
      | true => exact absurd (hll.1 rfl) h3
    subst this
    exact ⟨q ++ [false], by rw [nodeAt_snoc]; rfl, hq.snoc h1 hv (by rw [hsc]; exact hl)⟩

theorem _root_.BitBoost.Spec.Grown.none {F : FP} {md k : Nat} {sc : List (List Nat)} {t : Tree} (h : Grown F md sc k t) :
    ∀ (n : Nat) (c : SplitCrit), t.splitCrits[n]? = some c → c.splitType = .noSplit → c = SplitCrit.none := by
  induction h with
  | new h =>
    intro n c hc _
    simp only [Tree.new, Out.bind_eq_ok] at h
    obtain ⟨_, _, h⟩ := h
    simp only [Out.pure_eq, Out.ok.injEq] at h
    subst h
    have := List.mem_of_getElem? hc
    rw [List.mem_replicate] at this
    exact this.2
  | @split k t t' n' c' _ _ h ih =>
    obtain ⟨hlt, hcn, _, rfl⟩ := Tree.splitNode_ok h
    intro n c hc hn
    simp only at hc
    by_cases e : n' = n
    · subst e
      rw [List.getElem?_set_self hlt] at hc
      cases hc
      exact absurd hn hcn
    · rw [List.getElem?_set_ne e] at hc
      exact ih n c hc hn
  | value _ h ih =>
    obtain ⟨_, _, rfl⟩ := Tree.setValue_ok h
    exact ih
  | shrinkage _ ih => exact ih
  | bias _ ih => exact ih

theorem predict_of_trained {F : FP} {ds : Dataset} {md k : Nat} {t : Tree} {msk : Nat → Blocks}
    (hg : Grown F md ds.supercats k t) {i r : Nat} (hc : RowAgrees ds t msk i r) {x : Num} (h0 : cell ds.data 0 r = some x) {n : Nat} (h : TrainedTo t msk i n)
    (hn : IsLeaf t n) : t.predictLeafId ds.data r = .ok n := by
  obtain ⟨_, _, hsc, hsl, _, hin⟩ := hg.built.inv
  obtain ⟨q, rfl, hq⟩ := trained_follows hc hsc h
  have hlt : nodeAt q < t.splitCrits.length := by
    rw [hsl]
    have hpow : (2 : Nat) ^ (md + 1) = 2 * 2 ^ md := by rw [pow_succ]; ring
    have h1 : (1 : Nat) ≤ 2 ^ md := Nat.one_le_two_pow
    have hnode := hn.1
    generalize nodeAt q = m at hnode
    cases hnode with
    | root => omega
    | left _ hs => have := hin _ hs; omega
    | right _ hs => have := hin _ hs; omega
  have hcr : t.splitCrits[nodeAt q]? = some t.splitCrits[nodeAt q] := List.getElem?_eq_getElem hlt
  have hns : (t.splitCrits[nodeAt q]).splitType = .noSplit := by
    by_contra hne
    exact hn.2 ⟨_, hcr, hne⟩
  have hnone := hg.none _ _ hcr hns
  exact leafFrom_of_follows hq hcr hns (by rw [hnone]; exact h0) [] (by simp)

end Learner
end BitBoost
