import Verif.Lemmas.Best
import Verif.Lemmas.Prune
/-! Helper lemmas: the examples and the values of the leaves that two trees of different sizes have in common. -/
namespace BitBoost
namespace Learner
open Spec Dataset

variable {F : FP} {c : Config} {D : Nat} {g : Num} {ds : Dataset} {w : Nat} {bs : Num × Num} {codes : List Nat}

theorem refHists_limited : refHists F (c.limited D g) = refHists F c := by
  funext ds w bs codes ex
  simp only [refHists, refHist]

theorem refChildren_limited : refChildren F (c.limited D g) = refChildren F c := by
  funext ds w bs codes n s
  simp only [refChildren, refHists_limited]

theorem refRoot_limited : refRoot F (c.limited D g) = refRoot F c := by
  funext ds w bs codes
  simp only [refRoot, refHists_limited]

/-- The nodes that come about by splitting, starting with the root, whatever the depth. -/
inductive RefDerives (F : FP) (c : Config) (ds : Dataset) (w : Nat) (bs : Num × Num) (codes : List Nat) (root : RefNode) : RefNode → Prop
  | root : RefDerives F c ds w bs codes root root
  | child {n : RefNode} {s : Split} {ch : RefNode × RefNode} (x : Bool) : RefDerives F c ds w bs codes root n →
      findBestSplit F c ds n.gradSum n.exampleCount n.hists = .ok s → s.crit.isNone = false →
      refChildren F c ds w bs codes n s = .ok ch → RefDerives F c ds w bs codes root (if x then ch.1 else ch.2)

/-- The examples of a node of the tree. -/
inductive PartOf (F : FP) (c : Config) (ds : Dataset) (w : Nat) (bs : Num × Num) (codes : List Nat) (root : RefNode) : Nat → List Nat → Prop
  | root : PartOf F c ds w bs codes root 0 root.examples
  | child {n : RefNode} {s : Split} {m : Blocks} (x : Bool) : RefDerives F c ds w bs codes root n →
      findBestSplit F c ds n.gradSum n.exampleCount n.hists = .ok s → s.crit.isNone = false →
      ds.getBitvec s.crit.featureId s.splitId = .ok m →
      PartOf F c ds w bs codes root (if x then 2 * n.nodeId + 1 else 2 * n.nodeId + 2)
        (n.examples.filter fun i => bitAt m i == x)

variable {root : RefNode}

theorem refChild_id {n : RefNode} {s : Split} {ch : RefNode × RefNode} (x : Bool)
    (h : refChildren F c ds w bs codes n s = .ok ch) :
    (if x then ch.1 else ch.2).nodeId = if x then 2 * n.nodeId + 1 else 2 * n.nodeId + 2 := by
  obtain ⟨_, _, _, _, _, _, ⟨h1, _⟩, h2, _⟩ := refChildren_parts h
  cases x
  · exact h2
  · exact h1

theorem RefDerives.part (h0 : root.nodeId = 0) {n : RefNode} (h : RefDerives F c ds w bs codes root n) :
    PartOf F c ds w bs codes root n.nodeId n.examples := by
  cases h with
  | root => rw [h0]; exact .root
  | @child n s ch x hn hs hne hc =>
    rw [refChild_id x hc]
    obtain ⟨_, m, _, _, hm, _, ⟨_, h1, _⟩, _, h2, _⟩ := refChildren_parts hc
    have := PartOf.child x hn hs hne hm
    cases x
    · rw [if_neg (by decide)]
      show PartOf F c ds w bs codes root (2 * n.nodeId + 2) ch.2.examples
      rw [h2]
      simpa using this
    · rw [if_pos rfl]
      show PartOf F c ds w bs codes root (2 * n.nodeId + 1) ch.1.examples
      rw [h1]
      simpa using this

/-- In the smaller and in the larger tree the nodes with the same number are the same. -/
theorem RefDerives.agree (hg : c.minGain.le g = true) (h0 : root.nodeId = 0) {n : RefNode}
    (h : RefDerives F c ds w bs codes root n) : ∀ {n' : RefNode}, RefDerives F (c.limited D g) ds w bs codes root n' →
    n'.nodeId = n.nodeId → n' = n := by
  induction h with
  | root =>
    intro n' h' e
    cases h' with
    | root => rfl
    | child x _ _ _ hc =>
      rw [refChild_id x hc, h0] at e
      split at e <;> omega
  | @child n s ch x hn hs _ hc ih =>
    intro n' h' e
    rw [refChild_id x hc] at e
    cases h' with
    | root => rw [h0] at e; split at e <;> omega
    | @child m s' ch' x' hm hs' hne' hc' =>
      rw [refChild_id x' hc'] at e
      have hx : x' = x ∧ m.nodeId = n.nodeId := by
        cases x <;> cases x' <;> simp at e ⊢ <;> omega
      have hmn := ih hm hx.2
      subst hmn
      obtain ⟨s2, e2, e3⟩ := findBestSplit_limited (D := D) hg _ _ _ _ hs
      rw [hs'] at e2
      cases e2
      rcases e3 with rfl | e3
      · rw [refChildren_limited, hc] at hc'
        cases hc'
        rw [hx.1]
      · rw [hne'] at e3
        cases e3

/-- … and have the same examples. -/
theorem PartOf.agree (hg : c.minGain.le g = true) (h0 : root.nodeId = 0) {m : Nat} {ex ex' : List Nat}
    (h : PartOf F c ds w bs codes root m ex) (h' : PartOf F (c.limited D g) ds w bs codes root m ex') : ex' = ex := by
  generalize hk : m = k at h'
  cases h with
  | root =>
    cases h' with
    | root => rfl
    | @child n s m2 x =>
      split at hk <;> omega
  | @child n s m2 x hn hs hne hm =>
    generalize hex : ex' = e at h' ⊢
    cases h' with
    | root => split at hk <;> omega
    | @child n' s' m2' x' hn' hs' hne' hm' =>
      have hx : x' = x ∧ n'.nodeId = n.nodeId := by
        cases x <;> cases x' <;> simp at hk ⊢ <;> omega
      obtain ⟨rfl, hid⟩ := hx
      have := hn.agree hg h0 hn' hid
      subst this
      obtain ⟨s2, e2, e3⟩ := findBestSplit_limited (D := D) hg _ _ _ _ hs
      rw [hs'] at e2
      cases e2
      rcases e3 with rfl | e3
      · rw [hm] at hm'
        cases hm'
        rfl
      · rw [hne'] at e3
        cases e3

variable {sc : List (List Nat)} {o : Objective}

/-- The finished leaves of a tree under construction have the examples of their nodes. -/
theorem refReached_parts {rows : List Nat} {targets : List Num} (hr : RowsOk ds rows)
    (htgt : target ds.data = .ok targets) (hmin : 1 ≤ c.minExamplesLeaf) (hpos : 0 < ds.nactiveExamples)
    (hn2 : ds.nactiveExamples < 2 ^ 32) {st : RefState} (h : RefReached F c ds sc w codes o st) :
    ∃ root done msk, refRoot F c ds w o.bounds codes = .ok root ∧ TreeInv F c ds sc targets rows o st done msk ∧
      (∀ p ∈ done, PartOf F c ds w o.bounds codes root p.1 p.2) ∧
      ∀ r ∈ st.stack, RefDerives F c ds w o.bounds codes root r := by
  induction h with
  | @start t root h1 h2 =>
    refine ⟨root, [], _, h2, treeInv_start hr hpos hn2 h1 h2 o, by simp, ?_⟩
    intro r hr'
    simp only [List.mem_singleton] at hr'
    subst hr'
    exact .root
  | @round t o1 n rest st' h0 he ih =>
    obtain ⟨root, done, msk, hroot, hinv, hd, hs⟩ := ih
    have hr0 : root.nodeId = 0 := by
      unfold refRoot at hroot
      obtain ⟨_, _, h⟩ := Out.bind_eq_ok.1 hroot
      simp only [Out.pure_eq, Out.ok.injEq] at h
      subst h
      rfl
    obtain ⟨done', msk', hinv', s, es, hstep⟩ := refExpand_step hr htgt hmin hinv he
    have hb : o1.bounds = o.bounds := bounds_congr hinv.preds.obj
    have hn := hs n (by simp)
    refine ⟨root, done', msk', hroot, hinv', ?_, ?_⟩
    · intro p hp
      rcases hstep with ⟨_, rfl, _⟩ | ⟨hne, m, hm, rfl | ⟨l, r, rfl, _, rfl, rfl⟩, _⟩
      · rcases List.mem_append.1 hp with hp | hp
        · exact hd p hp
        · rw [List.mem_singleton] at hp
          subst hp
          exact hn.part hr0
      · exact hd p hp
      · have a1 := PartOf.child true hn es hne hm
        have a2 := PartOf.child false hn es hne hm
        simp only [List.mem_append, List.mem_singleton] at hp
        rcases hp with (hp | rfl) | rfl
        · exact hd p hp
        · simpa using a1
        · simpa using a2
    · intro r hr'
      rcases refExpand_stack he with e | ⟨s', ch, h1, h2, h3, h4⟩
      · rw [e] at hr'
        exact hs r (by simp only [List.mem_cons]; exact Or.inr hr')
      · rw [h4] at hr'
        simp only at h3
        rw [hb] at h3
        simp only [List.mem_cons] at hr'
        rcases hr' with rfl | rfl | hr'
        · exact RefDerives.child true hn h1 h2 h3
        · exact RefDerives.child false hn h1 h2 h3
        · exact hs r (by simp only [List.mem_cons]; exact Or.inr hr')

/-- The leaves of a trained tree, their examples and their values. -/
theorem train_parts {d : Data} {rng : Rng} {k : Nat} {rows : List Nat} {targets : List Num} {o' : Objective}
    {fuel : Nat} {t : Tree} (h : Updated F c d rng k ds) (hr : Active ds rows) (hn : ds.nactiveExamples ≤ 2 ^ 32 - 256)
    (hmin : 1 ≤ c.minExamplesLeaf) (htgt : target ds.data = .ok targets) (ht : train F c ds sc o fuel = .ok (some (t, o'))) :
    ∃ w ps codes root, width c = .ok w ∧ ds.activePairs = .ok ps ∧ gradCodes F w o.bounds o.gradients ps = .ok codes ∧
      refRoot F c ds w o.bounds codes = .ok root ∧ root.nodeId = 0 ∧ (t.shrinkage = .fin 1 ∧ t.bias = .fin 0) ∧ ∀ n, IsLeaf t n → ∃ ex u,
        PartOf F c ds w o.bounds codes root n ex ∧
        Objective.leafValue F o targets (ex.map (rowAt rows)) = .ok u ∧ t.nodeValues[n]? = some (F.mul o.learningRate u) := by
  obtain ⟨w, ps, codes, o1, e1, e2, e3, hpos, hreach, _⟩ := train_reached hn h.masksOk hmin ht
  obtain ⟨root, done, msk, hroot, hinv, hd, _⟩ := refReached_parts (rowsOk h hr) htgt hmin hpos (by omega) hreach
  refine ⟨w, ps, codes, root, e1, e2, e3, hroot, ?_, ⟨hinv.shr, hinv.bias⟩, fun n hl => ?_⟩
  · unfold refRoot at hroot
    obtain ⟨_, _, h⟩ := Out.bind_eq_ok.1 hroot
    simp only [Out.pure_eq, Out.ok.injEq] at h
    subst h
    rfl
  · have := (hinv.parts.leaves n).1 hl
    rw [show open' ⟨t, o1, []⟩ = [] from rfl, List.append_nil] at this
    obtain ⟨p, hp, rfl⟩ := List.mem_map.1 this
    obtain ⟨_, u, g1, g2⟩ := hinv.preds.given p hp
    exact ⟨p.2, u, hd p hp, g1, g2⟩

end Learner
end BitBoost
