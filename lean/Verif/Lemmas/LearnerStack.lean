import Verif.Lemmas.Grow
import Verif.Model.Learner
import Mathlib.Algebra.BigOperators.Group.List.Basic
/-! Helper lemmas: the stack of the learner and the number of rounds. -/
namespace BitBoost
namespace Learner
open Spec

variable {F : FP} {cfg : Config} {ds : Dataset} {w : Nat}

theorem splitExamples_id {p c : Node} {id : Nat} {s : Split} {neg : Bool}
    (h : splitExamples F cfg ds w p id s neg = .ok c) : c.nodeId = id := by
  unfold splitExamples at h
  simp only at h
  obtain ⟨fm, _, h⟩ := Out.bind_eq_ok.1 h
  obtain ⟨hs, _, h⟩ := Out.bind_eq_ok.1 h
  obtain ⟨cm, _, h⟩ := Out.bind_eq_ok.1 h
  obtain ⟨r, _, h⟩ := Out.bind_eq_ok.1 h
  split at h
  · obtain ⟨_, _, h⟩ := Out.bind_eq_ok.1 h
    unfold compress at h
    simp only at h
    obtain ⟨_, _, h⟩ := Out.bind_eq_ok.1 h
    obtain ⟨_, _, h⟩ := Out.bind_eq_ok.1 h
    obtain ⟨_, _, h⟩ := Out.bind_eq_ok.1 h
    obtain ⟨_, _, h⟩ := Out.bind_eq_ok.1 h
    simp only [Out.pure_eq, Out.ok.injEq] at h
    subst h
    rfl
  · simp only [Out.pure_eq, Out.ok.injEq] at h
    subst h
    rfl

theorem buildHists_id {bounds : Num × Num} {n c : Node} (h : buildHists F cfg ds w bounds n = .ok c) :
    c.nodeId = n.nodeId := by
  unfold buildHists at h
  obtain ⟨_, _, h⟩ := Out.bind_eq_ok.1 h
  obtain ⟨_, _, h⟩ := Out.bind_eq_ok.1 h
  obtain ⟨_, _, h⟩ := Out.bind_eq_ok.1 h
  simp only [Out.pure_eq, Out.ok.injEq] at h
  subst h
  rfl

private theorem pair_ids {l r : Node} {g : Num} {c : Nat} {hs : Hists} {ch : Node × Node}
    (h : (pure (l, { r with gradSum := g, exampleCount := c, hists := hs }) : Out (Node × Node)) = .ok ch) :
    ch.1.nodeId = l.nodeId ∧ ch.2.nodeId = r.nodeId := by
  simp only [Out.pure_eq, Out.ok.injEq] at h
  subst h
  exact ⟨rfl, rfl⟩

theorem childNodes_id {bounds : Num × Num} {p : Node} {s : Split} {ch : Node × Node}
    (h : childNodes F cfg ds w bounds p s = .ok ch) :
    ch.1.nodeId = 2 * p.nodeId + 1 ∧ ch.2.nodeId = 2 * p.nodeId + 2 := by
  unfold childNodes at h
  obtain ⟨l, _, h⟩ := Out.bind_eq_ok.1 h
  obtain ⟨left, e1, h⟩ := Out.bind_eq_ok.1 h
  obtain ⟨left', e2, h⟩ := Out.bind_eq_ok.1 h
  obtain ⟨right, e3, h⟩ := Out.bind_eq_ok.1 h
  have h1 := splitExamples_id e1
  have h2 := buildHists_id e2
  have h3 := splitExamples_id e3
  have h4 := pair_ids h
  exact ⟨h4.1.trans (h2.trans h1), h4.2.trans h3⟩

/-- The nodes on the stack are different leaves of the tree that are allowed to be split. -/
structure StackInv (F : FP) (cfg : Config) (sc : List (List Nat)) (st : State) : Prop where
  grown : ∃ k, Grown F cfg.maxTreeDepth sc k st.tree
  nodup : (st.stack.map Node.nodeId).Nodup
  leaf : ∀ id ∈ st.stack.map Node.nodeId, IsLeaf st.tree id ∧ id < 2 ^ cfg.maxTreeDepth - 1

/-- The number of rounds a node can cost. -/
def weight (D id : Nat) : Nat := 2 ^ (D - Nat.log2 (id + 1)) - 1

theorem log2_child (id : Nat) : Nat.log2 (2 * id + 1 + 1) = Nat.log2 (id + 1) + 1 ∧
    Nat.log2 (2 * id + 2 + 1) = Nat.log2 (id + 1) + 1 := by
  have h : ∀ n : Nat, n / 2 = id + 1 → 2 ≤ n → Nat.log2 n = Nat.log2 (id + 1) + 1 := by
    intro n h1 h2
    rw [Nat.log2_def, if_pos h2, h1]
  exact ⟨h _ (by omega) (by omega), h _ (by omega) (by omega)⟩

theorem log2_lt {D id : Nat} (h : id < 2 ^ D - 1) : Nat.log2 (id + 1) < D := by
  by_contra hc
  have h1 : 2 ^ Nat.log2 (id + 1) ≤ id + 1 := Nat.log2_self_le (by omega)
  have h2 : 2 ^ D ≤ 2 ^ Nat.log2 (id + 1) := Nat.pow_le_pow_right (by omega) (by omega)
  omega

theorem weight_split {D id : Nat} (h : id < 2 ^ D - 1) :
    weight D (2 * id + 1) + weight D (2 * id + 2) + 1 ≤ weight D id := by
  obtain ⟨h1, h2⟩ := log2_child id
  have h3 := log2_lt h
  unfold weight
  rw [h1, h2]
  generalize Nat.log2 (id + 1) = l at *
  obtain ⟨e, rfl⟩ : ∃ e, D = l + 1 + e := ⟨D - (l + 1), by omega⟩
  have e1 : l + 1 + e - (l + 1) = e := by omega
  have e2 : l + 1 + e - l = e + 1 := by omega
  rw [e1, e2, pow_succ]
  have : (1 : Nat) ≤ 2 ^ e := Nat.one_le_two_pow
  omega

theorem weight_pos {D id : Nat} (h : id < 2 ^ D - 1) : 1 ≤ weight D id := by
  have := weight_split h
  omega

def totalWeight (D : Nat) (st : State) : Nat := (st.stack.map fun n => weight D n.nodeId).sum

theorem expand_stack {sc : List (List Nat)} {n : Node} {t : Tree} {o : Objective} {rest : List Node} {st' : State}
    (h : StackInv F cfg sc ⟨t, o, n :: rest⟩) (e : expand F cfg ds w n ⟨t, o, rest⟩ = .ok st') :
    StackInv F cfg sc st' ∧ totalWeight cfg.maxTreeDepth st' < totalWeight cfg.maxTreeDepth ⟨t, o, n :: rest⟩ := by
  obtain ⟨k, hg⟩ := h.grown
  obtain ⟨_, hmd, _, _, _, _⟩ := hg.built.inv
  simp only at hmd
  have hnd := h.nodup
  simp only [List.map_cons, List.nodup_cons] at hnd
  obtain ⟨hleaf, hinn⟩ := h.leaf n.nodeId (by simp)
  simp only at hleaf
  have hrest : ∀ id ∈ rest.map Node.nodeId, IsLeaf t id ∧ id < 2 ^ cfg.maxTreeDepth - 1 := fun id hid =>
    h.leaf id (by simp only [List.map_cons, List.mem_cons]; exact Or.inr hid)
  have hw := weight_pos hinn
  have htot : totalWeight cfg.maxTreeDepth ⟨t, o, n :: rest⟩ =
      weight cfg.maxTreeDepth n.nodeId + (rest.map fun n => weight cfg.maxTreeDepth n.nodeId).sum := by
    simp [totalWeight]
  unfold expand at e
  obtain ⟨s, hs, e⟩ := Out.bind_eq_ok.1 e
  split at e
  · obtain ⟨⟨t1, o1⟩, e1, e⟩ := Out.bind_eq_ok.1 e
    simp only [Out.pure_eq, Out.ok.injEq] at e
    subst e
    unfold leafValue at e1
    obtain ⟨_, _, e1⟩ := Out.bind_eq_ok.1 e1
    obtain ⟨_, _, e1⟩ := Out.bind_eq_ok.1 e1
    obtain ⟨t2, e2, e1⟩ := Out.bind_eq_ok.1 e1
    simp only [Out.pure_eq, Out.ok.injEq, Prod.mk.injEq] at e1
    obtain ⟨rfl, rfl⟩ := e1
    obtain ⟨_, _, e3⟩ := Tree.setValue_ok e2
    refine ⟨⟨⟨k, .value hg e2⟩, hnd.2, fun id hid => ?_⟩, ?_⟩
    · obtain ⟨a, b⟩ := hrest id hid
      exact ⟨(isLeaf_congr (by rw [e3]) _).1 a, b⟩
    · rw [htot]; simp only [totalWeight]; omega
  · split at e
    · rename_i hmax
      obtain ⟨ch, e1, e⟩ := Out.bind_eq_ok.1 e
      obtain ⟨t', e2, e⟩ := Out.bind_eq_ok.1 e
      simp only [Out.pure_eq, Out.ok.injEq] at e
      subst e
      obtain ⟨i1, i2⟩ := childNodes_id e1
      have hmax1 : 2 * n.nodeId + 1 < 2 ^ cfg.maxTreeDepth - 1 := by
        simp only [Tree.isMaxLeafNode, Tree.maxNinternal, Bool.not_eq_true', decide_eq_false_iff_not, hmd,
          Tree.leftChild] at hmax
        omega
      have hmax2 : 2 * n.nodeId + 2 < 2 ^ cfg.maxTreeDepth - 1 := by
        have : 2 ^ cfg.maxTreeDepth % 2 = 0 := by
          cases hd : cfg.maxTreeDepth with
          | zero => rw [hd] at hinn; simp at hinn
          | succ d => rw [pow_succ]; omega
        omega
      have hl := split_isLeaf hg.split_node hleaf e2
      refine ⟨⟨⟨k + 1, .split hg hleaf e2⟩, ?_, ?_⟩, ?_⟩
      · simp only [List.map_cons, List.nodup_cons, i1, i2, List.mem_cons, not_or]
        exact ⟨⟨by omega, fun hc => not_node_child hleaf (Or.inl rfl) (hrest _ hc).1⟩,
          fun hc => not_node_child hleaf (Or.inr rfl) (hrest _ hc).1, hnd.2⟩
      · intro id hid
        simp only [List.map_cons, i1, i2, List.mem_cons] at hid
        rcases hid with rfl | rfl | hid
        · exact ⟨(hl _).2 (Or.inr (Or.inl rfl)), hmax1⟩
        · exact ⟨(hl _).2 (Or.inr (Or.inr rfl)), hmax2⟩
        · obtain ⟨a, b⟩ := hrest id hid
          exact ⟨(hl _).2 (Or.inl ⟨a, by rintro rfl; exact hnd.1 hid⟩), b⟩
      · rw [htot]
        simp only [totalWeight, List.map_cons, List.sum_cons, i1, i2]
        have := weight_split hinn
        omega
    · obtain ⟨⟨t1, o1⟩, e1, e⟩ := Out.bind_eq_ok.1 e
      obtain ⟨t', e2, e⟩ := Out.bind_eq_ok.1 e
      simp only [Out.pure_eq, Out.ok.injEq] at e e2
      subst e
      unfold childLeafValues at e1
      obtain ⟨_, _, e1⟩ := Out.bind_eq_ok.1 e1
      obtain ⟨_, _, e1⟩ := Out.bind_eq_ok.1 e1
      obtain ⟨_, _, e1⟩ := Out.bind_eq_ok.1 e1
      obtain ⟨_, _, e1⟩ := Out.bind_eq_ok.1 e1
      obtain ⟨_, _, e1⟩ := Out.bind_eq_ok.1 e1
      obtain ⟨t2, e3, e1⟩ := Out.bind_eq_ok.1 e1
      obtain ⟨t3, e4, e1⟩ := Out.bind_eq_ok.1 e1
      simp only [Out.pure_eq, Out.ok.injEq, Prod.mk.injEq] at e1
      obtain ⟨rfl, rfl⟩ := e1
      obtain ⟨_, _, e5⟩ := Tree.setValue_ok e3
      obtain ⟨_, _, e6⟩ := Tree.setValue_ok e4
      have hc : t.splitCrits = t3.splitCrits := by rw [e6, e5]
      have hg3 : Grown F cfg.maxTreeDepth sc k t3 := .value (.value hg e3) e4
      have hleaf3 := (isLeaf_congr hc _).1 hleaf
      have hl := split_isLeaf hg3.split_node hleaf3 e2
      refine ⟨⟨⟨k + 1, .split hg3 hleaf3 e2⟩, hnd.2, fun id hid => ?_⟩, ?_⟩
      · obtain ⟨a, b⟩ := hrest id hid
        exact ⟨(hl _).2 (Or.inl ⟨(isLeaf_congr hc _).1 a, by rintro rfl; exact hnd.1 hid⟩), b⟩
      · rw [htot]; simp only [totalWeight]; omega

theorem loop_stack {sc : List (List Nat)} : ∀ (fuel : Nat) {st st' : State}, StackInv F cfg sc st →
    loop F cfg ds w fuel st = .ok (some st') → StackInv F cfg sc st' ∧ st'.stack = [] := by
  intro fuel
  induction fuel with
  | zero =>
    rintro ⟨t, o, stack⟩ st' h e
    unfold loop at e
    cases stack with
    | nil =>
      simp only [Out.ok.injEq, Option.some.injEq] at e
      subst e
      exact ⟨h, rfl⟩
    | cons n rest => simp at e
  | succ fuel ih =>
    rintro ⟨t, o, stack⟩ st' h e
    unfold loop at e
    cases stack with
    | nil =>
      simp only [Out.ok.injEq, Option.some.injEq] at e
      subst e
      exact ⟨h, rfl⟩
    | cons n rest =>
      simp only at e
      obtain ⟨st1, e1, e⟩ := Out.bind_eq_ok.1 e
      exact ih (expand_stack h e1).1 e

theorem loop_ends {sc : List (List Nat)} : ∀ (fuel : Nat) {st : State}, StackInv F cfg sc st →
    totalWeight cfg.maxTreeDepth st ≤ fuel → loop F cfg ds w fuel st ≠ .ok none ∧
      ∀ fuel', fuel ≤ fuel' → loop F cfg ds w fuel' st = loop F cfg ds w fuel st := by
  intro fuel
  induction fuel with
  | zero =>
    rintro ⟨t, o, stack⟩ h hw
    cases stack with
    | nil =>
      refine ⟨by simp [loop], fun f' _ => ?_⟩
      unfold loop
      rfl
    | cons n rest =>
      have := weight_pos (h.leaf n.nodeId (by simp)).2
      simp [totalWeight] at hw
      omega
  | succ fuel ih =>
    rintro ⟨t, o, stack⟩ h hw
    cases stack with
    | nil =>
      refine ⟨by simp [loop], fun f' _ => ?_⟩
      unfold loop
      rfl
    | cons n rest =>
      constructor
      · intro e
        unfold loop at e
        simp only at e
        obtain ⟨st1, e1, e⟩ := Out.bind_eq_ok.1 e
        obtain ⟨h1, h2⟩ := expand_stack h e1
        exact (ih h1 (by omega)).1 e
      · intro f' hf'
        obtain ⟨f'', rfl⟩ : ∃ f'', f' = f'' + 1 := ⟨f' - 1, by omega⟩
        unfold loop
        simp only
        cases e1 : expand F cfg ds w n ⟨t, o, rest⟩ with
        | panic => rfl
        | ub => rfl
        | ok st1 =>
          obtain ⟨h1, h2⟩ := expand_stack h e1
          simp only [Out.ok_bind]
          exact (ih h1 (by omega)).2 f'' (by omega)

theorem rootNode_id {o : Objective} {n : Node} (h : rootNode F cfg ds w o = .ok n) : n.nodeId = 0 := by
  unfold rootNode at h
  simp only at h
  obtain ⟨_, _, h⟩ := Out.bind_eq_ok.1 h
  obtain ⟨_, _, h⟩ := Out.bind_eq_ok.1 h
  obtain ⟨_, _, h⟩ := Out.bind_eq_ok.1 h
  obtain ⟨_, _, h⟩ := Out.bind_eq_ok.1 h
  obtain ⟨_, _, h⟩ := Out.bind_eq_ok.1 h
  obtain ⟨_, _, h⟩ := Out.bind_eq_ok.1 h
  obtain ⟨_, _, h⟩ := Out.bind_eq_ok.1 h
  rw [buildHists_id h]

theorem start_stack {sc : List (List Nat)} {o : Objective} {st : State} (h : start F cfg ds sc w o = .ok st) :
    StackInv F cfg sc st ∧ totalWeight cfg.maxTreeDepth st = 2 ^ cfg.maxTreeDepth - 1 := by
  unfold start at h
  obtain ⟨t, e1, h⟩ := Out.bind_eq_ok.1 h
  obtain ⟨root, e2, h⟩ := Out.bind_eq_ok.1 h
  simp only [Out.pure_eq, Out.ok.injEq] at h
  subst h
  have hg : Grown F cfg.maxTreeDepth sc 0 t := .new e1
  obtain ⟨hD, _⟩ := hg.built.inv
  have hid := rootNode_id e2
  have : 1 < 2 ^ cfg.maxTreeDepth := Nat.one_lt_two_pow (by omega)
  refine ⟨⟨⟨0, hg⟩, by simp, ?_⟩, ?_⟩
  · intro id hi
    simp only [List.map_cons, List.map_nil, List.mem_singleton] at hi
    rw [hi, hid]
    exact ⟨(new_leaf e1 0).2 rfl, by omega⟩
  · simp only [totalWeight, List.map_cons, List.map_nil, List.sum_cons, List.sum_nil, hid, weight]
    simp [Nat.log2_def]

end Learner
end BitBoost
