import Verif.Spec.Trees
import Mathlib.Data.Set.Card
import Mathlib.Tactic.Linarith
/-! Lemmas about trees. -/
namespace BitBoost
open Spec

theorem nodeAt_nil : nodeAt [] = 0 := rfl

theorem nodeAt_snoc (p : List Bool) (b : Bool) :
    nodeAt (p ++ [b]) = if b then 2 * nodeAt p + 1 else 2 * nodeAt p + 2 := by
  simp [nodeAt, List.foldl_append]

theorem nodeAt_bounds (p : List Bool) :
    2 ^ p.length ≤ nodeAt p + 1 ∧ nodeAt p + 2 ≤ 2 ^ (p.length + 1) := by
  induction p using List.reverseRecOn with
  | nil => simp [nodeAt]
  | append_singleton p b ih =>
    rw [nodeAt_snoc, List.length_append, List.length_singleton, pow_succ, pow_succ]
    rw [pow_succ] at ih
    constructor <;> split_ifs <;> omega

theorem nodeAt_inj (p q : List Bool) (h : nodeAt p = nodeAt q) : p = q := by
  induction p using List.reverseRecOn generalizing q with
  | nil =>
    rcases List.eq_nil_or_concat q with rfl | ⟨q', b, rfl⟩
    · rfl
    · rw [List.concat_eq_append, nodeAt_snoc, nodeAt_nil] at h
      split_ifs at h <;> omega
  | append_singleton p b ih =>
    rcases List.eq_nil_or_concat q with rfl | ⟨q', c, rfl⟩
    · rw [nodeAt_snoc, nodeAt_nil] at h
      split_ifs at h <;> omega
    · rw [List.concat_eq_append, nodeAt_snoc, nodeAt_snoc] at h
      rw [List.concat_eq_append]
      cases b <;> cases c <;> simp at h
      · rw [ih q' (by omega)]
      · omega
      · omega
      · rw [ih q' (by omega)]

/-- Invariant of all trees built by calls. -/
theorem Spec.Built.inv {F : FP} {md : Nat} {sc : List (List Nat)} {t : Tree} (h : Built F md sc t) :
    0 < md ∧ t.maxDepth = md ∧ t.supercats = sc ∧ t.splitCrits.length = 2 ^ (md + 1) - 1 ∧
    t.nodeValues.length = 2 ^ (md + 1) - 1 ∧ (∀ n, IsSplit t n → n < 2 ^ md - 1) := by
  induction h with
  | @new t h =>
    simp only [Tree.new, Out.bind_eq_ok] at h
    obtain ⟨_, h1, h2⟩ := h
    have hmd : 0 < md := by
      by_contra hn
      simp [Out.assert, hn] at h1
    simp only [Out.pure_eq, Out.ok.injEq] at h2
    subst h2
    refine ⟨hmd, rfl, rfl, by simp, by simp, ?_⟩
    rintro n ⟨c, hc, hs⟩
    simp [List.getElem?_replicate] at hc
    exact absurd (by rw [← hc.2]; rfl) hs
  | @split t t' n c _ h ih =>
    obtain ⟨i0, i1, i2, i3, i4, i5⟩ := ih
    unfold Tree.splitNode at h
    cases ho : t.splitCrits[n]? with
    | none => rw [ho] at h; cases h
    | some old =>
      rw [ho] at h
      simp only [Out.bind_eq_ok] at h
      obtain ⟨_, h1, _, h2, _, h3, h4⟩ := h
      have hn : ¬ (t.maxNinternal ≤ n) := by
        intro hle
        simp [Out.assert, Tree.isMaxLeafNode, hle] at h3
      simp only [Out.pure_eq, Out.ok.injEq] at h4
      subst h4
      refine ⟨i0, i1, i2, by simpa using i3, i4, ?_⟩
      rintro m ⟨c', hc', hs⟩
      by_cases hm : m = n
      · subst hm
        rw [Tree.maxNinternal, i1] at hn; omega
      · simp only [List.getElem?_set_ne (Ne.symm hm)] at hc'
        exact i5 m ⟨c', hc', hs⟩
  | @value t t' n v _ h ih =>
    simp only [Tree.setValue, Out.bind_eq_ok] at h
    obtain ⟨_, _, _, _, h4⟩ := h
    simp only [Out.pure_eq, Out.ok.injEq] at h4
    subst h4
    obtain ⟨i0, i1, i2, i3, i4, i5⟩ := ih
    exact ⟨i0, i1, i2, i3, by simpa using i4, i5⟩
  | shrinkage _ ih => exact ih
  | bias _ ih => exact ih

theorem Spec.Grown.built {F : FP} {md k : Nat} {sc : List (List Nat)} {t : Tree} (h : Grown F md sc k t) :
    Built F md sc t := by
  induction h with
  | new h => exact .new h
  | split _ _ h ih => exact .split ih h
  | value _ h ih => exact .value ih h
  | shrinkage _ ih => exact .shrinkage ih
  | bias _ ih => exact .bias ih

/-- Row `i` follows the turns `p` from the root: each node before the end is split and its test gives
the turn. -/
def Follows (t : Tree) (d : Data) (i : Nat) (p : List Bool) : Prop :=
  ∀ k b, p[k]? = some b → ∃ c v, t.splitCrits[nodeAt (p.take k)]? = some c ∧
    cell d c.featureId i = some v ∧ Tree.test t.supercats c v = .ok (some b)

theorem Follows.snoc {t : Tree} {d : Data} {i : Nat} {p : List Bool} (h : Follows t d i p) {b : Bool}
    {c : SplitCrit} {v : Num} (hc : t.splitCrits[nodeAt p]? = some c)
    (hv : cell d c.featureId i = some v) (ht : Tree.test t.supercats c v = .ok (some b)) :
    Follows t d i (p ++ [b]) := by
  intro k b' hk
  rcases lt_trichotomy k p.length with hlt | rfl | hgt
  · rw [List.getElem?_append_left hlt] at hk
    rw [List.take_append_of_le_length hlt.le]
    exact h k b' hk
  · simp at hk
    subst hk
    rw [List.take_left']
    · exact ⟨c, v, hc, hv, ht⟩
    · rfl
  · rw [List.getElem?_eq_none (by simp; omega)] at hk
    cases hk

theorem read_eq_ok {d : Data} {f i : Nat} {v : Num} : Tree.read d f i = .ok v ↔ cell d f i = some v := by
  unfold Tree.read cell
  cases h : d.cols[f]?.bind (·.values[i]?) <;> simp

/-- A finished walk ends at a leaf reached by turns that the row follows. -/
theorem leafFrom_ok {t : Tree} {d : Data} {i : Nat} (p : List Bool) (hp : Follows t d i p) {leaf : Nat}
    (h : t.leafFrom d i (nodeAt p) = .ok leaf) :
    ∃ q, p <+: q ∧ Follows t d i q ∧ nodeAt q = leaf ∧ ∃ c v, t.splitCrits[leaf]? = some c ∧
      c.splitType = .noSplit ∧ cell d c.featureId i = some v := by
  generalize hm : t.splitCrits.length - nodeAt p = m
  induction m using Nat.strong_induction_on generalizing p with
  | _ m ih =>
    rw [Tree.leafFrom] at h
    by_cases hlt : nodeAt p < t.splitCrits.length
    · rw [dif_pos hlt] at h
      have hc : t.splitCrits[nodeAt p]? = some t.splitCrits[nodeAt p] := List.getElem?_eq_getElem hlt
      cases hr : Tree.read d t.splitCrits[nodeAt p].featureId i with
      | panic => rw [hr] at h; cases h
      | ub => rw [hr] at h; cases h
      | ok v =>
        rw [hr] at h
        simp only at h
        have hv := read_eq_ok.1 hr
        cases ht : Tree.test t.supercats t.splitCrits[nodeAt p] v with
        | panic => rw [ht] at h; cases h
        | ub => rw [ht] at h; cases h
        | ok r =>
          rw [ht] at h
          cases r with
          | none =>
            simp only [Out.ok.injEq] at h
            refine ⟨p, List.prefix_rfl, hp, h, ?_⟩
            subst h
            refine ⟨_, v, hc, ?_, hv⟩
            revert ht
            unfold Tree.test
            cases t.splitCrits[nodeAt p].splitType <;> simp
            cases t.supercats[t.splitCrits[nodeAt p].featureId]? <;> simp
          | some b =>
            have h' : t.leafFrom d i (nodeAt (p ++ [b])) = .ok leaf := by
              rw [nodeAt_snoc]; cases b <;> exact h
            have hmono : nodeAt p < nodeAt (p ++ [b]) := by
              rw [nodeAt_snoc]; split_ifs <;> omega
            obtain ⟨q, h1, h2⟩ := ih _ (by omega) (p ++ [b]) (hp.snoc hc hv ht) h' rfl
            exact ⟨q, (List.prefix_append p [b]).trans h1, h2⟩
    · rw [dif_neg hlt] at h; cases h

/-- The walk is determined by the values of the tested features. -/
theorem leafFrom_of_follows {t : Tree} {d : Data} {i : Nat} {q : List Bool} (hq : Follows t d i q)
    {c : SplitCrit} {v : Num} (hc : t.splitCrits[nodeAt q]? = some c) (hn : c.splitType = .noSplit)
    (hv : cell d c.featureId i = some v) (p : List Bool) (hp : p <+: q) :
    t.leafFrom d i (nodeAt p) = .ok (nodeAt q) := by
  generalize hm : q.length - p.length = m
  induction m generalizing p with
  | zero =>
    have : p = q := hp.eq_of_length (by have := hp.length_le; omega)
    subst this
    obtain ⟨hlt, rfl⟩ := List.getElem?_eq_some_iff.1 hc
    rw [Tree.leafFrom, dif_pos hlt, read_eq_ok.2 hv]
    simp only [Tree.test, hn]
  | succ m ih =>
    have hl : p.length < q.length := by omega
    have hpk : p = q.take p.length := List.prefix_iff_eq_take.1 hp
    obtain ⟨c', v', h1, h2, h3⟩ := hq p.length q[p.length] (List.getElem?_eq_getElem hl)
    rw [← hpk] at h1
    obtain ⟨hlt, rfl⟩ := List.getElem?_eq_some_iff.1 h1
    have hnext : p ++ [q[p.length]] <+: q := by
      rw [List.prefix_iff_eq_take]
      simp only [List.length_append, List.length_singleton]
      rw [List.take_succ_eq_append_getElem hl, ← hpk]
    have := ih _ hnext (by simp; omega)
    rw [Tree.leafFrom, dif_pos hlt, read_eq_ok.2 h2]
    simp only [h3]
    rw [nodeAt_snoc] at this
    cases hb : q[p.length] <;> rw [hb] at this <;> exact this

end BitBoost
