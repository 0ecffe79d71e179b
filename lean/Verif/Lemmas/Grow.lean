import Verif.Lemmas.Tree
/-! Helper lemmas: growing a tree. -/
namespace BitBoost
open Spec

theorem Tree.setValue_ok {t t' : Tree} {n : Nat} {v : Num} (h : t.setValue n v = .ok t') :
    v.isFinite = true ∧ n < t.nodeValues.length ∧ t' = { t with nodeValues := t.nodeValues.set n v } := by
  simp only [Tree.setValue, Out.bind_eq_ok] at h
  obtain ⟨_, h1, _, h2, h4⟩ := h
  simp only [Out.pure_eq, Out.ok.injEq] at h4
  refine ⟨?_, ?_, h4.symm⟩
  · by_contra hc
    simp [Out.assert, hc] at h1
  · by_contra hc
    simp [Out.assert, hc] at h2

theorem Tree.splitNode_ok {t t' : Tree} {n : Nat} {c : SplitCrit} (h : t.splitNode n c = .ok t') :
    n < t.splitCrits.length ∧ c.splitType ≠ .noSplit ∧ n < 2 ^ t.maxDepth - 1 ∧
      t' = { t with splitCrits := t.splitCrits.set n c, ninternal := t.ninternal + 1 } := by
  unfold Tree.splitNode at h
  by_cases hlt : n < t.splitCrits.length
  · rw [List.getElem?_eq_getElem hlt] at h
    simp only [Out.bind_eq_ok] at h
    obtain ⟨_, _, _, h2, _, h3, h4⟩ := h
    simp only [Out.pure_eq, Out.ok.injEq] at h4
    refine ⟨hlt, ?_, ?_, h4.symm⟩
    · intro hc
      simp [SplitCrit.isNone, hc] at h2
    · by_contra hc
      have : t.isMaxLeafNode n = true := by
        unfold Tree.isMaxLeafNode Tree.maxNinternal
        simp only [decide_eq_true_eq]
        omega
      simp [Out.assert, this] at h3
  · rw [List.getElem?_eq_none (by omega)] at h
    cases h

theorem isSplit_congr {t t' : Tree} (h : t.splitCrits = t'.splitCrits) (n : Nat) : IsSplit t n ↔ IsSplit t' n := by
  unfold IsSplit; rw [h]

theorem isNode_congr' {t t' : Tree} (h : t.splitCrits = t'.splitCrits) (n : Nat) : IsNode t n ↔ IsNode t' n := by
  constructor
  · intro hn
    induction hn with
    | root => exact .root
    | left _ hs ih => exact .left ih ((isSplit_congr h _).1 hs)
    | right _ hs ih => exact .right ih ((isSplit_congr h _).1 hs)
  · intro hn
    induction hn with
    | root => exact .root
    | left _ hs ih => exact .left ih ((isSplit_congr h _).2 hs)
    | right _ hs ih => exact .right ih ((isSplit_congr h _).2 hs)

theorem isLeaf_congr {t t' : Tree} (h : t.splitCrits = t'.splitCrits) (n : Nat) : IsLeaf t n ↔ IsLeaf t' n := by
  unfold IsLeaf; rw [isNode_congr' h, isSplit_congr h]

theorem new_notSplit {md : Nat} {sc : List (List Nat)} {t : Tree} (h : Tree.new md sc = .ok t) (n : Nat) :
    ¬ IsSplit t n := by
  simp only [Tree.new, Out.bind_eq_ok] at h
  obtain ⟨_, _, h⟩ := h
  simp only [Out.pure_eq, Out.ok.injEq] at h
  subst h
  rintro ⟨c, h1, h2⟩
  have := List.mem_of_getElem? h1
  rw [List.mem_replicate] at this
  rw [this.2] at h2
  exact h2 rfl

theorem new_leaf {md : Nat} {sc : List (List Nat)} {t : Tree} (h : Tree.new md sc = .ok t) (n : Nat) :
    IsLeaf t n ↔ n = 0 := by
  constructor
  · rintro ⟨h1, _⟩
    cases h1 with
    | root => rfl
    | left _ hs => exact absurd hs (new_notSplit h _)
    | right _ hs => exact absurd hs (new_notSplit h _)
  · rintro rfl
    exact ⟨.root, new_notSplit h _⟩

theorem isNode_parent {t : Tree} {m : Nat} (h : IsNode t m) (n : Nat) (hm : m = 2 * n + 1 ∨ m = 2 * n + 2) :
    IsNode t n ∧ IsSplit t n := by
  cases h with
  | root => omega
  | @left p h1 h2 =>
    have : p = n := by omega
    subst this; exact ⟨h1, h2⟩
  | @right p h1 h2 =>
    have : p = n := by omega
    subst this; exact ⟨h1, h2⟩

section
variable {t t' : Tree} {n : Nat} {c : SplitCrit}

theorem split_isSplit (h : t.splitNode n c = .ok t') (m : Nat) : IsSplit t' m ↔ IsSplit t m ∨ m = n := by
  obtain ⟨hlt, hc, _, rfl⟩ := Tree.splitNode_ok h
  unfold IsSplit
  by_cases hm : m = n
  · subst hm
    simp only [List.getElem?_set_self hlt]
    simp [hc]
  · simp only [List.getElem?_set_ne (Ne.symm hm)]
    simp [hm]

theorem split_isNode (hsn : ∀ m, IsSplit t m → IsNode t m) (hn : IsNode t n) (h : t.splitNode n c = .ok t') (m : Nat) :
    IsNode t' m ↔ IsNode t m ∨ m = 2 * n + 1 ∨ m = 2 * n + 2 := by
  have mono : ∀ m, IsNode t m → IsNode t' m := by
    intro m hm
    induction hm with
    | root => exact .root
    | left _ hs ih => exact .left ih ((split_isSplit h _).2 (Or.inl hs))
    | right _ hs ih => exact .right ih ((split_isSplit h _).2 (Or.inl hs))
  constructor
  · intro hm
    cases hm with
    | root => exact Or.inl .root
    | @left p h1 h2 =>
      rcases (split_isSplit h p).1 h2 with h2 | rfl
      · exact Or.inl (.left (hsn p h2) h2)
      · exact Or.inr (Or.inl rfl)
    | @right p h1 h2 =>
      rcases (split_isSplit h p).1 h2 with h2 | rfl
      · exact Or.inl (.right (hsn p h2) h2)
      · exact Or.inr (Or.inr rfl)
  · rintro (hm | rfl | rfl)
    · exact mono m hm
    · exact .left (mono n hn) ((split_isSplit h n).2 (Or.inr rfl))
    · exact .right (mono n hn) ((split_isSplit h n).2 (Or.inr rfl))

theorem split_isLeaf (hsn : ∀ m, IsSplit t m → IsNode t m) (hn : IsLeaf t n) (h : t.splitNode n c = .ok t') (m : Nat) :
    IsLeaf t' m ↔ (IsLeaf t m ∧ m ≠ n) ∨ m = 2 * n + 1 ∨ m = 2 * n + 2 := by
  have hl1 : ¬ IsSplit t (2 * n + 1) := fun h => hn.2 (isNode_parent (hsn _ h) n (Or.inl rfl)).2
  have hl2 : ¬ IsSplit t (2 * n + 2) := fun h => hn.2 (isNode_parent (hsn _ h) n (Or.inr rfl)).2
  have hd1 : ¬ IsNode t (2 * n + 1) := fun h => hn.2 (isNode_parent h n (Or.inl rfl)).2
  have hd2 : ¬ IsNode t (2 * n + 2) := fun h => hn.2 (isNode_parent h n (Or.inr rfl)).2
  unfold IsLeaf
  rw [split_isNode hsn hn.1 h, split_isSplit h]
  constructor
  · rintro ⟨h1 | h1 | h1, h2⟩
    · left; exact ⟨⟨h1, fun h => h2 (Or.inl h)⟩, fun h => h2 (Or.inr h)⟩
    · right; left; exact h1
    · right; right; exact h1
  · rintro (⟨⟨h1, h2⟩, h3⟩ | rfl | rfl)
    · exact ⟨Or.inl h1, by rintro (h | h); exacts [h2 h, h3 h]⟩
    · exact ⟨Or.inr (Or.inl rfl), by rintro (h | h); exacts [hl1 h, by omega]⟩
    · exact ⟨Or.inr (Or.inr rfl), by rintro (h | h); exacts [hl2 h, by omega]⟩

end

theorem Spec.Grown.split_node {F : FP} {md k : Nat} {sc : List (List Nat)} {t : Tree} (h : Grown F md sc k t) :
    ∀ m, IsSplit t m → IsNode t m := by
  induction h with
  | new h => intro m hm; exact absurd hm (new_notSplit h m)
  | split _ hl h ih =>
    intro m hm
    rcases (split_isSplit h m).1 hm with hm | rfl
    · exact (split_isNode ih hl.1 h m).2 (Or.inl (ih m hm))
    · exact (split_isNode ih hl.1 h m).2 (Or.inl hl.1)
  | @value k t t' n v _ h ih =>
    obtain ⟨_, _, e⟩ := Tree.setValue_ok h
    have e : t.splitCrits = t'.splitCrits := by rw [e]
    exact fun m hm => (isNode_congr' e m).1 (ih m ((isSplit_congr e m).2 hm))
  | @shrinkage k t s _ ih =>
    exact fun m hm => (isNode_congr' (t := t) (t' := t.setShrinkage F s) rfl m).1 (ih m hm)
  | @bias k t b _ ih => exact fun m hm => (isNode_congr' (t := t) (t' := t.setBias b) rfl m).1 (ih m hm)

theorem not_node_child {t : Tree} {n m : Nat} (h : IsLeaf t n) (hm : m = 2 * n + 1 ∨ m = 2 * n + 2) : ¬ IsLeaf t m :=
  fun hl => h.2 (isNode_parent hl.1 n hm).2

end BitBoost
