import Verif.Lemmas.Tree
import Verif.Lemmas.Float32
/-!
# C36-C39, C55: trees
-/
namespace BitBoost.Props
open BitBoost Spec

private theorem test_iff {sc : List (List Nat)} {c : SplitCrit} {v : Num} {b : Bool}
    (hh : c.splitType = .hiCardCatLt → ∀ s, sc[c.featureId]? = some s → c.splitValue.toU32 < s.length)
    (h : Tree.test sc c v = .ok (some b)) : b = true ↔ goesLeft sc c v := by
  unfold Tree.test at h
  unfold goesLeft
  cases hs : c.splitType with
  | noSplit => rw [hs] at h; simp at h
  | loCardCatEq => rw [hs] at h; simp at h; simp [← h]
  | numLt => rw [hs] at h; simp at h; simp [← h]
  | hiCardCatLt =>
    rw [hs] at h
    simp only at h
    cases hsc : sc[c.featureId]? with
    | none => rw [hsc] at h; simp at h
    | some s =>
      rw [hsc] at h
      simp only [Out.ok.injEq, Option.some.injEq] at h
      change decide ((if v.toU32 < s.length then s[v.toU32]?.getD 0 else s.length) ≤ c.splitValue.toU32) = b at h
      have := hh hs s hsc
      by_cases hlt : v.toU32 < s.length
      · rw [if_pos hlt, List.getElem?_eq_getElem hlt] at h
        subst h
        simp [List.getElem?_eq_getElem hlt]
      · rw [if_neg hlt] at h
        subst h
        simp [List.getElem?_eq_none (Nat.le_of_not_lt hlt)]
        omega

/-- Walking down a built tree never panics: it ends after at most `md` turns. -/
private theorem walk {F : FP} {md : Nat} {sc : List (List Nat)} {t : Tree} (hb : Built F md sc t)
    {d : Data} {i : Nat} (hcell : ∀ c ∈ t.splitCrits, ∃ v, cell d c.featureId i = some v)
    (hsc : ∀ c ∈ t.splitCrits, c.splitType = .hiCardCatLt → c.featureId < sc.length)
    (p : List Bool) (hp : Follows t d i p) (hl : p.length ≤ md) :
    ∃ leaf, t.leafFrom d i (nodeAt p) = .ok leaf := by
  obtain ⟨i0, i1, i2, i3, i4, i5⟩ := hb.inv
  generalize hm : md - p.length = m
  induction m generalizing p with
  | zero =>
    obtain ⟨b1, b2⟩ := nodeAt_bounds p
    have hpl : p.length = md := by omega
    rw [hpl] at b1 b2
    have hlt : nodeAt p < t.splitCrits.length := by omega
    rw [Tree.leafFrom, dif_pos hlt]
    obtain ⟨v, hv⟩ := hcell _ (List.getElem_mem hlt)
    rw [read_eq_ok.2 hv]
    have hns : t.splitCrits[nodeAt p].splitType = .noSplit := by
      by_contra hne
      have := i5 _ ⟨_, List.getElem?_eq_getElem hlt, hne⟩
      omega
    simp only [Tree.test, hns]
    exact ⟨_, rfl⟩
  | succ m ih =>
    obtain ⟨b1, b2⟩ := nodeAt_bounds p
    have hle : 2 ^ (p.length + 1) ≤ 2 ^ (md + 1) := Nat.pow_le_pow_right (by norm_num) (by omega)
    have hlt : nodeAt p < t.splitCrits.length := by omega
    obtain ⟨v, hv⟩ := hcell _ (List.getElem_mem hlt)
    have hc : t.splitCrits[nodeAt p]? = some t.splitCrits[nodeAt p] := List.getElem?_eq_getElem hlt
    have key : ∃ r, Tree.test t.supercats t.splitCrits[nodeAt p] v = .ok r := by
      unfold Tree.test
      cases hs : t.splitCrits[nodeAt p].splitType with
      | hiCardCatLt =>
        have := hsc _ (List.getElem_mem hlt) hs
        rw [i2, List.getElem?_eq_getElem this]
        exact ⟨_, rfl⟩
      | _ => exact ⟨_, rfl⟩
    obtain ⟨r, hr⟩ := key
    rw [Tree.leafFrom, dif_pos hlt, read_eq_ok.2 hv]
    simp only [hr]
    cases r with
    | none => exact ⟨_, rfl⟩
    | some b =>
      obtain ⟨leaf, hleaf⟩ := ih (p ++ [b]) (hp.snoc hc hv hr) (by simp; omega) (by simp; omega)
      rw [nodeAt_snoc] at hleaf
      cases b <;> exact ⟨leaf, hleaf⟩

/-! ## C36 -/

/-- Prediction with a tree built by any calls, on any row of a rectangular data set that has the tested
features: it ends, after at most `maxDepth` turns, at a node that is not split; each turn is the one the
split criterion of the node prescribes for the row; the result is the value stored at this leaf (scaled
and shifted). -/
theorem C36_predict (F : FP) (maxDepth : Nat) (supercats : List (List Nat)) (t : Tree)
    (hb : Built F maxDepth supercats t) (d : Data) (hd : Rectangular d) (i : Nat) (hi : i < d.nexamples)
    (hfeat : ∀ c ∈ t.splitCrits, c.featureId ≤ d.nfeatures)
    (hsc : ∀ c ∈ t.splitCrits, c.splitType = .hiCardCatLt →
      ∃ s, supercats[c.featureId]? = some s ∧ c.splitValue.toU32 < s.length) :
    ∃ turns : List Bool, turns.length ≤ maxDepth ∧
      (∀ k b, turns[k]? = some b → ∃ c v, t.splitCrits[nodeAt (turns.take k)]? = some c ∧
        c.splitType ≠ .noSplit ∧ cell d c.featureId i = some v ∧ (b = true ↔ goesLeft supercats c v)) ∧
      IsLeaf t (nodeAt turns) ∧
      t.predictLeafId d i = .ok (nodeAt turns) ∧
      ∃ v, t.nodeValue (nodeAt turns) = .ok v ∧
        t.predictSingle F d i = .ok (F.mul t.shrinkage (F.add v t.bias)) := by
  obtain ⟨i0, i1, i2, i3, i4, i5⟩ := hb.inv
  have hcell : ∀ c ∈ t.splitCrits, ∃ v, cell d c.featureId i = some v := by
    intro c hc
    have h1 : c.featureId < d.cols.length := by rw [hd.1]; have := hfeat c hc; omega
    have h2 := hd.2 _ (List.getElem_mem h1)
    exact ⟨(d.cols[c.featureId].values)[i]'(by omega), by
      simp [cell, List.getElem?_eq_getElem h1, List.getElem?_eq_getElem (show i < d.cols[c.featureId].values.length by omega)]⟩
  have hnil : Follows t d i [] := by intro k b hk; simp at hk
  obtain ⟨leaf, hleaf⟩ := walk hb hcell (fun c hc hs => by
    obtain ⟨s, h, _⟩ := hsc c hc hs
    exact (List.getElem?_eq_some_iff.1 h).1) [] hnil (by simp)
  obtain ⟨q, _, hq, rfl, cl, vl, hcl, hnl, _⟩ := leafFrom_ok [] hnil hleaf
  have hlen : q.length ≤ maxDepth := by
    by_contra hgt
    obtain ⟨c, v, h1, h2, h3⟩ := hq maxDepth q[maxDepth] (List.getElem?_eq_getElem (by omega))
    have hs : c.splitType ≠ .noSplit := by
      intro h; simp [Tree.test, h] at h3
    have := i5 _ ⟨c, h1, hs⟩
    have hb1 := (nodeAt_bounds (q.take maxDepth)).1
    rw [List.length_take, min_eq_left (by omega)] at hb1
    omega
  have hfol : ∀ k b, q[k]? = some b → ∃ c v, t.splitCrits[nodeAt (q.take k)]? = some c ∧
        c.splitType ≠ .noSplit ∧ cell d c.featureId i = some v ∧ (b = true ↔ goesLeft supercats c v) := by
    intro k b hk
    obtain ⟨c, v, h1, h2, h3⟩ := hq k b hk
    refine ⟨c, v, h1, ?_, h2, ?_⟩
    · intro h; simp [Tree.test, h] at h3
    · rw [i2] at h3
      refine test_iff ?_ h3
      intro hs s hsx
      obtain ⟨s', h4, h5⟩ := hsc c (List.mem_of_getElem? h1) hs
      rw [hsx] at h4; cases h4; exact h5
  refine ⟨q, hlen, hfol, ⟨?_, ?_⟩, hleaf, ?_⟩
  · have : ∀ m, m ≤ q.length → IsNode t (nodeAt (q.take m)) := by
      intro m
      induction m with
      | zero => intro _; simpa [nodeAt] using IsNode.root
      | succ m ih =>
        intro hm
        have hm' : m < q.length := by omega
        obtain ⟨c, v, h1, h2, _⟩ := hfol m q[m] (List.getElem?_eq_getElem hm')
        rw [List.take_succ_eq_append_getElem hm', nodeAt_snoc]
        split_ifs
        · exact .left (ih (by omega)) ⟨c, h1, h2⟩
        · exact .right (ih (by omega)) ⟨c, h1, h2⟩
    simpa using this q.length le_rfl
  · rintro ⟨c, hc, hs⟩
    rw [hcl] at hc; cases hc; exact hs hnl
  · have hlt : nodeAt q < t.nodeValues.length := by
      have := (List.getElem?_eq_some_iff.1 hcl).1; omega
    refine ⟨t.nodeValues[nodeAt q], by simp [Tree.nodeValue, List.getElem?_eq_getElem hlt], ?_⟩
    simp [Tree.predictSingle, Tree.predictLeafId, nodeAt_nil] at hleaf ⊢
    rw [hleaf]
    simp [Tree.nodeValue, List.getElem?_eq_getElem hlt]

/-- A data set with two features and two rows. -/
def exData : Data where
  maxNbins := 16
  names := ["a", "b", "t"]
  nfeatures := 2
  nexamples := 2
  cols := [⟨[.fin 0, .fin 5], .fin 0, .fin 5, .numerical, 0⟩,
    ⟨[.fin 3, .fin 1], .fin 1, .fin 3, .loCardCat, 4⟩, ⟨[.fin 0, .fin 1], .fin 0, .fin 1, .numerical, 0⟩]

/-- A tree with two levels: `feature 0 < 2`, and on the right `feature 1 == 1`. -/
def exTree : Tree where
  ninternal := 2
  maxDepth := 2
  splitCrits := [⟨.numLt, 0, .fin 2⟩, SplitCrit.none, ⟨.loCardCatEq, 1, .fin 1⟩, SplitCrit.none,
    SplitCrit.none, SplitCrit.none, SplitCrit.none]
  nodeValues := [.fin 0, .fin 10, .fin 0, .fin 0, .fin 0, .fin 20, .fin 0]
  shrinkage := .fin 1
  bias := .fin 0
  supercats := []

theorem exTree_grown (F : FP) : Grown F 2 [] 2 exTree := by
  have h0 : Grown F 2 [] 0 ⟨0, 2, List.replicate 7 SplitCrit.none, List.replicate 7 (.fin 0), .fin 1,
      .fin 0, []⟩ := .new rfl
  have h1 := h0.split (n := 0) (c := ⟨.numLt, 0, .fin 2⟩) ⟨.root, by
    rintro ⟨c, hc, hs⟩; simp at hc; subst hc; exact hs rfl⟩ rfl
  have h2 := h1.split (n := 2) (c := ⟨.loCardCatEq, 1, .fin 1⟩)
    ⟨IsNode.right (n := 0) .root ⟨_, rfl, by simp⟩, by
      rintro ⟨c, hc, hs⟩; simp [List.replicate_succ] at hc; subst hc; exact hs rfl⟩ rfl
  have h3 := h2.value (n := 1) (v := .fin 10) rfl
  have h4 := h3.value (n := 5) (v := .fin 20) rfl
  exact h4

/-- Non-vacuity of C36: all its hypotheses hold for `exTree` and `exData`. -/
example : Built FP.binary32 2 [] exTree ∧ Rectangular exData ∧
    (∀ c ∈ exTree.splitCrits, c.featureId ≤ exData.nfeatures) ∧
    (∀ c ∈ exTree.splitCrits, c.splitType = .hiCardCatLt →
      ∃ s, ([] : List (List Nat))[c.featureId]? = some s ∧ c.splitValue.toU32 < s.length) :=
  ⟨(exTree_grown _).built, ⟨rfl, by decide⟩, by decide, by
    intro c hc h
    simp [exTree, SplitCrit.none] at hc
    rcases hc with rfl | rfl | rfl | rfl | rfl | rfl <;> simp at h⟩

/-! ## C37 -/

private theorem not_split_new {md : Nat} {sc : List (List Nat)} {t : Tree} (h : Tree.new md sc = .ok t)
    (n : Nat) : ¬ IsSplit t n := by
  simp only [Tree.new, Out.bind_eq_ok] at h
  obtain ⟨_, _, h2⟩ := h
  simp only [Out.pure_eq, Out.ok.injEq] at h2
  subst h2
  rintro ⟨c, hc, hs⟩
  simp [List.getElem?_replicate] at hc
  exact hs (by rw [← hc.2]; rfl)

private theorem isNode_congr {t t' : Tree} (h : t.splitCrits = t'.splitCrits) (n : Nat) :
    (IsNode t n ↔ IsNode t' n) ∧ (IsSplit t n ↔ IsSplit t' n) := by
  have hs : ∀ n, IsSplit t n ↔ IsSplit t' n := by intro n; unfold IsSplit; rw [h]
  refine ⟨⟨fun hn => ?_, fun hn => ?_⟩, hs n⟩
  · induction hn with
    | root => exact .root
    | left _ h ih => exact .left ih ((hs _).1 h)
    | right _ h ih => exact .right ih ((hs _).1 h)
  · induction hn with
    | root => exact .root
    | left _ h ih => exact .left ih ((hs _).2 h)
    | right _ h ih => exact .right ih ((hs _).2 h)

private theorem isNode_child {t : Tree} {m : Nat} (h : IsNode t m) :
    (∀ n, m = 2 * n + 1 → IsNode t n ∧ IsSplit t n) ∧ (∀ n, m = 2 * n + 2 → IsNode t n ∧ IsSplit t n) := by
  cases h with
  | root => exact ⟨fun n h => by omega, fun n h => by omega⟩
  | @left n' h1 h2 =>
    refine ⟨fun n h => ?_, fun n h => by omega⟩
    have : n' = n := by omega
    subst this; exact ⟨h1, h2⟩
  | @right n' h1 h2 =>
    refine ⟨fun n h => by omega, fun n h => ?_⟩
    have : n' = n := by omega
    subst this; exact ⟨h1, h2⟩

private structure Counts (t : Tree) (k : Nat) : Prop where
  nint : t.ninternal = k
  split_node : ∀ n, IsSplit t n → IsNode t n
  fin : {n | IsNode t n}.Finite
  leaves : {n | IsLeaf t n}.ncard = k + 1
  inner : {n | IsSplit t n}.ncard = k

private theorem Counts.congr {t t' : Tree} {k : Nat} (h : Counts t k) (hs : t.splitCrits = t'.splitCrits)
    (hn : t.ninternal = t'.ninternal) : Counts t' k := by
  have c := isNode_congr hs
  have e1 : {n | IsNode t' n} = {n | IsNode t n} := by ext n; exact (c n).1.symm
  have e2 : {n | IsLeaf t' n} = {n | IsLeaf t n} := by
    ext n; simp only [Set.mem_setOf_eq, IsLeaf, (c n).1, (c n).2]
  have e3 : {n | IsSplit t' n} = {n | IsSplit t n} := by ext n; exact (c n).2.symm
  exact ⟨hn ▸ h.nint, fun n h' => (c n).1.1 (h.split_node n ((c n).2.2 h')), e1 ▸ h.fin, e2 ▸ h.leaves,
    e3 ▸ h.inner⟩

private theorem counts {F : FP} {md k : Nat} {sc : List (List Nat)} {t : Tree} (h : Grown F md sc k t) :
    Counts t k := by
  induction h with
  | @new t h =>
    have hns := not_split_new h
    have e1 : {n | IsNode t n} = {0} := by
      ext n
      simp only [Set.mem_setOf_eq, Set.mem_singleton_iff]
      constructor
      · intro hn
        cases hn with
        | root => rfl
        | left _ h => exact absurd h (hns _)
        | right _ h => exact absurd h (hns _)
      · rintro rfl; exact .root
    have e2 : {n | IsLeaf t n} = {0} := by
      rw [← e1]; ext n; simp [IsLeaf, hns n]
    have e3 : {n | IsSplit t n} = ∅ := by ext n; simp [hns n]
    refine ⟨?_, fun n hn => absurd hn (hns n), e1 ▸ Set.finite_singleton 0, by rw [e2]; simp, by rw [e3]; simp⟩
    simp only [Tree.new, Out.bind_eq_ok] at h
    obtain ⟨_, _, h2⟩ := h
    simp only [Out.pure_eq, Out.ok.injEq] at h2
    subst h2; rfl
  | @split k t t' n c hg hleaf h ih =>
    have hlt : n < t.splitCrits.length := by
      unfold Tree.splitNode at h
      by_contra hn
      rw [List.getElem?_eq_none (by omega)] at h
      cases h
    have hcn : c.splitType ≠ .noSplit ∧ t' = { t with splitCrits := t.splitCrits.set n c, ninternal := t.ninternal + 1 } := by
      unfold Tree.splitNode at h
      rw [List.getElem?_eq_getElem hlt] at h
      simp only [Out.bind_eq_ok] at h
      obtain ⟨_, _, _, h2, _, _, h4⟩ := h
      simp only [Out.pure_eq, Out.ok.injEq] at h4
      refine ⟨?_, h4.symm⟩
      intro hc
      simp [SplitCrit.isNone, hc] at h2
    obtain ⟨hc, rfl⟩ := hcn
    generalize hT : ({ t with splitCrits := t.splitCrits.set n c, ninternal := t.ninternal + 1 } : Tree) = T
    have hsplit : ∀ m, IsSplit T m ↔ IsSplit t m ∨ m = n := by
      intro m
      subst hT
      unfold IsSplit
      by_cases hm : m = n
      · subst hm
        simp only [List.getElem?_set_self hlt]
        simp [hc]
      · simp only [List.getElem?_set_ne (Ne.symm hm)]
        simp [hm]
    have hnode : ∀ m, IsNode T m ↔ IsNode t m ∨ m = 2 * n + 1 ∨ m = 2 * n + 2 := by
      intro m
      have mono : ∀ m, IsNode t m → IsNode T m := by
        intro m hm
        induction hm with
        | root => exact .root
        | left _ h ih => exact .left ih ((hsplit _).2 (Or.inl h))
        | right _ h ih => exact .right ih ((hsplit _).2 (Or.inl h))
      constructor
      · intro hm
        cases hm with
        | root => exact Or.inl .root
        | @left p h1 h2 =>
          rcases (hsplit p).1 h2 with h2 | rfl
          · exact Or.inl (.left (ih.split_node p h2) h2)
          · exact Or.inr (Or.inl rfl)
        | @right p h1 h2 =>
          rcases (hsplit p).1 h2 with h2 | rfl
          · exact Or.inl (.right (ih.split_node p h2) h2)
          · exact Or.inr (Or.inr rfl)
      · have hn := mono n hleaf.1
        rintro (h | rfl | rfl)
        · exact mono m h
        · exact .left hn ((hsplit n).2 (Or.inr rfl))
        · exact .right hn ((hsplit n).2 (Or.inr rfl))
    have hl1 : ¬ IsNode t (2 * n + 1) := fun h => hleaf.2 ((isNode_child h).1 n rfl).2
    have hl2 : ¬ IsNode t (2 * n + 2) := fun h => hleaf.2 ((isNode_child h).2 n rfl).2
    have hs1 : ¬ IsSplit t (2 * n + 1) := fun h => hl1 (ih.split_node _ h)
    have hs2 : ¬ IsSplit t (2 * n + 2) := fun h => hl2 (ih.split_node _ h)
    have eN : {m | IsNode T m} = insert (2 * n + 1) (insert (2 * n + 2) {m | IsNode t m}) := by
      ext m
      simp only [Set.mem_setOf_eq, Set.mem_insert_iff, hnode m]
      tauto
    have eI : {m | IsSplit T m} = insert n {m | IsSplit t m} := by
      ext m
      simp only [Set.mem_setOf_eq, Set.mem_insert_iff, hsplit m]
      tauto
    have eL : {m | IsLeaf T m} = insert (2 * n + 1) (insert (2 * n + 2) ({m | IsLeaf t m} \ {n})) := by
      ext m
      simp only [Set.mem_setOf_eq, Set.mem_insert_iff, Set.mem_diff, Set.mem_singleton_iff, IsLeaf,
        hnode m, hsplit m]
      constructor
      · rintro ⟨h1, h2⟩
        tauto
      · rintro (rfl | rfl | ⟨⟨h1, h2⟩, h3⟩)
        · exact ⟨Or.inr (Or.inl rfl), by rintro (h | h); exacts [hs1 h, by omega]⟩
        · exact ⟨Or.inr (Or.inr rfl), by rintro (h | h); exacts [hs2 h, by omega]⟩
        · tauto
    have fL : {m | IsLeaf t m}.Finite := ih.fin.subset fun m hm => hm.1
    have fI : {m | IsSplit t m}.Finite := ih.fin.subset fun m hm => ih.split_node m hm
    refine ⟨?_, ?_, ?_, ?_, ?_⟩
    · subst hT; simp [ih.nint]
    · intro m hm
      rcases (hsplit m).1 hm with h | rfl
      · exact (hnode m).2 (Or.inl (ih.split_node m h))
      · exact (hnode m).2 (Or.inl hleaf.1)
    · rw [eN]; exact (ih.fin.insert _).insert _
    · rw [eL, Set.ncard_insert_of_notMem _ ((fL.diff).insert _),
        Set.ncard_insert_of_notMem _ fL.diff, Set.ncard_diff_singleton_of_mem (show n ∈ {m | IsLeaf t m} from hleaf),
        ih.leaves]
      · omega
      · rintro ⟨h, _⟩; exact hl2 h.1
      · simp only [Set.mem_insert_iff, not_or]
        exact ⟨by omega, fun h => hl1 h.1.1⟩
    · rw [eI, Set.ncard_insert_of_notMem (show n ∉ {m | IsSplit t m} from hleaf.2) fI, ih.inner]
  | @value k t t' n v _ h ih =>
    simp only [Tree.setValue, Out.bind_eq_ok] at h
    obtain ⟨_, _, _, _, h4⟩ := h
    simp only [Out.pure_eq, Out.ok.injEq] at h4
    subst h4
    exact ih.congr rfl rfl
  | shrinkage _ ih => exact ih.congr rfl rfl
  | bias _ ih => exact ih.congr rfl rfl

/-- After `k` splits of leaves: there are exactly `k` split nodes, `k + 1` leaves and `2k + 1` nodes,
and the counters of the tree say so. -/
theorem C37_counts (F : FP) (maxDepth k : Nat) (supercats : List (List Nat)) (t : Tree)
    (h : Grown F maxDepth supercats k t) :
    t.ninternal = k ∧ t.nleafs = k + 1 ∧ t.nnodes = 2 * k + 1 ∧
    {n | IsNode t n ∧ IsSplit t n}.ncard = k ∧ {n | IsLeaf t n}.ncard = k + 1 ∧
    {n | IsNode t n}.ncard = 2 * k + 1 := by
  have c := counts h
  have e : {n | IsNode t n ∧ IsSplit t n} = {n | IsSplit t n} := by
    ext n; simp only [Set.mem_setOf_eq]; exact ⟨fun h => h.2, fun h => ⟨c.split_node n h, h⟩⟩
  have e2 : {n | IsNode t n} = {n | IsLeaf t n} ∪ {n | IsSplit t n} := by
    ext n
    simp only [Set.mem_setOf_eq, Set.mem_union, IsLeaf]
    constructor
    · intro h; by_cases hs : IsSplit t n <;> tauto
    · rintro (h | h)
      · exact h.1
      · exact c.split_node n h
  refine ⟨c.nint, by simp [Tree.nleafs, c.nint], by simp [Tree.nnodes, Tree.nleafs, c.nint]; omega,
    by rw [e]; exact c.inner, c.leaves, ?_⟩
  have fL : {m | IsLeaf t m}.Finite := c.fin.subset fun m hm => hm.1
  have fI : {m | IsSplit t m}.Finite := c.fin.subset fun m hm => c.split_node m hm
  rw [e2, Set.ncard_union_eq _ fL fI, c.leaves, c.inner]
  · omega
  · rw [Set.disjoint_left]; intro n h1 h2; exact h1.2 h2

/-- No node is deeper than `maxDepth`: every node is reached from the root by at most `maxDepth` turns,
and the counters never exceed their announced maxima. -/
theorem C37_depth (F : FP) (maxDepth k : Nat) (supercats : List (List Nat)) (t : Tree)
    (h : Grown F maxDepth supercats k t) :
    (∀ n, IsNode t n → ∃ turns : List Bool, turns.length ≤ maxDepth ∧ nodeAt turns = n) ∧
    k ≤ t.maxNinternal ∧ t.nleafs ≤ t.maxNleafs ∧ t.nnodes ≤ t.maxNnodes := by
  obtain ⟨i0, i1, i2, i3, i4, i5⟩ := h.built.inv
  have c := counts h
  constructor
  · intro n hn
    have key : ∃ turns : List Bool, nodeAt turns = n ∧ (turns.length = 0 ∨ turns.length ≤ maxDepth) := by
      induction hn with
      | root => exact ⟨[], rfl, Or.inl rfl⟩
      | @left n _ hs ih =>
        obtain ⟨p, rfl, _⟩ := ih
        refine ⟨p ++ [true], by rw [nodeAt_snoc]; rfl, Or.inr ?_⟩
        have h1 := i5 _ hs
        have h2 := (nodeAt_bounds p).1
        have : 2 ^ p.length < 2 ^ maxDepth := by omega
        have := (Nat.pow_lt_pow_iff_right (by norm_num : 1 < 2)).1 this
        simp; omega
      | @right n _ hs ih =>
        obtain ⟨p, rfl, _⟩ := ih
        refine ⟨p ++ [false], by rw [nodeAt_snoc]; rfl, Or.inr ?_⟩
        have h1 := i5 _ hs
        have h2 := (nodeAt_bounds p).1
        have : 2 ^ p.length < 2 ^ maxDepth := by omega
        have := (Nat.pow_lt_pow_iff_right (by norm_num : 1 < 2)).1 this
        simp; omega
    obtain ⟨p, h1, h2⟩ := key
    exact ⟨p, by omega, h1⟩
  · have hk : k ≤ 2 ^ maxDepth - 1 := by
      rw [← c.inner]
      have : {n | IsSplit t n} ⊆ ((Finset.range (2 ^ maxDepth - 1) : Finset Nat) : Set Nat) := by
        intro n hn; simpa using i5 n hn
      have := Set.ncard_le_ncard this (Finset.finite_toSet _)
      rwa [Set.ncard_coe_finset, Finset.card_range] at this
    have h2 : 0 < 2 ^ maxDepth := Nat.pow_pos (by norm_num)
    simp only [Tree.maxNinternal, Tree.maxNleafs, Tree.maxNnodes, Tree.nleafs, Tree.nnodes, i1, c.nint,
      pow_succ]
    omega

/-- Non-vacuity: a grown tree with two splits. -/
example : Grown FP.binary32 2 [] 2 exTree := exTree_grown _

/-- A finding: `split_node` does not check that the node belongs to the tree. Splitting node 1 of a new
tree (whose only node is the root) is accepted, and the counters then disagree with the tree. -/
theorem C55_orphan_split_refuted (F : FP) : ∃ t, Built F 2 [] t ∧ t.nnodes = 3 ∧ {n | IsNode t n} = {0} := by
  have h0 : Built F 2 [] ⟨0, 2, List.replicate 7 SplitCrit.none, List.replicate 7 (.fin 0), .fin 1,
      .fin 0, []⟩ := .new rfl
  have h1 := h0.split (n := 1) (c := ⟨.numLt, 0, .fin 2⟩) rfl
  refine ⟨_, h1, rfl, ?_⟩
  ext n
  simp only [Set.mem_setOf_eq, Set.mem_singleton_iff]
  constructor
  · intro h
    induction h with
    | root => rfl
    | left _ hs ih => subst ih; obtain ⟨c, hc, hs⟩ := hs; simp [List.replicate_succ] at hc; subst hc; exact absurd rfl hs
    | right _ hs ih => subst ih; obtain ⟨c, hc, hs⟩ := hs; simp [List.replicate_succ] at hc; subst hc; exact absurd rfl hs
  · rintro rfl; exact .root

/-! ## C38 -/

/-- At an equality split on the way to the predicted leaf, a row whose category differs from the split
value (in particular one never seen in training) turns right, and a row with this category turns left. -/
theorem C38_equality (t : Tree) (d : Data) (i : Nat) (turns : List Bool)
    (h : t.predictLeafId d i = .ok (nodeAt turns)) (k : Nat) (hk : k < turns.length) (f : Nat) (q s : ℚ)
    (hc : t.splitCrits[nodeAt (turns.take k)]? = some ⟨.loCardCatEq, f, .fin s⟩)
    (hv : cell d f i = some (.fin q)) : turns[k] = decide (q = s) := by
  obtain ⟨p, _, hp, hpe, _⟩ := leafFrom_ok [] (by intro k b hk; simp at hk) h
  have := nodeAt_inj _ _ hpe
  subst this
  obtain ⟨c, v, h1, h2, h3⟩ := hp k p[k] (List.getElem?_eq_getElem hk)
  rw [hc] at h1; cases h1
  rw [hv] at h2; cases h2
  simp [Tree.test, Num.eqb] at h3
  exact h3.symm

/-- A NaN goes right at an equality split. -/
theorem C38_equality_nan (t : Tree) (d : Data) (i : Nat) (turns : List Bool)
    (h : t.predictLeafId d i = .ok (nodeAt turns)) (k : Nat) (hk : k < turns.length) (f : Nat) (s : Num)
    (hc : t.splitCrits[nodeAt (turns.take k)]? = some ⟨.loCardCatEq, f, s⟩)
    (hv : cell d f i = some .nan) : turns[k] = false := by
  obtain ⟨p, _, hp, hpe, _⟩ := leafFrom_ok [] (by intro k b hk; simp at hk) h
  have := nodeAt_inj _ _ hpe
  subst this
  obtain ⟨c, v, h1, h2, h3⟩ := hp k p[k] (List.getElem?_eq_getElem hk)
  rw [hc] at h1; cases h1
  rw [hv] at h2; cases h2
  simp [Tree.test, Num.eqb] at h3
  exact h3

/-- At a high-cardinality split on the way to the predicted leaf, a row goes left exactly if its
category `cat` is in the stored left set (its super-category is at most the split value `s`); a category
not seen in training (`cat ≥ sc.length`) goes right. -/
theorem C38_hicard (t : Tree) (d : Data) (i : Nat) (turns : List Bool)
    (h : t.predictLeafId d i = .ok (nodeAt turns)) (k : Nat) (hk : k < turns.length) (f s cat : Nat)
    (hs32 : s < 2 ^ 32) (hcat32 : cat < 2 ^ 32)
    (hc : t.splitCrits[nodeAt (turns.take k)]? = some ⟨.hiCardCatLt, f, .fin s⟩)
    (hv : cell d f i = some (.fin cat)) (sc : List Nat) (hsc : t.supercats[f]? = some sc)
    (hs : s < sc.length) :
    turns[k] = true ↔ ∃ c, sc[cat]? = some c ∧ c ≤ s := by
  obtain ⟨p, _, hp, hpe, _⟩ := leafFrom_ok [] (by intro k b hk; simp at hk) h
  have := nodeAt_inj _ _ hpe
  subst this
  obtain ⟨c, v, h1, h2, h3⟩ := hp k p[k] (List.getElem?_eq_getElem hk)
  rw [hc] at h1; cases h1
  rw [hv] at h2; cases h2
  have hcast : ∀ n : Nat, n < 2 ^ 32 → (Num.fin (n : ℚ)).toU32 = n := by
    intro n hn
    simp only [Num.toU32, Num.cast, Num.trunc]
    rw [if_pos (by positivity), Int.floor_natCast]
    omega
  have := test_iff (by intro _ s' hs'; rw [hsc] at hs'; cases hs'; rw [hcast s hs32]; exact hs) h3
  rw [this]
  simp only [goesLeft, hsc, hcast s hs32, hcast cat hcat32]
  simp

/-- C38: `get_supercat` says the same as the prediction: a row goes left at the split exactly if the super-category
reported for its category is at most the split value. For a category not seen in training it panics (the prediction does
not, and goes right). -/
theorem C38_get_supercat (t : Tree) (d : Data) (i : Nat) (turns : List Bool)
    (h : t.predictLeafId d i = .ok (nodeAt turns)) (k : Nat) (hk : k < turns.length) (f s cat : Nat)
    (hs32 : s < 2 ^ 32) (hcat32 : cat < 2 ^ 32)
    (hc : t.splitCrits[nodeAt (turns.take k)]? = some ⟨.hiCardCatLt, f, .fin s⟩)
    (hv : cell d f i = some (.fin cat)) (sc : List Nat) (hsc : t.supercats[f]? = some sc)
    (hs : s < sc.length) :
    (turns[k] = true ↔ ∃ c, t.getSupercat f cat = .ok c ∧ c ≤ s) ∧
    (sc.length ≤ cat → t.getSupercat f cat = .panic ∧ turns[k] = false) := by
  have hiff := C38_hicard t d i turns h k hk f s cat hs32 hcat32 hc hv sc hsc hs
  have hget : ∀ c, t.getSupercat f cat = .ok c ↔ sc[cat]? = some c := by
    intro c
    unfold Tree.getSupercat
    rw [hsc]
    simp only [Option.bind_some]
    cases sc[cat]? with
    | none => simp
    | some c' => simp
  refine ⟨by rw [hiff]; simp only [hget], fun hle => ⟨?_, ?_⟩⟩
  · unfold Tree.getSupercat
    rw [hsc]
    simp only [Option.bind_some, List.getElem?_eq_none hle]
  · cases hb : turns[k] with
    | false => rfl
    | true =>
      obtain ⟨c, e, _⟩ := hiff.1 hb
      rw [List.getElem?_eq_none hle] at e
      cases e

/-- Non-vacuity of C38: `exTree` sends row 1 of `exData` (value 5, category 1) right, then left; an
unseen category 9 would go right. -/
example : exTree.predictLeafId exData 1 = .ok (nodeAt [false, true]) ∧
    exTree.splitCrits[nodeAt ([false, true].take 1)]? = some ⟨.loCardCatEq, 1, .fin 1⟩ := by
  refine ⟨?_, rfl⟩
  refine leafFrom_of_follows (q := [false, true]) (c := SplitCrit.none) (v := .fin 5) ?_ rfl rfl rfl [] (by simp)
  intro k b hk
  match k with
  | 0 => simp at hk; subst hk; exact ⟨⟨.numLt, 0, .fin 2⟩, .fin 5, rfl, rfl, by simp [Tree.test, Num.lt]; norm_num⟩
  | 1 => simp at hk; subst hk; exact ⟨⟨.loCardCatEq, 1, .fin 1⟩, .fin 1, rfl, rfl, by simp [Tree.test, Num.eqb]⟩
  | (k + 2) => simp at hk

/-! ## C39 -/

private theorem predictLoop_ok {F : FP} {t : Tree} {d : Data} {f : Num → Num → Num} (buf : List Num)
    (i : Nat) (out : List Num) : Tree.predictLoop F t d f i buf = .ok out ↔
      out.length = buf.length ∧ ∀ k b, buf[k]? = some b → ∃ p, t.predictSingle F d (i + k) = .ok p ∧
        out[k]? = some (f p b) := by
  induction buf generalizing i out with
  | nil =>
    simp only [Tree.predictLoop, Out.ok.injEq, List.length_nil, List.getElem?_nil]
    constructor
    · rintro rfl; exact ⟨rfl, fun k b h => by simp at h⟩
    · rintro ⟨h, _⟩; exact (List.eq_nil_of_length_eq_zero h).symm
  | cons b buf ih =>
    simp only [Tree.predictLoop, Out.bind_eq_ok]
    constructor
    · rintro ⟨p, hp, rest, hr, ho⟩
      simp only [Out.pure_eq, Out.ok.injEq] at ho
      subst ho
      obtain ⟨h1, h2⟩ := (ih (i + 1) rest).1 hr
      refine ⟨by simp [h1], ?_⟩
      intro k b' hk
      cases k with
      | zero => simp at hk; subst hk; exact ⟨p, hp, rfl⟩
      | succ k =>
        simp at hk
        obtain ⟨p', h3, h4⟩ := h2 k b' hk
        exact ⟨p', by rw [← h3]; congr 1; omega, by simpa using h4⟩
    · rintro ⟨h1, h2⟩
      obtain ⟨p, hp, ho⟩ := h2 0 b rfl
      cases out with
      | nil => simp at h1
      | cons o rest =>
        simp at ho
        refine ⟨p, hp, rest, (ih (i + 1) rest).2 ⟨by simpa using h1, ?_⟩, by rw [ho]; rfl⟩
        intro k b' hk
        obtain ⟨p', h3, h4⟩ := h2 (k + 1) b' (by simpa using hk)
        exact ⟨p', by rw [← h3]; congr 1; omega, by simpa using h4⟩

/-- Only the value of the features tested on the way to the leaf matter (the code also looks at the
value of the leaf's default feature 0, which only has to exist): a row `j` of any data set that agrees
with row `i` on them is sent to the same leaf. -/
theorem C39_path_features (t : Tree) (d d' : Data) (i j : Nat) (turns : List Bool)
    (h : t.predictLeafId d i = .ok (nodeAt turns))
    (hsame : ∀ k c, k < turns.length → t.splitCrits[nodeAt (turns.take k)]? = some c →
      cell d' c.featureId j = cell d c.featureId i)
    (hleaf : ∀ c, t.splitCrits[nodeAt turns]? = some c → ∃ v, cell d' c.featureId j = some v) :
    t.predictLeafId d' j = .ok (nodeAt turns) := by
  obtain ⟨p, _, hp, hpe, c, v, hc, hn, _⟩ := leafFrom_ok [] (by intro k b hk; simp at hk) h
  have := nodeAt_inj _ _ hpe
  subst this
  obtain ⟨v', hv'⟩ := hleaf c hc
  refine leafFrom_of_follows ?_ hc hn hv' [] (by simp)
  intro k b hk
  obtain ⟨c', w, h1, h2, h3⟩ := hp k b hk
  have hkl := (List.getElem?_eq_some_iff.1 hk).1
  exact ⟨c', w, h1, by rw [hsame k c' hkl h1, h2], h3⟩

private theorem cell_select {d : Data} {rows : List Nat} {f i k : Nat} {v : Num} (hr : rows[k]? = some i)
    (h : cell d f i = some v) : cell (selectRows d rows) f k = some v := by
  unfold cell at h ⊢
  simp only [selectRows]
  cases hc : d.cols[f]? with
  | none => rw [hc] at h; simp at h
  | some c =>
    rw [hc] at h
    simp only [Option.bind_some] at h
    simp [hc, hr, h]

private theorem single_select {F : FP} {t : Tree} {d : Data} {rows : List Nat} {i k : Nat} {p : Num}
    (hr : rows[k]? = some i) (h : t.predictSingle F d i = .ok p) :
    t.predictSingle F (selectRows d rows) k = .ok p := by
  simp only [Tree.predictSingle, Out.bind_eq_ok] at h ⊢
  obtain ⟨leaf, h1, h2⟩ := h
  refine ⟨leaf, ?_, h2⟩
  obtain ⟨q, _, hq, rfl, c, v, hc, hn, hv⟩ := leafFrom_ok [] (by intro k b hk; simp at hk) h1
  refine leafFrom_of_follows (fun k b hk => ?_) hc hn (cell_select hr hv) [] (by simp)
  obtain ⟨c', w, h3, h4, h5⟩ := hq k b hk
  exact ⟨c', w, h3, cell_select hr h4, h5⟩

/-- Batch prediction with a tree: predicting any selection of rows (in any order, with repetitions, a
single row) gives for each row what the whole batch gives for it. -/
theorem C39_tree_rows (F : FP) (t : Tree) (d : Data) (out : List Num) (h : t.predict F d = .ok out)
    (rows : List Nat) (hrows : ∀ i ∈ rows, i < d.nexamples) :
    out.length = d.nexamples ∧
    t.predict F (selectRows d rows) = .ok (rows.map fun i => out[i]?.getD .nan) := by
  simp only [Tree.predict, Tree.predictAnd, List.length_replicate, decide_true, Out.assert_true,
    Out.ok_bind] at h ⊢
  obtain ⟨h1, h2⟩ := (predictLoop_ok _ _ _).1 h
  simp at h1
  refine ⟨h1, (predictLoop_ok _ _ _).2 ⟨by simp [selectRows], ?_⟩⟩
  intro k b hk
  rw [List.getElem?_replicate] at hk
  have hkl : k < rows.length := by
    by_contra hn
    rw [if_neg (by simp only [selectRows]; omega)] at hk; cases hk
  have hi : rows[k] < d.nexamples := hrows _ (List.getElem_mem hkl)
  obtain ⟨p, h3, h4⟩ := h2 rows[k] (.fin 0) (by rw [List.getElem?_replicate, if_pos hi])
  rw [Nat.zero_add] at h3
  refine ⟨p, ?_, ?_⟩
  · rw [Nat.zero_add]; exact single_select (List.getElem?_eq_getElem hkl) h3
  · rw [List.getElem?_map, List.getElem?_eq_getElem hkl]
    simp [h4]

private theorem addTrees_select {F : FP} {d : Data} (ts : List Tree) (buf out : List Num)
    (h : AdditiveTree.addTrees F d ts buf = .ok out) (hb : buf.length = d.nexamples) (rows : List Nat)
    (hrows : ∀ i ∈ rows, i < d.nexamples) :
    out.length = d.nexamples ∧ AdditiveTree.addTrees F (selectRows d rows) ts
      (rows.map fun i => buf[i]?.getD .nan) = .ok (rows.map fun i => out[i]?.getD .nan) := by
  induction ts generalizing buf with
  | nil =>
    simp only [AdditiveTree.addTrees, Out.ok.injEq] at h ⊢
    subst h; exact ⟨hb, rfl⟩
  | cons t ts ih =>
    simp only [AdditiveTree.addTrees, Tree.predictAnd, Out.bind_eq_ok] at h
    obtain ⟨buf', ⟨_, _, hp⟩, h3⟩ := h
    obtain ⟨h1, h2⟩ := (predictLoop_ok _ _ _).1 hp
    obtain ⟨g1, g2⟩ := ih buf' h3 (by omega)
    refine ⟨g1, ?_⟩
    simp only [AdditiveTree.addTrees, Tree.predictAnd, Out.bind_eq_ok]
    refine ⟨_, ⟨(), by simp [selectRows], (predictLoop_ok _ _ _).2 ⟨?_, ?_⟩⟩, g2⟩
    · simp
    · intro k b hk
      have hkl : k < rows.length := by
        by_contra hn
        rw [List.getElem?_eq_none (by simp; omega)] at hk; cases hk
      have hi : rows[k] < d.nexamples := hrows _ (List.getElem_mem hkl)
      obtain ⟨p, h4, h5⟩ := h2 rows[k] (buf[rows[k]]'(by omega)) (List.getElem?_eq_getElem (by omega))
      rw [Nat.zero_add] at h4
      refine ⟨p, ?_, ?_⟩
      · rw [Nat.zero_add]; exact single_select (List.getElem?_eq_getElem hkl) h4
      · rw [List.getElem?_map, List.getElem?_eq_getElem hkl] at hk ⊢
        simp at hk
        rw [List.getElem?_eq_getElem (by omega)] at hk
        simp at hk
        simp [h5, hk]

/-- The same for an ensemble. -/
theorem C39_ensemble_rows (F : FP) (e : AdditiveTree) (d : Data) (out : List Num)
    (h : e.predict F d = .ok out) (rows : List Nat) (hrows : ∀ i ∈ rows, i < d.nexamples) :
    out.length = d.nexamples ∧
    e.predict F (selectRows d rows) = .ok (rows.map fun i => out[i]?.getD .nan) := by
  unfold AdditiveTree.predict AdditiveTree.predictBuf at h ⊢
  have := addTrees_select e.trees _ out h (by simp) rows hrows
  refine ⟨this.1, ?_⟩
  rw [← this.2]
  congr 1
  rw [List.map_replicate, List.map_replicate]
  apply List.ext_getElem
  · simp [selectRows]
  · intro n h1 h2
    simp at h2
    have := hrows _ (List.getElem_mem h2)
    simp [List.getElem?_replicate, this]

/-- Non-vacuity: the two rows of `exData` are predicted as 10 and 20. -/
example : ∃ out, Tree.predict FP.exact exTree exData = .ok out := by
  have h : ∀ i, i < exData.nexamples → ∃ p, Tree.predictSingle FP.exact exTree exData i = .ok p := by
    intro i hi
    obtain ⟨_, _, _, _, _, v, _, h⟩ := C36_predict FP.exact 2 [] exTree (exTree_grown _).built exData
      ⟨rfl, by decide⟩ i hi (by decide) (by
        intro c hc h
        simp [exTree, SplitCrit.none] at hc
        rcases hc with rfl | rfl | rfl | rfl | rfl | rfl <;> simp at h)
    exact ⟨_, h⟩
  obtain ⟨p0, h0⟩ := h 0 (by decide)
  obtain ⟨p1, h1⟩ := h 1 (by decide)
  refine ⟨[p0, p1], ?_⟩
  have : exData.nexamples = 2 := rfl
  simp [Tree.predict, Tree.predictAnd, this, List.replicate_succ, Tree.predictLoop, h0, h1]

/-! ## C55 -/

/-- The property is false: `is_valid_node_id` compares with the number of nodes, but the ids of a sparse
tree are not consecutive. In a tree grown by two splits node 5 is a leaf and refused, and the id 4, which
is no node, is accepted. -/
theorem C55_valid_id_refuted (F : FP) : Grown F 2 [] 2 exTree ∧
    IsLeaf exTree 5 ∧ exTree.isValidNodeId 5 = false ∧ ¬ IsNode exTree 4 ∧ exTree.isValidNodeId 4 = true := by
  refine ⟨exTree_grown F, ⟨?_, ?_⟩, rfl, ?_, rfl⟩
  · exact IsNode.left (n := 2) (IsNode.right (n := 0) .root ⟨_, rfl, by simp⟩) ⟨_, rfl, by simp⟩
  · rintro ⟨c, hc, hs⟩; simp [exTree] at hc; subst hc; exact hs rfl
  · intro h
    obtain ⟨_, c, hc, hs⟩ := (isNode_child h).2 1 rfl
    simp [exTree] at hc; subst hc; exact hs rfl

/-- The numbering of the nodes: `parent` of the two children of a node is that node, every node but the root is one of
the two children of its parent, and its parent is a split node (for ids of 64 bits). -/
theorem C55_parent (F : FP) (maxDepth k : Nat) (supercats : List (List Nat)) (t : Tree)
    (h : Grown F maxDepth supercats k t) (hd : maxDepth < 63) (n : Nat) (hn : IsNode t n) :
    Tree.parent (Tree.leftChild n) = n ∧ Tree.parent (Tree.rightChild n) = n ∧
    (n ≠ 0 → (n = Tree.leftChild (Tree.parent n) ∨ n = Tree.rightChild (Tree.parent n)) ∧
      IsNode t (Tree.parent n) ∧ IsSplit t (Tree.parent n)) := by
  have hlt : n < 2 ^ (maxDepth + 1) := by
    obtain ⟨i0, i1, i2, i3, i4, i5⟩ := h.built.inv
    have hs : ∀ m, IsSplit t m → m + 1 < 2 ^ maxDepth := fun m hm => by have := i5 m hm; omega
    have hp : 0 < 2 ^ (maxDepth + 1) := by positivity
    have hpow : 2 ^ (maxDepth + 1) = 2 * 2 ^ maxDepth := by rw [pow_succ]; ring
    cases hn with
    | root => omega
    | left _ h => have := hs _ h; omega
    | right _ h => have := hs _ h; omega
  have hb : 2 ^ (maxDepth + 1) ≤ 2 ^ 63 := Nat.pow_le_pow_right (by norm_num) (by omega)
  unfold Tree.parent Tree.leftChild Tree.rightChild
  refine ⟨by omega, by omega, fun h0 => ?_⟩
  have hc := isNode_child hn
  rcases Nat.even_or_odd' (n - 1) with ⟨m, hm | hm⟩
  · have e : (n + 2 ^ 64 - 1) % 2 ^ 64 / 2 = m := by omega
    rw [e]
    obtain ⟨a, b⟩ := hc.1 m (by omega)
    exact ⟨.inl (by omega), a, b⟩
  · have e : (n + 2 ^ 64 - 1) % 2 ^ 64 / 2 = m := by omega
    rw [e]
    obtain ⟨a, b⟩ := hc.2 m (by omega)
    exact ⟨.inr (by omega), a, b⟩

/-- In the tree with the leaves 1, 5 and 6 the parent of 5 is 2, of 2 is 0. -/
example (F : FP) : Grown F 2 [] 2 exTree ∧ IsNode exTree 5 ∧ Tree.parent 5 = 2 ∧ Tree.parent 2 = 0 :=
  ⟨exTree_grown F, (C55_valid_id_refuted F).2.1.1, rfl, rfl⟩

/-- What does hold: `split_node` refuses exactly an empty criterion, ids below the last level of the tree, and nodes that
are split already. Otherwise it changes the criterion of that node and the count, and nothing else. -/
theorem C55_split_partial (F : FP) (maxDepth : Nat) (supercats : List (List Nat)) (t : Tree)
    (h : Built F maxDepth supercats t) (n : Nat) (c : SplitCrit) :
    (c.splitType ≠ .noSplit ∧ n + 1 < 2 ^ maxDepth ∧ ¬ IsSplit t n →
      ∃ t', t.splitNode n c = .ok t' ∧ t'.ninternal = t.ninternal + 1 ∧ t'.splitCrits[n]? = some c ∧
        (∀ m, m ≠ n → t'.splitCrits[m]? = t.splitCrits[m]?) ∧
        { t' with splitCrits := t.splitCrits, ninternal := t.ninternal } = t) ∧
    (¬ (c.splitType ≠ .noSplit ∧ n + 1 < 2 ^ maxDepth ∧ ¬ IsSplit t n) → t.splitNode n c = .panic) := by
  obtain ⟨i0, i1, i2, i3, i4, i5⟩ := h.inv
  have hpow : 2 ^ (maxDepth + 1) = 2 * 2 ^ maxDepth := by rw [pow_succ]; ring
  constructor
  · rintro ⟨h1, h2, h3⟩
    have hn : n < t.splitCrits.length := by omega
    have hold : t.splitCrits[n].isNone = true := by
      by_contra hc
      exact h3 ⟨_, List.getElem?_eq_getElem hn, fun he => hc (by simp [SplitCrit.isNone, he])⟩
    have hc : c.isNone = false := by simpa [SplitCrit.isNone] using h1
    have hm : t.isMaxLeafNode n = false := by
      simp only [Tree.isMaxLeafNode, Tree.maxNinternal, i1, decide_eq_false_iff_not]
      omega
    refine ⟨{ t with splitCrits := t.splitCrits.set n c, ninternal := t.ninternal + 1 }, ?_, rfl, ?_, fun m hm => ?_, rfl⟩
    · unfold Tree.splitNode
      rw [List.getElem?_eq_getElem hn]
      simp only [hold, hc, hm, Bool.not_false, Out.assert_true, Out.ok_bind, Out.pure_eq]
    · exact List.getElem?_set_self hn
    · exact List.getElem?_set_ne (Ne.symm hm)
  · intro hbad
    unfold Tree.splitNode
    split
    · rfl
    rename_i old hold
    by_cases h3 : IsSplit t n
    · obtain ⟨c', hc', hs⟩ := h3
      rw [hold] at hc'
      cases hc'
      have : old.isNone = false := by simpa [SplitCrit.isNone] using hs
      rw [this]; rfl
    by_cases h1 : c.splitType = .noSplit
    · have : c.isNone = true := by simp [SplitCrit.isNone, h1]
      rw [this]
      cases old.isNone <;> rfl
    · have hm : t.isMaxLeafNode n = true := by
        simp only [Tree.isMaxLeafNode, Tree.maxNinternal, i1, decide_eq_true_eq]
        by_contra hlt
        exact hbad ⟨h1, by omega, h3⟩
      rw [hm]
      cases old.isNone <;> cases c.isNone <;> rfl

/-- What does hold: in a tree whose splits are all consecutive (each node below `k` is split) the valid
ids are exactly the nodes. -/
theorem C55_valid_id_partial (F : FP) (maxDepth k : Nat) (supercats : List (List Nat)) (t : Tree)
    (h : Grown F maxDepth supercats k t) (hfull : ∀ n, IsSplit t n ↔ n < k) (n : Nat) :
    t.isValidNodeId n = true ↔ IsNode t n := by
  have hc := (C37_counts F maxDepth k supercats t h).2.2.1
  simp only [Tree.isValidNodeId, decide_eq_true_eq, hc]
  constructor
  · intro hn
    induction n using Nat.strong_induction_on with
    | _ n ih =>
      rcases Nat.eq_zero_or_pos n with rfl | hpos
      · exact .root
      · rcases Nat.even_or_odd' (n - 1) with ⟨m, hm | hm⟩
        · have : n = 2 * m + 1 := by omega
          rw [this]
          exact .left (ih m (by omega) (by omega)) ((hfull m).2 (by omega))
        · have : n = 2 * m + 2 := by omega
          rw [this]
          exact .right (ih m (by omega) (by omega)) ((hfull m).2 (by omega))
  · intro hn
    cases hn with
    | root => omega
    | left _ hs => have := (hfull _).1 hs; omega
    | right _ hs => have := (hfull _).1 hs; omega

/-- Non-vacuity: a tree whose root is its only split node. -/
example (F : FP) : ∃ t, Grown F 2 [] 1 t ∧ ∀ n, IsSplit t n ↔ n < 1 := by
  have h0 : Grown F 2 [] 0 ⟨0, 2, List.replicate 7 SplitCrit.none, List.replicate 7 (.fin 0), .fin 1,
      .fin 0, []⟩ := .new rfl
  have h1 := h0.split (n := 0) (c := ⟨.numLt, 0, .fin 2⟩) ⟨.root, by
    rintro ⟨c, hc, hs⟩; simp at hc; subst hc; exact hs rfl⟩ rfl
  refine ⟨_, h1, ?_⟩
  intro n
  constructor
  · rintro ⟨c, hc, hs⟩
    by_contra hn
    have : n ≠ 0 := by omega
    simp only [List.getElem?_set_ne (Ne.symm this), List.getElem?_replicate] at hc
    split_ifs at hc
    cases hc; exact hs rfl
  · intro hn
    have : n = 0 := by omega
    subst this
    exact ⟨_, rfl, by simp⟩

/-- C37: the limits are reached. For every depth there is a sequence of splits of leaves that ends with a tree with
exactly `max_ninternal`, `max_nleafs` and `max_nnodes` nodes; these are `2^d - 1`, `2^d` and `2^(d+1) - 1`, and no leaf
of this tree can be split. -/
theorem C37_full (F : FP) (maxDepth : Nat) (hd : 0 < maxDepth) (supercats : List (List Nat)) :
    ∃ t, Grown F maxDepth supercats (2 ^ maxDepth - 1) t ∧
      t.ninternal = t.maxNinternal ∧ t.nleafs = t.maxNleafs ∧ t.nnodes = t.maxNnodes ∧
      t.maxNinternal = 2 ^ maxDepth - 1 ∧ t.maxNleafs = 2 ^ maxDepth ∧ t.maxNnodes = 2 ^ (maxDepth + 1) - 1 ∧
      ∀ n c, IsLeaf t n → t.splitNode n c = .panic := by
  have hpow : 2 ^ (maxDepth + 1) = 2 * 2 ^ maxDepth := by rw [pow_succ]; ring
  have hpos : 0 < 2 ^ maxDepth := Nat.pow_pos (by norm_num)
  have key : ∀ k, k ≤ 2 ^ maxDepth - 1 →
      ∃ t, Grown F maxDepth supercats k t ∧ ∀ n, IsSplit t n ↔ n < k := by
    intro k
    induction k with
    | zero =>
      intro _
      refine ⟨_, Grown.new (t := { ninternal := 0, maxDepth := maxDepth, splitCrits := _, nodeValues := _, shrinkage := _, bias := _, supercats := _ }) (by
        unfold Tree.new; rw [decide_eq_true hd]; rfl), fun n => ⟨?_, fun h => absurd h (by omega)⟩⟩
      rintro ⟨c, hc, hs⟩
      simp only [List.getElem?_replicate] at hc
      split_ifs at hc
      cases hc
      exact absurd rfl hs
    | succ k ih =>
      intro hk
      obtain ⟨t, hg, hs⟩ := ih (by omega)
      have hn : IsNode t k := by
        rw [← C55_valid_id_partial F maxDepth k supercats t hg hs k]
        simp only [Tree.isValidNodeId, decide_eq_true_eq, (C37_counts F maxDepth k supercats t hg).2.2.1]
        omega
      have hnot : ¬ IsSplit t k := by rw [hs]; omega
      obtain ⟨t', e, _, h2, h3, _⟩ := (C55_split_partial F maxDepth supercats t hg.built k ⟨.numLt, 0, .fin 0⟩).1
        ⟨by simp, by omega, hnot⟩
      refine ⟨t', hg.split ⟨hn, hnot⟩ e, fun n => ?_⟩
      by_cases hkn : n = k
      · subst hkn
        exact ⟨fun _ => by omega, fun _ => ⟨_, h2, by simp⟩⟩
      · have : IsSplit t' n ↔ IsSplit t n := by unfold IsSplit; rw [h3 n hkn]
        rw [this, hs]; omega
  obtain ⟨t, hg, hs⟩ := key _ le_rfl
  have hc := C37_counts F maxDepth _ supercats t hg
  have i1 := hg.built.inv.2.1
  refine ⟨t, hg, ?_, ?_, ?_, ?_, ?_, ?_, fun n c hl => ?_⟩
  · rw [hc.1, Tree.maxNinternal, i1]
  · rw [hc.2.1, Tree.maxNleafs, i1]; omega
  · rw [hc.2.2.1, Tree.maxNnodes, i1]; omega
  · rw [Tree.maxNinternal, i1]
  · rw [Tree.maxNleafs, i1]
  · rw [Tree.maxNnodes, i1]
  · refine (C55_split_partial F maxDepth supercats t hg.built n c).2 ?_
    rintro ⟨_, h2, h3⟩
    exact h3 ((hs n).2 (by omega))

example : (0 : Nat) < 3 ∧ 2 ^ 3 - 1 = 7 := by decide

/-! ## Shrinkage and bias -/

/-- Shrinkage and bias change no leaf, only the value: shrinkage factors are multiplied (rounded), a bias replaces the one
before, and the prediction is the shrinkage times the sum of the value of the leaf and the bias. -/
theorem C36_shrinkage_bias (F : FP) (t : Tree) (s b : Num) (d : Data) (i leaf : Nat) (v : Num)
    (hl : t.predictLeafId d i = .ok leaf) (hv : t.nodeValue leaf = .ok v) :
    (t.setShrinkage F s).predictSingle F d i = .ok (F.mul (F.mul t.shrinkage s) (F.add v t.bias)) ∧
    (t.setBias b).predictSingle F d i = .ok (F.mul t.shrinkage (F.add v b)) ∧
    ((t.setBias b).setShrinkage F s).predictSingle F d i = .ok (F.mul (F.mul t.shrinkage s) (F.add v b)) := by
  have hleaf : ∀ (t' : Tree), t'.splitCrits = t.splitCrits → t'.supercats = t.supercats →
      t'.nodeValues = t.nodeValues → t'.predictSingle F d i = .ok (F.mul t'.shrinkage (F.add v t'.bias)) := by
    intro t' h1 h2 h3
    have hfrom : ∀ n, t'.leafFrom d i n = t.leafFrom d i n := by
      have : ∀ k n, t.splitCrits.length - n = k → t'.leafFrom d i n = t.leafFrom d i n := by
        intro k
        induction k using Nat.strong_induction_on with
        | _ k ih =>
          intro n hn
          rw [Tree.leafFrom.eq_1 t', Tree.leafFrom.eq_1 t]
          simp only [h1, h2]
          split
          · rename_i hlt
            rw [ih _ (by simp only [Tree.leftChild]; omega) (Tree.leftChild n) rfl,
              ih _ (by simp only [Tree.rightChild]; omega) (Tree.rightChild n) rfl]
          · rfl
      exact fun n => this _ n rfl
    unfold Tree.predictSingle Tree.predictLeafId
    rw [hfrom, show t.leafFrom d i 0 = .ok leaf from hl]
    simp only [Out.ok_bind]
    unfold Tree.nodeValue at hv ⊢
    rw [h3, hv]
    rfl
  exact ⟨hleaf _ rfl rfl rfl, hleaf _ rfl rfl rfl, hleaf _ rfl rfl rfl⟩

/-- In exact arithmetic shrinkage multiplies the predictions. -/
theorem C36_shrinkage_exact (t : Tree) (s k b v : ℚ) (d : Data) (i leaf : Nat)
    (hl : t.predictLeafId d i = .ok leaf) (hv : t.nodeValue leaf = .ok (.fin v)) (hk : t.shrinkage = .fin k)
    (hb : t.bias = .fin b) :
    ∃ p, t.predictSingle .exact d i = .ok (.fin p) ∧ (t.setShrinkage .exact (.fin s)).predictSingle .exact d i = .ok (.fin (s * p)) := by
  refine ⟨k * (v + b), ?_, ?_⟩
  · unfold Tree.predictSingle
    rw [hl]
    simp only [Out.ok_bind, hv, hk, hb]
    rfl
  · rw [(C36_shrinkage_bias .exact t (.fin s) (.fin b) d i leaf (.fin v) hl hv).1, hk, hb]
    show Out.ok (Num.fin (k * s * (v + b))) = _
    congr 2
    ring

/-- Non-vacuity: a row of `exData` that reaches a leaf of `exTree` with a value. -/
example : exTree.predictLeafId exData 0 = .ok 1 ∧ exTree.nodeValue 1 = .ok (.fin 10) ∧ exTree.shrinkage = .fin 1 ∧
    exTree.bias = .fin 0 := by
  refine ⟨by decide +kernel, rfl, rfl, rfl⟩

/-- Without trees every prediction is the bias, which is zero in a new ensemble. -/
theorem C36_empty (F : FP) (b : Num) (d : Data) :
    AdditiveTree.new.predict F d = .ok (List.replicate d.nexamples (.fin 0)) ∧
    (AdditiveTree.new.setBias b).predict F d = .ok (List.replicate d.nexamples b) := by
  constructor <;> simp [AdditiveTree.predict, AdditiveTree.predictBuf, AdditiveTree.addTrees, AdditiveTree.new,
    AdditiveTree.setBias]

end BitBoost.Props
