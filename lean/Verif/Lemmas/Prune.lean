import Verif.Spec.Prune
import Verif.Spec.Training
import Verif.Lemmas.Settings
import Verif.Lemmas.LearnerStack
import Verif.Lemmas.Hist
/-! Helper lemmas: training with a smaller depth and a larger `min_gain`. -/
namespace BitBoost
open Spec Dataset Learner

variable {F : FP} {c : Config} {D : Nat} {g : Num} {ds : Dataset} {w : Nat}

/-- The configuration with another depth and another `min_gain`. -/
@[reducible] def Config.limited (c : Config) (D : Nat) (g : Num) : Config := { c with maxTreeDepth := D, minGain := g }

namespace Learner

/-! ### What does not depend on the two settings -/

theorem buildHists_limited : buildHists F (c.limited D g) = buildHists F c := by
  funext ds w bs n
  unfold buildHists
  have : histJob F (c.limited D g) ds w bs n = histJob F c ds w bs n := by
    funext f b
    simp only [histJob, gradSum]
  rw [this]

theorem rootNode_limited : rootNode F (c.limited D g) = rootNode F c := by
  funext ds w o
  simp only [rootNode, buildHists_limited]

theorem childNodes_limited : childNodes F (c.limited D g) = childNodes F c := by
  have h : splitExamples F (c.limited D g) = splitExamples F c := by
    have h1 : shouldCompress F (c.limited D g) = shouldCompress F c := by
      funext z n
      simp only [shouldCompress]
    funext ds w p i s neg
    simp only [splitExamples, h1]
  funext ds w bs p s
  simp only [childNodes, h, buildHists_limited]

/-! ### The best split -/

theorem _root_.BitBoost.Num.le_trans_lt {a b x : Num} (h1 : a.le b = true) (h2 : b.lt x = true) : a.lt x = true := by
  revert h1 h2
  cases a <;> cases b <;> cases x <;> simp [Num.lt, Num.le]
  intros
  linarith

theorem _root_.BitBoost.Num.le_of_lt_not {a b x : Num} (h0 : a.le b = true) (h1 : a.lt x = true) (h2 : b.lt x = false) :
    x.le b = true := by
  revert h0 h1 h2
  cases a <;> cases b <;> cases x <;> simp [Num.lt, Num.le]

/-- The best candidates so far of the two scans. -/
def BestRel (g : Num) (a b : Num × Split) : Prop := b = a ∨ (b = (g, noSplit) ∧ a.1.le g = true)

theorem tryCandidate_limited (pg : Num) (pc f k : Nat) (v : HistVal) {a b : Num × Split} (h : BestRel g a b) :
    Out.Leads (BestRel g) (tryCandidate F c ds pg pc f k v a) (tryCandidate F (c.limited D g) ds pg pc f k v b) := by
  unfold tryCandidate
  have hg : gain F (c.limited D g) = gain F c := by
    funext x y z
    simp only [gain, getLoss]
  rw [hg]
  split
  · exact Out.Leads.ok h
  · rcases h with rfl | ⟨rfl, h⟩
    · intro x e
      exact ⟨x, e, .inl rfl⟩
    · by_cases h2 : g.lt (gain F c pg pc v) = true
      · rw [if_pos h2, if_pos (Num.le_trans_lt h h2)]
        intro x e
        exact ⟨x, e, .inl rfl⟩
      · rw [if_neg h2]
        split
        · intro x e
          obtain ⟨cr, _, e⟩ := Out.bind_eq_ok.1 e
          simp only [Out.pure_eq, Out.ok.injEq] at e
          subst e
          exact ⟨_, rfl, .inr ⟨rfl, Num.le_of_lt_not h (by assumption) (by simpa using h2)⟩⟩
        · exact Out.Leads.ok (.inr ⟨rfl, h⟩)

theorem scanBins_limited (pg : Num) (pc : Nat) (hs : Hists) (f : Nat) : ∀ (k j : Nat) {a b : Num × Split}, BestRel g a b →
    Out.Leads (BestRel g) (scanBins F c ds pg pc hs f k j a) (scanBins F (c.limited D g) ds pg pc hs f k j b)
  | 0, _, _, _, h => Out.Leads.ok h
  | k + 1, j, a, b, h => by
      simp only [scanBins]
      exact .same fun v _ => (tryCandidate_limited pg pc f j v h).bind fun x y _ hxy => scanBins_limited pg pc hs f k (j + 1) hxy

theorem scanFeatures_limited (pg : Num) (pc : Nat) (hs : Hists) : ∀ (fs : List Nat) {a b : Num × Split}, BestRel g a b →
    Out.Leads (BestRel g) (Learner.scanFeatures F c ds pg pc hs fs a) (Learner.scanFeatures F (c.limited D g) ds pg pc hs fs b)
  | [], _, _, h => Out.Leads.ok h
  | f :: fs, a, b, h => by
      simp only [Learner.scanFeatures]
      exact .same fun n _ => (scanBins_limited pg pc hs f n 0 h).bind fun x y _ hxy => scanFeatures_limited pg pc hs fs hxy

/-- With a larger `min_gain` the best split is the same, or there is none. -/
theorem findBestSplit_limited (hg : c.minGain.le g = true) (pg : Num) (pc : Nat) (hs : Hists) :
    Out.Leads (fun s s' => s' = s ∨ s'.crit.isNone = true) (findBestSplit F c ds pg pc hs)
      (findBestSplit F (c.limited D g) ds pg pc hs) := by
  unfold findBestSplit
  refine .same fun fs _ => (scanFeatures_limited pg pc hs fs (.inr ⟨rfl, hg⟩)).bind fun x y _ hxy => Out.Leads.ok ?_
  rcases hxy with rfl | ⟨rfl, _⟩
  · exact .inl rfl
  · exact .inr rfl

theorem scanBins_depth (pg : Num) (pc : Nat) (hs : Hists) (f : Nat) : ∀ (k j : Nat) (a : Num × Split),
    scanBins F (c.limited D g) ds pg pc hs f k j a = scanBins F c ds pg pc hs f k j a
  | 0, _, _ => rfl
  | k + 1, j, a => by
      simp only [scanBins, scanBins_depth pg pc hs f k]
      rfl

theorem scanFeatures_depth (pg : Num) (pc : Nat) (hs : Hists) : ∀ (fs : List Nat) (a : Num × Split),
    Learner.scanFeatures F (c.limited D g) ds pg pc hs fs a = Learner.scanFeatures F c ds pg pc hs fs a
  | [], _ => rfl
  | f :: fs, a => by simp only [Learner.scanFeatures, scanBins_depth, scanFeatures_depth pg pc hs fs]

theorem findBestSplit_depth (pg : Num) (pc : Nat) (hs : Hists) :
    findBestSplit F (c.limited D c.minGain) ds pg pc hs = findBestSplit F c ds pg pc hs := by
  simp only [findBestSplit, scanFeatures_depth]

/-! ### The nodes of the largest tree -/

/-- The nodes that come about by splitting, starting with the root, whatever the depth. -/
inductive Derives (F : FP) (c : Config) (ds : Dataset) (w : Nat) (bs : Num × Num) (root : Node) : Node → Prop
  | root : Derives F c ds w bs root root
  | child {n : Node} {s : Split} {ch : Node × Node} (x : Bool) : Derives F c ds w bs root n →
      findBestSplit F c ds n.gradSum n.exampleCount n.hists = .ok s → s.crit.isNone = false →
      childNodes F c ds w bs n s = .ok ch → Derives F c ds w bs root (if x then ch.1 else ch.2)

variable {bs : Num × Num} {root : Node}

theorem child_id {n : Node} {s : Split} {ch : Node × Node} (x : Bool) (h : childNodes F c ds w bs n s = .ok ch) :
    (if x then ch.1 else ch.2).nodeId = if x then 2 * n.nodeId + 1 else 2 * n.nodeId + 2 := by
  cases x
  · exact (childNodes_id h).2
  · exact (childNodes_id h).1

/-- There is one node with each number. -/
theorem Derives.unique (h0 : root.nodeId = 0) {n : Node} (h : Derives F c ds w bs root n) : ∀ {n' : Node},
    Derives F c ds w bs root n' → n'.nodeId = n.nodeId → n' = n := by
  induction h with
  | root =>
    intro n' h' e
    cases h' with
    | root => rfl
    | child x _ _ _ hc =>
      rw [child_id x hc, h0] at e
      split at e <;> omega
  | @child n s ch x hn hs _ hc ih =>
    intro n' h' e
    rw [child_id x hc] at e
    cases h' with
    | root => rw [h0] at e; split at e <;> omega
    | @child m s' ch' x' hm hs' _ hc' =>
      rw [child_id x' hc'] at e
      have hx : x' = x ∧ m.nodeId = n.nodeId := by
        cases x <;> cases x' <;> simp at e ⊢ <;> omega
      have hmn := ih hm hx.2
      subst hmn
      rw [hs] at hs'
      cases hs'
      rw [hc] at hc'
      cases hc'
      rw [hx.1]

/-! ### While the tree is built -/

def SplitAt (t : Tree) (n : Nat) : Prop := ∃ s, t.splitCrits[n]? = some s ∧ s.isNone = false

/-- The node is on the last level, or split, or still on the stack, or there is no split for it. -/
def Handled (F : FP) (c : Config) (ds : Dataset) (w : Nat) (bs : Num × Num) (root : Node) (t : Tree) (stack : List Node) (m : Nat) : Prop :=
  2 ^ c.maxTreeDepth - 1 ≤ m ∨ SplitAt t m ∨ (∃ n ∈ stack, n.nodeId = m) ∨
    ∃ n s, Derives F c ds w bs root n ∧ n.nodeId = m ∧ findBestSplit F c ds n.gradSum n.exampleCount n.hists = .ok s ∧
      s.crit.isNone = true

structure Grows (F : FP) (c : Config) (ds : Dataset) (sc : List (List Nat)) (w : Nat) (bs : Num × Num) (root : Node)
    (t : Tree) (o : Objective) (todo : List Node) : Prop where
  depth : t.maxDepth = c.maxTreeDepth
  sup : t.supercats = sc
  bounds : o.bounds = bs
  stack : ∀ n ∈ todo, Derives F c ds w bs root n ∧ n.nodeId < 2 ^ c.maxTreeDepth - 1 ∧
    (n.nodeId = 0 ∨ SplitAt t ((n.nodeId - 1) / 2))
  splits : ∀ n s, t.splitCrits[n]? = some s → s.isNone = false → n < 2 ^ c.maxTreeDepth - 1 ∧
    (n = 0 ∨ SplitAt t ((n - 1) / 2)) ∧
    ∃ nd sp, Derives F c ds w bs root nd ∧ nd.nodeId = n ∧
      findBestSplit F c ds nd.gradSum nd.exampleCount nd.hists = .ok sp ∧ sp.crit = s
  kids : ∀ n, SplitAt t n → Handled F c ds w bs root t todo (2 * n + 1) ∧ Handled F c ds w bs root t todo (2 * n + 2)
  top : Handled F c ds w bs root t todo 0

theorem leafFor_bounds {is : List Nat} {o : Objective} {r : Num × Objective} (h : leafFor F ds is o = .ok r) :
    r.2.bounds = o.bounds := by
  unfold leafFor at h
  obtain ⟨_, _, h⟩ := Out.bind_eq_ok.1 h
  obtain ⟨_, _, h⟩ := Out.bind_eq_ok.1 h
  unfold Objective.predictLeafValue at h
  obtain ⟨v, _, h⟩ := Out.bind_eq_ok.1 h
  unfold Objective.updatePredictions at h
  obtain ⟨p, _, h⟩ := Out.bind_eq_ok.1 h
  simp only [Out.pure_eq, Out.ok.injEq] at h
  subst h
  rfl

theorem setValue_fields {t t' : Tree} {n : Nat} {v : Num} (h : t.setValue n v = .ok t') :
    t'.splitCrits = t.splitCrits ∧ t'.maxDepth = t.maxDepth ∧ t'.supercats = t.supercats := by
  unfold Tree.setValue at h
  obtain ⟨_, _, h⟩ := Out.bind_eq_ok.1 h
  obtain ⟨_, _, h⟩ := Out.bind_eq_ok.1 h
  simp only [Out.pure_eq, Out.ok.injEq] at h
  subst h
  exact ⟨rfl, rfl, rfl⟩

theorem splitNode_fields {t t' : Tree} {n : Nat} {s : SplitCrit} (h : t.splitNode n s = .ok t') :
    t'.splitCrits = t.splitCrits.set n s ∧ t'.maxDepth = t.maxDepth ∧ t'.supercats = t.supercats ∧ n < t.splitCrits.length := by
  unfold Tree.splitNode at h
  split at h
  · cases h
  · rename_i old e
    obtain ⟨_, _, h⟩ := Out.bind_eq_ok.1 h
    obtain ⟨_, _, h⟩ := Out.bind_eq_ok.1 h
    obtain ⟨_, _, h⟩ := Out.bind_eq_ok.1 h
    simp only [Out.pure_eq, Out.ok.injEq] at h
    subst h
    exact ⟨rfl, rfl, rfl, (List.getElem?_eq_some_iff.1 e).1⟩

theorem Handled.mono {t t' : Tree} {st st' : List Node} {m : Nat} (h : Handled F c ds w bs root t st m)
    (h1 : ∀ n, SplitAt t n → SplitAt t' n) (h2 : ∀ n ∈ st, Handled F c ds w bs root t' st' n.nodeId) :
    Handled F c ds w bs root t' st' m := by
  rcases h with h | h | ⟨n, h, rfl⟩ | h
  · exact .inl h
  · exact .inr (.inl (h1 _ h))
  · exact h2 n h
  · exact .inr (.inr (.inr h))

variable {sc : List (List Nat)}

/-- The node gets no split. -/
theorem Grows.leaf {t t' : Tree} {o o' : Objective} {n : Node} {rest : List Node} {s : Split}
    (h : Grows F c ds sc w bs root t o (n :: rest)) (hs : findBestSplit F c ds n.gradSum n.exampleCount n.hists = .ok s)
    (hn : s.crit.isNone = true) (ht : t'.splitCrits = t.splitCrits ∧ t'.maxDepth = t.maxDepth ∧ t'.supercats = t.supercats)
    (ho : o'.bounds = o.bounds) : Grows F c ds sc w bs root t' o' rest := by
  have e : ∀ m, SplitAt t' m ↔ SplitAt t m := fun m => by unfold SplitAt; rw [ht.1]
  have hh : ∀ x ∈ n :: rest, Handled F c ds w bs root t' rest x.nodeId := by
    intro x hx
    rcases List.mem_cons.1 hx with rfl | hx
    · exact .inr (.inr (.inr ⟨x, s, (h.stack x (by simp)).1, rfl, hs, hn⟩))
    · exact .inr (.inr (.inl ⟨x, hx, rfl⟩))
  refine ⟨by rw [ht.2.1, h.depth], by rw [ht.2.2, h.sup], by rw [ho, h.bounds], fun x hx => ?_, fun m s' hm hs' => ?_,
    fun m hm => ?_, h.top.mono (fun m => (e m).2) hh⟩
  · obtain ⟨h1, h2, h3⟩ := h.stack x (by simp [hx])
    exact ⟨h1, h2, h3.imp_right fun h => (e _).2 h⟩
  · rw [ht.1] at hm
    obtain ⟨h1, h2, h3⟩ := h.splits m s' hm hs'
    exact ⟨h1, h2.imp_right fun h => (e _).2 h, h3⟩
  · obtain ⟨h1, h2⟩ := h.kids m ((e m).1 hm)
    exact ⟨h1.mono (fun m => (e m).2) hh, h2.mono (fun m => (e m).2) hh⟩

/-- The node is split; `new` are the nodes that come on the stack. -/
theorem Grows.split {t t' : Tree} {o o' : Objective} {n : Node} {rest new : List Node} {s : Split}
    (h : Grows F c ds sc w bs root t o (n :: rest)) (hs : findBestSplit F c ds n.gradSum n.exampleCount n.hists = .ok s)
    (hn : s.crit.isNone = false)
    (ht : t'.splitCrits = t.splitCrits.set n.nodeId s.crit ∧ t'.maxDepth = t.maxDepth ∧ t'.supercats = t.supercats ∧
      n.nodeId < t.splitCrits.length)
    (ho : o'.bounds = o.bounds)
    (hnew : ∀ x ∈ new, Derives F c ds w bs root x ∧ x.nodeId < 2 ^ c.maxTreeDepth - 1 ∧
      (x.nodeId = 2 * n.nodeId + 1 ∨ x.nodeId = 2 * n.nodeId + 2))
    (hch : ∀ m, m = 2 * n.nodeId + 1 ∨ m = 2 * n.nodeId + 2 → 2 ^ c.maxTreeDepth - 1 ≤ m ∨ ∃ x ∈ new, x.nodeId = m) :
    Grows F c ds sc w bs root t' o' (new ++ rest) := by
  have e : ∀ m, SplitAt t' m ↔ (m = n.nodeId ∨ SplitAt t m) := by
    intro m
    unfold SplitAt
    rw [ht.1]
    by_cases hm : m = n.nodeId
    · subst hm
      rw [List.getElem?_set_self ht.2.2.2]
      exact ⟨fun _ => .inl rfl, fun _ => ⟨_, rfl, hn⟩⟩
    · rw [List.getElem?_set_ne (Ne.symm hm)]
      exact ⟨.inr, fun h => h.resolve_left hm⟩
  have hh : ∀ x ∈ n :: rest, Handled F c ds w bs root t' (new ++ rest) x.nodeId := by
    intro x hx
    rcases List.mem_cons.1 hx with rfl | hx
    · exact .inr (.inl ((e _).2 (.inl rfl)))
    · exact .inr (.inr (.inl ⟨x, by simp [hx], rfl⟩))
  obtain ⟨hd, hlt, hpar⟩ := h.stack n (by simp)
  refine ⟨by rw [ht.2.1, h.depth], by rw [ht.2.2.1, h.sup], by rw [ho, h.bounds], fun x hx => ?_, fun m s' hm hs' => ?_,
    fun m hm => ?_, h.top.mono (fun m hm => (e m).2 (.inr hm)) hh⟩
  · rcases List.mem_append.1 hx with hx | hx
    · obtain ⟨h1, h2, h3⟩ := hnew x hx
      refine ⟨h1, h2, .inr ((e _).2 (.inl ?_))⟩
      omega
    · obtain ⟨h1, h2, h3⟩ := h.stack x (by simp [hx])
      exact ⟨h1, h2, h3.imp_right fun h => (e _).2 (.inr h)⟩
  · by_cases hmn : m = n.nodeId
    · subst hmn
      rw [ht.1, List.getElem?_set_self ht.2.2.2] at hm
      cases hm
      exact ⟨hlt, hpar.imp_right fun h => (e _).2 (.inr h), n, s, hd, rfl, hs, rfl⟩
    · rw [ht.1, List.getElem?_set_ne (Ne.symm hmn)] at hm
      obtain ⟨h1, h2, h3⟩ := h.splits m s' hm hs'
      exact ⟨h1, h2.imp_right fun h => (e _).2 (.inr h), h3⟩
  · rcases (e m).1 hm with rfl | hm
    · have key : ∀ k, k = 2 * n.nodeId + 1 ∨ k = 2 * n.nodeId + 2 → Handled F c ds w bs root t' (new ++ rest) k := by
        intro k hk
        rcases hch k hk with h | ⟨x, hx, e⟩
        · exact .inl h
        · exact .inr (.inr (.inl ⟨x, by simp [hx], e⟩))
      exact ⟨key _ (.inl rfl), key _ (.inr rfl)⟩
    · obtain ⟨h1, h2⟩ := h.kids m hm
      exact ⟨h1.mono (fun m hm => (e m).2 (.inr hm)) hh, h2.mono (fun m hm => (e m).2 (.inr hm)) hh⟩

theorem expand_grows {t : Tree} {o : Objective} {n : Node} {rest : List Node} {st : State}
    (h : Grows F c ds sc w bs root t o (n :: rest)) (he : expand F c ds w n ⟨t, o, rest⟩ = .ok st) :
    Grows F c ds sc w bs root st.tree st.obj st.stack := by
  unfold expand at he
  obtain ⟨s, hs, he⟩ := Out.bind_eq_ok.1 he
  obtain ⟨hd, hlt, hpar⟩ := h.stack n (by simp)
  cases hn : s.crit.isNone with
  | true =>
    rw [if_pos hn] at he
    obtain ⟨r, e1, he⟩ := Out.bind_eq_ok.1 he
    simp only [Out.pure_eq, Out.ok.injEq] at he
    subst he
    unfold leafValue at e1
    obtain ⟨is, _, e1⟩ := Out.bind_eq_ok.1 e1
    obtain ⟨v, e2, e1⟩ := Out.bind_eq_ok.1 e1
    obtain ⟨t', e3, e1⟩ := Out.bind_eq_ok.1 e1
    simp only [Out.pure_eq, Out.ok.injEq] at e1
    subst e1
    exact h.leaf hs hn (setValue_fields e3) (leafFor_bounds e2)
  | false =>
    rw [if_neg (by simp [hn])] at he
    split at he
    · rename_i hm
      obtain ⟨ch, e1, he⟩ := Out.bind_eq_ok.1 he
      obtain ⟨t', e2, he⟩ := Out.bind_eq_ok.1 he
      simp only [Out.pure_eq, Out.ok.injEq] at he
      subst he
      have hid := childNodes_id e1
      rw [h.bounds] at e1
      have hm' : 2 * n.nodeId + 1 < 2 ^ c.maxTreeDepth - 1 := by
        have : ¬ (t.maxNinternal ≤ Tree.leftChild n.nodeId) := by simpa [Tree.isMaxLeafNode] using hm
        unfold Tree.maxNinternal Tree.leftChild at this
        rw [h.depth] at this
        omega
      have hm2 : 2 * n.nodeId + 2 < 2 ^ c.maxTreeDepth - 1 := by
        cases hD : c.maxTreeDepth with
        | zero => rw [hD] at hm'; simp at hm'
        | succ k =>
          rw [hD, Nat.pow_succ] at hm'
          rw [Nat.pow_succ]
          omega
      refine h.split (new := [ch.1, ch.2]) (o' := o) hs hn (splitNode_fields e2) rfl ?_ ?_
      · intro x hx
        simp only [List.mem_cons, List.not_mem_nil, or_false] at hx
        rcases hx with rfl | rfl
        · exact ⟨.child true hd hs hn e1, by rw [hid.1]; exact hm', .inl hid.1⟩
        · exact ⟨.child false hd hs hn e1, by rw [hid.2]; exact hm2, .inr hid.2⟩
      · rintro m (rfl | rfl)
        · exact .inr ⟨ch.1, by simp, hid.1⟩
        · exact .inr ⟨ch.2, by simp, hid.2⟩
    · rename_i hm
      obtain ⟨r, e1, he⟩ := Out.bind_eq_ok.1 he
      obtain ⟨t', e2, he⟩ := Out.bind_eq_ok.1 he
      simp only [Out.pure_eq, Out.ok.injEq] at he
      subst he
      have hm' : 2 ^ c.maxTreeDepth - 1 ≤ 2 * n.nodeId + 1 := by
        have : t.maxNinternal ≤ Tree.leftChild n.nodeId := by simpa [Tree.isMaxLeafNode] using hm
        unfold Tree.maxNinternal Tree.leftChild at this
        rw [h.depth] at this
        omega
      unfold childLeafValues at e1
      obtain ⟨fm, _, e1⟩ := Out.bind_eq_ok.1 e1
      obtain ⟨ls, _, e1⟩ := Out.bind_eq_ok.1 e1
      obtain ⟨l, h1, e1⟩ := Out.bind_eq_ok.1 e1
      obtain ⟨rs, _, e1⟩ := Out.bind_eq_ok.1 e1
      obtain ⟨r', h2, e1⟩ := Out.bind_eq_ok.1 e1
      obtain ⟨t1, h3, e1⟩ := Out.bind_eq_ok.1 e1
      obtain ⟨t2, h4, e1⟩ := Out.bind_eq_ok.1 e1
      simp only [Out.pure_eq, Out.ok.injEq] at e1
      subst e1
      obtain ⟨a1, a2, a3⟩ := setValue_fields h3
      obtain ⟨b1, b2, b3⟩ := setValue_fields h4
      obtain ⟨c1, c2, c3, c4⟩ := splitNode_fields e2
      refine h.split (new := []) hs hn ⟨?_, ?_, ?_, ?_⟩ ?_ (by simp) ?_
      · rw [c1, b1, a1]
      · rw [c2, b2, a2]
      · rw [c3, b3, a3]
      · rw [b1, a1] at c4; exact c4
      · rw [leafFor_bounds h2, leafFor_bounds h1]
      · rintro m (rfl | rfl)
        · exact .inl hm'
        · exact .inl (by omega)

theorem loop_grows : ∀ (fuel : Nat) {st st' : State}, Grows F c ds sc w bs root st.tree st.obj st.stack →
    loop F c ds w fuel st = .ok (some st') → Grows F c ds sc w bs root st'.tree st'.obj []
  | fuel, ⟨t, o, []⟩, st', h, e => by
      unfold loop at e
      simp only [Out.ok.injEq, Option.some.injEq] at e
      subst e
      exact h
  | 0, ⟨t, o, n :: rest⟩, st', h, e => by
      unfold loop at e
      simp at e
  | fuel + 1, ⟨t, o, n :: rest⟩, st', h, e => by
      unfold loop at e
      simp only at e
      obtain ⟨s1, e1, e⟩ := Out.bind_eq_ok.1 e
      exact loop_grows fuel (expand_grows h e1) e

theorem train_grows {o o' : Objective} {fuel : Nat} {t : Tree} (h : train F c ds sc o fuel = .ok (some (t, o'))) :
    ∃ w root o1, width c = .ok w ∧ rootNode F c ds w o = .ok root ∧ Grows F c ds sc w o.bounds root t o1 [] := by
  unfold train at h
  obtain ⟨w, hw, h⟩ := Out.bind_eq_ok.1 h
  obtain ⟨st, hst, h⟩ := Out.bind_eq_ok.1 h
  obtain ⟨r, hr, h⟩ := Out.bind_eq_ok.1 h
  cases r with
  | none => simp at h
  | some st' =>
    simp only at h
    obtain ⟨o1, _, h⟩ := Out.bind_eq_ok.1 h
    simp only [Out.pure_eq, Out.ok.injEq, Option.some.injEq, Prod.mk.injEq] at h
    obtain ⟨rfl, rfl⟩ := h
    unfold start at hst
    obtain ⟨t0, h1, hst⟩ := Out.bind_eq_ok.1 hst
    obtain ⟨root, h2, hst⟩ := Out.bind_eq_ok.1 hst
    simp only [Out.pure_eq, Out.ok.injEq] at hst
    subst hst
    unfold Tree.new at h1
    obtain ⟨_, hd, h1⟩ := Out.bind_eq_ok.1 h1
    simp only [Out.pure_eq, Out.ok.injEq] at h1
    subst h1
    have hD : 0 < c.maxTreeDepth := by
      by_contra hc
      simp [Out.assert, hc] at hd
    have hno : ∀ (n : Nat) (s : SplitCrit), (List.replicate (2 ^ (c.maxTreeDepth + 1) - 1) SplitCrit.none)[n]? = some s →
        s.isNone = true := by
      intro n s e
      have := (List.mem_replicate.1 (List.mem_of_getElem? e)).2
      subst this
      rfl
    have h0 := rootNode_id h2
    refine ⟨w, root, st'.obj, hw, h2, loop_grows fuel ?_ hr⟩
    have hpow : 2 ≤ 2 ^ c.maxTreeDepth := by
      calc 2 = 2 ^ 1 := rfl
        _ ≤ _ := Nat.pow_le_pow_right (by norm_num) hD
    refine ⟨rfl, rfl, rfl, ?_, ?_, ?_, .inr (.inr (.inl ⟨root, by simp, h0⟩))⟩
    · intro n hn
      simp only [List.mem_singleton] at hn
      subst hn
      exact ⟨.root, by omega, .inl h0⟩
    · intro n s e e'
      rw [hno n s e] at e'
      cases e'
    · rintro n ⟨s, e, e'⟩
      rw [hno n s e] at e'
      cases e'

/-! ### The two trees -/

theorem parent_child {n : Nat} (h : n ≠ 0) : n = 2 * ((n - 1) / 2) + 1 ∨ n = 2 * ((n - 1) / 2) + 2 := by omega

/-- Every split of the smaller tree is in the larger tree, at the same node. -/
theorem pruned_forward (hg : c.minGain.le g = true) (hD : D ≤ c.maxTreeDepth) (h0 : root.nodeId = 0) {t t' : Tree}
    {o o' : Objective} (h : Grows F c ds sc w bs root t o []) (h' : Grows F (c.limited D g) ds sc w bs root t' o' []) :
    ∀ (n : Nat) (s : SplitCrit), t'.splitCrits[n]? = some s → s.isNone = false → t.splitCrits[n]? = some s ∧
      ∃ nd sp, Derives F c ds w bs root nd ∧ Derives F (c.limited D g) ds w bs root nd ∧ nd.nodeId = n ∧
        findBestSplit F c ds nd.gradSum nd.exampleCount nd.hists = .ok sp ∧
        findBestSplit F (c.limited D g) ds nd.gradSum nd.exampleCount nd.hists = .ok sp ∧ sp.crit = s := by
  intro n
  induction n using Nat.strong_induction_on with
  | _ n ih =>
  intro s hn hne
  obtain ⟨hlt, hpar, nd, sp, hd', hid, hs', hcrit⟩ := h'.splits n s hn hne
  have key : Derives F c ds w bs root nd ∧ Handled F c ds w bs root t [] n := by
    by_cases hn0 : n = 0
    · have := Derives.unique h0 .root hd' (by rw [hid, hn0, h0])
      subst this
      exact ⟨.root, hn0 ▸ h.top⟩
    · obtain ⟨sq, hq, hqn⟩ := hpar.resolve_left hn0
      obtain ⟨ht, np, spp, a1, a2, a3, a4, a5, a6⟩ := ih ((n - 1) / 2) (by omega) sq hq hqn
      have hk := h.kids _ ⟨sq, ht, hqn⟩
      refine ⟨?_, ?_⟩
      · cases hd' with
        | root => exact absurd (hid ▸ h0) hn0
        | @child m s2 ch x hm hs2 hn2 hc =>
          rw [child_id x hc] at hid
          have : m = np := a2.unique h0 hm (by rw [a3]; split at hid <;> omega)
          subst this
          rw [a5] at hs2
          cases hs2
          rw [childNodes_limited] at hc
          exact .child x a1 a4 hn2 hc
      · rcases parent_child hn0 with e | e
        · rw [e]; exact hk.1
        · rw [e]; exact hk.2
  obtain ⟨hd, hh⟩ := key
  have hle : 2 ^ D ≤ 2 ^ c.maxTreeDepth := Nat.pow_le_pow_right (by norm_num) hD
  rcases hh with hh | ⟨s2, h2, hn2⟩ | ⟨x, hx, _⟩ | ⟨n2, s2, b1, b2, b3, b4⟩
  · simp only at hlt
    omega
  · obtain ⟨_, _, n2, sp2, b1, b2, b3, b4⟩ := h.splits n s2 h2 hn2
    have e := hd.unique h0 b1 (by rw [b2, hid])
    subst e
    obtain ⟨s3, e3, e4⟩ := findBestSplit_limited (D := D) hg _ _ _ _ b3
    rw [hs'] at e3
    cases e3
    rcases e4 with rfl | e4
    · refine ⟨?_, n2, sp, hd, hd', hid, b3, hs', hcrit⟩
      rw [h2, ← b4, hcrit]
    · rw [hcrit, hne] at e4
      cases e4
  · cases hx
  · have e := hd.unique h0 b1 (by rw [b2, hid])
    subst e
    obtain ⟨s3, e3, e4⟩ := findBestSplit_limited (D := D) hg _ _ _ _ b3
    rw [hs'] at e3
    cases e3
    have : sp.crit.isNone = true := by
      rcases e4 with rfl | e4
      · exact b4
      · exact e4
    rw [hcrit, hne] at this
    cases this

/-- With the same `min_gain` every split of the larger tree above the depth of the smaller one is in the smaller tree. -/
theorem pruned_backward (hg : c.minGain.le c.minGain = true) (hD : D ≤ c.maxTreeDepth) (h0 : root.nodeId = 0) {t t' : Tree}
    {o o' : Objective} (h : Grows F c ds sc w bs root t o [])
    (h' : Grows F (c.limited D c.minGain) ds sc w bs root t' o' []) : ∀ n, n < 2 ^ D - 1 → SplitAt t n → SplitAt t' n := by
  intro n
  induction n using Nat.strong_induction_on with
  | _ n ih =>
  rintro hlt ⟨s, hn, hne⟩
  obtain ⟨_, hpar, nd, sp, hd, hid, hs, hcrit⟩ := h.splits n s hn hne
  have key : Derives F (c.limited D c.minGain) ds w bs root nd ∧ Handled F (c.limited D c.minGain) ds w bs root t' [] n := by
    by_cases hn0 : n = 0
    · have := Derives.unique h0 .root hd (by rw [hid, hn0, h0])
      subst this
      exact ⟨.root, hn0 ▸ h'.top⟩
    · have hp' := ih ((n - 1) / 2) (by omega) (by omega) (hpar.resolve_left hn0)
      obtain ⟨sq, hq, hqn⟩ := hp'
      obtain ⟨ht, np, spp, a1, a2, a3, a4, a5, a6⟩ := pruned_forward hg hD h0 h h' _ sq hq hqn
      have hk := h'.kids _ ⟨sq, hq, hqn⟩
      refine ⟨?_, ?_⟩
      · cases hd with
        | root => exact absurd (hid ▸ h0) hn0
        | @child m s2 ch x hm hs2 hn2 hc =>
          rw [child_id x hc] at hid
          have : m = np := a1.unique h0 hm (by rw [a3]; split at hid <;> omega)
          subst this
          rw [a4] at hs2
          cases hs2
          rw [← childNodes_limited (D := D) (g := c.minGain)] at hc
          exact .child x a2 a5 hn2 hc
      · rcases parent_child hn0 with e | e
        · rw [e]; exact hk.1
        · rw [e]; exact hk.2
  obtain ⟨hd', hh⟩ := key
  rcases hh with hh | hh | ⟨x, hx, _⟩ | ⟨n2, s2, b1, b2, b3, b4⟩
  · simp only at hh
    omega
  · exact hh
  · cases hx
  · have e := hd'.unique h0 b1 (by rw [b2, hid])
    subst e
    rw [findBestSplit_depth, hs] at b3
    cases b3
    rw [hcrit, hne] at b4
    cases b4

end Learner

/-! ### The first tree of a run -/

theorem updateFeatures_limited (gr : List Num) (bs : Num × Num) (bagged : Bool) (ex : List Nat) : ∀ (fs : List Nat) (ds : Dataset),
    updateFeatures F (c.limited D g) gr bs bagged ex fs ds = updateFeatures F c gr bs bagged ex fs ds
  | [], _ => rfl
  | f :: fs, ds => by
      simp only [updateFeatures, updateFeatures_limited gr bs bagged ex fs]
      rfl

theorem update_limited : Dataset.update F (c.limited D g) = Dataset.update F c := by
  funext ds gr bs
  simp only [Dataset.update, Dataset.refresh, updateFeatures_limited]

theorem new_limited : Dataset.new F (c.limited D g) = Dataset.new F c := by
  funext d r
  simp only [Dataset.new, Dataset.inner]

theorem init_limited {M : Libm} (o : Objective) (ts : List Num) : o.init F M (c.limited D g) ts = o.init F M c ts := by
  unfold Objective.init Objective.initializeBase
  rfl

/-! ### The way of a row -/

theorem below_leaf {t : Tree} {d : Data} {i : Nat} : ∀ (k n a : Nat), t.splitCrits.length - n ≤ k → Tree.leafFrom t d i n = .ok a →
    ∀ m, Below m n → Below m a
  | k, n, a, hk, h, m, hm => by
      rw [Tree.leafFrom] at h
      split at h
      · rename_i hlt
        split at h
        · split at h
          · cases k with
            | zero => omega
            | succ k => exact below_leaf k _ a (by unfold Tree.leftChild; omega) h m hm.left
          · cases k with
            | zero => omega
            | succ k => exact below_leaf k _ a (by unfold Tree.rightChild; omega) h m hm.right
          · cases h; exact hm
          · cases h
          · cases h
        · cases h
        · cases h
      · cases h

theorem test_isNone {sc : List (List Nat)} {s : SplitCrit} {v : Num} (h : s.isNone = true) : Tree.test sc s v = .ok none := by
  unfold SplitCrit.isNone at h
  unfold Tree.test
  rw [eq_of_beq h]

/-- A row ends in the larger tree where it ends in the smaller one, or below. -/
theorem leafFrom_pruned {t t' : Tree} (hsup : t'.supercats = t.supercats)
    (h : ∀ (n : Nat) (s : SplitCrit), t'.splitCrits[n]? = some s → s.isNone = false → t.splitCrits[n]? = some s)
    {d : Data} {i : Nat} : ∀ (k n a b : Nat), t'.splitCrits.length - n ≤ k → Tree.leafFrom t' d i n = .ok a →
    Tree.leafFrom t d i n = .ok b → Below a b
  | k, n, a, b, hk, ha, hb => by
      have ha' := ha
      have hb' := hb
      rw [Tree.leafFrom] at ha
      split at ha
      · rename_i hlt
        cases hs : t'.splitCrits[n].isNone with
        | true =>
          split at ha
          · rw [test_isNone hs] at ha
            simp only [Out.ok.injEq] at ha
            subst ha
            exact below_leaf _ _ _ le_rfl hb _ .self
          · cases ha
          · cases ha
        | false =>
          have e := h n _ (List.getElem?_eq_getElem hlt) hs
          obtain ⟨hlt2, e2⟩ := List.getElem?_eq_some_iff.1 e
          rw [Tree.leafFrom, dif_pos hlt2, e2] at hb
          rw [hsup] at ha
          split at ha
          · rename_i v hv
            rw [hv] at hb
            simp only at hb
            split at ha
            · rename_i ht
              rw [ht] at hb
              cases k with
              | zero => omega
              | succ k => exact leafFrom_pruned hsup h k _ a b (by unfold Tree.leftChild; omega) ha hb
            · rename_i ht
              rw [ht] at hb
              cases k with
              | zero => omega
              | succ k => exact leafFrom_pruned hsup h k _ a b (by unfold Tree.rightChild; omega) ha hb
            · rename_i ht
              rw [ht] at hb
              simp only [Out.ok.injEq] at ha hb
              subst ha hb
              exact .self
            · cases ha
            · cases ha
          · cases ha
          · cases ha
      · cases ha

end BitBoost
