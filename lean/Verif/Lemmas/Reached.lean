import Verif.Lemmas.LearnerResult
/-! Helper lemmas: the states of the learner while it trains a tree. -/
namespace BitBoost
namespace Learner
open Spec

/-- The states of the reference learner. -/
inductive RefReached (F : FP) (cfg : Config) (ds : Dataset) (sc : List (List Nat)) (w : Nat) (codes : List Nat)
    (o : Objective) : RefState → Prop
  | start {t : Tree} {root : RefNode} : Tree.new cfg.maxTreeDepth sc = .ok t →
      refRoot F cfg ds w o.bounds codes = .ok root → RefReached F cfg ds sc w codes o ⟨t, o, [root]⟩
  | round {t : Tree} {o1 : Objective} {n : RefNode} {rest : List RefNode} {st' : RefState} :
      RefReached F cfg ds sc w codes o ⟨t, o1, n :: rest⟩ → refExpand F cfg ds w codes n ⟨t, o1, rest⟩ = .ok st' →
      RefReached F cfg ds sc w codes o st'

section
variable {F : FP} {cfg : Config} {ds : Dataset} {sc : List (List Nat)} {w : Nat} {codes : List Nat} {o : Objective}

theorem root_ref (hw : validWidth w) (hn : ds.nactiveExamples ≤ 2 ^ 32 - 256) (hM : MasksOk ds) {root : Node}
    (h : rootNode F cfg ds w o = .ok root) :
    ∃ ps codes r, ds.activePairs = .ok ps ∧ gradCodes F w o.bounds o.gradients ps = .ok codes ∧
      0 < ds.nactiveExamples ∧ refRoot F cfg ds w o.bounds codes = .ok r ∧ NodeRel w ds codes root r := by
  have hs := root_sim (F := F) (cfg := cfg) hw hn hM o (α := Node) (β := List Nat × RefNode) (f := fun a => Out.ok a)
      (g := fun codes b => Out.ok (codes, b))
      (S := fun a p => NodeRel w ds p.1 a p.2 ∧ refRoot F cfg ds w o.bounds p.1 = .ok p.2)
      (fun codes a b hab hb => .ok ⟨hab, hb⟩)
  have e : (rootNode F cfg ds w o >>= fun a => Out.ok a) = .ok root := by
    rw [h, Out.ok_bind]
  obtain ⟨p, h1, h2⟩ := hs.left_ok e
  obtain ⟨_, ea, h1⟩ := Out.bind_eq_ok.1 h1
  obtain ⟨ps, ep, h1⟩ := Out.bind_eq_ok.1 h1
  obtain ⟨codes', ec, h1⟩ := Out.bind_eq_ok.1 h1
  obtain ⟨r', er, h1⟩ := Out.bind_eq_ok.1 h1
  simp only [Out.ok.injEq] at h1
  subst h1
  have hpos : 0 < ds.nactiveExamples := by
    by_contra hc
    simp [Out.assert, hc] at ea
  exact ⟨ps, codes', r', ep, ec, hpos, er, h2.1⟩

theorem reached_ref (hw : validWidth w) (hn : ds.nactiveExamples ≤ 2 ^ 32 - 256) (hM : MasksOk ds)
    (hmin : 1 ≤ cfg.minExamplesLeaf) {st : State} (h : Training F cfg ds sc w o st) :
    ∃ ps codes rst, ds.activePairs = .ok ps ∧ gradCodes F w o.bounds o.gradients ps = .ok codes ∧
      0 < ds.nactiveExamples ∧ RefReached F cfg ds sc w codes o rst ∧ StateRel w ds codes st rst := by
  induction h with
  | start h =>
    unfold start at h
    obtain ⟨t, e1, h⟩ := Out.bind_eq_ok.1 h
    obtain ⟨root, e2, h⟩ := Out.bind_eq_ok.1 h
    simp only [Out.pure_eq, Out.ok.injEq] at h
    subst h
    obtain ⟨ps, codes', r', ep, ec, hpos, er, h2⟩ := root_ref hw hn hM e2
    exact ⟨ps, codes', ⟨t, o, [r']⟩, ep, ec, hpos, .start e1 er, rfl, rfl, .cons h2 .nil⟩
  | @round t o1 n rest st' _ he ih =>
    obtain ⟨ps, codes, ⟨t', o', stack⟩, h1, h2, h3, h4, h5⟩ := ih
    have hst := h5.stack
    have ht := h5.tree
    have ho := h5.obj
    simp only at hst ht ho
    subst ht ho
    cases hst with
    | @cons _ r _ rest' hnr hrest =>
      have hs := expand_sim (F := F) (cfg := cfg) hw hn hM hmin hnr (a := ⟨t, o1, rest⟩) (b := ⟨t, o1, rest'⟩)
        ⟨rfl, rfl, hrest⟩
      obtain ⟨rst, e, hrel⟩ := hs.left_ok he
      exact ⟨ps, codes, rst, h1, h2, h3, .round h4 e, hrel⟩

theorem bounds_congr {o o' : Objective} {ps : List Num} (h : o' = { o with predictions := ps }) :
    o'.bounds = o.bounds := by
  subst h
  rfl

theorem refReached_inv {rows : List Nat} {targets : List Num} (hr : RowsOk ds rows)
    (htgt : target ds.data = .ok targets) (hmin : 1 ≤ cfg.minExamplesLeaf) (hpos : 0 < ds.nactiveExamples)
    (hn2 : ds.nactiveExamples < 2 ^ 32) {st : RefState} (h : RefReached F cfg ds sc w codes o st) :
    ∃ done msk, TreeInv F cfg ds sc targets rows o st done msk := by
  induction h with
  | start h1 h2 => exact ⟨[], _, treeInv_start hr hpos hn2 h1 h2 o⟩
  | round _ he ih =>
    obtain ⟨done, msk, hinv⟩ := ih
    obtain ⟨done', msk', h⟩ := refExpand_inv hr htgt hmin hinv he
    exact ⟨done', msk', h⟩

theorem refExpand_stack {n : RefNode} {st st' : RefState} (h : refExpand F cfg ds w codes n st = .ok st') :
    st'.stack = st.stack ∨ ∃ s ch, findBestSplit F cfg ds n.gradSum n.exampleCount n.hists = .ok s ∧
      s.crit.isNone = false ∧ refChildren F cfg ds w st.obj.bounds codes n s = .ok ch ∧
      st'.stack = ch.1 :: ch.2 :: st.stack := by
  unfold refExpand at h
  obtain ⟨s, hs, h⟩ := Out.bind_eq_ok.1 h
  cases hne : s.crit.isNone with
  | true =>
    rw [if_pos hne] at h
    obtain ⟨_, _, h⟩ := Out.bind_eq_ok.1 h
    obtain ⟨_, _, h⟩ := Out.bind_eq_ok.1 h
    simp only [Out.pure_eq, Out.ok.injEq] at h
    subst h
    exact Or.inl rfl
  | false =>
    rw [if_neg (by simp [hne])] at h
    split at h
    · obtain ⟨ch, e1, h⟩ := Out.bind_eq_ok.1 h
      obtain ⟨_, _, h⟩ := Out.bind_eq_ok.1 h
      simp only [Out.pure_eq, Out.ok.injEq] at h
      subst h
      exact Or.inr ⟨s, ch, hs, hne, e1, rfl⟩
    · obtain ⟨_, _, h⟩ := Out.bind_eq_ok.1 h
      obtain ⟨_, _, h⟩ := Out.bind_eq_ok.1 h
      obtain ⟨_, _, h⟩ := Out.bind_eq_ok.1 h
      obtain ⟨_, _, h⟩ := Out.bind_eq_ok.1 h
      obtain ⟨_, _, h⟩ := Out.bind_eq_ok.1 h
      obtain ⟨_, _, h⟩ := Out.bind_eq_ok.1 h
      simp only [Out.pure_eq, Out.ok.injEq] at h
      subst h
      exact Or.inl rfl

theorem refHists_cand {bounds : Num × Num} {ex : List Nat} {h : Hists}
    (e : refHists F cfg ds w bounds codes ex = .ok h) {f b : Nat} {m : Blocks} (hc : Candidate ds f b m) :
    histAt h f b = .ok (refHist F cfg w bounds codes ex m) := by
  obtain ⟨⟨fs, hfs, hf⟩, hb, hm⟩ := hc
  have e' := e
  unfold refHists at e'
  obtain ⟨h0, _, e'⟩ := Out.bind_eq_ok.1 e'
  obtain ⟨fs', e1, e'⟩ := Out.bind_eq_ok.1 e'
  obtain ⟨js, e2, _⟩ := Out.bind_eq_ok.1 e'
  rw [hfs] at e1
  cases e1
  obtain ⟨m', h1, h2⟩ := refHists_at e hfs e2 ((mem_histJobs e2 f b).2 ⟨hf, hb⟩)
  rw [hm] at h1
  cases h1
  exact h2

/-- A property of all nodes that ever get on the stack. -/
theorem refReached_nodes {P : RefNode → Prop} (hpos : 0 < ds.nactiveExamples)
    {rows : List Nat} {targets : List Num} (hr : RowsOk ds rows) (htgt : target ds.data = .ok targets)
    (hmin : 1 ≤ cfg.minExamplesLeaf) (hn2 : ds.nactiveExamples < 2 ^ 32)
    (hroot : ∀ root, refRoot F cfg ds w o.bounds codes = .ok root → P root)
    (hch : ∀ n s ch, P n → RefOk ds n → findBestSplit F cfg ds n.gradSum n.exampleCount n.hists = .ok s →
      s.crit.isNone = false → refChildren F cfg ds w o.bounds codes n s = .ok ch → P ch.1 ∧ P ch.2)
    {st : RefState} (h : RefReached F cfg ds sc w codes o st) : ∀ n ∈ st.stack, P n := by
  induction h with
  | start h1 h2 =>
    intro n hn
    simp only [List.mem_singleton] at hn
    subst hn
    exact hroot _ h2
  | @round t o1 n rest st' h0 he ih =>
    obtain ⟨done, msk, hinv⟩ := refReached_inv hr htgt hmin hpos hn2 h0
    have hb : o1.bounds = o.bounds := bounds_congr hinv.preds.obj
    intro n' hn'
    rcases refExpand_stack he with hs | ⟨s, ch, h1, h2, h3, h4⟩
    · rw [hs] at hn'
      exact ih n' (by simp only [List.mem_cons]; exact Or.inr hn')
    · rw [h4] at hn'
      simp only [List.mem_cons] at hn'
      simp only at h3
      rw [hb] at h3
      obtain ⟨p1, p2⟩ := hch n s ch (ih n (by simp)) (hinv.ok n (by simp)) h1 h2 h3
      rcases hn' with rfl | rfl | hn'
      · exact p1
      · exact p2
      · exact ih n' (by simp only [List.mem_cons]; exact Or.inr hn')

/-- The parts of the children. -/
theorem refChildren_parts {bounds : Num × Num} {n : RefNode} {s : Split} {ch : RefNode × RefNode}
    (h : refChildren F cfg ds w bounds codes n s = .ok ch) :
    ∃ l m hl, histAt n.hists s.crit.featureId s.splitId = .ok l ∧
      ds.getBitvec s.crit.featureId s.splitId = .ok m ∧
      refHists F cfg ds w bounds codes (n.examples.filter (bitAt m)) = .ok hl ∧
      (ch.1.nodeId = 2 * n.nodeId + 1 ∧ ch.1.examples = n.examples.filter (bitAt m) ∧ ch.1.gradSum = l.gradSum ∧
        ch.1.hists = hl) ∧
      ch.2.nodeId = 2 * n.nodeId + 2 ∧ (ch.2.examples = n.examples.filter fun i => !bitAt m i) ∧
        ch.2.gradSum = F.sub n.gradSum l.gradSum ∧ ch.2.hists = subHists F n.hists hl := by
  unfold refChildren at h
  obtain ⟨l, e1, h⟩ := Out.bind_eq_ok.1 h
  obtain ⟨m, e2, h⟩ := Out.bind_eq_ok.1 h
  obtain ⟨hl, e3, h⟩ := Out.bind_eq_ok.1 h
  refine ⟨l, m, hl, e1, e2, e3, ?_⟩
  generalize subU32 n.exampleCount l.count = x at h
  simp only [Out.pure_eq, Out.ok.injEq] at h
  clear e1 e2 e3
  subst h
  exact ⟨⟨rfl, rfl, rfl, rfl⟩, rfl, rfl, rfl, rfl⟩

/-- Each candidate has a histogram value; when the histograms were built and not derived it is the right one. -/
structure HistInv (F : FP) (cfg : Config) (ds : Dataset) (w : Nat) (bounds : Num × Num) (codes : List Nat)
    (r : RefNode) : Prop where
  ex : ∀ f b m, Candidate ds f b m → ∃ v, histAt r.hists f b = .ok v
  built : r.nodeId = 0 ∨ r.nodeId % 2 = 1 → ∀ f b m, Candidate ds f b m →
    histAt r.hists f b = .ok (refHist F cfg w bounds codes r.examples m)

theorem histInv_root {bounds : Num × Num} {root : RefNode} (h : refRoot F cfg ds w bounds codes = .ok root) :
    HistInv F cfg ds w bounds codes root := by
  unfold refRoot at h
  obtain ⟨hs, e, h⟩ := Out.bind_eq_ok.1 h
  simp only [Out.pure_eq, Out.ok.injEq] at h
  subst h
  exact ⟨fun f b m hc => ⟨_, refHists_cand e hc⟩, fun _ f b m hc => refHists_cand e hc⟩

theorem histInv_children {bounds : Num × Num} {n : RefNode} {s : Split} {ch : RefNode × RefNode}
    (hn : HistInv F cfg ds w bounds codes n) (h : refChildren F cfg ds w bounds codes n s = .ok ch) :
    HistInv F cfg ds w bounds codes ch.1 ∧ HistInv F cfg ds w bounds codes ch.2 := by
  obtain ⟨l, m, hl, _, _, e3, ⟨i1, x1, _, h1⟩, i2, x2, _, h2⟩ := refChildren_parts h
  refine ⟨⟨fun f b m' hc => ⟨_, by rw [h1]; exact refHists_cand e3 hc⟩,
    fun _ f b m' hc => by rw [h1, x1]; exact refHists_cand e3 hc⟩, fun f b m' hc => ?_, fun hi => ?_⟩
  · obtain ⟨v, hv⟩ := hn.ex f b m' hc
    rw [h2]
    exact ⟨_, histAt_sub_ok hv (refHists_cand e3 hc)⟩
  · rw [i2] at hi
    omega

/-! ### Gradient sums with exact arithmetic -/

/-- The value a code stands for. -/
def decode (w : Nat) (lo hi : ℚ) (c : Nat) : ℚ := lo + (c : ℚ) * (hi - lo) / ((2 ^ w - 1 : ℕ) : ℚ)

def dsum (w : Nat) (lo hi : ℚ) (codes ex : List Nat) : ℚ := (ex.map fun i => decode w lo hi (codes.getD i 0)).sum

theorem dsum_eq (lo hi : ℚ) (codes : List Nat) : ∀ (ex : List Nat),
    dsum w lo hi codes ex = (((ex.map fun i => codes.getD i 0).sum : ℕ) : ℚ) / ((2 ^ w - 1 : ℕ) : ℚ) * (hi - lo) +
      (ex.length : ℚ) * lo
  | [] => by simp [dsum]
  | i :: ex => by
      have ih := dsum_eq lo hi codes ex
      unfold dsum at ih ⊢
      simp only [List.map_cons, List.sum_cons, List.length_cons]
      rw [ih]
      unfold decode
      push_cast
      ring

theorem dsum_filter (lo hi : ℚ) (codes : List Nat) (p : Nat → Bool) : ∀ (ex : List Nat),
    dsum w lo hi codes ex = dsum w lo hi codes (ex.filter p) + dsum w lo hi codes (ex.filter fun i => !p i)
  | [] => by simp [dsum]
  | i :: ex => by
      have ih := dsum_filter lo hi codes p ex
      unfold dsum at ih ⊢
      cases hp : p i <;> simp only [List.filter_cons, hp, Bool.not_true, Bool.not_false, if_true, Bool.false_eq_true,
        if_false, List.map_cons, List.sum_cons, ih] <;> ring

theorem linproj_exact (hw : validWidth w) (lo hi : ℚ) (s n : Nat) :
    BitSlice.linproj .exact w (FP.exact.ofNat s) (FP.exact.ofNat n) (.fin lo) (.fin hi) =
      .fin ((s : ℚ) / ((2 ^ w - 1 : ℕ) : ℚ) * (hi - lo) + (n : ℚ) * lo) := by
  have hne : ((2 ^ w - 1 : ℕ) : ℚ) ≠ 0 := by
    rcases hw with rfl | rfl | rfl | rfl <;> norm_num
  have ho : ∀ k : Nat, FP.exact.ofNat k = .fin k := fun k => rfl
  unfold BitSlice.linproj BitSlice.maxval
  rw [ho, ho, ho, FP.div_fin _ hne, FP.sub_fin]
  have hr : ∀ q : ℚ, FP.exact.rnd q = .fin q := fun q => rfl
  rw [hr, hr, FP.mul_fin, FP.mul_fin, hr, hr, FP.add_fin, hr]

/-- The sums of a node are right, when arithmetic is exact. -/
structure SumInv (ds : Dataset) (w : Nat) (lo hi : ℚ) (codes : List Nat) (r : RefNode) : Prop where
  total : r.gradSum = .fin (dsum w lo hi codes r.examples)
  hist : ∀ f b m, Candidate ds f b m → ∃ v, histAt r.hists f b = .ok v ∧
    v.gradSum = .fin (dsum w lo hi codes (r.examples.filter (bitAt m)))

theorem refHist_sum (hw : validWidth w) (hmin : cfg.minExamplesLeaf ≤ 1) (lo hi : ℚ) (codes ex : List Nat) (m : Blocks) :
    (refHist .exact cfg w (.fin lo, .fin hi) codes ex m).gradSum = .fin (dsum w lo hi codes (ex.filter (bitAt m))) := by
  unfold refHist
  simp only
  split
  · rename_i h
    have : ex.filter (bitAt m) = [] := List.length_eq_zero_iff.1 (by omega)
    rw [this]
    simp [dsum]
  · simp only
    rw [linproj_exact hw, dsum_eq]

theorem sumInv_root (hw : validWidth w) (hmin : cfg.minExamplesLeaf ≤ 1) {lo hi : ℚ} {root : RefNode}
    (hcl : codes.length = ds.nactiveExamples)
    (h : refRoot .exact cfg ds w (.fin lo, .fin hi) codes = .ok root) : SumInv ds w lo hi codes root := by
  unfold refRoot at h
  obtain ⟨hs, e, h⟩ := Out.bind_eq_ok.1 h
  simp only [Out.pure_eq, Out.ok.injEq] at h
  subst h
  refine ⟨?_, fun f b m hc => ⟨_, refHists_cand e hc, refHist_sum hw hmin lo hi codes _ m⟩⟩
  simp only
  rw [linproj_exact hw, dsum_eq]
  have : (List.range ds.nactiveExamples).map (fun i => codes.getD i 0) = codes := by
    rw [← hcl]
    apply List.ext_getElem?
    intro i
    rw [List.getElem?_map]
    by_cases hi : i < codes.length
    · rw [List.getElem?_range hi, Option.map_some, List.getD_eq_getElem?_getD, List.getElem?_eq_getElem hi]; rfl
    · rw [List.getElem?_eq_none (by rw [List.length_range]; omega), List.getElem?_eq_none (by omega)]; rfl
  rw [this, List.length_range]

theorem exact_sub (a b : ℚ) : FP.exact.sub (.fin a) (.fin b) = .fin (a - b) := by
  rw [FP.sub_fin]; rfl

theorem sumInv_children (hw : validWidth w) (hmin : cfg.minExamplesLeaf ≤ 1) {lo hi : ℚ} {n : RefNode} {s : Split}
    {ch : RefNode × RefNode} (hn : SumInv ds w lo hi codes n)
    (hs : findBestSplit .exact cfg ds n.gradSum n.exampleCount n.hists = .ok s) (hne : s.crit.isNone = false)
    (h : refChildren .exact cfg ds w (.fin lo, .fin hi) codes n s = .ok ch) :
    SumInv ds w lo hi codes ch.1 ∧ SumInv ds w lo hi codes ch.2 := by
  obtain ⟨l, m, hl, e1, e2, e3, ⟨_, x1, s1, h1⟩, _, x2, s2, h2⟩ := refChildren_parts h
  obtain ⟨fs, js, v, hfs, hjs, hmem, hv, _⟩ := findBestSplit_some hs hne
  have hcand : Candidate ds s.crit.featureId s.splitId m := by
    obtain ⟨a1, a2⟩ := (mem_histJobs hjs _ _).1 hmem
    exact ⟨⟨fs, hfs, a1⟩, a2, e2⟩
  obtain ⟨v', hv', hsum⟩ := hn.hist _ _ _ hcand
  rw [e1] at hv'
  cases hv'
  constructor
  · refine ⟨by rw [s1, x1, hsum], fun f b m' hc => ⟨_, by rw [h1]; exact refHists_cand e3 hc, ?_⟩⟩
    rw [x1]
    exact refHist_sum hw hmin lo hi codes _ m'
  · constructor
    · rw [s2, hn.total, hsum, exact_sub, x2, dsum_filter lo hi codes (bitAt m) n.examples]
      congr 1
      ring
    · intro f b m' hc
      obtain ⟨y, hy, hys⟩ := hn.hist f b m' hc
      refine ⟨_, by rw [h2]; exact histAt_sub_ok hy (refHists_cand e3 hc), ?_⟩
      unfold HistVal.sub
      simp only
      rw [hys, refHist_sum hw hmin, exact_sub, x2, dsum_filter lo hi codes (bitAt m) (n.examples.filter (bitAt m'))]
      congr 1
      have c1 : (n.examples.filter (bitAt m')).filter (bitAt m) = (n.examples.filter (bitAt m)).filter (bitAt m') := by
        rw [List.filter_filter, List.filter_filter]
        congr 1
        funext i
        exact Bool.and_comm _ _
      have c2 : (n.examples.filter (bitAt m')).filter (fun i => !bitAt m i) =
          (n.examples.filter fun i => !bitAt m i).filter (bitAt m') := by
        rw [List.filter_filter, List.filter_filter]
        congr 1
        funext i
        exact Bool.and_comm _ _
      rw [c1, c2]
      ring

/-! ### Sets of examples -/

theorem parts_examples {n : Nat} {t : Tree} {msk : Nat → Blocks} {parts : List (Nat × List Nat)}
    (h : Parts F cfg ds n t msk parts) {p : Nat × List Nat} (hp : p ∈ parts) :
    p.2.Nodup ∧ p.2.toFinset = examplesAt t msk n p.1 := by
  have hnd : p.2.Nodup := by
    have h1 : (parts.flatMap Prod.snd).Nodup := h.perm.nodup_iff.2 List.nodup_range
    exact (List.nodup_flatMap.1 h1).1 p hp
  refine ⟨hnd, ?_⟩
  ext i
  unfold examplesAt
  simp only [List.mem_toFinset, Finset.mem_filter, Finset.mem_range]
  constructor
  · intro hi
    exact ⟨h.lt hp hi, h.routed p hp i hi⟩
  · rintro ⟨h1, h2⟩
    obtain ⟨q, hq, hiq⟩ := List.mem_flatMap.1 (h.perm.mem_iff.2 (List.mem_range.2 h1))
    have l1 := (h.leaves q.1).2 (List.mem_map.2 ⟨q, hq, rfl⟩)
    have l2 := (h.leaves p.1).2 (List.mem_map.2 ⟨p, hp, rfl⟩)
    have he := (h.routed q hq i hiq).unique h2 l1.2 l2.2
    have : q = p := List.inj_on_of_nodup_map h.nodup hq hp he
    rw [← this]
    exact hiq

theorem inside_eq {ex : List Nat} {E : Finset Nat} (h : ex.toFinset = E) (m : Blocks) :
    (ex.filter (bitAt m)).toFinset = inside E m := by
  subst h
  ext i
  unfold inside
  simp only [List.mem_toFinset, List.mem_filter, Finset.mem_filter, bitAt_iff]

theorem outside_eq {ex : List Nat} {E : Finset Nat} (h : ex.toFinset = E) (m : Blocks) :
    (ex.filter fun i => !bitAt m i).toFinset = outside E m := by
  subst h
  ext i
  unfold outside
  simp only [List.mem_toFinset, List.mem_filter, Finset.mem_filter, bitAt_not]

theorem gradCodes_get {bounds : Num × Num} {grads : List Num} : ∀ {ps : List (Nat × Nat)} {codes : List Nat},
    gradCodes F w bounds grads ps = .ok codes → codes.length = ps.length ∧
    ∀ (i : Nat) (p : Nat × Nat), ps[i]? = some p → ∃ g, grads[p.2]? = some g ∧
      codes[i]? = some (BitSlice.discretise F w g bounds.1 bounds.2).toNat
  | [], codes, h => by
      simp only [gradCodes, Out.ok.injEq] at h
      subst h
      exact ⟨rfl, by simp⟩
  | (a, j) :: ps, codes, h => by
      unfold gradCodes at h
      obtain ⟨v, e1, h⟩ := Out.bind_eq_ok.1 h
      obtain ⟨cs, e2, h⟩ := Out.bind_eq_ok.1 h
      simp only [Out.pure_eq, Out.ok.injEq] at h
      subst h
      obtain ⟨ih1, ih2⟩ := gradCodes_get e2
      refine ⟨by simp [ih1], fun i p hp => ?_⟩
      cases i with
      | zero =>
        simp only [List.getElem?_cons_zero, Option.some.injEq] at hp
        subst hp
        exact ⟨v, at?_ok.1 e1, by simp⟩
      | succ i =>
        simp only [List.getElem?_cons_succ] at hp ⊢
        exact ih2 i p hp

/-- The codes of the gradients of the active examples. -/
theorem codes_get {rows : List Nat} {ps : List (Nat × Nat)} {bounds : Num × Num} {grads : List Num}
    (hr : Active ds rows) (hps : ds.activePairs = .ok ps) (hc : gradCodes F w bounds grads ps = .ok codes) :
    codes.length = rows.length ∧ ∀ i < rows.length,
      codes.getD i 0 = (BitSlice.discretise F w (grads.getD (rows.getD i 0) (.fin 0)) bounds.1 bounds.2).toNat := by
  unfold Active at hr
  rw [hps] at hr
  cases hr
  obtain ⟨h1, h2⟩ := gradCodes_get hc
  refine ⟨by rw [h1]; simp, fun i hi => ?_⟩
  have hz : ((List.range rows.length).zip rows)[i]? = some (i, rows.getD i 0) := by
    rw [List.zip, List.getElem?_zipWith, List.getElem?_range hi, List.getD_eq_getElem?_getD,
      List.getElem?_eq_getElem hi]
    rfl
  obtain ⟨g, g1, g2⟩ := h2 i _ hz
  simp only at g1
  rw [List.getD_eq_getElem?_getD, g2, List.getD_eq_getElem?_getD (l := grads), g1]
  rfl

end
end Learner
end BitBoost
