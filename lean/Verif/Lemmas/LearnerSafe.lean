import Verif.Lemmas.LearnerTrain
/-!
Helper lemmas: whatever the configuration, the learner panics or does what the reference learner does. (With
`min_examples_leaf = 0` a node can have no examples; then the compression panics, where the reference learner goes
on for a while.)
-/
namespace BitBoost

/-- The first computation panics, or both end in the same way with related results. -/
inductive Out.Le {α β : Type} (R : α → β → Prop) : Out α → Out β → Prop
  | ok {a : α} {b : β} (h : R a b) : Out.Le R (.ok a) (.ok b)
  | panic (y : Out β) : Out.Le R .panic y
  | ub : Out.Le R .ub .ub

namespace Out

theorem Le.bind {α β γ δ : Type} {R : α → β → Prop} {S : γ → δ → Prop} {x : Out α} {y : Out β} {f : α → Out γ}
    {g : β → Out δ} (h : Le R x y) (hf : ∀ a b, R a b → Le S (f a) (g b)) : Le S (x >>= f) (y >>= g) := by
  cases h with
  | ok h => simpa using hf _ _ h
  | panic => exact Le.panic _
  | ub => exact Le.ub

theorem Le.same {α γ δ : Type} {S : γ → δ → Prop} {x : Out α} {f : α → Out γ} {g : α → Out δ}
    (hf : ∀ a, x = .ok a → Le S (f a) (g a)) : Le S (x >>= f) (x >>= g) := by
  cases x with
  | ok a => simpa using hf a rfl
  | panic => exact Le.panic _
  | ub => exact Le.ub

theorem Le.refl {α : Type} {R : α → α → Prop} (hR : ∀ a, R a a) (x : Out α) : Le R x x := by
  cases x with
  | ok a => exact .ok (hR a)
  | panic => exact .panic _
  | ub => exact .ub

theorem Sim.le {α β : Type} {R : α → β → Prop} {x : Out α} {y : Out β} (h : Sim R x y) : Le R x y := by
  cases h with
  | ok h => exact .ok h
  | panic => exact .panic _
  | ub => exact .ub

theorem Le.ne_ub {α β : Type} {R : α → β → Prop} {x : Out α} {y : Out β} (h : Le R x y) (hy : y ≠ .ub) : x ≠ .ub := by
  cases h with
  | ok => simp
  | panic => simp
  | ub => exact absurd rfl hy

end Out

namespace Learner
open Spec (RefNode RefState)

/-- A node and a reference node with the same content. -/
structure NodeLike (w : Nat) (ds : Dataset) (codes : List Nat) (n : Node) (r : RefNode) : Prop where
  rep : Rep w ((ds.nactiveExamples + 255) / 256) codes n r.examples
  id : n.nodeId = r.nodeId
  cnt : n.exampleCount = r.exampleCount
  sum : n.gradSum = r.gradSum
  hists : n.hists = r.hists

theorem NodeRel.like {w : Nat} {ds : Dataset} {codes : List Nat} {n : Node} {r : RefNode} (h : NodeRel w ds codes n r) :
    NodeLike w ds codes n r := ⟨h.rep, h.id, h.cnt, h.sum, h.hists⟩

variable {F : FP} {cfg : Config} {ds : Dataset} {w : Nat} {codes : List Nat}

/-- `split_examples` panics or gives a node that stands for the part of the examples. -/
theorem splitExamples_like {L : Nat} (hvw : validWidth w) {p : Node} {ex : List Nat} (h : Rep w L codes p ex)
    {fm : Blocks} (hfm : fm.length = L) {s : Split} (hget : ds.getBitvec s.crit.featureId s.splitId = .ok fm)
    {hs : Hists} (hh : newHists ds.data = .ok hs) (id : Nat) (neg : Bool) :
    splitExamples F cfg ds w p id s neg = .panic ∨
    ∃ c, splitExamples F cfg ds w p id s neg = .ok c ∧ Rep w L codes c (childExamples fm neg ex) ∧
      c.nodeId = id ∧ c.hists = hs := by
  have hpl := h.lens
  have hpos : 0 < p.idx.length := by
    rw [← hpl]; exact List.length_pos_iff.2 h.ne
  obtain ⟨cm, e1, hl, hw⟩ := splitLoop_spec p.idx p.mask fm neg hpl
    (fun k hk => by rw [hfm]; exact h.inRange k hk) (Blocks.blockLen 32 p.idx) 0 0
    (List.replicate p.idx.length BitBlock.zeros) (by omega) (by simp)
  rw [List.length_replicate] at hl
  have hw' : ∀ i, i < Blocks.blockLen 32 p.idx → Blocks.word 32 cm i = childWord p.idx p.mask fm neg i := by
    intro i hi
    rw [hw i, if_pos (by omega)]
  have hrep := child_rep h hfm hl hw' id 0 (.fin 0) hs
  unfold splitExamples
  rw [hget, Out.ok_bind]
  simp only []
  rw [hh, Out.ok_bind]
  have ez : Blocks.zeroBlocks p.idx.length = .ok (List.replicate p.idx.length BitBlock.zeros) := by
    unfold Blocks.zeroBlocks; rw [if_pos hpos]
  rw [ez, Out.ok_bind, e1, Out.ok_bind]
  simp only []
  split
  · have hz := zeros_nonzero cm (childWord p.idx p.mask fm neg) (Blocks.blockLen 32 p.idx)
      (by unfold Blocks.blockLen; rw [hl]) hw'
    rw [Nat.zero_add, hz]
    by_cases hnz : 0 < (nonzero cm).length
    · rw [decide_eq_true hnz, Out.assert_true, Out.ok_bind]
      obtain ⟨c', ec, hr, a, _, _, b⟩ := compress_rep hvw (p := p) hrep rfl rfl hnz
      exact .inr ⟨c', ec, hr, a, b⟩
    · rw [decide_eq_false hnz]
      exact .inl rfl
  · exact .inr ⟨_, rfl, hrep, rfl, rfl⟩

theorem nodeLike_of {L : Nat} {n : Node} {ex : List Nat} (hL : L = (ds.nactiveExamples + 255) / 256)
    (h : Rep w L codes n ex) (c : Nat) (g : Num) (hs : Hists) {id : Nat} (hid : n.nodeId = id) :
    NodeLike w ds codes { n with exampleCount := c, gradSum := g, hists := hs } ⟨id, ex, c, g, hs⟩ := by
  subst hL
  exact ⟨h.withMeta c g hs, hid, rfl, rfl, rfl⟩

def PairLike (w : Nat) (ds : Dataset) (codes : List Nat) (a : Node × Node) (b : RefNode × RefNode) : Prop :=
  NodeLike w ds codes a.1 b.1 ∧ NodeLike w ds codes a.2 b.2

theorem childNodes_le (hw : validWidth w) (hn : ds.nactiveExamples ≤ 2 ^ 32 - 256) (hM : MasksOk ds)
    (bounds : Num × Num) {n : Node} {r : RefNode} (h : NodeLike w ds codes n r) (s : Split) :
    Out.Le (PairLike w ds codes) (childNodes F cfg ds w bounds n s) (Spec.refChildren F cfg ds w bounds codes r s) := by
  unfold childNodes Spec.refChildren
  rw [h.hists]
  apply Out.Le.same
  intro v hv
  cases hm : ds.getBitvec s.crit.featureId s.splitId with
  | panic => rw [splitExamples_panic F cfg w n _ s false hm]; exact Out.Le.panic _
  | ub => rw [splitExamples_ub F cfg w n _ s false hm]; exact Out.Le.ub
  | ok m =>
    simp only [Out.ok_bind]
    cases hh : newHists ds.data with
    | panic => rw [splitExamples_hpanic F cfg w n _ s false hm hh]; exact Out.Le.panic _
    | ub =>
      rw [splitExamples_hub F cfg w n _ s false hm hh, refHists_ub F cfg w bounds codes _ hh]
      exact Out.Le.ub
    | ok h0 =>
      rcases splitExamples_like (F := F) (cfg := cfg) hw h.rep (hM _ _ _ hm) hm hh
        (Tree.leftChild n.nodeId) false with e1 | ⟨cl, e1, rl, il, hl⟩
      · rw [e1]; exact Out.Le.panic _
      have rl' : Rep w ((ds.nactiveExamples + 255) / 256) codes
          { cl with gradSum := v.gradSum, exampleCount := v.count } (childExamples m false r.examples) :=
        ⟨rl.full, rl.plain, rl.ne, rl.inRange, rl.le, rl.glen, rl.vals⟩
      rw [e1, Out.ok_bind, buildHists_eq hw hn hM bounds rl' (by rw [hh, ← hl])]
      have hls : r.examples.filter (Spec.bitAt m) = childExamples m false r.examples := by
        unfold childExamples; simp
      have hrs : (r.examples.filter fun i => !Spec.bitAt m i) = childExamples m true r.examples := by
        unfold childExamples; simp
      rw [hls, hrs]
      rw [Out.bind_assoc]
      apply Out.Le.same
      intro hL ehL
      simp only [Out.ok_bind, Out.pure_eq]
      rcases splitExamples_like (F := F) (cfg := cfg) hw h.rep (hM _ _ _ hm) hm hh
        (Tree.rightChild n.nodeId) true with e2 | ⟨cr, e2, rr, ir, hr⟩
      · rw [e2]; exact Out.Le.panic _
      rw [e2]
      simp only [Out.ok_bind, Out.pure_eq]
      have hsr : subU32 r.exampleCount v.count = subU32 n.exampleCount v.count := by rw [h.cnt]
      rw [hsr, h.sum]
      exact .ok ⟨nodeLike_of rfl rl _ _ _ (by rw [il, h.id]; rfl),
        nodeLike_of rfl rr _ _ _ (by rw [ir, h.id]; rfl)⟩

/-- Related states: the same tree and predictions, nodes with the same content. -/
structure StateLike (w : Nat) (ds : Dataset) (codes : List Nat) (a : State) (b : RefState) : Prop where
  tree : a.tree = b.tree
  obj : a.obj = b.obj
  stack : List.Forall₂ (NodeLike w ds codes) a.stack b.stack

theorem expand_le (hw : validWidth w) (hn : ds.nactiveExamples ≤ 2 ^ 32 - 256) (hM : MasksOk ds)
    {n : Node} {r : RefNode} (h : NodeLike w ds codes n r) {a : State}
    {b : RefState} (hab : StateLike w ds codes a b) :
    Out.Le (StateLike w ds codes) (expand F cfg ds w n a) (Spec.refExpand F cfg ds w codes r b) := by
  unfold expand Spec.refExpand
  rw [← h.sum, ← h.cnt, ← h.hists]
  apply Out.Le.same
  intro s hs
  cases hne : s.crit.isNone with
  | true =>
    simp only [if_true]
    unfold leafValue
    rw [h.rep.itemsAll, Out.ok_bind, hab.obj, hab.tree, h.id]
    simp only [Out.bind_assoc]
    apply Out.Le.same
    intro lv _
    apply Out.Le.same
    intro t _
    exact .ok ⟨rfl, rfl, hab.stack⟩
  | false =>
    simp only [Bool.false_eq_true, if_false]
    have hid : Tree.leftChild n.nodeId = 2 * r.nodeId + 1 := by unfold Tree.leftChild; rw [h.id]
    have hidr : Tree.rightChild n.nodeId = 2 * r.nodeId + 2 := by unfold Tree.rightChild; rw [h.id]
    rw [hid, hab.tree, hab.obj]
    by_cases hmax : b.tree.isMaxLeafNode (2 * r.nodeId + 1) = true
    · rw [hmax]
      simp only [Bool.not_true, Bool.false_eq_true, if_false]
      unfold childLeafValues
      simp only [Out.bind_assoc]
      apply Out.Le.same
      intro m hm
      have hml := hM _ _ _ hm
      rw [h.rep.itemsLeft hml, Out.ok_bind, h.rep.itemsRight hml]
      simp only [Out.ok_bind]
      apply Out.Le.same
      intro lv _
      apply Out.Le.same
      intro rv _
      rw [hid, hidr]
      apply Out.Le.same
      intro t1 _
      apply Out.Le.same
      intro t2 _
      simp only [Out.ok_bind, Out.pure_eq, h.id]
      apply Out.Le.same
      intro t3 _
      exact .ok ⟨rfl, rfl, hab.stack⟩
    · have hmax : b.tree.isMaxLeafNode (2 * r.nodeId + 1) = false := by simpa using hmax
      rw [hmax]
      simp only [Bool.not_false, if_true]
      apply Out.Le.bind (childNodes_le hw hn hM _ h s)
      rintro p q ⟨hp, hq⟩
      rw [h.id]
      apply Out.Le.same
      intro t _
      exact .ok ⟨rfl, rfl, .cons hp (.cons hq hab.stack)⟩

theorem loop_le (hw : validWidth w) (hn : ds.nactiveExamples ≤ 2 ^ 32 - 256) (hM : MasksOk ds) :
    ∀ (fuel : Nat) {a : State} {b : RefState}, StateLike w ds codes a b →
    Out.Le (Option.Rel (StateLike w ds codes)) (loop F cfg ds w fuel a) (Spec.refLoop F cfg ds w codes fuel b) := by
  intro fuel
  induction fuel with
  | zero =>
    intro a b hab
    unfold loop Spec.refLoop
    have hst := hab.stack
    rcases ha : a.stack with _ | ⟨n, rest⟩ <;> rcases hb : b.stack with _ | ⟨r, rest'⟩ <;> rw [ha, hb] at hst
    · exact .ok (.some hab)
    · cases hst
    · cases hst
    · exact .ok .none
  | succ fuel ih =>
    intro a b hab
    unfold loop Spec.refLoop
    have hst := hab.stack
    rcases ha : a.stack with _ | ⟨n, rest⟩ <;> rcases hb : b.stack with _ | ⟨r, rest'⟩ <;> rw [ha, hb] at hst
    · exact .ok (.some hab)
    · cases hst
    · cases hst
    · cases hst with
      | cons h1 h2 =>
        simp only []
        apply Out.Le.bind (expand_le hw hn hM h1 (a := { a with stack := rest })
          (b := { b with stack := rest' }) ⟨hab.tree, hab.obj, h2⟩)
        intro a' b' hab'
        exact ih hab'

end Learner
end BitBoost
