import Verif.Lemmas.RootRep
import Verif.Lemmas.Hist
/-! Helper lemmas: the learner does what the reference learner does. -/
namespace BitBoost

/-- Two computations that end in the same way, with related results. -/
inductive Out.Sim {α β : Type} (R : α → β → Prop) : Out α → Out β → Prop
  | ok {a : α} {b : β} (h : R a b) : Out.Sim R (.ok a) (.ok b)
  | panic : Out.Sim R .panic .panic
  | ub : Out.Sim R .ub .ub

namespace Out

theorem Sim.bind {α β γ δ : Type} {R : α → β → Prop} {S : γ → δ → Prop} {x : Out α} {y : Out β} {f : α → Out γ}
    {g : β → Out δ} (h : Sim R x y) (hf : ∀ a b, R a b → Sim S (f a) (g b)) : Sim S (x >>= f) (y >>= g) := by
  cases h with
  | ok h => simpa using hf _ _ h
  | panic => exact Sim.panic
  | ub => exact Sim.ub

theorem Sim.same {α γ δ : Type} {S : γ → δ → Prop} {x : Out α} {f : α → Out γ} {g : α → Out δ}
    (hf : ∀ a, x = .ok a → Sim S (f a) (g a)) : Sim S (x >>= f) (x >>= g) := by
  cases x with
  | ok a => simpa using hf a rfl
  | panic => exact Sim.panic
  | ub => exact Sim.ub

theorem Sim.eq {α : Type} {x y : Out α} (h : Sim Eq x y) : x = y := by
  cases h with
  | ok h => rw [h]
  | panic => rfl
  | ub => rfl

theorem Sim.refl {α : Type} {R : α → α → Prop} (hR : ∀ a, R a a) (x : Out α) : Sim R x x := by
  cases x with
  | ok a => exact .ok (hR a)
  | panic => exact .panic
  | ub => exact .ub

theorem Sim.left_ok {α β : Type} {R : α → β → Prop} {x : Out α} {y : Out β} (h : Sim R x y) {a : α} (e : x = .ok a) :
    ∃ b, y = .ok b ∧ R a b := by
  cases h with
  | ok h => cases e; exact ⟨_, rfl, h⟩
  | panic => cases e
  | ub => cases e

theorem Sim.mono {α β : Type} {R S : α → β → Prop} {x : Out α} {y : Out β} (h : Sim R x y)
    (hS : ∀ a b, x = .ok a → y = .ok b → R a b → S a b) : Sim S x y := by
  cases h with
  | ok h => exact .ok (hS _ _ rfl rfl h)
  | panic => exact .panic
  | ub => exact .ub

end Out

namespace Learner
open Spec (RefNode RefState)

/-- The counts of a reference node are right. -/
structure RefOk (ds : Dataset) (n : RefNode) : Prop where
  count : n.exampleCount = n.examples.length
  small : n.examples.length < 2 ^ 32
  hist : ∀ fs js f b v m, ds.activeFeatures = .ok fs → histJobs ds fs = .ok js → (f, b) ∈ js →
    histAt n.hists f b = .ok v → ds.getBitvec f b = .ok m → v.count = (n.examples.filter (Spec.bitAt m)).length
  ne : n.examples ≠ []

/-- All masks have the length for the number of active examples. -/
def MasksOk (ds : Dataset) : Prop :=
  ∀ f b m, ds.getBitvec f b = .ok m → m.length = (ds.nactiveExamples + 255) / 256

/-- A node and a reference node with the same content. -/
structure NodeRel (w : Nat) (ds : Dataset) (codes : List Nat) (n : Node) (r : RefNode) : Prop where
  rep : Rep w ((ds.nactiveExamples + 255) / 256) codes n r.examples
  id : n.nodeId = r.nodeId
  cnt : n.exampleCount = r.exampleCount
  sum : n.gradSum = r.gradSum
  hists : n.hists = r.hists
  ok : RefOk ds r

theorem subU32_of_le {a b : Nat} (h : b ≤ a) (ha : a < 2 ^ 32) : subU32 a b = a - b := by
  unfold subU32
  omega

theorem refHist_count (F : FP) (cfg : Config) (w : Nat) (bounds : Num × Num) (codes ex : List Nat) (m : Blocks) :
    (Spec.refHist F cfg w bounds codes ex m).count = (ex.filter (Spec.bitAt m)).length := by
  unfold Spec.refHist
  simp only []
  split <;> rfl

theorem refHists_at {F : FP} {cfg : Config} {ds : Dataset} {w : Nat} {bounds : Num × Num} {codes ex : List Nat}
    {h : Hists} (e : Spec.refHists F cfg ds w bounds codes ex = .ok h) {fs : List Nat} {js : List (Nat × Nat)}
    (hfs : ds.activeFeatures = .ok fs) (hjs : histJobs ds fs = .ok js) {f b : Nat} (hm : (f, b) ∈ js) :
    ∃ m, ds.getBitvec f b = .ok m ∧ histAt h f b = .ok (Spec.refHist F cfg w bounds codes ex m) := by
  unfold Spec.refHists at e
  obtain ⟨h0, _, e⟩ := Out.bind_eq_ok.1 e
  obtain ⟨fs', e1, e⟩ := Out.bind_eq_ok.1 e
  obtain ⟨js', e2, e⟩ := Out.bind_eq_ok.1 e
  rw [hfs] at e1
  cases e1
  rw [hjs] at e2
  cases e2
  obtain ⟨v, e3, e4⟩ := (runJobs_ok e).1 f b hm
  obtain ⟨m, e5, e6⟩ := Out.bind_eq_ok.1 e3
  simp only [Out.pure_eq, Out.ok.injEq] at e6
  exact ⟨m, e5, by rw [e4, e6]⟩

theorem panic_bind {α β : Type} (f : α → Out β) : (Out.panic >>= f) = Out.panic := rfl

theorem ub_bind {α β : Type} (f : α → Out β) : (Out.ub >>= f) = Out.ub := rfl

section
variable (F : FP) (cfg : Config) {ds : Dataset} (w : Nat) (p : Node) (id : Nat) (s : Split) (neg : Bool)

theorem splitExamples_panic (h : ds.getBitvec s.crit.featureId s.splitId = .panic) :
    splitExamples F cfg ds w p id s neg = .panic := by
  unfold splitExamples
  simp only [h, panic_bind]

theorem splitExamples_ub (h : ds.getBitvec s.crit.featureId s.splitId = .ub) :
    splitExamples F cfg ds w p id s neg = .ub := by
  unfold splitExamples
  simp only [h, ub_bind]

theorem splitExamples_hpanic {m : Blocks} (h : ds.getBitvec s.crit.featureId s.splitId = .ok m)
    (hh : newHists ds.data = .panic) : splitExamples F cfg ds w p id s neg = .panic := by
  unfold splitExamples
  simp only [h, hh, Out.ok_bind, panic_bind]

theorem splitExamples_hub {m : Blocks} (h : ds.getBitvec s.crit.featureId s.splitId = .ok m)
    (hh : newHists ds.data = .ub) : splitExamples F cfg ds w p id s neg = .ub := by
  unfold splitExamples
  simp only [h, hh, Out.ok_bind, ub_bind]

theorem refHists_panic (bounds : Num × Num) (codes ex : List Nat) (hh : newHists ds.data = .panic) :
    Spec.refHists F cfg ds w bounds codes ex = .panic := by
  unfold Spec.refHists
  rw [hh, panic_bind]

theorem refHists_ub (bounds : Num × Num) (codes ex : List Nat) (hh : newHists ds.data = .ub) :
    Spec.refHists F cfg ds w bounds codes ex = .ub := by
  unfold Spec.refHists
  rw [hh, ub_bind]
end

variable {F : FP} {cfg : Config} {ds : Dataset} {w : Nat} {codes : List Nat}

theorem histJob_eq (hw : validWidth w) (hn : ds.nactiveExamples ≤ 2 ^ 32 - 256) (hM : MasksOk ds)
    (bounds : Num × Num) {n : Node} {ex : List Nat}
    (h : Rep w ((ds.nactiveExamples + 255) / 256) codes n ex) :
    histJob F cfg ds w bounds n = fun f b => (do
      let m ← ds.getBitvec f b
      return Spec.refHist F cfg w bounds codes ex m) := by
  funext f b
  unfold histJob
  cases e : ds.getBitvec f b with
  | ok m =>
    simp only [Out.ok_bind]
    rw [h.gradSum F cfg bounds hw (by omega) (hM f b m e)]
    rfl
  | panic => rfl
  | ub => rfl

/-- Building histograms from new ones. -/
theorem buildHists_eq (hw : validWidth w) (hn : ds.nactiveExamples ≤ 2 ^ 32 - 256) (hM : MasksOk ds)
    (bounds : Num × Num) {n : Node} {ex : List Nat}
    (h : Rep w ((ds.nactiveExamples + 255) / 256) codes n ex) (hh : newHists ds.data = .ok n.hists) :
    buildHists F cfg ds w bounds n =
      (Spec.refHists F cfg ds w bounds codes ex >>= fun hs => .ok { n with hists := hs }) := by
  unfold buildHists Spec.refHists
  rw [hh, Out.ok_bind, histJob_eq hw hn hM bounds h]
  simp only [Out.bind_assoc]
  rfl

theorem children_ne {m : Blocks} {ex : List Nat} {v : HistVal} {count : Nat} (hc : count = ex.length)
    (hs : ex.length < 2 ^ 32) (hv : v.count = (ex.filter (Spec.bitAt m)).length) (h1 : 1 ≤ v.count)
    (h2 : 1 ≤ subU32 count v.count) :
    childExamples m false ex ≠ [] ∧ childExamples m true ex ≠ [] ∧
      subU32 count v.count = (childExamples m true ex).length ∧ v.count = (childExamples m false ex).length := by
  have hle : v.count ≤ ex.length := by rw [hv]; exact List.length_filter_le _ _
  have he : (childExamples m false ex).length = v.count := by
    unfold childExamples
    rw [hv]
    simp
  have hr : (childExamples m true ex).length = ex.length - v.count := by
    have := List.length_eq_length_filter_add (l := ex) (Spec.bitAt m)
    unfold childExamples
    simp only [if_true]
    rw [← hv] at this
    omega
  rw [hc, subU32_of_le hle hs] at h2 ⊢
  refine ⟨?_, ?_, hr.symm, he.symm⟩
  · intro h0; rw [h0] at he; simp at he; omega
  · intro h0; rw [h0] at hr; simp at hr; omega

theorem childExamples_filter (m m' : Blocks) (ex : List Nat) :
    ((childExamples m true ex).filter (Spec.bitAt m')).length + ((childExamples m false ex).filter (Spec.bitAt m')).length
      = (ex.filter (Spec.bitAt m')).length := by
  unfold childExamples
  simp only [if_true, Bool.false_eq_true, if_false]
  rw [List.filter_filter, List.filter_filter]
  have := List.length_eq_length_filter_add (l := ex.filter (Spec.bitAt m')) (Spec.bitAt m)
  rw [List.filter_filter, List.filter_filter] at this
  rw [this, Nat.add_comm]
  congr 2
  · apply List.filter_congr; intro i _; rw [Bool.and_comm]
  · apply List.filter_congr; intro i _; rw [Bool.and_comm]

theorem Rep.withMeta {L : Nat} {n : Node} {ex : List Nat} (h : Rep w L codes n ex) (c : Nat) (g : Num) (hs : Hists) :
    Rep w L codes { n with exampleCount := c, gradSum := g, hists := hs } ex :=
  ⟨h.full, h.plain, h.ne, h.inRange, h.le, h.glen, h.vals⟩

theorem nodeRel_of {L : Nat} {n : Node} {ex : List Nat} (hL : L = (ds.nactiveExamples + 255) / 256)
    (h : Rep w L codes n ex) (c : Nat) (g : Num) (hs : Hists) {id : Nat} (hid : n.nodeId = id)
    (hok : RefOk ds ⟨id, ex, c, g, hs⟩) :
    NodeRel w ds codes { n with exampleCount := c, gradSum := g, hists := hs } ⟨id, ex, c, g, hs⟩ := by
  subst hL
  exact ⟨h.withMeta c g hs, hid, rfl, rfl, rfl, hok⟩

def PairRel (w : Nat) (ds : Dataset) (codes : List Nat) (a : Node × Node) (b : RefNode × RefNode) : Prop :=
  NodeRel w ds codes a.1 b.1 ∧ NodeRel w ds codes a.2 b.2

theorem childNodes_sim (hw : validWidth w) (hn : ds.nactiveExamples ≤ 2 ^ 32 - 256) (hM : MasksOk ds)
    (hmin : 1 ≤ cfg.minExamplesLeaf) (bounds : Num × Num) {n : Node} {r : RefNode}
    (h : NodeRel w ds codes n r) {s : Split}
    (hs : findBestSplit F cfg ds n.gradSum n.exampleCount n.hists = .ok s) (hne : s.crit.isNone = false) :
    Out.Sim (PairRel w ds codes) (childNodes F cfg ds w bounds n s) (Spec.refChildren F cfg ds w bounds codes r s) := by
  obtain ⟨fs, js, v, hfs, hjs, hmem, hv, hc1, hc2, _⟩ := findBestSplit_some hs hne
  have hok := h.ok
  unfold childNodes Spec.refChildren
  rw [h.hists] at hv ⊢
  rw [hv, Out.ok_bind, Out.ok_bind]
  -- the mask
  cases hm : ds.getBitvec s.crit.featureId s.splitId with
  | panic => rw [splitExamples_panic F cfg w n _ s false hm]; exact Out.Sim.panic
  | ub => rw [splitExamples_ub F cfg w n _ s false hm]; exact Out.Sim.ub
  | ok m =>
    simp only [Out.ok_bind]
    have hvc := hok.hist fs js _ _ v m hfs hjs hmem hv hm
    obtain ⟨ne1, ne2, hrc, hlc⟩ := children_ne (m := m) (count := n.exampleCount) (by rw [h.cnt, hok.count])
      hok.small hvc (by omega) (by omega)
    cases hh : newHists ds.data with
    | panic =>
      rw [splitExamples_hpanic F cfg w n _ s false hm hh, refHists_panic F cfg w bounds codes _ hh]
      exact Out.Sim.panic
    | ub =>
      rw [splitExamples_hub F cfg w n _ s false hm hh, refHists_ub F cfg w bounds codes _ hh]
      exact Out.Sim.ub
    | ok h0 =>
      obtain ⟨cl, e1, rl, il, hl⟩ := splitExamples_rep (F := F) (cfg := cfg) hw h.rep (hM _ _ _ hm) hm hh
        (Tree.leftChild n.nodeId) false ne1
      obtain ⟨cr, e2, rr, ir, hr⟩ := splitExamples_rep (F := F) (cfg := cfg) hw h.rep (hM _ _ _ hm) hm hh
        (Tree.rightChild n.nodeId) true ne2
      have rl' : Rep w ((ds.nactiveExamples + 255) / 256) codes
          { cl with gradSum := v.gradSum, exampleCount := v.count } (childExamples m false r.examples) :=
        ⟨rl.full, rl.plain, rl.ne, rl.inRange, rl.le, rl.glen, rl.vals⟩
      rw [e1, Out.ok_bind, buildHists_eq hw hn hM bounds rl' (by rw [hh, ← hl]), e2]
      have hls : r.examples.filter (Spec.bitAt m) = childExamples m false r.examples := by
        unfold childExamples; simp
      have hrs : (r.examples.filter fun i => !Spec.bitAt m i) = childExamples m true r.examples := by
        unfold childExamples; simp
      rw [hls, hrs]
      rw [Out.bind_assoc]
      apply Out.Sim.same
      intro hL ehL
      simp only [Out.ok_bind, Out.pure_eq]
      have hsub : ∀ i, i ∈ childExamples m false r.examples → i ∈ r.examples := fun i hi => (List.mem_filter.1 hi).1
      have hsr : subU32 r.exampleCount v.count = subU32 n.exampleCount v.count := by rw [h.cnt]
      rw [hsr]
      rw [h.sum]
      refine .ok ⟨nodeRel_of rfl rl _ _ _ (by rw [il, h.id]; rfl) ⟨hlc, ?_, ?_, ne1⟩,
        nodeRel_of rfl rr _ _ _ (by rw [ir, h.id]; rfl) ⟨hrc, ?_, ?_, ne2⟩⟩
      · have := hok.small
        have h3 : (childExamples m false r.examples).length ≤ r.examples.length := by
          unfold childExamples; exact List.length_filter_le _ _
        exact Nat.lt_of_le_of_lt h3 this
      · intro fs' js' f b v' m' a1 a2 a3 a4 a5
        obtain ⟨m2, g1, g2⟩ := refHists_at ehL a1 a2 a3
        rw [a5] at g1
        cases g1
        change histAt hL f b = .ok v' at a4
        rw [g2] at a4
        cases a4
        exact refHist_count _ _ _ _ _ _ _
      · have := hok.small
        have h3 : (childExamples m true r.examples).length ≤ r.examples.length := by
          unfold childExamples; exact List.length_filter_le _ _
        exact Nat.lt_of_le_of_lt h3 this
      · intro fs' js' f b v' m' a1 a2 a3 a4 a5
        change histAt (subHists F r.hists hL) f b = .ok v' at a4
        obtain ⟨x, y, b1, b2, rfl⟩ := histAt_sub a4
        have hx := hok.hist fs' js' f b x m' a1 a2 a3 b1 a5
        obtain ⟨m2, g1, g2⟩ := refHists_at ehL a1 a2 a3
        rw [a5] at g1
        cases g1
        rw [g2] at b2
        cases b2
        have hsum := childExamples_filter m m' r.examples
        have hle : (r.examples.filter (Spec.bitAt m')).length ≤ r.examples.length := List.length_filter_le _ _
        have := hok.small
        unfold HistVal.sub
        simp only []
        rw [refHist_count, hx, subU32_of_le (by omega) (by omega)]
        omega

/-- Related states: the same tree and predictions, nodes with the same content. -/
structure StateRel (w : Nat) (ds : Dataset) (codes : List Nat) (a : State) (b : RefState) : Prop where
  tree : a.tree = b.tree
  obj : a.obj = b.obj
  stack : List.Forall₂ (NodeRel w ds codes) a.stack b.stack

theorem expand_sim (hw : validWidth w) (hn : ds.nactiveExamples ≤ 2 ^ 32 - 256) (hM : MasksOk ds)
    (hmin : 1 ≤ cfg.minExamplesLeaf) {n : Node} {r : RefNode} (h : NodeRel w ds codes n r) {a : State}
    {b : RefState} (hab : StateRel w ds codes a b) :
    Out.Sim (StateRel w ds codes) (expand F cfg ds w n a) (Spec.refExpand F cfg ds w codes r b) := by
  unfold expand Spec.refExpand
  rw [← h.sum, ← h.cnt, ← h.hists]
  apply Out.Sim.same
  intro s hs
  cases hne : s.crit.isNone with
  | true =>
    simp only [if_true]
    unfold leafValue
    rw [h.rep.itemsAll, Out.ok_bind, hab.obj, hab.tree, h.id]
    simp only [Out.bind_assoc]
    apply Out.Sim.same
    intro lv _
    apply Out.Sim.same
    intro t _
    exact .ok ⟨rfl, rfl, hab.stack⟩
  | false =>
    simp only [Bool.false_eq_true, if_false]
    have hid : Tree.leftChild n.nodeId = 2 * r.nodeId + 1 := by unfold Tree.leftChild; rw [h.id]
    have hidr : Tree.rightChild n.nodeId = 2 * r.nodeId + 2 := by unfold Tree.rightChild; rw [h.id]
    rw [hid, hab.tree, hab.obj]
    by_cases hmax : b.tree.isMaxLeafNode (2 * r.nodeId + 1) = true
    · rw [hmax]
      simp only [Bool.not_true, Bool.false_eq_true, if_false]
      unfold childLeafValues
      simp only [Out.bind_assoc]
      apply Out.Sim.same
      intro m hm
      have hml := hM _ _ _ hm
      rw [h.rep.itemsLeft hml, Out.ok_bind, h.rep.itemsRight hml]
      simp only [Out.ok_bind]
      apply Out.Sim.same
      intro lv _
      apply Out.Sim.same
      intro rv _
      rw [hid, hidr]
      apply Out.Sim.same
      intro t1 _
      apply Out.Sim.same
      intro t2 _
      simp only [Out.ok_bind, Out.pure_eq, h.id]
      apply Out.Sim.same
      intro t3 _
      exact .ok ⟨rfl, rfl, hab.stack⟩
    · have hmax : b.tree.isMaxLeafNode (2 * r.nodeId + 1) = false := by simpa using hmax
      rw [hmax]
      simp only [Bool.not_false, if_true]
      apply Out.Sim.bind (childNodes_sim hw hn hM hmin _ h hs hne)
      rintro p q ⟨hp, hq⟩
      rw [h.id]
      apply Out.Sim.same
      intro t _
      exact .ok ⟨rfl, rfl, .cons hp (.cons hq hab.stack)⟩

theorem loop_sim (hw : validWidth w) (hn : ds.nactiveExamples ≤ 2 ^ 32 - 256) (hM : MasksOk ds)
    (hmin : 1 ≤ cfg.minExamplesLeaf) : ∀ (fuel : Nat) {a : State} {b : RefState}, StateRel w ds codes a b →
    Out.Sim (Option.Rel (StateRel w ds codes)) (loop F cfg ds w fuel a) (Spec.refLoop F cfg ds w codes fuel b) := by
  intro fuel
  induction fuel with
  | zero =>
    intro a b hab
    unfold loop Spec.refLoop
    have hst := hab.stack
    rcases ha : a.stack with _ | ⟨n, rest⟩ <;> rcases hb : b.stack with _ | ⟨r, rest'⟩ <;> rw [ha, hb] at hst
    · exact .ok (.some hab)
    · cases hst
    · cases hst
    · exact .ok .none
  | succ fuel ih =>
    intro a b hab
    unfold loop Spec.refLoop
    have hst := hab.stack
    rcases ha : a.stack with _ | ⟨n, rest⟩ <;> rcases hb : b.stack with _ | ⟨r, rest'⟩ <;> rw [ha, hb] at hst
    · exact .ok (.some hab)
    · cases hst
    · cases hst
    · cases hst with
      | cons h1 h2 =>
        simp only []
        apply Out.Sim.bind (expand_sim hw hn hM hmin h1 (a := { a with stack := rest })
          (b := { b with stack := rest' }) ⟨hab.tree, hab.obj, h2⟩)
        intro a' b' hab'
        exact ih hab'

end Learner
end BitBoost
