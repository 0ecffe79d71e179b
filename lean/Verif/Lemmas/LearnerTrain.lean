import Verif.Lemmas.LearnerSim
import Verif.Lemmas.DatasetInv
/-! Helper lemmas: training with the learner and with the reference learner. -/
namespace BitBoost
namespace Learner
open Spec (RefNode RefState)

variable {F : FP} {cfg : Config} {ds : Dataset} {w : Nat}

theorem activePairs_rows {ps : List (Nat × Nat)} (h : ds.activePairs = .ok ps) :
    ∃ rows : List Nat, rows.length = ds.nactiveExamples ∧ ps = (List.range rows.length).zip rows := by
  unfold Dataset.activePairs at h
  split at h
  · obtain ⟨a, e, h⟩ := Out.bind_eq_ok.1 h
    simp only [Out.pure_eq, Out.ok.injEq] at h
    unfold Dataset.activeExamples at e
    obtain ⟨e1, e2⟩ := Dataset.prefix_ok.1 e
    refine ⟨a, ?_, h.symm⟩
    rw [e2, List.length_take]
    omega
  · simp only [Out.ok.injEq] at h
    refine ⟨List.range ds.nactiveExamples, List.length_range, ?_⟩
    rw [List.length_range, ← h]
    apply List.ext_getElem? 
    intro i
    simp only [List.getElem?_map, List.zip]
    by_cases hi : i < ds.nactiveExamples
    · rw [List.getElem?_zipWith]
      simp [hi]
    · rw [List.getElem?_zipWith]
      simp [hi]

theorem zeroBlocks_len {n : Nat} (hn : 0 < n) : Blocks.zeroBlocks n = .ok (List.replicate n BitBlock.zeros) := by
  unfold Blocks.zeroBlocks
  rw [if_pos hn]

theorem width_valid (h : width cfg = .ok w) : validWidth w := by
  unfold width at h
  split at h
  · rename_i hw
    cases h
    exact hw
  · cases h

theorem refRoot_ok {bounds : Num × Num} {codes : List Nat} {r : RefNode}
    (h : Spec.refRoot F cfg ds w bounds codes = .ok r) (hn : 0 < ds.nactiveExamples)
    (hn2 : ds.nactiveExamples < 2 ^ 32) : RefOk ds r := by
  unfold Spec.refRoot at h
  obtain ⟨hs, e, h⟩ := Out.bind_eq_ok.1 h
  simp only [Out.pure_eq, Out.ok.injEq] at h
  subst h
  refine ⟨by simp, by simpa using hn2, ?_, ?_⟩
  · intro fs js f b v m a1 a2 a3 a4 a5
    obtain ⟨m2, g1, g2⟩ := refHists_at e a1 a2 a3
    rw [a5] at g1
    cases g1
    change histAt hs f b = .ok v at a4
    rw [g2] at a4
    cases a4
    exact refHist_count _ _ _ _ _ _ _
  · intro h0
    have : (List.range ds.nactiveExamples).length = 0 := by
      change List.range ds.nactiveExamples = [] at h0
      rw [h0]; rfl
    simp at this
    omega

theorem root_sim (hw : validWidth w) (hn : ds.nactiveExamples ≤ 2 ^ 32 - 256) (hM : MasksOk ds) (o : Objective)
    {α β : Type} {S : α → β → Prop} {f : Node → Out α} {g : List Nat → RefNode → Out β}
    (hf : ∀ codes a b, NodeRel w ds codes a b → Spec.refRoot F cfg ds w o.bounds codes = .ok b →
      Out.Sim S (f a) (g codes b)) :
    Out.Sim S (rootNode F cfg ds w o >>= f) (do
      Out.assert (decide (0 < ds.nactiveExamples))
      let ps ← ds.activePairs
      let codes ← Spec.gradCodes F w o.bounds o.gradients ps
      let root ← Spec.refRoot F cfg ds w o.bounds codes
      g codes root) := by
  have hwp : 0 < w := by rcases hw with rfl | rfl | rfl | rfl <;> omega
  unfold rootNode
  simp only [BitBlock.blocksRequiredFor_eq]
  by_cases h0 : ds.nactiveExamples = 0
  · have e1 : Blocks.zeroBlocks ((ds.nactiveExamples + 255) / 256 * w) = .panic := by
      rw [h0]; simp [Blocks.zeroBlocks]
    have e2 : Out.assert (decide (0 < ds.nactiveExamples)) = .panic := by
      rw [h0]; rfl
    simp only [e1, e2, panic_bind]
    exact .panic
  · have hpos : 0 < ds.nactiveExamples := by omega
    have hL : 0 < (ds.nactiveExamples + 255) / 256 := by omega
    have e1 := zeroBlocks_len (Nat.mul_pos hL hwp)
    have e2 : Out.assert (decide (0 < ds.nactiveExamples)) = .ok () := by
      rw [decide_eq_true hpos]; rfl
    obtain ⟨mask, em, hml, _⟩ := Blocks.oneBits_spec ds.nactiveExamples hpos
    have hbm : 0 < Blocks.blockLen 32 mask := by unfold Blocks.blockLen; rw [hml]; omega
    obtain ⟨idx, ei, _, _⟩ := Props.C04_from_iter 32 (by omega) (by omega) (Blocks.blockLen 32 mask)
      ((List.range (Blocks.blockLen 32 mask)).map (BitVec.ofNat 32)) (by omega)
    have e3 : Out.assert (decide (ds.nactiveExamples < 2 ^ 32 - 1)) = .ok () := by
      rw [decide_eq_true (by omega)]; rfl
    simp only [e1, e2, e3, em, ei, Out.ok_bind, Out.bind_assoc]
    apply Out.Sim.same
    intro ps hps
    obtain ⟨rows, hr, hz⟩ := activePairs_rows hps
    have hz' : ps = (List.range' 0 rows.length).zip rows := by rw [hz, List.range_eq_range']
    have hg : (List.replicate ((ds.nactiveExamples + 255) / 256 * w) BitBlock.zeros).length =
      (ds.nactiveExamples + 255) / 256 * w := List.length_replicate
    generalize List.replicate ((ds.nactiveExamples + 255) / 256 * w) BitBlock.zeros = g0 at *
    have hfill := fillGrads_spec F hw o.bounds o.gradients rows 0 0 g0
      (by rw [slots_len hw hg]; omega) ps hz'
    split at hfill
    · rename_i cs ecs
      obtain ⟨hcl, bs', e4, hbl, hv, _⟩ := hfill
      rw [e4, ecs]
      simp only [Out.ok_bind, Nat.zero_add]
      cases hh : newHists ds.data with
      | panic =>
        unfold Spec.refRoot
        simp only [refHists_panic F cfg w _ _ _ hh]
        exact .panic
      | ub =>
        unfold Spec.refRoot
        simp only [refHists_ub F cfg w _ _ _ hh]
        exact .ub
      | ok hs0 =>
        simp only [Out.ok_bind]
        have hrep : ∀ node : Node, node.compressed = false → node.mask = mask → node.idx = idx →
            node.grads = bs' → Rep w ((ds.nactiveExamples + 255) / 256) cs node (List.range ds.nactiveExamples) := by
          intro node q1 q2 q3 q4
          refine root_rep hw hpos hn em ei (by rw [hbl, hg]) ?_ node q1 q2 q3 q4
          intro t ht
          have := hv t (by omega)
          rwa [Nat.zero_add] at this
        rw [buildHists_eq (n := _) hw hn hM o.bounds (hrep _ rfl rfl rfl rfl) (by rw [hh])]
        have hroot : ∀ hs, Spec.refHists F cfg ds w o.bounds cs (List.range ds.nactiveExamples) = .ok hs →
            Spec.refRoot F cfg ds w o.bounds cs = .ok ⟨0, List.range ds.nactiveExamples, ds.nactiveExamples,
              BitSlice.linproj F w (F.ofNat cs.sum) (F.ofNat ds.nactiveExamples) o.bounds.1 o.bounds.2, hs⟩ := by
          intro hs ehs
          unfold Spec.refRoot
          simp only [ehs, Out.ok_bind, Out.pure_eq]
        have hbind : (Spec.refRoot F cfg ds w o.bounds cs >>= g cs) =
            (Spec.refHists F cfg ds w o.bounds cs (List.range ds.nactiveExamples) >>= fun hs =>
              g cs ⟨0, List.range ds.nactiveExamples, ds.nactiveExamples,
              BitSlice.linproj F w (F.ofNat cs.sum) (F.ofNat ds.nactiveExamples) o.bounds.1 o.bounds.2, hs⟩) := by
          unfold Spec.refRoot
          simp only [Out.bind_assoc, Out.ok_bind, Out.pure_eq]
        rw [hbind, Out.bind_assoc]
        apply Out.Sim.same
        intro hs ehs
        rw [Out.ok_bind]
        have hok := refRoot_ok (hroot hs ehs) hpos (by omega)
        exact hf cs _ _ ⟨hrep _ rfl rfl rfl rfl, rfl, rfl, rfl, rfl, hok⟩ (hroot hs ehs)
    · rename_i ecs
      rw [ecs, hfill]
      exact .panic
    · exact hfill.elim

theorem train_eq (hn : ds.nactiveExamples ≤ 2 ^ 32 - 256) (hM : MasksOk ds) (hmin : 1 ≤ cfg.minExamplesLeaf)
    (supercats : List (List Nat)) (o : Objective) (fuel : Nat) :
    train F cfg ds supercats o fuel = Spec.refTrain F cfg ds supercats o fuel := by
  apply Out.Sim.eq
  unfold train Spec.refTrain start
  apply Out.Sim.same
  intro w hw
  have hvw := width_valid hw
  simp only [Out.bind_assoc]
  apply Out.Sim.same
  intro t _
  refine root_sim hvw hn hM o ?_
  intro codes a b hab _
  simp only [Out.pure_eq, Out.ok_bind]
  refine Out.Sim.bind (loop_sim hvw hn hM hmin fuel (a := ⟨t, o, [a]⟩) (b := ⟨t, o, [b]⟩)
    ⟨rfl, rfl, .cons hab .nil⟩) ?_
  intro x y hxy
  cases hxy with
  | none => exact .ok rfl
  | some h =>
    simp only []
    rw [h.tree, h.obj]
    exact Out.Sim.refl (fun _ => rfl) _

/-- The masks of a data set in use. -/
theorem _root_.BitBoost.Spec.Updated.masksOk {d : Data} {rng : Rng} {k : Nat}
    (h : Spec.Updated F cfg d rng k ds) : MasksOk ds := by
  have hi := h.inv
  intro f b m e
  unfold Dataset.getBitvec at e
  obtain ⟨bvs, e1, e⟩ := Out.bind_eq_ok.1 e
  exact hi.lens f bvs (at?_ok.1 e1) m (List.mem_of_getElem? (at?_ok.1 e))

end Learner
end BitBoost
