import Verif.Model.Cli
import Verif.Lemmas.CApi
/-! Helper lemmas: the command line program. -/
namespace BitBoost
open Spec

namespace FP

theorem add_comm (F : FP) (a b : Num) : F.add a b = F.add b a := by
  cases a <;> cases b <;> simp [FP.add, _root_.add_comm]

/-- The result of an addition is not changed by another rounding. -/
theorem one_mul_add (F : FP) (a b : Num) : F.mul (.fin 1) (F.add a b) = F.add a b := by
  have key : ∀ x : Num, (∀ q, x = .fin q → F.rnd q = .fin q) → F.mul (.fin 1) x = x := by
    intro x hx
    cases x with
    | fin q => simp only [FP.mul, one_mul]; exact hx q rfl
    | pinf => rfl
    | ninf => rfl
    | nan => rfl
  apply key
  intro q hq
  cases a <;> cases b <;> simp only [FP.add] at hq <;> first | exact F.idem _ _ hq | cases hq

theorem add_zero_of {F : FP} {q : ℚ} (h : F.rnd q = .fin q) : F.mul (.fin 1) (F.add (.fin q) (.fin 0)) = .fin q := by
  rw [one_mul_add]
  simp only [FP.add, _root_.add_zero]
  exact h

end FP

/-- What the learner leaves alone in a tree, and its values: finite numbers of the floating point type. -/
structure PlainTree (F : FP) (t : Tree) : Prop where
  shrinkage : t.shrinkage = .fin 1
  bias : t.bias = .fin 0
  vals : ∀ v ∈ t.nodeValues, ∃ q, v = .fin q ∧ F.rnd q = .fin q

namespace Tree

variable {F : FP} {t t' : Tree}

theorem new_plain {depth : Nat} {sc : List (List Nat)} (h : Tree.new depth sc = .ok t) : PlainTree F t := by
  unfold Tree.new at h
  obtain ⟨_, _, h⟩ := Out.bind_eq_ok.1 h
  simp only [Out.pure_eq, Out.ok.injEq] at h
  subst h
  refine ⟨rfl, rfl, ?_⟩
  intro v hv
  rw [(List.mem_replicate.1 hv).2]
  exact ⟨0, rfl, by simpa using F.int 0 (by norm_num)⟩

theorem setValue_plain {n : Nat} {a b : Num} (ht : PlainTree F t) (h : t.setValue n (F.mul a b) = .ok t') :
    PlainTree F t' := by
  unfold Tree.setValue at h
  obtain ⟨_, hf, h⟩ := Out.bind_eq_ok.1 h
  obtain ⟨_, _, h⟩ := Out.bind_eq_ok.1 h
  simp only [Out.pure_eq, Out.ok.injEq] at h
  subst h
  refine ⟨ht.shrinkage, ht.bias, ?_⟩
  intro v hv
  rcases List.mem_or_eq_of_mem_set hv with h1 | rfl
  · exact ht.vals v h1
  · have := assert_ok.1 hf
    cases e : F.mul a b with
    | fin q => exact ⟨q, rfl, Learner.mul_rounded e⟩
    | pinf => rw [e] at this; cases this
    | ninf => rw [e] at this; cases this
    | nan => rw [e] at this; cases this

theorem splitNode_plain {n : Nat} {c : SplitCrit} (ht : PlainTree F t) (h : t.splitNode n c = .ok t') :
    PlainTree F t' := by
  unfold Tree.splitNode at h
  cases hn : t.splitCrits[n]? with
  | none => rw [hn] at h; cases h
  | some old =>
    rw [hn] at h
    simp only at h
    obtain ⟨_, _, h⟩ := Out.bind_eq_ok.1 h
    obtain ⟨_, _, h⟩ := Out.bind_eq_ok.1 h
    obtain ⟨_, _, h⟩ := Out.bind_eq_ok.1 h
    simp only [Out.pure_eq, Out.ok.injEq] at h
    subst h
    exact ⟨ht.shrinkage, ht.bias, ht.vals⟩

theorem leafFrom_bias (t : Tree) (b : Num) (d : Data) (i : Nat) : ∀ (k n : Nat), t.splitCrits.length - n ≤ k →
    (t.setBias b).leafFrom d i n = t.leafFrom d i n := by
  intro k
  induction k with
  | zero =>
    intro n h
    rw [leafFrom.eq_1 (t.setBias b) d i n, leafFrom.eq_1 t d i n]
    have h1 : ¬ n < (t.setBias b).splitCrits.length := by simp only [setBias]; omega
    have h2 : ¬ n < t.splitCrits.length := by omega
    rw [dif_neg h1, dif_neg h2]
  | succ k ih =>
    intro n h
    rw [leafFrom.eq_1 (t.setBias b) d i n, leafFrom.eq_1 t d i n]
    by_cases hl : n < t.splitCrits.length
    · have hl' : n < (t.setBias b).splitCrits.length := hl
      rw [dif_pos hl, dif_pos hl']
      have e1 : (t.setBias b).splitCrits[n] = t.splitCrits[n] := rfl
      have e2 : (t.setBias b).supercats = t.supercats := rfl
      rw [e1, e2, ih (leftChild n) (by unfold leftChild; omega), ih (rightChild n) (by unfold rightChild; omega)]
      rfl
    · have hl' : ¬ n < (t.setBias b).splitCrits.length := hl
      rw [dif_neg hl, dif_neg hl']

/-- Predicting with the bias in the tree and with the bias in the ensemble is the same. -/
theorem predictSingle_bias {t : Tree} (ht : PlainTree F t) (b : Num) (d : Data) (i : Nat) :
    (t.setBias b).predictSingle F d i = (t.predictSingle F d i >>= fun p => .ok (F.add b p)) := by
  unfold predictSingle predictLeafId
  rw [leafFrom_bias t b d i _ 0 (le_refl _)]
  cases t.leafFrom d i 0 with
  | panic => rfl
  | ub => rfl
  | ok l =>
    simp only [Out.ok_bind]
    unfold nodeValue
    simp only [setBias]
    cases hv : t.nodeValues[l]? with
    | none => rfl
    | some v =>
      obtain ⟨q, rfl, hq⟩ := ht.vals v (List.mem_of_getElem? hv)
      simp only [Out.ok_bind, Out.pure_eq, ht.shrinkage, ht.bias]
      rw [FP.one_mul_add, FP.add_zero_of hq, FP.add_comm]

theorem predictLoop_bias {t : Tree} (ht : PlainTree F t) (b : Num) (d : Data) : ∀ (m i : Nat) (z : List Num),
    z.length = m →
    predictLoop F (t.setBias b) d (fun p _ => p) i z =
      predictLoop F t d (fun p a => F.add a p) i (List.replicate m b) := by
  intro m
  induction m with
  | zero =>
    intro i z hz
    rw [List.length_eq_zero_iff.1 hz]
    rfl
  | succ m ih =>
    intro i z hz
    cases z with
    | nil => cases hz
    | cons x z =>
      rw [List.replicate_succ]
      unfold predictLoop
      rw [predictSingle_bias ht, ih (i + 1) z (by simpa using hz)]
      cases t.predictSingle F d i <;> rfl

theorem predict_bias {t : Tree} (ht : PlainTree F t) (b : Num) (d : Data) :
    (t.setBias b).predict F d = (AdditiveTree.predict F ⟨b, [t]⟩ d) := by
  unfold predict AdditiveTree.predict AdditiveTree.predictBuf AdditiveTree.addTrees predictAnd
  have : (List.replicate d.nexamples (Num.fin 0)).map (fun _ => b) = List.replicate d.nexamples b := by simp
  simp only [this, List.length_replicate, decide_true, Out.assert_true, Out.ok_bind]
  rw [predictLoop_bias ht b d d.nexamples 0 _ (by simp)]
  cases predictLoop F t d (fun p a => F.add a p) 0 (List.replicate d.nexamples b) <;> rfl

end Tree

namespace Learner

variable {F : FP} {cfg : Config} {ds : Dataset} {w : Nat}

theorem leafFor_plain {is : List Nat} {o : Objective} {r : Num × Objective} (h : leafFor F ds is o = .ok r) :
    (∃ a b, r.1 = F.mul a b) ∧ r.2.bias = o.bias := by
  unfold leafFor Objective.predictLeafValue Objective.updatePredictions at h
  obtain ⟨_, _, h⟩ := Out.bind_eq_ok.1 h
  obtain ⟨_, _, h⟩ := Out.bind_eq_ok.1 h
  obtain ⟨_, _, h⟩ := Out.bind_eq_ok.1 h
  obtain ⟨_, _, h⟩ := Out.bind_eq_ok.1 h
  cases h
  exact ⟨⟨_, _, rfl⟩, rfl⟩

theorem expand_plain {n : Node} {a a' : State} (h : expand F cfg ds w n a = .ok a') (ht : PlainTree F a.tree) :
    PlainTree F a'.tree ∧ a'.obj.bias = a.obj.bias := by
  unfold expand at h
  obtain ⟨s, hs, h⟩ := Out.bind_eq_ok.1 h
  cases hne : s.crit.isNone with
  | true =>
    rw [hne] at h
    simp only [if_true] at h
    obtain ⟨r, hr, h⟩ := Out.bind_eq_ok.1 h
    cases h
    unfold leafValue at hr
    obtain ⟨_, _, hr⟩ := Out.bind_eq_ok.1 hr
    obtain ⟨x, ex, hr⟩ := Out.bind_eq_ok.1 hr
    obtain ⟨t, e, hr⟩ := Out.bind_eq_ok.1 hr
    cases hr
    obtain ⟨⟨u, v, k⟩, k2⟩ := leafFor_plain ex
    rw [k] at e
    exact ⟨Tree.setValue_plain ht e, k2⟩
  | false =>
    rw [hne] at h
    simp only [Bool.false_eq_true, if_false] at h
    split at h
    · obtain ⟨ch, _, h⟩ := Out.bind_eq_ok.1 h
      obtain ⟨t, e, h⟩ := Out.bind_eq_ok.1 h
      cases h
      exact ⟨Tree.splitNode_plain ht e, rfl⟩
    · obtain ⟨r, hr, h⟩ := Out.bind_eq_ok.1 h
      obtain ⟨t, e, h⟩ := Out.bind_eq_ok.1 h
      cases h
      unfold childLeafValues at hr
      obtain ⟨_, _, hr⟩ := Out.bind_eq_ok.1 hr
      obtain ⟨_, _, hr⟩ := Out.bind_eq_ok.1 hr
      obtain ⟨x, ex, hr⟩ := Out.bind_eq_ok.1 hr
      obtain ⟨_, _, hr⟩ := Out.bind_eq_ok.1 hr
      obtain ⟨y, ey, hr⟩ := Out.bind_eq_ok.1 hr
      obtain ⟨t1, e1, hr⟩ := Out.bind_eq_ok.1 hr
      obtain ⟨t2, e2, hr⟩ := Out.bind_eq_ok.1 hr
      cases hr
      obtain ⟨⟨u, v, k⟩, k2⟩ := leafFor_plain ex
      obtain ⟨⟨u', v', l⟩, l2⟩ := leafFor_plain ey
      rw [k] at e1
      rw [l] at e2
      exact ⟨Tree.splitNode_plain (Tree.setValue_plain (Tree.setValue_plain ht e1) e2) e, l2.trans k2⟩

theorem loop_plain : ∀ (fuel : Nat) {a a' : State}, loop F cfg ds w fuel a = .ok (some a') → PlainTree F a.tree →
    PlainTree F a'.tree ∧ a'.obj.bias = a.obj.bias
  | 0, a, a', h, ht => by
      unfold loop at h
      split at h
      · cases h; exact ⟨ht, rfl⟩
      · cases h
  | fuel + 1, a, a', h, ht => by
      unfold loop at h
      split at h
      · cases h; exact ⟨ht, rfl⟩
      · obtain ⟨a1, e, h⟩ := Out.bind_eq_ok.1 h
        obtain ⟨h1, h2⟩ := expand_plain e ht
        obtain ⟨h3, h4⟩ := loop_plain fuel h h1
        exact ⟨h3, h4.trans h2⟩

theorem outOfBag_bias {t : Tree} {o o' : Objective} (h : outOfBag F ds t o = .ok o') : o'.bias = o.bias := by
  have key : ∀ (is : List Nat) (o : Objective), outOfBagLoop F ds.data t is o = .ok o' → o'.bias = o.bias := by
    intro is
    induction is with
    | nil => intro o h; cases h; rfl
    | cons i is ih =>
      intro o h
      unfold outOfBagLoop at h
      obtain ⟨p, _, h⟩ := Out.bind_eq_ok.1 h
      obtain ⟨o1, e1, h⟩ := Out.bind_eq_ok.1 h
      rw [ih o1 h]
      unfold Objective.updateOutOfBag at e1
      split at e1
      · cases e1
      · obtain ⟨_, _, e1⟩ := Out.bind_eq_ok.1 e1
        cases e1
        rfl
  unfold outOfBag at h
  split at h
  · obtain ⟨is, _, h⟩ := Out.bind_eq_ok.1 h
    exact key is o h
  · cases h; rfl

theorem train_plain {sc : List (List Nat)} {o : Objective} {fuel : Nat} {t : Tree} {o' : Objective}
    (h : train F cfg ds sc o fuel = .ok (some (t, o'))) : PlainTree F t ∧ o'.bias = o.bias := by
  unfold train start at h
  obtain ⟨w, _, h⟩ := Out.bind_eq_ok.1 h
  obtain ⟨st, e, h⟩ := Out.bind_eq_ok.1 h
  obtain ⟨r, e2, h⟩ := Out.bind_eq_ok.1 h
  obtain ⟨t0, e0, e⟩ := Out.bind_eq_ok.1 e
  obtain ⟨root, _, e⟩ := Out.bind_eq_ok.1 e
  cases e
  cases r with
  | none => simp at h
  | some st' =>
    obtain ⟨o2, e3, h⟩ := Out.bind_eq_ok.1 h
    cases h
    obtain ⟨h1, h2⟩ := loop_plain fuel e2 (Tree.new_plain e0)
    exact ⟨h1, (outOfBag_bias e3).trans h2⟩

end Learner

namespace Cli

variable {E : Env}

/-- A single tree is trained exactly if one round of boosting is, and it predicts the same. -/
theorem singleTree_iff (cfg : Config) (d : Data) (o : Objective) (ms : List Metric) (h1 : cfg.niterations = 1)
    (f : Data → Out (List Num)) :
    (∃ t, singleTree E cfg d o = .ok t ∧ t.predict E.F = f) ↔
      ∃ b, Booster.run E.F E.M cfg d (E.seed cfg.randomSeed) ms o = .ok b ∧ b.ensemble.predict E.F = f := by
  constructor
  · rintro ⟨t, h, rfl⟩
    unfold singleTree at h
    obtain ⟨ts, e1, h⟩ := Out.bind_eq_ok.1 h
    obtain ⟨o1, e2, h⟩ := Out.bind_eq_ok.1 h
    obtain ⟨o2, e3, h⟩ := Out.bind_eq_ok.1 h
    obtain ⟨ds0, e4, h⟩ := Out.bind_eq_ok.1 h
    obtain ⟨ds, e5, h⟩ := Out.bind_eq_ok.1 h
    obtain ⟨r, e6, h⟩ := Out.bind_eq_ok.1 h
    simp only [Out.pure_eq, Out.ok.injEq] at h
    subst h
    obtain ⟨p1, p2⟩ := Learner.train_plain (Booster.learnTree_ok e6)
    obtain ⟨_, _, u3, _⟩ := Booster.update_same e3
    refine ⟨{ dataset := ds, objective := r.2, iterCount := 1, ensemble := ⟨o1.bias, [r.1]⟩,
              printed := Booster.evalMetrics E.F E.M cfg ms 1 ts r.2.predictions }, ?_, ?_⟩
    · unfold Booster.run Booster.new Booster.train Booster.prepare
      rw [h1]
      simp only [Booster.iterate, Booster.trainOneIter, e1, e2, e3, e4, e5, e6, Out.ok_bind, Out.pure_eq]
      rfl
    · funext d'
      simp only
      rw [Tree.predict_bias p1, p2, u3]
  · rintro ⟨b, h, rfl⟩
    unfold Booster.run at h
    obtain ⟨b0, e0, h⟩ := Out.bind_eq_ok.1 h
    obtain ⟨ds0, e1, rfl⟩ := Booster.new_ok e0
    unfold Booster.train at h
    obtain ⟨_, _, h⟩ := Out.bind_eq_ok.1 h
    obtain ⟨b1, e2, h⟩ := Out.bind_eq_ok.1 h
    obtain ⟨ts, o1, e3, e4, rfl⟩ := Booster.prepare_ok e2
    rw [h1] at h
    unfold Booster.iterate at h
    obtain ⟨b2, e5, h⟩ := Out.bind_eq_ok.1 h
    unfold Booster.iterate at h
    cases h
    unfold Booster.trainOneIter at e5
    obtain ⟨ts', f1, e5⟩ := Out.bind_eq_ok.1 e5
    rw [e3] at f1
    cases f1
    obtain ⟨o2, f2, e5⟩ := Out.bind_eq_ok.1 e5
    obtain ⟨ds, f3, e5⟩ := Out.bind_eq_ok.1 e5
    obtain ⟨r, f4, e5⟩ := Out.bind_eq_ok.1 e5
    simp only at f2 f3
    cases e5
    obtain ⟨p1, p2⟩ := Learner.train_plain (Booster.learnTree_ok f4)
    obtain ⟨_, _, u3, _⟩ := Booster.update_same f2
    refine ⟨r.1.setBias r.2.bias, ?_, ?_⟩
    · unfold singleTree
      simp only at e4
      simp only [e3, e4, f2, e1, f3, f4, Out.ok_bind, Out.pure_eq]
    · funext d'
      rw [Tree.predict_bias p1, p2, u3]
      rfl

end Cli
end BitBoost
