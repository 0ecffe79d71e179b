import Verif.Lemmas.Shift
import Verif.Lemmas.Units
/-! Helper lemmas for runs on two data sets that differ only in the targets, where the values of the leaves of one run are
computed from those of the other; the objective `l1` with targets in other units. -/
namespace BitBoost
open Spec Dataset Learner Objective

/-- The same tree with other values. -/
def Tree.withValues (φ : Num → Num) (t : Tree) : Tree := { t with nodeValues := t.nodeValues.map φ }

/-- What the map of leaf values must satisfy. -/
structure ValueMap (F : FP) (φ : Num → Num) : Prop where
  zero : φ (.fin 0) = .fin 0
  finite : ∀ v, (φ v).isFinite = v.isFinite
  single : ∀ v, F.mul (.fin 1) (F.add (φ v) (.fin 0)) = φ (F.mul (.fin 1) (F.add v (.fin 0)))

/-- The objectives of two runs, with targets `ts` and `ts'`, stay related when leaves get values, and the values of the leaves
are computed by `φ`. -/
structure LeafSim (F : FP) (φ : Num → Num) (ts ts' : List Num) (R : Objective → Objective → Prop) : Prop where
  leaf : ∀ {o o'}, R o o' → ∀ ex : List Nat, Out.Leads (fun a b => b.1 = φ a.1 ∧ R a.2 b.2) (o.predictLeafValue F ts ex)
    (o'.predictLeafValue F ts' ex)
  oob : ∀ {o o'}, R o o' → ∀ (i : Nat) (v : Num), Out.Leads R (o.updateOutOfBag F i v) (o'.updateOutOfBag F i (φ v))

/-- … they are related before and after `update`, and have the same gradients. -/
structure ValueSim (F : FP) (M : Libm) (φ : Num → Num) (ts ts' : List Num) (R₀ R : Objective → Objective → Prop) : Prop
    extends LeafSim F φ ts ts' R where
  update : ∀ {o o'}, R₀ o o' → Out.Leads R (o.update F M ts) (o'.update F M ts')
  weak : ∀ {o o'}, R o o' → R₀ o o'
  grads : ∀ {o o'}, R o o' → o'.gradients = o.gradients
  bounds : ∀ {o o'}, R o o' → o'.bounds = o.bounds

section
variable {F : FP} {cfg : Config} {d d' : Data} {ts ts' : List Num} {ds : Dataset} {M : Libm} {φ : Num → Num}
  {R₀ R : Objective → Objective → Prop}

theorem leafFor_scale (h : SameFeatures d d' ts ts') (hR : LeafSim F φ ts ts' R) (hd : ds.data = d) {o o' : Objective}
    (ho : R o o') (is : List Nat) :
    Out.Leads (fun a b => b.1 = φ a.1 ∧ R a.2 b.2) (leafFor F ds is o) (leafFor F (ds.on d') is o') := by
  unfold leafFor
  rw [leafRows_on, show (ds.on d').data = d' from rfl, hd, h.targets.1, h.targets.2]
  refine .same fun rows _ => ?_
  simp only [Out.ok_bind]
  exact hR.leaf ho rows

/-- No test of the tree looks at the target, and the tree adds nothing to the values of its leaves. -/
def BareTree (d : Data) (t : Tree) : Prop := NoTarget d t ∧ t.shrinkage = .fin 1 ∧ t.bias = .fin 0

theorem setValue_scale (hφ : ValueMap F φ) {t : Tree} (ht : BareTree d t) (n : Nat) (v : Num) :
    Out.Leads (fun a b => b = a.withValues φ ∧ BareTree d a) (t.setValue n v) ((t.withValues φ).setValue n (φ v)) := by
  unfold Tree.setValue
  rw [hφ.finite, show (t.withValues φ).nodeValues = t.nodeValues.map φ from rfl, List.length_map]
  refine .same fun _ _ => .same fun _ _ => Out.Leads.ok ⟨?_, ht⟩
  simp only [Tree.withValues, List.map_set]

theorem splitNode_scale {t : Tree} (ht : BareTree d t) (n : Nat) {c : SplitCrit} (hc : c.featureId ≠ d.nfeatures) :
    Out.Leads (fun a b => b = a.withValues φ ∧ BareTree d a) (t.splitNode n c) ((t.withValues φ).splitNode n c) := by
  intro a e
  have h1 := splitNode_noTarget ht.1 hc e
  unfold Tree.splitNode at e ⊢
  rw [show (t.withValues φ).splitCrits = t.splitCrits from rfl, show (t.withValues φ).isMaxLeafNode n = t.isMaxLeafNode n from rfl]
  cases hx : t.splitCrits[n]? with
  | none => rw [hx] at e; cases e
  | some old =>
    rw [hx] at e
    simp only at e ⊢
    obtain ⟨u1, e1, e⟩ := Out.bind_eq_ok.1 e
    obtain ⟨u2, e2, e⟩ := Out.bind_eq_ok.1 e
    obtain ⟨u3, e3, e⟩ := Out.bind_eq_ok.1 e
    simp only [Out.pure_eq, Out.ok.injEq] at e
    refine ⟨a.withValues φ, ?_, rfl, h1, ?_, ?_⟩
    · refine Out.bind_eq_ok.2 ⟨u1, e1, Out.bind_eq_ok.2 ⟨u2, e2, Out.bind_eq_ok.2 ⟨u3, e3, ?_⟩⟩⟩
      rw [← e]
      rfl
    · rw [← e]; exact ht.2.1
    · rw [← e]; exact ht.2.2

/-- Two states of the learner. -/
structure StateScale (d : Data) (φ : Num → Num) (R : Objective → Objective → Prop) (s s' : State) : Prop where
  tree : s'.tree = s.tree.withValues φ
  obj : R s.obj s'.obj
  stack : s'.stack = s.stack
  free : BareTree d s.tree

theorem leafValue_scale (h : SameFeatures d d' ts ts') (hφ : ValueMap F φ) (hR : LeafSim F φ ts ts' R) (hd : ds.data = d)
    {o o' : Objective} (ho : R o o') (n : Node) {t : Tree} (ht : BareTree d t) :
    Out.Leads (fun a b => b.1 = a.1.withValues φ ∧ R a.2 b.2 ∧ BareTree d a.1) (Learner.leafValue F ds n t o)
      (Learner.leafValue F (ds.on d') n (t.withValues φ) o') := by
  unfold Learner.leafValue
  refine .same fun is _ => (leafFor_scale h hR hd ho is).bind fun a b _ hab => ?_
  rw [hab.1]
  refine (setValue_scale hφ ht _ a.1).bind fun t1 t2 _ h12 => ?_
  exact Out.Leads.ok ⟨h12.1, hab.2, h12.2⟩

theorem childLeafValues_scale (h : SameFeatures d d' ts ts') (hφ : ValueMap F φ) (hR : LeafSim F φ ts ts' R) (hd : ds.data = d)
    {o o' : Objective} (ho : R o o') (n : Node) (s : Split) {t : Tree} (ht : BareTree d t) :
    Out.Leads (fun a b => b.1 = a.1.withValues φ ∧ R a.2 b.2 ∧ BareTree d a.1) (childLeafValues F ds n s t o)
      (childLeafValues F (ds.on d') n s (t.withValues φ) o') := by
  unfold childLeafValues
  rw [show (ds.on d').getBitvec = ds.getBitvec from rfl]
  refine .same fun fm _ => .same fun is _ => (leafFor_scale h hR hd ho is).bind fun a b _ hab => ?_
  refine .same fun js _ => (leafFor_scale h hR hd hab.2 js).bind fun a2 b2 _ hab2 => ?_
  rw [hab.1, hab2.1]
  refine (setValue_scale hφ ht _ _).bind fun t1 t2 _ h12 => ?_
  rw [h12.1]
  refine (setValue_scale hφ h12.2 _ _).bind fun t3 t4 _ h34 => ?_
  exact Out.Leads.ok ⟨h34.1, hab2.2, h34.2⟩

theorem expand_scale (h : SameFeatures d d' ts ts') (hφ : ValueMap F φ) (hR : ValueSim F M φ ts ts' R₀ R) (hd : ds.data = d)
    (hu : ∀ u ∈ ds.useful, u ≠ d.nfeatures) (w : Nat) (n : Node) {s s' : State} (hs : StateScale d φ R s s') :
    Out.Leads (StateScale d φ R) (expand F cfg ds w n s) (expand F cfg (ds.on d') w n s') := by
  obtain ⟨t, o, stack⟩ := s
  obtain ⟨t', o', stack'⟩ := s'
  obtain ⟨h1, ho, h3, ht⟩ := hs
  simp only at h1 ho h3 ht
  subst h1 h3
  unfold expand
  rw [findBestSplit_on h hd hu]
  refine .same fun sp e => ?_
  simp only
  split
  · refine (leafValue_scale h hφ hR.toLeafSim hd ho n ht).bind fun a b _ hab => ?_
    exact Out.Leads.ok ⟨hab.1, hab.2.1, rfl, hab.2.2⟩
  · rename_i hne
    have hf : sp.crit.featureId ≠ d.nfeatures := by
      obtain ⟨fs, js, v, hfs, hjs, hmem, _⟩ := findBestSplit_some e (by simpa using hne)
      exact hu _ (prefix_mem hfs ((mem_histJobs hjs _ _).1 hmem).1)
    rw [show (t.withValues φ).isMaxLeafNode = t.isMaxLeafNode from rfl]
    split
    · rw [childNodes_on h hd, hR.bounds ho]
      refine .same fun ch _ => (splitNode_scale ht _ hf).bind fun t1 t2 _ h12 => ?_
      exact Out.Leads.ok ⟨h12.1, ho, rfl, h12.2⟩
    · refine (childLeafValues_scale h hφ hR.toLeafSim hd ho n sp ht).bind fun a b _ hab => ?_
      rw [hab.1]
      refine (splitNode_scale hab.2.2 _ hf).bind fun t1 t2 _ h12 => ?_
      exact Out.Leads.ok ⟨h12.1, hab.2.1, rfl, h12.2⟩

theorem loop_scale (h : SameFeatures d d' ts ts') (hφ : ValueMap F φ) (hR : ValueSim F M φ ts ts' R₀ R) (hd : ds.data = d)
    (hu : ∀ u ∈ ds.useful, u ≠ d.nfeatures) (w : Nat) : ∀ (fuel : Nat) (s s' : State), StateScale d φ R s s' →
    Out.Leads (Option.Rel (StateScale d φ R)) (loop F cfg ds w fuel s) (loop F cfg (ds.on d') w fuel s')
  | fuel, ⟨t, o, []⟩, ⟨t', o', stack'⟩, hs => by
      have : stack' = [] := hs.stack
      subst this
      unfold loop
      exact Out.Leads.ok (.some hs)
  | 0, ⟨t, o, n :: rest⟩, ⟨t', o', stack'⟩, hs => by
      have : stack' = n :: rest := hs.stack
      subst this
      unfold loop
      exact Out.Leads.ok .none
  | fuel + 1, ⟨t, o, n :: rest⟩, ⟨t', o', stack'⟩, hs => by
      have : stack' = n :: rest := hs.stack
      subst this
      unfold loop
      simp only
      refine Out.Leads.bind (expand_scale h hφ hR hd hu w n ⟨hs.tree, hs.obj, rfl, hs.free⟩) fun a b _ hab => ?_
      exact loop_scale h hφ hR hd hu w fuel a b hab

theorem leafFrom_withValues (t : Tree) (i : Nat) : ∀ k n, t.splitCrits.length - n ≤ k →
    Tree.leafFrom (t.withValues φ) d i n = Tree.leafFrom t d i n
  | k, n, hk => by
      conv_lhs => rw [Tree.leafFrom]
      conv_rhs => rw [Tree.leafFrom]
      simp only [show (t.withValues φ).splitCrits = t.splitCrits from rfl, show (t.withValues φ).supercats = t.supercats from rfl]
      split
      · match k with
        | 0 => omega
        | k + 1 =>
          rw [leafFrom_withValues t i k (Tree.leftChild n) (by unfold Tree.leftChild; omega),
            leafFrom_withValues t i k (Tree.rightChild n) (by unfold Tree.rightChild; omega)]
      · rfl

theorem predictSingle_withValues (hφ : ValueMap F φ) {t : Tree} (ht : t.shrinkage = .fin 1 ∧ t.bias = .fin 0) (i : Nat) :
    Out.Leads (fun a b => b = φ a) (t.predictSingle F d i) ((t.withValues φ).predictSingle F d i) := by
  unfold Tree.predictSingle Tree.predictLeafId
  rw [leafFrom_withValues t i _ _ le_rfl]
  refine .same fun l _ => Out.Leads.bind (R := fun a b => b = φ a) ?_ fun a b _ hab => Out.Leads.ok ?_
  · unfold Tree.nodeValue
    rw [show (t.withValues φ).nodeValues = t.nodeValues.map φ from rfl, List.getElem?_map]
    cases t.nodeValues[l]? with
    | none => intro a e; cases e
    | some v => exact Out.Leads.ok rfl
  · rw [hab, show (t.withValues φ).shrinkage = t.shrinkage from rfl, show (t.withValues φ).bias = t.bias from rfl, ht.1, ht.2]
    exact hφ.single a

theorem outOfBagLoop_scale (h : SameFeatures d d' ts ts') (hφ : ValueMap F φ) (hR : LeafSim F φ ts ts' R) {t : Tree}
    (ht : BareTree d t) : ∀ (is : List Nat) (o o' : Objective), R o o' →
    Out.Leads R (outOfBagLoop F d t is o) (outOfBagLoop F d' (t.withValues φ) is o')
  | [], _, _, ho => Out.Leads.ok ho
  | i :: is, o, o', ho => by
      unfold outOfBagLoop
      rw [predictSingle_on h (t := t.withValues φ) ht.1]
      refine (predictSingle_withValues hφ ht.2 i).bind fun p p' _ hp => ?_
      rw [hp]
      refine (hR.oob ho i p).bind fun a b _ hab => ?_
      exact outOfBagLoop_scale h hφ hR ht is a b hab

theorem train_scale (h : SameFeatures d d' ts ts') (hφ : ValueMap F φ) (hR : ValueSim F M φ ts ts' R₀ R) (hnf : 0 < d.nfeatures)
    (hd : ds.data = d) (hu : ∀ u ∈ ds.useful, u ≠ d.nfeatures) (sc : List (List Nat)) (fuel : Nat) {o o' : Objective} (ho : R o o') :
    Out.Leads (Option.Rel fun a b => b.1 = a.1.withValues φ ∧ R a.2 b.2 ∧ a.1.shrinkage = .fin 1 ∧ a.1.bias = .fin 0)
      (train F cfg ds sc o fuel) (train F cfg (ds.on d') sc o' fuel) := by
  unfold Learner.train
  refine .same fun w _ => ?_
  refine Out.Leads.bind (R := StateScale d φ R) ?_ fun a b _ hab => ?_
  · unfold start
    rw [rootNode_on h hd w (hR.grads ho) (hR.bounds ho)]
    refine Out.Leads.bind (R := fun a b => b = a.withValues φ ∧ BareTree d a) ?_ fun t t' _ htt => ?_
    · unfold Tree.new
      refine .same fun _ _ => Out.Leads.ok ⟨?_, ?_, rfl, rfl⟩
      · simp only [Tree.withValues, List.map_replicate, hφ.zero]
      · intro c hc
        rw [List.eq_of_mem_replicate hc]
        exact hnf.ne
    · refine .same fun root _ => Out.Leads.ok ⟨htt.1, ho, rfl, htt.2⟩
  · refine (loop_scale h hφ hR hd hu w fuel a b hab).bind fun r r' _ hr => ?_
    cases hr with
    | none => exact Out.Leads.ok .none
    | @some s s' hs =>
      simp only
      refine Out.Leads.bind (R := R) ?_ fun a b _ hab => Out.Leads.ok (.some ⟨hs.tree, hab, hs.free.2⟩)
      unfold outOfBag
      rw [show (ds.on d').exampleSampling = ds.exampleSampling from rfl, hs.tree]
      split
      · unfold inactiveExamples
        rw [show (ds.on d').data = d' from rfl, h.nexamples, hd]
        refine Out.Leads.bind (R := Eq) (Out.Leads.of_eq rfl) fun x y _ e => ?_
        subst e
        exact outOfBagLoop_scale h hφ hR.toLeafSim hs.free _ _ _ hs.obj
      · exact Out.Leads.ok hs.obj

/-! ### Whole runs -/

/-- Two boosters. -/
structure BoostScale (d d' : Data) (φ : Num → Num) (R₀ : Objective → Objective → Prop) (b b' : Booster) : Prop where
  data : On d d' b.dataset b'.dataset
  obj : R₀ b.objective b'.objective
  iter : b'.iterCount = b.iterCount
  trees : b'.ensemble.trees = b.ensemble.trees.map (Tree.withValues φ)
  plain : ∀ t ∈ b.ensemble.trees, t.shrinkage = .fin 1 ∧ t.bias = .fin 0
  bias : ∃ o o', R₀ o o' ∧ b.ensemble.bias = o.bias ∧ b'.ensemble.bias = o'.bias

theorem trainOneIter_scale (h : SameFeatures d d' ts ts') (hφ : ValueMap F φ) (hR : ValueSim F M φ ts ts' R₀ R)
    (hnf : 0 < d.nfeatures) {metrics : List Metric} {b b' : Booster} (hb : BoostScale d d' φ R₀ b b') :
    Out.Leads (BoostScale d d' φ R₀) (Booster.trainOneIter F M cfg d metrics b) (Booster.trainOneIter F M cfg d' metrics b') := by
  unfold Booster.trainOneIter
  rw [h.targets.1, h.targets.2]
  simp only [Out.ok_bind]
  refine (hR.update hb.obj).bind fun o o' _ ho => ?_
  refine Out.Leads.bind (R := On d d') ?_ fun ds ds' _ hds => ?_
  · rw [hb.data.eq, hR.grads ho, hR.bounds ho]
    exact update_on h hb.data.data hb.data.useful _ _
  · refine Out.Leads.bind (R := fun a b => b.1 = a.1.withValues φ ∧ R a.2 b.2 ∧ a.1.shrinkage = .fin 1 ∧ a.1.bias = .fin 0) ?_
      fun r r' _ hr => ?_
    · unfold Booster.learnTree
      rw [hds.eq]
      refine (train_scale h hφ hR hnf hds.data hds.useful _ _ ho).bind fun x y _ hxy => ?_
      cases hxy with
      | none => intro a e; cases e
      | some hp => exact Out.Leads.ok hp
    · refine Out.Leads.ok ⟨hds, hR.weak hr.2.1, by simp only [hb.iter], ?_, ?_, hb.bias⟩
      · simp only [AdditiveTree.pushTree, hb.trees, hr.1, List.map_append, List.map_cons, List.map_nil]
      · intro t ht
        simp only [AdditiveTree.pushTree, List.mem_append, List.mem_singleton] at ht
        rcases ht with ht | rfl
        · exact hb.plain t ht
        · exact hr.2.2

theorem iterate_scale (h : SameFeatures d d' ts ts') (hφ : ValueMap F φ) (hR : ValueSim F M φ ts ts' R₀ R) (hnf : 0 < d.nfeatures)
    {metrics : List Metric} : ∀ (n : Nat) (b b' : Booster), BoostScale d d' φ R₀ b b' →
    Out.Leads (BoostScale d d' φ R₀) (Booster.iterate F M cfg d metrics n b) (Booster.iterate F M cfg d' metrics n b')
  | 0, _, _, hb => Out.Leads.ok hb
  | n + 1, b, b', hb => by
      unfold Booster.iterate
      exact (trainOneIter_scale h hφ hR hnf hb).bind fun x y _ hxy => iterate_scale h hφ hR hnf n x y hxy

theorem run_scale (h : SameFeatures d d' ts ts') (hφ : ValueMap F φ) (hR : ValueSim F M φ ts ts' R₀ R) (hnf : 0 < d.nfeatures)
    {metrics : List Metric} {o : Objective} (hinit : Out.Leads R₀ (o.init F M cfg ts) (o.init F M cfg ts')) (rng : Rng) :
    Out.Leads (BoostScale d d' φ R₀) (Booster.run F M cfg d rng metrics o) (Booster.run F M cfg d' rng metrics o) := by
  unfold Booster.run Booster.new
  rw [Out.bind_assoc, Out.bind_assoc]
  refine (new_on h rng).bind fun ds ds' _ hds => ?_
  simp only [Out.pure_eq, Out.ok_bind]
  unfold Booster.train Booster.prepare
  refine Out.Leads.same fun _ _ => ?_
  rw [h.targets.1, h.targets.2]
  simp only [Out.ok_bind]
  refine Out.Leads.bind (R := BoostScale d d' φ R₀) ?_ fun a b _ hab => iterate_scale h hφ hR hnf _ _ _ hab
  refine hinit.bind fun o1 o2 _ ho => Out.Leads.ok ⟨hds, ho, rfl, rfl, ?_, ⟨o1, o2, ho, rfl, rfl⟩⟩
  intro t ht
  cases ht

end

end BitBoost

/-! ### The objective `l1` in other units -/

namespace BitBoost
open Spec Objective

variable {u : ℚ × ℚ}

theorem stretch_isFinite (a : ℚ) (x : Num) : (stretch a x).isFinite = x.isFinite := by cases x <;> rfl

theorem stretch_zero_add (u : ℚ × ℚ) (p v : Num) : FP.exact.add (inUnits u p) (stretch u.1 v) = inUnits u (FP.exact.add p v) := by
  cases p <;> cases v <;> simp only [inUnits, stretch, FP.add, FP.exact]
  congr 1; ring

theorem stretch_mul {a : ℚ} (ha : 0 < a) (x y : Num) : FP.exact.mul x (stretch a y) = stretch a (FP.exact.mul x y) := by
  have h1 : ∀ q : ℚ, (0 < a * q) = (0 < q) := fun q => by rw [mul_pos_iff_of_pos_left ha]
  have h2 : ∀ q : ℚ, (a * q < 0) = (q < 0) := fun q => by rw [mul_neg_iff]; simp [ha, not_lt.2 ha.le]
  have h3 : ∀ s : ℤ, stretch a (FP.infOf s) = FP.infOf s := fun s => by unfold FP.infOf; split <;> [rfl; split <;> rfl]
  have h4 : ∀ q : ℚ, FP.sgn (.fin (a * q)) = FP.sgn (.fin q) := fun q => by simp only [FP.sgn, h1, h2]
  cases x with
  | fin p =>
    cases y with
    | fin q => simp only [stretch, FP.mul, FP.exact]; congr 1; ring
    | nan => rfl
    | pinf => exact (h3 _).symm
    | ninf => exact (h3 _).symm
  | nan => cases y <;> rfl
  | pinf =>
    cases y with
    | fin q =>
      simp only [FP.mul]
      rw [h3, show stretch a (.fin q) = .fin (a * q) from rfl]
      simp only [h4]
    | nan => rfl
    | pinf => rfl
    | ninf => rfl
  | ninf =>
    cases y with
    | fin q =>
      simp only [FP.mul]
      rw [h3, show stretch a (.fin q) = .fin (a * q) from rfl]
      simp only [h4]
    | nan => rfl
    | pinf => rfl
    | ninf => rfl

theorem stretch_valueMap {a : ℚ} (ha : 0 < a) : ValueMap .exact (stretch a) where
  zero := by simp [stretch]
  finite := stretch_isFinite a
  single v := by
    have h : FP.exact.add (stretch a v) (.fin 0) = stretch a (FP.exact.add v (.fin 0)) := by
      cases v <;> simp [stretch, FP.add, FP.exact]
    rw [h, stretch_mul ha]

theorem stretch_eq (a : ℚ) : stretch a = inUnits (a, 0) := by
  funext x
  cases x <;> simp [stretch, inUnits]

theorem units_limits (hu : 0 < u.1) (l : List Num) :
    limitsOf (l.map (inUnits u)) = (inUnits u (limitsOf l).1, inUnits u (limitsOf l).2) := by
  unfold limitsOf
  have h1 : ∀ (l : List Num) (a : Num), (l.map (inUnits u)).foldl (fun a t => Num.min t a) (inUnits u a) =
      inUnits u (l.foldl (fun a t => Num.min t a) a) := by
    intro l
    induction l with
    | nil => intro a; rfl
    | cons x l ih => intro a; simp only [List.map_cons, List.foldl_cons, units_min hu, ih]
  have h2 : ∀ (l : List Num) (a : Num), (l.map (inUnits u)).foldl (fun a t => Num.max t a) (inUnits u a) =
      inUnits u (l.foldl (fun a t => Num.max t a) a) := by
    intro l
    induction l with
    | nil => intro a; rfl
    | cons x l ih => intro a; simp only [List.map_cons, List.foldl_cons, units_max hu, ih]
  exact Prod.ext (h1 l .pinf) (h2 l .ninf)

/-- A histogram in other units. -/
def Binner.rescaled (u : ℚ × ℚ) (b : Binner Nat) : Binner Nat :=
  { b with minValue := inUnits u b.minValue, delta := stretch u.1 b.delta }

theorem rescaled_insertAll (hu : 0 < u.1) (comb : Unit → Nat → Nat) : ∀ (l : List Num) (b : Binner Nat),
    Out.Leads (fun a a' => a' = a.rescaled u) (Binner.insertAll .exact comb b (l.map fun v => (v, ())))
      (Binner.insertAll .exact comb (b.rescaled u) ((l.map (inUnits u)).map fun v => (v, ())))
  | [], b => Out.Leads.ok rfl
  | x :: l, b => by
      simp only [List.map_cons, Binner.insertAll]
      refine Out.Leads.bind (R := fun a a' => a' = a.rescaled u) ?_ fun a a' _ e => ?_
      · have hg : Binner.getBin .exact (b.rescaled u) (inUnits u x) = Binner.getBin .exact b x := by
          unfold Binner.getBin Binner.rescaled
          simp only [units_sub, stretch_div hu]
        unfold Binner.insert
        rw [hg]
        simp only [Binner.rescaled]
        split
        · exact Out.Leads.ok rfl
        · intro a e; cases e
      · rw [e]
        exact rescaled_insertAll hu comb l a

theorem units_quantile (hu : 0 < u.1) (q : Num) (lim : Num × Num) (l : List Num) :
    Out.Leads (fun m m' => m' = inUnits u m) (quantile .exact q lim l)
      (quantile .exact q (inUnits u lim.1, inUnits u lim.2) (l.map (inUnits u))) := by
  unfold quantile
  refine Out.Leads.bind (R := fun a a' => a' = a.rescaled u) ?_ fun a a' _ e => ?_
  · unfold Binner.new
    simp only [units_isFinite, units_lt hu]
    refine .same fun _ _ => .same fun _ _ => .same fun _ _ => .same fun _ _ => Out.Leads.ok ?_
    simp only [Binner.rescaled, units_sub]
    rw [List.length_replicate, stretch_div_left 1024 (by norm_num)]
  · rw [e]
    refine (rescaled_insertAll hu _ l a).bind fun b b' _ e => ?_
    rw [e, List.length_map]
    refine .same fun bin _ => Out.Leads.ok ?_
    simp only [Binner.representative, Binner.rescaled, units_rep]

/-- The objective in other units, up to the limits of the residuals. -/
def Objective.rescaled (u : ℚ × ℚ) (lim : Num × Num) (o : Objective) : Objective :=
  { o with bias := Spec.inUnits u o.bias, predictions := o.predictions.map (Spec.inUnits u), limits := lim }

/-- The objective `l1` in the two units. -/
def Absolute₀ (u : ℚ × ℚ) (o o' : Objective) : Prop := (∃ lim, o' = o.rescaled u lim) ∧ o.kind = .l1

/-- … after `update`. -/
def Absolute (u : ℚ × ℚ) (o o' : Objective) : Prop :=
  o' = o.rescaled u (stretch u.1 o.limits.1, stretch u.1 o.limits.2) ∧ o.kind = .l1

theorem absolute_init (hu : 0 < u.1) (M : Libm) (cfg : Config) (ts : List Num) (o : Objective) (hk : o.kind = .l1) :
    Out.Leads (Absolute₀ u) (o.init .exact M cfg ts) (o.init .exact M cfg (ts.map (Spec.inUnits u))) := by
  unfold Objective.init
  simp only [hk, List.length_map]
  rw [units_limits hu]
  refine (units_quantile hu _ (limitsOf ts) ts).bind fun m m' _ e => ?_
  rw [e]
  refine Out.Leads.ok ⟨⟨o.limits, ?_⟩, hk⟩
  simp [initializeBase, Objective.rescaled]

theorem units_errs (u : ℚ × ℚ) : ∀ ts ps : List Num,
    List.zipWith FP.exact.sub (ts.map (Spec.inUnits u)) (ps.map (Spec.inUnits u)) =
      (List.zipWith FP.exact.sub ts ps).map (stretch u.1)
  | [], _ => by simp
  | _ :: _, [] => by simp
  | t :: ts, p :: ps => by simp [units_sub, units_errs u ts ps]

theorem stretch_signum {a : ℚ} (ha : 0 < a) (x : Num) : (stretch a x).signum = x.signum := by
  cases x with
  | fin q =>
    have h2 : (a * q < 0) = (q < 0) := by rw [mul_neg_iff]; simp [ha, not_lt.2 ha.le]
    simp only [stretch, Num.signum, h2]
  | _ => rfl

theorem units_addLoop (u : ℚ × ℚ) (v : Num) : ∀ (is : List Nat) (ps : List Num),
    Out.Leads (fun a a' => a' = a.map (Spec.inUnits u)) (addLoop .exact v is ps)
      (addLoop .exact (stretch u.1 v) is (ps.map (Spec.inUnits u)))
  | [], ps => Out.Leads.ok rfl
  | i :: is, ps => by
      simp only [addLoop, List.getElem?_map]
      cases e : ps[i]? with
      | none => intro a e; cases e
      | some p =>
        simp only [Option.map_some, stretch_zero_add, units_isFinite]
        refine .same fun _ _ => ?_
        rw [← List.map_set]
        exact units_addLoop u v is _

theorem units_residuals (u : ℚ × ℚ) (lim : Num × Num) (o : Objective) (ts : List Num) : ∀ is : List Nat,
    Out.Leads (fun a b => b = a.map (stretch u.1)) (Objective.residuals .exact o ts is)
      (Objective.residuals .exact (o.rescaled u lim) (ts.map (Spec.inUnits u)) is) := by
  intro is
  unfold Objective.residuals
  induction is with
  | nil => exact Out.Leads.ok rfl
  | cons i is ih =>
    simp only [forExamples]
    refine Out.Leads.bind (R := fun a b => b = stretch u.1 a) ?_ fun x y _ hxy => ?_
    · unfold targetPred index Objective.rescaled
      simp only [List.getElem?_map]
      cases ts[i]? with
      | none => intro a e; cases e
      | some t =>
        cases o.predictions[i]? with
        | none => intro a e; cases e
        | some p =>
          simp only [Option.map_some, Out.ok_bind, Out.pure_eq, units_sub]
          exact Out.Leads.ok rfl
    · refine ih.bind fun a b _ hab => Out.Leads.ok ?_
      rw [hxy, hab]
      rfl

theorem absolute_sim (hu : 0 < u.1) (M : Libm) (ts : List Num) :
    ValueSim .exact M (stretch u.1) ts (ts.map (Spec.inUnits u)) (Absolute₀ u) (Absolute u) where
  update := by
    rintro o _ ⟨⟨lim, rfl⟩, hk⟩
    unfold Objective.update
    simp only [List.length_map, Objective.rescaled, units_errs]
    refine .same fun _ _ => .same fun _ _ => ?_
    simp only [hk]
    refine Out.Leads.ok ⟨?_, rfl⟩
    rw [stretch_eq, units_limits (u := (u.1, 0)) hu]
    simp only [Objective.rescaled, List.map_map]
    congr 1
    refine List.map_congr_left fun x _ => ?_
    simp only [Function.comp, ← stretch_eq, stretch_signum hu]
  weak := by rintro o _ ⟨rfl, hk⟩; exact ⟨⟨_, rfl⟩, hk⟩
  grads := by rintro o _ ⟨rfl, _⟩; rfl
  bounds := by
    rintro o _ ⟨rfl, _⟩
    unfold Objective.bounds Objective.rescaled
    cases o.kind <;> rfl
  leaf := by
    rintro o _ ⟨rfl, hk⟩ ex
    unfold Objective.predictLeafValue
    refine Out.Leads.bind (R := fun a b => b = stretch u.1 a) ?_ fun v v' _ e => ?_
    · unfold Objective.leafValue
      simp only [hk, show (o.rescaled u (stretch u.1 o.limits.1, stretch u.1 o.limits.2)).kind = o.kind from rfl]
      refine (units_residuals u _ o ts ex).bind fun a b _ hab => ?_
      rw [hab]
      unfold median
      simp only [Objective.rescaled, stretch_eq]
      exact units_quantile (u := (u.1, 0)) hu _ o.limits a
    · subst e
      unfold Objective.updatePredictions
      simp only [show (o.rescaled u (stretch u.1 o.limits.1, stretch u.1 o.limits.2)).learningRate = o.learningRate from rfl,
        stretch_mul hu]
      refine (units_addLoop u _ ex o.predictions).bind fun ps ps' _ e => ?_
      rw [e]
      exact Out.Leads.ok ⟨rfl, rfl, hk⟩
  oob := by
    rintro o _ ⟨rfl, hk⟩ i v
    unfold Objective.updateOutOfBag
    simp only [Objective.rescaled, List.getElem?_map]
    cases e : o.predictions[i]? with
    | none => intro a e; cases e
    | some p =>
      simp only [Option.map_some, units_isFinite, stretch_zero_add]
      refine .same fun _ _ => Out.Leads.ok ⟨?_, hk⟩
      simp only [Objective.rescaled, List.map_set]

end BitBoost
