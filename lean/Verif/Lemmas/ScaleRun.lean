import Verif.Lemmas.ScaleData
/-! Helper lemmas: runs on categorical features with the objectives `l2` and `huber` and targets in other units. -/
namespace BitBoost
open Spec Dataset Learner

/-- The objectives of two runs, with targets `ts` and `ts'`: the gradients, their bounds and the values of the leaves are
multiplied by `a`. -/
structure GainSim (M : Libm) (a : ℚ) (ts ts' : List Num) (R₀ R : Objective → Objective → Prop) : Prop
    extends LeafSim .exact (stretch a) ts ts' R where
  update : ∀ {o o'}, R₀ o o' → Out.Leads R (o.update .exact M ts) (o'.update .exact M ts')
  weak : ∀ {o o'}, R o o' → R₀ o o'
  grads : ∀ {o o'}, R o o' → o'.gradients = o.gradients.map (stretch a)
  bounds : ∀ {o o'}, R o o' → o'.bounds = stretch₂ a o.bounds

section
variable {a : ℚ} {cfg : Config} {d d' : Data} {ts ts' : List Num} {ds : Dataset} {M : Libm} {R₀ R : Objective → Objective → Prop}

/-- Two states of the learner. -/
structure StateGain (d : Data) (a : ℚ) (R : Objective → Objective → Prop) (s s' : State) : Prop where
  tree : s'.tree = s.tree.withValues (stretch a)
  obj : R s.obj s'.obj
  stack : s'.stack = s.stack.map (Node.times a)
  free : BareTree d s.tree

theorem nodeItems_times (n : Node) (p : Part) : nodeItems (n.times a) p = nodeItems n p := by
  cases p <;> rfl

theorem leafValue_times (n : Node) (t : Tree) (o : Objective) :
    Learner.leafValue .exact ds (n.times a) t o = Learner.leafValue .exact ds n t o := by
  unfold Learner.leafValue
  rw [nodeItems_times, show (n.times a).nodeId = n.nodeId from rfl]

theorem childLeafValues_times (n : Node) (s : Split) (t : Tree) (o : Objective) :
    childLeafValues .exact ds (n.times a) s t o = childLeafValues .exact ds n s t o := by
  unfold childLeafValues
  simp only [nodeItems_times, show (n.times a).nodeId = n.nodeId from rfl]

theorem expand_times (ha : 0 < a) (h : SameFeatures d d' ts ts') (hR : GainSim M a ts ts' R₀ R) (hd : ds.data = d)
    (hu : ∀ u ∈ ds.useful, u ≠ d.nfeatures) (w : Nat) (n : Node) {s s' : State} (hs : StateGain d a R s s') :
    Out.Leads (StateGain d a R) (expand .exact cfg ds w n s)
      (expand .exact (minGainTimes (a * a) cfg) (ds.on d') w (n.times a) s') := by
  obtain ⟨t, o, stack⟩ := s
  obtain ⟨t', o', stack'⟩ := s'
  obtain ⟨h1, ho, h3, ht⟩ := hs
  simp only at h1 ho h3 ht
  subst h1 h3
  unfold expand
  rw [findBestSplit_on h hd hu, show (n.times a).gradSum = stretch a n.gradSum from rfl,
    show (n.times a).exampleCount = n.exampleCount from rfl, show (n.times a).hists = histsTimes a n.hists from rfl,
    show (n.times a).nodeId = n.nodeId from rfl]
  refine (findBestSplit_times ha n.gradSum n.exampleCount n.hists).bind fun sp sp' e esp => ?_
  subst esp
  simp only [leafValue_times, childLeafValues_times]
  split
  · refine (leafValue_scale h (stretch_valueMap ha) hR.toLeafSim hd ho n ht).bind fun x y _ hab => ?_
    exact Out.Leads.ok ⟨hab.1, hab.2.1, rfl, hab.2.2⟩
  · rename_i hne
    have hf : sp.crit.featureId ≠ d.nfeatures := by
      obtain ⟨fs, js, v, hfs, hjs, hmem, _⟩ := findBestSplit_some e (by simpa using hne)
      exact hu _ (prefix_mem hfs ((mem_histJobs hjs _ _).1 hmem).1)
    rw [show (t.withValues (stretch a)).isMaxLeafNode = t.isMaxLeafNode from rfl]
    split
    · rw [childNodes_on h hd, hR.bounds ho]
      refine (childNodes_times ha w o.bounds n sp).bind fun x y _ hxy => ?_
      rw [hxy]
      refine (splitNode_scale ht _ hf).bind fun t1 t2 _ h12 => ?_
      exact Out.Leads.ok ⟨h12.1, ho, rfl, h12.2⟩
    · refine (childLeafValues_scale h (stretch_valueMap ha) hR.toLeafSim hd ho n sp ht).bind fun x y _ hab => ?_
      rw [hab.1]
      refine (splitNode_scale hab.2.2 _ hf).bind fun t1 t2 _ h12 => ?_
      exact Out.Leads.ok ⟨h12.1, hab.2.1, rfl, h12.2⟩

theorem loop_times (ha : 0 < a) (h : SameFeatures d d' ts ts') (hR : GainSim M a ts ts' R₀ R) (hd : ds.data = d)
    (hu : ∀ u ∈ ds.useful, u ≠ d.nfeatures) (w : Nat) : ∀ (fuel : Nat) (s s' : State), StateGain d a R s s' →
    Out.Leads (Option.Rel (StateGain d a R)) (loop .exact cfg ds w fuel s)
      (loop .exact (minGainTimes (a * a) cfg) (ds.on d') w fuel s')
  | fuel, ⟨t, o, []⟩, ⟨t', o', stack'⟩, hs => by
      have : stack' = [] := hs.stack
      subst this
      unfold loop
      exact Out.Leads.ok (.some hs)
  | 0, ⟨t, o, n :: rest⟩, ⟨t', o', stack'⟩, hs => by
      have : stack' = n.times a :: rest.map (Node.times a) := hs.stack
      subst this
      unfold loop
      exact Out.Leads.ok .none
  | fuel + 1, ⟨t, o, n :: rest⟩, ⟨t', o', stack'⟩, hs => by
      have : stack' = n.times a :: rest.map (Node.times a) := hs.stack
      subst this
      unfold loop
      simp only
      refine Out.Leads.bind (expand_times ha h hR hd hu w n ⟨hs.tree, hs.obj, rfl, hs.free⟩) fun x y _ hab => ?_
      exact loop_times ha h hR hd hu w fuel x y hab

theorem rootNode_data (h : SameFeatures d d' ts ts') (hd : ds.data = d) {w : Nat} (o : Objective) :
    rootNode .exact (minGainTimes (a * a) cfg) (ds.on d') w o = rootNode .exact (minGainTimes (a * a) cfg) ds w o :=
  rootNode_on h hd w rfl rfl

theorem train_times (ha : 0 < a) (h : SameFeatures d d' ts ts') (hR : GainSim M a ts ts' R₀ R) (hnf : 0 < d.nfeatures)
    (hd : ds.data = d) (hu : ∀ u ∈ ds.useful, u ≠ d.nfeatures) (sc : List (List Nat)) (fuel : Nat) {o o' : Objective} (ho : R o o') :
    Out.Leads (Option.Rel fun x y => y.1 = x.1.withValues (stretch a) ∧ R x.2 y.2 ∧ x.1.shrinkage = .fin 1 ∧ x.1.bias = .fin 0)
      (train .exact cfg ds sc o fuel) (train .exact (minGainTimes (a * a) cfg) (ds.on d') sc o' fuel) := by
  unfold Learner.train
  rw [show width (minGainTimes (a * a) cfg) = width cfg from rfl]
  refine .same fun w _ => ?_
  refine Out.Leads.bind (R := StateGain d a R) ?_ fun x y _ hab => ?_
  · unfold start
    rw [rootNode_data h hd, show (minGainTimes (a * a) cfg).maxTreeDepth = cfg.maxTreeDepth from rfl]
    refine Out.Leads.bind (R := fun x y => y = x.withValues (stretch a) ∧ BareTree d x) ?_ fun t t' _ htt => ?_
    · unfold Tree.new
      refine .same fun _ _ => Out.Leads.ok ⟨?_, ?_, rfl, rfl⟩
      · simp only [Tree.withValues, List.map_replicate, (stretch_valueMap ha).zero]
      · intro c hc
        rw [List.eq_of_mem_replicate hc]
        exact hnf.ne
    · refine (rootNode_times ha w (hR.grads ho) (hR.bounds ho)).bind fun r r' _ hr => Out.Leads.ok ⟨htt.1, ho, ?_, htt.2⟩
      rw [hr]
      rfl
  · refine (loop_times ha h hR hd hu w fuel x y hab).bind fun r r' _ hr => ?_
    cases hr with
    | none => exact Out.Leads.ok .none
    | @some s s' hs =>
      simp only
      refine Out.Leads.bind (R := R) ?_ fun x y _ hab => Out.Leads.ok (.some ⟨hs.tree, hab, hs.free.2⟩)
      unfold outOfBag
      rw [show (ds.on d').exampleSampling = ds.exampleSampling from rfl, hs.tree]
      split
      · unfold inactiveExamples
        rw [show (ds.on d').data = d' from rfl, h.nexamples, hd]
        refine Out.Leads.bind (R := Eq) (Out.Leads.of_eq rfl) fun x y _ e => ?_
        subst e
        exact outOfBagLoop_scale h (stretch_valueMap ha) hR.toLeafSim hs.free _ _ _ hs.obj
      · exact Out.Leads.ok hs.obj

theorem trainOneIter_times (ha : 0 < a) (hc : AllCategorical d) (h : SameFeatures d d' ts ts') (hR : GainSim M a ts ts' R₀ R)
    (hnf : 0 < d.nfeatures) {metrics : List Metric} {b b' : Booster} (hb : BoostScale d d' (stretch a) R₀ b b') :
    Out.Leads (BoostScale d d' (stretch a) R₀) (Booster.trainOneIter .exact M cfg d metrics b)
      (Booster.trainOneIter .exact M (minGainTimes (a * a) cfg) d' metrics b') := by
  unfold Booster.trainOneIter
  rw [h.targets.1, h.targets.2]
  simp only [Out.ok_bind]
  refine (hR.update hb.obj).bind fun o o' _ ho => ?_
  refine Out.Leads.bind (R := On d d') ?_ fun ds ds' _ hds => ?_
  · rw [hb.data.eq, hR.grads ho, hR.bounds ho]
    exact (update_times ha hc hb.data.data hb.data.useful _ _).after (update_on h hb.data.data hb.data.useful _ _)
  · refine Out.Leads.bind
      (R := fun x y => y.1 = x.1.withValues (stretch a) ∧ R x.2 y.2 ∧ x.1.shrinkage = .fin 1 ∧ x.1.bias = .fin 0) ?_
      fun r r' _ hr => ?_
    · unfold Booster.learnTree
      rw [hds.eq, show (minGainTimes (a * a) cfg).maxTreeDepth = cfg.maxTreeDepth from rfl]
      refine (train_times ha h hR hnf hds.data hds.useful _ _ ho).bind fun x y _ hxy => ?_
      cases hxy with
      | none => intro a e; cases e
      | some hp => exact Out.Leads.ok hp
    · refine Out.Leads.ok ⟨hds, hR.weak hr.2.1, by simp only [hb.iter], ?_, ?_, hb.bias⟩
      · simp only [AdditiveTree.pushTree, hb.trees, hr.1, List.map_append, List.map_cons, List.map_nil]
      · intro t ht
        simp only [AdditiveTree.pushTree, List.mem_append, List.mem_singleton] at ht
        rcases ht with ht | rfl
        · exact hb.plain t ht
        · exact hr.2.2

theorem iterate_times (ha : 0 < a) (hc : AllCategorical d) (h : SameFeatures d d' ts ts') (hR : GainSim M a ts ts' R₀ R)
    (hnf : 0 < d.nfeatures) {metrics : List Metric} : ∀ (n : Nat) (b b' : Booster), BoostScale d d' (stretch a) R₀ b b' →
    Out.Leads (BoostScale d d' (stretch a) R₀) (Booster.iterate .exact M cfg d metrics n b)
      (Booster.iterate .exact M (minGainTimes (a * a) cfg) d' metrics n b')
  | 0, _, _, hb => Out.Leads.ok hb
  | n + 1, b, b', hb => by
      unfold Booster.iterate
      exact (trainOneIter_times ha hc h hR hnf hb).bind fun x y _ hxy => iterate_times ha hc h hR hnf n x y hxy

theorem run_times (ha : 0 < a) (hc : AllCategorical d) (h : SameFeatures d d' ts ts') (hR : GainSim M a ts ts' R₀ R)
    (hnf : 0 < d.nfeatures) {metrics : List Metric} {o : Objective}
    (hinit : Out.Leads R₀ (o.init .exact M cfg ts) (o.init .exact M cfg ts')) (rng : Rng) :
    Out.Leads (BoostScale d d' (stretch a) R₀) (Booster.run .exact M cfg d rng metrics o)
      (Booster.run .exact M (minGainTimes (a * a) cfg) d' rng metrics o) := by
  unfold Booster.run Booster.new
  rw [Out.bind_assoc, Out.bind_assoc, show Dataset.new .exact (minGainTimes (a * a) cfg) d' rng = Dataset.new .exact cfg d' rng from rfl]
  refine (new_on h rng).bind fun ds ds' _ hds => ?_
  simp only [Out.pure_eq, Out.ok_bind]
  unfold Booster.train Booster.prepare
  refine Out.Leads.same fun _ _ => ?_
  rw [h.targets.1, h.targets.2]
  simp only [Out.ok_bind]
  refine Out.Leads.bind (R := BoostScale d d' (stretch a) R₀) ?_ fun x y _ hab => iterate_times ha hc h hR hnf _ _ _ hab
  refine Out.Leads.bind hinit fun o1 o2 _ ho => Out.Leads.ok ⟨hds, ho, rfl, rfl, ?_, ⟨o1, o2, ho, rfl, rfl⟩⟩
  intro t ht
  cases ht

end
end BitBoost

/-! ### The objectives `l2` and `huber` -/

namespace BitBoost
open Spec Objective

variable {u : ℚ × ℚ}

theorem units_shift (u : ℚ × ℚ) (x : Num) : Spec.inUnits u x = shift u.2 (stretch u.1 x) := by cases x <;> rfl

theorem stretch_sum (a : ℚ) (l : List Num) : FP.exact.sum (l.map (stretch a)) = stretch a (FP.exact.sum l) := by
  have : ∀ (l : List Num) (x : Num), (l.map (stretch a)).foldl FP.exact.add (stretch a x) = stretch a (l.foldl FP.exact.add x) := by
    intro l
    induction l with
    | nil => intro x; rfl
    | cons y l ih => intro x; simp only [List.map_cons, List.foldl_cons, stretch_add, ih]
  have h0 := this l (.fin 0)
  rwa [show stretch a (.fin 0) = .fin 0 by simp [stretch]] at h0

theorem units_mean (hu : 0 < u.1) (l : List Num) :
    FP.exact.div (FP.exact.sum (l.map (Spec.inUnits u))) (FP.exact.ofNat l.length) =
      Spec.inUnits u (FP.exact.div (FP.exact.sum l) (FP.exact.ofNat l.length)) := by
  have h1 : l.map (Spec.inUnits u) = (l.map (stretch u.1)).map (shift u.2) := by
    rw [List.map_map]
    exact List.map_congr_left fun x _ => units_shift u x
  have h2 := shift_mean u.2 (l.map (stretch u.1))
  rw [List.length_map] at h2
  rw [h1, h2, units_shift, stretch_sum, stretch_div_any hu]

theorem stretch_limits {a : ℚ} (ha : 0 < a) (l : List Num) : limitsOf (l.map (stretch a)) = stretch₂ a (limitsOf l) := by
  rw [stretch_eq, units_limits (u := (a, 0)) ha]
  unfold stretch₂
  rw [stretch_eq]

theorem stretch_quantile {a : ℚ} (ha : 0 < a) (q : Num) (lim : Num × Num) (l : List Num) :
    Out.Leads (fun m m' => m' = stretch a m) (quantile .exact q lim l) (quantile .exact q (stretch₂ a lim) (l.map (stretch a))) := by
  unfold stretch₂
  rw [stretch_eq]
  exact units_quantile (u := (a, 0)) ha q lim l

/-- The objective with converted bias and predictions, and other working values. -/
def Objective.converted (u : ℚ × ℚ) (g : List Num) (b lim : Num × Num) (δ : Num) (o : Objective) : Objective :=
  { o with bias := Spec.inUnits u o.bias, predictions := o.predictions.map (Spec.inUnits u), gradients := g, l2bounds := b
           limits := lim, delta := δ }

/-- The objective `l2` or `huber` in the two units. -/
def Regression₀ (u : ℚ × ℚ) (o o' : Objective) : Prop :=
  ∃ g b lim δ, o' = o.converted u g b lim δ ∧ g.length = o.gradients.length ∧ (o.kind = .l2 ∨ o.kind = .huber)

/-- … after `update`. -/
def Regression (u : ℚ × ℚ) (o o' : Objective) : Prop :=
  ∃ b lim δ, o' = o.converted u (o.gradients.map (stretch u.1)) b lim δ ∧
    ((o.kind = .l2 ∧ b = stretch₂ u.1 o.l2bounds) ∨
      (o.kind = .huber ∧ lim = stretch₂ u.1 o.limits ∧ δ = stretch u.1 o.delta))

theorem regression_init (hu : 0 < u.1) (M : Libm) (cfg : Config) (ts : List Num) (o : Objective) (hk : o.kind = .l2 ∨ o.kind = .huber) :
    Out.Leads (Regression₀ u) (o.init .exact M cfg ts) (o.init .exact M cfg (ts.map (Spec.inUnits u))) := by
  unfold Objective.init
  rcases hk with hk | hk <;> simp only [hk, List.length_map]
  · rw [units_mean hu]
    refine Out.Leads.ok ⟨List.replicate ts.length (.fin 0), o.l2bounds, o.limits, o.delta, ?_, ?_, .inl hk⟩
    · simp [initializeBase, converted]
    · simp [initializeBase]
  · rw [units_limits hu]
    refine (units_quantile hu _ (limitsOf ts) ts).bind fun m m' _ e => ?_
    rw [e]
    refine .same fun _ _ => Out.Leads.ok ⟨List.replicate ts.length (.fin 0), o.l2bounds, o.limits, o.delta, ?_, ?_, .inr hk⟩
    · simp [initializeBase, converted]
    · simp [initializeBase]

theorem huberGradient_stretch {a : ℚ} (ha : 0 < a) (δ e : Num) :
    huberGradient .exact (stretch a δ) (stretch a e) = stretch a (huberGradient .exact δ e) := by
  unfold huberGradient
  rw [stretch_abs ha, stretch_le ha, stretch_signum ha, stretch_mul_left ha]
  split <;> rfl

theorem huberCorrection_stretch {a : ℚ} (ha : 0 < a) (δ m : Num) (errs : List Num) :
    huberCorrection .exact (stretch a δ) (stretch a m) (errs.map (stretch a)) = stretch a (huberCorrection .exact δ m errs) := by
  unfold huberCorrection
  have : ∀ (l : List Num) (s : Num),
      (l.map (stretch a)).foldl (fun s err =>
        let d := FP.exact.sub err (stretch a m)
        FP.exact.add s (FP.exact.mul d.signum (Num.min (stretch a δ) d.abs))) (stretch a s) =
      stretch a (l.foldl (fun s err =>
        let d := FP.exact.sub err m
        FP.exact.add s (FP.exact.mul d.signum (Num.min δ d.abs))) s) := by
    intro l
    induction l with
    | nil => intro s; rfl
    | cons e l ih =>
      intro s
      simp only [List.map_cons, List.foldl_cons, stretch_sub, stretch_signum ha, stretch_abs ha, stretch_min ha, stretch_mul ha,
        stretch_add] at ih ⊢
      exact ih _
  have h0 := this errs (.fin 0)
  rwa [show stretch a (.fin 0) = .fin 0 by simp [stretch]] at h0

theorem converted_residuals (u : ℚ × ℚ) (g : List Num) (b lim : Num × Num) (δ : Num) (o : Objective) (ts : List Num) (is : List Nat) :
    Out.Leads (fun x y => y = x.map (stretch u.1)) (Objective.residuals .exact o ts is)
      (Objective.residuals .exact (o.converted u g b lim δ) (ts.map (Spec.inUnits u)) is) :=
  units_residuals u lim o ts is

theorem regression_sim (hu : 0 < u.1) (M : Libm) (ts : List Num) :
    GainSim M u.1 ts (ts.map (Spec.inUnits u)) (Regression₀ u) (Regression u) where
  update := by
    rintro o _ ⟨g, b, lim, δ, rfl, hg, hk⟩
    unfold Objective.update
    simp only [List.length_map, converted, units_errs, hg]
    refine .same fun _ _ => .same fun _ _ => ?_
    rcases hk with hk | hk <;> simp only [hk, stretch_limits hu]
    · refine Out.Leads.ok ⟨_, lim, δ, ?_, .inl ⟨rfl, rfl⟩⟩
      simp only [converted, List.map_map, stretch₂, stretch_abs hu, stretch_min hu, stretch_neg]
      congr 1
      refine List.map_congr_left fun x _ => ?_
      simp only [Function.comp, stretch_neg]
    · refine (stretch_quantile hu _ _ _).bind fun q q' _ e => ?_
      rw [e]
      refine Out.Leads.ok ⟨b, _, _, ?_, .inr ⟨rfl, rfl, rfl⟩⟩
      simp only [converted, List.map_map, stretch_abs hu]
      congr 1
      refine List.map_congr_left fun x _ => ?_
      simp only [Function.comp, huberGradient_stretch hu]
  weak := by
    rintro o _ ⟨b, lim, δ, rfl, hk⟩
    refine ⟨_, _, _, _, rfl, by simp, ?_⟩
    rcases hk with hk | hk
    · exact .inl hk.1
    · exact .inr hk.1
  grads := by rintro o _ ⟨b, lim, δ, rfl, _⟩; rfl
  bounds := by
    rintro o _ ⟨b, lim, δ, rfl, hk⟩
    unfold Objective.bounds converted
    rcases hk with ⟨hk, rfl⟩ | ⟨hk, rfl, rfl⟩ <;> simp only [hk, stretch₂, stretch_neg]
  leaf := by
    rintro o _ ⟨b, lim, δ, rfl, hk⟩ ex
    unfold Objective.predictLeafValue
    refine Out.Leads.bind (R := fun x y => y = stretch u.1 x) ?_ fun v v' _ e => ?_
    · unfold Objective.leafValue
      rcases hk with ⟨hk, rfl⟩ | ⟨hk, rfl, rfl⟩
      · simp only [hk, show (o.converted u (o.gradients.map (stretch u.1)) (stretch₂ u.1 o.l2bounds) lim δ).kind = o.kind from rfl]
        refine (converted_residuals u _ _ _ _ o ts ex).bind fun x y _ hxy => Out.Leads.ok ?_
        rw [hxy, stretch_sum, stretch_div_any hu]
      · simp only [hk, show (o.converted u (o.gradients.map (stretch u.1)) b (stretch₂ u.1 o.limits) (stretch u.1 o.delta)).kind = o.kind from rfl]
        refine (converted_residuals u _ _ _ _ o ts ex).bind fun x y _ hxy => ?_
        rw [hxy]
        refine (stretch_quantile hu _ o.limits x).bind fun m m' _ e => Out.Leads.ok ?_
        rw [e, show (o.converted u (o.gradients.map (stretch u.1)) b (stretch₂ u.1 o.limits) (stretch u.1 o.delta)).delta =
          stretch u.1 o.delta from rfl, huberCorrection_stretch hu, stretch_div_any hu, stretch_add]
    · subst e
      unfold Objective.updatePredictions
      simp only [show (o.converted u (o.gradients.map (stretch u.1)) b lim δ).learningRate = o.learningRate from rfl, stretch_mul hu]
      refine (units_addLoop u _ ex o.predictions).bind fun ps ps' _ e => ?_
      rw [e]
      exact Out.Leads.ok ⟨rfl, b, lim, δ, rfl, hk⟩
  oob := by
    rintro o _ ⟨b, lim, δ, rfl, hk⟩ i v
    unfold Objective.updateOutOfBag
    simp only [converted, List.getElem?_map]
    cases e : o.predictions[i]? with
    | none => intro a e; cases e
    | some p =>
      simp only [Option.map_some, units_isFinite, stretch_zero_add]
      refine .same fun _ _ => Out.Leads.ok ⟨b, lim, δ, ?_, hk⟩
      simp only [converted, List.map_set]

end BitBoost
