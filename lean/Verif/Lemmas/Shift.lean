import Verif.Lemmas.Targets
/-! Helper lemmas: moving all targets by a constant in exact arithmetic; targets with the same classes. -/
namespace BitBoost
open Spec Objective

/-! ### Numbers -/

theorem shift_zero (x : Num) : shift 0 x = x := by cases x <;> simp [shift]

theorem shift_isNan (c : ℚ) (x : Num) : (shift c x).isNan = x.isNan := by cases x <;> rfl
theorem shift_isFinite (c : ℚ) (x : Num) : (shift c x).isFinite = x.isFinite := by cases x <;> rfl

theorem shift_le (c : ℚ) (x y : Num) : (shift c x).le (shift c y) = x.le y := by
  cases x <;> cases y <;> simp [shift, Num.le]

theorem shift_lt (c : ℚ) (x y : Num) : (shift c x).lt (shift c y) = x.lt y := by
  cases x <;> cases y <;> simp [shift, Num.lt]

theorem shift_min (c : ℚ) (x y : Num) : Num.min (shift c x) (shift c y) = shift c (Num.min x y) := by
  unfold Num.min
  rw [shift_isNan, shift_isNan, shift_le]
  split <;> [rfl; split <;> [rfl; split <;> rfl]]

theorem shift_max (c : ℚ) (x y : Num) : Num.max (shift c x) (shift c y) = shift c (Num.max x y) := by
  unfold Num.max
  rw [shift_isNan, shift_isNan, shift_le]
  split <;> [rfl; split <;> [rfl; split <;> rfl]]

theorem shift_add (a b : ℚ) (x y : Num) : FP.exact.add (shift a x) (shift b y) = shift (a + b) (FP.exact.add x y) := by
  cases x <;> cases y <;> simp only [shift, FP.add, FP.exact]
  congr 1; ring

theorem shift_add_left (c : ℚ) (x y : Num) : FP.exact.add (shift c x) y = shift c (FP.exact.add x y) := by
  have := shift_add c 0 x y
  rwa [shift_zero, add_zero] at this

theorem shift_sub (c : ℚ) (x y : Num) : FP.exact.sub (shift c x) (shift c y) = FP.exact.sub x y := by
  cases x <;> cases y <;> simp only [shift, FP.sub, FP.add, FP.exact, Num.neg]
  congr 1; ring

/-! ### Means and medians -/

theorem shift_sum (c : ℚ) : ∀ (l : List Num) (k : ℚ) (a : Num),
    (l.map (shift c)).foldl FP.exact.add (shift k a) = shift (k + l.length * c) (l.foldl FP.exact.add a)
  | [], k, a => by simp
  | x :: l, k, a => by
      simp only [List.map_cons, List.foldl_cons, shift_add]
      rw [shift_sum c l]
      congr 1
      push_cast [List.length_cons]
      ring

theorem shift_mean (c : ℚ) (l : List Num) :
    FP.exact.div (FP.exact.sum (l.map (shift c))) (FP.exact.ofNat l.length) =
      shift c (FP.exact.div (FP.exact.sum l) (FP.exact.ofNat l.length)) := by
  have h := shift_sum c l 0 (.fin 0)
  rw [shift_zero, zero_add] at h
  unfold FP.sum
  rw [h]
  cases l with
  | nil => simp [FP.div, FP.ofNat, FP.exact, shift, FP.infOf, FP.sgn]
  | cons x l =>
    generalize (x :: l).foldl FP.exact.add (.fin 0) = s
    have hn : (((x :: l).length : Nat) : ℚ) ≠ 0 := by simp; positivity
    have hp : ¬ ((((x :: l).length : Nat) : ℚ) < 0) := by simp; positivity
    unfold FP.ofNat
    generalize (((x :: l).length : Nat) : ℚ) = n at hn hp
    cases s <;> simp only [shift, FP.div, FP.exact, hn, hp, if_false]
    congr 1; field_simp

theorem shift_limits (c : ℚ) (l : List Num) :
    limitsOf (l.map (shift c)) = (shift c (limitsOf l).1, shift c (limitsOf l).2) := by
  unfold limitsOf
  have h1 : ∀ (l : List Num) (a : Num), (l.map (shift c)).foldl (fun a t => Num.min t a) (shift c a) =
      shift c (l.foldl (fun a t => Num.min t a) a) := by
    intro l
    induction l with
    | nil => intro a; rfl
    | cons x l ih => intro a; simp only [List.map_cons, List.foldl_cons, shift_min, ih]
  have h2 : ∀ (l : List Num) (a : Num), (l.map (shift c)).foldl (fun a t => Num.max t a) (shift c a) =
      shift c (l.foldl (fun a t => Num.max t a) a) := by
    intro l
    induction l with
    | nil => intro a; rfl
    | cons x l ih => intro a; simp only [List.map_cons, List.foldl_cons, shift_max, ih]
  exact Prod.ext (h1 l .pinf) (h2 l .ninf)

/-- A histogram moved by a constant. -/
def Binner.moved (c : ℚ) (b : Binner Nat) : Binner Nat := { b with minValue := shift c b.minValue }

theorem shift_getBin (c : ℚ) (b : Binner Nat) (x : Num) :
    Binner.getBin .exact (b.moved c) (shift c x) = Binner.getBin .exact b x := by
  unfold Binner.getBin Binner.moved
  simp only [shift_sub]

theorem shift_insertAll (c : ℚ) (comb : Unit → Nat → Nat) : ∀ (l : List Num) (b : Binner Nat),
    Out.Leads (fun a a' => a' = a.moved c) (Binner.insertAll .exact comb b (l.map fun v => (v, ())))
      (Binner.insertAll .exact comb (b.moved c) ((l.map (shift c)).map fun v => (v, ())))
  | [], b => Out.Leads.ok rfl
  | x :: l, b => by
      simp only [List.map_cons, Binner.insertAll]
      refine Out.Leads.bind (R := fun a a' => a' = a.moved c) ?_ fun a a' _ e => ?_
      · unfold Binner.insert
        rw [shift_getBin]
        simp only [Binner.moved]
        split
        · exact Out.Leads.ok rfl
        · intro a e; cases e
      · rw [e]
        exact shift_insertAll c comb l a

theorem shift_quantile (c : ℚ) (q : Num) (lim : Num × Num) (l : List Num) :
    Out.Leads (fun m m' => m' = shift c m) (quantile .exact q lim l)
      (quantile .exact q (shift c lim.1, shift c lim.2) (l.map (shift c))) := by
  unfold quantile
  refine Out.Leads.bind (R := fun a a' => a' = a.moved c) ?_ fun a a' _ e => ?_
  · unfold Binner.new
    simp only [shift_isFinite, shift_lt]
    refine .same fun _ _ => .same fun _ _ => .same fun _ _ => .same fun _ _ => Out.Leads.ok ?_
    simp only [Binner.moved, shift_sub]
  · rw [e]
    refine (shift_insertAll c _ l a).bind fun b b' _ e => ?_
    rw [e, List.length_map]
    refine .same fun bin _ => Out.Leads.ok ?_
    simp only [Binner.representative, Binner.moved, shift_add_left]

/-! ### Objectives -/

/-- The objective after the targets have been moved by `c`. -/
def Objective.moved (c : ℚ) (o : Objective) : Objective :=
  { o with bias := shift c o.bias, predictions := o.predictions.map (shift c) }

/-- The objectives `l2`, `l1` and `huber`. -/
def Moved (c : ℚ) (o o' : Objective) : Prop := o' = o.moved c ∧ (o.kind = .l2 ∨ o.kind = .l1 ∨ o.kind = .huber)

theorem moved_init (M : Libm) (cfg : Config) (c : ℚ) (ts : List Num) (o : Objective)
    (hk : o.kind = .l2 ∨ o.kind = .l1 ∨ o.kind = .huber) :
    Out.Leads (Moved c) (o.init .exact M cfg ts) (o.init .exact M cfg (ts.map (shift c))) := by
  unfold Objective.init
  rcases hk with hk | hk | hk <;> simp only [hk, List.length_map]
  · rw [shift_mean]
    refine Out.Leads.ok ⟨?_, .inl hk⟩
    simp [initializeBase, moved]
  · rw [shift_limits]
    refine (shift_quantile c _ (limitsOf ts) ts).bind fun m m' _ e => ?_
    rw [e]
    refine Out.Leads.ok ⟨?_, .inr (.inl hk)⟩
    simp [initializeBase, moved]
  · rw [shift_limits]
    refine (shift_quantile c _ (limitsOf ts) ts).bind fun m m' _ e => ?_
    rw [e]
    refine .same fun _ _ => Out.Leads.ok ⟨?_, .inr (.inr hk)⟩
    simp [initializeBase, moved]

theorem shift_errs (c : ℚ) : ∀ ts ps : List Num,
    List.zipWith FP.exact.sub (ts.map (shift c)) (ps.map (shift c)) = List.zipWith FP.exact.sub ts ps
  | [], _ => by simp
  | _ :: _, [] => by simp
  | t :: ts, p :: ps => by simp [shift_sub, shift_errs c ts ps]

theorem shift_addLoop (c : ℚ) (v : Num) : ∀ (is : List Nat) (ps : List Num),
    Out.Leads (fun a a' => a' = a.map (shift c)) (addLoop .exact v is ps) (addLoop .exact v is (ps.map (shift c)))
  | [], ps => Out.Leads.ok rfl
  | i :: is, ps => by
      simp only [addLoop, List.getElem?_map]
      cases e : ps[i]? with
      | none => intro a e; cases e
      | some p =>
        simp only [Option.map_some, shift_add_left, shift_isFinite]
        refine .same fun _ _ => ?_
        rw [← List.map_set]
        exact shift_addLoop c v is _

theorem shift_residuals (c : ℚ) (o : Objective) (ts : List Num) : ∀ is : List Nat,
    Objective.residuals .exact (o.moved c) (ts.map (shift c)) is = Objective.residuals .exact o ts is := by
  intro is
  unfold Objective.residuals
  induction is with
  | nil => rfl
  | cons i is ih =>
    simp only [forExamples, ih]
    congr 1
    unfold targetPred index Objective.moved
    simp only [List.getElem?_map]
    cases ts[i]? <;> cases o.predictions[i]? <;> simp [shift_sub]

theorem moved_sim (M : Libm) (c : ℚ) (ts : List Num) : TargetSim .exact M ts (ts.map (shift c)) (Moved c) where
  update := by
    rintro o _ ⟨rfl, hk⟩
    unfold Objective.update
    simp only [List.length_map, Objective.moved, shift_errs]
    refine .same fun _ _ => .same fun _ _ => ?_
    rcases hk with hk | hk | hk <;> simp only [hk]
    · exact Out.Leads.ok ⟨by simp [Objective.moved], .inl rfl⟩
    · exact Out.Leads.ok ⟨by simp [Objective.moved], .inr (.inl rfl)⟩
    · refine .same fun _ _ => ?_
      exact Out.Leads.ok ⟨by simp [Objective.moved], .inr (.inr rfl)⟩
  grads := by rintro o _ ⟨rfl, _⟩; rfl
  bounds := by
    rintro o _ ⟨rfl, _⟩
    unfold Objective.bounds Objective.moved
    cases o.kind <;> rfl
  leaf := by
    rintro o _ ⟨rfl, hk⟩ ex
    unfold Objective.predictLeafValue
    refine Out.Leads.bind (R := Eq) (Out.Leads.of_eq ?_) fun v v' _ e => ?_
    · unfold Objective.leafValue
      have h := shift_residuals c o ts ex
      rcases hk with hk | hk | hk <;> simp only [h, hk, show (o.moved c).kind = o.kind from rfl, show (o.moved c).limits = o.limits from rfl,
        show (o.moved c).delta = o.delta from rfl]
    · subst e
      unfold Objective.updatePredictions
      refine (shift_addLoop c _ ex o.predictions).bind fun ps ps' _ e => ?_
      rw [e]
      exact Out.Leads.ok ⟨rfl, rfl, hk⟩
  oob := by
    rintro o _ ⟨rfl, hk⟩ i v
    unfold Objective.updateOutOfBag
    rw [show (o.moved c).predictions = o.predictions.map (shift c) from rfl, List.getElem?_map]
    cases e : o.predictions[i]? with
    | none => intro a e; cases e
    | some p =>
      simp only [Option.map_some, shift_isFinite, shift_add_left]
      refine .same fun _ _ => Out.Leads.ok ⟨?_, hk⟩
      rw [← List.map_set]
      rfl

/-! ### Metrics and predictions -/

theorem shift_metric (M : Libm) (c : ℚ) {m : Metric} (hm : m = .l2 ∨ m = .rmse) (ts ps : List Num) :
    m.eval .exact M (ts.map (shift c)) (ps.map (shift c)) = m.eval .exact M ts ps := by
  have h : Metric.evalMean .exact (Metric.l2One .exact) (ts.map (shift c)) (ps.map (shift c)) =
      Metric.evalMean .exact (Metric.l2One .exact) ts ps := by
    unfold Metric.evalMean
    rw [List.zip_map, List.foldl_map]
    simp only [Metric.l2One, Prod.map_fst, Prod.map_snd, shift_sub]
  rcases hm with rfl | rfl <;> simp only [Metric.eval, h]

/-! ### Classes -/

variable {F : FP} {M : Libm}

theorem classes_counts {ts ts' : List Num} (h : List.Forall₂ SameClass ts ts') : classCounts F ts' = classCounts F ts := by
  unfold classCounts
  have : (ts'.filter fun x => x.lt (.fin (1 / 2))).length = (ts.filter fun x => x.lt (.fin (1 / 2))).length := by
    induction h with
    | nil => rfl
    | cons ht _ ih =>
      simp only [List.filter_cons]
      rw [show Num.lt _ _ = _ from ht]
      split <;> simp only [List.length_cons, ih]
  rw [this, h.length_eq]

theorem classes_hinge {ts ts' : List Num} (h : List.Forall₂ SameClass ts ts') : ∀ ps : List Num,
    List.zipWith hingeGradient ts' ps = List.zipWith hingeGradient ts ps := by
  induction h with
  | nil => intro ps; rfl
  | cons ht _ ih =>
    intro ps
    cases ps with
    | nil => rfl
    | cons p ps =>
      simp only [List.zipWith_cons_cons, ih, hingeGradient]
      rw [show Num.lt _ _ = _ from ht]

theorem classes_targetPred {ts ts' : List Num} (h : List.Forall₂ SameClass ts ts') (o : Objective) : ∀ ex : List Nat,
    Out.Leads (List.Forall₂ fun a b : Num × Num => SameClass a.1 b.1 ∧ b.2 = a.2) (forExamples (targetPred o ts) ex)
      (forExamples (targetPred o ts') ex)
  | [] => Out.Leads.ok .nil
  | i :: is => by
      unfold forExamples
      refine Out.Leads.bind (R := fun a b : Num × Num => SameClass a.1 b.1 ∧ b.2 = a.2) ?_ fun a b _ hab => ?_
      · unfold targetPred index
        by_cases hi : i < ts.length
        · have hi' : i < ts'.length := h.length_eq ▸ hi
          rw [List.getElem?_eq_getElem hi, List.getElem?_eq_getElem hi']
          simp only [Out.ok_bind]
          refine .same fun p _ => Out.Leads.ok ⟨?_, rfl⟩
          exact h.get hi hi'
        · rw [List.getElem?_eq_none (by omega)]
          intro a e; cases e
      · refine (classes_targetPred h o is).bind fun x y _ hxy => Out.Leads.ok (.cons hab hxy)

theorem classes_hingeSum {tps tps' : List (Num × Num)}
    (h : List.Forall₂ (fun a b : Num × Num => SameClass a.1 b.1 ∧ b.2 = a.2) tps tps') :
    hingeSum F tps' = hingeSum F tps := by
  have : ∀ (f : Num → Num × Num → Num) (_ : ∀ v a b, SameClass a.1 b.1 ∧ b.2 = a.2 → f v b = f v a) (z : Num),
      tps'.foldl f z = tps.foldl f z := by
    intro f hf
    induction h with
    | nil => intro z; rfl
    | cons ht _ ih => intro z; simp only [List.foldl_cons, ih, hf z _ _ ht]
  refine this _ (fun v a b ht => ?_) _
  rw [show Num.lt _ _ = _ from ht.1, ht.2]

/-- The same objective, `hinge`. -/
def HingeEq (o o' : Objective) : Prop := o' = o ∧ o.kind = .hinge

theorem hinge_init {ts ts' : List Num} (h : List.Forall₂ SameClass ts ts') (cfg : Config) (o : Objective) (hk : o.kind = .hinge) :
    Out.Leads HingeEq (o.init F M cfg ts) (o.init F M cfg ts') := by
  unfold Objective.init
  simp only [hk, classes_counts h, h.length_eq]
  exact .same fun _ _ => Out.Leads.ok ⟨rfl, hk⟩

theorem hinge_sim {ts ts' : List Num} (h : List.Forall₂ SameClass ts ts') : TargetSim F M ts ts' HingeEq where
  update := by
    rintro _ o ⟨rfl, hk⟩
    unfold Objective.update
    simp only [hk, ← h.length_eq, classes_hinge h]
    exact .same fun _ _ => .same fun _ _ => Out.Leads.ok ⟨rfl, rfl⟩
  grads := by rintro o _ ⟨rfl, _⟩; rfl
  bounds := by rintro o _ ⟨rfl, _⟩; rfl
  leaf := by
    rintro _ o ⟨rfl, hk⟩ ex
    unfold Objective.predictLeafValue
    refine Out.Leads.bind (R := Eq) ?_ fun v v' _ e => ?_
    · unfold Objective.leafValue
      simp only [hk]
      refine (classes_targetPred h _ ex).bind fun a b _ hab => Out.Leads.ok ?_
      rw [classes_hingeSum hab]
    · subst e
      unfold Objective.updatePredictions
      exact .same fun _ _ => Out.Leads.ok ⟨rfl, rfl, hk⟩
  oob := by
    rintro _ o ⟨rfl, hk⟩ i v
    unfold Objective.updateOutOfBag
    split
    · intro a e; cases e
    · exact .same fun _ _ => Out.Leads.ok ⟨rfl, hk⟩

theorem classes_metric {ts ts' : List Num} (h : List.Forall₂ SameClass ts ts') {m : Metric}
    (hm : m = .binaryError ∨ m = .binaryError01) (ps : List Num) : m.eval F M ts' ps = m.eval F M ts ps := by
  have h0 : ∀ one : Num → Num → Num, (∀ t t' p, SameClass t t' → one t' p = one t p) →
      Metric.evalMean F one ts' ps = Metric.evalMean F one ts ps := by
    intro one h1
    unfold Metric.evalMean
    have : ∀ a : Num × Nat, (ts'.zip ps).foldl (fun (acc : Num × Nat) tp => (F.add acc.1 (one tp.1 tp.2), acc.2 + 1)) a =
        (ts.zip ps).foldl (fun (acc : Num × Nat) tp => (F.add acc.1 (one tp.1 tp.2), acc.2 + 1)) a := by
      induction h generalizing ps with
      | nil => intro a; rfl
      | cons ht _ ih =>
        intro a
        cases ps with
        | nil => rfl
        | cons p ps => simp only [List.zip_cons_cons, List.foldl_cons, h1 _ _ p ht, ih]
    rw [this]
  rcases hm with rfl | rfl
  · exact h0 _ fun t t' p ht => by unfold Metric.binaryErrorOne; rw [show Num.lt _ _ = _ from ht]
  · exact h0 _ fun t t' p ht => by unfold Metric.binaryError01One; rw [show Num.lt _ _ = _ from ht]

end BitBoost
