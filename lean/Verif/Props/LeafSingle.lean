import Verif.Props.Leaf
import Verif.Props.MedianSingle
import Mathlib.Analysis.Calculus.Deriv.MeanValue
import Mathlib.Analysis.Complex.ExponentialBounds
/-!
# C67 with rounding: leaf values and the loss of a leaf
-/
namespace BitBoost.Props
open BitBoost Spec

/-! ## Absolute loss -/

/-- Absolute loss in single precision: no value gives the examples of the leaf less loss than the value of the leaf, up
to 1/1000 of the range of the limits and `B / 2^20` per example; the limits are numbers of size at most `B`. -/
theorem C67_l1_f32_partial (o : Objective) (ts ps : List ℚ) (l h B : ℚ) (examples : List Nat)
    (hk : o.kind = .l1) (hp : o.predictions = column ps) (hl : ps.length = ts.length)
    (hlim : o.limits = (.fin l, .fin h)) (hW : 1 / 2 ^ 60 ≤ h - l) (hlB : |l| ≤ B) (hhB : |h| ≤ B) (hB : B ≤ 2 ^ 60)
    (hin : ∀ i ∈ examples, (Num.fin l).le (FP.binary32.rnd (at' ts i - at' ps i)) = true ∧
      (FP.binary32.rnd (at' ts i - at' ps i)).le (.fin h) = true)
    (hex : ∀ i ∈ examples, i < ts.length) (hn : examples.length ≤ 2 ^ 24) (hne : examples ≠ []) :
    ∃ r, Objective.leafValue .binary32 o (column ts) examples = .ok (.fin r) ∧
      ∀ c, (examples.map fun i => absLoss (at' ts i) (at' ps i + r)).sum ≤
        (examples.map fun i => absLoss (at' ts i) (at' ps i + c)).sum +
          examples.length * ((h - l) / 1000 + B / 2 ^ 20) := by
  obtain ⟨x, hx⟩ := orderStat_exists (examples.map fun i => at' ts i - at' ps i) (examples.length / 2)
    (by rw [List.length_map]; have := List.length_pos_of_ne_nil hne; omega)
  obtain ⟨r, hr, hrx⟩ := C57_l1_leaf_f32 o ts ps l h B examples hk hp hl hlim hW hlB hhB hB hin hex hn x hx
  refine ⟨r, hr, fun c => ?_⟩
  have hm := median_le (examples.map fun i => at' ts i - at' ps i) x c (by rw [List.length_map]; exact hx)
  rw [List.map_map, List.map_map] at hm
  generalize (h - l) / 1000 + B / 2 ^ 20 = E at hrx ⊢
  have hstep : (examples.map fun i => absLoss (at' ts i) (at' ps i + r)).sum ≤
      (examples.map fun i => |at' ts i - at' ps i - x|).sum + examples.length * E := by
    clear hr hx hm hne hex hin hn
    induction examples with
    | nil => simp
    | cons i is ih =>
      simp only [List.map_cons, List.sum_cons, List.length_cons]
      have : absLoss (at' ts i) (at' ps i + r) ≤ |at' ts i - at' ps i - x| + E := by
        unfold absLoss
        have e : at' ts i - (at' ps i + r) = (at' ts i - at' ps i - x) + (x - r) := by ring
        rw [e]
        have h1 := abs_add_le (at' ts i - at' ps i - x) (x - r)
        rw [abs_sub_comm x r] at h1
        linarith
      push_cast
      linarith
  have e : (examples.map fun i => absLoss (at' ts i) (at' ps i + c)) =
      examples.map ((fun r => |r - c|) ∘ fun i => at' ts i - at' ps i) := by
    apply List.map_congr_left
    intro i _
    simp only [absLoss, Function.comp]
    congr 1; ring
  rw [e]
  have e2 : (examples.map fun i => |at' ts i - at' ps i - x|) =
      examples.map ((fun r => |r - x|) ∘ fun i => at' ts i - at' ps i) := rfl
  rw [e2] at hstep
  linarith

/-! ## Hinge loss -/

/-- At least zero, or NaN. -/
private def NN (x : Num) : Prop := x = .nan ∨ (Num.fin 0).le x = true

private theorem nn_rnd (F : FP) {q : ℚ} (h : 0 ≤ q) : NN (F.rnd q) := by
  right
  have := F.mono 0 q h
  rwa [F.rnd_zero] at this

private theorem nn_add (F : FP) {a b : Num} (ha : NN a) (hb : NN b) : NN (F.add a b) := by
  cases a <;> cases b <;> simp_all [NN, Num.le, FP.add]
  rename_i p q
  exact nn_rnd F (add_nonneg ha hb)

private theorem nn_mul (F : FP) {a b : Num} (ha : NN a) (hb : NN b) : NN (F.mul a b) := by
  cases a <;> cases b <;> simp_all [NN, Num.le, FP.mul, FP.sgn, FP.infOf]
  · rename_i p q
    exact nn_rnd F (mul_nonneg ha hb)
  · rename_i p
    rcases ha.lt_or_eq with h | h
    · simp [h]
    · simp [← h]
  · rename_i p
    rcases hb.lt_or_eq with h | h
    · simp [h]
    · simp [← h]

private theorem nn_div (F : FP) {a b : Num} (ha : NN a) (hb : NN b) : NN (F.div a b) := by
  cases a with
  | fin p =>
    have hp : 0 ≤ p := by simpa [NN, Num.le] using ha
    cases b with
    | fin q =>
      have hq : 0 ≤ q := by simpa [NN, Num.le] using hb
      by_cases h : q = 0
      · subst h
        rcases hp.lt_or_eq with h | h
        · simp [FP.div, FP.sgn, FP.infOf, h, NN, Num.le]
        · simp [FP.div, FP.sgn, FP.infOf, ← h, NN]
      · simp only [FP.div, if_neg h]
        exact nn_rnd F (div_nonneg hp hq)
    | _ => simp_all [NN, FP.div, Num.le]
  | pinf =>
    cases b with
    | fin q =>
      have hq : 0 ≤ q := by simpa [NN, Num.le] using hb
      simp [FP.div, not_lt.2 hq, NN, Num.le]
    | _ => simp_all [NN, FP.div, Num.le]
  | ninf => simp [NN, Num.le] at ha
  | nan => simp [NN, FP.div]

private theorem nn_max (x : Num) : NN (Num.max x (.fin 0)) := by
  cases x <;> simp [NN, Num.max, Num.isNan, Num.le]
  rename_i q
  split_ifs with h <;> simp
  linarith

private theorem nn_square (F : FP) (x : Num) : NN (F.mul (Num.max x (.fin 0)) (Num.max x (.fin 0))) :=
  nn_mul F (nn_max x) (nn_max x)

private theorem neg_neg' (x : Num) : x.neg.neg = x := by cases x <;> simp [Num.neg]

private theorem sub_neg' (F : FP) (a b : Num) : F.sub a b = (F.add a.neg b).neg := by
  cases a <;> cases b <;> simp [FP.sub, FP.add, Num.neg]
  rename_i p q
  have := F.symm (-p + q)
  rw [show -(-p + q) = p + -q by ring] at this
  rw [this]; rfl

private theorem div_neg' (F : FP) (a b : Num) (hb : NN b) : F.div a.neg b = (F.div a b).neg := by
  cases a <;> cases b <;> simp_all [FP.div, Num.neg, NN, Num.le]
  · rename_i p q
    split_ifs with h
    · simp only [FP.sgn, FP.infOf]
      rcases lt_trichotomy p 0 with h | h | h
      · simp [h, not_lt.2 h.le, Num.neg]
      · simp [h, Num.neg]
      · simp [h, not_lt.2 h.le, Num.neg]
    · rw [neg_div, F.symm]; rfl
  · split_ifs <;> simp [Num.neg]
  · split_ifs <;> simp [Num.neg]

private theorem mul_neg' (F : FP) (a b : Num) : F.mul a b.neg = (F.mul a b).neg := by
  cases a <;> cases b <;> simp [FP.mul, Num.neg, FP.sgn, FP.infOf]
  · rw [F.symm]; rfl
  all_goals
    try rename_i p
    rcases lt_trichotomy p 0 with h | h | h
    · simp [h, not_lt.2 h.le, Num.neg]
    · simp [h, Num.neg]
    · simp [h, not_lt.2 h.le, Num.neg]

private theorem hinge_pos (F : FP) : ∀ (tps : List (Num × Num)) (a : Num), (∀ tp ∈ tps, tp.1.lt (.fin (1 / 2)) = false) →
    NN a → NN (tps.foldl (fun v tp =>
      if tp.1.lt (.fin (1 / 2)) then
        let x := Num.max (F.add (.fin 2) tp.2) (.fin 0)
        F.sub v (F.mul x x)
      else
        let x := Num.max (F.sub (.fin 2) tp.2) (.fin 0)
        F.add v (F.mul x x)) a) := by
  intro tps
  induction tps with
  | nil => intro a _ h; exact h
  | cons tp tps ih =>
    intro a h ha
    rw [List.foldl_cons]
    refine ih _ (fun x hx => h x (by simp [hx])) ?_
    rw [h tp (by simp)]
    exact nn_add F ha (nn_square F _)

private theorem hinge_neg (F : FP) : ∀ (tps : List (Num × Num)) (a : Num), (∀ tp ∈ tps, tp.1.lt (.fin (1 / 2)) = true) →
    NN a.neg → NN (tps.foldl (fun v tp =>
      if tp.1.lt (.fin (1 / 2)) then
        let x := Num.max (F.add (.fin 2) tp.2) (.fin 0)
        F.sub v (F.mul x x)
      else
        let x := Num.max (F.sub (.fin 2) tp.2) (.fin 0)
        F.add v (F.mul x x)) a).neg := by
  intro tps
  induction tps with
  | nil => intro a _ h; exact h
  | cons tp tps ih =>
    intro a h ha
    rw [List.foldl_cons]
    refine ih _ (fun x hx => h x (by simp [hx])) ?_
    rw [h tp (by simp)]
    simp only [if_true]
    rw [sub_neg', neg_neg']
    exact nn_add F ha (nn_square F _)

/-- A value that is not negative never lowers a representable number. -/
private theorem nn_up (F : FP) {p p' : ℚ} {v : Num} (hp : F.rnd p = .fin p) (hv : NN v)
    (h : F.add (.fin p) v = .fin p') : p ≤ p' := by
  cases v <;> simp_all [NN, Num.le, FP.add]
  rename_i q
  have := F.mono p (p + q) (by linarith)
  rw [hp, h] at this
  simpa [Num.le] using this

private theorem nn_down (F : FP) {p p' : ℚ} {v : Num} (hp : F.rnd p = .fin p) (hv : NN v.neg)
    (h : F.add (.fin p) v = .fin p') : p' ≤ p := by
  cases v <;> simp_all [NN, Num.le, FP.add, Num.neg]
  rename_i q
  have := F.mono (p + q) p (by linarith)
  rw [hp, h] at this
  simpa [Num.le] using this

/-- Hinge loss, for every rounding: when all examples of a leaf are of one class, giving them the value of the leaf makes
the loss of none of them larger. -/
theorem C67_hinge_rounded_partial (F : FP) (o o' : Objective) (ts ps : List ℚ) (examples : List Nat) (v : Num)
    (hk : o.kind = .hinge) (hp : o.predictions = column ps) (hl : ps.length = ts.length)
    (hex : ∀ i ∈ examples, i < ts.length) (hnd : examples.Nodup) (hrep : ∀ p ∈ ps, F.rnd p = .fin p) (rate : ℚ)
    (hr : o.learningRate = .fin rate) (hrate : 0 ≤ rate) (y : ℚ) (hy : ∀ i ∈ examples, classOf (at' ts i) = y)
    (h : Objective.predictLeafValue F o (column ts) examples = .ok (v, o')) (i : Nat) (hi : i ∈ examples) (p' : ℚ)
    (hp' : o'.predictions[i]? = some (.fin p')) : hingeLoss y p' ≤ hingeLoss y (at' ps i) := by
  obtain ⟨u, hu, rfl, _, _, hall⟩ := C67_update F o o' (column ts) examples v hnd h
  have hii := hex i hi
  have hpi : o.predictions[i]? = some (.fin (at' ps i)) := by
    rw [hp]
    have := column_get ps (i := i) (by omega)
    exact this
  have hnew := hall i _ hpi
  rw [if_pos hi, hp'] at hnew
  have hnew : F.add (.fin (at' ps i)) (F.mul o.learningRate u) = .fin p' := (Option.some.inj hnew).symm
  have hrepi : F.rnd (at' ps i) = .fin (at' ps i) := hrep _ (by
    simp only [at', List.getD_eq_getElem?_getD]
    rw [List.getElem?_eq_getElem (by omega)]
    simp)
  have hnr : NN o.learningRate := by rw [hr]; right; simpa [Num.le] using hrate
  have hnn : NN (F.ofNat examples.length) := nn_rnd F (by positivity)
  unfold Objective.leafValue at hu
  rw [hk] at hu
  simp only at hu
  obtain ⟨tps, ht, hu⟩ := Out.bind_eq_ok.1 hu
  have hu : F.div (Objective.hingeSum F tps) (F.ofNat examples.length) = u := by
    simpa [Out.pure_eq] using hu
  have htps : tps = examples.map fun i => (.fin (at' ts i), .fin (at' ps i)) := by
    rw [Objective.forExamples_ok _ (fun i => (.fin (at' ts i), .fin (at' ps i)))] at ht
    · exact (Out.ok.inj ht).symm
    · intro i hi
      simp only [Objective.targetPred, Objective.index, hp, column_get ts (hex i hi),
        column_get ps (by rw [hl]; exact hex i hi), Out.ok_bind, Out.pure_eq]
  have hyy : y = 1 ∨ y = -1 := by
    rw [← hy i hi]
    unfold classOf
    split_ifs
    · exact .inr rfl
    · exact .inl rfl
  unfold hingeLoss
  rcases hyy with rfl | rfl
  · have hs : NN (Objective.hingeSum F tps) := by
      refine hinge_pos F tps _ (fun tp htp => ?_) (Or.inr (by simp [Num.le]))
      rw [htps, List.mem_map] at htp
      obtain ⟨j, hj, rfl⟩ := htp
      have := hy j hj
      unfold classOf at this
      split_ifs at this with hc
      · norm_num at this
      · simpa [Num.lt] using hc
    have hun : NN u := hu ▸ nn_div F hs hnn
    have := nn_up F hrepi (nn_mul F hnr hun) hnew
    apply max_le_max (le_refl _)
    linarith
  · have hs : NN (Objective.hingeSum F tps).neg := by
      refine hinge_neg F tps _ (fun tp htp => ?_) (Or.inr (by simp [Num.le, Num.neg]))
      rw [htps, List.mem_map] at htp
      obtain ⟨j, hj, rfl⟩ := htp
      have := hy j hj
      unfold classOf at this
      split_ifs at this with hc
      · simpa [Num.lt] using hc
      · norm_num at this
    have hun : NN u.neg := by rw [← hu, ← div_neg' F _ _ hnn]; exact nn_div F hs hnn
    have := nn_down F hrepi (by rw [← mul_neg']; exact nn_mul F hnr hun) hnew
    apply max_le_max (le_refl _)
    linarith

/-! ## Log loss -/

/-- Log loss of the prediction `p` for the class `y` (1 or -1). -/
noncomputable def logLoss (y p : ℝ) : ℝ := Real.log (1 + Real.exp (-2 * y * p))

/-- Its derivative (C67_newton). -/
noncomputable def logGrad (y p : ℝ) : ℝ := -(2 * y) / (1 + Real.exp (2 * y * p))

/-- A quadratic bound: the second derivative of the log loss is at most 1. -/
private theorem log_upper (y : ℝ) (hy : y = 1 ∨ y = -1) (p s : ℝ) :
    logLoss y (p + s) ≤ logLoss y p + s * logGrad y p + s ^ 2 / 2 := by
  have hf : ∀ x, HasDerivAt (logLoss y) (logGrad y x) x := fun x => (C67_newton y hy x).1
  have hg : ∀ x, HasDerivAt (logGrad y) (|logGrad y x| * (2 - |logGrad y x|)) x := fun x => (C67_newton y hy x).2.1
  have hk : ∀ s, HasDerivAt (fun s => s - logGrad y (p + s)) (1 - |logGrad y (p + s)| * (2 - |logGrad y (p + s)|)) s := by
    intro s
    have h1 : HasDerivAt (fun s => logGrad y (p + s)) (|logGrad y (p + s)| * (2 - |logGrad y (p + s)|)) s := by
      exact HasDerivAt.comp_const_add p s (hg (p + s))
    exact (hasDerivAt_id s).sub h1
  have hmono : Monotone fun s => s - logGrad y (p + s) := by
    refine monotone_of_deriv_nonneg (fun s => (hk s).differentiableAt) (fun s => ?_)
    rw [(hk s).deriv]
    nlinarith [sq_nonneg (1 - |logGrad y (p + s)|)]
  have hh : ∀ s, HasDerivAt (fun s => logLoss y p + s * logGrad y p + s ^ 2 / 2 - logLoss y (p + s))
      (logGrad y p + s - logGrad y (p + s)) s := by
    intro s
    have h1 : HasDerivAt (fun s => logLoss y (p + s)) (logGrad y (p + s)) s := by
      exact HasDerivAt.comp_const_add p s (hf (p + s))
    have h2 : HasDerivAt (fun s : ℝ => logLoss y p + s * logGrad y p + s ^ 2 / 2) (logGrad y p + s) s := by
      have a := ((hasDerivAt_id s).mul_const (logGrad y p)).const_add (logLoss y p)
      have b := ((hasDerivAt_id s).pow 2).div_const 2
      have := a.add b
      refine this.congr_deriv ?_
      simp
    exact h2.sub h1
  have hcont : Continuous fun s => logLoss y p + s * logGrad y p + s ^ 2 / 2 - logLoss y (p + s) :=
    continuous_iff_continuousAt.2 fun s => (hh s).continuousAt
  have h0 : (fun s => logLoss y p + s * logGrad y p + s ^ 2 / 2 - logLoss y (p + s)) 0 = 0 := by simp
  rcases le_total 0 s with hs | hs
  · have hm : MonotoneOn (fun s => logLoss y p + s * logGrad y p + s ^ 2 / 2 - logLoss y (p + s)) (Set.Ici 0) := by
      refine monotoneOn_of_deriv_nonneg (convex_Ici 0) hcont.continuousOn
        (fun s _ => (hh s).differentiableAt.differentiableWithinAt) (fun s hs => ?_)
      rw [(hh s).deriv]
      rw [interior_Ici, Set.mem_Ioi] at hs
      have := hmono hs.le
      simp only [add_zero] at this
      linarith
    have := hm (Set.mem_Ici.2 le_rfl) (Set.mem_Ici.2 hs) hs
    rw [h0] at this
    simp only at this
    linarith
  · have hm : AntitoneOn (fun s => logLoss y p + s * logGrad y p + s ^ 2 / 2 - logLoss y (p + s)) (Set.Iic 0) := by
      refine antitoneOn_of_deriv_nonpos (convex_Iic 0) hcont.continuousOn
        (fun s _ => (hh s).differentiableAt.differentiableWithinAt) (fun s hs => ?_)
      rw [(hh s).deriv]
      rw [interior_Iic, Set.mem_Iio] at hs
      have := hmono hs.le
      simp only [add_zero] at this
      linarith
    have := hm (Set.mem_Iic.2 hs) (Set.mem_Iic.2 le_rfl) hs
    rw [h0] at this
    simp only at this
    linarith

/-- Log loss: when the stored gradients `gs` are within `η` of the derivatives, and the learning rate is at most
`2 (ε + H) / n`, where `H` is the sum of the second derivatives `|g| (2 - |g|)` of the `n` examples, giving the examples
of a leaf its value times the learning rate does not increase their total loss, up to `η` times the step for each. -/
theorem C67_binary_step_partial (o : Objective) (targets : List Num) (ys ps : Nat → ℝ) (gs : List ℚ) (examples : List Nat)
    (hk : o.kind = .binary) (hg : o.gradients = column gs) (hb : ∀ g ∈ gs, |g| ≤ 2) (hex : ∀ i ∈ examples, i < gs.length)
    (η : ℝ) (hy : ∀ i ∈ examples, ys i = 1 ∨ ys i = -1)
    (hη : ∀ i ∈ examples, |(at' gs i : ℝ) - logGrad (ys i) (ps i)| ≤ η) (rate : ℚ) (h0 : 0 ≤ rate)
    (hrate : rate * examples.length ≤ 2 * (1 / 2 ^ 23 + (examples.map fun i => |at' gs i| * (2 - |at' gs i|)).sum)) :
    ∃ r : ℚ, Objective.leafValue .exact o targets examples = .ok (.fin r) ∧
      (examples.map fun i => logLoss (ys i) (ps i + rate * r)).sum ≤
        (examples.map fun i => logLoss (ys i) (ps i)).sum + examples.length * (|(rate * r : ℝ)| * η) := by
  refine ⟨_, C67_binary_partial o targets gs examples hk hg hb hex, ?_⟩
  set G : ℚ := (examples.map fun i => at' gs i).sum with hG
  set H : ℚ := 1 / 2 ^ 23 + (examples.map fun i => |at' gs i| * (2 - |at' gs i|)).sum with hH
  have hHpos : 0 < H := by
    have : 0 ≤ (examples.map fun i => |at' gs i| * (2 - |at' gs i|)).sum := by
      apply List.sum_nonneg
      intro v hv
      obtain ⟨i, hi, rfl⟩ := List.mem_map.1 hv
      have : |at' gs i| ≤ 2 := hb _ (by
        simp only [at', List.getD_eq_getElem?_getD]
        rw [List.getElem?_eq_getElem (hex i hi)]; simp)
      exact mul_nonneg (abs_nonneg _) (by linarith)
    have : (0 : ℚ) < 1 / 2 ^ 23 := by norm_num
    linarith
  have key : ∀ (l : List Nat) (s : ℝ), (∀ i ∈ l, ys i = 1 ∨ ys i = -1) →
      (∀ i ∈ l, |(at' gs i : ℝ) - logGrad (ys i) (ps i)| ≤ η) →
      (l.map fun i => logLoss (ys i) (ps i + s)).sum ≤ (l.map fun i => logLoss (ys i) (ps i)).sum +
        s * ((l.map fun i => at' gs i).sum : ℚ) + l.length * (s ^ 2 / 2) + l.length * (|s| * η) := by
    intro l s
    induction l with
    | nil => intro _ _; simp
    | cons i l ih =>
      intro hy hη
      have h1 := ih (fun j hj => hy j (by simp [hj])) (fun j hj => hη j (by simp [hj]))
      have h2 := log_upper (ys i) (hy i (by simp)) (ps i) s
      have h3 : s * logGrad (ys i) (ps i) ≤ s * (at' gs i : ℝ) + |s| * η := by
        have h4 := mul_le_mul_of_nonneg_left (hη i (by simp)) (abs_nonneg s)
        rw [← abs_mul] at h4
        have h5 := (abs_le.1 h4).1
        linarith [mul_sub s (at' gs i : ℝ) (logGrad (ys i) (ps i))]
      simp only [List.map_cons, List.sum_cons, List.length_cons]
      push_cast
      push_cast at h1
      linarith
  have h1 := key examples ((rate * (-G / H) : ℚ) : ℝ) hy hη
  have hquad : ((rate * (-G / H) : ℚ)) * G + examples.length * ((rate * (-G / H)) ^ 2 / 2) ≤ 0 := by
    have e : (rate * (-G / H)) * G + examples.length * ((rate * (-G / H)) ^ 2 / 2) =
        rate * (G / H) ^ 2 * ((rate * examples.length) - 2 * H) / 2 := by
      field_simp
      ring
    rw [e]
    have : rate * (G / H) ^ 2 * ((rate * examples.length) - 2 * H) ≤ 0 :=
      mul_nonpos_of_nonneg_of_nonpos (mul_nonneg h0 (sq_nonneg _)) (by linarith)
    linarith
  have hquad' : ((rate * (-G / H) : ℚ) : ℝ) * (G : ℝ) + examples.length * (((rate * (-G / H) : ℚ) : ℝ) ^ 2 / 2) ≤ 0 := by
    exact_mod_cast hquad
  rw [← hG] at h1
  push_cast at h1 hquad' ⊢
  linarith

/-- Non-vacuity: at the prediction 0 the derivatives are -1 and 1 and the second derivatives 1, so every learning rate up
to 2 is allowed; the leaf of one example of class 1 gets a positive value. -/
example : ∃ (o : Objective) (gs : List ℚ) (r : ℚ), o.kind = .binary ∧ o.gradients = column gs ∧
    (|(at' gs 0 : ℝ) - logGrad 1 0| ≤ 0) ∧
    (2 : ℚ) * ([0].length : ℕ) ≤ 2 * (1 / 2 ^ 23 + ([0].map fun i => |at' gs i| * (2 - |at' gs i|)).sum) ∧
    Objective.leafValue .exact o [] [0] = .ok (.fin r) ∧ 0 < r := by
  refine ⟨{ Objective.new .binary with gradients := column [-1] }, [-1], _, rfl, rfl, ?_, by norm_num [at'],
    C67_binary_partial _ _ [-1] [0] rfl rfl (by norm_num) (by simp), by norm_num [at']⟩
  norm_num [at', logGrad]

/-! Log loss: a leaf with both classes can increase the loss. -/

/-- A math library whose `exp` and `ln` are accurate to one part in a thousand. -/
def AccurateLibm (M : Libm) : Prop :=
  (∀ q : ℚ, ∃ v : ℚ, M.exp (.fin q) = .fin v ∧ |(v : ℝ) - Real.exp q| ≤ Real.exp q / 1000) ∧
  (∀ q : ℚ, 0 < q → ∃ v : ℚ, M.ln (.fin q) = .fin v ∧ |(v : ℝ) - Real.log q| ≤ 1 / 1000)

/-- The log loss of some examples with 0/1 targets. -/
noncomputable def logTotal (ts ps : List ℚ) (examples : List Nat) : ℝ :=
  (examples.map fun i => logLoss (classOf (at' ts i)) (at' ps i)).sum

private theorem near (x ε : ℝ) (h : 0 < ε) : ∃ v : ℚ, |(v : ℝ) - x| ≤ ε := by
  obtain ⟨v, h1, h2⟩ := exists_rat_btwn (show x < x + ε by linarith)
  exact ⟨v, by rw [abs_of_pos (by linarith)]; linarith⟩

/-- `ln(1/16)` as an `f32`. -/
private def lnv : ℚ := -11629080 / 4194304

private noncomputable def accM : Libm where
  exp x := match x with
    | .fin q => if q = -lnv then .fin 16 else if q = lnv then .fin (1 / 16) else
        .fin (near (Real.exp q) (Real.exp q / 1000) (by positivity)).choose
    | x => x
  ln x := match x with
    | .fin q => if q = 16777215 / 268435456 then .fin lnv else
        .fin (near (Real.log q) (1 / 1000) (by norm_num)).choose
    | x => x
  sqrt x := x

private theorem log16 : |(-lnv : ℝ) - Real.log 16| ≤ 1 / 100000 := by
  have h : Real.log 16 = 4 * Real.log 2 := by
    rw [show (16 : ℝ) = 2 ^ 4 by norm_num, Real.log_pow]; norm_num
  have h1 := Real.log_two_gt_d9
  have h2 := Real.log_two_lt_d9
  rw [h, abs_le]
  unfold lnv
  push_cast
  constructor <;> linarith

private theorem exp_lnv : |(16 : ℝ) - Real.exp (-lnv)| ≤ Real.exp (-lnv) / 1000 ∧
    |(1 / 16 : ℝ) - Real.exp lnv| ≤ Real.exp lnv / 1000 := by
  have h := abs_le.1 log16
  have e16 : Real.exp (Real.log 16) = 16 := Real.exp_log (by norm_num)
  have key : ∀ d : ℝ, |d| ≤ 1 / 100000 → |1 - Real.exp d| ≤ 1 / 2000 := by
    intro d hd
    have hd' := abs_le.1 hd
    have h1 := Real.add_one_le_exp d
    have h2 : Real.exp d ≤ 1 / (1 - d) := by
      have := Real.add_one_le_exp (-d)
      rw [Real.exp_neg] at this
      rw [le_div_iff₀ (by linarith)]
      have hp := Real.exp_pos d
      have := mul_le_mul_of_nonneg_left this hp.le
      rw [mul_inv_cancel₀ hp.ne'] at this
      linarith
    have h3 : 1 / (1 - d) ≤ 1 + 1 / 2000 := by
      rw [div_le_iff₀ (by linarith)]; nlinarith
    rw [abs_le]; constructor <;> linarith
  have e1 : Real.exp (-lnv) = 16 * Real.exp (-lnv - Real.log 16) := by
    rw [Real.exp_sub, e16]; field_simp
  have e2 : Real.exp lnv = 1 / 16 * Real.exp (lnv + Real.log 16) := by
    rw [Real.exp_add, e16]; field_simp
  have k1 := abs_le.1 (key _ log16)
  have k2 := abs_le.1 (key (lnv + Real.log 16) (by
    rw [show (lnv : ℝ) + Real.log 16 = -(-lnv - Real.log 16) by ring, abs_neg]; exact log16))
  rw [e1, e2]
  constructor <;> rw [abs_le] <;> constructor <;> linarith [k1.1, k1.2, k2.1, k2.2]

private theorem accM_accurate : AccurateLibm accM := by
  constructor
  · intro q
    show ∃ v : ℚ, (if q = -lnv then Num.fin 16 else if q = lnv then .fin (1 / 16) else
        .fin (near (Real.exp q) (Real.exp q / 1000) (by positivity)).choose) = .fin v ∧ _
    split_ifs with h1 h2
    · subst h1
      refine ⟨16, rfl, ?_⟩
      push_cast
      exact exp_lnv.1
    · subst h2
      refine ⟨1 / 16, rfl, ?_⟩
      push_cast
      exact exp_lnv.2
    · exact ⟨_, rfl, (near (Real.exp q) (Real.exp q / 1000) (by positivity)).choose_spec⟩
  · intro q hq
    show ∃ v : ℚ, (if q = 16777215 / 268435456 then Num.fin lnv else
        .fin (near (Real.log q) (1 / 1000) (by norm_num)).choose) = .fin v ∧ _
    split_ifs with h1
    · subst h1
      refine ⟨lnv, rfl, ?_⟩
      have h := abs_le.1 log16
      have e : Real.log ((16777215 / 268435456 : ℚ) : ℝ) = -Real.log 16 + Real.log (16777215 / 16777216) := by
        rw [← Real.log_inv, ← Real.log_mul (by norm_num) (by norm_num)]
        congr 1; norm_num
      have u1 := Real.log_le_sub_one_of_pos (show (0 : ℝ) < 16777215 / 16777216 by norm_num)
      have u2 := Real.one_sub_inv_le_log_of_pos (show (0 : ℝ) < 16777215 / 16777216 by norm_num)
      rw [e, abs_le]
      norm_num at u1 u2
      constructor <;> linarith
    · exact ⟨_, rfl, (near (Real.log q) (1 / 1000) (by norm_num)).choose_spec⟩

private def logTargets : List ℚ := 1 :: List.replicate 16 0

private noncomputable def logRun : Out (Objective × Objective × Objective) := do
  let o ← Objective.init .binary32 accM (Objective.new .binary) Config.new (column logTargets)
  let o1 ← Objective.update .binary32 accM o (column logTargets)
  let (_, o2) ← Objective.predictLeafValue .binary32 o1 (column logTargets) [0, 1]
  let (_, o3) ← Objective.predictLeafValue .binary32 o2 (column logTargets) ((List.range 17).drop 2)
  return (o, o1, o3)

private theorem logLoss_nonneg (y p : ℝ) : 0 ≤ logLoss y p := by
  unfold logLoss
  exact Real.log_nonneg (by linarith [Real.exp_pos (-2 * y * p)])

private theorem logLoss_ge (y p : ℝ) : -2 * y * p ≤ logLoss y p := by
  unfold logLoss
  rw [Real.le_log_iff_exp_le (by positivity)]
  linarith [Real.exp_pos (-2 * y * p)]

private theorem logLoss_le_exp (y p : ℝ) : logLoss y p ≤ Real.exp (-2 * y * p) := by
  unfold logLoss
  have := Real.log_le_sub_one_of_pos (show 0 < 1 + Real.exp (-2 * y * p) by positivity)
  linarith

/-- C67 (false for log loss): seventeen examples, the first of class 1. The first tree has a leaf with the first two
examples and one with all others. The loss of the examples of the first leaf, and that of all examples, is larger after
this tree than before it. (Learning rate 1, arithmetic of the code, an accurate `exp` and `ln`.) -/
theorem C67_binary_refuted : ∃ (M : Libm) (o o1 o' : Objective) (ts ps ps' : List ℚ) (l1 l2 : List Nat),
    AccurateLibm M ∧
    Objective.init .binary32 M (Objective.new .binary) Config.new (column ts) = .ok o ∧
    Objective.update .binary32 M o (column ts) = .ok o1 ∧
    LeafCalls .binary32 (column ts) o1 [l1, l2] o' ∧ l1 ++ l2 = List.range ts.length ∧ o1.learningRate = .fin 1 ∧
    o1.predictions = column ps ∧ o'.predictions = column ps' ∧
    logTotal ts ps l1 < logTotal ts ps' l1 ∧ logTotal ts ps (l1 ++ l2) < logTotal ts ps' (l1 ++ l2) := by
  have h : (match logRun with
    | .ok (_, o1, o') => decide (o1.learningRate = .fin 1) &&
        (match finite o1.predictions, finite o'.predictions with
        | some ps, some ps' => decide (ps = List.replicate 17 (lnv / 2)) && decide (5 / 2 ≤ at' ps' 1)
        | _, _ => false)
    | _ => false : Bool) = true := by decide +kernel
  split at h
  · rename_i o o1 o' hr
    rw [Bool.and_eq_true] at h
    obtain ⟨h0, h⟩ := h
    split at h
    · rename_i ps ps' h1 h2
      rw [Bool.and_eq_true] at h
      have hps : ps = List.replicate 17 (lnv / 2) := of_decide_eq_true h.1
      have hps' : 5 / 2 ≤ at' ps' 1 := of_decide_eq_true h.2
      unfold logRun at hr
      obtain ⟨o0, e0, hr⟩ := Out.bind_eq_ok.1 hr
      obtain ⟨oa, ea, hr⟩ := Out.bind_eq_ok.1 hr
      obtain ⟨⟨v1, ob⟩, e1, hr⟩ := Out.bind_eq_ok.1 hr
      obtain ⟨⟨v2, oc⟩, e2, hr⟩ := Out.bind_eq_ok.1 hr
      cases hr
      have hat : ∀ i < 17, at' ps i = lnv / 2 := by
        intro i hi
        rw [hps, at', List.getD_eq_getElem?_getD, List.getElem?_replicate, if_pos hi]; rfl
      have c0 : classOf (at' logTargets 0) = 1 := by norm_num [classOf, at', logTargets]
      have c1 : ∀ i, 0 < i → i < 17 → classOf (at' logTargets i) = -1 := by
        intro i h0 hi
        obtain ⟨j, rfl⟩ := Nat.exists_eq_succ_of_ne_zero h0.ne'
        have : at' logTargets (j + 1) = 0 := by
          rw [at', logTargets, List.getD_cons_succ, List.getD_eq_getElem?_getD, List.getElem?_replicate,
            if_pos (by omega)]; rfl
        rw [show j.succ = j + 1 from rfl, this]; norm_num [classOf]
      have hl : |(-lnv : ℝ) - Real.log 16| ≤ 1 / 100000 := log16
      have hex := exp_lnv
      have b0 : logLoss 1 ((lnv / 2 : ℚ) : ℝ) ≤ 7 / 2 := by
        unfold logLoss
        rw [show (-2 * 1 * ((lnv / 2 : ℚ) : ℝ)) = -lnv by push_cast; ring]
        have : 1 + Real.exp (-lnv) ≤ 2 ^ 5 := by
          have := (abs_le.1 hex.1).1
          have := (abs_le.1 hex.1).2
          linarith
        have h1 := Real.log_le_log (by positivity) this
        rw [Real.log_pow] at h1
        have h2 := Real.log_two_lt_d9
        push_cast at h1
        linarith
      have b1 : logLoss (-1) ((lnv / 2 : ℚ) : ℝ) ≤ 1 / 15 := by
        refine (logLoss_le_exp _ _).trans ?_
        rw [show (-2 * -1 * ((lnv / 2 : ℚ) : ℝ)) = lnv by push_cast; ring]
        have := (abs_le.1 hex.2).1
        have := (abs_le.1 hex.2).2
        linarith
      have low : ∀ l : List Nat, 1 ∈ l → 5 ≤ logTotal logTargets ps' l := by
        intro l hl
        unfold logTotal
        refine le_trans ?_ (List.single_le_sum (fun x hx => ?_) (logLoss (classOf (at' logTargets 1)) (at' ps' 1))
          (List.mem_map.2 ⟨1, hl, rfl⟩))
        · rw [c1 1 (by norm_num) (by norm_num)]
          refine le_trans ?_ (logLoss_ge _ _)
          have : ((5 / 2 : ℚ) : ℝ) ≤ at' ps' 1 := by exact_mod_cast hps'
          push_cast at this ⊢
          linarith
        · obtain ⟨i, _, rfl⟩ := List.mem_map.1 hx
          exact logLoss_nonneg _ _
      have up : ∀ l : List Nat, (∀ i ∈ l, 0 < i ∧ i < 17) → logTotal logTargets ps (0 :: l) ≤ 7 / 2 + l.length * (1 / 15) := by
        intro l hl
        unfold logTotal
        rw [List.map_cons, List.sum_cons, c0, hat 0 (by norm_num)]
        have : (l.map fun i => logLoss (classOf (at' logTargets i)) (at' ps i)).sum ≤ l.length * (1 / 15) := by
          have := List.sum_le_card_nsmul (l.map fun i => logLoss (classOf (at' logTargets i)) (at' ps i)) (1 / 15) (by
            intro x hx
            obtain ⟨i, hi, rfl⟩ := List.mem_map.1 hx
            obtain ⟨g1, g2⟩ := hl i hi
            rw [c1 i g1 g2, hat i g2]
            push_cast at b1 ⊢
            exact b1)
          simpa using this
        push_cast at b0 ⊢
        linarith
      refine ⟨accM, o, o1, o', logTargets, ps, ps', [0, 1], (List.range 17).drop 2, accM_accurate, e0, ea,
        .cons v1 e1 (.cons v2 e2 (.nil _)), by decide, of_decide_eq_true h0, finite_some h1, finite_some h2, ?_, ?_⟩
      · have a := up [1] (by simp)
        have b := low [0, 1] (by simp)
        norm_num at a
        linarith
      · have a := up (List.range' 1 16) (by intro i hi; rw [List.mem_range'_1] at hi; omega)
        have e : [0, 1] ++ (List.range 17).drop 2 = 0 :: List.range' 1 16 := by decide
        rw [e]
        have b := low (0 :: List.range' 1 16) (by decide)
        rw [List.length_range'] at a
        norm_num at a
        linarith
    · cases h
  · cases h

end BitBoost.Props
