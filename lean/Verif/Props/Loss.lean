import Verif.Props.Objective
import Mathlib.Analysis.SpecialFunctions.Log.Deriv
import Mathlib.Analysis.SpecialFunctions.ExpDeriv
/-!
# C49, C50, C56, C57: starting values, totality, gradients, quantile leaves
-/
namespace BitBoost.Props
open BitBoost Spec

/-! ## C49 -/

/-- After `initialize` every prediction is the bias. -/
theorem C49_predictions_are_bias (F : FP) (M : Libm) (o o' : Objective) (c : Config) (targets : List Num)
    (h : Objective.init F M o c targets = .ok o') :
    o'.predictions = List.replicate targets.length o'.bias ∧
      o'.gradients = List.replicate targets.length (.fin 0) ∧ o'.learningRate = c.learningRate ∧
      o'.kind = o.kind := by
  unfold Objective.init at h
  simp only at h
  cases hk : o.kind <;> rw [hk] at h <;> simp only at h
  · simp only [Out.ok.injEq] at h; subst h; simp [Objective.initializeBase, hk]
  · rw [Out.bind_eq_ok] at h
    obtain ⟨b, _, h⟩ := h
    simp only [Out.pure_eq, Out.ok.injEq] at h; subst h; simp [Objective.initializeBase, hk]
  · rw [Out.bind_eq_ok] at h
    obtain ⟨b, _, h⟩ := h
    rw [Out.bind_eq_ok] at h
    obtain ⟨_, _, h⟩ := h
    simp only [Out.pure_eq, Out.ok.injEq] at h; subst h; simp [Objective.initializeBase, hk]
  · simp only [Out.ok.injEq] at h; subst h; simp [Objective.initializeBase, hk]
  · rw [Out.bind_eq_ok] at h
    obtain ⟨_, _, h⟩ := h
    simp only [Out.pure_eq, Out.ok.injEq] at h; subst h; simp [Objective.initializeBase, hk]

/-- An ensemble without trees whose bias is set to the objective's predicts for every row what the
objective starts from. -/
theorem C49_empty_ensemble (F : FP) (M : Libm) (o o' : Objective) (c : Config) (d : Data)
    (targets : List Num) (hn : d.nexamples = targets.length)
    (h : Objective.init F M o c targets = .ok o') :
    (AdditiveTree.new.setBias o'.bias).predict F d = .ok o'.predictions := by
  rw [(C49_predictions_are_bias F M o o' c targets h).1, ← hn]
  simp [AdditiveTree.predict, AdditiveTree.predictBuf, AdditiveTree.setBias, AdditiveTree.new,
    AdditiveTree.addTrees]

/-- Squared loss starts from the mean of the targets. -/
theorem C49_l2_mean (M : Libm) (o : Objective) (c : Config) (ts : List ℚ) (hne : ts ≠ [])
    (hk : o.kind = .l2) :
    ∃ o', Objective.init .exact M o c (column ts) = .ok o' ∧ o'.bias = .fin (ts.sum / ts.length) := by
  have hlen : (ts.length : ℚ) ≠ 0 := by
    have := List.length_pos_of_ne_nil hne
    positivity
  refine ⟨_, by unfold Objective.init; rw [hk], ?_⟩
  simp only [Objective.initializeBase, column, Objective.sum_exact, List.length_map]
  show FP.exact.div _ (.fin ts.length) = _
  rw [FP.div_fin _ hlen]; rfl

private theorem filter_column (ts : List ℚ) :
    ((column ts).filter fun x => x.lt (.fin (1 / 2))).length = (ts.filter fun t => t < 1 / 2).length := by
  induction ts with
  | nil => rfl
  | cons t ts ih =>
    simp only [column, List.map_cons, List.filter_cons] at ih ⊢
    by_cases ht : t < 1 / 2
    · simp only [Num.lt, ht, decide_true, if_true, List.length_cons] at ih ⊢; omega
    · simp only [Num.lt, ht, decide_false, Bool.false_eq_true, if_false] at ih ⊢; exact ih

/-- Hinge loss starts from the difference of the class frequencies. -/
theorem C49_hinge_prior (M : Libm) (o : Objective) (c : Config) (ts : List ℚ) (hne : ts ≠ [])
    (hk : o.kind = .hinge) (hc : c.discrNbits = 2) :
    let nneg := (ts.filter fun t => t < 1 / 2).length
    let npos := (ts.filter fun t => ¬ t < 1 / 2).length
    ∃ o', Objective.init .exact M o c (column ts) = .ok o' ∧
      o'.bias = .fin (((npos : ℚ) - nneg) / ts.length) := by
  intro nneg npos
  have hlen : (ts.length : ℚ) ≠ 0 := by
    have := List.length_pos_of_ne_nil hne
    positivity
  have hsum : (ts.length : ℚ) = nneg + npos := by
    have := List.length_eq_length_filter_add (l := ts) (fun t => decide (t < 1 / 2))
    simp only [nneg, npos]
    have e : (ts.filter fun t => ¬ t < 1 / 2) = ts.filter (fun t => ! decide (t < 1 / 2)) := by
      congr 1; funext t; exact decide_not
    rw [e]
    exact_mod_cast this
  refine ⟨_, by unfold Objective.init; rw [hk]; simp only [hc, beq_self_eq_true, Out.assert_true, Out.ok_bind]; rfl, ?_⟩
  simp only [Objective.initializeBase, Objective.classCounts, filter_column]
  simp only [column, List.length_map]
  show FP.exact.div (.fin ((nneg : ℚ) * (-1) + (ts.length + -(nneg : ℚ)))) (.fin ts.length) = _
  rw [FP.div_fin _ hlen]
  show Num.fin _ = _
  rw [hsum]; congr 1; ring

/-- Log loss starts from half the log odds of the positive class (when both classes occur). -/
theorem C49_binary_prior (M : Libm) (o : Objective) (c : Config) (ts : List ℚ) (hk : o.kind = .binary)
    (hpos : ∃ t ∈ ts, ¬ t < 1 / 2) (hneg : ∃ t ∈ ts, t < 1 / 2) :
    let nneg := (ts.filter fun t => t < 1 / 2).length
    let npos := (ts.filter fun t => ¬ t < 1 / 2).length
    ∃ o', Objective.init .exact M o c (column ts) = .ok o' ∧
      o'.bias = FP.exact.mul (.fin (1 / 2)) (M.ln (.fin ((npos : ℚ) / nneg))) := by
  intro nneg npos
  have hn0 : (0 : ℚ) < nneg := by
    obtain ⟨t, h1, h2⟩ := hneg
    have : 0 < nneg := List.length_pos_of_mem (a := t) (by simp [h1]; linarith)
    exact_mod_cast this
  have hp0 : (0 : ℚ) < npos := by
    obtain ⟨t, h1, h2⟩ := hpos
    have : 0 < npos := List.length_pos_of_mem (a := t) (by simp [h1]; linarith)
    exact_mod_cast this
  have hsum : (ts.length : ℚ) = nneg + npos := by
    have := List.length_eq_length_filter_add (l := ts) (fun t => decide (t < 1 / 2))
    simp only [nneg, npos]
    have e : (ts.filter fun t => ¬ t < 1 / 2) = ts.filter (fun t => ! decide (t < 1 / 2)) := by
      congr 1; funext t; exact decide_not
    rw [e]
    exact_mod_cast this
  refine ⟨_, by unfold Objective.init; rw [hk], ?_⟩
  simp only [Objective.initializeBase, Objective.classCounts, filter_column]
  simp only [column, List.length_map]
  show FP.exact.mul (.fin (1 / 2)) (M.ln (FP.exact.div (FP.exact.add (.fin 1) (FP.exact.div
    (.fin (-1 * (nneg : ℚ) + 1 * (ts.length + -(nneg : ℚ)))) (.fin ts.length))) (FP.exact.sub (.fin 1) (FP.exact.div
    (.fin (-1 * (nneg : ℚ) + 1 * (ts.length + -(nneg : ℚ)))) (.fin ts.length))))) = _
  have hlen : (ts.length : ℚ) ≠ 0 := by rw [hsum]; positivity
  rw [FP.div_fin _ hlen]
  show FP.exact.mul (.fin (1 / 2)) (M.ln (FP.exact.div (.fin (1 +
    ((-1 * (nneg : ℚ) + 1 * (ts.length + -(nneg : ℚ))) / ts.length)))
    (.fin (1 + -((-1 * (nneg : ℚ) + 1 * (ts.length + -(nneg : ℚ))) / ts.length))))) = _
  have e1 : 1 + ((-1 * (nneg : ℚ) + 1 * (ts.length + -(nneg : ℚ))) / ts.length) = 2 * npos / ts.length := by
    field_simp; rw [hsum]; ring
  have e2 : 1 + -((-1 * (nneg : ℚ) + 1 * (ts.length + -(nneg : ℚ))) / ts.length) = 2 * nneg / ts.length := by
    field_simp; ring
  rw [e1, e2, FP.div_fin _ (by positivity)]
  show FP.exact.mul (.fin (1 / 2)) (M.ln (.fin _)) = _
  congr 3
  field_simp

/-! ## C57 -/

/-- Exact arithmetic: for values inside the limits, `quantile!` with parameter `q` is within one bin
width `(hi - lo) / 1024` of the order statistic of rank `⌊n q⌋`. -/
theorem C57_quantile (q l h : ℚ) (hlt : l < h) (vals : List ℚ) (hin : ∀ v ∈ vals, l ≤ v ∧ v ≤ h)
    (rank : Nat) (hrank : rank = ⌊(vals.length : ℚ) * q⌋) (h32 : rank < 2 ^ 32) (x : ℚ)
    (hx : IsOrderStat (column vals) rank (.fin x)) :
    ∃ r, Objective.quantile .exact (.fin q) (.fin l, .fin h) (column vals) = .ok (.fin r) ∧
      |r - x| ≤ (h - l) / 1024 := by
  obtain ⟨Z, hZ, hZl⟩ : ∃ Z, Z = List.replicate 1024 (0 : Nat) ∧ Z.length = 1024 :=
    ⟨_, rfl, List.length_replicate⟩
  have hZne : Z ≠ [] := by intro hc; rw [hc] at hZl; simp at hZl
  have hδ : 0 < (h - l) / 1024 := by have : 0 < h - l := by linarith
                                     positivity
  have hb : Binner.new .exact Z (.fin l) (.fin h) = .ok ⟨Z, .fin l, .fin ((h - l) / 1024)⟩ := by
    rw [Binner.new_eq_ok]
    refine ⟨l, h, rfl, rfl, hlt, hZne, ?_⟩
    rw [hZl]
    simp only [FP.exact, FP.div]; norm_num
  have hb' := hb
  rw [hZ] at hb'
  obtain ⟨b', i, r, e1, e2, e3, e4, e5⟩ := C26_quantile 1024 (by norm_num) l h _ hb' vals hin rank x hx
  rw [← hZ] at e1
  obtain ⟨b3, g3, g4, g5, g6, _⟩ := Binner.insertAll_ok .exact (fun (_ : Unit) (c : Nat) => c + 1)
    (vals.map (fun v => (Num.fin v, ()))) ⟨Z, .fin l, .fin ((h - l) / 1024)⟩ hZne
  have hbb : b3 = b' := by rw [g3] at e1; injection e1
  subst hbb
  have hlen : b3.bins.length = 1024 := by rw [g6]; exact hZl
  have hi : i < 1024 := by
    obtain ⟨j, f1, f2, _⟩ := C25_bin_with_rank Binner.natOps id b3.bins rank (by intro hc; simp [hc] at hlen)
      (by simp [Binner.natOps])
    rw [f1] at e2; injection e2 with e2; omega
  have hrep : ∀ k, Binner.representative .exact b3 k = .fin (l + (min k 1023 : ℕ) * ((h - l) / 1024)) := by
    intro k
    simp only [Binner.representative, g4, g5, hlen]; rfl
  have hr : r = l + (min i 1023 : ℕ) * ((h - l) / 1024) := by
    rw [hrep] at e3; injection e3 with e3; exact e3.symm
  refine ⟨l + (min (i + 1) 1023 : ℕ) * ((h - l) / 1024), ?_, ?_⟩
  · unfold Objective.quantile
    have hm : ((column vals).map fun v => (v, ())) = vals.map (fun v => (Num.fin v, ())) := by
      simp [column]
    have hrk : (FP.exact.mul (FP.exact.ofNat (column vals).length) (.fin q)).floor.toU32 = rank := by
      show (Num.cast 0 (2 ^ 32 - 1) (.fin ((⌊((column vals).length : ℚ) * q⌋ : ℤ) : ℚ))).toNat = rank
      have : (column vals).length = vals.length := by simp [column]
      rw [this, ← hrank]
      simp only [Num.cast]
      have : (((rank : ℕ) : ℤ) : ℚ) = ((rank : ℤ) : ℚ) := rfl
      rw [Num.trunc_int]
      omega
    rw [← hZ, hb]
    simp only [Out.ok_bind, hm, g3, hrk, e2, Out.pure_eq, hrep]
  · have hcases : (min (i + 1) 1023 = min i 1023 + 1) ∨ (min (i + 1) 1023 = min i 1023) := by omega
    rw [abs_le]
    rcases hcases with hc | hc <;> rw [hc]
    · push_cast
      have : l + (((min i 1023 : ℕ) : ℚ) + 1) * ((h - l) / 1024) = r + (h - l) / 1024 := by rw [hr]; ring
      push_cast at this
      rw [this]
      have e5' : x ≤ r + (h - l) / 1024 := by exact_mod_cast e5
      constructor <;> linarith
    · rw [← hr]
      have e5' : x ≤ r + (h - l) / 1024 := by exact_mod_cast e5
      constructor <;> linarith

theorem limits_column (vals : List ℚ) (hne : vals ≠ []) :
    ∃ l h, Objective.limitsOf (column vals) = (.fin l, .fin h) ∧ l ∈ vals ∧ h ∈ vals ∧
      ∀ v ∈ vals, l ≤ v ∧ v ≤ h := by
  obtain ⟨h1, h2, h3⟩ := Objective.limitsOf_spec (column vals) (by simpa [column] using hne)
    (by intro x hx; simp only [column, List.mem_map] at hx; obtain ⟨q, _, rfl⟩ := hx; simp)
  have h1' := h1
  have h2' := h2
  simp only [column, List.mem_map] at h1' h2'
  obtain ⟨l, hl, el⟩ := h1'
  obtain ⟨h, hh, eh⟩ := h2'
  refine ⟨l, h, by rw [Prod.ext_iff]; exact ⟨el.symm, eh.symm⟩, hl, hh, ?_⟩
  intro v hv
  have := h3 (.fin v) (by simp [column, hv])
  have e1 : (Objective.limitsOf (column vals)).1 = .fin l := el.symm
  have e2 : (Objective.limitsOf (column vals)).2 = .fin h := eh.symm
  rw [e1, e2] at this
  simpa [Num.le] using this

private theorem limits_lt (vals : List ℚ) (hne : ∃ a ∈ vals, ∃ b ∈ vals, a ≠ b) :
    ∃ l h, Objective.limitsOf (column vals) = (.fin l, .fin h) ∧ l < h ∧ l ∈ vals ∧ h ∈ vals ∧
      ∀ v ∈ vals, l ≤ v ∧ v ≤ h := by
  obtain ⟨a, ha, b, hb, hab⟩ := hne
  obtain ⟨l, h, e, h1, h2, h3⟩ := limits_column vals (List.ne_nil_of_mem ha)
  refine ⟨l, h, e, ?_, h1, h2, h3⟩
  by_contra hc
  apply hab
  have := h3 a ha
  have := h3 b hb
  push Not at hc
  apply le_antisymm <;> linarith

/-- Absolute and Huber loss start from the median of the targets, up to the width of a bin: 1/1024 of
the range of the targets. -/
theorem C57_bias_is_median (M : Libm) (o o' : Objective) (c : Config) (ts : List ℚ)
    (hk : o.kind = .l1 ∨ o.kind = .huber) (h : Objective.init .exact M o c (column ts) = .ok o')
    (h32 : ts.length < 2 ^ 32) (x lo hi : ℚ) (hx : IsOrderStat (column ts) (ts.length / 2) (.fin x))
    (hlo : lo ∈ ts ∧ ∀ t ∈ ts, lo ≤ t) (hhi : hi ∈ ts ∧ ∀ t ∈ ts, t ≤ hi) :
    ∃ b, o'.bias = .fin b ∧ |b - x| ≤ (hi - lo) / 1024 := by
  have hq : ∃ b, Objective.median .exact (Objective.limitsOf (column ts)) (column ts) = .ok b ∧
      o'.bias = b := by
    unfold Objective.init at h
    simp only at h
    rcases hk with hk | hk <;> rw [hk] at h <;> simp only at h
    · rw [Out.bind_eq_ok] at h
      obtain ⟨b, hb, h⟩ := h
      simp only [Out.pure_eq, Out.ok.injEq] at h; subst h; exact ⟨b, hb, rfl⟩
    · rw [Out.bind_eq_ok] at h
      obtain ⟨b, hb, h⟩ := h
      rw [Out.bind_eq_ok] at h
      obtain ⟨_, _, h⟩ := h
      simp only [Out.pure_eq, Out.ok.injEq] at h; subst h; exact ⟨b, hb, rfl⟩
  obtain ⟨b, hb, hbias⟩ := hq
  obtain ⟨l, u, e, hl, hu, hin⟩ := limits_column ts (List.ne_nil_of_mem hlo.1)
  have el : l = lo := le_antisymm (hin _ hlo.1).1 (hlo.2 _ hl)
  have eu : u = hi := le_antisymm (hhi.2 _ hu) (hin _ hhi.1).2
  subst el eu
  rw [e] at hb
  have hlt : l < u := by
    rcases quantile_cases .exact (.fin (1 / 2)) (.fin l) (.fin u) (column ts) with ⟨h', _⟩ |
      ⟨l', u', _, e1, e2, hlt, _⟩
    · unfold Objective.median at hb; rw [h'] at hb; simp at hb
    · injection e1 with e1; injection e2 with e2; rw [e1, e2]; exact hlt
  obtain ⟨r, hr, hrx⟩ := C57_quantile (1 / 2) l u hlt ts hin (ts.length / 2) (by
    have : (ts.length : ℚ) * (1 / 2) = ((ts.length : ℕ) : ℚ) / ((2 : ℕ) : ℚ) := by push_cast; ring
    rw [this, Rat.floor_natCast_div_natCast]; norm_cast) (by omega) x hx
  unfold Objective.median at hb
  rw [hr] at hb
  injection hb with hb
  exact ⟨r, by rw [hbias, ← hb], hrx⟩

/-- Absolute loss: the value of a leaf, before it is scaled with the learning rate, is the median of the
residuals of its examples, up to 1/1024 of the range of the residuals of all examples. `limits` is the
range `update` computed. -/
theorem C57_l1_leaf (o : Objective) (ts ps : List ℚ) (l h : ℚ) (examples : List Nat)
    (hk : o.kind = .l1) (hp : o.predictions = column ps) (hl : ps.length = ts.length)
    (hlim : o.limits = (.fin l, .fin h)) (hlt : l < h)
    (hin : ∀ i < ts.length, l ≤ at' ts i - at' ps i ∧ at' ts i - at' ps i ≤ h)
    (hex : ∀ i ∈ examples, i < ts.length) (h32 : examples.length < 2 ^ 32) (x : ℚ)
    (hx : IsOrderStat (column (examples.map fun i => at' ts i - at' ps i)) (examples.length / 2) (.fin x)) :
    ∃ r, Objective.leafValue .exact o (column ts) examples = .ok (.fin r) ∧ |r - x| ≤ (h - l) / 1024 := by
  obtain ⟨r, hr, hrx⟩ := C57_quantile (1 / 2) l h hlt (examples.map fun i => at' ts i - at' ps i)
    (by
      intro v hv
      simp only [List.mem_map] at hv
      obtain ⟨i, hi, rfl⟩ := hv
      exact hin i (hex i hi)) (examples.length / 2) (by
    rw [List.length_map]
    have : (examples.length : ℚ) * (1 / 2) = ((examples.length : ℕ) : ℚ) / ((2 : ℕ) : ℚ) := by
      push_cast; ring
    rw [this, Rat.floor_natCast_div_natCast]; norm_cast) (by omega) x hx
  refine ⟨r, ?_, hrx⟩
  unfold Objective.leafValue
  rw [hk]
  simp only [residuals_exact o ts ps hp examples hex (by intro i hi; rw [hl]; exact hex i hi), Out.ok_bind,
    Objective.median, hlim, hr]

/-! ## C50 -/

/-- Which target columns an objective can be initialised with: squared and log loss with any; absolute
loss with a column that has two different values; Huber loss with the same and `huber_alpha` in (0, 1);
hinge loss with `discr_nbits = 2`. In all other cases `initialize` panics. -/
theorem C50_initialize (F : FP) (M : Libm) (o : Objective) (c : Config) (ts : List ℚ) :
    let good : Prop := match o.kind with
      | .l2 => True
      | .l1 => ∃ a ∈ ts, ∃ b ∈ ts, a ≠ b
      | .huber => (∃ a ∈ ts, ∃ b ∈ ts, a ≠ b) ∧ (Num.fin 0).lt c.huberAlpha = true ∧ c.huberAlpha.lt (.fin 1) = true
      | .binary => True
      | .hinge => c.discrNbits = 2
    (good → ∃ o', Objective.init F M o c (column ts) = .ok o') ∧
    (¬ good → Objective.init F M o c (column ts) = .panic) := by
  intro good
  have hmed : (∃ a ∈ ts, ∃ b ∈ ts, a ≠ b) →
      ∃ x, Objective.median F (Objective.limitsOf (column ts)) (column ts) = .ok x := by
    intro hd
    obtain ⟨l, h, e, hlt, _⟩ := limits_lt ts hd
    rw [e]
    rcases quantile_cases F (.fin (1 / 2)) (.fin l) (.fin h) (column ts) with ⟨_, hc⟩ | ⟨_, _, _, _, _, _, _, h'⟩
    · exact absurd ⟨l, h, rfl, rfl, hlt⟩ hc
    · exact ⟨_, h'⟩
  have hmed' : (¬ ∃ a ∈ ts, ∃ b ∈ ts, a ≠ b) →
      Objective.median F (Objective.limitsOf (column ts)) (column ts) = .panic := by
    intro hd
    rcases quantile_cases F (.fin (1 / 2)) (Objective.limitsOf (column ts)).1 (Objective.limitsOf (column ts)).2
      (column ts) with ⟨h', _⟩ | ⟨l, h, _, e1, e2, hlt, _⟩
    · exact h'
    · exfalso
      by_cases hne : ts = []
      · subst hne
        have : (Objective.limitsOf (column [])).1 = .pinf := rfl
        rw [this] at e1; simp at e1
      · obtain ⟨l', h2, e, hl', hh', _⟩ := limits_column ts hne
        rw [e] at e1 e2
        simp only [Num.fin.injEq] at e1 e2
        subst e1 e2
        exact hd ⟨_, hl', _, hh', ne_of_lt hlt⟩
  unfold Objective.init
  simp only [good]
  cases hk : o.kind <;> simp only
  · exact ⟨fun _ => ⟨_, rfl⟩, fun h => absurd trivial h⟩
  · constructor
    · intro hd
      obtain ⟨x, hx⟩ := hmed hd
      exact ⟨_, by rw [hx]; rfl⟩
    · intro hd
      rw [hmed' hd]; rfl
  · constructor
    · rintro ⟨hd, ha1, ha2⟩
      obtain ⟨x, hx⟩ := hmed hd
      exact ⟨_, by rw [hx]; simp only [Out.ok_bind, ha1, ha2, Bool.and_self, Out.assert_true]; rfl⟩
    · intro hd
      by_cases hh : ∃ a ∈ ts, ∃ b ∈ ts, a ≠ b
      · obtain ⟨x, hx⟩ := hmed hh
        rw [hx]
        have : ((Num.fin 0).lt c.huberAlpha && c.huberAlpha.lt (.fin 1)) = false := by
          rw [Bool.and_eq_false_iff]
          by_contra hc
          push Not at hc
          simp only [ne_eq, Bool.not_eq_false] at hc
          exact hd ⟨hh, hc⟩
        simp only [Out.ok_bind, this, Out.assert_false, Out.panic_bind]
      · rw [hmed' hh]; rfl
  · exact ⟨fun _ => ⟨_, rfl⟩, fun h => absurd trivial h⟩
  · constructor
    · intro hc
      exact ⟨_, by rw [hc]; rfl⟩
    · intro hc
      have : (c.discrNbits == 2) = false := by simpa using hc
      rw [this]; rfl

/-- Training with absolute or Huber loss panics on a constant target column, whatever its length. -/
theorem C50_constant_refuted (F : FP) (M : Libm) (o : Objective) (c : Config) (n : Nat) (v : ℚ)
    (hk : o.kind = .l1 ∨ o.kind = .huber) :
    Objective.init F M o c (column (List.replicate n v)) = .panic := by
  apply (C50_initialize F M o c (List.replicate n v)).2
  have : ¬ ∃ a ∈ List.replicate n v, ∃ b ∈ List.replicate n v, a ≠ b := by
    rintro ⟨a, ha, b, hb, hab⟩
    rw [List.eq_of_mem_replicate ha, List.eq_of_mem_replicate hb] at hab
    exact hab rfl
  rcases hk with hk | hk <;> rw [hk]
  · exact this
  · exact fun h => this h.1

/-- `update` after `initialize` (or later, with finite predictions): always possible, except with Huber
loss, where it panics when the residuals are all equal and succeeds when they are finite and not all
equal. -/
theorem C50_update_partial (F : FP) (M : Libm) (o : Objective) (targets : List Num)
    (h1 : o.predictions.length = targets.length) (h2 : o.gradients.length = targets.length)
    (ht : ∀ t ∈ targets, t.isFinite = true) (hp : ∀ p ∈ o.predictions, p.isFinite = true) :
    (o.kind ≠ .huber → ∃ o', Objective.update F M o targets = .ok o') ∧
    (o.kind = .huber → (∀ e ∈ List.zipWith F.sub targets o.predictions, ∀ e' ∈ List.zipWith F.sub targets o.predictions,
        e = e') → Objective.update F M o targets = .panic) ∧
    (o.kind = .huber → (∀ e ∈ List.zipWith F.sub targets o.predictions, e.isFinite = true) →
      (∃ e ∈ List.zipWith F.sub targets o.predictions, ∃ e' ∈ List.zipWith F.sub targets o.predictions,
        e ≠ e') → ∃ o', Objective.update F M o targets = .ok o') := by
  rw [update_eq F M o targets h1 h2]
  refine ⟨?_, ?_, ?_⟩
  · intro hk
    cases hkk : o.kind <;> simp only
    · exact ⟨_, rfl⟩
    · exact ⟨_, rfl⟩
    · exact absurd hkk hk
    · exact ⟨_, rfl⟩
    · exact ⟨_, rfl⟩
  · intro hk heq
    simp only [hk]
    have : Objective.quantile F o.alpha (Objective.limitsOf (List.zipWith F.sub targets o.predictions))
        (List.zipWith F.sub targets o.predictions) = .panic := by
      generalize he : List.zipWith F.sub targets o.predictions = errs at *
      rcases quantile_cases F o.alpha (Objective.limitsOf errs).1 (Objective.limitsOf errs).2 errs with
        ⟨h', _⟩ | ⟨l, h, _, e1, e2, hlt, _⟩
      · exact h'
      · exfalso
        by_cases hne : errs = []
        · subst hne
          have : (Objective.limitsOf []).1 = .pinf := rfl
          rw [this] at e1; simp at e1
        · obtain ⟨m1, m2, _⟩ := Objective.limitsOf_spec errs hne (by
            intro e hem
            rw [← he] at hem
            obtain ⟨t, ht', p, hp', rfl⟩ := zip_mem hem
            exact sub_ne_nan F (ht t ht') (hp p hp'))
          have := heq _ m1 _ m2
          rw [e1, e2] at this
          simp only [Num.fin.injEq] at this
          exact absurd this (ne_of_lt hlt)
    rw [this]; rfl
  · intro hk hfin hne
    simp only [hk]
    obtain ⟨qs, hqs⟩ : ∃ qs, List.zipWith F.sub targets o.predictions = column qs := by
      generalize List.zipWith F.sub targets o.predictions = errs at hfin
      clear hne
      induction errs with
      | nil => exact ⟨[], rfl⟩
      | cons e errs ih =>
        obtain ⟨q, rfl⟩ := Num.isFinite_iff.1 (hfin e (by simp))
        obtain ⟨qs, rfl⟩ := ih (fun e he => hfin e (by simp [he]))
        exact ⟨q :: qs, rfl⟩
    rw [hqs] at hne ⊢
    obtain ⟨l, h, e, hlt, _⟩ := limits_lt qs (by
      obtain ⟨a, ha, b, hb, hab⟩ := hne
      simp only [column, List.mem_map] at ha hb
      obtain ⟨a, ha, rfl⟩ := ha
      obtain ⟨b, hb, rfl⟩ := hb
      exact ⟨a, ha, b, hb, fun hc => hab (by rw [hc])⟩)
    rw [e]
    rcases quantile_cases F o.alpha (.fin l) (.fin h) (column qs) with ⟨_, hc⟩ | ⟨_, _, _, _, _, _, _, h'⟩
    · exact absurd ⟨l, h, rfl, rfl, hlt⟩ hc
    · rw [h']; exact ⟨_, rfl⟩

/-! ## C56 -/

theorem zip_get (f : Num → Num → Num) (ts ps : List ℚ) (hl : ps.length = ts.length) (i : Nat)
    (hi : i < ts.length) :
    (List.zipWith f (column ts) (column ps))[i]? = some (f (.fin (at' ts i)) (.fin (at' ps i))) := by
  rw [List.getElem?_zipWith, column_get ts hi, column_get ps (by omega)]

/-- Squared loss: the gradients are the derivatives of half the squared error. -/
theorem C56_l2 (M : Libm) (o o' : Objective) (ts ps : List ℚ) (hk : o.kind = .l2)
    (hp : o.predictions = column ps) (h : Objective.update .exact M o (column ts) = .ok o') (i : Nat)
    (hi : i < ts.length) :
    ∃ g, o'.gradients[i]? = some (.fin g) ∧ IsSubgradient (fun p => (at' ts i - p) ^ 2 / 2) (at' ps i) g := by
  obtain ⟨h1, h2⟩ := update_inv h
  have hl : ps.length = ts.length := by rw [hp] at h1; simpa [column] using h1
  rw [update_eq _ M o _ h1 h2, hk] at h
  simp only [Out.ok.injEq] at h
  subst h
  refine ⟨-(at' ts i - at' ps i), ?_, ?_⟩
  · simp only [hp, List.getElem?_map, zip_get _ ts ps hl i hi, FP.sub_fin]; rfl
  · intro q
    simp only
    nlinarith [sq_nonneg (q - at' ps i)]

/-- Absolute loss: the gradients are (sub)derivatives of the absolute error. -/
theorem C56_l1 (M : Libm) (o o' : Objective) (ts ps : List ℚ) (hk : o.kind = .l1)
    (hp : o.predictions = column ps) (h : Objective.update .exact M o (column ts) = .ok o') (i : Nat)
    (hi : i < ts.length) :
    ∃ g, o'.gradients[i]? = some (.fin g) ∧ IsSubgradient (absLoss (at' ts i)) (at' ps i) g := by
  obtain ⟨h1, h2⟩ := update_inv h
  have hl : ps.length = ts.length := by rw [hp] at h1; simpa [column] using h1
  rw [update_eq _ M o _ h1 h2, hk] at h
  simp only [Out.ok.injEq] at h
  subst h
  refine ⟨if at' ts i - at' ps i < 0 then 1 else -1, ?_, ?_⟩
  · simp only [hp, List.getElem?_map, zip_get _ ts ps hl i hi, FP.sub_fin, Option.map_some]
    simp only [FP.exact, Num.signum]
    split_ifs <;> simp [Num.neg]
  · intro q
    simp only [absLoss]
    split_ifs with hc
    · rw [abs_of_neg hc]
      have := neg_abs_le (at' ts i - q)
      linarith
    · rw [abs_of_nonneg (not_lt.1 hc)]
      have := le_abs_self (at' ts i - q)
      linarith

/-- Hinge loss: the gradients are (sub)derivatives of the hinge loss of the class. -/
theorem C56_hinge (F : FP) (M : Libm) (o o' : Objective) (ts ps : List ℚ) (hk : o.kind = .hinge)
    (hp : o.predictions = column ps) (h : Objective.update F M o (column ts) = .ok o') (i : Nat)
    (hi : i < ts.length) :
    ∃ g, o'.gradients[i]? = some (.fin g) ∧
      IsSubgradient (hingeLoss (classOf (at' ts i))) (at' ps i) g := by
  obtain ⟨h1, h2⟩ := update_inv h
  have hl : ps.length = ts.length := by rw [hp] at h1; simpa [column] using h1
  rw [update_eq _ M o _ h1 h2, hk] at h
  simp only [Out.ok.injEq] at h
  subst h
  refine ⟨if at' ts i < 1 / 2 then (if -1 < at' ps i then 1 else 0) else (if at' ps i < 1 then -1 else 0), ?_, ?_⟩
  · simp only [hp, zip_get _ ts ps hl i hi, Objective.hingeGradient, Num.lt, decide_eq_true_eq]
    split_ifs <;> rfl
  · intro q
    simp only [hingeLoss, classOf]
    split_ifs with c1 c2 c3
    · have := le_max_right 0 (1 - -1 * q)
      rw [max_eq_right (by linarith)]; linarith
    · have := le_max_left 0 (1 - -1 * q)
      rw [max_eq_left (by linarith)]; linarith
    · have := le_max_right 0 (1 - 1 * q)
      rw [max_eq_right (by linarith)]; linarith
    · have := le_max_left 0 (1 - 1 * q)
      rw [max_eq_left (by linarith)]; linarith

theorem huber_convex (δ u v : ℚ) (hδ : 0 ≤ δ) :
    (if |u| ≤ δ then u ^ 2 / 2 else δ * (|u| - δ / 2)) +
      (if |u| ≤ δ then u else δ * (if u < 0 then -1 else 1)) * (v - u) ≤
    (if |v| ≤ δ then v ^ 2 / 2 else δ * (|v| - δ / 2)) := by
  by_cases hu : |u| ≤ δ <;> by_cases hv : |v| ≤ δ <;> simp only [hu, hv, if_true, if_false]
  · nlinarith [sq_nonneg (v - u)]
  · push Not at hv
    have h1 : u * v ≤ |u| * |v| := by rw [← abs_mul]; exact le_abs_self _
    have h2 : u ^ 2 = |u| ^ 2 := (sq_abs u).symm
    nlinarith [mul_nonneg (sub_nonneg.2 hu) (sub_nonneg.2 hv.le), sq_nonneg (δ - |u|)]
  · push Not at hu
    have hs : (if u < 0 then (-1 : ℚ) else 1) * u = |u| := by
      split_ifs with h
      · rw [abs_of_neg h]; ring
      · rw [abs_of_nonneg (not_lt.1 h)]; ring
    have hs2 : (if u < 0 then (-1 : ℚ) else 1) ^ 2 = 1 := by split_ifs <;> norm_num
    generalize (if u < 0 then (-1 : ℚ) else 1) = s at *
    have : δ * (|u| - δ / 2) + δ * s * (v - u) = δ * s * v - δ ^ 2 / 2 := by rw [← hs]; ring
    rw [this]
    have : 0 ≤ (v - s * δ) ^ 2 := sq_nonneg _
    have e : (v - s * δ) ^ 2 = v ^ 2 - 2 * (δ * s * v) + s ^ 2 * δ ^ 2 := by ring
    rw [e, hs2] at this
    linarith
  · push Not at hu
    have hs : (if u < 0 then (-1 : ℚ) else 1) * u = |u| := by
      split_ifs with h
      · rw [abs_of_neg h]; ring
      · rw [abs_of_nonneg (not_lt.1 h)]; ring
    have hs2 : (if u < 0 then (-1 : ℚ) else 1) * v ≤ |v| := by
      split_ifs with h
      · have := neg_abs_le v; linarith
      · have := le_abs_self v; linarith
    generalize (if u < 0 then (-1 : ℚ) else 1) = s at *
    have : δ * (|u| - δ / 2) + δ * s * (v - u) = δ * (s * v) - δ ^ 2 / 2 := by rw [← hs]; ring
    rw [this]
    nlinarith

/-- Huber loss: the *negated* gradients are derivatives of the Huber loss with the announced `delta`.
(The trait documents gradients as negative pseudo-residuals, as for the other losses; see
`C56_huber_refuted`.) -/
theorem C56_huber_partial (M : Libm) (o o' : Objective) (ts ps : List ℚ) (δ : ℚ) (hk : o.kind = .huber)
    (hp : o.predictions = column ps) (h : Objective.update .exact M o (column ts) = .ok o')
    (hδ : o'.delta = .fin δ) (i : Nat) (hi : i < ts.length) :
    ∃ g, o'.gradients[i]? = some (.fin g) ∧ IsSubgradient (huberLoss δ (at' ts i)) (at' ps i) (-g) := by
  obtain ⟨h1, h2⟩ := update_inv h
  have hl : ps.length = ts.length := by rw [hp] at h1; simpa [column] using h1
  rw [update_eq _ M o _ h1 h2, hk] at h
  simp only at h
  rw [Out.bind_eq_ok] at h
  obtain ⟨q, hq, h⟩ := h
  simp only [Out.pure_eq, Out.ok.injEq] at h
  subst h
  simp only at hδ
  have hδ0 : 0 ≤ δ := by
    cases q with
    | fin r => simp [Num.abs] at hδ; rw [← hδ]; exact abs_nonneg r
    | pinf => simp [Num.abs] at hδ
    | ninf => simp [Num.abs] at hδ
    | nan => simp [Num.abs] at hδ
  set u := at' ts i - at' ps i with hu
  refine ⟨if |u| ≤ δ then u else δ * (if u < 0 then -1 else 1), ?_, ?_⟩
  · simp only [hp, List.getElem?_map, zip_get _ ts ps hl i hi, FP.sub_fin, Option.map_some, hδ]
    show some (Objective.huberGradient .exact (.fin δ) (.fin u)) = _
    simp only [Objective.huberGradient, Num.abs, Num.le, decide_eq_true_eq, Num.signum]
    split_ifs <;> simp [FP.mul, FP.exact]
  · intro q'
    have := huber_convex δ u (at' ts i - q') hδ0
    have e : at' ts i - q' - u = -(q' - at' ps i) := by rw [hu]; ring
    rw [e] at this
    simp only [huberLoss]
    linarith

/-- Huber loss: the gradients themselves have the wrong sign. Whenever a target is larger than the
prediction the gradient is positive, but increasing the prediction decreases the loss. -/
theorem C56_huber_refuted (t p δ : ℚ) (hδ : 0 < δ) (htp : p < t) :
    ∃ g, Objective.huberGradient .exact (.fin δ) (FP.exact.sub (.fin t) (.fin p)) = .fin g ∧ 0 < g ∧
      ¬ IsSubgradient (huberLoss δ t) p g := by
  have hu : 0 < t - p := by linarith
  refine ⟨if |t - p| ≤ δ then t - p else δ * (if t - p < 0 then -1 else 1), ?_, ?_, ?_⟩
  · rw [FP.sub_fin]
    show Objective.huberGradient .exact (.fin δ) (.fin (t - p)) = _
    simp only [Objective.huberGradient, Num.abs, Num.le, decide_eq_true_eq, Num.signum]
    split_ifs <;> simp [FP.mul, FP.exact]
  · split_ifs <;> nlinarith
  · intro hc
    have := hc t
    simp only [huberLoss, sub_self, abs_zero, hδ.le, if_true] at this
    rw [abs_of_pos hu] at this
    split_ifs at this with c1 c2
    · nlinarith
    · linarith
    · push Not at c1; nlinarith

/-- Log loss: the gradient is the derivative of `ln (1 + exp (-2 y p))`, up to twice the error of the
computed `exp (2 y p)`. (`y` is 1 or -1; `e` is the computed value.) -/
theorem C56_binary (M : Libm) (t p e : ℚ) (ht : t = 0 ∨ t = 1) (he0 : 0 ≤ e)
    (he : M.exp (.fin (2 * (2 * t - 1) * p)) = .fin e) :
    ∃ (g : ℚ) (g' : ℝ), Objective.binaryGradient .exact M (.fin t) (.fin p) = .fin g ∧
      HasDerivAt (fun x : ℝ => Real.log (1 + Real.exp (-2 * (2 * t - 1) * x))) g' p ∧
      |(g : ℝ) - g'| ≤ 2 * |(e : ℝ) - Real.exp (2 * (2 * t - 1) * p)| := by
  set y : ℚ := 2 * t - 1 with hy
  have hy1 : y = 1 ∨ y = -1 := by rcases ht with rfl | rfl <;> norm_num [hy]
  have hyR : (2 * (t : ℝ) - 1) = (y : ℝ) := by rw [hy]; push_cast; ring
  refine ⟨-(2 * y) / (1 + e), -(2 * y) / (1 + Real.exp (2 * y * p)), ?_, ?_, ?_⟩
  · have hne : 1 + e ≠ 0 := by linarith
    have e0 : FP.exact.sub (FP.exact.mul (.fin 2) (.fin t)) (.fin 1) = .fin y := by
      show FP.exact.sub (.fin (2 * t)) (.fin 1) = _
      rw [FP.sub_fin]; rfl
    have e1 : FP.exact.mul (.fin 2) (.fin y) = .fin (2 * y) := rfl
    have e2 : FP.exact.mul (.fin (2 * y)) (.fin p) = .fin (2 * y * p) := rfl
    have e3 : FP.exact.add (.fin 1) (.fin e) = .fin (1 + e) := rfl
    simp only [Objective.binaryGradient, e0, e1, e2, he, e3, Num.neg]
    rw [FP.div_fin _ hne]; rfl
  · rw [hyR]
    have hd : HasDerivAt (fun x : ℝ => 1 + Real.exp (-2 * y * x)) (Real.exp (-2 * y * p) * (-2 * y)) (p : ℝ) := by
      have h1 : HasDerivAt (fun x : ℝ => -2 * (y : ℝ) * x) (-2 * y) (p : ℝ) := by
        simpa using (hasDerivAt_id (p : ℝ)).const_mul (-2 * (y : ℝ))
      exact (h1.exp).const_add 1
    have hpos : 1 + Real.exp (-2 * (y : ℝ) * p) ≠ 0 := by positivity
    have := hd.log hpos
    convert this using 1
    have hE : Real.exp (-2 * (y : ℝ) * p) = (Real.exp (2 * y * p))⁻¹ := by
      rw [← Real.exp_neg]; congr 1; ring
    rw [hE]
    have : Real.exp (2 * (y : ℝ) * p) ≠ 0 := (Real.exp_pos _).ne'
    field_simp
    ring
  · rw [hyR]
    set E := Real.exp (2 * (y : ℝ) * p) with hE
    have hE0 : 0 < E := Real.exp_pos _
    have he0' : (0 : ℝ) ≤ e := by exact_mod_cast he0
    have hyabs : |(y : ℝ)| = 1 := by
      rcases hy1 with h | h <;> rw [h] <;> norm_num
    have : (((-(2 * y) / (1 + e) : ℚ)) : ℝ) - -(2 * y) / (1 + E) = 2 * y * (e - E) / ((1 + e) * (1 + E)) := by
      push_cast; field_simp; ring
    rw [this, abs_div, abs_mul, abs_mul, hyabs, abs_of_pos (show (0 : ℝ) < (1 + e) * (1 + E) by positivity)]
    rw [div_le_iff₀ (by positivity)]
    have h1 : 1 ≤ (1 + (e : ℝ)) * (1 + E) := by nlinarith [mul_nonneg he0' hE0.le]
    have h2 : 0 ≤ |(e : ℝ) - E| := abs_nonneg _
    norm_num
    nlinarith [mul_nonneg h2 (sub_nonneg.2 h1)]

/-! ## The hypotheses are met -/

/-- Every objective can be initialised with the targets 0, 1, 1 and updated (two bits for hinge). -/
example (F : FP) (M : Libm) (k : ObjKind) :
    ∃ o', Objective.init F M (Objective.new k) { Config.new with discrNbits := 2 } (column [0, 1, 1]) = .ok o' := by
  apply (C50_initialize F M _ _ _).1
  cases k
  · trivial
  · exact ⟨0, by simp, 1, by simp, by norm_num⟩
  · refine ⟨⟨0, by simp, 1, by simp, by norm_num⟩, ?_, ?_⟩ <;> norm_num [Config.new, Num.lt]
  · trivial
  · rfl

/-- An objective in mid-training, with finite predictions and different residuals. -/
def exObj (k : ObjKind) : Objective :=
  { Objective.new k with learningRate := .fin (1 / 2), predictions := column [0, 1, 0, 1],
                         gradients := column [0, 0, 0, 0], alpha := .fin (1 / 2),
                         limits := (.fin (-1), .fin 1) }

example (M : Libm) (k : ObjKind) : ∃ o', Objective.update .exact M (exObj k) (column [0, 1, 1, 0]) = .ok o' := by
  have h := C50_update_partial .exact M (exObj k) (column [0, 1, 1, 0]) rfl rfl (by simp [column])
    (by simp [exObj, column])
  by_cases hk : k = .huber
  · subst hk
    apply h.2.2 rfl
    · intro e he
      obtain ⟨t, ht, p, hp, rfl⟩ := zip_mem he
      simp only [column, exObj, List.mem_map] at ht hp
      obtain ⟨a, _, rfl⟩ := ht
      obtain ⟨b, _, rfl⟩ := hp
      rw [FP.sub_fin]; rfl
    · refine ⟨.fin 0, ?_, .fin 1, ?_, by simp⟩ <;>
        simp [column, exObj, FP.sub_fin, FP.exact]
  · exact h.1 hk

example : IsOrderStat (column [0, 1, 1, 3]) 2 (.fin 1) ∧
    ((0 : ℚ) ∈ ([0, 1, 1, 3] : List ℚ) ∧ ∀ t ∈ ([0, 1, 1, 3] : List ℚ), 0 ≤ t) := by
  refine ⟨⟨by simp [column], ?_, ?_⟩, by simp, by simp⟩
  · norm_num [column, Num.lt, List.filter_cons]
  · norm_num [column, Num.le, List.filter_cons]

example : ∃ M : Libm, M.exp (.fin (2 * (2 * 1 - 1) * 0)) = .fin 1 := ⟨⟨fun _ => .fin 1, id, id⟩, rfl⟩

end BitBoost.Props
