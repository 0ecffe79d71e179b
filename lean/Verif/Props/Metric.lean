import Verif.Model.Metric
import Verif.Spec.Losses
import Verif.Lemmas.Objective
import Mathlib.Tactic.Positivity
import Mathlib.Tactic.FieldSimp
/-!
# C51: metrics
-/
namespace BitBoost.Props
open BitBoost Spec

private theorem evalMean_exact (one : Num → Num → Num) (f : ℚ → ℚ → ℚ)
    (hf : ∀ t p : ℚ, one (.fin t) (.fin p) = .fin (f t p)) (ts ps : List ℚ) (h : ts.length = ps.length)
    (hne : ts ≠ []) :
    Metric.evalMean .exact one (column ts) (column ps) = .fin ((List.zipWith f ts ps).sum / ts.length) := by
  have H : ∀ (ts ps : List ℚ), ts.length = ps.length → ∀ (a : ℚ) (n : Nat),
      ((column ts).zip (column ps)).foldl
        (fun (acc : Num × Nat) tp => (FP.exact.add acc.1 (one tp.1 tp.2), acc.2 + 1)) (.fin a, n) =
      (.fin (a + (List.zipWith f ts ps).sum), n + ts.length) := by
    intro ts
    induction ts with
    | nil => intro ps _ a n; simp [column]
    | cons t ts ih =>
      intro ps hl a n
      cases ps with
      | nil => simp at hl
      | cons p ps =>
        simp only [column, List.map_cons, List.zip_cons_cons, List.foldl_cons]
        rw [hf]
        have e : FP.exact.add (.fin a) (.fin (f t p)) = .fin (a + f t p) := rfl
        rw [e]
        have := ih ps (by simpa using hl) (a + f t p) (n + 1)
        simp only [column] at this
        rw [this]
        simp only [List.zipWith_cons_cons, List.sum_cons, List.length_cons]
        rw [add_assoc, Nat.add_assoc, Nat.add_comm 1]
  have hlen : (ts.length : ℚ) ≠ 0 := by
    have := List.length_pos_of_ne_nil hne
    positivity
  unfold Metric.evalMean
  rw [H ts ps h 0 0]
  simp only [zero_add]
  show FP.exact.div (.fin _) (.fin (ts.length : ℚ)) = _
  rw [FP.div_fin _ hlen]; rfl

/-- `L2` is the mean squared difference: never negative, and zero exactly for perfect predictions. -/
theorem C51_l2 (M : Libm) (ts ps : List ℚ) (h : ts.length = ps.length) (hne : ts ≠ []) :
    ∃ m : ℚ, Metric.eval .exact M .l2 (column ts) (column ps) = .fin m ∧ m = sqErr ts ps / ts.length ∧
      0 ≤ m ∧ (m = 0 ↔ ts = ps) := by
  have e := evalMean_exact (Metric.l2One .exact) (fun t p => (t - p) ^ 2) (by
    intro t p
    simp only [Metric.l2One, FP.sub_fin]
    show Num.fin ((t - p) * (t - p)) = _
    congr 1; ring) ts ps h hne
  have hlen : (0 : ℚ) < ts.length := by
    have := List.length_pos_of_ne_nil hne
    positivity
  have hnn : ∀ (ts ps : List ℚ), 0 ≤ sqErr ts ps := by
    intro ts ps
    apply List.sum_nonneg
    intro x hx
    rw [List.mem_iff_getElem] at hx
    obtain ⟨i, hi, rfl⟩ := hx
    simp only [List.getElem_zipWith]
    exact sq_nonneg _
  refine ⟨_, e, rfl, div_nonneg (hnn ts ps) hlen.le, ?_⟩
  rw [div_eq_zero_iff]
  constructor
  · rintro (h0 | h0)
    · clear e hne hlen
      change sqErr ts ps = 0 at h0
      induction ts generalizing ps with
      | nil => cases ps <;> simp_all
      | cons t ts ih =>
        cases ps with
        | nil => simp at h
        | cons p ps =>
          have h1 : sqErr (t :: ts) (p :: ps) = (t - p) ^ 2 + sqErr ts ps := by simp [sqErr]
          rw [h1] at h0
          have h2 := hnn ts ps
          have h3 := sq_nonneg (t - p)
          have h4 : sqErr ts ps = 0 := by linarith
          have h5 : (t - p) ^ 2 = 0 := by linarith
          have h6 := pow_eq_zero_iff (two_ne_zero) |>.1 h5
          rw [ih ps (by simpa using h) h4]
          congr 1
          linarith
    · exact absurd h0 hlen.ne'
  · intro heq
    left
    subst heq
    clear e hne hlen h
    induction ts with
    | nil => rfl
    | cons t ts ih => simp only [List.zipWith_cons_cons, List.sum_cons, sub_self, ih]; norm_num

/-- `Rmse` is the square root (of the math library) of the mean squared difference. It is zero exactly
for perfect predictions if the library's square root of a non-negative number is zero only for zero. -/
theorem C51_rmse (M : Libm) (ts ps : List ℚ) (h : ts.length = ps.length) (hne : ts ≠ []) :
    Metric.eval .exact M .rmse (column ts) (column ps) = M.sqrt (.fin (sqErr ts ps / ts.length)) ∧
      ((∀ q : ℚ, 0 ≤ q → (M.sqrt (.fin q) = .fin 0 ↔ q = 0)) →
        (Metric.eval .exact M .rmse (column ts) (column ps) = .fin 0 ↔ ts = ps)) := by
  obtain ⟨m, h1, h2, h3, h4⟩ := C51_l2 M ts ps h hne
  have e : Metric.eval .exact M .rmse (column ts) (column ps) = M.sqrt (.fin m) := by
    rw [← h1]; rfl
  rw [e, ← h2]
  exact ⟨rfl, fun hs => (hs m h3).trans h4⟩

private theorem evalMean_01 (F : FP) (one : Num → Num → Num) (wrong : ℚ → ℚ → Prop)
    [∀ t p, Decidable (wrong t p)]
    (hf : ∀ t p : ℚ, one (.fin t) (.fin p) = if wrong t p then .fin 1 else .fin 0) (ts ps : List ℚ)
    (h : ts.length = ps.length) (hne : ts ≠ []) (hn : ts.length ≤ 2 ^ 24) :
    Metric.evalMean F one (column ts) (column ps) = F.rnd (fraction wrong ts ps) := by
  have H : ∀ (ts ps : List ℚ), ts.length = ps.length → ∀ (a n : Nat), a + ts.length ≤ 2 ^ 24 →
      ((column ts).zip (column ps)).foldl
        (fun (acc : Num × Nat) tp => (F.add acc.1 (one tp.1 tp.2), acc.2 + 1)) (.fin (a : ℚ), n) =
      (.fin ((a + ((ts.zip ps).filter fun tp => wrong tp.1 tp.2).length : ℕ) : ℚ), n + ts.length) := by
    intro ts
    induction ts with
    | nil => intro ps _ a n _; simp [column]
    | cons t ts ih =>
      intro ps hl a n ha
      cases ps with
      | nil => simp at hl
      | cons p ps =>
        simp only [column, List.map_cons, List.zip_cons_cons, List.foldl_cons]
        rw [hf]
        simp only [List.length_cons] at ha
        by_cases hw : wrong t p
        · have e : F.add (.fin (a : ℚ)) (.fin 1) = .fin ((a + 1 : ℕ) : ℚ) := by
            have := F.rnd_nat (n := a + 1) (by omega)
            simp only [FP.add]; push_cast at this ⊢; exact this
          rw [if_pos hw, e]
          have := ih ps (by simpa using hl) (a + 1) (n + 1) (by omega)
          simp only [column] at this
          rw [this, List.filter_cons_of_pos (by simpa using hw)]
          simp only [List.length_cons]
          rw [show a + 1 + (List.filter (fun tp => decide (wrong tp.1 tp.2)) (ts.zip ps)).length
            = a + ((List.filter (fun tp => decide (wrong tp.1 tp.2)) (ts.zip ps)).length + 1) by omega,
            show n + 1 + ts.length = n + (ts.length + 1) by omega]
        · have e : F.add (.fin (a : ℚ)) (.fin 0) = .fin ((a : ℕ) : ℚ) := by
            have := F.rnd_nat (n := a) (by omega)
            simp only [FP.add, add_zero]; exact this
          rw [if_neg hw, e]
          have := ih ps (by simpa using hl) a (n + 1) (by omega)
          simp only [column] at this
          rw [this, List.filter_cons_of_neg (by simpa using hw)]
          simp only [List.length_cons]
          rw [show n + 1 + ts.length = n + (ts.length + 1) by omega]
  have hlen : (ts.length : ℚ) ≠ 0 := by
    have := List.length_pos_of_ne_nil hne
    positivity
  unfold Metric.evalMean
  have := H ts ps h 0 0 (by omega)
  simp only [Nat.cast_zero, zero_add] at this
  rw [this]
  simp only
  rw [F.ofNat_eq hn, FP.div_fin _ hlen]
  rfl

private theorem fraction_zero (wrong : ℚ → ℚ → Prop) [∀ t p, Decidable (wrong t p)] (ts ps : List ℚ)
    (hne : ts ≠ []) :
    0 ≤ fraction wrong ts ps ∧ fraction wrong ts ps ≤ 1 ∧
      (fraction wrong ts ps = 0 ↔ ∀ tp ∈ ts.zip ps, ¬ wrong tp.1 tp.2) := by
  have hlen : (0 : ℚ) < ts.length := by
    have := List.length_pos_of_ne_nil hne
    positivity
  unfold fraction
  refine ⟨by positivity, ?_, ?_⟩
  · rw [div_le_one hlen]
    have h1 := List.length_filter_le (fun tp => decide (wrong tp.1 tp.2)) (ts.zip ps)
    have h2 : (ts.zip ps).length ≤ ts.length := by rw [List.length_zip]; omega
    exact_mod_cast le_trans h1 h2
  · rw [div_eq_zero_iff]
    constructor
    · rintro (h | h)
      · have h' : ((ts.zip ps).filter fun tp => wrong tp.1 tp.2).length = 0 := by exact_mod_cast h
        rw [List.length_eq_zero_iff, List.filter_eq_nil_iff] at h'
        intro tp htp
        simpa using h' tp htp
      · exact absurd h hlen.ne'
    · intro h
      left
      have : (ts.zip ps).filter (fun tp => wrong tp.1 tp.2) = [] := by
        rw [List.filter_eq_nil_iff]; intro tp htp; simpa using h tp htp
      rw [this]; simp

/-- `BinaryError` is the fraction of the examples on the wrong side of 0 (up to the rounding of that
fraction; up to 2^24 examples), between 0 and 1, and zero exactly when all examples are on the right
side. -/
theorem C51_binary_error (F : FP) (M : Libm) (ts ps : List ℚ) (h : ts.length = ps.length)
    (hne : ts ≠ []) (hn : ts.length ≤ 2 ^ 24) :
    let wrong : ℚ → ℚ → Prop := fun t p => ¬ (t < 1 / 2 ↔ p < 0)
    Metric.eval F M .binaryError (column ts) (column ps) = F.rnd (fraction wrong ts ps) ∧
      0 ≤ fraction wrong ts ps ∧ fraction wrong ts ps ≤ 1 ∧
      (fraction wrong ts ps = 0 ↔ ∀ tp ∈ ts.zip ps, tp.1 < 1 / 2 ↔ tp.2 < 0) := by
  intro wrong
  refine ⟨evalMean_01 F _ wrong ?_ ts ps h hne hn, ?_⟩
  · intro t p
    simp only [Metric.binaryErrorOne, Num.lt, wrong, decide_eq_true_eq]
    by_cases c1 : t < 1 / 2 <;> by_cases c2 : p < 0 <;> simp only [c1, c2] <;> simp
  · obtain ⟨h1, h2, h3⟩ := fraction_zero wrong ts ps hne
    refine ⟨h1, h2, h3.trans ?_⟩
    simp only [wrong, not_not]

/-- `BinaryError01` is the fraction of the examples on the wrong side of 1/2. -/
theorem C51_binary_error01 (F : FP) (M : Libm) (ts ps : List ℚ) (h : ts.length = ps.length)
    (hne : ts ≠ []) (hn : ts.length ≤ 2 ^ 24) :
    let wrong : ℚ → ℚ → Prop := fun t p => ¬ (t < 1 / 2 ↔ p < 1 / 2)
    Metric.eval F M .binaryError01 (column ts) (column ps) = F.rnd (fraction wrong ts ps) ∧
      0 ≤ fraction wrong ts ps ∧ fraction wrong ts ps ≤ 1 ∧
      (fraction wrong ts ps = 0 ↔ ∀ tp ∈ ts.zip ps, tp.1 < 1 / 2 ↔ tp.2 < 1 / 2) := by
  intro wrong
  refine ⟨evalMean_01 F _ wrong ?_ ts ps h hne hn, ?_⟩
  · intro t p
    simp only [Metric.binaryError01One, Num.lt, wrong, decide_eq_true_eq]
    by_cases c1 : t < 1 / 2 <;> by_cases c2 : p < 1 / 2 <;> simp only [c1, c2] <;> simp
  · obtain ⟨h1, h2, h3⟩ := fraction_zero wrong ts ps hne
    refine ⟨h1, h2, h3.trans ?_⟩
    simp only [wrong, not_not]

/-- `BinaryLoss` is the mean of `ln (1 + exp (-2 y p))` with `y = 2 t - 1`, where `expq` and `lnq` are
what the math library computes on the arguments in question; it is not negative if `lnq` is not negative
on arguments from 1 on. -/
theorem C51_binary_loss (M : Libm) (expq lnq : ℚ → ℚ) (hexp : ∀ x, M.exp (.fin x) = .fin (expq x))
    (hln : ∀ x, 0 < x → M.ln (.fin x) = .fin (lnq x)) (hpos : ∀ x, 0 ≤ expq x) (ts ps : List ℚ)
    (h : ts.length = ps.length) (hne : ts ≠ []) :
    ∃ m, Metric.eval .exact M .binaryLoss (column ts) (column ps) = .fin m ∧
      m = (List.zipWith (fun t p => lnq (1 + expq (-2 * (2 * t - 1) * p))) ts ps).sum / ts.length ∧
      ((∀ x, 1 ≤ x → 0 ≤ lnq x) → 0 ≤ m) := by
  have e := evalMean_exact (Metric.binaryLossOne .exact M)
    (fun t p => lnq (1 + expq (-2 * (2 * t - 1) * p))) (by
    intro t p
    have e0 : FP.exact.sub (FP.exact.mul (.fin 2) (.fin t)) (.fin 1) = .fin (2 * t - 1) := by
      show FP.exact.sub (.fin (2 * t)) (.fin 1) = _
      rw [FP.sub_fin]; rfl
    have e1 : FP.exact.mul (FP.exact.mul (.fin (-2)) (.fin (2 * t - 1))) (.fin p) =
      .fin (-2 * (2 * t - 1) * p) := rfl
    simp only [Metric.binaryLossOne, e0, e1, hexp]
    have e2 : ∀ x, FP.exact.add (.fin 1) (.fin x) = .fin (1 + x) := fun _ => rfl
    rw [e2, hln _ (by have := hpos (-2 * (2 * t - 1) * p); linarith)]) ts ps h hne
  refine ⟨_, e, rfl, ?_⟩
  intro hl
  apply div_nonneg
  · apply List.sum_nonneg
    intro x hx
    rw [List.mem_iff_getElem] at hx
    obtain ⟨i, hi, rfl⟩ := hx
    simp only [List.getElem_zipWith]
    apply hl
    have := hpos (-2 * (2 * ts[i]'(by simp at hi; omega) - 1) * ps[i]'(by simp at hi; omega))
    linarith
  · positivity

/-- On an empty data set the metrics are not a number (`Rmse`: the square root of that). -/
theorem C51_empty (F : FP) (M : Libm) (m : Metric) :
    Metric.eval F M m [] [] = if m = .rmse then M.sqrt .nan else .nan := by
  have : ∀ one, Metric.evalMean F one [] [] = .nan := by
    intro one
    have h0 : F.ofNat 0 = .fin 0 := by rw [F.ofNat_eq (by norm_num)]; simp
    simp only [Metric.evalMean, List.zip_nil_left, List.foldl_nil, h0]
    simp [FP.div, FP.sgn, FP.infOf]
  cases m <;> simp [Metric.eval, this]

example (M : Libm) : Metric.eval .exact M .l2 (column [1, 3]) (column [0, 1]) = .fin (5 / 2) := by
  obtain ⟨m, h1, h2, _⟩ := C51_l2 M [1, 3] [0, 1] rfl (by simp)
  rw [h1, h2]; norm_num [sqErr]

example (M : Libm) : Metric.eval .exact M .binaryError (column [1, 0, 1, 0]) (column [2, -1, -1, 0]) =
    .fin (1 / 2) := by
  obtain ⟨h1, _⟩ := C51_binary_error .exact M [1, 0, 1, 0] [2, -1, -1, 0] rfl (by simp) (by simp)
  rw [h1]; norm_num [fraction, FP.exact, List.filter_cons]

end BitBoost.Props
