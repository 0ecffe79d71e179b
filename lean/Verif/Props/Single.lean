import Verif.Lemmas.Sum32
import Verif.Props.Loss
import Verif.Props.Metric
/-!
# C47, C49, C51 in single precision

The arithmetic of these theorems is IEEE 754 binary32 (`FP.binary32`), the arithmetic of the code.
-/
namespace BitBoost.Props
open BitBoost Spec

/-! ## C49 -/

/-- In single precision squared loss starts within `(n + 1) B / 2^23` of the mean of the `n` targets, which are at most `B`
in absolute value. -/
theorem C49_l2_mean_f32 (M : Libm) (o : Objective) (c : Config) (ts : List ℚ) (hne : ts ≠ [])
    (hk : o.kind = .l2) (B : ℚ) (hB1 : 1 / 2 ^ 100 ≤ B) (hB2 : B ≤ 2 ^ 100) (hB : ∀ t ∈ ts, |t| ≤ B)
    (hn : ts.length ≤ 2 ^ 20) :
    ∃ o' b, Objective.init .binary32 M o c (column ts) = .ok o' ∧ o'.bias = .fin b ∧
      |b - ts.sum / ts.length| ≤ (ts.length + 1) * B / 2 ^ 23 := by
  obtain ⟨m, h1, h2, _⟩ := FP.mean32 hB1 hB2 ts hB hn hne
  refine ⟨_, m, by unfold Objective.init; rw [hk], ?_, h2⟩
  simp only [Objective.initializeBase, column, List.length_map]
  exact h1

example : ∃ o' b, Objective.init .binary32 ⟨id, id, id⟩ (Objective.new .l2) Config.new (column [1, 2, 4]) = .ok o' ∧
    o'.bias = .fin b ∧ |b - 7 / 3| ≤ 16 / 2 ^ 23 := by
  obtain ⟨o', b, h1, h2, h3⟩ := C49_l2_mean_f32 ⟨id, id, id⟩ (Objective.new .l2) Config.new [1, 2, 4] (by simp) rfl 4
    (by norm_num) (by norm_num) (by intro t ht; simp at ht; rcases ht with rfl | rfl | rfl <;> norm_num [abs_le])
    (by simp)
  refine ⟨o', b, h1, h2, ?_⟩
  norm_num at h3 ⊢
  exact h3

private theorem filter_column' (ts : List ℚ) :
    ((column ts).filter fun x => x.lt (.fin (1 / 2))).length = (ts.filter fun t => t < 1 / 2).length := by
  induction ts with
  | nil => rfl
  | cons t ts ih =>
    simp only [column, List.map_cons, List.filter_cons] at ih ⊢
    by_cases ht : t < 1 / 2
    · simp only [Num.lt, ht, decide_true, if_true, List.length_cons] at ih ⊢; omega
    · simp only [Num.lt, ht, decide_false, Bool.false_eq_true, if_false] at ih ⊢; exact ih

/-- In every arithmetic: hinge loss starts from the difference of the class frequencies, rounded once. -/
theorem C49_hinge_prior_rounded (F : FP) (M : Libm) (o : Objective) (c : Config) (ts : List ℚ) (hne : ts ≠ [])
    (hk : o.kind = .hinge) (hc : c.discrNbits = 2) (hn : ts.length ≤ 2 ^ 24) :
    let nneg := (ts.filter fun t => t < 1 / 2).length
    let npos := (ts.filter fun t => ¬ t < 1 / 2).length
    ∃ o', Objective.init F M o c (column ts) = .ok o' ∧
      o'.bias = F.rnd (((npos : ℚ) - nneg) / ts.length) := by
  intro nneg npos
  have hlen : (ts.length : ℚ) ≠ 0 := by
    have := List.length_pos_of_ne_nil hne
    positivity
  have hsum : ts.length = nneg + npos := by
    have := List.length_eq_length_filter_add (l := ts) (fun t => decide (t < 1 / 2))
    simp only [nneg, npos]
    have e : (ts.filter fun t => ¬ t < 1 / 2) = ts.filter (fun t => ! decide (t < 1 / 2)) := by
      congr 1; funext t; exact decide_not
    rw [e]
    exact this
  refine ⟨_, by unfold Objective.init; rw [hk]; simp only [hc, beq_self_eq_true, Out.assert_true, Out.ok_bind]; rfl, ?_⟩
  simp only [Objective.initializeBase, Objective.classCounts, filter_column']
  simp only [column, List.length_map]
  change F.div (F.add (F.mul (F.ofNat nneg) (.fin (-1))) (F.sub (F.ofNat ts.length) (F.ofNat nneg)))
    (F.ofNat ts.length) = _
  have i1 : F.rnd ((nneg : ℚ) * -1) = .fin ((nneg : ℚ) * -1) := by
    have := F.int (-(nneg : ℤ)) (by rw [abs_neg, abs_of_nonneg (by positivity)]; omega)
    push_cast at this
    rw [mul_neg_one]
    exact this
  have i2 : F.rnd ((ts.length : ℚ) - nneg) = .fin ((npos : ℕ) : ℚ) := by
    have e : (ts.length : ℚ) - nneg = ((npos : ℕ) : ℚ) := by rw [hsum]; push_cast; ring
    rw [e]
    exact F.rnd_nat (by omega)
  have i3 : F.rnd ((nneg : ℚ) * -1 + npos) = .fin ((npos : ℚ) - nneg) := by
    have := F.int ((npos : ℤ) - nneg) (by rw [abs_le]; constructor <;> omega)
    push_cast at this
    rw [show (nneg : ℚ) * -1 + npos = npos - nneg by ring]
    exact this
  rw [F.ofNat_eq (show ts.length ≤ 2 ^ 24 from hn), F.ofNat_eq (show nneg ≤ 2 ^ 24 by omega)]
  simp only [FP.sub_fin, FP.mul]
  rw [i1, i2]
  simp only [FP.add]
  rw [i3, FP.div_fin _ hlen]

example : ∃ o', Objective.init .binary32 ⟨id, id, id⟩ (Objective.new .hinge) { Config.new with discrNbits := 2 } (column [1, 0, 1]) =
    .ok o' ∧ o'.bias = FP.binary32.rnd (1 / 3) := by
  obtain ⟨o', h1, h2⟩ := C49_hinge_prior_rounded .binary32 ⟨id, id, id⟩ (Objective.new .hinge) { Config.new with discrNbits := 2 } [1, 0, 1]
    (by simp) rfl rfl (by simp)
  refine ⟨o', h1, ?_⟩
  rw [h2]
  congr 1
  norm_num [List.filter_cons]

private theorem ratio32 {α β : ℚ} (hα : 0 < α) (hab : α + β = 1) (hβ : 1 / 2 ^ 20 ≤ β) :
    ∃ ρ, FP.binary32.div (FP.binary32.add (.fin 1) (FP.binary32.rnd (α - β)))
        (FP.binary32.sub (.fin 1) (FP.binary32.rnd (α - β))) = .fin ρ ∧ |ρ - α / β| ≤ 1 / β ^ 2 / 2 ^ 20 := by
  have hβ0 : 0 < β := lt_of_lt_of_le (by norm_num) hβ
  have hα1 : α ≤ 1 := by linarith
  have hβ1 : β ≤ 1 := by linarith
  have hbig : (16 : ℚ) ≤ 2 ^ 126 := by norm_num
  obtain ⟨v, v1, v2⟩ := FP.step32 (q := α - β) (B := 1) (by rw [abs_le]; constructor <;> linarith) (by linarith)
  have v2' := abs_le.1 v2
  have hsm : (1 : ℚ) / 2 ^ 150 ≤ 1 / 2 ^ 40 := by norm_num
  obtain ⟨P, p1, p2⟩ := FP.step32 (q := 1 + v) (B := 3) (by rw [abs_le]; constructor <;> linarith) (by linarith)
  obtain ⟨Q, q1, q2⟩ := FP.step32 (q := 1 - v) (B := 3) (by rw [abs_le]; constructor <;> linarith) (by linarith)
  have p2' := abs_le.1 p2
  have q2' := abs_le.1 q2
  have hP : |P - 2 * α| ≤ 1 / 2 ^ 21 := by rw [abs_le]; constructor <;> linarith
  have hQ : |Q - 2 * β| ≤ 1 / 2 ^ 21 := by rw [abs_le]; constructor <;> linarith
  have hP' := abs_le.1 hP
  have hQ' := abs_le.1 hQ
  have hQβ : β ≤ Q := by
    have : (1 : ℚ) / 2 ^ 21 ≤ 1 / 2 ^ 20 := by norm_num
    linarith
  have hQ0 : 0 < Q := by linarith
  have hbb : 0 < β * β := mul_pos hβ0 hβ0
  have hib : 1 / β ^ 2 * (β * β) = 1 := by field_simp
  have hr : |P / Q - α / β| ≤ 1 / β ^ 2 / 2 ^ 21 := by
    have e : P / Q - α / β = ((P - 2 * α) * β - (Q - 2 * β) * α) / (Q * β) := by field_simp; ring
    rw [e, abs_div, abs_of_pos (mul_pos hQ0 hβ0), div_le_iff₀ (mul_pos hQ0 hβ0)]
    have t1 : |(P - 2 * α) * β| ≤ 1 / 2 ^ 21 * β := by
      rw [abs_mul, abs_of_pos hβ0]; exact mul_le_mul_of_nonneg_right hP hβ0.le
    have t2 : |(Q - 2 * β) * α| ≤ 1 / 2 ^ 21 * α := by
      rw [abs_mul, abs_of_pos hα]; exact mul_le_mul_of_nonneg_right hQ hα.le
    have t3 := abs_sub ((P - 2 * α) * β) ((Q - 2 * β) * α)
    have t4 : 1 / β ^ 2 * (β * β) ≤ 1 / β ^ 2 * (Q * β) :=
      mul_le_mul_of_nonneg_left (mul_le_mul_of_nonneg_right hQβ hβ0.le) (by positivity)
    rw [hib] at t4
    have t5 : 1 / β ^ 2 / 2 ^ 21 * (Q * β) = 1 / β ^ 2 * (Q * β) * (1 / 2 ^ 21) := by ring
    rw [t5]
    have t6 : 1 * (1 / 2 ^ 21) ≤ 1 / β ^ 2 * (Q * β) * (1 / 2 ^ 21) :=
      mul_le_mul_of_nonneg_right t4 (by norm_num)
    have t7 : 1 / 2 ^ 21 * β + 1 / 2 ^ 21 * α = 1 / 2 ^ 21 := by rw [← mul_add, add_comm β, hab, mul_one]
    linarith
  have hx : 1 ≤ 1 / β ^ 2 := by
    rw [le_div_iff₀ (by positivity)]
    nlinarith
  have hab' : α / β ≤ 1 / β ^ 2 := by
    rw [div_le_div_iff₀ hβ0 (by positivity)]
    nlinarith
  have hab0 : 0 ≤ α / β := div_nonneg hα.le hβ0.le
  have hr' := abs_le.1 hr
  have hX : 1 / β ^ 2 ≤ 2 ^ 40 := by
    rw [div_le_iff₀ (by positivity)]
    have : (1 / 2 ^ 20 : ℚ) * (1 / 2 ^ 20) ≤ β * β := mul_le_mul hβ hβ (by norm_num) hβ0.le
    have e : (2 : ℚ) ^ 40 * (1 / 2 ^ 20 * (1 / 2 ^ 20)) = 1 := by norm_num
    calc (1 : ℚ) = 2 ^ 40 * (1 / 2 ^ 20 * (1 / 2 ^ 20)) := e.symm
      _ ≤ 2 ^ 40 * (β * β) := mul_le_mul_of_nonneg_left this (by norm_num)
      _ = 2 ^ 40 * β ^ 2 := by ring
  have hB : 2 * (1 / β ^ 2) ≤ 2 ^ 126 := by
    have : (2 : ℚ) * 2 ^ 40 ≤ 2 ^ 126 := by norm_num
    linarith
  obtain ⟨ρ, r1, r2⟩ := FP.step32 (q := P / Q) (B := 2 * (1 / β ^ 2)) (by rw [abs_le]; constructor <;> linarith) hB
  refine ⟨ρ, ?_, ?_⟩
  · rw [v1, FP.add_fin, FP.sub_fin, p1, q1, FP.div_fin _ hQ0.ne', r1]
  · have r2' := abs_le.1 r2
    rw [abs_le]
    have : (1 : ℚ) / 2 ^ 150 ≤ 1 / 2 ^ 40 := by norm_num
    constructor <;> linarith
/-- In single precision log loss starts from half the library logarithm of a number within `(n / nneg)^2 / 2^20` of the
odds of the positive class (when both classes occur). -/
theorem C49_binary_prior_f32 (M : Libm) (o : Objective) (c : Config) (ts : List ℚ) (hk : o.kind = .binary)
    (hpos : ∃ t ∈ ts, ¬ t < 1 / 2) (hneg : ∃ t ∈ ts, t < 1 / 2) (hn : ts.length ≤ 2 ^ 20) :
    let nneg := (ts.filter fun t => t < 1 / 2).length
    let npos := (ts.filter fun t => ¬ t < 1 / 2).length
    ∃ o' ρ, Objective.init .binary32 M o c (column ts) = .ok o' ∧
      o'.bias = FP.binary32.mul (.fin (1 / 2)) (M.ln (.fin ρ)) ∧
      |ρ - (npos : ℚ) / nneg| ≤ ((ts.length : ℚ) / nneg) ^ 2 / 2 ^ 20 := by
  intro nneg npos
  have hn0' : 0 < nneg := by
    obtain ⟨t, h1, h2⟩ := hneg
    exact List.length_pos_of_mem (a := t) (by simp [h1]; linarith)
  have hp0' : 0 < npos := by
    obtain ⟨t, h1, h2⟩ := hpos
    exact List.length_pos_of_mem (a := t) (by simp [h1]; linarith)
  have hn0 : (0 : ℚ) < nneg := by exact_mod_cast hn0'
  have hp0 : (0 : ℚ) < npos := by exact_mod_cast hp0'
  have hsum : ts.length = nneg + npos := by
    have := List.length_eq_length_filter_add (l := ts) (fun t => decide (t < 1 / 2))
    simp only [nneg, npos]
    have e : (ts.filter fun t => ¬ t < 1 / 2) = ts.filter (fun t => ! decide (t < 1 / 2)) := by
      congr 1; funext t; exact decide_not
    rw [e]
    exact this
  have hsum' : (ts.length : ℚ) = nneg + npos := by rw [hsum]; push_cast; ring
  have hl0 : (0 : ℚ) < ts.length := by rw [hsum']; positivity
  have hl1 : (ts.length : ℚ) ≤ 2 ^ 20 := by exact_mod_cast hn
  obtain ⟨ρ, h1, h2⟩ := ratio32 (α := npos / ts.length) (β := nneg / ts.length) (by positivity)
    (by rw [← add_div, add_comm, ← hsum', div_self hl0.ne'])
    (by
      rw [div_le_div_iff₀ (by norm_num) hl0, one_mul]
      have : (1 : ℚ) ≤ nneg := by exact_mod_cast hn0'
      linarith)
  refine ⟨_, ρ, by unfold Objective.init; rw [hk], ?_, ?_⟩
  · simp only [Objective.initializeBase, Objective.classCounts, filter_column']
    simp only [column, List.length_map]
    change FP.binary32.mul (.fin (1 / 2)) (M.ln (FP.binary32.div (FP.binary32.add (.fin 1) (FP.binary32.div (FP.binary32.add
      (FP.binary32.mul (.fin (-1)) (FP.binary32.ofNat nneg)) (FP.binary32.mul (.fin 1) (FP.binary32.sub
      (FP.binary32.ofNat ts.length) (FP.binary32.ofNat nneg)))) (FP.binary32.ofNat ts.length))) (FP.binary32.sub (.fin 1)
      (FP.binary32.div (FP.binary32.add (FP.binary32.mul (.fin (-1)) (FP.binary32.ofNat nneg)) (FP.binary32.mul (.fin 1)
      (FP.binary32.sub (FP.binary32.ofNat ts.length) (FP.binary32.ofNat nneg)))) (FP.binary32.ofNat ts.length))))) = _
    have i1 : FP.binary32.rnd (-1 * (nneg : ℚ)) = .fin (-1 * (nneg : ℚ)) := by
      have := FP.binary32.int (-(nneg : ℤ)) (by rw [abs_neg, abs_of_nonneg (by positivity)]; omega)
      push_cast at this
      rw [neg_one_mul]
      exact this
    have i2 : FP.binary32.rnd ((ts.length : ℚ) - nneg) = .fin ((npos : ℕ) : ℚ) := by
      have e : (ts.length : ℚ) - nneg = ((npos : ℕ) : ℚ) := by rw [hsum']; ring
      rw [e]
      exact FP.binary32.rnd_nat (by omega)
    have i3 : FP.binary32.rnd (1 * (npos : ℚ)) = .fin (npos : ℚ) := by
      rw [one_mul]; exact FP.binary32.rnd_nat (by omega)
    have i4 : FP.binary32.rnd (-1 * (nneg : ℚ) + npos) = .fin ((npos : ℚ) - nneg) := by
      have := FP.binary32.int ((npos : ℤ) - nneg) (by rw [abs_le]; constructor <;> omega)
      push_cast at this
      rw [show -1 * (nneg : ℚ) + npos = npos - nneg by ring]
      exact this
    rw [FP.binary32.ofNat_eq (show ts.length ≤ 2 ^ 24 by omega), FP.binary32.ofNat_eq (show nneg ≤ 2 ^ 24 by omega),
      FP.sub_fin, FP.mul_fin, i1, i2, FP.mul_fin, i3, FP.add_fin, i4, FP.div_fin _ hl0.ne', sub_div]
    rw [h1]
  · have e1 : (npos : ℚ) / ts.length / (nneg / ts.length) = npos / nneg := by field_simp
    have e2 : (1 : ℚ) / (nneg / ts.length) ^ 2 = (ts.length / nneg) ^ 2 := by field_simp
    rw [e1, e2] at h2
    exact h2

example : ∃ o' ρ, Objective.init .binary32 ⟨id, id, id⟩ (Objective.new .binary) Config.new (column [1, 0, 1, 1]) = .ok o' ∧
    o'.bias = FP.binary32.mul (.fin (1 / 2)) (.fin ρ) ∧ |ρ - 3| ≤ 16 / 2 ^ 20 := by
  obtain ⟨o', ρ, h1, h2, h3⟩ := C49_binary_prior_f32 ⟨id, id, id⟩ (Objective.new .binary) Config.new [1, 0, 1, 1] rfl
    ⟨1, by simp, by norm_num⟩ ⟨0, by simp, by norm_num⟩ (by simp)
  refine ⟨o', ρ, h1, h2, ?_⟩
  norm_num [List.filter_cons] at h3 ⊢
  exact h3

/-! ## C47 -/

private theorem tiny {B : ℚ} (h : 1 / 2 ^ 40 ≤ B) : (1 : ℚ) / 2 ^ 150 ≤ B / 2 ^ 100 := by
  rw [le_div_iff₀ (by norm_num)]
  refine le_trans ?_ h
  norm_num

/-- The value of a leaf of a squared loss tree in single precision. -/
theorem l2_leaf32 (o : Objective) (ts ps : List ℚ) (r B : ℚ) (examples : List Nat)
    (hk : o.kind = .l2) (hr : o.learningRate = .fin r) (hr0 : 0 ≤ r) (hr1 : r ≤ 1) (hp : o.predictions = column ps)
    (hl : ps.length = ts.length) (hne : examples ≠ []) (hnd : examples.Nodup)
    (hlt : ∀ i ∈ examples, i < ts.length) (hB1 : 1 / 2 ^ 40 ≤ B) (hB2 : B ≤ 2 ^ 60)
    (ht : ∀ i ∈ examples, |at' ts i| ≤ B) (hpB : ∀ i ∈ examples, |at' ps i| ≤ B) (hn : examples.length ≤ 2 ^ 20) :
    ∃ v ps', Objective.predictLeafValue .binary32 o (column ts) examples =
        .ok (.fin v, { o with predictions := column ps' }) ∧
      |v - r * meanResidual ts ps examples| ≤ (3 * examples.length + 9) * B / 2 ^ 23 ∧
      ps'.length = ps.length ∧
      ∀ i < ps.length, if i ∈ examples then |at' ps' i - (at' ps i + v)| ≤ 5 * B / 2 ^ 23 else at' ps' i = at' ps i := by
  have hB0 : 0 < B := lt_of_lt_of_le (by norm_num) hB1
  have hty := tiny hB1
  have hres : ∀ i ∈ examples, ∃ e, FP.binary32.rnd (at' ts i - at' ps i) = .fin e ∧
      |e - (at' ts i - at' ps i)| ≤ 2 * B / 2 ^ 23 ∧ |e| ≤ 3 * B := by
    intro i hi
    have hd : |at' ts i - at' ps i| ≤ 2 * B := by
      have := abs_sub (at' ts i) (at' ps i)
      linarith [ht i hi, hpB i hi]
    obtain ⟨e, h1, h2⟩ := FP.step32 hd (by
      have : (2 : ℚ) * 2 ^ 60 ≤ 2 ^ 126 := by norm_num
      linarith)
    refine ⟨e, h1, by linarith, ?_⟩
    have := abs_add_le (e - (at' ts i - at' ps i)) (at' ts i - at' ps i)
    rw [sub_add_cancel] at this
    linarith
  classical
  choose! E hE1 hE2 hE3 using hres
  have hrs : Objective.residuals .binary32 o (column ts) examples = .ok ((examples.map E).map Num.fin) := by
    unfold Objective.residuals
    rw [Objective.forExamples_ok _ (fun i => .fin (E i))]
    · simp [Function.comp_def]
    · intro i hi
      simp only [Objective.targetPred, Objective.index, hp, column_get ts (hlt i hi),
        column_get ps (hl ▸ hlt i hi)]
      simp only [Out.ok_bind, Out.pure_eq, FP.sub_fin]
      rw [hE1 i hi]
  have hlen : (examples.map E).length = examples.length := by simp
  obtain ⟨m, hm1, hm2, hm3⟩ := FP.mean32 (B := 3 * B) (le_trans (by norm_num) (show 1 / 2 ^ 40 ≤ 3 * B by linarith))
    (by have : (3 : ℚ) * 2 ^ 60 ≤ 2 ^ 100 := by norm_num
        linarith) (examples.map E)
    (by intro x hx
        obtain ⟨i, hi, rfl⟩ := List.mem_map.1 hx
        exact hE3 i hi) (by rw [hlen]; exact hn) (by simpa using hne)
  rw [hlen] at hm1 hm2
  have hpos : (0 : ℚ) < examples.length := by exact_mod_cast List.length_pos_of_ne_nil hne
  have hmean : |(examples.map E).sum / examples.length - meanResidual ts ps examples| ≤ 2 * B / 2 ^ 23 := by
    unfold meanResidual
    rw [← sub_div, abs_div, abs_of_pos hpos, div_le_iff₀ hpos]
    have key : ∀ l : List Nat, (∀ i ∈ l, i ∈ examples) →
        |(l.map E).sum - (l.map fun i => at' ts i - at' ps i).sum| ≤ 2 * B / 2 ^ 23 * l.length := by
      intro l
      induction l with
      | nil => simp
      | cons i l ih =>
        intro h
        simp only [List.map_cons, List.sum_cons, List.length_cons]
        have h1 := ih (fun j hj => h j (by simp [hj]))
        have h2 := hE2 i (h i (by simp))
        have h3 := abs_add_le (E i - (at' ts i - at' ps i)) ((l.map E).sum - (l.map fun i => at' ts i - at' ps i).sum)
        rw [show E i + (l.map E).sum - (at' ts i - at' ps i + (l.map fun i => at' ts i - at' ps i).sum) =
          (E i - (at' ts i - at' ps i)) + ((l.map E).sum - (l.map fun i => at' ts i - at' ps i).sum) by ring]
        push_cast
        linarith
    exact key examples (fun _ h => h)
  set mr := meanResidual ts ps examples with hmr
  have hmm : |m - mr| ≤ (3 * examples.length + 5) * B / 2 ^ 23 := by
    have h3 := abs_add_le (m - (examples.map E).sum / examples.length) ((examples.map E).sum / examples.length - mr)
    rw [sub_add_sub_cancel] at h3
    have e : (3 * (examples.length : ℚ) + 5) * B / 2 ^ 23 =
      (examples.length + 1) * (3 * B) / 2 ^ 23 + 2 * B / 2 ^ 23 := by ring
    rw [e]
    linarith
  have hrm : |r * m| ≤ 6 * B := by
    rw [abs_mul, abs_of_nonneg hr0]
    have : r * |m| ≤ 1 * |m| := mul_le_mul_of_nonneg_right hr1 (abs_nonneg _)
    linarith
  obtain ⟨v, hv1, hv2⟩ := FP.step32 hrm (by
      have : (6 : ℚ) * 2 ^ 60 ≤ 2 ^ 126 := by norm_num
      linarith)
  have hvv : |v - r * mr| ≤ (3 * examples.length + 9) * B / 2 ^ 23 := by
    have h3 := abs_add_le (v - r * m) (r * m - r * mr)
    rw [sub_add_sub_cancel] at h3
    have h4 : |r * m - r * mr| ≤ (3 * examples.length + 5) * B / 2 ^ 23 := by
      rw [← mul_sub, abs_mul, abs_of_nonneg hr0]
      have : r * |m - mr| ≤ 1 * |m - mr| := mul_le_mul_of_nonneg_right hr1 (abs_nonneg _)
      linarith
    have e : (3 * (examples.length : ℚ) + 9) * B / 2 ^ 23 =
      (3 * examples.length + 5) * B / 2 ^ 23 + 4 * B / 2 ^ 23 := by ring
    rw [e]
    linarith
  have hvB : |v| ≤ 7 * B := by
    have h3 := abs_add_le (v - r * m) (r * m)
    rw [sub_add_cancel] at h3
    linarith
  have hnew : ∀ i ∈ examples, ∃ p, FP.binary32.rnd (at' ps i + v) = .fin p ∧
      |p - (at' ps i + v)| ≤ 5 * B / 2 ^ 23 := by
    intro i hi
    have hd : |at' ps i + v| ≤ 8 * B := by
      have := abs_add_le (at' ps i) v
      linarith [hpB i hi]
    obtain ⟨e, h1, h2⟩ := FP.step32 hd (by
      have : (8 : ℚ) * 2 ^ 60 ≤ 2 ^ 126 := by norm_num
      linarith)
    exact ⟨e, h1, by linarith⟩
  choose! P hP1 hP2 using hnew
  refine ⟨v, ps.mapIdx fun j p => if j ∈ examples then P j else p, ?_, hvv, by simp, ?_⟩
  · unfold Objective.predictLeafValue Objective.leafValue
    rw [hk]
    simp only []
    rw [hrs]
    simp only [Out.ok_bind, Out.pure_eq]
    rw [hm1]
    unfold Objective.updatePredictions
    rw [hr, hp]
    have e3 : FP.binary32.mul (.fin r) (.fin m) = .fin v := hv1
    simp only [e3]
    rw [Objective.addLoop_ok _ _ _ _ hnd]
    · simp only [Out.ok_bind, hk]
      congr 3
      apply List.ext_getElem?
      intro j
      rw [Objective.bump_get]
      simp only [column, List.getElem?_map, List.getElem?_mapIdx, Option.map_map]
      by_cases hj : j < ps.length
      · rw [List.getElem?_eq_getElem hj]
        simp only [Option.map_some, Function.comp]
        by_cases hje : j ∈ examples
        · rw [if_pos hje, if_pos hje, ← hP1 j hje]
          simp [FP.add, at', hj]
        · rw [if_neg hje, if_neg hje]
      · rw [List.getElem?_eq_none (by omega)]; rfl
    · intro i hi
      refine ⟨_, column_get ps (by rw [hl]; exact hlt i hi), ?_⟩
      show (FP.binary32.rnd _).isFinite = true
      rw [hP1 i hi]; rfl
  · intro i hi
    have : at' (ps.mapIdx fun j p => if j ∈ examples then P j else p) i = if i ∈ examples then P i else at' ps i := by
      simp only [at', List.getD_eq_getElem?_getD, List.getElem?_mapIdx, List.getElem?_eq_getElem hi]
      simp
    rw [this]
    split_ifs with h
    · exact hP2 i h
    · rfl

/-- In single precision the value of a leaf of `n` examples under squared loss is the learning rate times the mean
residual up to `(3 n + 9) B / 2^23`, where `B` bounds the targets and the predictions of the examples; exactly the
predictions of these examples change, each by the value up to one rounding. The learning rate is at most 1. -/
theorem C47_leaf_value_f32 (o : Objective) (ts ps : List ℚ) (r B : ℚ) (examples : List Nat)
    (hk : o.kind = .l2) (hr : o.learningRate = .fin r) (hr0 : 0 ≤ r) (hr1 : r ≤ 1) (hp : o.predictions = column ps)
    (hl : ps.length = ts.length) (hne : examples ≠ []) (hnd : examples.Nodup)
    (hlt : ∀ i ∈ examples, i < ts.length) (hB1 : 1 / 2 ^ 40 ≤ B) (hB2 : B ≤ 2 ^ 60)
    (ht : ∀ i ∈ examples, |at' ts i| ≤ B) (hpB : ∀ i ∈ examples, |at' ps i| ≤ B) (hn : examples.length ≤ 2 ^ 20) :
    ∃ v ps', Objective.predictLeafValue .binary32 o (column ts) examples =
        .ok (.fin v, { o with predictions := column ps' }) ∧
      |v - r * meanResidual ts ps examples| ≤ (3 * examples.length + 9) * B / 2 ^ 23 ∧
      ps'.length = ps.length ∧
      ∀ i < ps.length, if i ∈ examples then |at' ps' i - (at' ps i + v)| ≤ 5 * B / 2 ^ 23 else at' ps' i = at' ps i :=
  l2_leaf32 o ts ps r B examples hk hr hr0 hr1 hp hl hne hnd hlt hB1 hB2 ht hpB hn

example : ∃ v ps', Objective.predictLeafValue .binary32 exL2 (column [1, 4, 3, 5]) [0, 2] =
    .ok (.fin v, { exL2 with predictions := column ps' }) ∧ |v - 1| ≤ 75 / 2 ^ 23 := by
  obtain ⟨v, ps', h1, h2, _⟩ := C47_leaf_value_f32 exL2 [1, 4, 3, 5] [0, 1, 0, 5] (1 / 2) 5 [0, 2] rfl rfl (by norm_num)
    (by norm_num) rfl rfl (by simp) (by simp) (by simp) (by norm_num) (by norm_num)
    (by intro i hi; simp at hi; rcases hi with rfl | rfl <;> norm_num [at', abs_le])
    (by intro i hi; simp at hi; rcases hi with rfl | rfl <;> norm_num [at']) (by simp)
  refine ⟨v, ps', h1, ?_⟩
  have hm : meanResidual [1, 4, 3, 5] [0, 1, 0, 5] [0, 2] = 2 := by norm_num [meanResidual, at']
  rw [hm] at h2
  norm_num at h2 ⊢
  exact h2

theorem square_shift (e : Nat → ℚ) (c : ℚ) (l : List Nat) :
    (l.map fun i => (e i - c) ^ 2).sum = (l.map fun i => e i ^ 2).sum - 2 * c * (l.map e).sum + l.length * c ^ 2 := by
  induction l with
  | nil => simp
  | cons i l ih =>
    simp only [List.map_cons, List.sum_cons, List.length_cons]
    rw [ih]; push_cast; ring

theorem sum_le_add (f g : Nat → ℚ) (c : ℚ) (l : List Nat) (h : ∀ i ∈ l, f i ≤ g i + c) :
    (l.map f).sum ≤ (l.map g).sum + l.length * c := by
  induction l with
  | nil => simp
  | cons i l ih =>
    simp only [List.map_cons, List.sum_cons, List.length_cons]
    have h1 := h i (by simp)
    have h2 := ih (fun j hj => h j (by simp [hj]))
    push_cast
    linarith

/-- Squared error of the examples of one leaf in single precision. -/
private theorem leaf_step32 (ts ps ps' : List ℚ) (r v B : ℚ) (examples : List Nat) (hr0 : 0 ≤ r) (hr1 : r ≤ 1)
    (hne : examples ≠ []) (hB0 : 0 < B)
    (ht : ∀ i ∈ examples, |at' ts i| ≤ B) (hpB : ∀ i ∈ examples, |at' ps i| ≤ B) (hn : examples.length ≤ 2 ^ 20)
    (hv : |v - r * meanResidual ts ps examples| ≤ (3 * examples.length + 9) * B / 2 ^ 23)
    (hp : ∀ i ∈ examples, |at' ps' i - (at' ps i + v)| ≤ 5 * B / 2 ^ 23) :
    (examples.map fun i => (at' ts i - at' ps' i) ^ 2).sum ≤ (examples.map fun i => (at' ts i - at' ps i) ^ 2).sum +
      examples.length * (9 * (3 * examples.length + 14) * B ^ 2 / 2 ^ 23) := by
  have hpos : (0 : ℚ) < examples.length := by exact_mod_cast List.length_pos_of_ne_nil hne
  have hnq : (examples.length : ℚ) ≤ 2 ^ 20 := by exact_mod_cast hn
  set m := meanResidual ts ps examples with hm
  have hs : (examples.map fun i => at' ts i - at' ps i).sum = examples.length * m := by
    rw [hm, meanResidual]; field_simp
  have he : ∀ i ∈ examples, |at' ts i - at' ps i| ≤ 2 * B := by
    intro i hi
    have := abs_sub (at' ts i) (at' ps i)
    linarith [ht i hi, hpB i hi]
  have hmB : |m| ≤ 2 * B := by
    rw [hm, meanResidual, abs_div, abs_of_pos hpos, div_le_iff₀ hpos]
    have key : ∀ l : List Nat, (∀ i ∈ l, i ∈ examples) →
        |(l.map fun i => at' ts i - at' ps i).sum| ≤ 2 * B * l.length := by
      intro l
      induction l with
      | nil => simp
      | cons i l ih =>
        intro h
        simp only [List.map_cons, List.sum_cons, List.length_cons]
        have h1 := ih (fun j hj => h j (by simp [hj]))
        have h2 := he i (h i (by simp))
        have h3 := abs_add_le (at' ts i - at' ps i) ((l.map fun i => at' ts i - at' ps i).sum)
        push_cast
        linarith
    exact key examples (fun _ h => h)
  have hrm : |r * m| ≤ 2 * B := by
    rw [abs_mul, abs_of_nonneg hr0]
    have : r * |m| ≤ 1 * |m| := mul_le_mul_of_nonneg_right hr1 (abs_nonneg _)
    linarith
  obtain ⟨D, hD⟩ : ∃ D, D = (3 * (examples.length : ℚ) + 14) * B / 2 ^ 23 := ⟨_, rfl⟩
  have hD0 : 0 ≤ D := by rw [hD]; positivity
  have hDB : D ≤ B := by
    rw [hD, div_le_iff₀ (by norm_num), mul_comm B]
    apply mul_le_mul_of_nonneg_right _ hB0.le
    have : (3 : ℚ) * 2 ^ 20 + 14 ≤ 2 ^ 23 := by norm_num
    linarith
  have h1 : (examples.map fun i => (at' ts i - at' ps' i) ^ 2).sum ≤
      (examples.map fun i => (at' ts i - at' ps i - r * m) ^ 2).sum + examples.length * (9 * B * D) := by
    apply sum_le_add
    intro i hi
    obtain ⟨x, hx⟩ : ∃ x, x = at' ts i - at' ps i - r * m := ⟨_, rfl⟩
    obtain ⟨δ, hδ⟩ : ∃ δ, δ = at' ps' i - (at' ps i + r * m) := ⟨_, rfl⟩
    have e : at' ts i - at' ps' i = x - δ := by rw [hx, hδ]; ring
    rw [e, ← hx]
    have hxB : |x| ≤ 4 * B := by
      have := abs_sub (at' ts i - at' ps i) (r * m)
      rw [← hx] at this
      linarith [he i hi]
    have hδD : |δ| ≤ D := by
      have := abs_add_le (at' ps' i - (at' ps i + v)) (v - r * m)
      rw [show at' ps' i - (at' ps i + v) + (v - r * m) = δ by rw [hδ]; ring] at this
      have e2 : D = (3 * (examples.length : ℚ) + 9) * B / 2 ^ 23 + 5 * B / 2 ^ 23 := by rw [hD]; ring
      rw [e2]
      linarith [hp i hi]
    have a1 : |x * δ| ≤ 4 * B * D := by
      rw [abs_mul]
      exact mul_le_mul hxB hδD (abs_nonneg _) (by linarith)
    have a2 : δ ^ 2 ≤ B * D := by
      rw [← sq_abs, pow_two]
      exact mul_le_mul (hδD.trans hDB) hδD (abs_nonneg _) hB0.le
    have a3 := (abs_le.1 a1).1
    have : (x - δ) ^ 2 = x ^ 2 - 2 * (x * δ) + δ ^ 2 := by ring
    rw [this]
    linarith
  have h2 := square_shift (fun i => at' ts i - at' ps i) (r * m) examples
  rw [hs] at h2
  have h3 : (0 : ℚ) ≤ examples.length * m ^ 2 * (r * (2 - r)) := by
    have : 0 ≤ 2 - r := by linarith
    positivity
  have e4 : (examples.length : ℚ) * (9 * B * D) = examples.length * (9 * (3 * examples.length + 14) * B ^ 2 / 2 ^ 23) := by
    rw [hD]; ring
  rw [← e4]
  have e5 : (examples.map fun i => (at' ts i - at' ps i) ^ 2).sum - 2 * (r * m) * (examples.length * m) +
      examples.length * (r * m) ^ 2 = (examples.map fun i => (at' ts i - at' ps i) ^ 2).sum -
      examples.length * m ^ 2 * (r * (2 - r)) := by ring
  rw [e5] at h2
  rw [h2] at h1
  linarith

/-- In single precision, with squared loss and a learning rate between 0 and 1, computing the values of the leaves of a
tree, whatever the leaves are, raises the squared error of their `n` examples by at most
`n * 9 (3 n + 14) B^2 / 2^23` (the mean squared error by at most `9 (3 n + 14) B^2 / 2^23`), where `B` bounds targets and
predictions; other predictions do not change. -/
theorem C47_no_increase_f32 (targets : List Num) (o o' : Objective) (leaves : List (List Nat))
    (hcalls : LeafCalls .binary32 targets o leaves o') (ts ps : List ℚ) (r B : ℚ)
    (ht : targets = column ts) (hk : o.kind = .l2) (hr : o.learningRate = .fin r) (h0 : 0 ≤ r) (h1 : r ≤ 1)
    (hp : o.predictions = column ps) (hl : ps.length = ts.length)
    (hB1 : 1 / 2 ^ 40 ≤ B) (hB2 : B ≤ 2 ^ 60) (htB : ∀ i ∈ leaves.flatten, |at' ts i| ≤ B)
    (hpB : ∀ i ∈ leaves.flatten, |at' ps i| ≤ B) (hn : leaves.flatten.length ≤ 2 ^ 20)
    (hnd : leaves.flatten.Nodup) (hlt : ∀ i ∈ leaves.flatten, i < ts.length) :
    ∃ ps', o'.predictions = column ps' ∧ ps'.length = ts.length ∧
      (∀ i, i ∉ leaves.flatten → at' ps' i = at' ps i) ∧
      (leaves.flatten.map fun i => (at' ts i - at' ps' i) ^ 2).sum ≤
        (leaves.flatten.map fun i => (at' ts i - at' ps i) ^ 2).sum +
        leaves.flatten.length * (9 * (3 * leaves.flatten.length + 14) * B ^ 2 / 2 ^ 23) := by
  have hB0 : 0 < B := lt_of_lt_of_le (by norm_num) hB1
  subst ht
  induction hcalls generalizing ps with
  | nil o => exact ⟨ps, hp, hl, fun _ _ => rfl, by simp⟩
  | @cons o o1 o2 examples leaves v hv hrest ih =>
    simp only [List.flatten_cons] at htB hpB hn hnd hlt ⊢
    rw [List.length_append] at hn
    obtain ⟨hnd1, hnd2, hdis⟩ := List.nodup_append.1 hnd
    by_cases hne : examples = []
    · subst hne
      unfold Objective.predictLeafValue at hv
      obtain ⟨x, _, hv⟩ := Out.bind_eq_ok.1 hv
      unfold Objective.updatePredictions Objective.addLoop at hv
      simp only [Out.ok_bind, Out.pure_eq, Out.ok.injEq, Prod.mk.injEq] at hv
      obtain ⟨_, rfl⟩ := hv
      simpa using ih ps hk hr hp hl (by simpa using htB) (by simpa using hpB) (by simpa using hn) (by simpa using hnd)
        (by simpa using hlt)
    obtain ⟨v', ps1, e1, e2, e3, e4⟩ := l2_leaf32 o ts ps r B examples hk hr h0 h1 hp hl hne hnd1
      (fun i hi => hlt i (List.mem_append_left _ hi)) hB1 hB2
      (fun i hi => htB i (List.mem_append_left _ hi)) (fun i hi => hpB i (List.mem_append_left _ hi)) (by omega)
    rw [e1] at hv
    simp only [Out.ok.injEq, Prod.mk.injEq] at hv
    obtain ⟨_, rfl⟩ := hv
    have hsame : ∀ i, i ∉ examples → at' ps1 i = at' ps i := by
      intro i hi
      by_cases hil : i < ps.length
      · have := e4 i hil
        rwa [if_neg hi] at this
      · simp only [at', List.getD_eq_getElem?_getD]
        rw [List.getElem?_eq_none (by omega), List.getElem?_eq_none (by omega)]
    have hnot : ∀ i ∈ leaves.flatten, i ∉ examples := fun i hi hc => hdis i hc i hi rfl
    obtain ⟨ps2, f1, f2, f3, f4⟩ := ih ps1 hk hr rfl (by omega)
      (fun i hi => htB i (List.mem_append_right _ hi))
      (fun i hi => by rw [hsame i (hnot i hi)]; exact hpB i (List.mem_append_right _ hi)) (by omega) hnd2
      (fun i hi => hlt i (List.mem_append_right _ hi))
    have hstep := leaf_step32 ts ps ps1 r v' B examples h0 h1 hne hB0
      (fun i hi => htB i (List.mem_append_left _ hi)) (fun i hi => hpB i (List.mem_append_left _ hi)) (by omega) e2
      (fun i hi => by
        have := e4 i (by have := hlt i (List.mem_append_left _ hi); omega)
        rwa [if_pos hi] at this)
    refine ⟨ps2, f1, f2, ?_, ?_⟩
    · intro i hi
      rw [List.mem_append, not_or] at hi
      rw [f3 i hi.2, hsame i hi.1]
    · rw [List.map_append, List.sum_append, List.map_append, List.sum_append, List.length_append]
      have c1 : (examples.map fun i => (at' ts i - at' ps2 i) ^ 2) = examples.map fun i => (at' ts i - at' ps1 i) ^ 2 := by
        apply List.map_congr_left
        intro i hi
        rw [f3 i (fun hc => hnot i hc hi)]
      have c2 : (leaves.flatten.map fun i => (at' ts i - at' ps1 i) ^ 2) =
          leaves.flatten.map fun i => (at' ts i - at' ps i) ^ 2 := by
        apply List.map_congr_left
        intro i hi
        rw [hsame i (hnot i hi)]
      rw [c1]
      rw [c2] at f4
      obtain ⟨a, ha⟩ : ∃ a : ℚ, a = examples.length := ⟨_, rfl⟩
      obtain ⟨b, hb⟩ : ∃ b : ℚ, b = leaves.flatten.length := ⟨_, rfl⟩
      have ha0 : 0 ≤ a := by rw [ha]; positivity
      have hb0 : 0 ≤ b := by rw [hb]; positivity
      push_cast
      rw [← ha] at hstep ⊢
      rw [← hb] at f4 ⊢
      have g : a * (9 * (3 * a + 14) * B ^ 2 / 2 ^ 23) + b * (9 * (3 * b + 14) * B ^ 2 / 2 ^ 23) ≤
          (a + b) * (9 * (3 * (a + b) + 14) * B ^ 2 / 2 ^ 23) := by
        have : (a + b) * (9 * (3 * (a + b) + 14) * B ^ 2 / 2 ^ 23) - (a * (9 * (3 * a + 14) * B ^ 2 / 2 ^ 23) +
          b * (9 * (3 * b + 14) * B ^ 2 / 2 ^ 23)) = 54 * (a * b) * B ^ 2 / 2 ^ 23 := by ring
        have h : 0 ≤ 54 * (a * b) * B ^ 2 / 2 ^ 23 := by positivity
        linarith
      linarith

/-! ## C51 -/

theorem evalMean_fin (F : FP) (one : Num → Num → Num) (f : ℚ → ℚ → ℚ) (P : ℚ → ℚ → Prop)
    (hf : ∀ t p : ℚ, P t p → one (.fin t) (.fin p) = .fin (f t p)) (ts ps : List ℚ) (h : ts.length = ps.length)
    (hP : ∀ tp ∈ ts.zip ps, P tp.1 tp.2) :
    Metric.evalMean F one (column ts) (column ps) =
      F.div (F.sum ((List.zipWith f ts ps).map Num.fin)) (F.ofNat (List.zipWith f ts ps).length) := by
  have H : ∀ (ts ps : List ℚ), ts.length = ps.length → (∀ tp ∈ ts.zip ps, P tp.1 tp.2) → ∀ (a : Num) (n : Nat),
      ((column ts).zip (column ps)).foldl
        (fun (acc : Num × Nat) tp => (F.add acc.1 (one tp.1 tp.2), acc.2 + 1)) (a, n) =
      (((List.zipWith f ts ps).map Num.fin).foldl F.add a, n + (List.zipWith f ts ps).length) := by
    intro ts
    induction ts with
    | nil => intro ps _ _ a n; simp [column]
    | cons t ts ih =>
      intro ps hl hP a n
      cases ps with
      | nil => simp at hl
      | cons p ps =>
        simp only [column, List.map_cons, List.zip_cons_cons, List.foldl_cons]
        rw [hf t p (hP (t, p) (by simp))]
        have := ih ps (by simpa using hl) (fun tp htp => hP tp (by simp [htp])) (F.add a (.fin (f t p))) (n + 1)
        simp only [column] at this
        rw [this]
        simp only [List.zipWith_cons_cons, List.map_cons, List.foldl_cons, List.length_cons]
        rw [Nat.add_assoc, Nat.add_comm 1]
  unfold Metric.evalMean
  rw [H ts ps h hP (.fin 0) 0]
  simp only [Nat.zero_add, FP.sum]

/-- One squared difference in single precision. -/
private theorem l2One32 {B : ℚ} (hB1 : 1 / 2 ^ 40 ≤ B) (hB2 : B ≤ 2 ^ 40) (t p : ℚ) :
    ∃ y, |t| ≤ B ∧ |p| ≤ B → Metric.l2One .binary32 (.fin t) (.fin p) = .fin y ∧
      |y - (t - p) ^ 2| ≤ 13 * B ^ 2 / 2 ^ 23 := by
  have hB0 : 0 < B := lt_of_lt_of_le (by norm_num) hB1
  have hBB1 : 1 / 2 ^ 80 ≤ B ^ 2 := by
    have := mul_le_mul hB1 hB1 (by norm_num) hB0.le
    refine le_trans (le_of_eq (by norm_num)) (this.trans (le_of_eq (by ring)))
  have hBB2 : B ^ 2 ≤ 2 ^ 80 := by
    have := mul_le_mul hB2 hB2 hB0.le (by norm_num)
    exact (le_of_eq (by ring)).trans (this.trans (by norm_num))
  have hty := tiny hB1
  have hty2 : (1 : ℚ) / 2 ^ 150 ≤ B ^ 2 / 2 ^ 60 := by
    rw [le_div_iff₀ (by norm_num)]
    exact le_trans (by norm_num) hBB1
  by_cases hb : |t| ≤ B ∧ |p| ≤ B
  swap
  · exact ⟨0, fun hc => absurd hc hb⟩
  have hd : |t - p| ≤ 2 * B := by
    have := abs_sub t p
    linarith [hb.1, hb.2]
  obtain ⟨d, h1, h2⟩ := FP.step32 hd (by
    have : (2 : ℚ) * 2 ^ 40 ≤ 2 ^ 126 := by norm_num
    linarith)
  have h2' : |d - (t - p)| ≤ 3 * B / 2 ^ 24 := by linarith
  have hd3 : |d| ≤ 3 * B := by
    have := abs_add_le (d - (t - p)) (t - p)
    rw [sub_add_cancel] at this
    linarith
  have hdd : |d * d| ≤ 9 * B ^ 2 := by
    rw [abs_mul]
    have := mul_le_mul hd3 hd3 (abs_nonneg _) (by linarith)
    linarith
  obtain ⟨y, h3, h4⟩ := FP.step32 hdd (by
    have : (9 : ℚ) * 2 ^ 80 ≤ 2 ^ 126 := by norm_num
    linarith)
  have h5 : |d * d - (t - p) ^ 2| ≤ 15 * B ^ 2 / 2 ^ 24 := by
    have e : d * d - (t - p) ^ 2 = (d - (t - p)) * (d + (t - p)) := by ring
    rw [e, abs_mul]
    have h6 : |d + (t - p)| ≤ 5 * B := by
      have := abs_add_le d (t - p)
      linarith
    have := mul_le_mul h2' h6 (abs_nonneg _) (by positivity)
    refine this.trans (le_of_eq ?_)
    ring
  refine ⟨y, fun _ => ⟨?_, ?_⟩⟩
  · simp only [Metric.l2One, FP.sub_fin, h1]
    exact h3
  · have := abs_add_le (y - d * d) (d * d - (t - p) ^ 2)
    rw [sub_add_sub_cancel] at this
    have hb2 : 0 ≤ B ^ 2 := by positivity
    generalize B ^ 2 = C at *
    linarith

/-- In single precision `L2` is within `(10 n + 23) B^2 / 2^23` of the mean squared difference, where `B` bounds the
targets and predictions. -/
theorem C51_l2_f32 (M : Libm) (ts ps : List ℚ) (h : ts.length = ps.length) (hne : ts ≠ []) (B : ℚ)
    (hB1 : 1 / 2 ^ 40 ≤ B) (hB2 : B ≤ 2 ^ 40) (ht : ∀ t ∈ ts, |t| ≤ B) (hp : ∀ p ∈ ps, |p| ≤ B)
    (hn : ts.length ≤ 2 ^ 20) :
    ∃ m : ℚ, Metric.eval .binary32 M .l2 (column ts) (column ps) = .fin m ∧
      |m - sqErr ts ps / ts.length| ≤ (10 * ts.length + 23) * B ^ 2 / 2 ^ 23 := by
  have hB0 : 0 < B := lt_of_lt_of_le (by norm_num) hB1
  have hBB1 : 1 / 2 ^ 80 ≤ B ^ 2 := by
    have := mul_le_mul hB1 hB1 (by norm_num) hB0.le
    refine le_trans (le_of_eq (by norm_num)) (this.trans (le_of_eq (by ring)))
  have hBB2 : B ^ 2 ≤ 2 ^ 80 := by
    have := mul_le_mul hB2 hB2 hB0.le (by norm_num)
    exact (le_of_eq (by ring)).trans (this.trans (by norm_num))
  have hone := l2One32 hB1 hB2
  choose Y hY using hone
  have hmem : ∀ tp ∈ ts.zip ps, |tp.1| ≤ B ∧ |tp.2| ≤ B := by
    rintro ⟨t, p⟩ htp
    exact ⟨ht t (List.of_mem_zip htp).1, hp p (List.of_mem_zip htp).2⟩
  have e := evalMean_fin .binary32 (Metric.l2One .binary32) Y (fun t p => |t| ≤ B ∧ |p| ≤ B)
    (fun t p hb => (hY t p hb).1) ts ps h hmem
  have hlen : (List.zipWith Y ts ps).length = ts.length := by simp [h]
  have hYB : ∀ x ∈ List.zipWith Y ts ps, |x| ≤ 10 * B ^ 2 := by
    intro x hx
    rw [← List.map_uncurry_zip_eq_zipWith, List.mem_map] at hx
    obtain ⟨⟨t, p⟩, htp, hx⟩ := hx
    have hx : Y t p = x := hx
    rw [← hx]
    have h2 := (hY t p (hmem (t, p) htp)).2
    have h3 : |(t - p) ^ 2| ≤ 4 * B ^ 2 := by
      have hd : |t - p| ≤ 2 * B := by
        have := abs_sub t p
        linarith [(hmem (t, p) htp).1, (hmem (t, p) htp).2]
      rw [pow_two, abs_mul]
      have := mul_le_mul hd hd (abs_nonneg _) (by linarith)
      linarith
    have := abs_add_le (Y t p - (t - p) ^ 2) ((t - p) ^ 2)
    rw [sub_add_cancel] at this
    have hb2 : 0 ≤ B ^ 2 := by positivity
    show |Y t p| ≤ _
    linarith
  obtain ⟨m, hm1, hm2, _⟩ := FP.mean32 (B := 10 * B ^ 2) (le_trans (by norm_num) (show 1 / 2 ^ 80 ≤ 10 * B ^ 2 by linarith))
    (by have : (10 : ℚ) * 2 ^ 80 ≤ 2 ^ 100 := by norm_num
        linarith) (List.zipWith Y ts ps) hYB (by rw [hlen]; exact hn)
    (by intro hc; rw [hc] at hlen; exact hne (List.eq_nil_of_length_eq_zero hlen.symm))
  refine ⟨m, ?_, ?_⟩
  · show Metric.evalMean .binary32 (Metric.l2One .binary32) (column ts) (column ps) = _
    rw [e, hm1]
  · rw [hlen] at hm2
    have hpos : (0 : ℚ) < ts.length := by exact_mod_cast List.length_pos_of_ne_nil hne
    have key : ∀ (ts ps : List ℚ), ts.length = ps.length → (∀ tp ∈ ts.zip ps, |tp.1| ≤ B ∧ |tp.2| ≤ B) →
        |(List.zipWith Y ts ps).sum - sqErr ts ps| ≤ 13 * B ^ 2 / 2 ^ 23 * ts.length := by
      intro ts
      induction ts with
      | nil => intro ps _ _; simp [sqErr]
      | cons t ts ih =>
        intro ps hl hP
        cases ps with
        | nil => simp at hl
        | cons p ps =>
          have h1 := ih ps (by simpa using hl) (fun tp htp => hP tp (by simp [htp]))
          have h2 := (hY t p (hP (t, p) (by simp))).2
          have h3 := abs_add_le (Y t p - (t - p) ^ 2) ((List.zipWith Y ts ps).sum - sqErr ts ps)
          have e1 : (List.zipWith Y (t :: ts) (p :: ps)).sum - sqErr (t :: ts) (p :: ps) =
              Y t p - (t - p) ^ 2 + ((List.zipWith Y ts ps).sum - sqErr ts ps) := by
            simp only [sqErr, List.zipWith_cons_cons, List.sum_cons]; ring
          rw [e1, List.length_cons]
          push_cast
          linarith
    have h5 : |(List.zipWith Y ts ps).sum / ts.length - sqErr ts ps / ts.length| ≤ 13 * B ^ 2 / 2 ^ 23 := by
      rw [← sub_div, abs_div, abs_of_pos hpos, div_le_iff₀ hpos]
      exact key ts ps h hmem
    have h6 := abs_add_le (m - (List.zipWith Y ts ps).sum / ts.length)
      ((List.zipWith Y ts ps).sum / ts.length - sqErr ts ps / ts.length)
    rw [sub_add_sub_cancel] at h6
    have e7 : (10 * (ts.length : ℚ) + 23) * B ^ 2 / 2 ^ 23 = (ts.length + 1) * (10 * B ^ 2) / 2 ^ 23 +
      13 * B ^ 2 / 2 ^ 23 := by ring
    rw [e7]
    linarith

/-- In every arithmetic: `L2` of perfect predictions is zero. -/
theorem C51_l2_perfect (F : FP) (M : Libm) (ts : List ℚ) (hne : ts ≠ []) (hn : ts.length ≤ 2 ^ 24) :
    Metric.eval F M .l2 (column ts) (column ts) = .fin 0 := by
  have e := evalMean_fin F (Metric.l2One F) (fun _ _ => 0) (fun t p => t = p) (by
    rintro t p rfl
    simp only [Metric.l2One, FP.sub_fin, sub_self, FP.rnd_zero]
    show F.rnd (0 * 0) = _
    rw [mul_zero, FP.rnd_zero]) ts ts rfl (by
      rintro ⟨t, p⟩ h
      rw [List.zip_eq_zipWith, List.zipWith_self, List.mem_map] at h
      obtain ⟨x, _, h⟩ := h
      cases h; rfl)
  have hz : ∀ l : List ℚ, ((List.zipWith (fun _ _ => (0 : ℚ)) l l).map Num.fin).foldl F.add (.fin 0) = .fin 0 := by
    intro l
    induction l with
    | nil => rfl
    | cons x l ih =>
      simp only [List.zipWith_cons_cons, List.map_cons, List.foldl_cons]
      have : F.add (.fin 0) (.fin 0) = .fin 0 := by
        show F.rnd (0 + 0) = _
        rw [add_zero, FP.rnd_zero]
      rw [this, ih]
  have hlen : (List.zipWith (fun _ _ => (0 : ℚ)) ts ts).length = ts.length := by simp
  have hpos : (ts.length : ℚ) ≠ 0 := by
    have := List.length_pos_of_ne_nil hne
    positivity
  show Metric.evalMean F (Metric.l2One F) (column ts) (column ts) = _
  rw [e, hlen, FP.sum, hz, F.ofNat_eq hn, FP.div_fin _ hpos, zero_div, FP.rnd_zero]

example : ∃ m : ℚ, Metric.eval .binary32 ⟨id, id, id⟩ .l2 (column [1, 2, 1 / 4]) (column [0, 2, 1]) = .fin m ∧
    |m - 25 / 48| ≤ 212 / 2 ^ 23 := by
  obtain ⟨m, h1, h2⟩ := C51_l2_f32 ⟨id, id, id⟩ [1, 2, 1 / 4] [0, 2, 1] rfl (by simp) 2 (by norm_num) (by norm_num)
    (by intro t ht; simp at ht; rcases ht with rfl | rfl | rfl <;> norm_num [abs_le])
    (by intro t ht; simp at ht; rcases ht with rfl | rfl | rfl <;> norm_num [abs_le]) (by simp)
  refine ⟨m, h1, ?_⟩
  have : sqErr [1, 2, 1 / 4] [0, 2, 1] = 25 / 16 := by norm_num [sqErr]
  rw [this] at h2
  norm_num at h2 ⊢
  exact h2

end BitBoost.Props
