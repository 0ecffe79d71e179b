import Verif.Lemmas.SumRel32
import Verif.Props.BoostSingle
import Verif.Props.Progress
import Verif.Props.ProgressLoad
import Mathlib.Analysis.Complex.ExponentialBounds
/-!
# C47 and C69 in single precision without a bound on the predictions

The errors of a leaf value are bounded relative to the residuals. This gives a bound on the growth of the squared error that
does not presuppose that the predictions stay bounded, and so shows that they do.
-/
namespace BitBoost.Props
open BitBoost Spec Dataset Learner

/-- The value of a leaf of a squared loss tree in single precision: the error is relative to the mean absolute residual. -/
theorem l2_leafRel32 (o : Objective) (ts ps : List ℚ) (r A : ℚ) (examples : List Nat)
    (hk : o.kind = .l2) (hr : o.learningRate = .fin r) (hr0 : 0 ≤ r) (hr1 : r ≤ 1) (hp : o.predictions = Spec.column ps)
    (hl : ps.length = ts.length) (hne : examples ≠ []) (hnd : examples.Nodup)
    (hlt : ∀ i ∈ examples, i < ts.length) (hA : A ≤ 2 ^ 103)
    (hsum : (examples.map fun i => |at' ts i - at' ps i|).sum ≤ examples.length * A)
    (hres : ∀ i ∈ examples, |at' ts i - at' ps i| ≤ 2 ^ 110) (hpB : ∀ i ∈ examples, |at' ps i| ≤ 2 ^ 110)
    (hn : examples.length ≤ 2 ^ 20) :
    ∃ v ps', Objective.predictLeafValue .binary32 o (Spec.column ts) examples =
        .ok (.fin v, { o with predictions := Spec.column ps' }) ∧
      |v - r * meanResidual ts ps examples| ≤ (examples.length + 4) * (A / 2 ^ 23) + 1 / 2 ^ 140 ∧
      ps'.length = ps.length ∧
      ∀ i < ps.length, if i ∈ examples then |at' ps' i - (at' ps i + v)| ≤ |at' ps i + v| / 2 ^ 24 + 1 / 2 ^ 150
        else at' ps' i = at' ps i := by
  have hpos : (1 : ℚ) ≤ examples.length := by exact_mod_cast List.length_pos_of_ne_nil hne
  have hnq : (examples.length : ℚ) ≤ 2 ^ 20 := by exact_mod_cast hn
  have hS0 : 0 ≤ (examples.map fun i => |at' ts i - at' ps i|).sum := by
    apply List.sum_nonneg; intro x hx; obtain ⟨i, _, rfl⟩ := List.mem_map.1 hx; exact abs_nonneg _
  have hA0 : 0 ≤ A := by
    by_contra h
    have : (examples.length : ℚ) * A < 0 := mul_neg_of_pos_of_neg (by linarith) (by linarith)
    linarith
  have hex : ∀ i ∈ examples, ∃ e, FP.binary32.rnd (at' ts i - at' ps i) = .fin e ∧
      |e - (at' ts i - at' ps i)| ≤ |at' ts i - at' ps i| / 2 ^ 24 + 1 / 2 ^ 150 := fun i hi =>
    FP.binary32_err ((hres i hi).trans (by norm_num))
  classical
  choose! E hE1 hE2 using hex
  have hrs : Objective.residuals .binary32 o (Spec.column ts) examples = .ok ((examples.map E).map Num.fin) := by
    unfold Objective.residuals
    rw [Objective.forExamples_ok _ (fun i => .fin (E i))]
    · simp [Function.comp_def]
    · intro i hi
      simp only [Objective.targetPred, Objective.index, hp, column_get ts (hlt i hi),
        column_get ps (hl ▸ hlt i hi)]
      simp only [Out.ok_bind, Out.pure_eq, FP.sub_fin]
      rw [hE1 i hi]
  have hlen : (examples.map E).length = examples.length := by simp
  obtain ⟨A', hA'⟩ : ∃ A', A' = A * (1 + 1 / 2 ^ 24) + 1 / 2 ^ 150 := ⟨_, rfl⟩
  have key : ∀ l : List Nat, (∀ i ∈ l, i ∈ examples) →
      ((l.map E).map abs).sum ≤ (l.map fun i => |at' ts i - at' ps i|).sum * (1 + 1 / 2 ^ 24) + l.length / 2 ^ 150 ∧
      |(l.map E).sum - (l.map fun i => at' ts i - at' ps i).sum| ≤
        (l.map fun i => |at' ts i - at' ps i|).sum / 2 ^ 24 + l.length / 2 ^ 150 := by
    intro l
    induction l with
    | nil => simp
    | cons i l ih =>
      intro h
      simp only [List.map_cons, List.sum_cons, List.length_cons]
      obtain ⟨h1, h1'⟩ := ih (fun j hj => h j (by simp [hj]))
      have h2 := hE2 i (h i (by simp))
      push_cast
      constructor
      · have h3 := abs_add_le (E i - (at' ts i - at' ps i)) (at' ts i - at' ps i)
        rw [sub_add_cancel] at h3
        have e : ((l.length : ℚ) + 1) / 2 ^ 150 = l.length / 2 ^ 150 + 1 / 2 ^ 150 := by ring
        rw [e, add_mul]
        have e2 : |at' ts i - at' ps i| * (1 + 1 / 2 ^ 24) = |at' ts i - at' ps i| + |at' ts i - at' ps i| / 2 ^ 24 := by ring
        rw [e2]
        linarith
      · have h3 := abs_add_le (E i - (at' ts i - at' ps i)) ((l.map E).sum - (l.map fun i => at' ts i - at' ps i).sum)
        rw [show E i + (l.map E).sum - (at' ts i - at' ps i + (l.map fun i => at' ts i - at' ps i).sum) =
          (E i - (at' ts i - at' ps i)) + ((l.map E).sum - (l.map fun i => at' ts i - at' ps i).sum) by ring]
        have e : ((l.length : ℚ) + 1) / 2 ^ 150 = l.length / 2 ^ 150 + 1 / 2 ^ 150 := by ring
        rw [e, add_div]
        linarith
  obtain ⟨k1, k2⟩ := key examples fun _ h => h
  obtain ⟨m, hm1, hm2, hm3⟩ := FP.meanRel32 (A := A') (examples.map E) (by
      rw [hlen, hA']
      have h1 : (examples.map fun i => |at' ts i - at' ps i|).sum * (1 + 1 / 2 ^ 24) ≤
        examples.length * A * (1 + 1 / 2 ^ 24) := mul_le_mul_of_nonneg_right hsum (by norm_num)
      have e : (examples.length : ℚ) * (A * (1 + 1 / 2 ^ 24) + 1 / 2 ^ 150) =
        examples.length * A * (1 + 1 / 2 ^ 24) + examples.length / 2 ^ 150 := by ring
      rw [e]; linarith)
    (by rw [hA']
        have h1 : A * (1 + 1 / 2 ^ 24) ≤ 2 ^ 103 * (1 + 1 / 2 ^ 24) := mul_le_mul_of_nonneg_right hA (by norm_num)
        have : (2 : ℚ) ^ 103 * (1 + 1 / 2 ^ 24) + 1 / 2 ^ 150 ≤ 2 ^ 104 := by norm_num
        linarith) (by rw [hlen]; exact hn) (by simpa using hne)
  rw [hlen] at hm1 hm2
  have hpos0 : (0 : ℚ) < examples.length := by linarith
  have hmean : |(examples.map E).sum / examples.length - meanResidual ts ps examples| ≤ A / 2 ^ 24 + 1 / 2 ^ 150 := by
    unfold meanResidual
    rw [← sub_div, abs_div, abs_of_pos hpos0, div_le_iff₀ hpos0]
    refine k2.trans ?_
    have h1 : (examples.map fun i => |at' ts i - at' ps i|).sum / 2 ^ 24 ≤ examples.length * A / 2 ^ 24 :=
      div_le_div_of_nonneg_right hsum (by norm_num)
    have e : (A / 2 ^ 24 + 1 / 2 ^ 150) * examples.length = examples.length * A / 2 ^ 24 + examples.length / 2 ^ 150 := by ring
    rw [e]; linarith
  set mr := meanResidual ts ps examples with hmr
  have hnA : examples.length * (A' / 2 ^ 23) ≤ examples.length * (A / 2 ^ 23) + (A / 2 ^ 24 + 1 / 2 ^ 150) / 8 := by
    have e : (examples.length : ℚ) * (A' / 2 ^ 23) = examples.length * (A / 2 ^ 23) +
      examples.length * ((A / 2 ^ 24 + 1 / 2 ^ 150) / 2 ^ 23) := by rw [hA']; ring
    rw [e]
    have h1 : examples.length * ((A / 2 ^ 24 + 1 / 2 ^ 150) / 2 ^ 23) ≤ 2 ^ 20 * ((A / 2 ^ 24 + 1 / 2 ^ 150) / 2 ^ 23) :=
      mul_le_mul_of_nonneg_right hnq (by positivity)
    have e2 : (2 : ℚ) ^ 20 * ((A / 2 ^ 24 + 1 / 2 ^ 150) / 2 ^ 23) = (A / 2 ^ 24 + 1 / 2 ^ 150) / 8 := by ring
    rw [e2] at h1
    linarith
  have hA'3 : A' / 2 ^ 23 ≤ A / 2 ^ 23 + (A / 2 ^ 24 + 1 / 2 ^ 150) / 8 := by
    rw [hA']
    have e : (A * (1 + 1 / 2 ^ 24) + 1 / 2 ^ 150) / 2 ^ 23 = A / 2 ^ 23 + (A / 2 ^ 24 + 1 / 2 ^ 150) / 2 ^ 23 := by ring
    rw [e]
    have : 0 ≤ A / 2 ^ 24 + 1 / 2 ^ 150 := by positivity
    have h2 : (A / 2 ^ 24 + 1 / 2 ^ 150) / 2 ^ 23 ≤ (A / 2 ^ 24 + 1 / 2 ^ 150) / 8 :=
      div_le_div_of_nonneg_left this (by norm_num) (by norm_num)
    linarith
  have hmm : |m - mr| ≤ (examples.length + 1) * (A / 2 ^ 23) + A / 2 ^ 23 + 1 / 2 ^ 147 := by
    have h3 := abs_add_le (m - (examples.map E).sum / examples.length) ((examples.map E).sum / examples.length - mr)
    rw [sub_add_sub_cancel] at h3
    have e : ((examples.length : ℚ) + 1) * (A' / 2 ^ 23) = examples.length * (A' / 2 ^ 23) + A' / 2 ^ 23 := by ring
    rw [e] at hm2
    have e2 : ((examples.length : ℚ) + 1) * (A / 2 ^ 23) = examples.length * (A / 2 ^ 23) + A / 2 ^ 23 := by ring
    rw [e2]
    have h4 : (1 : ℚ) / 2 ^ 150 / 8 + 1 / 2 ^ 150 / 8 + 1 / 2 ^ 150 + 1 / 2 ^ 148 ≤ 1 / 2 ^ 147 := by norm_num
    have h5 : (A / 2 ^ 24 + 1 / 2 ^ 150) / 8 = A / 2 ^ 24 / 8 + 1 / 2 ^ 150 / 8 := by ring
    rw [h5] at hnA hA'3
    linarith
  have hrm : |r * m| ≤ 3 / 2 * A + 1 / 2 ^ 147 := by
    rw [abs_mul, abs_of_nonneg hr0]
    have h1 : r * |m| ≤ 1 * |m| := mul_le_mul_of_nonneg_right hr1 (abs_nonneg _)
    have h2 : 5 / 4 * A' ≤ 3 / 2 * A + 5 / 4 * (1 / 2 ^ 150) := by rw [hA']; linarith
    have h3 : (5 : ℚ) / 4 * (1 / 2 ^ 150) + 1 / 2 ^ 148 ≤ 1 / 2 ^ 147 := by norm_num
    linarith
  obtain ⟨v, hv1, hv2⟩ := FP.step32 hrm (by
      have : (3 : ℚ) / 2 * 2 ^ 103 + 1 / 2 ^ 147 ≤ 2 ^ 126 := by norm_num
      linarith)
  have hvv : |v - r * mr| ≤ (examples.length + 4) * (A / 2 ^ 23) + 1 / 2 ^ 140 := by
    have h3 := abs_add_le (v - r * m) (r * m - r * mr)
    rw [sub_add_sub_cancel] at h3
    have h4 : |r * m - r * mr| ≤ |m - mr| := by
      rw [← mul_sub, abs_mul, abs_of_nonneg hr0]
      have : r * |m - mr| ≤ 1 * |m - mr| := mul_le_mul_of_nonneg_right hr1 (abs_nonneg _)
      linarith
    have e : ((examples.length : ℚ) + 4) * (A / 2 ^ 23) = (examples.length + 1) * (A / 2 ^ 23) + 3 * (A / 2 ^ 23) := by ring
    rw [e]
    have h5 : (1 : ℚ) / 2 ^ 147 / 2 ^ 24 + 1 / 2 ^ 150 + 1 / 2 ^ 147 ≤ 1 / 2 ^ 140 := by norm_num
    have h6 : (3 / 2 * A + 1 / 2 ^ 147) / 2 ^ 24 = 3 / 4 * (A / 2 ^ 23) + 1 / 2 ^ 147 / 2 ^ 24 := by ring
    rw [h6] at hv2
    have h7 : 0 ≤ A / 2 ^ 23 := by positivity
    linarith
  have hvB : |v| ≤ 2 ^ 105 := by
    have h3 := abs_add_le (v - r * m) (r * m)
    rw [sub_add_cancel] at h3
    have : (3 / 2 * (2 : ℚ) ^ 103 + 1 / 2 ^ 147) / 2 ^ 24 + 1 / 2 ^ 150 + (3 / 2 * 2 ^ 103 + 1 / 2 ^ 147) ≤ 2 ^ 105 := by norm_num
    have h4 : (3 / 2 * A + 1 / 2 ^ 147) / 2 ^ 24 ≤ (3 / 2 * (2 : ℚ) ^ 103 + 1 / 2 ^ 147) / 2 ^ 24 :=
      div_le_div_of_nonneg_right (by linarith) (by norm_num)
    linarith
  have hnew : ∀ i ∈ examples, ∃ p, FP.binary32.rnd (at' ps i + v) = .fin p ∧
      |p - (at' ps i + v)| ≤ |at' ps i + v| / 2 ^ 24 + 1 / 2 ^ 150 := by
    intro i hi
    have hd : |at' ps i + v| ≤ 2 ^ 126 := by
      have := abs_add_le (at' ps i) v
      have h2 : (2 : ℚ) ^ 110 + 2 ^ 105 ≤ 2 ^ 126 := by norm_num
      linarith [hpB i hi]
    exact FP.binary32_err hd
  choose! P hP1 hP2 using hnew
  refine ⟨v, ps.mapIdx fun j p => if j ∈ examples then P j else p, ?_, hvv, by simp, ?_⟩
  · unfold Objective.predictLeafValue Objective.leafValue
    rw [hk]
    simp only []
    rw [hrs]
    simp only [Out.ok_bind, Out.pure_eq]
    rw [hm1]
    unfold Objective.updatePredictions
    rw [hr, hp]
    have e3 : FP.binary32.mul (.fin r) (.fin m) = .fin v := hv1
    simp only [e3]
    rw [Objective.addLoop_ok _ _ _ _ hnd]
    · simp only [Out.ok_bind, hk]
      congr 3
      apply List.ext_getElem?
      intro j
      rw [Objective.bump_get]
      simp only [Spec.column, List.getElem?_map, List.getElem?_mapIdx, Option.map_map]
      by_cases hj : j < ps.length
      · rw [List.getElem?_eq_getElem hj]
        simp only [Option.map_some, Function.comp]
        by_cases hje : j ∈ examples
        · rw [if_pos hje, if_pos hje, ← hP1 j hje]
          simp [FP.add, at', hj]
        · rw [if_neg hje, if_neg hje]
      · rw [List.getElem?_eq_none (by omega)]; rfl
    · intro i hi
      refine ⟨_, column_get ps (by rw [hl]; exact hlt i hi), ?_⟩
      show (FP.binary32.rnd _).isFinite = true
      rw [hP1 i hi]; rfl
  · intro i hi
    have : at' (ps.mapIdx fun j p => if j ∈ examples then P j else p) i = if i ∈ examples then P i else at' ps i := by
      simp only [at', List.getD_eq_getElem?_getD, List.getElem?_mapIdx, List.getElem?_eq_getElem hi]
      simp
    rw [this]
    split_ifs with h
    · exact hP2 i h
    · rfl

theorem young {ε : ℚ} (h : 0 < ε) (x y : ℚ) : (x + y) ^ 2 ≤ (1 + ε) * x ^ 2 + (1 + 1 / ε) * y ^ 2 := by
  have h1 : 0 ≤ (ε * x - y) ^ 2 / ε := by positivity
  have h2 : (1 + ε) * x ^ 2 + (1 + 1 / ε) * y ^ 2 - (x + y) ^ 2 = (ε * x - y) ^ 2 / ε := by
    field_simp; ring
  linarith

/-- One rounded prediction: `g` is the residual after exact addition of the leaf value to the prediction. -/
private theorem round_step {t g x T ε : ℚ} (hT : 1 ≤ T) (ht : |t| ≤ T) (hε : 1 / 2 ^ 21 ≤ ε)
    (hx : |x - (t - g)| ≤ |t - g| / 2 ^ 24 + 1 / 2 ^ 150) : (t - x) ^ 2 ≤ (1 + 5 / 8 * ε) * g ^ 2 + 2 * ε * T ^ 2 := by
  obtain ⟨η, hη⟩ : ∃ η, η = (t - g) - x := ⟨_, rfl⟩
  have e : t - x = g + η := by rw [hη]; ring
  have hη1 : |η| ≤ (2 * T + |g|) / 2 ^ 24 := by
    rw [hη, abs_sub_comm]
    have h1 := abs_sub t g
    have h2 : (2 * T + |g|) / 2 ^ 24 = (T + |g|) / 2 ^ 24 + T / 2 ^ 24 := by ring
    have h3 : |t - g| / 2 ^ 24 ≤ (T + |g|) / 2 ^ 24 := div_le_div_of_nonneg_right (by linarith) (by norm_num)
    have h4 : (1 : ℚ) / 2 ^ 150 ≤ T / 2 ^ 24 := by
      have : (1 : ℚ) / 2 ^ 150 ≤ 1 / 2 ^ 24 := by norm_num
      have h5 : 1 / 2 ^ 24 ≤ T / 2 ^ 24 := div_le_div_of_nonneg_right hT (by norm_num)
      linarith
    rw [h2]; linarith
  have hη2 : η ^ 2 ≤ ((2 * T + |g|) / 2 ^ 24) ^ 2 := by
    rw [← sq_abs]; exact pow_le_pow_left₀ (abs_nonneg _) hη1 2
  have hsq : (2 * T + |g|) ^ 2 ≤ 8 * T ^ 2 + 2 * g ^ 2 := by
    have h1 : 0 ≤ (2 * T - |g|) ^ 2 := sq_nonneg _
    have h2 : |g| ^ 2 = g ^ 2 := sq_abs g
    have h3 : (2 * T + |g|) ^ 2 + (2 * T - |g|) ^ 2 = 8 * T ^ 2 + 2 * |g| ^ 2 := by ring
    rw [h2] at h3
    linarith
  have hy := young (ε := 1 / 2 ^ 24) (by norm_num) g η
  rw [← e] at hy
  have h5 : (1 + 1 / ((1 : ℚ) / 2 ^ 24)) * η ^ 2 ≤ (8 * T ^ 2 + 2 * g ^ 2) / 2 ^ 23 := by
    have h6 : (1 + 1 / ((1 : ℚ) / 2 ^ 24)) * η ^ 2 ≤ 2 ^ 25 * η ^ 2 :=
      mul_le_mul_of_nonneg_right (by norm_num) (sq_nonneg _)
    have h7 : (2 : ℚ) ^ 25 * η ^ 2 ≤ 2 ^ 25 * ((2 * T + |g|) / 2 ^ 24) ^ 2 := mul_le_mul_of_nonneg_left hη2 (by norm_num)
    have h8 : (2 : ℚ) ^ 25 * ((2 * T + |g|) / 2 ^ 24) ^ 2 = (2 * T + |g|) ^ 2 / 2 ^ 23 := by ring
    have h9 : (2 * T + |g|) ^ 2 / 2 ^ 23 ≤ (8 * T ^ 2 + 2 * g ^ 2) / 2 ^ 23 := div_le_div_of_nonneg_right hsq (by norm_num)
    linarith
  have hg0 : 0 ≤ g ^ 2 := sq_nonneg _
  have hT0 : 0 ≤ T ^ 2 := sq_nonneg _
  have h10 : (1 / 2 ^ 21 : ℚ) * g ^ 2 ≤ ε * g ^ 2 := mul_le_mul_of_nonneg_right hε hg0
  have h11 : (1 / 2 ^ 21 : ℚ) * T ^ 2 ≤ ε * T ^ 2 := mul_le_mul_of_nonneg_right hε hT0
  have h12 : (1 + 1 / 2 ^ 24 : ℚ) * g ^ 2 + (8 * T ^ 2 + 2 * g ^ 2) / 2 ^ 23 ≤ g ^ 2 + 5 / 8 * (1 / 2 ^ 21 * g ^ 2) + 2 * (1 / 2 ^ 21 * T ^ 2) := by
    have : g ^ 2 + 5 / 8 * (1 / 2 ^ 21 * g ^ 2) + 2 * (1 / 2 ^ 21 * T ^ 2) - ((1 + 1 / 2 ^ 24 : ℚ) * g ^ 2 + (8 * T ^ 2 + 2 * g ^ 2) / 2 ^ 23) =
      T ^ 2 * (2 / 2 ^ 21 - 8 / 2 ^ 23) := by ring
    have h13 : 0 ≤ T ^ 2 * (2 / 2 ^ 21 - 8 / 2 ^ 23) := mul_nonneg hT0 (by norm_num)
    linarith
  have e2 : (1 + 5 / 8 * ε) * g ^ 2 + 2 * ε * T ^ 2 = g ^ 2 + 5 / 8 * (ε * g ^ 2) + 2 * (ε * T ^ 2) := by ring
  rw [e2]
  linarith

/-- Squared error of the examples of one leaf in single precision, relative to the squared error before. -/
private theorem leaf_stepRel32 (ts ps ps' : List ℚ) (r v A T ε : ℚ) (examples : List Nat) (hr0 : 0 ≤ r) (hr1 : r ≤ 1)
    (hne : examples ≠ []) (hT : 1 ≤ T) (ht : ∀ i ∈ examples, |at' ts i| ≤ T)
    (hε0 : 1 / 2 ^ 21 ≤ ε) (hε1 : ε ≤ 1 / 7)
    (hA : (examples.map fun i => |at' ts i - at' ps i|).sum = examples.length * A)
    (hv : |v - r * meanResidual ts ps examples| ≤ ε * A + 1 / 2 ^ 60)
    (hp : ∀ i ∈ examples, |at' ps' i - (at' ps i + v)| ≤ |at' ps i + v| / 2 ^ 24 + 1 / 2 ^ 150) :
    (examples.map fun i => (at' ts i - at' ps' i) ^ 2).sum ≤
      (1 + 4 * ε) * (examples.map fun i => (at' ts i - at' ps i) ^ 2).sum + examples.length * (3 * ε * T ^ 2) := by
  have hpos : (0 : ℚ) < examples.length := by exact_mod_cast List.length_pos_of_ne_nil hne
  have hε : 0 < ε := lt_of_lt_of_le (by norm_num) hε0
  set m := meanResidual ts ps examples with hm
  have hs : (examples.map fun i => at' ts i - at' ps i).sum = examples.length * m := by
    rw [hm, meanResidual]; field_simp
  obtain ⟨S, hS⟩ : ∃ S, S = (examples.map fun i => (at' ts i - at' ps i) ^ 2).sum := ⟨_, rfl⟩
  obtain ⟨n, hn⟩ : ∃ n : ℚ, n = examples.length := ⟨_, rfl⟩
  obtain ⟨e, he⟩ : ∃ e, e = v - r * m := ⟨_, rfl⟩
  -- the squared error with the exact value
  have h1 := square_shift (fun i => at' ts i - at' ps i) (r * m) examples
  rw [hs, ← hS, ← hn] at h1
  have h2 : (examples.map fun i => (at' ts i - at' ps i - r * m) ^ 2).sum ≤ S := by
    rw [h1]
    have : 0 ≤ n * m ^ 2 * (r * (2 - r)) := by
      have h3 : 0 ≤ 2 - r := by linarith
      rw [hn]; positivity
    have e5 : S - 2 * (r * m) * (n * m) + n * (r * m) ^ 2 = S - n * m ^ 2 * (r * (2 - r)) := by ring
    rw [e5]; linarith
  -- the mean absolute residual
  have h3 := square_shift (fun i => |at' ts i - at' ps i|) A examples
  rw [hA] at h3
  have h4 : n * A ^ 2 ≤ S := by
    have h5 : 0 ≤ (examples.map fun i => (|at' ts i - at' ps i| - A) ^ 2).sum := by
      apply List.sum_nonneg; intro x hx; obtain ⟨i, _, rfl⟩ := List.mem_map.1 hx; exact sq_nonneg _
    rw [h3] at h5
    simp only [sq_abs] at h5
    rw [← hS, ← hn] at h5
    have e5 : S - 2 * A * (n * A) + n * A ^ 2 = S - n * A ^ 2 := by ring
    rw [e5] at h5
    linarith
  have hA0 : 0 ≤ A := by
    by_contra h
    have h5 : (examples.length : ℚ) * A < 0 := mul_neg_of_pos_of_neg hpos (by linarith)
    have h6 : 0 ≤ (examples.map fun i => |at' ts i - at' ps i|).sum := by
      apply List.sum_nonneg; intro x hx; obtain ⟨i, _, rfl⟩ := List.mem_map.1 hx; exact abs_nonneg _
    linarith
  have hS0 : 0 ≤ S := by
    have : 0 ≤ n * A ^ 2 := by rw [hn]; positivity
    linarith
  have hinv : 1 + 1 / ε ≤ 2 ^ 22 := by
    have : 1 / ε ≤ 2 ^ 21 := by
      rw [div_le_iff₀ hε]
      rw [div_le_iff₀ (by norm_num)] at hε0
      linarith
    have h6 : (1 : ℚ) + 2 ^ 21 ≤ 2 ^ 22 := by norm_num
    linarith
  have hinv0 : 0 ≤ 1 + 1 / ε := by positivity
  -- the error of the value
  have h5 : e ^ 2 ≤ (1 + ε) * (ε * A) ^ 2 + 1 / 2 ^ 98 := by
    have h6 : e ^ 2 ≤ (ε * A + 1 / 2 ^ 60) ^ 2 := by
      rw [← sq_abs, he]; exact pow_le_pow_left₀ (abs_nonneg _) hv 2
    have h7 := young hε (ε * A) (1 / 2 ^ 60)
    have h8 : (1 + 1 / ε) * (1 / 2 ^ 60) ^ 2 ≤ 2 ^ 22 * (1 / 2 ^ 60) ^ 2 := mul_le_mul_of_nonneg_right hinv (by positivity)
    have h9 : (2 : ℚ) ^ 22 * (1 / 2 ^ 60) ^ 2 = 1 / 2 ^ 98 := by norm_num
    linarith
  -- the squared error with the rounded value
  have h6 : (examples.map fun i => (at' ts i - (at' ps i + v)) ^ 2).sum ≤
      (1 + ε) * S + ε * (1 + ε) ^ 2 * S + n / 2 ^ 76 := by
    have h7 := square_shift (fun i => at' ts i - at' ps i) v examples
    have c1 : ∀ i ∈ examples, (at' ts i - (at' ps i + v)) ^ 2 ≤
        (1 + ε) * (at' ts i - at' ps i - r * m) ^ 2 + (1 + 1 / ε) * e ^ 2 := by
      intro i _
      have := young hε (at' ts i - at' ps i - r * m) (-e)
      rw [neg_sq] at this
      have e6 : at' ts i - (at' ps i + v) = at' ts i - at' ps i - r * m + -e := by rw [he]; ring
      rw [e6]; exact this
    have c2 := sum_le_add (fun i => (at' ts i - (at' ps i + v)) ^ 2)
      (fun i => (1 + ε) * (at' ts i - at' ps i - r * m) ^ 2) ((1 + 1 / ε) * e ^ 2) examples c1
    rw [List.sum_map_mul_left, ← hn] at c2
    have c3 : (1 + ε) * (examples.map fun i => (at' ts i - at' ps i - r * m) ^ 2).sum ≤ (1 + ε) * S :=
      mul_le_mul_of_nonneg_left h2 (by linarith)
    have c4 : (1 + 1 / ε) * e ^ 2 ≤ ε * (1 + ε) ^ 2 * A ^ 2 + 1 / 2 ^ 76 := by
      have c5 : (1 + 1 / ε) * e ^ 2 ≤ (1 + 1 / ε) * ((1 + ε) * (ε * A) ^ 2 + 1 / 2 ^ 98) := mul_le_mul_of_nonneg_left h5 hinv0
      have c60 : (1 + 1 / ε) * ε = 1 + ε := by rw [add_mul, one_div, inv_mul_cancel₀ hε.ne']; ring
      have c6 : (1 + 1 / ε) * ((1 + ε) * (ε * A) ^ 2 + 1 / 2 ^ 98) = ε * (1 + ε) ^ 2 * A ^ 2 + (1 + 1 / ε) * (1 / 2 ^ 98) := by
        have : (1 + 1 / ε) * ((1 + ε) * (ε * A) ^ 2 + 1 / 2 ^ 98) =
          ((1 + 1 / ε) * ε) * (1 + ε) * ε * A ^ 2 + (1 + 1 / ε) * (1 / 2 ^ 98) := by ring
        rw [this, c60]; ring
      have c7 : (1 + 1 / ε) * (1 / 2 ^ 98) ≤ 2 ^ 22 * (1 / 2 ^ 98) := mul_le_mul_of_nonneg_right hinv (by norm_num)
      have c8 : (2 : ℚ) ^ 22 * (1 / 2 ^ 98) = 1 / 2 ^ 76 := by norm_num
      linarith
    have hn0 : 0 ≤ n := by rw [hn]; positivity
    have c9 : n * ((1 + 1 / ε) * e ^ 2) ≤ n * (ε * (1 + ε) ^ 2 * A ^ 2 + 1 / 2 ^ 76) := mul_le_mul_of_nonneg_left c4 hn0
    have c10 : ε * (1 + ε) ^ 2 * (n * A ^ 2) ≤ ε * (1 + ε) ^ 2 * S := mul_le_mul_of_nonneg_left h4 (by positivity)
    have c11 : n * (ε * (1 + ε) ^ 2 * A ^ 2 + 1 / 2 ^ 76) = ε * (1 + ε) ^ 2 * (n * A ^ 2) + n / 2 ^ 76 := by ring
    linarith
  -- the rounded predictions
  have h7 := sum_le_add (fun i => (at' ts i - at' ps' i) ^ 2) (fun i => (1 + 5 / 8 * ε) * (at' ts i - (at' ps i + v)) ^ 2)
    (2 * ε * T ^ 2) examples (fun i hi => by
      refine round_step hT (ht i hi) hε0 ?_
      rw [show at' ts i - (at' ts i - (at' ps i + v)) = at' ps i + v by ring]
      exact hp i hi)
  rw [List.sum_map_mul_left, ← hn] at h7
  rw [← hS, ← hn]
  have hn0 : 0 ≤ n := by rw [hn]; positivity
  have h8 : (1 + 5 / 8 * ε) * (examples.map fun i => (at' ts i - (at' ps i + v)) ^ 2).sum ≤
      (1 + 5 / 8 * ε) * ((1 + ε) * S + ε * (1 + ε) ^ 2 * S + n / 2 ^ 76) := mul_le_mul_of_nonneg_left h6 (by linarith)
  have h9 : (1 + 5 / 8 * ε) * ((1 + ε) * S + ε * (1 + ε) ^ 2 * S + n / 2 ^ 76) =
      ((1 + 5 / 8 * ε) * ((1 + ε) + ε * (1 + ε) ^ 2)) * S + (1 + 5 / 8 * ε) * (n / 2 ^ 76) := by ring
  have h10 : (1 + 5 / 8 * ε) * ((1 + ε) + ε * (1 + ε) ^ 2) ≤ 1 + 4 * ε := by
    have : (1 + 5 / 8 * ε) * ((1 + ε) + ε * (1 + ε) ^ 2) =
      1 + ε * (21 / 8 + ε * (26 / 8) + ε ^ 2 * (18 / 8) + ε ^ 3 * (5 / 8)) := by ring
    rw [this]
    have h11 : ε ^ 2 ≤ 1 / 49 := by
      have := pow_le_pow_left₀ hε.le hε1 2
      norm_num at this ⊢; exact this
    have h12 : ε ^ 3 ≤ 1 / 343 := by
      have := pow_le_pow_left₀ hε.le hε1 3
      norm_num at this ⊢; exact this
    have h13 : ε * (21 / 8 + ε * (26 / 8) + ε ^ 2 * (18 / 8) + ε ^ 3 * (5 / 8)) ≤ ε * 4 :=
      mul_le_mul_of_nonneg_left (by linarith) hε.le
    linarith
  have h11 : (1 + 5 / 8 * ε) * ((1 + ε) + ε * (1 + ε) ^ 2) * S ≤ (1 + 4 * ε) * S := mul_le_mul_of_nonneg_right h10 hS0
  have h12 : (1 + 5 / 8 * ε) * (n / 2 ^ 76) ≤ n * (ε * T ^ 2) := by
    have h13 : (1 + 5 / 8 * ε) * (n / 2 ^ 76) ≤ 2 * (n / 2 ^ 76) := mul_le_mul_of_nonneg_right (by linarith) (by positivity)
    have h14 : (2 : ℚ) / 2 ^ 76 ≤ ε * T ^ 2 := by
      have : (1 : ℚ) ≤ T ^ 2 := one_le_pow₀ hT
      have h15 : ε * 1 ≤ ε * T ^ 2 := mul_le_mul_of_nonneg_left this hε.le
      have h16 : (2 : ℚ) / 2 ^ 76 ≤ 1 / 2 ^ 21 := by norm_num
      linarith
    have h15 : n * (2 / 2 ^ 76) ≤ n * (ε * T ^ 2) := mul_le_mul_of_nonneg_left h14 hn0
    have h16 : 2 * (n / 2 ^ 76) = n * (2 / 2 ^ 76) := by ring
    linarith
  have h17 : n * (3 * ε * T ^ 2) = n * (2 * ε * T ^ 2) + n * (ε * T ^ 2) := by ring
  rw [h17]
  linarith

/-- In single precision, with squared loss and a learning rate between 0 and 1, computing the values of the leaves of a
tree, whatever the leaves are, multiplies the squared error of their `n ≤ N` examples by at most `1 + (N + 4) / 2^21` and adds at
most `3 n (N + 4) T^2 / 2^23`, where `T ≥ 1` bounds the targets. -/
theorem C47_no_increase_rel_f32 (targets : List Num) (o o' : Objective) (leaves : List (List Nat))
    (hcalls : LeafCalls .binary32 targets o leaves o') (ts ps : List ℚ) (r T : ℚ) (N : ℕ)
    (ht : targets = Spec.column ts) (hk : o.kind = .l2) (hr : o.learningRate = .fin r) (h0 : 0 ≤ r) (h1 : r ≤ 1)
    (hp : o.predictions = Spec.column ps) (hl : ps.length = ts.length)
    (hT1 : 1 ≤ T) (hT2 : T ≤ 2 ^ 102) (htT : ∀ i ∈ leaves.flatten, |at' ts i| ≤ T)
    (hpB : ∀ i ∈ leaves.flatten, |at' ps i| ≤ 2 ^ 102) (hn : leaves.flatten.length ≤ N) (hN : N ≤ 2 ^ 20)
    (hnd : leaves.flatten.Nodup) (hlt : ∀ i ∈ leaves.flatten, i < ts.length) :
    ∃ ps', o'.predictions = Spec.column ps' ∧ ps'.length = ts.length ∧
      (∀ i, i ∉ leaves.flatten → at' ps' i = at' ps i) ∧
      (leaves.flatten.map fun i => (at' ts i - at' ps' i) ^ 2).sum ≤
        (1 + 4 * ((N + 4) / 2 ^ 23)) * (leaves.flatten.map fun i => (at' ts i - at' ps i) ^ 2).sum +
        leaves.flatten.length * (3 * ((N + 4) / 2 ^ 23) * T ^ 2) := by
  have hNq : (N : ℚ) ≤ 2 ^ 20 := by exact_mod_cast hN
  have hN0 : (0 : ℚ) ≤ N := by positivity
  subst ht
  induction hcalls generalizing ps with
  | nil o => exact ⟨ps, hp, hl, fun _ _ => rfl, by simp⟩
  | @cons o o1 o2 examples leaves v hv hrest ih =>
    simp only [List.flatten_cons] at htT hpB hn hnd hlt ⊢
    rw [List.length_append] at hn
    obtain ⟨hnd1, hnd2, hdis⟩ := List.nodup_append.1 hnd
    by_cases hne : examples = []
    · subst hne
      unfold Objective.predictLeafValue at hv
      obtain ⟨x, _, hv⟩ := Out.bind_eq_ok.1 hv
      unfold Objective.updatePredictions Objective.addLoop at hv
      simp only [Out.ok_bind, Out.pure_eq, Out.ok.injEq, Prod.mk.injEq] at hv
      obtain ⟨_, rfl⟩ := hv
      simpa using ih ps hk hr hp hl (by simpa using htT) (by simpa using hpB) (by simpa using hn) (by simpa using hnd)
        (by simpa using hlt)
    have hpos : (0 : ℚ) < examples.length := by exact_mod_cast List.length_pos_of_ne_nil hne
    have hres : ∀ i ∈ examples, |at' ts i - at' ps i| ≤ 2 ^ 103 := by
      intro i hi
      have := abs_sub (at' ts i) (at' ps i)
      have e : (2 : ℚ) ^ 103 = 2 ^ 102 + 2 ^ 102 := by norm_num
      rw [e]
      linarith [htT i (List.mem_append_left _ hi), hpB i (List.mem_append_left _ hi)]
    obtain ⟨A, hA⟩ : ∃ A : ℚ, A = (examples.map fun i => |at' ts i - at' ps i|).sum / examples.length := ⟨_, rfl⟩
    have hAs : (examples.map fun i => |at' ts i - at' ps i|).sum = examples.length * A := by
      rw [hA]; field_simp
    have hA0 : 0 ≤ A := by
      rw [hA]
      apply div_nonneg _ hpos.le
      apply List.sum_nonneg; intro x hx; obtain ⟨i, _, rfl⟩ := List.mem_map.1 hx; exact abs_nonneg _
    have hA3 : A ≤ 2 ^ 103 := by
      have h := sum_le_add (fun i => |at' ts i - at' ps i|) (fun _ => 0) (2 ^ 103) examples
        (fun i hi => by rw [zero_add]; exact hres i hi)
      rw [hAs] at h
      simp only [List.map_const', List.sum_replicate, smul_zero, zero_add] at h
      exact le_of_mul_le_mul_left h hpos
    obtain ⟨v', ps1, e1, e2, e3, e4⟩ := l2_leafRel32 o ts ps r A examples hk hr h0 h1 hp hl hne hnd1
      (fun i hi => hlt i (List.mem_append_left _ hi)) hA3 hAs.le (fun i hi => (hres i hi).trans (by norm_num))
      (fun i hi => (hpB i (List.mem_append_left _ hi)).trans (by norm_num)) (by omega)
    rw [e1] at hv
    simp only [Out.ok.injEq, Prod.mk.injEq] at hv
    obtain ⟨_, rfl⟩ := hv
    have hsame : ∀ i, i ∉ examples → at' ps1 i = at' ps i := by
      intro i hi
      by_cases hil : i < ps.length
      · have := e4 i hil
        rwa [if_neg hi] at this
      · simp only [at', List.getD_eq_getElem?_getD]
        rw [List.getElem?_eq_none (by omega), List.getElem?_eq_none (by omega)]
    have hnot : ∀ i ∈ leaves.flatten, i ∉ examples := fun i hi hc => hdis i hc i hi rfl
    obtain ⟨ps2, f1, f2, f3, f4⟩ := ih ps1 hk hr rfl (by omega)
      (fun i hi => htT i (List.mem_append_right _ hi))
      (fun i hi => by rw [hsame i (hnot i hi)]; exact hpB i (List.mem_append_right _ hi)) (by omega) hnd2
      (fun i hi => hlt i (List.mem_append_right _ hi))
    obtain ⟨ε, hε⟩ : ∃ ε : ℚ, ε = (N + 4) / 2 ^ 23 := ⟨_, rfl⟩
    rw [← hε] at f4 ⊢
    have hstep := leaf_stepRel32 ts ps ps1 r v' A T ε examples h0 h1 hne hT1
      (fun i hi => htT i (List.mem_append_left _ hi))
      (by rw [hε, div_le_div_iff₀ (by norm_num) (by norm_num)]; linarith)
      (by rw [hε, div_le_div_iff₀ (by norm_num) (by norm_num)]; linarith) hAs
      (by
        refine e2.trans ?_
        have hle : (examples.length : ℚ) ≤ N := by exact_mod_cast (show examples.length ≤ N by omega)
        have : ((examples.length : ℚ) + 4) * (A / 2 ^ 23) ≤ (N + 4) * (A / 2 ^ 23) :=
          mul_le_mul_of_nonneg_right (by linarith) (by positivity)
        have e5 : ε * A = (N + 4) * (A / 2 ^ 23) := by rw [hε]; ring
        rw [e5]
        have e6 : (1 : ℚ) / 2 ^ 140 ≤ 1 / 2 ^ 60 := by norm_num
        linarith)
      (fun i hi => by
        have := e4 i (by have := hlt i (List.mem_append_left _ hi); omega)
        rwa [if_pos hi] at this)
    refine ⟨ps2, f1, f2, ?_, ?_⟩
    · intro i hi
      rw [List.mem_append, not_or] at hi
      rw [f3 i hi.2, hsame i hi.1]
    · rw [List.map_append, List.sum_append, List.map_append, List.sum_append, List.length_append]
      have c1 : (examples.map fun i => (at' ts i - at' ps2 i) ^ 2) = examples.map fun i => (at' ts i - at' ps1 i) ^ 2 := by
        apply List.map_congr_left
        intro i hi
        rw [f3 i (fun hc => hnot i hc hi)]
      have c2 : (leaves.flatten.map fun i => (at' ts i - at' ps1 i) ^ 2) =
          leaves.flatten.map fun i => (at' ts i - at' ps i) ^ 2 := by
        apply List.map_congr_left
        intro i hi
        rw [hsame i (hnot i hi)]
      rw [c1]
      rw [c2] at f4
      push_cast
      rw [mul_add, add_mul]
      linarith

/-- One tree with squared loss in single precision. -/
private theorem train_l2Rel_f32 {cfg : Config} {d : Data} {rng : Rng} {k : Nat} {ds : Dataset} {rows : List Nat}
    (hds : Updated .binary32 cfg d rng k ds) (hrows : Active ds rows)
    (hfull : ds.exampleSampling = false → rows.length = d.nexamples) (hd : Rectangular d)
    (hsize : rows.length ≤ 2 ^ 20) (hmin : 1 ≤ cfg.minExamplesLeaf) {o : Objective} {fuel : Nat} {t : Tree}
    {o' : Objective} (ht : train .binary32 cfg ds ds.supercats o fuel = .ok (some (t, o')))
    (hnd : rows.Nodup) (hlt : ∀ r ∈ rows, r < d.nexamples) {ts ps : List ℚ} {r T : ℚ}
    (htgt : target d = .ok (Spec.column ts)) (hk : o.kind = .l2) (hr : o.learningRate = .fin r) (h0 : 0 ≤ r) (h1 : r ≤ 1)
    (hp : o.predictions = Spec.column ps) (hl : ps.length = d.nexamples) (hlt' : ts.length = d.nexamples)
    (hT1 : 1 ≤ T) (hT2 : T ≤ 2 ^ 102) (htT : ∀ i ∈ rows, |at' ts i| ≤ T) (hpB : ∀ i ∈ rows, |at' ps i| ≤ 2 ^ 102) :
    ∃ ps', ps'.length = d.nexamples ∧ (∀ i ∈ rows, o'.predictions[i]? = some (.fin (at' ps' i))) ∧
      (rows.map fun i => (at' ts i - at' ps' i) ^ 2).sum + rows.length * T ^ 2 ≤
        (1 + (rows.length + 4) / 2 ^ 21) * ((rows.map fun i => (at' ts i - at' ps i) ^ 2).sum + rows.length * T ^ 2) := by
  obtain ⟨targets, leaves, o1, e1, hperm, hcalls, hoth, hact, hout⟩ := train_calls hds hrows hfull hd (by omega) hmin ht
  rw [htgt] at e1
  cases e1
  have hmem : ∀ i ∈ leaves.flatten, i ∈ rows := fun i hi => hperm.mem_iff.1 hi
  obtain ⟨ps1, f1, f2, f3, f4⟩ := C47_no_increase_rel_f32 (Spec.column ts) o o1 leaves hcalls ts ps r T rows.length rfl hk hr
    h0 h1 hp (by omega) hT1 hT2 (fun i hi => htT i (hmem i hi)) (fun i hi => hpB i (hmem i hi))
    (by rw [hperm.length_eq]) hsize (hperm.nodup_iff.2 hnd) (fun i hi => by rw [hlt']; exact hlt i (hmem i hi))
  refine ⟨ps1, by omega, ?_, ?_⟩
  · intro i hi
    rw [hact i hi, f1, column_get ps1 (by have := hlt i hi; omega)]
  · rw [hperm.length_eq, (hperm.map _).sum_eq, (hperm.map _).sum_eq] at f4
    have h5 : (0 : ℚ) ≤ rows.length * T ^ 2 := by positivity
    generalize (rows.map fun i => (at' ts i - at' ps i) ^ 2).sum = S at *
    generalize (rows.map fun i => (at' ts i - at' ps1 i) ^ 2).sum = S' at *
    have h6 : (0 : ℚ) ≤ (rows.length + 4) / 2 ^ 23 * (rows.length * T ^ 2) := by positivity
    have e : (1 + ((rows.length : ℚ) + 4) / 2 ^ 21) * (S + rows.length * T ^ 2) =
      (1 + 4 * ((rows.length + 4) / 2 ^ 23)) * S + rows.length * (3 * ((rows.length + 4) / 2 ^ 23) * T ^ 2) +
      rows.length * T ^ 2 + (rows.length + 4) / 2 ^ 23 * (rows.length * T ^ 2) := by ring
    rw [e]
    linarith

/-- **C47** for the booster in single precision, relative form: with squared loss and a learning rate between 0 and 1, an
iteration multiplies the squared error of the `n` examples it was trained on, plus `n T^2`, by at most `1 + (n + 4) / 2^21`,
where `T` bounds their targets. -/
theorem C47_iteration_rel_f32 (M : Libm) (cfg : Config) (d : Data) (rng : Rng) (metrics : List Metric) (o : Objective)
    (k : Nat) (b b' : Booster) (hb : Boosting .binary32 M cfg d rng metrics o k b)
    (hs : Booster.trainOneIter .binary32 M cfg d metrics b = .ok b')
    (hd : Rectangular d) (hn : d.nexamples ≤ 2 ^ 20) (hf : cfg.exampleFraction.le (.fin 1) = true)
    (hmin : 1 ≤ cfg.minExamplesLeaf) (hk : o.kind = .l2) (r : ℚ) (hr : cfg.learningRate = .fin r) (h0 : 0 ≤ r)
    (h1 : r ≤ 1) (ts ps : List ℚ) (ht : target d = .ok (Spec.column ts))
    (hp : b.objective.predictions = Spec.column ps) (rows : List Nat) (hrows : Active b'.dataset rows)
    (T : ℚ) (hT1 : 1 ≤ T) (hT2 : T ≤ 2 ^ 102) (htT : ∀ i ∈ rows, |at' ts i| ≤ T)
    (hpB : ∀ i ∈ rows, |at' ps i| ≤ 2 ^ 102) :
    ∃ ps', ps'.length = ps.length ∧ (∀ i ∈ rows, b'.objective.predictions[i]? = some (.fin (at' ps' i))) ∧
      (rows.map fun i => (at' ts i - at' ps' i) ^ 2).sum + rows.length * T ^ 2 ≤
        (1 + (rows.length + 4) / 2 ^ 21) * ((rows.map fun i => (at' ts i - at' ps i) ^ 2).sum + rows.length * T ^ 2) := by
  have hlt : ts.length = d.nexamples := by rw [← column_length ts]; exact Booster.target_length hd ht
  have hn24 : d.nexamples ≤ 2 ^ 24 := by omega
  obtain ⟨b1, b2, _, b3⟩ := Booster.boosting_objective hb hd hn24 hf hmin
  have hlp : ps.length = d.nexamples := by rw [← column_length ps, ← hp]; exact b3
  obtain ⟨ts', o1, ds, t, o', e1, e2, e3, e4, rfl⟩ := Booster.trainOneIter_ok hs
  obtain ⟨u1, u2, _, u4, _⟩ := Booster.update_same e2
  have hds := Updated.update (Booster.boosting_updated hb).1 e3
  obtain ⟨rows', r1, r2, r3, r4, r5⟩ := active_rows hds hn24 hf
  obtain rfl : rows = rows' := active_unique hrows r1
  have hsz : rows.length ≤ 2 ^ 20 := by
    have : rows.length ≤ (List.range d.nexamples).length :=
      (r4.subperm (fun i hi => List.mem_range.2 (r5 i hi))).length_le
    rw [List.length_range] at this
    omega
  obtain ⟨ps', w1, w2, w3⟩ := train_l2Rel_f32 hds r1 r2 hd hsz hmin e4 r4 r5 ht (by rw [u1, b1, hk]) (by rw [u2, b2, hr])
    h0 h1 (by rw [u4, hp]) hlp hlt hT1 hT2 htT hpB
  exact ⟨ps', by omega, w2, w3⟩

private theorem at_of_all {P : ℚ → Prop} (h0 : P 0) {l : List ℚ} (h : ∀ q ∈ l, P q) (i : ℕ) : P (at' l i) := by
  rw [at', List.getD_eq_getElem?_getD]
  cases e : l[i]? with
  | none => exact h0
  | some q => exact h q (List.mem_of_getElem? e)

/-- A residual is at most the root of the squared error. -/
theorem residual_le {ts ps : List ℚ} (hl : ts.length = ps.length) {X : ℚ} (hX : 0 ≤ X) (h : sqErr ts ps ≤ X ^ 2) {i : ℕ}
    (hi : i < ts.length) : |at' ts i - at' ps i| ≤ X := by
  have hs := sqErr_split ts ps hl [i] (by simp) (by simpa using hi)
  have h1 : 0 ≤ ∑ j ∈ Finset.range ts.length \ [i].toFinset, (at' ts j - at' ps j) ^ 2 :=
    Finset.sum_nonneg fun _ _ => sq_nonneg _
  simp only [List.map_cons, List.map_nil, List.sum_cons, List.sum_nil, add_zero] at hs
  exact abs_le_of_sq_le_sq (by linarith) hX |> fun h => abs_le.2 (abs_le.1 (by simpa using h))

/-- One iteration without sampling of examples. -/
theorem sqErr_step32 (M : Libm) (cfg : Config) (d : Data) (rng : Rng) (metrics : List Metric) (o : Objective)
    (k : Nat) (b b' : Booster) (hb : Boosting .binary32 M cfg d rng metrics o k b)
    (hs : Booster.trainOneIter .binary32 M cfg d metrics b = .ok b')
    (hd : Rectangular d) (hn : d.nexamples ≤ 2 ^ 20) (hf : cfg.exampleFraction = .fin 1)
    (hmin : 1 ≤ cfg.minExamplesLeaf) (hk : o.kind = .l2) (r : ℚ) (hr : cfg.learningRate = .fin r) (h0 : 0 ≤ r)
    (h1 : r ≤ 1) (ts ps : List ℚ) (ht : target d = .ok (Spec.column ts))
    (hp : b.objective.predictions = Spec.column ps)
    (T : ℚ) (hT1 : 1 ≤ T) (hT2 : T ≤ 2 ^ 101) (htT : ∀ t ∈ ts, |t| ≤ T) (hsq : sqErr ts ps ≤ (2 ^ 101) ^ 2) :
    ∃ ps', b'.objective.predictions = Spec.column ps' ∧ ps'.length = ts.length ∧
      sqErr ts ps' + ts.length * T ^ 2 ≤ (1 + (ts.length + 4) / 2 ^ 21) * (sqErr ts ps + ts.length * T ^ 2) := by
  have hlt : ts.length = d.nexamples := by rw [← column_length ts]; exact Booster.target_length hd ht
  have hf' : cfg.exampleFraction.le (.fin 1) = true := by rw [hf]; rfl
  have hn24 : d.nexamples ≤ 2 ^ 24 := by omega
  obtain ⟨_, _, _, b0⟩ := Booster.boosting_objective hb hd hn24 hf' hmin
  have hlp : ps.length = d.nexamples := by rw [← column_length ps, ← hp]; exact b0
  have hu := (Booster.boosting_updated (.iter hb hs)).1
  obtain ⟨_, ha⟩ := C30_no_sampling .binary32 cfg d rng _ _ hu hf hn24
  have htA : ∀ i, |at' ts i| ≤ T := at_of_all (P := fun q => |q| ≤ T) (by rw [abs_zero]; linarith) htT
  obtain ⟨ps2, w1, w2, w3⟩ := C47_iteration_rel_f32 M cfg d rng metrics o k b b' hb hs hd hn hf' hmin hk r hr
    h0 h1 ts ps ht hp _ ha T hT1 (hT2.trans (by norm_num)) (fun i _ => htA i) (fun i hi => by
      have h2 := residual_le (by omega) (by norm_num) hsq (by rw [hlt]; exact List.mem_range.1 hi)
      have h3 := abs_sub (at' ts i) (at' ts i - at' ps i)
      rw [sub_sub_cancel] at h3
      have e : (2 : ℚ) ^ 102 = 2 ^ 101 + 2 ^ 101 := by norm_num
      rw [e]
      linarith [htA i])
  obtain ⟨_, _, _, b3⟩ := Booster.boosting_objective (.iter hb hs) hd hn24 hf' hmin
  have hcol : b'.objective.predictions = Spec.column ps2 := by
    apply List.ext_getElem?
    intro i
    by_cases hi : i < d.nexamples
    · rw [w2 i (List.mem_range.2 hi), column_get ps2 (by omega)]
    · rw [List.getElem?_eq_none (by omega), List.getElem?_eq_none (by rw [column_length]; omega)]
  refine ⟨ps2, hcol, by omega, ?_⟩
  have hr1 := sqErr_split ts ps2 (by omega) (List.range d.nexamples) List.nodup_range
    (fun r h => by rw [hlt]; exact List.mem_range.1 h)
  have hr2 := sqErr_split ts ps (by omega) (List.range d.nexamples) List.nodup_range
    (fun r h => by rw [hlt]; exact List.mem_range.1 h)
  have hemp : Finset.range ts.length \ (List.range d.nexamples).toFinset = ∅ := by
    rw [hlt]; ext i; simp
  rw [hemp, Finset.sum_empty, add_zero] at hr1 hr2
  rw [List.length_range, ← hr1, ← hr2, ← hlt] at w3
  exact w3

/-- **C47** for whole training runs in single precision, without sampling of examples and without a bound on the predictions:
from any iteration `j` to any later iteration `k`, the squared training error plus `n T^2` grows at most by the factor
`(1 + (n + 4) / 2^21)^(k - j)`, where `T` bounds the targets (as long as this is below `2^202`, far from the end of the range). -/
theorem C47_run_rel_f32 (M : Libm) (cfg : Config) (d : Data) (rng : Rng) (metrics : List Metric) (o : Objective)
    (j k : Nat) (hjk : j ≤ k) (b b' : Booster) (hb : Boosting .binary32 M cfg d rng metrics o j b)
    (hb' : Boosting .binary32 M cfg d rng metrics o k b')
    (hd : Rectangular d) (hn : d.nexamples ≤ 2 ^ 20) (hf : cfg.exampleFraction = .fin 1)
    (hmin : 1 ≤ cfg.minExamplesLeaf) (hk : o.kind = .l2) (r : ℚ) (hr : cfg.learningRate = .fin r) (h0 : 0 ≤ r)
    (h1 : r ≤ 1) (ts ps : List ℚ) (ht : target d = .ok (Spec.column ts)) (hp : b.objective.predictions = Spec.column ps)
    (T : ℚ) (hT1 : 1 ≤ T) (hT2 : T ≤ 2 ^ 101) (htT : ∀ t ∈ ts, |t| ≤ T)
    (hrange : (1 + (ts.length + 4) / 2 ^ 21) ^ (k - j) * (sqErr ts ps + ts.length * T ^ 2) ≤ (2 ^ 101) ^ 2) :
    ∃ ps', b'.objective.predictions = Spec.column ps' ∧ ps'.length = ts.length ∧
      sqErr ts ps' + ts.length * T ^ 2 ≤ (1 + (ts.length + 4) / 2 ^ 21) ^ (k - j) * (sqErr ts ps + ts.length * T ^ 2) := by
  have hlt : ts.length = d.nexamples := by rw [← column_length ts]; exact Booster.target_length hd ht
  have hf' : cfg.exampleFraction.le (.fin 1) = true := by rw [hf]; rfl
  have hn24 : d.nexamples ≤ 2 ^ 24 := by omega
  have hlen0 : ps.length = ts.length := by
    obtain ⟨_, _, _, b3⟩ := Booster.boosting_objective hb hd hn24 hf' hmin
    rw [← column_length ps, ← hp, b3, hlt]
  have hx : (1 : ℚ) ≤ 1 + ((ts.length : ℚ) + 4) / 2 ^ 21 := by
    have : (0 : ℚ) ≤ ((ts.length : ℚ) + 4) / 2 ^ 21 := by positivity
    linarith
  have hW0 : 0 ≤ sqErr ts ps + ts.length * T ^ 2 := by
    have : 0 ≤ sqErr ts ps := by
      unfold sqErr
      apply List.sum_nonneg
      intro x hx
      obtain ⟨i, hi, rfl⟩ := List.mem_iff_getElem.1 hx
      rw [List.getElem_zipWith]
      exact sq_nonneg _
    positivity
  have hT0 : (0 : ℚ) ≤ ts.length * T ^ 2 := by positivity
  induction hb' with
  | start g0 g1 =>
    have : j = 0 := by omega
    subst this
    have := Booster.boosting_unique hb (.start g0 g1)
    subst this
    exact ⟨ps, hp, hlen0, by simp⟩
  | @iter k b1 b2 hb1 hs ih =>
    by_cases hj : j ≤ k
    · have hpow : (1 + ((ts.length : ℚ) + 4) / 2 ^ 21) ^ (k - j) * (sqErr ts ps + ts.length * T ^ 2) ≤ (2 ^ 101) ^ 2 := by
        refine le_trans (mul_le_mul_of_nonneg_right ?_ hW0) hrange
        exact pow_le_pow_right₀ hx (by omega)
      obtain ⟨ps1, q1, q2, q3⟩ := ih hj hpow
      obtain ⟨ps2, w1, w2, w3⟩ := sqErr_step32 M cfg d rng metrics o k b1 b2 hb1 hs hd hn hf hmin hk r hr h0 h1 ts ps1 ht q1
        T hT1 hT2 htT (by linarith)
      refine ⟨ps2, w1, w2, w3.trans ?_⟩
      rw [show k + 1 - j = (k - j) + 1 by omega, pow_succ (1 + ((ts.length : ℚ) + 4) / 2 ^ 21) (k - j), mul_comm (_ ^ (k - j)) _, mul_assoc]
      exact mul_le_mul_of_nonneg_left q3 (by linarith)
    · have : j = k + 1 := by omega
      subst this
      have := Booster.boosting_unique hb (.iter hb1 hs)
      subst this
      exact ⟨ps, hp, hlen0, by simp⟩

/-- `(1 + x)^n ≤ 4^m` if `n x ≤ m`. -/
theorem growth_le {x : ℚ} (hx : 0 ≤ x) {n m : ℕ} (h : n * x ≤ m) : (1 + x) ^ n ≤ 4 ^ m := by
  have h1 : ((1 + x : ℚ) : ℝ) ^ n ≤ (4 : ℝ) ^ m := by
    have hx' : (0 : ℝ) ≤ (x : ℝ) := by exact_mod_cast hx
    have h' : (n : ℝ) * (x : ℝ) ≤ m := by exact_mod_cast h
    have h2 : ((1 + x : ℚ) : ℝ) ≤ Real.exp x := by
      push_cast
      have := Real.add_one_le_exp (x : ℝ)
      linarith
    calc ((1 + x : ℚ) : ℝ) ^ n ≤ Real.exp x ^ n := pow_le_pow_left₀ (by push_cast; linarith) h2 n
      _ = Real.exp (n * x) := by rw [← Real.exp_nat_mul]
      _ ≤ Real.exp (m * 1) := Real.exp_le_exp.2 (by linarith)
      _ = Real.exp 1 ^ m := by rw [Real.exp_nat_mul]
      _ ≤ 4 ^ m := pow_le_pow_left₀ (Real.exp_pos 1).le (by have := Real.exp_one_lt_d9; linarith) m
  exact_mod_cast h1

/-- **C69**, `f32` arithmetic: a whole run with squared error on at most `2^20` examples, without sampling of examples, with a
learning rate between 0 and 1 and no high-cardinality feature, ends without a panic when the targets are of size at most `2^a`
and `(examples + 4) * iterations ≤ m * 2^21` with `a + m ≤ 89`. (For 100000 examples and targets below a million this allows 1400
iterations.) The predictions stay below `2^(a + m + 13)`. -/
theorem C69_l2_full_f32 (M : Libm) (cfg : Config) (d : Data) (rng : Rng) (metrics : List Metric)
    (hc : ValidConfig cfg) (hd : ValidData cfg d) (hn : d.nexamples ≤ 2 ^ 20) (hf : cfg.exampleFraction = .fin 1)
    (r : ℚ) (hr : cfg.learningRate = .fin r) (h0 : 0 ≤ r) (targets : List Num)
    (htgt : Learner.target d = .ok targets) (a m : ℕ) (ht : ∀ t ∈ targets, SizeLe (2 ^ a) t) (hh : ¬ HasHicard d)
    (hit : (d.nexamples + 4) * cfg.niterations ≤ m * 2 ^ 21) (ham : a + m ≤ 89) :
    ∃ b, Booster.run .binary32 M cfg d rng metrics (Objective.new .l2) = .ok b ∧
      b.ensemble.trees.length = cfg.niterations ∧ ∀ p ∈ b.objective.predictions, SizeLe (2 ^ (a + m + 13)) p := by
  obtain ⟨ts, rfl⟩ := column_of_finite targets fun x hx => by
    obtain ⟨q, e, _⟩ := ht x hx
    exact ⟨q, e⟩
  have hr1 : r ≤ 1 := by
    obtain ⟨q, e, h⟩ := hc.rate
    rw [hr] at e
    cases e
    exact (abs_le.1 h).2
  have hlt : ts.length = d.nexamples := by rw [← column_length ts]; exact Booster.target_length hd.shape htgt
  have hf' : cfg.exampleFraction.le (.fin 1) = true := by rw [hf]; rfl
  have hn24 : d.nexamples ≤ 2 ^ 24 := by omega
  obtain ⟨T, hT⟩ : ∃ T : ℚ, T = 2 ^ a := ⟨_, rfl⟩
  have hT1 : 1 ≤ T := by rw [hT]; exact one_le_pow₀ (by norm_num)
  have hT2 : T ≤ 2 ^ 101 := by rw [hT]; exact pow_le_pow_right₀ (by norm_num) (by omega)
  have htT : ∀ t ∈ ts, |t| ≤ T := by
    intro t h
    obtain ⟨q, e, hq⟩ := ht (.fin t) (by unfold Spec.column; exact List.mem_map_of_mem h)
    cases e
    rw [hT]; exact hq
  obtain ⟨x, hx⟩ : ∃ x : ℚ, x = (ts.length + 4) / 2 ^ 21 := ⟨_, rfl⟩
  have hx0 : 0 ≤ x := by rw [hx]; positivity
  have hnq : (ts.length : ℚ) ≤ 2 ^ 20 := by rw [hlt]; exact_mod_cast hn
  have hgrow : ∀ k ≤ cfg.niterations, (1 + x) ^ k * (5 * (ts.length * T ^ 2)) ≤ (2 ^ (a + m + 12)) ^ 2 := by
    intro k hk
    have h1 : (1 + x) ^ k ≤ 4 ^ m := by
      apply growth_le hx0
      have h2 : ((d.nexamples + 4 : ℕ) : ℚ) * (cfg.niterations : ℕ) ≤ (m : ℕ) * 2 ^ 21 := by exact_mod_cast hit
      have h3 : (k : ℚ) ≤ cfg.niterations := by exact_mod_cast hk
      have h4 : (k : ℚ) * x ≤ cfg.niterations * x := mul_le_mul_of_nonneg_right h3 hx0
      have e : (cfg.niterations : ℚ) * x = ((d.nexamples + 4 : ℕ) : ℚ) * (cfg.niterations : ℕ) / 2 ^ 21 := by
        rw [hx, hlt]; push_cast; ring
      rw [e] at h4
      refine h4.trans ?_
      rw [div_le_iff₀ (by norm_num)]
      exact h2
    have h2 : 5 * (ts.length * T ^ 2) ≤ 2 ^ 24 * T ^ 2 := by
      have : (5 : ℚ) * ts.length ≤ 2 ^ 24 := by
        have : (5 : ℚ) * 2 ^ 20 ≤ 2 ^ 24 := by norm_num
        linarith
      rw [← mul_assoc]
      exact mul_le_mul_of_nonneg_right this (sq_nonneg _)
    calc (1 + x) ^ k * (5 * (ts.length * T ^ 2)) ≤ 4 ^ m * (2 ^ 24 * T ^ 2) :=
          mul_le_mul h1 h2 (by positivity) (by positivity)
      _ = (2 ^ (a + m + 12)) ^ 2 := by
          rw [hT, show (4 : ℚ) = 2 ^ 2 by norm_num, ← pow_mul, ← pow_mul, ← pow_add, ← pow_add, ← pow_mul]
          congr 1; ring
  have hsize : ∀ k ps, k ≤ cfg.niterations → ps.length = ts.length →
      sqErr ts ps + ts.length * T ^ 2 ≤ (1 + x) ^ k * (5 * (ts.length * T ^ 2)) →
      sqErr ts ps ≤ (2 ^ 101) ^ 2 ∧ ∀ p ∈ Spec.column ps, SizeLe (2 ^ (a + m + 13)) p := by
    intro k ps hk hl hw
    have h1 := hgrow k hk
    have h2 : (0 : ℚ) ≤ ts.length * T ^ 2 := by positivity
    have h3 : sqErr ts ps ≤ (2 ^ (a + m + 12)) ^ 2 := by linarith
    refine ⟨h3.trans ?_, ?_⟩
    · apply pow_le_pow_left₀ (by positivity)
      exact pow_le_pow_right₀ (by norm_num) (by omega)
    · intro p hp
      obtain ⟨q, hq, rfl⟩ := List.mem_map.1 hp
      refine ⟨q, rfl, ?_⟩
      obtain ⟨i, hi, rfl⟩ := List.mem_iff_getElem.1 hq
      have h4 := residual_le hl.symm (by positivity) h3 (i := i) (by omega)
      have h5 : at' ps i = ps[i] := by simp [at', hi]
      have h6 : |at' ts i| ≤ T := at_of_all (P := fun q => |q| ≤ T) (by rw [abs_zero]; linarith) htT i
      have h7 := abs_sub (at' ts i) (at' ts i - at' ps i)
      rw [sub_sub_cancel, h5] at h7
      have h8 : T ≤ 2 ^ (a + m + 12) := by rw [hT]; exact pow_le_pow_right₀ (by norm_num) (by omega)
      rw [h5] at h4
      rw [pow_succ]
      linarith
  obtain ⟨b, e, h, ps, q1, q2, q3⟩ := run_ends .binary32 M cfg d rng metrics (Objective.new .l2)
    (Q := fun k b => ∃ ps, b.objective.predictions = Spec.column ps ∧ ps.length = ts.length ∧
      sqErr ts ps + ts.length * T ^ 2 ≤ (1 + x) ^ k * (5 * (ts.length * T ^ 2))) (by
    obtain ⟨b0, b, e0, e1, hp⟩ := C69_start .binary32 M cfg d rng (Objective.new .l2) hc hd 103 a wide_binary32
      (by simp only [Objective.new, startSize]; omega) _ htgt (fun _ => ht)
      ⟨by simp [Objective.new], by simp [Objective.new], by simp [Objective.new], by simp [Objective.new]⟩
    obtain ⟨ps, hps⟩ := column_of_finite b.objective.predictions fun y hy => by
      obtain ⟨q, e, _⟩ := hp y hy
      exact ⟨q, e⟩
    have hl : ps.length = ts.length := by
      obtain ⟨_, _, _, b3⟩ := Booster.boosting_objective (Boosting.start (metrics := metrics) e0 e1) hd.shape hn24 hf' hc.leaf
      rw [← column_length ps, ← hps, b3, hlt]
    refine ⟨b0, b, e0, e1, ps, hps, hl, ?_⟩
    have hpT : ∀ p ∈ ps, |p| ≤ T := by
      intro p h
      obtain ⟨q, e, hq⟩ := hp (.fin p) (by rw [hps]; unfold Spec.column; exact List.mem_map_of_mem h)
      cases e
      rw [hT]; exact hq
    have h2 := sqErr_split ts ps hl.symm (List.range ts.length) List.nodup_range (fun i h => List.mem_range.1 h)
    have hemp : Finset.range ts.length \ (List.range ts.length).toFinset = ∅ := by ext i; simp
    rw [hemp, Finset.sum_empty, add_zero] at h2
    have h3 := sum_le_add (fun i => (at' ts i - at' ps i) ^ 2) (fun _ => 0) (4 * T ^ 2) (List.range ts.length) (by
      intro i _
      have h6 : |at' ts i| ≤ T := at_of_all (P := fun q => |q| ≤ T) (by rw [abs_zero]; linarith) htT i
      have h7 : |at' ps i| ≤ T := at_of_all (P := fun q => |q| ≤ T) (by rw [abs_zero]; linarith) hpT i
      have h8 := abs_sub (at' ts i) (at' ps i)
      have h9 : (at' ts i - at' ps i) ^ 2 ≤ (2 * T) ^ 2 := by
        rw [← sq_abs]; exact pow_le_pow_left₀ (abs_nonneg _) (by linarith) 2
      rw [zero_add]
      linarith [show (2 * T) ^ 2 = 4 * T ^ 2 by ring])
    rw [← h2] at h3
    simp only [List.map_const', List.sum_replicate, smul_zero, zero_add, List.length_range] at h3
    rw [pow_zero, one_mul]
    linarith [show (ts.length : ℚ) * (4 * T ^ 2) = 4 * (ts.length * T ^ 2) by ring]) (by
    rintro k b hk hb ⟨ps, q1, q2, q3⟩
    obtain ⟨s1, s2⟩ := hsize k ps (by omega) q2 q3
    have hobj : b.objective.kind = .l2 :=
      (Booster.boosting_objective hb hd.shape hd.size hf' hc.leaf).1
    obtain ⟨b', e, _⟩ := C69_iteration .binary32 M cfg d rng metrics (Objective.new .l2) hc hd k b hb 103 (a + m + 13)
      wide_binary32 (by simp only [Objective.new, leafSize]; omega) _ htgt
      (fun t h => (ht t h).mono (pow_le_pow_right₀ (by norm_num) (by omega))) (by rw [q1]; exact s2)
      ⟨by rw [hobj]; simp, by rw [hobj]; simp, fun h => absurd h hh⟩
    obtain ⟨ps2, w1, w2, w3⟩ := sqErr_step32 M cfg d rng metrics (Objective.new .l2) k b b' hb e hd.shape hn hf hc.leaf rfl r hr
      h0 hr1 ts ps htgt q1 T hT1 hT2 htT s1
    refine ⟨b', e, ps2, w1, w2, w3.trans ?_⟩
    rw [← hx, pow_succ (1 + x) k, mul_comm (_ ^ k) _, mul_assoc]
    exact mul_le_mul_of_nonneg_left q3 (by linarith))
  exact ⟨b, e, h, by rw [q1]; exact (hsize _ ps le_rfl q2 q3).2⟩

/-- **C69**, from the file to the model: squared error on a CSV file with numbers of size at most `2^a` in the last field, in `f32`
arithmetic, without sampling of examples; the categories are below `max_nbins`. -/
theorem C69_csv_l2_f32 (M : Libm) (cfg : Config) (rng : Rng) (metrics : List Metric)
    (first : List (Option Num)) (rest : List (List (Option Num)))
    (header : Option (List String)) (hn : first ≠ [])
    (hheader : cfg.csvHasHeader = true → ∃ hd, header = some hd ∧ hd.length ≤ first.length)
    (hfields : ∀ r ∈ first :: rest, ∀ j < first.length, ∃ v, r[j]? = some (some v) ∧
      (j ∈ cfg.categoricalFeatures → IsCategory v))
    (hrows : rest.length + 1 ≤ 2 ^ 20) (hcols : first.length ≤ 2 ^ 24)
    (hnum : ∀ j < first.length - 1, j ∉ cfg.categoricalFeatures →
      (∃ r ∈ first :: rest, ∃ q : ℚ, r[j]? = some (some (.fin q))) ∧
      ∀ r ∈ first :: rest, r[j]? ≠ some (some .pinf) ∧ r[j]? ≠ some (some .ninf))
    (hroom : ∃ j < first.length - 1, j ∉ cfg.categoricalFeatures ∨ ∃ r ∈ first :: rest, r[j]? ≠ some (some (.fin 0)))
    (hlow : ∀ j < first.length - 1, j ∈ cfg.categoricalFeatures → ∀ r ∈ first :: rest, ∀ v, r[j]? = some (some v) →
      v.toU32 < cfg.maxNbins)
    (hc : ValidConfig cfg) (hf : cfg.exampleFraction = .fin 1) (q : ℚ) (hr : cfg.learningRate = .fin q) (h0 : 0 ≤ q)
    (a m : ℕ) (ht : ∀ r ∈ first :: rest, ∀ v, r[first.length - 1]? = some (some v) → SizeLe (2 ^ a) v)
    (hit : (rest.length + 5) * cfg.niterations ≤ m * 2 ^ 21) (ham : a + m ≤ 89) :
    ∃ d b, Data.fromCsv cfg ((first :: rest).map .record) header = .ok (.ok d) ∧
      Booster.run .binary32 M cfg d rng metrics (Objective.new .l2) = .ok b ∧
      b.ensemble.trees.length = cfg.niterations := by
  obtain ⟨d, h1, h2, targets, h3, h4⟩ := C69_csv cfg first rest header hn hheader hfields (by omega) hcols
    (by intro p hp; rw [hf] at hp; cases hp; push_cast; rw [mul_one]; linarith [(Nat.cast_nonneg rest.length : (0 : ℚ) ≤ _)])
    hnum hc.bins.1 hroom
  obtain ⟨first', rest', k1, k2, k3, k4, _, k6⟩ := C27_values cfg _ header d h1
  have hinj : Function.Injective Data.CsvItem.record := fun a b h => by cases h; rfl
  have k1' := (List.map_injective_iff.2 hinj) k1
  rw [← k1'] at k2 k6
  cases k1'
  have hne : d.nexamples = rest.length + 1 := k2
  have hlow' : ¬ HasHicard d := by
    rintro ⟨f, c, hu, hcol, hty⟩
    obtain ⟨hfc, rfl⟩ := List.getElem?_eq_some_iff.1 hcol
    obtain ⟨hcat, hncat⟩ := C27_categories cfg _ header d h1 f hfc
    have hpos : 0 < first.length := List.length_pos_iff.2 hn
    have hin : f ∈ cfg.categoricalFeatures := by
      by_contra h
      rw [hncat h] at hty
      cases hty
    obtain ⟨_, hcard, htype⟩ := hcat hin
    rw [hty] at htype
    have hgt : d.cols[f].card > cfg.maxNbins := by
      by_contra h
      rw [if_neg h] at htype
      cases htype
    have hfl : f < first.length - 1 := by have := hu.1; omega
    have hvne : d.cols[f].values ≠ [] := by
      intro h
      have := congrArg List.length (k6 f hfc)
      rw [h] at this
      simp at this
    obtain ⟨v, hv, hve⟩ := hcard.2 hvne
    have hh : some v ∈ (first :: rest).map (fun r => (r[f]?).join) := by
      rw [← k6 f hfc]; exact List.mem_map_of_mem hv
    obtain ⟨r, hrm, he⟩ := List.mem_map.1 hh
    have hrf : r[f]? = some (some v) := by
      cases hx : r[f]? with
      | none => rw [hx] at he; cases he
      | some o => rw [hx] at he; rw [← he]; rfl
    have := hlow f hfl hin r hrm v hrf
    omega
  have hmem : ∀ t, t ∈ targets → ∃ r ∈ first :: rest, r[first.length - 1]? = some (some t) := by
    intro t ht
    have hh : some t ∈ (first :: rest).map (fun r => (r[first.length - 1]?).join) := by
      rw [← h4]; exact List.mem_map_of_mem ht
    obtain ⟨r, hr, he⟩ := List.mem_map.1 hh
    refine ⟨r, hr, ?_⟩
    cases hx : r[first.length - 1]? with
    | none => rw [hx] at he; cases he
    | some o => rw [hx] at he; rw [← he]; rfl
  obtain ⟨b, e, h, _⟩ := C69_l2_full_f32 M cfg d rng metrics hc h2 (by omega) hf q hr h0 targets h3 a m (by
    intro t htm
    obtain ⟨r, hr, he⟩ := hmem t htm
    exact ht r hr t he) hlow' (by rw [hne]; exact hit) ham
  exact ⟨d, b, h1, e, h⟩

def longCfg : Config := { divergeCfg with niterations := 1000000 }

theorem longCfg_valid : ValidConfig longCfg :=
  ⟨divergeCfg_valid.bits, divergeCfg_valid.depth, divergeCfg_valid.leaf, divergeCfg_valid.bins, divergeCfg_valid.features,
    divergeCfg_valid.examples, divergeCfg_valid.rate⟩

theorem longData_valid : ValidData longCfg divergeData :=
  ⟨divergeData_valid.shape, divergeData_valid.size, divergeData_valid.width, divergeData_valid.sampled,
    divergeData_valid.bins, divergeData_valid.room, divergeData_valid.limits, divergeData_valid.cats⟩

/-- C69: a million iterations with squared error in `f32` arithmetic. -/
theorem long_run (rng : Rng) : ∃ b, Booster.run .binary32 runLibm longCfg divergeData rng [] (Objective.new .l2) = .ok b ∧
    b.ensemble.trees.length = 1000000 := by
  obtain ⟨b, h1, h2, _⟩ := C69_l2_full_f32 runLibm longCfg divergeData rng [] longCfg_valid longData_valid (by simp [divergeData]) rfl 1
    rfl (by norm_num) _ rfl 0 4 (by simp [divergeData, SizeLe]) C69_hinge_refuted.2.2.2.2.1
    (by simp [divergeData, longCfg]) (by norm_num)
  exact ⟨b, h1, h2⟩

/-- C69: a CSV file that meets the hypotheses. -/
example (M : Libm) (rng : Rng) : ∃ d b, Data.fromCsv longCfg ([[some (.fin 0), some (.fin 0)], [some (.fin 1), some (.fin 1)],
      [some (.fin 2), some (.fin 1)]].map .record) (some ["a", "b"]) = .ok (.ok d) ∧
    Booster.run .binary32 M longCfg d rng [] (Objective.new .l2) = .ok b ∧ b.ensemble.trees.length = 1000000 := by
  refine C69_csv_l2_f32 M longCfg rng [] [some (.fin 0), some (.fin 0)] [[some (.fin 1), some (.fin 1)],
      [some (.fin 2), some (.fin 1)]] (some ["a", "b"]) (by simp) (fun _ => ⟨_, rfl, by simp⟩) ?_ (by simp) (by simp) ?_
    ⟨0, by simp, .inl (by simp [longCfg, divergeCfg, Config.new])⟩ (by simp [longCfg, divergeCfg, Config.new]) longCfg_valid rfl 1 rfl (by norm_num) 0 4 ?_
    (by simp [longCfg, divergeCfg, Config.new]) (by norm_num)
  · intro r hr j hj
    simp only [List.length_cons, List.length_nil] at hj
    simp only [List.mem_cons, List.not_mem_nil, or_false] at hr
    rcases hr with rfl | rfl | rfl <;> interval_cases j <;> exact ⟨_, rfl, by simp [longCfg, divergeCfg, Config.new]⟩
  · intro j hj _
    obtain rfl : j = 0 := by simp at hj; omega
    exact ⟨⟨[some (.fin 0), some (.fin 0)], by simp, 0, rfl⟩, by simp⟩
  · simp [SizeLe]

/-- C47: the hypotheses of the theorem on whole runs hold from the start to the end of this run. -/
example (rng : Rng) : ∃ b b' : Booster,
    Boosting .binary32 runLibm longCfg divergeData rng [] (Objective.new .l2) 0 b ∧
    Boosting .binary32 runLibm longCfg divergeData rng [] (Objective.new .l2) 1000000 b' ∧
    ∃ ps, b.objective.predictions = Spec.column ps ∧
      (1 + (([0, 1, 1] : List ℚ).length + 4) / 2 ^ 21) ^ (1000000 - 0) * (sqErr [0, 1, 1] ps + ([0, 1, 1] : List ℚ).length * 1 ^ 2) ≤
        (2 ^ 101) ^ 2 := by
  obtain ⟨b', h1, _⟩ := long_run rng
  have hb' := (C59_run .binary32 runLibm longCfg divergeData rng [] (Objective.new .l2) b' h1).1
  obtain ⟨b0, b, e0, e1, hp⟩ := C69_start .binary32 runLibm longCfg divergeData rng (Objective.new .l2) longCfg_valid longData_valid 103 0
    wide_binary32 (by simp [Objective.new, startSize]) _ rfl (fun _ => by simp [divergeData, SizeLe])
    ⟨by simp [Objective.new], by simp [Objective.new], by simp [Objective.new], by simp [Objective.new]⟩
  have hb : Boosting .binary32 runLibm longCfg divergeData rng [] (Objective.new .l2) 0 b := .start e0 e1
  obtain ⟨ps, hps⟩ := column_of_finite b.objective.predictions fun y hy => by
    obtain ⟨q, e, _⟩ := hp y hy
    exact ⟨q, e⟩
  refine ⟨b, b', hb, hb', ps, hps, ?_⟩
  have hl : ps.length = 3 := by
    obtain ⟨_, _, _, b3⟩ := Booster.boosting_objective hb longData_valid.shape longData_valid.size rfl longCfg_valid.leaf
    rw [← column_length ps, ← hps, b3]; rfl
  have hpT : ∀ i < 3, |at' ps i| ≤ 1 := by
    intro i hi
    have e : at' ps i = ps[i] := by simp [at', show i < ps.length by omega]
    obtain ⟨q, e', hq⟩ := hp (.fin ps[i]) (by rw [hps]; unfold Spec.column; exact List.mem_map_of_mem (List.getElem_mem _))
    cases e'
    rw [e]
    simpa [Objective.new, startSize] using hq
  have h2 := sqErr_split [0, 1, 1] ps (by simp [hl]) [0, 1, 2] (by simp) (by simp)
  have hemp : Finset.range ([0, 1, 1] : List ℚ).length \ ([0, 1, 2] : List ℕ).toFinset = ∅ := by decide
  rw [hemp, Finset.sum_empty, add_zero] at h2
  have h3 : sqErr [0, 1, 1] ps ≤ 12 := by
    rw [h2]
    have k0 := hpT 0 (by norm_num)
    have k1 := hpT 1 (by norm_num)
    have k2 := hpT 2 (by norm_num)
    rw [abs_le] at k0 k1 k2
    simp only [List.map_cons, List.map_nil, List.sum_cons, List.sum_nil]
    norm_num [at'] at k0 k1 k2 ⊢
    nlinarith
  have h4 : (1 + (([0, 1, 1] : List ℚ).length + 4) / 2 ^ 21 : ℚ) ^ (1000000 - 0) ≤ 4 ^ 4 := by
    apply growth_le (by positivity)
    norm_num
  have h5 : 0 ≤ sqErr [0, 1, 1] ps + ([0, 1, 1] : List ℚ).length * 1 ^ 2 := by
    rw [h2]
    simp only [List.map_cons, List.map_nil, List.sum_cons, List.sum_nil]
    positivity
  refine (mul_le_mul_of_nonneg_right h4 h5).trans ?_
  have h6 : sqErr [0, 1, 1] ps + ([0, 1, 1] : List ℚ).length * 1 ^ 2 ≤ 15 := by
    simp only [List.length_cons, List.length_nil]
    norm_num
    linarith
  refine (mul_le_mul_of_nonneg_left h6 (by norm_num)).trans (by norm_num)

end BitBoost.Props
