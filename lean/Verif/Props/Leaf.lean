import Verif.Props.Loss
/-!
# C67: leaf values and the loss
-/
namespace BitBoost.Props
open BitBoost Spec

/-- Every objective, every rounding: the value of a leaf is the learning rate times the value below, and it is added to
the predictions of the examples of the leaf and to no others. -/
theorem C67_update (F : FP) (o o' : Objective) (targets : List Num) (examples : List Nat) (v : Num)
    (hnd : examples.Nodup) (h : Objective.predictLeafValue F o targets examples = .ok (v, o')) :
    ∃ u, Objective.leafValue F o targets examples = .ok u ∧ v = F.mul o.learningRate u ∧
      o'.predictions.length = o.predictions.length ∧ { o' with predictions := o.predictions } = o ∧
      ∀ i p, o.predictions[i]? = some p →
        o'.predictions[i]? = some (if i ∈ examples then F.add p v else p) := by
  unfold Objective.predictLeafValue at h
  obtain ⟨u, e, h⟩ := Out.bind_eq_ok.1 h
  unfold Objective.updatePredictions at h
  obtain ⟨r, e2, h⟩ := Out.bind_eq_ok.1 h
  cases h
  obtain ⟨rfl, _⟩ := Objective.addLoop_inv F _ _ _ _ hnd e2
  refine ⟨u, e, rfl, by simp, rfl, fun i p hp => ?_⟩
  simp only [Objective.bump_get, hp, Option.map_some]

/-! ## Absolute loss -/

private theorem abs_step (x c : ℚ) (hxc : x ≤ c) (r : ℚ) :
    |r - x| + (if r ≤ x then c - x else -(c - x)) ≤ |r - c| := by
  split_ifs with h
  · rw [abs_of_nonpos (by linarith), abs_of_nonpos (by linarith)]; linarith
  · push Not at h
    rw [abs_of_pos (by linarith)]
    have := le_abs_self (r - c)
    linarith

private theorem abs_step' (x c : ℚ) (hxc : c ≤ x) (r : ℚ) :
    |r - x| + (if r < x then -(x - c) else x - c) ≤ |r - c| := by
  split_ifs with h
  · rw [abs_of_neg (by linarith)]
    have := neg_abs_le (r - c)
    linarith
  · push Not at h
    rw [abs_of_nonneg (by linarith), abs_of_nonneg (by linarith)]
    linarith

private theorem sum_if (P : ℚ → Bool) (a b : ℚ) (l : List ℚ) :
    (l.map fun r => if P r then a else b).sum = (l.filter P).length * a + ((l.length : ℚ) - (l.filter P).length) * b := by
  induction l with
  | nil => simp
  | cons r l ih =>
    simp only [List.map_cons, List.sum_cons, List.length_cons, ih]
    by_cases h : P r = true
    · rw [if_pos h, List.filter_cons_of_pos h]; push_cast [List.length_cons]; ring
    · rw [if_neg h, List.filter_cons_of_neg h]; push_cast; ring

private theorem sum_add_le (f g h : ℚ → ℚ) (l : List ℚ) (hl : ∀ r ∈ l, f r + g r ≤ h r) :
    (l.map f).sum + (l.map g).sum ≤ (l.map h).sum := by
  induction l with
  | nil => simp
  | cons r l ih =>
    simp only [List.map_cons, List.sum_cons]
    have := ih (fun x hx => hl x (by simp [hx]))
    have := hl r (by simp)
    linarith

/-- A median minimises the sum of the distances. -/
theorem median_le (l : List ℚ) (x c : ℚ) (hx : IsOrderStat (column l) (l.length / 2) (.fin x)) :
    (l.map fun r => |r - x|).sum ≤ (l.map fun r => |r - c|).sum := by
  obtain ⟨_, h1, h2⟩ := hx
  have f1 : ((column l).filter fun v => v.lt (.fin x)).length = (l.filter fun r => decide (r < x)).length := by
    rw [column, List.filter_map, List.length_map]; rfl
  have f2 : ((column l).filter fun v => v.le (.fin x)).length = (l.filter fun r => decide (r ≤ x)).length := by
    rw [column, List.filter_map, List.length_map]; rfl
  rw [f1] at h1
  rw [f2] at h2
  rcases le_total x c with hc | hc
  · have := sum_add_le (fun r => |r - x|) (fun r => if decide (r ≤ x) = true then c - x else -(c - x)) (fun r => |r - c|) l
      (fun r _ => by simpa using abs_step x c hc r)
    rw [sum_if] at this
    have h3 : (l.length : ℚ) ≤ 2 * ((l.filter fun r => decide (r ≤ x)).length : ℚ) := by
      exact_mod_cast (show l.length ≤ 2 * (l.filter fun r => decide (r ≤ x)).length by omega)
    nlinarith [mul_nonneg (sub_nonneg.2 h3) (sub_nonneg.2 hc)]
  · have := sum_add_le (fun r => |r - x|) (fun r => if decide (r < x) = true then -(x - c) else x - c) (fun r => |r - c|) l
      (fun r _ => by simpa using abs_step' x c hc r)
    rw [sum_if] at this
    have h3 : 2 * ((l.filter fun r => decide (r < x)).length : ℚ) ≤ (l.length : ℚ) := by
      exact_mod_cast (show 2 * (l.filter fun r => decide (r < x)).length ≤ l.length by omega)
    nlinarith [mul_nonneg (sub_nonneg.2 h3) (sub_nonneg.2 hc)]

/-- There is an order statistic for every rank. -/
theorem orderStat_exists (l : List ℚ) (k : Nat) (hk : k < l.length) : ∃ x, IsOrderStat (column l) k (.fin x) := by
  have hperm : (l.insertionSort (· ≤ ·)).Perm l := List.perm_insertionSort _ l
  have hsort : (l.insertionSort (· ≤ ·)).Pairwise (· ≤ ·) := List.pairwise_insertionSort _ l
  generalize l.insertionSort (· ≤ ·) = s at hperm hsort
  have hks : k < s.length := by rw [hperm.length_eq]; exact hk
  refine ⟨s[k], ?_, ?_, ?_⟩
  · exact List.mem_map.2 ⟨_, hperm.mem_iff.1 (List.getElem_mem hks), rfl⟩
  · rw [column, List.filter_map, List.length_map, ← (hperm.filter _).length_eq]
    have e : s = s.take k ++ s.drop k := (List.take_append_drop k s).symm
    have hd : (s.drop k).filter ((fun v => v.lt (.fin s[k])) ∘ Num.fin) = [] := by
      rw [List.filter_eq_nil_iff]
      intro r hr
      obtain ⟨j, hj, rfl⟩ := List.mem_iff_getElem.1 hr
      simp only [Function.comp, Num.lt, decide_eq_true_eq, not_lt, List.getElem_drop]
      rcases Nat.eq_zero_or_pos j with rfl | hj0
      · exact le_refl _
      · exact List.pairwise_iff_getElem.1 hsort k (k + j) hks (by rw [List.length_drop] at hj; omega) (by omega)
    have := congrArg (fun l => (l.filter ((fun v : Num => v.lt (.fin s[k])) ∘ Num.fin)).length) e
    rw [this, List.filter_append, hd, List.append_nil]
    exact (List.length_filter_le _ _).trans (by rw [List.length_take]; omega)
  · rw [column, List.filter_map, List.length_map, ← (hperm.filter _).length_eq]
    have hsub : ((s.take (k + 1)).filter ((fun v : Num => v.le (.fin s[k])) ∘ Num.fin)).length ≤
        (s.filter ((fun v : Num => v.le (.fin s[k])) ∘ Num.fin)).length :=
      ((List.take_sublist _ _).filter _).length_le
    have hall : (s.take (k + 1)).filter ((fun v : Num => v.le (.fin s[k])) ∘ Num.fin) = s.take (k + 1) := by
      rw [List.filter_eq_self]
      intro r hr
      obtain ⟨j, hj, rfl⟩ := List.mem_iff_getElem.1 hr
      simp only [Function.comp, Num.le, decide_eq_true_eq, List.getElem_take]
      rw [List.length_take] at hj
      rcases Nat.lt_or_ge j k with h | h
      · exact List.pairwise_iff_getElem.1 hsort j k (by omega) hks h
      · obtain rfl : j = k := by omega
        exact le_refl _
    rw [hall, List.length_take] at hsub
    omega

/-- Absolute loss: no value gives the examples of the leaf less loss than the value of the leaf, up to 1/1024 of the range
of the residuals for every example. -/
theorem C67_l1_partial (o : Objective) (ts ps : List ℚ) (l h : ℚ) (examples : List Nat)
    (hk : o.kind = .l1) (hp : o.predictions = column ps) (hl : ps.length = ts.length)
    (hlim : o.limits = (.fin l, .fin h)) (hlt : l < h)
    (hin : ∀ i < ts.length, l ≤ at' ts i - at' ps i ∧ at' ts i - at' ps i ≤ h)
    (hex : ∀ i ∈ examples, i < ts.length) (h32 : examples.length < 2 ^ 32) (hne : examples ≠ []) :
    ∃ r, Objective.leafValue .exact o (column ts) examples = .ok (.fin r) ∧
      ∀ c, (examples.map fun i => absLoss (at' ts i) (at' ps i + r)).sum ≤
        (examples.map fun i => absLoss (at' ts i) (at' ps i + c)).sum + examples.length * ((h - l) / 1024) := by
  obtain ⟨x, hx⟩ := orderStat_exists (examples.map fun i => at' ts i - at' ps i) (examples.length / 2)
    (by rw [List.length_map]; have := List.length_pos_of_ne_nil hne; omega)
  obtain ⟨r, hr, hrx⟩ := C57_l1_leaf o ts ps l h examples hk hp hl hlim hlt hin hex h32 x hx
  refine ⟨r, hr, fun c => ?_⟩
  have hm := median_le (examples.map fun i => at' ts i - at' ps i) x c (by rw [List.length_map]; exact hx)
  rw [List.map_map, List.map_map] at hm
  have hstep : (examples.map fun i => absLoss (at' ts i) (at' ps i + r)).sum ≤
      (examples.map fun i => |at' ts i - at' ps i - x|).sum + examples.length * ((h - l) / 1024) := by
    clear hr hx hm hne h32 hex
    induction examples with
    | nil => simp
    | cons i is ih =>
      simp only [List.map_cons, List.sum_cons, List.length_cons]
      have : absLoss (at' ts i) (at' ps i + r) ≤ |at' ts i - at' ps i - x| + (h - l) / 1024 := by
        unfold absLoss
        have e : at' ts i - (at' ps i + r) = (at' ts i - at' ps i - x) + (x - r) := by ring
        rw [e]
        have h1 := abs_add_le (at' ts i - at' ps i - x) (x - r)
        rw [abs_sub_comm x r] at h1
        linarith
      push_cast
      linarith
  have e : (examples.map fun i => absLoss (at' ts i) (at' ps i + c)) =
      examples.map ((fun r => |r - c|) ∘ fun i => at' ts i - at' ps i) := by
    apply List.map_congr_left
    intro i _
    simp only [absLoss, Function.comp]
    congr 1
    ring
  rw [e]
  exact hstep.trans (by
    have : (examples.map ((fun r => |r - x|) ∘ fun i => at' ts i - at' ps i)) =
      examples.map fun i => |at' ts i - at' ps i - x| := rfl
    rw [this] at hm
    linarith)

/-! ## Huber loss -/

/-- A residual, clipped at `δ`. -/
private def clip (δ u : ℚ) : ℚ := if |u| ≤ δ then u else δ * (if u < 0 then -1 else 1)

private theorem huber_smooth (δ t p s : ℚ) (hδ : 0 ≤ δ) :
    huberLoss δ t (p + s) ≤ huberLoss δ t p - s * clip δ (t - p) + s ^ 2 / 2 := by
  have key : ∀ v w : ℚ, (if |v| ≤ δ then v ^ 2 / 2 else δ * (|v| - δ / 2)) ≤ (v - w) ^ 2 / 2 + δ * |w| := by
    intro v w
    have hw := abs_nonneg w
    split_ifs with hv
    · have h1 : v * w ≤ δ * |w| := by
        have : v * w ≤ |v| * |w| := by rw [← abs_mul]; exact le_abs_self _
        nlinarith
      nlinarith [sq_nonneg w]
    · push Not at hv
      have h1 : |v| - |w| ≤ |v - w| := abs_sub_abs_le_abs_sub v w
      have h2 : (v - w) ^ 2 = |v - w| ^ 2 := (sq_abs _).symm
      rw [h2]
      nlinarith [sq_nonneg (|v - w| - δ)]
  have e1 : t - (p + s) = t - p - s := by ring
  unfold huberLoss
  rw [e1]
  generalize t - p = u
  refine (key (u - s) (u - clip δ u)).trans ?_
  have e2 : u - s - (u - clip δ u) = clip δ u - s := by ring
  rw [e2]
  unfold clip
  split_ifs with h1 h2
  · simp only [sub_self, abs_zero, mul_zero, add_zero]; nlinarith
  · push Not at h1
    rw [abs_of_neg h2] at h1 ⊢
    rw [abs_of_neg (show u - δ * -1 < 0 by linarith)]
    nlinarith
  · push Not at h1 h2
    rw [abs_of_nonneg h2] at h1 ⊢
    rw [abs_of_pos (show 0 < u - δ * 1 by linarith)]
    nlinarith

private theorem huberCorrection_exact (δ m : ℚ) (hδ : 0 ≤ δ) (l : List ℚ) :
    Objective.huberCorrection .exact (.fin δ) (.fin m) (column l) = .fin ((l.map fun r => clip δ (r - m)).sum) := by
  unfold Objective.huberCorrection
  have : ∀ a : ℚ, (column l).foldl (fun s err =>
      let d := FP.exact.sub err (.fin m)
      FP.exact.add s (FP.exact.mul d.signum (Num.min (.fin δ) d.abs))) (.fin a) =
      .fin (a + (l.map fun r => clip δ (r - m)).sum) := by
    induction l with
    | nil => intro a; simp [column]
    | cons r l ih =>
      intro a
      simp only [column, List.map_cons, List.foldl_cons, List.sum_cons] at ih ⊢
      have e : FP.exact.add (.fin a) (FP.exact.mul (FP.exact.sub (.fin r) (.fin m)).signum
          (Num.min (.fin δ) (FP.exact.sub (.fin r) (.fin m)).abs)) = .fin (a + clip δ (r - m)) := by
        rw [FP.sub_fin]
        show FP.exact.add (.fin a) (FP.exact.mul (Num.fin (r - m)).signum (Num.min (.fin δ) (Num.fin (r - m)).abs)) = _
        generalize r - m = u
        have : FP.exact.mul (Num.fin u).signum (Num.min (.fin δ) (Num.fin u).abs) = .fin (clip δ u) := by
          have h1 : Num.min (.fin δ) (Num.fin u).abs = .fin (if δ ≤ |u| then δ else |u|) := by
            simp only [Num.min, Num.abs, Num.isNan, Num.le, decide_eq_true_eq, Bool.false_eq_true, if_false]
            split_ifs <;> rfl
          have h2 : (Num.fin u).signum = .fin (if u < 0 then -1 else 1) := by
            simp only [Num.signum]
            split_ifs <;> rfl
          rw [h1, h2]
          show Num.fin ((if u < 0 then -1 else 1) * (if δ ≤ |u| then δ else |u|)) = _
          congr 1
          unfold clip
          split_ifs with c1 c2 c3 c3 c2 c3 c3
          all_goals first
            | (rw [abs_of_neg (by assumption)] at *; linarith)
            | (rw [abs_of_nonneg (by linarith)] at *; linarith)
        rw [this]; rfl
      rw [e, ih, add_assoc]
  simpa using this 0

/-- Huber loss: the value of a leaf is `m` plus the mean of the differences of the residuals to `m`, clipped at `delta`,
where `m` is the median of the residuals up to 1/1024 of the range of all residuals. The examples of the leaf have less
loss with it than with `m`, by at least half the square of the step for every example. -/
theorem C67_huber_partial (o : Objective) (ts ps : List ℚ) (l h δ : ℚ) (examples : List Nat)
    (hk : o.kind = .huber) (hp : o.predictions = column ps) (hl : ps.length = ts.length)
    (hlim : o.limits = (.fin l, .fin h)) (hlt : l < h) (hd : o.delta = .fin δ) (hδ : 0 ≤ δ)
    (hin : ∀ i < ts.length, l ≤ at' ts i - at' ps i ∧ at' ts i - at' ps i ≤ h)
    (hex : ∀ i ∈ examples, i < ts.length) (h32 : examples.length < 2 ^ 32) (hne : examples ≠ []) (x : ℚ)
    (hx : IsOrderStat (column (examples.map fun i => at' ts i - at' ps i)) (examples.length / 2) (.fin x)) :
    ∃ m r, Objective.leafValue .exact o (column ts) examples = .ok (.fin r) ∧ |m - x| ≤ (h - l) / 1024 ∧
      r = m + (examples.map fun i => max (-δ) (min δ (at' ts i - at' ps i - m))).sum / examples.length ∧
      (examples.map fun i => huberLoss δ (at' ts i) (at' ps i + r)).sum + examples.length * ((r - m) ^ 2 / 2) ≤
        (examples.map fun i => huberLoss δ (at' ts i) (at' ps i + m)).sum := by
  obtain ⟨m, hm, hmx⟩ := C57_quantile (1 / 2) l h hlt (examples.map fun i => at' ts i - at' ps i)
    (by
      intro v hv
      simp only [List.mem_map] at hv
      obtain ⟨i, hi, rfl⟩ := hv
      exact hin i (hex i hi)) (examples.length / 2) (by
    rw [List.length_map]
    have : (examples.length : ℚ) * (1 / 2) = ((examples.length : ℕ) : ℚ) / ((2 : ℕ) : ℚ) := by
      push_cast; ring
    rw [this, Rat.floor_natCast_div_natCast]; norm_cast) (by omega) x hx
  have hpos : (0 : ℚ) < examples.length := by
    have := List.length_pos_of_ne_nil hne
    positivity
  have hclip : ∀ u, clip δ u = max (-δ) (min δ u) := by
    intro u
    unfold clip
    split_ifs with h1 h2
    · rw [min_eq_right (abs_le.1 h1).2, max_eq_right (abs_le.1 h1).1]
    · push Not at h1
      rw [abs_of_neg h2] at h1
      rw [min_eq_right (by linarith), max_eq_left (by linarith)]
      ring
    · push Not at h1 h2
      rw [abs_of_nonneg h2] at h1
      rw [min_eq_left (by linarith), max_eq_right (by linarith)]
      ring
  refine ⟨m, m + (examples.map fun i => max (-δ) (min δ (at' ts i - at' ps i - m))).sum / examples.length, ?_, hmx, rfl, ?_⟩
  · unfold Objective.leafValue
    rw [hk]
    simp only [residuals_exact o ts ps hp examples hex (by intro i hi; rw [hl]; exact hex i hi), Out.ok_bind,
      Objective.median, hlim, hm, hd, huberCorrection_exact δ m hδ, Out.pure_eq]
    have e1 : FP.exact.ofNat examples.length = .fin examples.length := rfl
    rw [e1, FP.div_fin _ (ne_of_gt hpos)]
    simp only [List.map_map, Function.comp_def, hclip]
    rfl
  · simp only [← hclip]
    obtain ⟨S, hS⟩ : ∃ S, S = (examples.map fun i => clip δ (at' ts i - at' ps i - m)).sum := ⟨_, rfl⟩
    rw [← hS]
    obtain ⟨s, hs⟩ : ∃ s, s = S / examples.length := ⟨_, rfl⟩
    rw [← hs]
    have hSs : S = s * examples.length := by rw [hs]; field_simp
    have hsum : ∀ is : List Nat, (is.map fun i => huberLoss δ (at' ts i) (at' ps i + (m + s))).sum ≤
        (is.map fun i => huberLoss δ (at' ts i) (at' ps i + m)).sum -
          s * (is.map fun i => clip δ (at' ts i - at' ps i - m)).sum + is.length * (s ^ 2 / 2) := by
      intro is
      induction is with
      | nil => simp
      | cons i is ih =>
        simp only [List.map_cons, List.sum_cons, List.length_cons]
        have := huber_smooth δ (at' ts i) (at' ps i + m) s hδ
        have e : at' ts i - (at' ps i + m) = at' ts i - at' ps i - m := by ring
        rw [e, add_assoc] at this
        push_cast
        linarith
    have := hsum examples
    rw [← hS, hSs] at this
    have e : m + s - m = s := by ring
    rw [e]
    linarith

/-! ## Log loss -/

/-- Log loss: the value of a leaf is minus the sum of the gradients `g` of its examples divided by 2^-23 plus the sum of
`|g| (2 - |g|)`. -/
theorem C67_binary_partial (o : Objective) (targets : List Num) (gs : List ℚ) (examples : List Nat)
    (hk : o.kind = .binary) (hg : o.gradients = column gs) (hb : ∀ g ∈ gs, |g| ≤ 2) (hex : ∀ i ∈ examples, i < gs.length) :
    Objective.leafValue .exact o targets examples = .ok (.fin (-(examples.map fun i => at' gs i).sum /
      (1 / 2 ^ 23 + (examples.map fun i => |at' gs i| * (2 - |at' gs i|)).sum))) := by
  have hget : Objective.forExamples (Objective.index o.gradients) examples = .ok (column (examples.map fun i => at' gs i)) := by
    rw [Objective.forExamples_ok _ (fun i => .fin (at' gs i))]
    · simp [column, Function.comp_def]
    · intro i hi
      simp only [Objective.index, hg, column_get gs (hex i hi)]
  have hb' : ∀ g ∈ examples.map fun i => at' gs i, |g| ≤ 2 := by
    intro g hg'
    obtain ⟨i, hi, rfl⟩ := List.mem_map.1 hg'
    apply hb
    simp [at', List.getD_eq_getElem?_getD, hex i hi]
  unfold Objective.leafValue
  rw [hk]
  simp only [hget, Out.ok_bind, Out.pure_eq]
  have e2 : (examples.map fun i => |at' gs i| * (2 - |at' gs i|)) =
    (examples.map fun i => at' gs i).map fun g => |g| * (2 - |g|) := by rw [List.map_map]; rfl
  rw [e2]
  generalize (examples.map fun i => at' gs i) = l at hb' ⊢
  unfold Objective.binaryLeaf Objective.epsilon
  have hnum : ∀ a : ℚ, (column l).foldl (fun s g => FP.exact.add s g.neg) (.fin a) = .fin (a - l.sum) := by
    clear hb'
    induction l with
    | nil => intro a; simp [column]
    | cons g l ih =>
      intro a
      simp only [column, List.map_cons, List.foldl_cons, List.sum_cons] at ih ⊢
      have e : FP.exact.add (.fin a) (Num.fin g).neg = .fin (a + -g) := rfl
      rw [e, ih]
      congr 1
      ring
  have hden : ∀ a : ℚ, (column l).foldl (fun s g => FP.exact.add s (FP.exact.mul g.neg.abs
      (FP.exact.sub (.fin 2) g.neg.abs))) (.fin a) = .fin (a + (l.map fun g => |g| * (2 - |g|)).sum) := by
    clear hb' hnum
    induction l with
    | nil => intro a; simp [column]
    | cons g l ih =>
      intro a
      simp only [column, List.map_cons, List.foldl_cons, List.sum_cons] at ih ⊢
      have e : FP.exact.add (.fin a) (FP.exact.mul (Num.fin g).neg.abs (FP.exact.sub (.fin 2) (Num.fin g).neg.abs)) =
          .fin (a + |(-g)| * (2 + -|(-g)|)) := rfl
      rw [e, ih, abs_neg]
      congr 1
      ring
  have hnn : 0 ≤ (l.map fun g => |g| * (2 - |g|)).sum := by
    apply List.sum_nonneg
    intro x hx
    obtain ⟨g, hg', rfl⟩ := List.mem_map.1 hx
    exact mul_nonneg (abs_nonneg _) (by linarith [hb' g hg'])
  simp only [hnum, hden]
  rw [FP.div_fin _ (by positivity), zero_sub]
  rfl

/-- Log loss: where `g` is the derivative of `ln (1 + exp (-2 y p))`, `|g| (2 - |g|)` is the second derivative. So the
value of a leaf is a Newton step for the loss of its examples (up to the 2^-23 that keeps the divisor positive). -/
theorem C67_newton (y : ℝ) (hy : y = 1 ∨ y = -1) (p : ℝ) :
    let g := fun x : ℝ => -(2 * y) / (1 + Real.exp (2 * y * x))
    HasDerivAt (fun x : ℝ => Real.log (1 + Real.exp (-2 * y * x))) (g p) p ∧
      HasDerivAt g (|g p| * (2 - |g p|)) p ∧ |g p| ≤ 2 := by
  intro g
  have hE : ∀ x, 0 < Real.exp (2 * y * x) := fun x => Real.exp_pos _
  have hyy : y * y = 1 := by rcases hy with rfl | rfl <;> norm_num
  have habs : |g p| = 2 / (1 + Real.exp (2 * y * p)) := by
    simp only [g]
    rw [abs_div, abs_neg, abs_mul, abs_of_pos (show (0 : ℝ) < 1 + Real.exp (2 * y * p) by have := hE p; positivity)]
    rcases hy with rfl | rfl <;> norm_num
  refine ⟨?_, ?_, ?_⟩
  · have hd : HasDerivAt (fun x : ℝ => 1 + Real.exp (-2 * y * x)) (Real.exp (-2 * y * p) * (-2 * y)) p := by
      have h1 : HasDerivAt (fun x : ℝ => -2 * y * x) (-2 * y) p := by
        simpa using (hasDerivAt_id p).const_mul (-2 * y)
      exact (h1.exp).const_add 1
    have hpos : 1 + Real.exp (-2 * y * p) ≠ 0 := by positivity
    convert hd.log hpos using 1
    have e : Real.exp (-2 * y * p) = (Real.exp (2 * y * p))⁻¹ := by
      rw [← Real.exp_neg]; congr 1; ring
    simp only [g]
    rw [e]
    have := (hE p).ne'
    field_simp
    ring
  · have hd : HasDerivAt (fun x : ℝ => 1 + Real.exp (2 * y * x)) (Real.exp (2 * y * p) * (2 * y)) p := by
      have h1 : HasDerivAt (fun x : ℝ => 2 * y * x) (2 * y) p := by
        simpa using (hasDerivAt_id p).const_mul (2 * y)
      exact (h1.exp).const_add 1
    have hne : 1 + Real.exp (2 * y * p) ≠ 0 := by have := hE p; positivity
    have h := (hasDerivAt_const p (-(2 * y))).div hd hne
    have e : |g p| * (2 - |g p|) = (0 * (1 + Real.exp (2 * y * p)) - -(2 * y) * (Real.exp (2 * y * p) * (2 * y))) /
        (1 + Real.exp (2 * y * p)) ^ 2 := by
      rw [habs]
      have := hE p
      field_simp
      linear_combination (-4 * Real.exp (2 * y * p)) * hyy
    rw [e]
    exact h
  · rw [habs, div_le_iff₀ (by have := hE p; positivity)]
    linarith [hE p]

/-! ## Hinge loss -/

private theorem hingeSum_exact (l : List (ℚ × ℚ)) :
    Objective.hingeSum .exact (l.map fun x => (.fin x.1, .fin x.2)) =
      .fin ((l.map fun x => classOf x.1 * max (2 - classOf x.1 * x.2) 0 ^ 2).sum) := by
  unfold Objective.hingeSum
  have : ∀ a : ℚ, (l.map fun x => ((Num.fin x.1, Num.fin x.2) : Num × Num)).foldl (fun v tp =>
      if tp.1.lt (.fin (1 / 2)) then
        let x := Num.max (FP.exact.add (.fin 2) tp.2) (.fin 0)
        FP.exact.sub v (FP.exact.mul x x)
      else
        let x := Num.max (FP.exact.sub (.fin 2) tp.2) (.fin 0)
        FP.exact.add v (FP.exact.mul x x)) (.fin a) =
      .fin (a + (l.map fun x => classOf x.1 * max (2 - classOf x.1 * x.2) 0 ^ 2).sum) := by
    induction l with
    | nil => intro a; simp
    | cons x l ih =>
      intro a
      simp only [List.map_cons, List.foldl_cons, List.sum_cons] at ih ⊢
      have hmax : ∀ u : ℚ, Num.max (.fin u) (.fin 0) = .fin (max u 0) := by
        intro u
        simp only [Num.max, Num.isNan, Num.le, decide_eq_true_eq, Bool.false_eq_true, if_false]
        split_ifs with h
        · rw [max_eq_right h]
        · rw [max_eq_left (by linarith)]
      by_cases hc : x.1 < 1 / 2
      · rw [if_pos (by simpa [Num.lt] using hc)]
        have e : FP.exact.add (.fin 2) (.fin x.2) = .fin (2 + x.2) := rfl
        simp only [e, hmax]
        have e2 : FP.exact.sub (.fin a) (FP.exact.mul (.fin (max (2 + x.2) 0)) (.fin (max (2 + x.2) 0))) =
          .fin (a + -(max (2 + x.2) 0 * max (2 + x.2) 0)) := rfl
        rw [e2, ih]
        congr 1
        rw [show classOf x.1 = -1 from if_pos hc]
        rw [show (2 : ℚ) - -1 * x.2 = 2 + x.2 by ring]
        ring
      · rw [if_neg (by simpa [Num.lt] using hc)]
        have e : FP.exact.sub (.fin 2) (.fin x.2) = .fin (2 - x.2) := by rw [FP.sub_fin]; rfl
        simp only [e, hmax]
        have e2 : FP.exact.add (.fin a) (FP.exact.mul (.fin (max (2 - x.2) 0)) (.fin (max (2 - x.2) 0))) =
          .fin (a + (max (2 - x.2) 0 * max (2 - x.2) 0)) := rfl
        rw [e2, ih]
        congr 1
        rw [show classOf x.1 = 1 from if_neg hc]
        rw [show (2 : ℚ) - 1 * x.2 = 2 - x.2 by ring]
        ring
  simpa using this 0

/-- Hinge loss: the value of a leaf is the mean of `y max(0, 2 - y p)^2`. When all its examples are of one class, none of
them has more loss with it, whatever the learning rate (at least 0). -/
theorem C67_hinge_partial (o : Objective) (ts ps : List ℚ) (examples : List Nat) (hk : o.kind = .hinge)
    (hp : o.predictions = column ps) (hl : ps.length = ts.length) (hex : ∀ i ∈ examples, i < ts.length)
    (hne : examples ≠ []) :
    ∃ r, Objective.leafValue .exact o (column ts) examples = .ok (.fin r) ∧
      r = (examples.map fun i => classOf (at' ts i) * max (2 - classOf (at' ts i) * at' ps i) 0 ^ 2).sum / examples.length ∧
      ∀ y, (∀ i ∈ examples, classOf (at' ts i) = y) → ∀ rate, 0 ≤ rate → ∀ i ∈ examples,
        hingeLoss (classOf (at' ts i)) (at' ps i + rate * r) ≤ hingeLoss (classOf (at' ts i)) (at' ps i) := by
  have hpos : (0 : ℚ) < examples.length := by
    have := List.length_pos_of_ne_nil hne
    positivity
  refine ⟨_, ?_, rfl, fun y hy rate hrate i hi => ?_⟩
  · have hget : Objective.forExamples (Objective.targetPred o (column ts)) examples =
        .ok ((examples.map fun i => (at' ts i, at' ps i)).map fun x => (.fin x.1, .fin x.2)) := by
      rw [Objective.forExamples_ok _ (fun i => (.fin (at' ts i), .fin (at' ps i)))]
      · rw [List.map_map]; rfl
      · intro i hi
        simp only [Objective.targetPred, Objective.index, hp, column_get ts (hex i hi),
          column_get ps (by rw [hl]; exact hex i hi), Out.ok_bind, Out.pure_eq]
    unfold Objective.leafValue
    rw [hk]
    simp only [hget, Out.ok_bind, Out.pure_eq, hingeSum_exact]
    have e1 : FP.exact.ofNat examples.length = .fin examples.length := rfl
    rw [e1, FP.div_fin _ (ne_of_gt hpos), List.map_map]
    rfl
  · have hyy : y = 1 ∨ y = -1 := by
      rw [← hy i hi]
      unfold classOf
      split_ifs
      · exact .inr rfl
      · exact .inl rfl
    have hsum : 0 ≤ y * (examples.map fun i => classOf (at' ts i) * max (2 - classOf (at' ts i) * at' ps i) 0 ^ 2).sum := by
      rw [← List.sum_map_mul_left]
      apply List.sum_nonneg
      intro v hv
      obtain ⟨j, hj, rfl⟩ := List.mem_map.1 hv
      rw [hy j hj]
      rcases hyy with rfl | rfl <;> nlinarith [sq_nonneg (max (2 - 1 * at' ps j) 0), sq_nonneg (max (2 - -1 * at' ps j) 0)]
    rw [hy i hi]
    unfold hingeLoss
    apply max_le_max (le_refl _)
    have h1 : 0 ≤ rate * (y * (examples.map fun i => classOf (at' ts i) *
        max (2 - classOf (at' ts i) * at' ps i) 0 ^ 2).sum / examples.length) :=
      mul_nonneg hrate (div_nonneg hsum hpos.le)
    have h2 : y * (at' ps i + rate * ((examples.map fun i => classOf (at' ts i) *
        max (2 - classOf (at' ts i) * at' ps i) 0 ^ 2).sum / examples.length)) = y * at' ps i +
        rate * (y * (examples.map fun i => classOf (at' ts i) *
        max (2 - classOf (at' ts i) * at' ps i) 0 ^ 2).sum / examples.length) := by ring
    rw [h2]
    linarith

/-! Hinge loss, leaves with both classes: a leaf, and a whole tree, can increase the loss. -/

private def hingeTargets : List ℚ := [1, 1] ++ List.replicate 18 0

/-- The hinge loss of some examples. -/
def hingeTotal (ts ps : List ℚ) (examples : List Nat) : ℚ :=
  (examples.map fun i => hingeLoss (classOf (at' ts i)) (at' ps i)).sum

/-- The numbers of a column, if all are finite. -/
def finite : List Num → Option (List ℚ)
  | [] => some []
  | .fin q :: l => (finite l).map (q :: ·)
  | _ :: _ => none

theorem finite_some {l : List Num} {qs : List ℚ} (h : finite l = some qs) : l = column qs := by
  induction l generalizing qs with
  | nil => cases h; rfl
  | cons x l ih =>
    cases x with
    | fin q =>
      simp only [finite, Option.map_eq_some_iff] at h
      obtain ⟨r, h1, rfl⟩ := h
      rw [ih h1]; rfl
    | pinf => cases h
    | ninf => cases h
    | nan => cases h

private def hingeRun : Out (Objective × Objective) := do
  let o ← Objective.init .binary32 ⟨fun x => x, fun x => x, fun x => x⟩ (Objective.new .hinge)
    { Config.new with discrNbits := 2 } (column hingeTargets)
  let (_, o1) ← Objective.predictLeafValue .binary32 o (column hingeTargets) (List.range 6)
  let (_, o2) ← Objective.predictLeafValue .binary32 o1 (column hingeTargets) ((List.range 20).drop 6)
  return (o, o2)

/-- C67 (false for hinge loss): twenty examples, two of class 1; a leaf with these two and four others. The loss of the
examples of the leaf, and that of all examples after a tree of this leaf and one with all other examples, is larger than
before the first tree. (Learning rate 1, arithmetic of the code.) -/
theorem C67_hinge_refuted : ∃ (M : Libm) (o o' : Objective) (ts ps ps' : List ℚ) (l1 l2 : List Nat),
    Objective.init .binary32 M (Objective.new .hinge) { Config.new with discrNbits := 2 } (column ts) = .ok o ∧
    LeafCalls .binary32 (column ts) o [l1, l2] o' ∧ l1 ++ l2 = List.range ts.length ∧ o.learningRate = .fin 1 ∧
    o.predictions = column ps ∧ o'.predictions = column ps' ∧
    hingeTotal ts ps l1 < hingeTotal ts ps' l1 ∧ hingeTotal ts ps (l1 ++ l2) < hingeTotal ts ps' (l1 ++ l2) := by
  have h : (match hingeRun with
    | .ok (o, o') => decide (o.learningRate = .fin 1) &&
        (match finite o.predictions, finite o'.predictions with
        | some ps, some ps' => decide (hingeTotal hingeTargets ps (List.range 6) < hingeTotal hingeTargets ps' (List.range 6)) &&
            decide (hingeTotal hingeTargets ps (List.range 20) < hingeTotal hingeTargets ps' (List.range 20))
        | _, _ => false)
    | _ => false : Bool) = true := by decide +kernel
  split at h
  · rename_i o o' hr
    rw [Bool.and_eq_true] at h
    obtain ⟨h0, h⟩ := h
    split at h
    · rename_i ps ps' h1 h2
      rw [Bool.and_eq_true] at h
      unfold hingeRun at hr
      obtain ⟨o0, e0, hr⟩ := Out.bind_eq_ok.1 hr
      obtain ⟨⟨v1, o1⟩, e1, hr⟩ := Out.bind_eq_ok.1 hr
      obtain ⟨⟨v2, o2⟩, e2, hr⟩ := Out.bind_eq_ok.1 hr
      cases hr
      exact ⟨_, o, o', hingeTargets, ps, ps', List.range 6, (List.range 20).drop 6, e0, .cons v1 e1 (.cons v2 e2 (.nil _)),
        by decide, of_decide_eq_true h0, finite_some h1, finite_some h2, of_decide_eq_true h.1, of_decide_eq_true h.2⟩
    · cases h
  · cases h

/-! ## The hypotheses are met -/

/-- A leaf with three examples in the middle of training, for absolute and Huber loss. -/
example : let ts : List ℚ := [0, 1, 1, 0]
    let ps : List ℚ := [0, 1, 0, 1]
    (exObj .l1).predictions = column ps ∧ (exObj .l1).limits = (.fin (-1), .fin 1) ∧
    (∀ i < ts.length, -1 ≤ at' ts i - at' ps i ∧ at' ts i - at' ps i ≤ 1) ∧ (∀ i ∈ [0, 2, 3], i < ts.length) ∧
    IsOrderStat (column ([0, 2, 3].map fun i => at' ts i - at' ps i)) (3 / 2) (.fin 0) := by
  refine ⟨rfl, rfl, ?_, by decide, ?_⟩
  · intro i hi
    simp only [List.length_cons, List.length_nil] at hi
    interval_cases i <;> norm_num [at']
  · refine ⟨by simp [column, at'], ?_, ?_⟩ <;> decide +kernel

/-- Log loss, three examples. -/
example : Objective.leafValue .exact { exObj .binary with gradients := column [1, -1 / 2, 3 / 2, 0] } [] [0, 1, 2] =
    .ok (.fin (-2 / (1 / 2 ^ 23 + (1 + 3 / 4 + 3 / 4)))) := by
  rw [C67_binary_partial _ _ [1, -1 / 2, 3 / 2, 0] _ rfl rfl (by decide +kernel) (by decide)]
  norm_num [at', abs_of_neg, abs_of_pos]

/-- Hinge loss, a leaf with two positive examples. -/
example : (exObj .hinge).predictions = column [0, 1, 0, 1] ∧
    (∀ i ∈ [1, 2], classOf (at' [0, 1, 1, 0] i) = 1) := by
  refine ⟨rfl, ?_⟩
  intro i hi
  simp only [List.mem_cons, List.not_mem_nil, or_false] at hi
  rcases hi with rfl | rfl <;> norm_num [at', classOf]

end BitBoost.Props
