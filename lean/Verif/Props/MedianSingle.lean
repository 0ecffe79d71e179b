import Verif.Lemmas.Quantile32
import Verif.Props.Loss
import Verif.Props.Leaf
/-!
# C57 in single precision: quantiles and medians
-/
namespace BitBoost.Props
open BitBoost Spec

/-- **C26** in single precision, for any number of bins up to `2^20`: the representative of the bin found for a rank is at
most one bin width below and not above the true order statistic of that rank, up to `B / 2^18`, where `B` bounds the
magnitude of the limits. -/
theorem C26_quantile_f32 (n : ℕ) (hn : n ≤ 2 ^ 20) (l h B : ℚ) (hW : 1 / 2 ^ 60 ≤ h - l) (hl : |l| ≤ B) (hh : |h| ≤ B)
    (hB : B ≤ 2 ^ 60) (b : Binner ℕ) (hb : Binner.new .binary32 (List.replicate n 0) (.fin l) (.fin h) = .ok b)
    (vals : List ℚ) (hin : ∀ v ∈ vals, l ≤ v ∧ v ≤ h) (rank : ℕ) (x : ℚ)
    (hx : IsOrderStat (vals.map Num.fin) rank (.fin x)) :
    ∃ b' i r, Binner.insertAll .binary32 (fun (_ : Unit) c => c + 1) b
        (vals.map (fun v => (Num.fin v, ()))) = .ok b' ∧
      Binner.binWithRank Binner.natOps id b'.bins rank = .ok i ∧
      Binner.representative .binary32 b' i = .fin r ∧ r ≤ x + B / 2 ^ 18 ∧ x ≤ r + (h - l) / n + B / 2 ^ 18 := by
  obtain ⟨b', e1, e2⟩ := C26_bin_of_order_statistic .binary32 n _ _ b hb (vals.map Num.fin)
    (by intro v hv; simp at hv; obtain ⟨q, _, rfl⟩ := hv; simp) rank _ hx
  rw [List.map_map] at e1
  have e1' : Binner.insertAll .binary32 (fun (_ : Unit) c => c + 1) b
      (vals.map (fun v => (Num.fin v, ()))) = .ok b' := e1
  obtain ⟨l', h', g1, g2, _, hne, hbeq⟩ := Binner.new_eq_ok.1 hb
  simp only [Num.fin.injEq] at g1 g2
  subst g1 g2
  obtain ⟨b3, g3, g4, g5, g6, _⟩ := Binner.insertAll_ok .binary32 (fun (_ : Unit) (c : Nat) => c + 1)
    (vals.map (fun v => (Num.fin v, ()))) b (by rw [hbeq]; exact hne)
  have : b3 = b' := by rw [e1'] at g3; injection g3 with g; exact g.symm
  subst this
  have hn0 : 0 < n := by
    have := List.length_pos_iff.2 hne; simpa using this
  have hlen : b.bins.length = n := by rw [hbeq]; simp
  obtain ⟨δ, hδ1, hδ2⟩ := FP.width32_any hn0 hn hW (by
    have h1 := (abs_le.1 hl).1
    have h2 := (abs_le.1 hh).2
    have : (2 : ℚ) * 2 ^ 60 ≤ 2 ^ 61 := by norm_num
    linarith)
  have hdelta : b.delta = .fin δ := by rw [hbeq]; simp only [List.length_replicate]; exact hδ1
  have hmin : b.minValue = .fin l := by rw [hbeq]
  have hxin : l ≤ x ∧ x ≤ h := by
    obtain ⟨hm, _⟩ := hx
    simp at hm
    exact hin x hm
  obtain ⟨r, r1, r2, r3⟩ := FP.representative32 hn0 hn hW hB hl hh hxin.1 hxin.2 hδ2
  refine ⟨b3, _, r, e1', e2, ?_, r2, r3⟩
  unfold Binner.representative
  rw [g4, g5, g6, hmin, hdelta, hlen, Binner.getBin_eq, hmin, hdelta, hlen]
  exact r1

/-- In single precision, for values inside the limits `l` and `h` (numbers of size at most `B`), `quantile!` with parameter
`q` is within `(h - l) / 1000 + B / 2^21` of the order statistic whose rank is the integer part of `n q`, rounded to single
precision. -/
theorem C57_quantile_f32 (q l h B : ℚ) (hW : 1 / 2 ^ 60 ≤ h - l) (hl : |l| ≤ B) (hh : |h| ≤ B) (hB : B ≤ 2 ^ 60)
    (vals : List ℚ) (hin : ∀ v ∈ vals, l ≤ v ∧ v ≤ h) (hn : vals.length ≤ 2 ^ 24) (s : ℚ)
    (hs : FP.binary32.rnd (vals.length * q) = .fin s) (rank : Nat) (hrank : rank = ⌊s⌋) (h32 : rank < 2 ^ 32) (x : ℚ)
    (hx : IsOrderStat (column vals) rank (.fin x)) :
    ∃ r, Objective.quantile .binary32 (.fin q) (.fin l, .fin h) (column vals) = .ok (.fin r) ∧
      |r - x| ≤ (h - l) / 1000 + B / 2 ^ 21 := by
  have hlh : l < h := by
    have : (0 : ℚ) < 1 / 2 ^ 60 := by norm_num
    linarith
  obtain ⟨δ, hδ1, hδ2⟩ := FP.width32 hW (by
    have h1 := (abs_le.1 hl).1
    have h2 := (abs_le.1 hh).2
    have : (2 : ℚ) * 2 ^ 60 ≤ 2 ^ 61 := by norm_num
    linarith)
  have hxin : l ≤ x ∧ x ≤ h := by
    obtain ⟨hm, _⟩ := hx
    simp only [column, List.mem_map, Num.fin.injEq] at hm
    obtain ⟨v, hv, rfl⟩ := hm
    exact hin v hv
  obtain ⟨r, hr, hrx⟩ := FP.quantile32 hW hB hl hh hxin.1 hxin.2 hδ2
  refine ⟨r, ?_, hrx⟩
  obtain ⟨Z, hZ, hZl⟩ : ∃ Z, Z = List.replicate 1024 (0 : Nat) ∧ Z.length = 1024 :=
    ⟨_, rfl, List.length_replicate⟩
  have hZne : Z ≠ [] := by intro hc; rw [hc] at hZl; simp at hZl
  have hb : Binner.new .binary32 Z (.fin l) (.fin h) = .ok ⟨Z, .fin l, .fin δ⟩ := by
    rw [Binner.new_eq_ok]
    refine ⟨l, h, rfl, rfl, hlh, hZne, ?_⟩
    rw [hZl]
    have : ((1024 : ℕ) : ℚ) = 1024 := by norm_num
    rw [this, hδ1]
  have hb' := hb
  rw [hZ] at hb'
  obtain ⟨b', e1, e2⟩ := C26_bin_of_order_statistic .binary32 1024 _ _ _ hb' (column vals)
    (by intro v hv; simp only [column, List.mem_map] at hv; obtain ⟨q, _, rfl⟩ := hv; simp) rank _ hx
  rw [← hZ] at e1 e2
  obtain ⟨b3, g3, g4, g5, g6, _⟩ := Binner.insertAll_ok .binary32 (fun (_ : Unit) (c : Nat) => c + 1)
    ((column vals).map (fun v => (v, ()))) ⟨Z, .fin l, .fin δ⟩ hZne
  have hbb : b3 = b' := by rw [g3] at e1; injection e1
  subst hbb
  have hlen : b3.bins.length = 1024 := by rw [g6]; exact hZl
  have hrk : (FP.binary32.mul (FP.binary32.ofNat (column vals).length) (.fin q)).floor.toU32 = rank := by
    have hcl : (column vals).length = vals.length := by simp [column]
    rw [hcl, FP.ofNat_eq _ hn]
    have : FP.binary32.mul (.fin (vals.length : ℚ)) (.fin q) = .fin s := hs
    rw [this]
    show (Num.cast 0 (2 ^ 32 - 1) (.fin ((⌊s⌋ : ℤ) : ℚ))).toNat = rank
    rw [← hrank]
    simp only [Num.cast]
    rw [Num.trunc_int]
    omega
  unfold Objective.quantile
  rw [← hZ, hb]
  simp only [Out.ok_bind, g3, hrk, e2, Out.pure_eq]
  have hrep : ∀ k, Binner.representative .binary32 b3 k =
      FP.binary32.add (.fin l) (FP.binary32.mul (FP.binary32.ofNat (min k 1023)) (.fin δ)) := by
    intro k
    simp only [Binner.representative, g4, g5, hlen]
  rw [hrep, Binner.getBin_eq]
  simp only [hZl]
  rw [hr]

private theorem half32 (n : Nat) (hn : n ≤ 2 ^ 24) : FP.binary32.rnd ((n : ℚ) * (1 / 2)) = .fin ((n : ℚ) * (1 / 2)) := by
  have h1 := FP.round32_fix n 22 (by rw [abs_of_nonneg (by positivity)]; exact_mod_cast hn) (by norm_num)
  have e : ((n : ℤ) : ℚ) * (2 : ℚ) ^ (22 - 23 : ℤ) = (n : ℚ) * (1 / 2) := by norm_num
  rw [e] at h1
  have h0 : (0 : ℚ) ≤ n := by positivity
  have h2 : (n : ℚ) ≤ 2 ^ 24 := by exact_mod_cast hn
  have h3 : (2 : ℚ) ^ 24 < 2 ^ 128 := by norm_num
  show FP.rnd32 _ = _
  unfold FP.rnd32
  rw [h1, if_neg (by linarith), if_neg (by linarith)]

/-- In single precision the median of `n` values is within `(h - l) / 1000 + B / 2^21` of their order statistic of rank
`⌊n / 2⌋`. -/
theorem C57_median_f32 (l h B : ℚ) (hW : 1 / 2 ^ 60 ≤ h - l) (hl : |l| ≤ B) (hh : |h| ≤ B) (hB : B ≤ 2 ^ 60)
    (vals : List ℚ) (hin : ∀ v ∈ vals, l ≤ v ∧ v ≤ h) (hn : vals.length ≤ 2 ^ 24) (x : ℚ)
    (hx : IsOrderStat (column vals) (vals.length / 2) (.fin x)) :
    ∃ r, Objective.median .binary32 (.fin l, .fin h) (column vals) = .ok (.fin r) ∧
      |r - x| ≤ (h - l) / 1000 + B / 2 ^ 21 :=
  C57_quantile_f32 (1 / 2) l h B hW hl hh hB vals hin hn _ (half32 _ hn) (vals.length / 2) (by
    have : (vals.length : ℚ) * (1 / 2) = ((vals.length : ℕ) : ℚ) / ((2 : ℕ) : ℚ) := by push_cast; ring
    rw [this, Rat.floor_natCast_div_natCast]; norm_cast) (by omega) x hx

/-- In single precision absolute and Huber loss start within `(hi - lo) / 1000 + B / 2^21` of the median of the targets,
which lie between `lo` and `hi`, numbers of size at most `B`. -/
theorem C57_bias_is_median_f32 (M : Libm) (o o' : Objective) (c : Config) (ts : List ℚ)
    (hk : o.kind = .l1 ∨ o.kind = .huber) (h : Objective.init .binary32 M o c (column ts) = .ok o')
    (hn : ts.length ≤ 2 ^ 24) (x lo hi B : ℚ) (hx : IsOrderStat (column ts) (ts.length / 2) (.fin x))
    (hlo : lo ∈ ts ∧ ∀ t ∈ ts, lo ≤ t) (hhi : hi ∈ ts ∧ ∀ t ∈ ts, t ≤ hi)
    (hW : 1 / 2 ^ 60 ≤ hi - lo) (hlB : |lo| ≤ B) (hhB : |hi| ≤ B) (hB : B ≤ 2 ^ 60) :
    ∃ b, o'.bias = .fin b ∧ |b - x| ≤ (hi - lo) / 1000 + B / 2 ^ 21 := by
  have hq : ∃ b, Objective.median .binary32 (Objective.limitsOf (column ts)) (column ts) = .ok b ∧
      o'.bias = b := by
    unfold Objective.init at h
    simp only at h
    rcases hk with hk | hk <;> rw [hk] at h <;> simp only at h
    · rw [Out.bind_eq_ok] at h
      obtain ⟨b, hb, h⟩ := h
      simp only [Out.pure_eq, Out.ok.injEq] at h; subst h; exact ⟨b, hb, rfl⟩
    · rw [Out.bind_eq_ok] at h
      obtain ⟨b, hb, h⟩ := h
      rw [Out.bind_eq_ok] at h
      obtain ⟨_, _, h⟩ := h
      simp only [Out.pure_eq, Out.ok.injEq] at h; subst h; exact ⟨b, hb, rfl⟩
  obtain ⟨b, hb, hbias⟩ := hq
  obtain ⟨l, u, e, hl, hu, hin⟩ := limits_column ts (List.ne_nil_of_mem hlo.1)
  have el : l = lo := le_antisymm (hin _ hlo.1).1 (hlo.2 _ hl)
  have eu : u = hi := le_antisymm (hhi.2 _ hu) (hin _ hhi.1).2
  subst el eu
  obtain ⟨r, hr, hrx⟩ := C57_median_f32 l u B hW hlB hhB hB ts hin hn x hx
  rw [e, hr] at hb
  injection hb with hb
  exact ⟨r, by rw [hbias, ← hb], hrx⟩

private theorem orderStat_map (f : ℚ → ℚ) (hf : ∀ a b, a ≤ b → f a ≤ f b) (l : List ℚ) (k : Nat) (x : ℚ)
    (hx : IsOrderStat (column l) k (.fin x)) : IsOrderStat (column (l.map f)) k (.fin (f x)) := by
  obtain ⟨h1, h2, h3⟩ := hx
  have key : ∀ (p q : Num → Bool), (∀ v ∈ l, p (.fin v) = true → q (.fin (f v)) = true) →
      ((column l).filter p).length ≤ ((column (l.map f)).filter q).length := by
    intro p q h
    clear h1 h2 h3
    induction l with
    | nil => simp [column]
    | cons a l ih =>
      have := ih (fun v hv => h v (by simp [hv]))
      simp only [column, List.map_cons, List.filter_cons] at this ⊢
      have ha := h a (by simp)
      by_cases hp : p (.fin a) = true
      · rw [if_pos hp, if_pos (ha hp)]; simp only [List.length_cons]; omega
      · rw [if_neg hp]; split
        · simp only [List.length_cons]; omega
        · exact this
  have key2 : ∀ (p q : Num → Bool), (∀ v ∈ l, p (.fin (f v)) = true → q (.fin v) = true) →
      ((column (l.map f)).filter p).length ≤ ((column l).filter q).length := by
    intro p q h
    clear h1 h2 h3 key
    induction l with
    | nil => simp [column]
    | cons a l ih =>
      have := ih (fun v hv => h v (by simp [hv]))
      simp only [column, List.map_cons, List.filter_cons] at this ⊢
      have ha := h a (by simp)
      by_cases hp : p (.fin (f a)) = true
      · rw [if_pos hp, if_pos (ha hp)]; simp only [List.length_cons]; omega
      · rw [if_neg hp]; split
        · simp only [List.length_cons]; omega
        · exact this
  refine ⟨?_, le_trans (key2 _ (fun v => v.lt (.fin x)) ?_) h2, lt_of_lt_of_le h3 (key _ _ ?_)⟩
  · simp only [column, List.mem_map, Num.fin.injEq, exists_eq_right] at h1 ⊢
    exact ⟨x, h1, rfl⟩
  · intro v _ hv
    simp only [Num.lt, decide_eq_true_eq] at hv ⊢
    by_contra hc
    have := hf x v (not_lt.1 hc)
    linarith
  · intro v _ hv
    simp only [Num.le, decide_eq_true_eq] at hv ⊢
    exact hf v x hv

/-- In single precision, absolute loss: the value of a leaf, before it is scaled with the learning rate, is within
`(h - l) / 1000 + B / 2^20` of the median of the (exact) residuals of its examples. `l` and `h`, numbers of size at most
`B`, are the limits `update` computed: the rounded residuals lie between them. -/
theorem C57_l1_leaf_f32 (o : Objective) (ts ps : List ℚ) (l h B : ℚ) (examples : List Nat)
    (hk : o.kind = .l1) (hp : o.predictions = column ps) (hl : ps.length = ts.length)
    (hlim : o.limits = (.fin l, .fin h)) (hW : 1 / 2 ^ 60 ≤ h - l) (hlB : |l| ≤ B) (hhB : |h| ≤ B) (hB : B ≤ 2 ^ 60)
    (hin : ∀ i ∈ examples, (Num.fin l).le (FP.binary32.rnd (at' ts i - at' ps i)) = true ∧
      (FP.binary32.rnd (at' ts i - at' ps i)).le (.fin h) = true)
    (hex : ∀ i ∈ examples, i < ts.length) (hn : examples.length ≤ 2 ^ 24) (x : ℚ)
    (hx : IsOrderStat (column (examples.map fun i => at' ts i - at' ps i)) (examples.length / 2) (.fin x)) :
    ∃ r, Objective.leafValue .binary32 o (column ts) examples = .ok (.fin r) ∧
      |r - x| ≤ (h - l) / 1000 + B / 2 ^ 20 := by
  have hfin : ∀ i ∈ examples, FP.binary32.rnd (at' ts i - at' ps i) = .fin (FP.round32 (at' ts i - at' ps i)) ∧
      l ≤ FP.round32 (at' ts i - at' ps i) ∧ FP.round32 (at' ts i - at' ps i) ≤ h := by
    intro i hi
    obtain ⟨h1, h2⟩ := hin i hi
    cases e : FP.binary32.rnd (at' ts i - at' ps i) with
    | fin r =>
      have := FP.rnd32_fin e
      rw [this]
      rw [e] at h1 h2
      simp only [Num.le, decide_eq_true_eq] at h1 h2
      exact ⟨rfl, h1, h2⟩
    | pinf => rw [e] at h2; simp [Num.le] at h2
    | ninf => rw [e] at h1; simp [Num.le] at h1
    | nan => rw [e] at h1; simp [Num.le] at h1
  have hrs : Objective.residuals .binary32 o (column ts) examples =
      .ok (column ((examples.map fun i => at' ts i - at' ps i).map FP.round32)) := by
    unfold Objective.residuals
    rw [Objective.forExamples_ok _ (fun i => .fin (FP.round32 (at' ts i - at' ps i)))]
    · simp [column, Function.comp_def]
    · intro i hi
      simp only [Objective.targetPred, Objective.index, hp, column_get ts (hex i hi),
        column_get ps (hl ▸ hex i hi)]
      simp only [Out.ok_bind, Out.pure_eq, FP.sub_fin]
      rw [(hfin i hi).1]
  have hx' := orderStat_map FP.round32 (fun a b h => FP.round32_mono h) _ _ x hx
  obtain ⟨r, hr, hrx⟩ := C57_median_f32 l h B hW hlB hhB hB
    ((examples.map fun i => at' ts i - at' ps i).map FP.round32)
    (by
      intro v hv
      rw [List.map_map, List.mem_map] at hv
      obtain ⟨i, hi, rfl⟩ := hv
      exact (hfin i hi).2) (by simpa using hn) (FP.round32 x) (by simpa using hx')
  refine ⟨r, ?_, ?_⟩
  · unfold Objective.leafValue
    rw [hk]
    simp only [hrs, Out.ok_bind, hlim]
    exact hr
  · have hxm : ∃ i ∈ examples, at' ts i - at' ps i = x := by
      have := hx.1
      simpa [column] using this
    obtain ⟨i, hi, rfl⟩ := hxm
    obtain ⟨e1, e2, e3⟩ := hfin i hi
    generalize at' ts i - at' ps i = x at *
    have hB0 : 0 < B := by
      have h1 := (abs_le.1 hlB).1
      have h2 := (abs_le.1 hhB).2
      have : (0 : ℚ) < 1 / 2 ^ 60 := by norm_num
      linarith
    have hrB : |FP.round32 x| ≤ B := by
      rw [abs_le]
      exact ⟨by linarith [(abs_le.1 hlB).1], by linarith [(abs_le.1 hhB).2]⟩
    have hxB : |x| ≤ 2 ^ 126 := by
      by_contra hc
      push Not at hc
      have hp2 : FP.round32 ((2 : ℚ) ^ 126) = 2 ^ 126 := by
        have := FP.round32_fix 1 149 (by norm_num) (by norm_num)
        have e : ((1 : ℤ) : ℚ) * (2 : ℚ) ^ (149 - 23 : ℤ) = 2 ^ 126 := by norm_num
        rwa [e] at this
      have hlt : (2 : ℚ) ^ 60 < 2 ^ 126 := by norm_num
      rcases le_abs.1 hc.le with hc | hc
      · have := FP.round32_mono hc
        rw [hp2] at this
        linarith [(abs_le.1 hrB).2]
      · have := FP.round32_mono hc
        rw [hp2, FP.round32_neg] at this
        linarith [(abs_le.1 hrB).1]
    obtain ⟨r', g1, g2⟩ := FP.binary32_err hxB
    rw [e1] at g1
    injection g1 with g1
    rw [← g1] at g2
    have hty : (1 : ℚ) / 2 ^ 150 ≤ B / 2 ^ 60 := by
      rw [le_div_iff₀ (by norm_num)]
      have h1 := (abs_le.1 hlB).1
      have h2 := (abs_le.1 hhB).2
      have : (1 : ℚ) / 2 ^ 61 ≤ B := by
        have : (1 : ℚ) / 2 ^ 60 = 2 * (1 / 2 ^ 61) := by norm_num
        linarith
      exact le_trans (by norm_num) this
    have hx2 : |x| ≤ 2 * B := by
      have := abs_sub_abs_le_abs_sub x (FP.round32 x)
      rw [abs_sub_comm] at this
      linarith
    have := abs_add_le (r - FP.round32 x) (FP.round32 x - x)
    rw [sub_add_sub_cancel] at this
    linarith

example : ∃ r, Objective.median .binary32 (.fin 0, .fin 8) (column [0, 1, 3, 8, 8]) = .ok (.fin r) ∧
    |r - 3| ≤ 8 / 1000 + 8 / 2 ^ 21 := by
  have := C57_median_f32 0 8 8 (by norm_num) (by norm_num) (by norm_num) (by norm_num) [0, 1, 3, 8, 8]
    (by intro v hv; simp at hv; rcases hv with rfl | rfl | rfl | rfl <;> norm_num) (by simp) 3
    (by refine ⟨by simp [column], ?_, ?_⟩ <;> norm_num [column, List.filter_cons, Num.lt, Num.le])
  simpa using this

/-- C26: the third of the numbers 3, 1, 2, 1 in 100 bins from 0 to 4. -/
example : ∃ b b' i r, Binner.new .binary32 (List.replicate 100 0) (.fin 0) (.fin 4) = .ok b ∧
    Binner.insertAll .binary32 (fun (_ : Unit) c => c + 1) b (([3, 1, 2, 1] : List ℚ).map (fun v => (Num.fin v, ()))) = .ok b' ∧
    Binner.binWithRank Binner.natOps id b'.bins 2 = .ok i ∧ Binner.representative .binary32 b' i = .fin r ∧
    r ≤ 2 + 4 / 2 ^ 18 ∧ 2 ≤ r + 4 / 100 + 4 / 2 ^ 18 := by
  obtain ⟨b, hb, _⟩ := (C24_new FP.binary32 (List.replicate 100 0) (.fin 0) (.fin 4)).2 ⟨rfl, rfl, by simp, by simp⟩
  obtain ⟨b', i, r, h1, h2, h3, h4, h5⟩ := C26_quantile_f32 100 (by norm_num) 0 4 4 (by norm_num) (by norm_num) (by norm_num)
    (by norm_num) b hb [3, 1, 2, 1] (by intro v hv; simp at hv; rcases hv with rfl | rfl | rfl | rfl <;> norm_num) 2 2 (by
      refine ⟨by simp, ?_, ?_⟩
      · norm_num [Num.lt, List.filter_cons]
      · norm_num [Num.le, List.filter_cons])
  exact ⟨b, b', i, r, hb, h1, h2, h3, h4, by simpa using h5⟩

end BitBoost.Props
