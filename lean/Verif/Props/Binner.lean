import Verif.Lemmas.Binner
import Verif.Spec.Rank
/-!
# C24-C26: binning, ranks, quantiles

Statements with `F : FP` hold for every rounding, in particular `FP.binary32` (Rust's `f32`);
statements with `FP.exact` are about exact arithmetic.
-/
namespace BitBoost.Props
open BitBoost

variable {β : Type}

/-- `Binner::new` succeeds exactly for finite limits `lo < hi` and at least one bin. -/
theorem C24_new (F : FP) (bins : List β) (lo hi : Num) :
    (∃ b, Binner.new F bins lo hi = .ok b ∧ b.bins = bins) ↔
      lo.isFinite = true ∧ hi.isFinite = true ∧ lo.lt hi = true ∧ bins ≠ [] := by
  constructor
  · rintro ⟨b, hb, _⟩
    obtain ⟨l, h, rfl, rfl, hlt, hne, _⟩ := Binner.new_eq_ok.1 hb
    exact ⟨rfl, rfl, by simpa using hlt, hne⟩
  · rintro ⟨h1, h2, h3, h4⟩
    obtain ⟨l, rfl⟩ := Num.isFinite_iff.1 h1
    obtain ⟨h, rfl⟩ := Num.isFinite_iff.1 h2
    exact ⟨_, Binner.new_eq_ok.2 ⟨l, h, rfl, rfl, by simpa using h3, h4, rfl⟩, rfl⟩

/-- Every value, also an infinity or NaN, goes to one of the bins. -/
theorem C24_valid_bin (F : FP) (bins : List β) (lo hi : Num) (b : Binner β)
    (hb : Binner.new F bins lo hi = .ok b) (v : Num) : Binner.getBin F b v < bins.length := by
  obtain ⟨l, h, rfl, rfl, _, hne, rfl⟩ := Binner.new_eq_ok.1 hb
  exact Binner.getBin_lt F _ v hne

/-- Larger values never go to smaller bins. -/
theorem C24_monotone (F : FP) (bins : List β) (lo hi : Num) (b : Binner β)
    (hb : Binner.new F bins lo hi = .ok b) (v v' : Num) (hv : v.le v' = true) :
    Binner.getBin F b v ≤ Binner.getBin F b v' := by
  obtain ⟨l, h, rfl, rfl, hlt, hne, rfl⟩ := Binner.new_eq_ok.1 hb
  exact Binner.getBin_mono F _ rfl (Binner.width_ok F _ hlt) hv

/-- The lower limit, and everything below it, goes to the first bin. -/
theorem C24_lower_limit (F : FP) (bins : List β) (lo hi : Num) (b : Binner β)
    (hb : Binner.new F bins lo hi = .ok b) (v : Num) (hv : v.le lo = true) :
    Binner.getBin F b v = 0 := by
  have hm := C24_monotone F bins lo hi b hb v lo hv
  obtain ⟨l, h, rfl, rfl, hlt, hne, rfl⟩ := Binner.new_eq_ok.1 hb
  have := Binner.getBin_min F ⟨bins, .fin l, F.div (F.rnd (h - l)) (F.rnd bins.length)⟩ (l := l) rfl
    (Binner.width_ok F bins.length hlt)
  omega

/-- The upper limit, and everything above it, goes to the last bin, if the computed width `delta`
is a finite positive number with `delta * (n - 1) ≤ hi - lo` (as computed). -/
theorem C24_upper_limit_of (F : FP) (bins : List β) (l h d q : ℚ) (b : Binner β)
    (hb : Binner.new F bins (.fin l) (.fin h) = .ok b) (hn : bins.length ≤ 2 ^ 24)
    (hd : F.sub (.fin h) (.fin l) = .fin d) (hw : F.div (.fin d) (F.ofNat bins.length) = .fin q)
    (hq : 0 < q) (hdq : q * (bins.length - 1) ≤ d) (v : Num) (hv : (Num.fin h).le v = true) :
    Binner.getBin F b v = bins.length - 1 := by
  have hm := C24_monotone F bins _ _ b hb _ _ hv
  have hlt := C24_valid_bin F bins _ _ b hb v
  obtain ⟨l', h', e1, e2, _, hne, rfl⟩ := Binner.new_eq_ok.1 hb
  simp only [Num.fin.injEq] at e1 e2
  subst e1 e2
  rw [F.sub_fin] at hd
  have hhi : Binner.getBin F ⟨bins, .fin l, F.div (F.rnd (h - l)) (F.rnd bins.length)⟩ (.fin h) =
      bins.length - 1 := by
    rw [Binner.getBin_eq]
    apply Binner.le_binOf hn
    rw [F.sub_fin, hd]
    have : F.div (.fin d) (F.rnd bins.length) = .fin q := hw
    rw [this, F.div_fin hq.ne']
    apply F.nat_le_rnd (by omega)
    rw [le_div_iff₀ hq]
    have h1 : 1 ≤ bins.length := List.length_pos_iff.2 hne
    push_cast [h1]
    linarith
  omega

/-- Exact arithmetic: the upper limit goes to the last bin. -/
theorem C24_upper_limit_exact (bins : List β) (l h : ℚ) (b : Binner β)
    (hb : Binner.new .exact bins (.fin l) (.fin h) = .ok b) (hn : bins.length ≤ 2 ^ 24)
    (v : Num) (hv : (Num.fin h).le v = true) :
    Binner.getBin .exact b v = bins.length - 1 := by
  obtain ⟨l', h', e1, e2, hlt, hne, _⟩ := Binner.new_eq_ok.1 hb
  simp only [Num.fin.injEq] at e1 e2
  subst e1 e2
  have h1 : (0 : ℚ) < bins.length := by exact_mod_cast List.length_pos_iff.2 hne
  refine C24_upper_limit_of .exact bins l h (h - l) ((h - l) / bins.length) b hb hn
    (FP.sub_fin _ _ _) ?_ (div_pos (by linarith) h1) ?_ v hv
  · simp [FP.div, FP.ofNat, FP.exact, h1.ne']
  · rw [div_mul_eq_mul_div, div_le_iff₀ h1]
    nlinarith

/-- `f32`: the upper limit goes to the last bin, if the limits are `f32` numbers, their difference
does not overflow and the bin width is not in the subnormal range. -/
theorem C24_upper_limit_f32 (bins : List β) (l h : ℚ) (b : Binner β)
    (hb : Binner.new .binary32 bins (.fin l) (.fin h) = .ok b) (hn : bins.length ≤ 2 ^ 24)
    (hl : FP.binary32.rnd l = .fin l) (hh : FP.binary32.rnd h = .fin h) (hov : h - l < 2 ^ 127)
    (hsub : (2 : ℚ) ^ (-125 : ℤ) * bins.length ≤ h - l)
    (v : Num) (hv : (Num.fin h).le v = true) :
    Binner.getBin .binary32 b v = bins.length - 1 := by
  obtain ⟨l', h', e1, e2, hlt, hne, _⟩ := Binner.new_eq_ok.1 hb
  simp only [Num.fin.injEq] at e1 e2
  subst e1 e2
  have h1 : (0 : ℚ) < bins.length := by exact_mod_cast List.length_pos_iff.2 hne
  have h1' : (1 : ℚ) ≤ bins.length := by exact_mod_cast List.length_pos_iff.2 hne
  obtain ⟨d, hd, hdp⟩ := FP.binary32_sub_pos hlt hl hh hov
  have hp : (0 : ℚ) < 2 ^ (-126 : ℤ) := zpow_pos (by norm_num) _
  have hp2 : (2 : ℚ) ^ (-125 : ℤ) = 2 ^ (-126 : ℤ) * 2 := by
    rw [show (-125 : ℤ) = -126 + (1 : ℕ) by norm_num, FP.two_pow_split]; norm_num
  have hdr : d = FP.round32 (h - l) := (FP.rnd32_fin hd).symm
  -- d is close to h - l
  have hdl : (h - l) / 2 ≤ d := by
    have hbig : (2 : ℚ) ^ (-126 : ℤ) ≤ |h - l| := by
      rw [abs_of_pos (by linarith)]; nlinarith
    have := FP.round32_err hbig
    rw [← hdr, abs_of_pos (a := h - l) (by linarith), abs_le] at this
    have h3 : (h - l) / 2 ^ 24 ≤ (h - l) / 2 := by
      apply div_le_div_of_nonneg_left (by linarith) (by norm_num) (by norm_num)
    linarith [this.1]
  have hnb : FP.binary32.ofNat bins.length = .fin bins.length := FP.ofNat_eq _ hn
  have hdn : (2 : ℚ) ^ (-126 : ℤ) ≤ d / bins.length := by
    rw [le_div_iff₀ h1]; rw [hp2] at hsub; nlinarith
  have herr := FP.round32_err (q := d / bins.length)
    (by rw [abs_of_pos (by positivity)]; exact hdn)
  rw [abs_of_pos (a := d / bins.length) (by positivity), abs_le] at herr
  have hdnle : d / bins.length ≤ d := div_le_self hdp.le h1'
  have hle := FP.round32_mono hdnle
  have hdd : FP.round32 d = d := by rw [hdr, FP.round32_idem]
  have hdfin : d < 2 ^ 128 := by
    have : FP.rnd32 (h - l) = .fin d := hd
    unfold FP.rnd32 at this
    split_ifs at this with c1 c2
    rw [hdr]; exact not_le.1 c1
  have hq0 : 0 < FP.round32 (d / bins.length) := by
    have h3 : d / bins.length / 2 ^ 24 ≤ d / bins.length / 2 := by
      apply div_le_div_of_nonneg_left (by positivity) (by norm_num) (by norm_num)
    have : 0 < d / bins.length := by positivity
    linarith [herr.1]
  refine C24_upper_limit_of .binary32 bins l h d (FP.round32 (d / bins.length)) b hb hn
    (by rw [FP.sub_fin]; exact hd) ?_ hq0 ?_ v hv
  · rw [hnb, FP.div_fin _ h1.ne']
    show FP.rnd32 _ = _
    unfold FP.rnd32
    have : (0 : ℚ) < 2 ^ 128 := by norm_num
    rw [if_neg (by linarith), if_neg (by linarith)]
  · have hnq : (bins.length : ℚ) ≤ 2 ^ 24 := by exact_mod_cast hn
    have hu : FP.round32 (d / bins.length) ≤ d / bins.length * (1 + 1 / 2 ^ 24) := by
      linarith [herr.2]
    have hk : (0 : ℚ) ≤ bins.length - 1 := by linarith
    calc FP.round32 (d / bins.length) * (bins.length - 1)
        ≤ d / bins.length * (1 + 1 / 2 ^ 24) * (bins.length - 1) := mul_le_mul_of_nonneg_right hu hk
      _ = d * ((1 + 1 / 2 ^ 24) * (bins.length - 1) / bins.length) := by ring
      _ ≤ d * 1 := by
          apply mul_le_mul_of_nonneg_left _ hdp.le
          rw [div_le_one h1]
          nlinarith
      _ = d := mul_one d

/-- The hypotheses are met by the limits 0 and 1 and 512 bins. -/
example : FP.binary32.rnd 0 = .fin 0 ∧ FP.binary32.rnd 1 = .fin 1 ∧ (1 : ℚ) - 0 < 2 ^ 127 ∧
    (2 : ℚ) ^ (-125 : ℤ) * 512 ≤ 1 - 0 :=
  ⟨FP.rnd_zero _, FP.rnd_one _, by norm_num, by norm_num⟩

/-- `f32`, a limit of the code: when `hi - lo` overflows, every value goes to the first bin. -/
theorem C24_overflow_all_first (bins : List β) (l h : ℚ) (b : Binner β)
    (hb : Binner.new .binary32 bins (.fin l) (.fin h) = .ok b) (hov : (2 : ℚ) ^ 128 ≤ h - l)
    (hn : bins.length ≤ 2 ^ 24) (v : Num) : Binner.getBin .binary32 b v = 0 := by
  obtain ⟨l', h', e1, e2, hlt, hne, rfl⟩ := Binner.new_eq_ok.1 hb
  simp only [Num.fin.injEq] at e1 e2
  subst e1 e2
  have hp : FP.binary32.rnd (h - l) = .pinf := by
    have := FP.round32_mono hov
    have htop := FP.round32_fix 1 151 (by norm_num) (by norm_num)
    have e : ((1 : ℤ) : ℚ) * 2 ^ ((151 : ℤ) - 23) = 2 ^ (128 : ℕ) := by
      push_cast; rw [one_mul, ← zpow_natCast]; rfl
    rw [e] at htop
    rw [htop] at this
    show FP.rnd32 _ = _
    unfold FP.rnd32
    rw [if_pos this]
  have h1 : ¬ (bins.length : ℚ) < 0 := not_lt.2 (by positivity)
  rw [Binner.getBin_eq]
  simp only [hp, FP.rnd_nat _ hn]
  cases FP.binary32.sub v (.fin l) <;> simp [FP.div, h1]

/-- Inserting: every bin ends up with the data of exactly the values that belong to it, combined in
insertion order; nothing is lost and no call fails. -/
theorem C24_contents {δ : Type} (F : FP) (comb : δ → β → β) (bins : List β) (lo hi : Num)
    (b : Binner β) (hb : Binner.new F bins lo hi = .ok b) (l : List (Num × δ)) :
    ∃ b', Binner.insertAll F comb b l = .ok b' ∧ b'.bins.length = bins.length ∧
      (∀ v, Binner.getBin F b' v = Binner.getBin F b v) ∧
      ∀ i, b'.bins[i]? = (bins[i]?).map (fun x =>
        (l.filter (fun p => Binner.getBin F b p.1 = i)).foldl (fun acc p => comb p.2 acc) x) := by
  obtain ⟨l', h', e1, e2, hlt, hne, rfl⟩ := Binner.new_eq_ok.1 hb
  obtain ⟨b', a1, a2, a3, a4, a5⟩ := Binner.insertAll_ok F comb l
    ⟨bins, .fin l', F.div (F.rnd (h' - l')) (F.rnd bins.length)⟩ hne
  exact ⟨b', a1, a4, fun v => Binner.getBin_congr F a2 a3 a4 v, a5⟩

/-- Total weight (integer weights): the sum over the bins grows by the sum of what was inserted. -/
theorem C24_total_weight (F : FP) (bins : List Nat) (lo hi : Num)
    (b : Binner Nat) (hb : Binner.new F bins lo hi = .ok b) (l : List (Num × Nat)) :
    ∃ b', Binner.insertAll F (fun d x => x + d) b l = .ok b' ∧
      b'.bins.sum = bins.sum + (l.map (·.2)).sum := by
  obtain ⟨l', h', e1, e2, hlt, hne, rfl⟩ := Binner.new_eq_ok.1 hb
  generalize hb0 : (⟨bins, .fin l', F.div (F.rnd (h' - l')) (F.rnd bins.length)⟩ : Binner Nat) = b0
  have hb0' : b0.bins = bins := by rw [← hb0]
  rw [← hb0'] at hne ⊢
  clear hb0 hb0' hb
  induction l generalizing b0 with
  | nil => exact ⟨b0, rfl, by simp⟩
  | cons p l ih =>
    have hl := Binner.getBin_lt F b0 p.1 hne
    have hins : Binner.insert F (fun (d x : Nat) => x + d) b0 p.1 p.2 = .ok
        ⟨b0.bins.set (Binner.getBin F b0 p.1)
            (b0.bins[Binner.getBin F b0 p.1] + p.2), b0.minValue, b0.delta⟩ := by
      simp only [Binner.insert]
      rw [List.getElem?_eq_getElem hl]
    obtain ⟨b', c1, c2⟩ := ih _ (by simpa using hne : (⟨b0.bins.set (Binner.getBin F b0 p.1)
            (b0.bins[Binner.getBin F b0 p.1] + p.2), b0.minValue, b0.delta⟩ : Binner Nat).bins ≠ [])
    refine ⟨b', ?_, ?_⟩
    · obtain ⟨v, d⟩ := p
      simp only [Binner.insertAll, hins, Out.ok_bind, c1]
    · rw [c2]
      have hs : ∀ (xs : List Nat) (i : Nat) (hi : i < xs.length) (d : Nat),
          (xs.set i (xs[i] + d)).sum = xs.sum + d := by
        intro xs
        induction xs with
        | nil => intro i hi; simp at hi
        | cons x xs ihx =>
          intro i hi d
          cases i with
          | zero => simp; omega
          | succ i =>
            simp only [List.set_cons_succ, List.sum_cons, List.getElem_cons_succ]
            rw [ihx i (by simpa using hi) d]; omega
      simp only [hs _ _ hl, List.map_cons, List.sum_cons]
      omega

example : ∃ b, Binner.new .binary32 [0, 0, 0, 0] (.fin 0) (.fin 1) = .ok b ∧ b.bins = [0, 0, 0, 0] :=
  (C24_new _ _ _ _).2 ⟨rfl, rfl, by simp, by simp⟩

/-! ## C25 -/

/-- `bin_with_rank`: the first bin whose cumulative weight (that of the bins up to and including it)
exceeds the rank; the last bin if there is none. For every rank type: integers, `f32` with any
rounding. `i` is uniquely determined by the statement. -/
theorem C25_bin_with_rank {R : Type} (o : Binner.RankOps R) (ext : β → R) (bins : List β) (rank : R)
    (hne : bins ≠ []) (h0 : o.le o.zero rank = true) :
    ∃ i, Binner.binWithRank o ext bins rank = .ok i ∧ i < bins.length ∧
      (∀ j < i, o.le (Spec.cumulative o.zero o.add (bins.map ext) (j + 1)) rank = true) ∧
      (i + 1 < bins.length →
        o.le (Spec.cumulative o.zero o.add (bins.map ext) (i + 1)) rank = false) := by
  obtain ⟨m', e, h1, _, h3, h4, h5⟩ := Binner.rankNext_st o ext bins rank 0 (by omega) hne h0 (by omega)
  refine ⟨m' - 1, ?_, by omega, ?_, ?_⟩
  · unfold Binner.binWithRank
    rw [Binner.rankStart_eq o (bins.map ext), e]; rfl
  · intro j hj; exact h4 (j + 1) (by omega)
  · intro hi
    have : m' - 1 + 1 = m' := by omega
    rw [this] at hi ⊢
    exact h5 hi

example : (Binner.natOps).le (Binner.natOps).zero 3 = true := rfl
example : Binner.binWithRank Binner.natOps id [4, 2, 2, 4] 5 = .ok 1 := rfl
example (F : FP) : (Binner.numOps F).le (Binner.numOps F).zero (.fin (1 / 2)) = true := by
  simp [Binner.numOps]

/-- A rank below zero (or NaN): `next` underflows `bin_index - 1`. -/
theorem C25_negative_rank {R : Type} (o : Binner.RankOps R) (ext : β → R) (bins : List β) (rank : R)
    (h0 : o.le o.zero rank = false) : Binner.binWithRank o ext bins rank = .panic := by
  unfold Binner.binWithRank Binner.rankNext Binner.rankStart
  cases bins with
  | nil => rfl
  | cons x xs => simp [Binner.rankLoop, h0]

/-- Iterating over several non-decreasing ranks gives the same bins as separate queries. -/
theorem C25_rank_iter {R : Type} (o : Binner.RankOps R) (ext : β → R) (bins : List β) (ranks : List R)
    (hne : bins ≠ []) (htrans : ∀ a b c, o.le a b = true → o.le b c = true → o.le a c = true)
    (h0 : ∀ r ∈ ranks, o.le o.zero r = true)
    (hsorted : ranks.Pairwise (fun a b => o.le a b = true)) :
    ∃ l, Binner.rankIter o ext bins ranks (Binner.rankStart o) = .ok l ∧
      l.map Out.ok = ranks.map (Binner.binWithRank o ext bins) := by
  suffices H : ∀ (m : Nat), m ≤ bins.length →
      (∀ r ∈ ranks, ∀ j < m, o.le (Binner.cum o (bins.map ext) j) r = true) →
      ∃ l, Binner.rankIter o ext bins ranks (Binner.st o (bins.map ext) m) = .ok l ∧
        l.map Out.ok = ranks.map (Binner.binWithRank o ext bins) by
    exact H 0 (by omega) (by intro r _ j hj; omega)
  induction ranks with
  | nil => intro m _ _; exact ⟨[], rfl, rfl⟩
  | cons r rs ih =>
    intro m hm hprev
    rw [List.pairwise_cons] at hsorted
    have hr0 := h0 r (by simp)
    obtain ⟨m', e, h1, h2, h3, h4, h5⟩ := Binner.rankNext_st o ext bins r m hm hne hr0
      (hprev r (by simp))
    obtain ⟨m2, e2, k1, k2, k3, k4, k5⟩ := Binner.rankNext_st o ext bins r 0 (by omega) hne hr0 (by omega)
    have hmm : m' = m2 := Binner.stop_unique o r (bins.map ext) (by simpa using h3) (by simpa using k3)
      h4 k4 (by simpa using h5) (by simpa using k5)
    subst hmm
    obtain ⟨l, el, hl⟩ := ih (fun x hx => h0 x (by simp [hx])) hsorted.2 m' h3
      (fun r' hr' j hj => htrans _ _ _ (h4 j hj) (hsorted.1 r' hr'))
    refine ⟨(m' - 1) :: l, ?_, ?_⟩
    · simp only [Binner.rankIter, e, Out.ok_bind, el]; rfl
    · simp only [List.map_cons, hl]
      refine congrArg (· :: _) ?_
      unfold Binner.binWithRank
      rw [Binner.rankStart_eq o (bins.map ext), e2]; rfl

/-- The two rank types of the code satisfy the hypothesis on `<=`. -/
theorem C25_rank_types (F : FP) :
    (∀ a b c, (Binner.natOps).le a b = true → (Binner.natOps).le b c = true →
      (Binner.natOps).le a c = true) ∧
    (∀ a b c, (Binner.numOps F).le a b = true → (Binner.numOps F).le b c = true →
      (Binner.numOps F).le a c = true) := by
  constructor
  · intro a b c h1 h2
    simp [Binner.natOps] at *; omega
  · intro a b c h1 h2
    exact Num.le_trans h1 h2

example : Binner.rankIter Binner.natOps id [4, 2, 2, 4] [0, 3, 4, 11] (Binner.rankStart Binner.natOps)
    = .ok [0, 0, 1, 3] := rfl

/-! ## C26 -/

private theorem count_lt {α : Type} (l : List α) (f : α → Nat) (j : Nat) :
    (l.filter (fun v => f v < j + 1)).length =
      (l.filter (fun v => f v < j)).length + (l.filter (fun v => f v = j)).length := by
  induction l with
  | nil => rfl
  | cons x l ih =>
    rcases Nat.lt_trichotomy (f x) j with h | h | h
    · have h1 : f x < j + 1 := by omega
      have h2 : ¬ f x = j := by omega
      simp [List.filter_cons, h1, h2, h, ih]; omega
    · have h1 : f x < j + 1 := by omega
      have h2 : ¬ f x < j := by omega
      simp [List.filter_cons, h1, h, ih]; omega
    · have h1 : ¬ f x < j + 1 := by omega
      have h2 : ¬ f x = j := by omega
      have h3 : ¬ f x < j := by omega
      simp [List.filter_cons, h1, h2, h3, ih]

private theorem filter_len_le {α : Type} (l : List α) (p q : α → Bool)
    (h : ∀ x ∈ l, p x = true → q x = true) : (l.filter p).length ≤ (l.filter q).length := by
  induction l with
  | nil => simp
  | cons x l ih =>
    have ih' := ih (fun y hy => h y (by simp [hy]))
    have hx := h x (by simp)
    by_cases hp : p x = true
    · simp [hp, hx hp, ih']
    · by_cases hq : q x = true
      · simp [hp, hq]; omega
      · simp [hp, hq, ih']

/-- Count the values into `n` bins, then ask for a rank: the bin that is returned is the bin of the
true order statistic of that rank. For every rounding. -/
theorem C26_bin_of_order_statistic (F : FP) (n : Nat) (lo hi : Num) (b : Binner Nat)
    (hb : Binner.new F (List.replicate n 0) lo hi = .ok b) (vals : List Num)
    (hnan : ∀ v ∈ vals, v ≠ .nan) (rank : Nat) (x : Num) (hx : Spec.IsOrderStat vals rank x) :
    ∃ b', Binner.insertAll F (fun (_ : Unit) c => c + 1) b (vals.map (fun v => (v, ()))) = .ok b' ∧
      Binner.binWithRank Binner.natOps id b'.bins rank = .ok (Binner.getBin F b x) := by
  obtain ⟨b', e1, e2, e3, e4⟩ := C24_contents F (fun (_ : Unit) (c : Nat) => c + 1) _ lo hi b hb
    (vals.map (fun v => (v, ())))
  refine ⟨b', e1, ?_⟩
  have hmono := C24_monotone F _ lo hi b hb
  have hvalid := C24_valid_bin F _ lo hi b hb x
  have hcount : ∀ i, (h : i < n) → b'.bins[i]? =
      some ((vals.filter (fun v => Binner.getBin F b v = i)).length) := by
    intro i hi
    rw [e4 i]
    simp only [List.getElem?_replicate, hi, if_true, Option.map_some, Option.some.injEq,
      List.filter_map]
    have : ∀ (l : List (Num × Unit)) (a : Nat), l.foldl (fun acc _ => acc + 1) a = a + l.length := by
      intro l
      induction l with
      | nil => simp
      | cons y l ih => intro a; simp [ih]; omega
    rw [this]
    simp
    rfl
  simp only [List.length_replicate] at e2 hvalid
  have hcum : ∀ j, j ≤ n → Binner.cum Binner.natOps (b'.bins.map id) j =
      (vals.filter (fun v => Binner.getBin F b v < j)).length := by
    intro j
    induction j with
    | zero => intro _; simp [Binner.cum, Binner.natOps]
    | succ j ih =>
      intro hj
      rw [Binner.cum_succ _ _ (by simp; omega), ih (by omega), count_lt]
      have := hcount j (by omega)
      rw [List.getElem?_eq_getElem (by omega)] at this
      simp only [Option.some.injEq] at this
      simp only [List.map_id, this]
      rfl
  obtain ⟨hxm, hxl, hxg⟩ := hx
  have hxn := hnan x hxm
  have hne : b'.bins ≠ [] := by
    intro h; rw [h] at e2; simp at e2; omega
  obtain ⟨m', e, k1, _, k3, k4, k5⟩ := Binner.rankNext_st Binner.natOps id b'.bins rank 0 (by omega) hne
    (by simp [Binner.natOps]) (by omega)
  have : m' = Binner.getBin F b x + 1 := by
    refine Binner.stop_unique Binner.natOps rank (b'.bins.map id) (by simpa using k3)
      (by simp; omega) k4 ?_ (by simpa using k5) ?_
    · intro j hj
      rw [hcum j (by omega)]
      have := filter_len_le vals (fun v => decide (Binner.getBin F b v < j)) (fun v => v.lt x) (by
        intro v hv hlt
        rw [Num.lt_iff (hnan v hv) hxn]
        intro hle
        have := hmono x v hle
        simp at hlt
        omega)
      simp [Binner.natOps]
      omega
    · intro hj
      simp only [List.length_map] at hj
      rw [hcum _ (by omega)]
      have := filter_len_le vals (fun v => v.le x)
        (fun v => decide (Binner.getBin F b v < Binner.getBin F b x + 1)) (by
        intro v _ hle
        have := hmono v x hle
        simp; omega)
      simp [Binner.natOps]
      omega
  unfold Binner.binWithRank
  rw [Binner.rankStart_eq Binner.natOps (b'.bins.map id), e, this]
  rfl

/-- Exact arithmetic: the representative of the bin found for a rank is within one bin width below
the true order statistic of that rank, for values inside the limits. -/
theorem C26_quantile (n : Nat) (hn : n ≤ 2 ^ 24) (l h : ℚ) (b : Binner Nat)
    (hb : Binner.new .exact (List.replicate n 0) (.fin l) (.fin h) = .ok b) (vals : List ℚ)
    (hin : ∀ v ∈ vals, l ≤ v ∧ v ≤ h) (rank : Nat) (x : ℚ)
    (hx : Spec.IsOrderStat (vals.map Num.fin) rank (.fin x)) :
    ∃ b' i r, Binner.insertAll .exact (fun (_ : Unit) c => c + 1) b
        (vals.map (fun v => (Num.fin v, ()))) = .ok b' ∧
      Binner.binWithRank Binner.natOps id b'.bins rank = .ok i ∧
      Binner.representative .exact b' i = .fin r ∧ r ≤ x ∧ x ≤ r + (h - l) / n := by
  obtain ⟨b', e1, e2⟩ := C26_bin_of_order_statistic .exact n _ _ b hb (vals.map Num.fin)
    (by intro v hv; simp at hv; obtain ⟨q, _, rfl⟩ := hv; simp) rank _ hx
  rw [List.map_map] at e1
  obtain ⟨b'', f1, f2, f3, f4⟩ := C24_contents .exact (fun (_ : Unit) (c : Nat) => c + 1) _ _ _ b hb
    (vals.map (fun v => (Num.fin v, ())))
  have hbb : b'' = b' := by
    have e1' : Binner.insertAll .exact (fun (_ : Unit) c => c + 1) b
        (vals.map (fun v => (Num.fin v, ()))) = .ok b' := e1
    rw [f1] at e1'; injection e1'
  subst hbb
  obtain ⟨l', h', g1, g2, hlt, hne, hbeq⟩ := Binner.new_eq_ok.1 hb
  simp only [Num.fin.injEq] at g1 g2
  subst g1 g2
  obtain ⟨b3, g3, g4, g5, g6, _⟩ := Binner.insertAll_ok .exact (fun (_ : Unit) (c : Nat) => c + 1)
    (vals.map (fun v => (Num.fin v, ()))) b (by rw [hbeq]; exact hne)
  have : b3 = b'' := by rw [f1] at g3; injection g3 with g; exact g.symm
  subst this
  have hn0 : 0 < n := by
    have := List.length_pos_iff.2 hne; simpa using this
  have hnq : (0 : ℚ) < n := by exact_mod_cast hn0
  have hδ : 0 < (h - l) / n := div_pos (by linarith) hnq
  simp only [List.length_replicate] at f2
  have hdelta : b.delta = .fin ((h - l) / n) := by
    rw [hbeq]; simp [FP.exact, FP.div, hnq.ne']
  have hmin : b.minValue = .fin l := by rw [hbeq]
  have hxin : l ≤ x ∧ x ≤ h := by
    obtain ⟨hm, _⟩ := hx
    simp at hm
    exact hin x hm
  have hlen : b.bins.length = n := by rw [hbeq]; simp
  have hbin : Binner.getBin .exact b (.fin x) = Min.min ⌊(x - l) / ((h - l) / n)⌋.toNat (n - 1) := by
    rw [Binner.getBin_eq, hmin, hdelta, FP.sub_fin, hlen]
    have : FP.exact.div (FP.exact.rnd (x - l)) (.fin ((h - l) / n)) = .fin ((x - l) / ((h - l) / n)) := by
      show FP.exact.div (.fin (x - l)) (.fin ((h - l) / n)) = _
      rw [FP.div_fin _ hδ.ne']; rfl
    rw [this, Binner.binOf_fin]
    · exact div_nonneg (by linarith) hδ.le
    · have : (x - l) / ((h - l) / n) ≤ n := by
        rw [div_le_iff₀ hδ]
        have : (n : ℚ) * ((h - l) / n) = h - l := by field_simp
        linarith
      have h2 : (n : ℚ) ≤ 2 ^ 24 := by exact_mod_cast hn
      have h3 : (2 : ℚ) ^ 24 < 2 ^ 63 := by norm_num
      linarith
  refine ⟨b3, _, l + (Binner.getBin .exact b (.fin x) : ℕ) * ((h - l) / n), f1, e2, ?_, ?_, ?_⟩
  · unfold Binner.representative
    rw [g4, g5, hmin, hdelta, f2]
    have hmm : Min.min (Binner.getBin .exact b (.fin x)) (n - 1) = Binner.getBin .exact b (.fin x) := by
      rw [hbin]; omega
    rw [hmm]
    rfl
  · have hf0 : 0 ≤ ⌊(x - l) / ((h - l) / n)⌋ := Int.floor_nonneg.2 (div_nonneg (by linarith) hδ.le)
    have h1 : ((Binner.getBin .exact b (.fin x) : ℕ) : ℤ) ≤ ⌊(x - l) / ((h - l) / n)⌋ := by
      rw [hbin]; omega
    have h2 : ((Binner.getBin .exact b (.fin x) : ℕ) : ℚ) ≤ (x - l) / ((h - l) / n) := by
      have := Int.le_floor.1 h1
      exact_mod_cast this
    rw [le_div_iff₀ hδ] at h2
    linarith
  · have hf0 : 0 ≤ ⌊(x - l) / ((h - l) / n)⌋ := Int.floor_nonneg.2 (div_nonneg (by linarith) hδ.le)
    have h2 : (x - l) / ((h - l) / n) ≤ (Binner.getBin .exact b (.fin x) : ℕ) + 1 := by
      rcases Nat.le_total ⌊(x - l) / ((h - l) / n)⌋.toNat (n - 1) with hc | hc
      · rw [hbin, Nat.min_eq_left hc]
        have := Int.lt_floor_add_one ((x - l) / ((h - l) / n))
        have hcast : ((⌊(x - l) / ((h - l) / n)⌋.toNat : ℕ) : ℚ) = ((⌊(x - l) / ((h - l) / n)⌋ : ℤ) : ℚ) := by
          rw [← Int.cast_natCast (R := ℚ), Int.toNat_of_nonneg hf0]
        rw [hcast]; linarith
      · rw [hbin, Nat.min_eq_right hc]
        rw [div_le_iff₀ hδ]
        have hc2 : ((n - 1 : ℕ) : ℚ) + 1 = n := by
          have : n - 1 + 1 = n := by omega
          exact_mod_cast this
        rw [hc2]
        have : (n : ℚ) * ((h - l) / n) = h - l := by field_simp
        linarith
    rw [div_le_iff₀ hδ] at h2
    linarith

/-- The hypotheses are met: the median of 4 numbers. -/
example : Spec.IsOrderStat ([3, 1, 2, 1].map Num.fin) 2 (.fin 2) ∧
    (∃ b, Binner.new .exact (List.replicate 4 0) (.fin 0) (.fin 4) = .ok b ∧ b.bins = List.replicate 4 0) := by
  refine ⟨⟨by simp, ?_, ?_⟩, (C24_new _ _ _ _).2 ⟨rfl, rfl, by simp, by simp⟩⟩
  · norm_num [Num.lt, List.filter_cons]
  · norm_num [Num.le, List.filter_cons]

end BitBoost.Props
