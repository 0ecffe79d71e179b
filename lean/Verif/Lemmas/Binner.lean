import Verif.Model.Binner
import Verif.Lemmas.Num
/-! # Lemmas on the binner -/
namespace BitBoost
namespace Binner
variable {β : Type}

theorem new_eq_ok {F : FP} {bins : List β} {lo hi : Num} {b : Binner β} :
    new F bins lo hi = .ok b ↔ ∃ l h : ℚ, lo = .fin l ∧ hi = .fin h ∧ l < h ∧ bins ≠ [] ∧
      b = ⟨bins, .fin l, F.div (F.rnd (h - l)) (F.rnd bins.length)⟩ := by
  unfold new
  cases lo with
  | fin l =>
    cases hi with
    | fin h =>
      simp only [Num.isFinite_fin, Out.assert_true, Out.ok_bind]
      by_cases hlt : l < h
      · simp only [Num.lt, hlt, decide_true, Out.assert_true, Out.ok_bind]
        cases bins with
        | nil => simp
        | cons x xs =>
          simp only [List.isEmpty_cons, Bool.not_false, Out.assert_true, Out.ok_bind, F.sub_fin, FP.ofNat]
          constructor
          · intro h'
            refine ⟨l, h, rfl, rfl, hlt, by simp, ?_⟩
            simpa using h'.symm
          · rintro ⟨l', h', e1, e2, _, _, rfl⟩
            simp at e1 e2
            subst e1 e2
            rfl
      · simp [Num.lt, hlt]
    | pinf => simp [Num.isFinite]
    | ninf => simp [Num.isFinite]
    | nan => simp [Num.isFinite]
  | pinf => simp [Num.isFinite]
  | ninf => simp [Num.isFinite]
  | nan => simp [Num.isFinite]

/-- The bin index as a function of the quotient. -/
def binOf (n : Nat) (x : Num) : Nat := Min.min (Max.max x.floor.toIsize 0).toNat (n - 1)

theorem getBin_eq (F : FP) (b : Binner β) (v : Num) :
    getBin F b v = binOf b.bins.length (F.div (F.sub v b.minValue) b.delta) := rfl

theorem getBin_lt (F : FP) (b : Binner β) (v : Num) (h : b.bins ≠ []) :
    getBin F b v < b.bins.length := by
  have : 0 < b.bins.length := List.length_pos_iff.2 h
  rw [getBin_eq]; unfold binOf
  omega

theorem binOf_mono (n : Nat) {x y : Num} (h : x.le y = true) : binOf n x ≤ binOf n y := by
  have := Num.cast_mono (lo := -2 ^ 63) (hi := 2 ^ 63 - 1) (by norm_num) (Num.floor_mono h)
  unfold binOf Num.toIsize
  omega

@[simp] theorem binOf_nan (n : Nat) : binOf n .nan = 0 := by
  simp [binOf, Num.floor, Num.toIsize, Num.cast]
@[simp] theorem binOf_ninf (n : Nat) : binOf n .ninf = 0 := by
  simp [binOf, Num.floor, Num.toIsize, Num.cast]
@[simp] theorem binOf_zero (n : Nat) : binOf n (.fin 0) = 0 := by
  have := Num.trunc_int 0
  simp at this
  simp [binOf, Num.floor, Num.toIsize, Num.cast, this]

theorem binOf_le_pinf (n : Nat) (x : Num) : binOf n x ≤ binOf n .pinf := by
  by_cases h : x = .nan
  · subst h; simp
  · exact binOf_mono n (Num.le_pinf h)

/-- The widths that `new` can compute. -/
def WidthOk (d : Num) : Prop := d = .nan ∨ d = .pinf ∨ ∃ q, d = .fin q ∧ 0 ≤ q

theorem rnd_cases (F : FP) {q : ℚ} (h : 0 ≤ q) : F.rnd q = .pinf ∨ ∃ r, F.rnd q = .fin r ∧ 0 ≤ r := by
  have := F.rnd_nonneg h
  cases hr : F.rnd q with
  | fin r => rw [hr] at this; exact Or.inr ⟨r, rfl, by simpa using this⟩
  | pinf => exact Or.inl rfl
  | ninf => rw [hr] at this; simp [Num.le] at this
  | nan => exact absurd hr (F.rnd_ne_nan q)

theorem width_ok (F : FP) {l h : ℚ} (n : Nat) (hlh : l < h) :
    WidthOk (F.div (F.rnd (h - l)) (F.rnd n)) := by
  have hn : 0 ≤ (n : ℚ) := by positivity
  rcases rnd_cases F (q := h - l) (by linarith) with hd | ⟨d, hd, hd0⟩ <;>
    rcases rnd_cases F hn with hm | ⟨m, hm, hm0⟩ <;> rw [hd, hm]
  · exact Or.inl rfl
  · have : ¬ m < 0 := not_lt.2 hm0
    exact Or.inr (Or.inl (by simp [FP.div, this]))
  · exact Or.inr (Or.inr ⟨0, rfl, le_rfl⟩)
  · by_cases h0 : m = 0
    · by_cases hdz : 0 < d
      · simp [FP.div, h0, FP.sgn, hdz, FP.infOf, WidthOk]
      · have hdn : ¬ d < 0 := not_lt.2 hd0
        simp [FP.div, h0, FP.sgn, hdz, hdn, FP.infOf, WidthOk]
    · rw [F.div_fin h0]
      rcases rnd_cases F (q := d / m) (by positivity) with hq | ⟨q, hq, hq0⟩
      · exact Or.inr (Or.inl hq)
      · exact Or.inr (Or.inr ⟨q, hq, hq0⟩)

theorem getBin_mono (F : FP) (b : Binner β) {l : ℚ} (hl : b.minValue = .fin l) (hd : WidthOk b.delta)
    {v v' : Num} (h : v.le v' = true) : getBin F b v ≤ getBin F b v' := by
  rw [getBin_eq, getBin_eq, hl]
  have hs := F.sub_mono l h
  have hx := Num.ne_nan_of_le_left hs
  have hy := Num.ne_nan_of_le_right hs
  generalize F.sub v (.fin l) = x at *
  generalize F.sub v' (.fin l) = y at *
  rcases hd with hd | hd | ⟨q, hd, hq⟩ <;> rw [hd]
  · cases x <;> simp [FP.div]
  · cases x <;> simp [FP.div]
  · rcases hq.lt_or_eq with hq | rfl
    · exact binOf_mono _ (F.div_mono hq hs)
    · cases x with
      | nan => exact absurd rfl hx
      | ninf => simp [FP.div]
      | pinf => cases y <;> simp [Num.le] at hs; exact le_rfl
      | fin a =>
        simp only [FP.div, if_true, FP.sgn, FP.infOf]
        by_cases ha : 0 < a
        · cases y with
          | fin c =>
            have : a ≤ c := by simpa using hs
            have hc : 0 < c := by linarith
            simp [ha, hc, FP.div, FP.sgn, FP.infOf]
          | pinf => simp [ha, FP.div]
          | ninf => simp [Num.le] at hs
          | nan => exact absurd rfl hy
        · by_cases ha' : a < 0 <;> simp [ha, ha']

theorem getBin_min (F : FP) (b : Binner β) {l : ℚ} (hl : b.minValue = .fin l) (hd : WidthOk b.delta) :
    getBin F b (.fin l) = 0 := by
  rw [getBin_eq, hl, F.sub_fin, sub_self, F.rnd_zero]
  rcases hd with hd | hd | ⟨q, hd, hq⟩ <;> rw [hd]
  · simp [FP.div]
  · simp [FP.div]
  · by_cases h0 : q = 0
    · simp [FP.div, h0, FP.sgn, FP.infOf]
    · rw [F.div_fin h0, zero_div, F.rnd_zero]; simp

theorem binOf_fin {n : Nat} {q : ℚ} (h0 : 0 ≤ q) (h63 : q < 2 ^ 63) :
    binOf n (.fin q) = Min.min ⌊q⌋.toNat (n - 1) := by
  have hf : 0 ≤ ⌊q⌋ := Int.floor_nonneg.2 h0
  have hf2 : ⌊q⌋ < 2 ^ 63 := Int.floor_lt.2 (by push_cast; exact h63)
  simp only [binOf, Num.floor, Num.toIsize, Num.cast, Num.trunc_int]
  omega

theorem le_binOf {n : Nat} {x : Num} (hn : n ≤ 2 ^ 24) (h : (Num.fin (n - 1 : ℕ)).le x = true) :
    binOf n x = n - 1 := by
  have h1 := binOf_mono n h
  have h2 : binOf n (.fin (n - 1 : ℕ)) = n - 1 := by
    rw [binOf_fin (by positivity)]
    · have : ⌊((n - 1 : ℕ) : ℚ)⌋ = ((n - 1 : ℕ) : ℤ) := Int.floor_natCast _
      rw [this]; omega
    · have : ((n - 1 : ℕ) : ℚ) ≤ 2 ^ 24 := by
        have : n - 1 ≤ 2 ^ 24 := by omega
        exact_mod_cast this
      have : (2 : ℚ) ^ 24 < 2 ^ 63 := by norm_num
      linarith
  have h3 : binOf n x ≤ n - 1 := by unfold binOf; omega
  omega

/-! ## Contents -/

theorem insert_ok {δ : Type} (F : FP) (comb : δ → β → β) (b : Binner β) (hne : b.bins ≠ []) (v : Num)
    (d : δ) : ∃ b', insert F comb b v d = .ok b' ∧ b'.minValue = b.minValue ∧ b'.delta = b.delta ∧
      b'.bins.length = b.bins.length ∧
      ∀ i, b'.bins[i]? = (b.bins[i]?).map (fun x => if getBin F b v = i then comb d x else x) := by
  have hlt := getBin_lt F b v hne
  simp only [insert]
  rw [List.getElem?_eq_getElem hlt]
  refine ⟨_, rfl, rfl, rfl, by simp, ?_⟩
  intro i
  simp only [List.getElem?_set]
  by_cases h : getBin F b v = i
  · subst h
    simp [hlt]
  · simp [h]

theorem getBin_congr (F : FP) {b b' : Binner β} (h1 : b'.minValue = b.minValue)
    (h2 : b'.delta = b.delta) (h3 : b'.bins.length = b.bins.length) (v : Num) :
    getBin F b' v = getBin F b v := by
  unfold getBin; rw [h1, h2, h3]

theorem insertAll_ok {δ : Type} (F : FP) (comb : δ → β → β) (l : List (Num × δ)) :
    ∀ (b : Binner β), b.bins ≠ [] → ∃ b', insertAll F comb b l = .ok b' ∧ b'.minValue = b.minValue ∧
      b'.delta = b.delta ∧ b'.bins.length = b.bins.length ∧
      ∀ i, b'.bins[i]? = (b.bins[i]?).map
        (fun x => (l.filter (fun p => getBin F b p.1 = i)).foldl (fun acc p => comb p.2 acc) x) := by
  induction l with
  | nil => intro b _; exact ⟨b, rfl, rfl, rfl, rfl, by simp⟩
  | cons p l ih =>
    intro b hne
    obtain ⟨b1, e1, m1, d1, l1, c1⟩ := insert_ok F comb b hne p.1 p.2
    have hne1 : b1.bins ≠ [] := by
      intro h; rw [h] at l1; simp at l1; exact hne (List.length_eq_zero_iff.1 l1.symm)
    obtain ⟨b2, e2, m2, d2, l2, c2⟩ := ih b1 hne1
    refine ⟨b2, ?_, by rw [m2, m1], by rw [d2, d1], by rw [l2, l1], ?_⟩
    · obtain ⟨v, d⟩ := p
      simp only [insertAll, e1, Out.ok_bind, e2]
    · intro i
      rw [c2, c1, Option.map_map]
      congr 1
      funext x
      simp only [Function.comp, getBin_congr F m1 d1 l1]
      by_cases h : getBin F b p.1 = i
      · simp [h]
      · simp [h]

/-! ## Ranks -/

/-- Accumulated rank before bin `j`. -/
def cum {R : Type} (o : RankOps R) (xs : List R) (j : Nat) : R := (xs.take j).foldl o.add o.zero

/-- The state of the iterator after consuming `m` bins. -/
def st {R : Type} (o : RankOps R) (xs : List R) (m : Nat) : RankState R :=
  ⟨cum o xs m, cum o xs (m - 1), m⟩

theorem cum_succ {R : Type} (o : RankOps R) (xs : List R) {j : Nat} (h : j < xs.length) :
    cum o xs (j + 1) = o.add (cum o xs j) xs[j] := by
  unfold cum
  rw [List.take_succ_eq_append_getElem h, List.foldl_append]
  rfl

theorem rankLoop_st {R : Type} (o : RankOps R) (rank : R) (xs : List R) (k : Nat) :
    ∀ m, m + k = xs.length → ∃ m', rankLoop o rank (xs.drop m) (st o xs m) = st o xs m' ∧ m ≤ m' ∧
      m' ≤ xs.length ∧ (∀ j, m ≤ j → j < m' → o.le (cum o xs j) rank = true) ∧
      (m' < xs.length → o.le (cum o xs m') rank = false) := by
  induction k with
  | zero =>
    intro m hm
    refine ⟨m, ?_, le_rfl, by omega, by omega, by omega⟩
    rw [List.drop_eq_nil_of_le (by omega)]
    rfl
  | succ k ih =>
    intro m hm
    have hlt : m < xs.length := by omega
    rw [List.drop_eq_getElem_cons hlt]
    unfold rankLoop
    by_cases hle : o.le (cum o xs m) rank = true
    · obtain ⟨m', e, h1, h2, h3, h4⟩ := ih (m + 1) (by omega)
      refine ⟨m', ?_, by omega, h2, ?_, h4⟩
      · have : (st o xs m).accum = cum o xs m := rfl
        rw [this, if_pos hle, ← e]
        unfold st
        rw [cum_succ o xs hlt]
        rfl
      · intro j hj1 hj2
        rcases Nat.lt_or_ge m j with hj | hj
        · exact h3 j hj hj2
        · have : j = m := by omega
          rw [this]; exact hle
    · refine ⟨m, ?_, le_rfl, by omega, by omega, fun _ => by simpa using hle⟩
      have : (st o xs m).accum = cum o xs m := rfl
      rw [this, if_neg hle]

theorem stop_unique {R : Type} (o : RankOps R) (rank : R) (xs : List R) {a b : Nat}
    (ha : a ≤ xs.length) (hb : b ≤ xs.length)
    (ha1 : ∀ j < a, o.le (cum o xs j) rank = true) (hb1 : ∀ j < b, o.le (cum o xs j) rank = true)
    (ha2 : a < xs.length → o.le (cum o xs a) rank = false)
    (hb2 : b < xs.length → o.le (cum o xs b) rank = false) : a = b := by
  rcases Nat.lt_trichotomy a b with h | h | h
  · rw [hb1 a h] at ha2; exact absurd (ha2 (by omega)) (by simp)
  · exact h
  · rw [ha1 b h] at hb2; exact absurd (hb2 (by omega)) (by simp)

/-- What one `next` does from the state after `m` bins. -/
theorem rankNext_st {R : Type} (o : RankOps R) (ext : β → R) (bins : List β) (rank : R) (m : Nat)
    (hm : m ≤ bins.length) (hne : bins ≠ []) (h0 : o.le o.zero rank = true)
    (hprev : ∀ j < m, o.le (cum o (bins.map ext) j) rank = true) :
    ∃ m', rankNext o ext bins (st o (bins.map ext) m) rank = .ok (m' - 1, st o (bins.map ext) m') ∧
      1 ≤ m' ∧ m ≤ m' ∧ m' ≤ bins.length ∧ (∀ j < m', o.le (cum o (bins.map ext) j) rank = true) ∧
      (m' < bins.length → o.le (cum o (bins.map ext) m') rank = false) := by
  have hlen : 0 < bins.length := List.length_pos_iff.2 hne
  obtain ⟨m', e, h1, h2, h3, h4⟩ := rankLoop_st o rank (bins.map ext) (bins.length - m) m
    (by simp; omega)
  simp only [List.length_map] at h2 h4
  have hall : ∀ j < m', o.le (cum o (bins.map ext) j) rank = true := fun j hj => by
    rcases Nat.lt_or_ge j m with h | h
    · exact hprev j h
    · exact h3 j h hj
  have hpos : 1 ≤ m' := by
    rcases Nat.eq_zero_or_pos m' with h | h
    · subst h
      have := h4 hlen
      rw [show cum o (bins.map ext) 0 = o.zero from rfl, h0] at this
      simp at this
    · exact h
  refine ⟨m', ?_, hpos, h1, h2, hall, h4⟩
  unfold rankNext
  have : (st o (bins.map ext) m).binIndex = m := rfl
  rw [this, List.map_drop, e]
  have : (st o (bins.map ext) m').binIndex = m' := rfl
  simp only [this]
  rw [if_neg (by omega)]

theorem rankStart_eq {R : Type} (o : RankOps R) (xs : List R) : rankStart o = st o xs 0 := rfl

end Binner
end BitBoost
