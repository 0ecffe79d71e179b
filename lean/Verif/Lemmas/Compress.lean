import Verif.Lemmas.Kernels
import Verif.Spec.Lists
/-! Helper lemmas: sums over compressed masks, the merge join of two compressed masks. -/
namespace BitBoost
open Finset

theorem word_zero_bit {bs : Blocks} {k : Nat} (h : Blocks.word 32 bs k = 0#32) {t : Nat}
    (ht : t < 32) : Blocks.bit bs (32 * k + t) = false := by
  rw [← Blocks.getLsbD_word (by omega) (by omega) bs k ht, h]; simp

theorem word_eq_bit {b1 b2 : Blocks} {k i : Nat} (h : Blocks.word 32 b1 k = Blocks.word 32 b2 i)
    {t : Nat} (ht : t < 32) : Blocks.bit b1 (32 * k + t) = Blocks.bit b2 (32 * i + t) := by
  rw [← Blocks.getLsbD_word (by omega) (by omega) b1 k ht, h,
    Blocks.getLsbD_word (by omega) (by omega) b2 i ht]

theorem exampleAt_word (idx : Blocks) (k t : Nat) (ht : t < 32) :
    Spec.exampleAt idx (32 * k + t) = 32 * Spec.indexAt idx k + t := by
  unfold Spec.exampleAt
  have e1 : (32 * k + t) / 32 = k := by omega
  have e2 : (32 * k + t) % 32 = t := by omega
  rw [e1, e2]

/-- A sum over the set positions of a compressed mask is the sum over the set positions of the
mask it represents. -/
theorem compress_sum {m idx full : Blocks} (h : Spec.Compresses m idx full) (F : Nat → Nat) :
    ∑ v ∈ range (m.length * 256), (Blocks.bit m v).toNat * F (Spec.exampleAt idx v) =
      ∑ e ∈ range (full.length * 256), (Blocks.bit full e).toNat * F e := by
  obtain ⟨_, c, hc, hinc, huse, hzero, hall⟩ := h
  have e1 : m.length * 256 = Blocks.blockLen 32 m * 32 := by
    rw [← Blocks.blockLen_mul (w := 32) (by omega) (by omega)]; omega
  have e2 : full.length * 256 = Blocks.blockLen 32 full * 32 := by
    rw [← Blocks.blockLen_mul (w := 32) (by omega) (by omega)]; omega
  rw [e1, e2, sum_range_mul (fun v => (Blocks.bit m v).toNat * F (Spec.exampleAt idx v)),
    sum_range_mul (fun e => (Blocks.bit full e).toNat * F e)]
  let G : Nat → Nat := fun i => ∑ t ∈ range 32, (Blocks.bit full (32 * i + t)).toNat * F (32 * i + t)
  have hl : ∀ k, k < Blocks.blockLen 32 m →
      ∑ t ∈ range 32, (Blocks.bit m (32 * k + t)).toNat * F (Spec.exampleAt idx (32 * k + t)) =
        if k < c then G (Spec.indexAt idx k) else 0 := by
    intro k hk
    by_cases hkc : k < c
    · rw [if_pos hkc]
      apply Finset.sum_congr rfl
      intro t ht
      have ht' := mem_range.mp ht
      rw [exampleAt_word _ _ _ ht', word_eq_bit (huse k hkc).2 ht']
      rfl
    · rw [if_neg hkc]
      apply Finset.sum_eq_zero
      intro t ht
      rw [word_zero_bit (hzero k (by omega) hk) (mem_range.mp ht)]
      simp
  rw [Finset.sum_congr rfl (fun k hk => hl k (mem_range.mp hk)), ← Finset.sum_filter]
  have hf : (range (Blocks.blockLen 32 m)).filter (fun k => k < c) = range c := by
    ext k; simp only [mem_filter, mem_range]; omega
  rw [hf]
  have hinj : ∀ x ∈ range c, ∀ y ∈ range c, Spec.indexAt idx x = Spec.indexAt idx y → x = y := by
    intro x hx y hy hxy
    rw [mem_range] at hx hy
    rcases Nat.lt_trichotomy x y with hlt | heq | hgt
    · have := hinc x y hlt hy; unfold Spec.indexAt at hxy; omega
    · exact heq
    · have := hinc y x hgt hx; unfold Spec.indexAt at hxy; omega
  rw [← Finset.sum_image (f := G) (g := Spec.indexAt idx) (s := range c) hinj]
  apply Finset.sum_subset
  · intro i hi
    simp only [mem_image, mem_range] at hi ⊢
    obtain ⟨k, hk, rfl⟩ := hi
    exact (huse k hk).1
  · intro i hi hni
    apply Finset.sum_eq_zero
    intro t ht
    have hz : Blocks.word 32 full i = 0#32 := by
      by_contra hne
      obtain ⟨k, hk, hke⟩ := hall i (mem_range.mp hi) hne
      exact hni (mem_image.mpr ⟨k, mem_range.mpr hk, hke⟩)
    rw [word_zero_bit hz (mem_range.mp ht)]
    simp

/-- Exactly one word of a compressed mask stands for a given position, if it is set at all. -/
theorem compress_find {m idx full : Blocks} (h : Spec.Compresses m idx full) (i t : Nat)
    (ht : t < 32) :
    ∑ k ∈ range (Blocks.blockLen 32 m),
      (if Spec.indexAt idx k = i then (Blocks.bit m (32 * k + t)).toNat else 0) =
      (Blocks.bit full (32 * i + t)).toNat := by
  have hs := compress_sum h (fun e => if e = 32 * i + t then 1 else 0)
  have hr : ∑ e ∈ range (full.length * 256), (Blocks.bit full e).toNat *
      (if e = 32 * i + t then 1 else 0) = (Blocks.bit full (32 * i + t)).toNat := by
    simp only [mul_ite, mul_one, mul_zero]
    rw [Finset.sum_ite_eq']
    split
    · rfl
    · rename_i hn
      rw [Blocks.bit_of_ge full (by simpa using hn)]; rfl
  rw [hr] at hs
  rw [← hs]
  have e1 : m.length * 256 = Blocks.blockLen 32 m * 32 := by
    rw [← Blocks.blockLen_mul (w := 32) (by omega) (by omega)]; omega
  rw [e1, sum_range_mul (fun v => (Blocks.bit m v).toNat *
    (if Spec.exampleAt idx v = 32 * i + t then 1 else 0))]
  apply Finset.sum_congr rfl
  intro k _
  have hterm : ∀ t' ∈ range 32, (Blocks.bit m (32 * k + t')).toNat *
      (if Spec.exampleAt idx (32 * k + t') = 32 * i + t then 1 else 0) =
      if t' = t then (if Spec.indexAt idx k = i then (Blocks.bit m (32 * k + t)).toNat else 0)
        else 0 := by
    intro t' ht'
    have ht'' := mem_range.mp ht'
    rw [exampleAt_word _ _ _ ht'']
    by_cases h1 : t' = t
    · subst h1
      by_cases h2 : Spec.indexAt idx k = i
      · simp [h2]
      · have : ¬ 32 * Spec.indexAt idx k + t' = 32 * i + t' := by omega
        simp [h2]
    · have : ¬ 32 * Spec.indexAt idx k + t' = 32 * i + t := by omega
      simp [h1, this]
  rw [Finset.sum_congr rfl hterm, Finset.sum_ite_eq']
  simp [ht]

namespace CountSum

/-- Lane counts are added to lane sums. -/
theorem addLanes_spec (block : Nat → Out (BitVec 32)) (g : Nat → BitVec 32) :
    ∀ (sums : List (BitVec 64)) (k : Nat), (∀ j, k ≤ j → j < k + sums.length → block j = .ok (g j)) →
    ∃ r, addLanes block k sums = .ok r ∧ r.length = sums.length ∧
      ∀ j, j < sums.length →
        r.getD j 0#64 = sums.getD j 0#64 + BitVec.ofNat 64 (BitBlock.popcount (g (k + j))) := by
  intro sums
  induction sums with
  | nil => intro k _; exact ⟨[], rfl, rfl, by simp⟩
  | cons s rest ih =>
    intro k hb
    obtain ⟨r, h1, h2, h3⟩ := ih (k + 1) (by
      intro j h1 h2
      exact hb j (by omega) (by simp; omega))
    refine ⟨(s + BitVec.ofNat 64 (BitBlock.popcount (g k))) :: r, ?_, by simp [h2], ?_⟩
    · rw [addLanes, hb k (Nat.le_refl _) (by simp), Out.ok_bind, h1]; rfl
    · intro j hj
      cases j with
      | zero => simp
      | succ j =>
        have := h3 j (by simpa using hj)
        rw [List.getD_cons_succ, List.getD_cons_succ, this]
        congr 4; omega

/-- A compressed vector: increasing indices up to `c`, zero mask words after. -/
structure Sorted (idxs b : Blocks) (c : Nat) : Prop where
  len : Blocks.blockLen 32 b = Blocks.blockLen 32 idxs
  inc : ∀ k l, k < l → l < c → (Blocks.word 32 idxs k).toNat < (Blocks.word 32 idxs l).toNat
  zero : ∀ k, c ≤ k → k < Blocks.blockLen 32 idxs → Blocks.word 32 b k = 0#32

/-- The masked block of a pair of words. -/
def gblock (slice : Option (Nat × Blocks)) (b1 b2 : Blocks) (i1 i2 lane : Nat) : BitVec 32 :=
  match slice with
  | none => Blocks.word 32 b1 i1 &&& Blocks.word 32 b2 i2
  | some (w, sl) =>
      Blocks.word 32 sl (BitSlice.lanePos w i1 lane) &&&
        (Blocks.word 32 b1 i1 &&& Blocks.word 32 b2 i2)

/-- Contribution of a pair of words to a lane. -/
def contrib (slice : Option (Nat × Blocks)) (idxs1 b1 idxs2 b2 : Blocks) (lane i1 i2 : Nat) : Nat :=
  if Blocks.word 32 idxs1 i1 = Blocks.word 32 idxs2 i2 then
    BitBlock.popcount (gblock slice b1 b2 i1 i2 lane) else 0

theorem gblock_zero (slice : Option (Nat × Blocks)) (b1 b2 : Blocks) (i1 i2 lane : Nat)
    (h : Blocks.word 32 b1 i1 = 0#32 ∨ Blocks.word 32 b2 i2 = 0#32) :
    BitBlock.popcount (gblock slice b1 b2 i1 i2 lane) = 0 := by
  have hz : Blocks.word 32 b1 i1 &&& Blocks.word 32 b2 i2 = 0#32 := by
    rcases h with h | h <;> rw [h] <;> simp
  unfold gblock
  rcases slice with _ | ⟨w, sl⟩
  · simp only [hz]; exact BitBlock.popcount_zero
  · simp only [hz, BitVec.and_zero]; exact BitBlock.popcount_zero

theorem sum_row_zero {slice : Option (Nat × Blocks)} {idxs1 b1 idxs2 b2 : Blocks} {c1 c2 : Nat}
    (h1 : Sorted idxs1 b1 c1) (h2 : Sorted idxs2 b2 c2) {i1 i2 lane : Nat}
    (hi1 : i1 < Blocks.blockLen 32 idxs1)
    (hlt : (Blocks.word 32 idxs1 i1).toNat < (Blocks.word 32 idxs2 i2).toNat) :
    ∑ k ∈ Ico i2 (Blocks.blockLen 32 idxs2), contrib slice idxs1 b1 idxs2 b2 lane i1 k = 0 := by
  apply Finset.sum_eq_zero
  intro k hk
  rw [mem_Ico] at hk
  unfold contrib
  split
  · rename_i he
    apply gblock_zero
    by_cases hc1 : c1 ≤ i1
    · exact Or.inl (h1.zero i1 hc1 hi1)
    · by_cases hc2 : c2 ≤ k
      · exact Or.inr (h2.zero k hc2 hk.2)
      · exfalso
        rw [he] at hlt
        rcases Nat.lt_or_ge i2 k with h | h
        · have := h2.inc i2 k h (by omega); omega
        · have : k = i2 := by omega
          subst this; omega
  · rfl

theorem sum_col_zero {slice : Option (Nat × Blocks)} {idxs1 b1 idxs2 b2 : Blocks} {c1 c2 : Nat}
    (h1 : Sorted idxs1 b1 c1) (h2 : Sorted idxs2 b2 c2) {i1 i2 lane : Nat}
    (hi2 : i2 < Blocks.blockLen 32 idxs2)
    (hlt : (Blocks.word 32 idxs2 i2).toNat < (Blocks.word 32 idxs1 i1).toNat) :
    ∑ k ∈ Ico i1 (Blocks.blockLen 32 idxs1), contrib slice idxs1 b1 idxs2 b2 lane k i2 = 0 := by
  apply Finset.sum_eq_zero
  intro k hk
  rw [mem_Ico] at hk
  unfold contrib
  split
  · rename_i he
    apply gblock_zero
    by_cases hc2 : c2 ≤ i2
    · exact Or.inr (h2.zero i2 hc2 hi2)
    · by_cases hc1 : c1 ≤ k
      · exact Or.inl (h1.zero k hc1 hk.2)
      · exfalso
        rw [← he] at hlt
        rcases Nat.lt_or_ge i1 k with h | h
        · have := h1.inc i1 k h (by omega); omega
        · have : k = i1 := by omega
          subst this; omega
  · rfl

/-- All pairs from `(i1, i2)` on. -/
def pairs (slice : Option (Nat × Blocks)) (idxs1 b1 idxs2 b2 : Blocks) (lane i1 i2 : Nat) : Nat :=
  ∑ k1 ∈ Ico i1 (Blocks.blockLen 32 idxs1), ∑ k2 ∈ Ico i2 (Blocks.blockLen 32 idxs2),
    contrib slice idxs1 b1 idxs2 b2 lane k1 k2

theorem c11Loop_spec {slice : Option (Nat × Blocks)} {idxs1 b1 idxs2 b2 : Blocks} {c1 c2 width : Nat}
    (h1 : Sorted idxs1 b1 c1) (h2 : Sorted idxs2 b2 c2)
    (hs : ∀ w sl, slice = some (w, sl) → ∀ i lane, i < Blocks.blockLen 32 idxs1 → lane < width →
      BitSlice.lanePos w i lane < Blocks.blockLen 32 sl) :
    ∀ (n i1 i2 : Nat) (sums : List (BitVec 64)),
      (Blocks.blockLen 32 idxs1 - i1) + (Blocks.blockLen 32 idxs2 - i2) = n →
      sums.length = width →
      ∃ r, c11Loop slice idxs1 b1 idxs2 b2 i1 i2 sums = .ok r ∧ r.length = width ∧
        ∀ lane, lane < width → r.getD lane 0#64 = sums.getD lane 0#64 +
          BitVec.ofNat 64 (pairs slice idxs1 b1 idxs2 b2 lane i1 i2) := by
  intro n
  induction n using Nat.strongRecOn with
  | ind n ih =>
    intro i1 i2 sums hn hw
    rw [c11Loop]
    by_cases hlt : i1 < Blocks.blockLen 32 idxs1 ∧ i2 < Blocks.blockLen 32 idxs2
    · rw [dif_pos hlt]
      obtain ⟨l1, l2⟩ := hlt
      have g1 : Blocks.getUnchecked 32 idxs1 i1 = .ok (Blocks.word 32 idxs1 i1) := by
        rw [Blocks.getUnchecked, if_pos l1]
      have g2 : Blocks.getUnchecked 32 idxs2 i2 = .ok (Blocks.word 32 idxs2 i2) := by
        rw [Blocks.getUnchecked, if_pos l2]
      have g3 : Blocks.getUnchecked 32 b1 i1 = .ok (Blocks.word 32 b1 i1) := by
        rw [Blocks.getUnchecked, if_pos (by rw [h1.len]; exact l1)]
      have g4 : Blocks.getUnchecked 32 b2 i2 = .ok (Blocks.word 32 b2 i2) := by
        rw [Blocks.getUnchecked, if_pos (by rw [h2.len]; exact l2)]
      rw [g1, Out.ok_bind, g2, Out.ok_bind]
      by_cases c1' : (Blocks.word 32 idxs1 i1).toNat < (Blocks.word 32 idxs2 i2).toNat
      · rw [if_pos c1']
        obtain ⟨r, e1, e2, e3⟩ := ih _ (by omega) (i1 + 1) i2 sums rfl hw
        refine ⟨r, e1, e2, ?_⟩
        intro lane hl
        rw [e3 lane hl]
        have : pairs slice idxs1 b1 idxs2 b2 lane i1 i2 =
            pairs slice idxs1 b1 idxs2 b2 lane (i1 + 1) i2 := by
          unfold pairs
          rw [Finset.sum_eq_sum_Ico_succ_bot l1, sum_row_zero h1 h2 l1 c1', Nat.zero_add]
        rw [this]
      · rw [if_neg c1']
        by_cases c2' : (Blocks.word 32 idxs1 i1).toNat > (Blocks.word 32 idxs2 i2).toNat
        · rw [if_pos c2']
          obtain ⟨r, e1, e2, e3⟩ := ih _ (by omega) i1 (i2 + 1) sums rfl hw
          refine ⟨r, e1, e2, ?_⟩
          intro lane hl
          rw [e3 lane hl]
          have : pairs slice idxs1 b1 idxs2 b2 lane i1 i2 =
              pairs slice idxs1 b1 idxs2 b2 lane i1 (i2 + 1) := by
            unfold pairs
            rw [Finset.sum_comm, Finset.sum_eq_sum_Ico_succ_bot l2, sum_col_zero h1 h2 l2 c2',
              Nat.zero_add, Finset.sum_comm]
          rw [this]
        · rw [if_neg c2', g3, Out.ok_bind, g4, Out.ok_bind]
          have heq : Blocks.word 32 idxs1 i1 = Blocks.word 32 idxs2 i2 :=
            BitVec.eq_of_toNat_eq (by omega)
          obtain ⟨sums', a1, a2, a3⟩ := addLanes_spec
            (maskedBlock slice (Blocks.word 32 b1 i1 &&& Blocks.word 32 b2 i2) i1)
            (gblock slice b1 b2 i1 i2) sums 0 (by
              intro j _ hj
              unfold gblock maskedBlock
              clear ih
              rcases slice with _ | ⟨w, sl⟩
              · rfl
              · simp only
                rw [BitSlice.getBlockUnchecked, Blocks.getUnchecked,
                  if_pos (hs w sl rfl i1 j l1 (by omega))]
                rfl)
          obtain ⟨r, e1, e2, e3⟩ := ih _ (by omega) (i1 + 1) (i2 + 1) sums' rfl (by omega)
          refine ⟨r, ?_, e2, ?_⟩
          · rw [a1, Out.ok_bind, e1]
          · intro lane hl
            rw [e3 lane hl, a3 lane (by omega), Nat.zero_add, BitVec.add_assoc, ← BitVec.ofNat_add]
            have : pairs slice idxs1 b1 idxs2 b2 lane i1 i2 =
                BitBlock.popcount (gblock slice b1 b2 i1 i2 lane) +
                  pairs slice idxs1 b1 idxs2 b2 lane (i1 + 1) (i2 + 1) := by
              have hrow : ∑ k ∈ Ico (i2 + 1) (Blocks.blockLen 32 idxs2),
                  contrib slice idxs1 b1 idxs2 b2 lane i1 k = 0 := by
                apply Finset.sum_eq_zero
                intro k hk
                rw [mem_Ico] at hk
                unfold contrib
                split
                · rename_i he
                  apply gblock_zero
                  by_cases hc2 : c2 ≤ k
                  · exact Or.inr (h2.zero k hc2 hk.2)
                  · exfalso
                    have := h2.inc i2 k (by omega) (by omega)
                    rw [← heq, he] at this
                    omega
                · rfl
              have hcol : ∑ k ∈ Ico (i1 + 1) (Blocks.blockLen 32 idxs1),
                  contrib slice idxs1 b1 idxs2 b2 lane k i2 = 0 := by
                apply Finset.sum_eq_zero
                intro k hk
                rw [mem_Ico] at hk
                unfold contrib
                split
                · rename_i he
                  apply gblock_zero
                  by_cases hc1 : c1 ≤ k
                  · exact Or.inl (h1.zero k hc1 hk.2)
                  · exfalso
                    have := h1.inc i1 k (by omega) (by omega)
                    rw [heq, ← he] at this
                    omega
                · rfl
              unfold pairs
              rw [Finset.sum_eq_sum_Ico_succ_bot l1, Finset.sum_eq_sum_Ico_succ_bot l2, hrow,
                Nat.add_zero]
              congr 1
              · unfold contrib; rw [if_pos heq]
              · rw [Finset.sum_comm, Finset.sum_eq_sum_Ico_succ_bot l2, hcol, Nat.zero_add,
                  Finset.sum_comm]
            rw [this]
    · rw [dif_neg hlt]
      refine ⟨sums, rfl, hw, ?_⟩
      intro lane _
      have : pairs slice idxs1 b1 idxs2 b2 lane i1 i2 = 0 := by
        unfold pairs
        by_cases hc : i1 < Blocks.blockLen 32 idxs1
        · have : Ico i2 (Blocks.blockLen 32 idxs2) = ∅ := Finset.Ico_eq_empty (by omega)
          rw [this]; simp
        · rw [Finset.Ico_eq_empty (by omega)]; simp
      rw [this]; simp

theorem weigh_spec : ∀ (sums : List (BitVec 64)) (k : Nat) (S : Nat → Nat),
    (∀ j, j < sums.length → sums.getD j 0#64 = BitVec.ofNat 64 (S j)) →
    weigh k sums = BitVec.ofNat 64 (∑ j ∈ range sums.length, 2 ^ (k + j) * S j) := by
  intro sums
  induction sums with
  | nil => intro k S _; simp [weigh]
  | cons s rest ih =>
    intro k S h
    rw [weigh, ih (k + 1) (fun j => S (j + 1)) (by
      intro j hj
      have := h (j + 1) (by simpa using hj)
      rwa [List.getD_cons_succ] at this)]
    have h0 := h 0 (by simp)
    rw [List.getD_cons_zero] at h0
    rw [h0, ← BitVec.ofNat_mul, ← BitVec.ofNat_add, List.length_cons, Finset.sum_range_succ']
    refine congrArg (BitVec.ofNat 64) ?_
    rw [Nat.add_comm]
    congr 1
    apply Finset.sum_congr rfl
    intro j _
    congr 2
    omega

theorem c11_spec {slice : Option (Nat × Blocks)} {idxs1 b1 idxs2 b2 : Blocks} {c1 c2 width : Nat}
    (h1 : Sorted idxs1 b1 c1) (h2 : Sorted idxs2 b2 c2)
    (hs : ∀ w sl, slice = some (w, sl) → ∀ i lane, i < Blocks.blockLen 32 idxs1 → lane < width →
      BitSlice.lanePos w i lane < Blocks.blockLen 32 sl) :
    c11 width slice idxs1 b1 idxs2 b2 = .ok (BitVec.ofNat 64
      (∑ lane ∈ range width, 2 ^ lane * pairs slice idxs1 b1 idxs2 b2 lane 0 0)) := by
  obtain ⟨r, e1, e2, e3⟩ := c11Loop_spec h1 h2 hs _ 0 0 (List.replicate width 0#64) rfl (by simp)
  unfold c11
  have a1 : (Blocks.blockLen 32 idxs1 == Blocks.blockLen 32 b1) = true := by
    rw [h1.len]; simp
  have a2 : (Blocks.blockLen 32 idxs2 == Blocks.blockLen 32 b2) = true := by
    rw [h2.len]; simp
  rw [a1, Out.assert_true, Out.ok_bind, a2, Out.assert_true, Out.ok_bind, e1, Out.ok_bind,
    Out.pure_eq, weigh_spec r 0 (fun lane => pairs slice idxs1 b1 idxs2 b2 lane 0 0) (by
      intro j hj
      rw [e3 j (by omega)]
      have : (List.replicate width 0#64).getD j 0#64 = 0#64 := by
        rw [List.getD_eq_getElem?_getD]
        cases hh : (List.replicate width 0#64)[j]? with
        | none => rfl
        | some x =>
          have := List.mem_of_getElem? hh
          rw [List.mem_replicate] at this
          simp [this.2]
      rw [this]; simp), e2]
  simp

end CountSum
end BitBoost
