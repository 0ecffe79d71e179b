import Verif.Lemmas.Simd
import Mathlib.Tactic.IntervalCases
/-! Helper lemmas: what the load functions load, and the exact value of the kernels. -/
namespace BitBoost
open Finset
namespace Simd

theorem sum_P (lw lane : Nat) (v : M256) :
    P lw lane v = ∑ k ∈ range lw, (v.getLsbD (lw * lane + k)).toNat := by
  unfold P; rw [BitBlock.popcount_word]

/-- Regrouping of a weighted sum over the 256 bits of the loaded blocks into a sum over values:
the blocks hold bit `k` of value `s*j+q` at position `k*s+q`. -/
theorem regroup (w s n : Nat) (hs : w * s = 256) (x : Nat → M256) (val sel : Nat → Nat)
    (sb : Nat → Nat → Nat)
    (hx : ∀ j, j < n → ∀ k, k < w → ∀ q, q < s →
      ((x j).getLsbD (s * k + q)).toNat = sb (s * j + q) k * sel (s * j + q))
    (hval : ∀ v, v < n * s → val v = ∑ k ∈ range w, 2 ^ k * sb v k) :
    ∑ j ∈ range n, ∑ p ∈ range 256, 2 ^ (p / s) * ((x j).getLsbD p).toNat =
      ∑ v ∈ range (n * s), val v * sel v := by
  have hs0 : 0 < s := by
    rcases Nat.eq_zero_or_pos s with h | h
    · subst h; omega
    · exact h
  rw [sum_range_mul (fun v => val v * sel v)]
  apply Finset.sum_congr rfl
  intro j hj
  have hj' := mem_range.mp hj
  have hsp := sum_range_mul (fun p => 2 ^ (p / s) * ((x j).getLsbD p).toNat) w s
  rw [hs] at hsp
  rw [hsp, Finset.sum_comm]
  apply Finset.sum_congr rfl
  intro q hq
  have hq' := mem_range.mp hq
  have hlt : s * j + q < n * s := by
    calc s * j + q < s * j + s := by omega
      _ = (j + 1) * s := by ring
      _ ≤ n * s := Nat.mul_le_mul_right _ hj'
  rw [hval _ hlt, Finset.sum_mul]
  apply Finset.sum_congr rfl
  intro k hk
  have hk' := mem_range.mp hk
  rw [hx j hj' k hk' q hq', Nat.mul_add_div hs0, Nat.div_eq_of_lt hq', Nat.add_zero]
  ring

/-- Weighted lane sums are weighted bit sums if the weight of a lane is the weight of its bits. -/
theorem lanes_to_bits (lw m s : Nat) (hm : m * lw = 256) (ws : List Nat) (v : M256)
    (hw : ∀ lane, lane < m → ∀ k, k < lw → ws.getD lane 0 = 2 ^ ((lw * lane + k) / s)) :
    ∑ lane ∈ range m, ws.getD lane 0 * P lw lane v =
      ∑ p ∈ range 256, 2 ^ (p / s) * (v.getLsbD p).toNat := by
  have hsp := sum_range_mul (fun p => 2 ^ (p / s) * (v.getLsbD p).toNat) m lw
  rw [hm] at hsp
  rw [hsp]
  apply Finset.sum_congr rfl
  intro lane hl
  rw [sum_P, Finset.mul_sum]
  apply Finset.sum_congr rfl
  intro k hk
  rw [hw lane (mem_range.mp hl) k (mem_range.mp hk)]

theorem hs64_spec {load : Nat → Out M256} {d : Nat → M256} {n s : Nat} (ws : List Nat)
    (hload : ∀ j, j < n → load j = .ok (d j))
    (hw : ∀ lane, lane < 4 → ∀ k, k < 64 → ws.getD lane 0 = 2 ^ ((64 * lane + k) / s)) :
    hs64 load n ws = .ok (BitVec.ofNat 64
      (∑ j ∈ range n, ∑ p ∈ range 256, 2 ^ (p / s) * ((d j).getLsbD p).toNat)) := by
  obtain ⟨t, h1, h2⟩ := harleySeal_spec (lw := 64) (alw := 64) (by omega) (by omega) (Or.inl rfl)
    hload
  unfold hs64
  rw [h1, Out.ok_bind, Out.pure_eq]
  refine congrArg Out.ok ?_
  rw [reduce64_spec ws t (fun lane => ∑ j ∈ range n, P 64 lane (d j)) h2]
  refine congrArg (BitVec.ofNat 64) ?_
  simp only [Finset.mul_sum]
  rw [Finset.sum_comm]
  apply Finset.sum_congr rfl
  intro j _
  exact lanes_to_bits 64 4 s (by omega) ws (d j) hw

theorem hs32_gen {alw : Nat} {load : Nat → Out M256} {d : Nat → M256} {n s : Nat} (ws : List Nat)
    (hc : 32 = alw ∨ (32 = 32 ∧ alw = 64 ∧ n < 2 ^ 31)) (hn : n < 2 ^ 27)
    (hload : ∀ j, j < n → load j = .ok (d j))
    (hw : ∀ lane, lane < 8 → ∀ k, k < 32 → ws.getD lane 0 = 2 ^ ((32 * lane + k) / s)) :
    (do let total ← harleySeal 32 alw load n; return reduce32 ws total) = .ok (BitVec.ofNat 64
      (∑ j ∈ range n, ∑ p ∈ range 256, 2 ^ (p / s) * ((d j).getLsbD p).toNat)) := by
  obtain ⟨t, h1, h2⟩ := harleySeal_spec (lw := 32) (alw := alw) (by omega) (by omega) hc hload
  rw [h1, Out.ok_bind, Out.pure_eq]
  refine congrArg Out.ok ?_
  rw [reduce32_spec ws t (fun lane => ∑ j ∈ range n, P 32 lane (d j)) h2]
  refine congrArg (BitVec.ofNat 64) ?_
  have hlt : ∀ lane, (∑ j ∈ range n, P 32 lane (d j)) % 2 ^ 32 = ∑ j ∈ range n, P 32 lane (d j) := by
    intro lane
    apply Nat.mod_eq_of_lt
    have := sum_P_le 32 lane d n
    omega
  simp only [hlt]
  simp only [Finset.mul_sum]
  rw [Finset.sum_comm]
  apply Finset.sum_congr rfl
  intro j _
  exact lanes_to_bits 32 8 s (by omega) ws (d j) hw

/-! ### Raw loads -/

theorem getU {w : Nat} (bs : Blocks) {i : Nat} (h : i < bs.length * (256 / w)) :
    Blocks.getUnchecked w bs i = .ok (Blocks.word w bs i) := by
  unfold Blocks.getUnchecked Blocks.blockLen
  rw [if_pos h]

theorem getLsbD_word256 (bs : Blocks) (i p : Nat) (hp : p < 256) :
    (Blocks.word 256 bs i).getLsbD p = Blocks.bit bs (256 * i + p) :=
  Blocks.getLsbD_word (by omega) (by omega) _ _ hp

theorem dup32_bit (m : BitVec 32) (p : Nat) (hp : p < 64) :
    (dup32 m).getLsbD p = m.getLsbD (p % 32) := by
  unfold dup32
  rw [BitVec.getLsbD_or, BitVec.getLsbD_shiftLeft, BitVec.getLsbD_setWidth, BitVec.getLsbD_setWidth]
  by_cases h : p < 32
  · have : p % 32 = p := by omega
    simp [h, this, hp]
  · have h1 : p % 32 = p - 32 := by omega
    have h2 : m.getLsbD p = false := BitVec.getLsbD_of_ge _ _ (by omega)
    have h3 : p - 32 < 64 := by omega
    simp [h, h1, h2, hp, h3]

theorem set1_bit (x : BitVec 64) (p : Nat) (hp : p < 256) :
    (set1Epi64 x).getLsbD p = x.getLsbD (p % 64) :=
  getLsbD_ofWords (by omega) (by omega) _ _ hp

theorem setM128_bit (x : BitVec 128) (p : Nat) (hp : p < 256) :
    (setM128 x).getLsbD p = x.getLsbD (p % 128) :=
  getLsbD_ofWords (by omega) (by omega) _ _ hp

/-- What one lane of a gather reads. -/
theorem gatherLane_ok (base : Blocks) (idx : BitVec 32) (h : idx.toNat < Blocks.blockLen 32 base)
    (h31 : idx.toNat < 2 ^ 31) : gatherLane base idx = .ok (Blocks.word 32 base idx.toNat) := by
  unfold gatherLane
  rw [if_neg, Blocks.getUnchecked, if_pos h]
  rw [BitVec.toInt_eq_toNat_cond]
  split <;> omega

theorem gatherLoop_spec (base : Blocks) (idx : Nat → BitVec 32) :
    ∀ (k i : Nat) (acc : M256), i + k ≤ 8 →
    (∀ j, i ≤ j → j < i + k → (idx j).toNat < Blocks.blockLen 32 base ∧ (idx j).toNat < 2 ^ 31) →
    ∃ r, gatherLoop base idx k i acc = .ok r ∧ ∀ p, p < 256 → r.getLsbD p =
      if 32 * i ≤ p ∧ p < 32 * (i + k) then
        Blocks.bit base (32 * (idx (p / 32)).toNat + p % 32) else acc.getLsbD p := by
  intro k
  induction k with
  | zero =>
    intro i acc _ _
    refine ⟨acc, rfl, ?_⟩
    intro p _
    rw [if_neg (by omega)]
  | succ k ih =>
    intro i acc hle hidx
    obtain ⟨h1, h2⟩ := hidx i (Nat.le_refl _) (by omega)
    obtain ⟨r, h3, h4⟩ := ih (i + 1) (BitBlock.setWord 32 acc i (Blocks.word 32 base (idx i).toNat))
      (by omega) (fun j a b => hidx j (by omega) (by omega))
    refine ⟨r, ?_, ?_⟩
    · rw [gatherLoop, gatherLane_ok _ _ h1 h2, Out.ok_bind, h3]
    · intro p hp
      rw [h4 p hp]
      by_cases hc : 32 * (i + 1) ≤ p ∧ p < 32 * (i + 1 + k)
      · rw [if_pos hc, if_pos (by omega)]
      · rw [if_neg hc, BitBlock.getLsbD_setWord _ _ _ _ _ hp (by omega)]
        by_cases hc2 : 32 * i ≤ p ∧ p < 32 * i + 32
        · have e : p / 32 = i := by omega
          have e2 : p - 32 * i = p % 32 := by omega
          rw [if_pos hc2, if_pos (by omega), Blocks.getLsbD_word (by omega) (by omega) _ _ (by omega),
            e, e2]
        · rw [if_neg hc2, if_neg (by omega)]

/-- Indices that may be gathered: in range of the base vector, and not negative as `i32`. -/
def IdxOk (idxs base : Blocks) : Prop :=
  ∀ k, k < Blocks.blockLen 32 idxs →
    (Blocks.word 32 idxs k).toNat < Blocks.blockLen 32 base ∧ (Blocks.word 32 idxs k).toNat < 2 ^ 31

theorem word32_of_word256 (bs : Blocks) (i l : Nat) (hl : l < 8) :
    BitBlock.word 32 (Blocks.word 256 bs i) l = Blocks.word 32 bs (8 * i + l) := by
  apply BitVec.eq_of_getLsbD_eq
  intro k hk
  rw [BitBlock.getLsbD_word, Blocks.getLsbD_word (by omega) (by omega) _ _ hk,
    getLsbD_word256 _ _ _ (by omega)]
  have : 256 * i + (32 * l + k) = 32 * (8 * i + l) + k := by omega
  rw [this]; simp [hk]

theorem word32_of_word128 (bs : Blocks) (i l : Nat) (hl : l < 4) :
    (Blocks.word 128 bs i).extractLsb' (32 * l) 32 = Blocks.word 32 bs (4 * i + l) := by
  apply BitVec.eq_of_getLsbD_eq
  intro k hk
  rw [BitVec.getLsbD_extractLsb', Blocks.getLsbD_word (by omega) (by omega) _ _ hk,
    Blocks.getLsbD_word (by omega) (by omega) _ _ (by omega)]
  have : 128 * i + (32 * l + k) = 32 * (4 * i + l) + k := by omega
  rw [this]; simp [hk]

theorem gather256_spec (base idxs : Blocks) (i : Nat) (hi : i < idxs.length) (h : IdxOk idxs base) :
    ∃ r, gather256 base (Blocks.word 256 idxs i) = .ok r ∧ ∀ p, p < 256 → r.getLsbD p =
      Blocks.bit base (Spec.exampleAt idxs (256 * i + p)) := by
  have hb : Blocks.blockLen 32 idxs = idxs.length * 8 := rfl
  obtain ⟨r, h1, h2⟩ := gatherLoop_spec base (fun l => BitBlock.word 32 (Blocks.word 256 idxs i) l)
    8 0 0#256 (by omega) (by
      intro j _ hj
      rw [word32_of_word256 _ _ _ (by omega)]
      exact h _ (by omega))
  refine ⟨r, h1, ?_⟩
  intro p hp
  rw [h2 p hp, if_pos (by omega), word32_of_word256 _ _ _ (by omega)]
  unfold Spec.exampleAt Spec.indexAt
  have e1 : (256 * i + p) / 32 = 8 * i + p / 32 := by omega
  have e2 : (256 * i + p) % 32 = p % 32 := by omega
  rw [e1, e2]

theorem gather128_spec (base idxs : Blocks) (i : Nat) (hi : i < idxs.length * 2)
    (h : IdxOk idxs base) :
    ∃ r, gather128 base (Blocks.word 128 idxs i) = .ok r ∧ ∀ p, p < 128 → r.getLsbD p =
      Blocks.bit base (Spec.exampleAt idxs (128 * i + p)) := by
  have hb : Blocks.blockLen 32 idxs = idxs.length * 8 := rfl
  obtain ⟨r, h1, h2⟩ := gatherLoop_spec base
    (fun l => (Blocks.word 128 idxs i).extractLsb' (32 * l) 32)
    4 0 0#256 (by omega) (by
      intro j _ hj
      rw [word32_of_word128 _ _ _ (by omega)]
      exact h _ (by omega))
  refine ⟨BitBlock.word 128 r 0, ?_, ?_⟩
  · unfold gather128
    rw [h1]; rfl
  intro p hp
  rw [BitBlock.getLsbD_word]
  have e0 : 128 * 0 + p = p := by omega
  rw [e0, h2 p (by omega), if_pos (by omega), word32_of_word128 _ _ _ (by omega)]
  unfold Spec.exampleAt Spec.indexAt
  have e1 : (128 * i + p) / 32 = 4 * i + p / 32 := by omega
  have e2 : (128 * i + p) % 32 = p % 32 := by omega
  rw [e1, e2]
  simp [hp]

/-! ### The load functions, bit by bit -/

theorem loadAnd_spec (v1 v2 : Blocks) (j : Nat) (h1 : j < v1.length) (h2 : j < v2.length) :
    ∃ x, loadAnd v1 v2 j = .ok x ∧ ∀ p, p < 256 →
      x.getLsbD p = (Blocks.bit v1 (256 * j + p) && Blocks.bit v2 (256 * j + p)) := by
  unfold loadAnd
  rw [getU v1 (by omega), Out.ok_bind, getU v2 (by omega), Out.ok_bind]
  refine ⟨_, rfl, ?_⟩
  intro p hp
  rw [BitVec.getLsbD_and, getLsbD_word256 _ _ _ hp, getLsbD_word256 _ _ _ hp]

theorem loadAndC_spec (v1 idxs v2 : Blocks) (j : Nat) (h1 : j < v1.length) (h2 : j < idxs.length)
    (hi : IdxOk idxs v2) :
    ∃ x, loadAndC v1 idxs v2 j = .ok x ∧ ∀ p, p < 256 →
      x.getLsbD p =
        (Blocks.bit v1 (256 * j + p) && Blocks.bit v2 (Spec.exampleAt idxs (256 * j + p))) := by
  obtain ⟨r, g1, g2⟩ := gather256_spec v2 idxs j h2 hi
  unfold loadAndC
  rw [getU v1 (by omega), Out.ok_bind, getU idxs (by omega), Out.ok_bind, g1, Out.ok_bind]
  refine ⟨_, rfl, ?_⟩
  intro p hp
  rw [BitVec.getLsbD_and, getLsbD_word256 _ _ _ hp, g2 p hp]

/-- The uncompressed load function of width `w`. -/
def loadUc (w : Nat) (slice nm fm : Blocks) (i : Nat) : Out M256 :=
  if w = 2 then loadW2uc slice nm fm i
  else if w = 4 then loadW4uc slice nm fm i
  else if w = 8 then loadW8uc slice nm fm i
  else loadW1uc slice nm fm i

/-- The compressed load function of width `w`. -/
def loadC (w : Nat) (slice idxs nm fm : Blocks) (i : Nat) : Out M256 :=
  if w = 2 then loadW2c slice idxs nm fm i
  else if w = 4 then loadW4c slice idxs nm fm i
  else if w = 8 then loadW8c slice idxs nm fm i
  else loadW1c slice idxs nm fm i

theorem loadUc_spec {w : Nat} (hw : validWidth w) (slice nm fm : Blocks) (j : Nat)
    (h1 : j < slice.length) (h2 : j < nm.length * w) (h3 : j < fm.length * w) :
    ∃ x, loadUc w slice nm fm j = .ok x ∧ ∀ k, k < w → ∀ q, q < 256 / w →
      x.getLsbD ((256 / w) * k + q) = (Blocks.bit slice (256 * j + ((256 / w) * k + q)) &&
        (Blocks.bit nm ((256 / w) * j + q) && Blocks.bit fm ((256 / w) * j + q))) := by
  unfold loadUc
  rcases hw with rfl | rfl | rfl | rfl
  · simp only [show ¬ (1 = 2) by omega, show ¬ (1 = 4) by omega, show ¬ (1 = 8) by omega, if_false]
    unfold loadW1uc
    rw [getU slice (by omega), Out.ok_bind, getU nm (by omega), Out.ok_bind, getU fm (by omega),
      Out.ok_bind]
    refine ⟨_, rfl, ?_⟩
    intro k hk q hq
    have : k = 0 := by omega
    subst this
    rw [BitVec.getLsbD_and, BitVec.getLsbD_and, getLsbD_word256 _ _ _ (by omega),
      getLsbD_word256 _ _ _ (by omega), getLsbD_word256 _ _ _ (by omega)]
    simp
  · simp only [if_true]
    unfold loadW2uc
    rw [getU slice (by omega), Out.ok_bind, getU nm (by omega), Out.ok_bind, getU fm (by omega),
      Out.ok_bind]
    refine ⟨_, rfl, ?_⟩
    intro k hk q hq
    have e : (256 / 2 * k + q) % 128 = q := by omega
    rw [BitVec.getLsbD_and, getLsbD_word256 _ _ _ (by omega), setM128_bit _ _ (by omega), e,
      BitVec.getLsbD_and, Blocks.getLsbD_word (by omega) (by omega) _ _ (by omega),
      Blocks.getLsbD_word (by omega) (by omega) _ _ (by omega)]
  · simp only [show ¬ (4 = 2) by omega, if_true, if_false]
    unfold loadW4uc
    rw [getU slice (by omega), Out.ok_bind, getU nm (by omega), Out.ok_bind, getU fm (by omega),
      Out.ok_bind]
    refine ⟨_, rfl, ?_⟩
    intro k hk q hq
    have e : (256 / 4 * k + q) % 64 = q := by omega
    rw [BitVec.getLsbD_and, getLsbD_word256 _ _ _ (by omega), set1_bit _ _ (by omega), e,
      BitVec.getLsbD_and, Blocks.getLsbD_word (by omega) (by omega) _ _ (by omega),
      Blocks.getLsbD_word (by omega) (by omega) _ _ (by omega)]
  · simp only [show ¬ (8 = 2) by omega, show ¬ (8 = 4) by omega, if_true, if_false]
    unfold loadW8uc
    rw [getU slice (by omega), Out.ok_bind, getU nm (by omega), Out.ok_bind, getU fm (by omega),
      Out.ok_bind]
    refine ⟨_, rfl, ?_⟩
    intro k hk q hq
    have e : (256 / 8 * k + q) % 64 % 32 = q := by omega
    rw [BitVec.getLsbD_and, getLsbD_word256 _ _ _ (by omega), set1_bit _ _ (by omega),
      dup32_bit _ _ (by omega), e,
      BitVec.getLsbD_and, Blocks.getLsbD_word (by omega) (by omega) _ _ (by omega),
      Blocks.getLsbD_word (by omega) (by omega) _ _ (by omega)]

theorem or_shift32_bit (m1 m2 : BitVec 32) (q : Nat) (hq : q < 64) :
    (m1.setWidth 64 ||| (m2.setWidth 64 <<< 32)).getLsbD q =
      if q < 32 then m1.getLsbD q else m2.getLsbD (q - 32) := by
  rw [BitVec.getLsbD_or, BitVec.getLsbD_shiftLeft, BitVec.getLsbD_setWidth, BitVec.getLsbD_setWidth]
  by_cases h : q < 32
  · simp [h, hq]
  · have h2 : m1.getLsbD q = false := BitVec.getLsbD_of_ge _ _ (by omega)
    have h3 : q - 32 < 64 := by omega
    simp [h, h2, hq, h3]

theorem loadC_spec {w : Nat} (hw : validWidth w) (slice idxs nm fm : Blocks) (j : Nat)
    (h1 : j < slice.length) (h2 : j < nm.length * w) (h3 : j < idxs.length * w)
    (hi : IdxOk idxs fm) :
    ∃ x, loadC w slice idxs nm fm j = .ok x ∧ ∀ k, k < w → ∀ q, q < 256 / w →
      x.getLsbD ((256 / w) * k + q) = (Blocks.bit slice (256 * j + ((256 / w) * k + q)) &&
        (Blocks.bit nm ((256 / w) * j + q) &&
          Blocks.bit fm (Spec.exampleAt idxs ((256 / w) * j + q)))) := by
  have hb : Blocks.blockLen 32 idxs = idxs.length * 8 := rfl
  have hbf : Blocks.blockLen 32 fm = fm.length * (256 / 32) := rfl
  unfold loadC
  rcases hw with rfl | rfl | rfl | rfl
  · simp only [show ¬ (1 = 2) by omega, show ¬ (1 = 4) by omega, show ¬ (1 = 8) by omega, if_false]
    obtain ⟨r, g1, g2⟩ := gather256_spec fm idxs j (by omega) hi
    unfold loadW1c
    rw [getU slice (by omega), Out.ok_bind, getU idxs (by omega), Out.ok_bind, getU nm (by omega),
      Out.ok_bind, g1, Out.ok_bind]
    refine ⟨_, rfl, ?_⟩
    intro k hk q hq
    have : k = 0 := by omega
    subst this
    rw [BitVec.getLsbD_and, BitVec.getLsbD_and, getLsbD_word256 _ _ _ (by omega),
      getLsbD_word256 _ _ _ (by omega), g2 _ (by omega)]
    simp
  · simp only [if_true]
    obtain ⟨r, g1, g2⟩ := gather128_spec fm idxs j (by omega) hi
    unfold loadW2c
    rw [getU slice (by omega), Out.ok_bind, getU idxs (by omega), Out.ok_bind, getU nm (by omega),
      Out.ok_bind, g1, Out.ok_bind]
    refine ⟨_, rfl, ?_⟩
    intro k hk q hq
    have e : (256 / 2 * k + q) % 128 = q := by omega
    rw [BitVec.getLsbD_and, getLsbD_word256 _ _ _ (by omega), setM128_bit _ _ (by omega), e,
      BitVec.getLsbD_and, Blocks.getLsbD_word (by omega) (by omega) _ _ (by omega), g2 _ (by omega)]
  · simp only [show ¬ (4 = 2) by omega, if_true, if_false]
    obtain ⟨i1, _⟩ := hi (2 * j) (by omega)
    obtain ⟨i2, _⟩ := hi (2 * j + 1) (by omega)
    unfold loadW4c
    rw [getU slice (by omega), Out.ok_bind, getU idxs (by omega), Out.ok_bind, getU idxs (by omega),
      Out.ok_bind, getU nm (by omega), Out.ok_bind, getU fm (by omega), Out.ok_bind,
      getU fm (by omega), Out.ok_bind]
    refine ⟨_, rfl, ?_⟩
    intro k hk q hq
    have e : (256 / 4 * k + q) % 64 = q := by omega
    rw [BitVec.getLsbD_and, getLsbD_word256 _ _ _ (by omega), set1_bit _ _ (by omega), e,
      BitVec.getLsbD_and, Blocks.getLsbD_word (by omega) (by omega) _ _ (by omega),
      or_shift32_bit _ _ _ (by omega)]
    congr 2
    unfold Spec.exampleAt Spec.indexAt
    by_cases hq32 : q < 32
    · have e1 : (256 / 4 * j + q) / 32 = 2 * j := by omega
      have e2 : (256 / 4 * j + q) % 32 = q := by omega
      rw [if_pos hq32, e1, e2, Blocks.getLsbD_word (by omega) (by omega) _ _ (by omega)]
    · have e1 : (256 / 4 * j + q) / 32 = 2 * j + 1 := by omega
      have e2 : (256 / 4 * j + q) % 32 = q - 32 := by omega
      rw [if_neg hq32, e1, e2, Blocks.getLsbD_word (by omega) (by omega) _ _ (by omega)]
  · simp only [show ¬ (8 = 2) by omega, show ¬ (8 = 4) by omega, if_true, if_false]
    obtain ⟨i1, _⟩ := hi j (by omega)
    unfold loadW8c
    rw [getU slice (by omega), Out.ok_bind, getU idxs (by omega), Out.ok_bind, getU nm (by omega),
      Out.ok_bind, getU fm (by omega), Out.ok_bind]
    refine ⟨_, rfl, ?_⟩
    intro k hk q hq
    have e : (256 / 8 * k + q) % 64 % 32 = q := by omega
    have e1 : (256 / 8 * j + q) / 32 = j := by omega
    have e2 : (256 / 8 * j + q) % 32 = q := by omega
    rw [BitVec.getLsbD_and, getLsbD_word256 _ _ _ (by omega), set1_bit _ _ (by omega),
      dup32_bit _ _ (by omega), e,
      BitVec.getLsbD_and, Blocks.getLsbD_word (by omega) (by omega) _ _ (by omega),
      Blocks.getLsbD_word (by omega) (by omega) _ _ (by omega)]
    unfold Spec.exampleAt Spec.indexAt
    rw [e1, e2]

/-! ### Kernel values -/

theorem bool_toNat_and (a b : Bool) : (a && b).toNat = a.toNat * b.toNat := by
  cases a <;> cases b <;> rfl

theorem fpos_block {w : Nat} (hw : validWidth w) (j k q : Nat) (hq : q < 256 / w) :
    BitSlice.fpos w ((256 / w) * j + q) k = 256 * j + ((256 / w) * k + q) := by
  unfold BitSlice.fpos
  rcases hw with rfl | rfl | rfl | rfl <;> omega

/-- The common shape of all masked-sum kernels. -/
theorem masked_total {w : Nat} (hw : validWidth w) (slice : Blocks) (x : Nat → M256)
    (sel : Nat → Bool)
    (hx : ∀ j, j < slice.length → ∀ k, k < w → ∀ q, q < 256 / w →
      (x j).getLsbD ((256 / w) * k + q) =
        (Blocks.bit slice (256 * j + ((256 / w) * k + q)) && sel ((256 / w) * j + q))) :
    ∑ j ∈ range slice.length, ∑ p ∈ range 256, 2 ^ (p / (256 / w)) * ((x j).getLsbD p).toNat =
      ∑ v ∈ range (Spec.slots w slice), Spec.valueAt w slice v * (sel v).toNat := by
  unfold Spec.slots
  apply regroup w (256 / w) slice.length
    (by rcases hw with rfl | rfl | rfl | rfl <;> rfl) x (Spec.valueAt w slice)
    (fun v => (sel v).toNat) (fun v k => (Blocks.bit slice (BitSlice.fpos w v k)).toNat)
  · intro j hj k hk q hq
    rw [hx j hj k hk q hq, bool_toNat_and, fpos_block hw j k q hq]
  · intro v hv
    exact BitSlice.valueAt_eq hw slice v hv

theorem weights1_ok : ∀ lane, lane < 4 → ∀ k, k < 64 →
    weights1.getD lane 0 = 2 ^ ((64 * lane + k) / 256) := by
  intro lane hl k hk
  have : (64 * lane + k) / 256 = 0 := by omega
  rw [this]
  interval_cases lane <;> rfl

theorem weights2_ok : ∀ lane, lane < 4 → ∀ k, k < 64 →
    weights2.getD lane 0 = 2 ^ ((64 * lane + k) / 128) := by
  intro lane hl k hk
  have h : (64 * lane + k) / 128 = lane / 2 := by omega
  rw [h]
  interval_cases lane <;> rfl

theorem weights4_ok : ∀ lane, lane < 4 → ∀ k, k < 64 →
    weights4.getD lane 0 = 2 ^ ((64 * lane + k) / 64) := by
  intro lane hl k hk
  have h : (64 * lane + k) / 64 = lane := by omega
  rw [h]
  interval_cases lane <;> rfl

theorem weights8_ok : ∀ lane, lane < 8 → ∀ k, k < 32 →
    weights8.getD lane 0 = 2 ^ ((32 * lane + k) / 32) := by
  intro lane hl k hk
  have h : (32 * lane + k) / 32 = lane := by omega
  rw [h]
  interval_cases lane <;> rfl

theorem choose_loads {n : Nat} {load : Nat → Out M256} {R : Nat → M256 → Prop}
    (h : ∀ j, j < n → ∃ x, load j = .ok x ∧ R j x) :
    ∃ d : Nat → M256, (∀ j, j < n → load j = .ok (d j)) ∧ ∀ j, j < n → R j (d j) := by
  classical
  refine ⟨fun j => if hj : j < n then (h j hj).choose else 0#256, ?_, ?_⟩
  · intro j hj
    simp only [hj, dif_pos]
    exact (h j hj).choose_spec.1
  · intro j hj
    simp only [hj, dif_pos]
    exact (h j hj).choose_spec.2

/-- The value bound: `slots * 255` values fit in 64 bits. -/
theorem masked_lt {w : Nat} (slice : Blocks) (hn : slice.length < 2 ^ 48)
    (sel : Nat → Bool) :
    ∑ v ∈ range (Spec.slots w slice), Spec.valueAt w slice v * (sel v).toNat < 2 ^ 64 := by
  have hv : ∀ v, Spec.valueAt w slice v * (sel v).toNat ≤ 255 := by
    intro v
    have h1 : Spec.valueAt w slice v ≤ 255 := by
      unfold Spec.valueAt
      split
      · rename_i x _
        have := x.isLt
        omega
      · omega
    cases sel v <;> (simp; try omega)
  have hs := Finset.sum_le_card_nsmul (range (Spec.slots w slice))
    (fun v => Spec.valueAt w slice v * (sel v).toNat) 255 (fun v _ => hv v)
  have hle : Spec.slots w slice ≤ slice.length * 256 := by
    unfold Spec.slots
    exact Nat.mul_le_mul_left _ (Nat.div_le_self _ _)
  rw [card_range] at hs
  change _ ≤ Spec.slots w slice * 255 at hs
  omega

end Simd
end BitBoost
