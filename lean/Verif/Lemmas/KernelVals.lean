import Verif.Lemmas.Compress
/-! Helper lemmas: exact values of the public kernels. -/
namespace BitBoost
open Finset
namespace Simd

/-- Blocks at width 8 must stay below `2^27` (the 32-bit lane counters). -/
def small (w : Nat) (slice : Blocks) : Prop := w = 8 → slice.length < 2 ^ 27

/-- Shape shared by all masked-sum kernels, for an arbitrary load function. -/
theorem sum_shape {w : Nat} (hw : validWidth w) (slice : Blocks) (hsm : small w slice)
    (load : Nat → Out M256) (sel : Nat → Bool) (k32 : (Nat → Out M256) → Nat → List Nat → Out (BitVec 64))
    (hk : k32 = hs32Simd ∨ k32 = hs32)
    (h : ∀ j, j < slice.length → ∃ x, load j = .ok x ∧ ∀ k, k < w → ∀ q, q < 256 / w →
      x.getLsbD ((256 / w) * k + q) =
        (Blocks.bit slice (256 * j + ((256 / w) * k + q)) && sel ((256 / w) * j + q))) :
    (if w = 2 then hs64 load slice.length weights2
     else if w = 4 then hs64 load slice.length weights4
     else if w = 8 then k32 load slice.length weights8
     else hs64 load slice.length weights1) =
    .ok (BitVec.ofNat 64
      (∑ v ∈ range (Spec.slots w slice), Spec.valueAt w slice v * (sel v).toNat)) := by
  obtain ⟨d, h1, h2⟩ := choose_loads h
  rw [← masked_total hw slice d sel h2]
  rcases hw with rfl | rfl | rfl | rfl
  · simp only [show ¬ (1 = 2) by omega, show ¬ (1 = 4) by omega, show ¬ (1 = 8) by omega, if_false]
    exact hs64_spec _ h1 weights1_ok
  · simp only [if_true]
    exact hs64_spec _ h1 weights2_ok
  · simp only [show ¬ (4 = 2) by omega, if_true, if_false]
    exact hs64_spec _ h1 weights4_ok
  · simp only [show ¬ (8 = 2) by omega, show ¬ (8 = 4) by omega, if_true, if_false]
    have hn := hsm rfl
    rcases hk with rfl | rfl
    · exact hs32_gen weights8 (Or.inr ⟨rfl, rfl, by omega⟩) hn h1 weights8_ok
    · exact hs32_gen weights8 (Or.inl rfl) hn h1 weights8_ok

theorem uc_unfold (w : Nat) (slice nm fm : Blocks)
    (k32 : (Nat → Out M256) → Nat → List Nat → Out (BitVec 64)) :
    (if w = 2 then hs64 (loadW2uc slice nm fm) slice.length weights2
     else if w = 4 then hs64 (loadW4uc slice nm fm) slice.length weights4
     else if w = 8 then k32 (loadW8uc slice nm fm) slice.length weights8
     else hs64 (loadW1uc slice nm fm) slice.length weights1) =
    (if w = 2 then hs64 (loadUc w slice nm fm) slice.length weights2
     else if w = 4 then hs64 (loadUc w slice nm fm) slice.length weights4
     else if w = 8 then k32 (loadUc w slice nm fm) slice.length weights8
     else hs64 (loadUc w slice nm fm) slice.length weights1) := by
  by_cases h2 : w = 2
  · subst h2; rfl
  · by_cases h4 : w = 4
    · subst h4; rfl
    · by_cases h8 : w = 8
      · subst h8; rfl
      · have : loadUc w slice nm fm = loadW1uc slice nm fm := by
          funext i; unfold loadUc; simp [h2, h4, h8]
        rw [this]; simp only [h2, h4, h8, if_false]

theorem c_unfold (w : Nat) (slice idxs nm fm : Blocks)
    (k32 : (Nat → Out M256) → Nat → List Nat → Out (BitVec 64)) :
    (if w = 2 then hs64 (loadW2c slice idxs nm fm) slice.length weights2
     else if w = 4 then hs64 (loadW4c slice idxs nm fm) slice.length weights4
     else if w = 8 then k32 (loadW8c slice idxs nm fm) slice.length weights8
     else hs64 (loadW1c slice idxs nm fm) slice.length weights1) =
    (if w = 2 then hs64 (loadC w slice idxs nm fm) slice.length weights2
     else if w = 4 then hs64 (loadC w slice idxs nm fm) slice.length weights4
     else if w = 8 then k32 (loadC w slice idxs nm fm) slice.length weights8
     else hs64 (loadC w slice idxs nm fm) slice.length weights1) := by
  by_cases h2 : w = 2
  · subst h2; rfl
  · by_cases h4 : w = 4
    · subst h4; rfl
    · by_cases h8 : w = 8
      · subst h8; rfl
      · have : loadC w slice idxs nm fm = loadW1c slice idxs nm fm := by
          funext i; unfold loadC; simp [h2, h4, h8]
        rw [this]; simp only [h2, h4, h8, if_false]

theorem kernel_uc {w : Nat} (hw : validWidth w) (slice nm fm : Blocks) (hsm : small w slice)
    (h2 : slice.length ≤ nm.length * w) (h3 : slice.length ≤ fm.length * w) :
    btslceSummUc w slice nm fm = .ok (BitVec.ofNat 64
      (∑ v ∈ range (Spec.slots w slice), Spec.valueAt w slice v *
        (Blocks.bit nm v && Blocks.bit fm v).toNat)) ∧
    CountSum.sumAnd3C00 w slice nm fm = .ok (BitVec.ofNat 64
      (∑ v ∈ range (Spec.slots w slice), Spec.valueAt w slice v *
        (Blocks.bit nm v && Blocks.bit fm v).toNat)) := by
  constructor
  · unfold btslceSummUc
    rw [uc_unfold]
    exact sum_shape hw slice hsm _ (fun v => Blocks.bit nm v && Blocks.bit fm v) _ (Or.inl rfl)
      fun j hj => loadUc_spec hw slice nm fm j hj (by omega) (by omega)
  · unfold CountSum.sumAnd3C00
    rw [uc_unfold]
    exact sum_shape hw slice hsm _ (fun v => Blocks.bit nm v && Blocks.bit fm v) _ (Or.inr rfl)
      fun j hj => loadUc_spec hw slice nm fm j hj (by omega) (by omega)

theorem kernel_c {w : Nat} (hw : validWidth w) (slice idxs nm fm : Blocks) (hsm : small w slice)
    (h2 : slice.length ≤ nm.length * w) (h3 : slice.length ≤ idxs.length * w) (hi : IdxOk idxs fm) :
    btslceSummC w slice idxs nm fm = .ok (BitVec.ofNat 64
      (∑ v ∈ range (Spec.slots w slice), Spec.valueAt w slice v *
        (Blocks.bit nm v && Blocks.bit fm (Spec.exampleAt idxs v)).toNat)) ∧
    CountSum.sumAnd3C10 w slice idxs nm fm = .ok (BitVec.ofNat 64
      (∑ v ∈ range (Spec.slots w slice), Spec.valueAt w slice v *
        (Blocks.bit nm v && Blocks.bit fm (Spec.exampleAt idxs v)).toNat)) := by
  constructor
  · unfold btslceSummC
    rw [c_unfold]
    exact sum_shape hw slice hsm _ (fun v => Blocks.bit nm v && Blocks.bit fm (Spec.exampleAt idxs v))
      _ (Or.inl rfl) fun j hj => loadC_spec hw slice idxs nm fm j hj (by omega) (by omega) hi
  · unfold CountSum.sumAnd3C10
    rw [c_unfold]
    exact sum_shape hw slice hsm _ (fun v => Blocks.bit nm v && Blocks.bit fm (Spec.exampleAt idxs v))
      _ (Or.inr rfl) fun j hj => loadC_spec hw slice idxs nm fm j hj (by omega) (by omega) hi

/-- Counting kernels: the 256 bits of the loaded blocks. -/
theorem count_shape (n : Nat) (load : Nat → Out M256) (sel : Nat → Bool)
    (h : ∀ j, j < n → ∃ x, load j = .ok x ∧ ∀ p, p < 256 → x.getLsbD p = sel (256 * j + p)) :
    hs64 load n weights1 = .ok (BitVec.ofNat 64 (∑ v ∈ range (n * 256), (sel v).toNat)) := by
  obtain ⟨d, h1, h2⟩ := choose_loads h
  rw [hs64_spec (s := 256) _ h1 weights1_ok]
  refine congrArg Out.ok (congrArg (BitVec.ofNat 64) ?_)
  rw [sum_range_mul (fun v => (sel v).toNat)]
  apply Finset.sum_congr rfl
  intro j hj
  apply Finset.sum_congr rfl
  intro p hp
  have hp' := mem_range.mp hp
  rw [h2 j (mem_range.mp hj) p hp', Nat.div_eq_of_lt hp']
  simp

theorem count_lt (n : Nat) (hn : n < 2 ^ 48) (sel : Nat → Bool) :
    ∑ v ∈ range (n * 256), (sel v).toNat < 2 ^ 64 := by
  have hs := Finset.sum_le_card_nsmul (range (n * 256)) (fun v => (sel v).toNat) 1
    (fun v _ => by cases sel v <;> simp)
  rw [card_range] at hs
  change _ ≤ n * 256 * 1 at hs
  omega

theorem card_filter_eq (n : Nat) (p : Nat → Bool) :
    ((range n).filter fun i => p i = true).card = ∑ i ∈ range n, (p i).toNat := by
  rw [Finset.card_filter]
  apply Finset.sum_congr rfl
  intro i _
  cases p i <;> rfl

theorem allIndicesBelow_iff (idxs : Blocks) (m : Nat) :
    allIndicesBelow idxs m = true ↔
      ∀ k, k < Blocks.blockLen 32 idxs → (Blocks.word 32 idxs k).toNat < m := by
  unfold allIndicesBelow
  simp

end Simd

namespace CountSum

/-- The pairs of a lane as a sum over the positions of the first compressed vector. -/
theorem pairs_eq {idxs1 b1 idxs2 b2 full2 : Blocks} (slice : Option (Nat × Blocks)) (lane : Nat)
    (h2 : Spec.Compresses b2 idxs2 full2) (lb : Nat → Bool)
    (hlb : ∀ i t, t < 32 → lb (32 * i + t) = match slice with
      | none => true
      | some (w, sl) => Blocks.bit sl (32 * BitSlice.lanePos w i lane + t)) :
    pairs slice idxs1 b1 idxs2 b2 lane 0 0 =
      ∑ v ∈ range (Blocks.blockLen 32 idxs1 * 32), (lb v).toNat *
        (Blocks.bit b1 v && Blocks.bit full2 (Spec.exampleAt idxs1 v)).toNat := by
  unfold pairs
  rw [sum_range_mul (fun v => (lb v).toNat *
        (Blocks.bit b1 v && Blocks.bit full2 (Spec.exampleAt idxs1 v)).toNat),
    Nat.Ico_zero_eq_range, Nat.Ico_zero_eq_range]
  apply Finset.sum_congr rfl
  intro k1 _
  have hterm : ∀ k2 ∈ range (Blocks.blockLen 32 idxs2), contrib slice idxs1 b1 idxs2 b2 lane k1 k2 =
      ∑ t ∈ range 32, (lb (32 * k1 + t)).toNat * ((Blocks.bit b1 (32 * k1 + t)).toNat *
        (if Spec.indexAt idxs2 k2 = Spec.indexAt idxs1 k1 then
          (Blocks.bit b2 (32 * k2 + t)).toNat else 0)) := by
    intro k2 _
    unfold contrib
    by_cases he : Blocks.word 32 idxs1 k1 = Blocks.word 32 idxs2 k2
    · have he' : Spec.indexAt idxs2 k2 = Spec.indexAt idxs1 k1 := by
        unfold Spec.indexAt; rw [he]
      rw [if_pos he, BitBlock.popcount_eq_sum]
      apply Finset.sum_congr rfl
      intro t ht
      have ht' := mem_range.mp ht
      rw [if_pos he', hlb _ _ ht']
      unfold gblock
      rcases slice with _ | ⟨w, sl⟩
      · simp only [BitVec.getLsbD_and, Blocks.getLsbD_word (w := 32) (by omega) (by omega) _ _ ht',
          Simd.bool_toNat_and]
        simp
      · simp only [BitVec.getLsbD_and, Blocks.getLsbD_word (w := 32) (by omega) (by omega) _ _ ht',
          Simd.bool_toNat_and]
    · have he' : ¬ Spec.indexAt idxs2 k2 = Spec.indexAt idxs1 k1 := by
        unfold Spec.indexAt
        intro h
        exact he (BitVec.eq_of_toNat_eq h.symm)
      rw [if_neg he]
      symm
      apply Finset.sum_eq_zero
      intro t _
      rw [if_neg he']
      simp
  rw [Finset.sum_congr rfl hterm, Finset.sum_comm]
  apply Finset.sum_congr rfl
  intro t ht
  have ht' := mem_range.mp ht
  rw [← Finset.mul_sum, ← Finset.mul_sum]
  have hf := compress_find h2 (Spec.indexAt idxs1 k1) t ht'
  rw [h2.len] at hf
  rw [hf, Simd.bool_toNat_and, exampleAt_word _ _ _ ht']

theorem sorted_of_compresses {b idxs full : Blocks} (h : Spec.Compresses b idxs full) :
    ∃ c, Sorted idxs b c := by
  obtain ⟨hl, c, hc, hinc, huse, hzero, hall⟩ := h
  exact ⟨c, hl, hinc, fun k hk hk' => hzero k hk (by rw [hl]; exact hk')⟩

theorem len_eq_of_compresses {b idxs full : Blocks} (h : Spec.Compresses b idxs full) :
    b.length = idxs.length := by
  have := h.len
  unfold Blocks.blockLen at this
  omega

end CountSum
end BitBoost
