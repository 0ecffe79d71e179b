import Verif.Lemmas.Bits
import Verif.Spec.Lists
import Mathlib.Data.List.Nodup
/-! Helper lemmas: index iteration. -/
namespace BitBoost

/-- Positions of the set bits of a word, increasing. -/
def setBits {w : Nat} (x : BitVec w) : List Nat := (List.range w).filter x.getLsbD

theorem setBits_zero {w : Nat} : setBits (0#w) = [] := by
  unfold setBits; simp

theorem setBits_length_le {w : Nat} (x : BitVec w) : (setBits x).length ≤ w := by
  unfold setBits
  calc _ ≤ (List.range w).length := List.length_filter_le _ _
    _ = w := by simp

theorem exists_bit_of_ne_zero {w : Nat} {x : BitVec w} (h : x ≠ 0#w) :
    ∃ i, i < w ∧ x.getLsbD i = true := by
  by_contra hc
  apply h
  apply BitVec.eq_of_getLsbD_eq
  intro i hi
  cases hb : x.getLsbD i
  · simp
  · exact absurd ⟨i, hi, hb⟩ hc

theorem setBits_step {w : Nat} {x : BitVec w} (h : x ≠ 0#w) :
    setBits x = trailingZeros x :: setBits (flipBit x (trailingZeros x)) := by
  obtain ⟨i, hi, hb⟩ := exists_bit_of_ne_zero h
  have hsome : ((List.range w).find? x.getLsbD).isSome := by
    rw [List.find?_isSome]; exact ⟨i, List.mem_range.mpr hi, hb⟩
  obtain ⟨t, ht⟩ := Option.isSome_iff_exists.mp hsome
  have htz : trailingZeros x = t := by unfold trailingZeros; rw [ht]; rfl
  rw [htz]
  rw [List.find?_eq_some_iff_append] at ht
  obtain ⟨hpt, as, bs, heq, has⟩ := ht
  have hnd : (as ++ t :: bs).Nodup := by rw [← heq]; exact List.nodup_range
  have hmem : ∀ a, a ∈ as ++ t :: bs → a < w := by
    intro a ha; rw [← heq] at ha; exact List.mem_range.mp ha
  rw [List.nodup_append] at hnd
  obtain ⟨hnd1, hnd2, hnd3⟩ := hnd
  have hflip : ∀ a, a < w → (flipBit x t).getLsbD a = (x.getLsbD a ^^ decide (a = t)) := by
    intro a ha
    unfold flipBit
    rw [BitVec.getLsbD_xor, getLsbD_one_shl _ _ ha]
  unfold setBits
  rw [heq, List.filter_append, List.filter_append, List.filter_cons, List.filter_cons, hpt]
  have h1 : as.filter x.getLsbD = [] := by
    rw [List.filter_eq_nil_iff]; intro a ha; simpa using has a ha
  have h2 : as.filter (flipBit x t).getLsbD = [] := by
    rw [List.filter_eq_nil_iff]; intro a ha
    have hne : a ≠ t := hnd3 a ha t (by simp)
    rw [hflip a (hmem a (by simp [ha]))]
    have := has a ha
    simp [hne]; simpa using this
  have h3 : bs.filter (flipBit x t).getLsbD = bs.filter x.getLsbD := by
    apply List.filter_congr
    intro a ha
    have hne : a ≠ t := by
      rintro rfl
      exact (List.nodup_cons.mp hnd2).1 ha
    rw [hflip a (hmem a (by simp [ha]))]
    simp [hne]
  have h4 : (flipBit x t).getLsbD t = false := by
    rw [hflip t (hmem t (by simp)), hpt]; simp
  rw [h1, h2, h3, h4]; simp

namespace IndexIter
variable {w : Nat}

/-- Item lists of the remaining words. -/
def remWords (it : IndexIter w) (items : Nat → List Nat) (i : Nat) : List Nat :=
  (List.range' i (it.n - i)).flatMap items

theorem remWords_step (it : IndexIter w) (items : Nat → List Nat) {i : Nat} (h : i < it.n) :
    remWords it items i = items i ++ remWords it items (i + 1) := by
  unfold remWords
  have : it.n - i = (it.n - (i + 1)) + 1 := by omega
  rw [this, List.range'_succ, List.flatMap_cons]

theorem remWords_end (it : IndexIter w) (items : Nat → List Nat) {i : Nat} (h : ¬ i < it.n) :
    remWords it items i = [] := by
  unfold remWords
  have : it.n - i = 0 := by omega
  rw [this]; rfl

/-- Everything still to be yielded. -/
def rem (it : IndexIter w) (items : Nat → List Nat) (s : St w) : List Nat :=
  (setBits s.mask).map (fun b => b + w * s.j) ++ remWords it items s.i

theorem next_spec (it : IndexIter w) (J : Nat → Nat) (M : Nat → BitVec w)
    (hn : it.n = Blocks.blockLen w it.bitvec)
    (hJ : ∀ i, i < it.n → it.indexF i = .ok (J i))
    (hM : ∀ i, i < it.n → it.maskF (J i) = .ok (M i)) :
    ∀ (d : Nat) (s : St w), it.n - s.i = d →
    let items := fun i => (setBits (Blocks.word w it.bitvec i &&& it.f (M i))).map
      (fun b => b + w * J i)
    ∃ s', it.next s = .ok ((it.rem items s).head?, s') ∧ it.rem items s' = (it.rem items s).tail := by
  intro d
  induction d using Nat.strongRecOn with
  | _ d ih =>
    intro s hd items
    unfold next
    by_cases hm : s.mask ≠ 0#w
    · rw [if_pos hm]
      refine ⟨{ s with mask := flipBit s.mask (trailingZeros s.mask) }, ?_, ?_⟩ <;>
        simp only [rem] <;> rw [setBits_step hm] <;> simp
    · rw [if_neg hm]
      have hm0 : s.mask = 0#w := by simpa using hm
      by_cases hi : s.i < it.n
      · rw [dif_pos hi, hJ _ hi]
        simp only [Out.ok_bind]
        have hget : Blocks.getUnchecked w it.bitvec s.i = .ok (Blocks.word w it.bitvec s.i) := by
          unfold Blocks.getUnchecked; rw [if_pos (by omega)]
        rw [hget, Out.ok_bind, hM _ hi, Out.ok_bind]
        have := ih (it.n - (s.i + 1)) (by omega)
          ⟨s.i + 1, J s.i, Blocks.word w it.bitvec s.i &&& it.f (M s.i)⟩ rfl
        have hrem : it.rem items ⟨s.i + 1, J s.i, Blocks.word w it.bitvec s.i &&& it.f (M s.i)⟩
            = it.rem items s := by
          unfold rem
          rw [hm0, setBits_zero, List.map_nil, List.nil_append, remWords_step it items hi]
        rw [← hrem]
        exact this
      · rw [dif_neg hi]
        refine ⟨s, ?_, ?_⟩ <;>
          simp [rem, hm0, setBits_zero, remWords_end it items hi]

theorem calls_of_rem (it : IndexIter w) (R : St w → List Nat)
    (hstep : ∀ s, ∃ s', it.next s = .ok ((R s).head?, s') ∧ R s' = (R s).tail) :
    ∀ (k : Nat) (s : St w), it.calls k s = .ok ((List.range k).map fun m => (R s)[m]?) := by
  intro k
  induction k with
  | zero => intro s; rfl
  | succ k ih =>
    intro s
    obtain ⟨s', h1, h2⟩ := hstep s
    unfold calls
    rw [h1, Out.ok_bind, ih s', Out.ok_bind, h2, List.range_succ_eq_map]
    simp only [Out.pure_eq, List.map_cons, List.map_map]
    congr 1
    congr 1
    · cases R s <;> simp
    · apply List.map_congr_left
      intro m _
      simp

theorem new_yields (bitvec : Blocks) (maskF : Nat → Out (BitVec w)) (indexF : Nat → Out Nat)
    (f : BitVec w → BitVec w) (J : Nat → Nat) (M : Nat → BitVec w)
    (hpos : 0 < Blocks.blockLen w bitvec)
    (hJ : ∀ i, i < Blocks.blockLen w bitvec → indexF i = .ok (J i))
    (hM : ∀ i, i < Blocks.blockLen w bitvec → maskF (J i) = .ok (M i)) :
    Spec.Yields (IndexIter.new bitvec maskF indexF f)
      ((List.range (Blocks.blockLen w bitvec)).flatMap fun i =>
        (setBits (Blocks.word w bitvec i &&& f (M i))).map (fun b => b + w * J i)) := by
  unfold IndexIter.new
  dsimp only
  rw [if_pos hpos]
  refine ⟨_, rfl, ?_⟩
  intro k
  have := calls_of_rem ⟨bitvec, maskF, indexF, f, Blocks.blockLen w bitvec⟩ _
    (fun s => next_spec ⟨bitvec, maskF, indexF, f, Blocks.blockLen w bitvec⟩ J M rfl hJ hM _ s rfl)
    k ⟨0, 0, 0#w⟩
  rw [this]
  simp only [rem, setBits_zero, remWords, List.map_nil, List.nil_append, Nat.sub_zero,
    List.range_eq_range']

end IndexIter

/-- Concatenating the set positions word by word gives the set positions of the whole. -/
theorem flatMap_filter_range (p : Nat → Bool) (w n : Nat) :
    ((List.range n).flatMap fun i => ((List.range w).filter fun b => p (w * i + b)).map
      (fun b => b + w * i)) = (List.range (w * n)).filter p := by
  induction n with
  | zero => simp
  | succ n ih =>
    rw [List.range_succ, List.flatMap_append, ih, Nat.mul_succ, List.range_add,
      List.filter_append, List.filter_map]
    congr 1
    simp only [List.flatMap_cons, List.flatMap_nil, List.append_nil]
    have : (fun b => b + w * n) = fun b => w * n + b := by funext b; omega
    rw [this]; rfl

theorem setBits_and {w : Nat} (x y : BitVec w) :
    setBits (x &&& y) = (setBits x).filter y.getLsbD := by
  unfold setBits
  rw [List.filter_filter]
  apply List.filter_congr
  intro i _
  rw [BitVec.getLsbD_and, Bool.and_comm]

theorem setBits_word {w : Nat} (hw : 0 < w) (hd : w ∣ 256) (bs : Blocks) (i : Nat) :
    setBits (Blocks.word w bs i) = (List.range w).filter fun b => Blocks.bit bs (w * i + b) := by
  unfold setBits
  apply List.filter_congr
  intro b hb
  rw [Blocks.getLsbD_word hw hd _ _ (List.mem_range.mp hb)]

theorem Blocks.decide_getBit (bs : Blocks) (i : Nat) :
    decide (Blocks.getBit bs i = .ok true) = Blocks.bit bs i := by
  rw [Blocks.getBit_eq]
  by_cases h : i < bs.length * 256
  · rw [if_pos h]; cases Blocks.bit bs i <;> simp
  · rw [if_neg h, Blocks.bit_of_ge bs (by omega)]; simp

theorem setPositions_eq (bs : Blocks) :
    Spec.setPositions bs = (List.range (256 * bs.length)).filter (Blocks.bit bs) := by
  unfold Spec.setPositions
  apply List.filter_congr
  intro i _
  exact Blocks.decide_getBit bs i

/-! ### Callback loops -/
namespace Blocks
variable {w : Nat} {σ : Type}

theorem forEachLoop_spec (n : Nat) (load : Nat → Out (BitVec w × Nat)) (L : Nat → BitVec w × Nat)
    (hload : ∀ i, i < n → load i = .ok (L i)) (f : Nat → σ → σ × Bool) :
    ∀ (fuel i index : Nat) (mask : BitVec w) (s : σ),
      (setBits mask).length + (n - (i + 1)) * (w + 1) < fuel →
      forEachLoop n load f fuel i index mask s =
        .ok (Spec.visit f ((setBits mask).map (fun b => b + w * index) ++
          (List.range' (i + 1) (n - (i + 1))).flatMap fun i =>
            (setBits (L i).1).map (fun b => b + w * (L i).2)) s) := by
  intro fuel
  induction fuel with
  | zero => intro i index mask s h; omega
  | succ fuel ih =>
    intro i index mask s h
    unfold forEachLoop
    by_cases hm : mask ≠ 0#w
    · rw [if_pos hm]
      dsimp only
      have hstep := setBits_step hm
      rw [hstep]
      rw [hstep] at h
      simp only [List.length_cons] at h
      simp only [List.map_cons, List.cons_append, Spec.visit]
      by_cases hf : (f (trailingZeros mask + w * index) s).2 = true
      · rw [if_pos hf, if_pos hf]
      · rw [if_neg hf, if_neg hf]
        exact ih _ _ _ _ (by omega)
    · rw [if_neg hm]
      have hm0 : mask = 0#w := by simpa using hm
      subst hm0
      rw [setBits_zero, List.map_nil, List.nil_append]
      by_cases hi : i + 1 < n
      · rw [if_pos hi, hload _ hi, Out.ok_bind]
        have hb : n - (i + 1) = (n - (i + 1 + 1)) + 1 := by omega
        rw [ih]
        · rw [hb, List.range'_succ, List.flatMap_cons]
        · have hl := setBits_length_le (L (i + 1)).1
          rw [setBits_zero] at h
          rw [hb, Nat.succ_mul] at h
          simp only [List.length_nil] at h
          omega
      · rw [if_neg hi]
        have : n - (i + 1) = 0 := by omega
        rw [this]; rfl

theorem forEachStart_spec (n : Nat) (hn : 0 < n) (load : Nat → Out (BitVec w × Nat))
    (L : Nat → BitVec w × Nat) (hload : ∀ i, i < n → load i = .ok (L i))
    (f : Nat → σ → σ × Bool) (s : σ) :
    forEachStart n load f s = .ok (Spec.visit f ((List.range n).flatMap fun i =>
      (setBits (L i).1).map (fun b => b + w * (L i).2)) s) := by
  unfold forEachStart
  rw [hload 0 hn, Out.ok_bind, forEachLoop_spec n load L hload f]
  · congr 2
    have h1 : n = (n - 1) + 1 := by omega
    conv_rhs => rw [h1, List.range_eq_range', List.range'_succ, List.flatMap_cons]
  · have hl := setBits_length_le (L 0).1
    have h1 : n * (w + 1) = (n - (0 + 1)) * (w + 1) + (w + 1) := by
      rw [← Nat.succ_mul]; congr 1; omega
    omega

end Blocks
end BitBoost
