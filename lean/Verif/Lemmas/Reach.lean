import Verif.Spec.Progress
import Verif.Lemmas.Fixed
/-! Helper lemmas: sizes of the results of rounded operations. -/
namespace BitBoost
open Spec

theorem wide_exact (E : ℕ) : Wide .exact E := fun _ _ _ _ _ => rfl

theorem wide_binary32 : Wide .binary32 103 := by
  intro i j hi h1 h2
  have := FP.binary32_repr i j (by rw [abs_of_nonneg (by positivity)]; exact_mod_cast hi) h1 (by exact_mod_cast h2)
  simpa using this

theorem Spec.SizeLe.mono {A B : ℚ} {v : Num} (h : SizeLe A v) (hAB : A ≤ B) : SizeLe B v := by
  obtain ⟨q, rfl, hq⟩ := h
  exact ⟨q, rfl, hq.trans hAB⟩

theorem Spec.SizeLe.finite {B : ℚ} {v : Num} (h : SizeLe B v) : v.isFinite = true := by
  obtain ⟨q, rfl, _⟩ := h; rfl

theorem Spec.SizeLe.ne_nan {B : ℚ} {v : Num} (h : SizeLe B v) : v ≠ .nan := by
  obtain ⟨q, rfl, _⟩ := h; simp

theorem Spec.SizeLe.nonneg {B : ℚ} {v : Num} (h : SizeLe B v) : 0 ≤ B := by
  obtain ⟨q, rfl, h⟩ := h; exact (abs_nonneg q).trans h

theorem Spec.SizeLe.neg {B : ℚ} {v : Num} (h : SizeLe B v) : SizeLe B v.neg := by
  obtain ⟨q, rfl, h⟩ := h
  exact ⟨-q, rfl, by rwa [abs_neg]⟩

theorem Spec.SizeLe.abs {B : ℚ} {v : Num} (h : SizeLe B v) : SizeLe B v.abs := by
  obtain ⟨q, rfl, h⟩ := h
  exact ⟨|q|, rfl, by rwa [abs_abs]⟩

theorem Spec.SizeLe.min {B : ℚ} {v w : Num} (h : SizeLe B v) (h' : SizeLe B w) : SizeLe B (Num.min v w) := by
  unfold Num.min
  split_ifs <;> assumption

theorem Spec.SizeLe.max {B : ℚ} {v w : Num} (h : SizeLe B v) (h' : SizeLe B w) : SizeLe B (Num.max v w) := by
  unfold Num.max
  split_ifs <;> assumption

theorem Spec.SizeLe.signum {B : ℚ} {v : Num} (h : SizeLe B v) : SizeLe 1 v.signum := by
  obtain ⟨q, rfl, _⟩ := h
  simp only [Num.signum]
  split_ifs
  · exact ⟨-1, rfl, by norm_num⟩
  · exact ⟨1, rfl, by norm_num⟩

/-- Rounding does not leave an interval with representable ends. -/
theorem FP.rnd_within (F : FP) {B q : ℚ} (hB : F.rnd B = .fin B) (h : |q| ≤ B) : SizeLe B (F.rnd q) := by
  obtain ⟨h1, h2⟩ := abs_le.1 h
  have a := F.mono _ _ h1
  have b := F.mono _ _ h2
  rw [hB] at b
  rw [F.symm, hB] at a
  cases e : F.rnd q with
  | fin r =>
    rw [e] at a b
    exact ⟨r, rfl, abs_le.2 ⟨by simpa [Num.neg] using a, by simpa using b⟩⟩
  | pinf => rw [e] at b; simp [Num.le] at b
  | ninf => rw [e] at a; simp [Num.le, Num.neg] at a
  | nan => exact absurd e (F.rnd_ne_nan q)

section
variable {F : FP} {A B C : ℚ} {a b : Num}

theorem Spec.SizeLe.add (ha : SizeLe A a) (hb : SizeLe B b) (hC : F.rnd C = .fin C) (h : A + B ≤ C) :
    SizeLe C (F.add a b) := by
  obtain ⟨p, rfl, hp⟩ := ha
  obtain ⟨q, rfl, hq⟩ := hb
  rw [F.add_fin]
  exact F.rnd_within hC ((abs_add_le p q).trans (by linarith))

theorem Spec.SizeLe.sub (ha : SizeLe A a) (hb : SizeLe B b) (hC : F.rnd C = .fin C) (h : A + B ≤ C) :
    SizeLe C (F.sub a b) := SizeLe.add ha hb.neg hC h

theorem Spec.SizeLe.mul (ha : SizeLe A a) (hb : SizeLe B b) (hC : F.rnd C = .fin C) (h : A * B ≤ C) :
    SizeLe C (F.mul a b) := by
  have hA := ha.nonneg
  obtain ⟨p, rfl, hp⟩ := ha
  obtain ⟨q, rfl, hq⟩ := hb
  rw [F.mul_fin]
  refine F.rnd_within hC ?_
  rw [abs_mul]
  exact (mul_le_mul hp hq (abs_nonneg _) hA).trans h

theorem Spec.SizeLe.div (ha : SizeLe A a) {c : ℚ} (hc : 0 < c) (hC : F.rnd C = .fin C) (h : A ≤ C * c) :
    SizeLe C (F.div a (.fin c)) := by
  obtain ⟨p, rfl, hp⟩ := ha
  rw [F.div_fin (ne_of_gt hc)]
  refine F.rnd_within hC ?_
  rw [abs_div, abs_of_pos hc, div_le_iff₀ hc]
  linarith

/-- Sums of terms of size at most `T`. -/
theorem foldl_within {α : Type} {T : ℚ} (g : Num → α → Num) (m : ℕ) : ∀ (l : List α) (s : Num) (k : ℕ),
    k + l.length ≤ m → SizeLe (k * T) s →
    (∀ s x j, x ∈ l → j < m → SizeLe (j * T) s → SizeLe ((j + 1 : ℕ) * T) (g s x)) →
    SizeLe ((k + l.length : ℕ) * T) (l.foldl g s)
  | [], s, k, _, hs, _ => by simpa using hs
  | x :: l, s, k, hk, hs, hg => by
      simp only [List.length_cons, List.foldl_cons] at hk ⊢
      have := foldl_within g m l (g s x) (k + 1) (by omega) (hg s x k (by simp) (by omega) hs)
        (fun s y j hy => hg s y j (by simp [hy]))
      rwa [show k + (l.length + 1) = k + 1 + l.length by omega]

end

/-- The numbers used as bounds. -/
theorem Spec.Wide.mul {F : FP} {E : ℕ} (hw : Wide F E) {k j : ℕ} (hk : k ≤ 2 ^ 24) (hj : j ≤ E) :
    F.rnd ((k : ℚ) * 2 ^ j) = .fin ((k : ℚ) * 2 ^ j) := by
  have := hw k j hk (by omega) (by omega)
  simpa using this

theorem Spec.Wide.pow {F : FP} {E : ℕ} (hw : Wide F E) {j : ℕ} (hj : j ≤ E + 24) : F.rnd ((2 : ℚ) ^ j) = .fin ((2 : ℚ) ^ j) := by
  by_cases h : j ≤ E
  · have := hw.mul (k := 1) (by norm_num) h
    simpa using this
  · have := hw.mul (k := 2 ^ (j - E)) (j := E) (Nat.pow_le_pow_right (by norm_num) (by omega)) le_rfl
    rw [show ((2 ^ (j - E) : ℕ) : ℚ) * 2 ^ E = 2 ^ j by
      push_cast; rw [← pow_add]; congr 1; omega] at this
    exact this

theorem Spec.Wide.down {F : FP} {E : ℕ} (hw : Wide F E) {j : ℕ} (hj : j ≤ E) (i : ℕ) (hi : i ≤ 149) :
    F.rnd ((2 : ℚ) ^ j / 2 ^ i) = .fin ((2 : ℚ) ^ j / 2 ^ i) := by
  have := hw 1 ((j : ℤ) - i) (by norm_num) (by omega) (by omega)
  rw [zpow_sub₀ (by norm_num)] at this
  simpa using this

/-- Sums and means of numbers of size at most `2 ^ j`. -/
theorem sum_within {F : FP} {E : ℕ} (hw : Wide F E) {j : ℕ} (hj : j ≤ E) {l : List Num} (hl : l.length ≤ 2 ^ 24)
    (h : ∀ x ∈ l, SizeLe (2 ^ j) x) : SizeLe (l.length * 2 ^ j) (F.sum l) := by
  have := foldl_within (T := 2 ^ j) F.add (2 ^ 24) l (.fin 0) 0 (by omega) ⟨0, rfl, by simp⟩ (by
    intro s x k hx hk hs
    refine hs.add (h x hx) (hw.mul (by omega) hj) ?_
    push_cast; linarith)
  simpa [FP.sum] using this

theorem mean_within {F : FP} {E : ℕ} (hw : Wide F E) {j : ℕ} (hj : j ≤ E) {n : ℕ} (hn : 0 < n) (hn2 : n ≤ 2 ^ 24) {v : Num}
    (h : SizeLe (n * 2 ^ j) v) : SizeLe (2 ^ j) (F.div v (F.ofNat n)) := by
  rw [F.ofNat_eq hn2]
  refine h.div (by exact_mod_cast hn) (hw.pow (by omega)) (by linarith)

end BitBoost
