import Verif.Lemmas.Sampling
import Mathlib.Data.List.Nodup
import Mathlib.Data.Finset.Card
import Mathlib.Data.Finset.Dedup
/-!
# C30: the two other ways to draw a sample (`sample_replacement`, `reservoir_sample`)
-/
namespace BitBoost.Props
open BitBoost

private theorem sorted (l : List Nat) : (l.insertionSort (· ≤ ·)).Pairwise (· ≤ ·) :=
  List.pairwise_insertionSort _ l

private theorem strict {l : List Nat} (h : l.Nodup) : (l.insertionSort (· ≤ ·)).Pairwise (· < ·) := by
  have h1 := sorted l
  have h2 : (l.insertionSort (· ≤ ·)).Nodup := (List.perm_insertionSort _ l).nodup_iff.2 h
  exact h1.imp₂ (fun a b h1 h2 => by omega) h2

private theorem replaceLoop_ok (n : Nat) (hn : 0 < n) : ∀ (k : Nat) (r : Rng), ∃ xs r',
    replaceLoop k r n = .ok (xs, r') ∧ xs.length = k ∧ ∀ x ∈ xs, x < n := by
  intro k
  induction k with
  | zero => intro r; exact ⟨[], r, rfl, rfl, by simp⟩
  | succ k ih =>
    intro r
    obtain ⟨xs, r', h1, h2, h3⟩ := ih ⟨fun i => r.next (i + 1)⟩
    refine ⟨(r.next 0 % n) :: xs, r', ?_, by simp [h2], ?_⟩
    · simp [replaceLoop, Rng.genRange, hn, h1]
    · intro x hx
      rcases List.mem_cons.1 hx with rfl | hx
      · exact Nat.mod_lt _ hn
      · exact h3 x hx

private theorem replaceLoop_reach (n : Nat) : ∀ S : List Nat, (∀ x ∈ S, x < n) →
    ∃ r r', replaceLoop S.length r n = .ok (S, r') := by
  intro S
  induction S with
  | nil => intro _; exact ⟨⟨fun _ => 0⟩, _, rfl⟩
  | cons x S ih =>
    intro h
    obtain ⟨r, r', h1⟩ := ih (fun y hy => h y (by simp [hy]))
    have hx := h x (by simp)
    refine ⟨⟨fun i => if i = 0 then x else r.next (i - 1)⟩, r', ?_⟩
    have : x % n = x := Nat.mod_eq_of_lt hx
    simp [replaceLoop, Rng.genRange, show 0 < n by omega, h1, this]

/-- **C30.** Drawing with replacement from a range that is not empty never fails and fills the buffer with numbers
of the range, in increasing order; what was in the buffer has no influence, and every such filling is possible. -/
theorem C30_with_replacement (n : Nat) (hn : 0 < n) (k : Nat) :
    (∀ r buf, buf.length = k → ∃ out r', sampleReplacement r n buf = .ok (out, r') ∧ out.length = k ∧
      out.Pairwise (· ≤ ·) ∧ (∀ x ∈ out, x < n) ∧
      ∀ buf', buf'.length = k → sampleReplacement r n buf' = .ok (out, r')) ∧
    (∀ S : List Nat, S.length = k → S.Pairwise (· ≤ ·) → (∀ x ∈ S, x < n) →
      ∃ r r', ∀ buf, buf.length = k → sampleReplacement r n buf = .ok (S, r')) := by
  constructor
  · rintro r buf rfl
    obtain ⟨xs, r', h1, h2, h3⟩ := replaceLoop_ok n hn buf.length r
    refine ⟨xs.insertionSort (· ≤ ·), r', ?_, by simp [h2], sorted xs, ?_, fun buf' hb => ?_⟩
    · simp [sampleReplacement, h1]
    · intro x hx
      exact h3 x ((List.perm_insertionSort _ xs).mem_iff.1 hx)
    · simp [sampleReplacement, hb, h1]
  · rintro S rfl hso hlt
    obtain ⟨r, r', h1⟩ := replaceLoop_reach n S hlt
    refine ⟨r, r', fun buf hb => ?_⟩
    simp [sampleReplacement, hb, h1, List.Pairwise.insertionSort_eq hso]

private theorem fill_loop (k m : Nat) (r : Rng) : ∀ (j i : Nat) (buf : List Nat), buf.length = k → i + j = k →
    reservoirLoop k (j + m) i r buf = reservoirLoop k m k r (buf.take i ++ List.range' i j) := by
  intro j
  induction j with
  | zero =>
    intro i buf hb hi
    have : i = buf.length := by omega
    subst this
    subst hb
    simp
  | succ j ih =>
    intro i buf hb hi
    rw [show j + 1 + m = (j + m) + 1 by omega]
    have hik : i < k := by omega
    simp only [reservoirLoop, if_pos hik, setAt, hb, Out.ok_bind]
    rw [ih (i + 1) (buf.set i i) (by simp [hb]) (by omega)]
    congr 1
    rw [List.take_add_one, List.take_set_of_le (le_refl i), List.getElem?_set_self (by omega), List.range'_succ]
    simp

private theorem reservoir_ok (k : Nat) : ∀ (m i : Nat) (r : Rng) (buf : List Nat), buf.length = k → k ≤ i →
    buf.Nodup → (∀ x ∈ buf, x < i) → ∃ out r', reservoirLoop k m i r buf = .ok (out, r') ∧ out.length = k ∧
      out.Nodup ∧ ∀ x ∈ out, x < i + m := by
  intro m
  induction m with
  | zero => intro i r buf hb _ hn hlt; exact ⟨buf, r, rfl, hb, hn, hlt⟩
  | succ m ih =>
    intro i r buf hb hk hn hlt
    have hni : ¬ i < k := by omega
    simp only [reservoirLoop, if_neg hni, Rng.genRange, show 0 < i + 1 by omega, if_true, Out.ok_bind]
    have hnot : i ∉ buf := fun h => by have := hlt i h; omega
    by_cases hx : 0 + r.next 0 % (i + 1 - 0) < k
    · rw [if_pos hx]
      simp only [setAt, hb, if_pos hx, Out.ok_bind]
      obtain ⟨out, r', h1, h2, h3, h4⟩ := ih (i + 1) ⟨fun j => r.next (j + 1)⟩
        (buf.set (0 + r.next 0 % (i + 1 - 0)) i) (by simp [hb]) (by omega) (hn.set hnot) (by
          intro x hx'
          rcases List.mem_or_eq_of_mem_set hx' with h | rfl
          · have := hlt x h; omega
          · omega)
      exact ⟨out, r', h1, h2, h3, fun x hx => by have := h4 x hx; omega⟩
    · rw [if_neg hx]
      obtain ⟨out, r', h1, h2, h3, h4⟩ := ih (i + 1) ⟨fun j => r.next (j + 1)⟩ buf hb (by omega) hn
        (fun x hx => by have := hlt x hx; omega)
      exact ⟨out, r', h1, h2, h3, fun x hx => by have := h4 x hx; omega⟩

private theorem reservoir_reach (k : Nat) (S : List Nat) (hS : S.Nodup) (hlen : S.length = k) :
    ∀ (m i : Nat) (buf : List Nat), buf.length = k → k ≤ i → buf.Nodup → (∀ x ∈ buf, x < i) →
      (∀ x ∈ S, x < i → x ∈ buf) → (∀ x ∈ S, x < i + m) →
      ∃ r out r', reservoirLoop k m i r buf = .ok (out, r') ∧ out.Perm S := by
  intro m
  induction m with
  | zero =>
    intro i buf hb hk hn hlt hin hall
    refine ⟨⟨fun _ => 0⟩, buf, _, rfl, ?_⟩
    have hsub : S ⊆ buf := fun x hx => hin x hx (hall x hx)
    exact ((hS.subperm hsub).perm_of_length_le (by omega)).symm
  | succ m ih =>
    intro i buf hb hk hn hlt hin hall
    have hni : ¬ i < k := by omega
    have hnot : i ∉ buf := fun h => by have := hlt i h; omega
    by_cases hi : i ∈ S
    · -- some element of the buffer is not in the sample
      obtain ⟨y, hy, hyS⟩ : ∃ y ∈ buf, y ∉ S := by
        by_contra hc
        push Not at hc
        have hsub : i :: buf ⊆ S := by
          intro x hx
          rcases List.mem_cons.1 hx with rfl | hx
          · exact hi
          · exact hc x hx
        have := ((List.nodup_cons.2 ⟨hnot, hn⟩).subperm hsub).length_le
        simp at this; omega
      obtain ⟨j, hj, rfl⟩ := List.getElem_of_mem hy
      obtain ⟨r, out, r', h1, h2⟩ := ih (i + 1) (buf.set j i) (by simp [hb]) (by omega) (hn.set hnot) (by
          intro x hx'
          rcases List.mem_or_eq_of_mem_set hx' with h | rfl
          · have := hlt x h; omega
          · omega) (by
          intro x hx hxi
          rcases Nat.lt_or_ge x i with h | h
          · obtain ⟨p, hp, rfl⟩ := List.getElem_of_mem (hin x hx h)
            have hpj : j ≠ p := by rintro rfl; exact hyS hx
            refine List.mem_iff_getElem.2 ⟨p, by simpa using hp, ?_⟩
            rw [List.getElem_set_ne hpj]
          · have : x = i := by omega
            subst this
            exact List.mem_set hj _) (fun x hx => by have := hall x hx; omega)
      refine ⟨⟨fun n => if n = 0 then j else r.next (n - 1)⟩, out, r', ?_, h2⟩
      have hmod : j % (i + 1) = j := Nat.mod_eq_of_lt (by omega)
      simp only [reservoirLoop, if_neg hni, Rng.genRange, show 0 < i + 1 by omega, if_true, Out.ok_bind,
        Nat.sub_zero, Nat.zero_add, hmod, if_pos (hb ▸ hj : j < k), setAt, if_pos hj]
      simpa using h1
    · obtain ⟨r, out, r', h1, h2⟩ := ih (i + 1) buf hb (by omega) hn (fun x hx => by have := hlt x hx; omega)
        (fun x hx hxi => hin x hx (by
          rcases Nat.lt_or_ge x i with h | h
          · exact h
          · have e : x = i := by omega
            exact absurd (e ▸ hx) hi))
        (fun x hx => by have := hall x hx; omega)
      refine ⟨⟨fun n => if n = 0 then k else r.next (n - 1)⟩, out, r', ?_, h2⟩
      have hmod : k % (i + 1) = k := Nat.mod_eq_of_lt (by omega)
      simp only [reservoirLoop, if_neg hni, Rng.genRange, show 0 < i + 1 by omega, if_true, Out.ok_bind,
        Nat.sub_zero, Nat.zero_add, hmod, if_neg (lt_irrefl k)]
      simpa using h1

/-- **C30.** Reservoir sampling of `k` of `n` numbers, `k ≤ n`, never fails and gives `k` different numbers below `n`
in increasing order, whatever was in the buffer; every such sample is possible. -/
theorem C30_reservoir (n k : Nat) (hk : k ≤ n) :
    (∀ r buf, buf.length = k → ∃ out r', reservoirSample r n buf = .ok (out, r') ∧ out.length = k ∧
      out.Pairwise (· < ·) ∧ (∀ x ∈ out, x < n) ∧
      ∀ buf', buf'.length = k → reservoirSample r n buf' = .ok (out, r')) ∧
    (∀ S : List Nat, S.length = k → S.Pairwise (· < ·) → (∀ x ∈ S, x < n) →
      ∃ r r', ∀ buf, buf.length = k → reservoirSample r n buf = .ok (S, r')) := by
  have start : ∀ r (buf : List Nat), buf.length = k →
      reservoirLoop k n 0 r buf = reservoirLoop k (n - k) k r (List.range k) := by
    intro r buf hb
    have := fill_loop k (n - k) r k 0 buf hb (by omega)
    rw [show k + (n - k) = n by omega] at this
    rw [this]
    simp [List.range_eq_range']
  have hstart : ∀ x ∈ List.range k, x < k := fun x hx => List.mem_range.1 hx
  constructor
  · intro r buf hb
    obtain ⟨out, r', h1, h2, h3, h4⟩ := reservoir_ok k (n - k) k r (List.range k) (by simp) le_rfl
      List.nodup_range hstart
    have : ∀ buf' : List Nat, buf'.length = k →
        reservoirSample r n buf' = .ok (out.insertionSort (· ≤ ·), r') := by
      intro buf' hb'
      simp [reservoirSample, hb', start r buf' hb', h1]
    refine ⟨_, r', this buf hb, by simp [h2], strict h3, ?_, this⟩
    intro x hx
    have := h4 x ((List.perm_insertionSort _ out).mem_iff.1 hx)
    omega
  · intro S hl hso hlt
    have hnd : S.Nodup := hso.imp (by intro a b hab; omega)
    obtain ⟨r, out, r', h1, h2⟩ := reservoir_reach k S hnd hl (n - k) k (List.range k) (by simp) le_rfl
      List.nodup_range hstart (fun x _ hx => List.mem_range.2 hx) (fun x hx => by have := hlt x hx; omega)
    refine ⟨r, r', fun buf hb => ?_⟩
    simp only [reservoirSample, hb, start r buf hb, h1, Out.ok_bind, Out.pure_eq]
    have e1 : out.insertionSort (· ≤ ·) = S.insertionSort (· ≤ ·) := by
      refine List.Perm.eq_of_pairwise (fun a b _ _ h1 h2 => by omega) (sorted out) (sorted S) ?_
      exact (List.perm_insertionSort _ out).trans (h2.trans (List.perm_insertionSort _ S).symm)
    rw [e1, List.Pairwise.insertionSort_eq (hso.imp (by intro a b hab; omega))]

/-- A sample of 3 of 6 numbers, and a drawing of 4 numbers below 3. -/
example : (do let (l, _) ← reservoirSample ⟨fun i => 5 * i + 1⟩ 6 [9, 9, 9]; pure l) = Out.ok [0, 2, 4] ∧
    (do let (l, _) ← sampleReplacement ⟨fun i => 5 * i + 1⟩ 3 [9, 9, 9, 9]; pure l) = Out.ok [0, 1, 1, 2] := by
  decide +kernel

end BitBoost.Props
