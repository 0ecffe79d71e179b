import Verif.Lemmas.Masks
import Mathlib.Data.List.Sort
import Mathlib.Data.List.Nodup
/-! Lemmas about drawing a sample without replacement. -/
namespace BitBoost

theorem genRange_ok {r r' : Rng} {lo hi j : Nat} (h : r.genRange lo hi = .ok (j, r')) :
    lo ≤ j ∧ j < hi := by
  unfold Rng.genRange at h
  split at h
  · rename_i hlt
    simp only [Out.ok.injEq, Prod.mk.injEq] at h
    have := Nat.mod_lt (r.next 0) (by omega : 0 < hi - lo)
    omega
  · cases h

theorem swapAt_lt {l : List Nat} {i j : Nat} (hi : i < l.length) (hj : j < l.length) :
    swapAt l i j = .ok ((l.set i l[j]).set j l[i]) := by
  unfold swapAt
  rw [at?_lt hi, at?_lt hj]; rfl

theorem swap_perm (l : List Nat) (i j : Nat) (hi : i < l.length) (hj : j < l.length) :
    ((l.set i l[j]).set j l[i]).Perm l := List.set_set_perm hi hj

theorem shuffleLoop_spec : ∀ (k i : Nat) (r : Rng) (buf : List Nat),
    (i + k ≤ buf.length → ∃ o, shuffleLoop k i r buf = .ok o) ∧
    (∀ o, shuffleLoop k i r buf = .ok o → o.1.Perm buf ∧ (0 < k → i + k ≤ buf.length)) := by
  intro k
  induction k with
  | zero =>
    intro i r buf
    refine ⟨fun _ => ⟨_, rfl⟩, fun o ho => ?_⟩
    simp only [shuffleLoop, Out.ok.injEq] at ho
    subst ho
    exact ⟨List.Perm.refl _, fun h => absurd h (by omega)⟩
  | succ k ih =>
    intro i r buf
    constructor
    · intro h
      simp only [shuffleLoop]
      have hg : ∃ j r', r.genRange i buf.length = .ok (j, r') := by
        unfold Rng.genRange
        rw [if_pos (by omega)]
        exact ⟨_, _, rfl⟩
      obtain ⟨j, r', hj⟩ := hg
      have hb := genRange_ok hj
      rw [hj]
      simp only [Out.ok_bind]
      rw [swapAt_lt (by omega) hb.2, Out.ok_bind]
      exact (ih (i + 1) r' _).1 (by simp; omega)
    · intro o ho
      simp only [shuffleLoop] at ho
      obtain ⟨⟨j, r'⟩, hj, ho⟩ := Out.bind_eq_ok.1 ho
      have hb := genRange_ok hj
      simp only at ho
      rw [swapAt_lt (by omega) hb.2, Out.ok_bind] at ho
      obtain ⟨h1, h2⟩ := (ih (i + 1) r' _).2 o ho
      refine ⟨h1.trans (swap_perm _ _ _ (by omega) hb.2), fun _ => ?_⟩
      rcases Nat.eq_zero_or_pos k with rfl | hk
      · omega
      · have := h2 hk; simp at this; omega

theorem shuffleFirstK_spec {r r' : Rng} {k : Nat} {buf buf' : List Nat}
    (h : shuffleFirstK r k buf = .ok (buf', r')) :
    buf'.Perm buf ∧ k ≤ buf.length ∧ (buf'.take k).Pairwise (· ≤ ·) := by
  unfold shuffleFirstK at h
  obtain ⟨⟨b, r1⟩, e1, h⟩ := Out.bind_eq_ok.1 h
  obtain ⟨_, e2, h⟩ := Out.bind_eq_ok.1 h
  simp only [Out.pure_eq, Out.ok.injEq, Prod.mk.injEq] at h
  rw [assert_ok] at e2
  simp only [decide_eq_true_eq] at e2
  obtain ⟨hp, _⟩ := (shuffleLoop_spec k 0 r buf).2 _ e1
  have hl := hp.length_eq
  simp only at hp hl
  have hms := List.perm_insertionSort (· ≤ ·) (b.take k)
  obtain ⟨rfl, rfl⟩ := h
  refine ⟨?_, by omega, ?_⟩
  · refine List.Perm.trans ?_ hp
    conv_rhs => rw [← List.take_append_drop k b]
    exact hms.append_right _
  · rw [List.take_append_of_le_length (by rw [hms.length_eq]; simp; omega),
      List.take_of_length_le (by rw [hms.length_eq]; simp)]
    exact List.pairwise_insertionSort _ _

theorem shuffleFirstK_total (r : Rng) {k : Nat} {buf : List Nat} (h : k ≤ buf.length) :
    ∃ o, shuffleFirstK r k buf = .ok o := by
  obtain ⟨⟨b, r1⟩, e1⟩ := (shuffleLoop_spec k 0 r buf).1 (by omega)
  have hl := ((shuffleLoop_spec k 0 r buf).2 _ e1).1.length_eq
  simp only at hl
  unfold shuffleFirstK
  rw [e1]
  simp only [Out.ok_bind]
  rw [show decide (k ≤ b.length) = true by simp; omega]
  exact ⟨_, rfl⟩

/-- Every choice of different elements of the buffer is drawn by some generator. -/
theorem shuffleLoop_reach : ∀ (T : List Nat) (i : Nat) (buf : List Nat), buf.Nodup → T.Nodup →
    (∀ t ∈ T, t ∈ buf.drop i) →
    ∃ r r' buf', shuffleLoop T.length i r buf = .ok (buf', r') ∧ buf'.take (i + T.length) = buf.take i ++ T := by
  intro T
  induction T with
  | nil => intro i buf _ _ _; exact ⟨⟨fun _ => 0⟩, _, _, rfl, by simp⟩
  | cons t T ih =>
    intro i buf hb hT hsub
    rw [List.nodup_cons] at hT
    obtain ⟨m, hm, hmt⟩ := List.getElem_of_mem (hsub t (by simp))
    rw [List.length_drop] at hm
    rw [List.getElem_drop] at hmt
    have hi : i < buf.length := by omega
    have hj : i + m < buf.length := by omega
    have hperm := swap_perm buf i (i + m) hi hj
    have hlen : ((buf.set i buf[i + m]).set (i + m) buf[i]).length = buf.length := by simp
    have hat : ((buf.set i buf[i + m]).set (i + m) buf[i])[i]'(by omega) = t := by
      rw [List.getElem_set]
      split
      · rename_i h; simp only [← hmt]; congr 1; omega
      · rw [List.getElem_set_self]; exact hmt
    have htake : ((buf.set i buf[i + m]).set (i + m) buf[i]).take i = buf.take i := by
      rw [List.take_set_of_le (by omega), List.take_set_of_le (by omega)]
    obtain ⟨r, r', buf', h1, h2⟩ := ih (i + 1) _ (hperm.nodup_iff.2 hb) hT.2 (by
      intro x hx
      have hxd := hsub x (by simp [hx])
      have hxb : x ∈ (buf.set i buf[i + m]).set (i + m) buf[i] := hperm.mem_iff.2 (List.mem_of_mem_drop hxd)
      rw [← List.take_append_drop (i + 1) ((buf.set i buf[i + m]).set (i + m) buf[i]), List.mem_append] at hxb
      rcases hxb with hxb | hxb
      · exfalso
        rw [List.take_add_one, List.mem_append, htake, List.getElem?_eq_getElem (by omega), hat] at hxb
        rcases hxb with hxb | hxb
        · rw [← List.take_append_drop i buf, List.nodup_append] at hb
          exact hb.2.2 x hxb x hxd rfl
        · simp at hxb; exact hT.1 (hxb ▸ hx)
      · exact hxb)
    refine ⟨⟨fun n => if n = 0 then m else r.next (n - 1)⟩, r', buf', ?_, ?_⟩
    · simp only [List.length_cons, shuffleLoop, Rng.genRange]
      rw [if_pos hi]
      have hmod : m % (buf.length - i) = m := Nat.mod_eq_of_lt (by omega)
      simp only [if_true, hmod, Out.ok_bind]
      rw [swapAt_lt hi hj, Out.ok_bind]
      simpa using h1
    · rw [List.length_cons, show i + (T.length + 1) = i + 1 + T.length by omega, h2, List.take_add_one, htake,
        List.getElem?_eq_getElem (by omega), hat]
      simp

theorem shuffleFirstK_reach (S buf : List Nat) (hb : buf.Nodup) (hS : S.Pairwise (· < ·))
    (hsub : ∀ t ∈ S, t ∈ buf) :
    ∃ r r' buf', shuffleFirstK r S.length buf = .ok (buf', r') ∧ buf'.take S.length = S := by
  have hnd : S.Nodup := hS.imp (by intro a b hab; omega)
  obtain ⟨r, r', b, h1, h2⟩ := shuffleLoop_reach S 0 buf hb hnd (by simpa using hsub)
  simp only [Nat.zero_add, List.take_zero, List.nil_append] at h2
  have hle : S.length ≤ b.length := by
    have := congrArg List.length h2
    rw [List.length_take] at this; omega
  have hso : S.insertionSort (· ≤ ·) = S :=
    List.Pairwise.insertionSort_eq (hS.imp (by intro a b hab; omega))
  refine ⟨r, r', S ++ b.drop S.length, ?_, by simp⟩
  unfold shuffleFirstK
  rw [h1]
  simp only [Out.ok_bind, hle, decide_true, Out.assert, if_true, h2, hso, Out.pure_eq]

namespace Dataset

theorem skipActive_spec : ∀ (as : List Nat) (index : Nat), as.Pairwise (· < ·) →
    (∀ a ∈ as, index ≤ a) →
    index ≤ (skipActive as index).2 ∧ (skipActive as index).1.Pairwise (· < ·) ∧
      (∀ a ∈ (skipActive as index).1, (skipActive as index).2 < a) ∧
      (∀ x, x ∈ as ↔ (index ≤ x ∧ x < (skipActive as index).2) ∨ x ∈ (skipActive as index).1) := by
  intro as
  induction as with
  | nil => intro index _ _; simp [skipActive]
  | cons a as ih =>
    intro index hs hge
    rw [List.pairwise_cons] at hs
    simp only [skipActive]
    split
    · rename_i ha
      subst ha
      obtain ⟨h1, h2, h3, h4⟩ := ih (a + 1) hs.2 (fun x hx => hs.1 x hx)
      refine ⟨by omega, h2, h3, fun x => ?_⟩
      rw [List.mem_cons, h4 x]
      constructor
      · rintro (rfl | ⟨h5, h6⟩ | h)
        · left; omega
        · left; omega
        · right; exact h
      · rintro (⟨h5, h6⟩ | h)
        · by_cases hx : x = a
          · left; exact hx
          · right; left; omega
        · right; right; exact h
    · rename_i ha
      refine ⟨Nat.le_refl _, List.pairwise_cons.2 hs, ?_, fun x => ?_⟩
      · intro x hx
        rcases List.mem_cons.1 hx with rfl | hx
        · have := hge x (by simp); simp only; omega
        · have h1 := hge a (by simp); have h2 := hs.1 x hx; simp only; omega
      · constructor
        · intro h; right; exact h
        · rintro (⟨h5, h6⟩ | h)
          · simp only at h6; omega
          · exact h

/-- The iterator over the inactive examples yields the numbers from `index` on that are not active, in
increasing order. -/
theorem inactiveLoop_spec (n : Nat) : ∀ (m : Nat) (as : List Nat) (index : Nat), m = n - index →
    as.Pairwise (· < ·) → (∀ a ∈ as, index ≤ a) →
    inactiveLoop n as index = (List.range' index (n - index)).filter (fun x => decide (x ∉ as)) := by
  intro m
  induction m using Nat.strong_induction_on with
  | _ m ih =>
    intro as index hm hs hge
    obtain ⟨h1, h2, h3, h4⟩ := skipActive_spec as index hs hge
    rw [inactiveLoop]
    generalize skipActive as index = s at *
    have hfront : ∀ len, (∀ x, index ≤ x → x < index + len → x ∈ as) →
        (List.range' index len).filter (fun x => decide (x ∉ as)) = [] := by
      intro len hx
      rw [List.filter_eq_nil_iff]
      intro x hx'
      rw [List.mem_range'_1] at hx'
      simpa using hx x hx'.1 hx'.2
    by_cases hlt : s.2 < n
    · simp only [hlt, dite_true]
      rw [ih (n - (s.2 + 1)) (by omega) s.1 (s.2 + 1) rfl h2 (fun a ha => h3 a ha)]
      have e : n - index = (s.2 - index) + (1 + (n - (s.2 + 1))) := by omega
      rw [e, ← List.range'_append_1, List.filter_append, hfront _ (fun x hx1 hx2 =>
        (h4 x).2 (Or.inl ⟨hx1, by omega⟩)), List.nil_append, ← List.range'_append_1, List.filter_append]
      have e2 : index + (s.2 - index) = s.2 := by omega
      rw [e2]
      have hns : s.2 ∉ as := by
        rw [h4]; rintro (h | h)
        · omega
        · have := h3 _ h; omega
      rw [show List.range' s.2 1 = [s.2] from rfl, List.filter_cons_of_pos (by simpa using hns)]
      simp only [List.filter_nil, List.cons_append, List.nil_append]
      congr 1
      apply List.filter_congr
      intro x hx
      rw [List.mem_range'_1] at hx
      apply decide_eq_decide.2
      rw [h4 x]
      constructor
      · rintro h (h' | h')
        · omega
        · exact h h'
      · exact fun h h' => h (Or.inr h')
    · simp only [hlt, dite_false]
      symm
      apply hfront
      intro x hx1 hx2
      exact (h4 x).2 (Or.inl ⟨hx1, by omega⟩)

end Dataset
end BitBoost
