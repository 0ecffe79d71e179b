import Verif.Model.Objective
import Verif.Lemmas.Num
import Mathlib.Data.List.Nodup
/-! Facts about the model of the objectives. -/
namespace BitBoost.Objective

theorem forExamples_ok {α : Type} (f : Nat → Out α) (g : Nat → α) (is : List Nat)
    (h : ∀ i ∈ is, f i = .ok (g i)) : forExamples f is = .ok (is.map g) := by
  induction is with
  | nil => rfl
  | cons i is ih =>
    simp only [forExamples]
    rw [h i (by simp), ih (fun j hj => h j (by simp [hj]))]
    rfl

theorem forExamples_inv {α : Type} (f : Nat → Out α) (is : List Nat) (xs : List α)
    (h : forExamples f is = .ok xs) : is.map f = xs.map Out.ok := by
  induction is generalizing xs with
  | nil => simp [forExamples] at h; subst h; rfl
  | cons i is ih =>
    simp only [forExamples] at h
    rw [Out.bind_eq_ok] at h
    obtain ⟨x, hx, h⟩ := h
    rw [Out.bind_eq_ok] at h
    obtain ⟨ys, hy, h⟩ := h
    simp at h; subst h
    simp [hx, ih ys hy]

/-- What the update loop does with the predictions. -/
def bump (F : FP) (value : Num) (is : List Nat) (preds : List Num) : List Num :=
  preds.mapIdx fun j p => if j ∈ is then F.add p value else p

@[simp] theorem bump_length (F : FP) (value : Num) (is : List Nat) (preds : List Num) :
    (bump F value is preds).length = preds.length := by simp [bump]

theorem bump_get (F : FP) (value : Num) (is : List Nat) (preds : List Num) (j : Nat) :
    (bump F value is preds)[j]? = preds[j]?.map fun p => if j ∈ is then F.add p value else p := by
  simp [bump]

theorem addLoop_inv (F : FP) (value : Num) : ∀ (is : List Nat) (preds r : List Num),
    is.Nodup → addLoop F value is preds = .ok r →
    r = bump F value is preds ∧ ∀ i ∈ is, ∃ p, preds[i]? = some p ∧ (F.add p value).isFinite = true := by
  intro is
  induction is with
  | nil =>
    intro preds r _ h
    simp [addLoop] at h
    subst h
    simp only [List.not_mem_nil, false_imp_iff, implies_true, and_true]
    apply List.ext_getElem?
    intro j; simp [bump_get]
  | cons i is ih =>
    intro preds r hn h
    rw [List.nodup_cons] at hn
    simp only [addLoop] at h
    cases hp : preds[i]? with
    | none => rw [hp] at h; simp at h
    | some p =>
      rw [hp] at h
      simp only at h
      rw [Out.bind_eq_ok] at h
      obtain ⟨_, ha, h⟩ := h
      have hfin : (F.add p value).isFinite = true := by
        by_contra hc
        simp only [Bool.not_eq_true] at hc
        simp [hc] at ha
      obtain ⟨e, hall⟩ := ih _ _ hn.2 h
      have hi : i < preds.length := by
        by_contra hc; rw [List.getElem?_eq_none (by omega)] at hp; simp at hp
      refine ⟨?_, ?_⟩
      · subst e
        apply List.ext_getElem?
        intro j
        rw [bump_get, bump_get, List.getElem?_set]
        by_cases hj : i = j
        · subst hj
          rw [hp]; simp [hn.1, hi]
        · simp [hj, Ne.symm hj]
      · intro j hj
        rcases List.mem_cons.1 hj with rfl | hj
        · exact ⟨p, hp, hfin⟩
        · obtain ⟨p', h1, h2⟩ := hall j hj
          have : j ≠ i := fun hc => hn.1 (hc ▸ hj)
          rw [List.getElem?_set_ne (Ne.symm this)] at h1
          exact ⟨p', h1, h2⟩

theorem addLoop_ok (F : FP) (value : Num) : ∀ (is : List Nat) (preds : List Num),
    is.Nodup → (∀ i ∈ is, ∃ p, preds[i]? = some p ∧ (F.add p value).isFinite = true) →
    addLoop F value is preds = .ok (bump F value is preds) := by
  intro is
  induction is with
  | nil =>
    intro preds _ _
    simp only [addLoop]
    congr 1
    apply List.ext_getElem?
    intro j; simp [bump_get]
  | cons i is ih =>
    intro preds hn hall
    rw [List.nodup_cons] at hn
    obtain ⟨p, hp, hfin⟩ := hall i (by simp)
    have hi : i < preds.length := by
      by_contra hc; rw [List.getElem?_eq_none (by omega)] at hp; simp at hp
    simp only [addLoop, hp, hfin, Out.assert_true, Out.ok_bind]
    rw [ih _ hn.2]
    · congr 1
      apply List.ext_getElem?
      intro j
      rw [bump_get, bump_get, List.getElem?_set]
      by_cases hj : i = j
      · subst hj
        rw [hp]; simp [hn.1, hi]
      · simp [hj, Ne.symm hj]
    · intro j hj
      obtain ⟨p', h1, h2⟩ := hall j (by simp [hj])
      have : j ≠ i := fun hc => hn.1 (hc ▸ hj)
      exact ⟨p', by rw [List.getElem?_set_ne (Ne.symm this)]; exact h1, h2⟩

theorem sum_exact (l : List ℚ) : FP.exact.sum (l.map Num.fin) = .fin l.sum := by
  suffices H : ∀ a : ℚ, (l.map Num.fin).foldl FP.exact.add (.fin a) = .fin (a + l.sum) by
    simpa [FP.sum] using H 0
  induction l with
  | nil => intro a; simp
  | cons x l ih =>
    intro a
    simp only [List.map_cons, List.foldl_cons]
    have : FP.exact.add (.fin a) (.fin x) = .fin (a + x) := rfl
    rw [this, ih]
    simp [add_assoc]

theorem limits_min (l : List Num) (a : Num) (ha : a ≠ .nan) (h : ∀ x ∈ l, x ≠ .nan) :
    let m := l.foldl (fun a t => Num.min t a) a
    m ≠ .nan ∧ m.le a = true ∧ (∀ x ∈ l, m.le x = true) ∧ (m = a ∨ m ∈ l) := by
  induction l generalizing a with
  | nil => simp [ha, Num.le_refl ha]
  | cons y l ih =>
    intro m
    have hy : y ≠ .nan := h y (by simp)
    have hm : Num.min y a ≠ .nan := Num.min_ne_nan hy
    obtain ⟨h1, h2, h3, h4⟩ := ih (Num.min y a) hm (fun x hx => h x (by simp [hx]))
    have e : Num.min y a = y ∨ Num.min y a = a := by
      unfold Num.min; split_ifs <;> simp
    have l1 : (Num.min y a).le y = true := Num.min_le_left hy ha
    have l2 : (Num.min y a).le a = true := by
      unfold Num.min
      split_ifs with c1 c2 c3
      · exact Num.le_refl ha
      · exact absurd (Num.isNan_iff.1 c2) ha
      · exact c3
      · exact Num.le_refl ha
    refine ⟨h1, Num.le_trans h2 l2, ?_, ?_⟩
    · intro x hx
      rcases List.mem_cons.1 hx with rfl | hx
      · exact Num.le_trans h2 l1
      · exact h3 x hx
    · rcases h4 with h4 | h4
      · rcases e with e | e
        · right; rw [show m = y from h4.trans e]; simp
        · left; exact h4.trans e
      · right; exact List.mem_cons_of_mem _ h4

theorem limits_max (l : List Num) (a : Num) (ha : a ≠ .nan) (h : ∀ x ∈ l, x ≠ .nan) :
    let m := l.foldl (fun a t => Num.max t a) a
    m ≠ .nan ∧ a.le m = true ∧ (∀ x ∈ l, x.le m = true) ∧ (m = a ∨ m ∈ l) := by
  induction l generalizing a with
  | nil => simp [ha, Num.le_refl ha]
  | cons y l ih =>
    intro m
    have hy : y ≠ .nan := h y (by simp)
    have hm : Num.max y a ≠ .nan := Num.max_ne_nan hy
    obtain ⟨h1, h2, h3, h4⟩ := ih (Num.max y a) hm (fun x hx => h x (by simp [hx]))
    have e : Num.max y a = y ∨ Num.max y a = a := by
      unfold Num.max; split_ifs <;> simp
    have l1 : y.le (Num.max y a) = true := Num.le_max_left hy
    have l2 : a.le (Num.max y a) = true := by
      unfold Num.max
      split_ifs with c1 c2 c3
      · exact Num.le_refl ha
      · exact absurd (Num.isNan_iff.1 c2) ha
      · exact Num.le_refl ha
      · rcases Num.le_total hy ha with h | h
        · exact absurd h c3
        · exact h
    refine ⟨h1, Num.le_trans l2 h2, ?_, ?_⟩
    · intro x hx
      rcases List.mem_cons.1 hx with rfl | hx
      · exact Num.le_trans l1 h2
      · exact h3 x hx
    · rcases h4 with h4 | h4
      · rcases e with e | e
        · right; rw [show m = y from h4.trans e]; simp
        · left; exact h4.trans e
      · right; exact List.mem_cons_of_mem _ h4

/-- The limits of a non-empty list of numbers are its least and greatest elements. -/
theorem limitsOf_spec (l : List Num) (hne : l ≠ []) (h : ∀ x ∈ l, x ≠ .nan) :
    (limitsOf l).1 ∈ l ∧ (limitsOf l).2 ∈ l ∧
      ∀ x ∈ l, (limitsOf l).1.le x = true ∧ x.le (limitsOf l).2 = true := by
  obtain ⟨a1, _, a3, a4⟩ := limits_min l .pinf (by simp) h
  obtain ⟨b1, _, b3, b4⟩ := limits_max l .ninf (by simp) h
  obtain ⟨y, hy⟩ := List.exists_mem_of_ne_nil l hne
  refine ⟨?_, ?_, fun x hx => ⟨a3 x hx, b3 x hx⟩⟩
  · rcases a4 with a4 | a4
    · have := a3 y hy
      rw [a4] at this
      have : y = .pinf := by cases y <;> simp_all [Num.le]
      simp only [limitsOf, a4]; rw [← this]; exact hy
    · exact a4
  · rcases b4 with b4 | b4
    · have := b3 y hy
      rw [b4] at this
      have : y = .ninf := by cases y <;> simp_all [Num.le]
      simp only [limitsOf, b4]; rw [← this]; exact hy
    · exact b4

theorem limitsOf_nil : limitsOf [] = (.pinf, .ninf) := rfl

end BitBoost.Objective
