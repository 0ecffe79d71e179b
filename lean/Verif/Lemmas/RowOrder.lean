import Verif.Spec.RowOrder
import Verif.Lemmas.Objective
import Verif.Lemmas.Binner
/-! Helper lemmas for the order of the rows: lists, sums, bins and objectives. -/
namespace BitBoost

/-- If the first computation succeeds, so does the second one, with a related result. -/
def Out.Leads {α β : Type} (R : α → β → Prop) (x : Out α) (y : Out β) : Prop :=
  ∀ a, x = .ok a → ∃ b, y = .ok b ∧ R a b

namespace Out

theorem Leads.bind {α β γ δ : Type} {R : α → β → Prop} {S : γ → δ → Prop} {x : Out α} {y : Out β} {f : α → Out γ}
    {g : β → Out δ} (h : Leads R x y) (hf : ∀ a b, x = .ok a → R a b → Leads S (f a) (g b)) :
    Leads S (x >>= f) (y >>= g) := by
  intro c hc
  obtain ⟨a, e1, e2⟩ := Out.bind_eq_ok.1 hc
  obtain ⟨b, e3, hab⟩ := h a e1
  obtain ⟨d, e4, h4⟩ := hf a b e1 hab c e2
  exact ⟨d, by rw [e3, Out.ok_bind, e4], h4⟩

theorem Leads.same {α γ δ : Type} {S : γ → δ → Prop} {x : Out α} {f : α → Out γ} {g : α → Out δ}
    (hf : ∀ a, x = .ok a → Leads S (f a) (g a)) : Leads S (x >>= f) (x >>= g) :=
  Leads.bind (R := Eq) (fun a e => ⟨a, e, rfl⟩) fun a b e h => by rw [← h]; exact hf a e

theorem Leads.ok {α β : Type} {R : α → β → Prop} {a : α} {b : β} (h : R a b) : Leads R (.ok a) (.ok b) := by
  intro x hx
  cases hx
  exact ⟨b, rfl, h⟩

theorem Leads.refl {α : Type} (x : Out α) : Leads Eq x x := fun a e => ⟨a, e, rfl⟩

theorem Leads.of_eq {α : Type} {x y : Out α} (h : x = y) : Leads Eq x y := by rw [h]; exact Leads.refl y

theorem Leads.mono {α β : Type} {R S : α → β → Prop} {x : Out α} {y : Out β} (h : Leads R x y)
    (hRS : ∀ a b, x = .ok a → y = .ok b → R a b → S a b) : Leads S x y := by
  intro a e
  obtain ⟨b, e', hab⟩ := h a e
  exact ⟨b, e', hRS a b e e' hab⟩

end Out

/-! ### Reordered lists -/
namespace Spec
variable {α β γ : Type} {σ : List Nat}

theorem Reordered.length_left {xs ys : List α} (h : Reordered σ xs ys) : xs.length = σ.length := h.1

theorem Reordered.length_right {xs ys : List α} (h : Reordered σ xs ys) : ys.length = σ.length := by
  have := congrArg List.length h.2
  simpa using this

theorem Reordered.get {xs ys : List α} (h : Reordered σ xs ys) {i j : Nat} (hi : σ[i]? = some j) : ys[i]? = xs[j]? := by
  have h2 := congrArg (fun l : List (Option α) => l[i]?) h.2
  simp only [List.getElem?_map, hi, Option.map_some] at h2
  cases hy : ys[i]? with
  | none =>
    rw [hy] at h2
    simp at h2
  | some y =>
    rw [hy] at h2
    simp only [Option.map_some, Option.some.injEq] at h2
    exact h2

theorem Reordered.of_get {xs ys : List α} (h1 : xs.length = σ.length) (h2 : ys.length = σ.length)
    (h3 : ∀ i j : Nat, σ[i]? = some j → ys[i]? = xs[j]? ∧ j < xs.length) : Reordered σ xs ys := by
  refine ⟨h1, List.ext_getElem? fun i => ?_⟩
  rw [List.getElem?_map, List.getElem?_map]
  cases hi : σ[i]? with
  | none =>
    have : σ.length ≤ i := List.getElem?_eq_none_iff.1 hi
    rw [List.getElem?_eq_none (by omega)]
    rfl
  | some j =>
    obtain ⟨e, hj⟩ := h3 i j hi
    rw [e, List.getElem?_eq_getElem hj]
    simp [hj]

theorem perm_lt {n i j : Nat} (hσ : σ.Perm (List.range n)) (h : σ[i]? = some j) : j < n :=
  List.mem_range.1 (hσ.mem_iff.1 (List.mem_of_getElem? h))

theorem perm_length {n : Nat} (hσ : σ.Perm (List.range n)) : σ.length = n := by simpa using hσ.length_eq

theorem Reordered.perm {n : Nat} (hσ : σ.Perm (List.range n)) {xs ys : List α} (h : Reordered σ xs ys) : ys.Perm xs := by
  have hl : xs.length = n := by rw [h.1, perm_length hσ]
  have h1 : (ys.map some).Perm ((List.range n).map fun i => xs[i]?) := by
    rw [h.2]; exact hσ.map _
  have h2 : ((List.range n).map fun i => xs[i]?) = xs.map some := by
    apply List.ext_getElem?
    intro i
    rw [List.getElem?_map, List.getElem?_map]
    by_cases hi : i < n
    · rw [List.getElem?_range hi, List.getElem?_eq_getElem (by omega)]
      simp [show i < xs.length by omega]
    · rw [List.getElem?_eq_none (by simpa using hi), List.getElem?_eq_none (by omega)]
      rfl
  rw [h2] at h1
  exact (List.map_perm_map_iff (Option.some_injective α)).1 h1

theorem Reordered.map {xs ys : List α} (h : Reordered σ xs ys) (f : α → β) : Reordered σ (xs.map f) (ys.map f) := by
  refine ⟨by simpa using h.1, ?_⟩
  have := congrArg (List.map (Option.map f)) h.2
  simpa [Function.comp_def] using this

theorem Reordered.zipWith {n : Nat} (hσ : σ.Perm (List.range n)) {xs ys : List α} {us vs : List β} (f : α → β → γ)
    (h : Reordered σ xs ys) (g : Reordered σ us vs) : Reordered σ (List.zipWith f xs us) (List.zipWith f ys vs) := by
  have a := h.length_left
  have b := h.length_right
  have c := g.length_left
  have d := g.length_right
  refine Reordered.of_get (by simp; omega) (by simp; omega) ?_
  intro i j hi
  have hj := perm_lt hσ hi
  have := perm_length hσ
  refine ⟨?_, by simp; omega⟩
  rw [List.getElem?_zipWith, List.getElem?_zipWith, h.get hi, g.get hi]

theorem Reordered.zip {n : Nat} (hσ : σ.Perm (List.range n)) {xs ys : List α} {us vs : List β}
    (h : Reordered σ xs ys) (g : Reordered σ us vs) : Reordered σ (xs.zip us) (ys.zip vs) :=
  Reordered.zipWith hσ Prod.mk h g

theorem Reordered.replicate {n : Nat} (hσ : σ.Perm (List.range n)) (a : α) :
    Reordered σ (List.replicate n a) (List.replicate n a) := by
  have := perm_length hσ
  refine Reordered.of_get (by simp; omega) (by simp; omega) ?_
  intro i j hi
  have hj := perm_lt hσ hi
  have hi' := (List.getElem?_eq_some_iff.1 hi).1
  refine ⟨?_, by simpa using hj⟩
  rw [List.getElem?_replicate_of_lt (by omega), List.getElem?_replicate_of_lt hj]

/-- The inverse order. -/
theorem exists_inverse {n : Nat} (hσ : σ.Perm (List.range n)) : ∃ τ : List Nat, τ.Perm (List.range n) ∧
    ∀ {α : Type} {xs ys : List α}, Reordered σ xs ys → Reordered τ ys xs := by
  have hl := perm_length hσ
  have hnd : σ.Nodup := hσ.nodup_iff.2 List.nodup_range
  have hmem : ∀ j, j < n → j ∈ σ := fun j hj => hσ.mem_iff.2 (List.mem_range.2 hj)
  refine ⟨(List.range n).map fun j => σ.idxOf j, ?_, ?_⟩
  · apply (List.perm_ext_iff_of_nodup ?_ List.nodup_range).2
    · intro i
      rw [List.mem_map, List.mem_range]
      constructor
      · rintro ⟨j, hj, rfl⟩
        rw [← hl]
        exact List.idxOf_lt_length_of_mem (hmem j (List.mem_range.1 hj))
      · intro hi
        have hi' : i < σ.length := by omega
        refine ⟨σ[i], List.mem_range.2 (List.mem_range.1 (hσ.mem_iff.1 (List.getElem_mem hi'))), ?_⟩
        exact hnd.idxOf_getElem i hi'
    · apply List.Nodup.map_on ?_ List.nodup_range
      intro x hx y hy hxy
      have h1 := hmem x (List.mem_range.1 hx)
      exact (List.idxOf_inj h1).1 hxy
  · intro α xs ys h
    have a := h.length_left
    have b := h.length_right
    refine Reordered.of_get (by simp; omega) (by simp; omega) ?_
    intro i j hi
    rw [List.getElem?_map] at hi
    obtain ⟨k, hk, rfl⟩ := Option.map_eq_some_iff.1 hi
    have hin : i < n := by simpa using (List.getElem?_eq_some_iff.1 hk).1
    rw [List.getElem?_range hin] at hk
    cases hk
    have hlt : σ.idxOf i < σ.length := List.idxOf_lt_length_of_mem (hmem i hin)
    refine ⟨?_, by omega⟩
    have : σ[σ.idxOf i]? = some i := by
      rw [List.getElem?_eq_getElem hlt]
      simp
    exact (h.get this).symm

end Spec

/-! ### Sums, limits, bins -/
open Spec

theorem FP.sum_perm {F : FP} (hF : OrderFree F) {l l' : List Num} (h : l.Perm l') : F.sum l = F.sum l' :=
  h.foldl_eq' (fun x _ y _ z => hF z x y) _

/-- Gradients that are 1, -1 or missing, as those of the absolute loss. -/
def Signs (l : List Num) : Prop := ∀ x ∈ l, x = .fin 1 ∨ x = .fin (-1) ∨ x = .nan

/-- Gradients whose sums do not depend on the order. -/
def FreeGrads (F : FP) (g : List Num) : Prop := OrderFree F ∨ (Signs g ∧ g.length ≤ 2 ^ 24)

theorem FP.add_nan (F : FP) (x : Num) : F.add x .nan = .nan := by cases x <;> rfl

theorem FP.nan_add (F : FP) (x : Num) : F.add .nan x = .nan := by cases x <;> rfl

theorem FP.foldl_nan (F : FP) : ∀ l : List Num, l.foldl F.add .nan = .nan
  | [] => rfl
  | x :: l => by rw [List.foldl_cons, F.nan_add]; exact F.foldl_nan l

theorem FP.foldl_signs (F : FP) : ∀ (l : List Num) (m : ℤ), Signs l → |m| + l.length ≤ 2 ^ 24 →
    l.foldl F.add (.fin m) = if Num.nan ∈ l then .nan
      else .fin ((m + l.count (.fin 1) - l.count (.fin (-1)) : ℤ) : ℚ)
  | [], m, _, _ => by simp
  | x :: l, m, hs, hl => by
      have hs' : Signs l := fun y hy => hs y (by simp [hy])
      simp only [List.length_cons, Nat.cast_add, Nat.cast_one] at hl
      rw [List.foldl_cons]
      have ha := abs_add_le m 1
      have hb := abs_sub m 1
      simp only [abs_one] at ha hb
      rcases hs x (by simp) with rfl | rfl | rfl
      · have : F.add (.fin m) (.fin 1) = .fin ((m + 1 : ℤ) : ℚ) := by
          have := F.int (m + 1) (by omega)
          push_cast at this ⊢
          exact this
        rw [this, F.foldl_signs l (m + 1) hs' (by omega)]
        have h1 : (Num.nan ∈ Num.fin 1 :: l) ↔ Num.nan ∈ l := by simp
        have h2 : List.count (Num.fin (-1)) (Num.fin 1 :: l) = List.count (Num.fin (-1)) l := by
          rw [List.count_cons_of_ne]
          simp only [ne_eq, Num.fin.injEq]
          norm_num
        simp only [h1, h2, List.count_cons_self]
        split_ifs
        · rfl
        · congr 1
          push_cast
          ring
      · have : F.add (.fin m) (.fin (-1)) = .fin ((m - 1 : ℤ) : ℚ) := by
          have := F.int (m - 1) (by omega)
          push_cast at this ⊢
          rw [sub_eq_add_neg] at this ⊢
          exact this
        rw [this, F.foldl_signs l (m - 1) hs' (by omega)]
        have h1 : (Num.nan ∈ Num.fin (-1) :: l) ↔ Num.nan ∈ l := by simp
        have h2 : List.count (Num.fin 1) (Num.fin (-1) :: l) = List.count (Num.fin 1) l := by
          rw [List.count_cons_of_ne]
          simp only [ne_eq, Num.fin.injEq]
          norm_num
        simp only [h1, h2, List.count_cons_self]
        split_ifs
        · rfl
        · congr 1
          push_cast
          ring
      · rw [F.add_nan, F.foldl_nan, if_pos (by simp)]

theorem FreeGrads.foldl {F : FP} {l l' : List Num} (hF : FreeGrads F l) (h : l'.Perm l) :
    l'.foldl F.add (.fin 0) = l.foldl F.add (.fin 0) := by
  rcases hF with hF | ⟨hs, hl⟩
  · exact h.foldl_eq' (fun x _ y _ z => hF z x y) _
  · have hs' : Signs l' := fun x hx => hs x (h.mem_iff.1 hx)
    have e : (Num.fin 0) = Num.fin ((0 : ℤ) : ℚ) := by simp
    have hlen := h.length_eq
    rw [e, F.foldl_signs l 0 hs (by simp; omega), F.foldl_signs l' 0 hs' (by simp; omega), h.count_eq, h.count_eq]
    simp only [h.mem_iff]

theorem exact_orderFree : OrderFree FP.exact := by
  intro a b c
  cases a <;> cases b <;> cases c <;> simp [FP.add, FP.exact]
  ring

theorem Num.min_left_comm (x y a : Num) : Num.min x (Num.min y a) = Num.min y (Num.min x a) := by
  cases x <;> cases y <;> cases a <;> simp [Num.min, Num.isNan, Num.le] <;>
    (try split_ifs) <;> (try simp_all) <;> (try linarith)

theorem Num.max_left_comm (x y a : Num) : Num.max x (Num.max y a) = Num.max y (Num.max x a) := by
  cases x <;> cases y <;> cases a <;> simp [Num.max, Num.isNan, Num.le] <;>
    (try split_ifs) <;> (try simp_all) <;> (try linarith)

namespace Objective

theorem limitsOf_perm {l l' : List Num} (h : l.Perm l') : limitsOf l = limitsOf l' := by
  unfold limitsOf
  rw [h.foldl_eq' (fun x _ y _ z => Num.min_left_comm y x z),
    h.foldl_eq' (fun x _ y _ z => Num.max_left_comm y x z)]

end Objective

namespace Binner
variable {β δ : Type}

theorem insertAll_perm_on (F : FP) (comb : δ → β → β) {l l' : List (Num × δ)}
    (hc : ∀ p ∈ l, ∀ q ∈ l, ∀ x, comb p.2 (comb q.2 x) = comb q.2 (comb p.2 x))
    (h : l.Perm l') (b : Binner β) : insertAll F comb b l = insertAll F comb b l' := by
  by_cases hne : b.bins = []
  · cases l with
    | nil => rw [List.nil_perm.1 h]
    | cons p l =>
      cases l' with
      | nil => exact absurd h.length_eq (by simp)
      | cons p' l' =>
        obtain ⟨v, d⟩ := p
        obtain ⟨v', d'⟩ := p'
        simp only [insertAll, insert, hne, List.getElem?_nil, Out.panic_bind]
  · obtain ⟨b1, e1, m1, d1, l1, c1⟩ := insertAll_ok F comb l b hne
    obtain ⟨b2, e2, m2, d2, l2, c2⟩ := insertAll_ok F comb l' b hne
    rw [e1, e2]
    have : b1.bins = b2.bins := by
      apply List.ext_getElem?
      intro i
      rw [c1, c2]
      congr 1
      funext x
      exact (h.filter _).foldl_eq' (fun p hp q hq z => hc q (List.mem_of_mem_filter hq) p (List.mem_of_mem_filter hp) z) x
    obtain ⟨x1, x2, x3⟩ := b1
    obtain ⟨y1, y2, y3⟩ := b2
    simp only at *
    rw [this, m1, m2, d1, d2]

theorem insertAll_perm (F : FP) (comb : δ → β → β) (hc : ∀ d e x, comb d (comb e x) = comb e (comb d x))
    {l l' : List (Num × δ)} (h : l.Perm l') (b : Binner β) : insertAll F comb b l = insertAll F comb b l' :=
  insertAll_perm_on F comb (fun p _ q _ x => hc p.2 q.2 x) h b

end Binner

namespace Objective

theorem quantile_perm (F : FP) (q : Num) (limits : Num × Num) {l l' : List Num} (h : l.Perm l') :
    quantile F q limits l = quantile F q limits l' := by
  unfold quantile
  simp only [h.length_eq, Binner.insertAll_perm F (fun (_ : Unit) (x : Nat) => x + 1) (fun _ _ _ => rfl) (h.map _)]

theorem median_perm (F : FP) (limits : Num × Num) {l l' : List Num} (h : l.Perm l') :
    median F limits l = median F limits l' := quantile_perm F _ limits h

theorem classCounts_perm (F : FP) {l l' : List Num} (h : l.Perm l') : classCounts F l = classCounts F l' := by
  unfold classCounts
  simp only [(h.filter _).length_eq, h.length_eq]

/-- The same objective, with predictions and gradients in another order. -/
structure SameUpTo (σ : List Nat) (o o' : Objective) : Prop where
  rest : o' = { o with predictions := o'.predictions, gradients := o'.gradients }
  preds : Reordered σ o.predictions o'.predictions
  grads : Reordered σ o.gradients o'.gradients

/-- When the values an objective computes do not depend on the order of the examples. -/
def FreeKind (F : FP) (k : ObjKind) : Prop := OrderFree F ∨ k = .l1

theorem SameUpTo.kind {σ : List Nat} {o o' : Objective} (h : SameUpTo σ o o') : o'.kind = o.kind := by rw [h.rest]

theorem SameUpTo.bounds {σ : List Nat} {o o' : Objective} (h : SameUpTo σ o o') : o'.bounds = o.bounds := by
  rw [h.rest]; rfl

theorem initializeBase_same {σ : List Nat} {n : Nat} (hσ : σ.Perm (List.range n)) (o : Objective) (c : Config) (b : Num) :
    SameUpTo σ (initializeBase o c n b) (initializeBase o c n b) :=
  ⟨rfl, Reordered.replicate hσ _, Reordered.replicate hσ _⟩

theorem init_leads {F : FP} {M : Libm} {σ : List Nat} {n : Nat} (hσ : σ.Perm (List.range n)) (o : Objective)
    (hF : FreeKind F o.kind) (c : Config) {t t' : List Num} (h : Reordered σ t t') :
    Out.Leads (SameUpTo σ) (o.init F M c t) (o.init F M c t') := by
  have hp := h.perm hσ
  have hl : t.length = n := by rw [h.length_left, perm_length hσ]
  have hl' : t'.length = n := by rw [h.length_right, perm_length hσ]
  have : o.init F M c t' = o.init F M c t := by
    unfold init
    simp only [hl, hl', limitsOf_perm hp, median_perm F _ hp, classCounts_perm F hp]
    cases hk : o.kind with
    | l2 =>
      rcases hF with hF | hF
      · simp only [FP.sum_perm hF hp]
      · rw [hk] at hF; cases hF
    | l1 => rfl
    | huber => rfl
    | binary => rfl
    | hinge => rfl
  rw [this]
  intro o' e
  refine ⟨o', e, ?_⟩
  unfold init at e
  simp only [hl] at e
  cases hk : o.kind with
  | l2 =>
    rw [hk] at e
    cases e
    exact initializeBase_same hσ _ _ _
  | l1 =>
    rw [hk] at e
    obtain ⟨b, _, e⟩ := Out.bind_eq_ok.1 e
    cases e
    exact initializeBase_same hσ _ _ _
  | huber =>
    rw [hk] at e
    obtain ⟨b, _, e⟩ := Out.bind_eq_ok.1 e
    obtain ⟨_, _, e⟩ := Out.bind_eq_ok.1 e
    cases e
    exact ⟨rfl, Reordered.replicate hσ _, Reordered.replicate hσ _⟩
  | binary =>
    rw [hk] at e
    cases e
    exact ⟨rfl, Reordered.replicate hσ _, Reordered.replicate hσ _⟩
  | hinge =>
    rw [hk] at e
    obtain ⟨_, _, e⟩ := Out.bind_eq_ok.1 e
    cases e
    exact initializeBase_same hσ _ _ _

theorem update_leads {F : FP} {M : Libm} {σ : List Nat} {n : Nat} (hσ : σ.Perm (List.range n)) {o o' : Objective}
    (ho : SameUpTo σ o o') {t t' : List Num} (h : Reordered σ t t') :
    Out.Leads (SameUpTo σ) (o.update F M t) (o'.update F M t') := by
  have l1 := ho.preds.length_right
  have l2 := ho.grads.length_right
  have l3 := h.length_right
  have l4 := ho.preds.length_left
  have l5 := ho.grads.length_left
  have l6 := h.length_left
  have he := Reordered.zipWith hσ F.sub h ho.preds
  have hp := he.perm hσ
  unfold update
  rw [l1, l2, l3, l4, l5, l6]
  simp only [beq_self_eq_true, Out.assert_true, Out.ok_bind, limitsOf_perm hp, ho.kind]
  cases hk : o.kind with
  | l2 => exact .ok ⟨by simp only; rw [ho.rest], ho.preds, he.map _⟩
  | l1 => exact .ok ⟨by simp only; rw [ho.rest], ho.preds, he.map _⟩
  | huber =>
    have ha : o'.alpha = o.alpha := by rw [ho.rest]
    simp only [ha, quantile_perm F _ _ hp]
    apply Out.Leads.same
    intro q _
    exact .ok ⟨by simp only; rw [ho.rest], ho.preds, he.map _⟩
  | binary => exact .ok ⟨by simp only; rw [ho.rest], ho.preds, Reordered.zipWith hσ _ h ho.preds⟩
  | hinge => exact .ok ⟨by simp only; rw [ho.rest], ho.preds, Reordered.zipWith hσ _ h ho.preds⟩

/-! ### Leaf values -/

/-- The examples of a leaf and of its counterpart: the counterparts of the second are the first, in some order. -/
structure SameExamples (σ : List Nat) (ex ex' : List Nat) : Prop where
  lt : ∀ i ∈ ex', i < σ.length
  perm : (ex'.map fun i => σ.getD i 0).Perm ex

theorem SameExamples.length {σ ex ex' : List Nat} (h : SameExamples σ ex ex') : ex'.length = ex.length := by
  simpa using h.perm.length_eq

theorem SameExamples.mem {σ ex ex' : List Nat} (h : SameExamples σ ex ex') {i : Nat} (hi : i ∈ ex') :
    σ[i]? = some (σ.getD i 0) ∧ σ.getD i 0 ∈ ex := by
  refine ⟨?_, h.perm.mem_iff.1 (List.mem_map.2 ⟨i, hi, rfl⟩)⟩
  have := h.lt i hi
  simp [List.getD, this]

theorem SameExamples.nodup {σ ex ex' : List Nat} (h : SameExamples σ ex ex') (hn : ex.Nodup) : ex'.Nodup :=
  List.Nodup.of_map _ (h.perm.nodup_iff.2 hn)

theorem SameExamples.filter {σ ex ex' : List Nat} (h : SameExamples σ ex ex') (p p' : Nat → Bool)
    (hp : ∀ i ∈ ex', p' i = p (σ.getD i 0)) : SameExamples σ (ex.filter p) (ex'.filter p') := by
  refine ⟨fun i hi => h.lt i (List.mem_filter.1 hi).1, ?_⟩
  have : (ex'.filter p').map (fun i => σ.getD i 0) = (ex'.map fun i => σ.getD i 0).filter p := by
    rw [List.filter_map]
    congr 1
    apply List.filter_congr
    intro i hi
    rw [hp i hi]
    rfl
  rw [this]
  exact h.perm.filter p

theorem forExamples_perm {α : Type} (f : Nat → Out α) {l l' : List Nat} (h : l.Perm l') :
    Out.Leads List.Perm (forExamples f l) (forExamples f l') := by
  intro xs e
  have hm : ∀ i ∈ l, ∃ x, f i = .ok x := by
    intro i hi
    have := forExamples_inv f l xs e
    have h2 : f i ∈ xs.map Out.ok := by rw [← this]; exact List.mem_map_of_mem hi
    obtain ⟨x, _, hx⟩ := List.mem_map.1 h2
    exact ⟨x, hx.symm⟩
  have : Nonempty α ∨ l = [] := by
    cases l with
    | nil => exact .inr rfl
    | cons i l =>
      obtain ⟨x, _⟩ := hm i (by simp)
      exact .inl ⟨x⟩
  rcases this with ⟨⟨x0⟩⟩ | rfl
  · have key : ∀ i ∈ l, f i = .ok (match f i with | .ok x => x | _ => x0) := by
      intro i hi
      obtain ⟨x, hx⟩ := hm i hi
      rw [hx]
    have e1 := forExamples_ok f _ l key
    have e2 := forExamples_ok f _ l' (fun i hi => key i (h.mem_iff.2 hi))
    rw [e1] at e
    cases e
    exact ⟨_, e2, h.map _⟩
  · rw [List.nil_perm.1 h]
    exact ⟨xs, e, .refl _⟩

theorem forExamples_map {α : Type} (f f' : Nat → Out α) (g : Nat → Nat) : ∀ l : List Nat,
    (∀ i ∈ l, f' i = f (g i)) → forExamples f' l = forExamples f (l.map g)
  | [], _ => rfl
  | i :: l, h => by
      simp only [forExamples, List.map_cons]
      rw [h i (by simp), forExamples_map f f' g l (fun j hj => h j (by simp [hj]))]

theorem forExamples_leads {α : Type} {σ ex ex' : List Nat} (h : SameExamples σ ex ex') (f f' : Nat → Out α)
    (hf : ∀ i j : Nat, σ[i]? = some j → f' i = f j) : Out.Leads (fun xs ys => ys.Perm xs) (forExamples f ex) (forExamples f' ex') := by
  rw [forExamples_map f f' (fun i => σ.getD i 0) ex' (fun i hi => hf i _ (h.mem hi).1)]
  exact (forExamples_perm f h.perm.symm).mono fun _ _ _ _ hp => hp.symm

theorem index_reordered {α : Type} {σ : List Nat} {xs ys : List α} (h : Reordered σ xs ys) {i j : Nat} (hi : σ[i]? = some j) :
    index ys i = index xs j := by
  unfold index
  rw [h.get hi]

theorem targetPred_reordered {σ : List Nat} {o o' : Objective} (ho : SameUpTo σ o o') {t t' : List Num}
    (ht : Reordered σ t t') {i j : Nat} (hi : σ[i]? = some j) : targetPred o' t' i = targetPred o t j := by
  unfold targetPred
  rw [index_reordered ht hi, index_reordered ho.preds hi]

theorem binaryLeaf_perm {F : FP} (hF : OrderFree F) {l l' : List Num} (h : l.Perm l') : binaryLeaf F l = binaryLeaf F l' := by
  unfold binaryLeaf
  have h1 : ∀ (f : Num → Num) (a : Num), l.foldl (fun s g => F.add s (f g)) a = l'.foldl (fun s g => F.add s (f g)) a :=
    fun f a => h.foldl_eq' (fun x _ y _ z => hF z (f x) (f y)) a
  simp only [h1]

theorem hingeSum_perm {F : FP} (hF : OrderFree F) {l l' : List (Num × Num)} (h : l.Perm l') : hingeSum F l = hingeSum F l' := by
  unfold hingeSum
  apply h.foldl_eq'
  intro x _ y _ z
  simp only
  split_ifs <;> simp only [FP.sub] <;> exact hF _ _ _

theorem huberCorrection_perm {F : FP} (hF : OrderFree F) (delta m : Num) {l l' : List Num} (h : l.Perm l') :
    huberCorrection F delta m l = huberCorrection F delta m l' := by
  unfold huberCorrection
  apply h.foldl_eq'
  intro x _ y _ z
  exact hF _ _ _

theorem leafValue_leads {F : FP} {σ : List Nat} {o o' : Objective}
    (hF : FreeKind F o.kind) (ho : SameUpTo σ o o') {t t' : List Num} (ht : Reordered σ t t')
    {ex ex' : List Nat} (hex : SameExamples σ ex ex') :
    Out.Leads Eq (leafValue F o t ex) (leafValue F o' t' ex') := by
  have hl := hex.length
  have hres : Out.Leads (fun xs ys : List Num => ys.Perm xs) (residuals F o t ex) (residuals F o' t' ex') := by
    unfold residuals
    apply forExamples_leads hex
    intro i j hi
    rw [targetPred_reordered ho ht hi]
  unfold leafValue
  rw [ho.kind]
  have hlim : o'.limits = o.limits := by rw [ho.rest]
  have hdel : o'.delta = o.delta := by rw [ho.rest]
  cases hk : o.kind with
  | l2 =>
    rw [hk] at hF
    replace hF : OrderFree F := hF.resolve_right (by simp)
    refine hres.bind fun a b _ hab => ?_
    rw [FP.sum_perm hF hab, hl]
    exact .refl _
  | l1 =>
    refine hres.bind fun a b _ hab => ?_
    rw [hlim, median_perm F _ hab]
    exact .refl _
  | huber =>
    rw [hk] at hF
    replace hF : OrderFree F := hF.resolve_right (by simp)
    refine hres.bind fun a b _ hab => ?_
    rw [hlim, median_perm F _ hab]
    apply Out.Leads.same
    intro m _
    rw [hdel, huberCorrection_perm hF _ _ hab, hl]
    exact .refl _
  | binary =>
    rw [hk] at hF
    replace hF : OrderFree F := hF.resolve_right (by simp)
    refine (forExamples_leads hex _ _ fun i j hi => index_reordered ho.grads hi).bind fun a b _ hab => ?_
    rw [binaryLeaf_perm hF hab]
    exact .refl _
  | hinge =>
    rw [hk] at hF
    replace hF : OrderFree F := hF.resolve_right (by simp)
    refine (forExamples_leads hex _ _ fun i j hi => targetPred_reordered ho ht hi).bind fun a b _ hab => ?_
    rw [hingeSum_perm hF hab, hl]
    exact .refl _

theorem addLoop_leads {F : FP} {σ : List Nat} {n : Nat} (hσ : σ.Perm (List.range n)) (v : Num) {ps ps' : List Num}
    (hp : Reordered σ ps ps') {ex ex' : List Nat} (hex : SameExamples σ ex ex') (hn : ex.Nodup) :
    Out.Leads (Reordered σ) (addLoop F v ex ps) (addLoop F v ex' ps') := by
  intro r e
  obtain ⟨rfl, hall⟩ := addLoop_inv F v ex ps r hn e
  refine ⟨_, addLoop_ok F v ex' ps' (hex.nodup hn) ?_, ?_⟩
  · intro i hi
    obtain ⟨h1, h2⟩ := hex.mem hi
    obtain ⟨p, g1, g2⟩ := hall _ h2
    exact ⟨p, by rw [hp.get h1, g1], g2⟩
  · have a := hp.length_left
    have b := hp.length_right
    refine Reordered.of_get (by simp; omega) (by simp; omega) ?_
    intro i j hi
    refine ⟨?_, by rw [bump_length, a, perm_length hσ]; exact perm_lt hσ hi⟩
    rw [bump_get, bump_get, hp.get hi]
    have hmem : i ∈ ex' ↔ j ∈ ex := by
      constructor
      · intro h
        obtain ⟨h1, h2⟩ := hex.mem h
        rw [hi] at h1
        cases h1
        exact h2
      · intro h
        obtain ⟨k, hk, hkj⟩ := List.mem_map.1 (hex.perm.mem_iff.2 h)
        have h1 := (hex.mem hk).1
        rw [hkj] at h1
        have hnd : σ.Nodup := hσ.nodup_iff.2 List.nodup_range
        have hlt := (List.getElem?_eq_some_iff.1 hi).1
        have : i = k := (List.getElem?_inj hlt hnd).1 (hi.trans h1.symm)
        rw [this]
        exact hk
    simp only [hmem]

theorem predictLeaf_leads {F : FP} {σ : List Nat} {n : Nat} (hσ : σ.Perm (List.range n)) {o o' : Objective}
    (hF : FreeKind F o.kind) (ho : SameUpTo σ o o') {t t' : List Num} (ht : Reordered σ t t')
    {ex ex' : List Nat} (hex : SameExamples σ ex ex') (hn : ex.Nodup) :
    Out.Leads (fun a b => b.1 = a.1 ∧ SameUpTo σ a.2 b.2 ∧ a.2.kind = o.kind) (predictLeafValue F o t ex)
      (predictLeafValue F o' t' ex') := by
  unfold predictLeafValue
  refine (leafValue_leads hF ho ht hex).bind fun a b _ hab => ?_
  subst hab
  unfold updatePredictions
  simp only
  have hlr : o'.learningRate = o.learningRate := by rw [ho.rest]
  rw [hlr]
  refine (addLoop_leads hσ _ ho.preds hex hn).bind fun r r' _ hr => ?_
  exact .ok ⟨rfl, ⟨by simp only; rw [ho.rest], hr, ho.grads⟩, rfl⟩

end Objective

end BitBoost
