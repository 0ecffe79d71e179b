import Verif.Model.Dataset
import Verif.Lemmas.Build
/-! Lemmas about building the feature masks. -/
namespace BitBoost

theorem at?_ok {α : Type} {l : List α} {i : Nat} {x : α} : at? l i = .ok x ↔ l[i]? = some x := by
  unfold at?; cases h : l[i]? <;> simp

theorem at?_lt {α : Type} {l : List α} {i : Nat} (h : i < l.length) : at? l i = .ok l[i] := by
  rw [at?_ok, List.getElem?_eq_getElem h]

theorem assert_ok {c : Bool} : Out.assert c = .ok () ↔ c = true := by
  unfold Out.assert; cases c <;> simp

namespace Dataset

theorem gather_ok {α : Type} (values : List α) : ∀ (js : List Nat) (vs : List α),
    gather values js = .ok vs ↔ js.map (fun j => values[j]?) = vs.map some := by
  intro js
  induction js with
  | nil => intro vs; cases vs <;> simp [gather]
  | cons j js ih =>
    intro vs
    simp only [gather, Out.bind_eq_ok, at?_ok, Out.pure_eq, Out.ok.injEq]
    constructor
    · rintro ⟨v, hv, ws, hw, rfl⟩
      simp [hv, (ih ws).1 hw]
    · intro h
      cases vs with
      | nil => simp at h
      | cons v ws =>
        simp only [List.map_cons, List.cons.injEq] at h
        exact ⟨v, h.1, ws, (ih ws).2 h.2, rfl⟩

theorem gather_length {α : Type} {values : List α} {js : List Nat} {vs : List α}
    (h : gather values js = .ok vs) : vs.length = js.length := by
  rw [gather_ok] at h
  have := congrArg List.length h
  simpa using this.symm

theorem gather_get {α : Type} {values : List α} {js : List Nat} {vs : List α}
    (h : gather values js = .ok vs) (i : Nat) : vs[i]? = js[i]?.bind (fun j => values[j]?) := by
  have hl := gather_length h
  rw [gather_ok] at h
  have h2 := congrArg (fun l => l[i]?) h
  simp only [List.getElem?_map] at h2
  cases hj : js[i]? with
  | none =>
    rw [List.getElem?_eq_none_iff] at hj
    rw [List.getElem?_eq_none_iff.2 (by omega)]; simp
  | some j =>
    rw [hj] at h2
    simp only [Option.map_some] at h2
    cases hv : vs[i]? with
    | none => rw [hv] at h2; simp at h2
    | some v => rw [hv] at h2; simp at h2 ⊢; rw [h2]

theorem gather_total {α : Type} (values : List α) (js : List Nat) (h : ∀ j ∈ js, j < values.length) :
    ∃ vs, gather values js = .ok vs := by
  induction js with
  | nil => exact ⟨[], rfl⟩
  | cons j js ih =>
    obtain ⟨vs, hv⟩ := ih (fun x hx => h x (by simp [hx]))
    have hj : j < values.length := h j (by simp)
    exact ⟨values[j] :: vs, by simp only [gather, at?_lt hj, hv, Out.ok_bind, Out.pure_eq]⟩

/-! ### zero, fill, accumulate -/

theorem zeroMasks_get (bvs : List Blocks) (c : Nat) :
    (zeroMasks bvs)[c]? = bvs[c]?.map (fun b => b.map fun _ => BitBlock.zeros) := by
  simp [zeroMasks]

theorem bit_zero (b : Blocks) (n : Nat) : Blocks.bit (b.map fun _ => BitBlock.zeros) n = false := by
  rw [List.map_const', Blocks.bit_replicate]; simp [BitBlock.zeros]

/-- `fill_bitvecs` adds exactly the examples of a category to its mask. -/
theorem fillMasks_spec : ∀ (cats : List Nat) (i : Nat) (bvs bvs' : List Blocks),
    fillMasks cats i bvs = .ok bvs' → bvs'.length = bvs.length ∧
      ∀ (c : Nat) (b : Blocks), bvs[c]? = some b → ∃ b', bvs'[c]? = some b' ∧ b'.length = b.length ∧
        ∀ n, Blocks.bit b' n = (Blocks.bit b n || decide (i ≤ n ∧ cats[n - i]? = some c)) := by
  intro cats
  induction cats with
  | nil =>
    intro i bvs bvs' h
    simp only [fillMasks, Out.ok.injEq] at h
    subst h
    exact ⟨rfl, fun c b hb => ⟨b, hb, rfl, by simp⟩⟩
  | cons k cats ih =>
    intro i bvs bvs' h
    simp only [fillMasks] at h
    split at h
    · rename_i bk hbk
      obtain ⟨b1, e1, e2⟩ := Out.bind_eq_ok.1 h
      obtain ⟨hl, hs⟩ := ih _ _ _ e2
      rw [Blocks.enableBit_eq_setBit] at e1
      have hi : i < bk.length * 256 := by
        by_contra hc
        rw [Blocks.setBit_panic _ _ _ hc] at e1; cases e1
      obtain ⟨b2, e3, e4, e5⟩ := Blocks.setBit_eq bk i true hi
      rw [e3] at e1
      cases e1
      refine ⟨by simpa using hl, ?_⟩
      intro c b hb
      have hklt : k < bvs.length := (List.getElem?_eq_some_iff.1 hbk).1
      by_cases hc : k = c
      · subst hc
        rw [hbk] at hb; cases hb
        obtain ⟨b', f1, f2, f3⟩ := hs k b1 (by simp [hklt])
        refine ⟨b', f1, by rw [f2, e4], fun n => ?_⟩
        rw [f3, e5]
        by_cases hn : n = i
        · subst hn; simp
        · rw [if_neg hn]
          congr 1
          apply decide_eq_decide.2
          constructor
          · rintro ⟨g1, g2⟩
            refine ⟨by omega, ?_⟩
            rw [show n - i = (n - (i + 1)) + 1 by omega]
            simpa using g2
          · rintro ⟨g1, g2⟩
            refine ⟨by omega, ?_⟩
            rw [show n - i = (n - (i + 1)) + 1 by omega] at g2
            simpa using g2
      · obtain ⟨b', f1, f2, f3⟩ := hs c b (by rw [List.getElem?_set_ne hc]; exact hb)
        refine ⟨b', f1, f2, fun n => ?_⟩
        rw [f3]
        congr 1
        apply decide_eq_decide.2
        constructor
        · rintro ⟨g1, g2⟩
          refine ⟨by omega, ?_⟩
          rw [show n - i = (n - (i + 1)) + 1 by omega]
          simpa using g2
        · rintro ⟨g1, g2⟩
          by_cases hn : n = i
          · subst hn; simp at g2; exact absurd g2 hc
          · refine ⟨by omega, ?_⟩
            rw [show n - i = (n - (i + 1)) + 1 by omega] at g2
            simpa using g2
    · rename_i hbk
      obtain ⟨hl, hs⟩ := ih _ _ _ h
      refine ⟨hl, fun c b hb => ?_⟩
      obtain ⟨b', f1, f2, f3⟩ := hs c b hb
      refine ⟨b', f1, f2, fun n => ?_⟩
      rw [f3]
      congr 1
      apply decide_eq_decide.2
      have hc : k ≠ c := by rintro rfl; rw [hbk] at hb; cases hb
      constructor
      · rintro ⟨g1, g2⟩
        refine ⟨by omega, ?_⟩
        rw [show n - i = (n - (i + 1)) + 1 by omega]
        simpa using g2
      · rintro ⟨g1, g2⟩
        by_cases hn : n = i
        · subst hn; simp at g2; exact absurd g2 hc
        · refine ⟨by omega, ?_⟩
          rw [show n - i = (n - (i + 1)) + 1 by omega] at g2
          simpa using g2

/-- `fill_bitvecs` does not panic when the masks are large enough. -/
theorem fillMasks_total : ∀ (cats : List Nat) (i : Nat) (bvs : List Blocks),
    (∀ b ∈ bvs, i + cats.length ≤ b.length * 256) → ∃ bvs', fillMasks cats i bvs = .ok bvs' := by
  intro cats
  induction cats with
  | nil => intro i bvs _; exact ⟨bvs, rfl⟩
  | cons k cats ih =>
    intro i bvs h
    simp only [fillMasks]
    split
    · rename_i bk hbk
      have hmem : bk ∈ bvs := List.mem_of_getElem? hbk
      have hlen := h bk hmem
      simp only [List.length_cons] at hlen
      obtain ⟨b2, e3, e4, e5⟩ := Blocks.setBit_eq bk i true (by omega)
      rw [Blocks.enableBit_eq_setBit, e3, Out.ok_bind]
      apply ih
      intro b hb
      rcases List.mem_or_eq_of_mem_set hb with hb | rfl
      · have := h b hb; simp only [List.length_cons] at this; omega
      · omega
    · apply ih
      intro b hb
      have := h b hb; simp only [List.length_cons] at this; omega

theorem bit_orAssign (a b : Blocks) (h : a.length = b.length) (n : Nat) :
    Blocks.bit (Simd.orAssign a b) n = (Blocks.bit a n || Blocks.bit b n) ∧
      (Simd.orAssign a b).length = a.length := by
  have e : Simd.orAssign a b = List.zipWith (· ||| ·) a b := by
    unfold Simd.orAssign
    rw [h, List.take_length, ← h, List.drop_length, List.append_nil]
  rw [e]
  refine ⟨?_, by simp [h]⟩
  unfold Blocks.bit
  simp only [List.getD_eq_getElem?_getD, List.getElem?_zipWith]
  by_cases hn : n / 256 < a.length
  · rw [List.getElem?_eq_getElem hn, List.getElem?_eq_getElem (by omega)]
    simp
  · rw [List.getElem?_eq_none_iff.2 (by omega), List.getElem?_eq_none_iff.2 (by omega)]
    simp

theorem accumulateLoop_spec (L : Nat) : ∀ (bvs : List Blocks) (prev : Blocks), prev.length = L →
    (∀ b ∈ bvs, b.length = L) → (accumulateLoop prev bvs).length = bvs.length ∧
      ∀ (c : Nat) (b : Blocks), (accumulateLoop prev bvs)[c]? = some b → b.length = L ∧
        ∀ n, (Blocks.bit b n = true ↔ Blocks.bit prev n = true ∨
          ∃ j ≤ c, ∃ b0, bvs[j]? = some b0 ∧ Blocks.bit b0 n = true) := by
  intro bvs
  induction bvs with
  | nil => intro prev _ _; simp [accumulateLoop]
  | cons b0 bvs ih =>
    intro prev hp hl
    have hb0 : b0.length = L := hl b0 (by simp)
    have ho := fun n => bit_orAssign b0 prev (by omega) n
    obtain ⟨h1, h2⟩ := ih (Simd.orAssign b0 prev) (by rw [(ho 0).2, hb0]) (fun b hb => hl b (by simp [hb]))
    simp only [accumulateLoop]
    refine ⟨by simp [h1], ?_⟩
    intro c b hb
    cases c with
    | zero =>
      simp only [List.getElem?_cons_zero, Option.some.injEq] at hb
      subst hb
      refine ⟨by rw [(ho 0).2, hb0], fun n => ?_⟩
      rw [(ho n).1]
      simp only [Bool.or_eq_true, Nat.le_zero_eq, exists_eq_left, List.getElem?_cons_zero,
        Option.some.injEq, exists_eq_left']
      tauto
    | succ c =>
      rw [List.getElem?_cons_succ] at hb
      obtain ⟨g1, g2⟩ := h2 c b hb
      refine ⟨g1, fun n => ?_⟩
      rw [g2, (ho n).1]
      simp only [Bool.or_eq_true]
      constructor
      · rintro ((h | h) | ⟨j, hj, b1, hb1, hn⟩)
        · exact Or.inr ⟨0, by omega, b0, by simp, h⟩
        · exact Or.inl h
        · exact Or.inr ⟨j + 1, by omega, b1, by simpa using hb1, hn⟩
      · rintro (h | ⟨j, hj, b1, hb1, hn⟩)
        · exact Or.inl (Or.inr h)
        · cases j with
          | zero =>
            simp only [List.getElem?_cons_zero, Option.some.injEq] at hb1
            subst hb1
            exact Or.inl (Or.inl hn)
          | succ j => exact Or.inr ⟨j, by omega, b1, by simpa using hb1, hn⟩

/-- The masks after `zero_bitvecs`, `fill_bitvecs` and `accumulate_bitvecs`. -/
theorem buildMasks_spec {bvs bvs' : List Blocks} {k L : Nat} {cats : List Nat}
    (hL : ∀ b ∈ bvs, b.length = L) (h : buildMasks bvs k cats = .ok bvs') :
    0 < k ∧ k ≤ bvs.length ∧ bvs'.length = bvs.length ∧ (∀ b ∈ bvs', b.length = L) ∧
      ∀ c < k, ∃ b, bvs'[c]? = some b ∧
        ∀ n, (Blocks.bit b n = true ↔ ∃ j ≤ c, cats[n]? = some j) := by
  unfold buildMasks at h
  obtain ⟨front, e1, h⟩ := Out.bind_eq_ok.1 h
  obtain ⟨filled, e2, h⟩ := Out.bind_eq_ok.1 h
  obtain ⟨acc, e3, h⟩ := Out.bind_eq_ok.1 h
  simp only [Out.pure_eq, Out.ok.injEq] at h
  subst h
  unfold prefix' at e1
  split at e1
  · rename_i hk
    simp only [Out.ok.injEq] at e1
    subst e1
    obtain ⟨f1, f2⟩ := fillMasks_spec _ _ _ _ e2
    have hz : (zeroMasks (bvs.take k)).length = k := by simp [zeroMasks, hk]
    have hfl : filled.length = k := by omega
    have hfilled : ∀ c < k, ∃ b, filled[c]? = some b ∧ b.length = L ∧
        ∀ n, (Blocks.bit b n = true ↔ cats[n]? = some c) := by
      intro c hc
      have hb : bvs[c]? = some bvs[c] := List.getElem?_eq_getElem (by omega)
      obtain ⟨b', g1, g2, g3⟩ := f2 c (bvs[c].map fun _ => BitBlock.zeros) (by
        rw [zeroMasks_get, List.getElem?_take_of_lt hc, hb]; rfl)
      refine ⟨b', g1, by rw [g2]; simpa using hL _ (List.getElem_mem _), fun n => ?_⟩
      rw [g3, bit_zero]
      simp
    have hfL : ∀ b ∈ filled, b.length = L := by
      intro b hb
      obtain ⟨c, hc⟩ := List.mem_iff_getElem?.1 hb
      have hck : c < k := by
        have := (List.getElem?_eq_some_iff.1 hc).1; omega
      obtain ⟨b', g1, g2, _⟩ := hfilled c hck
      rw [hc] at g1; cases g1; exact g2
    cases hf : filled with
    | nil => rw [hf] at e3; cases e3
    | cons b0 rest =>
      rw [hf] at e3 hfL hfl hfilled
      simp only [accumulateMasks, Out.ok.injEq] at e3
      subst e3
      simp only [List.length_cons] at hfl
      obtain ⟨a1, a2⟩ := accumulateLoop_spec L rest b0 (hfL b0 (by simp))
        (fun b hb => hfL b (by simp [hb]))
      refine ⟨by omega, hk, ?_, ?_, ?_⟩
      · simp only [List.length_append, List.length_cons, a1, List.length_drop]; omega
      · intro b hb
        rcases List.mem_append.1 hb with hb | hb
        · rcases List.mem_cons.1 hb with rfl | hb
          · exact hfL _ (by simp)
          · obtain ⟨c, hc⟩ := List.mem_iff_getElem?.1 hb
            exact (a2 c b hc).1
        · exact hL b (List.mem_of_mem_drop hb)
      · intro c hc
        rw [List.getElem?_append_left (by simp only [List.length_cons, a1]; omega)]
        obtain ⟨b0', z1, z2, z3⟩ := hfilled 0 (by omega)
        simp only [List.getElem?_cons_zero, Option.some.injEq] at z1
        subst z1
        cases c with
        | zero => exact ⟨b0, rfl, fun n => by rw [z3]; simp⟩
        | succ c =>
          rw [List.getElem?_cons_succ]
          have hc' : c < (accumulateLoop b0 rest).length := by rw [a1]; omega
          refine ⟨_, List.getElem?_eq_getElem hc', fun n => ?_⟩
          rw [(a2 c _ (List.getElem?_eq_getElem hc')).2 n, z3]
          constructor
          · rintro (h | ⟨j, hj, b1, hb1, hn⟩)
            · exact ⟨0, by omega, h⟩
            · obtain ⟨b2, y1, y2, y3⟩ := hfilled (j + 1) (by omega)
              rw [List.getElem?_cons_succ, hb1] at y1
              cases y1
              exact ⟨j + 1, by omega, (y3 n).1 hn⟩
          · rintro ⟨j, hj, hn⟩
            cases j with
            | zero => exact Or.inl hn
            | succ j =>
              obtain ⟨b2, y1, y2, y3⟩ := hfilled (j + 1) (by omega)
              rw [List.getElem?_cons_succ] at y1
              exact Or.inr ⟨j, by omega, b2, y1, (y3 n).2 hn⟩
  · cases e1

end Dataset
end BitBoost
