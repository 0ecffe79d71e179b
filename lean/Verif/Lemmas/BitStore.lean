import Verif.Lemmas.SliceStore
/-! Helper lemmas: reachable stores, block stores. -/
namespace BitBoost
open Spec
namespace Spec
variable {T : Type}

theorem Reached.rel {alignT sizeT cap ba : Nat} {s0 : Store T}
    (h0 : Store.aligned T alignT sizeT cap ba = .ok s0) {c : Client T} {a : Heap T}
    (h : Reached s0 c a) : Rel c a := by
  obtain ⟨ops, obs, h1, h2⟩ := h
  rcases run_refines ops (rel_start h0) h1 with ⟨c', g1, g2⟩ | ⟨g1, g2⟩
  · rw [h2] at g1; simp at g1; rw [g1]; exact g2
  · rw [h2] at g1; simp at g1

/-- The immutable parameters of a store. -/
def params (s : Store T) : Nat × Nat × Nat := (s.byteAlign, s.alignT, s.sizeT)

theorem alloc_params {s s' : Store T} {len : Nat} {v : T} {r : Range}
    (h : Store.allocSlice s len v = .ok (r, s')) : params s' = params s := by
  unfold Store.allocSlice at h
  dsimp only at h
  repeat' split at h
  all_goals first
    | (simp at h; done)
    | (simp only [Out.ok.injEq, Prod.mk.injEq] at h; rw [← h.2]; rfl)

theorem subLoop_params (f : T → T → T) (p l r : Nat) : ∀ (n i : Nat) (s s' : Store T),
    Store.subLoop f p l r n i s = .ok s' → params s' = params s := by
  intro n
  induction n with
  | zero => intro i s s' h; simp [Store.subLoop] at h; rw [h]
  | succ n ih =>
    intro i s s' h
    unfold Store.subLoop at h
    split at h
    · split at h
      · exact (ih _ _ _ h).trans rfl
      · simp at h
    · simp at h

theorem step_params {c c' : Client T} {op : Op T} {o : Obs T} (h : c.step op = .ok (o, c')) :
    params c'.store = params c.store := by
  cases op with
  | alloc len v =>
    simp only [Client.step, Out.bind_eq_ok] at h
    obtain ⟨⟨r, s'⟩, h1, h2⟩ := h
    simp at h2
    rw [← h2.2]
    exact alloc_params h1
  | free h' =>
    simp only [Client.step] at h
    split at h
    · rw [Out.bind_eq_ok] at h
      obtain ⟨s', h1, h2⟩ := h
      simp at h2
      rw [← h2.2]
      unfold Store.freeSlice at h1
      split at h1 <;> simp at h1
      rw [← h1]; rfl
    · simp at h
  | write h' k v =>
    simp only [Client.step] at h
    split at h
    · rw [Out.bind_eq_ok] at h
      obtain ⟨s', h1, h2⟩ := h
      simp at h2
      rw [← h2.2]
      unfold Store.writeAt at h1
      split at h1 <;> simp at h1
      rw [← h1]; rfl
    · simp at h
  | shrink h' n =>
    simp only [Client.step] at h
    split at h
    · simp at h; rw [← h.2]
    · simp at h
  | zip f p l r =>
    simp only [Client.step] at h
    split at h
    · rw [Out.bind_eq_ok] at h
      obtain ⟨s', h1, h2⟩ := h
      simp at h2
      rw [← h2.2]
      exact subLoop_params f _ _ _ _ _ _ _ h1
    · simp at h
  | read h' =>
    simp only [Client.step] at h
    split at h
    · rw [Out.bind_eq_ok] at h
      obtain ⟨l, h1, h2⟩ := h
      simp at h2
      rw [← h2.2]
    · simp at h
  | reset => simp [Client.step] at h; rw [← h.2]; rfl

theorem run_params : ∀ (ops : List (Op T)) {c c' : Client T} {obs : List (Obs T)},
    c.run ops = .ok (obs, c') → params c'.store = params c.store := by
  intro ops
  induction ops with
  | nil => intro c c' obs h; simp [Client.run] at h; rw [h.2]
  | cons op ops ih =>
    intro c c' obs h
    simp only [Client.run, Out.bind_eq_ok] at h
    obtain ⟨⟨o, c1⟩, h1, ⟨obs', c2⟩, h2, h3⟩ := h
    simp at h3
    rw [← h3.2]
    exact (ih h2).trans (step_params h1)

/-- Writing a whole suffix of a live slice. -/
theorem writeAll_rel : ∀ (bs : List BitBlock) (k : Nat) {c : Client BitBlock} {a : Heap BitBlock}
    {h : Nat} {r : Range} {l : List BitBlock}, Rel c a → c.live h = some r → a.live h = some l →
    k + bs.length = l.length →
    ∃ s', BitBlockStore.writeAll c.store r k bs = .ok s' ∧
      Rel ⟨s', c.live, c.next⟩ ⟨upd a.live h (some (l.take k ++ bs)), a.next⟩ := by
  intro bs
  induction bs with
  | nil =>
    intro k c a h r l hR hr hl hk
    refine ⟨c.store, rfl, ?_⟩
    have e : l.take k ++ [] = l := by
      rw [List.append_nil, List.take_of_length_le (by simp at hk; omega)]
    rw [e]
    have e2 : upd a.live h (some l) = a.live := by
      funext h'
      by_cases hh : h' = h
      · subst hh; rw [upd_same, hl]
      · rw [upd_ne _ _ hh]
    rw [e2]; exact hR
  | cons b bs ih =>
    intro k c a h r l hR hr hl hk
    simp only [List.length_cons] at hk
    obtain ⟨c', h1, h2, _, _⟩ := step_write (v := b) hR hl (show k < l.length by omega)
    simp only [Client.step, hr, Out.bind_eq_ok] at h1
    obtain ⟨s', h3, h4⟩ := h1
    simp at h4
    unfold BitBlockStore.writeAll
    rw [h3, Out.ok_bind]
    have hr' : c'.live h = some r := by rw [← h4]; exact hr
    obtain ⟨s'', g1, g2⟩ := ih (k + 1) (l := l.set k b) h2 hr' (upd_same _ _ _)
      (by rw [List.length_set]; omega)
    rw [← h4] at g1 g2
    refine ⟨s'', g1, ?_⟩
    simp only at g2
    have e1 : upd (upd a.live h (some (l.set k b))) h (some ((l.set k b).take (k + 1) ++ bs)) =
        upd a.live h (some (l.take k ++ b :: bs)) := by
      funext h'
      by_cases hh : h' = h
      · subst hh
        rw [upd_same, upd_same]
        congr 1
        have hkl : k < l.length := by omega
        rw [List.set_eq_take_append_cons_drop, if_pos hkl]
        rw [List.take_append, List.length_take]
        have : min k l.length = k := by omega
        rw [this, List.take_take]
        have e3 : min (k + 1) k = k := by omega
        have e4 : k + 1 - k = 1 := by omega
        rw [e3, e4]
        simp
      · rw [upd_ne _ _ hh, upd_ne _ _ hh, upd_ne _ _ hh]
    rw [e1] at g2
    exact g2

theorem alloc_then_write {c : Client BitBlock} {a : Heap BitBlock} (hR : Rel c a) {len : Nat}
    {v : BitBlock} {r : Range} {s' : Store BitBlock}
    (h1 : Store.allocSlice c.store len v = .ok (r, s')) (bs : List BitBlock)
    (hbs : bs.length = len) (hlen : 0 < len) :
    r.2 = r.1 + len ∧ Store.readSlice s' r = .ok (List.replicate len v) ∧
    ∃ s'', BitBlockStore.writeAll s' r 0 bs = .ok s'' ∧
      Rel ⟨s'', upd c.live c.next (some r), c.next + 1⟩
        ⟨upd a.live a.next (some bs), a.next + 1⟩ := by
  rcases alloc_cases hR v hlen with ⟨r', s2, g1, g2, g3, _⟩ | ⟨g1, _⟩
  · rw [h1] at g1
    simp at g1
    obtain ⟨rfl, rfl⟩ := g1
    have hl : (upd a.live a.next (some (List.replicate len v))) c.next =
        some (List.replicate len v) := by
      rw [hR.next, upd_same]
    have hr : (upd c.live c.next (some r)) c.next = some r := upd_same _ _ _
    refine ⟨g2, ?_, ?_⟩
    · have hread := step_read g3 (h := c.next) hl
      simp only [Client.step, hr, Out.bind_eq_ok] at hread
      obtain ⟨l, e1, e2⟩ := hread
      simp at e2
      rw [e1, e2]
    · obtain ⟨s'', e1, e2⟩ := writeAll_rel bs 0 g3 hr hl (by simp [hbs])
      refine ⟨s'', e1, ?_⟩
      have e3 : upd (upd a.live a.next (some (List.replicate len v))) c.next
          (some ((List.replicate len v).take 0 ++ bs)) = upd a.live a.next (some bs) := by
        funext h'
        rw [hR.next]
        by_cases hh : h' = a.next
        · subst hh; rw [upd_same, upd_same]; simp
        · rw [upd_ne _ _ hh, upd_ne _ _ hh, upd_ne _ _ hh]
      dsimp only at e2
      rw [e3] at e2
      exact e2
  · rw [h1] at g1; simp at g1

end Spec
end BitBoost
