import Verif.Spec.Heap
import Verif.Lemmas.Build
import Mathlib.Data.List.Perm.Basic
/-! Helper lemmas: the slice store refines the abstract heap. -/
namespace BitBoost
open Spec

namespace Store
variable {T : Type}

theorem swapRemove_perm {α : Type} (l : List α) (i : Nat) (h : i < l.length) :
    l.Perm (l[i] :: swapRemove l i) := by
  rcases List.eq_nil_or_concat l with rfl | ⟨d, last, rfl⟩
  · simp at h
  · simp only [List.concat_eq_append] at h ⊢
    unfold swapRemove
    simp only [List.getLast?_append, List.getLast?_singleton, Option.some_or, List.length_append,
      List.length_singleton, List.dropLast_concat]
    simp only [List.length_append, List.length_singleton] at h
    by_cases hi : i + 1 = d.length + 1
    · rw [if_pos hi]
      have hid : i = d.length := by omega
      subst hid
      simp only [List.getElem_concat_length]
      exact List.perm_append_singleton last d
    · rw [if_neg hi]
      have hid : i < d.length := by omega
      rw [List.getElem_append_left hid]
      have hset := List.set_eq_take_append_cons_drop (l := d) (i := i) (a := last)
      rw [hset, if_pos hid]
      have hd : d = d.take i ++ d[i] :: d.drop (i + 1) := by
        rw [List.getElem_cons_drop, List.take_append_drop]
      conv_lhs => rw [hd]
      rw [List.append_assoc, List.cons_append]
      have p1 : (d.take i ++ d[i] :: (d.drop (i + 1) ++ [last])).Perm
          (d[i] :: (d.take i ++ (d.drop (i + 1) ++ [last]))) := List.perm_middle
      refine p1.trans (List.Perm.cons _ ?_)
      exact List.Perm.append_left _ (List.perm_append_singleton last _)

/-- Well-formedness of a store. -/
structure Inv (s : Store T) : Prop where
  lenCap : s.len ≤ s.capacity
  capPos : 0 < s.capacity
  align : 0 < s.elemAlign
  endsOk : ∀ p ∈ s.ends, p.1 < p.2 ∧ p.2 ≤ s.len ∧ s.elemAlign ∣ p.1
  endsDisj : ∀ p ∈ s.ends, ∀ q ∈ s.ends, p = q ∨ p.2 ≤ q.1 ∨ q.2 ≤ p.1
  freeSub : ∀ p ∈ s.free, p ∈ s.ends
  freeNodup : s.free.Nodup

theorem Inv.functional {s : Store T} (h : Inv s) {p q : Nat × Nat} (hp : p ∈ s.ends)
    (hq : q ∈ s.ends) (he : p.1 = q.1) : p = q := by
  rcases h.endsDisj p hp q hq with h1 | h1 | h1
  · exact h1
  · have := (h.endsOk p hp).1; omega
  · have := (h.endsOk q hq).1; omega

theorem lookup_of_mem {l : List (Nat × Nat)} {k e : Nat} (hm : (k, e) ∈ l)
    (hf : ∀ p ∈ l, p.1 = k → p = (k, e)) : l.lookup k = some e := by
  induction l with
  | nil => simp at hm
  | cons p l ih =>
    obtain ⟨k', e'⟩ := p
    rw [List.lookup_cons]
    by_cases hk : k = k'
    · subst hk
      have := hf (k, e') (by simp) rfl
      simp at this
      simp [this]
    · have hb : (k == k') = false := by simpa using hk
      rw [hb]
      simp only
      apply ih
      · rcases List.mem_cons.mp hm with h1 | h1
        · simp at h1; exact absurd h1.1 hk
        · exact h1
      · intro p hp; exact hf p (by simp [hp])

theorem growCap_ge (newLen cap : Nat) (h : 0 < cap) :
    newLen ≤ growCap newLen cap ∧ cap ≤ growCap newLen cap := by
  fun_induction growCap newLen cap with
  | case1 cap hc ih =>
    have := ih (by omega)
    omega
  | case2 cap hc => omega

theorem resize_inv (s : Store T) (newLen : Nat) (v : T) (h : Inv s) :
    newLen ≤ (resize s newLen v).capacity ∧ 0 < (resize s newLen v).capacity := by
  unfold resize
  dsimp only
  have := h.capPos
  split
  · have := growCap_ge newLen (s.capacity * 2) (by omega)
    omega
  · omega

theorem checkRange_true (s : Store T) (r : Range) (h1 : r.1 ≤ r.2) (h2 : r.2 ≤ s.capacity) :
    checkRange s r = true := by
  unfold checkRange; simp [h1, h2]

theorem readSlice_eq (s : Store T) (r : Range) (l : List T) (hr1 : r.1 ≤ r.2)
    (hr2 : r.2 ≤ s.capacity) (hl : l.length = r.2 - r.1)
    (hmem : ∀ k, k < l.length → s.mem (r.1 + k) = l[k]?) : readSlice s r = .ok l := by
  unfold readSlice
  rw [checkRange_true s r hr1 hr2]
  have hcells : (List.range' r.1 (r.2 - r.1)).map s.mem = l.map some := by
    apply List.ext_getElem?
    intro k
    rw [List.getElem?_map, List.getElem?_map]
    by_cases hk : k < l.length
    · rw [List.getElem?_range' (by omega), Option.map_some, Nat.one_mul, hmem k hk]
      rw [List.getElem?_eq_getElem hk]; rfl
    · rw [List.getElem?_eq_none (by simp; omega), List.getElem?_eq_none (by omega)]; rfl
  simp only [if_true, hcells]
  have h1 : (l.map some).all Option.isSome = true := by simp
  rw [if_pos h1]
  congr 1
  simp

end Store

namespace Spec
variable {T : Type}

/-- The concrete client and the abstract heap agree. -/
structure Rel (c : Client T) (a : Heap T) : Prop where
  next : c.next = a.next
  inv : Store.Inv c.store
  dom : ∀ h, c.live h = none ↔ a.live h = none
  rng : ∀ h r, c.live h = some r → ∃ e, (r.1, e) ∈ c.store.ends ∧ r.1 < r.2 ∧ r.2 ≤ e ∧
    (r.1, e) ∉ c.store.free
  cont : ∀ h r l, c.live h = some r → a.live h = some l → l.length = r.2 - r.1 ∧
    ∀ k, k < l.length → c.store.mem (r.1 + k) = l[k]?
  inj : ∀ h h' r r', c.live h = some r → c.live h' = some r' → r.1 = r'.1 → h = h'

theorem Rel.bounds {c : Client T} {a : Heap T} (hR : Rel c a) {h : Nat} {r : Range}
    (hr : c.live h = some r) : r.1 < r.2 ∧ r.2 ≤ c.store.capacity := by
  obtain ⟨e, h1, h2, h3, _⟩ := hR.rng h r hr
  have := (hR.inv.endsOk _ h1).2.1
  have := hR.inv.lenCap
  simp at *
  omega

/-- Live ranges of different handles are disjoint. -/
theorem Rel.disjoint {c : Client T} {a : Heap T} (hR : Rel c a) {h h' : Nat} {r r' : Range}
    (hr : c.live h = some r) (hr' : c.live h' = some r') (hne : h ≠ h') :
    r.2 ≤ r'.1 ∨ r'.2 ≤ r.1 := by
  obtain ⟨e, h1, h2, h3, _⟩ := hR.rng h r hr
  obtain ⟨e', h1', h2', h3', _⟩ := hR.rng h' r' hr'
  rcases hR.inv.endsDisj _ h1 _ h1' with h4 | h4 | h4
  · exact absurd (hR.inj h h' r r' hr hr' (by simp at h4; exact h4.1)) hne
  · left; simp at h4; omega
  · right; simp at h4; omega

/-- A live range is disjoint from any full range with a different start. -/
theorem Rel.disjoint_end {c : Client T} {a : Heap T} (hR : Rel c a) {h : Nat} {r : Range}
    (hr : c.live h = some r) {q : Nat × Nat} (hq : q ∈ c.store.ends) (hne : r.1 ≠ q.1) :
    r.2 ≤ q.1 ∨ q.2 ≤ r.1 := by
  obtain ⟨e, h1, h2, h3, _⟩ := hR.rng h r hr
  rcases hR.inv.endsDisj _ h1 _ hq with h4 | h4 | h4
  · rw [← h4] at hne; simp at hne
  · left; simp at h4; omega
  · right; simp at h4; omega

theorem Rel.live_of {c : Client T} {a : Heap T} (hR : Rel c a) {h : Nat} {l : List T}
    (hl : a.live h = some l) : ∃ r, c.live h = some r := by
  cases hc : c.live h with
  | some r => exact ⟨r, rfl⟩
  | none => rw [hR.dom] at hc; rw [hc] at hl; exact absurd hl (by simp)

theorem upd_same {α : Type} (f : Nat → Option α) (h : Nat) (v : Option α) : upd f h v h = v := by
  simp [upd]

theorem upd_ne {α : Type} (f : Nat → Option α) {h h' : Nat} (v : Option α) (hn : h' ≠ h) :
    upd f h v h' = f h' := by
  simp [upd, hn]

/-- Changing memory inside one live range only. -/
theorem Rel.write_mem {c : Client T} {a : Heap T} (hR : Rel c a) {h : Nat} {r : Range}
    (hr : c.live h = some r) (mem' : Nat → Option T) (l' : List T) (hl' : l'.length = r.2 - r.1)
    (hin : ∀ k, k < l'.length → mem' (r.1 + k) = l'[k]?)
    (hout : ∀ i, ¬ (r.1 ≤ i ∧ i < r.2) → mem' i = c.store.mem i) :
    Rel (⟨{ c.store with mem := mem' }, c.live, c.next⟩ : Client T) ⟨upd a.live h (some l'), a.next⟩ := by
  refine ⟨hR.next, ?_, ?_, hR.rng, ?_, hR.inj⟩
  · obtain ⟨h1, h2, h3, h4, h5, h6, h7⟩ := hR.inv
    exact ⟨h1, h2, h3, h4, h5, h6, h7⟩
  · intro h'
    by_cases hh : h' = h
    · subst hh; simp [upd, hr]
    · simp only [upd_ne _ _ hh]; exact hR.dom h'
  · intro h' r' l'' hr' hl''
    dsimp only at hr' hl''
    by_cases hh : h' = h
    · subst hh
      rw [upd_same] at hl''
      simp at hl''
      simp only [hr, Option.some.injEq] at hr'
      subst hl'' hr'
      exact ⟨hl', hin⟩
    · rw [upd_ne _ _ hh] at hl''
      obtain ⟨hlen, hc⟩ := hR.cont h' r' l'' hr' hl''
      refine ⟨hlen, ?_⟩
      intro k hk
      have hb := hR.bounds hr'
      have hd := hR.disjoint hr' hr hh
      show mem' _ = _
      rw [hout _ (by omega)]
      exact hc k hk

theorem step_write {c : Client T} {a : Heap T} (hR : Rel c a) {h k : Nat} {v : T} {l : List T}
    (hl : a.live h = some l) (hk : k < l.length) :
    ∃ c', c.step (.write h k v) = .ok (.unit, c') ∧
      Rel c' ⟨upd a.live h (some (l.set k v)), a.next⟩ ∧ c'.store.len = c.store.len ∧
      c'.store.elemAlign = c.store.elemAlign := by
  obtain ⟨r, hr⟩ := hR.live_of hl
  obtain ⟨hlen, hc⟩ := hR.cont h r l hr hl
  have hb := hR.bounds hr
  unfold Client.step
  simp only [hr]
  unfold Store.writeAt
  rw [if_pos ⟨Store.checkRange_true _ _ (by omega) hb.2, by omega⟩]
  refine ⟨_, rfl, ?_, rfl, rfl⟩
  apply hR.write_mem hr
  · simp [hlen]
  · intro j hj
    rw [List.length_set] at hj
    rw [List.getElem?_set]
    by_cases hjk : k = j
    · subst hjk; simp [hk]
    · have : ¬ r.1 + j = r.1 + k := by omega
      rw [if_neg this, if_neg hjk]
      exact hc j hj
  · intro i hi
    rw [if_neg (by omega)]

theorem subLoop_spec (f : T → T → T) (plo llo rlo : Nat) (lp ll : List T)
    (hlen : lp.length = ll.length) :
    ∀ (n i : Nat) (s : Store T), i + n = lp.length →
      (plo + lp.length ≤ s.capacity) → (llo + lp.length ≤ s.capacity) →
      (rlo + lp.length ≤ s.capacity) →
      (plo + lp.length ≤ rlo ∨ rlo + lp.length ≤ plo) →
      (llo + lp.length ≤ rlo ∨ rlo + lp.length ≤ llo) →
      (∀ k, k < lp.length → s.mem (plo + k) = lp[k]?) →
      (∀ k, k < lp.length → s.mem (llo + k) = ll[k]?) →
      ∃ mem', Store.subLoop f plo llo rlo n i s = .ok { s with mem := mem' } ∧
        (∀ k, i ≤ k → k < lp.length → mem' (rlo + k) = (List.zipWith f lp ll)[k]?) ∧
        (∀ j, ¬ (rlo + i ≤ j ∧ j < rlo + lp.length) → mem' j = s.mem j) := by
  intro n
  induction n with
  | zero =>
    intro i s hi _ _ _ _ _ _ _
    exact ⟨s.mem, rfl, by intro k h1 h2; omega, fun _ _ => rfl⟩
  | succ n ih =>
    intro i s hi hp hl hr hd1 hd2 hmp hml
    unfold Store.subLoop
    rw [if_pos (by omega)]
    have hil : i < lp.length := by omega
    have e1 : s.mem (plo + i) = some lp[i] := by rw [hmp i hil, List.getElem?_eq_getElem hil]
    have e2 : s.mem (llo + i) = some (ll[i]'(by omega)) := by
      rw [hml i hil, List.getElem?_eq_getElem (by omega)]
    rw [e1, e2]
    simp only
    obtain ⟨mem', h1, h2, h3⟩ := ih (i + 1)
      { s with mem := fun j => if j = rlo + i then some (f lp[i] (ll[i]'(by omega))) else s.mem j }
      (by omega) hp hl hr hd1 hd2
      (by intro k hk; show (if _ then _ else _) = _; rw [if_neg (by omega)]; exact hmp k hk)
      (by intro k hk; show (if _ then _ else _) = _; rw [if_neg (by omega)]; exact hml k hk)
    refine ⟨mem', h1, ?_, ?_⟩
    · intro k hk hk2
      by_cases hki : k = i
      · subst hki
        rw [h3 _ (by omega)]
        simp only [if_true]
        rw [List.getElem?_zipWith, List.getElem?_eq_getElem hil, List.getElem?_eq_getElem (by omega)]
      · exact h2 k (by omega) hk2
    · intro j hj
      rw [h3 j (by omega)]
      show (if _ then _ else _) = _
      rw [if_neg (by omega)]

theorem step_zip {c : Client T} {a : Heap T} (hR : Rel c a) {f : T → T → T} {p l r : Nat}
    {lp ll lr : List T} (hp : a.live p = some lp) (hl : a.live l = some ll)
    (hr : a.live r = some lr) (h1 : lp.length = ll.length) (h2 : lp.length = lr.length)
    (hpr : p ≠ r) (hlr : l ≠ r) :
    ∃ c', c.step (.zip f p l r) = .ok (.unit, c') ∧
      Rel c' ⟨upd a.live r (some (List.zipWith f lp ll)), a.next⟩ ∧ c'.store.len = c.store.len ∧
      c'.store.elemAlign = c.store.elemAlign := by
  obtain ⟨rp, hrp⟩ := hR.live_of hp
  obtain ⟨rl, hrl⟩ := hR.live_of hl
  obtain ⟨rr, hrr⟩ := hR.live_of hr
  obtain ⟨hlp, hcp⟩ := hR.cont p rp lp hrp hp
  obtain ⟨hll, hcl⟩ := hR.cont l rl ll hrl hl
  obtain ⟨hlr2, hcr⟩ := hR.cont r rr lr hrr hr
  have bp := hR.bounds hrp
  have bl := hR.bounds hrl
  have br := hR.bounds hrr
  have d1 := hR.disjoint hrp hrr hpr
  have d2 := hR.disjoint hrl hrr hlr
  unfold Client.step
  simp only [hrp, hrl, hrr]
  unfold Store.histsSubtract
  obtain ⟨mem', e1, e2, e3⟩ := subLoop_spec f rp.1 rl.1 rr.1 lp ll h1 (rp.2 - rp.1) 0 c.store
    (by omega) (by omega) (by omega) (by omega) (by omega) (by omega)
    hcp (by intro k hk; exact hcl k (by omega))
  rw [e1]
  refine ⟨_, rfl, ?_, rfl, rfl⟩
  apply hR.write_mem hrr
  · rw [List.length_zipWith]; omega
  · intro k hk
    rw [List.length_zipWith] at hk
    exact e2 k (by omega) (by omega)
  · intro i hi
    exact e3 i (by omega)

theorem step_shrink {c : Client T} {a : Heap T} (hR : Rel c a) {h n : Nat} {l : List T}
    (hl : a.live h = some l) (hn : 0 < n) (hnl : n ≤ l.length) :
    ∃ c', c.step (.shrink h n) = .ok (.unit, c') ∧
      Rel c' ⟨upd a.live h (some (l.take n)), a.next⟩ ∧ c'.store.len = c.store.len ∧
      c'.store.elemAlign = c.store.elemAlign := by
  obtain ⟨r, hr⟩ := hR.live_of hl
  obtain ⟨hlen, hc⟩ := hR.cont h r l hr hl
  have hb := hR.bounds hr
  unfold Client.step
  simp only [hr]
  refine ⟨_, rfl, ⟨hR.next, hR.inv, ?_, ?_, ?_, ?_⟩, rfl, rfl⟩
  · intro h'
    by_cases hh : h' = h
    · subst hh; simp [upd]
    · simp only [upd_ne _ _ hh]; exact hR.dom h'
  · intro h' r' hr'
    by_cases hh : h' = h
    · subst hh
      simp only [upd_same, Option.some.injEq] at hr'
      subst hr'
      obtain ⟨e, h1, h2, h3, h4⟩ := hR.rng h' r hr
      exact ⟨e, h1, by simp; omega, by simp; omega, h4⟩
    · simp only [upd_ne _ _ hh] at hr'; exact hR.rng h' r' hr'
  · intro h' r' l' hr' hl'
    by_cases hh : h' = h
    · subst hh
      simp only [upd_same, Option.some.injEq] at hr' hl'
      subst hr' hl'
      refine ⟨by simp; omega, ?_⟩
      intro k hk
      rw [List.length_take] at hk
      rw [List.getElem?_take_of_lt (by omega)]
      exact hc k (by omega)
    · simp only [upd_ne _ _ hh] at hr' hl'; exact hR.cont h' r' l' hr' hl'
  · intro h1 h2 r1 r2 hr1 hr2 he
    have key : ∀ h' r', upd c.live h (some (r.1, r.1 + n)) h' = some r' →
        ∃ r'', c.live h' = some r'' ∧ r''.1 = r'.1 := by
      intro h' r' hr'
      by_cases hh : h' = h
      · subst hh
        simp only [upd_same, Option.some.injEq] at hr'
        exact ⟨r, hr, by rw [← hr']⟩
      · rw [upd_ne _ _ hh] at hr'; exact ⟨r', hr', rfl⟩
    obtain ⟨q1, hq1, e1⟩ := key h1 r1 hr1
    obtain ⟨q2, hq2, e2⟩ := key h2 r2 hr2
    exact hR.inj h1 h2 q1 q2 hq1 hq2 (by omega)

theorem step_free {c : Client T} {a : Heap T} (hR : Rel c a) {h : Nat} {l : List T}
    (hl : a.live h = some l) :
    ∃ c', c.step (.free h) = .ok (.unit, c') ∧
      Rel c' ⟨upd a.live h none, a.next⟩ ∧ c'.store.len = c.store.len ∧
      c'.store.elemAlign = c.store.elemAlign := by
  obtain ⟨r, hr⟩ := hR.live_of hl
  obtain ⟨e, h1, h2, h3, h4⟩ := hR.rng h r hr
  have hlook : c.store.ends.lookup r.1 = some e := by
    apply Store.lookup_of_mem h1
    intro p hp hpe
    exact hR.inv.functional hp h1 hpe
  unfold Client.step
  simp only [hr]
  unfold Store.freeSlice
  rw [hlook]
  refine ⟨_, rfl, ⟨hR.next, ?_, ?_, ?_, ?_, ?_⟩, rfl, rfl⟩
  · obtain ⟨i1, i2, i3, i4, i5, i6, i7⟩ := hR.inv
    refine ⟨i1, i2, i3, i4, i5, ?_, ?_⟩
    · intro p hp
      simp only [List.mem_append, List.mem_singleton] at hp
      rcases hp with hp | rfl
      · exact i6 p hp
      · exact h1
    · show (c.store.free ++ [(r.1, e)]).Nodup
      rw [List.nodup_append]
      refine ⟨i7, by simp, ?_⟩
      intro x hx y hy
      simp at hy
      subst hy
      rintro rfl
      exact h4 hx
  · intro h'
    by_cases hh : h' = h
    · subst hh; simp [upd]
    · simp only [upd_ne _ _ hh]; exact hR.dom h'
  · intro h' r' hr'
    by_cases hh : h' = h
    · subst hh; simp [upd] at hr'
    · simp only [upd_ne _ _ hh] at hr'
      obtain ⟨e', g1, g2, g3, g4⟩ := hR.rng h' r' hr'
      refine ⟨e', g1, g2, g3, ?_⟩
      simp only [List.mem_append, List.mem_singleton, not_or]
      refine ⟨g4, ?_⟩
      intro heq
      simp at heq
      exact hh (hR.inj h' h r' r hr' hr heq.1)
  · intro h' r' l' hr' hl'
    by_cases hh : h' = h
    · subst hh; simp [upd] at hr'
    · simp only [upd_ne _ _ hh] at hr' hl'; exact hR.cont h' r' l' hr' hl'
  · intro h1 h2 r1 r2 hr1 hr2 he
    by_cases hh1 : h1 = h
    · subst hh1; simp [upd] at hr1
    · by_cases hh2 : h2 = h
      · subst hh2; simp [upd] at hr2
      · simp only [upd_ne _ _ hh1] at hr1
        simp only [upd_ne _ _ hh2] at hr2
        exact hR.inj h1 h2 r1 r2 hr1 hr2 he

theorem step_reset {c : Client T} {a : Heap T} (hR : Rel c a) :
    ∃ c', c.step .reset = .ok (.unit, c') ∧ Rel c' ⟨fun _ => none, a.next⟩ ∧
      c'.store.len ≤ c.store.len ∧ c'.store.elemAlign = c.store.elemAlign := by
  refine ⟨_, rfl, ⟨hR.next, ?_, ?_, ?_, ?_, ?_⟩, ?_, rfl⟩
  · exact ⟨Nat.zero_le _, hR.inv.capPos, hR.inv.align, by simp [Store.reset], by simp [Store.reset],
      by simp [Store.reset], by simp [Store.reset]⟩
  · intro h; simp
  · intro h r hr; simp at hr
  · intro h r l hr; simp at hr
  · intro h h' r r' hr; simp at hr
  · exact Nat.zero_le _

theorem step_read {c : Client T} {a : Heap T} (hR : Rel c a) {h : Nat} {l : List T}
    (hl : a.live h = some l) : c.step (.read h) = .ok (.contents l, c) := by
  obtain ⟨r, hr⟩ := hR.live_of hl
  obtain ⟨hlen, hc⟩ := hR.cont h r l hr hl
  have hb := hR.bounds hr
  unfold Client.step
  simp only [hr]
  rw [Store.readSlice_eq c.store r l (by omega) hb.2 hlen hc]
  rfl

/-- Adding a fresh live range. -/
theorem Rel.add {c : Client T} {a : Heap T} (hR : Rel c a) (s' : Store T) (r : Range) (len : Nat)
    (v : T) (hinv : Store.Inv s') (hends : ∀ p ∈ c.store.ends, p ∈ s'.ends)
    (hfree : ∀ p ∈ s'.free, p ∈ c.store.free)
    (hr : ∃ e, (r.1, e) ∈ s'.ends ∧ r.1 < r.2 ∧ r.2 ≤ e ∧ (r.1, e) ∉ s'.free)
    (hlen : r.2 = r.1 + len)
    (hmem : ∀ i, r.1 ≤ i → i < r.2 → s'.mem i = some v)
    (hother : ∀ h q, c.live h = some q → q.1 ≠ r.1 ∧ ∀ i, q.1 ≤ i → i < q.2 →
      s'.mem i = c.store.mem i) :
    Rel (⟨s', upd c.live c.next (some r), c.next + 1⟩ : Client T)
      ⟨upd a.live a.next (some (List.replicate len v)), a.next + 1⟩ := by
  have hnext := hR.next
  refine ⟨by simp [hnext], hinv, ?_, ?_, ?_, ?_⟩
  · intro h
    dsimp only
    by_cases hh : h = c.next
    · subst hh; rw [upd_same]; rw [hnext, upd_same]; simp
    · rw [upd_ne _ _ hh, upd_ne _ _ (by omega)]; exact hR.dom h
  · intro h q hq
    by_cases hh : h = c.next
    · subst hh
      simp only [upd_same, Option.some.injEq] at hq
      subst hq; exact hr
    · simp only [upd_ne _ _ hh] at hq
      obtain ⟨e, g1, g2, g3, g4⟩ := hR.rng h q hq
      exact ⟨e, hends _ g1, g2, g3, fun hf => g4 (hfree _ hf)⟩
  · intro h q l hq hl
    dsimp only at hq hl
    by_cases hh : h = c.next
    · subst hh
      simp only [upd_same, Option.some.injEq] at hq
      subst hq
      rw [hnext] at hl
      simp only [upd_same, Option.some.injEq] at hl
      subst hl
      refine ⟨by simp; omega, ?_⟩
      intro k hk
      rw [List.length_replicate] at hk
      rw [List.getElem?_replicate_of_lt hk]
      exact hmem _ (by omega) (by omega)
    · simp only [upd_ne _ _ hh] at hq
      rw [upd_ne _ _ (by omega)] at hl
      obtain ⟨g1, g2⟩ := hR.cont h q l hq hl
      refine ⟨g1, ?_⟩
      intro k hk
      show s'.mem _ = _
      rw [(hother h q hq).2 _ (by omega) (by omega)]
      exact g2 k hk
  · intro h1 h2 r1 r2 hr1 hr2 he
    by_cases hh1 : h1 = c.next
    · by_cases hh2 : h2 = c.next
      · omega
      · subst hh1
        simp only [upd_same, Option.some.injEq] at hr1
        simp only [upd_ne _ _ hh2] at hr2
        have := (hother h2 r2 hr2).1
        rw [← he, ← hr1] at this
        exact absurd rfl this
    · by_cases hh2 : h2 = c.next
      · subst hh2
        simp only [upd_same, Option.some.injEq] at hr2
        simp only [upd_ne _ _ hh1] at hr1
        have := (hother h1 r1 hr1).1
        rw [he, ← hr2] at this
        exact absurd rfl this
      · simp only [upd_ne _ _ hh1] at hr1
        simp only [upd_ne _ _ hh2] at hr2
        exact hR.inj h1 h2 r1 r2 hr1 hr2 he

/-- What `alloc_slice` does, in either of its two ways. -/
theorem alloc_cases {c : Client T} {a : Heap T} (hR : Rel c a) {len : Nat} (v : T)
    (hlen : 0 < len) :
    (∃ r s', Store.allocSlice c.store len v = .ok (r, s') ∧ r.2 = r.1 + len ∧
      Rel (⟨s', upd c.live c.next (some r), c.next + 1⟩ : Client T)
        ⟨upd a.live a.next (some (List.replicate len v)), a.next + 1⟩ ∧
      s'.len ≤ c.store.len + len + c.store.elemAlign ∧ s'.elemAlign = c.store.elemAlign ∧
      c.store.elemAlign ∣ r.1) ∨
    (Store.allocSlice c.store len v = .panic ∧ u32Max ≤ c.store.len + len + c.store.elemAlign) := by
  have hI := hR.inv
  unfold Store.allocSlice
  rw [if_neg (by omega)]
  cases hff : Store.findFree c.store.free len with
  | some i =>
    left
    simp only
    unfold Store.findFree at hff
    rw [List.findIdx?_eq_some_iff_getElem] at hff
    obtain ⟨hi, hfit, _⟩ := hff
    rw [List.getElem?_eq_getElem hi]
    simp only
    have hperm := Store.swapRemove_perm c.store.free i hi
    have hmemfree : c.store.free[i] ∈ c.store.free := List.getElem_mem hi
    have hinends := hI.freeSub _ hmemfree
    obtain ⟨o1, o2, o3⟩ := hI.endsOk _ hinends
    have hnd : (c.store.free[i] :: Store.swapRemove c.store.free i).Nodup :=
      hperm.nodup_iff.mp hI.freeNodup
    have hsub : ∀ p ∈ Store.swapRemove c.store.free i, p ∈ c.store.free := fun p hp =>
      hperm.mem_iff.mpr (by simp [hp])
    have hnotin : c.store.free[i] ∉ Store.swapRemove c.store.free i := (List.nodup_cons.mp hnd).1
    generalize hrdef : c.store.free[i] = r at *
    have hfit' : len ≤ r.2 - r.1 := by simpa using hfit
    have hlc := hI.lenCap
    rw [if_pos (Store.checkRange_true _ _ (by omega) (by show r.2 ≤ c.store.capacity; omega))]
    refine ⟨_, _, rfl, rfl, ?_, ?_, rfl, o3⟩
    · apply hR.add
      · exact ⟨hI.lenCap, hI.capPos, hI.align, hI.endsOk, hI.endsDisj,
          fun p hp => hI.freeSub p (hsub p hp), (List.nodup_cons.mp hnd).2⟩
      · intro p hp; exact hp
      · exact hsub
      · exact ⟨r.2, hinends, by simp; omega, by simp; omega, hnotin⟩
      · rfl
      · intro i h1 h2
        simp only at h1 h2
        show Store.fill _ _ _ _ _ = _
        unfold Store.fill
        rw [if_pos (by omega)]
      · intro h q hq
        obtain ⟨e, g1, g2, g3, g4⟩ := hR.rng h q hq
        have hne : q.1 ≠ r.1 := by
          intro heq
          have := hI.functional g1 hinends heq
          rw [this] at g4
          exact g4 hmemfree
        refine ⟨hne, ?_⟩
        intro i h1 h2
        have hd := hR.disjoint_end hq hinends hne
        show Store.fill _ _ _ _ _ = _
        unfold Store.fill
        rw [if_neg (by omega)]
    · show c.store.len ≤ _; omega
  | none =>
    simp only
    have hal := hI.align
    generalize hE : c.store.elemAlign = E at *
    have hm := Nat.mod_lt c.store.len hal
    generalize hold : (if c.store.len % E = 0 then c.store.len
      else c.store.len + E - c.store.len % E) = old
    have hold1 : c.store.len ≤ old ∧ old ≤ c.store.len + E := by
      rw [← hold]; split <;> omega
    have hold2 : E ∣ old := by
      have hdm := Nat.div_add_mod c.store.len E
      rw [← hold]; split
      · rename_i hz; exact Nat.dvd_of_mod_eq_zero hz
      · rename_i hz
        refine ⟨c.store.len / E + 1, ?_⟩
        rw [Nat.mul_add, Nat.mul_one]; omega
    by_cases hu : old + len < u32Max
    · left
      rw [if_pos hu]
      obtain ⟨r1, r2⟩ := Store.resize_inv c.store (old + len) v hI
      refine ⟨_, _, rfl, rfl, ?_, ?_, ?_, hold2⟩
      · apply hR.add
        · refine ⟨r1, r2, ?_, ?_, ?_, ?_, ?_⟩
          · show 0 < (Store.resize c.store (old + len) v).elemAlign
            show 0 < c.store.elemAlign
            omega
          · intro p hp
            simp only [List.mem_cons] at hp
            show p.1 < p.2 ∧ p.2 ≤ old + len ∧ c.store.elemAlign ∣ p.1
            rcases hp with rfl | hp
            · simp only
              exact ⟨by omega, by omega, by rw [hE]; exact hold2⟩
            · obtain ⟨o1, o2, o3⟩ := hI.endsOk p hp
              exact ⟨o1, by omega, o3⟩
          · intro p hp q hq
            simp only [List.mem_cons] at hp hq
            rcases hp with rfl | hp <;> rcases hq with rfl | hq
            · left; rfl
            · right; right; have := (hI.endsOk q hq).2.1; simp; omega
            · right; left; have := (hI.endsOk p hp).2.1; simp; omega
            · exact hI.endsDisj p hp q hq
          · intro p hp
            exact List.mem_cons_of_mem _ (hI.freeSub p hp)
          · exact hI.freeNodup
        · intro p hp; exact List.mem_cons_of_mem _ hp
        · intro p hp; exact hp
        · refine ⟨old + len, by simp, by simp; omega, Nat.le_refl _, ?_⟩
          intro hf
          have := (hI.endsOk _ (hI.freeSub _ hf)).2.1
          simp at this
          omega
        · rfl
        · intro i h1 h2
          simp only at h1 h2
          show Store.fill _ _ _ _ _ = _
          unfold Store.fill
          rw [if_pos (by omega)]
        · intro h q hq
          obtain ⟨e, g1, g2, g3, g4⟩ := hR.rng h q hq
          have := (hI.endsOk _ g1).2.1
          simp at this
          refine ⟨by simp; omega, ?_⟩
          intro i h1 h2
          show Store.fill _ _ _ _ _ = _
          unfold Store.fill
          rw [if_neg (by omega)]
      · show old + len ≤ _; omega
      · rw [← hE]; rfl
    · right
      rw [if_neg hu]
      exact ⟨rfl, by omega⟩

/-- One step of the concrete client against one step of the abstract heap. -/
theorem step_refines {c : Client T} {a a' : Heap T} (hR : Rel c a) {op : Op T} {o : Obs T}
    (hs : a.step op = some (o, a')) :
    (∃ c', c.step op = .ok (o, c') ∧ Rel c' a' ∧
      c'.store.len ≤ c.store.len + demand c.store.elemAlign [op] ∧
      c'.store.elemAlign = c.store.elemAlign) ∨
    (c.step op = .panic ∧ u32Max ≤ c.store.len + demand c.store.elemAlign [op]) := by
  cases op with
  | alloc len v =>
    simp only [Heap.step] at hs
    split at hs
    · rename_i hlen
      simp at hs
      obtain ⟨rfl, rfl⟩ := hs
      rcases alloc_cases hR v hlen with ⟨r, s', h1, _, h2, h3, h4, _⟩ | ⟨h1, h2⟩
      · left
        refine ⟨_, ?_, h2, ?_, h4⟩
        · simp only [Client.step]; rw [h1]; rfl
        · simp [demand]; omega
      · right
        refine ⟨?_, ?_⟩
        · simp only [Client.step]; rw [h1]; rfl
        · simp [demand]; omega
    · simp at hs
  | free h =>
    simp only [Heap.step] at hs
    cases hl : a.live h with
    | none => rw [hl] at hs; simp at hs
    | some l =>
      rw [hl] at hs; simp at hs
      obtain ⟨rfl, rfl⟩ := hs
      obtain ⟨c', h1, h2, h3, h4⟩ := step_free hR hl
      exact .inl ⟨c', h1, h2, by simp [demand]; omega, h4⟩
  | write h k v =>
    simp only [Heap.step] at hs
    cases hl : a.live h with
    | none => rw [hl] at hs; simp at hs
    | some l =>
      rw [hl] at hs; simp at hs
      obtain ⟨hk, rfl, rfl⟩ := hs
      obtain ⟨c', h1, h2, h3, h4⟩ := step_write (v := v) hR hl hk
      exact .inl ⟨c', h1, h2, by simp [demand]; omega, h4⟩
  | shrink h n =>
    simp only [Heap.step] at hs
    cases hl : a.live h with
    | none => rw [hl] at hs; simp at hs
    | some l =>
      rw [hl] at hs; simp at hs
      obtain ⟨hk, rfl, rfl⟩ := hs
      obtain ⟨c', h1, h2, h3, h4⟩ := step_shrink hR hl hk.1 hk.2
      exact .inl ⟨c', h1, h2, by simp [demand]; omega, h4⟩
  | zip f p l r =>
    simp only [Heap.step] at hs
    cases hp : a.live p with
    | none => rw [hp] at hs; simp at hs
    | some lp =>
      cases hl : a.live l with
      | none => rw [hp, hl] at hs; simp at hs
      | some ll =>
        cases hr : a.live r with
        | none => rw [hp, hl, hr] at hs; simp at hs
        | some lr =>
          rw [hp, hl, hr] at hs; simp at hs
          obtain ⟨⟨g1, g2, g3, g4⟩, rfl, rfl⟩ := hs
          obtain ⟨c', h1, h2, h3, h4⟩ := step_zip (f := f) hR hp hl hr g1 g2 g3 g4
          exact .inl ⟨c', h1, h2, by simp [demand]; omega, h4⟩
  | read h =>
    simp only [Heap.step] at hs
    cases hl : a.live h with
    | none => rw [hl] at hs; simp at hs
    | some l =>
      rw [hl] at hs; simp at hs
      obtain ⟨rfl, rfl⟩ := hs
      exact .inl ⟨c, step_read hR hl, hR, by omega, rfl⟩
  | reset =>
    simp only [Heap.step] at hs
    simp at hs
    obtain ⟨rfl, rfl⟩ := hs
    obtain ⟨c', h1, h2, h3, h4⟩ := step_reset hR
    exact .inl ⟨c', h1, h2, by simp [demand]; omega, h4⟩

theorem demand_cons (al : Nat) (op : Op T) (ops : List (Op T)) :
    demand al (op :: ops) = demand al [op] + demand al ops := by
  cases op <;> simp [demand]

theorem run_refines (ops : List (Op T)) : ∀ {c : Client T} {a a' : Heap T} {obs : List (Obs T)},
    Rel c a → a.run ops = some (obs, a') →
    (∃ c', c.run ops = .ok (obs, c') ∧ Rel c' a') ∨
    (c.run ops = .panic ∧ u32Max ≤ c.store.len + demand c.store.elemAlign ops) := by
  induction ops with
  | nil =>
    intro c a a' obs hR hrun
    simp [Heap.run] at hrun
    obtain ⟨rfl, rfl⟩ := hrun
    exact .inl ⟨c, rfl, hR⟩
  | cons op ops ih =>
    intro c a a' obs hR hrun
    unfold Heap.run at hrun
    cases hs : a.step op with
    | none => rw [hs] at hrun; simp at hrun
    | some p =>
      obtain ⟨o, a1⟩ := p
      rw [hs] at hrun
      simp only [Option.map_eq_some_iff] at hrun
      obtain ⟨⟨obs', a2⟩, hrun', heq⟩ := hrun
      simp at heq
      obtain ⟨rfl, rfl⟩ := heq
      rw [demand_cons]
      unfold Client.run
      rcases step_refines hR hs with ⟨c1, h1, h2, h3, h4⟩ | ⟨h1, h2⟩
      · rw [h1]
        simp only [Out.ok_bind]
        rcases ih h2 hrun' with ⟨c2, g1, g2⟩ | ⟨g1, g2⟩
        · rw [g1]; exact .inl ⟨c2, rfl, g2⟩
        · rw [g1]; right
          refine ⟨rfl, ?_⟩
          rw [h4] at g2
          omega
      · rw [h1]; right
        exact ⟨rfl, by omega⟩

theorem rel_start {s : Store T} {alignT sizeT cap ba : Nat}
    (h : Store.aligned T alignT sizeT cap ba = .ok s) : Rel (Client.start s) Heap.empty := by
  unfold Store.aligned at h
  split at h
  · rename_i hc
    simp at h
    subst h
    obtain ⟨h1, h2, h3, h4⟩ := hc
    have hba : 0 < ba := by
      unfold Store.isPow2 at h3
      simp at h3
      omega
    refine ⟨rfl, ⟨Nat.zero_le _, h4, ?_, ?_, ?_, ?_, ?_⟩, ?_, ?_, ?_, ?_⟩
    · show 0 < ba / alignT
      exact Nat.div_pos (Nat.le_of_dvd hba (Nat.dvd_of_mod_eq_zero h1)) h2
    all_goals simp [Client.start, Heap.empty]
  · simp at h

end Spec
end BitBoost
