import Verif.Lemmas.BitStore
import Verif.Model.LearnerStore
/-!
Helper lemmas: a store holds a list of slices with their contents; two stores that hold the same slices and hand out
the same ranges.
-/
namespace BitBoost
open Spec
namespace Store
variable {T : Type}

/-- The store `s` holds the slices of `L`: each is allocated and not freed, has the content given, and no two are the
same. -/
structure Holds (s : Store T) (L : List (Range × List T)) : Prop where
  inv : Inv s
  own : ∀ x ∈ L, ∃ e, (x.1.1, e) ∈ s.ends ∧ x.1.1 < x.1.2 ∧ x.1.2 ≤ e ∧ (x.1.1, e) ∉ s.free
  cont : ∀ x ∈ L, x.2.length = x.1.2 - x.1.1 ∧ ∀ k, k < x.2.length → s.mem (x.1.1 + k) = x.2[k]?
  diff : L.Pairwise fun x y => x.1.1 ≠ y.1.1

theorem Holds.perm {s : Store T} {L L' : List (Range × List T)} (h : Holds s L) (hp : L.Perm L') : Holds s L' := by
  refine ⟨h.inv, fun x hx => h.own x (hp.mem_iff.2 hx), fun x hx => h.cont x (hp.mem_iff.2 hx), ?_⟩
  exact (hp.pairwise_iff (fun h => Ne.symm h)).1 h.diff

theorem Holds.tail {s : Store T} {x : Range × List T} {L : List (Range × List T)} (h : Holds s (x :: L)) : Holds s L :=
  ⟨h.inv, fun y hy => h.own y (List.mem_cons_of_mem _ hy), fun y hy => h.cont y (List.mem_cons_of_mem _ hy),
    (List.pairwise_cons.1 h.diff).2⟩

theorem Holds.bounds {s : Store T} {L : List (Range × List T)} (h : Holds s L) {x : Range × List T} (hx : x ∈ L) :
    x.1.1 < x.1.2 ∧ x.1.2 ≤ s.len ∧ x.1.2 ≤ s.capacity ∧ x.2.length = x.1.2 - x.1.1 := by
  obtain ⟨e, h1, h2, h3, _⟩ := h.own x hx
  have := (h.inv.endsOk _ h1).2.1
  have := h.inv.lenCap
  have := (h.cont x hx).1
  simp at *
  omega

theorem Holds.read {s : Store T} {L : List (Range × List T)} (h : Holds s L) {r : Range} {l : List T} (hx : (r, l) ∈ L) :
    s.readSlice r = .ok l := by
  have hb := h.bounds hx
  exact readSlice_eq s r l (by simp at hb; omega) hb.2.2.1 (h.cont _ hx).1 (h.cont _ hx).2

/-- The ranges of two slices do not meet. -/
theorem Holds.disjoint {s : Store T} {x : Range × List T} {L : List (Range × List T)} (h : Holds s (x :: L))
    {y : Range × List T} (hy : y ∈ L) : x.1.2 ≤ y.1.1 ∨ y.1.2 ≤ x.1.1 := by
  obtain ⟨e, h1, h2, h3, _⟩ := h.own x (List.mem_cons_self ..)
  obtain ⟨e', h1', h2', h3', _⟩ := h.own y (List.mem_cons_of_mem _ hy)
  rcases h.inv.endsDisj _ h1 _ h1' with h4 | h4 | h4
  · exact absurd (congrArg Prod.fst h4) ((List.pairwise_cons.1 h.diff).1 y hy)
  · left; simp at h4; omega
  · right; simp at h4; omega

theorem Holds.rel {s : Store T} {L : List (Range × List T)} (h : Holds s L) :
    Rel (⟨s, fun i => L[i]?.map Prod.fst, L.length⟩ : Client T) ⟨fun i => L[i]?.map Prod.snd, L.length⟩ := by
  refine ⟨rfl, h.inv, by intro i; simp, ?_, ?_, ?_⟩
  · intro i r hr
    simp only [Option.map_eq_some_iff] at hr
    obtain ⟨x, hx, rfl⟩ := hr
    exact h.own x (List.mem_of_getElem? hx)
  · intro i r l hr hl
    simp only [Option.map_eq_some_iff] at hr hl
    obtain ⟨x, hx, rfl⟩ := hr
    obtain ⟨y, hy, rfl⟩ := hl
    rw [hx] at hy
    cases hy
    exact h.cont x (List.mem_of_getElem? hx)
  · intro i j r r' hr hr' he
    simp only [Option.map_eq_some_iff] at hr hr'
    obtain ⟨x, hx, rfl⟩ := hr
    obtain ⟨y, hy, rfl⟩ := hr'
    by_contra hne
    obtain ⟨hi, rfl⟩ := List.getElem?_eq_some_iff.1 hx
    obtain ⟨hj, rfl⟩ := List.getElem?_eq_some_iff.1 hy
    have hp := List.pairwise_iff_getElem.1 h.diff
    rcases Nat.lt_or_gt_of_ne hne with h1 | h1
    · exact hp i j hi hj h1 he
    · exact hp j i hj hi h1 he.symm

theorem Holds.alloc {s : Store T} {L : List (Range × List T)} (h : Holds s L) {len : Nat} {v : T} {r : Range}
    {s' : Store T} (he : s.allocSlice len v = .ok (r, s')) :
    Holds s' ((r, List.replicate len v) :: L) ∧ r.2 = r.1 + len ∧ 0 < len := by
  have hpos : 0 < len := by
    by_contra h0
    have : len = 0 := by omega
    subst this
    cases he
  rcases alloc_cases h.rel v hpos with ⟨r', s2, e, h2, hR, _⟩ | ⟨e, _⟩
  · rw [he] at e
    cases e
    have k1 : ∀ i (hi : i < L.length), upd (fun i => L[i]?.map Prod.fst) L.length (some r) i = some L[i].1 := by
      intro i hi
      rw [upd_ne _ _ (by omega)]
      simp [hi]
    have k2 : ∀ i (hi : i < L.length),
        upd (fun i => L[i]?.map Prod.snd) L.length (some (List.replicate len v)) i = some L[i].2 := by
      intro i hi
      rw [upd_ne _ _ (by omega)]
      simp [hi]
    refine ⟨⟨hR.inv, ?_, ?_, ?_⟩, h2, hpos⟩
    · intro x hx
      rcases List.mem_cons.1 hx with rfl | hx
      · exact hR.rng L.length r (upd_same _ _ _)
      · obtain ⟨i, hi, rfl⟩ := List.getElem_of_mem hx
        exact hR.rng i _ (k1 i hi)
    · intro x hx
      rcases List.mem_cons.1 hx with rfl | hx
      · exact hR.cont L.length r _ (upd_same _ _ _) (upd_same _ _ _)
      · obtain ⟨i, hi, rfl⟩ := List.getElem_of_mem hx
        exact hR.cont i _ _ (k1 i hi) (k2 i hi)
    · refine List.pairwise_cons.2 ⟨?_, h.diff⟩
      intro y hy heq
      obtain ⟨i, hi, rfl⟩ := List.getElem_of_mem hy
      have := hR.inj L.length i r L[i].1 (upd_same _ _ _) (k1 i hi) heq
      omega
  · rw [he] at e
    cases e

theorem Holds.setMem {s : Store T} {r : Range} {l : List T} {L : List (Range × List T)} (h : Holds s ((r, l) :: L))
    {mem : Nat → Option T} {l' : List T} (hl : l'.length = l.length) (hin : ∀ k, k < l'.length → mem (r.1 + k) = l'[k]?)
    (hout : ∀ i, ¬ (r.1 ≤ i ∧ i < r.2) → mem i = s.mem i) : Holds { s with mem := mem } ((r, l') :: L) := by
  obtain ⟨i1, i2, i3, i4, i5, i6, i7⟩ := h.inv
  refine ⟨⟨i1, i2, i3, i4, i5, i6, i7⟩, ?_, ?_, ?_⟩
  · intro x hx
    rcases List.mem_cons.1 hx with rfl | hx
    · exact h.own (r, l) (List.mem_cons_self ..)
    · exact h.own x (List.mem_cons_of_mem _ hx)
  · intro x hx
    rcases List.mem_cons.1 hx with rfl | hx
    · exact ⟨by rw [hl]; exact (h.cont (r, l) (List.mem_cons_self ..)).1, hin⟩
    · obtain ⟨h1, h2⟩ := h.cont x (List.mem_cons_of_mem _ hx)
      refine ⟨h1, fun k hk => ?_⟩
      have hd := h.disjoint hx
      simp only at hd
      show mem _ = _
      rw [hout _ (by omega)]
      exact h2 k hk
  · exact List.pairwise_cons.2 (List.pairwise_cons.1 h.diff)

theorem Holds.writeSlice {s : Store T} {r : Range} {l : List T} {L : List (Range × List T)} (h : Holds s ((r, l) :: L))
    {l' : List T} (hl : l'.length = l.length) :
    s.writeSlice r l' = .ok { s with mem := fun i => if r.1 ≤ i ∧ i < r.2 then l'[i - r.1]? else s.mem i } ∧
    Holds { s with mem := fun i => if r.1 ≤ i ∧ i < r.2 then l'[i - r.1]? else s.mem i } ((r, l') :: L) := by
  have hb := h.bounds (List.mem_cons_self ..)
  simp only at hb
  refine ⟨?_, h.setMem hl ?_ ?_⟩
  · unfold Store.writeSlice
    rw [if_pos ⟨checkRange_true _ _ (by omega) hb.2.2.1, by omega⟩]
  · intro k hk
    rw [if_pos (by omega)]
    congr 1
    omega
  · intro i hi
    rw [if_neg hi]

theorem Holds.writeAt {s : Store T} {r : Range} {l : List T} {L : List (Range × List T)} (h : Holds s ((r, l) :: L))
    {k : Nat} (v : T) (hk : k < l.length) :
    s.writeAt r k v = .ok { s with mem := fun i => if i = r.1 + k then some v else s.mem i } ∧
    Holds { s with mem := fun i => if i = r.1 + k then some v else s.mem i } ((r, l.set k v) :: L) := by
  have hb := h.bounds (List.mem_cons_self ..)
  have hc := h.cont _ (List.mem_cons_self ..)
  simp only at hb hc
  refine ⟨?_, h.setMem (by simp) ?_ ?_⟩
  · unfold Store.writeAt
    rw [if_pos ⟨checkRange_true _ _ (by omega) hb.2.2.1, by omega⟩]
  · intro j hj
    rw [List.length_set] at hj
    rw [List.getElem?_set]
    by_cases hjk : k = j
    · subst hjk; simp [hk]
    · rw [if_neg (by omega), if_neg hjk]
      exact hc.2 j hj
  · intro i hi
    rw [if_neg (by omega)]

theorem Holds.free {s : Store T} {r : Range} {l : List T} {L : List (Range × List T)} (h : Holds s ((r, l) :: L)) :
    ∃ e, s.freeSlice r = .ok { s with free := s.free ++ [(r.1, e)] } ∧ (s.ends.lookup r.1 = some e) ∧
      Holds { s with free := s.free ++ [(r.1, e)] } L := by
  obtain ⟨e, h1, h2, h3, h4⟩ := h.own _ (List.mem_cons_self ..)
  simp only at h1 h2 h3 h4
  have hlook : s.ends.lookup r.1 = some e := lookup_of_mem h1 fun p hp hpe => h.inv.functional hp h1 hpe
  refine ⟨e, by unfold Store.freeSlice; rw [hlook], hlook, ?_, ?_, h.tail.cont, h.tail.diff⟩
  · obtain ⟨i1, i2, i3, i4, i5, i6, i7⟩ := h.inv
    refine ⟨i1, i2, i3, i4, i5, ?_, ?_⟩
    · intro p hp
      rcases List.mem_append.1 hp with hp | hp
      · exact i6 p hp
      · rw [List.mem_singleton.1 hp]; exact h1
    · show (s.free ++ [(r.1, e)]).Nodup
      rw [List.nodup_append]
      refine ⟨i7, by simp, ?_⟩
      intro x hx y hy
      rw [List.mem_singleton.1 hy]
      rintro rfl
      exact h4 hx
  · intro x hx
    obtain ⟨e', g1, g2, g3, g4⟩ := h.tail.own x hx
    refine ⟨e', g1, g2, g3, ?_⟩
    show _ ∉ s.free ++ [(r.1, e)]
    rw [List.mem_append, List.mem_singleton]
    rintro (hh | hh)
    · exact g4 hh
    · exact (List.pairwise_cons.1 h.diff).1 x hx (congrArg Prod.fst hh).symm

theorem Holds.shrink {s : Store T} {r : Range} {l : List T} {L : List (Range × List T)} (h : Holds s ((r, l) :: L))
    {n : Nat} (h0 : 0 < n) (hn : n ≤ l.length) : Holds s (((r.1, r.1 + n), l.take n) :: L) := by
  have hb := h.bounds (List.mem_cons_self ..)
  have hc := h.cont _ (List.mem_cons_self ..)
  simp only at hb hc
  refine ⟨h.inv, ?_, ?_, ?_⟩
  · intro x hx
    rcases List.mem_cons.1 hx with rfl | hx
    · obtain ⟨e, h1, h2, h3, h4⟩ := h.own _ (List.mem_cons_self ..)
      simp only at h1 h2 h3 h4
      exact ⟨e, h1, by simp only; omega, by simp only; omega, h4⟩
    · exact h.tail.own x hx
  · intro x hx
    rcases List.mem_cons.1 hx with rfl | hx
    · refine ⟨by simp; omega, fun k hk => ?_⟩
      rw [List.length_take] at hk
      simp only
      rw [List.getElem?_take_of_lt (by omega)]
      exact hc.2 k (by omega)
    · exact h.tail.cont x hx
  · exact List.pairwise_cons.2 (List.pairwise_cons.1 h.diff)

theorem Holds.zip {s : Store T} {rr rp rl : Range} {r p l : List T} {L : List (Range × List T)}
    (h : Holds s ((rr, r) :: L)) (hp : (rp, p) ∈ L) (hl : (rl, l) ∈ L) (f : T → T → T) (h1 : p.length = l.length)
    (h2 : p.length = r.length) :
    ∃ mem, s.histsSubtract f rp rl rr = .ok { s with mem := mem } ∧
      Holds { s with mem := mem } ((rr, List.zipWith f p l) :: L) := by
  have br := h.bounds (List.mem_cons_self ..)
  have bp := h.bounds (List.mem_cons_of_mem _ hp)
  have bl := h.bounds (List.mem_cons_of_mem _ hl)
  have cp := h.cont _ (List.mem_cons_of_mem _ hp)
  have cl := h.cont _ (List.mem_cons_of_mem _ hl)
  have dp := h.disjoint hp
  have dl := h.disjoint hl
  simp only at br bp bl cp cl dp dl
  obtain ⟨mem, e, g1, g2⟩ := subLoop_spec f rp.1 rl.1 rr.1 p l h1 (rp.2 - rp.1) 0 s (by omega) (by omega) (by omega)
    (by omega) (by omega) (by omega) (fun k hk => cp.2 k hk) (fun k hk => cl.2 k (by omega))
  refine ⟨mem, e, h.setMem (by simp; omega) ?_ ?_⟩
  · intro k hk
    exact g1 k (by omega) (by simp at hk; omega)
  · intro i hi
    exact g2 i (by omega)

theorem Holds.twoSlices {s : Store T} {x : Range × List T} {L : List (Range × List T)} (h : Holds s (x :: L))
    {y : Range × List T} (hy : y ∈ L) : s.getTwoSlicesMut y.1 x.1 = .ok (y.1, x.1) := by
  have bx := h.bounds (List.mem_cons_self ..)
  have by' := h.bounds (List.mem_cons_of_mem _ hy)
  have hd := h.disjoint hy
  obtain ⟨⟨a, b⟩, _⟩ := x
  obtain ⟨⟨a', b'⟩, _⟩ := y
  simp only at *
  unfold Store.getTwoSlicesMut
  by_cases hlt : a' < a
  · rw [if_pos hlt, if_pos (by omega)]
    congr 3
    omega
  · rw [if_neg hlt, if_pos (by omega)]
    congr 3
    omega

theorem Holds.writeAll {s : Store BitBlock} {r : Range} {L : List (Range × List BitBlock)} :
    ∀ {bs l done : List BitBlock}, Holds s ((r, done ++ l) :: L) → l.length = bs.length →
    ∃ s', BitBlockStore.writeAll s r done.length bs = .ok s' ∧ Holds s' ((r, done ++ bs) :: L) ∧
      s'.len = s.len ∧ s'.free = s.free ∧ s'.ends = s.ends ∧ s'.elemAlign = s.elemAlign := by
  intro bs
  induction bs generalizing s with
  | nil =>
    intro l done h hl
    have : l = [] := by simpa using hl
    subst this
    exact ⟨s, rfl, h, rfl, rfl, rfl, rfl⟩
  | cons b bs ih =>
    intro l done h hl
    cases l with
    | nil => simp at hl
    | cons x l =>
      obtain ⟨e, g⟩ := h.writeAt (k := done.length) b (by simp)
      have e2 : (done ++ x :: l).set done.length b = (done ++ [b]) ++ l := by simp
      rw [e2] at g
      obtain ⟨s', e3, g3, m1, m2, m3, m4⟩ := ih g (by simpa using hl)
      refine ⟨s', ?_, by simpa using g3, m1, m2, m3, m4⟩
      unfold BitBlockStore.writeAll
      rw [e, Out.ok_bind]
      simpa using e3

theorem Holds.reset {s : Store T} (hc : 0 < s.capacity) (ha : 0 < s.elemAlign) : Holds (Store.reset s) [] :=
  ⟨⟨Nat.zero_le _, hc, ha, by simp [Store.reset], by simp [Store.reset], by simp [Store.reset], by simp [Store.reset]⟩,
    by simp, by simp, by simp⟩

/-! ## Two stores -/

/-- Two stores that hold the same slices and will hand out the same ranges; at most `m` elements are in use. -/
structure Twin (al m : Nat) (s t : Store T) (L : List (Range × List T)) : Prop where
  left : Holds s L
  right : Holds t L
  len : s.len = t.len
  free : s.free = t.free
  ends : s.ends = t.ends
  align : s.elemAlign = al
  align' : t.elemAlign = al
  room : s.len ≤ m

theorem Twin.perm {al m : Nat} {s t : Store T} {L L' : List (Range × List T)} (h : Twin al m s t L) (hp : L.Perm L') : Twin al m s t L' :=
  ⟨h.left.perm hp, h.right.perm hp, h.len, h.free, h.ends, h.align, h.align', h.room⟩

theorem allocSlice_twin {s t : Store T} (hs : Inv s) (ht : Inv t) (h1 : s.len = t.len) (h2 : s.free = t.free)
    (h3 : s.ends = t.ends) (h4 : s.elemAlign = t.elemAlign) (len : Nat) (v : T) :
    (s.allocSlice len v = .panic ∧ t.allocSlice len v = .panic ∧ (len = 0 ∨ u32Max < s.len + s.elemAlign + len)) ∨
    ∃ r s' t', s.allocSlice len v = .ok (r, s') ∧ t.allocSlice len v = .ok (r, t') ∧ s'.len = t'.len ∧
      s'.free = t'.free ∧ s'.ends = t'.ends ∧ s'.elemAlign = s.elemAlign ∧ t'.elemAlign = t.elemAlign ∧
      s'.len < s.len + s.elemAlign + len := by
  unfold Store.allocSlice
  have hal := hs.align
  by_cases h0 : len = 0
  · rw [if_pos h0, if_pos h0]; exact .inl ⟨rfl, rfl, .inl h0⟩
  rw [if_neg h0, if_neg h0, ← h2]
  cases hf : findFree s.free len with
  | some i =>
    simp only
    cases hi : s.free[i]? with
    | none =>
      obtain ⟨hlt, _⟩ := List.findIdx?_eq_some_iff_getElem.1 hf
      rw [List.getElem?_eq_none_iff] at hi
      omega
    | some r =>
      simp only
      have hr := hs.freeSub r (List.mem_of_getElem? hi)
      have b1 := hs.endsOk r hr
      have := hs.lenCap
      have := ht.lenCap
      rw [if_pos (checkRange_true _ _ (by omega) (by simp only; omega)),
        if_pos (checkRange_true _ _ (by omega) (by simp only; omega))]
      exact .inr ⟨_, _, _, rfl, rfl, h1, rfl, h3, rfl, rfl, by show s.len < _; omega⟩
  | none =>
    simp only
    rw [← h1, ← h4]
    have ho : (if s.len % s.elemAlign = 0 then s.len else s.len + s.elemAlign - s.len % s.elemAlign) <
        s.len + s.elemAlign := by
      split <;> omega
    generalize (if s.len % s.elemAlign = 0 then s.len else s.len + s.elemAlign - s.len % s.elemAlign) = o at ho ⊢
    by_cases hl : o + len < u32Max
    · rw [if_pos hl, if_pos hl]
      refine .inr ⟨_, _, _, rfl, rfl, ?_, ?_, ?_, ?_, ?_, ?_⟩
      · rfl
      · exact h2
      · show _ :: (resize s _ v).ends = _ :: (resize t _ v).ends
        unfold resize
        simp only [h3]
      · rfl
      · exact h4.symm ▸ rfl
      · show o + len < _
        omega
    · rw [if_neg hl, if_neg hl]
      exact .inl ⟨rfl, rfl, .inr (by omega)⟩

theorem Twin.alloc {al m : Nat} {s t : Store T} {L : List (Range × List T)} (h : Twin al m s t L) (len : Nat) (v : T) :
    (s.allocSlice len v = .panic ∧ t.allocSlice len v = .panic ∧ (len = 0 ∨ u32Max < m + al + len)) ∨
    ∃ r s' t', s.allocSlice len v = .ok (r, s') ∧ t.allocSlice len v = .ok (r, t') ∧ r.2 = r.1 + len ∧ 0 < len ∧
      Twin al (m + al + len - 1) s' t' ((r, List.replicate len v) :: L) := by
  rcases allocSlice_twin h.left.inv h.right.inv h.len h.free h.ends (h.align.trans h.align'.symm) len v
    with hp | ⟨r, s', t', e1, e2, m1, m2, m3, m4, m5, m6⟩
  · rw [h.align] at hp
    have := h.room
    exact .inl ⟨hp.1, hp.2.1, by omega⟩
  · obtain ⟨g1, g2, g3⟩ := h.left.alloc e1
    rw [h.align] at m6
    have := h.room
    exact .inr ⟨r, s', t', e1, e2, g2, g3, g1, (h.right.alloc e2).1, m1, m2, m3, m4.trans h.align,
      m5.trans h.align', by omega⟩

theorem Twin.writeSlice {al m : Nat} {s t : Store T} {r : Range} {l : List T} {L : List (Range × List T)} (h : Twin al m s t ((r, l) :: L))
    {l' : List T} (hl : l'.length = l.length) :
    ∃ s' t', s.writeSlice r l' = .ok s' ∧ t.writeSlice r l' = .ok t' ∧ Twin al m s' t' ((r, l') :: L) :=
  ⟨_, _, (h.left.writeSlice hl).1, (h.right.writeSlice hl).1, (h.left.writeSlice hl).2, (h.right.writeSlice hl).2,
    h.len, h.free, h.ends, h.align, h.align', h.room⟩

theorem Twin.writeAt {al m : Nat} {s t : Store T} {r : Range} {l : List T} {L : List (Range × List T)} (h : Twin al m s t ((r, l) :: L))
    {k : Nat} (v : T) (hk : k < l.length) :
    ∃ s' t', s.writeAt r k v = .ok s' ∧ t.writeAt r k v = .ok t' ∧ Twin al m s' t' ((r, l.set k v) :: L) :=
  ⟨_, _, (h.left.writeAt v hk).1, (h.right.writeAt v hk).1, (h.left.writeAt v hk).2, (h.right.writeAt v hk).2,
    h.len, h.free, h.ends, h.align, h.align', h.room⟩

theorem Twin.writeAll {al m : Nat} {s t : Store BitBlock} {r : Range} {l bs : List BitBlock} {L : List (Range × List BitBlock)}
    (h : Twin al m s t ((r, l) :: L)) (hl : l.length = bs.length) :
    ∃ s' t', BitBlockStore.writeAll s r 0 bs = .ok s' ∧ BitBlockStore.writeAll t r 0 bs = .ok t' ∧
      Twin al m s' t' ((r, bs) :: L) := by
  obtain ⟨s', e1, g1, a1, a2, a3, a4⟩ := Holds.writeAll (done := []) h.left hl
  obtain ⟨t', e2, g2, b1, b2, b3, b4⟩ := Holds.writeAll (done := []) h.right hl
  exact ⟨s', t', e1, e2, g1, g2, by rw [a1, b1, h.len], by rw [a2, b2, h.free], by rw [a3, b3, h.ends],
    a4.trans h.align, b4.trans h.align', by rw [a1]; exact h.room⟩

theorem Twin.freeSlice {al m : Nat} {s t : Store T} {r : Range} {l : List T} {L : List (Range × List T)} (h : Twin al m s t ((r, l) :: L)) :
    ∃ s' t', s.freeSlice r = .ok s' ∧ t.freeSlice r = .ok t' ∧ Twin al m s' t' L := by
  obtain ⟨e, e1, k1, g1⟩ := h.left.free
  obtain ⟨e', e2, k2, g2⟩ := h.right.free
  rw [h.ends, k2] at k1
  cases k1
  exact ⟨_, _, e1, e2, g1, g2, h.len, by simp [h.free], h.ends, h.align, h.align', h.room⟩

theorem Twin.shrink {al m : Nat} {s t : Store T} {r : Range} {l : List T} {L : List (Range × List T)} (h : Twin al m s t ((r, l) :: L))
    {n : Nat} (h0 : 0 < n) (hn : n ≤ l.length) : Twin al m s t (((r.1, r.1 + n), l.take n) :: L) :=
  ⟨h.left.shrink h0 hn, h.right.shrink h0 hn, h.len, h.free, h.ends, h.align, h.align', h.room⟩

theorem Twin.zip {al m : Nat} {s t : Store T} {rr rp rl : Range} {r p l : List T} {L : List (Range × List T)}
    (h : Twin al m s t ((rr, r) :: L)) (hp : (rp, p) ∈ L) (hl : (rl, l) ∈ L) (f : T → T → T) (h1 : p.length = l.length)
    (h2 : p.length = r.length) :
    ∃ s' t', s.histsSubtract f rp rl rr = .ok s' ∧ t.histsSubtract f rp rl rr = .ok t' ∧
      Twin al m s' t' ((rr, List.zipWith f p l) :: L) := by
  obtain ⟨m, e1, g1⟩ := h.left.zip hp hl f h1 h2
  obtain ⟨m', e2, g2⟩ := h.right.zip hp hl f h1 h2
  exact ⟨_, _, e1, e2, g1, g2, h.len, h.free, h.ends, h.align, h.align', h.room⟩

theorem Twin.reset {al m : Nat} {s t : Store T} (hs : 0 < s.capacity) (ht : 0 < t.capacity) (ha : 0 < al)
    (h1 : s.elemAlign = al) (h2 : t.elemAlign = al) : Twin al m (Store.reset s) (Store.reset t) [] :=
  ⟨.reset hs (h1 ▸ ha), .reset ht (h2 ▸ ha), rfl, rfl, rfl, h1, h2, Nat.zero_le _⟩

theorem Twin.mono {al m m' : Nat} {s t : Store T} {L : List (Range × List T)} (h : Twin al m s t L) (hm : m ≤ m') :
    Twin al m' s t L := ⟨h.left, h.right, h.len, h.free, h.ends, h.align, h.align', h.room.trans hm⟩

end Store
end BitBoost
