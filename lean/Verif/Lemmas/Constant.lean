import Verif.Spec.Constant
import Verif.Lemmas.LearnerSim
import Verif.Lemmas.DatasetInv
import Verif.Lemmas.Targets
/-! Helper lemmas for runs with and without a column that holds one value only. -/
namespace BitBoost
open Spec Dataset Learner

theorem Out.Sim.bind' {α β γ δ : Type} {R : α → β → Prop} {S : γ → δ → Prop} {x : Out α} {y : Out β} {f : α → Out γ}
    {g : β → Out δ} (h : Sim R x y) (hf : ∀ a b, x = .ok a → y = .ok b → R a b → Sim S (f a) (g b)) :
    Sim S (x >>= f) (y >>= g) := by
  cases h with
  | ok h => simpa using hf _ _ rfl rfl h
  | panic => exact Sim.panic
  | ub => exact Sim.ub

theorem Out.Sim.of_eq {α : Type} {R : α → α → Prop} (hR : ∀ a, R a a) {x y : Out α} (e : x = y) : Sim R x y := by
  subst e; exact Sim.refl hR x

/-! ### Lists without one element -/
section
variable {α β : Type} {k : Nat}

theorem skip_ne (k f : Nat) : skip k f ≠ k := by unfold skip; split <;> omega

theorem skip_lt {k f g : Nat} (h : f < g) : skip k f < skip k g := by unfold skip; split <;> split <;> omega

theorem skip_inj {k f g : Nat} (h : skip k f = skip k g) : f = g := by
  rcases lt_trichotomy f g with h1 | h1 | h1
  · have := skip_lt (k := k) h1; omega
  · exact h1
  · have := skip_lt (k := k) h1; omega

theorem skip_bound {k f n : Nat} (hk : k < n) : skip k f < n ↔ f < n - 1 := by unfold skip; split <;> omega

theorem skip_onto {k g : Nat} (h : g ≠ k) : ∃ f, g = skip k f := by
  rcases Nat.lt_or_gt_of_ne h with h | h
  · exact ⟨g, by unfold skip; rw [if_pos h]⟩
  · exact ⟨g - 1, by unfold skip; rw [if_neg (by omega)]; omega⟩

theorem erase_get (l : List α) (f : Nat) : (l.eraseIdx k)[f]? = l[skip k f]? := by
  rw [List.getElem?_eraseIdx]
  unfold skip
  split <;> rfl

theorem erase_at (l : List α) (f : Nat) : at? (l.eraseIdx k) f = at? l (skip k f) := by
  unfold at?
  rw [erase_get]

theorem erase_lt (l : List α) (f : Nat) : f < (l.eraseIdx k).length ↔ skip k f < l.length := by
  rw [← not_le, ← not_le, ← List.getElem?_eq_none_iff, ← List.getElem?_eq_none_iff, erase_get]

theorem erase_set (l : List α) (f : Nat) (x : α) : (l.set (skip k f) x).eraseIdx k = (l.eraseIdx k).set f x := by
  refine List.ext_getElem? fun g => ?_
  rw [erase_get, List.getElem?_set, List.getElem?_set, erase_get]
  by_cases h : f = g
  · subst h
    rw [if_pos rfl, if_pos rfl]
    by_cases h2 : skip k f < l.length
    · rw [if_pos h2, if_pos]
      simpa [erase_lt] using h2
    · rw [if_neg h2, if_neg]
      simpa [erase_lt] using h2
  · rw [if_neg h, if_neg fun e => h (skip_inj e)]

theorem erase_zipWith {γ : Type} (g : α → β → γ) : ∀ (k : Nat) (l : List α) (m : List β),
    (List.zipWith g l m).eraseIdx k = List.zipWith g (l.eraseIdx k) (m.eraseIdx k) := by
  intro k l m
  refine List.ext_getElem? fun f => ?_
  rw [erase_get, List.getElem?_zipWith, List.getElem?_zipWith, erase_get, erase_get]

theorem insertionSort_map_skip (k : Nat) (l : List Nat) :
    (l.map (skip k)).insertionSort (· ≤ ·) = (l.insertionSort (· ≤ ·)).map (skip k) := by
  refine (List.map_insertionSort (r := (· ≤ ·)) (s := (· ≤ ·)) _ _ fun a _ b _ => ?_).symm
  constructor
  · intro h
    rcases Nat.lt_or_eq_of_le h with h | h
    · exact (skip_lt h).le
    · rw [h]
  · intro h
    by_contra hc
    have := skip_lt (k := k) (by omega : b < a)
    omega

end

/-! ### Sampling -/

theorem swapAt_map (e : Nat → Nat) (l : List Nat) (i j : Nat) :
    swapAt (l.map e) i j = (swapAt l i j) >>= fun x => .ok (x.map e) := by
  unfold swapAt at?
  rw [List.getElem?_map, List.getElem?_map]
  cases l[i]? with
  | none => rfl
  | some x =>
    cases l[j]? with
    | none => rfl
    | some y => simp [List.map_set]

theorem shuffleLoop_map (e : Nat → Nat) : ∀ (n i : Nat) (r : Rng) (l : List Nat),
    shuffleLoop n i r (l.map e) = (shuffleLoop n i r l) >>= fun x => .ok (x.1.map e, x.2)
  | 0, _, _, _ => rfl
  | n + 1, i, r, l => by
      simp only [shuffleLoop, List.length_map]
      cases r.genRange i l.length with
      | panic => rfl
      | ub => rfl
      | ok p =>
        simp only [Out.ok_bind]
        rw [swapAt_map]
        cases swapAt l i p.1 with
        | panic => rfl
        | ub => rfl
        | ok l' =>
          simp only [Out.ok_bind]
          exact shuffleLoop_map e n (i + 1) p.2 l'

theorem shuffleFirstK_skip (k : Nat) (r : Rng) (n : Nat) (l : List Nat) :
    shuffleFirstK r n (l.map (skip k)) = (shuffleFirstK r n l) >>= fun x => .ok (x.1.map (skip k), x.2) := by
  unfold shuffleFirstK
  rw [shuffleLoop_map]
  cases shuffleLoop n 0 r l with
  | panic => rfl
  | ub => rfl
  | ok p =>
    simp only [Out.ok_bind, List.length_map]
    cases Out.assert (decide (n ≤ p.1.length)) with
    | panic => rfl
    | ub => rfl
    | ok u =>
      simp only [Out.ok_bind, Out.pure_eq, List.map_append, ← List.map_take, ← List.map_drop, insertionSort_map_skip]

/-! ### The data set -/

/-- Two training views, with and without column `k`. -/
structure Dataset.Dropped (k : Nat) (d d' : Data) (a b : Dataset) : Prop where
  left : a.data = d
  right : b.data = d'
  rng : b.rng = a.rng
  useful : a.useful = b.useful.map (skip k)
  nfeat : b.nactiveFeatures = a.nactiveFeatures
  nex : b.nactiveExamples = a.nactiveExamples
  bitvecs : b.bitvecs = a.bitvecs.eraseIdx k
  supercats : b.supercats = a.supercats.eraseIdx k
  splits : b.splitCandidates = a.splitCandidates.eraseIdx k
  used : b.usedNbins = a.usedNbins.eraseIdx k
  locard : b.hasNonLocard = a.hasNonLocard
  index : b.indexBuffer = a.indexBuffer
  count : b.updateCount = a.updateCount
  superLen : a.supercats.length = 0 ∨ a.supercats.length = d.nfeatures
  unused : a.supercats[k]?.getD [] = []

section
variable {F : FP} {cfg : Config} {k : Nat} {d d' : Data} {a b : Dataset}

theorem Spec.WithoutColumn.column (h : WithoutColumn k d d') (f : Nat) :
    Dataset.column d' f = Dataset.column d (skip k f) := by
  unfold Dataset.column
  rw [h.cols, erase_at]

theorem scan_after (h : WithoutColumn k d d') (n : Nat) : ∀ m feat, k ≤ feat →
    Out.Sim (fun x y => x.1 = y.1.map (skip k) ∧ x.2 = y.2) (Dataset.scanFeatures d n m (feat + 1))
      (Dataset.scanFeatures d' n m feat)
  | 0, _, _ => .ok ⟨rfl, rfl⟩
  | m + 1, feat, hk => by
      simp only [Dataset.scanFeatures]
      have hs : skip k feat = feat + 1 := by unfold skip; rw [if_neg (by omega)]
      rw [h.column, hs, h.maxNbins]
      refine .same fun c _ => ?_
      split
      · refine (scan_after h n m (feat + 1) (by omega)).bind fun x y hxy => ?_
        obtain ⟨u, bv, hh⟩ := x
        obtain ⟨u', bv', hh'⟩ := y
        obtain ⟨h1, h2⟩ := hxy
        simp only [Prod.mk.injEq] at h1 h2 ⊢
        exact .ok ⟨h1, by rw [h2.1, h2.2]⟩
      · refine .same fun bs _ => ?_
        refine (scan_after h n m (feat + 1) (by omega)).bind fun x y hxy => ?_
        obtain ⟨u, bv, hh⟩ := x
        obtain ⟨u', bv', hh'⟩ := y
        obtain ⟨h1, h2⟩ := hxy
        simp only [Prod.mk.injEq] at h1 h2 ⊢
        exact .ok ⟨by simp [h1, hs], by rw [h2.1, h2.2]⟩

theorem scan_dropped (h : WithoutColumn k d d') (hk : OneValue k d) (n : Nat) : ∀ m feat, feat ≤ k → k < feat + m + 1 →
    Out.Sim (fun x y => x.1 = y.1.map (skip k) ∧ y.2.1 = x.2.1.eraseIdx (k - feat) ∧ x.2.2 = y.2.2)
      (Dataset.scanFeatures d n (m + 1) feat) (Dataset.scanFeatures d' n m feat) := by
  intro m
  induction m with
  | zero =>
    intro feat h1 h2
    obtain rfl : feat = k := by omega
    obtain ⟨c, e1, e2⟩ := hk
    simp only [Dataset.scanFeatures]
    rw [show Dataset.column d feat = .ok c by unfold Dataset.column at?; rw [e1]]
    simp only [Out.ok_bind]
    rw [if_pos (.inr e2)]
    simp only [Out.ok_bind, Out.pure_eq]
    refine .ok ⟨rfl, ?_, rfl⟩
    simp
  | succ m ih =>
    intro feat h1 h2
    by_cases hf : feat = k
    · subst hf
      obtain ⟨c, e1, e2⟩ := hk
      rw [Dataset.scanFeatures]
      rw [show Dataset.column d feat = .ok c by unfold Dataset.column at?; rw [e1]]
      simp only [Out.ok_bind]
      rw [if_pos (.inr e2)]
      have := scan_after h n (m + 1) feat le_rfl
      cases hx : Dataset.scanFeatures d n (m + 1) (feat + 1) with
      | panic =>
        rw [hx] at this
        generalize Dataset.scanFeatures d' n (m + 1) feat = y at this ⊢
        cases this
        exact .panic
      | ub =>
        rw [hx] at this
        generalize Dataset.scanFeatures d' n (m + 1) feat = y at this ⊢
        cases this
        exact .ub
      | ok x =>
        rw [hx] at this
        cases hy : Dataset.scanFeatures d' n (m + 1) feat with
        | panic => rw [hy] at this; cases this
        | ub => rw [hy] at this; cases this
        | ok y =>
          rw [hy] at this
          cases this with
          | ok hxy =>
            obtain ⟨u, bv, hh⟩ := x
            obtain ⟨u', bv', hh'⟩ := y
            obtain ⟨h1, h2⟩ := hxy
            simp only [Prod.mk.injEq] at h1 h2
            simp only [Out.ok_bind, Out.pure_eq]
            exact .ok ⟨h1, by simp [h2.1], h2.2⟩
    · rw [Dataset.scanFeatures, Dataset.scanFeatures.eq_2 d']
      have hs : skip k feat = feat := by unfold skip; rw [if_pos (by omega)]
      rw [h.column, hs, h.maxNbins]
      have hkf : k - feat = (k - (feat + 1)) + 1 := by omega
      refine .same fun c _ => ?_
      simp only
      split
      · refine (ih (feat + 1) (by omega) (by omega)).bind fun x y hxy => ?_
        obtain ⟨u, bv, hh⟩ := x
        obtain ⟨u', bv', hh'⟩ := y
        obtain ⟨h1, h2, h3⟩ := hxy
        simp only at h1 h2 h3 ⊢
        exact .ok ⟨h1, by simp [h2, hkf], h3⟩
      · refine .same fun bs _ => ?_
        refine (ih (feat + 1) (by omega) (by omega)).bind fun x y hxy => ?_
        obtain ⟨u, bv, hh⟩ := x
        obtain ⟨u', bv', hh'⟩ := y
        obtain ⟨h1, h2, h3⟩ := hxy
        simp only at h1 h2 h3 ⊢
        exact .ok ⟨by simp [h1, hs], by simp [h2, hkf], by rw [h3]⟩

theorem updateLocard_dropped (h : WithoutColumn k d d') (hd : Dropped k d d' a b) (f : Nat) (ex : List Nat) :
    Out.Sim (Dropped k d d') (updateLocard a (skip k f) ex) (updateLocard b f ex) := by
  unfold updateLocard
  rw [hd.left, hd.right, h.column, hd.bitvecs, erase_at, hd.used]
  refine .same fun c _ => .same fun bv _ => .same fun v _ => .same fun m _ => ?_
  simp only [erase_lt]
  refine .same fun _ _ => .ok { hd with left := rfl, right := rfl, bitvecs := ?_, used := ?_ }
  · simp only [erase_set]
  · simp only [hd.used, erase_set, h.maxNbins]

theorem updateHicard_dropped (h : WithoutColumn k d d') (hd : Dropped k d d' a b) (f : Nat) (ex : List Nat) (g : List Num)
    (bs : Num × Num) :
    Out.Sim (Dropped k d d') (updateHicard F cfg a (skip k f) ex g bs) (updateHicard F cfg b f ex g bs) := by
  unfold updateHicard
  rw [hd.left, hd.right, h.column, hd.bitvecs, erase_at, hd.used, hd.nex, hd.supercats]
  refine .same fun c _ => .same fun bv _ => .same fun v _ => .same fun m _ => .same fun _ _ => .same fun _ _ => .same fun _ _ => ?_
  simp only [erase_lt]
  refine .same fun _ _ => .same fun _ _ => .ok { hd with left := rfl, right := rfl, nex := rfl, bitvecs := ?_, used := ?_, supercats := ?_, superLen := ?_, unused := ?_ }
  · simp only [erase_set]
  · simp only [hd.used, erase_set]
  · simp only [hd.supercats, erase_set]
  · simpa using hd.superLen
  · simp only
    rw [List.getElem?_set_ne (skip_ne k f)]
    exact hd.unused

theorem updateNum_dropped (h : WithoutColumn k d d') (hd : Dropped k d d' a b) (f : Nat) (ex : List Nat) (g : List Num) :
    Out.Sim (Dropped k d d') (updateNum F cfg a (skip k f) ex g) (updateNum F cfg b f ex g) := by
  unfold updateNum
  rw [hd.left, hd.right, h.column, hd.bitvecs, erase_at, hd.used, hd.splits]
  refine .same fun c _ => .same fun bv _ => .same fun v _ => .same fun m _ => .same fun _ _ => .same fun _ _ => .same fun _ _ => ?_
  simp only [erase_lt]
  refine .same fun _ _ => .same fun _ _ => .ok { hd with left := rfl, right := rfl, bitvecs := ?_, used := ?_, splits := ?_ }
  · simp only [erase_set]
  · simp only [hd.used, erase_set]
  · simp only [hd.splits, erase_set]

theorem initLocard_dropped (h : WithoutColumn k d d') (ex : List Nat) : ∀ (fs : List Nat) (a b : Dataset), Dropped k d d' a b →
    Out.Sim (Dropped k d d') (initLocard ex (fs.map (skip k)) a) (initLocard ex fs b)
  | [], a, b, hd => .ok hd
  | f :: fs, a, b, hd => by
      simp only [List.map_cons, initLocard]
      refine Out.Sim.bind (R := Dropped k d d') ?_ fun a b hab => initLocard_dropped h ex fs a b hab
      unfold initFeature
      rw [hd.left, hd.right, h.column]
      refine .same fun c _ => ?_
      split
      · exact updateLocard_dropped h hd f ex
      · exact .ok hd

theorem updateFeatures_dropped (h : WithoutColumn k d d') (g : List Num) (bs : Num × Num) (bagged : Bool) (ex : List Nat) :
    ∀ (fs : List Nat) (a b : Dataset), Dropped k d d' a b →
    Out.Sim (Dropped k d d') (updateFeatures F cfg g bs bagged ex (fs.map (skip k)) a) (updateFeatures F cfg g bs bagged ex fs b)
  | [], a, b, hd => .ok hd
  | f :: fs, a, b, hd => by
      simp only [List.map_cons, updateFeatures]
      refine Out.Sim.bind (R := Dropped k d d') ?_ fun a b hab => updateFeatures_dropped h g bs bagged ex fs a b hab
      unfold updateFeature
      rw [hd.left, hd.right, h.column]
      refine .same fun c _ => ?_
      cases c.ftype with
      | loCardCat =>
        simp only
        split
        · exact updateLocard_dropped h hd f ex
        · exact .ok hd
      | hiCardCat => exact updateHicard_dropped h hd f ex g bs
      | numerical => exact updateNum_dropped h hd f ex g

theorem erase_replicate {α : Type} {n : Nat} (hk : k < n) (x : α) : (List.replicate n x).eraseIdx k = List.replicate (n - 1) x := by
  refine List.ext_getElem? fun f => ?_
  rw [erase_get, List.getElem?_replicate, List.getElem?_replicate]
  simp only [skip_bound hk]

theorem new_dropped (h : WithoutColumn k d d') (hk : OneValue k d) (rng : Rng) :
    Out.Sim (Dropped k d d') (Dataset.new F cfg d rng) (Dataset.new F cfg d' rng) := by
  unfold Dataset.new
  refine Out.Sim.bind (R := Dropped k d d') ?_ fun a b hab => ?_
  · unfold inner
    simp only [h.nexamples, h.nfeatures]
    have hf := h.feature
    have := scan_dropped h hk (share F d.nexamples cfg.exampleFraction) (d.nfeatures - 1) 0 (by omega) (by omega)
    rw [show d.nfeatures - 1 + 1 = d.nfeatures by omega] at this
    refine this.bind fun x y hxy => ?_
    obtain ⟨u, bv, hh⟩ := x
    obtain ⟨u', bv', hh'⟩ := y
    obtain ⟨h1, h2, h3⟩ := hxy
    simp only at h1 h2 h3
    subst h1 h2 h3
    refine .ok ?_
    constructor <;> simp [erase_replicate hf]
  · rw [h.nexamples]
    split
    · exact .ok { hab with index := rfl }
    · rw [hab.useful]
      exact initLocard_dropped h _ _ a b hab

theorem prefix_skip (l : List Nat) (n : Nat) :
    prefix' (l.map (skip k)) n = (prefix' l n) >>= fun x => .ok (x.map (skip k)) := by
  unfold prefix'
  rw [List.length_map]
  split
  · simp [List.map_take]
  · rfl

theorem feats_dropped {γ δ : Type} {S : γ → δ → Prop} (hd : Dropped k d d' a b) {f : List Nat → Out γ} {g : List Nat → Out δ}
    (hf : ∀ fs, Out.Sim S (f (fs.map (skip k))) (g fs)) :
    Out.Sim S ((prefix' a.useful a.nactiveFeatures) >>= f) ((prefix' b.useful b.nactiveFeatures) >>= g) := by
  rw [hd.useful, hd.nfeat, prefix_skip, Out.bind_assoc]
  exact .same fun fs _ => hf fs

theorem initSupercats_dropped (h : WithoutColumn k d d') (hd : Dropped k d d' a b) (n : Nat) :
    Dropped k d d' (initSupercats { a with updateCount := n }) (initSupercats { b with updateCount := n }) ∧
      (initSupercats { a with updateCount := n }).supercats.length = d.nfeatures := by
  have hk := h.feature
  unfold initSupercats
  have hl := hd.left
  have hr := hd.right
  have hsuper := hd.superLen
  have hun := hd.unused
  simp only [hl, hr]
  refine ⟨{ hd with left := rfl, right := rfl, count := rfl, supercats := ?_, superLen := ?_, unused := ?_ }, ?_⟩
  · simp only [hd.supercats, h.nfeatures]
    rcases hsuper with e | e
    · rw [List.eq_nil_of_length_eq_zero e]
      simp [erase_replicate hk]
    · have e2 : (a.supercats.eraseIdx k).length = d.nfeatures - 1 := by
        rw [List.length_eraseIdx, if_pos (by omega), e]
      rw [List.take_of_length_le (by omega), List.take_of_length_le (by omega), e, e2]
      simp
  · simp only
    rcases hsuper with e | e <;> right <;> simp [e]
  · simp only
    rcases hsuper with e | e
    · rw [List.eq_nil_of_length_eq_zero e]
      simp [hk]
    · rw [List.take_of_length_le (by omega), e]
      simpa using hun
  · rcases hsuper with e | e <;> simp [e]

theorem update_dropped (h : WithoutColumn k d d') (hd : Dropped k d d' a b) (g : List Num) (bs : Num × Num) :
    Out.Sim (Dropped k d d') (a.update F cfg g bs) (b.update F cfg g bs) := by
  unfold Dataset.update
  simp only
  rw [hd.count]
  have h0 := (initSupercats_dropped h hd (a.updateCount + 1)).1
  generalize hx : initSupercats { a with updateCount := a.updateCount + 1 } = x at h0
  generalize hy : initSupercats { b with updateCount := a.updateCount + 1 } = y at h0
  rw [h0.count]
  split
  · exact .ok h0
  · unfold refresh
    refine Out.Sim.bind (R := Dropped k d d') ?_ fun x y h0 => ?_
    · unfold sampleFeatures featureSampling
      rw [h0.useful, List.length_map, h0.nfeat, h0.rng, shuffleFirstK_skip]
      split
      · rw [Out.bind_assoc]
        refine .same fun r _ => ?_
        simp only [Out.ok_bind, Out.pure_eq]
        exact .ok { h0 with useful := rfl, rng := rfl, nfeat := rfl }
      · exact .ok h0
    · unfold exampleSampling
      rw [h0.index, h0.locard]
      split
      · refine Out.Sim.bind (R := Dropped k d d') ?_ fun x y h0 => ?_
        · unfold sampleExamples
          rw [h0.rng, h0.nex, h0.index]
          refine .same fun r _ => ?_
          simp only [Out.pure_eq]
          exact .ok { h0 with index := rfl, rng := rfl, nex := rfl }
        · rw [h0.index, h0.nex]
          refine .same fun ex _ => feats_dropped h0 fun fs => ?_
          exact updateFeatures_dropped h g bs true ex fs x y h0
      · split
        · rw [h0.left, h0.right, h.nexamples]
          exact feats_dropped h0 fun fs => updateFeatures_dropped h g bs false _ fs x y h0
        · exact .ok h0

/-! ### The learner -/

theorem critOf_dropped (h : WithoutColumn k d d') (hd : Dropped k d d' a b) (f i : Nat) :
    critOf F a (skip k f) i = (critOf F b f i) >>= fun c => .ok (critWith k c) := by
  unfold critOf getSplitValue
  rw [hd.left, hd.right, h.column, hd.splits, erase_at]
  cases Dataset.column d (skip k f) with
  | panic => rfl
  | ub => rfl
  | ok c =>
    simp only [Out.ok_bind]
    cases c.ftype with
    | loCardCat => simp [critWith, SplitCrit.isNone]
    | hiCardCat => simp [critWith, SplitCrit.isNone]
    | numerical =>
      simp only
      cases at? a.splitCandidates (skip k f) with
      | panic => rfl
      | ub => rfl
      | ok s =>
        simp only [Out.ok_bind]
        cases at? s i with
        | panic => rfl
        | ub => rfl
        | ok v => simp [critWith, SplitCrit.isNone]

/-- A split, when there is a column `k` as well. -/
def splitWith (k : Nat) (s : Split) : Split := { s with crit := critWith k s.crit }

/-- The best candidate so far, when there is a column `k` as well. -/
def BestWith (k : Nat) (x y : Num × Split) : Prop := x = (y.1, splitWith k y.2)

theorem histAt_dropped (hs : Hists) (f i : Nat) : histAt (hs.eraseIdx k) f i = histAt hs (skip k f) i := by
  unfold histAt
  rw [erase_at]

theorem scanBins_dropped (h : WithoutColumn k d d') (hd : Dropped k d d' a b) (pg : Num) (pc : Nat) (hs : Hists) (f : Nat) :
    ∀ (n i : Nat) (x y : Num × Split), BestWith k x y →
    Out.Sim (BestWith k) (scanBins F cfg a pg pc hs (skip k f) n i x) (scanBins F cfg b pg pc (hs.eraseIdx k) f n i y)
  | 0, _, _, _, hxy => .ok hxy
  | n + 1, i, x, y, hxy => by
      simp only [scanBins, histAt_dropped]
      refine .same fun v _ => ?_
      refine Out.Sim.bind (R := BestWith k) ?_ fun x y hxy => scanBins_dropped h hd pg pc hs f n (i + 1) x y hxy
      unfold tryCandidate
      have hxy' := hxy
      unfold BestWith at hxy'
      rw [show x.1 = y.1 by rw [hxy']]
      split
      · exact .ok hxy
      · split
        · rw [critOf_dropped h hd, Out.bind_assoc]
          refine .same fun c _ => ?_
          simp only [Out.ok_bind, Out.pure_eq]
          exact .ok rfl
        · exact .ok hxy

theorem scanFeatures_dropped (h : WithoutColumn k d d') (hd : Dropped k d d' a b) (pg : Num) (pc : Nat) (hs : Hists) :
    ∀ (fs : List Nat) (x y : Num × Split), BestWith k x y →
    Out.Sim (BestWith k) (Learner.scanFeatures F cfg a pg pc hs (fs.map (skip k)) x)
      (Learner.scanFeatures F cfg b pg pc (hs.eraseIdx k) fs y)
  | [], _, _, hxy => .ok hxy
  | f :: fs, x, y, hxy => by
      simp only [List.map_cons, Learner.scanFeatures, getNbins, hd.used, erase_at]
      refine .same fun n _ => ?_
      exact (scanBins_dropped h hd pg pc hs f n 0 x y hxy).bind fun x y hxy => scanFeatures_dropped h hd pg pc hs fs x y hxy

theorem findBestSplit_dropped (h : WithoutColumn k d d') (hd : Dropped k d d' a b) (pg : Num) (pc : Nat) (hs : Hists) :
    Out.Sim (fun x y => x = splitWith k y) (findBestSplit F cfg a pg pc hs) (findBestSplit F cfg b pg pc (hs.eraseIdx k)) := by
  unfold findBestSplit activeFeatures
  refine feats_dropped hd fun fs => ?_
  refine (scanFeatures_dropped h hd pg pc hs fs (cfg.minGain, noSplit) (cfg.minGain, noSplit) rfl).bind fun x y hxy => ?_
  exact .ok (by rw [hxy])

theorem getBitvec_dropped (hd : Dropped k d d' a b) (f i : Nat) : b.getBitvec f i = a.getBitvec (skip k f) i := by
  unfold getBitvec
  rw [hd.bitvecs, erase_at]

theorem histJobs_dropped (hd : Dropped k d d' a b) : ∀ fs : List Nat,
    histJobs a (fs.map (skip k)) = (histJobs b fs) >>= fun js => .ok (js.map fun j => (skip k j.1, j.2))
  | [] => rfl
  | f :: fs => by
      simp only [List.map_cons, histJobs, getNbins, hd.used, erase_at]
      cases at? a.usedNbins (skip k f) with
      | panic => rfl
      | ub => rfl
      | ok n =>
        simp only [Out.ok_bind]
        rw [histJobs_dropped hd fs]
        cases histJobs b fs with
        | panic => rfl
        | ub => rfl
        | ok js => simp

/-- The same node, without the histogram of column `k`. -/
def nodeWithout (k : Nat) (n : Node) : Node := { n with hists := n.hists.eraseIdx k }

theorem setHist_dropped (hs : Hists) (f i : Nat) (v : HistVal) :
    setHist (hs.eraseIdx k) f i v = (setHist hs (skip k f) i v) >>= fun x => .ok (x.eraseIdx k) := by
  unfold setHist
  rw [erase_at]
  cases at? hs (skip k f) with
  | panic => rfl
  | ub => rfl
  | ok l =>
    simp only [Out.ok_bind]
    cases Out.assert (decide (i < l.length)) with
    | panic => rfl
    | ub => rfl
    | ok _ => simp [erase_set]

theorem runJobs_dropped {job job' : Nat → Nat → Out HistVal} (hj : ∀ f i, job' f i = job (skip k f) i) :
    ∀ (js : List (Nat × Nat)) (hs : Hists), runJobs job' js (hs.eraseIdx k) =
      (runJobs job (js.map fun j => (skip k j.1, j.2)) hs) >>= fun x => .ok (x.eraseIdx k)
  | [], _ => rfl
  | (f, i) :: js, hs => by
      simp only [List.map_cons, runJobs, hj]
      cases job (skip k f) i with
      | panic => rfl
      | ub => rfl
      | ok v =>
        simp only [Out.ok_bind]
        rw [setHist_dropped]
        cases setHist hs (skip k f) i v with
        | panic => rfl
        | ub => rfl
        | ok hs' =>
          simp only [Out.ok_bind]
          exact runJobs_dropped hj js hs'

theorem histJob_node (w : Nat) (bs : Num × Num) (n : Node) (hd : Dropped k d d' a b) (f i : Nat) :
    histJob F cfg b w bs (nodeWithout k n) f i = histJob F cfg a w bs n (skip k f) i := by
  unfold histJob
  rw [getBitvec_dropped hd]
  rfl

theorem buildHists_dropped (hd : Dropped k d d' a b) (w : Nat) (bs : Num × Num) (n : Node) :
    Out.Sim (fun x y => y = nodeWithout k x) (buildHists F cfg a w bs n) (buildHists F cfg b w bs (nodeWithout k n)) := by
  unfold buildHists activeFeatures
  refine feats_dropped hd fun fs => ?_
  rw [histJobs_dropped hd, Out.bind_assoc]
  refine .same fun js _ => ?_
  simp only [Out.ok_bind]
  rw [show (nodeWithout k n).hists = n.hists.eraseIdx k from rfl, runJobs_dropped (histJob_node w bs n hd), Out.bind_assoc]
  refine .same fun hs _ => ?_
  exact .ok rfl


/-! ### Histograms and nodes -/

/-- The number of bins of a column. -/
def nbinsOf (d : Data) (f : Nat) : Nat :=
  match d.cols[f]? with
  | some c => Data.colMaxNbins d.maxNbins c
  | none => 0

theorem newHists_rect (hd : Rectangular d) (hs : ∃ f, f < d.nfeatures ∧ 0 < nbinsOf d f) :
    newHists d = .ok ((List.range d.nfeatures).map fun f => List.replicate (nbinsOf d f) HistVal.zero) := by
  have key : ∀ l : List Nat, (∀ f ∈ l, f < d.nfeatures) →
      l.foldr (fun f r => do
        let n ← Data.featMaxNbins d f
        let ns ← r
        return n :: ns) (Out.ok []) = Out.ok (l.map (nbinsOf d)) := by
    intro l
    induction l with
    | nil => intro _; rfl
    | cons f fs ih =>
      intro hf
      simp only [List.foldr_cons]
      rw [ih fun g hg => hf g (by simp [hg])]
      have h1 : f < d.cols.length := by have := hf f (by simp); have := hd.1; omega
      unfold Data.featMaxNbins nbinsOf
      rw [List.map_cons, List.getElem?_eq_getElem h1]
      rfl
  unfold newHists
  rw [key _ fun f hf => List.mem_range.1 hf]
  simp only [Out.ok_bind]
  have hsum : 0 < ((List.range d.nfeatures).map (nbinsOf d)).sum := by
    obtain ⟨f, h1, h2⟩ := hs
    exact lt_of_lt_of_le h2 (List.single_le_sum (by simp) _ (List.mem_map.2 ⟨f, List.mem_range.2 h1, rfl⟩))
  rw [decide_eq_true hsum]
  simp [List.map_map, Function.comp_def]

theorem Spec.WithoutColumn.rect (h : WithoutColumn k d d') (hd : Rectangular d) : Rectangular d' := by
  have := h.feature
  refine ⟨?_, fun c hc => ?_⟩
  · rw [h.cols, h.nfeatures, List.length_eraseIdx, if_pos (by have := hd.1; omega), hd.1]
    omega
  · rw [h.nexamples]
    rw [h.cols] at hc
    exact hd.2 c (List.mem_of_mem_eraseIdx hc)

theorem nbinsOf_dropped (h : WithoutColumn k d d') (f : Nat) : nbinsOf d' f = nbinsOf d (skip k f) := by
  unfold nbinsOf
  rw [h.cols, erase_get, h.maxNbins]

theorem newHists_dropped (h : WithoutColumn k d d') (hd : Rectangular d) (ho : OtherFeature k d) :
    ∃ hs, newHists d = .ok hs ∧ newHists d' = .ok (hs.eraseIdx k) := by
  obtain ⟨f, c, h1, h2, h3, _, h4⟩ := ho
  have hk := h.feature
  have hb : 0 < nbinsOf d f := by unfold nbinsOf; rw [h3]; exact h4
  refine ⟨_, newHists_rect hd ⟨f, h2, hb⟩, ?_⟩
  obtain ⟨g, rfl⟩ := skip_onto h1
  rw [newHists_rect (h.rect hd) ⟨g, by rw [h.nfeatures]; exact (skip_bound hk).1 h2, by rw [nbinsOf_dropped h]; exact hb⟩]
  congr 1
  refine List.ext_getElem? fun j => ?_
  rw [erase_get, List.getElem?_map, List.getElem?_map, h.nfeatures]
  by_cases hj : j < d.nfeatures - 1
  · rw [List.getElem?_range hj, List.getElem?_range ((skip_bound hk).2 hj)]
    simp [nbinsOf_dropped h]
  · have h5 : ¬ skip k j < d.nfeatures := fun hc => hj ((skip_bound hk).1 hc)
    rw [List.getElem?_eq_none (by simpa using hj), List.getElem?_eq_none (by simpa using h5)]
    rfl

/-- What is assumed about the data in all that follows. -/
structure DropOk (k : Nat) (d d' : Data) : Prop where
  without : WithoutColumn k d d'
  rect : Rectangular d
  other : OtherFeature k d

theorem critWith_id {c : SplitCrit} (hc : c.isNone = false) : (critWith k c).featureId = skip k c.featureId := by
  unfold critWith
  rw [hc]
  rfl

theorem critWith_none (c : SplitCrit) : (critWith k c).isNone = c.isNone := by
  unfold critWith
  split
  · rfl
  · rfl

theorem splitExamples_dropped (h : DropOk k d d') (hd : Dropped k d d' a b) (w : Nat) (p : Node) (id : Nat) {s : Split}
    (hs : s.crit.isNone = false) (neg : Bool) :
    Out.Sim (fun x y => y = nodeWithout k x) (splitExamples F cfg a w p id (splitWith k s) neg)
      (splitExamples F cfg b w (nodeWithout k p) id s neg) := by
  obtain ⟨hh, e1, e2⟩ := newHists_dropped h.without h.rect h.other
  unfold splitExamples
  rw [hd.left, hd.right, getBitvec_dropped hd, e1, e2]
  rw [show (nodeWithout k p).idx = p.idx from rfl, show (nodeWithout k p).mask = p.mask from rfl]
  simp only [splitWith, critWith_id hs, Out.ok_bind]
  refine .same fun fm _ => .same fun cm _ => .same fun r _ => ?_
  by_cases hsc : shouldCompress F cfg r.1 (Blocks.blockLen 32 p.idx) = true
  · rw [if_pos hsc, if_pos hsc]
    refine .same fun _ _ => ?_
    unfold compress
    simp only
    refine .same fun ci _ => .same fun cg _ => .same fun rr _ => .same fun m _ => ?_
    exact .ok rfl
  · rw [if_neg hsc, if_neg hsc]
    exact .ok rfl

theorem subHists_dropped (p l : Hists) : (subHists F p l).eraseIdx k = subHists F (p.eraseIdx k) (l.eraseIdx k) :=
  erase_zipWith _ _ _ _

/-- The right child. -/
def rightNode (F : FP) (sub : Nat → Nat → Nat) (p left right : Node) (l : HistVal) : Node :=
  { right with gradSum := F.sub p.gradSum l.gradSum
               exampleCount := sub p.exampleCount l.count
               hists := subHists F p.hists left.hists }

theorem rightNode_dropped (sub : Nat → Nat → Nat) (p left right : Node) (l : HistVal) :
    rightNode F sub (nodeWithout k p) (nodeWithout k left) (nodeWithout k right) l =
      nodeWithout k (rightNode F sub p left right l) := by
  unfold rightNode nodeWithout
  simp only [subHists_dropped]

/-- The left child. -/
def leftNode (left : Node) (l : HistVal) : Node := { left with gradSum := l.gradSum, exampleCount := l.count }

theorem leftNode_dropped (left : Node) (l : HistVal) : leftNode (nodeWithout k left) l = nodeWithout k (leftNode left l) := rfl

theorem childNodes_eq (ds : Dataset) (w : Nat) (bs : Num × Num) (p : Node) (s : Split) :
    childNodes F cfg ds w bs p s = (do
      let l ← histAt p.hists s.crit.featureId s.splitId
      let left ← splitExamples F cfg ds w p (Tree.leftChild p.nodeId) s false
      let left ← buildHists F cfg ds w bs (leftNode left l)
      let right ← splitExamples F cfg ds w p (Tree.rightChild p.nodeId) s true
      return (left, rightNode F subU32 p left right l)) := rfl

theorem childNodes_dropped (h : DropOk k d d') (hd : Dropped k d d' a b) (w : Nat) (bs : Num × Num) (p : Node) {s : Split}
    (hs : s.crit.isNone = false) :
    Out.Sim (fun x y => y.1 = nodeWithout k x.1 ∧ y.2 = nodeWithout k x.2) (childNodes F cfg a w bs p (splitWith k s))
      (childNodes F cfg b w bs (nodeWithout k p) s) := by
  rw [childNodes_eq, childNodes_eq]
  generalize subU32 = sub
  rw [show (nodeWithout k p).hists = p.hists.eraseIdx k from rfl, histAt_dropped,
    show (splitWith k s).crit.featureId = skip k s.crit.featureId from critWith_id hs,
    show (splitWith k s).splitId = s.splitId from rfl,
    show (nodeWithout k p).nodeId = p.nodeId from rfl]
  refine .same fun l _ => ?_
  refine (splitExamples_dropped h hd w p (Tree.leftChild p.nodeId) hs false).bind fun x y hxy => ?_
  rw [hxy, leftNode_dropped]
  refine (buildHists_dropped hd w bs (leftNode x l)).bind fun x2 y2 hxy2 => ?_
  refine (splitExamples_dropped h hd w p (Tree.rightChild p.nodeId) hs true).bind fun x3 y3 hxy3 => ?_
  rw [hxy2, hxy3, rightNode_dropped]
  exact .ok ⟨rfl, rfl⟩

theorem rootNode_dropped (h : DropOk k d d') (hd : Dropped k d d' a b) (w : Nat) (o : Objective) :
    Out.Sim (fun x y => y = nodeWithout k x) (rootNode F cfg a w o) (rootNode F cfg b w o) := by
  obtain ⟨hh, e1, e2⟩ := newHists_dropped h.without h.rect h.other
  unfold rootNode
  have hp : b.activePairs = a.activePairs := by
    unfold activePairs exampleSampling activeExamples
    rw [hd.index, hd.nex]
  rw [hp, hd.nex, hd.left, hd.right, e1, e2]
  simp only [Out.ok_bind]
  refine .same fun g _ => .same fun m _ => .same fun ix _ => .same fun _ _ => .same fun ps _ => .same fun r _ => ?_
  exact buildHists_dropped hd w o.bounds _

theorem mapItems_dropped (hd : Dropped k d d' a b) : ∀ is : List Nat, mapItems b is = mapItems a is
  | [] => rfl
  | i :: is => by
      simp only [mapItems, mapItems_dropped hd is, mapIndex, activeExamples, hd.index, hd.nex]

theorem target_dropped (h : DropOk k d d') : target d' = target d := by
  unfold target
  have := h.without.feature
  rw [h.without.cols, erase_at, h.without.nfeatures,
    show skip k (d.nfeatures - 1) = d.nfeatures by unfold skip; rw [if_neg (by omega)]; omega]

theorem leafFor_dropped (h : DropOk k d d') (hd : Dropped k d d' a b) (is : List Nat) (o : Objective) :
    leafFor F b is o = leafFor F a is o := by
  unfold leafFor leafRows exampleSampling
  rw [mapItems_dropped hd, hd.index, hd.left, hd.right, target_dropped h]

/-! ### Trees -/

theorem setValue_with {t t' : Tree} (ht : TreeWith k t t') (n : Nat) (v : Num) :
    Out.Sim (TreeWith k) (t.setValue n v) (t'.setValue n v) := by
  unfold Tree.setValue
  rw [ht.values]
  refine .same fun _ _ => .same fun _ _ => .ok { ht with values := rfl }

theorem splitNode_with {t t' : Tree} (ht : TreeWith k t t') (n : Nat) (c : SplitCrit) :
    Out.Sim (TreeWith k) (t.splitNode n (critWith k c)) (t'.splitNode n c) := by
  unfold Tree.splitNode
  rw [ht.crits, List.getElem?_map]
  cases t'.splitCrits[n]? with
  | none => exact .panic
  | some old =>
    simp only [Option.map_some, critWith_none]
    have hm : t.isMaxLeafNode n = t'.isMaxLeafNode n := by
      unfold Tree.isMaxLeafNode
      rw [Tree.maxNinternal, Tree.maxNinternal, ht.maxDepth]
    rw [hm]
    refine .same fun _ _ => .same fun u e => .same fun _ _ => .ok { ht with crits := ?_, ninternal := ?_, leaves := ?_ }
    · simp [List.map_set]
    · simp [ht.ninternal]
    · intro x hx hn
      rcases List.mem_or_eq_of_mem_set hx with hx | rfl
      · exact ht.leaves x hx hn
      · cases u
        rw [assert_ok, hn] at e
        cases e

/-- Two states of the learner. -/
structure StateWith (k : Nat) (s s' : State) : Prop where
  tree : TreeWith k s.tree s'.tree
  obj : s'.obj = s.obj
  stack : s'.stack = s.stack.map (nodeWithout k)

theorem nodeItems_without (n : Node) (p : Part) : nodeItems (nodeWithout k n) p = nodeItems n p := by
  cases p <;> rfl

theorem leafValue_dropped (h : DropOk k d d') (hd : Dropped k d d' a b) (n : Node) (o : Objective) {t t' : Tree}
    (ht : TreeWith k t t') :
    Out.Sim (fun x y => TreeWith k x.1 y.1 ∧ y.2 = x.2) (leafValue F a n t o) (leafValue F b (nodeWithout k n) t' o) := by
  unfold Learner.leafValue
  rw [nodeItems_without]
  refine .same fun is _ => ?_
  rw [leafFor_dropped h hd]
  refine .same fun r _ => ?_
  refine (setValue_with ht n.nodeId r.1).bind fun x y hxy => ?_
  exact .ok ⟨hxy, rfl⟩

theorem childLeafValues_dropped (h : DropOk k d d') (hd : Dropped k d d' a b) (n : Node) {s : Split} (hs : s.crit.isNone = false)
    (o : Objective) {t t' : Tree} (ht : TreeWith k t t') :
    Out.Sim (fun x y => TreeWith k x.1 y.1 ∧ y.2 = x.2) (childLeafValues F a n (splitWith k s) t o)
      (childLeafValues F b (nodeWithout k n) s t' o) := by
  unfold childLeafValues
  rw [getBitvec_dropped hd, show (splitWith k s).crit.featureId = skip k s.crit.featureId from critWith_id hs,
    show (splitWith k s).splitId = s.splitId from rfl, show (nodeWithout k n).nodeId = n.nodeId from rfl]
  simp only [nodeItems_without, leafFor_dropped h hd]
  refine .same fun fm _ => .same fun is _ => .same fun l _ => .same fun js _ => .same fun r _ => ?_
  refine (setValue_with ht _ l.1).bind fun x y hxy => ?_
  refine (setValue_with hxy _ r.1).bind fun x y hxy => ?_
  exact .ok ⟨hxy, rfl⟩

theorem expand_dropped (h : DropOk k d d') (hd : Dropped k d d' a b) (w : Nat) (n : Node) {s s' : State}
    (hs : StateWith k s s') :
    Out.Sim (StateWith k) (expand F cfg a w n s) (expand F cfg b w (nodeWithout k n) s') := by
  obtain ⟨t, o, stack⟩ := s
  obtain ⟨t', o', stack'⟩ := s'
  obtain ⟨ht, ho, h3⟩ := hs
  simp only at ht ho h3
  subst ho h3
  unfold expand
  refine (findBestSplit_dropped h.without hd n.gradSum n.exampleCount n.hists).bind fun sp sp' hsp => ?_
  subst hsp
  simp only [show (splitWith k sp').crit.isNone = sp'.crit.isNone from critWith_none _,
    show (nodeWithout k n).nodeId = n.nodeId from rfl]
  have hm : t.isMaxLeafNode (Tree.leftChild n.nodeId) = t'.isMaxLeafNode (Tree.leftChild n.nodeId) := by
    unfold Tree.isMaxLeafNode
    rw [Tree.maxNinternal, Tree.maxNinternal, ht.maxDepth]
  rw [hm]
  by_cases h1 : sp'.crit.isNone = true
  · rw [if_pos h1, if_pos h1]
    refine (leafValue_dropped h hd n o' ht).bind fun x y hxy => ?_
    exact .ok ⟨hxy.1, hxy.2, rfl⟩
  · rw [if_neg h1, if_neg h1]
    have h1' : sp'.crit.isNone = false := by simpa using h1
    by_cases h2 : (!t'.isMaxLeafNode (Tree.leftChild n.nodeId)) = true
    · rw [if_pos h2, if_pos h2]
      refine (childNodes_dropped h hd w o'.bounds n h1').bind fun x y hxy => ?_
      refine (splitNode_with ht n.nodeId sp'.crit).bind fun x2 y2 hxy2 => ?_
      refine .ok ⟨hxy2, rfl, ?_⟩
      simp only [List.map_cons, hxy.1, hxy.2]
    · rw [if_neg h2, if_neg h2]
      refine (childLeafValues_dropped h hd n h1' o' ht).bind fun x y hxy => ?_
      refine (splitNode_with hxy.1 n.nodeId sp'.crit).bind fun x2 y2 hxy2 => ?_
      exact .ok ⟨hxy2, hxy.2, rfl⟩

theorem loop_dropped (h : DropOk k d d') (hd : Dropped k d d' a b) (w : Nat) : ∀ (fuel : Nat) (s s' : State),
    StateWith k s s' →
    Out.Sim (Option.Rel (StateWith k)) (loop F cfg a w fuel s) (loop F cfg b w fuel s')
  | fuel, ⟨t, o, []⟩, ⟨t', o', stack'⟩, hs => by
      have : stack' = [] := hs.stack
      subst this
      unfold loop
      exact .ok (.some hs)
  | 0, ⟨t, o, n :: rest⟩, ⟨t', o', stack'⟩, hs => by
      have : stack' = nodeWithout k n :: rest.map (nodeWithout k) := hs.stack
      subst this
      unfold loop
      exact .ok .none
  | fuel + 1, ⟨t, o, n :: rest⟩, ⟨t', o', stack'⟩, hs => by
      have : stack' = nodeWithout k n :: rest.map (nodeWithout k) := hs.stack
      subst this
      unfold loop
      simp only
      refine Out.Sim.bind (expand_dropped h hd w n ⟨hs.tree, hs.obj, rfl⟩) fun x y hxy => ?_
      exact loop_dropped h hd w fuel x y hxy

theorem read_dropped (h : WithoutColumn k d d') (f i : Nat) : Tree.read d' f i = Tree.read d (skip k f) i := by
  unfold Tree.read
  rw [h.cols, erase_get]

theorem read_any (hd : Rectangular d) (i : Nat) {f : Nat} (hf : f < d.cols.length) :
    (∃ v, Tree.read d f i = .ok v) ∨ (Tree.read d f i = .panic ∧ d.nexamples ≤ i) := by
  unfold Tree.read
  rw [List.getElem?_eq_getElem hf, Option.bind_some]
  have hl := hd.2 _ (List.getElem_mem hf)
  by_cases h : i < d.nexamples
  · left
    rw [List.getElem?_eq_getElem (by omega)]
    exact ⟨_, rfl⟩
  · right
    rw [List.getElem?_eq_none (by omega)]
    exact ⟨rfl, by omega⟩

theorem leafFrom_dropped (h : WithoutColumn k d d') (hd : Rectangular d) {t t' : Tree} (ht : TreeWith k t t') (i : Nat) :
    ∀ m n, t'.splitCrits.length - n ≤ m → Tree.leafFrom t d i n = Tree.leafFrom t' d' i n
  | m, n, hm => by
      have hl : t.splitCrits.length = t'.splitCrits.length := by rw [ht.crits, List.length_map]
      conv_lhs => rw [Tree.leafFrom]
      conv_rhs => rw [Tree.leafFrom]
      by_cases hn : n < t'.splitCrits.length
      · rw [dif_pos (by omega), dif_pos hn]
        have hc : t.splitCrits[n]'(by omega) = critWith k t'.splitCrits[n] := by
          simp only [ht.crits, List.getElem_map]
        have hplain := ht.leaves _ (List.getElem_mem hn)
        rw [hc]
        generalize t'.splitCrits[n] = c at hplain
        match m, hm with
        | 0, hm => omega
        | m + 1, hm =>
          rw [leafFrom_dropped h hd ht i m (Tree.leftChild n) (by unfold Tree.leftChild; omega),
            leafFrom_dropped h hd ht i m (Tree.rightChild n) (by unfold Tree.rightChild; omega)]
          by_cases hcn : c.isNone = true
          · have hw : critWith k c = c := by unfold critWith; rw [if_pos hcn]
            have hst : c.splitType = .noSplit := by simpa [SplitCrit.isNone] using hcn
            rw [hw]
            have ht0 : ∀ (sc : List (List Nat)) (v : Num), Tree.test sc c v = .ok none := by
              intro sc v
              unfold Tree.test
              rw [hst]
            simp only [ht0]
            have hfeat : c.featureId = 0 := by rw [hplain hcn]; rfl
            rw [hfeat]
            have hcl : 0 < d.cols.length := by rw [hd.1]; omega
            have hcl' : 0 < d'.cols.length := by rw [(h.rect hd).1]; omega
            have hne := h.nexamples
            rcases read_any hd i hcl with ⟨v, e1⟩ | ⟨e1, e2⟩
            · rcases read_any (h.rect hd) i hcl' with ⟨v', e3⟩ | ⟨e3, e4⟩
              · rw [e1, e3]
              · exfalso
                unfold Tree.read at e1
                rw [List.getElem?_eq_getElem hcl, Option.bind_some,
                  List.getElem?_eq_none (by rw [hd.2 _ (List.getElem_mem hcl)]; omega)] at e1
                cases e1
            · rcases read_any (h.rect hd) i hcl' with ⟨v', e3⟩ | ⟨e3, e4⟩
              · exfalso
                unfold Tree.read at e3
                rw [List.getElem?_eq_getElem hcl', Option.bind_some,
                  List.getElem?_eq_none (by rw [(h.rect hd).2 _ (List.getElem_mem hcl')]; omega)] at e3
                cases e3
              · rw [e1, e3]
          · have hcn' : c.isNone = false := by simpa using hcn
            have e2 : ∀ v, Tree.test t.supercats (critWith k c) v = Tree.test t'.supercats c v := by
              intro v
              unfold Tree.test
              rw [ht.supercats, erase_get, critWith_id hcn']
              unfold critWith
              rw [hcn']
              rfl
            rw [read_dropped h, critWith_id hcn']
            simp only [e2]
      · rw [dif_neg (by omega), dif_neg hn]

theorem predictSingle_dropped (h : WithoutColumn k d d') (hd : Rectangular d) {t t' : Tree} (ht : TreeWith k t t') (i : Nat) :
    t'.predictSingle F d' i = t.predictSingle F d i := by
  unfold Tree.predictSingle Tree.predictLeafId Tree.nodeValue
  rw [leafFrom_dropped h hd ht i _ 0 le_rfl, ht.values, ht.shrinkage, ht.bias]

theorem predictLoop_dropped (h : WithoutColumn k d d') (hd : Rectangular d) {t t' : Tree} (ht : TreeWith k t t')
    (g : Num → Num → Num) : ∀ (buf : List Num) (i : Nat), t'.predictLoop F d' g i buf = t.predictLoop F d g i buf
  | [], _ => rfl
  | x :: buf, i => by
      simp only [Tree.predictLoop, predictSingle_dropped h hd ht, predictLoop_dropped h hd ht g buf]

theorem addTrees_dropped (h : WithoutColumn k d d') (hd : Rectangular d) : ∀ {ts ts' : List Tree},
    List.Forall₂ (TreeWith k) ts ts' → ∀ buf : List Num,
    AdditiveTree.addTrees F d' ts' buf = AdditiveTree.addTrees F d ts buf
  | _, _, .nil, _ => rfl
  | _, _, .cons ht hts, buf => by
      simp only [AdditiveTree.addTrees, Tree.predictAnd, h.nexamples, predictLoop_dropped h hd ht]
      refine bind_congr fun buf' => addTrees_dropped h hd hts buf'

theorem outOfBagLoop_dropped (h : WithoutColumn k d d') (hd : Rectangular d) {t t' : Tree} (ht : TreeWith k t t') :
    ∀ (is : List Nat) (o : Objective), outOfBagLoop F d' t' is o = outOfBagLoop F d t is o
  | [], _ => rfl
  | i :: is, o => by
      simp only [outOfBagLoop, predictSingle_dropped h hd ht, outOfBagLoop_dropped h hd ht is]

theorem train_dropped (h : DropOk k d d') (hd : Dropped k d d' a b) (fuel : Nat) (o : Objective) :
    Out.Sim (Option.Rel fun x y => TreeWith k x.1 y.1 ∧ y.2 = x.2) (train F cfg a a.supercats o fuel)
      (train F cfg b b.supercats o fuel) := by
  unfold Learner.train
  refine .same fun w _ => ?_
  refine Out.Sim.bind (R := StateWith k) ?_ fun x y hxy => ?_
  · unfold start Tree.new
    simp only [Out.bind_assoc]
    refine .same fun _ _ => ?_
    simp only [Out.pure_eq, Out.ok_bind]
    refine (rootNode_dropped h hd w o).bind fun x y hxy => ?_
    refine .ok ⟨⟨?_, rfl, rfl, rfl, rfl, rfl, hd.supercats, hd.unused, ?_⟩, rfl, ?_⟩
    · simp [critWith, SplitCrit.isNone, SplitCrit.none]
    · intro c hc _
      exact List.eq_of_mem_replicate hc
    · simp only [List.map_cons, List.map_nil, hxy]
  · refine (loop_dropped h hd w fuel x y hxy).bind fun r r' hr => ?_
    cases hr with
    | none => exact .ok .none
    | @some s s' hs =>
      simp only
      refine Out.Sim.bind (R := Eq) (Out.Sim.of_eq (fun _ => rfl) ?_) fun o1 o2 e => ?_
      · unfold outOfBag exampleSampling
        rw [hd.index]
        split
        · have hi : b.inactiveExamples = a.inactiveExamples := by
            unfold inactiveExamples exampleSampling activeExamples
            rw [hd.index, hd.nex, hd.left, hd.right, h.without.nexamples]
          rw [hi, hd.left, hd.right, hs.obj]
          simp only [outOfBagLoop_dropped h.without h.rect hs.tree]
        · rw [hs.obj]
      · rw [e]
        exact .ok (.some ⟨hs.tree, rfl⟩)

/-! ### Whole runs -/

/-- Two boosters. -/
structure BoostWith (k : Nat) (d d' : Data) (x y : Booster) : Prop where
  data : Dropped k d d' x.dataset y.dataset
  obj : y.objective = x.objective
  iter : y.iterCount = x.iterCount
  trees : List.Forall₂ (TreeWith k) x.ensemble.trees y.ensemble.trees
  bias : y.ensemble.bias = x.ensemble.bias
  printed : y.printed = x.printed

variable {M : Libm} {metrics : List Metric}

theorem trainOneIter_dropped (h : DropOk k d d') {x y : Booster} (hb : BoostWith k d d' x y) :
    Out.Sim (BoostWith k d d') (Booster.trainOneIter F M cfg d metrics x) (Booster.trainOneIter F M cfg d' metrics y) := by
  unfold Booster.trainOneIter
  rw [target_dropped h, hb.obj]
  refine .same fun ts _ => .same fun o _ => ?_
  refine (update_dropped h.without hb.data o.gradients o.bounds).bind fun a b hab => ?_
  refine Out.Sim.bind (R := fun x y => TreeWith k x.1 y.1 ∧ y.2 = x.2) ?_ fun r r' hr => ?_
  · unfold Booster.learnTree
    refine (train_dropped h hab _ o).bind fun r r' hr => ?_
    cases hr with
    | none => exact .panic
    | some hs => exact .ok hs
  · refine .ok ⟨hab, hr.2, by simp only [hb.iter], ?_, hb.bias, ?_⟩
    · exact List.rel_append hb.trees (.cons hr.1 .nil)
    · simp only [hb.printed, hb.iter, hr.2]

theorem iterate_dropped (h : DropOk k d d') : ∀ (n : Nat) (x y : Booster), BoostWith k d d' x y →
    Out.Sim (BoostWith k d d') (Booster.iterate F M cfg d metrics n x) (Booster.iterate F M cfg d' metrics n y)
  | 0, _, _, hb => .ok hb
  | n + 1, x, y, hb => by
      unfold Booster.iterate
      exact (trainOneIter_dropped h hb).bind fun x y hxy => iterate_dropped h n x y hxy

theorem run_dropped (h : DropOk k d d') (hk : OneValue k d) (rng : Rng) (o : Objective) :
    Out.Sim (BoostWith k d d') (Booster.run F M cfg d rng metrics o) (Booster.run F M cfg d' rng metrics o) := by
  unfold Booster.run Booster.new
  rw [Out.bind_assoc, Out.bind_assoc]
  refine (new_dropped h.without hk rng).bind fun a b hab => ?_
  simp only [Out.pure_eq, Out.ok_bind]
  unfold Booster.train Booster.prepare
  refine Out.Sim.same fun _ _ => ?_
  rw [target_dropped h]
  simp only [Out.bind_assoc]
  refine Out.Sim.same fun ts _ => Out.Sim.same fun o' _ => ?_
  exact iterate_dropped h _ _ _ ⟨hab, rfl, rfl, .nil, rfl, rfl⟩

end
end BitBoost
