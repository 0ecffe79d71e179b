import Verif.Lemmas.Grow
import Verif.Lemmas.LearnerTrain
import Verif.Lemmas.MaskRead
import Verif.Lemmas.Objective
import Verif.Spec.Training
/-! Helper lemmas: what is true after every round of the learner. -/
namespace BitBoost
namespace Learner
open Spec

theorem bitAt_iff {m : Blocks} {i : Nat} : bitAt m i = true ↔ inMask m i := by
  unfold bitAt inMask; simp

theorem bitAt_not {m : Blocks} {i : Nat} : (!bitAt m i) = true ↔ ¬ inMask m i := by
  rw [← bitAt_iff]; simp

section
variable {F : FP} {cfg : Config} {ds : Dataset} {n : Nat}

/-- The leaves of a tree under construction and their examples. -/
structure Parts (F : FP) (cfg : Config) (ds : Dataset) (n : Nat) (t : Tree) (msk : Nat → Blocks)
    (parts : List (Nat × List Nat)) : Prop where
  leaves : ∀ m, IsLeaf t m ↔ m ∈ parts.map Prod.fst
  nodup : (parts.map Prod.fst).Nodup
  perm : (parts.flatMap Prod.snd).Perm (List.range n)
  sized : ∀ p ∈ parts, p.1 ≠ 0 → cfg.minExamplesLeaf ≤ p.2.length
  routed : ∀ p ∈ parts, ∀ i ∈ p.2, TrainedTo t msk i p.1
  tests : SplitMasks F ds t msk
  size : n = ds.nactiveExamples

theorem _root_.BitBoost.Spec.TrainedTo.mono {t t' : Tree} {msk msk' : Nat → Blocks} {i : Nat} {m : Nat}
    (h : TrainedTo t msk i m) (hc : ∀ m, IsSplit t m → IsSplit t' m ∧ msk' m = msk m) : TrainedTo t' msk' i m := by
  induction h with
  | root => exact .root
  | left _ h1 h2 ih => exact .left ih (hc _ h1).1 (by rw [(hc _ h1).2]; exact h2)
  | right _ h1 h2 ih => exact .right ih (hc _ h1).1 (by rw [(hc _ h1).2]; exact h2)

open Classical in
/-- The node of an example at each depth. -/
noncomputable def pathNode (t : Tree) (msk : Nat → Blocks) (i : Nat) : Nat → Nat
  | 0 => 0
  | k + 1 => if IsSplit t (pathNode t msk i k) then
      (if inMask (msk (pathNode t msk i k)) i then 2 * pathNode t msk i k + 1 else 2 * pathNode t msk i k + 2)
    else pathNode t msk i k

theorem _root_.BitBoost.Spec.TrainedTo.path {t : Tree} {msk : Nat → Blocks} {i n : Nat} (h : TrainedTo t msk i n) :
    ∃ k, n = pathNode t msk i k := by
  induction h with
  | root => exact ⟨0, rfl⟩
  | left _ h1 h2 ih =>
    obtain ⟨k, rfl⟩ := ih
    exact ⟨k + 1, by simp [pathNode, h1, h2]⟩
  | right _ h1 h2 ih =>
    obtain ⟨k, rfl⟩ := ih
    exact ⟨k + 1, by simp [pathNode, h1, h2]⟩

theorem pathNode_stays {t : Tree} {msk : Nat → Blocks} {i k : Nat} (h : ¬ IsSplit t (pathNode t msk i k)) :
    ∀ j, pathNode t msk i (k + j) = pathNode t msk i k := by
  intro j
  induction j with
  | zero => rfl
  | succ j ih =>
    rw [← Nat.add_assoc, pathNode, ih, if_neg h]

/-- An example ends in one place. -/
theorem _root_.BitBoost.Spec.TrainedTo.unique {t : Tree} {msk : Nat → Blocks} {i n n' : Nat}
    (h : TrainedTo t msk i n) (h' : TrainedTo t msk i n') (hl : ¬ IsSplit t n) (hl' : ¬ IsSplit t n') : n = n' := by
  obtain ⟨k, rfl⟩ := h.path
  obtain ⟨k', rfl⟩ := h'.path
  rcases Nat.le_total k k' with hk | hk
  · have := pathNode_stays hl (k' - k)
    rw [← this, Nat.add_sub_cancel' hk]
  · have := pathNode_stays hl' (k - k')
    rw [← this, Nat.add_sub_cancel' hk]

theorem Parts.reorder {t : Tree} {msk : Nat → Blocks} {ps qs : List (Nat × List Nat)}
    (h : Parts F cfg ds n t msk ps) (hp : ps.Perm qs) : Parts F cfg ds n t msk qs where
  leaves m := by rw [h.leaves, (hp.map Prod.fst).mem_iff]
  nodup := (hp.map Prod.fst).nodup_iff.1 h.nodup
  perm := (hp.flatMap_right Prod.snd).symm.trans h.perm
  sized p hp' := h.sized p (hp.mem_iff.2 hp')
  routed p hp' := h.routed p (hp.mem_iff.2 hp')
  tests := h.tests
  size := h.size

theorem Parts.congr {t t' : Tree} {msk : Nat → Blocks} {ps : List (Nat × List Nat)}
    (h : Parts F cfg ds n t msk ps) (e : t.splitCrits = t'.splitCrits) : Parts F cfg ds n t' msk ps where
  leaves m := by rw [← h.leaves, isLeaf_congr e]
  nodup := h.nodup
  perm := h.perm
  sized := h.sized
  routed p hp i hi := (h.routed p hp i hi).mono fun m hs => ⟨(isSplit_congr e m).1 hs, rfl⟩
  tests m c hc := h.tests m c (by rw [e]; exact hc)
  size := h.size

theorem Parts.lt {t : Tree} {msk : Nat → Blocks} {ps : List (Nat × List Nat)} (h : Parts F cfg ds n t msk ps) {p : Nat × List Nat}
    (hp : p ∈ ps) {i : Nat} (hi : i ∈ p.2) : i < n :=
  List.mem_range.1 (h.perm.mem_iff.1 (List.mem_flatMap.2 ⟨p, hp, hi⟩))

theorem Parts.split {t t' : Tree} {id f b : Nat} {ex : List Nat} {rest : List (Nat × List Nat)} {c : SplitCrit}
    {m : Blocks} {msk : Nat → Blocks} (h : Parts F cfg ds n t msk ((id, ex) :: rest)) (hsn : ∀ m, IsSplit t m → IsNode t m)
    (hs : t.splitNode id c = .ok t') (ht : TestFor F ds f b c) (hm : Candidate ds f b m)
    (h1 : cfg.minExamplesLeaf ≤ (ex.filter (bitAt m)).length)
    (h2 : cfg.minExamplesLeaf ≤ (ex.filter fun i => !bitAt m i).length)
    (hne1 : ex.filter (bitAt m) ≠ []) (hne2 : (ex.filter fun i => !bitAt m i) ≠ []) :
    Parts F cfg ds n t' (fun x => if x = id then m else msk x) ((2 * id + 1, ex.filter (bitAt m)) :: (2 * id + 2, ex.filter fun i => !bitAt m i) :: rest) := by
  have hleaf : IsLeaf t id := (h.leaves id).2 (by simp)
  obtain ⟨hlt, hc, _, e⟩ := Tree.splitNode_ok hs
  have hnd := h.nodup
  simp only [List.map_cons, List.nodup_cons] at hnd
  have hmono : ∀ x, IsSplit t x → IsSplit t' x ∧ (if x = id then m else msk x) = msk x := by
    rintro x ⟨c', hc', hn'⟩
    have hx : x ≠ id := by
      rintro rfl
      exact hleaf.2 ⟨c', hc', hn'⟩
    refine ⟨⟨c', ?_, hn'⟩, if_neg hx⟩
    rw [e]
    simp only
    rw [List.getElem?_set_ne (Ne.symm hx)]
    exact hc'
  have hself : t'.splitCrits[id]? = some c := by
    rw [e]; simp only; rw [List.getElem?_set_self hlt]
  have hchild : ∀ m', m' = 2 * id + 1 ∨ m' = 2 * id + 2 → m' ∉ rest.map Prod.fst := by
    intro m' hm' hmem
    exact not_node_child hleaf hm' ((h.leaves m').2 (by simp only [List.map_cons, List.mem_cons]; exact Or.inr hmem))
  have hsp : SplitOf F ds c m := by
    refine ⟨f, b, hm, ht, ?_, ?_⟩
    · obtain ⟨i, hi⟩ := List.exists_mem_of_ne_nil _ hne1
      obtain ⟨hi1, hi2⟩ := List.mem_filter.1 hi
      exact ⟨i, by rw [← h.size]; exact h.lt (p := (id, ex)) (by simp) hi1, bitAt_iff.1 hi2⟩
    · obtain ⟨i, hi⟩ := List.exists_mem_of_ne_nil _ hne2
      obtain ⟨hi1, hi2⟩ := List.mem_filter.1 hi
      exact ⟨i, by rw [← h.size]; exact h.lt (p := (id, ex)) (by simp) hi1, bitAt_not.1 hi2⟩
  refine ⟨?_, ?_, ?_, ?_, ?_, ?_, h.size⟩
  · intro m'
    rw [split_isLeaf hsn hleaf hs, h.leaves]
    simp only [List.map_cons, List.mem_cons]
    constructor
    · rintro (⟨h1 | h1, h2⟩ | h1 | h1)
      · exact absurd h1 h2
      · exact Or.inr (Or.inr h1)
      · exact Or.inl h1
      · exact Or.inr (Or.inl h1)
    · rintro (h1 | h1 | h1)
      · exact Or.inr (Or.inl h1)
      · exact Or.inr (Or.inr h1)
      · exact Or.inl ⟨Or.inr h1, by rintro rfl; exact hnd.1 h1⟩
  · simp only [List.map_cons, List.nodup_cons, List.mem_cons, not_or]
    exact ⟨⟨by omega, hchild _ (Or.inl rfl)⟩, hchild _ (Or.inr rfl), hnd.2⟩
  · have hp := h.perm
    simp only [List.flatMap_cons] at hp ⊢
    rw [← List.append_assoc]
    exact ((List.filter_append_perm (bitAt m) ex).append_right _).trans hp
  · intro p hp hp0
    simp only [List.mem_cons] at hp
    rcases hp with rfl | rfl | hp
    · exact h1
    · exact h2
    · exact h.sized p (by simp [hp]) hp0
  · intro p hp i hi
    simp only [List.mem_cons] at hp
    rcases hp with rfl | rfl | hp
    · obtain ⟨hi1, hi2⟩ := List.mem_filter.1 hi
      exact .left ((h.routed (id, ex) (by simp) i hi1).mono hmono) ⟨c, hself, hc⟩ (by simpa using bitAt_iff.1 hi2)
    · obtain ⟨hi1, hi2⟩ := List.mem_filter.1 hi
      exact .right ((h.routed (id, ex) (by simp) i hi1).mono hmono) ⟨c, hself, hc⟩ (by simpa using bitAt_not.1 hi2)
    · exact (h.routed p (by simp [hp]) i hi).mono hmono
  · intro m' c' hc' hn'
    by_cases hmi : m' = id
    · subst hmi
      rw [hself] at hc'
      cases hc'
      simpa using hsp
    · simp only [if_neg hmi]
      refine h.tests m' c' ?_ hn'
      rw [e] at hc'
      simp only at hc'
      rwa [List.getElem?_set_ne (Ne.symm hmi)] at hc'

end

/-! ### Predictions -/

/-- The row of active example `i`. -/
def rowAt (rows : List Nat) (i : Nat) : Nat := rows.getD i 0

theorem rowAt_eq {rows : List Nat} {i : Nat} (h : i < rows.length) : rows[i]? = some (rowAt rows i) := by
  unfold rowAt
  rw [List.getD_eq_getElem?_getD, List.getElem?_eq_getElem h]
  rfl

theorem rowAt_inj {rows : List Nat} (hnd : rows.Nodup) {i j : Nat} (hi : i < rows.length) (hj : j < rows.length)
    (h : rowAt rows i = rowAt rows j) : i = j := by
  have h1 := rowAt_eq hi
  have h2 := rowAt_eq hj
  rw [h, ← h2] at h1
  exact (List.getElem?_inj hi hnd).1 h1

theorem rowAt_mem {rows : List Nat} {i : Nat} (h : i < rows.length) : rowAt rows i ∈ rows :=
  List.mem_of_getElem? (rowAt_eq h)

/-- Active examples: the rows behind them. -/
structure RowsOk (ds : Dataset) (rows : List Nat) : Prop where
  len : rows.length = ds.nactiveExamples
  nodup : rows.Nodup
  map : ∀ is rs, leafRows ds is = .ok rs → (∀ i ∈ is, i < rows.length) → rs = is.map (rowAt rows) ∧ is ≠ []

theorem LeafCalls.snoc {F : FP} {targets : List Num} {o o' o'' : Objective} {ls : List (List Nat)} {l : List Nat}
    {v : Num} (h : LeafCalls F targets o ls o') (hv : o'.predictLeafValue F targets l = .ok (v, o'')) :
    LeafCalls F targets o (ls ++ [l]) o'' := by
  induction h with
  | nil o => exact .cons v hv (.nil _)
  | cons v' h1 _ ih => exact .cons v' h1 (ih hv)

/-- The predictions while the tree is built: `done` are the finished leaves, `ahead` the examples of the nodes
still to be split or finished. -/
structure Preds (F : FP) (targets : List Num) (rows : List Nat) (o0 : Objective) (nv : List Num) (o : Objective)
    (done : List (Nat × List Nat)) (ahead : List (List Nat)) : Prop where
  obj : o = { o0 with predictions := o.predictions }
  disj : (done.flatMap Prod.snd ++ ahead.flatten).Nodup
  lt : ∀ i ∈ done.flatMap Prod.snd ++ ahead.flatten, i < rows.length
  value : ∀ p ∈ done, ∃ q, nv[p.1]? = some (.fin q) ∧ F.rnd q = .fin q ∧ ∀ i ∈ p.2, ∃ x,
    o0.predictions[rowAt rows i]? = some x ∧ o.predictions[rowAt rows i]? = some (F.add x (.fin q))
  todo : ∀ i ∈ ahead.flatten, o.predictions[rowAt rows i]? = o0.predictions[rowAt rows i]?
  others : ∀ r, r ∉ rows → o.predictions[r]? = o0.predictions[r]?
  calls : LeafCalls F targets o0 (done.map fun p => p.2.map (rowAt rows)) o
  given : ∀ p ∈ done, p.2 ≠ [] ∧ ∃ u, Objective.leafValue F o0 targets (p.2.map (rowAt rows)) = .ok u ∧
    nv[p.1]? = some (F.mul o0.learningRate u)
  sorted : ∀ l ∈ done.map Prod.snd ++ ahead, l.Pairwise (· < ·)

theorem _root_.BitBoost.Objective.forExamples_congr {α : Type} {f g : Nat → Out α} : ∀ (l : List Nat), (∀ i ∈ l, f i = g i) →
    Objective.forExamples f l = Objective.forExamples g l
  | [], _ => rfl
  | i :: is, h => by
      simp only [Objective.forExamples, h i (by simp),
        Objective.forExamples_congr is fun j hj => h j (List.mem_cons_of_mem _ hj)]

/-- The value of a leaf depends on the predictions of its examples only. -/
theorem _root_.BitBoost.Objective.leafValue_congr {F : FP} {o o0 : Objective} {targets : List Num} {l : List Nat}
    (h : o = { o0 with predictions := o.predictions }) (hp : ∀ i ∈ l, o.predictions[i]? = o0.predictions[i]?) :
    o.leafValue F targets l = o0.leafValue F targets l := by
  generalize o.predictions = ps at h hp
  subst h
  have h1 : ∀ i ∈ l, Objective.targetPred { o0 with predictions := ps } targets i = o0.targetPred targets i := by
    intro i hi
    unfold Objective.targetPred Objective.index
    simp only [hp i hi]
  have h2 : Objective.residuals F { o0 with predictions := ps } targets l = o0.residuals F targets l :=
    Objective.forExamples_congr l fun i hi => by simp only [h1 i hi]
  have h3 : Objective.forExamples (Objective.targetPred { o0 with predictions := ps } targets) l =
      Objective.forExamples (o0.targetPred targets) l := Objective.forExamples_congr l h1
  unfold Objective.leafValue
  simp only [h2, h3]

theorem Preds.split {F : FP} {targets : List Num} {rows : List Nat} {o0 o : Objective} {nv : List Num}
    {done : List (Nat × List Nat)} {ex : List Nat} {rest : List (List Nat)} (q : Nat → Bool)
    (h : Preds F targets rows o0 nv o done (ex :: rest)) :
    Preds F targets rows o0 nv o done (ex.filter q :: (ex.filter fun i => !q i) :: rest) := by
  have hp : (ex.filter q :: (ex.filter fun i => !q i) :: rest).flatten.Perm (ex :: rest).flatten := by
    simp only [List.flatten_cons]
    rw [← List.append_assoc]
    exact (List.filter_append_perm q ex).append_right _
  have hp2 := hp.append_left (done.flatMap Prod.snd)
  refine ⟨h.obj, hp2.nodup_iff.2 h.disj, fun i hi => h.lt i (hp2.mem_iff.1 hi), h.value,
    fun i hi => h.todo i (hp.mem_iff.1 hi), h.others, h.calls, h.given, fun l hl => ?_⟩
  rcases List.mem_append.1 hl with hl | hl
  · exact h.sorted l (List.mem_append_left _ hl)
  · rcases List.mem_cons.1 hl with rfl | hl
    · exact (h.sorted ex (by simp)).filter _
    · rcases List.mem_cons.1 hl with rfl | hl
      · exact (h.sorted ex (by simp)).filter _
      · exact h.sorted l (by simp [hl])

theorem mul_rounded {F : FP} {a b : Num} {q : ℚ} (h : F.mul a b = .fin q) : F.rnd q = .fin q := by
  have hinf : ∀ x : ℤ, FP.infOf x ≠ .fin q := by
    intro x hx
    unfold FP.infOf at hx
    split at hx
    · cases hx
    · split at hx <;> cases hx
  cases a <;> cases b <;> simp only [FP.mul] at h
  all_goals first
    | exact F.idem _ _ h
    | exact absurd h (hinf _)
    | cases h

theorem isFinite_fin {v : Num} (h : v.isFinite = true) : ∃ q, v = .fin q := by
  cases v with
  | fin q => exact ⟨q, rfl⟩
  | _ => cases h

theorem Preds.leaf {F : FP} {ds : Dataset} {targets : List Num} {rows : List Nat} {o0 o o' : Objective}
    {nv : List Num} {done : List (Nat × List Nat)} {ex : List Nat} {rest : List (List Nat)} {id : Nat} {v : Num}
    (hr : RowsOk ds rows) (htgt : target ds.data = .ok targets)
    (h : Preds F targets rows o0 nv o done (ex :: rest)) (hl : leafFor F ds ex o = .ok (v, o'))
    (hid : id ∉ done.map Prod.fst) (hlt : id < nv.length) (hv : v.isFinite = true) :
    Preds F targets rows o0 (nv.set id v) o' (done ++ [(id, ex)]) rest := by
  have hexlt : ∀ i ∈ ex, i < rows.length := fun i hi => h.lt i (by simp [hi])
  unfold leafFor at hl
  obtain ⟨rs, e1, hl⟩ := Out.bind_eq_ok.1 hl
  obtain ⟨ts, e2, hl⟩ := Out.bind_eq_ok.1 hl
  rw [htgt] at e2
  cases e2
  obtain ⟨rfl, hne⟩ := hr.map ex rs e1 hexlt
  have hcall := hl
  unfold Objective.predictLeafValue at hl
  obtain ⟨x, e3, hl⟩ := Out.bind_eq_ok.1 hl
  unfold Objective.updatePredictions at hl
  obtain ⟨ps, e4, hl⟩ := Out.bind_eq_ok.1 hl
  simp only [Out.pure_eq, Out.ok.injEq, Prod.mk.injEq] at hl
  obtain ⟨hv', rfl⟩ := hl
  obtain ⟨q, hq⟩ := isFinite_fin hv
  have hrnd : F.rnd q = .fin q := mul_rounded (by rw [hv', hq])
  have hdisj := h.disj
  have hexnd : ex.Nodup := by
    rw [List.nodup_append, List.flatten_cons, List.nodup_append] at hdisj
    exact hdisj.2.1.1
  have hnd : (ex.map (rowAt rows)).Nodup :=
    List.Nodup.map_on (fun i hi j hj e => rowAt_inj hr.nodup (hexlt i hi) (hexlt j hj) e) hexnd
  obtain ⟨hps, hfin⟩ := Objective.addLoop_inv F _ _ _ _ hnd e4
  have hget : ∀ j, ps[j]? = o.predictions[j]?.map fun p => if j ∈ ex.map (rowAt rows) then F.add p (.fin q) else p := by
    intro j; rw [hps, Objective.bump_get, hv', hq]
  have hmem : ∀ i, i < rows.length → (rowAt rows i ∈ ex.map (rowAt rows) ↔ i ∈ ex) := by
    intro i hi
    constructor
    · intro hm
      obtain ⟨j, hj, e⟩ := List.mem_map.1 hm
      rw [← rowAt_inj hr.nodup (hexlt j hj) hi e]
      exact hj
    · intro hm; exact List.mem_map.2 ⟨i, hm, rfl⟩
  have hperm : ((done ++ [(id, ex)]).flatMap Prod.snd ++ rest.flatten) =
      (done.flatMap Prod.snd ++ (ex :: rest).flatten) := by simp
  refine ⟨?_, ?_, ?_, ?_, ?_, ?_, ?_, ?_, ?_⟩
  · show ({ o with predictions := ps } : Objective) = { o0 with predictions := ps }
    rw [h.obj]
  · rw [hperm]; exact h.disj
  · rw [hperm]; exact h.lt
  · intro p hp
    rw [List.mem_append, List.mem_singleton] at hp
    rcases hp with hp | rfl
    · obtain ⟨q', g1, g2, g3⟩ := h.value p hp
      refine ⟨q', ?_, g2, ?_⟩
      · rw [List.getElem?_set_ne]
        · exact g1
        · rintro rfl
          exact hid (List.mem_map.2 ⟨p, hp, rfl⟩)
      · intro i hi
        obtain ⟨y, g4, g5⟩ := g3 i hi
        refine ⟨y, g4, ?_⟩
        have hil : i < rows.length := h.lt i (List.mem_append_left _ (List.mem_flatMap.2 ⟨p, hp, hi⟩))
        show ps[_]? = _
        rw [hget, g5]
        have hni : i ∉ ex := by
          intro hc
          rw [List.nodup_append] at hdisj
          exact hdisj.2.2 i (List.mem_flatMap.2 ⟨p, hp, hi⟩) i (by simp [hc]) rfl
        simp only [Option.map_some, hmem i hil, hni, if_false]
    · refine ⟨q, ?_, hrnd, ?_⟩
      · rw [List.getElem?_set_self hlt, hq]
      · intro i hi
        obtain ⟨p, g1, _⟩ := hfin (rowAt rows i) (List.mem_map.2 ⟨i, hi, rfl⟩)
        refine ⟨p, ?_, ?_⟩
        · rw [← g1]; exact (h.todo i (by simp [hi])).symm
        · show ps[_]? = _
          rw [hget, g1]
          have : rowAt rows i ∈ ex.map (rowAt rows) := List.mem_map.2 ⟨i, hi, rfl⟩
          simp only [Option.map_some, this, if_true]
  · intro i hi
    have hil : i < rows.length := h.lt i (by simp only [List.mem_append, List.flatten_cons]; exact Or.inr (Or.inr hi))
    have hni : i ∉ ex := by
      intro hc
      rw [List.nodup_append, List.flatten_cons, List.nodup_append] at hdisj
      exact hdisj.2.1.2.2 i hc i hi rfl
    show ps[_]? = _
    rw [hget, h.todo i (by simp only [List.flatten_cons, List.mem_append]; exact Or.inr hi)]
    simp only [hmem i hil, hni, if_false, Option.map_id']
  · intro r hrr
    show ps[_]? = _
    rw [hget, h.others r hrr]
    have : r ∉ ex.map (rowAt rows) := by
      intro hc
      obtain ⟨i, hi, rfl⟩ := List.mem_map.1 hc
      exact hrr (rowAt_mem (hexlt i hi))
    simp only [this, if_false, Option.map_id']
  · rw [List.map_append]
    exact LeafCalls.snoc h.calls hcall
  · intro p hp
    rw [List.mem_append, List.mem_singleton] at hp
    rcases hp with hp | rfl
    · obtain ⟨g0, u, g1, g2⟩ := h.given p hp
      refine ⟨g0, u, g1, ?_⟩
      rw [List.getElem?_set_ne]
      · exact g2
      · rintro rfl
        exact hid (List.mem_map.2 ⟨p, hp, rfl⟩)
    · refine ⟨hne, x, ?_, ?_⟩
      · rw [← e3]
        refine (Objective.leafValue_congr h.obj fun r hrr => ?_).symm
        obtain ⟨i, hi, rfl⟩ := List.mem_map.1 hrr
        exact h.todo i (by simp [hi])
      · rw [List.getElem?_set_self hlt, ← hv', congrArg Objective.learningRate h.obj]
  · intro l hl
    refine h.sorted l ?_
    simpa using hl

/-! ### The whole state -/

/-- The nodes on the stack with their examples. -/
def open' (st : RefState) : List (Nat × List Nat) := st.stack.map fun r => (r.nodeId, r.examples)

structure TreeInv (F : FP) (cfg : Config) (ds : Dataset) (sc : List (List Nat)) (targets : List Num)
    (rows : List Nat) (o0 : Objective) (st : RefState) (done : List (Nat × List Nat)) (msk : Nat → Blocks) : Prop where
  grown : ∃ k, Grown F cfg.maxTreeDepth sc k st.tree
  shr : st.tree.shrinkage = .fin 1
  bias : st.tree.bias = .fin 0
  parts : Parts F cfg ds ds.nactiveExamples st.tree msk (done ++ open' st)
  inner : ∀ r ∈ st.stack, r.nodeId < 2 ^ cfg.maxTreeDepth - 1
  ok : ∀ r ∈ st.stack, RefOk ds r
  preds : Preds F targets rows o0 st.tree.nodeValues st.obj done (st.stack.map RefNode.examples)

theorem refChildren_ok {F : FP} {cfg : Config} {ds : Dataset} {w : Nat} {bounds : Num × Num} {codes : List Nat}
    {n : RefNode} {s : Split} {ch : RefNode × RefNode} (hok : RefOk ds n)
    (hs : findBestSplit F cfg ds n.gradSum n.exampleCount n.hists = .ok s) (hne : s.crit.isNone = false)
    (hmin : 1 ≤ cfg.minExamplesLeaf)
    (h : refChildren F cfg ds w bounds codes n s = .ok ch) :
    RefOk ds ch.1 ∧ RefOk ds ch.2 ∧ ∃ m, ds.getBitvec s.crit.featureId s.splitId = .ok m ∧
      ch.1.nodeId = 2 * n.nodeId + 1 ∧ ch.2.nodeId = 2 * n.nodeId + 2 ∧
      ch.1.examples = n.examples.filter (bitAt m) ∧ ch.2.examples = n.examples.filter (fun i => !bitAt m i) := by
  obtain ⟨fs, js, v, hfs, hjs, hmem, hv, hc1, hc2, _⟩ := findBestSplit_some hs hne
  unfold refChildren at h
  obtain ⟨l, e1, h⟩ := Out.bind_eq_ok.1 h
  rw [hv] at e1
  cases e1
  obtain ⟨m, hm, h⟩ := Out.bind_eq_ok.1 h
  obtain ⟨hL, ehL, h⟩ := Out.bind_eq_ok.1 h
  simp only [Out.pure_eq, Out.ok.injEq] at h
  have hvc := hok.hist fs js _ _ v m hfs hjs hmem hv hm
  obtain ⟨ne1, ne2, hrc, hlc⟩ := children_ne (m := m) (count := n.exampleCount) hok.count
    hok.small hvc (by omega) (by omega)
  have hls : n.examples.filter (bitAt m) = childExamples m false n.examples := by
    unfold childExamples; simp
  have hrs : (n.examples.filter fun i => !bitAt m i) = childExamples m true n.examples := by
    unfold childExamples; simp
  rw [hls, hrs] at h
  have ehL' : refHists F cfg ds w bounds codes (childExamples m false n.examples) = .ok hL := by
    rw [← hls]; exact ehL
  have key1 : RefOk ds ⟨2 * n.nodeId + 1, childExamples m false n.examples, v.count, v.gradSum, hL⟩ := by
    refine ⟨hlc, ?_, ?_, ne1⟩
    · have := hok.small
      have h3 : (childExamples m false n.examples).length ≤ n.examples.length := by
        unfold childExamples; exact List.length_filter_le _ _
      exact Nat.lt_of_le_of_lt h3 this
    · intro fs' js' f b v' m' a1 a2 a3 a4 a5
      obtain ⟨m2, g1, g2⟩ := refHists_at ehL' a1 a2 a3
      rw [a5] at g1
      cases g1
      change histAt hL f b = .ok v' at a4
      rw [g2] at a4
      cases a4
      exact refHist_count _ _ _ _ _ _ _
  have key2 : RefOk ds ⟨2 * n.nodeId + 2, childExamples m true n.examples, subU32 n.exampleCount v.count,
      F.sub n.gradSum v.gradSum, subHists F n.hists hL⟩ := by
    refine ⟨hrc, ?_, ?_, ne2⟩
    · have := hok.small
      have h3 : (childExamples m true n.examples).length ≤ n.examples.length := by
        unfold childExamples; exact List.length_filter_le _ _
      exact Nat.lt_of_le_of_lt h3 this
    · intro fs' js' f b v' m' a1 a2 a3 a4 a5
      change histAt (subHists F n.hists hL) f b = .ok v' at a4
      obtain ⟨x, y, b1, b2, rfl⟩ := histAt_sub a4
      have hx := hok.hist fs' js' f b x m' a1 a2 a3 b1 a5
      obtain ⟨m2, g1, g2⟩ := refHists_at ehL' a1 a2 a3
      rw [a5] at g1
      cases g1
      rw [g2] at b2
      cases b2
      have hsum := childExamples_filter m m' n.examples
      have hle : (n.examples.filter (bitAt m')).length ≤ n.examples.length := List.length_filter_le _ _
      have := hok.small
      unfold HistVal.sub
      simp only []
      rw [refHist_count, hx, subU32_of_le (by omega) (by omega)]
      omega
  generalize subU32 n.exampleCount v.count = x at h key2
  subst h
  exact ⟨key1, key2, m, hm, rfl, rfl, hls.symm, hrs.symm⟩

section
variable {F : FP} {cfg : Config} {ds : Dataset} {w : Nat} {codes : List Nat} {sc : List (List Nat)}
  {targets : List Num} {rows : List Nat} {o0 : Objective}

theorem flat_open (st : RefState) : (open' st).flatMap Prod.snd = (st.stack.map RefNode.examples).flatten := by
  unfold open'
  rw [List.flatMap_map]
  rfl

theorem splitFacts {n : RefNode} {s : Split} (hok : RefOk ds n)
    (hs : findBestSplit F cfg ds n.gradSum n.exampleCount n.hists = .ok s) (hne : s.crit.isNone = false)
    (hmin : 1 ≤ cfg.minExamplesLeaf) {m : Blocks} (hm : ds.getBitvec s.crit.featureId s.splitId = .ok m) :
    TestFor F ds s.crit.featureId s.splitId s.crit ∧ Candidate ds s.crit.featureId s.splitId m ∧
      cfg.minExamplesLeaf ≤ (n.examples.filter (bitAt m)).length ∧
      cfg.minExamplesLeaf ≤ (n.examples.filter fun i => !bitAt m i).length := by
  obtain ⟨fs, js, v, hfs, hjs, hmem, hv, hc1, hc2, hcr⟩ := findBestSplit_some hs hne
  have hvc := hok.hist fs js _ _ v m hfs hjs hmem hv hm
  obtain ⟨ne1, ne2, hrc, hlc⟩ := children_ne (m := m) (count := n.exampleCount) hok.count
    hok.small hvc (by omega) (by omega)
  have hls : n.examples.filter (bitAt m) = childExamples m false n.examples := by
    unfold childExamples; simp
  have hrs : (n.examples.filter fun i => !bitAt m i) = childExamples m true n.examples := by
    unfold childExamples; simp
  obtain ⟨_, _, c, g1, g2, g3⟩ := critOf_fields hcr
  obtain ⟨g4, g5⟩ := (mem_histJobs hjs _ _).1 hmem
  refine ⟨⟨_, c, g2, g1, g3⟩, ⟨⟨fs, hfs, g4⟩, g5, hm⟩, ?_, ?_⟩
  · rw [hls, ← hlc]; exact hc1
  · rw [hrs, ← hrc]; exact hc2

/-- What a round does to the tree, the finished leaves and the masks. -/
def Step (F : FP) (cfg : Config) (ds : Dataset) (n : RefNode) (t : Tree) (done : List (Nat × List Nat))
    (msk : Nat → Blocks) (t' : Tree) (done' : List (Nat × List Nat)) (msk' : Nat → Blocks) : Prop :=
  ∃ s, findBestSplit F cfg ds n.gradSum n.exampleCount n.hists = .ok s ∧
    ((s.crit.isNone = true ∧ done' = done ++ [(n.nodeId, n.examples)] ∧ msk' = msk ∧ t'.splitCrits = t.splitCrits) ∨
     (s.crit.isNone = false ∧ ∃ m, ds.getBitvec s.crit.featureId s.splitId = .ok m ∧
        (done' = done ∨ ∃ l r, done' = done ++ [(2 * n.nodeId + 1, l)] ++ [(2 * n.nodeId + 2, r)] ∧
          2 ^ cfg.maxTreeDepth - 1 ≤ 2 * n.nodeId + 1 ∧ l = n.examples.filter (bitAt m) ∧
          r = n.examples.filter fun i => !bitAt m i) ∧
        (msk' = fun x => if x = n.nodeId then m else msk x) ∧
        n.nodeId < t.splitCrits.length ∧ t'.splitCrits = t.splitCrits.set n.nodeId s.crit))

theorem refExpand_step (hr : RowsOk ds rows) (htgt : target ds.data = .ok targets) (hmin : 1 ≤ cfg.minExamplesLeaf)
    {n : RefNode} {t : Tree} {o : Objective} {rest : List RefNode} {done : List (Nat × List Nat)}
    {msk : Nat → Blocks} (h : TreeInv F cfg ds sc targets rows o0 ⟨t, o, n :: rest⟩ done msk) {st' : RefState}
    (e : refExpand F cfg ds w codes n ⟨t, o, rest⟩ = .ok st') :
    ∃ done' msk', TreeInv F cfg ds sc targets rows o0 st' done' msk' ∧
      Step F cfg ds n t done msk st'.tree done' msk' := by
  obtain ⟨k, hg⟩ := h.grown
  obtain ⟨_, hmd, _, hsl, hnl, _⟩ := hg.built.inv
  simp only at hmd hsl hnl
  have hok : RefOk ds n := h.ok n (by simp)
  have hinn : n.nodeId < 2 ^ cfg.maxTreeDepth - 1 := h.inner n (by simp)
  have hpos : (1 : Nat) ≤ 2 ^ cfg.maxTreeDepth := Nat.one_le_two_pow
  have hpow : (2 : Nat) ^ (cfg.maxTreeDepth + 1) = 2 * 2 ^ cfg.maxTreeDepth := by rw [pow_succ]; ring
  have hids := h.parts.nodup
  have hopen : open' ⟨t, o, n :: rest⟩ = (n.nodeId, n.examples) :: open' ⟨t, o, rest⟩ := rfl
  rw [hopen, List.map_append, List.nodup_append] at hids
  have hidn : n.nodeId ∉ done.map Prod.fst := by
    intro hc
    exact hids.2.2 _ hc _ (by simp) rfl
  have hleaf : IsLeaf t n.nodeId := (h.parts.leaves n.nodeId).2 (by rw [hopen]; simp)
  have hdl : ∀ m ∈ done.map Prod.fst, IsLeaf t m := by
    intro m hm
    refine (h.parts.leaves m).2 ?_
    rw [List.map_append, List.mem_append]
    exact Or.inl hm
  unfold refExpand at e
  obtain ⟨s, hs, e⟩ := Out.bind_eq_ok.1 e
  cases hne : s.crit.isNone with
  | true =>
    rw [if_pos hne] at e
    obtain ⟨⟨v, o'⟩, e1, e⟩ := Out.bind_eq_ok.1 e
    obtain ⟨t', e2, e⟩ := Out.bind_eq_ok.1 e
    simp only [Out.pure_eq, Out.ok.injEq] at e e2
    subst e
    obtain ⟨g1, g2, g3⟩ := Tree.setValue_ok e2
    have gp := Preds.leaf hr htgt h.preds e1 hidn g2 g1
    refine ⟨done ++ [(n.nodeId, n.examples)], msk, ⟨⟨k, .value hg e2⟩, ?_, ?_, ?_, ?_, ?_, ?_⟩,
      s, hs, Or.inl ⟨hne, rfl, rfl, by rw [g3]⟩⟩
    · rw [g3]; exact h.shr
    · rw [g3]; exact h.bias
    · refine Parts.congr (t := t) ?_ (by rw [g3])
      have := h.parts
      rw [hopen] at this
      rw [List.append_assoc]
      exact this
    · intro r hr'; exact h.inner r (by simp [show r ∈ rest from hr'])
    · intro r hr'; exact h.ok r (by simp [show r ∈ rest from hr'])
    · rw [g3]; exact gp
  | false =>
    rw [if_neg (by simp [hne])] at e
    split at e
    · rename_i hmax
      obtain ⟨ch, e1, e⟩ := Out.bind_eq_ok.1 e
      obtain ⟨t', e2, e⟩ := Out.bind_eq_ok.1 e
      simp only [Out.pure_eq, Out.ok.injEq] at e e2
      subst e
      obtain ⟨k1, k2, m, hm, i1, i2, x1, x2⟩ := refChildren_ok hok hs hne hmin e1
      obtain ⟨f1, f2, f3, f4⟩ := splitFacts hok hs hne hmin hm
      obtain ⟨g1, _, g3, g4⟩ := Tree.splitNode_ok e2
      have hmax' : 2 * n.nodeId + 1 < 2 ^ cfg.maxTreeDepth - 1 := by
        simp only [Tree.isMaxLeafNode, Tree.maxNinternal, Bool.not_eq_true', decide_eq_false_iff_not, hmd] at hmax
        omega
      have hmax2 : 2 * n.nodeId + 2 < 2 ^ cfg.maxTreeDepth - 1 := by
        have : 2 ^ cfg.maxTreeDepth % 2 = 0 := by
          cases hd : cfg.maxTreeDepth with
          | zero => rw [hd] at hinn; simp at hinn
          | succ d => rw [pow_succ]; omega
        omega
      refine ⟨done, fun x => if x = n.nodeId then m else msk x, ⟨⟨k + 1, .split hg hleaf e2⟩, ?_, ?_, ?_, ?_, ?_, ?_⟩,
        s, hs, Or.inr ⟨hne, m, hm, Or.inl rfl, rfl, g1, by rw [g4]⟩⟩
      · rw [g4]; exact h.shr
      · rw [g4]; exact h.bias
      · have hp : Parts F cfg ds ds.nactiveExamples t msk ((n.nodeId, n.examples) :: (done ++ open' ⟨t, o, rest⟩)) :=
          h.parts.reorder (by rw [hopen]; exact List.perm_middle)
        have := hp.split hg.split_node e2 f1 f2 f3 f4 (by rw [← x1]; exact k1.ne) (by rw [← x2]; exact k2.ne)
        have ho : open' ⟨t', o, ch.1 :: ch.2 :: rest⟩ = (2 * n.nodeId + 1, n.examples.filter (bitAt m)) ::
            (2 * n.nodeId + 2, n.examples.filter fun i => !bitAt m i) :: open' ⟨t, o, rest⟩ := by
          simp only [open', List.map_cons, i1, i2, x1, x2]
        show Parts F cfg ds ds.nactiveExamples t' _ (done ++ open' ⟨t', o, ch.1 :: ch.2 :: rest⟩)
        rw [ho]
        refine this.reorder ?_
        exact (List.perm_middle.trans (List.Perm.cons _ List.perm_middle)).symm
      · intro r hr'
        simp only [List.mem_cons] at hr'
        rcases hr' with rfl | rfl | hr'
        · rw [i1]; exact hmax'
        · rw [i2]; exact hmax2
        · exact h.inner r (by simp [hr'])
      · intro r hr'
        simp only [List.mem_cons] at hr'
        rcases hr' with rfl | rfl | hr'
        · exact k1
        · exact k2
        · exact h.ok r (by simp [hr'])
      · have := Preds.split (bitAt m) h.preds
        simp only [List.map_cons]
        rw [g4, x1, x2]
        exact this
    · rename_i hmax
      have hdeep : 2 ^ cfg.maxTreeDepth - 1 ≤ 2 * n.nodeId + 1 := by
        simp only [Tree.isMaxLeafNode, Tree.maxNinternal, Bool.not_eq_true', decide_eq_false_iff_not, hmd] at hmax
        omega
      obtain ⟨m, hm, e⟩ := Out.bind_eq_ok.1 e
      obtain ⟨⟨lv, o1⟩, e1, e⟩ := Out.bind_eq_ok.1 e
      obtain ⟨⟨rv, o2⟩, e2, e⟩ := Out.bind_eq_ok.1 e
      obtain ⟨t1, e3, e⟩ := Out.bind_eq_ok.1 e
      obtain ⟨t2, e4, e⟩ := Out.bind_eq_ok.1 e
      obtain ⟨t3, e5, e⟩ := Out.bind_eq_ok.1 e
      simp only [Out.pure_eq, Out.ok.injEq] at e e1 e2 e3 e4 e5
      subst e
      obtain ⟨f1, f2, f3, f4⟩ := splitFacts hok hs hne hmin hm
      obtain ⟨p1, p2, p3⟩ := Tree.setValue_ok e3
      obtain ⟨q1, q2, q3⟩ := Tree.setValue_ok e4
      obtain ⟨g1, _, g3, g4⟩ := Tree.splitNode_ok e5
      have hg2 : Grown F cfg.maxTreeDepth sc k t2 := .value (.value hg e3) e4
      have hc2 : t.splitCrits = t2.splitCrits := by rw [q3, p3]
      have hleaf2 : IsLeaf t2 n.nodeId := (isLeaf_congr hc2 _).1 hleaf
      have hn1 : 2 * n.nodeId + 1 ∉ done.map Prod.fst := fun hc =>
        not_node_child hleaf (Or.inl rfl) (hdl _ hc)
      have hn2 : 2 * n.nodeId + 2 ∉ done.map Prod.fst := fun hc =>
        not_node_child hleaf (Or.inr rfl) (hdl _ hc)
      have gp0 := Preds.split (bitAt m) h.preds
      have gp1 := Preds.leaf hr htgt gp0 e1 hn1 p2 p1
      have q2' : 2 * n.nodeId + 2 < (t.nodeValues.set (2 * n.nodeId + 1) lv).length := by
        rw [p3] at q2; exact q2
      have gp2 := Preds.leaf hr htgt gp1 e2 (id := 2 * n.nodeId + 2) (by
        rw [List.map_append, List.mem_append, not_or]
        exact ⟨hn2, by simp⟩) q2' q1
      have hne1 : n.examples.filter (bitAt m) ≠ [] := by
        intro h0; rw [h0] at f3; simp at f3; omega
      have hne2 : (n.examples.filter fun i => !bitAt m i) ≠ [] := by
        intro h0; rw [h0] at f4; simp at f4; omega
      refine ⟨done ++ [(2 * n.nodeId + 1, n.examples.filter (bitAt m))] ++
        [(2 * n.nodeId + 2, n.examples.filter fun i => !bitAt m i)],
        fun x => if x = n.nodeId then m else msk x, ⟨⟨k + 1, .split hg2 hleaf2 e5⟩, ?_, ?_, ?_, ?_, ?_, ?_⟩,
        s, hs, Or.inr ⟨hne, m, hm, Or.inr ⟨_, _, rfl, hdeep, rfl, rfl⟩, rfl, by rw [hc2]; exact g1, by rw [g4, hc2]⟩⟩
      · rw [g4, q3, p3]; exact h.shr
      · rw [g4, q3, p3]; exact h.bias
      · have hp : Parts F cfg ds ds.nactiveExamples t msk ((n.nodeId, n.examples) :: (done ++ open' ⟨t, o, rest⟩)) :=
          h.parts.reorder (by rw [hopen]; exact List.perm_middle)
        have := (hp.congr hc2).split hg2.split_node e5 f1 f2 f3 f4 hne1 hne2
        refine this.reorder ?_
        show List.Perm _ (done ++ [(2 * n.nodeId + 1, n.examples.filter (bitAt m))] ++
          [(2 * n.nodeId + 2, n.examples.filter fun i => !bitAt m i)] ++ open' ⟨t, o, rest⟩)
        rw [List.append_assoc, List.append_assoc]
        exact (List.perm_middle.trans (List.Perm.cons _ List.perm_middle)).symm
      · intro r hr'; exact h.inner r (by simp [show r ∈ rest from hr'])
      · intro r hr'; exact h.ok r (by simp [show r ∈ rest from hr'])
      · rw [g4, q3, p3]; exact gp2

theorem refExpand_inv (hr : RowsOk ds rows) (htgt : target ds.data = .ok targets) (hmin : 1 ≤ cfg.minExamplesLeaf)
    {n : RefNode} {t : Tree} {o : Objective} {rest : List RefNode} {done : List (Nat × List Nat)}
    {msk : Nat → Blocks} (h : TreeInv F cfg ds sc targets rows o0 ⟨t, o, n :: rest⟩ done msk) {st' : RefState}
    (e : refExpand F cfg ds w codes n ⟨t, o, rest⟩ = .ok st') :
    ∃ done' msk', TreeInv F cfg ds sc targets rows o0 st' done' msk' := by
  obtain ⟨done', msk', h1, _⟩ := refExpand_step hr htgt hmin h e
  exact ⟨done', msk', h1⟩

theorem refLoop_inv (hr : RowsOk ds rows) (htgt : target ds.data = .ok targets) (hmin : 1 ≤ cfg.minExamplesLeaf) :
    ∀ (fuel : Nat) {st st' : RefState} {done : List (Nat × List Nat)} {msk : Nat → Blocks},
    TreeInv F cfg ds sc targets rows o0 st done msk → refLoop F cfg ds w codes fuel st = .ok (some st') →
    st'.stack = [] ∧ ∃ done' msk', TreeInv F cfg ds sc targets rows o0 st' done' msk' := by
  intro fuel
  induction fuel with
  | zero =>
    rintro ⟨t, o, stack⟩ st' done msk h e
    unfold refLoop at e
    cases stack with
    | nil =>
      simp only [Out.ok.injEq, Option.some.injEq] at e
      subst e
      exact ⟨rfl, done, msk, h⟩
    | cons n rest => simp at e
  | succ fuel ih =>
    rintro ⟨t, o, stack⟩ st' done msk h e
    unfold refLoop at e
    cases stack with
    | nil =>
      simp only [Out.ok.injEq, Option.some.injEq] at e
      subst e
      exact ⟨rfl, done, msk, h⟩
    | cons n rest =>
      simp only at e
      obtain ⟨st1, e1, e⟩ := Out.bind_eq_ok.1 e
      obtain ⟨done1, msk1, h1⟩ := refExpand_inv hr htgt hmin h e1
      exact ih h1 e

end

end Learner
end BitBoost
