import Verif.Lemmas.Parallel
import Verif.Lemmas.DatasetInv
import Verif.Spec.Training
/-!
# The parallel loop

C45: whatever the schedule, the parallel loop of `build_histograms` gives what the sequential loop gives, so
training does not depend on the schedule.
-/
namespace BitBoost.Props
open BitBoost BitBoost.Spec BitBoost.Learner BitBoost.Parallel

section
variable (job : Nat → Nat → Out HistVal) (js : List (Nat × Nat)) (h0 : Hists)

/-- **C45.** When the sequential loop gives histograms `h`, every schedule that ends, ends without a panic and
with the histograms `h`. -/
theorem C45_deterministic (h : Hists) (hseq : runJobs job js h0 = .ok h) (k : Nat) (s : PState)
    (hk : Schedule job js k (PState.init js h0) s) (he : s.Ended) : s.Normal ∧ s.hists = h := by
  have hs := inv_schedule (inv_init job js h0) hk
  have hn : s.Normal := by
    intro p hp
    rcases he p hp with rfl | rfl
    · rfl
    · exfalso
      obtain ⟨f, b, hm, hb⟩ := hs.fail (Or.inl hp)
      exact hb (runJobs_iff.1 ⟨h, hseq⟩ f b hm)
  exact ⟨hn, normal_hists hs hn hseq⟩

/-- **C45.** When the sequential loop panics, so does the parallel loop, under every schedule. -/
theorem C45_panic (hseq : ∀ h, runJobs job js h0 ≠ .ok h) (k : Nat) (s : PState)
    (hk : Schedule job js k (PState.init js h0) s) : ¬ s.Normal := by
  intro hn
  obtain ⟨h, e⟩ := good_of_normal (inv_schedule (inv_init job js h0) hk) hn
  exact hseq h e

/-- **C45.** When the sequential loop does not panic, no job panics under any schedule, at any time. -/
theorem C45_no_panic (h : Hists) (hseq : runJobs job js h0 = .ok h) (k : Nat) (s : PState)
    (hk : Schedule job js k (PState.init js h0) s) : .failed ∉ s.phases ∧ s.poisoned = false := by
  have hs := inv_schedule (inv_init job js h0) hk
  constructor
  · intro hp
    obtain ⟨f, b, hm, hb⟩ := hs.fail (Or.inl hp)
    exact hb (runJobs_iff.1 ⟨h, hseq⟩ f b hm)
  · by_contra hp
    obtain ⟨f, b, hm, hb⟩ := hs.fail (Or.inr (by simpa using hp))
    exact hb (runJobs_iff.1 ⟨h, hseq⟩ f b hm)

/-- **C45.** No deadlock: as long as a job has not ended, some job can take a step. -/
theorem C45_no_deadlock (k : Nat) (s : PState) (hk : Schedule job js k (PState.init js h0) s) (he : ¬ s.Ended) :
    ∃ t, Step job js s t :=
  step_of_not_ended (inv_schedule (inv_init job js h0) hk) he

/-- **C45.** The loop ends: a schedule has at most four steps for each job, and every schedule can be
completed. -/
theorem C45_terminates (k : Nat) (s : PState) (hk : Schedule job js k (PState.init js h0) s) :
    k ≤ 4 * js.length ∧ ∃ k' t, k ≤ k' ∧ Schedule job js k' (PState.init js h0) t ∧ t.Ended := by
  have hs := inv_schedule (inv_init job js h0) hk
  constructor
  · have h1 := work_schedule hk
    have h2 := work_le s
    rw [hs.len] at h2
    omega
  · exact complete (4 * js.length) k _ s hs hk (by omega)

/-- **C45.** Only one job at a time is between taking the lock and releasing it. -/
theorem C45_mutual_exclusion (k : Nat) (s : PState) (hk : Schedule job js k (PState.init js h0) s) (i j : Nat)
    (hi : s.phases[i]? = some .written ∨ ∃ v, s.phases[i]? = some (.holding v))
    (hj : s.phases[j]? = some .written ∨ ∃ v, s.phases[j]? = some (.holding v)) : i = j := by
  have hs := inv_schedule (inv_init job js h0) hk
  have a := hs.holds i hi
  have b := hs.holds j hj
  rw [a] at b
  exact Option.some.inj b

end

/-- A case that meets the hypotheses of `C45_deterministic`, with the jobs interleaved: the second job writes
first, although the first job computed its value first. -/
example : ∃ (k : Nat) (s : PState),
    Schedule (fun f b => .ok ⟨.fin (f + b), f⟩) [(0, 1), (1, 0)] k
      (PState.init [(0, 1), (1, 0)] [[HistVal.zero, HistVal.zero], [HistVal.zero]]) s ∧ s.Ended ∧
    s.hists = [[HistVal.zero, ⟨.fin 1, 0⟩], [⟨.fin 1, 1⟩]] ∧
    runJobs (fun f b => .ok ⟨.fin (f + b), f⟩) [(0, 1), (1, 0)] [[HistVal.zero, HistVal.zero], [HistVal.zero]] =
      .ok [[HistVal.zero, ⟨.fin 1, 0⟩], [⟨.fin 1, 1⟩]] := by
  refine ⟨8, ⟨[[HistVal.zero, ⟨.fin 1, 0⟩], [⟨.fin 1, 1⟩]], none, false, [.finished, .finished]⟩, ?_, ?_, rfl, ?_⟩
  · have s0 := Schedule.nil (job := fun f b => .ok ⟨.fin (f + b), f⟩) (js := [(0, 1), (1, 0)])
      (s := PState.init [(0, 1), (1, 0)] [[HistVal.zero, HistVal.zero], [HistVal.zero]])
    have s1 := s0.cons (.compute (i := 0) (f := 0) (b := 1) rfl rfl rfl)
    have s2 := s1.cons (.compute (i := 1) (f := 1) (b := 0) rfl rfl rfl)
    have s3 := s2.cons (.acquire (i := 1) rfl rfl rfl)
    have s4 := s3.cons (.write (i := 1) (f := 1) (b := 0) rfl rfl rfl)
    have s5 := s4.cons (.release (i := 1) rfl)
    have s6 := s5.cons (.acquire (i := 0) rfl rfl rfl)
    have s7 := s6.cons (.write (i := 0) (f := 0) (b := 1) rfl rfl rfl)
    have s8 := s7.cons (.release (i := 0) rfl)
    simpa [PState.init] using s8
  · intro p hp
    simp at hp
    exact Or.inl hp
  · decide +kernel

section
variable (F : FP) (cfg : Config) (ds : Dataset) (w : Nat)

/-- **C45.** `build_histograms` of a node: the parallel loop can turn `n` into `n'` exactly when the sequential
loop does. -/
theorem C45_build (bounds : Num × Num) (n n' : Node) :
    BuildsPar F cfg ds w bounds n n' ↔ buildHists F cfg ds w bounds n = .ok n' := by
  constructor
  · rintro ⟨fs, js, k, s, e1, e2, hk, hn, rfl⟩
    have hs := inv_schedule (inv_init _ js n.hists) hk
    obtain ⟨h, e⟩ := good_of_normal hs hn
    unfold buildHists
    rw [e1, Out.ok_bind, e2, Out.ok_bind, e, Out.ok_bind, normal_hists hs hn e, Out.pure_eq]
  · intro e
    unfold buildHists at e
    obtain ⟨fs, e1, e⟩ := Out.bind_eq_ok.1 e
    obtain ⟨js, e2, e⟩ := Out.bind_eq_ok.1 e
    obtain ⟨h, e3, e⟩ := Out.bind_eq_ok.1 e
    simp only [Out.pure_eq, Out.ok.injEq] at e
    subst e
    obtain ⟨_, k, s, _, hk, he⟩ := C45_terminates (histJob F cfg ds w bounds n) js n.hists 0 _ .nil
    obtain ⟨hn, rfl⟩ := C45_deterministic _ _ _ h e3 k s hk he
    exact ⟨fs, js, k, s, e1, e2, hk, hn, rfl⟩

private theorem rootNodeWith_ok {o : Objective} {build : Node → Out Node}
    (hb : Scheduled F cfg ds w o.bounds build) {n : Node} (h : rootNodeWith build F ds w o = .ok n) :
    rootNode F cfg ds w o = .ok n := by
  unfold rootNodeWith at h
  obtain ⟨x1, e1, h⟩ := Out.bind_eq_ok.1 h
  obtain ⟨x2, e2, h⟩ := Out.bind_eq_ok.1 h
  obtain ⟨x3, e3, h⟩ := Out.bind_eq_ok.1 h
  obtain ⟨x4, e4, h⟩ := Out.bind_eq_ok.1 h
  obtain ⟨x5, e5, h⟩ := Out.bind_eq_ok.1 h
  obtain ⟨x6, e6, h⟩ := Out.bind_eq_ok.1 h
  obtain ⟨x7, e7, h⟩ := Out.bind_eq_ok.1 h
  have := (C45_build F cfg ds w o.bounds _ _).1 (hb _ _ h)
  unfold rootNode
  simp only
  rw [e1, Out.ok_bind, e2, Out.ok_bind]
  rw [e3, Out.ok_bind, e4, Out.ok_bind, e5, Out.ok_bind, e6, Out.ok_bind, e7, Out.ok_bind, this]

private theorem childNodesWith_ok {bounds : Num × Num} {build : Node → Out Node}
    (hb : Scheduled F cfg ds w bounds build) {p : Node} {s : Split} {ch : Node × Node}
    (h : childNodesWith build F cfg ds w p s = .ok ch) : childNodes F cfg ds w bounds p s = .ok ch := by
  unfold childNodesWith at h
  obtain ⟨x1, e1, h⟩ := Out.bind_eq_ok.1 h
  obtain ⟨x2, e2, h⟩ := Out.bind_eq_ok.1 h
  obtain ⟨x3, e3, h⟩ := Out.bind_eq_ok.1 h
  have := (C45_build F cfg ds w bounds _ _).1 (hb _ _ e3)
  unfold childNodes
  rw [e1, Out.ok_bind, e2, Out.ok_bind, this, Out.ok_bind]
  exact h

private theorem expandWith_ok {st : State} {build : Node → Out Node}
    (hb : Scheduled F cfg ds w st.obj.bounds build) {n : Node} {st' : State}
    (h : expandWith build F cfg ds w n st = .ok st') : expand F cfg ds w n st = .ok st' := by
  unfold expandWith at h
  unfold expand
  obtain ⟨s, e1, h⟩ := Out.bind_eq_ok.1 h
  rw [e1, Out.ok_bind]
  by_cases h1 : s.crit.isNone = true
  · rw [if_pos h1] at h ⊢
    exact h
  · rw [if_neg h1] at h ⊢
    by_cases h2 : (!st.tree.isMaxLeafNode (Tree.leftChild n.nodeId)) = true
    · rw [if_pos h2] at h ⊢
      obtain ⟨ch, e2, h⟩ := Out.bind_eq_ok.1 h
      rw [childNodesWith_ok F cfg ds w hb e2, Out.ok_bind]
      exact h
    · rw [if_neg h2] at h ⊢
      exact h

private theorem childNodesWith_eq (bounds : Num × Num) (p : Node) (s : Split) :
    childNodesWith (buildHists F cfg ds w bounds) F cfg ds w p s = childNodes F cfg ds w bounds p s := by
  unfold childNodesWith childNodes
  rfl

private theorem expandWith_eq (n : Node) (st : State) :
    expandWith (buildHists F cfg ds w st.obj.bounds) F cfg ds w n st = expand F cfg ds w n st := by
  unfold expandWith expand
  simp only [childNodesWith_eq]

private theorem rootNodeWith_eq (o : Objective) :
    rootNodeWith (buildHists F cfg ds w o.bounds) F ds w o = rootNode F cfg ds w o := by
  unfold rootNodeWith rootNode
  rfl

private theorem startWith_eq (supercats : List (List Nat)) (o : Objective) :
    startWith (buildHists F cfg ds w o.bounds) F cfg ds supercats w o = start F cfg ds supercats w o := by
  unfold startWith start
  simp only [rootNodeWith_eq]

private theorem startWith_ok {supercats : List (List Nat)} {o : Objective} {build : Node → Out Node}
    (hb : Scheduled F cfg ds w o.bounds build) {st : State}
    (h : startWith build F cfg ds supercats w o = .ok st) : start F cfg ds supercats w o = .ok st := by
  unfold startWith at h
  obtain ⟨t, e1, h⟩ := Out.bind_eq_ok.1 h
  obtain ⟨r, e2, h⟩ := Out.bind_eq_ok.1 h
  unfold start
  rw [e1, Out.ok_bind, rootNodeWith_ok F cfg ds w hb e2, Out.ok_bind]
  exact h

/-- **C45.** The states training can pass through under some choice of schedules are those it passes through
with the sequential loop. -/
theorem C45_states (supercats : List (List Nat)) (o : Objective) (st : State) :
    TrainingPar F cfg ds supercats w o st ↔ Training F cfg ds supercats w o st := by
  have hseq : ∀ bounds, Scheduled F cfg ds w bounds (buildHists F cfg ds w bounds) :=
    fun bounds n n' h => (C45_build F cfg ds w bounds n n').2 h
  constructor
  · intro h
    induction h with
    | start build hb h => exact .start (startWith_ok F cfg ds w hb h)
    | @round st st' n rest build hb _ hn h ih =>
      obtain ⟨t, o1, stk⟩ := st
      simp only at hn
      subst hn
      exact .round ih (expandWith_ok F cfg ds w (st := ⟨t, o1, rest⟩) hb h)
  · intro h
    induction h with
    | start h =>
      have h' := startWith_eq F cfg ds w supercats o
      rw [h] at h'
      exact .start (buildHists F cfg ds w o.bounds) (hseq o.bounds) h'
    | @round t o1 n rest st' _ h ih =>
      have h' := expandWith_eq F cfg ds w n ⟨t, o1, rest⟩
      rw [h] at h'
      exact TrainingPar.round (st := ⟨t, o1, n :: rest⟩) (rest := rest) (buildHists F cfg ds w o1.bounds) (hseq o1.bounds) ih rfl h'

private theorem training_loop {supercats : List (List Nat)} {o : Objective} {st : State}
    (h : Training F cfg ds supercats w o st) :
    ∃ st0 k, start F cfg ds supercats w o = .ok st0 ∧
      ∀ fuel, loop F cfg ds w (k + fuel) st0 = loop F cfg ds w fuel st := by
  induction h with
  | start h => exact ⟨_, 0, h, fun fuel => by rw [Nat.zero_add]⟩
  | @round t o1 n rest st' _ h ih =>
    obtain ⟨st0, k, e, hk⟩ := ih
    refine ⟨st0, k + 1, e, fun fuel => ?_⟩
    rw [show k + 1 + fuel = k + (fuel + 1) by omega, hk]
    conv_lhs => unfold loop
    simp only
    rw [h, Out.ok_bind]

private theorem loop_training {supercats : List (List Nat)} {o : Objective} :
    ∀ (fuel : Nat) {st st' : State}, Training F cfg ds supercats w o st →
      loop F cfg ds w fuel st = .ok (some st') → Training F cfg ds supercats w o st' ∧ st'.stack = []
  | fuel, ⟨t, o1, []⟩, st', hst, h => by
      unfold loop at h
      simp only [Out.ok.injEq, Option.some.injEq] at h
      subst h
      exact ⟨hst, rfl⟩
  | 0, ⟨t, o1, n :: rest⟩, st', hst, h => by
      unfold loop at h
      simp at h
  | fuel + 1, ⟨t, o1, n :: rest⟩, st', hst, h => by
      unfold loop at h
      simp only at h
      obtain ⟨st1, e1, h⟩ := Out.bind_eq_ok.1 h
      exact loop_training fuel (.round hst e1) h

/-- **C45.** Training: whatever the schedules of the parallel loops, the tree and the predictions of the
objective are those that training with the sequential loop gives. -/
theorem C45_training (supercats : List (List Nat)) (o : Objective) (t : Tree) (o' : Objective) :
    TrainsPar F cfg ds supercats o t o' ↔ ∃ fuel, train F cfg ds supercats o fuel = .ok (some (t, o')) := by
  constructor
  · rintro ⟨w, st, hw, hst, he, rfl, hoob⟩
    obtain ⟨st0, k, e, hk⟩ := training_loop F cfg ds w ((C45_states F cfg ds w supercats o st).1 hst)
    refine ⟨k + 0, ?_⟩
    have hl : loop F cfg ds w 0 st = .ok (some st) := by
      unfold loop
      rw [he]
    unfold train
    rw [hw, Out.ok_bind, e, Out.ok_bind, hk, hl, Out.ok_bind]
    simp only
    rw [hoob, Out.ok_bind, Out.pure_eq]
  · rintro ⟨fuel, h⟩
    unfold train at h
    obtain ⟨w, e1, h⟩ := Out.bind_eq_ok.1 h
    obtain ⟨st0, e2, h⟩ := Out.bind_eq_ok.1 h
    obtain ⟨r, e3, h⟩ := Out.bind_eq_ok.1 h
    cases r with
    | none => simp at h
    | some st =>
      simp only at h
      obtain ⟨o1, e4, h⟩ := Out.bind_eq_ok.1 h
      simp only [Out.pure_eq, Out.ok.injEq, Option.some.injEq, Prod.mk.injEq] at h
      obtain ⟨rfl, rfl⟩ := h
      obtain ⟨hst, he⟩ := loop_training F cfg ds w fuel (.start e2) e3
      exact ⟨w, st, e1, (C45_states F cfg ds w supercats o st).2 hst, he, rfl, e4⟩

/-- **C45.** Two runs of training with different schedules give the same tree and the same predictions. -/
theorem C45_same_tree (supercats : List (List Nat)) (o : Objective) (t1 t2 : Tree) (o1 o2 : Objective)
    (h1 : TrainsPar F cfg ds supercats o t1 o1) (h2 : TrainsPar F cfg ds supercats o t2 o2) :
    t1 = t2 ∧ o1 = o2 := by
  obtain ⟨w1, s1, a1, b1, c1, rfl, d1⟩ := h1
  obtain ⟨w2, s2, a2, b2, c2, rfl, d2⟩ := h2
  rw [a1] at a2
  cases a2
  obtain ⟨st1, k1, e1, l1⟩ := training_loop F cfg ds w1 ((C45_states F cfg ds w1 supercats o s1).1 b1)
  obtain ⟨st2, k2, e2, l2⟩ := training_loop F cfg ds w1 ((C45_states F cfg ds w1 supercats o s2).1 b2)
  rw [e1] at e2
  cases e2
  have f1 := l1 k2
  have f2 := l2 k1
  have hend : ∀ (fuel : Nat) (s : State), s.stack = [] → loop F cfg ds w1 fuel s = .ok (some s) := by
    intro fuel s hs
    unfold loop
    rw [hs]
  rw [hend _ _ c1] at f1
  rw [hend _ _ c2, Nat.add_comm, f1] at f2
  simp only [Out.ok.injEq, Option.some.injEq] at f2
  subst f2
  rw [d1] at d2
  cases d2
  exact ⟨rfl, rfl⟩

end

private def parCfg : Config := { Config.new with maxNbins := 3, maxTreeDepth := 2 }
private def parData : Data :=
  ⟨2, [], 2, 5,
    [⟨[.fin 0, .fin 1, .fin 2, .fin 1, .fin 1], .fin 0, .fin 2, .loCardCat, 3⟩,
     ⟨[.fin 0, .fin 1, .fin 3, .fin 7, .fin 9], .fin 0, .fin 9, .numerical, 0⟩,
     ⟨[.fin 0, .fin 1, .fin 3, .fin 1, .fin 8], .fin 0, .fin 8, .numerical, 0⟩]⟩
private def parObj : Objective :=
  { Objective.new .l2 with
    learningRate := .fin 1, predictions := List.replicate 5 (.fin 0)
    gradients := [.fin 0, .fin (-1), .fin (-3), .fin (-1), .fin (-8)], l2bounds := (.fin (-8), .fin 8) }

/-- A case that meets the hypotheses of `C45_same_tree`: training with the parallel loop ends with a tree with
three leaves. -/
example : ∃ ds t o', Updated .exact parCfg parData ⟨fun i => i⟩ 1 ds ∧
    TrainsPar .exact parCfg ds ds.supercats parObj t o' ∧ t.nleafs = 3 := by
  obtain ⟨ds, h1, h2⟩ := Dataset.exampleRun_check (F := .exact) (cfg := parCfg) (d := parData) (rng := ⟨fun i => i⟩)
    (gs := [(parObj.gradients, parObj.l2bounds)])
    (fun ds => match train .exact parCfg ds ds.supercats parObj 9 with
      | .ok (some (t, _)) => decide (t.nleafs = 3) | _ => false) (by decide +kernel)
  cases e : train .exact parCfg ds ds.supercats parObj 9 with
  | panic => rw [e] at h2; cases h2
  | ub => rw [e] at h2; cases h2
  | ok r =>
    rw [e] at h2
    cases r with
    | none => cases h2
    | some q =>
      exact ⟨ds, q.1, q.2, h1, (C45_training _ _ _ _ _ _ _).2 ⟨9, e⟩, by simpa using h2⟩

end BitBoost.Props
