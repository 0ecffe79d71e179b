import Verif.Model.Parallel
import Verif.Lemmas.Hist
/-! Helper lemmas: the parallel loop of `build_histograms`. -/
namespace BitBoost
namespace Parallel
open Learner

/-- Position `(f, b)` exists. -/
def InRange (h : Hists) (f b : Nat) : Prop := ∃ hs, h[f]? = some hs ∧ b < hs.length

def shape (h : Hists) : List Nat := h.map List.length

theorem inRange_shape {h : Hists} {f b : Nat} : InRange h f b ↔ ∃ n, (shape h)[f]? = some n ∧ b < n := by
  unfold InRange shape
  rw [List.getElem?_map]
  cases h[f]? <;> simp

theorem setHist_iff {h : Hists} {f b : Nat} {v : HistVal} :
    (∃ h', setHist h f b v = .ok h') ↔ InRange h f b := by
  unfold setHist InRange
  constructor
  · rintro ⟨h', e⟩
    obtain ⟨hs, e1, e⟩ := Out.bind_eq_ok.1 e
    obtain ⟨_, e2, e⟩ := Out.bind_eq_ok.1 e
    exact ⟨hs, at?_ok.1 e1, by simpa using (assert_ok.1 e2)⟩
  · rintro ⟨hs, e1, e2⟩
    refine ⟨h.set f (hs.set b v), ?_⟩
    rw [at?_ok.2 e1, Out.ok_bind, assert_ok.2 (by simpa using e2), Out.ok_bind, Out.pure_eq]

theorem setHist_shape {h h' : Hists} {f b : Nat} {v : HistVal} (e : setHist h f b v = .ok h') :
    shape h' = shape h := by
  unfold setHist at e
  obtain ⟨hs, e1, e⟩ := Out.bind_eq_ok.1 e
  obtain ⟨_, e2, e⟩ := Out.bind_eq_ok.1 e
  simp only [Out.pure_eq, Out.ok.injEq] at e
  subst e
  rw [at?_ok] at e1
  unfold shape
  rw [List.map_set, List.length_set]
  apply List.ext_getElem?
  intro i
  rw [List.getElem?_set]
  split
  · rename_i hif
    subst hif
    have hf : f < h.length := (List.getElem?_eq_some_iff.1 e1).1
    have : h[f] = hs := (List.getElem?_eq_some_iff.1 e1).2
    simp [hf, this]
  · rfl

theorem runJobs_shape {job : Nat → Nat → Out HistVal} : ∀ {js : List (Nat × Nat)} {h h' : Hists},
    runJobs job js h = .ok h' → shape h' = shape h
  | [], h, h', e => by
      simp only [runJobs, Out.ok.injEq] at e
      rw [e]
  | (g, c) :: js, h, h', e => by
      unfold runJobs at e
      obtain ⟨v, e1, e⟩ := Out.bind_eq_ok.1 e
      obtain ⟨h1, e2, e⟩ := Out.bind_eq_ok.1 e
      rw [runJobs_shape e, setHist_shape e2]

/-- The job `(f, b)` can be run. -/
def Good (job : Nat → Nat → Out HistVal) (h : Hists) (f b : Nat) : Prop :=
  (∃ v, job f b = .ok v) ∧ InRange h f b

theorem good_shape {job : Nat → Nat → Out HistVal} {h h' : Hists} (e : shape h' = shape h) {f b : Nat} :
    Good job h' f b ↔ Good job h f b := by
  unfold Good
  rw [inRange_shape, inRange_shape, e]

theorem runJobs_iff {job : Nat → Nat → Out HistVal} : ∀ {js : List (Nat × Nat)} {h : Hists},
    (∃ h', runJobs job js h = .ok h') ↔ ∀ f b, (f, b) ∈ js → Good job h f b
  | [], h => by simp [runJobs]
  | (g, c) :: js, h => by
      constructor
      · rintro ⟨h', e⟩
        unfold runJobs at e
        obtain ⟨v, e1, e⟩ := Out.bind_eq_ok.1 e
        obtain ⟨h1, e2, e⟩ := Out.bind_eq_ok.1 e
        intro f b hm
        rcases List.mem_cons.1 hm with h0 | h0
        · cases h0
          exact ⟨⟨v, e1⟩, setHist_iff.1 ⟨_, e2⟩⟩
        · exact (good_shape (setHist_shape e2)).1 (runJobs_iff.1 ⟨h', e⟩ f b h0)
      · intro hg
        obtain ⟨⟨v, e1⟩, hr⟩ := hg g c (by simp)
        obtain ⟨h1, e2⟩ := setHist_iff (v := v) |>.2 hr
        obtain ⟨h', e3⟩ := (runJobs_iff (job := job) (js := js) (h := h1)).2 (by
          intro f b hm
          exact (good_shape (setHist_shape e2)).2 (hg f b (by simp [hm])))
        refine ⟨h', ?_⟩
        unfold runJobs
        rw [e1, Out.ok_bind, e2, Out.ok_bind, e3]

theorem hists_ext {h h' : Hists} (e : shape h = shape h') (hv : ∀ f b v, histAt h f b = .ok v → histAt h' f b = .ok v) :
    h = h' := by
  have hl : h.length = h'.length := by simpa [shape] using congrArg List.length e
  apply List.ext_getElem hl
  intro f h1 h2
  have hlen : h[f].length = h'[f].length := by
    have := congrArg (fun l => l[f]?) e
    simpa [shape, h1, h2] using this
  apply List.ext_getElem hlen
  intro b b1 b2
  have := hv f b (h[f][b]) (histAt_ok.2 ⟨h[f], by simp [h1], by simp [b1]⟩)
  obtain ⟨hs, a1, a2⟩ := histAt_ok.1 this
  rw [List.getElem?_eq_getElem h2] at a1
  cases a1
  rw [List.getElem?_eq_getElem b2] at a2
  exact (Option.some.inj a2).symm

/-- Job `i` has written its value. -/
def Done (s : PState) (i : Nat) : Prop := s.phases[i]? = some .written ∨ s.phases[i]? = some .finished

structure Inv (job : Nat → Nat → Out HistVal) (js : List (Nat × Nat)) (h0 : Hists) (s : PState) : Prop where
  len : s.phases.length = js.length
  shp : shape s.hists = shape h0
  val : ∀ (i : Nat) (v : HistVal) (f b : Nat),
    (s.phases[i]? = some (.computed v) ∨ s.phases[i]? = some (.holding v)) →
    js[i]? = some (f, b) → job f b = .ok v
  done : ∀ (i f b : Nat), Done s i → js[i]? = some (f, b) → ∃ v, job f b = .ok v ∧ histAt s.hists f b = .ok v
  rest : ∀ f b : Nat, (∀ i : Nat, Done s i → js[i]? ≠ some (f, b)) → histAt s.hists f b = histAt h0 f b
  locked : ∀ i : Nat, s.lock = some i → s.phases[i]? = some .written ∨ ∃ v, s.phases[i]? = some (.holding v)
  holds : ∀ i : Nat, (s.phases[i]? = some .written ∨ ∃ v, s.phases[i]? = some (.holding v)) → s.lock = some i
  fail : (.failed ∈ s.phases ∨ s.poisoned = true) → ∃ f b, (f, b) ∈ js ∧ ¬ Good job h0 f b
  pois : s.poisoned = true → .failed ∈ s.phases

theorem inv_init (job : Nat → Nat → Out HistVal) (js : List (Nat × Nat)) (h0 : Hists) :
    Inv job js h0 (PState.init js h0) := by
  have key : ∀ (i : Nat) (p : Phase), (PState.init js h0).phases[i]? = some p → p = .waiting := by
    intro i p hp
    simp only [PState.init, List.getElem?_map] at hp
    cases hj : js[i]? <;> rw [hj] at hp <;> simp at hp
    exact hp.symm
  refine ⟨by simp [PState.init], rfl, ?_, ?_, ?_, ?_, ?_, ?_, ?_⟩
  · rintro i v f b (h | h) _ <;> cases key _ _ h
  · rintro i f b (h | h) _ <;> cases key _ _ h
  · intros; rfl
  · intro i h; simp [PState.init] at h
  · rintro i (h | ⟨v, h⟩) <;> cases key _ _ h
  · rintro (h | h)
    · simp [PState.init] at h
    · simp [PState.init] at h
  · intro h; simp [PState.init] at h

/-- Phases after one is replaced. -/
theorem phases_set {ps : List Phase} {i k : Nat} {p q r : Phase} (hp : ps[i]? = some p)
    (h : (ps.set i q)[k]? = some r) : (k = i ∧ r = q) ∨ (k ≠ i ∧ ps[k]? = some r) := by
  have hi : i < ps.length := (List.getElem?_eq_some_iff.1 hp).1
  rw [List.getElem?_set] at h
  split at h
  · rename_i e
    subst e
    simp only [hi, if_true, Option.some.injEq] at h
    exact Or.inl ⟨rfl, h.symm⟩
  · rename_i e
    exact Or.inr ⟨fun h => e h.symm, h⟩

theorem phases_set_ne {ps : List Phase} {i k : Nat} {q : Phase} (h : k ≠ i) : (ps.set i q)[k]? = ps[k]? := by
  rw [List.getElem?_set_ne (fun e => h e.symm)]

theorem phases_set_self {ps : List Phase} {i : Nat} {p q : Phase} (hp : ps[i]? = some p) :
    (ps.set i q)[i]? = some q :=
  List.getElem?_set_self (List.getElem?_eq_some_iff.1 hp).1

theorem failed_set {ps : List Phase} {i : Nat} {p q : Phase} (hp : ps[i]? = some p) (hne : p ≠ .failed)
    (h : .failed ∈ ps) : .failed ∈ ps.set i q := by
  obtain ⟨k, hk⟩ := List.mem_iff_getElem?.1 h
  refine List.mem_iff_getElem?.2 ⟨k, ?_⟩
  have : k ≠ i := by
    rintro rfl
    rw [hp] at hk
    cases hk
    exact hne rfl
  rw [phases_set_ne this, hk]

theorem failed_of_set {ps : List Phase} {i : Nat} {p q : Phase} (hp : ps[i]? = some p)
    (h : .failed ∈ ps.set i q) : q = .failed ∨ .failed ∈ ps := by
  obtain ⟨k, hk⟩ := List.mem_iff_getElem?.1 h
  rcases phases_set hp hk with ⟨_, h⟩ | ⟨_, h⟩
  · exact Or.inl h.symm
  · exact Or.inr (List.mem_iff_getElem?.2 ⟨k, h⟩)

/-- A step of job `i` that does not write and changes neither which jobs hold the lock nor which are done. -/
theorem inv_quiet {job : Nat → Nat → Out HistVal} {js : List (Nat × Nat)} {h0 : Hists} {s : PState}
    (hs : Inv job js h0 s) {i : Nat} {p q : Phase} (hp : s.phases[i]? = some p)
    (hp1 : p = .waiting ∨ ∃ v, p = .computed v)
    (hq : (∃ v, q = .computed v) ∨ q = .failed)
    (hv : ∀ v f b, q = .computed v → js[i]? = some (f, b) → job f b = .ok v)
    (hf : q = .failed → ∃ f b, (f, b) ∈ js ∧ ¬ Good job h0 f b) :
    Inv job js h0 { s with phases := s.phases.set i q } := by
  have hpn : p ≠ .written ∧ p ≠ .finished ∧ (∀ v, p ≠ .holding v) ∧ p ≠ .failed := by
    rcases hp1 with rfl | ⟨v, rfl⟩ <;> simp
  have hqn : q ≠ .written ∧ q ≠ .finished ∧ (∀ v, q ≠ .holding v) := by
    rcases hq with ⟨v, rfl⟩ | rfl <;> simp
  have hdone : ∀ k, Done { s with phases := s.phases.set i q } k → Done s k := by
    rintro k (h | h)
    · rcases phases_set hp h with ⟨_, h⟩ | ⟨_, h⟩
      · exact absurd h.symm hqn.1
      · exact Or.inl h
    · rcases phases_set hp h with ⟨_, h⟩ | ⟨_, h⟩
      · exact absurd h.symm hqn.2.1
      · exact Or.inr h
  have hdone' : ∀ k, Done s k → Done { s with phases := s.phases.set i q } k := by
    intro k h
    have : k ≠ i := by
      rintro rfl
      rcases h with h | h
      · rw [hp] at h; cases h; exact hpn.1 rfl
      · rw [hp] at h; cases h; exact hpn.2.1 rfl
    unfold Done
    rw [show ({ s with phases := s.phases.set i q } : PState).phases[k]? = s.phases[k]? from phases_set_ne this]
    exact h
  refine ⟨by simpa using hs.len, hs.shp, ?_, ?_, ?_, ?_, ?_, ?_, ?_⟩
  · rintro k v f b (h | h) hj
    · rcases phases_set hp h with ⟨rfl, g⟩ | ⟨_, h⟩
      · exact hv v f b g.symm hj
      · exact hs.val k v f b (Or.inl h) hj
    · rcases phases_set hp h with ⟨rfl, g⟩ | ⟨_, h⟩
      · exact absurd g.symm (hqn.2.2 v)
      · exact hs.val k v f b (Or.inr h) hj
  · intro k f b hd hj
    exact hs.done k f b (hdone k hd) hj
  · intro f b hd
    exact hs.rest f b (fun k hk => hd k (hdone' k hk))
  · intro k hl
    have hk := hs.locked k hl
    have : k ≠ i := by
      rintro rfl
      rcases hk with h | ⟨v, h⟩
      · rw [hp] at h; cases h; exact hpn.1 rfl
      · rw [hp] at h; cases h; exact hpn.2.2.1 v rfl
    rw [show ({ s with phases := s.phases.set i q } : PState).phases[k]? = s.phases[k]? from phases_set_ne this]
    exact hk
  · rintro k (h | ⟨v, h⟩)
    · rcases phases_set hp h with ⟨rfl, g⟩ | ⟨_, h⟩
      · exact absurd g.symm hqn.1
      · exact hs.holds k (Or.inl h)
    · rcases phases_set hp h with ⟨rfl, g⟩ | ⟨_, h⟩
      · exact absurd g.symm (hqn.2.2 v)
      · exact hs.holds k (Or.inr ⟨v, h⟩)
  · rintro (h | h)
    · rcases failed_of_set hp h with h | h
      · exact hf h
      · exact hs.fail (Or.inl h)
    · exact hs.fail (Or.inr h)
  · intro h
    exact failed_set hp hpn.2.2.2 (hs.pois h)

theorem inv_step {job : Nat → Nat → Out HistVal} {js : List (Nat × Nat)} {h0 : Hists} {s t : PState}
    (hs : Inv job js h0 s) (st : Step job js s t) : Inv job js h0 t := by
  cases st with
  | @compute i f b v hp hj hv =>
    refine inv_quiet hs hp (Or.inl rfl) (Or.inl ⟨v, rfl⟩) ?_ (by intro h; cases h)
    intro v' f' b' e hj'
    cases e
    rw [hj] at hj'
    cases hj'
    exact hv
  | @computeFails i f b hp hj hv =>
    refine inv_quiet hs hp (Or.inl rfl) (Or.inr rfl) (by intro v f b e; cases e) ?_
    intro _
    refine ⟨f, b, List.mem_iff_getElem?.2 ⟨i, hj⟩, ?_⟩
    rintro ⟨⟨v, h⟩, _⟩
    exact hv v h
  | @drop i hp hf =>
    exact inv_quiet hs hp (Or.inl rfl) (Or.inr rfl) (by intro v f b e; cases e)
      (fun _ => hs.fail (Or.inl hf))
  | @acquireFails i v hp hl hn =>
    exact inv_quiet hs hp (Or.inr ⟨v, rfl⟩) (Or.inr rfl) (by intro v f b e; cases e)
      (fun _ => hs.fail (Or.inr hn))
  | @acquire i v hp hl hn =>
    have nolock : ∀ k : Nat, ¬ (s.phases[k]? = some .written ∨ ∃ v, s.phases[k]? = some (.holding v)) := by
      intro k h
      have := hs.holds k h
      rw [hl] at this
      cases this
    refine ⟨by simpa using hs.len, hs.shp, ?_, ?_, ?_, ?_, ?_, ?_, ?_⟩
    · rintro k v' f b (h | h) hj
      · rcases phases_set hp h with ⟨rfl, g⟩ | ⟨_, h⟩
        · cases g
        · exact hs.val k v' f b (Or.inl h) hj
      · rcases phases_set hp h with ⟨rfl, g⟩ | ⟨_, h⟩
        · cases g
          exact hs.val k v f b (Or.inl hp) hj
        · exact hs.val k v' f b (Or.inr h) hj
    · rintro k f b (h | h) hj
      · rcases phases_set hp h with ⟨_, h⟩ | ⟨_, h⟩
        · cases h
        · exact hs.done k f b (Or.inl h) hj
      · rcases phases_set hp h with ⟨_, h⟩ | ⟨_, h⟩
        · cases h
        · exact hs.done k f b (Or.inr h) hj
    · intro f b hd
      refine hs.rest f b (fun k hk => hd k ?_)
      have : k ≠ i := by
        rintro rfl
        rcases hk with h | h
        · rw [hp] at h; cases h
        · rw [hp] at h; cases h
      unfold Done
      rw [show ({ s with lock := some i, phases := s.phases.set i (.holding v) } : PState).phases[k]? = s.phases[k]?
        from phases_set_ne this]
      exact hk
    · intro k hl'
      cases hl'
      exact Or.inr ⟨v, phases_set_self hp⟩
    · rintro k (h | ⟨v', h⟩)
      · rcases phases_set hp h with ⟨_, h⟩ | ⟨_, h⟩
        · cases h
        · exact absurd (Or.inl h) (nolock k)
      · rcases phases_set hp h with ⟨rfl, _⟩ | ⟨_, h⟩
        · rfl
        · exact absurd (Or.inr ⟨v', h⟩) (nolock k)
    · rintro (h | h)
      · rcases failed_of_set hp h with h | h
        · cases h
        · exact hs.fail (Or.inl h)
      · exact hs.fail (Or.inr h)
    · intro h
      exact failed_set hp (by simp) (hs.pois h)
  | @write i f b v h hp hj hw =>
    have hget := setHist_ok hw
    have hjob := hs.val i v f b (Or.inr hp) hj
    refine ⟨by simpa using hs.len, (setHist_shape hw).trans hs.shp, ?_, ?_, ?_, ?_, ?_, ?_, ?_⟩
    · rintro k v' f' b' (e | e) hj'
      · rcases phases_set hp e with ⟨_, e⟩ | ⟨_, e⟩
        · cases e
        · exact hs.val k v' f' b' (Or.inl e) hj'
      · rcases phases_set hp e with ⟨_, e⟩ | ⟨_, e⟩
        · cases e
        · exact hs.val k v' f' b' (Or.inr e) hj'
    · intro k f' b' hd hj'
      by_cases hfb : f' = f ∧ b' = b
      · obtain ⟨rfl, rfl⟩ := hfb
        refine ⟨v, hjob, ?_⟩
        show histAt h f' b' = _
        rw [hget, if_pos ⟨rfl, rfl⟩]
      · have hk : k ≠ i := by
          rintro rfl
          rw [hj] at hj'
          cases hj'
          exact hfb ⟨rfl, rfl⟩
        have : Done s k := by
          unfold Done at hd ⊢
          rw [show ({ s with hists := h, phases := s.phases.set i .written } : PState).phases[k]? = s.phases[k]?
            from phases_set_ne hk] at hd
          exact hd
        obtain ⟨v', a1, a2⟩ := hs.done k f' b' this hj'
        refine ⟨v', a1, ?_⟩
        show histAt h f' b' = _
        rw [hget, if_neg hfb, a2]
    · intro f' b' hd
      have hfb : ¬ (f' = f ∧ b' = b) := by
        rintro ⟨rfl, rfl⟩
        exact hd i (Or.inl (phases_set_self hp)) hj
      show histAt h f' b' = _
      rw [hget, if_neg hfb]
      refine hs.rest f' b' (fun k hk => hd k ?_)
      have : k ≠ i := by
        rintro rfl
        rcases hk with h | h
        · rw [hp] at h; cases h
        · rw [hp] at h; cases h
      unfold Done
      rw [show ({ s with hists := h, phases := s.phases.set i .written } : PState).phases[k]? = s.phases[k]?
        from phases_set_ne this]
      exact hk
    · intro k hl
      have hl : s.lock = some k := hl
      have hi := hs.holds i (Or.inr ⟨v, hp⟩)
      rw [hl] at hi
      cases hi
      exact Or.inl (phases_set_self hp)
    · rintro k (e | ⟨v', e⟩)
      · rcases phases_set hp e with ⟨rfl, _⟩ | ⟨_, e⟩
        · exact hs.holds k (Or.inr ⟨v, hp⟩)
        · exact hs.holds k (Or.inl e)
      · rcases phases_set hp e with ⟨_, e⟩ | ⟨_, e⟩
        · cases e
        · exact hs.holds k (Or.inr ⟨v', e⟩)
    · rintro (e | e)
      · rcases failed_of_set hp e with e | e
        · cases e
        · exact hs.fail (Or.inl e)
      · exact hs.fail (Or.inr e)
    · intro e
      exact failed_set hp (by simp) (hs.pois e)
  | @writeFails i f b v hp hj hw =>
    have hi := hs.holds i (Or.inr ⟨v, hp⟩)
    have bad : ∃ f b, (f, b) ∈ js ∧ ¬ Good job h0 f b := by
      refine ⟨f, b, List.mem_iff_getElem?.2 ⟨i, hj⟩, ?_⟩
      intro hg
      obtain ⟨h, e⟩ := (setHist_iff (v := v)).2 ((good_shape hs.shp).2 hg).2
      exact hw h e
    have hne : ∀ k, Done s k → k ≠ i := by
      rintro k hk rfl
      rcases hk with h | h
      · rw [hp] at h; cases h
      · rw [hp] at h; cases h
    refine ⟨by simpa using hs.len, hs.shp, ?_, ?_, ?_, ?_, ?_, fun _ => bad, ?_⟩
    · rintro k v' f' b' (e | e) hj'
      · rcases phases_set hp e with ⟨_, e⟩ | ⟨_, e⟩
        · cases e
        · exact hs.val k v' f' b' (Or.inl e) hj'
      · rcases phases_set hp e with ⟨_, e⟩ | ⟨_, e⟩
        · cases e
        · exact hs.val k v' f' b' (Or.inr e) hj'
    · rintro k f' b' (e | e) hj'
      · rcases phases_set hp e with ⟨_, e⟩ | ⟨_, e⟩
        · cases e
        · exact hs.done k f' b' (Or.inl e) hj'
      · rcases phases_set hp e with ⟨_, e⟩ | ⟨_, e⟩
        · cases e
        · exact hs.done k f' b' (Or.inr e) hj'
    · intro f' b' hd
      refine hs.rest f' b' (fun k hk => hd k ?_)
      unfold Done
      rw [show ({ s with lock := none, poisoned := true, phases := s.phases.set i .failed } : PState).phases[k]? = s.phases[k]?
        from phases_set_ne (hne k hk)]
      exact hk
    · intro k hl
      cases hl
    · have only : ∀ k : Nat, k ≠ i → ¬ (s.phases[k]? = some .written ∨ ∃ v, s.phases[k]? = some (.holding v)) := by
        intro k hk e
        have := hs.holds k e
        rw [hi] at this
        cases this
        exact hk rfl
      rintro k (e | ⟨v', e⟩)
      · rcases phases_set hp e with ⟨_, e⟩ | ⟨hk, e⟩
        · cases e
        · exact absurd (Or.inl e) (only k hk)
      · rcases phases_set hp e with ⟨_, e⟩ | ⟨hk, e⟩
        · cases e
        · exact absurd (Or.inr ⟨v', e⟩) (only k hk)
    · intro _
      exact List.mem_iff_getElem?.2 ⟨i, phases_set_self hp⟩
  | @release i hp =>
    have hi := hs.holds i (Or.inl hp)
    have hdone : ∀ k, Done { s with lock := none, phases := s.phases.set i .finished } k ↔ Done s k := by
      intro k
      by_cases hk : k = i
      · subst hk
        exact ⟨fun _ => Or.inl hp, fun _ => Or.inr (phases_set_self hp)⟩
      · unfold Done
        rw [show ({ s with lock := none, phases := s.phases.set i .finished } : PState).phases[k]? = s.phases[k]?
          from phases_set_ne hk]
    refine ⟨by simpa using hs.len, hs.shp, ?_, ?_, ?_, ?_, ?_, ?_, ?_⟩
    · rintro k v' f' b' (e | e) hj'
      · rcases phases_set hp e with ⟨_, e⟩ | ⟨_, e⟩
        · cases e
        · exact hs.val k v' f' b' (Or.inl e) hj'
      · rcases phases_set hp e with ⟨_, e⟩ | ⟨_, e⟩
        · cases e
        · exact hs.val k v' f' b' (Or.inr e) hj'
    · intro k f b hd hj
      exact hs.done k f b ((hdone k).1 hd) hj
    · intro f b hd
      exact hs.rest f b (fun k hk => hd k ((hdone k).2 hk))
    · intro k hl
      cases hl
    · have only : ∀ k : Nat, k ≠ i → ¬ (s.phases[k]? = some .written ∨ ∃ v, s.phases[k]? = some (.holding v)) := by
        intro k hk e
        have := hs.holds k e
        rw [hi] at this
        cases this
        exact hk rfl
      rintro k (e | ⟨v', e⟩)
      · rcases phases_set hp e with ⟨_, e⟩ | ⟨hk, e⟩
        · cases e
        · exact absurd (Or.inl e) (only k hk)
      · rcases phases_set hp e with ⟨_, e⟩ | ⟨hk, e⟩
        · cases e
        · exact absurd (Or.inr ⟨v', e⟩) (only k hk)
    · rintro (e | e)
      · rcases failed_of_set hp e with e | e
        · cases e
        · exact hs.fail (Or.inl e)
      · exact hs.fail (Or.inr e)
    · intro e
      exact failed_set hp (by simp) (hs.pois e)

theorem inv_schedule {job : Nat → Nat → Out HistVal} {js : List (Nat × Nat)} {h0 : Hists} {k : Nat}
    {s t : PState} (hs : Inv job js h0 s) (h : Schedule job js k s t) : Inv job js h0 t := by
  induction h with
  | nil => exact hs
  | cons _ st ih => exact inv_step (ih hs) st

/-! ### Progress -/

/-- How many steps a job has taken. -/
def rank : Phase → Nat
  | .waiting => 0
  | .computed _ => 1
  | .holding _ => 2
  | .written => 3
  | .finished => 4
  | .failed => 4

theorem rank_le (p : Phase) : rank p ≤ 4 := by cases p <;> simp [rank]

def work (s : PState) : Nat := (s.phases.map rank).sum

theorem work_set {ps : List Phase} {q : Phase} : ∀ {i : Nat} {p : Phase}, ps[i]? = some p →
    ((ps.set i q).map rank).sum + rank p = (ps.map rank).sum + rank q := by
  induction ps with
  | nil => intro i p h; simp at h
  | cons a ps ih =>
    intro i p h
    cases i with
    | zero =>
      simp only [List.getElem?_cons_zero, Option.some.injEq] at h
      subst h
      simp only [List.set_cons_zero, List.map_cons, List.sum_cons]
      omega
    | succ i =>
      simp only [List.getElem?_cons_succ] at h
      have := ih h
      simp only [List.set_cons_succ, List.map_cons, List.sum_cons]
      omega

theorem work_step {job : Nat → Nat → Out HistVal} {js : List (Nat × Nat)} {s t : PState}
    (st : Step job js s t) : work s + 1 ≤ work t := by
  unfold work
  cases st with
  | @compute i f b v hp hj hv => have := work_set (q := .computed v) hp; simp only [rank] at this; simp only; omega
  | computeFails hp hj hv => have := work_set (q := .failed) hp; simp only [rank] at this; simp only; omega
  | drop hp hf => have := work_set (q := .failed) hp; simp only [rank] at this; simp only; omega
  | acquire hp hl hn => rename_i i v; have := work_set (q := .holding v) hp; simp only [rank] at this; simp only; omega
  | acquireFails hp hl hn => have := work_set (q := .failed) hp; simp only [rank] at this; simp only; omega
  | write hp hj hw => have := work_set (q := .written) hp; simp only [rank] at this; simp only; omega
  | writeFails hp hj hw => have := work_set (q := .failed) hp; simp only [rank] at this; simp only; omega
  | release hp => have := work_set (q := .finished) hp; simp only [rank] at this; simp only; omega

theorem work_le (s : PState) : work s ≤ 4 * s.phases.length := by
  unfold work
  induction s.phases with
  | nil => simp
  | cons a ps ih =>
    have := rank_le a
    simp only [List.map_cons, List.sum_cons, List.length_cons]
    omega

theorem work_schedule {job : Nat → Nat → Out HistVal} {js : List (Nat × Nat)} {k : Nat} {s t : PState}
    (h : Schedule job js k s t) : work s + k ≤ work t := by
  induction h with
  | nil => simp
  | cons _ st ih => have := work_step st; omega

theorem step_of_not_ended {job : Nat → Nat → Out HistVal} {js : List (Nat × Nat)} {h0 : Hists} {s : PState}
    (hs : Inv job js h0 s) (h : ¬ s.Ended) : ∃ t, Step job js s t := by
  have jobOf : ∀ (i : Nat) (p : Phase), s.phases[i]? = some p → ∃ f b, js[i]? = some (f, b) := by
    intro i p hp
    have hi : i < js.length := hs.len ▸ (List.getElem?_eq_some_iff.1 hp).1
    exact ⟨js[i].1, js[i].2, by simp [hi]⟩
  cases hl : s.lock with
  | some i =>
    rcases hs.locked i hl with hp | ⟨v, hp⟩
    · exact ⟨_, .release hp⟩
    · obtain ⟨f, b, hj⟩ := jobOf i _ hp
      by_cases hw : ∃ h, setHist s.hists f b v = .ok h
      · obtain ⟨h, hw⟩ := hw
        exact ⟨_, .write hp hj hw⟩
      · exact ⟨_, .writeFails hp hj (fun h e => hw ⟨h, e⟩)⟩
  | none =>
    unfold PState.Ended at h
    push Not at h
    obtain ⟨p, hm, hp1, hp2⟩ := h
    obtain ⟨i, hp⟩ := List.mem_iff_getElem?.1 hm
    obtain ⟨f, b, hj⟩ := jobOf i _ hp
    cases p with
    | waiting =>
      by_cases hw : ∃ v, job f b = .ok v
      · obtain ⟨v, hv⟩ := hw
        exact ⟨_, .compute hp hj hv⟩
      · exact ⟨_, .computeFails hp hj (fun v e => hw ⟨v, e⟩)⟩
    | computed v =>
      cases hn : s.poisoned with
      | false => exact ⟨_, .acquire hp hl hn⟩
      | true => exact ⟨_, .acquireFails hp hl hn⟩
    | holding v => have := hs.holds i (Or.inr ⟨v, hp⟩); rw [hl] at this; cases this
    | written => have := hs.holds i (Or.inl hp); rw [hl] at this; cases this
    | finished => exact absurd rfl hp1
    | failed => exact absurd rfl hp2

theorem complete {job : Nat → Nat → Out HistVal} {js : List (Nat × Nat)} {h0 : Hists} :
    ∀ (m k : Nat) (s0 s : PState), Inv job js h0 s → Schedule job js k s0 s → 4 * js.length ≤ work s + m →
      ∃ k' t, k ≤ k' ∧ Schedule job js k' s0 t ∧ t.Ended
  | 0, k, s0, s, hs, hk, hm => by
      by_cases he : s.Ended
      · exact ⟨k, s, le_refl _, hk, he⟩
      · exfalso
        obtain ⟨t, st⟩ := step_of_not_ended hs he
        have h1 := work_step st
        have h2 := work_le t
        rw [(inv_step hs st).len] at h2
        omega
  | m + 1, k, s0, s, hs, hk, hm => by
      by_cases he : s.Ended
      · exact ⟨k, s, le_refl _, hk, he⟩
      · obtain ⟨t, st⟩ := step_of_not_ended hs he
        have h1 := work_step st
        obtain ⟨k', u, a, b, c⟩ := complete m (k + 1) s0 t (inv_step hs st) (.cons hk st) (by omega)
        exact ⟨k', u, by omega, b, c⟩

/-- What the histograms are when every job has finished. -/
theorem normal_hists {job : Nat → Nat → Out HistVal} {js : List (Nat × Nat)} {h0 : Hists} {s : PState}
    (hs : Inv job js h0 s) (hn : s.Normal) {h : Hists} (e : runJobs job js h0 = .ok h) : s.hists = h := by
  obtain ⟨r1, r2⟩ := runJobs_ok e
  have fin : ∀ (i : Nat) (f b : Nat), js[i]? = some (f, b) → Done s i := by
    intro i f b hj
    have hi : i < s.phases.length := hs.len ▸ (List.getElem?_eq_some_iff.1 hj).1
    refine Or.inr ?_
    rw [List.getElem?_eq_getElem hi, hn _ (List.getElem_mem hi)]
  apply hists_ext (hs.shp.trans (runJobs_shape e).symm)
  intro f b v hv
  by_cases hm : (f, b) ∈ js
  · obtain ⟨i, hj⟩ := List.mem_iff_getElem?.1 hm
    obtain ⟨v1, a1, a2⟩ := hs.done i f b (fin i f b hj) hj
    obtain ⟨v2, b1, b2⟩ := r1 f b hm
    rw [a1] at b1
    cases b1
    rw [hv] at a2
    rw [b2, a2]
  · rw [r2 f b hm, ← hv]
    refine (hs.rest f b ?_).symm
    intro i _ hj
    exact hm (List.mem_iff_getElem?.2 ⟨i, hj⟩)

theorem good_of_normal {job : Nat → Nat → Out HistVal} {js : List (Nat × Nat)} {h0 : Hists} {s : PState}
    (hs : Inv job js h0 s) (hn : s.Normal) : ∃ h, runJobs job js h0 = .ok h := by
  refine runJobs_iff.2 ?_
  intro f b hm
  obtain ⟨i, hj⟩ := List.mem_iff_getElem?.1 hm
  have hi : i < s.phases.length := hs.len ▸ (List.getElem?_eq_some_iff.1 hj).1
  obtain ⟨v, a1, a2⟩ := hs.done i f b (Or.inr (by rw [List.getElem?_eq_getElem hi, hn _ (List.getElem_mem hi)])) hj
  refine ⟨⟨v, a1⟩, ?_⟩
  rw [inRange_shape, ← hs.shp, ← inRange_shape]
  obtain ⟨l, c1, c2⟩ := histAt_ok.1 a2
  exact ⟨l, c1, (List.getElem?_eq_some_iff.1 c2).1⟩

end Parallel
end BitBoost
