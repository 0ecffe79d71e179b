import Verif.Lemmas.NodeSplit
/-! Helper lemmas: histograms and the choice of the split. -/
namespace BitBoost
namespace Learner

theorem mem_histJobs {ds : Dataset} : ∀ {fs : List Nat} {js : List (Nat × Nat)}, histJobs ds fs = .ok js →
    ∀ f b, (f, b) ∈ js ↔ f ∈ fs ∧ ∃ n, ds.getNbins f = .ok n ∧ b < n
  | [], js, h, f, b => by
      simp only [histJobs, Out.ok.injEq] at h
      subst h
      simp
  | g :: fs, js, h, f, b => by
      unfold histJobs at h
      obtain ⟨n, e1, h⟩ := Out.bind_eq_ok.1 h
      obtain ⟨js', e2, h⟩ := Out.bind_eq_ok.1 h
      simp only [Out.pure_eq, Out.ok.injEq] at h
      subst h
      have ih := mem_histJobs e2 f b
      simp only [List.mem_append, List.mem_map, List.mem_range, Prod.mk.injEq, List.mem_cons, ih]
      constructor
      · rintro (⟨a, ha, rfl, rfl⟩ | ⟨h1, h2⟩)
        · exact ⟨Or.inl rfl, n, e1, ha⟩
        · exact ⟨Or.inr h1, h2⟩
      · rintro ⟨rfl | h1, m, h2, h3⟩
        · rw [e1] at h2
          cases h2
          exact Or.inl ⟨b, h3, rfl, rfl⟩
        · exact Or.inr ⟨h1, m, h2, h3⟩

/-! ### Reading and writing histograms -/

theorem histAt_ok {h : Hists} {f b : Nat} {v : HistVal} :
    histAt h f b = .ok v ↔ ∃ hs, h[f]? = some hs ∧ hs[b]? = some v := by
  unfold histAt
  constructor
  · intro e
    obtain ⟨hs, e1, e2⟩ := Out.bind_eq_ok.1 e
    exact ⟨hs, at?_ok.1 e1, at?_ok.1 e2⟩
  · rintro ⟨hs, e1, e2⟩
    rw [at?_ok.2 e1, Out.ok_bind, at?_ok.2 e2]

theorem setHist_ok {h h' : Hists} {f b : Nat} {v : HistVal} (e : setHist h f b v = .ok h') :
    ∀ f' b', histAt h' f' b' = if f' = f ∧ b' = b then .ok v else histAt h f' b' := by
  unfold setHist at e
  obtain ⟨hs, e1, e⟩ := Out.bind_eq_ok.1 e
  obtain ⟨_, e2, e⟩ := Out.bind_eq_ok.1 e
  simp only [Out.pure_eq, Out.ok.injEq] at e
  subst e
  rw [at?_ok] at e1
  have hb : b < hs.length := by simpa using (assert_ok.1 e2)
  have hf : f < h.length := (List.getElem?_eq_some_iff.1 e1).1
  intro f' b'
  unfold histAt
  by_cases hff : f' = f
  · subst hff
    have a1 : at? (h.set f' (hs.set b v)) f' = .ok (hs.set b v) := by
      rw [at?_ok, List.getElem?_set_self hf]
    have a2 : at? h f' = .ok hs := at?_ok.2 e1
    rw [a1, a2, Out.ok_bind, Out.ok_bind]
    by_cases hbb : b' = b
    · subst hbb
      rw [if_pos ⟨rfl, rfl⟩, at?_ok, List.getElem?_set_self hb]
    · rw [if_neg (by simp [hbb])]
      unfold at?
      rw [List.getElem?_set_ne (fun h => hbb h.symm)]
  · rw [if_neg (by simp [hff])]
    have : at? (h.set f (hs.set b v)) f' = at? h f' := by
      unfold at?
      rw [List.getElem?_set_ne (fun h => hff h.symm)]
    rw [this]

theorem runJobs_ok {job : Nat → Nat → Out HistVal} : ∀ {js : List (Nat × Nat)} {h h' : Hists},
    runJobs job js h = .ok h' → (∀ f b, (f, b) ∈ js → ∃ v, job f b = .ok v ∧ histAt h' f b = .ok v) ∧
      ∀ f b, (f, b) ∉ js → histAt h' f b = histAt h f b
  | [], h, h', e => by
      simp only [runJobs, Out.ok.injEq] at e
      subst e
      simp
  | (g, c) :: js, h, h', e => by
      unfold runJobs at e
      obtain ⟨v, e1, e⟩ := Out.bind_eq_ok.1 e
      obtain ⟨h1, e2, e⟩ := Out.bind_eq_ok.1 e
      obtain ⟨ih1, ih2⟩ := runJobs_ok e
      have hs := setHist_ok e2
      constructor
      · intro f b hfb
        by_cases hmem : (f, b) ∈ js
        · exact ih1 f b hmem
        · rcases List.mem_cons.1 hfb with h0 | h0
          · cases h0
            refine ⟨v, e1, ?_⟩
            rw [ih2 _ _ hmem, hs, if_pos ⟨rfl, rfl⟩]
          · exact absurd h0 hmem
      · intro f b hfb
        rw [List.mem_cons, not_or] at hfb
        rw [ih2 f b hfb.2, hs, if_neg]
        rintro ⟨rfl, rfl⟩
        exact hfb.1 rfl

theorem histAt_sub {F : FP} {p l : Hists} {f b : Nat} {v : HistVal} (h : histAt (subHists F p l) f b = .ok v) :
    ∃ x y, histAt p f b = .ok x ∧ histAt l f b = .ok y ∧ v = HistVal.sub F x y := by
  obtain ⟨hs, e1, e2⟩ := histAt_ok.1 h
  unfold subHists at e1
  rw [List.getElem?_zipWith] at e1
  cases hp : p[f]? with
  | none => rw [hp] at e1; simp at e1
  | some ps =>
    cases hl : l[f]? with
    | none => rw [hp, hl] at e1; simp at e1
    | some ls =>
      rw [hp, hl] at e1
      simp only [Option.some.injEq] at e1
      subst e1
      rw [List.getElem?_zipWith] at e2
      cases hx : ps[b]? with
      | none => rw [hx] at e2; simp at e2
      | some x =>
        cases hy : ls[b]? with
        | none => rw [hx, hy] at e2; simp at e2
        | some y =>
          rw [hx, hy] at e2
          simp only [Option.some.injEq] at e2
          exact ⟨x, y, histAt_ok.2 ⟨ps, hp, hx⟩, histAt_ok.2 ⟨ls, hl, hy⟩, e2.symm⟩

theorem histAt_sub_ok {F : FP} {p l : Hists} {f b : Nat} {x y : HistVal} (h1 : histAt p f b = .ok x)
    (h2 : histAt l f b = .ok y) : histAt (subHists F p l) f b = .ok (HistVal.sub F x y) := by
  obtain ⟨ps, a1, a2⟩ := histAt_ok.1 h1
  obtain ⟨ls, b1, b2⟩ := histAt_ok.1 h2
  refine histAt_ok.2 ⟨List.zipWith (HistVal.sub F) ps ls, ?_, ?_⟩
  · unfold subHists; rw [List.getElem?_zipWith, a1, b1]
  · rw [List.getElem?_zipWith, a2, b2]

/-! ### The choice of the split -/

/-- The scan over a list of candidates. -/
def scanJobs (F : FP) (cfg : Config) (ds : Dataset) (pg : Num) (pc : Nat) (h : Hists) :
    List (Nat × Nat) → Num × Split → Out (Num × Split)
  | [], best => .ok best
  | (f, b) :: js, best => do
      let v ← histAt h f b
      let best' ← tryCandidate F cfg ds pg pc f b v best
      scanJobs F cfg ds pg pc h js best'

variable {F : FP} {cfg : Config} {ds : Dataset} {pg : Num} {pc : Nat} {h : Hists}

theorem scanJobs_append : ∀ (js js' : List (Nat × Nat)) (best : Num × Split),
    scanJobs F cfg ds pg pc h (js ++ js') best =
      (scanJobs F cfg ds pg pc h js best >>= fun b => scanJobs F cfg ds pg pc h js' b)
  | [], js', best => by simp [scanJobs]
  | (f, b) :: js, js', best => by
      simp only [List.cons_append, scanJobs, Out.bind_assoc]
      cases histAt h f b with
      | ok v =>
        simp only [Out.ok_bind]
        cases tryCandidate F cfg ds pg pc f b v best with
        | ok b' => simp only [Out.ok_bind]; exact scanJobs_append js js' b'
        | panic => rfl
        | ub => rfl
      | panic => rfl
      | ub => rfl

theorem scanBins_eq (f : Nat) : ∀ (k b : Nat) (best : Num × Split),
    scanBins F cfg ds pg pc h f k b best =
      scanJobs F cfg ds pg pc h ((List.range' b k).map fun b => (f, b)) best
  | 0, b, best => rfl
  | k + 1, b, best => by
      unfold scanBins
      rw [List.range'_succ, List.map_cons]
      unfold scanJobs
      cases histAt h f b with
      | ok v =>
        simp only [Out.ok_bind]
        cases tryCandidate F cfg ds pg pc f b v best with
        | ok b' => simp only [Out.ok_bind]; exact scanBins_eq f k (b + 1) b'
        | panic => rfl
        | ub => rfl
      | panic => rfl
      | ub => rfl

theorem scanFeatures_ok : ∀ {fs : List Nat} {best r : Num × Split},
    scanFeatures F cfg ds pg pc h fs best = .ok r →
    ∃ js, histJobs ds fs = .ok js ∧ scanJobs F cfg ds pg pc h js best = .ok r
  | [], best, r, e => ⟨[], rfl, e⟩
  | f :: fs, best, r, e => by
      unfold scanFeatures at e
      obtain ⟨n, e1, e⟩ := Out.bind_eq_ok.1 e
      obtain ⟨b', e2, e⟩ := Out.bind_eq_ok.1 e
      obtain ⟨js, e3, e4⟩ := scanFeatures_ok e
      refine ⟨(List.range n).map (fun b => (f, b)) ++ js, ?_, ?_⟩
      · unfold histJobs
        rw [e1, Out.ok_bind, e3, Out.ok_bind]
        rfl
      · rw [scanBins_eq, ← List.range_eq_range'] at e2
        rw [scanJobs_append, e2, Out.ok_bind, e4]

theorem Num.lt_trans' {a b c : Num} (h1 : a.lt b = true) (h2 : b.lt c = true) : a.lt c = true := by
  cases a <;> cases b <;> cases c <;> simp [Num.lt] at * 
  linarith

theorem Num.lt_of_not_lt {g0 g y z : Num} (h0 : g0.lt y = true) (h1 : g.lt y = false) (h2 : g.lt z = true) :
    y.lt z = true := by
  revert h0 h1 h2
  cases g0 <;> cases g <;> cases y <;> cases z <;> simp [Num.lt] <;> intros <;> linarith

/-- Result of a scan from the initial state `(g0, s0)`: either nothing is better than `g0`, or the chosen one
is the first among the best. -/
def ScanResult (F : FP) (cfg : Config) (ds : Dataset) (pg : Num) (pc : Nat) (h : Hists) (js : List (Nat × Nat))
    (g0 : Num) (s0 : Split) (r : Num × Split) : Prop :=
  (r = (g0, s0) ∧ ∀ f b v, (f, b) ∈ js → histAt h f b = .ok v → cfg.minExamplesLeaf ≤ v.count →
      cfg.minExamplesLeaf ≤ subU32 pc v.count → g0.lt (gain F cfg pg pc v) = false) ∨
  ∃ pre post f b v crit, js = pre ++ (f, b) :: post ∧ histAt h f b = .ok v ∧ cfg.minExamplesLeaf ≤ v.count ∧
    cfg.minExamplesLeaf ≤ subU32 pc v.count ∧ critOf F ds f b = .ok crit ∧ r = (gain F cfg pg pc v, ⟨crit, b⟩) ∧
    g0.lt (gain F cfg pg pc v) = true ∧
    (∀ f' b' v', (f', b') ∈ pre → histAt h f' b' = .ok v' → cfg.minExamplesLeaf ≤ v'.count →
      cfg.minExamplesLeaf ≤ subU32 pc v'.count → g0.lt (gain F cfg pg pc v') = true →
      (gain F cfg pg pc v').lt (gain F cfg pg pc v) = true) ∧
    (∀ f' b' v', (f', b') ∈ post → histAt h f' b' = .ok v' → cfg.minExamplesLeaf ≤ v'.count →
      cfg.minExamplesLeaf ≤ subU32 pc v'.count → (gain F cfg pg pc v).lt (gain F cfg pg pc v') = false)

theorem scanJobs_spec : ∀ {js : List (Nat × Nat)} {g0 : Num} {s0 : Split} {r : Num × Split},
    scanJobs F cfg ds pg pc h js (g0, s0) = .ok r → ScanResult F cfg ds pg pc h js g0 s0 r
  | [], g0, s0, r, e => by
      simp only [scanJobs, Out.ok.injEq] at e
      exact Or.inl ⟨e.symm, by simp⟩
  | (f, b) :: js, g0, s0, r, e => by
      unfold scanJobs at e
      obtain ⟨v, e1, e⟩ := Out.bind_eq_ok.1 e
      obtain ⟨best', e2, e⟩ := Out.bind_eq_ok.1 e
      -- what happened at this candidate
      have hcase : (best' = (g0, s0) ∧ (cfg.minExamplesLeaf ≤ v.count → cfg.minExamplesLeaf ≤ subU32 pc v.count →
            g0.lt (gain F cfg pg pc v) = false)) ∨
          (cfg.minExamplesLeaf ≤ v.count ∧ cfg.minExamplesLeaf ≤ subU32 pc v.count ∧
            g0.lt (gain F cfg pg pc v) = true ∧ ∃ crit, critOf F ds f b = .ok crit ∧
            best' = (gain F cfg pg pc v, ⟨crit, b⟩)) := by
        unfold tryCandidate at e2
        split at e2
        · rename_i hc
          simp only [Out.ok.injEq] at e2
          exact Or.inl ⟨e2.symm, fun a b => by omega⟩
        · rename_i hc
          push Not at hc
          split at e2
          · rename_i hg
            obtain ⟨crit, e3, e2⟩ := Out.bind_eq_ok.1 e2
            simp only [Out.pure_eq, Out.ok.injEq] at e2
            exact Or.inr ⟨hc.1, hc.2, hg, crit, e3, e2.symm⟩
          · rename_i hg
            simp only [Out.ok.injEq] at e2
            exact Or.inl ⟨e2.symm, fun _ _ => by simpa using hg⟩
      rcases hcase with ⟨rfl, hno⟩ | ⟨a1, a2, a3, crit, a4, rfl⟩
      · rcases scanJobs_spec e with ⟨hr, hall⟩ | ⟨pre, post, f1, b1, v1, crit, hj, c1, c2, c3, c4, c5, c6, c7, c8⟩
        · refine Or.inl ⟨hr, ?_⟩
          intro f' b' v' hm hh hl hr'
          rcases List.mem_cons.1 hm with h0 | h0
          · cases h0
            rw [e1] at hh
            cases hh
            exact hno hl hr'
          · exact hall f' b' v' h0 hh hl hr'
        · refine Or.inr ⟨(f, b) :: pre, post, f1, b1, v1, crit, by rw [hj]; rfl, c1, c2, c3, c4, c5, c6, ?_, c8⟩
          intro f' b' v' hm hh hl hr' hg'
          rcases List.mem_cons.1 hm with h0 | h0
          · cases h0
            rw [e1] at hh
            cases hh
            rw [hno hl hr'] at hg'
            exact absurd hg' (by simp)
          · exact c7 f' b' v' h0 hh hl hr' hg'
      · rcases scanJobs_spec e with ⟨hr, hall⟩ | ⟨pre, post, f1, b1, v1, crit1, hj, c1, c2, c3, c4, c5, c6, c7, c8⟩
        · exact Or.inr ⟨[], js, f, b, v, crit, rfl, e1, a1, a2, a4, hr, a3, by simp, fun f' b' v' hm hh hl hr' =>
            hall f' b' v' hm hh hl hr'⟩
        · refine Or.inr ⟨(f, b) :: pre, post, f1, b1, v1, crit1, by rw [hj]; rfl, c1, c2, c3, c4, c5,
            Num.lt_trans' a3 c6, ?_, c8⟩
          intro f' b' v' hm hh hl hr' hg'
          rcases List.mem_cons.1 hm with h0 | h0
          · cases h0
            rw [e1] at hh
            cases hh
            exact c6
          · by_cases hgg : (gain F cfg pg pc v).lt (gain F cfg pg pc v') = true
            · exact c7 f' b' v' h0 hh hl hr' hgg
            · have hgg : (gain F cfg pg pc v).lt (gain F cfg pg pc v') = false := by simpa using hgg
              exact Num.lt_of_not_lt hg' hgg c6

theorem findBestSplit_spec {s : Split} (e : findBestSplit F cfg ds pg pc h = .ok s) :
    ∃ fs js r, ds.activeFeatures = .ok fs ∧ histJobs ds fs = .ok js ∧ r.2 = s ∧
      ScanResult F cfg ds pg pc h js cfg.minGain noSplit r := by
  unfold findBestSplit at e
  obtain ⟨fs, e1, e⟩ := Out.bind_eq_ok.1 e
  obtain ⟨r, e2, e⟩ := Out.bind_eq_ok.1 e
  simp only [Out.pure_eq, Out.ok.injEq] at e
  obtain ⟨js, e3, e4⟩ := scanFeatures_ok e2
  exact ⟨fs, js, r, e1, e3, e, scanJobs_spec e4⟩

theorem critOf_fields {f b : Nat} {crit : SplitCrit} (e : critOf F ds f b = .ok crit) :
    crit.isNone = false ∧ crit.featureId = f ∧ ∃ c, ds.data.cols[f]? = some c ∧
      ds.getSplitValue F f b = .ok crit.splitValue ∧ crit = Spec.testOf c.ftype f crit.splitValue := by
  unfold critOf at e
  obtain ⟨v, e1, e⟩ := Out.bind_eq_ok.1 e
  obtain ⟨c, e2, e⟩ := Out.bind_eq_ok.1 e
  simp only [Out.pure_eq, Out.ok.injEq] at e
  unfold Dataset.column at e2
  rw [at?_ok] at e2
  subst e
  refine ⟨?_, rfl, c, e2, e1, ?_⟩
  · unfold SplitCrit.isNone
    cases c.ftype <;> rfl
  · unfold Spec.testOf
    cases c.ftype <;> rfl

/-- A split that is found is a candidate with enough examples on both sides. -/
theorem findBestSplit_some {s : Split} (e : findBestSplit F cfg ds pg pc h = .ok s) (hs : s.crit.isNone = false) :
    ∃ fs js v, ds.activeFeatures = .ok fs ∧ histJobs ds fs = .ok js ∧ (s.crit.featureId, s.splitId) ∈ js ∧
      histAt h s.crit.featureId s.splitId = .ok v ∧ cfg.minExamplesLeaf ≤ v.count ∧
      cfg.minExamplesLeaf ≤ subU32 pc v.count ∧ critOf F ds s.crit.featureId s.splitId = .ok s.crit := by
  obtain ⟨fs, js, r, e1, e2, rfl, hr⟩ := findBestSplit_spec e
  rcases hr with ⟨rfl, _⟩ | ⟨pre, post, f, b, v, crit, hj, c1, c2, c3, c4, rfl, _⟩
  · simp [noSplit, SplitCrit.isNone, SplitCrit.none] at hs
  · obtain ⟨_, hf, _⟩ := critOf_fields c4
    refine ⟨fs, js, v, e1, e2, ?_, ?_, c2, c3, ?_⟩
    · rw [hj]; simp [hf]
    · simp only [hf]; exact c1
    · simp only [hf]; exact c4

end Learner
end BitBoost
