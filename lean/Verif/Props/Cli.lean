import Verif.Lemmas.Cli
import Verif.Spec.Cli
import Verif.Props.Boost
import Verif.Props.CApi
/-!
# The command line program

`Settings E args cfg o ms`: the arguments after the command give the configuration `cfg`, the objective `o` and the
metrics `ms`. `Loads E cfg path d`: the file is a CSV file with the data `d`.
-/
namespace BitBoost.Props
open BitBoost Spec Cli

/-! ## Helpers -/

section
variable {E : Env} {args : List (List Char)} {cfg : Config} {path : List Char}

theorem loadCsv_ok {d : Data} : loadCsv E cfg path = .ok (.ok d) ↔ Loads E cfg path d := by
  unfold loadCsv Loads
  cases hf : E.file path cfg.csvDelimiter cfg.csvHasHeader with
  | none => simp
  | some f =>
    simp only [Option.some.injEq, exists_eq_left']
    rcases hd : Data.fromCsv cfg f.items f.header with (e | x) | _ | _ <;> simp

theorem loadCsv_error {e : Cli.Err} : loadCsv E cfg path = .ok (.error e) ↔ LoadFails E cfg path e := by
  unfold loadCsv LoadFails
  cases hf : E.file path cfg.csvDelimiter cfg.csvHasHeader with
  | none => simp [eq_comm]
  | some f =>
    simp only [reduceCtorEq, false_and, Option.some.injEq, false_or]
    constructor
    · intro h
      rcases hd : Data.fromCsv cfg f.items f.header with (de | x) | _ | _ <;> rw [hd] at h <;> simp at h
      exact ⟨f, de, rfl, hd, h.symm⟩
    · rintro ⟨f', de, rfl, hd, rfl⟩
      rw [hd]

theorem loadData_ok {d : Data} {t : Option Data} :
    loadData E cfg = .ok (.ok (d, t)) ↔ Loads E cfg cfg.train d ∧ TestData E cfg t := by
  unfold loadData
  rw [← loadCsv_ok]
  cases h1 : loadCsv E cfg cfg.train with
  | panic => simp [Out.panic_bind]
  | ub => simp [Out.ub_bind]
  | ok r =>
    rw [Out.ok_bind]
    cases ht : cfg.test with
    | nil =>
      simp only [List.isEmpty_nil, if_true, Out.pure_eq, Out.ok_bind]
      cases r with
      | error e => simp
      | ok x => cases t <;> simp [TestData, ht, eq_comm]
    | cons a as =>
      simp only [List.isEmpty_cons, Bool.false_eq_true, if_false]
      have hT : ∀ y, TestData E cfg (some y) ↔ loadCsv E cfg (a :: as) = .ok (.ok y) := by
        intro y
        rw [loadCsv_ok]
        simp [TestData, ht]
      have hN : ¬ TestData E cfg none := by simp [TestData, ht]
      cases h2 : loadCsv E cfg (a :: as) with
      | panic =>
        cases t with
        | none => simp [Out.panic_bind, hN]
        | some y => simp [Out.panic_bind, hT, h2]
      | ub =>
        cases t with
        | none => simp [Out.ub_bind, hN]
        | some y => simp [Out.ub_bind, hT, h2]
      | ok r2 =>
        simp only [Out.ok_bind, Out.pure_eq]
        cases r with
        | error e => simp
        | ok x =>
          cases t with
          | none => cases r2 <;> simp [hN]
          | some y => cases r2 <;> simp [hT, h2]

theorem loadData_error {e : Cli.Err} :
    loadData E cfg = .ok (.error e) ↔
      (LoadFails E cfg cfg.train e ∧ ((∃ t, TestData E cfg t) ∨ ∃ e', cfg.test ≠ [] ∧ LoadFails E cfg cfg.test e')) ∨
      ((∃ d, Loads E cfg cfg.train d) ∧ cfg.test ≠ [] ∧ LoadFails E cfg cfg.test e) := by
  unfold loadData
  simp only [← loadCsv_ok, ← loadCsv_error]
  have hT : (∃ t, TestData E cfg t) ↔ cfg.test = [] ∨ (cfg.test ≠ [] ∧ ∃ d, loadCsv E cfg cfg.test = .ok (.ok d)) := by
    constructor
    · rintro ⟨t, ht⟩
      cases t with
      | none => exact .inl ht
      | some d => exact .inr ⟨ht.1, d, loadCsv_ok.2 ht.2⟩
    · rintro (h | ⟨h, d, hd⟩)
      · exact ⟨none, h⟩
      · exact ⟨some d, h, loadCsv_ok.1 hd⟩
  rw [hT]
  cases h1 : loadCsv E cfg cfg.train with
  | panic => simp [Out.panic_bind]
  | ub => simp [Out.ub_bind]
  | ok r =>
    rw [Out.ok_bind]
    cases ht : cfg.test with
    | nil =>
      simp only [List.isEmpty_nil, if_true, Out.pure_eq, Out.ok_bind]
      cases r <;> simp
    | cons a as =>
      simp only [List.isEmpty_cons, Bool.false_eq_true, if_false]
      cases h2 : loadCsv E cfg (a :: as) with
      | panic => simp [Out.panic_bind]
      | ub => simp [Out.ub_bind]
      | ok r2 =>
        simp only [Out.ok_bind, Out.pure_eq]
        cases r <;> cases r2 <;> simp

theorem parse_ok {p : Parsed} :
    parse E args = .ok (.ok p) ↔ Settings E args p.config p.objective p.metrics ∧ Loads E p.config p.config.train p.train ∧
      TestData E p.config p.test := by
  unfold parse Settings
  cases hc : Config.parse E.pf args with
  | error e => simp
  | ok cfg =>
    simp only [Except.ok.injEq]
    cases ho : Objective.fromName cfg.objective with
    | none =>
      simp only [Out.ok.injEq, reduceCtorEq, false_iff]
      rintro ⟨⟨rfl, h, _⟩, _⟩
      rw [ho] at h; cases h
    | some o =>
      simp only
      cases hm : Metric.fromNames cfg.metrics with
      | none =>
        simp only [Out.ok.injEq, reduceCtorEq, false_iff]
        rintro ⟨⟨rfl, _, h⟩, _⟩
        rw [hm] at h; cases h
      | some ms =>
        simp only
        constructor
        · intro h
          obtain ⟨r, e, h⟩ := Out.bind_eq_ok.1 h
          rcases r with e' | ⟨d, t⟩
          · simp at h
          · simp only [Out.pure_eq, Out.ok.injEq, Except.ok.injEq] at h
            subst h
            exact ⟨⟨rfl, ho, hm⟩, loadData_ok.1 e⟩
        · rintro ⟨⟨rfl, h1, h2⟩, h3⟩
          rw [ho] at h1
          rw [hm] at h2
          rw [loadData_ok.2 h3]
          cases h1
          cases h2
          rfl

theorem command_ok {k : Parsed → Out Output} {out : Output} :
    command E args k = .ok (.ok out) ↔ ∃ p, parse E args = .ok (.ok p) ∧ k p = .ok out := by
  unfold command
  constructor
  · intro h
    obtain ⟨r, e, h⟩ := Out.bind_eq_ok.1 h
    cases r with
    | error e' => cases h
    | ok p =>
      obtain ⟨o, e2, h⟩ := Out.bind_eq_ok.1 h
      cases h
      exact ⟨p, e, e2⟩
  · rintro ⟨p, e, h⟩
    rw [e, Out.ok_bind]
    simp only
    rw [h]
    rfl

theorem command_error {k : Parsed → Out Output} {e : Cli.Err} :
    command E args k = .ok (.error e) ↔ parse E args = .ok (.error e) := by
  unfold command
  constructor
  · intro h
    obtain ⟨r, e1, h⟩ := Out.bind_eq_ok.1 h
    cases r with
    | error e' => cases h; exact e1
    | ok p =>
      obtain ⟨o, e2, h⟩ := Out.bind_eq_ok.1 h
      cases h
  · intro h
    rw [h]
    rfl

theorem main_tree : main E ("tree".toList :: args) = command E args (runTree E) := by
  simp only [main]
  rw [if_pos trivial]

theorem main_boost : main E ("boost".toList :: args) = command E args (runBoost E) := by
  simp only [main]
  rw [if_neg (by decide), if_pos trivial]

theorem main_raw : main E ("boost_and_predict_raw".toList :: args) = command E args (runRaw E) := by
  simp only [main]
  rw [if_neg (by decide), if_neg (by decide), if_pos trivial]

end

theorem fromCsv_rectangular {cfg : Config} {items : List Data.CsvItem} {header : Option (List String)} {d : Data}
    (h : Data.fromCsv cfg items header = .ok (.ok d)) : Rectangular d ∧ d.nexamples = items.length := by
  obtain ⟨first, rest, h1, h2, h3, h4, _, h5⟩ := C27_values _ _ _ _ h
  refine ⟨⟨h4.symm, ?_⟩, by rw [h1, h2]; simp⟩
  intro c hc
  obtain ⟨j, hj, rfl⟩ := List.mem_iff_getElem.1 hc
  have := congrArg List.length (h5 j hj)
  rw [h2]
  simpa using this

theorem loads_rectangular {E : Env} {cfg : Config} {path : List Char} {d : Data} (h : Loads E cfg path d) :
    Rectangular d := by
  obtain ⟨f, _, h⟩ := h
  exact (fromCsv_rectangular h).1

/-! ## C64 -/

/-- C64: the command `tree` reports the same as the command `boost` with one iteration, for every configuration, all
data and any rounding (also with a learning rate, bagging and a bias). -/
theorem C64_tree (E : Env) (args : List (List Char)) (cfg : Config) (hc : Config.parse E.pf args = .ok cfg)
    (h1 : cfg.niterations = 1) (k : ObjKind) (nbits : Nat) (lines : List Line) :
    main E ("tree".toList :: args) = .ok (.ok (.report [] k nbits lines)) ↔
      ∃ printed, main E ("boost".toList :: args) = .ok (.ok (.report printed k nbits lines)) := by
  rw [main_tree, main_boost]
  simp only [command_ok]
  constructor
  · rintro ⟨p, hp, h⟩
    have hn : p.config.niterations = 1 := by
      have := (parse_ok.1 hp).1.1
      rw [hc] at this
      cases this
      exact h1
    unfold runTree at h
    obtain ⟨t, e1, h⟩ := Out.bind_eq_ok.1 h
    obtain ⟨ls, e2, h⟩ := Out.bind_eq_ok.1 h
    cases h
    obtain ⟨b, f1, f2⟩ := (singleTree_iff p.config p.train p.objective p.metrics hn _).1 ⟨t, e1, rfl⟩
    refine ⟨b.printed, p, hp, ?_⟩
    unfold runBoost boost
    rw [f1, Out.ok_bind, f2, e2]
    rfl
  · rintro ⟨printed, p, hp, h⟩
    have hn : p.config.niterations = 1 := by
      have := (parse_ok.1 hp).1.1
      rw [hc] at this
      cases this
      exact h1
    unfold runBoost boost at h
    obtain ⟨b, e1, h⟩ := Out.bind_eq_ok.1 h
    obtain ⟨ls, e2, h⟩ := Out.bind_eq_ok.1 h
    cases h
    obtain ⟨t, f1, f2⟩ := (singleTree_iff p.config p.train p.objective p.metrics hn _).2 ⟨b, e1, rfl⟩
    refine ⟨p, hp, ?_⟩
    unfold runTree
    rw [f1, Out.ok_bind, f2, e2]
    rfl


theorem parse_error {E : Env} {args : List (List Char)} {e : Cli.Err} :
    parse E args = .ok (.error e) ↔
      (∃ ce, Config.parse E.pf args = .error ce ∧ e = .config ce) ∨
      ∃ cfg, Config.parse E.pf args = .ok cfg ∧
        ((Objective.fromName cfg.objective = none ∧ e = .objective) ∨
         ∃ o, Objective.fromName cfg.objective = some o ∧
          ((Metric.fromNames cfg.metrics = none ∧ e = .metric) ∨
           ∃ ms, Metric.fromNames cfg.metrics = some ms ∧ loadData E cfg = .ok (.error e))) := by
  unfold parse
  cases hc : Config.parse E.pf args with
  | error ce => simp [eq_comm]
  | ok cfg =>
    simp only [reduceCtorEq, false_and, exists_false, Except.ok.injEq, exists_eq_left', false_or]
    cases ho : Objective.fromName cfg.objective with
    | none => simp [eq_comm]
    | some o =>
      simp only [reduceCtorEq, false_and, Option.some.injEq, exists_eq_left', false_or]
      cases hm : Metric.fromNames cfg.metrics with
      | none => simp [eq_comm]
      | some ms =>
        simp only [reduceCtorEq, false_and, Option.some.injEq, exists_eq_left', false_or]
        constructor
        · intro h
          obtain ⟨r, e1, h⟩ := Out.bind_eq_ok.1 h
          rcases r with e' | ⟨d, t⟩
          · simp only [Out.pure_eq, Out.ok.injEq, Except.error.injEq] at h
            subst h
            exact e1
          · simp at h
        · intro h
          rw [h]
          rfl

theorem main_known {E : Env} {cmd : List Char} {args : List (List Char)} (h : Known cmd) :
    ∃ k, main E (cmd :: args) = command E args k := by
  simp only [Known, List.mem_cons, List.not_mem_nil, or_false] at h
  rcases h with rfl | rfl | rfl
  · exact ⟨_, main_tree⟩
  · exact ⟨_, main_boost⟩
  · exact ⟨_, main_raw⟩

theorem main_unknown {E : Env} {cmd : List Char} {args : List (List Char)} (h : ¬ Known cmd) :
    main E (cmd :: args) = .ok (.error .usage) := by
  simp only [Known, List.mem_cons, List.not_mem_nil, or_false, not_or] at h
  simp only [main]
  rw [if_neg h.1, if_neg h.2.1, if_neg h.2.2]

/-- C64: the program ends with an error exactly if something is wrong with the command line or with the files it names
(`Spec.Rejected`); in particular never once training has begun. -/
theorem C64_errors (E : Env) (args : List (List Char)) (e : Cli.Err) :
    main E args = .ok (.error e) ↔ Rejected E args e := by
  constructor
  · intro h
    cases args with
    | nil =>
      simp only [main, Out.ok.injEq, Except.error.injEq] at h
      subst h
      exact .noCommand
    | cons cmd args =>
      by_cases hk : Known cmd
      · obtain ⟨k, hm⟩ := main_known (E := E) (args := args) hk
        rw [hm, command_error, parse_error] at h
        rcases h with ⟨ce, h1, rfl⟩ | ⟨cfg, h1, ⟨h2, rfl⟩ | ⟨o, h2, ⟨h3, rfl⟩ | ⟨ms, h3, h4⟩⟩⟩
        · exact .config hk h1
        · exact .objective hk h1 h2
        · exact .metric hk h1 ⟨o, h2⟩ h3
        · rcases loadData_error.1 h4 with ⟨h5, h6⟩ | ⟨⟨d, h5⟩, h6, h7⟩
          · exact .train hk ⟨h1, h2, h3⟩ h5 h6
          · exact .test hk ⟨h1, h2, h3⟩ h5 h6 h7
      · rw [main_unknown hk] at h
        cases h
        exact .command hk
  · intro h
    cases h with
    | noCommand => rfl
    | command hk => exact main_unknown hk
    | @config cmd as _ hk h1 =>
      obtain ⟨k, hm⟩ := main_known (E := E) (args := as) hk
      rw [hm, command_error, parse_error]
      exact .inl ⟨_, h1, rfl⟩
    | @objective cmd as _ hk h1 h2 =>
      obtain ⟨k, hm⟩ := main_known (E := E) (args := as) hk
      rw [hm, command_error, parse_error]
      exact .inr ⟨_, h1, .inl ⟨h2, rfl⟩⟩
    | @metric cmd as _ hk h1 h2 h3 =>
      obtain ⟨k, hm⟩ := main_known (E := E) (args := as) hk
      obtain ⟨o, h2⟩ := h2
      rw [hm, command_error, parse_error]
      exact .inr ⟨_, h1, .inr ⟨o, h2, .inl ⟨h3, rfl⟩⟩⟩
    | @train cmd as _ o ms _ hk h1 h2 h3 =>
      obtain ⟨k, hm⟩ := main_known (E := E) (args := as) hk
      rw [hm, command_error, parse_error]
      exact .inr ⟨_, h1.1, .inr ⟨o, h1.2.1, .inr ⟨ms, h1.2.2, loadData_error.2 (.inl ⟨h2, h3⟩)⟩⟩⟩
    | @test cmd as _ o ms d _ hk h1 h2 h3 h4 =>
      obtain ⟨k, hm⟩ := main_known (E := E) (args := as) hk
      rw [hm, command_error, parse_error]
      exact .inr ⟨_, h1.1, .inr ⟨o, h1.2.1, .inr ⟨ms, h1.2.2, loadData_error.2 (.inr ⟨⟨d, h2⟩, h3, h4⟩)⟩⟩⟩

/-! ### The summary and the metrics printed during training -/

theorem summary_ok {E : Env} {model : Data → Out (List Num)} {train : Data} {test : Option Data} {ms : List Metric}
    {ls : List Line} (h : summary E model train test ms = .ok ls) :
    ∃ p tp target, model train = .ok p ∧ testPreds model test = .ok tp ∧ Learner.target train = .ok target ∧
      ls = ms.map (line E target p tp) := by
  unfold summary at h
  obtain ⟨p, e1, h⟩ := Out.bind_eq_ok.1 h
  obtain ⟨tp, e2, h⟩ := Out.bind_eq_ok.1 h
  obtain ⟨t, e3, h⟩ := Out.bind_eq_ok.1 h
  cases h
  exact ⟨p, tp, t, e1, e2, e3, rfl⟩

theorem runBoost_ok {E : Env} {args : List (List Char)} {printed : List Printed} {k : ObjKind} {nbits : Nat}
    {lines : List Line} (h : main E ("boost".toList :: args) = .ok (.ok (.report printed k nbits lines))) :
    ∃ p b, parse E args = .ok (.ok p) ∧
      Booster.run E.F E.M p.config p.train (E.seed p.config.randomSeed) p.metrics p.objective = .ok b ∧
      printed = b.printed ∧ summary E (b.ensemble.predict E.F) p.train p.test p.metrics = .ok lines := by
  rw [main_boost, command_ok] at h
  obtain ⟨p, hp, h⟩ := h
  unfold runBoost boost at h
  obtain ⟨b, e1, h⟩ := Out.bind_eq_ok.1 h
  obtain ⟨ls, e2, h⟩ := Out.bind_eq_ok.1 h
  cases h
  exact ⟨p, b, hp, e1, rfl, e2⟩

theorem last_printed {F : FP} {M : Libm} {cfg : Config} {d : Data} {rng : Rng} {metrics : List Metric} {o : Objective}
    {n : Nat} {b : Booster} (hb : Boosting F M cfg d rng metrics o n b) (h0 : 0 < n) (hm : 0 < cfg.metricFrequency)
    (hdiv : cfg.metricFrequency ∣ n) :
    ∃ ts earlier, Learner.target d = .ok ts ∧
      b.printed = earlier ++ metrics.map fun m => ⟨n, m, m.eval F M ts b.objective.predictions⟩ := by
  obtain ⟨ts, states, h1, h2, h3, h4⟩ := C60_metrics _ _ _ _ _ _ _ n b hb
  obtain ⟨m, rfl⟩ : ∃ m, n = m + 1 := ⟨n - 1, by omega⟩
  rw [List.range'_concat, List.flatMap_append] at h4
  refine ⟨ts, _, h1, h4.trans (congrArg _ ?_)⟩
  have e : 1 + 1 * m = m + 1 := by omega
  simp only [List.flatMap_cons, List.flatMap_nil, List.append_nil]
  rw [e, h2]
  cases metrics with
  | nil => simp
  | cons a as => rw [if_pos ⟨by simp, hm, hdiv⟩]

/-- C64 from C41: the last metrics printed during training are those of the summary. -/
theorem summary_last {E : Env} {args : List (List Char)} {cfg : Config} {d : Data} {printed : List Printed}
    {k : ObjKind} {nbits : Nat} {lines : List Line}
    (h : main E ("boost".toList :: args) = .ok (.ok (.report printed k nbits lines)))
    (hc : Config.parse E.pf args = .ok cfg) (hd : Loads E cfg cfg.train d)
    (h0 : 0 < cfg.niterations) (hm : 0 < cfg.metricFrequency) (hdiv : cfg.metricFrequency ∣ cfg.niterations)
    (h41 : ∀ ms o b, Boosting E.F E.M cfg d (E.seed cfg.randomSeed) ms o cfg.niterations b →
      b.ensemble.predict E.F d = .ok b.objective.predictions) :
    ∃ earlier, printed = earlier ++ lines.map fun l => ⟨cfg.niterations, l.metric, l.train⟩ := by
  obtain ⟨p, b, hp, hb, rfl, hs⟩ := runBoost_ok h
  obtain ⟨⟨c1, _, _⟩, c2, _⟩ := parse_ok.1 hp
  rw [hc] at c1
  cases c1
  have hd' : p.train = d := by
    have h1 := loadCsv_ok.2 c2
    rw [loadCsv_ok.2 hd] at h1
    cases h1
    rfl
  subst hd'
  have hB := Booster.run_boosting hb
  obtain ⟨pr, tp, tg, e1, _, e3, rfl⟩ := summary_ok hs
  rw [h41 _ _ _ hB] at e1
  cases e1
  obtain ⟨ts, earlier, e4, e5⟩ := last_printed hB h0 hm hdiv
  rw [e3] at e4
  cases e4
  refine ⟨earlier, ?_⟩
  rw [e5, List.map_map]
  rfl

/-- C64: when the metrics are printed after the last iteration (their frequency divides the number of iterations), the
values of the summary for the training data are exactly the last ones printed during training, in the same order: the
model that is returned predicts what training has kept track of. For data with categorical features, any rounding. (The
hypotheses on the data and the settings are those of C41.) -/
theorem C64_summary_categorical (E : Env) (args : List (List Char)) (cfg : Config) (d : Data) (printed : List Printed)
    (k : ObjKind) (nbits : Nat) (lines : List Line)
    (h : main E ("boost".toList :: args) = .ok (.ok (.report printed k nbits lines)))
    (hc : Config.parse E.pf args = .ok cfg) (hd : Loads E cfg cfg.train d)
    (h0 : 0 < cfg.niterations) (hm : 0 < cfg.metricFrequency) (hdiv : cfg.metricFrequency ∣ cfg.niterations)
    (hn : d.nexamples ≤ 2 ^ 24) (hf : cfg.exampleFraction.le (.fin 1) = true) (hmin : 1 ≤ cfg.minExamplesLeaf)
    (hcard : ∀ c ∈ d.cols, c.card ≤ 2 ^ 24) (hnb : d.maxNbins ≤ 2 ^ 24)
    (hcat : ∀ f, f < d.nfeatures → f ∈ cfg.categoricalFeatures) :
    ∃ earlier, printed = earlier ++ lines.map fun l => ⟨cfg.niterations, l.metric, l.train⟩ := by
  refine summary_last h hc hd h0 hm hdiv fun ms o b hB => ?_
  obtain ⟨f, _, hl⟩ := hd
  refine C41_categorical _ _ _ _ _ _ _ _ b hB (fromCsv_rectangular hl).1 hn hf hmin hcard hnb ?_
  intro j c hj hcol
  obtain ⟨hlt, rfl⟩ := List.getElem?_eq_some_iff.1 hcol
  obtain ⟨g1, g2, g3⟩ := (C27_categories _ _ _ _ hl j hlt).1 (hcat j hj)
  refine ⟨?_, g1⟩
  rw [g3]
  split_ifs <;> simp

/-- The same in exact arithmetic, for any data without missing values. -/
theorem C64_summary_exact (E : Env) (args : List (List Char)) (cfg : Config) (d : Data) (printed : List Printed)
    (k : ObjKind) (nbits : Nat) (lines : List Line) (hF : E.F = .exact)
    (h : main E ("boost".toList :: args) = .ok (.ok (.report printed k nbits lines)))
    (hc : Config.parse E.pf args = .ok cfg) (hd : Loads E cfg cfg.train d)
    (h0 : 0 < cfg.niterations) (hm : 0 < cfg.metricFrequency) (hdiv : cfg.metricFrequency ∣ cfg.niterations)
    (hn : d.nexamples ≤ 2 ^ 24) (hf : cfg.exampleFraction.le (.fin 1) = true) (hmin : 1 ≤ cfg.minExamplesLeaf)
    (hcard : ∀ c ∈ d.cols, c.card ≤ 2 ^ 24) (hnb : d.maxNbins ≤ 2 ^ 24)
    (hnan : ∀ c ∈ d.cols, Num.nan ∉ c.values) :
    ∃ earlier, printed = earlier ++ lines.map fun l => ⟨cfg.niterations, l.metric, l.train⟩ := by
  refine summary_last h hc hd h0 hm hdiv fun ms o b hB => ?_
  rw [hF] at hB ⊢
  obtain ⟨f, _, hl⟩ := hd
  refine C41_exact_partial _ _ _ _ _ _ _ b hB (fromCsv_rectangular hl).1 hn hf hmin hcard hnb ?_
    fun j c _ hcol _ => hnan c (List.mem_of_getElem? hcol)
  intro j c hj hcol hty
  obtain ⟨hlt, rfl⟩ := List.getElem?_eq_some_iff.1 hcol
  by_cases hcat : j ∈ cfg.categoricalFeatures
  · exact ((C27_categories _ _ _ _ hl j hlt).1 hcat).1
  · exact absurd ((C27_categories _ _ _ _ hl j hlt).2 hcat) hty

/-- The same with the `f32` arithmetic of the code, when the numerical features are fixed-point columns or columns in
general position (see C41), without missing values. -/
theorem C64_summary_f32 (E : Env) (args : List (List Char)) (cfg : Config) (d : Data) (printed : List Printed)
    (k : ObjKind) (nbits : Nat) (lines : List Line) (hF : E.F = .binary32)
    (h : main E ("boost".toList :: args) = .ok (.ok (.report printed k nbits lines)))
    (hc : Config.parse E.pf args = .ok cfg) (hd : Loads E cfg cfg.train d)
    (h0 : 0 < cfg.niterations) (hm : 0 < cfg.metricFrequency) (hdiv : cfg.metricFrequency ∣ cfg.niterations)
    (hn : d.nexamples ≤ 2 ^ 24) (hf : cfg.exampleFraction.le (.fin 1) = true) (hmin : 1 ≤ cfg.minExamplesLeaf)
    (hcard : ∀ c ∈ d.cols, c.card ≤ 2 ^ 24) (hnb : d.maxNbins ≤ 2 ^ 24)
    (hfix : ∀ f c, f < d.nfeatures → d.cols[f]? = some c → c.ftype = .numerical →
      (FixedPoint c ∨ Separated c) ∧ Num.nan ∉ c.values) :
    ∃ earlier, printed = earlier ++ lines.map fun l => ⟨cfg.niterations, l.metric, l.train⟩ := by
  refine summary_last h hc hd h0 hm hdiv fun ms o b hB => ?_
  rw [hF] at hB ⊢
  obtain ⟨f, _, hl⟩ := hd
  refine C41_f32_partial _ _ _ _ _ _ _ b hB (fromCsv_rectangular hl).1 hn hf hmin hcard hnb ?_ hfix
  intro j c hj hcol hty
  obtain ⟨hlt, rfl⟩ := List.getElem?_eq_some_iff.1 hcol
  by_cases hcat : j ∈ cfg.categoricalFeatures
  · exact ((C27_categories _ _ _ _ hl j hlt).1 hcat).1
  · exact absurd ((C27_categories _ _ _ _ hl j hlt).2 hcat) hty

/-! ### Predictions, test data, safety -/

/-- C64: `boost_and_predict_raw` prints the predictions of the model `boost` reports on: the lines of the report are the
metrics of these predictions. -/
theorem C64_raw (E : Env) (args : List (List Char)) (printed : List Printed) (train : List Num)
    (test : Option (List Num)) (h : main E ("boost_and_predict_raw".toList :: args) = .ok (.ok (.raw printed train test))) :
    ∃ cfg o ms d t ts tt, Settings E args cfg o ms ∧ Loads E cfg cfg.train d ∧ TestData E cfg t ∧
      Learner.target d = .ok ts ∧ (∀ x, t = some x → Learner.target x = .ok tt) ∧
      main E ("boost".toList :: args) = .ok (.ok (.report printed o.kind cfg.discrNbits
        (ms.map fun m => ⟨m, m.eval E.F E.M ts train, test.map fun q => m.eval E.F E.M tt q⟩))) := by
  rw [main_raw, command_ok] at h
  obtain ⟨p, hp, h⟩ := h
  obtain ⟨g1, g2, g3⟩ := parse_ok.1 hp
  unfold runRaw boost at h
  obtain ⟨b, e1, h⟩ := Out.bind_eq_ok.1 h
  obtain ⟨tr, e2, h⟩ := Out.bind_eq_ok.1 h
  obtain ⟨te, e3, h⟩ := Out.bind_eq_ok.1 h
  simp only [Out.pure_eq, Out.ok.injEq, Output.raw.injEq] at h
  obtain ⟨rfl, rfl, rfl⟩ := h
  have htgt : ∀ {x : Data}, Rectangular x → ∃ t, Learner.target x = .ok t := by
    intro x hx
    unfold Learner.target
    have hlt : x.nfeatures < x.cols.length := by rw [hx.1]; omega
    exact ⟨x.cols[x.nfeatures].values, by rw [at?_ok.2 (List.getElem?_eq_getElem hlt)]; rfl⟩
  obtain ⟨ts, hts⟩ := htgt (loads_rectangular g2)
  cases ht : p.test with
  | none =>
    rw [ht] at e3 g3
    cases e3
    refine ⟨p.config, p.objective, p.metrics, p.train, none, ts, [], g1, g2, g3, hts, (by intro x hx; cases hx), ?_⟩
    rw [main_boost, command_ok]
    refine ⟨p, hp, ?_⟩
    unfold runBoost boost summary
    rw [e1, Out.ok_bind, e2, Out.ok_bind, ht]
    unfold testPreds
    rw [Out.ok_bind, hts]
    rfl
  | some x =>
    rw [ht] at e3 g3
    simp only at e3
    obtain ⟨q, e4, e3⟩ := Out.bind_eq_ok.1 e3
    cases e3
    obtain ⟨tt, htt⟩ := htgt (loads_rectangular g3.2)
    refine ⟨p.config, p.objective, p.metrics, p.train, some x, ts, tt, g1, g2, g3, hts,
      (by intro y hy; cases hy; exact htt), ?_⟩
    rw [main_boost, command_ok]
    refine ⟨p, hp, ?_⟩
    unfold runBoost boost summary
    rw [e1, Out.ok_bind, e2, Out.ok_bind, ht]
    simp only [testPreds]
    rw [e4, Out.ok_bind, htt, Out.ok_bind, Out.pure_eq, Out.ok_bind, hts]
    rfl

/-- C64: once the model is trained, a program whose test file has as many columns as the training file (at least two)
ends with a report; the predictions never fail. -/
theorem C64_completes (E : Env) (args : List (List Char)) (cfg : Config) (o : Objective) (ms : List Metric) (d : Data)
    (t : Option Data) (b : Booster) (hs : Settings E args cfg o ms) (hd : Loads E cfg cfg.train d)
    (ht : TestData E cfg t) (hnf : 0 < d.nfeatures) (hcols : ∀ x, t = some x → x.nfeatures = d.nfeatures)
    (hb : Booster.run E.F E.M cfg d (E.seed cfg.randomSeed) ms o = .ok b) :
    ∃ ts p lines, Learner.target d = .ok ts ∧ b.ensemble.predict E.F d = .ok p ∧
      main E ("boost".toList :: args) = .ok (.ok (.report b.printed o.kind cfg.discrNbits lines)) ∧
      lines.map Line.metric = ms ∧ lines.map Line.train = ms.map (fun m => m.eval E.F E.M ts p) ∧
      (t = none → ∀ l ∈ lines, l.test = none) ∧
      (∀ x, t = some x → ∃ ts' p', Learner.target x = .ok ts' ∧ b.ensemble.predict E.F x = .ok p' ∧
        lines.map Line.test = ms.map fun m => some (m.eval E.F E.M ts' p')) := by
  have hp : parse E args = .ok (.ok ⟨cfg, d, t, o, ms⟩) := parse_ok.2 ⟨hs, hd, ht⟩
  have hw := Booster.boosting_well hnf (Booster.run_boosting hb)
  have htgt : ∀ {x : Data}, Rectangular x → ∃ t, Learner.target x = .ok t := by
    intro x hx
    unfold Learner.target
    have hlt : x.nfeatures < x.cols.length := by rw [hx.1]; omega
    exact ⟨x.cols[x.nfeatures].values, by rw [at?_ok.2 (List.getElem?_eq_getElem hlt)]; rfl⟩
  obtain ⟨ts, hts⟩ := htgt (loads_rectangular hd)
  obtain ⟨p, hpr, _⟩ := AdditiveTree.predict_well E.F hw (loads_rectangular hd) rfl
  have fin : ∀ tp, testPreds (b.ensemble.predict E.F) t = .ok tp →
      main E ("boost".toList :: args) = .ok (.ok (.report b.printed o.kind cfg.discrNbits (ms.map (line E ts p tp)))) := by
    intro tp htp
    rw [main_boost, command_ok]
    refine ⟨_, hp, ?_⟩
    unfold runBoost boost summary
    simp only
    rw [hb, Out.ok_bind, hpr, Out.ok_bind, htp, Out.ok_bind, hts]
    rfl
  have l1 : ∀ tp, (ms.map (line E ts p tp)).map Line.metric = ms := by
    intro tp
    rw [List.map_map]
    exact List.map_id' _
  have l2 : ∀ tp, (ms.map (line E ts p tp)).map Line.train = ms.map (fun m => m.eval E.F E.M ts p) := by
    intro tp
    rw [List.map_map]
    rfl
  cases t with
  | none =>
    refine ⟨ts, p, _, hts, hpr, fin none rfl, l1 _, l2 _, ?_, (by intro x hx; cases hx)⟩
    intro _ l hl
    obtain ⟨m, _, rfl⟩ := List.mem_map.1 hl
    rfl
  | some x =>
    have hr := loads_rectangular ht.2
    obtain ⟨p', hp', _⟩ := AdditiveTree.predict_well E.F hw hr (hcols x rfl)
    obtain ⟨ts', hts'⟩ := htgt hr
    refine ⟨ts, p, _, hts, hpr, fin (some (ts', p')) ?_, l1 _, l2 _, (by intro h; cases h), ?_⟩
    · simp only [testPreds]
      rw [hp', Out.ok_bind, hts']
      rfl
    · intro y hy
      cases hy
      refine ⟨ts', p', hts', hp', ?_⟩
      rw [List.map_map]
      rfl

/-- C64: the test file has no influence on training: two runs that differ only in the content of the test file print the
same metrics during training and the same values for the training data. -/
theorem C64_test_file (E : Env) (args : List (List Char)) (cfg : Config)
    (file' : List Char → Nat → Bool → Option File) (hc : Config.parse E.pf args = .ok cfg)
    (hfile : ∀ path, path ≠ cfg.test → E.file path = file' path) (hne : cfg.train ≠ cfg.test)
    (printed printed' : List Printed) (k k' : ObjKind) (nbits nbits' : Nat) (lines lines' : List Line)
    (h : main E ("boost".toList :: args) = .ok (.ok (.report printed k nbits lines)))
    (h' : main { E with file := file' } ("boost".toList :: args) = .ok (.ok (.report printed' k' nbits' lines'))) :
    printed = printed' ∧ lines.map (fun l => (l.metric, l.train)) = lines'.map fun l => (l.metric, l.train) := by
  obtain ⟨p, b, hp, hb, rfl, hs⟩ := runBoost_ok h
  obtain ⟨p', b', hp', hb', rfl, hs'⟩ := runBoost_ok h'
  obtain ⟨⟨c1, c2, c3⟩, c4, _⟩ := parse_ok.1 hp
  obtain ⟨⟨c1', c2', c3'⟩, c4', _⟩ := parse_ok.1 hp'
  rw [hc] at c1
  have hc' : Config.parse ({ E with file := file' } : Env).pf args = .ok cfg := hc
  rw [hc'] at c1'
  have e1 : p.config = cfg := (Except.ok.inj c1).symm
  have e2 : p'.config = cfg := (Except.ok.inj c1').symm
  rw [e1] at c2 c3 c4 hb
  rw [e2] at c2' c3' c4' hb'
  have e3 : p.objective = p'.objective := by rw [c2] at c2'; exact Option.some.inj c2'
  have e4 : p.metrics = p'.metrics := by rw [c3] at c3'; exact Option.some.inj c3'
  have e5 : p.train = p'.train := by
    obtain ⟨f, f1, f2⟩ := c4
    obtain ⟨g, g1, g2⟩ := c4'
    simp only at g1
    rw [← hfile _ hne, f1] at g1
    cases g1
    rw [f2] at g2
    exact Except.ok.inj (Out.ok.inj g2)
  have hb2 : Booster.run E.F E.M cfg p'.train (E.seed cfg.randomSeed) p'.metrics p'.objective = .ok b' := hb'
  rw [e3, e4, e5, hb2] at hb
  cases hb
  obtain ⟨q, tp, tg, q1, _, q3, rfl⟩ := summary_ok hs
  obtain ⟨q', tp', tg', q1', _, q3', rfl⟩ := summary_ok hs'
  have q1'' : b.ensemble.predict E.F p'.train = .ok q' := q1'
  rw [e5, q1''] at q1
  cases q1
  rw [e5, q3'] at q3
  cases q3
  refine ⟨rfl, ?_⟩
  rw [e4, List.map_map, List.map_map]
  rfl

/-- C64: whatever its arguments and files, the program makes no raw access out of bounds, when the training file has
less than 2^32 - 256 records: it ends with a report, an error or a panic. -/
theorem C64_safe (E : Env) (args : List (List Char))
    (hsize : ∀ path dl hh f, E.file path dl hh = some f → f.items.length ≤ 2 ^ 32 - 256) : (main E args).safe := by
  have hcsv : ∀ (items : List Data.CsvItem) (header : Option (List String)) (cfg : Config),
      (Data.fromCsv cfg items header).safe := by
    intro items header cfg
    unfold Data.fromCsv
    split
    · trivial
    · refine safe_bind ?_ ?_
      · unfold Data.csvNames
        repeat' split
        all_goals trivial
      · intro r _
        split
        · trivial
        · split <;> trivial
  have hload : ∀ (cfg : Config) (path : List Char), (loadCsv E cfg path).safe := by
    intro cfg path
    unfold loadCsv
    split
    · trivial
    · rename_i f _
      have := hcsv f.items f.header cfg
      split <;> first | trivial | (rename_i hh; rw [hh] at this; exact this)
  have hparse : (parse E args.tail).safe := by
    unfold parse
    repeat' split
    all_goals try trivial
    refine safe_bind ?_ ?_
    · unfold loadData
      refine safe_bind (hload _ _) fun r _ => safe_bind ?_ fun r2 _ => ?_
      · split
        · trivial
        · exact safe_bind (hload _ _) fun _ _ => trivial
      · split <;> trivial
    · intro r _
      split <;> trivial
  have hboost : ∀ p, parse E args.tail = .ok (.ok p) → (boost E p).safe := by
    intro p hp
    obtain ⟨_, ⟨f, f1, f2⟩, _⟩ := parse_ok.1 hp
    obtain ⟨r1, r2⟩ := fromCsv_rectangular f2
    unfold boost
    exact Booster.run_safe r1 (by rw [r2]; exact hsize _ _ _ _ f1) _ _ _ _
  have htgt : ∀ d : Data, (Learner.target d).safe := by
    intro d
    unfold Learner.target
    refine safe_bind ?_ fun _ _ => trivial
    unfold at?
    split <;> trivial
  have hsum : ∀ (model : Data → Out (List Num)) (d : Data) (t : Option Data) (ms : List Metric),
      (∀ x, (model x).safe) → (summary E model d t ms).safe := by
    intro model d t ms hmod
    unfold summary
    refine safe_bind (hmod d) fun _ _ => safe_bind ?_ fun _ _ => safe_bind (htgt _) fun _ _ => trivial
    cases t with
    | none => trivial
    | some x => exact safe_bind (hmod x) fun _ _ => safe_bind (htgt _) fun _ _ => trivial
  have hens : ∀ (e : AdditiveTree) (x : Data), (e.predict E.F x).safe := fun e x =>
    AdditiveTree.predictBuf_safe E.F e x _
  have hcmd : ∀ k : Parsed → Out Output, (∀ p, parse E args.tail = .ok (.ok p) → (k p).safe) →
      (command E args.tail k).safe := by
    intro k hk
    unfold command
    refine safe_bind hparse fun r hr => ?_
    cases r with
    | error e => trivial
    | ok p => exact safe_bind (hk p hr) fun _ _ => trivial
  cases args with
  | nil => trivial
  | cons cmd args =>
    simp only [List.tail_cons] at *
    simp only [main]
    split
    · refine hcmd _ fun p hp => ?_
      unfold runTree
      have : (singleTree E p.config p.train p.objective).safe := by
        obtain ⟨_, ⟨f, f1, f2⟩, _⟩ := parse_ok.1 hp
        obtain ⟨r1, r2⟩ := fromCsv_rectangular f2
        have hn : p.train.nexamples ≤ 2 ^ 32 - 256 := by rw [r2]; exact hsize _ _ _ _ f1
        unfold singleTree
        refine safe_bind (Learner.target_safe _) fun ts hts => safe_bind (Objective.init_safe _ _ _ _ _) fun o1 _ =>
          safe_bind (Objective.update_safe _ _ _ _) fun o ho => safe_bind (Dataset.new_safe _ _ _ _) fun ds0 h0 =>
          safe_bind (Dataset.update_safe _ _ _ _ _) fun ds hds' => safe_bind ?_ fun _ _ => trivial
        have hu : Updated E.F p.config p.train _ 1 ds := .update (.new h0) hds'
        unfold Booster.learnTree
        refine safe_bind (Learner.train_safe hu.masksOk ?_ ?_ _ _) fun r _ => ?_
        · rw [Booster.gradients_length ho, Booster.target_length r1 hts]; exact hn
        · exact (Booster.indexBuffer_length hu).trans hn
        · split <;> trivial
      exact safe_bind this fun t _ => safe_bind (hsum _ _ _ _ (fun x => Tree.predictAnd_safe _ _ _ _ _)) fun _ _ => trivial
    · split
      · refine hcmd _ fun p hp => ?_
        unfold runBoost
        exact safe_bind (hboost p hp) fun b _ => safe_bind (hsum _ _ _ _ (hens _)) fun _ _ => trivial
      · split
        · refine hcmd _ fun p hp => ?_
          unfold runRaw
          refine safe_bind (hboost p hp) fun b _ => safe_bind (hens _ _) fun _ _ => safe_bind ?_ fun _ _ => trivial
          cases p.test with
          | none => trivial
          | some x => exact safe_bind (hens _ _) fun _ _ => trivial
        · trivial

/-! ## Examples -/

private def cliFile : File :=
  ⟨[.record [some (.fin 0), some (.fin 1), some (.fin 1)], .record [some (.fin 0), some (.fin 0), some (.fin 2)],
    .record [some (.fin 1), some (.fin 1), some (.fin 4)], .record [some (.fin 2), some (.fin 0), some (.fin 8)]],
   some ["a", "b", "y"]⟩

private def exTest : File :=
  ⟨[.record [some (.fin 2), some (.fin 1), some (.fin 7)], .record [some (.fin 0), some (.fin 0), some (.fin 3)]],
   some ["a", "b", "y"]⟩

private def exEnv : Env where
  F := .binary32
  M := ⟨fun _ => .fin 1, fun _ => .fin 0, fun x => x⟩
  pf := fun _ => some (.fin (1 / 2))
  seed := fun _ => ⟨fun i => i⟩
  file := fun path _ _ => if path = "train.csv".toList then some cliFile else if path = "test.csv".toList then some exTest else none

private def exArgs (n : String) : List (List Char) :=
  ["train=train.csv".toList, "test = test.csv".toList, "categorical_features=0,1".toList, "learning_rate=0.5".toList,
   "metrics=l2,rmse".toList, "max_tree_depth=2".toList, ("niterations=" ++ n).toList]

private def reportOf (r : Out (Except Cli.Err Output)) : Option (List Printed × List Line) :=
  match r with
  | .ok (.ok (.report pr _ _ ls)) => some (pr, ls)
  | _ => none

private theorem report_some {r : Out (Except Cli.Err Output)} {pr : List Printed} {ls : List Line}
    (h : reportOf r = some (pr, ls)) : ∃ k n, r = .ok (.ok (.report pr k n ls)) := by
  unfold reportOf at h
  split at h
  · cases h; exact ⟨_, _, rfl⟩
  · cases h

/-- C64: a run with two iterations, learning rate 1/2, two metrics and a test file: what is printed during training and
in the end. -/
private theorem ex_boost : reportOf (main exEnv ("boost".toList :: exArgs "2")) = some
    ([⟨1, .l2, .fin (115 / 64)⟩, ⟨1, .rmse, .fin (115 / 64)⟩, ⟨2, .l2, .fin (115 / 256)⟩, ⟨2, .rmse, .fin (115 / 256)⟩],
     [⟨.l2, .fin (115 / 256), some (.fin (41 / 256))⟩, ⟨.rmse, .fin (115 / 256), some (.fin (41 / 256))⟩]) := by
  decide +kernel

/-- C64: the single tree, and boosting with one iteration. -/
example : reportOf (main exEnv ("tree".toList :: exArgs "1")) = some ([],
     [⟨.l2, .fin (115 / 64), some (.fin (41 / 64))⟩, ⟨.rmse, .fin (115 / 64), some (.fin (41 / 64))⟩]) ∧
    (reportOf (main exEnv ("boost".toList :: exArgs "1"))).map Prod.snd = some
     [⟨.l2, .fin (115 / 64), some (.fin (41 / 64))⟩, ⟨.rmse, .fin (115 / 64), some (.fin (41 / 64))⟩] := by
  decide +kernel

private def cliCfg : Config :=
  match Config.parse exEnv.pf (exArgs "2") with
  | .ok c => c
  | .error _ => Config.new

private theorem cliCfg_ok : Config.parse exEnv.pf (exArgs "2") = .ok cliCfg := by
  have h : (match Config.parse exEnv.pf (exArgs "2") with | .ok _ => true | .error _ => false) = true := by
    decide +kernel
  unfold cliCfg
  generalize Config.parse exEnv.pf (exArgs "2") = r at *
  cases r with
  | ok c => rfl
  | error e => cases h

private def cliData : Data :=
  match Data.fromCsv cliCfg cliFile.items cliFile.header with
  | .ok (.ok d) => d
  | _ => ⟨0, [], 0, 0, []⟩

/-- C64: all the hypotheses of `C64_summary_categorical` hold for this run. -/
example : ∃ printed k nbits lines,
    main exEnv ("boost".toList :: exArgs "2") = .ok (.ok (.report printed k nbits lines)) ∧ lines ≠ [] ∧
    Config.parse exEnv.pf (exArgs "2") = .ok cliCfg ∧ Loads exEnv cliCfg cliCfg.train cliData ∧
    0 < cliCfg.niterations ∧ 0 < cliCfg.metricFrequency ∧ cliCfg.metricFrequency ∣ cliCfg.niterations ∧
    cliData.nexamples = 4 ∧ cliCfg.exampleFraction.le (.fin 1) = true ∧ 1 ≤ cliCfg.minExamplesLeaf ∧
    (∀ c ∈ cliData.cols, c.card ≤ 2 ^ 24) ∧ cliData.maxNbins ≤ 2 ^ 24 ∧
    (∀ f, f < cliData.nfeatures → f ∈ cliCfg.categoricalFeatures) ∧
    (∃ earlier, earlier ≠ [] ∧ printed = earlier ++ lines.map fun l => ⟨cliCfg.niterations, l.metric, l.train⟩) := by
  obtain ⟨k, n, h⟩ := report_some ex_boost
  have htr : cliCfg.train = "train.csv".toList := by decide +kernel
  have hfile : exEnv.file cliCfg.train cliCfg.csvDelimiter cliCfg.csvHasHeader = some cliFile := by
    rw [htr]
    rfl
  have hd : Data.fromCsv cliCfg cliFile.items cliFile.header = .ok (.ok cliData) := by decide +kernel
  refine ⟨_, k, n, _, h, by simp, cliCfg_ok, ⟨cliFile, hfile, hd⟩, by decide +kernel, by decide +kernel,
    by decide +kernel, by decide +kernel, by decide +kernel, by decide +kernel, by decide +kernel, by decide +kernel,
    by decide +kernel, [⟨1, .l2, .fin (115 / 64)⟩, ⟨1, .rmse, .fin (115 / 64)⟩], by simp, by decide +kernel⟩

/-- C64: command lines that are rejected. -/
example : main exEnv ["trees".toList] = .ok (.error .usage) ∧
    main exEnv ["boost".toList, "objective=l3".toList] = .ok (.error .objective) ∧
    main exEnv ["tree".toList, "niterations=-1".toList] = .ok (.error (.config .badValue)) ∧
    main exEnv ["tree".toList, "train=none.csv".toList] = .ok (.error .file) := by
  refine ⟨?_, ?_, ?_, ?_⟩ <;> rw [C64_errors]
  · exact .command (by simp [Known])
  · exact .objective (by simp [Known]) (cfg := { Config.new with objective := "l3".toList }) (by rfl) (by decide)
  · exact .config (by simp [Known]) (by rfl)
  · exact .train (by simp [Known]) ⟨rfl, rfl, rfl⟩ (.inl ⟨by rfl, rfl⟩) (.inl ⟨none, rfl⟩)

end BitBoost.Props
