import Verif.Props.Python
import Verif.Props.SquaredSingle
import Verif.Props.ProgressLoad
import Verif.Model.Text
/-!
# C65, C69: `fit` of the scikit-learn estimator makes a model
-/
namespace BitBoost.Props
open BitBoost Spec CApi Python

private theorem toU32_pos {v : Num} (h : IsCategory v) (h0 : v ≠ .fin 0) : 0 < v.toU32 := by
  rcases h with rfl | ⟨n, rfl⟩
  · simp [Num.toU32, Num.cast]
  · have hn : n ≠ 0 := by rintro rfl; exact h0 (by simp)
    simp only [Num.toU32, Num.cast]
    rw [show ((n : ℕ) : ℚ) = ((n : ℤ) : ℚ) by push_cast; rfl, Num.trunc_int]
    omega

/-- A table in the library that training can work with. -/
theorem valid_of_table {cfg : Config} {X : Matrix} {y : Vector} {cats : List Int} {d : Data}
    (ht : Table cfg.maxNbins X.cols (fun j => (j : Int) ∈ cats) y.vals d) (hX : Accepted X) (hy : TargetFor X y)
    (hrows : X.nrows ≤ 2 ^ 24) (hcols : X.cols.length ≤ 2 ^ 24) (hbins : 1 ≤ cfg.maxNbins)
    (hsample : ∀ q : ℚ, cfg.exampleFraction = .fin q → 1 ≤ (X.nrows : ℚ) * q)
    (hcat : ∀ (j : Nat) v, X.cols[j]? = some v → (j : Int) ∈ cats → ∀ x ∈ v, IsCategory x)
    (hroom : ∃ (j : Nat) (v : List Num), X.cols[j]? = some v ∧ ((j : Int) ∉ cats ∨ ∃ x ∈ v, x ≠ .fin 0)) :
    ValidData cfg d ∧ Learner.target d = .ok y.vals := by
  obtain ⟨x1, x2, x3, x4, x5⟩ := hX
  obtain ⟨y1, y2, y3⟩ := hy
  obtain ⟨s1, s2, s3⟩ := ht.shape
  have hlen : d.cols.length = X.cols.length + 1 := by
    have := congrArg List.length ht.values
    simpa using this
  have hval : ∀ (j : Nat) (c : Column), d.cols[j]? = some c → j < X.cols.length → X.cols[j]? = some c.values := by
    intro j c hc hj
    have := congrArg (·[j]?) ht.values
    simp only [List.getElem?_map, hc, Option.map_some] at this
    rw [List.getElem?_append_left hj] at this
    exact this.symm
  have htv : ∀ c, d.cols[X.cols.length]? = some c → c.values = y.vals := by
    intro c hc
    have := congrArg (·[X.cols.length]?) ht.values
    simp only [List.getElem?_map, hc, Option.map_some] at this
    rw [List.getElem?_append_right (le_refl _)] at this
    simpa using this
  have hl : ∀ c ∈ d.cols, c.values.length = d.nexamples := by
    intro c hc
    obtain ⟨j, hj, rfl⟩ := List.mem_iff_getElem.1 hc
    rcases Nat.lt_or_ge j X.cols.length with h | h
    · have h1 := hval j _ (List.getElem?_eq_getElem hj) h
      rw [X.rect _ (List.mem_of_getElem? h1), s2, y2]
    · obtain rfl : j = X.cols.length := by omega
      rw [htv _ (List.getElem?_eq_getElem hj), s2]
  refine ⟨⟨⟨by rw [hlen, s1], hl⟩, by rw [s2, y2]; exact hrows, by rw [s1]; exact hcols, ?_, by rw [s3], ?_, ?_, ?_⟩, ?_⟩
  · intro q hq; rw [s2, y2]; exact hsample q hq
  · obtain ⟨j, v, hv, hor⟩ := hroom
    have hj : j < X.cols.length := (List.getElem?_eq_some_iff.1 hv).1
    have hjd : j < d.cols.length := by omega
    refine ⟨j, d.cols[j], by rw [s1]; exact hj, List.getElem?_eq_getElem hjd, ?_⟩
    have hcv := hval j _ (List.getElem?_eq_getElem hjd) hj
    rw [hv, Option.some.injEq] at hcv
    unfold Data.colMaxNbins
    by_cases hin : (j : Int) ∈ cats
    · obtain ⟨x, hx, hx0⟩ := hor.resolve_left (not_not.2 hin)
      obtain ⟨c1, c2⟩ := ht.categorical j _ hj hin (List.getElem?_eq_getElem hjd)
      have h1 := c1.1 x (by rw [← hcv]; exact hx)
      have h2 := toU32_pos (hcat j v hv hin x hx) hx0
      rw [c2]
      by_cases hgt : d.cols[j].card > cfg.maxNbins
      · rw [if_pos hgt]; simp only; omega
      · rw [if_neg hgt]; simp only; split_ifs <;> omega
    · rw [(ht.numerical j _ (.inr hin) (List.getElem?_eq_getElem hjd)).2]
      simp only; omega
  · intro f c hu hc hn
    have hf : f < X.cols.length := by rw [← s1]; exact hu.1
    have hfin : ∀ v ∈ Num.fin 0 :: c.values, ∃ x, v = .fin x := by
      intro v hv
      rcases List.mem_cons.1 hv with rfl | hv
      · exact ⟨0, rfl⟩
      · exact x5 c.values (List.mem_of_getElem? (hval f c hc hf)) v hv
    obtain ⟨b1, b2⟩ := ht.limits c (List.mem_of_getElem? hc)
    obtain ⟨m1, m2⟩ := b2 ⟨.fin 0, by simp, by simp⟩
    obtain ⟨l, hl⟩ := hfin _ m1
    obtain ⟨h, hh⟩ := hfin _ m2
    have := (b1 c.hi m2 (by rw [hh]; simp)).1
    rw [hl, hh, Num.fin_le_fin] at this
    exact ⟨l, h, hl, hh, this⟩
  · intro f c hu hc hn v hv
    have hf : f < X.cols.length := by rw [← s1]; exact hu.1
    by_cases hin : (f : Int) ∈ cats
    · exact (ht.categorical f c hf hin hc).1.1 v hv
    · rw [(ht.numerical f c (.inr hin) hc).2] at hn; cases hn
  · unfold Learner.target
    have hjd : X.cols.length < d.cols.length := by omega
    rw [s1, at?_lt hjd, Out.ok_bind, Out.pure_eq, htv _ (List.getElem?_eq_getElem hjd)]

/-- **C65, C69**, `f32` arithmetic: `fit` with the log loss and parameters that mean valid settings, on a matrix and the labels
0 and 1 (both occur), always makes a model, with as many trees as iterations were asked for - whatever the estimator was used for
before; `predict` then returns a number for each row of any matrix with as many columns. -/
theorem C69_sklearn_binary_f32 (E : Env) (hF : E.F = .binary32) (hexp : ExpLike E.M) (hln : LnLike E.M)
    (e : Est) (he : Estimator E e) (ps : Params) (X : Matrix) (y : Vector) (cats : List Int)
    (hX : Accepted X) (hy : TargetFor X y) (hs : ∀ n ∈ paramNames, ∃ t, Sends n (ps n) t) (hc : Categories ps cats)
    (hcat : ∀ (j : Nat) v, X.cols[j]? = some v → (j : Int) ∈ cats → ∀ x ∈ v, IsCategory x)
    (hroom : ∃ (j : Nat) (v : List Num), X.cols[j]? = some v ∧ ((j : Int) ∉ cats ∨ ∃ x ∈ v, x ≠ .fin 0))
    (hrows : X.nrows ≤ 2 ^ 24) (hcols : X.cols.length ≤ 2 ^ 24)
    (hcls : ∀ t ∈ y.vals, t = .fin 0 ∨ t = .fin 1) (h0 : Num.fin 0 ∈ y.vals) (h1 : Num.fin 1 ∈ y.vals)
    (hcfg : ∀ cfg, Effective E.pf ps cfg → ValidConfig cfg ∧ Objective.fromName cfg.objective = some (Objective.new .binary) ∧
      (∃ ms, Metric.fromNames cfg.metrics = some ms) ∧ cfg.niterations < 2 ^ 24 ∧
      (∀ q : ℚ, cfg.exampleFraction = .fin q → 1 ≤ (X.nrows : ℚ) * q) ∧
      ∃ q : ℚ, cfg.binaryGradientBound = .fin q ∧ 0 < q) :
    ∃ e' cfg model, fit E e ps X y = .ok (e', .ok ()) ∧ Effective E.pf ps cfg ∧ Fitted E e' X.cols.length (some model) ∧
      model.trees.length = cfg.niterations ∧
      ∀ X', Accepted X' → X'.f32 = true → X'.cols.length = X.cols.length →
        ∃ e'' out, predictEst E e' X' = .ok (e'', .ok out) ∧ out.length = X'.nrows := by
  obtain ⟨e', cfg, d, hfit, heff, htab, hor⟩ := C65_fit E e he ps X y cats hX hy hs hc hcat
  obtain ⟨k1, k2, ⟨ms, k3⟩, k4, k5, q, k6, k7⟩ := hcfg cfg heff
  obtain ⟨hd, htgt⟩ := valid_of_table htab hX hy hrows hcols k1.bins.1 k5 hcat hroom
  obtain ⟨b, hb, hbl⟩ := C69_binary_f32 E.M cfg d (E.seed cfg.randomSeed) ms k1 hd y.vals htgt hcls h0 h1 hexp hln
    (fun _ => ⟨q, k6, k7⟩) k4
  rw [← hF] at hb
  rcases hor with ⟨o, ms', b', p1, p2, p3, p4⟩ | ⟨hno, _⟩
  · rw [k2] at p1; cases p1
    rw [k3] at p2; cases p2
    rw [hb] at p3; cases p3
    refine ⟨e', cfg, b.ensemble, hfit, heff, p4, hbl, fun X' hX' hf hn => ?_⟩
    obtain ⟨e'', out, g1, g2, _⟩ := C65_predict E e' _ _ p4 X' hX' hf hn
    exact ⟨e'', out, g1, g2⟩
  · exact absurd ⟨_, ms, b, k2, k3, hb⟩ hno

/-- **C65, C69**, `f32` arithmetic: `fit` with squared error, without sampling of rows, on a matrix without features that have
more categories than bins and targets of size at most `2^a`, always makes a model with as many trees as iterations were asked for, when
`(rows + 4) * iterations ≤ m * 2^21` with `a + m ≤ 89`. -/
theorem C69_sklearn_l2_f32 (E : Env) (hF : E.F = .binary32)
    (e : Est) (he : Estimator E e) (ps : Params) (X : Matrix) (y : Vector) (cats : List Int)
    (hX : Accepted X) (hy : TargetFor X y) (hs : ∀ n ∈ paramNames, ∃ t, Sends n (ps n) t) (hc : Categories ps cats)
    (hcat : ∀ (j : Nat) v, X.cols[j]? = some v → (j : Int) ∈ cats → ∀ x ∈ v, IsCategory x)
    (hroom : ∃ (j : Nat) (v : List Num), X.cols[j]? = some v ∧ ((j : Int) ∉ cats ∨ ∃ x ∈ v, x ≠ .fin 0))
    (hrows : X.nrows ≤ 2 ^ 20) (hcols : X.cols.length ≤ 2 ^ 24) (a m : ℕ) (ham : a + m ≤ 89)
    (htgt : ∀ t ∈ y.vals, SizeLe (2 ^ a) t)
    (hcfg : ∀ cfg, Effective E.pf ps cfg → ValidConfig cfg ∧ Objective.fromName cfg.objective = some (Objective.new .l2) ∧
      (∃ ms, Metric.fromNames cfg.metrics = some ms) ∧ (X.nrows + 4) * cfg.niterations ≤ m * 2 ^ 21 ∧
      cfg.exampleFraction = .fin 1 ∧ (∃ r : ℚ, cfg.learningRate = .fin r ∧ 0 ≤ r) ∧
      ∀ (j : Nat) v, X.cols[j]? = some v → (j : Int) ∈ cats → ∀ x ∈ v, x.toU32 < cfg.maxNbins) :
    ∃ e' cfg model, fit E e ps X y = .ok (e', .ok ()) ∧ Effective E.pf ps cfg ∧ Fitted E e' X.cols.length (some model) ∧
      model.trees.length = cfg.niterations ∧
      ∀ X', Accepted X' → X'.f32 = true → X'.cols.length = X.cols.length →
        ∃ e'' out, predictEst E e' X' = .ok (e'', .ok out) ∧ out.length = X'.nrows := by
  obtain ⟨e', cfg, d, hfit, heff, htab, hor⟩ := C65_fit E e he ps X y cats hX hy hs hc hcat
  obtain ⟨k1, k2, ⟨ms, k3⟩, k4, k5, ⟨r, k6, k7⟩, k8⟩ := hcfg cfg heff
  obtain ⟨hd, htg⟩ := valid_of_table htab hX hy (by omega) hcols k1.bins.1 (by
    intro q hq
    rw [k5] at hq
    cases hq
    have : (1 : ℚ) ≤ X.nrows := by exact_mod_cast hX.1
    linarith) hcat hroom
  have hne : d.nexamples = X.nrows := by rw [htab.shape.2.1, hy.2.1]
  have hh : ¬ HasHicard d := by
    rintro ⟨f, c, hu, hcf, hft⟩
    have hf : f < X.cols.length := by rw [← htab.shape.1]; exact hu.1
    by_cases hin : (f : Int) ∈ cats
    · obtain ⟨c1, c2⟩ := htab.categorical f c hf hin hcf
      rw [c2] at hft
      split at hft
      · rename_i hgt
        have hv : X.cols[f]? = some c.values := by
          have := congrArg (·[f]?) htab.values
          simp only [List.getElem?_map, hcf, Option.map_some] at this
          rw [List.getElem?_append_left hf] at this
          exact this.symm
        have hne' : c.values ≠ [] := by
          intro h0
          have := X.rect _ (List.mem_of_getElem? hv)
          rw [h0] at this
          have := hX.1
          simp at *; omega
        obtain ⟨x, hx, hcard⟩ := c1.2 hne'
        have := k8 f _ hv hin x hx
        omega
      · cases hft
    · rw [(htab.numerical f c (.inr hin) hcf).2] at hft; cases hft
  obtain ⟨b, hb, hbl, _⟩ := C69_l2_full_f32 E.M cfg d (E.seed cfg.randomSeed) ms k1 hd (by omega) k5 r k6 k7 y.vals htg a m htgt hh
    (by rw [hne]; exact k4) ham
  rw [← hF] at hb
  rcases hor with ⟨o, ms', b', p1, p2, p3, p4⟩ | ⟨hno, _⟩
  · rw [k2] at p1; cases p1
    rw [k3] at p2; cases p2
    rw [hb] at p3; cases p3
    refine ⟨e', cfg, b.ensemble, hfit, heff, p4, hbl, fun X' hX' hf hn => ?_⟩
    obtain ⟨e'', out, g1, g2, _⟩ := C65_predict E e' _ _ p4 X' hX' hf hn
    exact ⟨e'', out, g1, g2⟩
  · exact absurd ⟨_, ms, b, k2, k3, hb⟩ hno

/-! ### An example -/

/-- **C65**: the parameters determine the configuration. -/
theorem C65_configuration (pf : List Char → Option Num) (ps : Params) (a b : Config) (ha : Effective pf ps a)
    (hb : Effective pf ps b) : a = b := by
  have hsend : ∀ (n : String) (v : Val) (t t' : List Char), Sends n v t → Sends n v t' → t = t' := by
    rintro n v t t' ⟨s, rfl, h⟩ ⟨s', rfl, h'⟩
    have : s = s' := by
      rcases h with ⟨h1, h⟩ | ⟨h1, rfl⟩
      · rcases h' with ⟨h2, h'⟩ | ⟨h2, _⟩
        · rcases h with rfl | ⟨items, r, rfl, rfl⟩
          · rcases h' with h' | ⟨_, _, h', _⟩
            · cases h'; rfl
            · cases h'
          · rcases h' with h' | ⟨_, _, h', rfl⟩
            · cases h'
            · cases h'; rfl
        · exact absurd h1 h2
      · rcases h' with ⟨h2, _⟩ | ⟨_, rfl⟩
        · exact absurd h2 h1
        · rfl
    rw [this]
  have key : ∀ f : ConfigField, f.get a = f.get b := by
    intro f
    obtain ⟨a1, a2⟩ := ha f
    obtain ⟨b1, b2⟩ := hb f
    by_cases hk : f.key ∈ paramNames
    · obtain ⟨t, s1, x1, x2⟩ := a1 hk
      obtain ⟨t', s2, y1, y2⟩ := b1 hk
      cases hsend _ _ _ _ s1 s2
      by_cases hv : ∃ v, IsText pf f t v
      · obtain ⟨v, hv⟩ := hv
        rw [x1 v hv, y1 v hv]
      · rw [x2 hv, y2 hv]
    · rw [a2 hk, b2 hk]
  cases a
  cases b
  rw [Config.mk.injEq]
  have h1 := key .train
  have h2 := key .test
  have h3 := key .objective
  have h4 := key .metrics
  have h5 := key .metricFrequency
  have h6 := key .csvHasHeader
  have h7 := key .csvDelimiter
  have h8 := key .categoricalFeatures
  have h9 := key .niterations
  have h10 := key .learningRate
  have h11 := key .regLambda
  have h12 := key .minExamplesLeaf
  have h13 := key .minGain
  have h14 := key .huberAlpha
  have h15 := key .maxNbins
  have h16 := key .discrNbits
  have h17 := key .maxTreeDepth
  have h18 := key .compressionThreshold
  have h19 := key .binaryGradientBound
  have h20 := key .randomSeed
  have h21 := key .featureFraction
  have h22 := key .exampleFraction
  have h23 := key .sampleFreq
  simp only [ConfigField.get, Value.text.injEq, Value.texts.injEq, Value.nat.injEq, Value.nats.injEq, Value.bool.injEq,
    Value.num.injEq] at h1 h2 h3 h4 h5 h6 h7 h8 h9 h10 h11 h12 h13 h14 h15 h16 h17 h18 h19 h20 h21 h22 h23
  exact ⟨h1, h2, h3, h4, h5, h6, h7, h8, h9, h10, h11, h12, h13, h14, h15, h16, h17, h18, h19, h20, h21, h22, h23⟩

private def foldCfg (pf : List Char → Option Num) : Config → List (String × List Char) → Config
  | c, [] => c
  | c, (n, t) :: rest =>
      match Config.parseRecord pf c n t with
      | .ok c1 => foldCfg pf c1 rest
      | .error _ => foldCfg pf c rest

private theorem foldCfg_configured (E : Env) (ps : Params) (txt : String → List Char) : ∀ (names : List String) (c : Config),
    (∀ n ∈ names, Sends n (ps n) (txt n)) →
    Configured E c (names.map fun n => (n, ps n)) (foldCfg E.pf c (names.map fun n => (n, txt n)))
  | [], c, _ => .nil
  | n :: names, c, h => by
      simp only [List.map_cons, foldCfg]
      split
      · rename_i c1 hc
        exact .set (h n (by simp)) hc (foldCfg_configured E ps txt names c1 (fun m hm => h m (by simp [hm])))
      · rename_i err hc
        exact .drop (h n (by simp)) hc (foldCfg_configured E ps txt names c (fun m hm => h m (by simp [hm])))

private def skEnv (M : Libm) : Env := ⟨.binary32, M, Text.parseF32 .binary32, fun _ => ⟨fun i => i⟩⟩

private def skText (n : String) : List Char :=
  if n = "objective" then "binary".toList
  else if n = "niterations" then "20".toList
  else if n = "max_tree_depth" then "3".toList
  else if n = "learning_rate" then "0.5".toList
  else if n = "example_fraction" then "0.75".toList
  else if n = "categorical_features" then "0".toList
  else []

private def skParams : Params := fun n =>
  if n = "metrics" then .seq [] "[]".toList
  else if n = "categorical_features" then .seq [⟨"0".toList, some 0⟩] "[0]".toList
  else .scalar (skText n)

private def skX : Matrix :=
  ⟨true, 4, [[.fin 0, .fin 2, .fin 1, .fin 1], [.fin 3, .fin (1 / 2), .fin 7, .fin 9]], by decide⟩
private def skY : Vector := ⟨true, [.fin 1, .fin 0, .fin 0, .fin 1]⟩

private theorem sk_sends : ∀ n ∈ paramNames, Sends n (skParams n) (skText n) := by
  intro n hn
  by_cases h1 : n = "metrics"
  · subst h1
    exact ⟨_, rfl, .inl ⟨by decide, .inr ⟨[], "[]".toList, rfl, rfl⟩⟩⟩
  · by_cases h2 : n = "categorical_features"
    · subst h2
      exact ⟨"0".toList, by decide, .inl ⟨by decide, .inr ⟨[⟨"0".toList, some 0⟩], "[0]".toList, rfl, rfl⟩⟩⟩
    · refine ⟨skText n, ?_, .inr ⟨by simp [h1, h2], ?_⟩⟩
      · revert n
        decide
      · unfold skParams
        rw [if_neg h1, if_neg h2]
        rfl

private theorem sk_config (M : Libm) (cfg : Config) (h : Effective (skEnv M).pf skParams cfg) :
    cfg = { Config.new with objective := "binary".toList, niterations := 20, maxTreeDepth := 3, learningRate := .fin (1 / 2),
                            exampleFraction := .fin (3 / 4), categoricalFeatures := [0], metrics := [] } := by
  have h2 := configured_effective (foldCfg_configured (skEnv M) skParams skText paramNames Config.new sk_sends)
  rw [C65_configuration _ _ _ _ h h2]
  show foldCfg (Text.parseF32 .binary32) _ _ = _
  decide +kernel

/-- A new estimator with 20 iterations of the log loss on four rows, one categorical and one numerical column: `fit` makes a model
with 20 trees. -/
example (M : Libm) (hexp : ExpLike M) (hln : LnLike M) :
    ∃ e' model, fit (skEnv M) ⟨[], none, false⟩ skParams skX skY = .ok (e', .ok ()) ∧
      Fitted (skEnv M) e' 2 (some model) ∧ model.trees.length = 20 := by
  have hX : Accepted skX := by
    refine ⟨by decide, by decide, by decide, by decide, fun c hc v hv => ?_⟩
    simp only [skX, List.mem_cons, List.not_mem_nil, or_false] at hc
    rcases hc with rfl | rfl <;> simp only [List.mem_cons, List.not_mem_nil, or_false] at hv <;>
      rcases hv with rfl | rfl | rfl | rfl <;> exact ⟨_, rfl⟩
  have hy : TargetFor skX skY := by
    refine ⟨rfl, rfl, fun v hv => ?_⟩
    simp only [skY, List.mem_cons, List.not_mem_nil, or_false] at hv
    rcases hv with rfl | rfl | rfl | rfl <;> exact ⟨_, rfl⟩
  have hcat : ∀ (j : Nat) v, skX.cols[j]? = some v → (j : Int) ∈ ([0] : List Int) → ∀ x ∈ v, IsCategory x := by
    intro j v hv hj x hx
    obtain rfl : j = 0 := by simpa using hj
    cases hv
    simp only [List.mem_cons, List.not_mem_nil, or_false] at hx
    rcases hx with rfl | rfl | rfl | rfl
    · exact .inr ⟨0, by norm_num⟩
    · exact .inr ⟨2, by norm_num⟩
    · exact .inr ⟨1, by norm_num⟩
    · exact .inr ⟨1, by norm_num⟩
  have hcfg : ∀ cfg, Effective (skEnv M).pf skParams cfg → ValidConfig cfg ∧
      Objective.fromName cfg.objective = some (Objective.new .binary) ∧
      (∃ ms, Metric.fromNames cfg.metrics = some ms) ∧ cfg.niterations < 2 ^ 24 ∧
      (∀ q : ℚ, cfg.exampleFraction = .fin q → 1 ≤ (skX.nrows : ℚ) * q) ∧
      ∃ q : ℚ, cfg.binaryGradientBound = .fin q ∧ 0 < q := by
    intro cfg hcfg
    rw [sk_config M cfg hcfg]
    refine ⟨⟨by decide, by decide, by decide, by decide, ⟨1, rfl, by norm_num, by norm_num⟩,
      ⟨3 / 4, rfl, by norm_num, by norm_num⟩, ⟨_, rfl, by decide +kernel⟩⟩, by decide +kernel, ⟨[], by decide⟩, by decide, ?_,
      ⟨_, rfl, by decide +kernel⟩⟩
    intro q hq
    cases hq
    norm_num [skX]
  obtain ⟨e', cfg, model, h1, h2, h3, h4, _⟩ := C69_sklearn_binary_f32 (skEnv M) rfl hexp hln ⟨[], none, false⟩ (.new .start)
    skParams skX skY [0] hX hy (fun n hn => ⟨_, sk_sends n hn⟩) ⟨_, _, rfl, rfl⟩ hcat ⟨1, _, rfl, .inl (by decide)⟩
    (by decide) (by decide) (by decide) (by decide) (by decide) hcfg
  rw [sk_config M cfg h2] at h4
  exact ⟨e', model, h1, h3, h4⟩

end BitBoost.Props
