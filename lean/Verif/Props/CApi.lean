import Verif.Lemmas.CApi
import Verif.Props.Boost
import Verif.Props.Data
/-!
# The C interface

`Session E w`: a C program that follows the rules (`Allowed`: its pointers are null or live contexts, its strings are
strings, its buffers hold as many floats as there are examples) can bring the library to the state `w`.
-/
namespace BitBoost.Props
open BitBoost Spec CApi

/-! ## C62: memory safety of training and prediction -/

/-- C62: training, with any configuration, data, objective, metrics and random numbers, makes no raw access out of
bounds: it ends with a model or a panic. (Rectangular: what `Data` offers, C27 and C28.) -/
theorem C62_training (F : FP) (M : Libm) (cfg : Config) (d : Data) (rng : Rng) (metrics : List Metric) (o : Objective)
    (hd : Rectangular d) (hn : d.nexamples ≤ 2 ^ 32 - 256) :
    (Booster.run F M cfg d rng metrics o).safe := Booster.run_safe hd hn cfg rng metrics o

/-- C62: prediction, with any trees and any data, makes no raw access out of bounds. -/
theorem C62_prediction (F : FP) (e : AdditiveTree) (d : Data) (buf : List Num) : (e.predictBuf F d buf).safe :=
  AdditiveTree.predictBuf_safe F e d buf

/-! ## C53: the state machine -/

section
variable {E : Env} {w w' : World} {p q : Ptr} {c : Ctx} {d : Data} {r : Ret}

/-- C53: every allowed call, in every state a program can reach, returns. -/
theorem C53_total (E : Env) (w : World) (call : Call) (hs : Session E w) (ha : Allowed w call) :
    ∃ w' r, step E w call = .ok (w', r) := by
  obtain ⟨w', r, h, _⟩ := body_ok (session_ok hs) ha
  exact ⟨w', r, h⟩

/-- C53: calls with a null pointer report an error and change nothing. -/
theorem C53_null (E : Env) (w : World) (call : Call) (h : call.ptr = some .null) :
    step E w call = .ok (w, .code (-1)) := by
  cases call <;> simp only [Call.ptr, reduceCtorEq, Option.some.injEq] at h <;> subst h <;>
    simp [step, wrap, dealloc, refreshData, setFeatureData, setConfigField, train, predict, withCtx]

/-- C53: `bb_alloc` gives a new context without data and model and with the default configuration. -/
theorem C53_alloc (E : Env) (w : World) (n : Int) :
    (0 < n → ∃ w' p, step E w (.alloc n) = .ok (w', .ptr p) ∧ p ≠ .null ∧ (¬ ∃ c, Live w p c) ∧
      Live w' p { config := Config.new, nfeatures := n.toNat, data := none, model := none }) ∧
    (n ≤ 0 → step E w (.alloc n) = .ok (w, .ptr .null)) := by
  constructor
  · intro h
    refine ⟨_, .ctx w.length, by rw [show step E w (.alloc n) = wrap (.ptr .null) (alloc w n) from rfl]; unfold alloc; rw [if_pos h]; rfl, by simp, ?_, ?_⟩
    · rintro ⟨c, hc⟩
      rw [live_iff] at hc
      simp at hc
    · rw [live_iff]
      simp
  · intro h
    rw [show step E w (.alloc n) = wrap (.ptr .null) (alloc w n) from rfl]
    unfold alloc
    rw [if_neg (by omega)]
    rfl

/-- C53: `bb_dealloc` ends the life of the context. -/
theorem C53_dealloc (E : Env) (w : World) (p : Ptr) (c : Ctx) (hl : Live w p c) :
    ∃ w', step E w (.dealloc p) = .ok (w', .code 0) ∧ ¬ ∃ c, Live w' p c := by
  obtain ⟨i, rfl, hi, e⟩ := withCtx_live hl (fun i _ => (w.set i none, .ok (.code 0)))
  refine ⟨w.set i none, by rw [show step E w (.dealloc (.ctx i)) = wrap (.code (-1)) (dealloc w (.ctx i)) from rfl]; unfold dealloc; rw [e]; rfl, ?_⟩
  rintro ⟨c', hc⟩
  rw [live_iff, List.getElem?_set_self (List.getElem?_eq_some_iff.1 hi).1] at hc
  cases hc

theorem live_set {i : Nat} (hi : w[i]? = some (some c)) (c' : Ctx) : Live (w.set i (some c')) (.ctx i) c' := by
  rw [live_iff, List.getElem?_set_self (List.getElem?_eq_some_iff.1 hi).1]

/-- C53: `bb_refresh_data` replaces the data by a table of zeros; it succeeds exactly for a positive number of
examples. -/
theorem C53_refresh (E : Env) (w : World) (p : Ptr) (c : Ctx) (n : Int) (hl : Live w p c) :
    (0 < n → ∃ w' d, step E w (.refreshData p n) = .ok (w', .code 0) ∧ Live w' p { c with data := some d } ∧
      d.nexamples = n.toNat ∧ d.nfeatures = c.nfeatures ∧ d.maxNbins = c.config.maxNbins ∧
      d.cols.map Column.values = List.replicate (c.nfeatures + 1) (List.replicate n.toNat (.fin 0))) ∧
    (n ≤ 0 → step E w (.refreshData p n) = .ok (w, .code (-1))) := by
  constructor
  · intro h
    obtain ⟨i, rfl, hi, e⟩ := withCtx_live hl (fun i c =>
      (w.set i (some { c with data := some (Data.empty c.config c.nfeatures n.toNat) }), .ok (.code 0)))
    refine ⟨_, Data.empty c.config c.nfeatures n.toNat, by rw [show step E w (.refreshData (.ctx i) n) = wrap (.code (-1)) (refreshData w (.ctx i) n) from rfl]; unfold refreshData; rw [if_pos h, e]; rfl,
      live_set hi _, rfl, rfl, rfl, ?_⟩
    simp [Data.empty]
  · intro h
    rw [show step E w (.refreshData p n) = wrap (.code (-1)) (refreshData w p n) from rfl]
    unfold refreshData
    rw [if_neg (by omega)]
    rfl

/-- C53: `bb_set_feature_data` without data loaded, or for a column that does not exist, reports an error and changes
nothing. Otherwise it succeeds exactly if the column is not categorical or all its values are categories; then the
column has the new values. In any case the other columns, the configuration and the model stay as they are. -/
theorem C53_set_feature (E : Env) (w : World) (p : Ptr) (c : Ctx) (feat : Int) (column : List Num) (categorical : Int)
    (hs : Session E w) (ha : Allowed w (.setFeatureData p feat column categorical)) (hl : Live w p c) :
    (c.data = none ∨ feat < 0 ∨ (c.nfeatures : Int) < feat →
      step E w (.setFeatureData p feat column categorical) = .ok (w, .code (-1))) ∧
    (∀ d, c.data = some d → 0 ≤ feat → feat ≤ (c.nfeatures : Int) → ∃ w' d' r,
      step E w (.setFeatureData p feat column categorical) = .ok (w', .code r) ∧
      Live w' p { c with data := some d' } ∧ OnlyColumn d d' feat.toNat ∧
      ((categorical = 0 ∨ ∀ v ∈ column.take d.nexamples, IsCategory v) →
        r = 0 ∧ ∃ col, d'.cols[feat.toNat]? = some col ∧ col.values = column.take d.nexamples) ∧
      (¬ (categorical = 0 ∨ ∀ v ∈ column.take d.nexamples, IsCategory v) → r = -1)) := by
  obtain ⟨i, rfl, hi, e⟩ := withCtx_live hl (fun i c =>
    if 0 ≤ feat ∧ feat.toNat ≤ c.nfeatures then
      match c.data with
      | none => (w, .panic)
      | some d =>
          if d.nexamples ≤ column.length then
            match Data.setFeatureData d feat.toNat (column.take d.nexamples) (decide (categorical ≠ 0)) with
            | .ok (d', true) => (w.set i (some { c with data := some d' }), .ok (.code 0))
            | .ok (d', false) => (w.set i (some { c with data := some d' }), .panic)
            | .panic => (w, .panic)
            | .ub => (w, .ub)
          else (w, .ub)
    else (w, .panic))
  have est : step E w (.setFeatureData (.ctx i) feat column categorical) = wrap (.code (-1))
      (setFeatureData w (.ctx i) feat column categorical) := rfl
  rw [est]
  have e' : setFeatureData w (.ctx i) feat column categorical = _ := e
  rw [e']
  have hok := session_ok hs i c hi
  constructor
  · intro h
    split
    · rename_i hf
      have hd : c.data = none := by
        rcases h with h | h | h
        · exact h
        · omega
        · omega
      rw [hd]
      rfl
    · rfl
  · intro d hd h1 h2
    rw [if_pos ⟨h1, by omega⟩, hd]
    simp only
    obtain ⟨r1, r2, _⟩ := hok.data d hd
    have hlen := ha.2.2.2 c d hl hd
    rw [if_pos hlen]
    obtain ⟨d', ed, ho, hr⟩ := Data.setFeatureData_facts r1 (feat := feat.toNat) (by rw [r2]; omega)
      (data := column.take d.nexamples) (by simp [hlen]) (decide (categorical ≠ 0))
    have hiff : (decide (categorical ≠ 0) = true → ∀ v ∈ column.take d.nexamples, Data.checkCategorical v = true) ↔
        (categorical = 0 ∨ ∀ v ∈ column.take d.nexamples, IsCategory v) := by
      simp only [Data.checkCategorical_iff, decide_eq_true_eq]
      by_cases h0 : categorical = 0 <;> simp [h0]
    by_cases hc : categorical = 0 ∨ ∀ v ∈ column.take d.nexamples, IsCategory v
    · rw [decide_eq_true (hiff.2 hc)] at ed
      rw [ed]
      refine ⟨_, d', 0, rfl, live_set hi _, ho, fun _ => ⟨rfl, (C28_values _ _ _ _ _ ed).1⟩, fun h => absurd hc h⟩
    · rw [decide_eq_false (fun h => hc (hiff.1 h))] at ed
      rw [ed]
      exact ⟨_, d', -1, rfl, live_set hi _, ho, fun h => absurd h hc, fun _ => rfl⟩

/-- C53: `bb_set_config_field` succeeds exactly if no data is loaded, the strings are UTF-8, and the record is accepted
(C52); the other settings are kept, as are the data and the model. A call that fails changes nothing. -/
theorem C53_set_config (E : Env) (w : World) (p : Ptr) (c : Ctx) (name value : CStr)
    (ha : Allowed w (.setConfigField p name value)) (hl : Live w p c) :
    (∃ n v cfg, c.data = none ∧ name = .text n ∧ value = .text v ∧
      Config.parseRecord E.pf c.config (String.ofList n) v = .ok cfg ∧
      ∃ w', step E w (.setConfigField p name value) = .ok (w', .code 0) ∧ Live w' p { c with config := cfg }) ∨
    ((¬ ∃ n v cfg, c.data = none ∧ name = .text n ∧ value = .text v ∧
      Config.parseRecord E.pf c.config (String.ofList n) v = .ok cfg) ∧
      step E w (.setConfigField p name value) = .ok (w, .code (-1))) := by
  obtain ⟨i, rfl, hi⟩ := hl
  rw [show step E w (.setConfigField (.ctx i) name value) = wrap (.code (-1)) (setConfigField E w (.ctx i) name value) from rfl]
  unfold setConfigField
  rw [withCtx_eq hi]
  cases hd : c.data with
  | some d => exact .inr ⟨(by rintro ⟨_, _, _, h, _⟩; cases h), rfl⟩
  | none =>
    cases name with
    | invalid => exact absurd rfl ha.2.1
    | notUtf8 => exact .inr ⟨(by rintro ⟨_, _, _, _, h, _⟩; cases h), rfl⟩
    | text n =>
      cases value with
      | invalid => exact absurd rfl ha.2.2
      | notUtf8 => exact .inr ⟨(by rintro ⟨_, _, _, _, _, h, _⟩; cases h), rfl⟩
      | text v =>
        simp only
        cases hp : Config.parseRecord E.pf c.config (String.ofList n) v with
        | ok cfg =>
          refine .inl ⟨n, v, cfg, trivial, rfl, rfl, hp, _, rfl, ?_⟩
          rw [← hd]
          exact live_set hi { c with config := cfg }
        | error err =>
          refine .inr ⟨?_, rfl⟩
          rintro ⟨n', v', cfg, _, h1, h2, h3⟩
          cases h1
          cases h2
          rw [hp] at h3
          cases h3

/-- C53: `bb_train` succeeds exactly if data is loaded, the objective and the metrics are known and training ends; then
the model is the one trained with the present data and configuration (nothing else matters, neither an earlier model
nor earlier data). A call that fails changes nothing: an earlier model stays. -/
theorem C53_train (E : Env) (w : World) (p : Ptr) (c : Ctx) (hs : Session E w) (hl : Live w p c) :
    (∃ d o ms b, c.data = some d ∧ Objective.fromName c.config.objective = some o ∧
      Metric.fromNames c.config.metrics = some ms ∧
      Booster.run E.F E.M c.config d (E.seed c.config.randomSeed) ms o = .ok b ∧
      ∃ w', step E w (.train p) = .ok (w', .code 0) ∧ Live w' p { c with model := some b.ensemble }) ∨
    ((¬ ∃ d o ms b, c.data = some d ∧ Objective.fromName c.config.objective = some o ∧
      Metric.fromNames c.config.metrics = some ms ∧
      Booster.run E.F E.M c.config d (E.seed c.config.randomSeed) ms o = .ok b) ∧
      step E w (.train p) = .ok (w, .code (-1))) := by
  obtain ⟨i, rfl, hi⟩ := hl
  rw [show step E w (.train (.ctx i)) = wrap (.code (-1)) (train E w (.ctx i)) from rfl]
  unfold train
  rw [withCtx_eq hi]
  have hok := session_ok hs i c hi
  cases hd : c.data with
  | none => exact .inr ⟨(by rintro ⟨_, _, _, _, h, _⟩; cases h), rfl⟩
  | some d =>
    obtain ⟨r1, r2, r3, r4, _⟩ := hok.data d hd
    cases ho : Objective.fromName c.config.objective with
    | none => exact .inr ⟨(by rintro ⟨_, _, _, _, _, h, _⟩; cases h), rfl⟩
    | some o =>
      cases hm : Metric.fromNames c.config.metrics with
      | none => exact .inr ⟨(by rintro ⟨_, _, _, _, _, _, h, _⟩; cases h), rfl⟩
      | some ms =>
        simp only
        have hsafe := Booster.run_safe (F := E.F) (M := E.M) r1 (by omega) c.config (E.seed c.config.randomSeed) ms o
        cases hb : Booster.run E.F E.M c.config d (E.seed c.config.randomSeed) ms o with
        | ub => rw [hb] at hsafe; exact hsafe.elim
        | panic =>
          refine .inr ⟨?_, rfl⟩
          rintro ⟨d', o', ms', b, h1, h2, h3, h4⟩
          cases h1
          cases h2
          cases h3
          rw [hb] at h4
          cases h4
        | ok b =>
          refine .inl ⟨d, o, ms, b, rfl, rfl, rfl, hb, _, rfl, ?_⟩
          rw [← hd]
          exact live_set hi { c with model := some b.ensemble }

/-- C53: `bb_predict` succeeds exactly if data is loaded and a model has been trained, whatever data was loaded since
then; it writes one prediction for each example, those of the ensemble for the present data (C39), and changes nothing.
Otherwise it reports an error. -/
theorem C53_predict (E : Env) (w : World) (p : Ptr) (c : Ctx) (capacity : Nat) (hs : Session E w)
    (ha : Allowed w (.predict p capacity)) (hl : Live w p c) :
    (∀ d m, c.data = some d → c.model = some m → ∃ out, m.predict E.F d = .ok out ∧ out.length = d.nexamples ∧
      step E w (.predict p capacity) = .ok (w, .filled 0 out)) ∧
    (c.data = none ∨ c.model = none → step E w (.predict p capacity) = .ok (w, .code (-1))) := by
  have hl' := hl
  obtain ⟨i, rfl, hi⟩ := hl
  rw [show step E w (.predict (.ctx i) capacity) = wrap (.code (-1)) (predict E w (.ctx i) capacity) from rfl]
  unfold predict
  rw [withCtx_eq hi]
  have hok := session_ok hs i c hi
  constructor
  · intro d m hd hm
    obtain ⟨r1, r2, _⟩ := hok.data d hd
    obtain ⟨out, h1, h2⟩ := AdditiveTree.predict_well E.F (hok.well hm) r1 r2
    refine ⟨out, h1, h2, ?_⟩
    rw [hd, hm]
    simp only
    rw [if_pos (ha.2 c d hl' hd)]
    unfold AdditiveTree.predict at h1
    rw [h1]
    rfl
  · rintro (h | h)
    · rw [h]; rfl
    · rw [h]
      cases c.data <;> rfl

/-- C53: the data of a context has the number of features given to `bb_alloc`, at least one example, and the limit on
bins of the configuration; a model has been trained with the present configuration on data with that number of
features. So nothing a program does afterwards makes the two disagree. -/
theorem C53_consistent (E : Env) (w : World) (p : Ptr) (c : Ctx) (hs : Session E w) (hl : Live w p c) :
    0 < c.nfeatures ∧
    (∀ d, c.data = some d → Rectangular d ∧ d.nfeatures = c.nfeatures ∧ 0 < d.nexamples ∧
      d.maxNbins = c.config.maxNbins) ∧
    (∀ m, c.model = some m → c.data ≠ none ∧ ∃ d ms o b, d.nfeatures = c.nfeatures ∧
      Objective.fromName c.config.objective = some o ∧ Metric.fromNames c.config.metrics = some ms ∧
      Booster.run E.F E.M c.config d (E.seed c.config.randomSeed) ms o = .ok b ∧ m = b.ensemble) := by
  obtain ⟨i, rfl, hi⟩ := hl
  have hok := session_ok hs i c hi
  refine ⟨hok.nf, fun d hd => ?_, fun m hm => ?_⟩
  · obtain ⟨h1, h2, h3, _, h5⟩ := hok.data d hd
    exact ⟨h1, h2, h3, h5⟩
  · obtain ⟨⟨d, hd⟩, h⟩ := hok.model m hm
    exact ⟨by rw [hd]; simp, h⟩

theorem withCtx_other {k : Nat → Ctx → Body} {i : Nat}
    (hk : ∀ i c, (k i c).1 = w ∨ ∃ x, (k i c).1 = w.set i x) (hq : Ptr.ctx i ≠ p) :
    (withCtx w p k).1[i]? = w[i]? := by
  unfold withCtx
  cases p with
  | null => rfl
  | ctx j =>
    simp only
    split
    · rename_i c _
      rcases hk j c with h | ⟨x, h⟩
      · rw [h]
      · rw [h, List.getElem?_set_ne]
        intro hji
        exact hq (by rw [hji])
    · rfl

theorem wrap_fst {b : Body} {r0 : Ret} (h : wrap r0 b = .ok (w', r)) : b.1 = w' := by
  unfold wrap at h
  split at h <;> cases h <;> rfl

/-- C53: a call changes no context but the one it is given. -/
theorem C53_isolation (E : Env) (w w' : World) (call : Call) (r : Ret) (q : Ptr) (c : Ctx)
    (h : step E w call = .ok (w', r)) (hq : call.ptr ≠ some q) :
    (Live w q c → Live w' q c) ∧
    (Live w' q c → Live w q c ∨ ∃ n, call = .alloc n ∧ r = .ptr q ∧
      c = { config := Config.new, nfeatures := n.toNat, data := none, model := none }) := by
  cases q with
  | null => constructor <;> (rintro ⟨i, h1, _⟩; cases h1)
  | ctx i =>
    simp only [live_iff]
    have done : w'[i]? = w[i]? → (w[i]? = some (some c) → w'[i]? = some (some c)) ∧
        (w'[i]? = some (some c) → w[i]? = some (some c) ∨ ∃ n, call = .alloc n ∧ r = .ptr (.ctx i) ∧
          c = { config := Config.new, nfeatures := n.toNat, data := none, model := none }) := by
      intro e
      rw [e]
      exact ⟨id, Or.inl⟩
    cases call with
    | numtNbytes => cases h; exact done rfl
    | alloc n =>
      have hw := wrap_fst h
      unfold alloc at hw
      split at hw
      · rename_i hn
        simp only at hw
        have hr : r = .ptr (.ctx w.length) := by
          rw [show step E w (.alloc n) = wrap (.ptr .null) (alloc w n) from rfl] at h
          unfold alloc at h
          rw [if_pos hn] at h
          cases h
          rfl
        subst hw
        by_cases hi : i < w.length
        · apply done
          rw [List.getElem?_append_left hi]
        · constructor
          · intro h1
            exact absurd (List.getElem?_eq_some_iff.1 h1).1 hi
          · intro h1
            have h2 := (List.getElem?_eq_some_iff.1 h1).1
            simp at h2
            have : i = w.length := by omega
            subst this
            simp at h1
            exact .inr ⟨n, rfl, hr, h1.symm⟩
      · exact done (by rw [← hw])
    | dealloc p =>
      apply done
      rw [← wrap_fst h]
      exact withCtx_other (fun i c => .inr ⟨_, rfl⟩) (fun hp => hq (by rw [hp]; rfl))
    | refreshData p n =>
      apply done
      rw [← wrap_fst h]
      unfold refreshData
      split
      · exact withCtx_other (fun i c => .inr ⟨_, rfl⟩) (fun hp => hq (by rw [hp]; rfl))
      · rfl
    | setFeatureData p f col cat =>
      apply done
      rw [← wrap_fst h]
      refine withCtx_other (fun i c => ?_) (fun hp => hq (by rw [hp]; rfl))
      repeat' split
      all_goals first | exact .inl rfl | exact .inr ⟨_, rfl⟩
    | setConfigField p n v =>
      apply done
      rw [← wrap_fst h]
      refine withCtx_other (fun i c => ?_) (fun hp => hq (by rw [hp]; rfl))
      repeat' split
      all_goals first | exact .inl rfl | exact .inr ⟨_, rfl⟩
    | train p =>
      apply done
      rw [← wrap_fst h]
      refine withCtx_other (fun i c => ?_) (fun hp => hq (by rw [hp]; rfl))
      repeat' split
      all_goals first | exact .inl rfl | exact .inr ⟨_, rfl⟩
    | predict p cap =>
      apply done
      rw [← wrap_fst h]
      refine withCtx_other (fun i c => ?_) (fun hp => hq (by rw [hp]; rfl))
      repeat' split
      all_goals exact .inl rfl

/-- C53: an error leaves everything as it was, except for the column of a `bb_set_feature_data` with categorical values
that are not all categories. -/
theorem C53_errors (E : Env) (w w' : World) (call : Call) (r : Ret) (hs : Session E w) (ha : Allowed w call)
    (h : step E w call = .ok (w', r)) (hr : Failed r) :
    w' = w ∨ ∃ p feat column categorical c d d', call = .setFeatureData p feat column categorical ∧ Live w p c ∧
      c.data = some d ∧ categorical ≠ 0 ∧ (∃ v ∈ column.take d.nexamples, ¬ IsCategory v) ∧
      Live w' p { c with data := some d' } ∧ OnlyColumn d d' feat.toNat := by
  have hp0 : ∀ p, call.ptr = some p → PtrOk w p := by
    intro p hp
    cases call <;> simp only [Call.ptr, reduceCtorEq, Option.some.injEq] at hp <;> subst hp
    · exact ha
    · exact ha.1
    · exact ha.1
    · exact ha.1
    · exact ha
    · exact ha.1
  have hptr : ∀ p, call.ptr = some p → w' = w ∨ ∃ c, Live w p c := by
    intro p hp
    rcases hp0 p hp with rfl | hl
    · rw [C53_null E w call hp] at h
      cases h
      exact .inl rfl
    · exact .inr hl
  have hno : ¬ Failed (.code 0) := by rintro (h | h) <;> cases h
  cases call with
  | numtNbytes => cases h; exact .inl rfl
  | alloc n =>
    by_cases hn : 0 < n
    · obtain ⟨w1, p, e, hne, _⟩ := (C53_alloc E w n).1 hn
      rw [e] at h
      cases h
      rcases hr with hr | hr <;> cases hr
      exact absurd rfl hne
    · rw [(C53_alloc E w n).2 (by omega)] at h
      cases h
      exact .inl rfl
  | dealloc p =>
    rcases hptr p rfl with h1 | ⟨c, hl⟩
    · exact .inl h1
    · obtain ⟨w1, e, _⟩ := C53_dealloc E w p c hl
      rw [e] at h
      cases h
      exact absurd hr hno
  | refreshData p n =>
    rcases hptr p rfl with h1 | ⟨c, hl⟩
    · exact .inl h1
    · by_cases hn : 0 < n
      · obtain ⟨w1, d, e, _⟩ := (C53_refresh E w p c n hl).1 hn
        rw [e] at h
        cases h
        exact absurd hr hno
      · rw [(C53_refresh E w p c n hl).2 (by omega)] at h
        cases h
        exact .inl rfl
  | setFeatureData p f col cat =>
    rcases hptr p rfl with h1 | ⟨c, hl⟩
    · exact .inl h1
    · obtain ⟨k1, k2⟩ := C53_set_feature E w p c f col cat hs ha hl
      by_cases hbad : c.data = none ∨ f < 0 ∨ (c.nfeatures : Int) < f
      · rw [k1 hbad] at h
        cases h
        exact .inl rfl
      · have hd : ∃ d, c.data = some d := by
          cases hd : c.data with
          | none => exact absurd (.inl hd) hbad
          | some d => exact ⟨d, rfl⟩
        obtain ⟨d, hd⟩ := hd
        obtain ⟨w1, d', x, e, l1, l2, l3, l4⟩ := k2 d hd (by by_contra h0; exact hbad (.inr (.inl (by omega))))
          (by by_contra h0; exact hbad (.inr (.inr (by omega))))
        rw [e] at h
        cases h
        by_cases hc : cat = 0 ∨ ∀ v ∈ col.take d.nexamples, IsCategory v
        · rw [(l3 hc).1] at hr
          exact absurd hr hno
        · push Not at hc
          exact .inr ⟨p, f, col, cat, c, d, d', rfl, hl, hd, hc.1, hc.2, l1, l2⟩
  | setConfigField p n v =>
    rcases hptr p rfl with h1 | ⟨c, hl⟩
    · exact .inl h1
    · rcases C53_set_config E w p c n v ha hl with ⟨_, _, _, _, _, _, _, w1, e, _⟩ | ⟨_, e⟩
      · rw [e] at h
        cases h
        exact absurd hr hno
      · rw [e] at h
        cases h
        exact .inl rfl
  | train p =>
    rcases hptr p rfl with h1 | ⟨c, hl⟩
    · exact .inl h1
    · rcases C53_train E w p c hs hl with ⟨_, _, _, _, _, _, _, _, w1, e, _⟩ | ⟨_, e⟩
      · rw [e] at h
        cases h
        exact absurd hr hno
      · rw [e] at h
        cases h
        exact .inl rfl
  | predict p cap =>
    rcases hptr p rfl with h1 | ⟨c, hl⟩
    · exact .inl h1
    · obtain ⟨k1, k2⟩ := C53_predict E w p c cap hs ha hl
      cases hd : c.data with
      | none => rw [k2 (.inl hd)] at h; cases h; exact .inl rfl
      | some d =>
        cases hm : c.model with
        | none => rw [k2 (.inr hm)] at h; cases h; exact .inl rfl
        | some m =>
          obtain ⟨out, _, _, e⟩ := k1 d m hd hm
          rw [e] at h
          cases h
          exact .inl rfl

end

/-! ## Example -/

private def ptrOkB (w : World) : Ptr → Bool
  | .null => true
  | .ctx i => match w[i]? with | some (some _) => true | _ => false

private def roomB (w : World) (p : Ptr) (n : Nat) : Bool :=
  match p with
  | .null => true
  | .ctx i =>
      match w[i]? with
      | some (some c) => (match c.data with | some d => decide (d.nexamples ≤ n) | none => true)
      | _ => true

private def cIntB (x : Int) : Bool := decide (-2 ^ 31 ≤ x) && decide (x < 2 ^ 31)

private def textB : CStr → Bool
  | .invalid => false
  | _ => true

private def allowedB (w : World) : Call → Bool
  | .numtNbytes => true
  | .alloc n => cIntB n
  | .dealloc p => ptrOkB w p
  | .refreshData p n => ptrOkB w p && cIntB n
  | .setFeatureData p f col cat => ptrOkB w p && cIntB f && cIntB cat && roomB w p col.length
  | .setConfigField p n v => ptrOkB w p && textB n && textB v
  | .train p => ptrOkB w p
  | .predict p cap => ptrOkB w p && roomB w p cap

private theorem ptrOkB_ok {w : World} {p : Ptr} (h : ptrOkB w p = true) : PtrOk w p := by
  cases p with
  | null => exact .inl rfl
  | ctx i =>
    right
    unfold ptrOkB at h
    simp only at h
    split at h
    · rename_i c hc
      exact ⟨c, live_iff.2 hc⟩
    · cases h

private theorem roomB_ok {w : World} {p : Ptr} {n : Nat} (h : roomB w p n = true) (c : Ctx) (d : Data)
    (hl : Live w p c) (hd : c.data = some d) : d.nexamples ≤ n := by
  obtain ⟨i, rfl, hi⟩ := hl
  unfold roomB at h
  simp only [hi, hd] at h
  exact of_decide_eq_true h

private theorem cIntB_ok {x : Int} (h : cIntB x = true) : IsCInt x := by
  simpa [cIntB, IsCInt] using h

private theorem textB_ok {x : CStr} (h : textB x = true) : x ≠ .invalid := by rintro rfl; cases h

private theorem allowedB_ok {w : World} {c : Call} (h : allowedB w c = true) : Allowed w c := by
  cases c with
  | numtNbytes => trivial
  | alloc n => exact cIntB_ok h
  | dealloc p => exact ptrOkB_ok h
  | refreshData p n =>
    simp only [allowedB, Bool.and_eq_true] at h
    exact ⟨ptrOkB_ok h.1, cIntB_ok h.2⟩
  | setFeatureData p f col cat =>
    simp only [allowedB, Bool.and_eq_true] at h
    exact ⟨ptrOkB_ok h.1.1.1, cIntB_ok h.1.1.2, cIntB_ok h.1.2, roomB_ok h.2⟩
  | setConfigField p n v =>
    simp only [allowedB, Bool.and_eq_true] at h
    exact ⟨ptrOkB_ok h.1.1, textB_ok h.1.2, textB_ok h.2⟩
  | train p => exact ptrOkB_ok h
  | predict p cap =>
    simp only [allowedB, Bool.and_eq_true] at h
    exact ⟨ptrOkB_ok h.1, roomB_ok h.2⟩

private def program (E : Env) (w : World) : List Call → Option (World × List Ret)
  | [] => some (w, [])
  | c :: cs =>
      if allowedB w c then
        match step E w c with
        | .ok (w', r) => (program E w' cs).map fun x => (x.1, r :: x.2)
        | _ => none
      else none

private theorem program_session {E : Env} : ∀ {cs : List Call} {w w' : World} {rs : List Ret}, Session E w →
    program E w cs = some (w', rs) → Session E w' := by
  intro cs
  induction cs with
  | nil => intro w w' rs hs h; cases h; exact hs
  | cons c cs ih =>
    intro w w' rs hs h
    unfold program at h
    split at h
    · rename_i ha
      split at h
      · rename_i w1 r e
        cases hp : program E w1 cs with
        | none => rw [hp] at h; cases h
        | some x =>
          rw [hp] at h
          cases h
          exact ih (.call hs (allowedB_ok ha) e) hp
      · cases h
    · cases h

private def testEnv : Env :=
  ⟨.binary32, ⟨fun _ => .fin 1, fun _ => .fin 0, fun x => x⟩, fun _ => none, fun _ => ⟨fun i => i⟩⟩

private def testCalls : List Call :=
  [.numtNbytes, .alloc 0, .alloc 1, .alloc 2, .train (.ctx 0), .predict (.ctx 0) 0,
   .setConfigField (.ctx 0) (.text "niterations".toList) (.text "1".toList),
   .setConfigField (.ctx 0) (.text "niterations".toList) (.text "x".toList),
   .setConfigField (.ctx 0) (.text "max_tree_depth".toList) (.text "2".toList),
   .refreshData (.ctx 0) 4,
   .setConfigField (.ctx 0) (.text "niterations".toList) (.text "2".toList),
   .setFeatureData (.ctx 0) 0 [.fin 0, .fin 0, .fin (1 / 2), .fin 1] 1,
   .setFeatureData (.ctx 0) 0 [.fin 0, .fin 0, .fin 1, .fin 1] 1,
   .setFeatureData (.ctx 0) 1 [.fin 1, .fin 1, .fin 3, .fin 3] 0,
   .setFeatureData (.ctx 0) 2 [.fin 1, .fin 1, .fin 3, .fin 3] 0,
   .train (.ctx 0), .predict (.ctx 0) 4, .dealloc (.ctx 1), .refreshData (.ctx 0) 2,
   .setFeatureData (.ctx 0) 0 [.fin 1, .fin 0] 1, .predict (.ctx 0) 2]

/-- C53: a session with two contexts, errors of several kinds, a training run, and predictions for the training data
and for other data. -/
example : ∃ w, Session testEnv w ∧ (∃ c d m, Live w (.ctx 0) c ∧ c.data = some d ∧ c.model = some m) ∧
    program testEnv [] testCalls = some (w,
      [.code 4, .ptr .null, .ptr (.ctx 0), .ptr (.ctx 1), .code (-1), .code (-1), .code 0, .code (-1), .code 0, .code 0,
       .code (-1), .code (-1), .code 0, .code 0, .code (-1), .code 0,
       .filled 0 [.fin 1, .fin 1, .fin 3, .fin 3], .code 0, .code 0, .code 0, .filled 0 [.fin 3, .fin 1]]) := by
  have h : ((match program testEnv [] testCalls with
    | some (w, rs) =>
        decide (rs = [.code 4, .ptr .null, .ptr (.ctx 0), .ptr (.ctx 1), .code (-1), .code (-1), .code 0, .code (-1), .code 0,
          .code 0, .code (-1), .code (-1), .code 0, .code 0, .code (-1), .code 0,
          .filled 0 [.fin 1, .fin 1, .fin 3, .fin 3], .code 0, .code 0, .code 0, .filled 0 [.fin 3, .fin 1]]) &&
        (match w[0]? with
          | some (some c) => c.data.isSome && c.model.isSome
          | _ => false)
    | none => false) : Bool) = true := by decide +kernel
  cases e : program testEnv [] testCalls with
  | none => rw [e] at h; cases h
  | some x =>
    obtain ⟨w, rs⟩ := x
    rw [e] at h
    simp only [Bool.and_eq_true, decide_eq_true_eq] at h
    obtain ⟨h1, h2⟩ := h
    refine ⟨w, program_session .start e, ?_, by rw [h1]⟩
    split at h2
    · rename_i c hc
      simp only [Bool.and_eq_true, Option.isSome_iff_exists] at h2
      obtain ⟨⟨d, hd⟩, m, hm⟩ := h2
      exact ⟨c, d, m, live_iff.2 hc, hd, hm⟩
    · cases h2

end BitBoost.Props
