import Verif.Lemmas.Python
/-!
# C65, C66: the Python package

`Estimator E e`: the scikit-learn estimator `e` is the result of any calls of `fit` and `predict`, also failed ones, with
other uses of the library before and in between. `Object E s`: the same for a `RawBitBoost` object.
-/
namespace BitBoost.Props
open BitBoost Spec CApi Python

/-! ## The scikit-learn estimator -/

/-- C65: `fit` and `predict`, with any arguments and any parameters, return or raise an exception; there is no undefined
behaviour. -/
theorem C65_safe (E : Env) (e : Est) (he : Estimator E e) (ps : Params) (X : Matrix) (y : Vector) :
    (∃ e' r, fit E e ps X y = .ok (e', r)) ∧ ∃ e' r, predictEst E e X = .ok (e', r) := by
  obtain ⟨e1, r1, h1, _⟩ := fit_safe (estimator_inv he) ps X y
  obtain ⟨e2, r2, h2, _⟩ := predictEst_safe (estimator_inv he) X
  exact ⟨⟨e1, r1, h1⟩, e2, r2, h2⟩

/-- C65: `fit` with a matrix and a target, the categorical features as a container of column numbers, and categories in
these columns returns normally. The model is the one that training (C59, C60) gives for the parameters (those the library
does not understand are ignored) and the data, whatever the estimator was used for before. If training fails, `fit` also
returns normally, and there is no model. -/
theorem C65_fit (E : Env) (e : Est) (he : Estimator E e) (ps : Params) (X : Matrix) (y : Vector) (cats : List Int)
    (hX : Accepted X) (hy : TargetFor X y) (hs : ∀ n ∈ paramNames, ∃ t, Sends n (ps n) t) (hc : Categories ps cats)
    (hcat : ∀ (j : Nat) v, X.cols[j]? = some v → (j : Int) ∈ cats → ∀ x ∈ v, IsCategory x) :
    ∃ e' cfg d, fit E e ps X y = .ok (e', .ok ()) ∧ Effective E.pf ps cfg ∧
      Table cfg.maxNbins X.cols (fun j => (j : Int) ∈ cats) y.vals d ∧
      ((∃ o ms b, Objective.fromName cfg.objective = some o ∧ Metric.fromNames cfg.metrics = some ms ∧
          Booster.run E.F E.M cfg d (E.seed cfg.randomSeed) ms o = .ok b ∧
          Fitted E e' X.cols.length (some b.ensemble)) ∨
        ((¬ ∃ o ms b, Objective.fromName cfg.objective = some o ∧ Metric.fromNames cfg.metrics = some ms ∧
          Booster.run E.F E.M cfg d (E.seed cfg.randomSeed) ms o = .ok b) ∧ Fitted E e' X.cols.length none)) := by
  obtain ⟨x1, x2, x3, x4, x5⟩ := hX
  obtain ⟨y1, y2, y3⟩ := hy
  obtain ⟨w, x, e1, _, _, h3⟩ := fit_start (estimator_inv he) X.cols.length X.nrows
  have hcx : checkXy X y = true := checkXy_iff.2 ⟨x1, x3, x5, y3, y2⟩
  have hint : cInt X.cols.length = X.cols.length := cInt_eq (by omega) (by omega)
  obtain ⟨raw, rfl⟩ : ∃ raw, x = .ok raw := by
    unfold init at e1
    rw [if_pos x3, if_pos x1] at e1
    split at e1 <;> cases e1 <;> exact ⟨_, rfl⟩
  obtain ⟨k1, w', e2, hw, hl⟩ := h3 raw rfl
  rw [hint] at hl
  obtain ⟨i, hp, hi⟩ := hl (by omega)
  rw [Int.toNat_natCast] at hi
  obtain ⟨cfg, d, g1, g2, t, c', g3, g4, g5, g6, g7, g8⟩ := fitRaw_exact (E := E) (s := ⟨w', raw⟩) (ps := ps)
    (X := { X with f32 := true }) (y := y) hw hp hi rfl k1 rfl x4 x1 x2 y1 y2 hs hc hcat
  have hfit : fit E e ps X y = .ok ({ world := t.world, raw := some t.raw, fitted := true }, .ok ()) := by
    unfold fit
    rw [if_pos hcx, e1]
    simp only
    rw [e2]
    simp only
    rw [g3]
  have hfitted : ∀ m, c'.model = m → Fitted E { world := t.world, raw := some t.raw, fitted := true } X.cols.length m := by
    intro m hm
    exact ⟨.fit he hfit, rfl, t.raw, c', rfl, g5, by rw [g4]; exact g6, g7, hm⟩
  refine ⟨_, cfg, d, hfit, configured_effective g1, g2, ?_⟩
  rcases g8 with ⟨o, ms, b, q1, q2, q3, q4⟩ | ⟨q1, q2⟩
  · exact .inl ⟨o, ms, b, q1, q2, q3, hfitted _ q4⟩
  · exact .inr ⟨q1, hfitted _ q2⟩

/-- C65: `predict` with a matrix of 32-bit floats with the right number of columns returns one number for each row. If
there is a model, these are its predictions for the matrix: the same as for any data in the library with these columns,
whatever the target and whichever columns are categorical. If there is none, they are all 0. The model stays as it is,
so one can predict again. -/
theorem C65_predict (E : Env) (e : Est) (nf : Nat) (m : Option AdditiveTree) (he : Fitted E e nf m) (X : Matrix)
    (hX : Accepted X) (hf : X.f32 = true) (hn : X.cols.length = nf) :
    ∃ e' out, predictEst E e X = .ok (e', .ok out) ∧ out.length = X.nrows ∧ Fitted E e' nf m ∧
      (∀ a, m = some a → ∀ d : Data, d.nexamples = X.nrows → (d.cols.map Column.values).take nf = X.cols →
        a.predict E.F d = .ok out) ∧
      (m = none → out = List.replicate X.nrows (.fin 0)) := by
  obtain ⟨h1, h2, raw, c, h3, h4, h5, h6, h7⟩ := he
  obtain ⟨x1, x2, x3, x4, x5⟩ := hX
  have hinv := estimator_inv h1
  obtain ⟨i, hp, hi⟩ := h5
  have hii : i < e.world.length := (List.getElem?_eq_some_iff.1 hi).1
  obtain ⟨d, e1, k1, k2, k3, k4, k5, k6⟩ := setData_exact (E := E) (s := ⟨e.world, raw⟩) (c := c) (X := X)
    (isCat := fun _ => some false) (b := fun _ => false) (fun _ => rfl) hp hi hf (by simp only; omega) (by omega) x4 x1 x2
    (fun k v _ h => by cases h)
  have hw : WInv E ⟨e.world, raw⟩ := ⟨hinv.1, hinv.2 raw h3⟩
  obtain ⟨s1, hs1⟩ : ∃ s1 : St, s1 = ⟨e.world.set i (some { c with data := some d }),
    { raw with nexamples := (X.nrows : Int) }⟩ := ⟨_, rfl⟩
  have e1' : setData E ⟨e.world, raw⟩ X (fun _ => some false) = .ok (s1, .ok ()) := by rw [hs1]; exact e1
  have hr1 : RInv E s1 := by
    obtain ⟨t, x, f1, _, _, f2⟩ := setData_safe hw X (fun _ => some false) x1
    rw [e1'] at f1
    cases f1
    exact (f2 rfl).1
  have hp1 : s1.raw.ptr = .ctx i := by rw [hs1]; exact hp
  have hn1 : s1.raw.nfeatures = nf := by rw [hs1]; exact h4
  have hx1 : s1.raw.nexamples = X.nrows := by rw [hs1]
  have hl1 : Live s1.world (.ctx i) { c with data := some d } := by
    rw [hs1]
    exact live_iff.2 (List.getElem?_set_self hii)
  have hpred : ∀ w r, step E s1.world (.predict (.ctx i) X.nrows) = .ok (w, r) →
      Python.predict E s1 = .ok ({ s1 with world := w }, .ok (output X.nrows r)) := by
    intro w r hst
    have hcall : call E s1 (.predict s1.raw.ptr s1.raw.nexamples.toNat) = .ok ({ s1 with world := w }, .ok r) := by
      unfold call
      rw [hp1, hx1, Int.toNat_natCast, hst]
    unfold Python.predict
    rw [andThen_ok (checkCtx_ok (by rw [hp1]; simp)), andThen_ok (check_true (decide_eq_true (by omega))), andThen_ok hcall]
    simp only [hx1, Int.toNat_natCast]
  have hest : ∀ out, Python.predict E s1 = .ok (s1, .ok out) →
      predictEst E e X = .ok ({ e with world := s1.world, raw := some s1.raw }, .ok out) := by
    intro out ho
    unfold predictEst
    rw [if_pos (checkArray_iff.2 ⟨x1, x3, x5⟩), h2, h3]
    simp only
    unfold predictRaw
    rw [andThen_ok e1', ho]
  obtain ⟨g1, g2⟩ := C53_predict E s1.world (.ctx i) { c with data := some d } X.nrows hr1.1.1
    ⟨.inr ⟨_, hl1⟩, fun c' d' hl' hd' => by
      cases live_unique hl1 hl'
      cases hd'
      omega⟩ hl1
  cases m with
  | none =>
    have hst := g2 (.inr h7)
    have ho := hest _ (hpred _ _ hst)
    refine ⟨_, _, ho, by simp [output],
      ⟨.predict h1 ho, h2, s1.raw, { c with data := some d }, rfl, hn1, by rw [hp1]; exact hl1, h6, h7⟩,
      fun a ha => (by cases ha), fun _ => rfl⟩
  | some a =>
    obtain ⟨out, q1, q2, q3⟩ := g1 d a rfl h7
    have hout : output X.nrows (.filled 0 out) = out := by
      simp only [output]
      rw [List.drop_eq_nil_of_le (by simp; omega), List.append_nil]
    have ho := hest _ (hpred _ _ q3)
    rw [hout] at ho
    refine ⟨_, _, ho, by rw [q2, k2],
      ⟨.predict h1 ho, h2, s1.raw, { c with data := some d }, rfl, hn1, by rw [hp1]; exact hl1, h6, h7⟩,
      fun a' ha d' hd' hv => ?_, fun h => (by cases h)⟩
    cases ha
    rw [← q1]
    have hwell := (session_ok hinv.1 i c hi).well h7
    refine predict_cells E.F hwell (by rw [hd', k2]) fun f hf' j => ?_
    have hfl : f < X.cols.length := by omega
    have hcell : ∀ x : Data, cell x f j = ((x.cols.map Column.values)[f]?).bind (·[j]?) := by
      intro x
      unfold cell
      rw [List.getElem?_map]
      cases x.cols[f]? <;> rfl
    rw [hcell d', ← List.getElem?_take_of_lt (show f < nf by omega), hv, hcell d, List.getElem?_map,
      k5 f X.cols[f] (List.getElem?_eq_getElem hfl), List.getElem?_eq_getElem hfl]
    rfl

/-- C65: what is refused. A matrix without rows or columns or with NaN or infinities, and a target that does not fit:
`fit` and `predict` change nothing. A target that is not 32-bit floats: `fit` raises an exception. Prediction before
`fit`, from a matrix that is not 32-bit floats or has the wrong number of columns: nothing changes. -/
theorem C65_rejects (E : Env) (e : Est) (ps : Params) (X : Matrix) (y : Vector) :
    (¬ (0 < X.nrows ∧ 0 < X.cols.length ∧ (∀ c ∈ X.cols, ∀ v ∈ c, ∃ x, v = .fin x) ∧
        (∀ v ∈ y.vals, ∃ x, v = .fin x) ∧ y.vals.length = X.nrows) → fit E e ps X y = .ok (e, .error .value)) ∧
    (y.f32 = false → ∀ e' r, fit E e ps X y = .ok (e', r) → ∃ x, r = .error x) ∧
    (¬ (0 < X.nrows ∧ 0 < X.cols.length ∧ ∀ c ∈ X.cols, ∀ v ∈ c, ∃ x, v = .fin x) →
      predictEst E e X = .ok (e, .error .value)) ∧
    (0 < X.nrows ∧ 0 < X.cols.length ∧ (∀ c ∈ X.cols, ∀ v ∈ c, ∃ x, v = .fin x) → e.fitted = false →
      predictEst E e X = .ok (e, .error .notFitted)) ∧
    (∀ nf m, Fitted E e nf m → 0 < X.nrows ∧ 0 < X.cols.length ∧ (∀ c ∈ X.cols, ∀ v ∈ c, ∃ x, v = .fin x) →
      (X.f32 = false ∨ X.cols.length ≠ nf) → predictEst E e X = .ok (e, .error .assertion)) := by
  refine ⟨fun h => ?_, fun hy e' r h => ?_, fun h => ?_, fun h hf => ?_, fun nf m hm h hbad => ?_⟩
  · unfold fit
    rw [if_neg (fun hc => h (checkXy_iff.1 hc))]
  · cases r with
    | error x => exact ⟨x, rfl⟩
    | ok _ =>
      unfold fit at h
      repeat' split at h
      all_goals cases h
      rename_i hr
      have := fitRaw_f32 hr
      rw [hy] at this
      cases this
  · unfold predictEst
    rw [if_neg (fun hc => h (checkArray_iff.1 hc))]
  · unfold predictEst
    rw [if_pos (checkArray_iff.2 h), hf]
  · obtain ⟨_, h2, raw, c, h3, h4, h5, _⟩ := hm
    have hp : raw.ptr ≠ .null := fun h0 => null_no_live (h0 ▸ h5)
    have hsd : setData E ⟨e.world, raw⟩ X (fun _ => some false) = .ok (⟨e.world, raw⟩, .error .assertion) := by
      unfold setData
      generalize (X.nrows : Int) = n
      generalize cInt n = k
      rw [andThen_ok (checkCtx_ok (s := ⟨e.world, raw⟩) hp)]
      cases hf : X.f32 with
      | false => rw [andThen_error (check_false rfl)]
      | true =>
        rw [andThen_ok (check_true rfl)]
        rcases hbad with hb | hb
        · rw [hf] at hb; cases hb
        · rw [andThen_error (check_false (decide_eq_false (by simp only; omega)))]
    unfold predictEst
    rw [if_pos (checkArray_iff.2 h), h2, h3]
    simp only
    unfold predictRaw
    rw [andThen_error hsd]
    simp only
    obtain ⟨w, r, f⟩ := e
    simp only at h2 h3
    subst h2 h3
    rfl

/-- C65: a `fit` that raised an exception does not count: the estimator is fitted if and only if it was before. In
particular prediction is refused when no `fit` has succeeded. -/
theorem C65_failed_fit (E : Env) (e e' : Est) (ps : Params) (X : Matrix) (y : Vector) (x : Exc)
    (h : fit E e ps X y = .ok (e', .error x)) :
    e'.fitted = e.fitted ∧ (e.fitted = false → ∀ X', Accepted X' → predictEst E e' X' = .ok (e', .error .notFitted)) := by
  have hf : e'.fitted = e.fitted := by
    unfold fit at h
    repeat' split at h
    all_goals first | cases h | skip
    all_goals rfl
  refine ⟨hf, fun he X' hX' => ?_⟩
  exact (C65_rejects E e' ps X' y).2.2.2.1 ⟨hX'.1, hX'.2.2.1, hX'.2.2.2.2⟩ (hf.trans he)

/-- C65: what `fit` requires of the parameters: it only returns normally if every parameter has a text for the library
(a number is not a list of metrics) and the categorical features are a container. -/
theorem C65_parameters (E : Env) (e e' : Est) (ps : Params) (X : Matrix) (y : Vector)
    (h : fit E e ps X y = .ok (e', .ok ())) :
    (∀ n ∈ paramNames, ∃ t, Sends n (ps n) t) ∧ ∃ cats, Categories ps cats := by
  unfold fit at h
  split at h
  · rename_i hc
    have hX := (checkXy_iff.1 hc).2.1
    repeat' split at h
    all_goals cases h
    rename_i hr
    exact fitRaw_params (X := { X with f32 := true }) hX hr
  · cases h

/-! ## The object for the C interface -/

/-- C66: `set_config` with a name that is not a parameter raises `KeyError`, with a number or the like for one of the two
lists `TypeError`; nothing changes. -/
theorem C66_config_errors (E : Env) (s : St) (c : Ctx) (hl : Live s.world s.raw.ptr c) (n : String) (v : Val)
    (rest : List (List Char × Val)) :
    (n ∉ paramNames → (RawOp.setConfig ((n.toList, v) :: rest)).run E s = .ok (s, some .key)) ∧
    (n ∈ ["metrics", "categorical_features"] → (∃ t, v = .scalar t) →
      (RawOp.setConfig ((n.toList, v) :: rest)).run E s = .ok (s, some .type)) := by
  have hp : s.raw.ptr ≠ .null := fun h => null_no_live (h ▸ hl)
  have hrun : ∀ x, Python.setConfigField E s n.toList v = .ok (s, .error x) →
      (RawOp.setConfig ((n.toList, v) :: rest)).run E s = .ok (s, some x) := by
    intro x hx
    have : setConfig E s ((n.toList, v) :: rest) = .ok (s, .error x) := by
      unfold setConfig
      rw [andThen_ok (checkCtx_ok hp)]
      unfold setFields
      rw [andThen_error hx]
    unfold RawOp.run
    simp only [this]
  constructor
  · intro hn
    apply hrun
    unfold Python.setConfigField
    rw [andThen_ok (checkCtx_ok hp), String.ofList_toList]
    have hnone : configParams.lookup n = none := by
      rw [List.lookup_eq_none_iff]
      intro p hp'
      rw [bne_iff_ne]
      rintro rfl
      have : ∀ p ∈ configParams, p.1 ∈ paramNames := by decide +kernel
      exact hn (this p hp')
    rw [hnone]
  · rintro hn ⟨t, rfl⟩
    apply hrun
    unfold Python.setConfigField
    have hpn : n ∈ paramNames := by
      simp only [List.mem_cons, List.not_mem_nil, or_false] at hn
      rcases hn with rfl | rfl <;> decide
    rw [andThen_ok (checkCtx_ok hp), String.ofList_toList, (param_facts n hpn).2, decide_eq_true hn]
    rfl

/-- C66: a program that gives `RawBitBoost` columns at least as long as the last matrix, and no matrix without rows, has
no undefined behaviour: every method returns or raises an exception. -/
theorem C66_object_safe_partial (E : Env) (s : St) (hs : Object E s) (op : RawOp) (hop : op.Proper s) :
    ∃ s' x, op.run E s = .ok (s', x) := by
  have hall : ∀ s, RInv E s → ∀ op : RawOp, op.Proper s → ∃ s' x, op.run E s = .ok (s', x) ∧ RInv E s' := by
    intro s hs op hop
    have fin : ∀ {α : Type} {r : Res α}, Safe (RInv E) r → ∃ s' x,
        (match r with
          | .ok (s, .ok _) => .ok (s, none)
          | .ok (s, .error e) => .ok (s, some e)
          | .panic => .panic
          | .ub => .ub : Out (St × Option Exc)) = .ok (s', x) ∧ RInv E s' := by
      rintro α r ⟨t, x, rfl, ht⟩
      cases x with
      | ok a => exact ⟨t, _, rfl, ht⟩
      | error a => exact ⟨t, _, rfl, ht⟩
    cases op with
    | setFeatureData f v c =>
      obtain ⟨t, x, h1, h2, _⟩ := setFeatureData_safe hs f v c hop
      exact fin ⟨t, x, h1, h2⟩
    | setData X ic =>
      obtain ⟨t, x, h1, _, h2, _⟩ := setData_safe hs.1 X ic hop
      exact fin ⟨t, x, h1, h2 hs⟩
    | setTarget y => exact fin (setTarget_safe hs y hop)
    | setConfig vs =>
      obtain ⟨t, x, h1, _, h2⟩ := setConfig_safe hs.1 vs
      exact fin ⟨t, x, h1, h2 hs⟩
    | train =>
      obtain ⟨t, x, h1, _, h2⟩ := train_safe hs.1
      exact fin ⟨t, x, h1, h2 hs⟩
    | predict => exact fin (predict_safe hs)
    | dealloc =>
      obtain ⟨t, x, h1, h2, h3, _⟩ := dealloc_safe hs.1
      exact fin ⟨t, x, h1, h2, fun c d hl _ => absurd (h3 ▸ hl) null_no_live⟩
    | del =>
      obtain ⟨t, x, h1, h2, h3, _⟩ := del_safe hs.1
      exact fin ⟨t, x, h1, h2, fun c d hl _ => absurd (h3 ▸ hl) null_no_live⟩
  have hinv : RInv E s := by
    clear hop
    induction hs with
    | @new w w' nf n raw hs hi =>
      obtain ⟨w1, x, e, h1, _, h2⟩ := init_safe hs nf n
      rw [hi] at e
      cases e
      obtain ⟨_, _, k1, _, k2, _⟩ := h2 _ rfl
      refine ⟨⟨h1, k1⟩, fun c d hl hd => ?_⟩
      rw [k2 c hl] at hd
      cases hd
    | op _ hp he ih =>
      obtain ⟨_, _, e, h⟩ := hall _ ih _ hp
      rw [he] at e
      cases e
      exact h
  obtain ⟨s', x, h, _⟩ := hall s hinv op hop
  exact ⟨s', x, h⟩

/-- C66: after `dealloc` the context is gone, every method raises an exception and does nothing, and deleting the object
does not free the context again. -/
theorem C66_dealloc (E : Env) (s : St) (c : Ctx) (hl : Live s.world s.raw.ptr c) :
    ∃ s', RawOp.dealloc.run E s = .ok (s', none) ∧ (¬ ∃ c, Live s'.world s.raw.ptr c) ∧
      (∀ op : RawOp, op ≠ .del → op.run E s' = .ok (s', some .noContext)) ∧ RawOp.del.run E s' = .ok (s', none) := by
  have hp : s.raw.ptr ≠ .null := fun h => null_no_live (h ▸ hl)
  obtain ⟨w, e, hgone⟩ := C53_dealloc E s.world s.raw.ptr c hl
  have hde : Python.dealloc E s = .ok (⟨w, { s.raw with ptr := .null }⟩, .ok ()) := by
    have hcall : call E s (.dealloc s.raw.ptr) = .ok ({ s with world := w }, .ok (.code 0)) := by
      unfold call
      rw [e]
    unfold Python.dealloc
    rw [andThen_ok (checkCtx_ok hp), andThen_ok hcall]
  have hnull : checkCtx ⟨w, { s.raw with ptr := .null }⟩ = .ok (⟨w, { s.raw with ptr := .null }⟩, .error .noContext) :=
    checkCtx_null rfl
  refine ⟨⟨w, { s.raw with ptr := .null }⟩, by unfold RawOp.run; simp only [hde], hgone, fun op hop => ?_, rfl⟩
  unfold RawOp.run
  cases op with
  | setFeatureData f v c =>
    simp only [show Python.setFeatureData E ⟨w, { s.raw with ptr := .null }⟩ f v c = _ from andThen_error hnull _]
  | setData X ic => simp only [show Python.setData E ⟨w, { s.raw with ptr := .null }⟩ X ic = _ from andThen_error hnull _]
  | setTarget y => simp only [show Python.setTarget E ⟨w, { s.raw with ptr := .null }⟩ y = _ from andThen_error hnull _]
  | setConfig vs => simp only [show Python.setConfig E ⟨w, { s.raw with ptr := .null }⟩ vs = _ from andThen_error hnull _]
  | train => simp only [show Python.train E ⟨w, { s.raw with ptr := .null }⟩ = _ from andThen_error hnull _]
  | predict => simp only [show Python.predict E ⟨w, { s.raw with ptr := .null }⟩ = _ from andThen_error hnull _]
  | dealloc => simp only [show Python.dealloc E ⟨w, { s.raw with ptr := .null }⟩ = _ from andThen_error hnull _]
  | del => exact absurd rfl hop


/-! ## What goes wrong silently -/

private def pyEnv : Env :=
  ⟨.binary32, ⟨fun _ => .fin 1, fun _ => .fin 0, fun x => x⟩, fun _ => none, fun _ => ⟨fun i => i⟩⟩

private def pyParams (objective niterations : String) : Params := fun n =>
  if n = "objective" then .str objective.toList
  else if n = "niterations" then .scalar niterations.toList
  else if n = "max_tree_depth" then .scalar "2".toList
  else if n = "metrics" then .seq [] "[]".toList
  else if n = "categorical_features" then .seq [⟨"0".toList, some 0⟩] "[0]".toList
  else .scalar "default".toList

private def pyX : Matrix :=
  ⟨true, 4, [[.fin 0, .fin 0, .fin 1, .fin 1], [.fin 3, .fin 5, .fin 7, .fin 9]], by decide⟩

private def pyY : Vector := ⟨true, [.fin 1, .fin 1, .fin 3, .fin 3]⟩

/-- `fit` and then `predict` with the same matrix. -/
private def fitPredict (ps : Params) (X : Matrix) (y : Vector) : Option (List Num) :=
  match fit pyEnv ⟨[], none, false⟩ ps X y with
  | .ok (e, .ok _) =>
      match predictEst pyEnv e X with
      | .ok (_, .ok out) => some out
      | _ => none
  | _ => none

private theorem fitPredict_some {ps : Params} {X : Matrix} {y : Vector} {out : List Num}
    (h : fitPredict ps X y = some out) : ∃ e e', fit pyEnv ⟨[], none, false⟩ ps X y = .ok (e, .ok ()) ∧
      predictEst pyEnv e X = .ok (e', .ok out) := by
  unfold fitPredict at h
  repeat' split at h
  all_goals cases h
  rename_i e _ h1 _ e' h2
  exact ⟨e, e', h1, h2⟩

/-- C66 (false: errors are reported): with the name of an unknown objective `fit` returns normally, nothing has been
learned, and `predict` returns zeros. (`RawBitBoost` drops the return value of `bb_train`.) -/
theorem C66_silent_failure_refuted :
    ∃ (E : Env) (ps : Params) (X : Matrix) (y : Vector) (e e' : Est), Accepted X ∧ TargetFor X y ∧ X.f32 = true ∧
      fit E ⟨[], none, false⟩ ps X y = .ok (e, .ok ()) ∧
      predictEst E e X = .ok (e', .ok (List.replicate X.nrows (.fin 0))) ∧ ∀ v ∈ y.vals, ∃ x, v = .fin x ∧ 1 ≤ x := by
  have h : fitPredict (pyParams "l3" "1") pyX pyY = some (List.replicate pyX.nrows (.fin 0)) := by decide +kernel
  obtain ⟨e, e', h1, h2⟩ := fitPredict_some h
  refine ⟨pyEnv, pyParams "l3" "1", pyX, pyY, e, e', ?_, ?_, rfl, h1, h2, ?_⟩
  · refine ⟨by decide, by decide, by decide, by decide, fun c hc v hv => ?_⟩
    simp only [pyX, List.mem_cons, List.not_mem_nil, or_false] at hc
    rcases hc with rfl | rfl <;> simp only [List.mem_cons, List.not_mem_nil, or_false] at hv <;>
      rcases hv with rfl | rfl | rfl | rfl <;> exact ⟨_, rfl⟩
  · refine ⟨rfl, rfl, fun v hv => ?_⟩
    simp only [pyY, List.mem_cons, List.not_mem_nil, or_false] at hv
    rcases hv with rfl | rfl | rfl | rfl <;> exact ⟨_, rfl⟩
  · intro v hv
    simp only [pyY, List.mem_cons, List.not_mem_nil, or_false] at hv
    rcases hv with rfl | rfl | rfl | rfl <;> exact ⟨_, rfl, by norm_num⟩

/-- C66 (false: a parameter that is not understood is refused): `niterations=10.0` means 100 iterations. -/
theorem C66_float_parameter_refuted (pf : List Char → Option Num) (ps : Params) (cfg : Config)
    (h : Effective pf ps cfg) (hp : ps "niterations" = .scalar "10.0".toList) : cfg.niterations = 100 := by
  obtain ⟨t, hs, _, h2⟩ := (h .niterations).1 (by decide)
  have ht : t = ['1', '0', '.', '0'] := by
    obtain ⟨s, rfl, ⟨hk, _⟩ | ⟨_, rfl⟩⟩ := hs
    · exact absurd hk (by decide)
    · simp only [ConfigField.key, hp, Val.text]
      decide
  have := h2 (by
    rintro ⟨v, n, _, ⟨ds, hd, _, hdig, _⟩, _⟩
    have : ds = t := by
      rcases hd with rfl | h
      · rfl
      · rw [ht] at h; cases h
    exact absurd (hdig '.' (by rw [this, ht]; simp)) (by decide))
  simpa [ConfigField.get, ConfigField.default] using this

private def badX : Matrix :=
  ⟨true, 4, [[.fin 1, .fin (1 / 2), .fin 1, .fin 1], [.fin 3, .fin 5, .fin 7, .fin 9]], by decide⟩

/-- C66 (false: what is not a category is refused): with 1/2 in a categorical column `fit` returns normally, and the model
is learned from a numerical column that is 0 after the 1/2. -/
theorem C66_category_refuted :
    ∃ (E : Env) (ps : Params) (X : Matrix) (y : Vector) (e : Est) (raw : Raw) (c : Ctx) (d : Data) (col : Column),
      Categories ps [0] ∧ X.cols[0]? = some [.fin 1, .fin (1 / 2), .fin 1, .fin 1] ∧
      fit E ⟨[], none, false⟩ ps X y = .ok (e, .ok ()) ∧ e.raw = some raw ∧ Live e.world raw.ptr c ∧ c.model.isSome ∧
      c.data = some d ∧ d.cols[0]? = some col ∧ col.ftype = .numerical ∧ col.values = [.fin 1, .fin (1 / 2), .fin 0, .fin 0] := by
  have h : (match fit pyEnv ⟨[], none, false⟩ (pyParams "l2" "1") badX pyY with
    | .ok (e, .ok _) =>
        (match e.raw with
        | some raw =>
            match raw.ptr with
            | .ctx i =>
                match e.world[i]? with
                | some (some c) =>
                    c.model.isSome && (match c.data with
                      | some d => decide (d.cols[0]?.map (fun col => (col.ftype, col.values)) = some (.numerical, [.fin 1, .fin (1 / 2), .fin 0, .fin 0]))
                      | none => false)
                | _ => false
            | .null => false
        | none => false)
    | _ => false : Bool) = true := by decide +kernel
  split at h
  · rename_i e _ hf
    split at h
    · rename_i raw hr
      split at h
      · rename_i i hp
        split at h
        · rename_i c hc
          rw [Bool.and_eq_true] at h
          obtain ⟨hm, h⟩ := h
          split at h
          · rename_i d hd
            have h := of_decide_eq_true h
            obtain ⟨col, h1, h2⟩ := Option.map_eq_some_iff.1 h
            exact ⟨pyEnv, pyParams "l2" "1", badX, pyY, e, raw, c, d, col, ⟨_, _, rfl, rfl⟩, rfl, hf, hr, ⟨i, hp, hc⟩, hm,
              hd, h1, congrArg Prod.fst h2, congrArg Prod.snd h2⟩
          · cases h
        · cases h
      · cases h
    · cases h
  · cases h

/-! ## `RawBitBoost` reads outside of arrays -/

/-- The object after the constructor and some method calls. -/
private def objectOf (nf n : Nat) (X : Matrix) : Option St :=
  match init pyEnv [] nf n with
  | .ok (w, .ok raw) =>
      match (RawOp.setData X fun _ => some false).run pyEnv ⟨w, raw⟩ with
      | .ok (s, none) => some s
      | _ => none
  | _ => none

private theorem objectOf_object {nf n : Nat} {X : Matrix} {s : St} (hX : 0 < X.nrows)
    (h : objectOf nf n X = some s) : Object pyEnv s := by
  unfold objectOf at h
  repeat' split at h
  all_goals cases h
  rename_i h1 _ h2
  exact .op (op := .setData X fun _ => some false) (.new .start h1) hX h2

/-- C66 (false: the package is memory safe): `set_target` with an array shorter than the data reads past its end. -/
theorem C66_short_target_refuted :
    ∃ (E : Env) (s : St) (y : Vector), Object E s ∧ y.f32 = true ∧ (RawOp.setTarget y).run E s = .ub := by
  have h : (match objectOf 2 4 pyX with
    | some s => (match (RawOp.setTarget ⟨true, [.fin 1]⟩).run pyEnv s with | .ub => true | _ => false)
    | none => false : Bool) = true := by decide +kernel
  split at h
  · rename_i s hs
    split at h
    · rename_i hu
      exact ⟨pyEnv, s, ⟨true, [.fin 1]⟩, objectOf_object (by decide) hs, rfl, hu⟩
    · cases h
  · cases h

/-- C66 (false: the package is memory safe): after data, `set_data` with a matrix without rows reads past the end of its
columns. (`bb_refresh_data` refuses 0 rows, which nobody sees, and the old data stays.) -/
theorem C66_empty_matrix_refuted :
    ∃ (E : Env) (s : St) (X : Matrix), Object E s ∧ X.f32 = true ∧ X.nrows = 0 ∧ X.cols.length = s.raw.nfeatures ∧
      (RawOp.setData X fun _ => some false).run E s = .ub := by
  have h : (match objectOf 2 4 pyX with
    | some s => decide (s.raw.nfeatures = 2) &&
        (match (RawOp.setData ⟨true, 0, [[], []], by decide⟩ fun _ => some false).run pyEnv s with | .ub => true | _ => false)
    | none => false : Bool) = true := by decide +kernel
  split at h
  · rename_i s hs
    rw [Bool.and_eq_true] at h
    obtain ⟨h0, h⟩ := h
    split at h
    · rename_i hu
      exact ⟨pyEnv, s, ⟨true, 0, [[], []], by decide⟩, objectOf_object (by decide) hs, rfl, rfl,
        (of_decide_eq_true h0).symm, hu⟩
    · cases h
  · cases h

/-! ## Examples -/

private theorem pyX_accepted : Accepted pyX := by
  refine ⟨by decide, by decide, by decide, by decide, fun c hc v hv => ?_⟩
  simp only [pyX, List.mem_cons, List.not_mem_nil, or_false] at hc
  rcases hc with rfl | rfl <;> simp only [List.mem_cons, List.not_mem_nil, or_false] at hv <;>
    rcases hv with rfl | rfl | rfl | rfl <;> exact ⟨_, rfl⟩

private theorem pyY_target : TargetFor pyX pyY := by
  refine ⟨rfl, rfl, fun v hv => ?_⟩
  simp only [pyY, List.mem_cons, List.not_mem_nil, or_false] at hv
  rcases hv with rfl | rfl | rfl | rfl <;> exact ⟨_, rfl⟩

private theorem pyParams_sends (o n : String) : ∀ k ∈ paramNames, ∃ t, Sends k (pyParams o n k) t := by
  intro k hk
  by_cases h1 : k = "metrics"
  · subst h1
    exact ⟨_, _, rfl, .inl ⟨by decide, .inr ⟨[], "[]".toList, rfl, rfl⟩⟩⟩
  · by_cases h2 : k = "categorical_features"
    · subst h2
      exact ⟨_, _, rfl, .inl ⟨by decide, .inr ⟨[⟨"0".toList, some 0⟩], "[0]".toList, rfl, rfl⟩⟩⟩
    · exact ⟨_, _, rfl, .inr ⟨by simp [h1, h2], rfl⟩⟩

/-- C65: an estimator for which the hypotheses of `C65_fit` and `C65_predict` hold; it has a model, and the predictions
are the targets. -/
example : Accepted pyX ∧ TargetFor pyX pyY ∧ (∀ k ∈ paramNames, ∃ t, Sends k (pyParams "l2" "1" k) t) ∧
    Categories (pyParams "l2" "1") [0] ∧
    (∀ (j : Nat) v, pyX.cols[j]? = some v → (j : Int) ∈ ([0] : List Int) → ∀ x ∈ v, IsCategory x) ∧
    ∃ e e' m, fit pyEnv ⟨[], none, false⟩ (pyParams "l2" "1") pyX pyY = .ok (e, .ok ()) ∧ Fitted pyEnv e 2 (some m) ∧
      predictEst pyEnv e pyX = .ok (e', .ok pyY.vals) := by
  have hcat : ∀ (j : Nat) v, pyX.cols[j]? = some v → (j : Int) ∈ ([0] : List Int) → ∀ x ∈ v, IsCategory x := by
    intro j v hv hj x hx
    obtain rfl : j = 0 := by simpa using hj
    cases hv
    simp only [List.mem_cons, List.not_mem_nil, or_false] at hx
    rcases hx with rfl | rfl | rfl | rfl
    · exact .inr ⟨0, by norm_num⟩
    · exact .inr ⟨0, by norm_num⟩
    · exact .inr ⟨1, by norm_num⟩
    · exact .inr ⟨1, by norm_num⟩
  have hc : Categories (pyParams "l2" "1") [0] := ⟨_, _, rfl, rfl⟩
  refine ⟨pyX_accepted, pyY_target, pyParams_sends "l2" "1", hc, hcat, ?_⟩
  have h : fitPredict (pyParams "l2" "1") pyX pyY = some pyY.vals := by decide +kernel
  obtain ⟨e, e', h1, h2⟩ := fitPredict_some h
  obtain ⟨e1, cfg, d, g1, _, _, g2⟩ := C65_fit pyEnv ⟨[], none, false⟩ (.new .start) (pyParams "l2" "1") pyX pyY [0]
    pyX_accepted pyY_target (pyParams_sends "l2" "1") hc hcat
  rw [h1] at g1
  cases g1
  rcases g2 with ⟨_, _, b, _, _, _, g⟩ | ⟨_, g⟩
  · exact ⟨e, e', b.ensemble, h1, g, h2⟩
  · obtain ⟨e2, out, k1, _, _, _, k2⟩ := C65_predict pyEnv e 2 none g pyX pyX_accepted rfl rfl
    rw [h2] at k1
    cases k1
    exact absurd (k2 rfl) (by decide)

/-- C65: with `metrics=3` the first `fit` raises an exception. -/
example : ∃ e' x, fit pyEnv ⟨[], none, false⟩ (fun n => if n = "metrics" then .scalar "3".toList else pyParams "l2" "1" n)
    pyX pyY = .ok (e', .error x) := by
  have h : (match fit pyEnv ⟨[], none, false⟩
      (fun n => if n = "metrics" then .scalar "3".toList else pyParams "l2" "1" n) pyX pyY with
    | .ok (_, .error _) => true
    | _ => false : Bool) = true := by decide +kernel
  split at h
  · rename_i e' x hf
    exact ⟨e', x, hf⟩
  · cases h

/-- C66: an object with data for which `set_target` is proper. -/
example : ∃ s, Object pyEnv s ∧ (RawOp.setTarget pyY).Proper s ∧ ∃ c, Live s.world s.raw.ptr c := by
  have h : (match objectOf 2 4 pyX with
    | some s => decide (s.raw.nexamples ≤ pyY.vals.length) &&
        (match s.raw.ptr with
          | .ctx i => (match s.world[i]? with | some (some _) => true | _ => false)
          | .null => false)
    | none => false : Bool) = true := by decide +kernel
  split at h
  · rename_i s hs
    rw [Bool.and_eq_true] at h
    obtain ⟨h0, h⟩ := h
    refine ⟨s, objectOf_object (by decide) hs, (of_decide_eq_true h0 : s.raw.nexamples ≤ pyY.vals.length), ?_⟩
    split at h
    · rename_i i hp
      split at h
      · rename_i c hc
        exact ⟨c, i, hp, hc⟩
      · cases h
    · cases h
  · cases h

end BitBoost.Props
