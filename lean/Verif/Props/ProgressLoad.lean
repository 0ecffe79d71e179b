import Verif.Props.Progress
import Verif.Props.Data
import Verif.Lemmas.CApi
/-!
# C69: from a CSV file or the C interface to a model

What has to be true of the fields of a CSV file, or of the columns handed to `set_feature_data`, for training to end without
a panic.
-/
namespace BitBoost.Props
open BitBoost Spec

theorem category_pos {v : Num} (h : IsCategory v) (h0 : v ≠ .fin 0) : 1 ≤ v.toU32 := by
  rcases h with rfl | ⟨n, rfl⟩
  · decide
  · have hn0 : n ≠ 0 := fun h => h0 (by rw [h]; rfl)
    have hn1 : (1 : ℤ) ≤ n := by omega
    have ht : Num.trunc (n : ℚ) = n := by simp [Num.trunc]
    unfold Num.toU32 Num.cast
    simp only [ht]
    omega

/-- **C69.** Which CSV files give data training can work with: the records have all fields, the categorical fields are
categories, a numerical feature has a number and no infinite value, and some feature is numerical or has a category other
than 0. -/
theorem C69_csv (cfg : Config) (first : List (Option Num)) (rest : List (List (Option Num)))
    (header : Option (List String)) (hn : first ≠ [])
    (hheader : cfg.csvHasHeader = true → ∃ hd, header = some hd ∧ hd.length ≤ first.length)
    (hfields : ∀ r ∈ first :: rest, ∀ j < first.length, ∃ v, r[j]? = some (some v) ∧
      (j ∈ cfg.categoricalFeatures → IsCategory v))
    (hrows : rest.length + 1 ≤ 2 ^ 24) (hcols : first.length ≤ 2 ^ 24)
    (hsample : ∀ q : ℚ, cfg.exampleFraction = .fin q → 1 ≤ ((rest.length + 1 : ℕ) : ℚ) * q)
    (hnum : ∀ j < first.length - 1, j ∉ cfg.categoricalFeatures →
      (∃ r ∈ first :: rest, ∃ q : ℚ, r[j]? = some (some (.fin q))) ∧
      ∀ r ∈ first :: rest, r[j]? ≠ some (some .pinf) ∧ r[j]? ≠ some (some .ninf))
    (hbins : 1 ≤ cfg.maxNbins)
    (hroom : ∃ j < first.length - 1, j ∉ cfg.categoricalFeatures ∨ ∃ r ∈ first :: rest, r[j]? ≠ some (some (.fin 0))) :
    ∃ d, Data.fromCsv cfg ((first :: rest).map .record) header = .ok (.ok d) ∧ ValidData cfg d ∧
      ∃ targets, Learner.target d = .ok targets ∧
        targets.map some = (first :: rest).map (fun r => (r[first.length - 1]?).join) := by
  obtain ⟨d, hd⟩ := C27_accepts cfg first rest header hn hheader hfields
  refine ⟨d, hd, ?_⟩
  obtain ⟨first', rest', h1, h2, h3, h4, _, h6⟩ := C27_values cfg _ header d hd
  have hinj : Function.Injective Data.CsvItem.record := fun a b h => by cases h; rfl
  have h1' := (List.map_injective_iff.2 hinj) h1
  rw [← h1'] at h2 h6
  cases h1'
  have hm : d.maxNbins = cfg.maxNbins := by
    obtain ⟨_, _, _, _, e, _⟩ := fromCsv_cases hd
    exact e
  have hnf : d.nfeatures = first.length - 1 := by omega
  have hpos : 0 < first.length := List.length_pos_iff.2 hn
  have hmem : ∀ j (hj : j < d.cols.length) v, v ∈ d.cols[j].values ↔ ∃ r ∈ first :: rest, r[j]? = some (some v) := by
    intro j hj v
    have hh : some v ∈ d.cols[j].values.map some ↔ some v ∈ (first :: rest).map (fun r => (r[j]?).join) := by rw [h6 j hj]
    rw [List.mem_map, List.mem_map] at hh
    have e1 : (∃ a ∈ d.cols[j].values, some a = some v) ↔ v ∈ d.cols[j].values := by simp
    rw [e1] at hh
    rw [hh]
    refine ⟨fun ⟨r, hr, he⟩ => ⟨r, hr, ?_⟩, fun ⟨r, hr, he⟩ => ⟨r, hr, by rw [he]; rfl⟩⟩
    cases hx : r[j]? with
    | none => rw [hx] at he; cases he
    | some o => rw [hx] at he; rw [← he]; rfl
  refine ⟨⟨⟨by omega, ?_⟩, by rw [h2]; exact hrows, by omega, ?_, by omega, ?_, ?_, ?_⟩, ?_⟩
  · intro c hc
    obtain ⟨j, hj, rfl⟩ := List.mem_iff_getElem.1 hc
    have := congrArg List.length (h6 j hj)
    rw [List.length_map, List.length_map] at this
    rw [this, h2]
  · intro q hq; rw [h2]; exact hsample q hq
  · obtain ⟨j, hj, hor⟩ := hroom
    have hjc : j < d.cols.length := by omega
    refine ⟨j, d.cols[j], by omega, List.getElem?_eq_getElem hjc, ?_⟩
    obtain ⟨hcat, hncat⟩ := C27_categories cfg _ header d hd j hjc
    by_cases hc : j ∈ cfg.categoricalFeatures
    · obtain ⟨r, hr, hne⟩ := hor.resolve_left (not_not.2 hc)
      obtain ⟨v, hv, hvc⟩ := hfields r hr j (by omega)
      have hv0 : v ≠ .fin 0 := fun h => hne (by rw [hv, h])
      obtain ⟨_, hcard, ht⟩ := hcat hc
      have hlt := hcard.1 v ((hmem j hjc v).2 ⟨r, hr, hv⟩)
      have h1v : 1 ≤ v.toU32 := category_pos (hvc hc) hv0
      unfold Data.colMaxNbins
      rw [ht]
      by_cases hgt : d.cols[j].card > cfg.maxNbins
      · rw [if_pos hgt]; simp only; omega
      · rw [if_neg hgt]; simp only; split_ifs <;> omega
    · unfold Data.colMaxNbins
      rw [hncat hc]
      simp only; omega
  · intro f c hf hc ht
    have hfc : f < d.cols.length := by have := hf.1; omega
    rw [List.getElem?_eq_getElem hfc] at hc
    cases hc
    obtain ⟨hcat, _⟩ := C27_categories cfg _ header d hd f hfc
    have hnc : f ∉ cfg.categoricalFeatures := by
      intro hin
      have := (hcat hin).2.2
      rw [ht] at this
      split_ifs at this
    obtain ⟨⟨r, hr, q, hq⟩, hni⟩ := hnum f (by have := hf.1; omega) hnc
    obtain ⟨hb, ha⟩ := C27_limits cfg _ header d hd _ (List.getElem_mem hfc)
    have hqm : Num.fin q ∈ d.cols[f].values := (hmem f hfc _).2 ⟨r, hr, hq⟩
    obtain ⟨hlo, hhi⟩ := ha ⟨.fin q, hqm, by simp⟩
    have hlq := hb _ hqm (by simp)
    have hfin : ∀ w ∈ d.cols[f].values, w ≠ .nan → ∃ x, w = .fin x := by
      intro w hw hwn
      obtain ⟨r', hr', he⟩ := (hmem f hfc w).1 hw
      obtain ⟨p1, p2⟩ := hni r' hr'
      cases w with
      | fin x => exact ⟨x, rfl⟩
      | nan => exact absurd rfl hwn
      | pinf => exact absurd he p1
      | ninf => exact absurd he p2
    obtain ⟨l, hl⟩ := hfin _ hlo (Num.ne_nan_of_le_left hlq.1)
    obtain ⟨h, hh⟩ := hfin _ hhi (Num.ne_nan_of_le_right hlq.2)
    refine ⟨l, h, hl, hh, ?_⟩
    rw [hl, hh] at hlq
    simp only [Num.le, decide_eq_true_eq] at hlq
    exact le_trans hlq.1 hlq.2
  · intro f c hf hc ht
    have hfc : f < d.cols.length := by have := hf.1; omega
    rw [List.getElem?_eq_getElem hfc] at hc
    cases hc
    obtain ⟨hcat, hncat⟩ := C27_categories cfg _ header d hd f hfc
    have hin : f ∈ cfg.categoricalFeatures := by
      by_contra hnin
      rw [hncat hnin] at ht
      cases ht
    exact (hcat hin).2.1.1
  · have hfc : first.length - 1 < d.cols.length := by omega
    refine ⟨d.cols[first.length - 1].values, ?_, h6 _ hfc⟩
    unfold Learner.target
    rw [hnf]
    rw [at?_lt hfc]
    rfl

/-- **C69**, from the file to the model: log loss on a CSV file with labels 0 and 1 in the last field, in `f32` arithmetic. -/
theorem C69_csv_binary_f32 (M : Libm) (cfg : Config) (rng : Rng) (metrics : List Metric)
    (first : List (Option Num)) (rest : List (List (Option Num)))
    (header : Option (List String)) (hn : first ≠ [])
    (hheader : cfg.csvHasHeader = true → ∃ hd, header = some hd ∧ hd.length ≤ first.length)
    (hfields : ∀ r ∈ first :: rest, ∀ j < first.length, ∃ v, r[j]? = some (some v) ∧
      (j ∈ cfg.categoricalFeatures → IsCategory v))
    (hrows : rest.length + 1 ≤ 2 ^ 24) (hcols : first.length ≤ 2 ^ 24)
    (hsample : ∀ q : ℚ, cfg.exampleFraction = .fin q → 1 ≤ ((rest.length + 1 : ℕ) : ℚ) * q)
    (hnum : ∀ j < first.length - 1, j ∉ cfg.categoricalFeatures →
      (∃ r ∈ first :: rest, ∃ q : ℚ, r[j]? = some (some (.fin q))) ∧
      ∀ r ∈ first :: rest, r[j]? ≠ some (some .pinf) ∧ r[j]? ≠ some (some .ninf))
    (hroom : ∃ j < first.length - 1, j ∉ cfg.categoricalFeatures ∨ ∃ r ∈ first :: rest, r[j]? ≠ some (some (.fin 0)))
    (hlabels : ∀ r ∈ first :: rest, r[first.length - 1]? = some (some (.fin 0)) ∨ r[first.length - 1]? = some (some (.fin 1)))
    (hzero : ∃ r ∈ first :: rest, r[first.length - 1]? = some (some (.fin 0)))
    (hone : ∃ r ∈ first :: rest, r[first.length - 1]? = some (some (.fin 1)))
    (hc : ValidConfig cfg) (hexp : ExpLike M) (hln : LnLike M)
    (hbound : ∃ q : ℚ, cfg.binaryGradientBound = .fin q ∧ 0 < q) (hit : cfg.niterations < 2 ^ 24) :
    ∃ d b, Data.fromCsv cfg ((first :: rest).map .record) header = .ok (.ok d) ∧
      Booster.run .binary32 M cfg d rng metrics (Objective.new .binary) = .ok b ∧
      b.ensemble.trees.length = cfg.niterations := by
  obtain ⟨d, h1, h2, targets, h3, h4⟩ := C69_csv cfg first rest header hn hheader hfields hrows hcols hsample hnum
    hc.bins.1 hroom
  have hmem : ∀ t, t ∈ targets ↔ ∃ r ∈ first :: rest, r[first.length - 1]? = some (some t) := by
    intro t
    have hh : some t ∈ targets.map some ↔ some t ∈ (first :: rest).map (fun r => (r[first.length - 1]?).join) := by rw [h4]
    rw [List.mem_map, List.mem_map] at hh
    have e1 : (∃ a ∈ targets, some a = some t) ↔ t ∈ targets := by simp
    rw [e1] at hh
    rw [hh]
    refine ⟨fun ⟨r, hr, he⟩ => ⟨r, hr, ?_⟩, fun ⟨r, hr, he⟩ => ⟨r, hr, by rw [he]; rfl⟩⟩
    cases hx : r[first.length - 1]? with
    | none => rw [hx] at he; cases he
    | some o => rw [hx] at he; rw [← he]; rfl
  obtain ⟨b, e, h⟩ := C69_binary_f32 M cfg d rng metrics hc h2 targets h3 (by
    intro t ht
    obtain ⟨r, hr, he⟩ := (hmem t).1 ht
    rcases hlabels r hr with h | h <;> rw [h] at he <;> cases he
    · exact .inl rfl
    · exact .inr rfl) ((hmem _).2 hzero) ((hmem _).2 hone) hexp hln (fun _ => hbound) hit
  exact ⟨d, b, h1, e, h⟩

/-! ### Columns set through the C interface -/

/-- What the column of a feature looks like after calls that agree on whether it is categorical. -/
private structure ColOk (m ne : ℕ) (cat touched nonzero : Prop) (c : Column) : Prop where
  len : c.values.length = ne
  num : (¬ cat ∨ ¬ touched) → c.ftype = .numerical ∧ ∃ l h : ℚ, c.lo = .fin l ∧ c.hi = .fin h ∧ l ≤ 0 ∧ 0 ≤ h
  cats : cat → touched → c.ftype = (if c.card > m then .hiCardCat else .loCardCat) ∧ ∀ v ∈ c.values, v.toU32 < c.card
  card : cat → nonzero → 2 ≤ c.card

private theorem setLoop_limits (cat : Bool) (vs : List Num) (hv : ∀ v ∈ vs, v ≠ .pinf ∧ v ≠ .ninf) :
    ∀ (i : ℕ) (c : Column), (∃ l h : ℚ, c.lo = .fin l ∧ c.hi = .fin h ∧ l ≤ 0 ∧ 0 ≤ h) →
      ∃ l h : ℚ, (Data.setLoop cat vs i c).1.lo = .fin l ∧ (Data.setLoop cat vs i c).1.hi = .fin h ∧ l ≤ 0 ∧ 0 ≤ h := by
  induction vs with
  | nil => intro i c h; exact h
  | cons v vs ih =>
    intro i c h
    obtain ⟨l, r, h1, h2, h3, h4⟩ := h
    obtain ⟨_, e2, e3, _⟩ := addStats_spec cat { c with values := c.values.set i v } v
    have hfin : ∃ l h : ℚ, Num.min c.lo v = .fin l ∧ Num.max c.hi v = .fin h ∧ l ≤ 0 ∧ 0 ≤ h := by
      have hvv := hv v (by simp)
      rw [h1, h2]
      cases v with
      | nan => exact ⟨l, r, Data.min_nan_right _, Data.max_nan_right _, h3, h4⟩
      | pinf => exact absurd rfl hvv.1
      | ninf => exact absurd rfl hvv.2
      | fin q =>
        have hl : ∃ x : ℚ, Num.min (.fin l) (.fin q) = .fin x ∧ x ≤ 0 := by
          have hle := Data.min_le_left' (a := .fin l) (b := .fin q) (by simp)
          rcases Data.min_eq_or (.fin l) (.fin q) with e | e <;> rw [e] at hle ⊢
          · exact ⟨l, rfl, h3⟩
          · exact ⟨q, rfl, le_trans (by simpa [Num.le] using hle) h3⟩
        have hr : ∃ x : ℚ, Num.max (.fin r) (.fin q) = .fin x ∧ 0 ≤ x := by
          have hle := Num.le_max_left (a := .fin r) (b := .fin q) (by simp)
          rcases Data.max_eq_or (.fin r) (.fin q) with e | e <;> rw [e] at hle ⊢
          · exact ⟨r, rfl, h4⟩
          · exact ⟨q, rfl, le_trans h4 (by simpa [Num.le] using hle)⟩
        obtain ⟨x, hx1, hx2⟩ := hl
        obtain ⟨y, hy1, hy2⟩ := hr
        exact ⟨x, y, hx1, hy1, hx2, hy2⟩
    unfold Data.setLoop
    cases hs : Data.addStats cat { c with values := c.values.set i v } v with
    | mk c' b =>
      rw [hs] at e2 e3
      have h' : ∃ l h : ℚ, c'.lo = .fin l ∧ c'.hi = .fin h ∧ l ≤ 0 ∧ 0 ≤ h := by
        rw [show c'.lo = Num.min c.lo v from e2, show c'.hi = Num.max c.hi v from e3]; exact hfin
      cases b with
      | true => exact ih (fun u hu => hv u (by simp [hu])) _ _ h'
      | false => exact h'

private structure HistOk (cfg : Config) (nf ne : ℕ) (cats : List ℕ) (done : List SetCall) (d : Data) : Prop where
  bins : d.maxNbins = cfg.maxNbins
  feats : d.nfeatures = nf
  exs : d.nexamples = ne
  len : d.cols.length = nf + 1
  cols : ∀ j c, d.cols[j]? = some c → ColOk cfg.maxNbins ne (j ∈ cats) (∃ s ∈ done, s.feat = j)
    (∃ s ∈ done, s.feat = j ∧ ∃ v ∈ s.data, v ≠ .fin 0) c

private theorem histOk_step {cfg : Config} {nf ne : ℕ} {cats : List ℕ} {done : List SetCall} {d : Data}
    (h : HistOk cfg nf ne cats done d) (s : SetCall) (hfeat : s.feat ≤ nf) (hlen : s.data.length = ne)
    (hflag : s.categorical = true ↔ s.feat ∈ cats)
    (hcat : s.feat ∈ cats → ∀ v ∈ s.data, IsCategory v)
    (hnum : s.feat ∉ cats → ∀ v ∈ s.data, v ≠ .pinf ∧ v ≠ .ninf) :
    HistOk cfg nf ne cats (done ++ [s]) (applySet d s) ∧
      ∃ c, (applySet d s).cols[s.feat]? = some c ∧ c.values = s.data := by
  have hlt : s.feat < d.cols.length := by rw [h.len]; omega
  have hcol := h.cols _ _ (List.getElem?_eq_getElem hlt)
  have hok : (Data.setLoop s.categorical s.data 0 d.cols[s.feat]).2 = true :=
    (Data.setLoop_facts s.categorical s.data 0 d.cols[s.feat]).2.2 fun hc => hcat (hflag.1 hc)
  obtain ⟨v1, v2, v3, v4⟩ := setLoop_values s.categorical s.data 0 d.cols[s.feat]
  obtain ⟨v5, v6⟩ := v4 hok (by rw [hcol.len]; omega)
  simp only [List.take_zero, List.nil_append, Nat.zero_add] at v5
  rw [List.drop_eq_nil_of_le (by rw [hcol.len]; omega), List.append_nil] at v5
  have hd' : applySet d s = { d with cols := d.cols.set s.feat (if s.categorical = true then
        { (Data.setLoop s.categorical s.data 0 d.cols[s.feat]).1 with
          ftype := if (Data.setLoop s.categorical s.data 0 d.cols[s.feat]).1.card > d.maxNbins then .hiCardCat
            else .loCardCat }
        else (Data.setLoop s.categorical s.data 0 d.cols[s.feat]).1) } := by
    unfold applySet Data.setFeatureData
    rw [if_pos (by rw [hlen, h.exs]), List.getElem?_eq_getElem hlt]
    simp only
    rw [if_pos (by rw [hcol.len, h.exs])]
    generalize hr : Data.setLoop s.categorical s.data 0 d.cols[s.feat] = r at hok
    obtain ⟨c', b⟩ := r
    simp only at hok
    subst hok
    simp only
    cases s.categorical with
    | false => rfl
    | true => simp only [if_true]; split_ifs <;> rfl
  have hlim := setLoop_limits s.categorical s.data (i := 0) (c := d.cols[s.feat])
  generalize Data.setLoop s.categorical s.data 0 d.cols[s.feat] = r at *
  obtain ⟨c', b⟩ := r
  simp only at *
  rw [hd']
  refine ⟨⟨h.bins, h.feats, h.exs, by simp [h.len], ?_⟩, _, by simp only [List.getElem?_set_self hlt]; rfl, by
    split_ifs <;> exact v5⟩
  intro j c hc
  simp only at hc
  by_cases hj : j = s.feat
  · subst hj
    rw [List.getElem?_set_self hlt] at hc
    cases hc
    have htouched : ∃ s' ∈ done ++ [s], s'.feat = s.feat := ⟨s, by simp, rfl⟩
    by_cases hin : s.feat ∈ cats
    · rw [if_pos (hflag.2 hin)]
      refine ⟨by simp only; rw [v5]; exact hlen, ?_, ?_, ?_⟩
      · rintro (h | h)
        · exact absurd hin h
        · exact absurd htouched h
      · intro _ _
        refine ⟨by simp only [h.bins], ?_⟩
        simp only
        rw [v5]
        exact v6 (hflag.2 hin)
      · rintro _ ⟨s', hs', he, v, hv, hv0⟩
        simp only
        rcases List.mem_append.1 hs' with hs' | hs'
        · have := hcol.card hin ⟨s', hs', he, v, hv, hv0⟩
          omega
        · rw [List.mem_singleton.1 hs'] at hv
          have h1 := v6 (hflag.2 hin) v hv
          have h2 := category_pos (hcat hin v hv) hv0
          unfold intoCat at h1
          omega
    · have hf : ¬ s.categorical = true := fun h => hin (hflag.1 h)
      rw [if_neg hf]
      obtain ⟨n1, n2⟩ := hcol.num (.inl hin)
      exact ⟨by rw [v5]; exact hlen, fun _ => ⟨by rw [v2, n1], hlim (hnum hin) n2⟩, fun h => absurd h hin,
        fun h => absurd h hin⟩
  · rw [List.getElem?_set_ne (Ne.symm hj)] at hc
    have hthis := h.cols j c hc
    have e1 : (∃ s' ∈ done ++ [s], s'.feat = j) ↔ ∃ s' ∈ done, s'.feat = j := by
      constructor
      · rintro ⟨s', hs', he⟩
        rcases List.mem_append.1 hs' with hs' | hs'
        · exact ⟨s', hs', he⟩
        · rw [List.mem_singleton.1 hs'] at he; exact absurd he.symm hj
      · rintro ⟨s', hs', he⟩; exact ⟨s', by simp [hs'], he⟩
    have e2 : (∃ s' ∈ done ++ [s], s'.feat = j ∧ ∃ v ∈ s'.data, v ≠ .fin 0) ↔
        ∃ s' ∈ done, s'.feat = j ∧ ∃ v ∈ s'.data, v ≠ .fin 0 := by
      constructor
      · rintro ⟨s', hs', he, hh⟩
        rcases List.mem_append.1 hs' with hs' | hs'
        · exact ⟨s', hs', he, hh⟩
        · rw [List.mem_singleton.1 hs'] at he; exact absurd he.symm hj
      · rintro ⟨s', hs', he, hh⟩; exact ⟨s', by simp [hs'], he, hh⟩
    rw [e1, e2]
    exact hthis

private theorem histOk_calls {cfg : Config} {nf ne : ℕ} {cats : List ℕ} (calls : List SetCall)
    (hfeat : ∀ s ∈ calls, s.feat ≤ nf ∧ s.data.length = ne ∧ (s.categorical = true ↔ s.feat ∈ cats) ∧
      (s.feat ∈ cats → ∀ v ∈ s.data, IsCategory v) ∧ (s.feat ∉ cats → ∀ v ∈ s.data, v ≠ .pinf ∧ v ≠ .ninf)) :
    ∀ (done : List SetCall) (d : Data), HistOk cfg nf ne cats done d →
      HistOk cfg nf ne cats (done ++ calls) (calls.foldl applySet d) := by
  induction calls with
  | nil => intro done d h; simpa using h
  | cons s calls ih =>
    intro done d h
    obtain ⟨h1, h2, h3, h4, h5⟩ := hfeat s (by simp)
    have hstep := (histOk_step h s h1 h2 h3 h4 h5).1
    have := ih (fun s' hs' => hfeat s' (by simp [hs'])) _ _ hstep
    simpa using this

private theorem histOk_empty (cfg : Config) (nf ne : ℕ) (cats : List ℕ) :
    HistOk cfg nf ne cats [] (Data.empty cfg nf ne) := by
  refine ⟨rfl, rfl, rfl, by simp [Data.empty], ?_⟩
  intro j c hc
  have := List.mem_of_getElem? hc
  simp [Data.empty] at this
  subst this
  exact ⟨by simp, fun _ => ⟨rfl, 0, 0, rfl, rfl, le_rfl, le_rfl⟩, fun _ ⟨_, h, _⟩ => by simp at h, fun _ ⟨_, h, _⟩ => by simp at h⟩

/-- **C69.** Which columns set through the C interface give data training can work with: the calls agree on which features
are categorical (`cats`), give one value per example, categories for the categorical features and no infinite value for the
others, and some feature is numerical or has been given a category other than 0. The target is set last. -/
theorem C69_api (cfg : Config) (nf ne : ℕ) (cats : List ℕ) (calls : List SetCall) (targets : List Num)
    (hfeat : ∀ s ∈ calls, s.feat < nf ∧ s.data.length = ne ∧ (s.categorical = true ↔ s.feat ∈ cats))
    (hcat : ∀ s ∈ calls, s.feat ∈ cats → ∀ v ∈ s.data, IsCategory v)
    (hnum : ∀ s ∈ calls, s.feat ∉ cats → ∀ v ∈ s.data, v ≠ .pinf ∧ v ≠ .ninf)
    (htarget : targets.length = ne ∧ nf ∉ cats ∧ ∀ v ∈ targets, v ≠ .pinf ∧ v ≠ .ninf)
    (hrows : ne ≤ 2 ^ 24) (hcols : nf ≤ 2 ^ 24)
    (hsample : ∀ q : ℚ, cfg.exampleFraction = .fin q → 1 ≤ (ne : ℚ) * q)
    (hbins : 1 ≤ cfg.maxNbins)
    (hroom : ∃ j < nf, j ∉ cats ∨ ∃ s ∈ calls, s.feat = j ∧ ∃ v ∈ s.data, v ≠ .fin 0) :
    ValidData cfg (history cfg nf ne (calls ++ [⟨nf, targets, false⟩])) ∧
      Learner.target (history cfg nf ne (calls ++ [⟨nf, targets, false⟩])) = .ok targets := by
  have h1 := histOk_calls (cfg := cfg) (nf := nf) (ne := ne) (cats := cats) calls (fun s hs => by
    obtain ⟨a, b, c⟩ := hfeat s hs
    exact ⟨by omega, b, c, hcat s hs, hnum s hs⟩) [] _ (histOk_empty cfg nf ne cats)
  obtain ⟨h2, c, hc1, hc2⟩ := histOk_step h1 ⟨nf, targets, false⟩ le_rfl htarget.1 (by simp [htarget.2.1])
    (fun h => absurd h htarget.2.1) (fun _ => htarget.2.2)
  have hh : history cfg nf ne (calls ++ [⟨nf, targets, false⟩]) =
      applySet (calls.foldl applySet (Data.empty cfg nf ne)) ⟨nf, targets, false⟩ := by
    unfold history; rw [List.foldl_append]; rfl
  rw [← hh] at h2 hc1
  generalize history cfg nf ne (calls ++ [⟨nf, targets, false⟩]) = d at h2 hc1 ⊢
  refine ⟨⟨⟨by rw [h2.len, h2.feats], ?_⟩, by rw [h2.exs]; exact hrows, by rw [h2.feats]; exact hcols, ?_,
    by rw [h2.bins], ?_, ?_, ?_⟩, ?_⟩
  · intro c hc
    obtain ⟨j, hj, rfl⟩ := List.mem_iff_getElem.1 hc
    rw [(h2.cols j _ (List.getElem?_eq_getElem hj)).len, h2.exs]
  · intro q hq; rw [h2.exs]; exact hsample q hq
  · obtain ⟨j, hj, hor⟩ := hroom
    have hjc : j < d.cols.length := by rw [h2.len]; omega
    have hco := h2.cols j _ (List.getElem?_eq_getElem hjc)
    refine ⟨j, d.cols[j], by rw [h2.feats]; exact hj, List.getElem?_eq_getElem hjc, ?_⟩
    rw [h2.bins]
    unfold Data.colMaxNbins
    by_cases hin : j ∈ cats
    · obtain ⟨s, hs, he, v, hv, hv0⟩ := hor.resolve_left (not_not.2 hin)
      have hcard := hco.card hin ⟨s, by simp [hs], he, v, hv, hv0⟩
      rw [(hco.cats hin ⟨s, by simp [hs], he⟩).1]
      by_cases hgt : d.cols[j].card > cfg.maxNbins
      · rw [if_pos hgt]; simp only; omega
      · rw [if_neg hgt]; simp only; split_ifs <;> omega
    · rw [(hco.num (.inl hin)).1]; simp only; omega
  · intro f c _ hc ht
    have hco := h2.cols f c hc
    by_cases hin : f ∈ cats ∧ ∃ s ∈ [] ++ calls ++ [⟨nf, targets, false⟩], s.feat = f
    · rw [(hco.cats hin.1 hin.2).1] at ht
      split_ifs at ht
    · rw [not_and_or] at hin
      obtain ⟨_, l, h, a1, a2, a3, a4⟩ := hco.num hin
      exact ⟨l, h, a1, a2, a3.trans a4⟩
  · intro f c _ hc ht
    have hco := h2.cols f c hc
    by_cases hin : f ∈ cats ∧ ∃ s ∈ [] ++ calls ++ [⟨nf, targets, false⟩], s.feat = f
    · exact (hco.cats hin.1 hin.2).2
    · rw [not_and_or] at hin
      rw [(hco.num hin).1] at ht
      cases ht
  · unfold Learner.target
    have hlt : nf < d.cols.length := by rw [h2.len]; omega
    simp only at hc1
    rw [h2.feats, at?_lt hlt, Out.ok_bind]
    rw [List.getElem?_eq_getElem hlt] at hc1
    cases hc1
    rw [hc2]
    rfl

/-! ### The hypotheses can be met -/

def csvCfg : Config := { fitCfg with categoricalFeatures := [1], csvHasHeader := false, niterations := 50 }

/-- Four records: a number or NaN, a category, a label. -/
def csvFirst : List (Option Num) := [some (.fin (1 / 2)), some (.fin 3), some (.fin 1)]
def csvRest : List (List (Option Num)) :=
  [[some .nan, some (.fin 0), some (.fin 0)], [some (.fin (-7)), some (.fin 1), some (.fin 0)],
   [some (.fin 3), some (.fin 2), some (.fin 1)]]

/-- C69: 50 iterations on these records, with whatever random numbers. -/
example (rng : Rng) : ∃ d b, Data.fromCsv csvCfg ((csvFirst :: csvRest).map .record) none = .ok (.ok d) ∧
    Booster.run .binary32 runLibm csvCfg d rng [] (Objective.new .binary) = .ok b ∧ b.ensemble.trees.length = 50 := by
  refine C69_csv_binary_f32 runLibm csvCfg rng [] csvFirst csvRest none (by simp [csvFirst]) (by simp [csvCfg]) ?_
    (by simp [csvRest]) (by simp [csvFirst]) ?_ ?_ ?_ ?_ ?_ ?_ ?_ ?_ ?_ ?_ ?_
  · intro r hr j hj
    simp [csvFirst, csvRest] at hr hj
    rcases hr with rfl | rfl | rfl | rfl <;> interval_cases j <;> simp [IsCategory, csvCfg]
    · exact ⟨3, by norm_num⟩
    · exact ⟨0, by norm_num⟩
    · exact ⟨1, by norm_num⟩
    · exact ⟨2, by norm_num⟩
  · intro q hq; cases hq; norm_num [csvRest]
  · intro j hj hnc
    simp [csvFirst] at hj
    interval_cases j
    · refine ⟨⟨csvFirst, by simp, 1 / 2, rfl⟩, ?_⟩
      intro r hr
      simp [csvFirst, csvRest] at hr
      rcases hr with rfl | rfl | rfl | rfl <;> simp
    · simp [csvCfg] at hnc
  · exact ⟨0, by simp [csvFirst], .inl (by simp [csvCfg])⟩
  · intro r hr
    simp [csvFirst, csvRest] at hr
    rcases hr with rfl | rfl | rfl | rfl <;> simp [csvFirst]
  · exact ⟨_, by simp [csvRest]; right; left; rfl, by simp [csvFirst]⟩
  · exact ⟨csvFirst, by simp, by simp [csvFirst]⟩
  · exact ⟨fitCfg_valid.bits, fitCfg_valid.depth, fitCfg_valid.leaf, fitCfg_valid.bins, fitCfg_valid.features,
      fitCfg_valid.examples, fitCfg_valid.rate⟩
  · intro x _; exact .inr ⟨1, rfl, by norm_num⟩
  · intro q _ _; exact ⟨0, rfl, by norm_num⟩
  · exact ⟨5 / 4, rfl, by norm_num⟩
  · simp [csvCfg]

/-- C69: a numerical and a categorical feature, set twice and once, and a target. -/
example : ValidData fitCfg (history fitCfg 2 2 ([⟨0, [.fin 3, .nan], false⟩, ⟨1, [.fin 0, .fin 9], true⟩, ⟨0, [.fin (-1), .fin 2], false⟩] ++
    [⟨2, [.fin 1, .fin 5], false⟩])) := by
  refine (C69_api fitCfg 2 2 [1] [⟨0, [.fin 3, .nan], false⟩, ⟨1, [.fin 0, .fin 9], true⟩, ⟨0, [.fin (-1), .fin 2], false⟩]
    [.fin 1, .fin 5] (by simp) ?_ (by simp) (by simp) (by norm_num) (by norm_num) ?_ (by simp [fitCfg]) ?_).1
  · simp [IsCategory]
    exact ⟨⟨0, by norm_num⟩, ⟨9, by norm_num⟩⟩
  · intro q hq; cases hq; norm_num
  · exact ⟨0, by norm_num, .inl (by simp)⟩

end BitBoost.Props
