import Verif.Lemmas.Data
import Mathlib.Tactic.IntervalCases
/-!
# C27-C29: CSV import, C API columns, number of bins
-/
namespace BitBoost.Props
open BitBoost

theorem fromCsv_cases {cfg : Config} {items : List Data.CsvItem} {header : Option (List String)}
    {d : Data} (h : Data.fromCsv cfg items header = .ok (.ok d)) :
    ∃ first rest, items = .record first :: rest.map .record ∧ first.length ≠ 0 ∧
      d.maxNbins = cfg.maxNbins ∧
      d.nexamples = (first :: rest).length ∧ d.cols.length = first.length ∧
      d.nfeatures = first.length - 1 ∧ d.names.length = first.length ∧
      ∀ j (hj : j < first.length) (hj' : j < d.cols.length), ∃ vs : List Num,
        (first :: rest).map (fun r => (r[j]?).join) = vs.map some ∧
        d.cols[j] = Data.retype cfg.maxNbins (Data.after
          { values := [], lo := .pinf, hi := .ninf,
            ftype := if j ∈ cfg.categoricalFeatures then .loCardCat else .numerical, card := 0 } vs) ∧
        (j ∈ cfg.categoricalFeatures → ∀ v ∈ vs, Spec.IsCategory v) := by
  unfold Data.fromCsv at h
  cases hl : Data.csvLoop cfg.categoricalFeatures items 0 [] with
  | error e => rw [hl] at h; simp at h
  | ok p =>
    obtain ⟨count, cols⟩ := p
    rw [hl] at h
    simp only at h
    rw [Out.bind_eq_ok] at h
    obtain ⟨r, hr, h⟩ := h
    cases r with
    | error e => simp at h
    | ok names =>
      simp only at h
      by_cases hz : cols.length = 0
      · rw [if_pos hz] at h; simp at h
      rw [if_neg hz] at h
      simp only [Out.pure_eq, Out.ok.injEq, Except.ok.injEq] at h
      cases items with
      | nil =>
        simp only [Data.csvLoop, Except.ok.injEq, Prod.mk.injEq] at hl
        obtain ⟨_, rfl⟩ := hl
        simp at hz
      | cons it items =>
        cases it with
        | error => simp [Data.csvLoop] at hl
        | record first =>
          simp only [Data.csvLoop, if_true] at hl
          cases hp : Data.pushRecord 0 (Data.initColumns cfg.categoricalFeatures first.length) first with
          | error e => rw [hp] at hl; simp at hl
          | ok mid =>
            rw [hp] at hl
            simp only [Nat.zero_add] at hl
            rw [Data.csvLoop_iff _ _ _ _ _ _ (by omega)] at hl
            obtain ⟨rest, h1, h2, h3, h4⟩ := hl
            obtain ⟨hm1, hm2⟩ := (Data.pushRecord_iff _ _ _ _).1 hp
            have hil : (Data.initColumns cfg.categoricalFeatures first.length).length = first.length := by
              simp [Data.initColumns]
            have hnames : names.length = cols.length := by
              unfold Data.csvNames at hr
              split_ifs at hr
              · cases header with
                | none => simp at hr
                | some hd =>
                  simp only at hr
                  split_ifs at hr
                  simp only [Out.ok.injEq, Except.ok.injEq] at hr
                  rw [← hr]; simp
              · simp only [Out.ok.injEq, Except.ok.injEq] at hr
                rw [← hr]; simp
            subst h
            refine ⟨first, rest, by rw [h1], by omega, rfl, ?_, ?_, ?_, ?_, ?_⟩
            · simp; omega
            · simp; omega
            · show cols.length - 1 = _; omega
            · show names.length = _; omega
            · intro j hj hj'
              obtain ⟨v, e1, e2⟩ := hm2 j (by omega) (by omega)
              rw [Data.pushOne_eq] at e2
              obtain ⟨vs, f1, f2, f3⟩ := h4 j (by omega) (by omega)
              have hic : (Data.initColumns cfg.categoricalFeatures first.length)[j]'(by omega) =
                  { values := [], lo := .pinf, hi := .ninf,
                    ftype := if j ∈ cfg.categoricalFeatures then .loCardCat else .numerical, card := 0 } := by
                simp [Data.initColumns]
              rw [hic] at e2
              refine ⟨v :: vs, by simp [e1, f1], ?_, ?_⟩
              · simp only [List.getElem_map]
                rw [f2, e2.1, Data.after_after]
              · intro hcat u hu
                simp only [List.mem_cons] at hu
                rcases hu with rfl | hu
                · exact e2.2 (by simp [hcat])
                · refine f3 ?_ u hu
                  rw [e2.1]; simp [Data.after, hcat]

private theorem retype_values (m : Nat) (c : Column) : (Data.retype m c).values = c.values ∧
    (Data.retype m c).lo = c.lo ∧ (Data.retype m c).hi = c.hi ∧ (Data.retype m c).card = c.card ∧
    (Data.retype m c).ftype = if c.card > m then .hiCardCat else c.ftype := by
  unfold Data.retype; split_ifs <;> simp

/-- After a successful import: every item was a record, there is a column per field of the first
record (the last is the target), and column `j` holds exactly the `j`-th field of each record, in
order. -/
theorem C27_values (cfg : Config) (items : List Data.CsvItem) (header : Option (List String)) (d : Data)
    (h : Data.fromCsv cfg items header = .ok (.ok d)) :
    ∃ first rest, items = (first :: rest).map .record ∧ d.nexamples = (first :: rest).length ∧
      d.cols.length = first.length ∧ d.nfeatures + 1 = d.cols.length ∧ d.names.length = d.cols.length ∧
      ∀ j (hj : j < d.cols.length),
        (d.cols[j]).values.map some = (first :: rest).map (fun r => (r[j]?).join) := by
  obtain ⟨first, rest, h1, h2, _, h3, h4, h5, h6, h7⟩ := fromCsv_cases h
  refine ⟨first, rest, by rw [h1]; rfl, h3, h4, by omega, by omega, fun j hj => ?_⟩
  obtain ⟨vs, e1, e2, _⟩ := h7 j (by omega) hj
  rw [e1, e2, (retype_values _ _).1]
  simp [Data.after]

/-- The names of the columns: with a header its fields, in order (the empty name for columns the header does not have);
without a header all names are empty. -/
theorem C27_names (cfg : Config) (items : List Data.CsvItem) (header : Option (List String)) (d : Data)
    (h : Data.fromCsv cfg items header = .ok (.ok d)) :
    d.names.length = d.cols.length ∧
    (cfg.csvHasHeader = true → ∃ hd, header = some hd ∧ hd.length ≤ d.cols.length ∧
      ∀ j < d.cols.length, d.names[j]? = some (if hj : j < hd.length then hd[j] else "")) ∧
    (cfg.csvHasHeader = false → ∀ n ∈ d.names, n = "") := by
  obtain ⟨_, _, _, _, _, h3, h4, h5, h6, h7⟩ := fromCsv_cases h
  clear h3 h5 h7
  refine ⟨by omega, ?_⟩
  unfold Data.fromCsv at h
  split at h
  · cases h
  rename_i count cols hl
  obtain ⟨r, hr, h⟩ := Out.bind_eq_ok.1 h
  cases r with
  | error e => cases h
  | ok names =>
    simp only at h
    split at h
    · cases h
    cases h
    unfold Data.csvNames at hr
    constructor
    · intro hh
      rw [if_pos hh] at hr
      cases header with
      | none => cases hr
      | some hd =>
        simp only at hr
        split at hr
        · rename_i hle
          cases hr
          refine ⟨hd, rfl, by simpa using hle, fun j hj => ?_⟩
          rw [List.length_map] at hj
          rw [List.getElem?_map, List.getElem?_range hj, Option.map_some]
          split
          · rename_i h1; rw [List.getElem?_eq_getElem h1]; rfl
          · rename_i h1; rw [List.getElem?_eq_none (by omega)]; rfl
        · cases hr
    · intro hh n hn
      rw [hh, if_neg (by simp)] at hr
      cases hr
      exact (List.mem_replicate.1 hn).2

/-- The limits of every column are its exact minimum and maximum (NaN fields are ignored). -/
theorem C27_limits (cfg : Config) (items : List Data.CsvItem) (header : Option (List String)) (d : Data)
    (h : Data.fromCsv cfg items header = .ok (.ok d)) :
    ∀ c ∈ d.cols, Spec.ExactLimits c.lo c.hi c.values := by
  obtain ⟨first, rest, h1, h2, _, h3, h4, h5, h6, h7⟩ := fromCsv_cases h
  intro c hc
  obtain ⟨j, hj, rfl⟩ := List.mem_iff_getElem.1 hc
  obtain ⟨vs, e1, e2, _⟩ := h7 j (by omega) hj
  obtain ⟨r1, r2, r3, _⟩ := retype_values cfg.maxNbins (Data.after
          { values := [], lo := .pinf, hi := .ninf,
            ftype := if j ∈ cfg.categoricalFeatures then .loCardCat else .numerical, card := 0 } vs)
  rw [e2, r1, r2, r3]
  simpa [Data.after] using Data.exactLimits_fold vs

/-- A column is categorical exactly if the configuration says so; then all its values are valid
categories, its cardinality is one more than the largest category, and it counts as
high-cardinality exactly if the cardinality exceeds `max_nbins`. -/
theorem C27_categories (cfg : Config) (items : List Data.CsvItem) (header : Option (List String))
    (d : Data) (h : Data.fromCsv cfg items header = .ok (.ok d)) (j : Nat) (hj : j < d.cols.length) :
    (j ∈ cfg.categoricalFeatures →
      (∀ v ∈ d.cols[j].values, Spec.IsCategory v) ∧ Spec.ExactCard d.cols[j].card d.cols[j].values ∧
      d.cols[j].ftype = (if d.cols[j].card > cfg.maxNbins then .hiCardCat else .loCardCat)) ∧
    (j ∉ cfg.categoricalFeatures → d.cols[j].ftype = .numerical) := by
  obtain ⟨first, rest, h1, h2, _, h3, h4, h5, h6, h7⟩ := fromCsv_cases h
  obtain ⟨vs, e1, e2, e3⟩ := h7 j (by omega) hj
  obtain ⟨r1, r2, r3, r4, r5⟩ := retype_values cfg.maxNbins (Data.after
          { values := [], lo := .pinf, hi := .ninf,
            ftype := if j ∈ cfg.categoricalFeatures then .loCardCat else .numerical, card := 0 } vs)
  rw [e2, r1, r4, r5]
  constructor
  · intro hc
    refine ⟨?_, ?_, ?_⟩
    · simpa [Data.after] using e3 hc
    · simpa [Data.after, hc] using Data.exactCard_fold vs
    · simp [Data.after, hc]
  · intro hc
    simp [Data.after, hc]

/-- A record that is malformed (a missing field or one that is not a number), a negative, fractional
or NaN category, or a reader error never gives a data set: conversely to `C27_values` and
`C27_categories`, the import succeeds if every record has all fields, all categories are valid and
the header is not longer than the records. -/
theorem C27_accepts (cfg : Config) (first : List (Option Num)) (rest : List (List (Option Num)))
    (header : Option (List String)) (hn : first ≠ [])
    (hheader : cfg.csvHasHeader = true → ∃ hd, header = some hd ∧ hd.length ≤ first.length)
    (hfields : ∀ r ∈ first :: rest, ∀ j < first.length, ∃ v, r[j]? = some (some v) ∧
      (j ∈ cfg.categoricalFeatures → Spec.IsCategory v)) :
    ∃ d, Data.fromCsv cfg ((first :: rest).map .record) header = .ok (.ok d) := by
  -- columns of values
  have hcol : ∀ j < first.length, ∀ (rs : List (List (Option Num))), (∀ r ∈ rs, r ∈ first :: rest) →
      ∃ vs : List Num, rs.map (fun r => (r[j]?).join) = vs.map some ∧
        (j ∈ cfg.categoricalFeatures → ∀ v ∈ vs, Spec.IsCategory v) := by
    intro j hj rs
    induction rs with
    | nil => intro _; exact ⟨[], rfl, by simp⟩
    | cons r rs ih =>
      intro hrs
      obtain ⟨vs, e1, e2⟩ := ih (fun x hx => hrs x (by simp [hx]))
      obtain ⟨v, f1, f2⟩ := hfields r (hrs r (by simp)) j hj
      refine ⟨v :: vs, by simp [f1, e1], fun hc u hu => ?_⟩
      simp only [List.mem_cons] at hu
      rcases hu with rfl | hu
      · exact f2 hc
      · exact e2 hc u hu
  have hil : (Data.initColumns cfg.categoricalFeatures first.length).length = first.length := by
    simp [Data.initColumns]
  have hmid : ∃ mid, Data.pushRecord 0 (Data.initColumns cfg.categoricalFeatures first.length) first
      = .ok mid := by
    refine ⟨(List.range first.length).pmap (fun j hj => Data.after
      ((Data.initColumns cfg.categoricalFeatures first.length)[j]'(by rw [hil]; exact hj))
              [((first[j]?).join).getD .nan]) (by simp), ?_⟩
    rw [Data.pushRecord_iff]
    refine ⟨by simp [hil], fun j hj hj' => ?_⟩
    obtain ⟨v, f1, f2⟩ := hfields first (by simp) j (by omega)
    refine ⟨v, by simp [f1], ?_⟩
    rw [Data.pushOne_eq]
    refine ⟨by simp [f1], fun hlo => f2 ?_⟩
    by_contra hc
    simp [Data.initColumns, hc] at hlo
  obtain ⟨mid, hmid⟩ := hmid
  obtain ⟨hm1, hm2⟩ := (Data.pushRecord_iff _ _ _ _).1 hmid
  have hloop : ∃ cols', Data.csvLoop cfg.categoricalFeatures (rest.map .record) 1 mid =
      .ok (1 + rest.length, cols') ∧ cols'.length = mid.length := by
    refine ⟨(List.range mid.length).pmap (fun j hj => Data.after (mid[j]'hj)
      (rest.map (fun r => ((r[j]?).join).getD .nan))) (by simp), ?_, by simp⟩
    rw [Data.csvLoop_iff _ _ _ _ _ _ (by omega)]
    refine ⟨rest, rfl, rfl, by simp, fun j hj hj' => ?_⟩
    obtain ⟨vs, e1, e2⟩ := hcol j (by omega) rest (fun r hr => by simp [hr])
    refine ⟨vs, e1, ?_, ?_⟩
    · simp only [List.getElem_pmap, List.getElem_range]
      congr 1
      have : rest.map (fun r => ((r[j]?).join).getD .nan) =
          (rest.map (fun r => (r[j]?).join)).map (fun o => o.getD .nan) := by simp
      rw [this, e1]; simp
    · intro hlo v hv
      obtain ⟨u, g1, g2⟩ := hm2 j (by omega) hj
      rw [Data.pushOne_eq] at g2
      rw [g2.1] at hlo
      refine e2 ?_ v hv
      by_contra hc
      simp [Data.initColumns, hc, Data.after] at hlo
  obtain ⟨cols', hl, hll⟩ := hloop
  have hlen : cols'.length = first.length := by omega
  have hnz : cols'.length ≠ 0 := by
    have := List.length_pos_iff.2 hn; omega
  unfold Data.fromCsv
  simp only [List.map_cons, Data.csvLoop, if_true, hmid, Nat.zero_add, hl]
  unfold Data.csvNames
  by_cases hh : cfg.csvHasHeader = true
  · obtain ⟨hd, rfl, hd2⟩ := hheader hh
    simp only [hh, if_true, if_pos (by omega : hd.length ≤ cols'.length), Out.ok_bind, if_neg hnz]
    exact ⟨_, rfl⟩
  · simp only [hh, Out.ok_bind, if_neg hnz]
    exact ⟨_, rfl⟩

/-- A finding: an input without any record makes `from_csv` panic instead of returning an error. -/
theorem C27_no_records_panic (cfg : Config) (hd : List String) :
    Data.fromCsv cfg [] (some hd) = .panic := by
  unfold Data.fromCsv Data.csvNames
  simp only [Data.csvLoop]
  cases hh : cfg.csvHasHeader with
  | true =>
    simp only [if_true, List.length_nil]
    by_cases h : hd.length ≤ 0
    · rw [if_pos h]; rfl
    · rw [if_neg h]; rfl
  | false => rfl

/-- Non-vacuity: two records with a categorical column 1. -/
example : ∃ d, Data.fromCsv { Config.new with categoricalFeatures := [1], csvHasHeader := false }
    [.record [some (.fin (1 / 2)), some (.fin 3), some .nan], .record [some .ninf, some (.fin 0), some (.fin 1)]]
    none = .ok (.ok d) := by
  refine C27_accepts _ [some (.fin (1 / 2)), some (.fin 3), some .nan] [[some .ninf, some (.fin 0), some (.fin 1)]]
    none (by simp) (by simp [Config.new]) ?_
  intro r hr j hj
  simp at hr hj
  rcases hr with rfl | rfl <;> interval_cases j <;> simp [Spec.IsCategory]
  · exact ⟨3, by norm_num⟩
  · exact ⟨0, by norm_num⟩

/-! ## C28 -/

/-- One call of `set_feature_data`. -/
structure SetCall where
  feat : Nat
  data : List Num
  categorical : Bool

/-- The data set after a call, also when the call reports an error or panics (a panic happens before
anything is changed). -/
def applySet (d : Data) (c : SetCall) : Data :=
  match Data.setFeatureData d c.feat c.data c.categorical with
  | .ok (d', _) => d'
  | _ => d

/-- A history of calls on a freshly allocated data set. -/
def history (cfg : Config) (nfeatures nexamples : Nat) (calls : List SetCall) : Data :=
  calls.foldl applySet (Data.empty cfg nfeatures nexamples)

theorem addStats_spec (cat : Bool) (c : Column) (v : Num) :
    (Data.addStats cat c v).1.values = c.values ∧ (Data.addStats cat c v).1.lo = Num.min c.lo v ∧
    (Data.addStats cat c v).1.hi = Num.max c.hi v ∧ (Data.addStats cat c v).1.ftype = c.ftype ∧
    c.card ≤ (Data.addStats cat c v).1.card ∧
    (cat = false → (Data.addStats cat c v).1.card = c.card ∧ (Data.addStats cat c v).2 = true) ∧
    ((Data.addStats cat c v).2 = true → cat = true → intoCat v < (Data.addStats cat c v).1.card) := by
  unfold Data.addStats
  cases cat with
  | false => simp
  | true =>
    simp only [if_true]
    split_ifs
    · refine ⟨rfl, rfl, rfl, rfl, Nat.le_max_left _ _, by simp, fun _ _ => ?_⟩
      have := Nat.le_max_right c.card (1 + intoCat v)
      exact Nat.lt_of_lt_of_le (by omega) this
    · simp

/-- Limits that are numbers and bound the column. -/
private def LimitInv (c : Column) : Prop :=
  c.lo ≠ .nan ∧ c.hi ≠ .nan ∧ Spec.Bounded c.lo c.hi c.values

private theorem addStats_inv (cat : Bool) (c : Column) (v : Num) (i : Nat) (h : LimitInv c) :
    LimitInv (Data.addStats cat { c with values := c.values.set i v } v).1 := by
  obtain ⟨h1, h2, h3⟩ := h
  obtain ⟨e1, e2, e3, _⟩ := addStats_spec cat { c with values := c.values.set i v } v
  refine ⟨by rw [e2]; exact Num.min_ne_nan h1, by rw [e3]; exact Num.max_ne_nan h2, ?_⟩
  rw [e1, e2, e3]
  intro u hu hun
  rcases List.mem_or_eq_of_mem_set hu with hu | rfl
  · obtain ⟨a, b⟩ := h3 u hu hun
    exact ⟨Num.le_trans (Data.min_le_left' h1) a, Num.le_trans b (Num.le_max_left h2)⟩
  · exact ⟨Data.min_le_right h1 hun, Data.le_max_right h2 hun⟩

private theorem setLoop_inv (cat : Bool) (vs : List Num) : ∀ (i : Nat) (c : Column), LimitInv c →
    LimitInv (Data.setLoop cat vs i c).1 := by
  induction vs with
  | nil => intro i c h; exact h
  | cons v vs ih =>
    intro i c h
    have h' := addStats_inv cat c v i h
    unfold Data.setLoop
    cases hs : Data.addStats cat { c with values := c.values.set i v } v with
    | mk c' b =>
      rw [hs] at h'
      cases b with
      | true => exact ih _ _ h'
      | false => exact h'

theorem setLoop_values (cat : Bool) (vs : List Num) : ∀ (i : Nat) (c : Column),
    (Data.setLoop cat vs i c).1.values.length = c.values.length ∧
    (Data.setLoop cat vs i c).1.ftype = c.ftype ∧ c.card ≤ (Data.setLoop cat vs i c).1.card ∧
    ((Data.setLoop cat vs i c).2 = true → i + vs.length ≤ c.values.length →
      (Data.setLoop cat vs i c).1.values = c.values.take i ++ vs ++ c.values.drop (i + vs.length) ∧
      (cat = true → ∀ v ∈ vs, intoCat v < (Data.setLoop cat vs i c).1.card)) := by
  induction vs with
  | nil => intro i c; simp [Data.setLoop]
  | cons v vs ih =>
    intro i c
    unfold Data.setLoop
    obtain ⟨a1, _, _, a4, a5, _, a7⟩ := addStats_spec cat { c with values := c.values.set i v } v
    cases hs : Data.addStats cat { c with values := c.values.set i v } v with
    | mk c' b =>
      rw [hs] at a1 a4 a5 a7
      simp only at a1 a4 a5 a7
      cases b with
      | true =>
        obtain ⟨h1, h2, h3, h4⟩ := ih (i + 1) c'
        simp only
        refine ⟨by rw [h1, a1]; simp, by rw [h2, a4], le_trans a5 h3, fun hok hlen => ?_⟩
        simp only [List.length_cons] at hlen
        obtain ⟨h5, h6⟩ := h4 hok (by rw [a1]; simp; omega)
        refine ⟨?_, fun hc u hu => ?_⟩
        · rw [h5, a1]
          have hi : i < c.values.length := by omega
          rw [List.take_set, List.drop_set_of_lt (by omega), List.take_succ_eq_append_getElem hi,
            List.set_append_right _ _ (by simp), List.length_take, Nat.min_eq_left (by omega)]
          simp
          congr 1; omega
        · simp only [List.mem_cons] at hu
          rcases hu with rfl | hu
          · exact lt_of_lt_of_le (a7 rfl hc) h3
          · exact h6 hc u hu
      | false => simp [a1, a4, a5]

theorem applySet_cases (d : Data) (c : SetCall) :
    applySet d c = d ∨ ∃ col ∈ d.cols, ∃ col', applySet d c = { d with cols := d.cols.set c.feat col' } ∧
      d.cols[c.feat]? = some col ∧ c.data.length = d.nexamples ∧ col.values.length = d.nexamples ∧
      ∃ b, Data.setFeatureData d c.feat c.data c.categorical = .ok (applySet d c, b) ∧
      (Data.setLoop c.categorical c.data 0 col).2 = b ∧
      col' = (if b = true ∧ c.categorical = true then
        { (Data.setLoop c.categorical c.data 0 col).1 with
          ftype := if (Data.setLoop c.categorical c.data 0 col).1.card > d.maxNbins then .hiCardCat
            else .loCardCat }
        else (Data.setLoop c.categorical c.data 0 col).1) := by
  unfold applySet Data.setFeatureData
  by_cases hl : c.data.length = d.nexamples
  · rw [if_pos hl]
    cases hc : d.cols[c.feat]? with
    | none => left; rfl
    | some col =>
      simp only
      by_cases hv : col.values.length = d.nexamples
      · rw [if_pos hv]
        right
        refine ⟨col, List.mem_of_getElem? hc, ?_⟩
        cases hs : Data.setLoop c.categorical c.data 0 col with
        | mk c' b =>
          cases b with
          | false =>
            simp only
            refine ⟨c', rfl, trivial, hl, hv, false, rfl, rfl, by simp⟩
          | true =>
            simp only
            refine ⟨_, rfl, trivial, hl, hv, true, rfl, rfl, ?_⟩
            cases c.categorical with
            | false => simp
            | true => simp only [if_true, and_self]; split_ifs <;> rfl
      · rw [if_neg hv]; left; rfl
  · rw [if_neg hl]; left; rfl

private theorem history_inv (cfg : Config) (nf ne : Nat) (P : Column → Prop)
    (h0 : P ⟨List.replicate ne (.fin 0), .fin 0, .fin 0, .numerical, 0⟩)
    (hstep : ∀ (cat : Bool) (vs : List Num) (c : Column), P c → P (Data.setLoop cat vs 0 c).1)
    (htype : ∀ (c : Column) t, P c → P ⟨c.values, c.lo, c.hi, t, c.card⟩)
    (calls : List SetCall) : ∀ c ∈ (history cfg nf ne calls).cols, P c := by
  unfold history
  suffices H : ∀ d : Data, (∀ c ∈ d.cols, P c) → ∀ c ∈ (calls.foldl applySet d).cols, P c by
    refine H _ ?_
    intro c hc
    simp [Data.empty] at hc
    rw [hc]; exact h0
  induction calls with
  | nil => intro d hd; exact hd
  | cons call calls ih =>
    intro d hd
    refine ih _ ?_
    rcases applySet_cases d call with h | ⟨col, hmem, col', h, _, _, _, b, _, _, hcol'⟩
    · rw [h]; exact hd
    · rw [h]
      intro c hc
      rcases List.mem_or_eq_of_mem_set hc with hc | rfl
      · exact hd c hc
      · rw [hcol']
        have := hstep call.categorical call.data col (hd col hmem)
        split_ifs
        · exact htype _ _ this
        · exact htype _ _ this
        · exact this

/-- After any history of `set_feature_data` calls, also failed ones, the limits of every column bound
its values (NaN aside). -/
theorem C28_limits_bound_partial (cfg : Config) (nfeatures nexamples : Nat) (calls : List SetCall) :
    ∀ c ∈ (history cfg nfeatures nexamples calls).cols, Spec.Bounded c.lo c.hi c.values := by
  intro c hc
  refine (history_inv cfg nfeatures nexamples LimitInv ?_ ?_ ?_ calls c hc).2.2
  · refine ⟨by simp, by simp, fun v hv _ => ?_⟩
    simp at hv
    rw [hv.2]; simp
  · intro cat vs c h; exact setLoop_inv cat vs 0 c h
  · intro c t h; exact h

/-- The limits always include 0. -/
theorem C28_limits_include_zero_partial (cfg : Config) (nfeatures nexamples : Nat) (calls : List SetCall) :
    ∀ c ∈ (history cfg nfeatures nexamples calls).cols,
      c.lo.le (.fin 0) = true ∧ (Num.fin 0).le c.hi = true := by
  refine history_inv cfg nfeatures nexamples
    (fun c => c.lo.le (.fin 0) = true ∧ (Num.fin 0).le c.hi = true) ⟨by simp, by simp⟩ ?_ ?_ calls
  · intro cat vs c
    generalize 0 = i
    induction vs generalizing i c with
    | nil => intro h; exact h
    | cons v vs ih =>
      intro h
      unfold Data.setLoop
      obtain ⟨e1, e2, e3, _⟩ := addStats_spec cat { c with values := c.values.set i v } v
      cases hs : Data.addStats cat { c with values := c.values.set i v } v with
      | mk c' b =>
        rw [hs] at e1 e2 e3
        have h' : c'.lo.le (.fin 0) = true ∧ (Num.fin 0).le c'.hi = true := by
          simp only at e1 e2 e3
          rw [e2, e3]
          exact ⟨Num.le_trans (Data.min_le_left' (Num.ne_nan_of_le_left h.1)) h.1,
            Num.le_trans h.2 (Num.le_max_left (Num.ne_nan_of_le_right h.2))⟩
        cases b with
        | true => exact ih _ _ h'
        | false => exact h'
  · intro c t h; exact h

/-- The property is false of the code: the limits need not be attained. Setting a column of one
example to the value 5 gives the limits 0 and 5. -/
theorem C28_attained_refuted : ∃ calls : List SetCall,
    ∃ c ∈ (history Config.new 1 1 calls).cols, c.values = [.fin 5] ∧ c.lo = .fin 0 ∧
      ¬ Spec.ExactLimits c.lo c.hi c.values := by
  refine ⟨[⟨0, [.fin 5], false⟩], ⟨[.fin 5], .fin 0, .fin 5, .numerical, 0⟩, ?_, rfl, rfl, ?_⟩
  · have : (history Config.new 1 1 [⟨0, [.fin 5], false⟩]).cols =
        [⟨[.fin 5], .fin 0, .fin 5, .numerical, 0⟩, ⟨[.fin 0], .fin 0, .fin 0, .numerical, 0⟩] := by
      simp [history, applySet, Data.setFeatureData, Data.empty, Data.setLoop, Data.addStats, Num.min,
        Num.max, List.replicate_succ]
    rw [this]; simp
  · rintro ⟨_, h⟩
    have := (h ⟨.fin 5, by simp, by simp⟩).1
    simp at this

/-- A successful call stores exactly the given values in the chosen column and leaves the other
columns alone. -/
theorem C28_values (d d' : Data) (feat : Nat) (data : List Num) (categorical : Bool)
    (h : Data.setFeatureData d feat data categorical = .ok (d', true)) :
    (∃ c, d'.cols[feat]? = some c ∧ c.values = data) ∧ d'.cols.length = d.cols.length ∧
      ∀ j, j ≠ feat → d'.cols[j]? = d.cols[j]? := by
  have happ : applySet d ⟨feat, data, categorical⟩ = d' := by simp [applySet, h]
  rcases applySet_cases d ⟨feat, data, categorical⟩ with hh | ⟨col, hmem, col', h1, h2, h3, h4, b, h5, h6, h7⟩
  · -- the call cannot be a panic
    unfold Data.setFeatureData at h
    by_cases hl : data.length = d.nexamples
    · rw [if_pos hl] at h
      cases hc : d.cols[feat]? with
      | none => rw [hc] at h; simp at h
      | some col =>
        rw [hc] at h
        simp only at h
        by_cases hv : col.values.length = d.nexamples
        · rw [if_pos hv] at h
          obtain ⟨v1, v2, v3, v4⟩ := setLoop_values categorical data 0 col
          cases hs : Data.setLoop categorical data 0 col with
          | mk c' b =>
            rw [hs] at h v1 v2 v3 v4
            cases b with
            | false => simp at h
            | true =>
              obtain ⟨v5, _⟩ := v4 rfl (by omega)
              simp only [List.take_zero, List.nil_append, Nat.zero_add] at v5
              rw [List.drop_eq_nil_of_le (by omega), List.append_nil] at v5
              have hlt : feat < d.cols.length := (List.getElem?_eq_some_iff.1 hc).1
              simp only [Out.ok.injEq, Prod.mk.injEq, and_true] at h
              rw [← h]
              refine ⟨⟨_, by simp only [List.getElem?_set_self hlt]; rfl, ?_⟩, by simp, ?_⟩
              · split_ifs <;> exact v5
              · intro j hj; simp only [List.getElem?_set_ne (Ne.symm hj)]
        · rw [if_neg hv] at h; simp at h
    · rw [if_neg hl] at h; simp at h
  · rw [happ] at h1 h5
    simp only at h2 h3 h4 h5 h6 h7
    rw [h] at h5
    simp only [Out.ok.injEq, Prod.mk.injEq, true_and] at h5
    obtain ⟨v1, v2, v3, v4⟩ := setLoop_values categorical data 0 col
    obtain ⟨v5, _⟩ := v4 (by rw [h6, h5]) (by omega)
    simp only [List.take_zero, List.nil_append, Nat.zero_add] at v5
    rw [List.drop_eq_nil_of_le (by omega), List.append_nil] at v5
    have hlt : feat < d.cols.length := (List.getElem?_eq_some_iff.1 h2).1
    rw [h1]
    refine ⟨⟨col', by simp only [List.getElem?_set_self hlt], ?_⟩, by simp, ?_⟩
    · rw [h7]; split_ifs <;> exact v5
    · intro j hj; simp only [List.getElem?_set_ne (Ne.symm hj)]

example : ∃ d', Data.setFeatureData (Data.empty Config.new 1 2) 0 [.fin 3, .fin 1] true = .ok (d', true) := by
  have h3 : Data.checkCategorical (.fin 3) = true := by
    rw [Data.checkCategorical_iff]; exact Or.inr ⟨3, by norm_num⟩
  have h1 : Data.checkCategorical (.fin 1) = true := by
    rw [Data.checkCategorical_iff]; exact Or.inr ⟨1, by norm_num⟩
  simp [Data.setFeatureData, Data.empty, Data.setLoop, Data.addStats, h3, h1, List.replicate_succ]

/-! ## C29 -/

/-- `max_nbins` is at most the configured maximum, and every category of a low-cardinality column has
its own bin, except that binary columns have only a bin for category 0, and constant ones (category 0
only) none. -/
def BinsOk (maxNbins : Nat) (c : Column) : Prop :=
  Data.colMaxNbins maxNbins c ≤ maxNbins ∧
  (c.ftype = .loCardCat → ∀ v ∈ c.values,
    intoCat v < Data.colMaxNbins maxNbins c ∨
    (c.card = 2 ∧ Data.colMaxNbins maxNbins c = 1 ∧ intoCat v = 1) ∨
    (c.card = 1 ∧ Data.colMaxNbins maxNbins c = 0 ∧ intoCat v = 0))

private theorem binsOk_of (m : Nat) (c : Column) (h1 : c.ftype = .loCardCat → c.card ≤ m)
    (h2 : c.ftype = .loCardCat → ∀ v ∈ c.values, intoCat v < c.card) : BinsOk m c := by
  unfold BinsOk Data.colMaxNbins
  cases ht : c.ftype with
  | loCardCat =>
    have := h1 ht
    simp only
    refine ⟨by split_ifs <;> omega, fun _ v hv => ?_⟩
    have := h2 ht v hv
    split_ifs <;> omega
  | hiCardCat => simp
  | numerical => simp

/-- **C29.** Asking for the number of bins answers for every column and panics for every other number. -/
theorem C29_unknown (d : Data) (f : Nat) :
    (f < d.cols.length → ∃ n, d.featMaxNbins f = .ok n) ∧ (d.cols.length ≤ f → d.featMaxNbins f = .panic) := by
  unfold Data.featMaxNbins
  refine ⟨fun h => ?_, fun h => ?_⟩
  · rw [List.getElem?_eq_getElem h]
    exact ⟨_, rfl⟩
  · rw [List.getElem?_eq_none h]

/-- Data read from CSV: the number of bins is within the maximum and covers the categories. -/
theorem C29_csv (cfg : Config) (items : List Data.CsvItem) (header : Option (List String)) (d : Data)
    (h : Data.fromCsv cfg items header = .ok (.ok d)) : ∀ c ∈ d.cols, BinsOk cfg.maxNbins c := by
  intro c hc
  obtain ⟨j, hj, rfl⟩ := List.mem_iff_getElem.1 hc
  obtain ⟨h1, h2⟩ := C27_categories cfg items header d h j hj
  by_cases hcat : j ∈ cfg.categoricalFeatures
  · obtain ⟨_, e2, e3⟩ := h1 hcat
    refine binsOk_of _ _ (fun ht => ?_) (fun _ => e2.1)
    rw [e3] at ht
    split_ifs at ht with hgt
    omega
  · have := h2 hcat
    exact binsOk_of _ _ (fun ht => by rw [this] at ht; simp at ht) (fun ht => by rw [this] at ht; simp at ht)

/-- Data set through the API: the same, after any history in which a column that is set as
categorical is never set as numerical and no call fails. (Missing from the full property: histories
with failed calls, for which it is false, see `C29_failed_call_refuted`, and columns that change from
categorical to numerical, whose type the code does not reset, see `C29_retyped_refuted`.) -/
theorem C29_api_partial (cfg : Config) (nfeatures nexamples : Nat) (calls : List SetCall)
    (hok : ∀ pre c post, calls = pre ++ c :: post → ∃ d',
      Data.setFeatureData (history cfg nfeatures nexamples pre) c.feat c.data c.categorical = .ok (d', true))
    (hcons : ∀ c ∈ calls, ∀ c' ∈ calls, c.feat = c'.feat → c.categorical = c'.categorical) :
    ∀ c ∈ (history cfg nfeatures nexamples calls).cols, BinsOk cfg.maxNbins c := by
  suffices H : ∀ pre post, calls = pre ++ post →
      (history cfg nfeatures nexamples pre).maxNbins = cfg.maxNbins ∧
      ∀ j c, (history cfg nfeatures nexamples pre).cols[j]? = some c →
        (c.ftype = .loCardCat → c.card ≤ cfg.maxNbins ∧ ∀ v ∈ c.values, intoCat v < c.card) ∧
        (c.ftype ≠ .numerical → ∃ call ∈ calls, call.feat = j ∧ call.categorical = true) by
    intro c hc
    obtain ⟨j, hj, rfl⟩ := List.mem_iff_getElem.1 hc
    have := ((H calls [] (by simp)).2 j _ (List.getElem?_eq_getElem hj)).1
    exact binsOk_of _ _ (fun h => (this h).1) (fun h => (this h).2)
  intro pre
  induction pre using List.reverseRecOn with
  | nil =>
    intro post _
    refine ⟨rfl, fun j c hc => ?_⟩
    have : c.ftype = .numerical := by
      have := List.mem_of_getElem? hc
      simp [history, Data.empty] at this
      rw [this]
    exact ⟨fun h => by rw [this] at h; simp at h, fun h => absurd this h⟩
  | append_singleton pre call ih =>
    intro post hp
    obtain ⟨ih1, ih2⟩ := ih (call :: post) (by rw [hp]; simp)
    obtain ⟨d', hd'⟩ := hok pre call post (by rw [hp]; simp)
    have hcall : call ∈ calls := by rw [hp]; simp
    have hhist : history cfg nfeatures nexamples (pre ++ [call]) =
        applySet (history cfg nfeatures nexamples pre) call := by simp [history]
    rw [hhist]
    rcases applySet_cases (history cfg nfeatures nexamples pre) call with
      hh | ⟨col, hmem, col', h1, h2, h3, h4, b, h5, h6, h7⟩
    · rw [hh]; exact ⟨ih1, ih2⟩
    · rw [hd'] at h5
      simp only [Out.ok.injEq, Prod.mk.injEq] at h5
      obtain ⟨_, rfl⟩ := h5
      rw [h1]
      refine ⟨ih1, fun j c hc => ?_⟩
      simp only [List.getElem?_set] at hc
      by_cases hj : call.feat = j
      · subst hj
        have hlt : call.feat < (history cfg nfeatures nexamples pre).cols.length :=
          (List.getElem?_eq_some_iff.1 h2).1
        simp only [if_true, hlt, Option.some.injEq] at hc
        subst hc
        obtain ⟨v1, v2, v3, v4⟩ := setLoop_values call.categorical call.data 0 col
        obtain ⟨v5, v6⟩ := v4 h6 (by omega)
        simp only [List.take_zero, List.nil_append, Nat.zero_add] at v5
        rw [List.drop_eq_nil_of_le (by omega), List.append_nil] at v5
        rw [h7]
        cases hcat : call.categorical with
        | true =>
          simp only [and_self, if_true]
          rw [hcat] at v5 v6
          constructor
          · intro ht
            split_ifs at ht with hgt
            rw [v5]
            refine ⟨?_, v6 rfl⟩
            rw [ih1] at hgt; omega
          · intro _; exact ⟨call, hcall, rfl, hcat⟩
        | false =>
          simp only [Bool.false_eq_true, and_false, if_false]
          rw [hcat] at v2
          have hnum : col.ftype = .numerical := by
            by_contra hn
            obtain ⟨c2, hc2, e1, e2⟩ := (ih2 _ _ h2).2 hn
            have := hcons c2 hc2 call hcall e1
            rw [e2, hcat] at this
            simp at this
          rw [v2, hnum]
          simp
      · rw [if_neg hj] at hc
        exact ih2 j c hc

/-- A finding: a call that fails half-way (value 7 accepted, -1 rejected) leaves a low-cardinality
column with a cardinality, and so a number of bins, above the maximum of 2. -/
theorem C29_failed_call_refuted : ∃ (cfg : Config) (calls : List SetCall),
    ∃ c ∈ (history cfg 1 2 calls).cols, ¬ BinsOk cfg.maxNbins c := by
  refine ⟨{ Config.new with maxNbins := 2 }, [⟨0, [.fin 0, .fin 1], true⟩, ⟨0, [.fin 7, .fin (-1)], true⟩],
    ⟨[.fin 7, .fin (-1)], .fin (-1), .fin 7, .loCardCat, 8⟩, ?_, ?_⟩
  · have h0 : Data.checkCategorical (.fin 0) = true := by
      rw [Data.checkCategorical_iff]; exact Or.inr ⟨0, by norm_num⟩
    have h1 : Data.checkCategorical (.fin 1) = true := by
      rw [Data.checkCategorical_iff]; exact Or.inr ⟨1, by norm_num⟩
    have h7 : Data.checkCategorical (.fin 7) = true := by
      rw [Data.checkCategorical_iff]; exact Or.inr ⟨7, by norm_num⟩
    have hm : Data.checkCategorical (.fin (-1)) = false := by
      rw [Bool.eq_false_iff, Ne, Data.checkCategorical_iff]
      rintro (h | ⟨n, h⟩)
      · simp at h
      · have hn : (0 : ℚ) ≤ n := by positivity
        simp at h
        linarith
    have c0 : intoCat (.fin 0) = 0 := by norm_num [intoCat, Num.toU32, Num.cast, Num.trunc]
    have c1 : intoCat (.fin 1) = 1 := by norm_num [intoCat, Num.toU32, Num.cast, Num.trunc]
    have c7 : intoCat (.fin 7) = 7 := by
      have : ⌊(7 : ℚ)⌋ = 7 := Int.floor_ofNat 7
      norm_num [intoCat, Num.toU32, Num.cast, Num.trunc, this]
      rfl
    have : (history { Config.new with maxNbins := 2 } 1 2
        [⟨0, [.fin 0, .fin 1], true⟩, ⟨0, [.fin 7, .fin (-1)], true⟩]).cols =
        [⟨[.fin 7, .fin (-1)], .fin (-1), .fin 7, .loCardCat, 8⟩,
          ⟨[.fin 0, .fin 0], .fin 0, .fin 0, .numerical, 0⟩] := by
      norm_num [history, applySet, Data.setFeatureData, Data.empty, Data.setLoop, Data.addStats, Num.min,
        Num.max, List.replicate_succ, h0, h1, h7, hm, c0, c1, c7]
    rw [this]; simp
  · intro h
    have := h.1
    simp [Data.colMaxNbins] at this

/-- A finding: a column set as categorical and later as numerical keeps its type, so its values need
not be covered by its bins. -/
theorem C29_retyped_refuted : ∃ (cfg : Config) (calls : List SetCall),
    ∃ c ∈ (history cfg 1 1 calls).cols, ¬ BinsOk cfg.maxNbins c := by
  refine ⟨Config.new, [⟨0, [.fin 0], true⟩, ⟨0, [.fin 7], false⟩],
    ⟨[.fin 7], .fin 0, .fin 7, .loCardCat, 1⟩, ?_, ?_⟩
  · have h0 : Data.checkCategorical (.fin 0) = true := by
      rw [Data.checkCategorical_iff]; exact Or.inr ⟨0, by norm_num⟩
    have c0 : intoCat (.fin 0) = 0 := by norm_num [intoCat, Num.toU32, Num.cast, Num.trunc]
    have : (history Config.new 1 1 [⟨0, [.fin 0], true⟩, ⟨0, [.fin 7], false⟩]).cols =
        [⟨[.fin 7], .fin 0, .fin 7, .loCardCat, 1⟩, ⟨[.fin 0], .fin 0, .fin 0, .numerical, 0⟩] := by
      norm_num [history, applySet, Data.setFeatureData, Data.empty, Data.setLoop, Data.addStats, Num.min,
        Num.max, List.replicate_succ, h0, c0, Config.new]
    rw [this]; simp
  · intro h
    have c7 : intoCat (.fin 7) = 7 := by
      have : ⌊(7 : ℚ)⌋ = 7 := Int.floor_ofNat 7
      norm_num [intoCat, Num.toU32, Num.cast, Num.trunc, this]
      rfl
    have := h.2 rfl (.fin 7) (by simp)
    simp [Data.colMaxNbins, c7] at this

/-! ### Files that are refused -/

private theorem pushRecord_facts (recNo : Nat) : ∀ (cols : List Column) (fields : List (Option Num)),
    (∀ cols', Data.pushRecord recNo cols fields = .ok cols' → cols'.map Column.ftype = cols.map Column.ftype) ∧
    ∀ e, Data.pushRecord recNo cols fields = .error e →
      (e = .parse recNo ∧ ∃ j < cols.length, (fields[j]?).join = none) ∨
      (e = .category ∧ ∃ (j : Nat) (c : Column) (v : Num), cols[j]? = some c ∧ c.ftype = .loCardCat ∧ fields[j]? = some (some v) ∧ ¬ Spec.IsCategory v)
  | [], fields => ⟨fun cols' h => (by cases h; rfl), fun e h => (by cases h)⟩
  | c :: cols, fields => by
    obtain ⟨ih1, ih2⟩ := pushRecord_facts recNo cols fields.tail
    unfold Data.pushRecord
    cases hf : fields.head?.join with
    | none =>
      refine ⟨fun _ h => (by cases h), fun e h => ?_⟩
      cases h
      refine .inl ⟨rfl, 0, by simp, ?_⟩
      rw [← List.head?_eq_getElem?]; exact hf
    | some v =>
      have hv : fields[0]? = some (some v) := by
        rw [← List.head?_eq_getElem?]
        cases hh : fields.head? with
        | none => rw [hh] at hf; cases hf
        | some o => rw [hh] at hf; rw [← hf]; rfl
      simp only
      cases hs : Data.addStats (c.ftype == .loCardCat) { c with values := c.values ++ [v] } v with
      | mk c' b =>
        have e1 : c'.ftype = c.ftype := by
          have := (addStats_spec (c.ftype == .loCardCat) { c with values := c.values ++ [v] } v).2.2.2.1
          rw [hs] at this; exact this
        cases b with
        | false =>
          refine ⟨fun _ h => (by cases h), fun e h => ?_⟩
          cases h
          refine .inr ⟨rfl, 0, c, v, rfl, ?_, hv, ?_⟩
          · cases hc : (c.ftype == .loCardCat) with
            | true => exact beq_iff_eq.1 hc
            | false => rw [hc] at hs; cases hs
          · intro hcat
            have := (Data.checkCategorical_iff v).2 hcat
            unfold Data.addStats at hs
            rw [this] at hs
            cases hc : (c.ftype == .loCardCat) <;> rw [hc] at hs <;> cases hs
        | true =>
          simp only
          cases hp : Data.pushRecord recNo cols fields.tail with
          | error e =>
            refine ⟨fun _ h => (by cases h), fun e' h => ?_⟩
            cases h
            rcases ih2 e hp with ⟨h1, j, hj, h2⟩ | ⟨h1, j, x, u, h2, h3, h4, h5⟩
            · refine .inl ⟨h1, j + 1, by simpa using hj, ?_⟩
              rw [← h2, List.getElem?_tail]
            · refine .inr ⟨h1, j + 1, x, u, by simpa using h2, h3, ?_, h5⟩
              rw [← h4, List.getElem?_tail]
          | ok cols' =>
            refine ⟨fun _ h => ?_, fun e h => (by cases h)⟩
            cases h
            rw [List.map_cons, List.map_cons, e1, ih1 _ hp]

private theorem csvLoop_error (cats : List Nat) (w : Nat) : ∀ (items : List Data.CsvItem) (count : Nat) (cols : List Column),
    (count = 0 → ∀ f rest, items = .record f :: rest → f.length = w) →
    (count ≠ 0 → cols.map Column.ftype = (Data.initColumns cats w).map Column.ftype) →
    ∀ e, Data.csvLoop cats items count cols = .error e →
      (e = .csv ∧ ∃ (pre : List (List (Option Num))) (post : List Data.CsvItem), items = pre.map .record ++ .error :: post) ∨
      (∃ (pre : List (List (Option Num))) (r : List (Option Num)) (post : List Data.CsvItem), items = pre.map .record ++ .record r :: post ∧ e = .parse (count + pre.length) ∧
        ∃ j < w, (r[j]?).join = none) ∨
      (e = .category ∧ ∃ (pre : List (List (Option Num))) (r : List (Option Num)) (post : List Data.CsvItem) (j : Nat) (v : Num), items = pre.map .record ++ .record r :: post ∧ j < w ∧ j ∈ cats ∧ r[j]? = some (some v) ∧
        ¬ Spec.IsCategory v) := by
  intro items
  induction items with
  | nil => intro count cols _ _ e h; cases h
  | cons it items ih =>
    intro count cols h0 h1 e h
    cases it with
    | error =>
      cases h
      exact .inl ⟨rfl, [], items, rfl⟩
    | record f =>
      unfold Data.csvLoop at h
      simp only at h
      have hty : (if count = 0 then Data.initColumns cats f.length else cols).map Column.ftype =
          (Data.initColumns cats w).map Column.ftype := by
        split_ifs with hc
        · rw [h0 hc f items rfl]
        · exact h1 hc
      have hlen : (if count = 0 then Data.initColumns cats f.length else cols).length = w := by
        have := congrArg List.length hty
        rw [List.length_map, List.length_map] at this
        rw [this]; simp [Data.initColumns]
      generalize (if count = 0 then Data.initColumns cats f.length else cols) = cols0 at h hty hlen
      obtain ⟨p1, p2⟩ := pushRecord_facts count cols0 f
      cases hp : Data.pushRecord count cols0 f with
      | error e' =>
        rw [hp] at h
        cases h
        rcases p2 _ hp with ⟨rfl, j, hj, hn⟩ | ⟨rfl, j, c, v, hc, hl, hv, hnc⟩
        · exact .inr (.inl ⟨[], f, items, rfl, rfl, j, by omega, hn⟩)
        · have hj : j < w := by rw [← hlen]; exact (List.getElem?_eq_some_iff.1 hc).1
          refine .inr (.inr ⟨rfl, [], f, items, j, v, rfl, hj, ?_, hv, hnc⟩)
          have h3 : (cols0.map Column.ftype)[j]? = some .loCardCat := by
            rw [List.getElem?_map, hc, Option.map_some, hl]
          rw [hty] at h3
          by_contra hnc
          simp [Data.initColumns, hj, hnc] at h3
      | ok cols' =>
        rw [hp] at h
        simp only at h
        rcases ih (count + 1) cols' (by omega) (fun _ => by rw [p1 _ hp, hty]) e h with
          ⟨rfl, pre, post, hi⟩ | ⟨pre, r, post, hi, rfl, hr⟩ | ⟨rfl, pre, r, post, j, v, hi, hr⟩
        · exact .inl ⟨rfl, f :: pre, post, by rw [hi]; rfl⟩
        · exact .inr (.inl ⟨f :: pre, r, post, by rw [hi]; rfl, by rw [List.length_cons]; congr 1; omega, hr⟩)
        · exact .inr (.inr ⟨rfl, f :: pre, r, post, j, v, by rw [hi]; rfl, hr⟩)

/-- **C27.** Why a file is refused: the reader reports an error; record `k` (counted from 0) is reported because a field is
missing or is not a number (the first record says how many fields there are); a categorical field is not a category; there is
no header. -/
theorem C27_rejects (cfg : Config) (items : List Data.CsvItem) (header : Option (List String)) (e : Data.Err)
    (h : Data.fromCsv cfg items header = .ok (.error e)) :
    (e = .csv ∧ ∃ (pre : List (List (Option Num))) (post : List Data.CsvItem), items = pre.map .record ++ .error :: post) ∨
    (∃ (first : List (Option Num)) (pre : List (List (Option Num))) (r : List (Option Num)) (post : List Data.CsvItem),
      items = pre.map .record ++ .record r :: post ∧ (pre ++ [r]).head? = some first ∧ e = .parse pre.length ∧
      ∃ j < first.length, (r[j]?).join = none) ∨
    (e = .category ∧ ∃ (first : List (Option Num)) (pre : List (List (Option Num))) (r : List (Option Num)) (post : List Data.CsvItem) (j : Nat) (v : Num),
      items = pre.map .record ++ .record r :: post ∧ (pre ++ [r]).head? = some first ∧
      j < first.length ∧ j ∈ cfg.categoricalFeatures ∧ r[j]? = some (some v) ∧ ¬ Spec.IsCategory v) ∨
    (e = .header ∧ cfg.csvHasHeader = true ∧ header = none) := by
  have hfirst : ∀ (pre : List (List (Option Num))) (r : List (Option Num)) (post : List Data.CsvItem), items = pre.map Data.CsvItem.record ++ .record r :: post →
      ∃ first, (pre ++ [r]).head? = some first ∧ ∃ rest, items = .record first :: rest := by
    intro pre r post hi
    cases pre with
    | nil => exact ⟨r, rfl, post, hi⟩
    | cons p pre => exact ⟨p, rfl, _, hi⟩
  unfold Data.fromCsv at h
  cases hl : Data.csvLoop cfg.categoricalFeatures items 0 [] with
  | error e' =>
    rw [hl] at h
    simp only [Out.ok.injEq, Except.error.injEq] at h
    subst h
    obtain ⟨w, hw⟩ : ∃ w, ∀ f rest, items = Data.CsvItem.record f :: rest → f.length = w := by
      cases items with
      | nil => exact ⟨0, fun _ _ h => by cases h⟩
      | cons it items =>
        cases it with
        | error => exact ⟨0, fun _ _ h => by cases h⟩
        | record f => exact ⟨f.length, fun _ _ h => by cases h; rfl⟩
    rcases csvLoop_error cfg.categoricalFeatures w items 0 [] (fun _ => hw) (fun h => absurd rfl h) e' hl with
      h | ⟨pre, r, post, hi, he, j, hj, hn⟩ | ⟨he, pre, r, post, j, v, hi, hj, hr⟩
    · exact .inl h
    · obtain ⟨first, h1, rest, h2⟩ := hfirst pre r post hi
      exact .inr (.inl ⟨first, pre, r, post, hi, h1, by rw [he, Nat.zero_add], j, by rw [hw _ _ h2]; exact hj, hn⟩)
    · obtain ⟨first, h1, rest, h2⟩ := hfirst pre r post hi
      exact .inr (.inr (.inl ⟨he, first, pre, r, post, j, v, hi, h1, by rw [hw _ _ h2]; exact hj, hr⟩))
  | ok p =>
    obtain ⟨count, cols⟩ := p
    rw [hl] at h
    simp only at h
    obtain ⟨r, hr, h⟩ := Out.bind_eq_ok.1 h
    cases r with
    | ok names =>
      simp only at h
      split_ifs at h
      cases h
    | error e' =>
      simp only [Out.pure_eq, Out.ok.injEq, Except.error.injEq] at h
      subst h
      unfold Data.csvNames at hr
      split_ifs at hr with hh
      · cases header with
        | none => cases hr; exact .inr (.inr (.inr ⟨rfl, hh, rfl⟩))
        | some hd => simp only at hr; split_ifs at hr; cases hr
      · cases hr

/-- C27: a file whose third record has a text in a numerical column. -/
example : Data.fromCsv { Config.new with csvHasHeader := false } [.record [some (.fin 1), some (.fin 0)],
    .record [some (.fin 2), some (.fin 1)], .record [none, some (.fin 1)]] none = .ok (.error (.parse 2)) := by
  decide +kernel

end BitBoost.Props
