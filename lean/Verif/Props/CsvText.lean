import Verif.Props.Text
import Verif.Props.Config
/-!
# C72: tables in texts
-/
namespace BitBoost.Props
open BitBoost Spec Text

theorem isTerm_iff (c : Char) : isTerm c = true ↔ LineEnd c := by simp [isTerm, LineEnd]

theorem isTerm_false {c : Char} (h : ¬ LineEnd c) : isTerm c = false := by
  cases hc : isTerm c with
  | false => rfl
  | true => exact absurd ((isTerm_iff c).1 hc) h

/-- Characters of a field that is not quoted. -/
theorem read_plain (delim : Char) (f : List Char) (h1 : delim ∉ f) (h2 : ∀ c ∈ f, ¬ LineEnd c) :
    ∀ (g : List Char) (rec : List (List Char)) (done : List (List (List Char))),
      f.foldl (step delim) ⟨.inField, g, rec, done⟩ = ⟨.inField, g ++ f, rec, done⟩ := by
  induction f with
  | nil => intro g rec done; simp
  | cons c f ih =>
    intro g rec done
    have hc : c ≠ delim := fun e => h1 (by simp [e])
    have ht := isTerm_false (h2 c (by simp))
    simp only [List.foldl_cons, step, stepField, if_neg hc, ht, push]
    rw [show (if false = true then closeRecord (⟨.inField, g, rec, done⟩ : Csv) else ⟨.inField, g ++ [c], rec, done⟩) =
      ⟨.inField, g ++ [c], rec, done⟩ by rfl]
    rw [ih (fun h => h1 (by simp [h])) (fun x hx => h2 x (by simp [hx]))]
    simp

/-- Characters of a quoted field. -/
theorem read_quoted (delim : Char) (f : List Char) :
    ∀ (g : List Char) (rec : List (List Char)) (done : List (List (List Char))),
      (doubled f).foldl (step delim) ⟨.inQuoted, g, rec, done⟩ = ⟨.inQuoted, g ++ f, rec, done⟩ := by
  induction f with
  | nil => intro g rec done; simp [doubled]
  | cons c f ih =>
    intro g rec done
    by_cases hc : c = '"'
    · subst hc
      simp only [doubled, if_true, List.foldl_cons, step, push]
      rw [ih]; simp
    · simp only [doubled, if_neg hc, List.foldl_cons, step, push]
      rw [ih]; simp

/-- A field: what the reader has after it. -/
theorem read_field {delim : Char} (hd : Delim delim) {f t : List Char} (h : FieldText delim f t) (st : CsvState)
    (hst : st = .startRecord ∨ st = .startField) (rec : List (List Char)) (done : List (List (List Char))) :
    ∃ st', t.foldl (step delim) ⟨st, [], rec, done⟩ = ⟨st', f, rec, done⟩ ∧ st' ≠ .inQuoted ∧
      (st' = .startRecord → st = .startRecord ∧ t = []) := by
  cases h with
  | plain h1 h2 h3 =>
    cases f with
    | nil => exact ⟨st, rfl, by rcases hst with rfl | rfl <;> simp, fun h => ⟨h, rfl⟩⟩
    | cons c f =>
      refine ⟨.inField, ?_, by simp, by simp⟩
      have hc : c ≠ delim := fun e => h1 (by simp [e])
      have ht := isTerm_false (h2 c (by simp))
      have hq : c ≠ '"' := by simpa using h3
      have hs : step delim ⟨st, [], rec, done⟩ c = ⟨.inField, [c], rec, done⟩ := by
        rcases hst with rfl | rfl <;> simp [step, stepField, ht, hq, hc, push]
      rw [List.foldl_cons, hs, read_plain delim f (fun h => h1 (by simp [h])) (fun x hx => h2 x (by simp [hx]))]
      rfl
  | quoted =>
    refine ⟨.quote, ?_, by simp, by simp⟩
    have hs : step delim ⟨st, [], rec, done⟩ '"' = ⟨.inQuoted, [], rec, done⟩ := by
      rcases hst with rfl | rfl <;> simp [step, isTerm]
    rw [List.foldl_cons, hs, List.foldl_append, read_quoted]
    simp [step]

/-- A delimiter after a field. -/
theorem step_delim {delim : Char} (hd : Delim delim) {st : CsvState} (hst : st ≠ .inQuoted) (f : List Char)
    (rec : List (List Char)) (done : List (List (List Char))) :
    step delim ⟨st, f, rec, done⟩ delim = ⟨.startField, [], rec ++ [f], done⟩ := by
  have h1 := isTerm_false hd.2
  cases st <;> simp_all [step, stepField, closeField, hd.1]

/-- An end of line after a field. -/
theorem step_end {delim : Char} (hd : Delim delim) {st : CsvState} (hst : st ≠ .inQuoted) (hst' : st ≠ .startRecord)
    (f : List Char) (rec : List (List Char)) (done : List (List (List Char))) {c : Char} (hc : LineEnd c) :
    step delim ⟨st, f, rec, done⟩ c = ⟨.startRecord, [], [], done ++ [rec ++ [f]]⟩ := by
  have h1 := (isTerm_iff c).2 hc
  have h2 : c ≠ delim := by rintro rfl; exact hd.2 hc
  have h3 : c ≠ '"' := by rintro rfl; rcases hc with h | h <;> revert h <;> decide
  cases st <;> simp_all [step, stepField, closeRecord]

/-- A record. -/
theorem read_record {delim : Char} (hd : Delim delim) {r : List (List Char)} {t : List Char} (h : RecordText delim r t) :
    ∀ (st : CsvState) (rec : List (List Char)) (done : List (List (List Char))),
      (st = .startField ∨ st = .startRecord ∧ t ≠ []) →
      ∃ st' rec' f', t.foldl (step delim) ⟨st, [], rec, done⟩ = ⟨st', f', rec', done⟩ ∧ st' ≠ .inQuoted ∧
        st' ≠ .startRecord ∧ rec' ++ [f'] = rec ++ r := by
  induction h with
  | one hf =>
    intro st rec done hst
    obtain ⟨st', h1, h2, h3⟩ := read_field hd hf st (by rcases hst with h | ⟨h, _⟩ <;> simp [h]) rec done
    refine ⟨st', rec, _, h1, h2, ?_, rfl⟩
    intro h
    obtain ⟨h4, h5⟩ := h3 h
    rcases hst with h6 | ⟨_, h6⟩
    · rw [h4] at h6; cases h6
    · exact h6 h5
  | @cons f t r s hf _ ih =>
    intro st rec done hst
    obtain ⟨st', h1, h2, _⟩ := read_field hd hf st (by rcases hst with h | ⟨h, _⟩ <;> simp [h]) rec done
    rw [List.foldl_append, h1, List.foldl_cons, step_delim hd h2]
    obtain ⟨st2, rec2, f2, h4, h5, h6, h7⟩ := ih .startField (rec ++ [f]) done (Or.inl rfl)
    exact ⟨st2, rec2, f2, h4, h5, h6, by rw [h7]; simp⟩

/-- Ends of lines before a record. -/
theorem read_ends (delim : Char) (done : List (List (List Char))) (ends : List Char) (h : ∀ c ∈ ends, LineEnd c) :
    ends.foldl (step delim) ⟨.startRecord, [], [], done⟩ = ⟨.startRecord, [], [], done⟩ := by
  induction ends with
  | nil => rfl
  | cons c ends ih =>
    have h1 := (isTerm_iff c).2 (h c (by simp))
    rw [List.foldl_cons, show step delim ⟨.startRecord, [], [], done⟩ c = ⟨.startRecord, [], [], done⟩ by
      simp [step, h1]]
    exact ih (fun x hx => h x (by simp [hx]))

theorem read_table {delim : Char} (hd : Delim delim) {recs : List (List (List Char))} {text : List Char}
    (h : TableText delim recs text) : ∀ done : List (List (List Char)),
      finish (text.foldl (step delim) ⟨.startRecord, [], [], done⟩) = done ++ recs := by
  induction h with
  | nil => intro done; simp [finish]
  | blank hc _ ih =>
    intro done
    rw [List.foldl_cons, ← ih done]
    have := read_ends delim done [_] (by simpa using hc)
    rw [List.foldl_cons, List.foldl_nil] at this
    rw [this]
  | @last r t hr ht =>
    intro done
    obtain ⟨st', rec', f', h1, _, h3, h4⟩ := read_record hd hr .startRecord [] done (Or.inr ⟨rfl, ht⟩)
    rw [h1]
    rw [List.nil_append] at h4
    cases st' <;> simp_all [finish, closeRecord]
  | @cons r t ends rs s hr ht he1 he2 _ ih =>
    intro done
    obtain ⟨st', rec', f', h1, h2, h3, h4⟩ := read_record hd hr .startRecord [] done (Or.inr ⟨rfl, ht⟩)
    rw [List.nil_append] at h4
    rw [List.foldl_append, List.foldl_append, h1]
    cases ends with
    | nil => exact absurd rfl he1
    | cons c ends =>
      rw [List.foldl_cons, step_end hd h2 h3 f' rec' done (he2 c (by simp)), h4,
        read_ends delim _ ends (fun x hx => he2 x (by simp [hx])), ih]
      simp

/-- **C72**: however a table is written (fields in quotes or not, lines ended in any of the usual ways, blank lines, with or
without an end of line at the end), the reader gives back its records. -/
theorem C72_roundtrip {delim : Char} (hd : Delim delim) {recs : List (List (List Char))} {text : List Char}
    (h : TableText delim recs text) : records delim text = recs := by
  have := read_table hd h []
  simpa [records] using this

theorem record_ne {delim : Char} {r : List (List Char)} {t : List Char} (h : RecordText delim r t) : r ≠ [] := by
  cases h <;> simp

theorem table_ne {delim : Char} {recs : List (List (List Char))} {text : List Char} (h : TableText delim recs text) :
    ∀ r ∈ recs, r ≠ [] := by
  induction h with
  | nil => simp
  | blank _ _ ih => exact ih
  | last hr _ => simpa using record_ne hr
  | cons hr _ _ _ _ ih =>
    intro r hr'
    rcases List.mem_cons.1 hr' with rfl | h
    · exact record_ne hr
    · exact ih r h

/-- What the loader sees of a table. -/
theorem fromText_table (F : FP) (cfg : Config) {header : Option (List (List Char))} {body : List (List (List Char))}
    {text : List Char} (hd : Delim (Char.ofNat cfg.csvDelimiter)) (hh : header.isSome = cfg.csvHasHeader)
    (h : TableText (Char.ofNat cfg.csvDelimiter) (header.toList ++ body) text) (hb : body ≠ []) :
    ∃ w, w ≠ 0 ∧ (header.toList ++ body).head?.map List.length = some w ∧
      fromText F cfg text = Data.fromCsv cfg (body.map (item F w)) (header.map (·.map String.ofList)) := by
  have hne := table_ne h
  unfold fromText
  rw [C72_roundtrip hd h, ← hh]
  rcases header with _ | hr
  · cases body with
    | nil => exact absurd rfl hb
    | cons r rs =>
      refine ⟨r.length, ?_, rfl, rfl⟩
      have := hne r (by simp)
      simpa using this
  · refine ⟨hr.length, ?_, rfl, rfl⟩
    have := hne hr (by simp)
    simpa using this

theorem head_length {w : Nat} {l : List (List (List Char))} (h : l.head?.map List.length = some w) :
    (∀ r ∈ l, ∀ r' ∈ l, r.length = r'.length) ↔ ∀ r ∈ l, r.length = w := by
  cases l with
  | nil => simp
  | cons r l =>
    simp only [List.head?_cons, Option.map_some, Option.some.injEq] at h
    constructor
    · intro h1 r' h2
      rw [h1 r' h2 r (by simp), h]
    · intro h1 a ha b hb
      rw [h1 a ha, h1 b hb]

/-- A table is loaded exactly if it has a record (besides the header), all records (also the header) have the same number of
fields, all fields (but those of the header) are texts of numbers and those in the categorical columns are categories. -/
theorem C72_exactly (F : FP) (cfg : Config) {header : Option (List (List Char))} {body : List (List (List Char))}
    {text : List Char} (hd : Delim (Char.ofNat cfg.csvDelimiter)) (hh : header.isSome = cfg.csvHasHeader)
    (h : TableText (Char.ofNat cfg.csvDelimiter) (header.toList ++ body) text) :
    (∃ d, fromText F cfg text = .ok (.ok d)) ↔ body ≠ [] ∧
      (∀ r ∈ header.toList ++ body, ∀ r' ∈ header.toList ++ body, r.length = r'.length) ∧
      ∀ r ∈ body, ∀ j f, r[j]? = some f → ∃ x, NumberText F f x ∧ (j ∈ cfg.categoricalFeatures → IsCategory x) := by
  by_cases hb : body = []
  · subst hb
    simp only [ne_eq, not_true_eq_false, false_and, iff_false]
    rintro ⟨d, hx⟩
    unfold fromText at hx
    rw [C72_roundtrip hd h] at hx
    obtain ⟨first, rest, h1, _⟩ := fromCsv_cases hx
    rcases header with _ | hr
    · simp [items] at h1
    · rw [show cfg.csvHasHeader = true from hh ▸ rfl] at h1
      simp [items] at h1
  obtain ⟨w, hw, hlen, he⟩ := fromText_table F cfg hd hh h hb
  rw [he, head_length hlen]
  have hhead : ∀ hr, header = some hr → hr.length = w := by
    rintro hr rfl
    simpa using hlen
  constructor
  · rintro ⟨d, hx⟩
    obtain ⟨first, rest, h1, h2, _, h3, h4, _, _, h7⟩ := fromCsv_cases hx
    have hitems : ∀ r ∈ body, r.length = w := by
      intro r hr
      have : item F w r ∈ body.map (item F w) := List.mem_map_of_mem hr
      rw [h1] at this
      unfold item at this
      split at this
      · assumption
      · simp at this
    have hrec : body.map (item F w) = body.map (fun r => .record (r.map (parseF32 F))) :=
      List.map_congr_left (fun r hr => by simp [item, hitems r hr])
    rw [hrec] at h1
    have hrows : first :: rest = body.map (fun r => r.map (parseF32 F)) := by
      have : (first :: rest).map Data.CsvItem.record = (body.map (fun r => r.map (parseF32 F))).map Data.CsvItem.record := by
        rw [List.map_map]; exact h1.symm
      exact (List.map_injective_iff.2 (fun a b hab => by cases hab; rfl)) this
    refine ⟨hb, ?_, ?_⟩
    · intro r hr
      rcases List.mem_append.1 hr with hr | hr
      · exact hhead r (by simpa [Option.mem_def] using hr)
      · exact hitems r hr
    · intro r hr j f hj
      have hf : first.length = w := by
        have : first ∈ body.map (fun r => r.map (parseF32 F)) := by rw [← hrows]; simp
        obtain ⟨r0, hr0, rfl⟩ := List.mem_map.1 this
        simpa using hitems r0 hr0
      have hjw : j < w := by
        obtain ⟨hj', _⟩ := List.getElem?_eq_some_iff.1 hj
        rw [hitems r hr] at hj'; exact hj'
      obtain ⟨vs, e1, _, e3⟩ := h7 j (by omega) (by omega)
      have hm : (r.map (parseF32 F))[j]?.join ∈ vs.map some := by
        rw [← e1, hrows]
        exact List.mem_map.2 ⟨r.map (parseF32 F), List.mem_map_of_mem hr, rfl⟩
      simp only [List.getElem?_map, hj, Option.map_some, Option.join_some] at hm
      obtain ⟨x, hx1, hx2⟩ := List.mem_map.1 hm
      exact ⟨x, (C71_exactly F f x).1 hx2.symm, fun hc => e3 hc x hx1⟩
  · rintro ⟨_, h1, h2⟩
    have hrec : body.map (item F w) = (body.map (fun r => r.map (parseF32 F))).map Data.CsvItem.record := by
      rw [List.map_map]
      exact List.map_congr_left (fun r hr => by simp [item, h1 r (by simp [hr])])
    rw [hrec]
    cases body with
    | nil => exact absurd rfl hb
    | cons r0 rs =>
      have hr0 : r0.length = w := h1 r0 (by simp)
      refine C27_accepts cfg (r0.map (parseF32 F)) (rs.map (fun r => r.map (parseF32 F))) _ ?_ ?_ ?_
      · intro h0
        rw [List.map_eq_nil_iff] at h0
        rw [h0] at hr0
        exact hw hr0.symm
      · intro hc
        rcases header with _ | hr
        · rw [← hh] at hc; cases hc
        · refine ⟨_, rfl, ?_⟩
          simp [hhead hr rfl, hr0]
      · intro r hr j hj
        have : r ∈ (r0 :: rs).map (fun r => r.map (parseF32 F)) := hr
        obtain ⟨r', hr', rfl⟩ := List.mem_map.1 this
        have hl : r'.length = w := h1 r' (by simp only [List.mem_append]; exact Or.inr hr')
        have hjl : j < r'.length := by simp at hj; omega
        obtain ⟨x, hx1, hx2⟩ := h2 r' hr' j r'[j] (List.getElem?_eq_getElem hjl)
        refine ⟨x, ?_, hx2⟩
        rw [List.getElem?_map, List.getElem?_eq_getElem hjl, Option.map_some, (C71_exactly F _ x).2 hx1]

/-- What is loaded: an example per record, a column per field, the number of every field in its place, and the names of the
header. -/
theorem C72_values (F : FP) (cfg : Config) {header : Option (List (List Char))} {body : List (List (List Char))}
    {text : List Char} (hd : Delim (Char.ofNat cfg.csvDelimiter)) (hh : header.isSome = cfg.csvHasHeader)
    (h : TableText (Char.ofNat cfg.csvDelimiter) (header.toList ++ body) text) {d : Data}
    (hx : fromText F cfg text = .ok (.ok d)) :
    d.nexamples = body.length ∧ d.nfeatures + 1 = d.cols.length ∧ (∀ r ∈ body, r.length = d.cols.length) ∧
      (∀ (i j : Nat) (r : List (List Char)) (f : List Char) (x : Num), body[i]? = some r → r[j]? = some f → NumberText F f x →
        ∃ c : Column, d.cols[j]? = some c ∧ c.values.length = body.length ∧ c.values[i]? = some x) ∧
      d.names = (match header with
        | some hr => hr.map String.ofList
        | none => List.replicate d.cols.length "") := by
  obtain ⟨hb, heq, _⟩ := (C72_exactly F cfg hd hh h).1 ⟨d, hx⟩
  obtain ⟨w, hw, hlen, he⟩ := fromText_table F cfg hd hh h hb
  rw [head_length hlen] at heq
  have hrec : body.map (item F w) = (body.map (fun r => r.map (parseF32 F))).map Data.CsvItem.record := by
    rw [List.map_map]
    exact List.map_congr_left (fun r hr => by simp [item, heq r (by simp [hr])])
  rw [he, hrec] at hx
  obtain ⟨first, rest, h1, h2, h3, h4, _, h5⟩ := C27_values cfg _ _ d hx
  have hrows : first :: rest = body.map (fun r => r.map (parseF32 F)) :=
    (List.map_injective_iff.2 (fun a b hab => by cases hab; rfl)) h1.symm
  have hwc : d.cols.length = w := by
    have : first ∈ body.map (fun r => r.map (parseF32 F)) := by rw [← hrows]; simp
    obtain ⟨r0, hr0, rfl⟩ := List.mem_map.1 this
    rw [h3, List.length_map]
    exact heq r0 (by simp [hr0])
  refine ⟨by rw [h2, hrows]; simp, h4, ?_, ?_, ?_⟩
  · intro r hr
    rw [hwc]; exact heq r (by simp [hr])
  · intro i j r f x hi hj hf
    have hjl : j < d.cols.length := by
      obtain ⟨hj', _⟩ := List.getElem?_eq_some_iff.1 hj
      rw [hwc, ← heq r (by simp [List.mem_of_getElem? hi])]
      exact hj'
    have h6 := h5 j hjl
    rw [hrows] at h6
    have h7 := congrArg (fun l : List (Option Num) => l[i]?) h6
    simp only [List.getElem?_map, hi, Option.map_some, hj, Option.join_some, (C71_exactly F f x).2 hf] at h7
    refine ⟨d.cols[j], List.getElem?_eq_getElem hjl, ?_, ?_⟩
    · simpa using congrArg List.length h6
    · cases hv : (d.cols[j]).values[i]? with
      | none => rw [hv] at h7; cases h7
      | some y => rw [hv] at h7; simpa using h7
  · obtain ⟨n1, n2, n3⟩ := C27_names cfg _ _ d hx
    rcases header with _ | hr
    · refine List.eq_replicate_iff.2 ⟨n1, n3 ?_⟩
      rw [← hh]; rfl
    · obtain ⟨hd', e1, e2, e3⟩ := n2 (by rw [← hh]; rfl)
      simp only [Option.map_some, Option.some.injEq] at e1
      subst e1
      have hrw : hr.length = w := by simpa using hlen
      refine List.ext_getElem? fun j => ?_
      by_cases hj : j < d.cols.length
      · rw [e3 j hj, dif_pos (by simp; omega), List.getElem?_eq_getElem (by simp; omega)]
      · rw [List.getElem?_eq_none (by omega), List.getElem?_eq_none (by simp; omega)]

/-- Non-vacuity: a header with a quoted name, a quoted number, `\r\n`, a blank line, and no end of line at the end. -/
example : TableText ',' ([["a,b".toList, "y".toList]] ++ [["1.5".toList, "-2".toList], ["3e2".toList, "inf".toList]])
    "\"a,b\",y\r\n1.5,\"-2\"\n\n3e2,inf".toList :=
  .cons (t := "\"a,b\",y".toList) (ends := "\r\n".toList)
    (.cons (.quoted "a,b".toList) (.one (.plain (by decide) (by simp [LineEnd]) (by decide)))) (by decide) (by decide) (by simp [LineEnd])
    (.cons (t := "1.5,\"-2\"".toList) (ends := "\n\n".toList)
      (.cons (.plain (by decide) (by simp [LineEnd]) (by decide)) (.one (.quoted "-2".toList))) (by decide) (by decide) (by simp [LineEnd])
      (.last (.cons (.plain (by decide) (by simp [LineEnd]) (by decide)) (.one (.plain (by decide) (by simp [LineEnd]) (by decide))))
        (by decide)))

example : (match fromText .binary32 Config.new "\"a,b\",y\r\n1.5,\"-2\"\n\n3e2,inf".toList with
    | .ok (.ok d) => some (d.names, d.cols.map Column.values)
    | _ => none) = some (["a,b", "y"], [[.fin (3 / 2), .fin 300], [.fin (-2), .pinf]]) := by
  decide +kernel

private theorem digitsVal_zeros (k : Nat) (s : List Char) :
    Config.digitsVal 0 (List.replicate k '0' ++ s) = Config.digitsVal 0 s := by
  induction k with
  | zero => rfl
  | succ k ih => 
    rw [List.replicate_succ, List.cons_append]
    exact ih

/-- The columns made by the C API have different names, whatever their number. -/
theorem C28_names (cfg : Config) (nfeatures nexamples : Nat) :
    (Data.empty cfg nfeatures nexamples).names.length = nfeatures + 1 ∧ (Data.empty cfg nfeatures nexamples).names.Nodup := by
  refine ⟨by simp [Data.empty], ?_⟩
  unfold Data.empty
  refine List.Nodup.map ?_ List.nodup_range
  intro i j h
  unfold Data.featName at h
  have h1 := congrArg String.toList h
  simp only [String.toList_ofList] at h1
  have h2 := congrArg (Config.digitsVal 0) (List.append_cancel_left h1)
  rw [digitsVal_zeros, digitsVal_zeros, (toDigits_numeral i).2.2, (toDigits_numeral j).2.2] at h2
  exact h2

example : Data.featName 7 = "feat0007" ∧ Data.featName 12345 = "feat12345" := by decide +kernel

end BitBoost.Props
