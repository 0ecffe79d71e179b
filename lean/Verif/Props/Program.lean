import Verif.Model.Program
import Verif.Spec.Program
import Verif.Props.CsvText
import Verif.Props.Cli
import Verif.Props.SquaredSingle
/-!
# The command line program on texts: C64, C69, C71 and C72 together
-/
namespace BitBoost.Props
open BitBoost Spec Text

/-- The program loads a file exactly as `from_csv` loads its text. -/
theorem C72_program (F : FP) (M : Libm) (seed : Nat → Rng) (files : List Char → Option (List Char)) (cfg : Config)
    (path : List Char) (d : Data) : Loads (env F M seed files) cfg path d ↔
      ∃ text, files path = some text ∧ fromText F cfg text = .ok (.ok d) := by
  unfold Loads env
  cases hf : files path with
  | none => simp [hf]
  | some text => simp [hf, fromText]

/-- Fields and their numbers. -/
theorem row_items {F : FP} {r : List (List Char)} {v : List Num} (h : List.Forall₂ (NumberText F) r v) :
    r.map (parseF32 F) = v.map some := by
  induction h with
  | nil => rfl
  | cons h _ ih => rw [List.map_cons, List.map_cons, ih, (C71_exactly F _ _).2 h]

theorem table_items {F : FP} {body : List (List (List Char))} {table : List (List Num)}
    (h : List.Forall₂ (List.Forall₂ (NumberText F)) body table) {w : Nat} (hw : ∀ r ∈ body, r.length = w) :
    body.map (item F w) = (table.map (·.map some)).map Data.CsvItem.record := by
  induction h with
  | nil => rfl
  | @cons r v body table h _ ih =>
    rw [List.map_cons, List.map_cons, List.map_cons, ih (fun r hr => hw r (by simp [hr]))]
    congr 1
    unfold item
    rw [if_pos (hw r (by simp)), row_items h]

theorem holds_load {F : FP} {cfg : Config} {text : List Char} {w : Nat} {table : List (List Num)}
    (h : Holds F cfg text w table) (hne : table ≠ []) : (∀ r ∈ table, r.length = w) ∧ 
    ∃ header : Option (List String), (cfg.csvHasHeader = true → ∃ hd, header = some hd ∧ hd.length ≤ w) ∧
      fromText F cfg text = Data.fromCsv cfg ((table.map (·.map some)).map Data.CsvItem.record) header := by
  obtain ⟨hd, header, body, h1, h2, h3, h4⟩ := h
  have hb : body ≠ [] := by
    rintro rfl
    cases h3
    exact hne rfl
  obtain ⟨w', hw', hlen, he⟩ := fromText_table F cfg hd h1 h2 hb
  have hww : w' = w := by
    cases hl : (header.toList ++ body) with
    | nil => rw [hl] at hlen; cases hlen
    | cons r l =>
      rw [hl] at hlen
      simp only [List.head?_cons, Option.map_some, Option.some.injEq] at hlen
      rw [← hlen]
      exact h4 r (by rw [hl]; simp)
  subst hww
  refine ⟨?_, header.map (·.map String.ofList), ?_, ?_⟩
  · intro v hv
    obtain ⟨r, hr, hrv⟩ : ∃ r ∈ body, List.Forall₂ (NumberText F) r v := by
      clear he hlen h4 h2 hb hne
      induction h3 with
      | nil => cases hv
      | @cons a b as bs hab _ ih =>
        rcases List.mem_cons.1 hv with rfl | hv
        · exact ⟨a, by simp, hab⟩
        · obtain ⟨r, hr, h⟩ := ih hv
          exact ⟨r, by simp [hr], h⟩
    rw [← hrv.length_eq]
    exact h4 r (by simp [hr])
  · intro hc
    rcases header with _ | hr
    · rw [← h1] at hc; cases hc
    · refine ⟨_, rfl, ?_⟩
      rw [List.length_map]
      exact le_of_eq (h4 hr (by simp))
  · rw [he, table_items h3 (fun r hr => h4 r (by simp [hr]))]

theorem hmap {r : List Num} {j : Nat} {v : Num} : (r.map some)[j]? = some (some v) ↔ r[j]? = some v := by
  rw [List.getElem?_map]
  cases r[j]? <;> simp

theorem some_rows (first : List Num) (rest : List (List Num)) :
    ∀ r ∈ first.map some :: rest.map (·.map some), ∃ r' ∈ first :: rest, r = r'.map some := by
  intro r hr
  rw [← List.map_cons (f := fun l : List Num => l.map some)] at hr
  obtain ⟨r', h1, h2⟩ := List.mem_map.1 hr
  exact ⟨r', h1, h2.symm⟩

theorem rows_some (first : List Num) (rest : List (List Num)) :
    ∀ r ∈ first :: rest, r.map some ∈ first.map some :: rest.map (·.map some) := by
  intro r hr
  rw [← List.map_cons (f := fun l : List Num => l.map some)]
  exact List.mem_map_of_mem hr

/-- **C69**, the whole program: `boost` with arguments that give valid settings, log loss and no test file, on a file with
a table of numbers whose last column has the labels 0 and 1 (both occur), whose categorical columns have categories and
whose other columns have a finite number and no infinities, ends with a report on the metrics asked for. -/
theorem C69_program_binary_f32 (M : Libm) (seed : Nat → Rng) (files : List Char → Option (List Char))
    (args : List (List Char)) (cfg : Config) (ms : List Metric) (text : List Char) (w : Nat) (table : List (List Num))
    (hargs : Config.parse (parseF32 .binary32) args = .ok cfg)
    (hobj : Objective.fromName cfg.objective = some (Objective.new .binary)) (hms : Metric.fromNames cfg.metrics = some ms)
    (htest : cfg.test = []) (hfile : files cfg.train = some text) (htab : Holds .binary32 cfg text w table)
    (hrows : 0 < table.length ∧ table.length ≤ 2 ^ 24) (hcols : 2 ≤ w ∧ w ≤ 2 ^ 24)
    (hcat : ∀ r ∈ table, ∀ j v, r[j]? = some v → j ∈ cfg.categoricalFeatures → IsCategory v)
    (hnum : ∀ j < w - 1, j ∉ cfg.categoricalFeatures →
      (∃ r ∈ table, ∃ q : ℚ, r[j]? = some (.fin q)) ∧ ∀ r ∈ table, r[j]? ≠ some .pinf ∧ r[j]? ≠ some .ninf)
    (hroom : ∃ j < w - 1, j ∉ cfg.categoricalFeatures ∨ ∃ r ∈ table, r[j]? ≠ some (.fin 0))
    (hlabels : ∀ r ∈ table, r[w - 1]? = some (.fin 0) ∨ r[w - 1]? = some (.fin 1))
    (hzero : ∃ r ∈ table, r[w - 1]? = some (.fin 0)) (hone : ∃ r ∈ table, r[w - 1]? = some (.fin 1))
    (hsample : ∀ q : ℚ, cfg.exampleFraction = .fin q → 1 ≤ (table.length : ℚ) * q)
    (hc : ValidConfig cfg) (hexp : ExpLike M) (hln : LnLike M)
    (hbound : ∃ q : ℚ, cfg.binaryGradientBound = .fin q ∧ 0 < q) (hit : cfg.niterations < 2 ^ 24) :
    ∃ printed lines, Cli.main (env .binary32 M seed files) ("boost".toList :: args) =
        .ok (.ok (.report printed .binary cfg.discrNbits lines)) ∧ lines.map Cli.Line.metric = ms := by
  have hne : table ≠ [] := by rintro rfl; simp at hrows
  obtain ⟨hlen, header, hh, he⟩ := holds_load htab hne
  cases table with
  | nil => exact absurd rfl hne
  | cons first rest =>
    have hw : first.length = w := hlen first (by simp)
    subst hw
    have hmem := some_rows first rest
    have hmem' := rows_some first rest
    have hl1 : (first.map some).length = first.length := List.length_map _
    obtain ⟨d, b, g1, g2, g3⟩ := C69_csv_binary_f32 M cfg (seed cfg.randomSeed) ms (first.map some) (rest.map (·.map some)) header
      (by intro h0; rw [List.map_eq_nil_iff] at h0; rw [h0] at hcols; simp at hcols)
      (by rw [hl1]; exact hh)
      (by
        intro r hr j hj
        obtain ⟨r', hr', rfl⟩ := hmem r hr
        rw [hl1, ← hlen r' hr'] at hj
        refine ⟨r'[j], hmap.2 (List.getElem?_eq_getElem hj), fun hjc => hcat r' hr' j _ (List.getElem?_eq_getElem hj) hjc⟩)
      (by simpa using hrows.2) (by rw [hl1]; exact hcols.2)
      (by simpa using hsample)
      (by
        rw [hl1]
        intro j hj hjc
        obtain ⟨⟨r, hr, q, hq⟩, h2⟩ := hnum j hj hjc
        refine ⟨⟨r.map some, hmem' r hr, q, hmap.2 hq⟩, ?_⟩
        intro r hr
        obtain ⟨r', hr', rfl⟩ := hmem r hr
        exact ⟨fun h => (h2 r' hr').1 (hmap.1 h), fun h => (h2 r' hr').2 (hmap.1 h)⟩)
      (by
        rw [hl1]
        obtain ⟨j, hj, h | ⟨r, hr, h⟩⟩ := hroom
        · exact ⟨j, hj, .inl h⟩
        · exact ⟨j, hj, .inr ⟨r.map some, hmem' r hr, fun h' => h (hmap.1 h')⟩⟩)
      (by
        rw [hl1]
        intro r hr
        obtain ⟨r', hr', rfl⟩ := hmem r hr
        rw [hmap, hmap]
        exact hlabels r' hr')
      (by rw [hl1]; obtain ⟨r, hr, h⟩ := hzero; exact ⟨r.map some, hmem' r hr, hmap.2 h⟩)
      (by rw [hl1]; obtain ⟨r, hr, h⟩ := hone; exact ⟨r.map some, hmem' r hr, hmap.2 h⟩)
      hc hexp hln hbound hit
    have hload : Loads (env .binary32 M seed files) cfg cfg.train d :=
      (C72_program .binary32 M seed files cfg cfg.train d).2 ⟨text, hfile, by rw [he]; exact g1⟩
    have hnf : 0 < d.nfeatures := by
      obtain ⟨_, _, k1, _, k3, k4, _⟩ := C27_values cfg _ _ d g1
      have := (List.map_injective_iff.2 (fun a b hab => by cases hab; rfl)) k1
      cases this
      rw [hl1] at k3
      omega
    obtain ⟨_, _, lines, _, _, k1, k2, _⟩ := C64_completes (env .binary32 M seed files) args cfg (Objective.new .binary) ms d none b
      ⟨hargs, hobj, hms⟩ hload htest hnf (by intro x hx; cases hx) g2
    exact ⟨b.printed, lines, k1, k2⟩

/-- **C69**, the whole program with squared error: targets of size at most `2 ^ a`, no sampling of the examples, no column
with more categories than bins, and a number of iterations that only has to fit the number of rows (with `a = 20` and a thousand rows,
for example, more than a hundred thousand iterations). -/
theorem C69_program_l2_f32 (M : Libm) (seed : Nat → Rng) (files : List Char → Option (List Char))
    (args : List (List Char)) (cfg : Config) (ms : List Metric) (text : List Char) (w : Nat) (table : List (List Num))
    (hargs : Config.parse (parseF32 .binary32) args = .ok cfg)
    (hobj : Objective.fromName cfg.objective = some (Objective.new .l2)) (hms : Metric.fromNames cfg.metrics = some ms)
    (htest : cfg.test = []) (hfile : files cfg.train = some text) (htab : Holds .binary32 cfg text w table)
    (hrows : 0 < table.length ∧ table.length ≤ 2 ^ 20) (hcols : 2 ≤ w ∧ w ≤ 2 ^ 24)
    (hcat : ∀ r ∈ table, ∀ j v, r[j]? = some v → j ∈ cfg.categoricalFeatures → IsCategory v)
    (hnum : ∀ j < w - 1, j ∉ cfg.categoricalFeatures →
      (∃ r ∈ table, ∃ q : ℚ, r[j]? = some (.fin q)) ∧ ∀ r ∈ table, r[j]? ≠ some .pinf ∧ r[j]? ≠ some .ninf)
    (hroom : ∃ j < w - 1, j ∉ cfg.categoricalFeatures ∨ ∃ r ∈ table, r[j]? ≠ some (.fin 0))
    (hlow : ∀ j < w - 1, j ∈ cfg.categoricalFeatures → ∀ r ∈ table, ∀ v, r[j]? = some v → v.toU32 < cfg.maxNbins)
    (hc : ValidConfig cfg) (hf : cfg.exampleFraction = .fin 1) (q : ℚ) (hr : cfg.learningRate = .fin q) (h0 : 0 ≤ q)
    (a m : ℕ) (ht : ∀ r ∈ table, ∀ v, r[w - 1]? = some v → SizeLe (2 ^ a) v)
    (hit : (table.length + 4) * cfg.niterations ≤ m * 2 ^ 21) (ham : a + m ≤ 89) :
    ∃ printed lines, Cli.main (env .binary32 M seed files) ("boost".toList :: args) =
        .ok (.ok (.report printed .l2 cfg.discrNbits lines)) ∧ lines.map Cli.Line.metric = ms := by
  have hne : table ≠ [] := by rintro rfl; simp at hrows
  obtain ⟨hlen, header, hh, he⟩ := holds_load htab hne
  cases table with
  | nil => exact absurd rfl hne
  | cons first rest =>
    have hw : first.length = w := hlen first (by simp)
    subst hw
    have hmem := some_rows first rest
    have hmem' := rows_some first rest
    have hl1 : (first.map some).length = first.length := List.length_map _
    obtain ⟨d, b, g1, g2, g3⟩ := C69_csv_l2_f32 M cfg (seed cfg.randomSeed) ms (first.map some) (rest.map (·.map some)) header
      (by intro h0; rw [List.map_eq_nil_iff] at h0; rw [h0] at hcols; simp at hcols)
      (by rw [hl1]; exact hh)
      (by
        intro r hr j hj
        obtain ⟨r', hr', rfl⟩ := hmem r hr
        rw [hl1, ← hlen r' hr'] at hj
        refine ⟨r'[j], hmap.2 (List.getElem?_eq_getElem hj), fun hjc => hcat r' hr' j _ (List.getElem?_eq_getElem hj) hjc⟩)
      (by simpa using hrows.2) (by rw [hl1]; exact hcols.2)
      (by
        rw [hl1]
        intro j hj hjc
        obtain ⟨⟨r, hr, q, hq⟩, h2⟩ := hnum j hj hjc
        refine ⟨⟨r.map some, hmem' r hr, q, hmap.2 hq⟩, ?_⟩
        intro r hr
        obtain ⟨r', hr', rfl⟩ := hmem r hr
        exact ⟨fun h => (h2 r' hr').1 (hmap.1 h), fun h => (h2 r' hr').2 (hmap.1 h)⟩)
      (by
        rw [hl1]
        obtain ⟨j, hj, h | ⟨r, hr, h⟩⟩ := hroom
        · exact ⟨j, hj, .inl h⟩
        · exact ⟨j, hj, .inr ⟨r.map some, hmem' r hr, fun h' => h (hmap.1 h')⟩⟩)
      (by
        rw [hl1]
        intro j hj hjc r hr v hv
        obtain ⟨r', hr', rfl⟩ := hmem r hr
        exact hlow j hj hjc r' hr' v (hmap.1 hv))
      hc hf q hr h0 a m
      (by
        rw [hl1]
        intro r hr v hv
        obtain ⟨r', hr', rfl⟩ := hmem r hr
        exact ht r' hr' v (hmap.1 hv))
      (by simpa using hit) ham
    have hload : Loads (env .binary32 M seed files) cfg cfg.train d :=
      (C72_program .binary32 M seed files cfg cfg.train d).2 ⟨text, hfile, by rw [he]; exact g1⟩
    have hnf : 0 < d.nfeatures := by
      obtain ⟨_, _, k1, _, k3, k4, _⟩ := C27_values cfg _ _ d g1
      have := (List.map_injective_iff.2 (fun a b hab => by cases hab; rfl)) k1
      cases this
      rw [hl1] at k3
      omega
    obtain ⟨_, _, lines, _, _, k1, k2, _⟩ := C64_completes (env .binary32 M seed files) args cfg (Objective.new .l2) ms d none b
      ⟨hargs, hobj, hms⟩ hload htest hnf (by intro x hx; cases hx) g2
    exact ⟨b.printed, lines, k1, k2⟩

/-! ### An example -/

/-- The arguments. -/
def progArgs : List (List Char) :=
  ["train = a.csv".toList, "learning_rate=0.25".toList, "niterations=2".toList, "max_tree_depth=1".toList, "metrics=l2".toList]

/-- The file. -/
def progText : List Char := "x,\"y\"\r\n0,0.0\r\n1,1e0\r\n\r\n2.0,+1".toList

/-- The files. -/
def progFiles (path : List Char) : Option (List Char) := if path = "a.csv".toList then some progText else none

/-- The settings. -/
def progCfg : Config :=
  { Config.new with train := "a.csv".toList, learningRate := .fin (1 / 4), niterations := 2, maxTreeDepth := 1, metrics := ["l2".toList] }

theorem prog_parse : Config.parse (parseF32 .binary32) progArgs = .ok progCfg := by
  have h : (match Config.parse (parseF32 .binary32) progArgs with | .ok c => decide (c = progCfg) | .error _ => false) = true := by
    decide +kernel
  split at h
  · rename_i c hc
    rw [hc, of_decide_eq_true h]
  · cases h

theorem numberText_of {F : FP} {s : List Char} {x : Num} (h : parseF32 F s = some x) : NumberText F s x := (C71_exactly F s x).1 h

/-- C71: the text of the file. -/
theorem prog_holds : Holds .binary32 progCfg progText 2 [[.fin 0, .fin 0], [.fin 1, .fin 1], [.fin 2, .fin 1]] := by
  have hp : ∀ f : List Char, (∀ c ∈ f, c ≠ ',' ∧ c ≠ '\n' ∧ c ≠ '\r' ∧ c ≠ '"') → FieldText ',' f f := by
    intro f hf
    refine .plain (fun h => (hf _ h).1 rfl) (fun c hc hl => ?_) ?_
    · rcases hl with h | h
      · exact (hf c hc).2.1 h
      · exact (hf c hc).2.2.1 h
    · intro h
      exact (hf _ (List.mem_of_head? h)).2.2.2 rfl
  refine ⟨by constructor <;> simp [LineEnd, progCfg, Config.new] <;> decide, some ["x".toList, "y".toList],
    [["0".toList, "0.0".toList], ["1".toList, "1e0".toList], ["2.0".toList, "+1".toList]], rfl, ?_, ?_, by simp⟩
  · show TableText ',' _ _
    refine .cons (t := "x,\"y\"".toList) (ends := "\r\n".toList) (s := "0,0.0\r\n1,1e0\r\n\r\n2.0,+1".toList)
      (.cons (hp "x".toList (by decide)) (.one (.quoted "y".toList))) (by decide) (by decide) (by simp [LineEnd]) ?_
    refine .cons (t := "0,0.0".toList) (ends := "\r\n".toList) (s := "1,1e0\r\n\r\n2.0,+1".toList)
      (.cons (hp "0".toList (by decide)) (.one (hp "0.0".toList (by decide)))) (by decide) (by decide) (by simp [LineEnd]) ?_
    refine .cons (t := "1,1e0".toList) (ends := "\r\n\r\n".toList) (s := "2.0,+1".toList)
      (.cons (hp "1".toList (by decide)) (.one (hp "1e0".toList (by decide)))) (by decide) (by decide) (by simp [LineEnd]) ?_
    exact .last (.cons (hp "2.0".toList (by decide)) (.one (hp "+1".toList (by decide)))) (by decide)
  · refine .cons (.cons ?_ (.cons ?_ .nil)) (.cons (.cons ?_ (.cons ?_ .nil)) (.cons (.cons ?_ (.cons ?_ .nil)) .nil)) <;>
      exact numberText_of (by decide +kernel)

/-- C69: the program ends with a report on these arguments and this file. -/
example (M : Libm) (seed : Nat → Rng) : ∃ printed lines, Cli.main (env .binary32 M seed progFiles) ("boost".toList :: progArgs) =
        .ok (.ok (.report printed .l2 progCfg.discrNbits lines)) ∧ lines.map Cli.Line.metric = [.l2] := by
  refine C69_program_l2_f32 M seed progFiles progArgs progCfg [.l2] progText 2 _ prog_parse rfl rfl rfl rfl prog_holds
    (by simp) (by simp) (by simp [progCfg, Config.new]) ?_ ⟨0, by simp, .inl (by simp [progCfg, Config.new])⟩
    (by simp [progCfg, Config.new]) ?_ rfl (1 / 4) rfl (by norm_num) 0 1 (by simp [SizeLe]) (by simp [progCfg]) (by norm_num)
  · intro j hj _
    obtain rfl : j = 0 := by omega
    exact ⟨⟨_, List.mem_cons_self, 0, rfl⟩, by simp⟩
  · refine ⟨?_, ?_, ?_, ?_, ⟨1, rfl, by norm_num, by norm_num⟩, ⟨1, rfl, by norm_num, by norm_num⟩, ⟨1 / 4, rfl, ?_⟩⟩
    · simp [progCfg, Config.new]
    · simp [progCfg]
    · simp [progCfg, Config.new]
    · simp [progCfg, Config.new]
    · rw [abs_of_nonneg] <;> norm_num

end BitBoost.Props
