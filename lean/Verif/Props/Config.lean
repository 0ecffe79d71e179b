import Verif.Lemmas.Config
import Mathlib.Data.Nat.Digits.Defs
/-!
# C52: configuration
-/
namespace BitBoost.Props
open BitBoost Spec

private def fieldParse (pf : List Char → Option Num) (f : ConfigField) (s : List Char) : Option Value :=
  match f with
  | .train | .test | .objective => (Config.parseString s).map .text
  | .metrics => (Config.parseVec Config.parseString s).map .texts
  | .csvHasHeader => (Config.parseBool s).map .bool
  | .csvDelimiter => (Config.parseU8 s).map .nat
  | .minExamplesLeaf => (Config.parseU32 s).map .nat
  | .metricFrequency | .niterations | .maxNbins | .discrNbits | .maxTreeDepth | .randomSeed
  | .sampleFreq => (Config.parseU64 s).map .nat
  | .categoricalFeatures => (Config.parseVec Config.parseU64 s).map .nats
  | .learningRate | .regLambda | .minGain | .huberAlpha | .compressionThreshold
  | .binaryGradientBound | .featureFraction | .exampleFraction => (pf s).map .num

private theorem unsigned_text {maxv b : Nat} (h : maxv + 1 = b) (s : List Char) (v : Value) :
    (Config.parseUnsigned maxv s).map Value.nat = some v ↔ ∃ n, n < b ∧ IsNumeral s n ∧ v = .nat n := by
  simp only [Option.map_eq_some_iff, Config.parseUnsigned_iff]
  constructor
  · rintro ⟨n, ⟨h1, h2⟩, rfl⟩; exact ⟨n, by omega, h2, rfl⟩
  · rintro ⟨n, h1, h2, rfl⟩; exact ⟨n, ⟨by omega, h2⟩, rfl⟩

private theorem fieldParse_iff (pf : List Char → Option Num) (f : ConfigField) (s : List Char) (v : Value) :
    fieldParse pf f s = some v ↔ IsText pf f s v := by
  have hu8 := unsigned_text (maxv := 2 ^ 8 - 1) (b := 2 ^ 8) (by norm_num) s v
  have hu32 := unsigned_text (maxv := 2 ^ 32 - 1) (b := 2 ^ 32) (by norm_num) s v
  have hu64 := unsigned_text (maxv := 2 ^ 64 - 1) (b := 2 ^ 64) (by norm_num) s v
  have hnum : (pf s).map Value.num = some v ↔ ∃ x, pf s = some x ∧ v = .num x := by
    simp only [Option.map_eq_some_iff]
    exact ⟨fun ⟨x, h1, h2⟩ => ⟨x, h1, h2.symm⟩, fun ⟨x, h1, h2⟩ => ⟨x, h1, h2.symm⟩⟩
  have htext : some (Value.text s) = some v ↔ v = .text s := by
    simp only [Option.some.injEq]; exact eq_comm
  cases f with
  | train => exact htext
  | test => exact htext
  | objective => exact htext
  | csvDelimiter => exact hu8
  | minExamplesLeaf => exact hu32
  | metricFrequency => exact hu64
  | niterations => exact hu64
  | maxNbins => exact hu64
  | discrNbits => exact hu64
  | maxTreeDepth => exact hu64
  | randomSeed => exact hu64
  | sampleFreq => exact hu64
  | learningRate => exact hnum
  | regLambda => exact hnum
  | minGain => exact hnum
  | huberAlpha => exact hnum
  | compressionThreshold => exact hnum
  | binaryGradientBound => exact hnum
  | featureFraction => exact hnum
  | exampleFraction => exact hnum
  | csvHasHeader =>
    simp only [fieldParse, IsText, Config.parseBool]
    have e1 : "true".toList = ['t', 'r', 'u', 'e'] := rfl
    have e2 : "false".toList = ['f', 'a', 'l', 's', 'e'] := rfl
    rw [e1, e2]
    by_cases h1 : s = ['t', 'r', 'u', 'e']
    · subst h1
      simp [eq_comm]
    · rw [if_neg h1]
      by_cases h2 : s = ['f', 'a', 'l', 's', 'e']
      · subst h2; simp [eq_comm]
      · rw [if_neg h2]; simp [h1, h2]
  | metrics =>
    simp only [fieldParse, IsText, Config.parseVec]
    cases s with
    | nil => simp [eq_comm]
    | cons c s =>
      simp only [List.isEmpty_cons, Bool.false_eq_true, if_false, Option.map_eq_some_iff,
        Config.parseVecLoop_iff, reduceCtorEq, false_and, ne_eq, not_false_eq_true, true_and, false_or]
      constructor
      · rintro ⟨l, h, rfl⟩
        refine ⟨_, l, Config.split_isSplit _ _, ?_, rfl⟩
        refine List.Forall₂.imp ?_ h
        intro a b hab
        exact Config.trim_iff.2 (by simpa [Config.parseString] using hab)
      · rintro ⟨parts, l, h1, h2, rfl⟩
        refine ⟨l, ?_, rfl⟩
        rw [Config.split_iff.1 h1]
        refine List.Forall₂.imp ?_ h2
        intro a b hab
        simp [Config.parseString, Config.trim_iff.1 hab]
  | categoricalFeatures =>
    simp only [fieldParse, IsText, Config.parseVec]
    cases s with
    | nil => simp [eq_comm]
    | cons c s =>
      simp only [List.isEmpty_cons, Bool.false_eq_true, if_false, Option.map_eq_some_iff,
        Config.parseVecLoop_iff, reduceCtorEq, false_and, ne_eq, not_false_eq_true, true_and, false_or]
      constructor
      · rintro ⟨l, h, rfl⟩
        refine ⟨_, l, Config.split_isSplit _ _, ?_, rfl⟩
        refine List.Forall₂.imp ?_ h
        intro a b hab
        obtain ⟨h1, h2⟩ := (Config.parseUnsigned_iff _ _ _).1 hab
        exact ⟨by omega, _, Config.trim_isTrimmed a, h2⟩
      · rintro ⟨parts, l, h1, h2, rfl⟩
        refine ⟨l, ?_, rfl⟩
        rw [Config.split_iff.1 h1]
        refine List.Forall₂.imp ?_ h2
        rintro a b ⟨hb, t, h3, h4⟩
        rw [Config.trim_iff.1 h3]
        exact (Config.parseUnsigned_iff _ _ _).2 ⟨by omega, h4⟩

private theorem config_ext {c c' : Config} (h : ∀ f : ConfigField, f.get c = f.get c') : c = c' := by
  have h1 := h .train; have h2 := h .test; have h3 := h .objective; have h4 := h .metrics
  have h5 := h .metricFrequency; have h6 := h .csvHasHeader; have h7 := h .csvDelimiter
  have h8 := h .categoricalFeatures; have h9 := h .niterations; have h10 := h .learningRate
  have h11 := h .regLambda; have h12 := h .minExamplesLeaf; have h13 := h .minGain
  have h14 := h .huberAlpha; have h15 := h .maxNbins; have h16 := h .discrNbits
  have h17 := h .maxTreeDepth; have h18 := h .compressionThreshold; have h19 := h .binaryGradientBound
  have h20 := h .randomSeed; have h21 := h .featureFraction; have h22 := h .exampleFraction
  have h23 := h .sampleFreq
  cases c; cases c'
  simp only [ConfigField.get, Value.text.injEq, Value.texts.injEq, Value.nat.injEq, Value.nats.injEq,
    Value.bool.injEq, Value.num.injEq] at *
  simp only [Config.mk.injEq]
  exact ⟨h1, h2, h3, h4, h5, h6, h7, h8, h9, h10, h11, h12, h13, h14, h15, h16, h17, h18, h19, h20, h21, h22, h23⟩

private theorem parse_unknown {pf : List Char → Option Num} {c : Config} {name : String} {value : List Char}
    (h : ∀ f : ConfigField, name ≠ f.key) : Config.parseRecord pf c name value = .error .unknownField := by
  have h1 := h .train; have h2 := h .test; have h3 := h .objective; have h4 := h .metrics
  have h5 := h .metricFrequency; have h6 := h .csvHasHeader; have h7 := h .csvDelimiter
  have h8 := h .categoricalFeatures; have h9 := h .niterations; have h10 := h .learningRate
  have h11 := h .regLambda; have h12 := h .minExamplesLeaf; have h13 := h .minGain
  have h14 := h .huberAlpha; have h15 := h .maxNbins; have h16 := h .discrNbits
  have h17 := h .maxTreeDepth; have h18 := h .compressionThreshold; have h19 := h .binaryGradientBound
  have h20 := h .randomSeed; have h21 := h .featureFraction; have h22 := h .exampleFraction
  have h23 := h .sampleFreq
  simp only [ConfigField.key] at *
  simp only [Config.parseRecord, h1, h2, h3, h4, h5, h6, h7, h8, h9, h10, h11, h12, h13, h14, h15, h16,
    h17, h18, h19, h20, h21, h22, h23, if_false]

private theorem assign_cases {α : Type} {set : α → Config} {o : Option α} {w : α → Value} {f : ConfigField}
    {c : Config} (hget : ∀ x, f.get (set x) = w x) (hother : ∀ x (g : ConfigField), g ≠ f → g.get (set x) = g.get c) :
    (∀ v, o.map w = some v → ∃ c', Config.assign set o = .ok c' ∧ f.get c' = v ∧
      ∀ g : ConfigField, g ≠ f → g.get c' = g.get c) ∧
    (o.map w = none → Config.assign set o = .error .badValue) := by
  cases o with
  | none => exact ⟨fun v h => by simp at h, fun _ => rfl⟩
  | some x =>
    refine ⟨fun v h => ?_, fun h => by simp at h⟩
    simp only [Option.map_some, Option.some.injEq] at h
    exact ⟨set x, rfl, by rw [hget, h], hother x⟩

private theorem parse_known (pf : List Char → Option Num) (c : Config) (f : ConfigField) (value : List Char) :
    (∀ v, fieldParse pf f value = some v → ∃ c', Config.parseRecord pf c f.key value = .ok c' ∧ f.get c' = v ∧
      ∀ g : ConfigField, g ≠ f → g.get c' = g.get c) ∧
    (fieldParse pf f value = none → Config.parseRecord pf c f.key value = .error .badValue) := by
  cases f <;>
  · simp only [Config.parseRecord, ConfigField.key, String.reduceEq, if_true, if_false, fieldParse]
    apply assign_cases
    · intro x; rfl
    · intro x g hg
      cases g <;> first | rfl | exact absurd rfl hg

/-- Setting a key to a value succeeds exactly if the key is the key of a field and the text a text of
one of its values; then this field has this value and no other field changes. -/
theorem C52_record (pf : List Char → Option Num) (c c' : Config) (name : String) (value : List Char) :
    Config.parseRecord pf c name value = .ok c' ↔
      ∃ (f : ConfigField) (v : Value), name = f.key ∧ IsText pf f value v ∧ f.get c' = v ∧
        ∀ g : ConfigField, g ≠ f → g.get c' = g.get c := by
  constructor
  · intro h
    by_cases hk : ∃ f : ConfigField, name = f.key
    · obtain ⟨f, rfl⟩ := hk
      obtain ⟨h1, h2⟩ := parse_known pf c f value
      cases hp : fieldParse pf f value with
      | none => rw [h2 hp] at h; cases h
      | some v =>
        obtain ⟨c'', h3, h4, h5⟩ := h1 v hp
        rw [h] at h3; cases h3
        exact ⟨f, v, rfl, (fieldParse_iff pf f value v).1 hp, h4, h5⟩
    · push Not at hk
      rw [parse_unknown hk] at h; cases h
  · rintro ⟨f, v, rfl, h1, h2, h3⟩
    obtain ⟨c'', g1, g2, g3⟩ := (parse_known pf c f value).1 v ((fieldParse_iff pf f value v).2 h1)
    rw [g1]
    refine congrArg _ (config_ext fun g => ?_)
    by_cases hg : g = f
    · subst hg; rw [g2, h2]
    · rw [g3 g hg, h3 g hg]

/-- An unknown key and a text that is not a text of a value of the field are reported, as such. -/
theorem C52_record_error (pf : List Char → Option Num) (c : Config) (name : String) (value : List Char)
    (e : Config.Err) : Config.parseRecord pf c name value = .error e ↔
      (e = .unknownField ∧ ∀ f : ConfigField, name ≠ f.key) ∨
      (e = .badValue ∧ ∃ f : ConfigField, name = f.key ∧ ∀ v, ¬ IsText pf f value v) := by
  by_cases hk : ∃ f : ConfigField, name = f.key
  · obtain ⟨f, rfl⟩ := hk
    obtain ⟨h1, h2⟩ := parse_known pf c f value
    have hinj : ∀ g : ConfigField, f.key = g.key → f = g := by
      intro g hg
      cases f <;> cases g <;> first | rfl | (simp [ConfigField.key] at hg)
    cases hp : fieldParse pf f value with
    | none =>
      rw [h2 hp]
      constructor
      · rintro h; cases h
        exact Or.inr ⟨rfl, f, rfl, fun v hv => by
          rw [(fieldParse_iff pf f value v).2 hv] at hp; cases hp⟩
      · rintro (⟨_, h⟩ | ⟨rfl, _⟩)
        · exact absurd rfl (h f)
        · rfl
    | some v =>
      obtain ⟨c'', h3, _⟩ := h1 v hp
      rw [h3]
      constructor
      · intro h; cases h
      · rintro (⟨_, h⟩ | ⟨_, g, hg, h⟩)
        · exact absurd rfl (h f)
        · rw [← hinj g hg] at h
          exact absurd ((fieldParse_iff pf f value v).1 hp) (h v)
  · push Not at hk
    rw [parse_unknown hk]
    constructor
    · intro h; cases h; exact Or.inl ⟨rfl, hk⟩
    · rintro (⟨rfl, _⟩ | ⟨_, f, hf, _⟩)
      · rfl
      · exact absurd hf (hk f)

private theorem split_two {line a b : List Char} {rest : List (List Char)}
    (h : Config.split '=' line = a :: b :: rest) :
    '=' ∉ a ∧ '=' ∉ b ∧ ((line = a ++ '=' :: b) ∨ ∃ r, line = a ++ '=' :: b ++ '=' :: r) := by
  obtain ⟨_, h2, h3⟩ := Config.split_iff.2 h
  refine ⟨h3 a (by simp), h3 b (by simp), ?_⟩
  cases rest with
  | nil => left; rw [← h2]; simp [List.intercalate]
  | cons c rest =>
    right
    refine ⟨List.intercalate ['='] (c :: rest), ?_⟩
    rw [← h2]
    simp [List.intercalate]

private theorem setting_split {line : List Char} {k : String} {s : List Char} :
    IsSetting line k s ↔ ∃ a b rest, Config.split '=' line = a :: b :: rest ∧
      Config.trim a = k.toList ∧ Config.trim b = s := by
  constructor
  · rintro ⟨a, b, rest, h, ha, hb, h1, h2⟩
    rcases h with ⟨rfl, _⟩ | rfl
    · exact ⟨a, b, [], by rw [Config.split_append ha, Config.split_notMem hb], Config.trim_iff.1 h1, Config.trim_iff.1 h2⟩
    · refine ⟨a, b, Config.split '=' rest, ?_, Config.trim_iff.1 h1, Config.trim_iff.1 h2⟩
      have : a ++ '=' :: b ++ '=' :: rest = a ++ '=' :: (b ++ '=' :: rest) := by simp
      rw [this, Config.split_append ha, Config.split_append hb]
  · rintro ⟨a, b, rest, h, h1, h2⟩
    obtain ⟨ha, hb, h3 | ⟨r, h3⟩⟩ := split_two h
    · exact ⟨a, b, [], Or.inl ⟨h3, rfl⟩, ha, hb, Config.trim_iff.2 h1, Config.trim_iff.2 h2⟩
    · exact ⟨a, b, r, Or.inr h3, ha, hb, Config.trim_iff.2 h1, Config.trim_iff.2 h2⟩

/-- One line: it is a setting of a key (before the first `=`) to a text (up to a second `=`), and then
the effect is that of the setting; a line without `=` is an error. -/
theorem C52_line (pf : List Char → Option Num) (c : Config) (line : List Char) :
    (∀ k s, IsSetting line k s → Config.parseRecordStr pf c line = Config.parseRecord pf c k s) ∧
    ('=' ∈ line → ∃ k s, IsSetting line k s) ∧
    ('=' ∉ line → Config.parseRecordStr pf c line = .error .invalidLine) := by
  refine ⟨?_, ?_, ?_⟩
  · intro k s h
    obtain ⟨a, b, rest, h1, h2, h3⟩ := setting_split.1 h
    simp only [Config.parseRecordStr, h1, h2, h3, String.ofList_toList]
  · intro h
    cases hs : Config.split '=' line with
    | nil => exact absurd hs (Config.split_ne_nil _ _)
    | cons p ps =>
      cases ps with
      | nil =>
        have hh := (Config.split_iff.2 hs)
        obtain ⟨_, g2, g3⟩ := hh
        simp [List.intercalate] at g2
        subst g2
        exact absurd h (g3 p (by simp))
      | cons q qs =>
        exact ⟨String.ofList (Config.trim p), Config.trim q, setting_split.2 ⟨p, q, qs, hs, by simp, rfl⟩⟩
  · intro h
    simp only [Config.parseRecordStr, Config.split_notMem h]

private theorem record_str_ok {pf : List Char → Option Num} {c c' : Config} {line : List Char}
    (h : Config.parseRecordStr pf c line = .ok c') : ∃ (f : ConfigField) (s : List Char) (v : Value),
      IsSetting line f.key s ∧ IsText pf f s v ∧ f.get c' = v ∧ ∀ g : ConfigField, g ≠ f → g.get c' = g.get c := by
  obtain ⟨h1, h2, h3⟩ := C52_line pf c line
  by_cases hm : '=' ∈ line
  · obtain ⟨k, s, hs⟩ := h2 hm
    rw [h1 k s hs] at h
    obtain ⟨f, v, rfl, g1, g2, g3⟩ := (C52_record pf c c' k s).1 h
    exact ⟨f, s, v, hs, g1, g2, g3⟩
  · rw [h3 hm] at h; cases h

theorem text_unique {pf : List Char → Option Num} {f : ConfigField} {s : List Char} {v w : Value}
    (h1 : IsText pf f s v) (h2 : IsText pf f s w) : v = w := by
  have a := (fieldParse_iff pf f s v).2 h1
  have b := (fieldParse_iff pf f s w).2 h2
  rw [a] at b; exact Option.some.inj b

private theorem setting_unique {line : List Char} {k k' : String} {s s' : List Char}
    (h : IsSetting line k s) (h' : IsSetting line k' s') : k = k' ∧ s = s' := by
  obtain ⟨a, b, r, h1, h2, h3⟩ := setting_split.1 h
  obtain ⟨a', b', r', h1', h2', h3'⟩ := setting_split.1 h'
  rw [h1] at h1'
  simp only [List.cons.injEq] at h1'
  obtain ⟨rfl, rfl, rfl⟩ := h1'
  refine ⟨?_, by rw [← h3, h3']⟩
  rw [h2] at h2'
  exact String.toList_injective h2'

/-- A whole configuration that parses: every line sets a known field, the value of each field is the one
given by the last line that sets it (`pre ++ line :: post` with no later line for the field), and a field
that no line sets has its default value. -/
theorem C52_parse (pf : List Char → Option Num) (lines : List (List Char)) (c : Config)
    (h : Config.parse pf lines = .ok c) :
    (∀ line ∈ lines, ∃ f s v, IsSetting line (ConfigField.key f) s ∧ IsText pf f s v) ∧
    (∀ f : ConfigField, (∀ line ∈ lines, ∀ s, ¬ IsSetting line f.key s) → f.get c = f.get Config.new) ∧
    (∀ (f : ConfigField) pre line post s v, lines = pre ++ line :: post → IsSetting line f.key s →
      (∀ l ∈ post, ∀ s', ¬ IsSetting l f.key s') → IsText pf f s v → f.get c = v) := by
  unfold Config.parse at h
  generalize Config.new = c0 at h
  induction lines generalizing c0 with
  | nil =>
    simp only [Config.parseLines, Except.ok.injEq] at h
    subst h
    refine ⟨by simp, fun f _ => rfl, ?_⟩
    intro f pre line post s v h; simp at h
  | cons l ls ih =>
    simp only [Config.parseLines] at h
    cases hr : Config.parseRecordStr pf c0 l with
    | error e => rw [hr] at h; cases h
    | ok c1 =>
      rw [hr] at h
      obtain ⟨f1, s1, v1, g1, g2, g3, g4⟩ := record_str_ok hr
      obtain ⟨i1, i2, i3⟩ := ih c1 h
      have hkey : ∀ g : ConfigField, g.key = f1.key → g = f1 := by
        intro g hg
        cases f1 <;> cases g <;> first | rfl | (simp [ConfigField.key] at hg)
      refine ⟨?_, ?_, ?_⟩
      · intro line hl
        rcases List.mem_cons.1 hl with rfl | hl
        · exact ⟨f1, s1, v1, g1, g2⟩
        · exact i1 line hl
      · intro f hf
        rw [i2 f (fun line hl => hf line (by simp [hl]))]
        refine g4 f ?_
        rintro rfl
        exact hf l (by simp) s1 g1
      · intro f pre line post s v he hs hpost ht
        cases pre with
        | nil =>
          simp only [List.nil_append, List.cons.injEq] at he
          obtain ⟨rfl, rfl⟩ := he
          rw [i2 f hpost]
          obtain ⟨hk, rfl⟩ := setting_unique hs g1
          have := hkey f hk
          subst this
          rw [g3]; exact text_unique g2 ht
        | cons p pre =>
          simp only [List.cons_append, List.cons.injEq] at he
          exact i3 f pre line post s v he.2 hs hpost ht

/-- The default values are the documented ones. -/
theorem C52_defaults (f : ConfigField) : f.get Config.new = f.default := by
  cases f <;> simp [ConfigField.get, ConfigField.default, Config.new] <;> first | rfl | norm_num

/-- The first offending line stops parsing with an error. -/
theorem C52_parse_error (pf : List Char → Option Num) (lines : List (List Char))
    (h : ∃ line ∈ lines, ∀ f s v, ¬ (IsSetting line (ConfigField.key f) s ∧ IsText pf f s v)) :
    ∃ e, Config.parse pf lines = .error e := by
  cases hp : Config.parse pf lines with
  | error e => exact ⟨e, rfl⟩
  | ok c =>
    obtain ⟨line, hl, hn⟩ := h
    obtain ⟨f, s, v, h1, h2⟩ := (C52_parse pf lines c hp).1 line hl
    exact absurd ⟨h1, h2⟩ (hn f s v)

/-- A comma-separated list of decimal numbers. -/
def printNats (l : List Nat) : List Char := List.intercalate [','] (l.map fun n => Nat.toDigits 10 n)

private theorem digitChar_range (d : Nat) (h : d < 10) :
    '0' ≤ Nat.digitChar d ∧ Nat.digitChar d ≤ '9' ∧ (Nat.digitChar d).toNat - '0'.toNat = d := by
  match d, h with
  | 0, _ | 1, _ | 2, _ | 3, _ | 4, _ | 5, _ | 6, _ | 7, _ | 8, _ | 9, _ => decide

theorem toDigits_numeral (n : Nat) : Nat.toDigits 10 n ≠ [] ∧
    (∀ c ∈ Nat.toDigits 10 n, '0' ≤ c ∧ c ≤ '9') ∧ Config.digitsVal 0 (Nat.toDigits 10 n) = n := by
  induction n using Nat.strong_induction_on with
  | _ n ih =>
    by_cases h : n < 10
    · rw [Nat.toDigits_of_lt_base h]
      obtain ⟨h1, h2, h3⟩ := digitChar_range n h
      refine ⟨by simp, by simpa using ⟨h1, h2⟩, ?_⟩
      simp only [Config.digitsVal, List.foldl_cons, List.foldl_nil]; omega
    · obtain ⟨i1, i2, i3⟩ := ih (n / 10) (by omega)
      obtain ⟨h1, h2, h3⟩ := digitChar_range (n % 10) (Nat.mod_lt _ (by norm_num))
      have e : Nat.toDigits 10 n = Nat.toDigits 10 (n / 10) ++ [Nat.digitChar (n % 10)] :=
        Nat.toDigits_of_base_le (by norm_num) (by omega)
      rw [e]
      refine ⟨by simp, ?_, ?_⟩
      · intro c hc
        rcases List.mem_append.1 hc with hc | hc
        · exact i2 c hc
        · simp at hc; subst hc; exact ⟨h1, h2⟩
      · simp only [Config.digitsVal, List.foldl_append, List.foldl_cons, List.foldl_nil] at i3 ⊢
        rw [i3, h3]; omega

/-- Round trip: a printed list of feature indices is parsed to this list. -/
theorem C52_roundtrip (pf : List Char → Option Num) (c : Config) (l : List Nat) (h : ∀ n ∈ l, n < 2 ^ 64) :
    ∃ c', Config.parseRecord pf c "categorical_features" (printNats l) = .ok c' ∧
      c'.categoricalFeatures = l := by
  have key : IsText pf .categoricalFeatures (printNats l) (.nats l) := by
    cases l with
    | nil => exact Or.inl ⟨rfl, rfl⟩
    | cons n l =>
      have hdig : ∀ c, '0' ≤ c ∧ c ≤ '9' → c ≠ ',' ∧ Config.isWs c = false := by
        intro c hc
        have h0 : 48 ≤ c.toNat := by
          have := hc.1; rw [Char.le_def, UInt32.le_iff_toNat_le] at this; exact this
        have h9 : c.toNat ≤ 57 := by
          have := hc.2; rw [Char.le_def, UInt32.le_iff_toNat_le] at this; exact this
        constructor
        · rintro rfl; simp at h0
        · simp only [Config.isWs, Bool.or_eq_false_iff, Bool.and_eq_false_iff, decide_eq_false_iff_not,
            beq_eq_false_iff_ne]
          omega
      refine Or.inr ⟨?_, (n :: l).map (Nat.toDigits 10), n :: l, ⟨by simp, rfl, ?_⟩, ?_, rfl⟩
      · intro hnil
        have := (toDigits_numeral n).1
        unfold printNats List.intercalate at hnil
        cases l with
        | nil => simp at hnil
        | cons m l => simp at hnil
      · intro p hp
        simp only [List.mem_map] at hp
        obtain ⟨m, _, rfl⟩ := hp
        intro hmem
        exact (hdig _ ((toDigits_numeral m).2.1 _ hmem)).1 rfl
      · rw [List.forall₂_map_left_iff, List.forall₂_same]
        intro m hm
        obtain ⟨h1, h2, h3⟩ := toDigits_numeral m
        refine ⟨h m hm, Nat.toDigits 10 m, ⟨[], [], by simp, by simp, by simp, ?_, ?_⟩, ?_⟩
        · intro c hc; exact (Config.isWs_eq_false c).1 (hdig c (h2 c (List.mem_of_mem_head? hc))).2
        · intro c hc; exact (Config.isWs_eq_false c).1 (hdig c (h2 c (List.mem_of_getLast? hc))).2
        · exact ⟨_, Or.inl rfl, h1, h2, h3.symm⟩
  obtain ⟨c', g1, g2, _⟩ := (parse_known pf c .categoricalFeatures (printNats l)).1 _
    ((fieldParse_iff pf .categoricalFeatures _ _).2 key)
  exact ⟨c', g1, by simpa [ConfigField.get] using g2⟩

/-- Non-vacuity and a finding: text after a second `=` is ignored. -/
example (pf : List Char → Option Num) :
    Config.parse pf ["max_nbins = 3".toList, "max_nbins=7=9".toList] = .ok { Config.new with maxNbins := 7 } := by
  rfl

end BitBoost.Props
