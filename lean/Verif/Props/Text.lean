import Verif.Model.Text
import Verif.Spec.Text
import Verif.Props.Ieee
import Verif.Props.Data
/-!
# C71, C72: numbers and tables in texts
-/
namespace BitBoost.Props
open BitBoost Spec Text

/-! ### Digits -/

theorem digit_char (d : Fin 10) : Config.digit (digitChar d) = some d.val := by
  revert d; decide

theorem digit_some {c : Char} {n : Nat} (h : Config.digit c = some n) : ∃ d : Fin 10, c = digitChar d ∧ n = d.val := by
  unfold Config.digit at h
  split at h
  · rename_i hc
    simp only [Option.some.injEq] at h
    refine ⟨⟨c.toNat - 48, by omega⟩, ?_, h.symm⟩
    unfold digitChar
    rw [show 48 + (c.toNat - 48) = c.toNat by omega, Char.ofNat_toNat]
  · cases h

/-- The text does not begin with a digit. -/
def NoDigit (s : List Char) : Prop := ∀ c r, s = c :: r → Config.digit c = none

theorem spanDigits_append (ds : List (Fin 10)) {s : List Char} (h : NoDigit s) :
    spanDigits (ds.map digitChar ++ s) = (ds.map Fin.val, s) := by
  induction ds with
  | nil =>
    cases s with
    | nil => rfl
    | cons c s => simp only [List.map_nil, List.nil_append, spanDigits, h c s rfl]
  | cons d ds ih => simp only [List.map_cons, List.cons_append, spanDigits, digit_char, ih]

theorem spanDigits_inv : ∀ s : List Char, ∃ (ds : List (Fin 10)) (r : List Char),
    s = ds.map digitChar ++ r ∧ NoDigit r
  | [] => ⟨[], [], rfl, by intro c r h; cases h⟩
  | c :: s => by
      cases hc : Config.digit c with
      | none => exact ⟨[], c :: s, rfl, by intro c' r h; cases h; exact hc⟩
      | some n =>
        obtain ⟨d, rfl, -⟩ := digit_some hc
        obtain ⟨ds, r, h1, h2⟩ := spanDigits_inv s
        exact ⟨d :: ds, r, by rw [h1]; rfl, h2⟩

theorem digitsValue_append (a b : List Nat) :
    digitsValue (a ++ b) = digitsValue a * 10 ^ b.length + digitsValue b := by
  induction b using List.reverseRecOn with
  | nil => simp [digitsValue]
  | append_singleton b x ih =>
    unfold digitsValue at *
    have e : List.foldl (fun v d => v * 10 + d) 0 (b ++ [x]) = List.foldl (fun v d => v * 10 + d) 0 b * 10 + x := by
      rw [List.foldl_append]; rfl
    rw [← List.append_assoc, List.foldl_append, ih, e]
    simp only [List.foldl_cons, List.foldl_nil, List.length_append, List.length_cons, List.length_nil, pow_succ, pow_zero]
    ring

theorem digitsValue_ofDigits (ds : List (Fin 10)) : digitsValue (ds.map Fin.val) = Decimal.ofDigits ds := by
  induction ds using List.reverseRecOn with
  | nil => rfl
  | append_singleton ds d ih =>
    rw [List.map_append, digitsValue_append, ih]
    unfold Decimal.ofDigits
    simp only [List.reverse_append, List.reverse_cons, List.reverse_nil, List.nil_append, List.map_append, List.map_cons,
      List.map_nil, List.singleton_append, Nat.ofDigits_cons, List.length_cons, List.length_nil]
    simp [digitsValue]
    ring

theorem digit_sign (d : Fin 10) : digitChar d ≠ '-' ∧ digitChar d ≠ '+' ∧ digitChar d ≠ '.' ∧ digitChar d ≠ 'e' ∧
    digitChar d ≠ 'E' := by
  revert d; decide

/-- The text does not begin with a sign. -/
def NoSign (s : List Char) : Prop := s.head? ≠ some '-' ∧ s.head? ≠ some '+'

theorem takeSign_text (sg : Option Bool) {s : List Char} (h : NoSign s) :
    takeSign (Decimal.signText sg ++ s) = (decide (sg = some true), s) := by
  rcases sg with _ | _ | _
  · cases s with
    | nil => rfl
    | cons c s =>
      obtain ⟨h1, h2⟩ := h
      simp only [List.head?_cons, ne_eq, Option.some.injEq] at h1 h2
      simp [Decimal.signText, takeSign, h1, h2]
  · simp [Decimal.signText, takeSign]
  · simp [Decimal.signText, takeSign]

theorem takeSign_inv (s : List Char) : ∃ sg : Option Bool, s = Decimal.signText sg ++ (takeSign s).2 ∧
    (takeSign s).1 = decide (sg = some true) := by
  cases s with
  | nil => exact ⟨none, rfl, rfl⟩
  | cons c s =>
    by_cases h1 : c = '-'
    · exact ⟨some true, by simp [Decimal.signText, takeSign, h1], by simp [takeSign, h1]⟩
    by_cases h2 : c = '+'
    · exact ⟨some false, by simp [Decimal.signText, takeSign, h2], by simp [takeSign, h2]⟩
    · exact ⟨none, by simp [Decimal.signText, takeSign, h1, h2], by simp [takeSign, h1, h2]⟩

/-! ### Numbers -/

/-- How an exponent is written. -/
def expText : Option (Char × Option Bool × List (Fin 10)) → List Char
  | none => []
  | some (c, s, e) => c :: (Decimal.signText s ++ e.map digitChar)

def expVal : Option (Char × Option Bool × List (Fin 10)) → ℤ
  | none => 0
  | some (_, s, e) => if s = some true then -(Decimal.ofDigits e : ℤ) else Decimal.ofDigits e

def ExpOk (x : Option (Char × Option Bool × List (Fin 10))) : Prop :=
  ∀ c s e, x = some (c, s, e) → (c = 'e' ∨ c = 'E') ∧ e ≠ []

theorem noSign_digits (ds : List (Fin 10)) (h : ds ≠ []) (s : List Char) : NoSign (ds.map digitChar ++ s) := by
  cases ds with
  | nil => exact absurd rfl h
  | cons d ds =>
    have := digit_sign d
    simp [NoSign, this.1, this.2.1]

theorem parseExp_text {x : Option (Char × Option Bool × List (Fin 10))} (h : ExpOk x) :
    parseExp (expText x) = some (expVal x) := by
  rcases x with _ | ⟨c, s, e⟩
  · rfl
  · obtain ⟨hc, he⟩ := h c s e rfl
    have h1 : takeSign (Decimal.signText s ++ e.map digitChar) = (decide (s = some true), e.map digitChar) := by
      have := takeSign_text s (s := e.map digitChar) (by simpa using noSign_digits e he [])
      exact this
    have h2 : spanDigits (e.map digitChar) = (e.map Fin.val, []) := by
      have := spanDigits_append e (s := []) (by intro c r h; cases h)
      simpa using this
    simp only [expText, parseExp, if_pos hc, h1, h2, expVal, digitsValue_ofDigits]
    cases e with
    | nil => exact absurd rfl he
    | cons d e => simp

theorem parseExp_inv {s : List Char} {e : ℤ} (h : parseExp s = some e) : ∃ x, ExpOk x ∧ s = expText x ∧ e = expVal x := by
  cases s with
  | nil =>
    cases h
    exact ⟨none, (by intro c s e h; cases h), rfl, rfl⟩
  | cons c s =>
    simp only [parseExp] at h
    split at h
    · rename_i hc
      obtain ⟨sg, h1, h2⟩ := takeSign_inv s
      obtain ⟨ds, r, h3, h4⟩ := spanDigits_inv (takeSign s).2
      rw [h3, spanDigits_append ds h4] at h
      simp only at h
      split at h
      · cases h
      · rename_i hne
        simp only [Bool.or_eq_true, List.isEmpty_iff, List.map_eq_nil_iff, Bool.not_eq_true', not_or, Bool.not_eq_false] at hne
        obtain ⟨hn1, hn2⟩ := hne
        subst hn2
        refine ⟨some (c, sg, ds), ?_, ?_, ?_⟩
        · intro c' s' e' he
          cases he
          exact ⟨hc, hn1⟩
        · rw [List.append_nil] at h3
          rw [h3] at h1
          rw [h1]
          rfl
        · simp only [Option.some.injEq] at h
          rw [← h, h2, digitsValue_ofDigits]
          simp [expVal]
    · cases h

/-- How the digits after the point are written. -/
def fracText : Option (List (Fin 10)) → List Char
  | none => []
  | some f => '.' :: f.map digitChar

theorem expText_head {x : Option (Char × Option Bool × List (Fin 10))} (h : ExpOk x) :
    NoDigit (expText x) ∧ (expText x).head? ≠ some '.' := by
  rcases x with _ | ⟨c, s, e⟩
  · exact ⟨(by intro c r h; cases h), by simp [expText]⟩
  · obtain ⟨hc, _⟩ := h c s e rfl
    constructor
    · intro c' r h'
      cases h'
      rcases hc with rfl | rfl <;> decide
    · rcases hc with rfl | rfl <;> simp [expText]

theorem number_value (whole : List (Fin 10)) (fr : Option (List (Fin 10))) (e : ℤ) :
    (digitsValue (whole.map Fin.val ++ (fr.getD []).map Fin.val) : ℚ) * 10 ^ (e - (((fr.getD []).map Fin.val).length : ℤ)) =
      ((Decimal.ofDigits whole : ℚ) + (Decimal.ofDigits (fr.getD []) : ℚ) / 10 ^ (fr.getD []).length) * 10 ^ e := by
  rw [digitsValue_append, digitsValue_ofDigits, digitsValue_ofDigits, List.length_map, zpow_sub₀ (by norm_num), zpow_natCast]
  push_cast
  field_simp

theorem parseNumber_text (whole : List (Fin 10)) (fr : Option (List (Fin 10)))
    {x : Option (Char × Option Bool × List (Fin 10))} (hx : ExpOk x) (hne : whole ≠ [] ∨ fr.getD [] ≠ []) :
    parseNumber (whole.map digitChar ++ (fracText fr ++ expText x)) =
      some (((Decimal.ofDigits whole : ℚ) + (Decimal.ofDigits (fr.getD []) : ℚ) / 10 ^ (fr.getD []).length) *
        10 ^ expVal x) := by
  obtain ⟨hx1, hx2⟩ := expText_head hx
  have hp := parseExp_text hx
  rcases fr with _ | f
  · have hw : whole ≠ [] := by simpa using hne
    simp only [fracText, List.nil_append]
    have hv := number_value whole none (expVal x)
    simp only [Option.getD_none, List.map_nil] at hv
    unfold parseNumber
    rw [spanDigits_append whole hx1]
    generalize expText x = t at hx2 hp ⊢
    cases t with
    | nil =>
      simp only [hp]
      rw [if_neg (by simp [hw])]
      exact congrArg some hv
    | cons c r =>
      simp only [List.head?_cons, ne_eq, Option.some.injEq] at hx2
      simp only [if_neg hx2, hp]
      rw [if_neg (by simp [hw])]
      exact congrArg some hv
  · simp only [fracText, List.cons_append]
    unfold parseNumber
    rw [spanDigits_append whole (by intro c r h; cases h; decide)]
    simp only [if_true, spanDigits_append f hx1, hp]
    have hv := number_value whole (some f) (expVal x)
    simp only [Option.getD_some] at hv
    rw [if_neg (by
      simp only [Option.getD_some] at hne
      simp only [Bool.and_eq_true, List.isEmpty_iff, List.map_eq_nil_iff, not_and]
      rintro h1 h2
      rcases hne with h | h <;> contradiction)]
    exact congrArg some hv

theorem parseNumber_inv {s : List Char} {q : ℚ} (h : parseNumber s = some q) :
    ∃ whole fr x, ExpOk x ∧ (whole ≠ [] ∨ fr.getD [] ≠ []) ∧ s = whole.map digitChar ++ (fracText fr ++ expText x) := by
  obtain ⟨ds, r, h1, h2⟩ := spanDigits_inv s
  subst h1
  unfold parseNumber at h
  rw [spanDigits_append ds h2] at h
  have key : ∀ (fr : List Nat) (t : List Char), (if (ds.map Fin.val).isEmpty && fr.isEmpty then none
      else match parseExp t with
        | none => none
        | some e => some ((digitsValue (ds.map Fin.val ++ fr) : ℚ) * 10 ^ (e - fr.length))) = some q →
      (ds ≠ [] ∨ fr ≠ []) ∧ ∃ x, ExpOk x ∧ t = expText x := by
    intro fr t h
    split at h
    · cases h
    rename_i hne
    split at h
    · cases h
    rename_i e he
    obtain ⟨x, hx1, hx2, _⟩ := parseExp_inv he
    refine ⟨?_, x, hx1, hx2⟩
    simp only [Bool.and_eq_true, List.isEmpty_iff, List.map_eq_nil_iff, not_and] at hne
    by_cases hd : ds = []
    · exact Or.inr (hne hd)
    · exact Or.inl hd
  cases r with
  | nil =>
    obtain ⟨hne, x, hx1, hx2⟩ := key [] [] h
    refine ⟨ds, none, x, hx1, Or.inl (by simpa using hne), ?_⟩
    rw [← hx2]; simp [fracText]
  | cons c r =>
    by_cases hc : c = '.'
    · subst hc
      simp only [if_true] at h
      obtain ⟨f, r', h3, h4⟩ := spanDigits_inv r
      subst h3
      rw [spanDigits_append f h4] at h
      obtain ⟨hne, x, hx1, hx2⟩ := key (f.map Fin.val) r' h
      refine ⟨ds, some f, x, hx1, by simpa using hne, ?_⟩
      rw [hx2]; simp [fracText]
    · simp only [if_neg hc] at h
      obtain ⟨hne, x, hx1, hx2⟩ := key [] (c :: r) h
      refine ⟨ds, none, x, hx1, Or.inl (by simpa using hne), ?_⟩
      rw [← hx2]; simp [fracText]

theorem decimal_text (d : Decimal) : d.text =
    Decimal.signText d.sign ++ (d.whole.map digitChar ++ (fracText d.fraction ++ expText d.exponent)) := by
  obtain ⟨sg, w, fr, x⟩ := d
  unfold Decimal.text
  rcases fr with _ | f <;> rcases x with _ | ⟨c, s, e⟩ <;> simp [fracText, expText]

theorem decimal_value (d : Decimal) : d.value = if d.sign = some true then
      -(((Decimal.ofDigits d.whole : ℚ) + (Decimal.ofDigits (d.fraction.getD []) : ℚ) / 10 ^ (d.fraction.getD []).length) *
        10 ^ expVal d.exponent)
    else ((Decimal.ofDigits d.whole : ℚ) + (Decimal.ofDigits (d.fraction.getD []) : ℚ) / 10 ^ (d.fraction.getD []).length) *
        10 ^ expVal d.exponent := by
  obtain ⟨sg, w, fr, x⟩ := d
  have : Decimal.exp10 ⟨sg, w, fr, x⟩ = expVal x := by
    rcases x with _ | ⟨c, s, e⟩ <;> rfl
  unfold Decimal.value
  rw [this]
  unfold Decimal.places
  split_ifs <;> ring

theorem noSign_number {whole : List (Fin 10)} {fr : Option (List (Fin 10))}
    {x : Option (Char × Option Bool × List (Fin 10))} (hne : whole ≠ [] ∨ fr.getD [] ≠ []) :
    NoSign (whole.map digitChar ++ (fracText fr ++ expText x)) := by
  cases whole with
  | cons d ds => exact noSign_digits (d :: ds) (by simp) _
  | nil =>
    rcases fr with _ | f
    · simp at hne
    · constructor <;> simp [fracText]


theorem parse_decimal {d : Decimal} (h : d.Proper) :
    takeSign d.text = (decide (d.sign = some true), d.whole.map digitChar ++ (fracText d.fraction ++ expText d.exponent)) ∧
    parseNumber (d.whole.map digitChar ++ (fracText d.fraction ++ expText d.exponent)) = 
      some (((Decimal.ofDigits d.whole : ℚ) + (Decimal.ofDigits (d.fraction.getD []) : ℚ) / 10 ^ (d.fraction.getD []).length) *
        10 ^ expVal d.exponent) := by
  obtain ⟨h1, h2⟩ := h
  refine ⟨?_, parseNumber_text _ _ h2 h1⟩
  rw [decimal_text]
  exact takeSign_text _ (noSign_number h1)

/-- The words. -/
theorem lower_letter {c : Char} (h : c.toLower = 'i' ∨ c.toLower = 'n') :
    Config.digit c = none ∧ c ≠ '.' ∧ c ≠ '-' ∧ c ≠ '+' := by
  refine ⟨?_, ?_, ?_, ?_⟩
  · cases hd : Config.digit c with
    | none => rfl
    | some n =>
      obtain ⟨d, rfl, -⟩ := digit_some hd
      exfalso
      clear hd
      revert d
      decide
  all_goals
    rintro rfl
    revert h
    decide

theorem word_number {c : Char} {s : List Char} (h : c.toLower = 'i' ∨ c.toLower = 'n') :
    parseNumber (c :: s) = none ∧ NoSign (c :: s) := by
  obtain ⟨h1, h2, h3, h4⟩ := lower_letter h
  constructor
  · unfold parseNumber
    simp [spanDigits, h1, h2]
  · constructor <;> simp [h3, h4]

/-- **C71**: a decimal number in any of its written forms is read as the nearest single-precision number to its exact
value (ties to even; beyond the largest one, as infinity): with one rounding, whatever the number of digits. -/
theorem C71_decimal (F : FP) (d : Decimal) (h : d.Proper) : parseF32 F d.text = some (F.rnd d.value) := by
  obtain ⟨h1, h2⟩ := parse_decimal h
  unfold parseF32
  rw [h1]
  simp only [h2, decimal_value]
  by_cases hs : d.sign = some true <;> simp [hs]

theorem map_eq_cons {w : List Char} {c : Char} {s : List Char} (h : w.map Char.toLower = c :: s) :
    ∃ c' s', w = c' :: s' ∧ c'.toLower = c := by
  cases w with
  | nil => cases h
  | cons c' s' => simp only [List.map_cons, List.cons.injEq] at h; exact ⟨c', s', rfl, h.1⟩

/-- The texts that are read as numbers are exactly the decimal numbers and the words `inf`, `infinity` and `nan` in upper or
lower case with an optional sign; everything else is rejected. -/
theorem C71_exactly (F : FP) (s : List Char) (x : Num) : parseF32 F s = some x ↔ NumberText F s x := by
  constructor
  · intro h
    obtain ⟨sg, h1, h2⟩ := takeSign_inv s
    cases hp : parseNumber (takeSign s).2 with
    | some q =>
      left
      obtain ⟨whole, fr, e, he, hne, ht⟩ := parseNumber_inv hp
      refine ⟨⟨sg, whole, fr, e⟩, ⟨hne, he⟩, ?_, ?_⟩
      · rw [decimal_text, ← ht]; exact h1
      · have hd := C71_decimal F ⟨sg, whole, fr, e⟩ ⟨hne, he⟩
        rw [decimal_text, ← ht, ← h1, h] at hd
        exact Option.some.inj hd
    | none =>
      right
      unfold parseF32 at h
      simp only [hp] at h
      refine ⟨sg, (takeSign s).2, h1, ?_⟩
      split at h
      · rename_i hw
        left
        refine ⟨hw, ?_⟩
        simp only [Option.some.injEq] at h
        rw [← h, h2]
        simp
      · split at h
        · rename_i hw
          exact Or.inr ⟨hw, (Option.some.inj h).symm⟩
        · cases h
  · rintro (⟨d, hd, rfl, rfl⟩ | ⟨sg, w, rfl, h⟩)
    · exact C71_decimal F d hd
    have e1 : "inf".toList = ['i', 'n', 'f'] := rfl
    have e2 : "infinity".toList = ['i', 'n', 'f', 'i', 'n', 'i', 't', 'y'] := rfl
    have e3 : "nan".toList = ['n', 'a', 'n'] := rfl
    rw [e1, e2, e3] at h
    · have hw : parseNumber w = none ∧ NoSign w := by
        rcases h with ⟨h | h, _⟩ | ⟨h, _⟩
        all_goals
          obtain ⟨c, s, rfl, hc⟩ := map_eq_cons h
          exact word_number (by simp [hc])
      unfold parseF32
      rw [takeSign_text sg hw.2]
      simp only [hw.1]
      rcases h with ⟨h, rfl⟩ | ⟨h, rfl⟩
      · rw [if_pos h]
        by_cases hs : sg = some true <;> simp [hs]
      · rw [if_neg (by rw [h]; decide), if_pos h]

/-- The same in the words of IEEE 754: the number read is the correctly rounded value of the text. -/
theorem C71_f32 (d : Decimal) (h : d.Proper) : ∃ x, parseF32 .binary32 d.text = some x ∧ Rounded32 d.value x :=
  ⟨_, C71_decimal _ d h, (ieee_rounding _ _).2 rfl⟩

/-- Non-vacuity: `-12.50e-1`. -/
example : ({ sign := some true, whole := [1, 2], fraction := some [5, 0], exponent := some ('e', some true, [1]) } : Decimal).text =
    "-12.50e-1".toList ∧
    ({ sign := some true, whole := [1, 2], fraction := some [5, 0], exponent := some ('e', some true, [1]) } : Decimal).value =
      -5 / 4 ∧
    parseF32 .binary32 "-12.50e-1".toList = some (.fin (-5 / 4)) := by
  decide +kernel

end BitBoost.Props
