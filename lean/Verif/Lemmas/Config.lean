import Verif.Spec.Settings
import Mathlib.Data.List.TakeWhile
import Mathlib.Tactic.Linarith
/-! Lemmas about the parsers of the configuration. -/
namespace BitBoost.Config
open BitBoost.Spec

theorem isWs_iff (c : Char) : isWs c = true ↔ IsSpace c := by
  unfold isWs IsSpace
  generalize c.toNat = n
  simp only [Bool.or_eq_true, Bool.and_eq_true, decide_eq_true_eq, beq_iff_eq, List.mem_cons, List.not_mem_nil, or_false]
  omega

theorem isWs_eq_false (c : Char) : isWs c = false ↔ ¬ IsSpace c := by
  rw [← isWs_iff, Bool.not_eq_true]

theorem isTrimmed_iff (s t : List Char) : IsTrimmed s t ↔
    ∃ a b, s = a ++ t ++ b ∧ (∀ c ∈ a, isWs c = true) ∧ (∀ c ∈ b, isWs c = true) ∧
      (∀ c, t.head? = some c → isWs c = false) ∧ (∀ c, t.getLast? = some c → isWs c = false) := by
  simp only [isWs_iff, isWs_eq_false]; rfl

theorem trim_isTrimmed (s : List Char) : IsTrimmed s (trim s) := by
  rw [isTrimmed_iff]
  unfold trim
  set u := s.dropWhile isWs with hu
  have h1 : s = s.takeWhile isWs ++ u := (List.takeWhile_append_dropWhile).symm
  have h2 : u.reverse = u.reverse.takeWhile isWs ++ u.reverse.dropWhile isWs :=
    (List.takeWhile_append_dropWhile).symm
  have h3 : u = (u.reverse.dropWhile isWs).reverse ++ (u.reverse.takeWhile isWs).reverse := by
    have := congrArg List.reverse h2
    rw [List.reverse_reverse, List.reverse_append] at this
    exact this
  refine ⟨s.takeWhile isWs, (u.reverse.takeWhile isWs).reverse, ?_, ?_, ?_, ?_, ?_⟩
  · rw [List.append_assoc, ← h3]; exact h1
  · intro c hc; exact List.mem_takeWhile_imp hc
  · intro c hc; rw [List.mem_reverse] at hc; exact List.mem_takeWhile_imp hc
  · intro c hc
    -- the head of the trimmed text is the head of `u`
    have hne : u.reverse.dropWhile isWs ≠ [] := by
      intro h; rw [h] at hc; simp at hc
    have : u.head? = some c := by
      rw [h3, List.head?_append, hc]; rfl
    cases hu' : u with
    | nil => rw [hu'] at this; simp at this
    | cons a u' =>
      rw [hu'] at this
      simp only [List.head?_cons, Option.some.injEq] at this
      subst this
      have hd := List.head?_dropWhile_not isWs s
      rw [← hu, hu'] at hd
      simpa using hd
  · intro c hc
    rw [List.getLast?_reverse] at hc
    have hd := List.head?_dropWhile_not isWs u.reverse
    rw [hc] at hd
    simpa using hd

theorem isTrimmed_unique {s t : List Char} (h : IsTrimmed s t) : trim s = t := by
  obtain ⟨a, b, rfl, ha, hb, h1, h2⟩ := (isTrimmed_iff _ _).1 h
  unfold trim
  have e1 : (a ++ t ++ b).dropWhile isWs = (t ++ b).dropWhile isWs := by
    rw [List.append_assoc, List.dropWhile_append_of_pos (by simpa using ha)]
  rw [e1]
  cases ht : t with
  | nil =>
    simp only [List.nil_append]
    have : b.dropWhile isWs = [] := List.dropWhile_eq_nil_iff.2 hb
    rw [this]; rfl
  | cons c t' =>
    have hc : isWs c = false := h1 c (by rw [ht]; rfl)
    have e2 : (c :: t' ++ b).dropWhile isWs = c :: t' ++ b := by
      simp [List.dropWhile_cons, hc]
    rw [e2, List.reverse_append, List.dropWhile_append_of_pos (by simpa using hb)]
    have hl : ∃ l rest, (c :: t').reverse = l :: rest := by
      cases h : (c :: t').reverse with
      | nil => simp at h
      | cons l rest => exact ⟨l, rest, rfl⟩
    obtain ⟨l, rest, hl⟩ := hl
    have hlast : (c :: t').getLast? = some l := by
      rw [← List.head?_reverse, hl]; rfl
    have hlw : isWs l = false := h2 l (by rw [ht]; exact hlast)
    rw [hl, List.dropWhile_cons, hlw]
    simp only [Bool.false_eq_true, if_false]
    rw [← hl, List.reverse_reverse]

theorem trim_iff {s t : List Char} : IsTrimmed s t ↔ trim s = t :=
  ⟨isTrimmed_unique, fun h => h ▸ trim_isTrimmed s⟩

theorem split_ne_nil (sep : Char) (s : List Char) : split sep s ≠ [] := by
  cases s with
  | nil => simp [split]
  | cons c s => unfold split; split_ifs; · simp
                split <;> simp

theorem split_cons_ne {sep c : Char} (h : c ≠ sep) (s : List Char) :
    ∃ p ps, split sep s = p :: ps ∧ split sep (c :: s) = (c :: p) :: ps := by
  cases hs : split sep s with
  | nil => exact absurd hs (split_ne_nil sep s)
  | cons p ps => exact ⟨p, ps, rfl, by simp [split, h, hs]⟩

theorem split_isSplit (sep : Char) (s : List Char) : IsSplit' sep s (split sep s) := by
  refine ⟨split_ne_nil sep s, ?_, ?_⟩
  · induction s with
    | nil => simp [split, List.intercalate]
    | cons c s ih =>
      by_cases h : c = sep
      · subst h
        rw [show split c (c :: s) = [] :: split c s by simp [split]]
        cases hs : split c s with
        | nil => exact absurd hs (split_ne_nil c s)
        | cons p ps =>
          rw [hs] at ih
          simp only [List.intercalate, List.intersperse_cons_cons, List.flatten_cons, List.nil_append] at ih ⊢
          rw [ih]; rfl
      · obtain ⟨p, ps, h1, h2⟩ := split_cons_ne h s
        rw [h2]; rw [h1] at ih
        cases ps with
        | nil => simp [List.intercalate] at ih ⊢; rw [ih]
        | cons q qs =>
          simp only [List.intercalate, List.intersperse_cons_cons, List.flatten_cons] at ih ⊢
          rw [List.cons_append, ih]
  · induction s with
    | nil => simp [split]
    | cons c s ih =>
      by_cases h : c = sep
      · subst h
        rw [show split c (c :: s) = [] :: split c s by simp [split]]
        simpa using ih
      · obtain ⟨p, ps, h1, h2⟩ := split_cons_ne h s
        rw [h1] at ih
        rw [h2]
        intro q hq
        rcases List.mem_cons.1 hq with rfl | hq
        · have := ih p (by simp)
          simp only [List.mem_cons, not_or]
          exact ⟨fun e => h e.symm, this⟩
        · exact ih q (by simp [hq])

theorem split_notMem {sep : Char} {p : List Char} (h : sep ∉ p) : split sep p = [p] := by
  induction p with
  | nil => rfl
  | cons c p ih =>
    simp only [List.mem_cons, not_or] at h
    simp [split, Ne.symm h.1, ih h.2]

theorem split_append {sep : Char} {p : List Char} (h : sep ∉ p) (s : List Char) :
    split sep (p ++ sep :: s) = p :: split sep s := by
  induction p with
  | nil => simp [split]
  | cons c p ih =>
    simp only [List.mem_cons, not_or] at h
    simp [split, Ne.symm h.1, ih h.2]

theorem isSplit_unique {sep : Char} {s : List Char} {parts : List (List Char)} (h : IsSplit' sep s parts) :
    split sep s = parts := by
  obtain ⟨h1, h2, h3⟩ := h
  induction parts generalizing s with
  | nil => exact absurd rfl h1
  | cons p ps ih =>
    cases ps with
    | nil =>
      simp [List.intercalate] at h2
      subst h2
      exact split_notMem (h3 p (by simp))
    | cons q qs =>
      simp only [List.intercalate, List.intersperse_cons_cons, List.flatten_cons] at h2
      have := ih (s := List.intercalate [sep] (q :: qs)) (by simp) rfl (fun x hx => h3 x (by simp [hx]))
      subst h2
      have e : p ++ ([sep] ++ (List.intersperse [sep] (q :: qs)).flatten) =
          p ++ sep :: List.intercalate [sep] (q :: qs) := rfl
      rw [e, split_append (h3 p (by simp)), this]

theorem split_iff {sep : Char} {s : List Char} {parts : List (List Char)} :
    IsSplit' sep s parts ↔ split sep s = parts :=
  ⟨isSplit_unique, fun h => h ▸ split_isSplit sep s⟩

/-- The value of digits after a prefix with value `acc`. -/
def digitsVal (acc : Nat) (ds : List Char) : Nat := ds.foldl (fun a c => 10 * a + (c.toNat - '0'.toNat)) acc

theorem acc_le_digitsVal (acc : Nat) (ds : List Char) : acc ≤ digitsVal acc ds := by
  induction ds generalizing acc with
  | nil => exact le_rfl
  | cons c ds ih =>
    have := ih (10 * acc + (c.toNat - '0'.toNat))
    simp only [digitsVal, List.foldl_cons] at this ⊢
    omega

theorem digit_iff {c : Char} {d : Nat} : digit c = some d ↔ ('0' ≤ c ∧ c ≤ '9') ∧ d = c.toNat - '0'.toNat := by
  have h0 : ('0' ≤ c) ↔ 48 ≤ c.toNat := by
    rw [Char.le_def, UInt32.le_iff_toNat_le]; rfl
  have h9 : (c ≤ '9') ↔ c.toNat ≤ 57 := by
    rw [Char.le_def, UInt32.le_iff_toNat_le]; rfl
  have hz : '0'.toNat = 48 := rfl
  unfold digit
  rw [h0, h9, hz]
  split_ifs with h
  · simp only [Option.some.injEq]; constructor
    · intro e; exact ⟨h, e.symm⟩
    · intro e; exact e.2.symm
  · simp [h]

theorem parseDigits_iff (maxv acc : Nat) (ds : List Char) (n : Nat) (hacc : acc ≤ maxv) :
    parseDigits maxv acc ds = some n ↔
      (∀ c ∈ ds, '0' ≤ c ∧ c ≤ '9') ∧ n = digitsVal acc ds ∧ n ≤ maxv := by
  induction ds generalizing acc with
  | nil =>
    simp only [parseDigits, Option.some.injEq, List.not_mem_nil, false_implies, implies_true, true_and]
    constructor
    · rintro rfl; exact ⟨rfl, hacc⟩
    · rintro ⟨h, _⟩; exact h.symm
  | cons c ds ih =>
    simp only [parseDigits]
    cases hd : digit c with
    | none =>
      simp only [Option.bind_eq_bind, Option.bind_none, reduceCtorEq, false_iff]
      rintro ⟨h, _⟩
      have := digit_iff.2 ⟨h c (by simp), rfl⟩
      rw [hd] at this; cases this
    | some d =>
      obtain ⟨hc, rfl⟩ := digit_iff.1 hd
      simp only [Option.bind_eq_bind, Option.bind_some]
      have e : acc * 10 + (c.toNat - '0'.toNat) = 10 * acc + (c.toNat - '0'.toNat) := by omega
      rw [e]
      split_ifs with hle
      · rw [ih _ hle]
        simp [digitsVal, hc]
      · simp only [reduceCtorEq, false_iff]
        rintro ⟨_, h2, h3⟩
        have := acc_le_digitsVal (10 * acc + (c.toNat - '0'.toNat)) ds
        simp only [digitsVal, List.foldl_cons] at h2 this
        omega

theorem parseUnsigned_iff (maxv : Nat) (s : List Char) (n : Nat) :
    parseUnsigned maxv s = some n ↔ n ≤ maxv ∧ IsNumeral s n := by
  have hp : ¬ ('0' ≤ '+' ∧ '+' ≤ '9') := by decide
  unfold parseUnsigned IsNumeral
  split
  · simp
  · simp only [reduceCtorEq, false_iff]
    rintro ⟨_, ds, h | h, h1, h2, _⟩
    · subst h; exact hp (h2 _ (by simp))
    · simp at h; exact h1 h
  · rename_i c s
    rw [parseDigits_iff _ _ _ _ (Nat.zero_le _)]
    constructor
    · rintro ⟨h1, h2, h3⟩; exact ⟨h3, _, Or.inr rfl, by simp, h1, h2⟩
    · rintro ⟨h3, ds, h | h, h1, h2, h4⟩
      · subst h; exact absurd (h2 '+' (by simp)) hp
      · simp at h; subst h; exact ⟨h2, h4, h3⟩
  · rename_i s h1 h2 h3
    rw [parseDigits_iff _ _ _ _ (Nat.zero_le _)]
    constructor
    · rintro ⟨g1, g2, g3⟩
      refine ⟨g3, _, Or.inl rfl, h1, g1, g2⟩
    · rintro ⟨g3, ds, h | h, g1, g2, g4⟩
      · subst h; exact ⟨g2, g4, g3⟩
      · cases ds with
        | nil => exact absurd rfl g1
        | cons c ds => exact absurd h (h3 c ds)

theorem parseVecLoop_iff {α : Type} (p : List Char → Option α) (vs : List (List Char)) (l : List α) :
    parseVecLoop p vs = some l ↔ List.Forall₂ (fun v x => p (trim v) = some x) vs l := by
  induction vs generalizing l with
  | nil => cases l <;> simp [parseVecLoop]
  | cons v vs ih =>
    simp only [parseVecLoop, Option.bind_eq_bind, Option.bind_eq_some_iff]
    constructor
    · rintro ⟨x, hx, xs, hxs, h⟩
      simp at h; subst h
      exact .cons hx ((ih xs).1 hxs)
    · intro h
      cases h with
      | cons hx hxs => exact ⟨_, hx, _, (ih _).2 hxs, rfl⟩

end BitBoost.Config
