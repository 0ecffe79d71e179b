import Verif.Model.Data
import Verif.Spec.Columns
import Verif.Lemmas.Num
/-! # Lemmas on data columns -/
namespace BitBoost
namespace Data

theorem min_nan_right (a : Num) : Num.min a .nan = a := by
  cases a <;> simp [Num.min]
theorem max_nan_right (a : Num) : Num.max a .nan = a := by
  cases a <;> simp [Num.max]

theorem min_eq_or (a b : Num) : Num.min a b = a ∨ Num.min a b = b := by
  unfold Num.min; split_ifs <;> simp
theorem max_eq_or (a b : Num) : Num.max a b = a ∨ Num.max a b = b := by
  unfold Num.max; split_ifs <;> simp

theorem min_le_right {a b : Num} (ha : a ≠ .nan) (hb : b ≠ .nan) : (Num.min a b).le b = true := by
  unfold Num.min
  simp only [Num.isNan_iff, ha, hb, if_false]
  split_ifs with h
  · exact h
  · exact Num.le_refl hb
theorem min_le_left' {a b : Num} (ha : a ≠ .nan) : (Num.min a b).le a = true := by
  by_cases hb : b = .nan
  · subst hb; rw [min_nan_right]; exact Num.le_refl ha
  · exact Num.min_le_left ha hb
theorem le_max_right {a b : Num} (ha : a ≠ .nan) (hb : b ≠ .nan) : b.le (Num.max a b) = true := by
  unfold Num.max
  simp only [Num.isNan_iff, ha, hb, if_false]
  split_ifs with h
  · exact Num.le_refl hb
  · exact (Num.le_total ha hb).resolve_left h

/-- Running minimum, ignoring NaN. -/
theorem foldl_min_spec (vs : List Num) : ∀ a : Num, a ≠ .nan →
    vs.foldl Num.min a ≠ .nan ∧ (vs.foldl Num.min a).le a = true ∧
    (∀ v ∈ vs, v ≠ .nan → (vs.foldl Num.min a).le v = true) ∧
    (vs.foldl Num.min a = a ∨ vs.foldl Num.min a ∈ vs) := by
  induction vs with
  | nil => intro a ha; exact ⟨ha, Num.le_refl ha, by simp, Or.inl rfl⟩
  | cons v vs ih =>
    intro a ha
    have hm : Num.min a v ≠ .nan := Num.min_ne_nan ha
    obtain ⟨h1, h2, h3, h4⟩ := ih _ hm
    refine ⟨h1, Num.le_trans h2 (min_le_left' ha), ?_, ?_⟩
    · intro u hu hun
      simp only [List.mem_cons] at hu
      rcases hu with rfl | hu
      · exact Num.le_trans h2 (min_le_right ha hun)
      · exact h3 u hu hun
    · simp only [List.foldl_cons, List.mem_cons]
      rcases h4 with h4 | h4
      · rw [h4]
        rcases min_eq_or a v with h | h
        · exact Or.inl h
        · exact Or.inr (Or.inl h)
      · exact Or.inr (Or.inr h4)

/-- Running maximum, ignoring NaN. -/
theorem foldl_max_spec (vs : List Num) : ∀ a : Num, a ≠ .nan →
    vs.foldl Num.max a ≠ .nan ∧ a.le (vs.foldl Num.max a) = true ∧
    (∀ v ∈ vs, v ≠ .nan → v.le (vs.foldl Num.max a) = true) ∧
    (vs.foldl Num.max a = a ∨ vs.foldl Num.max a ∈ vs) := by
  induction vs with
  | nil => intro a ha; exact ⟨ha, Num.le_refl ha, by simp, Or.inl rfl⟩
  | cons v vs ih =>
    intro a ha
    have hm : Num.max a v ≠ .nan := Num.max_ne_nan ha
    obtain ⟨h1, h2, h3, h4⟩ := ih _ hm
    refine ⟨h1, Num.le_trans (Num.le_max_left ha) h2, ?_, ?_⟩
    · intro u hu hun
      simp only [List.mem_cons] at hu
      rcases hu with rfl | hu
      · exact Num.le_trans (le_max_right ha hun) h2
      · exact h3 u hu hun
    · simp only [List.foldl_cons, List.mem_cons]
      rcases h4 with h4 | h4
      · rw [h4]
        rcases max_eq_or a v with h | h
        · exact Or.inl h
        · exact Or.inr (Or.inl h)
      · exact Or.inr (Or.inr h4)

/-- Starting from the infinities the result is exact. -/
theorem exactLimits_fold (vs : List Num) :
    Spec.ExactLimits (vs.foldl Num.min .pinf) (vs.foldl Num.max .ninf) vs := by
  obtain ⟨a1, a2, a3, a4⟩ := foldl_min_spec vs .pinf (by simp)
  obtain ⟨b1, b2, b3, b4⟩ := foldl_max_spec vs .ninf (by simp)
  refine ⟨fun v hv hn => ⟨a3 v hv hn, b3 v hv hn⟩, ?_⟩
  rintro ⟨v, hv, hn⟩
  constructor
  · rcases a4 with h | h
    · have := a3 v hv hn
      rw [h] at this
      have hv' : v = .pinf := by cases v <;> simp [Num.le] at this; rfl
      rw [h, ← hv']; exact hv
    · exact h
  · rcases b4 with h | h
    · have := b3 v hv hn
      rw [h] at this
      have hv' : v = .ninf := by cases v <;> simp [Num.le] at this; rfl
      rw [h, ← hv']; exact hv
    · exact h

theorem foldl_card_spec (vs : List Num) : ∀ a : Nat,
    a ≤ vs.foldl (fun c v => Nat.max c (1 + intoCat v)) a ∧
    (∀ v ∈ vs, intoCat v < vs.foldl (fun c v => Nat.max c (1 + intoCat v)) a) ∧
    (vs.foldl (fun c v => Nat.max c (1 + intoCat v)) a = a ∨
      ∃ v ∈ vs, vs.foldl (fun c v => Nat.max c (1 + intoCat v)) a = intoCat v + 1) := by
  induction vs with
  | nil => intro a; simp
  | cons v vs ih =>
    intro a
    obtain ⟨h1, h2, h3⟩ := ih (Nat.max a (1 + intoCat v))
    have hl := Nat.le_max_left a (1 + intoCat v)
    have hr := Nat.le_max_right a (1 + intoCat v)
    simp only [List.foldl_cons, List.mem_cons]
    refine ⟨Nat.le_trans hl h1, ?_, ?_⟩
    · rintro u (rfl | hu)
      · exact Nat.lt_of_lt_of_le (by omega) (Nat.le_trans hr h1)
      · exact h2 u hu
    · rcases h3 with h | ⟨u, hu, h⟩
      · rw [h]
        rcases Nat.le_total a (1 + intoCat v) with hle | hle
        · right; exact ⟨v, Or.inl rfl, (Nat.max_eq_right hle).trans (by omega)⟩
        · left; exact Nat.max_eq_left hle
      · exact Or.inr ⟨u, Or.inr hu, h⟩

theorem exactCard_fold (vs : List Num) :
    Spec.ExactCard (vs.foldl (fun c v => Nat.max c (1 + intoCat v)) 0) vs := by
  obtain ⟨h1, h2, h3⟩ := foldl_card_spec vs 0
  refine ⟨h2, fun hne => ?_⟩
  rcases h3 with h | h
  · obtain ⟨v, hv⟩ := List.exists_mem_of_ne_nil vs hne
    have := h2 v hv
    omega
  · exact h

theorem checkCategorical_iff (v : Num) : checkCategorical v = true ↔ Spec.IsCategory v := by
  unfold checkCategorical Spec.IsCategory
  cases v with
  | fin q =>
    simp only [Num.round, Num.eqb, Num.lt, Bool.not_eq_true', Bool.or_eq_false_iff,
      Bool.not_eq_false', decide_eq_true_eq, decide_eq_false_iff_not, Num.fin.injEq, not_lt,
      reduceCtorEq, false_or]
    constructor
    · rintro ⟨h1, h2⟩
      refine ⟨(Num.roundAway q).toNat, ?_⟩
      have : 0 ≤ Num.roundAway q := by
        have : (0 : ℚ) ≤ (Num.roundAway q : ℚ) := by rw [h1]; exact h2
        exact_mod_cast this
      rw [← Int.cast_natCast (R := ℚ), Int.toNat_of_nonneg this, h1]
    · rintro ⟨n, rfl⟩
      have := Num.roundAway_int n
      simp only [Int.cast_natCast] at this
      rw [this]
      simp
  | pinf => simp [Num.round, Num.eqb, Num.lt]
  | ninf => simp [Num.round, Num.eqb, Num.lt]
  | nan => simp [Num.round, Num.eqb, Num.lt]

/-! ## CSV -/

/-- Adding one value to a column in `from_csv`. -/
def pushOne (c : Column) (v : Num) : Column × Bool :=
  addStats (c.ftype == .loCardCat) { c with values := c.values ++ [v] } v

theorem pushRecord_iff (n : Nat) (cols : List Column) :
    ∀ (fields : List (Option Num)) (cols' : List Column), pushRecord n cols fields = .ok cols' ↔
      cols'.length = cols.length ∧ ∀ j (h : j < cols.length) (h' : j < cols'.length),
        ∃ v, (fields[j]?).join = some v ∧ pushOne cols[j] v = (cols'[j], true) := by
  induction cols with
  | nil =>
    intro fields cols'
    simp only [pushRecord, Except.ok.injEq]
    constructor
    · rintro rfl; simp
    · rintro ⟨h, _⟩; exact (List.length_eq_zero_iff.1 h).symm
  | cons c cols ih =>
    intro fields cols'
    unfold pushRecord
    have hhead : fields.head?.join = (fields[0]?).join := by cases fields <;> rfl
    have htail : ∀ j : Nat, (fields.tail)[j]? = fields[j + 1]? := by cases fields <;> simp
    cases hv : fields.head?.join with
    | none =>
      simp only [reduceCtorEq, false_iff]
      rintro ⟨h, hj⟩
      obtain ⟨v, h1, _⟩ := hj 0 (by simp) (by rw [h]; simp)
      rw [← hhead, hv] at h1
      exact absurd h1 (by simp)
    | some v =>
      simp only
      have hp : addStats (c.ftype == .loCardCat) { c with values := c.values ++ [v] } v = pushOne c v := rfl
      rw [hp]
      cases hpo : pushOne c v with
      | mk c' b =>
        cases b with
        | false =>
          simp only [reduceCtorEq, false_iff]
          rintro ⟨h, hj⟩
          obtain ⟨u, h1, h2⟩ := hj 0 (by simp) (by rw [h]; simp)
          rw [← hhead, hv] at h1
          simp only [Option.some.injEq] at h1
          subst h1
          simp only [List.getElem_cons_zero] at h2
          rw [hpo] at h2
          simp at h2
        | true =>
          simp only
          cases hrec : pushRecord n cols fields.tail with
          | error e =>
            simp only [reduceCtorEq, false_iff]
            rintro ⟨h, hj⟩
            cases cols' with
            | nil => simp at h
            | cons d ds =>
              have : pushRecord n cols fields.tail = .ok ds := by
                rw [ih]
                refine ⟨by simpa using h, fun j h1 h2 => ?_⟩
                have := hj (j + 1) (by simpa using h1) (by simpa using h2)
                simpa [htail] using this
              rw [this] at hrec
              exact absurd hrec (by simp)
          | ok ds =>
            simp only [Except.ok.injEq]
            constructor
            · rintro rfl
              obtain ⟨h1, h2⟩ := (ih _ _).1 hrec
              refine ⟨by simp [h1], fun j h3 h4 => ?_⟩
              cases j with
              | zero => exact ⟨v, by rw [← hhead, hv], by simpa using hpo⟩
              | succ j =>
                have := h2 j (by simpa using h3) (by simpa using h4)
                simpa [htail] using this
            · rintro ⟨h, hj⟩
              cases cols' with
              | nil => simp at h
              | cons d es =>
                obtain ⟨u, h1, h2⟩ := hj 0 (by simp) (by simp)
                rw [← hhead, hv] at h1
                simp only [Option.some.injEq] at h1
                subst h1
                simp only [List.getElem_cons_zero] at h2
                rw [hpo] at h2
                simp only [Prod.mk.injEq, and_true] at h2
                have : pushRecord n cols fields.tail = .ok es := by
                  rw [ih]
                  refine ⟨by simpa using h, fun j h1 h2 => ?_⟩
                  have := hj (j + 1) (by simpa using h1) (by simpa using h2)
                  simpa [htail] using this
                rw [this] at hrec
                simp only [Except.ok.injEq] at hrec
                rw [h2, hrec]

/-- The column obtained from `c` by adding the values `vs`. -/
def after (c : Column) (vs : List Num) : Column where
  values := c.values ++ vs
  lo := vs.foldl Num.min c.lo
  hi := vs.foldl Num.max c.hi
  ftype := c.ftype
  card := if c.ftype = .loCardCat then vs.foldl (fun c v => Nat.max c (1 + intoCat v)) c.card else c.card

theorem after_nil (c : Column) : after c [] = c := by
  simp [after]

theorem pushOne_eq (c c' : Column) (v : Num) :
    pushOne c v = (c', true) ↔
      c' = after c [v] ∧ (c.ftype = .loCardCat → Spec.IsCategory v) := by
  unfold pushOne addStats after
  by_cases hl : c.ftype = .loCardCat
  · by_cases hc : checkCategorical v = true
    · have := (checkCategorical_iff v).1 hc
      simp [hl, hc, this]
      constructor <;> exact fun h => h.symm
    · have : ¬ Spec.IsCategory v := fun h => hc ((checkCategorical_iff v).2 h)
      simp [hl, hc, this]
  · have hb : (c.ftype == FeatType.loCardCat) = false := by simpa using hl
    simp [hb, hl]
    constructor <;> exact fun h => h.symm

theorem after_after (c : Column) (v : Num) (vs : List Num) : after (after c [v]) vs = after c (v :: vs) := by
  by_cases hl : c.ftype = .loCardCat <;> simp [after, hl]

/-- The whole loop, from a state in which the columns have been set up. -/
theorem csvLoop_iff (cat : List Nat) (items : List CsvItem) :
    ∀ (count : Nat) (cols : List Column) (count' : Nat) (cols' : List Column), 0 < count →
      (csvLoop cat items count cols = .ok (count', cols') ↔
        ∃ recs : List (List (Option Num)), items = recs.map .record ∧ count' = count + recs.length ∧
          cols'.length = cols.length ∧
          ∀ j (h : j < cols.length) (h' : j < cols'.length), ∃ vs : List Num,
            recs.map (fun r => (r[j]?).join) = vs.map some ∧ cols'[j] = after cols[j] vs ∧
            (cols[j].ftype = .loCardCat → ∀ v ∈ vs, Spec.IsCategory v)) := by
  induction items with
  | nil =>
    intro count cols count' cols' hc
    simp only [csvLoop, Except.ok.injEq, Prod.mk.injEq]
    constructor
    · rintro ⟨rfl, rfl⟩
      exact ⟨[], rfl, by simp, rfl, fun j h _ => ⟨[], rfl, by rw [after_nil], by simp⟩⟩
    · rintro ⟨recs, h1, h2, h3, h4⟩
      have : recs = [] := by cases recs; rfl; simp at h1
      subst this
      refine ⟨by simpa using h2.symm, ?_⟩
      refine List.ext_getElem h3.symm fun j hj hj' => ?_
      obtain ⟨vs, e1, e2, _⟩ := h4 j hj hj'
      have : vs = [] := by cases vs; rfl; simp at e1
      subst this
      rw [e2, after_nil]
  | cons it items ih =>
    intro count cols count' cols' hc
    cases it with
    | error =>
      simp only [csvLoop, reduceCtorEq, false_iff]
      rintro ⟨recs, h1, _⟩
      cases recs <;> simp at h1
    | record fields =>
      simp only [csvLoop, if_neg (Nat.ne_of_gt hc)]
      cases hp : pushRecord count cols fields with
      | error e =>
        simp only [reduceCtorEq, false_iff]
        rintro ⟨recs, h1, h2, h3, h4⟩
        cases recs with
        | nil => simp at h1
        | cons r recs =>
          simp only [List.map_cons, List.cons.injEq, CsvItem.record.injEq] at h1
          obtain ⟨rfl, _⟩ := h1
          have : ∃ mid, pushRecord count cols fields = .ok mid := by
            refine ⟨(List.range cols.length).pmap (fun j hj => after (cols[j]'hj)
              [((fields[j]?).join).getD .nan]) (by simp), ?_⟩
            rw [pushRecord_iff]
            refine ⟨by simp, fun j hj hj' => ?_⟩
            obtain ⟨vs, e1, e2, e3⟩ := h4 j hj (by omega)
            cases vs with
            | nil => simp at e1
            | cons v vs =>
              simp only [List.map_cons, List.cons.injEq] at e1
              refine ⟨v, e1.1, ?_⟩
              rw [pushOne_eq]
              refine ⟨?_, fun h => e3 h v (by simp)⟩
              simp [e1.1]
          obtain ⟨mid, hm⟩ := this
          rw [hm] at hp
          exact absurd hp (by simp)
      | ok mid =>
        simp only
        rw [ih (count + 1) mid count' cols' (by omega)]
        obtain ⟨hl, hm⟩ := (pushRecord_iff _ _ _ _).1 hp
        constructor
        · rintro ⟨recs, h1, h2, h3, h4⟩
          refine ⟨fields :: recs, by rw [h1]; rfl, by simp; omega, by omega, fun j hj hj' => ?_⟩
          obtain ⟨v, e1, e2⟩ := hm j hj (by omega)
          rw [pushOne_eq] at e2
          obtain ⟨vs, f1, f2, f3⟩ := h4 j (by omega) hj'
          refine ⟨v :: vs, by simp [e1, f1], ?_, ?_⟩
          · rw [f2, e2.1, after_after]
          · intro hlo u hu
            simp only [List.mem_cons] at hu
            rcases hu with rfl | hu
            · exact e2.2 hlo
            · refine f3 ?_ u hu
              rw [e2.1]; exact hlo
        · rintro ⟨recs, h1, h2, h3, h4⟩
          cases recs with
          | nil => simp at h1
          | cons r recs =>
            simp only [List.map_cons, List.cons.injEq, CsvItem.record.injEq] at h1
            obtain ⟨rfl, h1⟩ := h1
            refine ⟨recs, h1, by simp at h2; omega, by omega, fun j hj hj' => ?_⟩
            obtain ⟨v, e1, e2⟩ := hm j (by omega) hj
            rw [pushOne_eq] at e2
            obtain ⟨vs, f1, f2, f3⟩ := h4 j (by omega) hj'
            cases vs with
            | nil => simp at f1
            | cons u vs =>
              simp only [List.map_cons, List.cons.injEq] at f1
              rw [e1] at f1
              simp only [Option.some.injEq] at f1
              obtain ⟨rfl, f1⟩ := f1
              refine ⟨vs, f1, ?_, ?_⟩
              · rw [f2, e2.1, after_after]
              · intro hlo w hw
                refine f3 ?_ w (by simp [hw])
                rw [e2.1] at hlo; exact hlo

end Data
end BitBoost
