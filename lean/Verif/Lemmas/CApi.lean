import Verif.Spec.CApi
import Verif.Lemmas.Safe
import Verif.Lemmas.WellTree
import Verif.Lemmas.Data
/-! Helper lemmas: the C interface. -/
namespace BitBoost
open Spec

namespace Data

theorem setLoop_facts (cat : Bool) : ∀ (vs : List Num) (i : Nat) (c : Column),
    (setLoop cat vs i c).1.values.length = c.values.length ∧
    ((setLoop cat vs i c).2 = true ↔ (cat = true → ∀ v ∈ vs, IsCategory v)) := by
  intro vs
  induction vs with
  | nil => intro i c; simp [setLoop]
  | cons v vs ih =>
    intro i c
    unfold setLoop addStats
    cases cat with
    | false =>
      simp only [Bool.false_eq_true, if_false]
      obtain ⟨h1, h2⟩ := ih (i + 1) { c with values := c.values.set i v, lo := Num.min c.lo v, hi := Num.max c.hi v }
      refine ⟨by rw [h1]; simp, ?_⟩
      rw [h2]
      simp
    | true =>
      simp only [if_true]
      by_cases hc : checkCategorical v = true
      · rw [if_pos hc]
        simp only
        obtain ⟨h1, h2⟩ := ih (i + 1) { c with values := c.values.set i v, lo := Num.min c.lo v, hi := Num.max c.hi v, card := Nat.max c.card (1 + intoCat v) }
        refine ⟨by rw [h1]; simp, ?_⟩
        rw [h2]
        simp [(checkCategorical_iff v).1 hc]
      · rw [if_neg hc]
        refine ⟨by simp, ?_⟩
        simp only [Bool.false_eq_true, false_iff]
        intro h
        exact hc ((checkCategorical_iff v).2 (h trivial v (by simp)))

/-- `set_feature_data` on a table with a column of the right length. -/
theorem setFeatureData_facts {d : Data} (hd : Rectangular d) {feat : Nat} (hf : feat ≤ d.nfeatures) {data : List Num}
    (hl : data.length = d.nexamples) (cat : Bool) :
    ∃ d', Data.setFeatureData d feat data cat = .ok (d', decide (cat = true → ∀ v ∈ data, checkCategorical v = true)) ∧
      OnlyColumn d d' feat ∧ Rectangular d' := by
  have hlt : feat < d.cols.length := by rw [hd.1]; omega
  unfold Data.setFeatureData
  rw [if_pos hl, List.getElem?_eq_getElem hlt]
  simp only
  have hv := hd.2 _ (List.getElem_mem hlt)
  rw [if_pos hv]
  obtain ⟨h1, h2⟩ := setLoop_facts cat data 0 d.cols[feat]
  have hiff : (cat = true → ∀ v ∈ data, checkCategorical v = true) ↔ (cat = true → ∀ v ∈ data, IsCategory v) := by
    simp only [checkCategorical_iff]
  have key : ∀ c : Column, c.values.length = d.nexamples → OnlyColumn d { d with cols := d.cols.set feat c } feat ∧
      Rectangular { d with cols := d.cols.set feat c } := by
    intro c hc
    refine ⟨⟨rfl, rfl, rfl, rfl, by simp, fun j hj => List.getElem?_set_ne (Ne.symm hj)⟩, by simpa using hd.1, ?_⟩
    intro x hx
    rcases List.mem_or_eq_of_mem_set hx with h | rfl
    · exact hd.2 x h
    · exact hc
  generalize hr : setLoop cat data 0 d.cols[feat] = r at h1 h2
  obtain ⟨c', b⟩ := r
  cases b with
  | false =>
    refine ⟨_, ?_, key c' (h1.trans hv)⟩
    simp only
    have : ¬ (cat = true → ∀ v ∈ data, checkCategorical v = true) := by
      rw [hiff]; exact fun h => by simpa using h2.2 h
    rw [decide_eq_false this]
  | true =>
    simp only
    have : cat = true → ∀ v ∈ data, checkCategorical v = true := hiff.2 (h2.1 rfl)
    rw [decide_eq_true this]
    refine ⟨_, rfl, key _ ?_⟩
    split_ifs <;> exact h1.trans hv

end Data

namespace CApi

/-- A context of a session. -/
structure CtxOk (E : Env) (c : Ctx) : Prop where
  nf : 0 < c.nfeatures
  data : ∀ d, c.data = some d → Rectangular d ∧ d.nfeatures = c.nfeatures ∧ 0 < d.nexamples ∧ d.nexamples < 2 ^ 31 ∧
    d.maxNbins = c.config.maxNbins
  model : ∀ m, c.model = some m → (∃ d, c.data = some d) ∧ ∃ d ms o b, d.nfeatures = c.nfeatures ∧
    Objective.fromName c.config.objective = some o ∧ Metric.fromNames c.config.metrics = some ms ∧
    Booster.run E.F E.M c.config d (E.seed c.config.randomSeed) ms o = .ok b ∧ m = b.ensemble

theorem CtxOk.well {E : Env} {c : Ctx} (h : CtxOk E c) {m : AdditiveTree} (hm : c.model = some m) :
    ∀ t ∈ m.trees, WellTree c.nfeatures t := by
  obtain ⟨_, d, ms, o, b, e1, _, _, e4, rfl⟩ := h.model m hm
  have := Booster.boosting_well (by rw [e1]; exact h.nf) (Booster.run_boosting e4)
  rwa [e1] at this

def WorldOk (E : Env) (w : World) : Prop := ∀ (i : Nat) (c : Ctx), w[i]? = some (some c) → CtxOk E c

theorem live_iff {w : World} {i : Nat} {c : Ctx} : Live w (.ctx i) c ↔ w[i]? = some (some c) := by
  constructor
  · rintro ⟨j, h1, h2⟩; cases h1; exact h2
  · intro h; exact ⟨i, rfl, h⟩

theorem withCtx_live {w : World} {p : Ptr} {c : Ctx} (h : Live w p c) (k : Nat → Ctx → Body) :
    ∃ i, p = .ctx i ∧ w[i]? = some (some c) ∧ withCtx w p k = k i c := by
  obtain ⟨i, rfl, h2⟩ := h
  refine ⟨i, rfl, h2, ?_⟩
  unfold withCtx
  simp [h2]

theorem withCtx_eq {w : World} {i : Nat} {c : Ctx} (h : w[i]? = some (some c)) (k : Nat → Ctx → Body) :
    withCtx w (.ctx i) k = k i c := by
  unfold withCtx
  simp [h]

theorem WorldOk.set {E : Env} {w : World} (hw : WorldOk E w) {i : Nat} {c : Option Ctx} (hc : ∀ x, c = some x → CtxOk E x) :
    WorldOk E (w.set i c) := by
  intro j x hx
  by_cases h : i = j
  · subst h
    by_cases hl : i < w.length
    · rw [List.getElem?_set_self hl] at hx
      exact hc x (Option.some.inj hx)
    · rw [List.getElem?_eq_none (by simpa using hl)] at hx; cases hx
  · rw [List.getElem?_set_ne h] at hx
    exact hw j x hx

theorem empty_rectangular (cfg : Config) (nf n : Nat) : Rectangular (Data.empty cfg nf n) := by
  refine ⟨by simp [Data.empty], ?_⟩
  intro c hc
  rw [(List.mem_replicate.1 hc).2]
  simp [Data.empty]

/-- Every body: it ends without undefined behaviour, the world stays well-formed. -/
def BodyOk (E : Env) (b : Body) : Prop := b.2 ≠ .ub ∧ WorldOk E b.1

theorem withCtx_ok {E : Env} {w : World} (hw : WorldOk E w) {p : Ptr} (hp : PtrOk w p) {k : Nat → Ctx → Body}
    (hk : ∀ i c, Live w p c → w[i]? = some (some c) → CtxOk E c → BodyOk E (k i c)) : BodyOk E (withCtx w p k) := by
  rcases hp with rfl | ⟨c, hc⟩
  · exact ⟨by simp [withCtx], hw⟩
  · obtain ⟨i, rfl, hi, e⟩ := withCtx_live hc k
    rw [e]
    exact hk i c hc hi (hw i c hi)

theorem wrap_ok {E : Env} {r : Ret} {b : Body} (h : BodyOk E b) : ∃ x, wrap r b = .ok (b.1, x) := by
  unfold wrap
  cases hb : b.2 with
  | ok x => exact ⟨x, rfl⟩
  | panic => exact ⟨r, rfl⟩
  | ub => exact absurd hb h.1

theorem parseRecord_total (pf : List Char → Option Num) (c : Config) (n : String) (v : List Char) :
    (∃ x, Config.parseRecord pf c n v = .ok x) ∨ ∃ e, Config.parseRecord pf c n v = .error e := by
  cases Config.parseRecord pf c n v with
  | ok x => exact .inl ⟨x, rfl⟩
  | error e => exact .inr ⟨e, rfl⟩

theorem body_ok {E : Env} {w : World} (hw : WorldOk E w) {c : Call} (ha : Allowed w c) :
    ∃ w' r, step E w c = .ok (w', r) ∧ WorldOk E w' := by
  have fin : ∀ {r : Ret} {b : Body}, BodyOk E b → ∃ w' x, wrap r b = .ok (w', x) ∧ WorldOk E w' := by
    intro r b h
    obtain ⟨x, hx⟩ := wrap_ok (r := r) h
    exact ⟨_, x, hx, h.2⟩
  cases c with
  | numtNbytes => exact ⟨w, _, rfl, hw⟩
  | alloc n =>
    refine fin ?_
    unfold alloc
    split
    · rename_i hn
      refine ⟨by simp, ?_⟩
      intro i c hc
      simp only at hc
      by_cases hi : i < w.length
      · rw [List.getElem?_append_left hi] at hc
        exact hw i c hc
      · rw [List.getElem?_append_right (by omega)] at hc
        have : i - w.length = 0 := by
          by_contra h0
          rw [List.getElem?_eq_none (by simp; omega)] at hc
          cases hc
        rw [this] at hc
        simp only [List.getElem?_cons_zero, Option.some.injEq] at hc
        subst hc
        exact ⟨by simp only; omega, (by intro d h; cases h), (by intro m h; cases h)⟩
    · exact ⟨by simp, hw⟩
  | dealloc p =>
    refine fin (withCtx_ok hw ha fun i c hl hi hc => ?_)
    exact ⟨by simp, hw.set (by intro x h; cases h)⟩
  | refreshData p n =>
    refine fin ?_
    unfold refreshData
    split
    · rename_i hn
      refine withCtx_ok hw ha.1 fun i c hl hi hc => ⟨by simp, hw.set ?_⟩
      intro x hx
      cases hx
      refine ⟨hc.nf, ?_, ?_⟩
      · intro d hd
        simp only [Option.some.injEq] at hd
        subst hd
        have := ha.2.2
        exact ⟨empty_rectangular _ _ _, rfl, by simp only [Data.empty]; omega, by simp only [Data.empty]; omega, rfl⟩
      · intro m hm
        exact ⟨⟨_, rfl⟩, (hc.model m hm).2⟩
    · exact ⟨by simp, hw⟩
  | setFeatureData p feat col cat =>
    refine fin (withCtx_ok hw ha.1 fun i c hl hi hc => ?_)
    split
    · rename_i hf
      cases hd : c.data with
      | none => exact ⟨by simp, hw⟩
      | some d =>
        simp only
        obtain ⟨r1, r2, r3, r4, r5⟩ := hc.data d hd
        have hlen := ha.2.2.2 c d hl hd
        rw [if_pos hlen]
        obtain ⟨d', e, ho, hr⟩ := Data.setFeatureData_facts r1 (feat := feat.toNat) (by rw [r2]; exact hf.2)
          (data := col.take d.nexamples) (by simp [hlen]) (decide (cat ≠ 0))
        have hx : ∀ x, some { c with data := some d' } = some x → CtxOk E x := by
          intro x hx
          cases hx
          refine ⟨hc.nf, ?_, ?_⟩
          · intro d2 h2
            simp only [Option.some.injEq] at h2
            subst h2
            obtain ⟨o1, o2, o3, _⟩ := ho
            exact ⟨hr, o1.trans r2, by rw [o2]; exact r3, by rw [o2]; exact r4, o3.trans r5⟩
          · intro m hm
            exact ⟨⟨_, rfl⟩, (hc.model m hm).2⟩
        rw [e]
        generalize decide (decide (cat ≠ 0) = true → ∀ v ∈ List.take d.nexamples col, Data.checkCategorical v = true) = b
        cases b
        · exact ⟨by simp, hw.set hx⟩
        · exact ⟨by simp, hw.set hx⟩
    · exact ⟨by simp, hw⟩
  | setConfigField p n v =>
    refine fin (withCtx_ok hw ha.1 fun i c hl hi hc => ?_)
    cases hd : c.data with
    | some d => exact ⟨by simp, hw⟩
    | none =>
      simp only
      have hn := ha.2.1
      have hv := ha.2.2
      cases n with
      | invalid => exact absurd rfl hn
      | notUtf8 => exact ⟨by simp, hw⟩
      | text n =>
        cases v with
        | invalid => exact absurd rfl hv
        | notUtf8 => exact ⟨by simp, hw⟩
        | text v =>
          simp only
          cases Config.parseRecord E.pf c.config (String.ofList n) v with
          | error _ => exact ⟨by simp, hw⟩
          | ok cfg =>
            refine ⟨by simp, hw.set ?_⟩
            intro x hx
            cases hx
            refine ⟨hc.nf, ?_, ?_⟩
            · intro d h
              cases h
            · intro m hm
              obtain ⟨⟨d, h⟩, _⟩ := hc.model m hm
              rw [hd] at h
              cases h
  | train p =>
    refine fin (withCtx_ok hw ha fun i c hl hi hc => ?_)
    cases hd : c.data with
    | none => exact ⟨by simp, hw⟩
    | some d =>
      simp only
      obtain ⟨r1, r2, r3, r4, r5⟩ := hc.data d hd
      cases ho : Objective.fromName c.config.objective with
      | none => exact ⟨by simp, hw⟩
      | some o =>
        cases hm : Metric.fromNames c.config.metrics with
        | none => exact ⟨by simp, hw⟩
        | some ms =>
          simp only
          have hs := Booster.run_safe (F := E.F) (M := E.M) r1 (by omega) c.config (E.seed c.config.randomSeed) ms o
          cases hb : Booster.run E.F E.M c.config d (E.seed c.config.randomSeed) ms o with
          | ub => rw [hb] at hs; exact hs.elim
          | panic => exact ⟨by simp, hw⟩
          | ok b =>
            refine ⟨by simp, hw.set ?_⟩
            intro x hx
            cases hx
            refine ⟨hc.nf, fun d' h => hc.data d' (hd.trans h), ?_⟩
            intro m h
            simp only [Option.some.injEq] at h
            exact ⟨⟨d, rfl⟩, d, ms, o, b, r2, ho, hm, hb, h.symm⟩
  | predict p cap =>
    refine fin (withCtx_ok hw ha.1 fun i c hl hi hc => ?_)
    cases hd : c.data with
    | none => exact ⟨by simp, hw⟩
    | some d =>
      simp only
      obtain ⟨r1, r2, r3, r4, r5⟩ := hc.data d hd
      cases hm : c.model with
      | none => exact ⟨by simp, hw⟩
      | some m =>
        simp only
        rw [if_pos (ha.2 c d hl hd)]
        obtain ⟨out, ho, _⟩ := AdditiveTree.predict_well E.F (hc.well hm) r1 r2
        unfold AdditiveTree.predict at ho
        rw [ho]
        exact ⟨by simp, hw⟩

theorem session_ok {E : Env} {w : World} (h : Session E w) : WorldOk E w := by
  induction h with
  | start => intro i c h; cases h
  | call _ ha hs ih =>
    obtain ⟨w', r, e, hw⟩ := body_ok ih ha
    rw [hs] at e
    cases e
    exact hw

end CApi
end BitBoost
