import Verif.Lemmas.MaskRead
/-! Super-categories: which gradients they are made of. -/
namespace BitBoost
namespace Dataset
open Spec

/-- The gradients summed for category `c`, by position in the sample. -/
def localGrads (grad : List Num) (c : Nat) : List Num → Nat → List Num
  | [], _ => []
  | v :: vs, i => (if intoCat v = c then grad[i]?.toList else []) ++ localGrads grad c vs (i + 1)

theorem gradStats_spec (F : FP) (grad : List Num) : ∀ (vs : List Num) (i : Nat) (st st' : List (Num × Nat)),
    gradStats F grad vs i st = .ok st' → ∀ (c : Nat) (e : Num × Nat), st[c]? = some e →
      st'[c]? = some ((localGrads grad c vs i).foldl F.add e.1, e.2 + (localGrads grad c vs i).length) := by
  intro vs
  induction vs with
  | nil =>
    intro i st st' h c e he
    simp only [gradStats, Out.ok.injEq] at h
    subst h
    simpa [localGrads] using he
  | cons v vs ih =>
    intro i st st' h c e he
    simp only [gradStats] at h
    obtain ⟨e', e1, h⟩ := Out.bind_eq_ok.1 h
    obtain ⟨g, e2, h⟩ := Out.bind_eq_ok.1 h
    rw [at?_ok] at e1 e2
    have hl := (List.getElem?_eq_some_iff.1 e1).1
    simp only [localGrads]
    by_cases hc : intoCat v = c
    · subst hc
      rw [he] at e1; cases e1
      rw [if_pos rfl, e2]
      have := ih _ _ _ h (intoCat v) (F.add e.1 g, e.2 + 1) (by simp [hl])
      rw [this]
      simp; omega
    · rw [if_neg hc]
      exact ih _ _ _ h c e (by rw [List.getElem?_set_ne hc]; exact he)

theorem localGrads_eq (d : Data) (f : Nat) (c : Column) (hc : d.cols[f]? = some c) (grad grad' : List Num) (cat : Nat) :
    ∀ (rows : List Nat) (i : Nat) (vs : List Num), gather c.values rows = .ok vs →
      (∀ j r, rows[j]? = some r → grad'[r]? = grad[i + j]?) →
      localGrads grad cat vs i = categoryGradients d f rows grad' cat := by
  intro rows
  induction rows with
  | nil => intro i vs h _; simp only [gather, Out.ok.injEq] at h; subst h; rfl
  | cons r rows ih =>
    intro i vs h hg
    simp only [gather] at h
    obtain ⟨v, e1, h⟩ := Out.bind_eq_ok.1 h
    obtain ⟨vs', e2, h⟩ := Out.bind_eq_ok.1 h
    simp only [Out.pure_eq, Out.ok.injEq] at h
    subst h
    rw [at?_ok] at e1
    simp only [localGrads, ih (i + 1) _ e2 (by
      intro j r' hj
      have := hg (j + 1) r' (by simpa using hj)
      rw [this, show i + (j + 1) = i + 1 + j by omega])]
    unfold categoryGradients
    have hcell : cell d f r = some v := by simp [cell, hc, e1]
    have h0 : grad'[r]? = grad[i]? := hg 0 r rfl
    rw [List.filterMap_cons]
    simp only [hcell, Option.map_some]
    by_cases hv : v.toU32 = cat
    · have hv' : intoCat v = cat := hv
      rw [if_pos hv']
      simp only [hv, if_true, h0]
      cases grad[i]? <;> simp
    · have hv' : ¬ intoCat v = cat := hv
      rw [if_neg hv']
      simp [hv]

/-- The super-categories computed by `update_hicard_cat`. The code takes the gradient of the `i`-th active example from
position `i`; `grad'` has it in the place of its row. -/
theorem updateHicard_scores {F : FP} {cfg : Config} {ds ds' : Dataset} {f : Nat} {rows : List Nat} {grad grad' : List Num}
    {bounds : Num × Num} (hg : ∀ (j r : Nat), rows[j]? = some r → grad'[r]? = grad[j]?)
    (h : updateHicard F cfg ds f rows grad bounds = .ok ds') :
    ∃ (c : Column) (sc : List Nat) (w : List Num), ds.data.cols[f]? = some c ∧ ds'.supercats[f]? = some sc ∧
      ∀ cat < c.card, sc[cat]? = some (countBelow (categoryScore F ds.data f rows grad' cat) w) := by
  unfold updateHicard at h
  obtain ⟨c, e0, h'⟩ := Out.bind_eq_ok.1 h
  clear h
  rename' h' => h
  unfold column at e0
  rw [at?_ok] at e0
  obtain ⟨vals, e1, h⟩ := Out.bind_eq_ok.1 h
  obtain ⟨stats, e2, h⟩ := Out.bind_eq_ok.1 h
  obtain ⟨w, e3, h⟩ := Out.bind_eq_ok.1 h
  obtain ⟨bvs, e4, h⟩ := Out.bind_eq_ok.1 h
  obtain ⟨cats, e5, h⟩ := Out.bind_eq_ok.1 h
  obtain ⟨bvs', e6, h⟩ := Out.bind_eq_ok.1 h
  obtain ⟨_, e7, h⟩ := Out.bind_eq_ok.1 h
  obtain ⟨_, e8, h⟩ := Out.bind_eq_ok.1 h
  rw [assert_ok] at e8
  simp only [decide_eq_true_eq] at e8
  simp only [Out.pure_eq, Out.ok.injEq] at h
  subst h
  refine ⟨c, _, w, e0, by simp [e8]; rfl, fun cat hcat => ?_⟩
  have hst := gradStats_spec F grad _ _ _ _ e2 cat (.fin 0, 0) (by simp [hcat])
  rw [List.getElem?_map, hst]
  rw [localGrads_eq ds.data f c e0 grad grad' cat rows 0 vals e1 (by simpa using hg)]
  simp only [Option.map_some, Option.some.injEq]
  congr 1
  unfold meanOf categoryScore FP.sum
  simp only [Nat.zero_add]
  by_cases h0 : categoryGradients ds.data f rows grad' cat = []
  · simp [h0]
  · rw [if_neg h0, if_neg (by simpa using h0)]

theorem updateFeature_other {F : FP} {cfg : Config} {grad : List Num} {bounds : Num × Num} {bagged : Bool}
    {rows : List Nat} {f : Nat} {ds ds' : Dataset}
    (h : updateFeature F cfg grad bounds bagged rows f ds = .ok ds') :
    ds'.data = ds.data ∧ ∀ g, g ≠ f → ds'.supercats[g]? = ds.supercats[g]? := by
  unfold updateFeature at h
  obtain ⟨c, _, h⟩ := Out.bind_eq_ok.1 h
  split at h
  · split at h
    · unfold updateLocard at h
      obtain ⟨_, _, h⟩ := Out.bind_eq_ok.1 h
      obtain ⟨_, _, h⟩ := Out.bind_eq_ok.1 h
      obtain ⟨_, _, h⟩ := Out.bind_eq_ok.1 h
      obtain ⟨_, _, h⟩ := Out.bind_eq_ok.1 h
      obtain ⟨_, _, h⟩ := Out.bind_eq_ok.1 h
      simp only [Out.pure_eq, Out.ok.injEq] at h
      subst h; exact ⟨rfl, fun _ _ => rfl⟩
    · cases h; exact ⟨rfl, fun _ _ => rfl⟩
  · unfold updateHicard at h
    obtain ⟨_, _, h⟩ := Out.bind_eq_ok.1 h
    obtain ⟨_, _, h⟩ := Out.bind_eq_ok.1 h
    obtain ⟨_, _, h⟩ := Out.bind_eq_ok.1 h
    obtain ⟨_, _, h⟩ := Out.bind_eq_ok.1 h
    obtain ⟨_, _, h⟩ := Out.bind_eq_ok.1 h
    obtain ⟨_, _, h⟩ := Out.bind_eq_ok.1 h
    obtain ⟨_, _, h⟩ := Out.bind_eq_ok.1 h
    obtain ⟨_, _, h⟩ := Out.bind_eq_ok.1 h
    obtain ⟨_, _, h⟩ := Out.bind_eq_ok.1 h
    simp only [Out.pure_eq, Out.ok.injEq] at h
    subst h; exact ⟨rfl, fun g hg => by simp [List.getElem?_set_ne (Ne.symm hg)]⟩
  · unfold updateNum at h
    obtain ⟨_, _, h⟩ := Out.bind_eq_ok.1 h
    obtain ⟨_, _, h⟩ := Out.bind_eq_ok.1 h
    obtain ⟨_, _, h⟩ := Out.bind_eq_ok.1 h
    obtain ⟨_, _, h⟩ := Out.bind_eq_ok.1 h
    obtain ⟨_, _, h⟩ := Out.bind_eq_ok.1 h
    obtain ⟨_, _, h⟩ := Out.bind_eq_ok.1 h
    obtain ⟨_, _, h⟩ := Out.bind_eq_ok.1 h
    obtain ⟨_, _, h⟩ := Out.bind_eq_ok.1 h
    obtain ⟨_, _, h⟩ := Out.bind_eq_ok.1 h
    simp only [Out.pure_eq, Out.ok.injEq] at h
    subst h; exact ⟨rfl, fun _ _ => rfl⟩

theorem updateFeatures_scores {F : FP} {cfg : Config} {grad grad' : List Num} {bounds : Num × Num} {bagged : Bool}
    {rows : List Nat} (hg : ∀ (j r : Nat), rows[j]? = some r → grad'[r]? = grad[j]?) :
    ∀ (fs : List Nat) (ds ds' : Dataset), fs.Nodup →
    updateFeatures F cfg grad bounds bagged rows fs ds = .ok ds' →
    (∀ g, g ∉ fs → ds'.supercats[g]? = ds.supercats[g]?) ∧
    ∀ f ∈ fs, ∀ c, ds.data.cols[f]? = some c → c.ftype = .hiCardCat →
      ∃ (sc : List Nat) (w : List Num), ds'.supercats[f]? = some sc ∧
      ∀ cat < c.card, sc[cat]? = some (countBelow (categoryScore F ds.data f rows grad' cat) w) := by
  intro fs
  induction fs with
  | nil => intro ds ds' _ h; cases h; exact ⟨fun _ _ => rfl, by simp⟩
  | cons g fs ih =>
    intro ds ds' hnd h
    rw [List.nodup_cons] at hnd
    simp only [updateFeatures] at h
    obtain ⟨ds1, e1, h⟩ := Out.bind_eq_ok.1 h
    obtain ⟨k1, k2⟩ := updateFeature_other e1
    obtain ⟨i1, i2⟩ := ih _ _ hnd.2 h
    refine ⟨fun x hx => ?_, fun f hf c hc ht => ?_⟩
    · rw [List.mem_cons, not_or] at hx
      rw [i1 x hx.2, k2 x hx.1]
    · rcases List.mem_cons.1 hf with rfl | hf
      · unfold updateFeature column at e1
        rw [(at?_ok (l := ds.data.cols) (i := f)).2 hc] at e1
        simp only [Out.ok_bind, ht] at e1
        obtain ⟨c', sc, w, g1, g2, g3⟩ := updateHicard_scores hg e1
        rw [hc] at g1; cases g1
        exact ⟨sc, w, by rw [i1 f hnd.1]; exact g2, g3⟩
      · have := i2 f hf c (by rw [k1]; exact hc) ht
        rw [k1] at this; exact this

end Dataset
end BitBoost
