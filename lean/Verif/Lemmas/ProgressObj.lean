import Verif.Lemmas.Reach
import Verif.Lemmas.ProgressTree
import Verif.Props.Objective
/-! Helper lemmas: objectives that compute finite leaf values. -/
namespace BitBoost
open Spec Learner

namespace Objective

/-- What `update` leaves behind for the leaf values. -/
structure Prepared (targets : List Num) (a : ℕ) (o : Objective) : Prop where
  len : o.gradients.length = targets.length
  num : ∀ g ∈ o.gradients, g ≠ .nan
  lim : o.kind = .l1 ∨ o.kind = .huber →
    ∃ l h : ℚ, o.limits = (.fin l, .fin h) ∧ l < h ∧ |l| ≤ 2 ^ (a + 1) ∧ |h| ≤ 2 ^ (a + 1)
  delta : o.kind = .huber → SizeLe (2 ^ (a + 3)) o.delta
  grads : o.kind = .binary → ∀ g ∈ o.gradients, SizeLe 2 g

theorem quantile_within {F : FP} {E : ℕ} (hw : Wide F E) {j : ℕ} (hj : j + 1 ≤ E) {l h : ℚ} (hlh : l < h)
    (hl : |l| ≤ 2 ^ j) (hh : |h| ≤ 2 ^ j) (q : Num) (values : List Num) :
    ∃ v, quantile F q (.fin l, .fin h) values = .ok v ∧ SizeLe (2 ^ (j + 2)) v := by
  rcases Props.quantile_cases F q (.fin l) (.fin h) values with ⟨_, hn⟩ | ⟨l', h', bin, e1, e2, _, hb, e⟩
  · exact absurd ⟨l, h, rfl, rfl, hlh⟩ hn
  cases e1; cases e2
  refine ⟨_, e, ?_⟩
  have hp : (0 : ℚ) < 2 ^ j := by positivity
  have h1 : SizeLe (2 ^ (j + 1)) (F.rnd (h - l)) := by
    refine F.rnd_within (hw.pow (by omega)) ?_
    rw [pow_succ]
    exact (abs_sub h l).trans (by linarith)
  have h1024 : F.rnd 1024 = .fin 1024 := by
    have := F.int 1024 (by norm_num); simpa using this
  have h2 : SizeLe (2 ^ (j + 1) / 2 ^ 10) (F.div (F.rnd (h - l)) (F.rnd 1024)) := by
    rw [h1024]
    refine h1.div (by norm_num) (hw.down (by omega) 10 (by norm_num)) ?_
    rw [show (1024 : ℚ) = 2 ^ 10 by norm_num, div_mul_cancel₀ _ (by positivity)]
  have h3 : SizeLe 1023 (F.ofNat (min (bin + 1) 1023)) := by
    rw [F.ofNat_eq (by omega)]
    refine ⟨_, rfl, ?_⟩
    rw [abs_of_nonneg (by positivity)]
    exact_mod_cast Nat.min_le_right _ _
  have h4 : SizeLe (2 ^ (j + 1)) (F.mul (F.ofNat (min (bin + 1) 1023)) (F.div (F.rnd (h - l)) (F.rnd 1024))) := by
    refine h3.mul h2 (hw.pow (by omega)) ?_
    rw [show (2 : ℚ) ^ (j + 1) / 2 ^ 10 = 2 ^ (j + 1) * (1 / 1024) by norm_num [div_eq_mul_inv]]
    have : (0 : ℚ) < 2 ^ (j + 1) := by positivity
    linarith
  refine SizeLe.add (A := 2 ^ j) ⟨l, rfl, hl⟩ h4 (hw.pow (by omega)) ?_
  rw [pow_succ, pow_succ, pow_succ]; linarith

/-! ### Residuals -/

theorem residuals_within {F : FP} {E : ℕ} (hw : Wide F E) {a : ℕ} (ha : a + 1 ≤ E) {targets preds : List Num}
    (ht : ∀ t ∈ targets, SizeLe (2 ^ a) t) (hp : ∀ p ∈ preds, SizeLe (2 ^ a) p) :
    ∀ e ∈ Spec.residuals F targets preds, SizeLe (2 ^ (a + 1)) e := by
  intro e he
  unfold Spec.residuals at he
  rw [List.mem_iff_getElem?] at he
  obtain ⟨i, hi⟩ := he
  rw [List.getElem?_zipWith] at hi
  split at hi
  · rename_i t p h1 h2
    cases hi
    refine (ht t (List.mem_of_getElem? h1)).sub (hp p (List.mem_of_getElem? h2)) (hw.pow (by omega)) ?_
    rw [pow_succ]; linarith
  · cases hi

/-! ### The gradient of the log loss -/

theorem binaryGradient_within {F : FP} {M : Libm} (hM : ExpLike M) {t p : Num} (ht : t = .fin 0 ∨ t = .fin 1)
    (hp : ∃ q, p = .fin q) : SizeLe 2 (binaryGradient F M t p) := by
  have r2 : F.rnd 2 = .fin 2 := by simpa using F.int 2 (by norm_num)
  have rm2 : F.rnd (-2) = .fin (-2) := by rw [F.symm, r2]; rfl
  have rm1 : F.rnd (-1) = .fin (-1) := by rw [F.symm, F.rnd_one]; rfl
  obtain ⟨q, rfl⟩ := hp
  have hy : ∃ y : ℚ, |y| = 1 ∧ F.sub (F.mul (.fin 2) t) (.fin 1) = .fin y := by
    rcases ht with rfl | rfl
    · refine ⟨-1, by norm_num, ?_⟩
      rw [F.mul_fin, mul_zero, F.rnd_zero, F.sub_fin, zero_sub, rm1]
    · refine ⟨1, by norm_num, ?_⟩
      rw [F.mul_fin, mul_one, r2, F.sub_fin, show (2 : ℚ) - 1 = 1 by norm_num, F.rnd_one]
  obtain ⟨y, hy1, hy⟩ := hy
  have h2y : F.mul (.fin 2) (.fin y) = .fin (2 * y) := by
    rw [F.mul_fin]
    rcases eq_or_eq_neg_of_abs_eq hy1 with rfl | rfl
    · rw [mul_one, r2]
    · rw [show (2 : ℚ) * -1 = -2 by norm_num, rm2]
  unfold binaryGradient
  simp only
  rw [hy, h2y]
  have habs : |2 * y| = 2 := by rw [abs_mul, hy1]; norm_num
  have hx : F.mul (.fin (2 * y)) (.fin q) ≠ .nan := F.rnd_ne_nan _
  generalize F.mul (.fin (2 * y)) (.fin q) = x at hx
  rw [show (Num.fin (2 * y)).neg = .fin (-(2 * y)) from rfl]
  have key : ∀ d : Num, (Num.fin 1).le d = true → SizeLe 2 (F.div (.fin (-(2 * y))) d) := by
    intro d hd
    cases d with
    | fin s =>
      have hs : (1 : ℚ) ≤ s := by simpa using hd
      refine SizeLe.div (A := 2) ⟨_, rfl, by rw [abs_neg, habs]⟩ (by linarith) r2 (by linarith)
    | pinf => exact ⟨0, rfl, by norm_num⟩
    | ninf => simp [Num.le] at hd
    | nan => simp [Num.le] at hd
  apply key
  rcases hM x hx with e | ⟨r, e, hr⟩
  · rw [e]; rfl
  · rw [e, F.add_fin]
    have := F.mono 1 (1 + r) (by linarith)
    rwa [F.rnd_one] at this

/-! ### `update` -/

theorem update_ends {F : FP} {M : Libm} {E : ℕ} (hw : Wide F E) {a : ℕ} {d : Data} {o : Objective} {targets : List Num}
    (hl1 : o.predictions.length = targets.length) (hl2 : o.gradients.length = targets.length) (hne : targets ≠ [])
    (ha : leafSize o.kind a ≤ E) (ht : ∀ t ∈ targets, o.kind ≠ .binary → SizeLe (2 ^ a) t)
    (hp : ∀ p ∈ o.predictions, SizeLe (2 ^ a) p ∨ o.kind = .binary ∧ ∃ q, p = .fin q)
    (hr : Learnable F M d targets o) : ∃ o', o.update F M targets = .ok o' ∧ Prepared targets a o' := by
  rw [Props.update_eq F M o targets hl1 hl2]
  have hlen : (List.zipWith F.sub targets o.predictions).length = targets.length := by simp [hl1]
  have herr : o.kind ≠ .binary → ∀ e ∈ List.zipWith F.sub targets o.predictions, SizeLe (2 ^ (a + 1)) e := by
    intro hb
    have ha' : a + 1 ≤ E := by
      revert ha hb
      cases o.kind <;> simp only [leafSize] <;> intros <;> first | omega | contradiction
    refine residuals_within hw ha' (fun t h => ht t h hb) (fun p h => ?_)
    rcases hp p h with h | ⟨h, _⟩
    · exact h
    · exact absurd h hb
  have hspread := hr.spread
  have hcls := hr.classes
  unfold Spec.residuals at hspread
  have hzne : List.zipWith F.sub targets o.predictions ≠ [] := by
    intro hc
    rw [hc] at hlen
    exact hne (List.eq_nil_of_length_eq_zero hlen.symm)
  -- the limits of the residuals
  have hlim : o.kind = .l1 ∨ o.kind = .huber → ∃ l h : ℚ, limitsOf (List.zipWith F.sub targets o.predictions) = (.fin l, .fin h) ∧
      l < h ∧ |l| ≤ 2 ^ (a + 1) ∧ |h| ≤ 2 ^ (a + 1) := by
    intro hk
    have hb : o.kind ≠ .binary := by rcases hk with h | h <;> rw [h] <;> simp
    obtain ⟨h1, h2, h3⟩ := limitsOf_spec _ hzne (fun e he => (herr hb e he).ne_nan)
    obtain ⟨l, el, hl⟩ := herr hb _ h1
    obtain ⟨h, eh, hh⟩ := herr hb _ h2
    refine ⟨l, h, Prod.ext el eh, ?_, hl, hh⟩
    obtain ⟨x, hx, y, hy, hxy⟩ := hspread hk
    obtain ⟨p, rfl, _⟩ := herr hb x hx
    obtain ⟨q, rfl, _⟩ := herr hb y hy
    have a1 := h3 _ hx
    have a2 := h3 _ hy
    rw [el, eh] at a1 a2
    simp only [Num.fin_le_fin] at a1 a2
    have hpq : p ≠ q := fun hc => hxy (by rw [hc])
    rcases lt_or_gt_of_ne hpq with h | h <;> linarith [a1.1, a1.2, a2.1, a2.2]
  generalize hZ : List.zipWith F.sub targets o.predictions = errs at *
  cases hk : o.kind with
  | l2 =>
    refine ⟨_, rfl, ⟨by simpa using hlen, ?_, ?_, ?_, ?_⟩⟩
    · intro g hg
      obtain ⟨e, he, rfl⟩ := List.mem_map.1 hg
      exact (herr (by simp [hk]) e he).neg.ne_nan
    all_goals (intro h; simp [hk] at h)
  | l1 =>
    refine ⟨_, rfl, ⟨by simpa using hlen, ?_, ?_, ?_, ?_⟩⟩
    · intro g hg
      obtain ⟨e, he, rfl⟩ := List.mem_map.1 hg
      exact (herr (by simp [hk]) e he).signum.neg.ne_nan
    · intro _
      exact hlim (.inl hk)
    all_goals (intro h; simp [hk] at h)
  | huber =>
    obtain ⟨l, h, el, hlh, hl, hh⟩ := hlim (.inr hk)
    obtain ⟨v, ev, hv⟩ := quantile_within hw (j := a + 1) (by rw [hk] at ha; simp only [leafSize] at ha; omega) hlh hl hh o.alpha errs
    simp only
    rw [el, ev, Out.ok_bind]
    refine ⟨_, rfl, ⟨by simpa using hlen, ?_, ?_, ?_, ?_⟩⟩
    · intro g hg
      obtain ⟨e, he, rfl⟩ := List.mem_map.1 hg
      have h1 := herr (by simp [hk]) e he
      obtain ⟨q, rfl, _⟩ := hv
      obtain ⟨r, rfl, _⟩ := h1
      unfold huberGradient
      split_ifs
      · simp
      · obtain ⟨s, es, _⟩ := SizeLe.signum (B := |r|) (v := .fin r) ⟨r, rfl, le_rfl⟩
        rw [es]
        exact F.rnd_ne_nan _
    · intro _
      exact ⟨l, h, rfl, hlh, hl, hh⟩
    · intro _
      exact hv.abs
    · intro h; simp [hk] at h
  | binary =>
    have hg : ∀ g ∈ List.zipWith (binaryGradient F M) targets o.predictions, SizeLe 2 g := by
      intro g hg
      rw [List.mem_iff_getElem?] at hg
      obtain ⟨i, hi⟩ := hg
      rw [List.getElem?_zipWith] at hi
      split at hi
      · rename_i t p h1 h2
        cases hi
        obtain ⟨hc1, hc2⟩ := hcls hk
        refine binaryGradient_within hc2 (hc1 t (List.mem_of_getElem? h1)) ?_
        rcases hp p (List.mem_of_getElem? h2) with ⟨q, h, _⟩ | ⟨_, h⟩
        · exact ⟨q, h⟩
        · exact h
      · cases hi
    refine ⟨_, rfl, ⟨by simp [hl1], fun g h => (hg g h).ne_nan, ?_, ?_, fun _ => hg⟩⟩
    all_goals (intro h; simp [hk] at h)
  | hinge =>
    refine ⟨_, rfl, ⟨by simp [hl1], ?_, ?_, ?_, ?_⟩⟩
    · intro g hg
      rw [List.mem_iff_getElem?] at hg
      obtain ⟨i, hi⟩ := hg
      rw [List.getElem?_zipWith] at hi
      split at hi
      · cases hi
        unfold hingeGradient
        split_ifs <;> simp
      · cases hi
    all_goals (intro h; simp [hk] at h)

/-! ### Leaf values -/

/-- The rows of a leaf, with the predictions the objective had before the tree. -/
structure LeafRows (n : ℕ) (o0 o : Objective) (rs : List ℕ) : Prop where
  obj : o = { o0 with predictions := o.predictions }
  ne : rs ≠ []
  nodup : rs.Nodup
  row : ∀ r ∈ rs, r < n ∧ o.predictions[r]? = o0.predictions[r]?

theorem LeafRows.card {n : ℕ} {o0 o : Objective} {rs : List ℕ} (h : LeafRows n o0 o rs) : 0 < rs.length ∧ rs.length ≤ n := by
  refine ⟨List.length_pos_iff.2 h.ne, ?_⟩
  have hs : rs ⊆ List.range n := fun r hr => List.mem_range.2 (h.row r hr).1
  have := (h.nodup.subperm hs).length_le
  simpa using this

section
variable {F : FP} {E : ℕ} {a : ℕ} {targets : List Num} {o0 o : Objective} {rs : List ℕ}

theorem targetPred_ends {P : ℚ} (ht : ∀ t ∈ targets, SizeLe P t) (hp : ∀ p ∈ o0.predictions, SizeLe P p)
    (hl : o0.predictions.length = targets.length) (h : LeafRows targets.length o0 o rs) :
    ∃ f : ℕ → Num × Num, ∀ r ∈ rs, targetPred o targets r = .ok (f r) ∧ SizeLe P (f r).1 ∧ SizeLe P (f r).2 := by
  refine ⟨fun r => (targets[r]?.getD .nan, o.predictions[r]?.getD .nan), ?_⟩
  intro r hr
  obtain ⟨h1, h2⟩ := h.row r hr
  have e1 : targets[r]? = some targets[r] := List.getElem?_eq_getElem h1
  have h1' : r < o0.predictions.length := by omega
  have e2 : o.predictions[r]? = some o0.predictions[r] := by rw [h2]; exact List.getElem?_eq_getElem h1'
  simp only
  refine ⟨?_, ?_, ?_⟩
  · unfold targetPred index
    rw [e1, e2]
    rfl
  · rw [e1]; exact ht _ (List.getElem_mem h1)
  · rw [e2]; exact hp _ (List.getElem_mem h1')

theorem residuals_ends (hw : Wide F E) (ha : a + 1 ≤ E) (ht : ∀ t ∈ targets, SizeLe (2 ^ a) t)
    (hp : ∀ p ∈ o0.predictions, SizeLe (2 ^ a) p) (hl : o0.predictions.length = targets.length)
    (h : LeafRows targets.length o0 o rs) :
    ∃ errs, residuals F o targets rs = .ok errs ∧ errs.length = rs.length ∧ ∀ e ∈ errs, SizeLe (2 ^ (a + 1)) e := by
  obtain ⟨f, hf⟩ := targetPred_ends ht hp hl h
  refine ⟨rs.map (fun r => F.sub (f r).1 (f r).2), ?_, by simp, ?_⟩
  · unfold residuals
    refine forExamples_ok _ _ rs ?_
    intro r hr
    rw [(hf r hr).1]
    rfl
  · intro e he
    obtain ⟨r, hr, rfl⟩ := List.mem_map.1 he
    refine (hf r hr).2.1.sub (hf r hr).2.2 (hw.pow (by omega)) ?_
    rw [pow_succ]; linarith

theorem binaryLeaf_within (hw : Wide F E) (hE : 48 ≤ E) {gs : List Num} (hne : gs ≠ []) (hlen : gs.length ≤ 2 ^ 24)
    (hg : ∀ g ∈ gs, SizeLe 2 g) : SizeLe (2 ^ 48) (binaryLeaf F gs) := by
  have reps : F.rnd (1 / 2 ^ 23) = .fin (1 / 2 ^ 23) := by simpa using hw.down (j := 0) (by omega) 23 (by norm_num)
  have r2 : F.rnd 2 = .fin 2 := by simpa using F.int 2 (by norm_num)
  have r4 : F.rnd 4 = .fin 4 := by simpa using F.int 4 (by norm_num)
  -- the numerator
  have hnum : SizeLe (gs.length * 2 ^ 1) (gs.foldl (fun s g => F.add s g.neg) (.fin 0)) := by
    have := foldl_within (T := 2 ^ 1) (fun s (g : Num) => F.add s g.neg) (2 ^ 24) gs (.fin 0) 0 (by omega) ⟨0, rfl, by simp⟩ (by
      intro s x k hx hk hs
      refine hs.add (hg x hx).neg (hw.mul (by omega) (by omega)) ?_
      push_cast; linarith)
    simpa using this
  -- the terms of the denominator
  have hterm : ∀ g ∈ gs, SizeLe 4 (F.mul g.neg.abs (F.sub (.fin 2) g.neg.abs)) ∧
      (Num.fin 0).le (F.mul g.neg.abs (F.sub (.fin 2) g.neg.abs)) = true := by
    intro g hgm
    have h1 := (hg g hgm).neg.abs
    obtain ⟨q, hq, hq2⟩ := hg g hgm
    subst hq
    have e1 : (Num.fin q).neg.abs = .fin |q| := by simp [Num.neg, Num.abs]
    rw [e1] at h1 ⊢
    have h2 : SizeLe 2 (F.rnd (2 - |q|)) := by
      refine F.rnd_within r2 ?_
      rw [abs_le]; constructor <;> linarith [abs_nonneg q]
    have h3 : (Num.fin 0).le (F.rnd (2 - |q|)) = true := F.rnd_nonneg (by linarith)
    rw [F.sub_fin]
    refine ⟨h1.mul h2 r4 (by norm_num), ?_⟩
    obtain ⟨r, e, _⟩ := h2
    rw [e] at h3 ⊢
    rw [F.mul_fin]
    exact F.rnd_nonneg (mul_nonneg (abs_nonneg _) (by simpa using h3))
  have hden : ∀ (l : List Num) (s : Num) (k : ℕ), (∀ g ∈ l, g ∈ gs) → k + l.length ≤ 2 ^ 24 →
      (SizeLe (k * 2 ^ 3) s ∨ s = epsilon ∧ k = 0) → (Num.fin (1 / 2 ^ 23)).le s = true →
      ∃ q : ℚ, l.foldl (fun s g => F.add s (F.mul g.neg.abs (F.sub (.fin 2) g.neg.abs))) s = .fin q ∧ 1 / 2 ^ 23 ≤ q := by
    intro l
    induction l with
    | nil =>
      intro s k _ _ h1 h2
      have : ∃ q, s = .fin q := by
        rcases h1 with ⟨q, h, _⟩ | ⟨h, _⟩
        · exact ⟨q, h⟩
        · exact ⟨_, h⟩
      obtain ⟨q, rfl⟩ := this
      exact ⟨q, rfl, by simpa using h2⟩
    | cons g l ih =>
      intro s k hl hk h1 h2
      simp only [List.length_cons] at hk
      obtain ⟨t1, t2⟩ := hterm g (hl g (by simp))
      simp only [List.foldl_cons]
      generalize F.mul g.neg.abs (F.sub (.fin 2) g.neg.abs) = t at t1 t2
      refine ih _ (k + 1) (fun x hx => hl x (by simp [hx])) (by omega) (.inl ?_) ?_
      · have hrep := hw.mul (k := k + 1) (j := 3) (by omega) (by omega)
        rcases h1 with h1 | ⟨rfl, rfl⟩
        · refine h1.add t1 hrep ?_
          push_cast; linarith
        · refine SizeLe.add (A := 1) ⟨_, rfl, by norm_num⟩ t1 hrep ?_
          norm_num
      · obtain ⟨q, rfl, _⟩ := t1
        have : ∃ p, s = .fin p := by
          rcases h1 with ⟨q, h, _⟩ | ⟨h, _⟩
          · exact ⟨q, h⟩
          · exact ⟨_, h⟩
        obtain ⟨p, rfl⟩ := this
        simp only [Num.fin_le_fin] at h2 t2
        rw [F.add_fin]
        have := F.mono (1 / 2 ^ 23) (p + q) (by linarith)
        rwa [reps] at this
  obtain ⟨q, eq, hq⟩ := hden gs epsilon 0 (fun _ h => h) (by omega) (.inr ⟨rfl, rfl⟩) (by simp [epsilon])
  unfold binaryLeaf
  simp only
  rw [eq]
  have hl : (gs.length : ℚ) ≤ 2 ^ 24 := by exact_mod_cast hlen
  refine hnum.div (by norm_num at hq ⊢; linarith) (hw.pow (by omega)) ?_
  have h1 : (2 : ℚ) ^ 48 * (1 / 2 ^ 23) ≤ 2 ^ 48 * q := mul_le_mul_of_nonneg_left hq (by norm_num)
  have h2 : (gs.length : ℚ) * 2 ^ 1 ≤ 2 ^ 24 * 2 ^ 1 := mul_le_mul_of_nonneg_right hl (by norm_num)
  exact h2.trans (le_trans (by norm_num) h1)

theorem leafValue_ends (hw : Wide F E) (ha : leafSize o0.kind a ≤ E) (hn : targets.length ≤ 2 ^ 24)
    (ht : o0.kind ≠ .binary → ∀ t ∈ targets, SizeLe (2 ^ a) t)
    (hp : o0.kind ≠ .binary → ∀ p ∈ o0.predictions, SizeLe (2 ^ a) p)
    (hl : o0.predictions.length = targets.length) (hpre : Prepared targets a o0) (h : LeafRows targets.length o0 o rs) :
    ∃ v, leafValue F o targets rs = .ok v ∧ SizeLe (2 ^ leafSize o0.kind a) v := by
  obtain ⟨hpos, hcard⟩ := h.card
  have hk : o.kind = o0.kind := by rw [h.obj]
  have hlimits : o.limits = o0.limits := by rw [h.obj]
  have hdelta : o.delta = o0.delta := by rw [h.obj]
  have hgrad : o.gradients = o0.gradients := by rw [h.obj]
  have hmed : o0.kind = .l1 ∨ o0.kind = .huber → ∀ errs, ∃ v, median F o.limits errs = .ok v ∧ SizeLe (2 ^ (a + 3)) v := by
    intro hk' errs
    obtain ⟨l, u, e, hlu, h1, h2⟩ := hpre.lim hk'
    rw [hlimits, e]
    have hle : a + 1 + 1 ≤ E := by rcases hk' with h | h <;> rw [h] at ha <;> simp only [leafSize] at ha <;> omega
    exact quantile_within hw hle hlu h1 h2 _ _
  have hres : o0.kind ≠ .binary → a + 1 ≤ E → ∃ errs, residuals F o targets rs = .ok errs ∧ errs.length = rs.length ∧
      ∀ e ∈ errs, SizeLe (2 ^ (a + 1)) e := fun hb hle => residuals_ends hw hle (ht hb) (hp hb) hl h
  unfold leafValue
  rw [hk]
  cases hk0 : o0.kind with
  | l2 =>
    rw [hk0] at ha
    simp only [leafSize] at ha ⊢
    obtain ⟨errs, e, hlen, he⟩ := hres (by simp [hk0]) ha
    rw [e, Out.ok_bind]
    refine ⟨_, rfl, mean_within hw ha hpos (by omega) ?_⟩
    rw [← hlen]
    exact sum_within hw ha (by omega) he
  | l1 =>
    rw [hk0] at ha
    simp only [leafSize] at ha ⊢
    obtain ⟨errs, e, hlen, he⟩ := hres (by simp [hk0]) (by omega)
    rw [e, Out.ok_bind]
    exact hmed (.inl hk0) errs
  | huber =>
    rw [hk0] at ha
    simp only [leafSize] at ha ⊢
    obtain ⟨errs, e, hlen, he⟩ := hres (by simp [hk0]) (by omega)
    obtain ⟨m, em, hm⟩ := hmed (.inr hk0) errs
    rw [e, Out.ok_bind, em, Out.ok_bind]
    refine ⟨_, rfl, ?_⟩
    have hd := hpre.delta hk0
    rw [← hdelta] at hd
    have hc : SizeLe (rs.length * 2 ^ (a + 4)) (huberCorrection F o.delta m errs) := by
      have := foldl_within (T := 2 ^ (a + 4)) (fun s (err : Num) => F.add s (F.mul (F.sub err m).signum
        (Num.min o.delta (F.sub err m).abs))) (2 ^ 24) errs (.fin 0) 0 (by omega) ⟨0, rfl, by simp⟩ (by
        intro s x k hx hk hs
        have h1 : SizeLe (2 ^ (a + 4)) (F.sub x m) := by
          refine (he x hx).sub hm (hw.pow (by omega)) ?_
          have : (0 : ℚ) < 2 ^ a := by positivity
          rw [pow_succ, pow_add, pow_add]; norm_num; linarith
        have h2 : SizeLe (2 ^ (a + 4)) (Num.min o.delta (F.sub x m).abs) :=
          (hd.mono (pow_le_pow_right₀ (by norm_num) (by omega))).min h1.abs
        have h3 : SizeLe (2 ^ (a + 4)) (F.mul (F.sub x m).signum (Num.min o.delta (F.sub x m).abs)) :=
          h1.signum.mul h2 (hw.pow (by omega)) (by rw [one_mul])
        refine hs.add h3 (hw.mul (by omega) (by omega)) ?_
        push_cast; linarith)
      rw [hlen] at this
      simpa [huberCorrection] using this
    refine hm.add (mean_within hw (by omega) hpos (by omega) hc) (hw.pow (by omega)) ?_
    have : (0 : ℚ) < 2 ^ a := by positivity
    rw [pow_add, pow_add, pow_add]; norm_num; linarith
  | binary =>
    rw [hk0] at ha
    simp only [leafSize] at ha ⊢
    have hg := hpre.grads hk0
    have hgl := hpre.len
    have hi : ∀ r ∈ rs, index o.gradients r = .ok (o0.gradients[r]?.getD .nan) ∧ SizeLe 2 (o0.gradients[r]?.getD .nan) := by
      intro r hr
      have h1 : r < o0.gradients.length := by rw [hgl]; exact (h.row r hr).1
      unfold index
      rw [hgrad, List.getElem?_eq_getElem h1]
      exact ⟨rfl, hg _ (List.getElem_mem h1)⟩
    rw [forExamples_ok _ _ rs (fun r hr => (hi r hr).1), Out.ok_bind]
    refine ⟨_, rfl, binaryLeaf_within hw ha (by simpa using h.ne) (by simp; omega) ?_⟩
    intro g hg
    obtain ⟨r, hr, rfl⟩ := List.mem_map.1 hg
    exact (hi r hr).2
  | hinge =>
    rw [hk0] at ha
    simp only [leafSize] at ha ⊢
    obtain ⟨f, hf⟩ := targetPred_ends (ht (by simp [hk0])) (hp (by simp [hk0])) hl h
    rw [forExamples_ok _ _ rs (fun r hr => (hf r hr).1), Out.ok_bind]
    refine ⟨_, rfl, mean_within hw ha hpos (by omega) ?_⟩
    have hp0 : (1 : ℚ) ≤ 2 ^ a := one_le_pow₀ (by norm_num)
    have hsq : (2 : ℚ) ^ (a + 2) * 2 ^ (a + 2) = 2 ^ (2 * a + 4) := by rw [← pow_add]; congr 1; ring
    have hx : ∀ x : Num, SizeLe (2 ^ (a + 2)) x → SizeLe (2 ^ (2 * a + 4)) (F.mul (x.max (.fin 0)) (x.max (.fin 0))) := by
      intro x hx
      have h1 := hx.max ⟨0, rfl, by simp⟩ (w := .fin 0)
      exact h1.mul h1 (hw.pow (by omega)) (by rw [hsq])
    have h2 : SizeLe 2 (.fin 2) := ⟨2, rfl, by norm_num⟩
    have := foldl_within (T := 2 ^ (2 * a + 4)) (fun v (tp : Num × Num) =>
      if tp.1.lt (.fin (1 / 2)) then
        let x := Num.max (F.add (.fin 2) tp.2) (.fin 0)
        F.sub v (F.mul x x)
      else
        let x := Num.max (F.sub (.fin 2) tp.2) (.fin 0)
        F.add v (F.mul x x)) (2 ^ 24) (rs.map f) (.fin 0) 0 (by simp; omega) ⟨0, rfl, by simp⟩ (by
      intro s x k hxm hk hs
      obtain ⟨r, hr, rfl⟩ := List.mem_map.1 hxm
      have hb := (hf r hr).2.2
      have hC : F.rnd ((2 : ℚ) ^ (a + 2)) = .fin (2 ^ (a + 2)) := hw.pow (by omega)
      have hle : (2 : ℚ) + 2 ^ a ≤ 2 ^ (a + 2) := by rw [pow_add]; linarith
      have hrep := hw.mul (k := k + 1) (j := 2 * a + 4) (by omega) ha
      simp only
      split_ifs
      · refine hs.sub (hx _ (h2.add hb hC hle)) hrep ?_
        push_cast; linarith
      · refine hs.add (hx _ (h2.sub hb hC hle)) hrep ?_
        push_cast; linarith)
    simpa [hingeSum] using this

/-- Leaf values work. `P` is the size of the predictions. -/
theorem leavesOk_of {E : ℕ} (hw : Wide F E) (ha : leafSize o0.kind a ≤ E) (hn : targets.length ≤ 2 ^ 24)
    (ht : o0.kind ≠ .binary → ∀ t ∈ targets, SizeLe (2 ^ a) t)
    (hp : o0.kind ≠ .binary → ∀ p ∈ o0.predictions, SizeLe (2 ^ a) p)
    (hl : o0.predictions.length = targets.length) (hpre : Prepared targets a o0)
    (hlr : ∃ q, o0.learningRate = .fin q ∧ |q| ≤ 1) {P C : ℚ} (hP : ∀ p ∈ o0.predictions, SizeLe P p)
    (hC : F.rnd C = .fin C) (hPC : P + 2 ^ leafSize o0.kind a ≤ C) :
    LeavesOk F targets.length targets (2 ^ leafSize o0.kind a) o0 := by
  intro o rs h1 h2 h3 h4
  have hlf : LeafRows targets.length o0 o rs := ⟨h1, h2, h3, h4⟩
  obtain ⟨v, ev, hv⟩ := leafValue_ends hw ha hn ht hp hl hpre hlf
  obtain ⟨q, hq, hq1⟩ := hlr
  have hq' : o.learningRate = .fin q := by rw [h1]; exact hq
  have hrep : F.rnd ((2 : ℚ) ^ leafSize o0.kind a) = .fin (2 ^ leafSize o0.kind a) := hw.pow (by omega)
  have hs : Settled F (2 ^ leafSize o0.kind a) (F.mul (.fin q) v) := by
    have : SizeLe (2 ^ leafSize o0.kind a) (F.mul (.fin q) v) := by
      refine SizeLe.mul (A := 1) ⟨q, rfl, hq1⟩ hv hrep (by linarith)
    obtain ⟨x, rfl, hx⟩ := hv
    obtain ⟨y, ey, hy⟩ := this
    exact ⟨y, ey, hy, F.idem _ _ ey⟩
  have hadd : ∀ r ∈ rs, ∃ p, o.predictions[r]? = some p ∧ (F.add p (F.mul (.fin q) v)).isFinite = true := by
    intro r hr
    obtain ⟨h5, h6⟩ := h4 r hr
    have h7 : r < o0.predictions.length := by omega
    refine ⟨o0.predictions[r], by rw [h6]; exact List.getElem?_eq_getElem h7, ?_⟩
    obtain ⟨y, ey, hy, _⟩ := hs
    exact SizeLe.finite (SizeLe.add (hP _ (List.getElem_mem h7)) ⟨y, ey, hy⟩ hC hPC)
  refine ⟨F.mul (.fin q) v, { o with predictions := bump F (F.mul (.fin q) v) rs o.predictions }, ?_, hs⟩
  unfold predictLeafValue updatePredictions
  rw [ev, Out.ok_bind]
  simp only
  rw [hq', addLoop_ok F _ rs o.predictions h3 hadd]
  rfl

end

end Objective
end BitBoost
