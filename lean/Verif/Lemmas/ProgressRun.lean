import Verif.Lemmas.ProgressObj
import Verif.Lemmas.Safe
/-! Helper lemmas: boosting that does not panic. -/
namespace BitBoost
open Spec Learner Dataset

namespace Objective

theorem classCounts_ends {F : FP} {targets : List Num} (hn : targets.length ≤ 2 ^ 24) :
    ∃ k : ℕ, k = (targets.filter fun x => x.lt (.fin (1 / 2))).length ∧ k ≤ targets.length ∧
      classCounts F targets = (.fin k, .fin ((targets.length - k : ℕ) : ℚ)) := by
  refine ⟨_, rfl, List.length_filter_le _ _, ?_⟩
  have hk := List.length_filter_le (fun x : Num => x.lt (.fin (1 / 2))) targets
  generalize hm : (targets.filter fun x => x.lt (.fin (1 / 2))).length = k at hk
  unfold classCounts
  simp only
  rw [hm, F.ofNat_eq (by omega), F.ofNat_eq hn, F.sub_fin, ← Nat.cast_sub hk, F.rnd_nat (by omega)]

theorem init_ends {F : FP} {M : Libm} {E a : ℕ} (hw : Wide F E) {cfg : Config} {o : Objective} {targets : List Num}
    (hne : targets ≠ []) (hn : targets.length ≤ 2 ^ 24) (ha : startSize o.kind a ≤ E)
    (ht : o.kind = .l2 ∨ o.kind = .l1 ∨ o.kind = .huber → ∀ t ∈ targets, SizeLe (2 ^ a) t)
    (hs : Startable M cfg targets o.kind) :
    ∃ o1, o.init F M cfg targets = .ok o1 ∧ ∀ p ∈ o1.predictions, SizeLe (2 ^ startSize o.kind a) p := by
  have hpos : 0 < targets.length := List.length_pos_iff.2 hne
  have hmed : o.kind = .l1 ∨ o.kind = .huber → ∃ v, median F (limitsOf targets) targets = .ok v ∧ SizeLe (2 ^ (a + 2)) v := by
    intro hk
    have ht' := ht (.inr hk)
    obtain ⟨h1, h2, h3⟩ := limitsOf_spec targets hne (fun t h => (ht' t h).ne_nan)
    obtain ⟨l, el, hl⟩ := ht' _ h1
    obtain ⟨h, eh, hh⟩ := ht' _ h2
    have hlh : l < h := by
      obtain ⟨x, hx, y, hy, hxy⟩ := hs.spread hk
      obtain ⟨p, rfl, _⟩ := ht' x hx
      obtain ⟨q, rfl, _⟩ := ht' y hy
      have a1 := h3 _ hx
      have a2 := h3 _ hy
      rw [el, eh] at a1 a2
      simp only [Num.fin_le_fin] at a1 a2
      have hpq : p ≠ q := fun hc => hxy (by rw [hc])
      rcases lt_or_gt_of_ne hpq with h | h <;> linarith [a1.1, a1.2, a2.1, a2.2]
    rw [show limitsOf targets = (.fin l, .fin h) from Prod.ext el eh]
    refine quantile_within hw ?_ hlh hl hh _ _
    rcases hk with h | h <;> rw [h] at ha <;> simp only [startSize] at ha <;> omega
  have hbase : ∀ (bias : Num) (B : ℚ), SizeLe B bias → ∀ p ∈ (initializeBase o cfg targets.length bias).predictions,
      SizeLe B p := by
    intro bias B hb p hp
    rw [show p = bias from (List.mem_replicate.1 hp).2]
    exact hb
  obtain ⟨k, hk1, hkn, hcc⟩ := classCounts_ends (F := F) hn
  unfold init
  cases hk : o.kind with
  | l2 =>
    rw [hk] at ha
    simp only [startSize] at ha ⊢
    refine ⟨_, rfl, hbase _ _ (mean_within hw ha hpos hn (sum_within hw ha hn (ht (.inl hk))))⟩
  | l1 =>
    obtain ⟨v, ev, hv⟩ := hmed (.inl hk)
    simp only
    rw [ev, Out.ok_bind]
    exact ⟨_, rfl, hbase _ _ hv⟩
  | huber =>
    obtain ⟨v, ev, hv⟩ := hmed (.inr hk)
    obtain ⟨q, eq, hq0, hq1⟩ := hs.alpha hk
    simp only
    rw [ev, Out.ok_bind, eq, assert_ok.2 (by simp [hq0, hq1]), Out.ok_bind]
    exact ⟨_, rfl, hbase _ _ hv⟩
  | binary =>
    obtain ⟨hc, h0, h1, hln⟩ := hs.classes hk
    simp only [hcc]
    refine ⟨_, rfl, hbase _ _ ?_⟩
    have hk0 : 0 < k := by
      rw [hk1]
      exact List.length_pos_of_mem (List.mem_filter.2 ⟨h0, by simp⟩)
    have hkn' : k < targets.length := by
      rw [hk1]
      refine lt_of_le_of_ne (List.length_filter_le _ _) fun hc => ?_
      have := List.length_filter_eq_length_iff.1 hc _ h1
      norm_num [Num.lt] at this
    generalize targets.length = n at *
    have rk : F.rnd (k : ℚ) = .fin k := F.rnd_nat (by omega)
    have rnk : F.rnd ((n - k : ℕ) : ℚ) = .fin ((n - k : ℕ) : ℚ) := F.rnd_nat (by omega)
    have e1 : F.mul (.fin (-1)) (.fin (k : ℚ)) = .fin (-(k : ℚ)) := by
      rw [F.mul_fin, show (-1 : ℚ) * k = -k by ring, F.symm, rk]; rfl
    have e2 : F.mul (.fin 1) (.fin ((n - k : ℕ) : ℚ)) = .fin ((n - k : ℕ) : ℚ) := by
      rw [F.mul_fin, one_mul, rnk]
    have e3 : F.add (.fin (-(k : ℚ))) (.fin ((n - k : ℕ) : ℚ)) = .fin (((n : ℤ) - 2 * k : ℤ) : ℚ) := by
      rw [F.add_fin, show -(k : ℚ) + ((n - k : ℕ) : ℚ) = (((n : ℤ) - 2 * k : ℤ) : ℚ) by
        rw [Nat.cast_sub (by omega)]; push_cast; ring]
      exact F.int _ (by rw [abs_le]; constructor <;> omega)
    rw [e1, e2, e3, F.ofNat_eq hn]
    have hn0 : (0 : ℚ) < n := by exact_mod_cast hpos
    have hnq : (n : ℚ) ≤ 2 ^ 24 := by exact_mod_cast hn
    have rc : F.rnd (1 - 1 / 2 ^ 23) = .fin (1 - 1 / 2 ^ 23) := by
      have := hw (2 ^ 23 - 1) (-23) (by norm_num) (by norm_num) (by omega)
      norm_num at this ⊢
      exact this
    have havg : SizeLe (1 - 1 / 2 ^ 23) (F.div (.fin (((n : ℤ) - 2 * k : ℤ) : ℚ)) (.fin (n : ℚ))) := by
      refine SizeLe.div (A := n - 2) ⟨_, rfl, ?_⟩ hn0 rc ?_
      · have h1 : (1 : ℚ) ≤ k := by exact_mod_cast hk0
        have h2 : (k : ℚ) + 1 ≤ n := by exact_mod_cast hkn'
        rw [abs_le]; push_cast; constructor <;> linarith
      · rw [show (2 : ℚ) ^ 24 = 16777216 by norm_num] at hnq
        rw [show (1 - 1 / 2 ^ 23 : ℚ) * n = n - n / 8388608 by ring]
        linarith
    obtain ⟨g, eg, hg⟩ := havg
    rw [eg]
    obtain ⟨hg1, hg2⟩ := abs_le.1 hg
    have reps : F.rnd (1 / 2 ^ 23) = .fin (1 / 2 ^ 23) := by
      have := hw 1 (-23) (by norm_num) (by norm_num) (by omega)
      norm_num at this ⊢
      exact this
    have r2 : F.rnd 2 = .fin 2 := by simpa using F.int 2 (by norm_num)
    have hside : ∀ x : ℚ, 1 / 2 ^ 23 ≤ x → x ≤ 2 → ∃ y : ℚ, F.rnd x = .fin y ∧ 1 / 2 ^ 23 ≤ y ∧ y ≤ 2 := by
      intro x h1 h2
      obtain ⟨y, ey, hy⟩ := F.rnd_within r2 (q := x) (abs_le.2 ⟨by norm_num at h1 ⊢; linarith, h2⟩)
      refine ⟨y, ey, F.rnd_mono_fin reps ey h1, (abs_le.1 hy).2⟩
    obtain ⟨x, ex, hx1, hx2⟩ := hside (1 + g) (by norm_num at hg1 ⊢; linarith) (by norm_num at hg2 ⊢; linarith)
    obtain ⟨y, ey, hy1, hy2⟩ := hside (1 - g) (by norm_num at hg2 ⊢; linarith) (by norm_num at hg1 ⊢; linarith)
    have hy0 : 0 < y := lt_of_lt_of_le (by norm_num) hy1
    rw [F.add_fin, ex, F.sub_fin, ey, F.div_fin (ne_of_gt hy0)]
    have rl : F.rnd (1 / 2 ^ 24) = .fin (1 / 2 ^ 24) := by
      have := hw 1 (-24) (by norm_num) (by norm_num) (by omega)
      norm_num at this ⊢
      exact this
    have ru : F.rnd ((2 : ℚ) ^ 24) = .fin (2 ^ 24) := by
      have := F.int (2 ^ 24) (by norm_num)
      exact_mod_cast this
    have hq1 : (1 : ℚ) / 2 ^ 24 ≤ x / y := by
      rw [le_div_iff₀ hy0]
      norm_num at hx1 ⊢
      linarith
    have hq2 : x / y ≤ 2 ^ 24 := by
      rw [div_le_iff₀ hy0]
      norm_num at hy1 ⊢
      linarith
    obtain ⟨z, ez, hz⟩ := F.rnd_within ru (q := x / y) (abs_le.2 ⟨le_trans (by norm_num) hq1, hq2⟩)
    rw [ez]
    obtain ⟨r, er, hr⟩ := hln z (F.rnd_mono_fin rl ez hq1) (abs_le.1 hz).2
    rw [er]
    rw [hk] at ha
    simp only [startSize] at ha ⊢
    refine SizeLe.mul (A := 1 / 2) ⟨1 / 2, rfl, by norm_num⟩ ⟨r, rfl, hr⟩ (hw.pow (by omega)) (by norm_num)
  | hinge =>
    simp only
    rw [assert_ok.2 (by simp [hs.bits hk]), Out.ok_bind, hcc]
    simp only
    refine ⟨_, rfl, hbase _ _ ?_⟩
    generalize targets.length = n at *
    have rk : F.rnd (k : ℚ) = .fin k := F.rnd_nat (by omega)
    have e1 : F.mul (.fin (k : ℚ)) (.fin (-1)) = .fin (-(k : ℚ)) := by
      rw [F.mul_fin, show (k : ℚ) * -1 = -k by ring, F.symm, rk]; rfl
    have e3 : F.add (.fin (-(k : ℚ))) (.fin ((n - k : ℕ) : ℚ)) = .fin (((n : ℤ) - 2 * k : ℤ) : ℚ) := by
      rw [F.add_fin, show -(k : ℚ) + ((n - k : ℕ) : ℚ) = (((n : ℤ) - 2 * k : ℤ) : ℚ) by
        rw [Nat.cast_sub (by omega)]; push_cast; ring]
      exact F.int _ (by rw [abs_le]; constructor <;> omega)
    rw [e1, e3, F.ofNat_eq hn]
    have hn0 : (0 : ℚ) < n := by exact_mod_cast hpos
    have hkq : (k : ℚ) ≤ n := by exact_mod_cast hkn
    have hk0 : (0 : ℚ) ≤ k := by positivity
    simp only [startSize, pow_zero]
    refine SizeLe.div (A := n) ⟨_, rfl, ?_⟩ hn0 F.rnd_one (by linarith)
    rw [abs_le]; push_cast; constructor <;> linarith

end Objective

namespace Booster

section
variable {F : FP} {M : Libm} {cfg : Config} {d : Data} {rng : Rng} {metrics : List Metric} {o : Objective} {k : ℕ} {b : Booster}

theorem boosting_gradients (h : Boosting F M cfg d rng metrics o k b) (hc : ValidConfig cfg) (hd : ValidData cfg d) :
    b.objective.gradients.length = d.nexamples ∧ (o.kind = .binary → b.objective.bound = cfg.binaryGradientBound) := by
  obtain ⟨qe, he, _, he1⟩ := hc.examples
  have hfr : cfg.exampleFraction.le (.fin 1) = true := by rw [he]; simpa [Num.le] using he1
  induction h with
  | start h0 h1 =>
    obtain ⟨ds, e, rfl⟩ := new_ok h0
    obtain ⟨ts, o1, e1, e2, rfl⟩ := prepare_ok h1
    have hlen := target_length hd.shape e1
    simp only at e2 ⊢
    unfold Objective.init at e2
    cases hk : o.kind <;> rw [hk] at e2 <;> simp only at e2
    · cases e2
      exact ⟨by simp [Objective.initializeBase, hlen], fun h => by cases h⟩
    · obtain ⟨x, _, e2⟩ := Out.bind_eq_ok.1 e2
      cases e2
      exact ⟨by simp [Objective.initializeBase, hlen], fun h => by cases h⟩
    · obtain ⟨x, _, e2⟩ := Out.bind_eq_ok.1 e2
      obtain ⟨_, _, e2⟩ := Out.bind_eq_ok.1 e2
      cases e2
      exact ⟨by simp [Objective.initializeBase, hlen], fun h => by cases h⟩
    · cases e2
      exact ⟨by simp [Objective.initializeBase, hlen], fun _ => rfl⟩
    · obtain ⟨_, _, e2⟩ := Out.bind_eq_ok.1 e2
      cases e2
      exact ⟨by simp [Objective.initializeBase, hlen], fun h => by cases h⟩
  | iter hb ht ih =>
    obtain ⟨targets, o1, ds, t, o', e1, e2, e3, e4, rfl⟩ := trainOneIter_ok ht
    have hup := boosting_updated hb
    have hds : Updated F cfg d rng _ ds := Updated.update hup.1 e3
    obtain ⟨rows, hrows, hfull, hsize, hnd, hrl⟩ := BitBoost.active_rows hds hd.size hfr
    obtain ⟨h5, h6⟩ := train_objective hds hrows hfull hd.shape hsize hc.leaf e4
    have hobj := boosting_objective hb hd.shape hd.size hfr hc.leaf
    simp only
    rw [h5]
    simp only
    refine ⟨?_, fun hk => ?_⟩
    · rw [Booster.gradients_length e2, target_length hd.shape e1]
    · obtain ⟨g1, g2⟩ := Props.update_inv e2
      rw [Props.update_eq F M _ _ g1 g2, hobj.1, hk] at e2
      cases e2
      exact ih.2 hk

theorem new_ends (hc : ValidConfig cfg) (hd : ValidData cfg d) : (new F cfg d rng o).Ends := by
  unfold new
  exact Out.Ends.bind (Dataset.new_ends hc hd) fun _ _ => Out.ends_ok _

theorem target_ends (hd : Rectangular d) : ∃ targets, Learner.target d = .ok targets ∧ targets.length = d.nexamples := by
  have hl : d.nfeatures < d.cols.length := by rw [hd.1]; omega
  have : Learner.target d = .ok d.cols[d.nfeatures].values := by
    unfold Learner.target
    rw [at?_lt hl]; rfl
  exact ⟨_, this, target_length hd this⟩

theorem nexamples_pos (hc : ValidConfig cfg) (hd : ValidData cfg d) : 0 < d.nexamples := by
  obtain ⟨q, e, _, _⟩ := hc.examples
  have := hd.sampled q e
  rcases Nat.eq_zero_or_pos d.nexamples with h | h
  · rw [h] at this; norm_num at this
  · exact h

theorem trainOneIter_ends (hb : Boosting F M cfg d rng metrics o k b) (hc : ValidConfig cfg) (hd : ValidData cfg d)
    {E a : ℕ} (hw : Wide F E) (ha : leafSize o.kind a ≤ E) {targets : List Num} (htgt : Learner.target d = .ok targets)
    (ht : o.kind ≠ .binary → ∀ t ∈ targets, SizeLe (2 ^ a) t)
    (hp : o.kind ≠ .binary → ∀ p ∈ b.objective.predictions, SizeLe (2 ^ a) p)
    (hr : Learnable F M d targets b.objective) {P C : ℚ} (hP : ∀ p ∈ b.objective.predictions, SizeLe P p)
    (hC : F.rnd C = .fin C) (hPC : P + 2 ^ leafSize o.kind a ≤ C) :
    ∃ b', trainOneIter F M cfg d metrics b = .ok b' ∧ ∀ p ∈ b'.objective.predictions, SizeLe C p := by
  obtain ⟨qe, he, _, he1⟩ := hc.examples
  have hfr : cfg.exampleFraction.le (.fin 1) = true := by rw [he]; simpa [Num.le] using he1
  obtain ⟨hkind, hrate, _, hplen⟩ := boosting_objective hb hd.shape hd.size hfr hc.leaf
  obtain ⟨hglen, _⟩ := boosting_gradients hb hc hd
  have hup := boosting_updated hb
  have htl := target_length hd.shape htgt
  have hn0 := nexamples_pos hc hd
  have hne : targets ≠ [] := by
    intro h; rw [h] at htl; simp at htl; omega
  rw [← hkind] at ha ht hp hPC
  obtain ⟨o1, eo, hpre⟩ := Objective.update_ends hw (by rw [hplen, htl]) (by rw [hglen, htl]) hne ha
    (fun t h hb => ht hb t h) (by
      intro p h
      by_cases hb : b.objective.kind = .binary
      · obtain ⟨q, e, _⟩ := hP p h
        exact .inr ⟨hb, q, e⟩
      · exact .inl (hp hb p h)) hr
  obtain ⟨s1, s2, s3, s4, s5⟩ := update_same eo
  have hgrads : GradsOk d o1.gradients o1.bounds := by
    refine ⟨by rw [hpre.len, htl], hpre.num, ?_⟩
    intro hh
    obtain ⟨h, eh, h0⟩ := hr.bounds hh o1 eo
    have key : ∃ lo : ℚ, o1.bounds.1 = .fin lo ∧ lo < h := by
      obtain ⟨g1, g2⟩ := Props.update_inv eo
      unfold Objective.bounds at eh ⊢
      cases hk : o1.kind <;> rw [hk] at eh <;> simp only at eh ⊢
      · rw [Props.update_eq F M _ _ g1 g2, ← s1, hk] at eo
        cases eo
        simp only at eh ⊢
        rw [eh]
        exact ⟨-h, rfl, by linarith⟩
      · cases eh; exact ⟨-1, rfl, by norm_num⟩
      · rw [eh]; exact ⟨-h, rfl, by linarith⟩
      · rw [eh]; exact ⟨-h, rfl, by linarith⟩
      · cases eh; exact ⟨-1, rfl, by norm_num⟩
    obtain ⟨lo, el, hlo⟩ := key
    exact ⟨lo, h, Prod.ext el eh, hlo⟩
  obtain ⟨ds, eds⟩ := update_ends hc hd hup.1.inv hgrads
  have hds : Updated F cfg d rng (k + 1) ds := Updated.update hup.1 eds
  have hleaf : LeavesOk F d.nexamples targets (2 ^ leafSize o1.kind a) o1 := by
    rw [← htl]
    refine Objective.leavesOk_of hw (by rw [s1]; exact ha) (by rw [htl]; exact hd.size) (by rw [s1]; exact ht)
      (by rw [s1, s4]; exact hp) s5 hpre ?_ (P := P) (by rw [s4]; exact hP) hC (by rw [s1]; exact hPC)
    obtain ⟨q, e, h⟩ := hc.rate
    exact ⟨q, by rw [s2, hrate, e], h⟩
  obtain ⟨t, o', et, ho', hpred⟩ := learnTree_ends hc hd hds (by omega) htgt (by positivity)
    (by rw [hpre.len, htl]) (by
      intro i hi
      have hi' : i < o1.predictions.length := by rw [s5, htl]; exact hi
      obtain ⟨q, e, _⟩ := hP o1.predictions[i] (by rw [← s4]; exact List.getElem_mem hi')
      exact ⟨q, by rw [List.getElem?_eq_getElem hi', e]⟩) hleaf
  have hlen' : o'.predictions.length = d.nexamples := by
    obtain ⟨rows, hrows, hfull, hsize, hnd, hrl⟩ := BitBoost.active_rows hds hd.size hfr
    rw [(train_objective hds hrows hfull hd.shape hsize hc.leaf (learnTree_ok et)).2, s5, htl]
  refine ⟨{ dataset := ds, objective := o', iterCount := b.iterCount + 1, ensemble := b.ensemble.pushTree t
            printed := b.printed ++ evalMetrics F M cfg metrics (b.iterCount + 1) targets o'.predictions }, ?_, ?_⟩
  · unfold trainOneIter
    rw [htgt, Out.ok_bind, eo, Out.ok_bind, eds, Out.ok_bind, et, Out.ok_bind]
    rfl
  · intro p hpm
    obtain ⟨i, hi⟩ := List.mem_iff_getElem?.1 hpm
    simp only at hi
    have hil : i < d.nexamples := by rw [← hlen']; exact (List.getElem?_eq_some_iff.1 hi).1
    obtain ⟨x, v, h1, ⟨q, rfl, hq, _⟩, h3⟩ := hpred i hil
    rw [hi] at h3
    cases h3
    refine SizeLe.add (hP x (by rw [← s4]; exact List.mem_of_getElem? h1)) ⟨q, rfl, hq⟩ hC ?_
    rw [s1]; exact hPC

end
end Booster
end BitBoost
