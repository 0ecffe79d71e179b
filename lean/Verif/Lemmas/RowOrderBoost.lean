import Verif.Lemmas.RowOrderData
import Verif.Lemmas.MaskRead
import Verif.Lemmas.Boost
/-! Helper lemmas for the order of the rows: whole training runs. -/
namespace BitBoost
open Spec Dataset Learner Objective

section
variable {F : FP} {cfg : Config} {σ : List Nat} {ds ds' : Dataset}

private theorem range_get {n i : Nat} (hi : i < n) (j : Nat) : (List.range n)[i]? = some j ↔ j = i := by
  rw [List.getElem?_range hi]
  simp [eq_comm]

/-- The masks of two training views, the same up to the order of the rows. -/
theorem sameMasks {d d' : Data} {k : Nat} (h : SameSet σ ds ds') (hi : Inv F cfg d k ds) (hi' : Inv F cfg d' k ds') :
    SameMasks σ ds ds' := by
  intro fs js f b e1 e2 e3 m em
  obtain ⟨hf, n, hn, hb⟩ := (mem_histJobs e2 f b).1 e3
  have hfs := e1
  unfold activeFeatures at hfs
  rw [prefix_ok] at hfs
  obtain ⟨_, rfl⟩ := hfs
  have hnb := hn
  unfold getNbins at hnb
  rw [at?_ok] at hnb
  have hrow : rowsOf ds = List.range ds.data.nexamples := by unfold rowsOf; rw [if_pos h.buf]
  have hrow' : rowsOf ds' = List.range ds.data.nexamples := by unfold rowsOf; rw [if_pos h.buf', h.data.nexamples]
  have o1 : FeatOk F cfg (List.range ds.data.nexamples) ds f := by
    rcases hi.feats f hf with h0 | h1
    · rw [hnb] at h0; simp only [Option.some.injEq] at h0; omega
    · rw [← hrow]; exact h1
  have o2 : FeatOk F cfg (List.range ds.data.nexamples) ds' f := by
    rcases hi'.feats f (by rw [h.useful, h.nf]; exact hf) with h0 | h1
    · rw [h.nb, hnb] at h0; simp only [Option.some.injEq] at h0; omega
    · rw [← hrow']; exact h1
  obtain ⟨bvs, m1, m2⟩ := getBitvec_ok.1 em
  obtain ⟨c, bvs1, nb, a1, a2, a3, a4, a5⟩ := o1
  obtain ⟨c', bvs', nb', b1, b2, b3, b4, b5⟩ := o2
  rw [m1] at a2; cases a2
  rw [hnb] at a3; cases a3
  rw [h.nb, hnb] at b3; cases b3
  have hc : ReorderedColumn σ c c' := by
    rcases forall₂_at h.data.cols f with ⟨x, x', e1, e2, hc⟩ | ⟨e1, _⟩
    · rw [a1] at e1; cases e1
      rw [b1] at e2; cases e2
      exact hc
    · rw [a1] at e1; cases e1
  have hlt : ∀ i j : Nat, σ[i]? = some j → i < ds.data.nexamples ∧ j < ds.data.nexamples := by
    intro i j hij
    refine ⟨?_, perm_lt h.data.perm hij⟩
    rw [← perm_length h.data.perm]
    exact (List.getElem?_eq_some_iff.1 hij).1
  have fin : ∀ m', bvs'[b]? = some m' → (∀ i j : Nat, σ[i]? = some j → (Blocks.bit m' i = true ↔ Blocks.bit m j = true)) →
      ∃ b', ds'.getBitvec f b = .ok b' ∧ SameMask σ m b' := by
    intro m' g1 g2
    refine ⟨m', getBitvec_ok.2 ⟨bvs', b2, g1⟩, fun i j hij => ?_⟩
    rw [BitSlice.bitAt_eq, BitSlice.bitAt_eq, Bool.eq_iff_iff]
    exact g2 i j hij
  rw [hc.ftype] at b5
  cases ht : c.ftype with
  | loCardCat =>
    rw [ht] at a5 b5
    obtain ⟨m0, g1, g2⟩ := a5.2 b hb
    rw [m2] at g1; cases g1
    obtain ⟨m', g3, g4⟩ := b5.2 b hb
    refine fin m' g3 fun i j hij => ?_
    obtain ⟨hil, hjl⟩ := hlt i j hij
    rw [g2, g4]
    simp only [range_get hil, range_get hjl, exists_and_left, exists_eq_left, hc.values.get hij]
  | hiCardCat =>
    rw [ht] at a5 b5
    obtain ⟨_, _, sc, s1, _, _, _, s6⟩ := a5
    obtain ⟨_, _, sc', t1, _, _, _, t6⟩ := b5
    rw [h.sup, s1] at t1; cases t1
    obtain ⟨m0, g1, g2⟩ := s6 b hb
    rw [m2] at g1; cases g1
    obtain ⟨m', g3, g4⟩ := t6 b hb
    refine fin m' g3 fun i j hij => ?_
    obtain ⟨hil, hjl⟩ := hlt i j hij
    rw [g2, g4]
    simp only [range_get hil, range_get hjl, exists_and_left, exists_eq_left, hc.values.get hij]
  | numerical =>
    rw [ht] at a5 b5
    obtain ⟨_, _, sp, qs, s1, _, _, _, _, _, _, _, s6⟩ := a5
    obtain ⟨_, _, sp', qs', t1, _, _, _, _, _, _, _, t6⟩ := b5
    rw [h.cand, s1] at t1; cases t1
    obtain ⟨m0, g1, g2⟩ := s6 b hb
    rw [m2] at g1; cases g1
    obtain ⟨m', g3, g4⟩ := t6 b hb
    refine fin m' g3 fun i j hij => ?_
    obtain ⟨hil, hjl⟩ := hlt i j hij
    rw [g2, g4]
    have hcat : ∀ v, numCat F c' sp v = numCat F c sp v := by
      intro v; unfold numCat numBinner; rw [hc.lo, hc.hi]
    simp only [range_get hil, range_get hjl, exists_and_left, exists_eq_left, hc.values.get hij, hcat]

end

namespace Metric

theorem evalMean_perm {F : FP} (hF : OrderFree F) (one : Num → Num → Num) {l l' : List (Num × Num)} (h : l'.Perm l)
    {t t' p p' : List Num} (e : t.zip p = l) (e' : t'.zip p' = l') : evalMean F one t' p' = evalMean F one t p := by
  unfold evalMean
  rw [e, e', h.foldl_eq' (fun x _ y _ z => by rw [hF])]

/-- The error rates. -/
def Rate (m : Metric) : Prop := m = .binaryError ∨ m = .binaryError01

theorem foldl_counts (F : FP) (one : Num → Num → Num) (h01 : ∀ t p, one t p = .fin 0 ∨ one t p = .fin 1) :
    ∀ (l : List (Num × Num)) (m k : ℕ), m + l.length ≤ 2 ^ 24 →
    l.foldl (fun (acc : Num × Nat) tp => (F.add acc.1 (one tp.1 tp.2), acc.2 + 1)) (.fin m, k) =
      (.fin ((m + l.countP fun tp => one tp.1 tp.2 == .fin 1 : ℕ) : ℚ), k + l.length)
  | [], m, k, _ => by simp
  | x :: l, m, k, hl => by
      simp only [List.length_cons] at hl
      rw [List.foldl_cons]
      rcases h01 x.1 x.2 with h | h
      · have e : F.add (.fin m) (.fin 0) = .fin m := by
          have := F.int m (by simp; omega)
          simp only [FP.add, add_zero]
          simpa using this
        have hc : List.countP (fun tp : Num × Num => one tp.1 tp.2 == .fin 1) (x :: l) =
            List.countP (fun tp : Num × Num => one tp.1 tp.2 == .fin 1) l := by
          rw [List.countP_cons_of_neg]
          rw [h]
          decide +kernel
        rw [h, e, foldl_counts F one h01 l m (k + 1) (by omega), hc, List.length_cons]
        congr 1
        omega
      · have e : F.add (.fin m) (.fin 1) = .fin ((m + 1 : ℕ) : ℚ) := by
          have := F.int (m + 1) (by norm_cast; simp; omega)
          simp only [FP.add]
          push_cast at this ⊢
          exact this
        have hc : List.countP (fun tp : Num × Num => one tp.1 tp.2 == .fin 1) (x :: l) =
            List.countP (fun tp : Num × Num => one tp.1 tp.2 == .fin 1) l + 1 := by
          rw [List.countP_cons_of_pos]
          rw [h]
          decide +kernel
        rw [h, e, foldl_counts F one h01 l (m + 1) (k + 1) (by omega), hc, List.length_cons]
        congr 1
        · congr 2; omega
        · omega

theorem evalMean_counts (F : FP) (one : Num → Num → Num) (h01 : ∀ t p, one t p = .fin 0 ∨ one t p = .fin 1)
    {l l' : List (Num × Num)} (h : l'.Perm l) (hl : l.length ≤ 2 ^ 24) {t t' p p' : List Num} (e : t.zip p = l)
    (e' : t'.zip p' = l') : evalMean F one t' p' = evalMean F one t p := by
  unfold evalMean
  have e0 : (Num.fin 0) = Num.fin ((0 : ℕ) : ℚ) := by simp
  have hlen := h.length_eq
  rw [e, e', e0, foldl_counts F one h01 l 0 0 (by omega), foldl_counts F one h01 l' 0 0 (by omega), h.countP_eq, hlen]

theorem eval_reordered {F : FP} {M : Libm} {m : Metric} {σ : List Nat} {n : Nat} (hF : OrderFree F ∨ (Rate m ∧ n ≤ 2 ^ 24))
    (hσ : σ.Perm (List.range n)) {t t' p p' : List Num} (ht : Reordered σ t t') (hp : Reordered σ p p') :
    m.eval F M t' p' = m.eval F M t p := by
  have h := (ht.zip hσ hp).perm hσ
  rcases hF with hF | ⟨hm, hn⟩
  · cases m <;> simp only [eval, evalMean_perm hF _ h rfl rfl]
  · have hl : (t.zip p).length ≤ 2 ^ 24 := by
      rw [List.length_zip, ht.length_left, perm_length hσ]
      omega
    rcases hm with rfl | rfl
    · exact evalMean_counts F _ (fun t p => by unfold binaryErrorOne; split_ifs <;> simp) h hl rfl rfl
    · exact evalMean_counts F _ (fun t p => by unfold binaryError01One; split_ifs <;> simp) h hl rfl rfl

end Metric

namespace Booster

section
variable {F : FP} {M : Libm} {cfg : Config} {σ : List Nat} {d d' : Data} {rng : Rng} {metrics : List Metric}

/-- Two boosters, the same up to the order of the rows. -/
structure RowBooster (F : FP) (cfg : Config) (σ : List Nat) (d d' : Data) (rng : Rng)
    (metrics : List Metric) (kind : ObjKind) (k : Nat) (b b' : Booster) : Prop where
  data : SameSet σ b.dataset b'.dataset
  left : Updated F cfg d rng k b.dataset
  right : Updated F cfg d' rng k b'.dataset
  obj : SameUpTo σ b.objective b'.objective
  kind : b.objective.kind = kind
  iter : b'.iterCount = b.iterCount
  ens : b'.ensemble = b.ensemble
  printed : (OrderFree F ∨ ∀ m ∈ metrics, m.Rate) → b'.printed = b.printed

theorem update_signs {F : FP} {M : Libm} {o o1 : Objective} {ts : List Num} (hk : o.kind = .l1) (h : o.update F M ts = .ok o1) :
    Signs o1.gradients := by
  unfold Objective.update at h
  obtain ⟨_, _, h⟩ := Out.bind_eq_ok.1 h
  obtain ⟨_, _, h⟩ := Out.bind_eq_ok.1 h
  rw [hk] at h
  cases h
  intro x hx
  obtain ⟨e, _, rfl⟩ := List.mem_map.1 hx
  cases e with
  | fin q => simp only [Num.signum]; split_ifs <;> simp [Num.neg]
  | pinf => simp [Num.signum, Num.neg]
  | ninf => simp [Num.signum, Num.neg]
  | nan => simp [Num.signum, Num.neg]

theorem trainOneIter_leads {kind : ObjKind} (hF : FreeKind F kind) (hd : ReorderedData σ d d')
    (hn : d.nexamples ≤ 2 ^ 24) (hmin : 1 ≤ cfg.minExamplesLeaf) {k : Nat} {b b' : Booster}
    (h : RowBooster F cfg σ d d' rng metrics kind k b b') :
    Out.Leads (RowBooster F cfg σ d d' rng metrics kind (k + 1)) (trainOneIter F M cfg d metrics b)
      (trainOneIter F M cfg d' metrics b') := by
  unfold trainOneIter
  have hi := h.left.inv
  have hi' := h.right.inv
  have htgt : Out.Leads (Reordered σ) (target d) (target d') := by
    have := target_leads h.data.data
    rw [hi.data, hi'.data] at this
    exact this
  refine htgt.bind fun t t' _ ht => ?_
  refine (Objective.update_leads hd.perm h.obj ht).bind fun o o' eo ho => ?_
  have hk : o.kind = kind := (Booster.update_same eo).1.trans h.kind
  have hfg : FreeGrads F o.gradients := by
    rcases hF with hF | rfl
    · exact .inl hF
    · refine .inr ⟨update_signs h.kind eo, ?_⟩
      have := ho.grads.length_left
      rw [this, perm_length hd.perm]
      exact hn
  have hu := Dataset.update_leads (F := F) (cfg := cfg) hfg h.data hi hi' ho.grads o.bounds
  rw [← ho.bounds] at hu
  refine Out.Leads.bind (R := fun x y => SameSet σ x y ∧ Updated F cfg d rng (k + 1) x ∧ Updated F cfg d' rng (k + 1) y)
    ?_ fun ds ds' _ hds => ?_
  · rw [← ho.bounds]
    rw [ho.bounds] at hu
    rw [ho.bounds]
    exact hu.mono fun x y ex ey hxy => ⟨hxy, .update h.left ex, .update h.right ey⟩
  · obtain ⟨hds, hul, hur⟩ := hds
    have hl1 : ds.nactiveExamples ≤ 2 ^ 32 - 256 := by rw [hds.all, hul.inv.data]; omega
    have hl2 : ds'.nactiveExamples ≤ 2 ^ 32 - 256 := by rw [hds.ne]; exact hl1
    unfold learnTree
    rw [train_eq hl1 hul.masksOk hmin, train_eq hl2 hur.masksOk hmin, hds.sup, Out.bind_assoc, Out.bind_assoc]
    refine (refTrain_leads hds (sameMasks hds hul.inv hur.inv) (by rw [hk]; exact hF) ho _ _).bind fun r r' _ hr => ?_
    cases hr with
    | none =>
      intro x e
      cases e
    | some hab =>
      simp only [Out.pure_eq, Out.ok_bind]
      refine .ok ⟨hds, hul, hur, hab.2.1, hab.2.2.trans hk, by simp only [h.iter], by simp only [h.ens, hab.1], fun hfree => ?_⟩
      simp only [h.printed hfree, h.iter]
      unfold evalMetrics
      split
      · congr 1
        apply List.map_congr_left
        intro m hm
        rw [Metric.eval_reordered (hfree.imp id fun hr => ⟨hr m hm, hn⟩) hd.perm ht hab.2.1.preds]
      · rfl

theorem iterate_leads {kind : ObjKind} (hF : FreeKind F kind) (hd : ReorderedData σ d d')
    (hn : d.nexamples ≤ 2 ^ 24) (hmin : 1 ≤ cfg.minExamplesLeaf) : ∀ (n : Nat) {k : Nat} {b b' : Booster},
    RowBooster F cfg σ d d' rng metrics kind k b b' →
    Out.Leads (fun x y => RowBooster F cfg σ d d' rng metrics kind (k + n) x y) (iterate F M cfg d metrics n b)
      (iterate F M cfg d' metrics n b')
  | 0, _, _, _, h => .ok h
  | n + 1, k, b, b', h => by
      unfold iterate
      refine (trainOneIter_leads hF hd hn hmin h).bind fun x y _ hxy => ?_
      have := iterate_leads hF hd hn hmin n hxy
      rw [show k + (n + 1) = k + 1 + n by omega]
      exact this

theorem run_leads {o : Objective} (hF : FreeKind F o.kind) (hd : ReorderedData σ d d')
    (hn : d.nexamples ≤ 2 ^ 24) (hfr : cfg.exampleFraction = .fin 1) (hmin : 1 ≤ cfg.minExamplesLeaf) :
    Out.Leads (RowBooster F cfg σ d d' rng metrics o.kind cfg.niterations) (run F M cfg d rng metrics o)
      (run F M cfg d' rng metrics o) := by
  unfold run new
  simp only [Out.bind_assoc]
  have hnew : Out.Leads (fun x y => SameSet σ x y ∧ Updated F cfg d rng 0 x ∧ Updated F cfg d' rng 0 y)
      (Dataset.new F cfg d rng) (Dataset.new F cfg d' rng) :=
    (Dataset.new_leads hd (by rw [hfr]; simp [Num.lt]) (by rw [hfr]; exact share_full hn)).mono
      fun x y ex ey hxy => ⟨hxy, .new ex, .new ey⟩
  refine hnew.bind fun ds ds' _ hds => ?_
  obtain ⟨hds, hul, hur⟩ := hds
  simp only [Out.pure_eq, Out.ok_bind]
  unfold train prepare
  simp only [Out.bind_assoc]
  apply Out.Leads.same
  intro _ _
  have htgt : Out.Leads (Reordered σ) (target d) (target d') := by
    have := target_leads hds.data
    rw [hul.inv.data, hur.inv.data] at this
    exact this
  refine htgt.bind fun t t' _ ht => ?_
  refine (Objective.init_leads hd.perm o hF cfg ht).bind fun o1 o1' e1 ho => ?_
  simp only [Out.pure_eq, Out.ok_bind]
  have hk : o1.kind = o.kind := (Props.C49_predictions_are_bias F M o o1 cfg t e1).2.2.2
  have := iterate_leads (M := M) (metrics := metrics) hF hd hn hmin cfg.niterations (rng := rng) (k := 0)
    (b := { dataset := ds, objective := o1, iterCount := 0, ensemble := AdditiveTree.new.setBias o1.bias, printed := [] })
    (b' := { dataset := ds', objective := o1', iterCount := 0, ensemble := AdditiveTree.new.setBias o1'.bias, printed := [] })
    ⟨hds, hul, hur, ho, hk, rfl, by simp only; rw [ho.rest], fun _ => rfl⟩
  rw [Nat.zero_add] at this
  exact this

end
end Booster
end BitBoost
