import Verif.Lemmas.RowOrderBoost
import Verif.Props.Data
import Verif.Props.Boost
import Verif.Lemmas.Python
/-!
# C74: the order of the rows

Without sampling of the examples, the order of the training rows does not matter as long as sums do not depend on the order
of the summands: the trained model, the printed metrics and whether training succeeds are the same, and the running
predictions are in the order of the rows. Sums of 32-bit numbers do depend on the order of the summands, so the claim is false
of the code for most objectives (`C74_float_refuted`); it holds for the objective `l1` (`C74_rounding`), whose gradients are 1
and -1, so that sums of up to 2^24 of them are exact, and whose leaf values are medians. Error rates do not depend on the order
either (`C74_error_rates`).
-/
namespace BitBoost.Props
open Spec Dataset Learner Objective

/-! ## Training -/

/-- In exact arithmetic, with all examples in use: training on the same rows in another order gives the same trees and the
same printed metrics, and the running predictions are in the order of the rows. -/
theorem C74_exact_partial (M : Libm) (cfg : Config) (d d' : Data) (σ : List Nat) (rng : Rng) (metrics : List Metric) (o : Objective)
    (hd : ReorderedData σ d d') (hn : d.nexamples ≤ 2 ^ 24) (hf : cfg.exampleFraction = .fin 1)
    (hmin : 1 ≤ cfg.minExamplesLeaf) (b : Booster) (hb : Booster.run .exact M cfg d rng metrics o = .ok b) :
    ∃ b', Booster.run .exact M cfg d' rng metrics o = .ok b' ∧ b'.ensemble = b.ensemble ∧ b'.printed = b.printed ∧
      Reordered σ b.objective.predictions b'.objective.predictions := by
  obtain ⟨b', h1, h2⟩ := Booster.run_leads (M := M) (rng := rng) (metrics := metrics) (o := o) (.inl exact_orderFree)
    hd hn hf hmin b hb
  exact ⟨b', h1, h2.ens, h2.printed (.inl exact_orderFree), h2.obj.preds⟩

/-- With any rounding, `f32` included: the same trees and running predictions for the objective `l1`, whatever the features,
and the same printed metrics if they are error rates. -/
theorem C74_rounding (F : FP) (M : Libm) (cfg : Config) (d d' : Data) (σ : List Nat) (rng : Rng) (metrics : List Metric)
    (o : Objective) (hd : ReorderedData σ d d') (hn : d.nexamples ≤ 2 ^ 24) (hf : cfg.exampleFraction = .fin 1)
    (hmin : 1 ≤ cfg.minExamplesLeaf) (hl1 : o.kind = .l1) (b : Booster) (hb : Booster.run F M cfg d rng metrics o = .ok b) :
    ∃ b', Booster.run F M cfg d' rng metrics o = .ok b' ∧ b'.ensemble = b.ensemble ∧
      Reordered σ b.objective.predictions b'.objective.predictions ∧
      ((∀ m ∈ metrics, m = .binaryError ∨ m = .binaryError01) → b'.printed = b.printed) := by
  obtain ⟨b', h1, h2⟩ := Booster.run_leads (M := M) (rng := rng) (metrics := metrics) (o := o) (.inr hl1) hd hn hf hmin b hb
  exact ⟨b', h1, h2.ens, h2.obj.preds, fun hm => h2.printed (.inr hm)⟩

/-- With any rounding, `f32` included, the error rates do not depend on the order of the rows. -/
theorem C74_error_rates (F : FP) (M : Libm) (m : Metric) (hm : m = .binaryError ∨ m = .binaryError01) (σ : List Nat)
    (t t' p p' : List Num) (hσ : σ.Perm (List.range t.length)) (hn : t.length ≤ 2 ^ 24) (ht : Reordered σ t t')
    (hp : Reordered σ p p') : m.eval F M t' p' = m.eval F M t p :=
  Metric.eval_reordered (.inr ⟨hm, hn⟩) hσ ht hp

/-- Reordering can be undone. -/
theorem reordered_back {σ : List Nat} {d d' : Data} (h : ReorderedData σ d d') : ∃ τ, ReorderedData τ d' d := by
  obtain ⟨τ, t1, t2⟩ := exists_inverse h.perm
  refine ⟨τ, by rw [h.nexamples]; exact t1, h.maxNbins.symm, h.names.symm, h.nfeatures.symm, h.nexamples.symm, ?_⟩
  exact h.cols.flip.imp fun c' c hc => ⟨t2 hc.values, hc.lo.symm, hc.hi.symm, hc.ftype.symm, hc.card.symm⟩

/-- In exact arithmetic, whether training succeeds does not depend on the order of the rows. -/
theorem C74_succeeds_partial (M : Libm) (cfg : Config) (d d' : Data) (σ : List Nat) (rng : Rng) (metrics : List Metric)
    (o : Objective) (hd : ReorderedData σ d d') (hn : d.nexamples ≤ 2 ^ 24) (hf : cfg.exampleFraction = .fin 1)
    (hmin : 1 ≤ cfg.minExamplesLeaf) :
    (∃ b, Booster.run .exact M cfg d rng metrics o = .ok b) ↔ ∃ b', Booster.run .exact M cfg d' rng metrics o = .ok b' := by
  constructor
  · rintro ⟨b, hb⟩
    obtain ⟨b', h, _⟩ := C74_exact_partial M cfg d d' σ rng metrics o hd hn hf hmin b hb
    exact ⟨b', h⟩
  · rintro ⟨b, hb⟩
    obtain ⟨τ, ht⟩ := reordered_back hd
    obtain ⟨b', h, _⟩ := C74_exact_partial M cfg d' d τ rng metrics o ht (by rw [hd.nexamples]; exact hn) hf hmin b hb
    exact ⟨b', h⟩

/-- With any rounding, whether training with the objective `l1` succeeds does not depend on the order of the rows. -/
theorem C74_rounding_succeeds (F : FP) (M : Libm) (cfg : Config) (d d' : Data) (σ : List Nat) (rng : Rng) (metrics : List Metric)
    (o : Objective) (hd : ReorderedData σ d d') (hn : d.nexamples ≤ 2 ^ 24) (hf : cfg.exampleFraction = .fin 1)
    (hmin : 1 ≤ cfg.minExamplesLeaf) (hl1 : o.kind = .l1) :
    (∃ b, Booster.run F M cfg d rng metrics o = .ok b) ↔ ∃ b', Booster.run F M cfg d' rng metrics o = .ok b' := by
  constructor
  · rintro ⟨b, hb⟩
    obtain ⟨b', h, _⟩ := C74_rounding F M cfg d d' σ rng metrics o hd hn hf hmin hl1 b hb
    exact ⟨b', h⟩
  · rintro ⟨b, hb⟩
    obtain ⟨τ, ht⟩ := reordered_back hd
    obtain ⟨b', h, _⟩ := C74_rounding F M cfg d' d τ rng metrics o ht (by rw [hd.nexamples]; exact hn) hf hmin hl1 b hb
    exact ⟨b', h⟩

/-! ## Loading -/

theorem foldl_min_perm {l l' : List Num} (h : l.Perm l') (a : Num) : l.foldl Num.min a = l'.foldl Num.min a := by
  apply h.foldl_eq'
  intro x _ y _ z
  rcases z with _ | _ | _ | _ <;> rcases x with _ | _ | _ | _ <;> rcases y with _ | _ | _ | _ <;>
    simp [Num.min, Num.isNan, Num.le] <;> (try split_ifs) <;> (try simp_all) <;> (try linarith)

theorem foldl_max_perm {l l' : List Num} (h : l.Perm l') (a : Num) : l.foldl Num.max a = l'.foldl Num.max a := by
  apply h.foldl_eq'
  intro x _ y _ z
  rcases z with _ | _ | _ | _ <;> rcases x with _ | _ | _ | _ <;> rcases y with _ | _ | _ | _ <;>
    simp [Num.max, Num.isNan, Num.le] <;> (try split_ifs) <;> (try simp_all) <;> (try linarith)

theorem foldl_card_perm {l l' : List Num} (h : l.Perm l') (a : Nat) :
    l.foldl (fun c v => Nat.max c (1 + intoCat v)) a = l'.foldl (fun c v => Nat.max c (1 + intoCat v)) a := by
  apply h.foldl_eq'
  intro x _ y _ z
  exact Nat.max_right_comm _ _ _

/-- Records in another order, of equal lengths: loading them gives the same data with the rows in that order. -/
theorem C74_csv (cfg : Config) (recs recs' : List (List (Option Num))) (σ : List Nat) (header : Option (List String)) (L : Nat)
    (hσ : σ.Perm (List.range recs.length)) (hr : Reordered σ recs recs') (hL : ∀ r ∈ recs, r.length = L) (d : Data)
    (h : Data.fromCsv cfg (recs.map .record) header = .ok (.ok d)) :
    ∃ d', Data.fromCsv cfg (recs'.map .record) header = .ok (.ok d') ∧ ReorderedData σ d d' := by
  have hp := hr.perm hσ
  obtain ⟨first, rest, h1, h2, h3, h4, h5, h6, h7, h8⟩ := fromCsv_cases h
  obtain ⟨n1, n2, n3⟩ := C27_names cfg _ header d h
  have hrecs : recs = first :: rest := by
    have h0 : recs.map Data.CsvItem.record = (first :: rest).map Data.CsvItem.record := by rw [h1]; rfl
    exact List.map_injective_iff.2 (fun a b hab => by cases hab; rfl) h0
  subst hrecs
  have hLf : first.length = L := hL first (by simp)
  obtain ⟨first', rest', hrecs'⟩ : ∃ f r, recs' = f :: r := by
    cases recs' with
    | nil => exact absurd hp.length_eq (by simp)
    | cons f r => exact ⟨f, r, rfl⟩
  subst hrecs'
  have hLf' : first'.length = first.length := by
    rw [hLf]; exact hL first' (hp.mem_iff.1 (by simp))
  obtain ⟨d', hd'⟩ := C27_accepts cfg first' rest' header (by
      rintro rfl
      simp at hLf'
      exact h2 hLf'.symm) (by
      intro hh
      obtain ⟨hd, e1, e2, _⟩ := n2 hh
      exact ⟨hd, e1, by omega⟩) (by
      intro r hrm j hj
      obtain ⟨vs, e1, _, e3⟩ := h8 j (by omega) (by omega)
      have hrm' := hp.mem_iff.1 hrm
      have : (r[j]?).join ∈ vs.map some := by
        rw [← e1]; exact List.mem_map.2 ⟨r, hrm', rfl⟩
      obtain ⟨v, hv, hv2⟩ := List.mem_map.1 this
      refine ⟨v, ?_, fun hc => e3 hc v hv⟩
      cases hx : r[j]? with
      | none => rw [hx] at hv2; cases hv2
      | some y => rw [hx] at hv2; rw [Option.join_some] at hv2; rw [← hv2])
  refine ⟨d', hd', ?_⟩
  obtain ⟨f2, r2, g1, g2, g3, g4, g5, g6, g7, g8⟩ := fromCsv_cases hd'
  obtain ⟨q1, q2, q3⟩ := C27_names cfg _ header d' hd'
  have hrecs : first' :: rest' = f2 :: r2 := by
    have h0 : (first' :: rest').map Data.CsvItem.record = (f2 :: r2).map Data.CsvItem.record := by rw [g1]; rfl
    exact List.map_injective_iff.2 (fun a b hab => by cases hab; rfl) h0
  cases hrecs
  refine ⟨by rw [h4]; exact hσ, by rw [g3, h3], ?_, by omega, by rw [g4, h4]; exact hp.length_eq, ?_⟩
  · apply List.ext_getElem?
    intro j
    by_cases hj : j < d.cols.length
    · cases hh : cfg.csvHasHeader with
      | true =>
        obtain ⟨a, a1, _, a3⟩ := n2 hh
        obtain ⟨b, b1, _, b3⟩ := q2 hh
        rw [a1] at b1; cases b1
        rw [a3 j hj, b3 j (by omega)]
      | false =>
        have e1 : j < d.names.length := by omega
        have e2 : j < d'.names.length := by omega
        rw [List.getElem?_eq_getElem e1, List.getElem?_eq_getElem e2, n3 hh _ (List.getElem_mem e1),
          q3 hh _ (List.getElem_mem e2)]
    · rw [List.getElem?_eq_none (by omega), List.getElem?_eq_none (by omega)]
  · rw [List.forall₂_iff_get]
    refine ⟨by omega, fun j hj hj' => ?_⟩
    obtain ⟨vs, e1, e2, _⟩ := h8 j (by omega) hj
    obtain ⟨vs', e1', e2', _⟩ := g8 j (by omega) hj'
    have hvs : Reordered σ vs vs' := by
      have l1 := congrArg List.length e1
      have l2 := congrArg List.length e1'
      rw [List.length_map, List.length_map] at l1 l2
      refine Reordered.of_get (by rw [← l1]; exact hr.length_left) (by rw [← l2]; exact hr.length_right) fun i k hik => ?_
      have a := congrArg (fun l : List (Option Num) => l[i]?) e1'
      have b := congrArg (fun l : List (Option Num) => l[k]?) e1
      simp only [List.getElem?_map] at a b
      rw [hr.get hik, b] at a
      refine ⟨?_, by rw [← l1]; exact perm_lt hσ hik⟩
      cases hx : vs[k]? <;> cases hy : vs'[i]? <;> rw [hx, hy] at a <;> simp_all
    have hpv := hvs.perm hσ
    simp only [List.get_eq_getElem]
    rw [e2, e2']
    generalize (if j ∈ cfg.categoricalFeatures then FeatType.loCardCat else .numerical) = ft
    have hcard : (Data.after ⟨[], .pinf, .ninf, ft, 0⟩ vs').card = (Data.after ⟨[], .pinf, .ninf, ft, 0⟩ vs).card := by
      simp only [Data.after, foldl_card_perm hpv]
    have hret : ∀ (m : Nat) (c : Column), (Data.retype m c).values = c.values ∧ (Data.retype m c).lo = c.lo ∧
        (Data.retype m c).hi = c.hi ∧ (Data.retype m c).card = c.card ∧
        (Data.retype m c).ftype = if c.card > m then .hiCardCat else c.ftype := by
      intro m c; unfold Data.retype; split_ifs <;> simp
    refine ⟨?_, ?_, ?_, ?_, ?_⟩
    · rw [(hret _ _).1, (hret _ _).1]
      simpa [Data.after] using hvs
    · rw [(hret _ _).2.1, (hret _ _).2.1]
      simp only [Data.after, foldl_min_perm hpv]
    · rw [(hret _ _).2.2.1, (hret _ _).2.2.1]
      simp only [Data.after, foldl_max_perm hpv]
    · rw [(hret _ _).2.2.2.2, (hret _ _).2.2.2.2, hcard]
      rfl
    · rw [(hret _ _).2.2.2.1, (hret _ _).2.2.2.1, hcard]

/-- A successful call of `set_feature_data` with the values in the order of the rows. -/
theorem C74_set_feature (d d' d1 : Data) (σ : List Nat) (hd : ReorderedData σ d d') (feat : Nat) (data data' : List Num)
    (hv : Reordered σ data data') (categorical : Bool) (h : Data.setFeatureData d feat data categorical = .ok (d1, true)) :
    ∃ d1', Data.setFeatureData d' feat data' categorical = .ok (d1', true) ∧ ReorderedData σ d1 d1' := by
  have hp := hv.perm hd.perm
  unfold Data.setFeatureData at h ⊢
  split at h
  case isFalse => cases h
  rename_i hl
  rcases forall₂_at hd.cols feat with ⟨c, c', e1, e2, hc⟩ | ⟨e1, e2⟩
  case inr => rw [e1] at h; cases h
  rw [e1] at h
  simp only at h
  split at h
  case isFalse => cases h
  rename_i hcl
  have hl' : data'.length = d.nexamples := hp.length_eq.trans hl
  have hcl' : c'.values.length = d.nexamples := by rw [← hcl]; exact (hc.values.perm hd.perm).length_eq
  obtain ⟨_, f2⟩ := Data.setLoop_facts categorical data 0 c
  have hcat : categorical = true → ∀ v ∈ data, IsCategory v := by
    apply f2.1
    cases hs : Data.setLoop categorical data 0 c with
    | mk x y =>
      rw [hs] at h
      cases y with
      | true => rfl
      | false => simp at h
  rw [Python.setLoop_all categorical data 0 c (by omega) fun a v hv => (Data.checkCategorical_iff v).2 (hcat a v hv)] at h
  rw [hd.nexamples, if_pos hl', e2]
  simp only
  rw [if_pos hcl', Python.setLoop_all categorical data' 0 c' (by omega) fun a v hv =>
    (Data.checkCategorical_iff v).2 (hcat a v (hp.mem_iff.1 hv))]
  simp only [Out.ok.injEq, Prod.mk.injEq, and_true] at h ⊢
  subst h
  refine ⟨_, rfl, hd.perm, hd.maxNbins, hd.names, hd.nfeatures, rfl, ?_⟩
  simp only [List.take_zero, List.nil_append, Nat.zero_add]
  rw [List.drop_eq_nil_of_le (by omega), List.drop_eq_nil_of_le (by omega), List.append_nil, List.append_nil,
    foldl_min_perm hp, foldl_max_perm hp, hc.lo, hc.hi, hc.ftype, hc.card, foldl_card_perm hp, hd.maxNbins]
  rw [List.forall₂_iff_get]
  refine ⟨by simpa using hd.cols.length_eq, fun j hj hj' => ?_⟩
  simp only [List.get_eq_getElem, List.getElem_set]
  split
  · split
    · split <;> exact ⟨hv, rfl, rfl, rfl, rfl⟩
    · exact ⟨hv, rfl, rfl, rfl, rfl⟩
  · simp only [List.length_set] at hj hj'
    have := List.forall₂_iff_get.1 hd.cols
    exact this.2 j hj hj'

/-! ## Rounding -/

private def sumCfg : Config := { Config.new with maxNbins := 4, maxTreeDepth := 1, niterations := 1 }
private def sumData : Data :=
  ⟨4, [], 1, 3,
    [⟨[.fin 0, .fin 1, .fin 1], .fin 0, .fin 1, .loCardCat, 2⟩,
     ⟨[.fin 16777216, .fin 1, .fin 1], .fin 1, .fin 16777216, .numerical, 0⟩]⟩
private def sumData' : Data :=
  ⟨4, [], 1, 3,
    [⟨[.fin 1, .fin 1, .fin 0], .fin 0, .fin 1, .loCardCat, 2⟩,
     ⟨[.fin 1, .fin 1, .fin 16777216], .fin 1, .fin 16777216, .numerical, 0⟩]⟩

/-- The claim is false of the code: with the objective `l2` and the targets 2^24, 1, 1 the bias is 5592405.5; with the same
rows in the order 1, 1, 2^24 it is 5592406. -/
theorem C74_float_refuted : ∃ (cfg : Config) (d d' : Data) (σ : List Nat) (rng : Rng) (b b' : Booster),
    ReorderedData σ d d' ∧ cfg.exampleFraction = .fin 1 ∧ 1 ≤ cfg.minExamplesLeaf ∧
    Booster.run .binary32 runLibm cfg d rng [] (Objective.new .l2) = .ok b ∧
    Booster.run .binary32 runLibm cfg d' rng [] (Objective.new .l2) = .ok b' ∧
    b.ensemble.bias = .fin (11184811 / 2) ∧ b'.ensemble.bias = .fin 5592406 ∧ b'.ensemble ≠ b.ensemble := by
  obtain ⟨b, h1, h2⟩ := boosted_check (F := .binary32) (cfg := sumCfg) (d := sumData) (rng := ⟨fun i => i⟩)
    (metrics := []) (o := Objective.new .l2) (fun b => decide (b.ensemble.bias = .fin (11184811 / 2))) (by decide +kernel)
  obtain ⟨b', g1, g2⟩ := boosted_check (F := .binary32) (cfg := sumCfg) (d := sumData') (rng := ⟨fun i => i⟩)
    (metrics := []) (o := Objective.new .l2) (fun b => decide (b.ensemble.bias = .fin 5592406)) (by decide +kernel)
  simp only [decide_eq_true_eq] at h2 g2
  refine ⟨sumCfg, sumData, sumData', [1, 2, 0], ⟨fun i => i⟩, b, b', ?_, rfl, by decide, h1, g1, h2, g2, ?_⟩
  · refine ⟨by decide, rfl, rfl, rfl, rfl, .cons ⟨⟨rfl, rfl⟩, rfl, rfl, rfl, rfl⟩ (.cons ⟨⟨rfl, rfl⟩, rfl, rfl, rfl, rfl⟩ .nil)⟩
  · intro h
    rw [h, h2] at g2
    exact absurd g2 (by decide +kernel)

/-! ## Examples -/

private def orderData : Data :=
  ⟨3, [], 3, 5,
    [⟨[.fin 0, .fin 1, .fin 2, .fin 1, .fin 1], .fin 0, .fin 2, .loCardCat, 3⟩,
     ⟨[.fin 0, .fin 1, .fin 2, .fin 3, .fin 4], .fin 0, .fin 4, .hiCardCat, 5⟩,
     ⟨[.fin 5, .fin 7, .fin 9, .fin 1, .fin 2], .fin 1, .fin 9, .numerical, 0⟩,
     ⟨[.fin 0, .fin 1, .fin 3, .fin 1, .fin 8], .fin 0, .fin 8, .numerical, 0⟩]⟩
private def orderData' : Data :=
  ⟨3, [], 3, 5,
    [⟨[.fin 1, .fin 2, .fin 0, .fin 1, .fin 1], .fin 0, .fin 2, .loCardCat, 3⟩,
     ⟨[.fin 4, .fin 2, .fin 0, .fin 1, .fin 3], .fin 0, .fin 4, .hiCardCat, 5⟩,
     ⟨[.fin 2, .fin 9, .fin 5, .fin 7, .fin 1], .fin 1, .fin 9, .numerical, 0⟩,
     ⟨[.fin 8, .fin 3, .fin 0, .fin 1, .fin 1], .fin 0, .fin 8, .numerical, 0⟩]⟩
private def orderCfg : Config := { Config.new with maxNbins := 3, maxTreeDepth := 2, niterations := 2, metricFrequency := 1 }

/-- C74_exact_partial, C74_succeeds_partial: five rows with a feature of each type; the two trees have splits. -/
example : ReorderedData [4, 2, 0, 1, 3] orderData orderData' ∧ orderData.nexamples ≤ 2 ^ 24 ∧
    orderCfg.exampleFraction = .fin 1 ∧ 1 ≤ orderCfg.minExamplesLeaf ∧
    ∃ b, Booster.run .exact runLibm orderCfg orderData ⟨fun i => i⟩ [.l2] (Objective.new .l2) = .ok b ∧
      b.ensemble.trees.map Tree.nnodes = [5, 5] ∧ b.printed.length = 2 := by
  refine ⟨⟨by decide, rfl, rfl, rfl, rfl, .cons ⟨⟨rfl, rfl⟩, rfl, rfl, rfl, rfl⟩ (.cons ⟨⟨rfl, rfl⟩, rfl, rfl, rfl, rfl⟩
    (.cons ⟨⟨rfl, rfl⟩, rfl, rfl, rfl, rfl⟩ (.cons ⟨⟨rfl, rfl⟩, rfl, rfl, rfl, rfl⟩ .nil)))⟩, by decide, rfl, by decide, ?_⟩
  obtain ⟨b, h1, h2⟩ := boosted_check (F := .exact) (cfg := orderCfg) (d := orderData) (rng := ⟨fun i => i⟩)
    (metrics := [.l2]) (o := Objective.new .l2)
    (fun b => decide (b.ensemble.trees.map Tree.nnodes = [5, 5] ∧ b.printed.length = 2)) (by decide +kernel)
  simp only [decide_eq_true_eq] at h2
  exact ⟨b, h1, h2⟩

/-- C74_rounding, C74_rounding_succeeds: the objective `l1` in `f32` arithmetic, with a feature of each type; the trees
have splits. -/
example : orderData.nexamples ≤ 2 ^ 24 ∧
    ∃ b, Booster.run .binary32 runLibm orderCfg orderData ⟨fun i => i⟩ [.binaryError01] (Objective.new .l1) = .ok b ∧
      b.ensemble.trees.map Tree.nnodes = [3, 3] ∧ b.printed.length = 2 := by
  refine ⟨by decide, ?_⟩
  obtain ⟨b, h1, h2⟩ := boosted_check (F := .binary32) (cfg := orderCfg) (d := orderData) (rng := ⟨fun i => i⟩)
    (metrics := [.binaryError01]) (o := Objective.new .l1)
    (fun b => decide (b.ensemble.trees.map Tree.nnodes = [3, 3] ∧ b.printed.length = 2)) (by decide +kernel)
  simp only [decide_eq_true_eq] at h2
  exact ⟨b, h1, h2⟩

/-- C74_error_rates: the error rate of three rows in two orders. -/
example : [2, 0, 1].Perm (List.range 3) ∧ Reordered [2, 0, 1] [Num.fin 0, .fin 1, .fin 1] [.fin 1, .fin 0, .fin 1] ∧
    Metric.eval .binary32 runLibm .binaryError [.fin 0, .fin 1, .fin 1] [.fin (-1), .fin 1, .fin (-1)] = .fin (11184811 / 33554432) := by
  refine ⟨by decide, ⟨rfl, rfl⟩, by decide +kernel⟩

private def orderRec1 : List (Option Num) := [some (.fin (1 / 2)), some (.fin 3), some .nan]
private def orderRec2 : List (Option Num) := [some .ninf, some (.fin 0), some (.fin 1)]

/-- C74_csv: two records in the other order. -/
example : ∃ d, Data.fromCsv { Config.new with categoricalFeatures := [1], csvHasHeader := false }
    ([orderRec1, orderRec2].map .record) none = .ok (.ok d) ∧
    Reordered [1, 0] [orderRec1, orderRec2] [orderRec2, orderRec1] ∧ ∀ r ∈ [orderRec1, orderRec2], r.length = 3 := by
  obtain ⟨d, hd⟩ := C27_accepts { Config.new with categoricalFeatures := [1], csvHasHeader := false }
    [some (.fin (1 / 2)), some (.fin 3), some .nan] [[some .ninf, some (.fin 0), some (.fin 1)]]
    none (by simp) (by simp [Config.new]) (by
    intro r hr j hj
    simp at hr hj
    rcases hr with rfl | rfl <;> interval_cases j <;> simp [Spec.IsCategory]
    · exact ⟨3, by norm_num⟩
    · exact ⟨0, by norm_num⟩)
  exact ⟨d, hd, ⟨rfl, rfl⟩, by simp [orderRec1, orderRec2]⟩

/-- C74_set_feature: setting a column of an empty table. -/
example : ReorderedData [1, 0] (Data.empty Config.new 1 2) (Data.empty Config.new 1 2) ∧
    Reordered [1, 0] [(.fin 5 : Num), .fin 3] [.fin 3, .fin 5] ∧
    ∃ d, Data.setFeatureData (Data.empty Config.new 1 2) 0 [.fin 5, .fin 3] true = .ok (d, true) := by
  refine ⟨⟨by decide, rfl, rfl, rfl, rfl, .cons ⟨⟨rfl, rfl⟩, rfl, rfl, rfl, rfl⟩ (.cons ⟨⟨rfl, rfl⟩, rfl, rfl, rfl, rfl⟩ .nil)⟩,
    ⟨rfl, rfl⟩, ?_⟩
  obtain ⟨_, f2⟩ := Data.setLoop_facts true [.fin 5, .fin 3] 0 ⟨[.fin 0, .fin 0], .fin 0, .fin 0, .numerical, 0⟩
  have : (Data.setLoop true [.fin 5, .fin 3] 0 ⟨[.fin 0, .fin 0], .fin 0, .fin 0, .numerical, 0⟩).2 = true := by
    apply f2.2
    intro _ v hv
    simp at hv
    rcases hv with rfl | rfl
    · exact .inr ⟨5, by norm_num⟩
    · exact .inr ⟨3, by norm_num⟩
  unfold Data.setFeatureData
  simp only [Data.empty, List.replicate, List.length_cons, List.length_nil]
  cases hs : Data.setLoop true [.fin 5, .fin 3] 0 ⟨[.fin 0, .fin 0], .fin 0, .fin 0, .numerical, 0⟩ with
  | mk x y =>
    rw [hs] at this
    simp only at this
    subst this
    simp [hs]

end BitBoost.Props
