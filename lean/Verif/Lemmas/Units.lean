import Verif.Spec.Units
import Verif.Lemmas.RowOrder
import Verif.Lemmas.DatasetInv
import Verif.Lemmas.Best
/-! Helper lemmas: numerical features in other units, in exact arithmetic. -/
namespace BitBoost
open Spec Dataset Learner

/-! ### Numbers -/

/-- A difference in other units. -/
def stretch (a : ℚ) : Num → Num
  | .fin q => .fin (a * q)
  | x => x

theorem inUnits_one (x : Num) : inUnits (1, 0) x = x := by cases x <;> simp [inUnits]

theorem inUnits_fun_one : inUnits (1, 0) = id := funext inUnits_one

variable {u : ℚ × ℚ}

theorem units_isFinite (x : Num) : (inUnits u x).isFinite = x.isFinite := by cases x <;> rfl

theorem units_lt (hu : 0 < u.1) (x y : Num) : (inUnits u x).lt (inUnits u y) = x.lt y := by
  cases x <;> cases y <;> simp [inUnits, Num.lt, hu]

theorem units_eqb (hu : 0 < u.1) (x y : Num) : (inUnits u x).eqb (inUnits u y) = x.eqb y := by
  cases x <;> cases y <;> simp [inUnits, Num.eqb, hu.ne']

theorem units_sub (x y : Num) : FP.exact.sub (inUnits u x) (inUnits u y) = stretch u.1 (FP.exact.sub x y) := by
  cases x <;> cases y <;> simp only [inUnits, FP.sub, FP.add, FP.exact, Num.neg, stretch]
  congr 1; ring

theorem stretch_div {a : ℚ} (ha : 0 < a) (x y : Num) : FP.exact.div (stretch a x) (stretch a y) = FP.exact.div x y := by
  cases x with
  | fin p =>
    cases y with
    | fin q =>
      simp only [stretch, FP.div, FP.exact, mul_eq_zero, ha.ne', false_or, FP.sgn]
      have h1 : (0 < a * p) = (0 < p) := by rw [mul_pos_iff_of_pos_left ha]
      have h2 : (a * p < 0) = (p < 0) := by rw [mul_neg_iff]; simp [ha, not_lt.2 ha.le]
      simp only [h1, h2]
      split
      · rfl
      · rw [mul_div_mul_left _ _ ha.ne']
    | _ => rfl
  | pinf =>
    cases y with
    | fin q =>
      have h2 : (a * q < 0) = (q < 0) := by rw [mul_neg_iff]; simp [ha, not_lt.2 ha.le]
      simp only [stretch, FP.div, h2]
    | _ => rfl
  | ninf =>
    cases y with
    | fin q =>
      have h2 : (a * q < 0) = (q < 0) := by rw [mul_neg_iff]; simp [ha, not_lt.2 ha.le]
      simp only [stretch, FP.div, h2]
    | _ => rfl
  | nan => cases y <;> rfl

theorem stretch_div_left {a : ℚ} (n : Nat) (hn : n ≠ 0) (x : Num) :
    FP.exact.div (stretch a x) (FP.exact.ofNat n) = stretch a (FP.exact.div x (FP.exact.ofNat n)) := by
  have h0 : (n : ℚ) ≠ 0 := by exact_mod_cast hn
  have h1 : ¬ ((n : ℚ) < 0) := by push Not; positivity
  cases x <;> simp only [stretch, FP.div, FP.ofNat, FP.exact, h0, h1, if_false]
  rw [mul_div_assoc]

theorem units_rep (x : Num) (k : Nat) (y : Num) :
    FP.exact.add (inUnits u x) (FP.exact.mul (FP.exact.ofNat k) (stretch u.1 y)) =
      inUnits u (FP.exact.add x (FP.exact.mul (FP.exact.ofNat k) y)) := by
  have h : FP.exact.mul (FP.exact.ofNat k) (stretch u.1 y) = stretch u.1 (FP.exact.mul (FP.exact.ofNat k) y) := by
    cases y with
    | fin q => simp only [stretch, FP.mul, FP.ofNat, FP.exact]; congr 1; ring
    | nan => rfl
    | pinf =>
      simp only [stretch, FP.mul, FP.ofNat, FP.exact, FP.infOf]
      split <;> [rfl; split <;> rfl]
    | ninf =>
      simp only [stretch, FP.mul, FP.ofNat, FP.exact, FP.infOf]
      split <;> [rfl; split <;> rfl]
  rw [h]
  generalize FP.exact.mul (FP.exact.ofNat k) y = z
  cases x <;> cases z <;> simp only [inUnits, stretch, FP.add, FP.exact]
  congr 1; ring

/-! ### Histograms of values -/

/-- The arithmetic works in both units for the histogram of these values: the places of the values in the range are the same,
and the limits of the bins are converted. -/
structure FitRange (F : FP) (u : ℚ × ℚ) (lo hi : Num) (values : List Num) : Prop where
  place : ∀ x ∈ values, F.div (F.sub (inUnits u x) (inUnits u lo))
      (F.div (F.sub (inUnits u hi) (inUnits u lo)) (F.ofNat quantileNbins)) =
    F.div (F.sub x lo) (F.div (F.sub hi lo) (F.ofNat quantileNbins))
  limit : ∀ i < quantileNbins, F.add (inUnits u lo) (F.mul (F.ofNat i)
      (F.div (F.sub (inUnits u hi) (inUnits u lo)) (F.ofNat quantileNbins))) =
    inUnits u (F.add lo (F.mul (F.ofNat i) (F.div (F.sub hi lo) (F.ofNat quantileNbins))))

/-- Two histograms of the same values in the two units. -/
structure BinUnits (F : FP) (u : ℚ × ℚ) (values : List Num) (b b' : Binner Num) : Prop where
  bins : b'.bins = b.bins
  len : b.bins.length = quantileNbins
  place : ∀ x ∈ values, F.div (F.sub (inUnits u x) b'.minValue) b'.delta = F.div (F.sub x b.minValue) b.delta
  limit : ∀ i < quantileNbins, F.add b'.minValue (F.mul (F.ofNat i) b'.delta) =
    inUnits u (F.add b.minValue (F.mul (F.ofNat i) b.delta))

variable {F : FP} {values : List Num} {b b' : Binner Num}

theorem BinUnits.getBin (h : BinUnits F u values b b') {x : Num} (hx : x ∈ values) :
    Binner.getBin F b' (inUnits u x) = Binner.getBin F b x := by
  unfold Binner.getBin
  simp only [h.place x hx, h.bins]

theorem BinUnits.representative (h : BinUnits F u values b b') (i : Nat) :
    Binner.representative F b' i = inUnits u (Binner.representative F b i) := by
  unfold Binner.representative
  rw [h.bins, h.len]
  exact h.limit _ (by
    have : 0 < quantileNbins := by decide
    omega)

theorem units_insertAll (comb : Num → Num → Num) : ∀ (l ws : List Num) (b b' : Binner Num), (∀ x ∈ l, x ∈ values) →
    BinUnits F u values b b' →
    Out.Leads (BinUnits F u values) (Binner.insertAll F comb b (l.zip ws))
      (Binner.insertAll F comb b' ((l.map (inUnits u)).zip ws))
  | [], ws, b, b', _, h => by simp only [List.zip_nil_left, List.map_nil, Binner.insertAll]; exact Out.Leads.ok h
  | _ :: _, [], b, b', _, h => by simp only [List.zip_nil_right, Binner.insertAll]; exact Out.Leads.ok h
  | x :: l, w :: ws, b, b', hl, h => by
      simp only [List.map_cons, List.zip_cons_cons, Binner.insertAll]
      refine Out.Leads.bind (R := BinUnits F u values) ?_ fun a a' _ e => ?_
      · unfold Binner.insert
        rw [h.getBin (hl x (by simp)), h.bins]
        simp only
        split
        · exact Out.Leads.ok ⟨rfl, by simp only [List.length_set, h.len], h.place, h.limit⟩
        · intro a e; cases e
      · exact units_insertAll comb l ws a a' (fun y hy => hl y (by simp [hy])) e

theorem units_countBelow (hu : 0 < u.1) (x : Num) : ∀ l : List Num,
    countBelow (inUnits u x) (l.map (inUnits u)) = countBelow x l
  | [] => rfl
  | s :: l => by simp only [List.map_cons, countBelow, units_lt hu, units_countBelow hu x l]

theorem units_numSplits (hu : 0 < u.1) (m : Nat) (lo hi : Num) (vals grads : List Num) (hf : lo.isFinite = true → hi.isFinite = true → lo.lt hi = true → FitRange F u lo hi values)
    (hv : ∀ x ∈ vals, x ∈ values) :
    Out.Leads (fun a a' => a'.1 = a.1.map (inUnits u) ∧ BinUnits F u values a.2 a'.2) (numSplits F m lo hi vals grads)
      (numSplits F m (inUnits u lo) (inUnits u hi) (vals.map (inUnits u)) grads) := by
  unfold numSplits
  refine Out.Leads.bind (R := BinUnits F u values) ?_ fun a a' _ e => ?_
  · unfold Binner.new
    simp only [units_isFinite, units_lt hu]
    refine .same fun _ e1 => .same fun _ e2 => .same fun _ e3 => .same fun _ _ => Out.Leads.ok ?_
    have hf := hf (assert_ok.1 e1) (assert_ok.1 e2) (assert_ok.1 e3)
    refine ⟨rfl, List.length_replicate, ?_, ?_⟩ <;> simp only [List.length_replicate]
    · exact hf.place
    · exact hf.limit
  · refine (units_insertAll _ vals _ a a' hv e).bind fun b b' _ e => ?_
    rw [e.bins]
    refine .same fun q _ => ?_
    simp only [List.length_map]
    refine .same fun _ _ => .same fun _ _ => Out.Leads.ok ⟨?_, e⟩
    simp only [List.map_map]
    refine List.map_congr_left fun i _ => ?_
    exact e.representative (i + 1)

theorem units_binCats (hu : 0 < u.1) (h : BinUnits F u values b b') (l : List Num) :
    binCats F b' (l.map (inUnits u)) = binCats F b l := by
  unfold binCats
  refine List.map_congr_left fun i _ => ?_
  rw [h.representative, units_countBelow hu]

theorem units_gather (l : List Num) : ∀ ex : List Nat,
    Out.Leads (fun a a' => a' = a.map (inUnits u) ∧ ∀ x ∈ a, x ∈ l) (gather l ex) (gather (l.map (inUnits u)) ex)
  | [] => Out.Leads.ok ⟨rfl, nofun⟩
  | i :: ex => by
      simp only [gather]
      refine Out.Leads.bind (R := fun a a' => a' = inUnits u a ∧ a ∈ l) ?_ fun a a' _ e => ?_
      · unfold at?
        rw [List.getElem?_map]
        cases h : l[i]? with
        | none => intro a e; cases e
        | some x => exact Out.Leads.ok ⟨rfl, List.mem_of_getElem? h⟩
      · rw [e.1]
        refine (units_gather l ex).bind fun b b' _ e' => ?_
        rw [e'.1]
        refine Out.Leads.ok ⟨rfl, fun x hx => ?_⟩
        rcases List.mem_cons.1 hx with rfl | hx
        · exact e.2
        · exact e'.2 x hx

/-! ### The data set -/

/-- The same training view of the data in other units. -/
def Dataset.inUnits (v : Nat → ℚ × ℚ) (d' : Data) (ds : Dataset) : Dataset :=
  { ds with data := d', splitCandidates := ds.splitCandidates.mapIdx fun f l => l.map (Spec.inUnits (v f)) }

/-- The units fit the data and the arithmetic. -/
structure UnitsOk (F : FP) (v : Nat → ℚ × ℚ) (d : Data) : Prop extends GoodUnits v d where
  fit : ∀ f c, d.cols[f]? = some c → c.ftype = .numerical → c.lo.isFinite = true → c.hi.isFinite = true → c.lo.lt c.hi = true →
    FitRange F (v f) c.lo c.hi c.values

/-- Two training views. -/
def UnitsOf (v : Nat → ℚ × ℚ) (d d' : Data) (a b : Dataset) : Prop := b = a.inUnits v d' ∧ a.data = d

section
variable {F : FP} {v : Nat → ℚ × ℚ} {cfg : Config} {d d' : Data} {ds : Dataset}

theorem columnInUnits_one (c : Column) : columnInUnits (1, 0) c = c := by
  unfold columnInUnits
  rw [inUnits_fun_one]
  simp

theorem Spec.OtherUnits.column (h : OtherUnits v d d') (f : Nat) :
    Out.Leads (fun c c' => c' = columnInUnits (v f) c ∧ d.cols[f]? = some c) (Dataset.column d f) (Dataset.column d' f) := by
  unfold Dataset.column at?
  rw [h.cols f]
  cases e : d.cols[f]? with
  | none => intro a e; cases e
  | some c => exact Out.Leads.ok ⟨rfl, rfl⟩

theorem Spec.OtherUnits.target (h : OtherUnits v d d') (hg : GoodUnits v d) : Learner.target d' = Learner.target d := by
  unfold Learner.target at?
  rw [h.nfeatures, h.cols, hg.target]
  cases d.cols[d.nfeatures]? with
  | none => rfl
  | some c => simp only [Option.map_some, columnInUnits_one]

theorem updateLocard_units (h : OtherUnits v d d') (hg : UnitsOk F v d) (hd : ds.data = d) {f : Nat} {c : Column}
    (hc : d.cols[f]? = some c) (ht : c.ftype ≠ .numerical) (ex : List Nat) :
    Out.Leads (UnitsOf v d d') (updateLocard ds f ex) (updateLocard (ds.inUnits v d') f ex) := by
  have hv := hg.categorical f c hc ht
  unfold updateLocard
  simp only [Dataset.inUnits]
  rw [hd]
  refine (h.column f).bind fun c1 c2 _ hcc => ?_
  rw [hcc.1, hv, columnInUnits_one]
  refine .same fun b _ => .same fun v _ => .same fun m _ => .same fun _ _ => ?_
  refine Out.Leads.ok ⟨?_, rfl⟩
  simp only [Dataset.inUnits, h.maxNbins]

theorem updateHicard_units (h : OtherUnits v d d') (hg : UnitsOk F v d) (hd : ds.data = d) {f : Nat} {c : Column}
    (hc : d.cols[f]? = some c) (ht : c.ftype ≠ .numerical) (ex : List Nat) (g : List Num) (bs : Num × Num) :
    Out.Leads (UnitsOf v d d') (updateHicard F cfg ds f ex g bs) (updateHicard F cfg (ds.inUnits v d') f ex g bs) := by
  have hv := hg.categorical f c hc ht
  unfold updateHicard
  simp only [Dataset.inUnits]
  rw [hd]
  refine (h.column f).bind fun c1 c2 _ hcc => ?_
  rw [hcc.1, hv, columnInUnits_one]
  refine .same fun b _ => .same fun v _ => .same fun m _ => .same fun _ _ => .same fun _ _ =>
    .same fun _ _ => .same fun _ _ => .same fun _ _ => ?_
  exact Out.Leads.ok ⟨rfl, rfl⟩

theorem updateNum_units (h : OtherUnits v d d') (hg : UnitsOk F v d) (hd : ds.data = d) {f : Nat} {c : Column}
    (hc : d.cols[f]? = some c) (ht : c.ftype = .numerical) (ex : List Nat) (g : List Num) :
    Out.Leads (UnitsOf v d d') (updateNum F cfg ds f ex g) (updateNum F cfg (ds.inUnits v d') f ex g) := by
  unfold updateNum
  simp only [Dataset.inUnits]
  rw [hd]
  refine (h.column f).bind fun c1 c2 _ hcc => ?_
  have e0 : c1 = c := by have := hcc.2; rw [hc] at this; exact (Option.some.inj this).symm
  rw [hcc.1]
  refine (units_gather c1.values ex).bind fun xs xs' _ e => ?_
  rw [e.1]
  refine .same fun gs _ => ?_
  refine (units_numSplits (hg.pos f) cfg.maxNbins c1.lo c1.hi xs gs (values := c1.values)
    (fun h1 h2 h3 => hg.fit f c1 hcc.2 (by rw [e0]; exact ht) h1 h2 h3) e.2).bind fun q q' _ eq => ?_
  obtain ⟨sp, b⟩ := q
  obtain ⟨sp', b'⟩ := q'
  obtain ⟨e1, e2⟩ := eq
  simp only at e1 e2
  subst e1
  simp only
  refine .same fun bvs _ => ?_
  rw [units_binCats (hg.pos f) e2, List.map_map,
    show xs.map ((Binner.getBin F b') ∘ (Spec.inUnits (v f))) = xs.map (Binner.getBin F b) from
      List.map_congr_left fun x hx => e2.getBin (e.2 x hx)]
  simp only [List.length_map, List.length_mapIdx]
  refine .same fun cats _ => .same fun bvs' _ => .same fun _ _ => .same fun _ _ => ?_
  refine Out.Leads.ok ⟨?_, rfl⟩
  simp only [Dataset.inUnits]
  congr 1
  refine List.ext_getElem? fun i => ?_
  simp only [List.getElem?_set, List.getElem?_mapIdx, List.length_mapIdx]
  by_cases hi : f = i
  · subst hi
    simp only [if_true]
    split <;> rfl
  · simp only [hi, if_false]

theorem initLocard_units (h : OtherUnits v d d') (hg : UnitsOk F v d) (ex : List Nat) : ∀ (fs : List Nat) (ds : Dataset), ds.data = d →
    Out.Leads (UnitsOf v d d') (initLocard ex fs ds) (initLocard ex fs (ds.inUnits v d'))
  | [], ds, hd => Out.Leads.ok ⟨rfl, hd⟩
  | f :: fs, ds, hd => by
      simp only [initLocard]
      refine Out.Leads.bind (R := UnitsOf v d d') ?_ fun a b _ hab => ?_
      · simp only [initFeature]
        rw [show (ds.inUnits v d').data = d' from rfl, hd]
        refine (h.column f).bind fun c c' _ hc => ?_
        rw [hc.1, show (columnInUnits (v f) c).ftype = c.ftype from rfl]
        split
        · rename_i ht
          exact updateLocard_units h hg hd hc.2 (by rw [ht]; decide) ex
        · exact Out.Leads.ok ⟨rfl, hd⟩
      · rw [hab.1]
        exact initLocard_units h hg ex fs a hab.2

theorem scan_units (h : OtherUnits v d d') (hg : UnitsOk F v d) (n : Nat) : ∀ k feat,
    Dataset.scanFeatures d' n k feat = Dataset.scanFeatures d n k feat
  | 0, _ => rfl
  | k + 1, feat => by
      simp only [Dataset.scanFeatures, scan_units h hg n k (feat + 1), h.maxNbins]
      unfold Dataset.column at?
      rw [h.cols feat]
      cases d.cols[feat]? with
      | none => rfl
      | some c =>
        simp only [Option.map_some, Out.ok_bind]
        rw [show Data.colMaxNbins d.maxNbins (columnInUnits (v feat) c) = Data.colMaxNbins d.maxNbins c from rfl,
          show (columnInUnits (v feat) c).lo.eqb (columnInUnits (v feat) c).hi = c.lo.eqb c.hi from units_eqb (hg.pos feat) _ _]
        rfl

theorem new_units (h : OtherUnits v d d') (hg : UnitsOk F v d) (rng : Rng) :
    Out.Leads (UnitsOf v d d') (Dataset.new F cfg d rng) (Dataset.new F cfg d' rng) := by
  unfold Dataset.new
  refine Out.Leads.bind (R := UnitsOf v d d') ?_ fun a b e hab => ?_
  · unfold inner
    simp only [h.nexamples, h.nfeatures]
    rw [scan_units h hg]
    refine .same fun r e => ?_
    obtain ⟨u, bv, hh⟩ := r
    refine Out.Leads.ok ⟨?_, rfl⟩
    simp only [Dataset.inUnits]
    congr 1
    refine List.ext_getElem? fun i => ?_
    simp only [List.getElem?_mapIdx, List.getElem?_replicate]
    split <;> rfl
  · rw [h.nexamples, hab.1]
    split
    · exact Out.Leads.ok ⟨rfl, hab.2⟩
    · exact initLocard_units h hg _ _ a hab.2

theorem updateFeatures_units (h : OtherUnits v d d') (hg : UnitsOk F v d) (g : List Num) (bs : Num × Num) (bagged : Bool)
    (ex : List Nat) : ∀ (fs : List Nat) (ds : Dataset), ds.data = d →
    Out.Leads (UnitsOf v d d') (updateFeatures F cfg g bs bagged ex fs ds)
      (updateFeatures F cfg g bs bagged ex fs (ds.inUnits v d'))
  | [], ds, hd => Out.Leads.ok ⟨rfl, hd⟩
  | f :: fs, ds, hd => by
      simp only [updateFeatures]
      refine Out.Leads.bind (R := UnitsOf v d d') ?_ fun a b _ hab => ?_
      · unfold updateFeature
        rw [show (ds.inUnits v d').data = d' from rfl, hd]
        refine (h.column f).bind fun c c' _ hc => ?_
        rw [hc.1, show (columnInUnits (v f) c).ftype = c.ftype from rfl]
        cases ht : c.ftype with
        | loCardCat =>
          simp only
          split
          · exact updateLocard_units h hg hd hc.2 (by rw [ht]; decide) ex
          · exact Out.Leads.ok ⟨rfl, hd⟩
        | hiCardCat => exact updateHicard_units h hg hd hc.2 (by rw [ht]; decide) ex g bs
        | numerical => exact updateNum_units h hg hd hc.2 ht ex g
      · rw [hab.1]
        exact updateFeatures_units h hg g bs bagged ex fs a hab.2

theorem update_units (h : OtherUnits v d d') (hg : UnitsOk F v d) (hd : ds.data = d) (g : List Num) (bs : Num × Num) :
    Out.Leads (UnitsOf v d d') (ds.update F cfg g bs) ((ds.inUnits v d').update F cfg g bs) := by
  unfold Dataset.update
  simp only
  have e0 : initSupercats { ds.inUnits v d' with updateCount := (ds.inUnits v d').updateCount + 1 } =
      (initSupercats { ds with updateCount := ds.updateCount + 1 }).inUnits v d' := by
    unfold initSupercats Dataset.inUnits
    simp only [h.nfeatures, hd]
  rw [e0]
  generalize hx : initSupercats { ds with updateCount := ds.updateCount + 1 } = x
  have hxd : x.data = d := by rw [← hx]; exact hd
  rw [show (x.inUnits v d').updateCount = x.updateCount from rfl]
  split
  · exact Out.Leads.ok ⟨rfl, hxd⟩
  · unfold refresh
    refine Out.Leads.bind (R := UnitsOf v d d') ?_ fun a b _ hab => ?_
    · unfold sampleFeatures
      rw [show (x.inUnits v d').featureSampling = x.featureSampling from rfl]
      split
      · refine .same fun r e => ?_
        obtain ⟨u, r⟩ := r
        exact Out.Leads.ok ⟨rfl, hxd⟩
      · exact Out.Leads.ok ⟨rfl, hxd⟩
    · rw [hab.1, show (a.inUnits v d').exampleSampling = a.exampleSampling from rfl,
        show (a.inUnits v d').hasNonLocard = a.hasNonLocard from rfl]
      split
      · refine Out.Leads.bind (R := UnitsOf v d d') ?_ fun a2 b2 _ h2 => ?_
        · unfold sampleExamples
          refine .same fun r e => ?_
          obtain ⟨u, r⟩ := r
          exact Out.Leads.ok ⟨rfl, hab.2⟩
        · rw [h2.1]
          refine .same fun ex _ => .same fun fs e => ?_
          exact updateFeatures_units h hg g bs true ex fs a2 h2.2
      · split
        · refine .same fun fs e => ?_
          rw [show (a.inUnits v d').data = d' from rfl, hab.2, h.nexamples]
          exact updateFeatures_units h hg g bs false _ fs a hab.2
        · exact Out.Leads.ok ⟨rfl, hab.2⟩

/-! ### The learner -/

/-- The test of a node fits the type of its feature. -/
def FitsUnits (v : Nat → ℚ × ℚ) (c : SplitCrit) : Prop := c.splitType = .numLt ∨ c.splitType = .noSplit ∨ v c.featureId = (1, 0)

/-- A chosen split in other units. -/
def splitInUnits (v : Nat → ℚ × ℚ) (s : Split) : Split := { s with crit := critInUnits v s.crit }

theorem critInUnits_feature (c : SplitCrit) : (critInUnits v c).featureId = c.featureId := by
  unfold critInUnits; split <;> rfl

theorem critInUnits_type (c : SplitCrit) : (critInUnits v c).splitType = c.splitType := by
  unfold critInUnits; split
  · rename_i h; exact h.symm ▸ rfl
  · rfl

theorem critOf_units (h : OtherUnits v d d') (hg : UnitsOk F v d) (hd : ds.data = d) (f b : Nat) :
    Out.Leads (fun c c' => c' = critInUnits v c ∧ FitsUnits v c) (critOf F ds f b) (critOf F (ds.inUnits v d') f b) := by
  unfold critOf
  refine Out.Leads.bind (R := fun x x' => ∃ c, d.cols[f]? = some c ∧
    if c.ftype = .numerical then x' = inUnits (v f) x else x' = x) ?_ fun x x' _ hx => ?_
  · unfold getSplitValue
    rw [show (ds.inUnits v d').data = d' from rfl, hd]
    refine (h.column f).bind fun c c' _ hc => ?_
    rw [hc.1, show (columnInUnits (v f) c).ftype = c.ftype from rfl]
    cases ht : c.ftype with
    | loCardCat => exact Out.Leads.ok ⟨c, hc.2, by simp [ht]⟩
    | hiCardCat => exact Out.Leads.ok ⟨c, hc.2, by simp [ht]⟩
    | numerical =>
      simp only
      refine Out.Leads.bind (R := fun l l' => l' = l.map (inUnits (v f))) ?_ fun l l' _ e => ?_
      · unfold at?
        simp only [Dataset.inUnits, List.getElem?_mapIdx]
        cases ds.splitCandidates[f]? with
        | none => intro a e; cases e
        | some l => exact Out.Leads.ok rfl
      · rw [e]
        unfold at?
        rw [List.getElem?_map]
        cases l[b]? with
        | none => intro a e; cases e
        | some y => exact Out.Leads.ok ⟨c, hc.2, by simp [ht]⟩
  · obtain ⟨c, hc, hx⟩ := hx
    rw [show (ds.inUnits v d').data = d' from rfl, hd]
    refine (h.column f).bind fun c1 c2 _ hcc => ?_
    have : c1 = c := by have := hcc.2; rw [hc] at this; exact (Option.some.inj this).symm
    subst this
    rw [hcc.1, show (columnInUnits (v f) c1).ftype = c1.ftype from rfl]
    refine Out.Leads.ok ?_
    cases ht : c1.ftype with
    | loCardCat =>
      simp only [ht, reduceCtorEq, if_false] at hx
      exact ⟨by rw [hx]; rfl, .inr (.inr (hg.categorical f c1 hc (by rw [ht]; decide)))⟩
    | hiCardCat =>
      simp only [ht, reduceCtorEq, if_false] at hx
      exact ⟨by rw [hx]; rfl, .inr (.inr (hg.categorical f c1 hc (by rw [ht]; decide)))⟩
    | numerical =>
      simp only [ht, if_true] at hx
      exact ⟨by rw [hx]; rfl, .inl rfl⟩

/-- The best candidates so far. -/
def BestUnits (v : Nat → ℚ × ℚ) (b b' : Num × Split) : Prop :=
  b'.1 = b.1 ∧ b'.2 = splitInUnits v b.2 ∧ FitsUnits v b.2.crit

theorem tryCandidate_units (h : OtherUnits v d d') (hg : UnitsOk F v d) (hd : ds.data = d) (pg : Num) (pc f b : Nat) (x : HistVal)
    {best best' : Num × Split} (hb : BestUnits v best best') :
    Out.Leads (BestUnits v) (tryCandidate F cfg ds pg pc f b x best)
      (tryCandidate F cfg (ds.inUnits v d') pg pc f b x best') := by
  unfold tryCandidate
  rw [hb.1]
  generalize gain F cfg pg pc x = gn
  generalize subU32 pc x.count = sc
  split
  · exact Out.Leads.ok hb
  · split
    · refine (critOf_units h hg hd f b).bind fun c c' _ hc => ?_
      rw [hc.1]
      exact Out.Leads.ok ⟨rfl, rfl, hc.2⟩
    · exact Out.Leads.ok hb

theorem scanBins_units (h : OtherUnits v d d') (hg : UnitsOk F v d) (hd : ds.data = d) (pg : Num) (pc : Nat) (hs : Hists) (f : Nat) :
    ∀ (k b : Nat) (best best' : Num × Split), BestUnits v best best' →
    Out.Leads (BestUnits v) (scanBins F cfg ds pg pc hs f k b best)
      (scanBins F cfg (ds.inUnits v d') pg pc hs f k b best')
  | 0, _, _, _, hb => Out.Leads.ok hb
  | k + 1, b, best, best', hb => by
      simp only [scanBins]
      refine .same fun x _ => (tryCandidate_units h hg hd pg pc f b x hb).bind fun y y' _ hy => ?_
      exact scanBins_units h hg hd pg pc hs f k (b + 1) y y' hy

theorem scanFeatures_units (h : OtherUnits v d d') (hg : UnitsOk F v d) (hd : ds.data = d) (pg : Num) (pc : Nat) (hs : Hists) :
    ∀ (fs : List Nat) (best best' : Num × Split), BestUnits v best best' →
    Out.Leads (BestUnits v) (Learner.scanFeatures F cfg ds pg pc hs fs best)
      (Learner.scanFeatures F cfg (ds.inUnits v d') pg pc hs fs best')
  | [], _, _, hb => Out.Leads.ok hb
  | f :: fs, best, best', hb => by
      simp only [Learner.scanFeatures]
      rw [show (ds.inUnits v d').getNbins = ds.getNbins from rfl]
      refine .same fun n _ => (scanBins_units h hg hd pg pc hs f n 0 best best' hb).bind fun y y' _ hy => ?_
      exact scanFeatures_units h hg hd pg pc hs fs y y' hy

theorem findBestSplit_units (h : OtherUnits v d d') (hg : UnitsOk F v d) (hd : ds.data = d) (pg : Num) (pc : Nat) (hs : Hists) :
    Out.Leads (fun s s' => s' = splitInUnits v s ∧ FitsUnits v s.crit) (findBestSplit F cfg ds pg pc hs)
      (findBestSplit F cfg (ds.inUnits v d') pg pc hs) := by
  unfold findBestSplit
  rw [show (ds.inUnits v d').activeFeatures = ds.activeFeatures from rfl]
  refine .same fun fs _ => ?_
  refine (scanFeatures_units h hg hd pg pc hs fs _ _ ⟨rfl, rfl, .inr (.inl rfl)⟩).bind fun b b' _ hb => ?_
  exact Out.Leads.ok ⟨hb.2.1, hb.2.2⟩

theorem histJobs_units : ∀ fs : List Nat, histJobs (ds.inUnits v d') fs = histJobs ds fs
  | [] => rfl
  | f :: fs => by
      simp only [histJobs, histJobs_units fs]
      rfl

theorem buildHists_units (w : Nat) (bs : Num × Num) (n : Node) :
    buildHists F cfg (ds.inUnits v d') w bs n = buildHists F cfg ds w bs n := by
  unfold buildHists
  simp only [histJobs_units]
  rfl

theorem newHists_units (h : OtherUnits v d d') : newHists d' = newHists d := by
  have : ∀ l : List Nat,
      l.foldr (fun f r => do
        let n ← Data.featMaxNbins d' f
        let ns ← r
        return n :: ns) (Out.ok []) = l.foldr (fun f r => do
        let n ← Data.featMaxNbins d f
        let ns ← r
        return n :: ns) (Out.ok []) := by
    intro l
    induction l with
    | nil => rfl
    | cons f fs ih =>
      simp only [List.foldr_cons]
      rw [ih]
      unfold Data.featMaxNbins
      rw [h.cols f, h.maxNbins]
      cases d.cols[f]? with
      | none => rfl
      | some c => rfl
  unfold newHists
  rw [h.nfeatures, this]

theorem childNodes_units (h : OtherUnits v d d') (hd : ds.data = d) (w : Nat) (bs : Num × Num) (p : Node) (s : Split) :
    childNodes F cfg (ds.inUnits v d') w bs p (splitInUnits v s) = childNodes F cfg ds w bs p s := by
  have e1 : ∀ p' c neg, splitExamples F cfg (ds.inUnits v d') w p' c (splitInUnits v s) neg =
      splitExamples F cfg ds w p' c s neg := by
    intro p' c neg
    unfold splitExamples splitInUnits
    simp only [critInUnits_feature]
    rw [show (ds.inUnits v d').data = d' from rfl, newHists_units h, hd]
    rfl
  unfold childNodes
  simp only [e1, buildHists_units, show (splitInUnits v s).crit.featureId = s.crit.featureId from critInUnits_feature _,
    show (splitInUnits v s).splitId = s.splitId from rfl]

theorem mapItems_units : ∀ is : List Nat, mapItems (ds.inUnits v d') is = mapItems ds is
  | [] => rfl
  | i :: is => by
      simp only [mapItems, mapItems_units is]
      rfl

theorem leafFor_units (h : OtherUnits v d d') (hg : UnitsOk F v d) (hd : ds.data = d) (is : List Nat) (o : Objective) :
    leafFor F (ds.inUnits v d') is o = leafFor F ds is o := by
  unfold leafFor leafRows
  simp only [mapItems_units]
  rw [show (ds.inUnits v d').data = d' from rfl, h.target hg.toGoodUnits, hd]
  rfl

theorem rootNode_units (h : OtherUnits v d d') (hd : ds.data = d) (w : Nat) (o : Objective) :
    rootNode F cfg (ds.inUnits v d') w o = rootNode F cfg ds w o := by
  unfold rootNode
  simp only [buildHists_units]
  rw [show (ds.inUnits v d').data = d' from rfl, newHists_units h, hd]
  rfl

/-! ### Trees -/

/-- Every test of the tree fits the type of its feature. -/
def FitsTree (v : Nat → ℚ × ℚ) (t : Tree) : Prop := ∀ c ∈ t.splitCrits, FitsUnits v c

theorem fitsTree_congr {t t' : Tree} (h : FitsTree v t) (e : t'.splitCrits = t.splitCrits) : FitsTree v t' := by
  unfold FitsTree
  rw [e]
  exact h

theorem setValue_units {t : Tree} (ht : FitsTree v t) (n : Nat) (x : Num) :
    Out.Leads (fun a b => b = treeInUnits v a ∧ FitsTree v a) (t.setValue n x) ((treeInUnits v t).setValue n x) := by
  unfold Tree.setValue
  refine .same fun _ _ => .same fun _ _ => Out.Leads.ok ⟨rfl, fitsTree_congr ht rfl⟩

theorem critInUnits_isNone (c : SplitCrit) : (critInUnits v c).isNone = c.isNone := by
  unfold SplitCrit.isNone
  rw [critInUnits_type]

theorem splitNode_units {t : Tree} (ht : FitsTree v t) (n : Nat) {c : SplitCrit} (hc : FitsUnits v c) :
    Out.Leads (fun a b => b = treeInUnits v a ∧ FitsTree v a) (t.splitNode n c)
      ((treeInUnits v t).splitNode n (critInUnits v c)) := by
  unfold Tree.splitNode
  rw [show (treeInUnits v t).splitCrits[n]? = (t.splitCrits[n]?).map (critInUnits v) from List.getElem?_map ..]
  cases t.splitCrits[n]? with
  | none => intro a e; cases e
  | some old =>
    simp only [Option.map_some, critInUnits_isNone]
    rw [show (treeInUnits v t).isMaxLeafNode n = t.isMaxLeafNode n from rfl]
    refine .same fun _ _ => .same fun _ _ => .same fun _ _ => Out.Leads.ok ⟨?_, fun x hx => ?_⟩
    · simp only [treeInUnits, List.map_set]
    · rcases List.mem_or_eq_of_mem_set hx with hx | rfl
      · exact ht x hx
      · exact hc

theorem read_units (h : OtherUnits v d d') (f i : Nat) :
    Tree.read d' f i = match Tree.read d f i with
      | .ok x => .ok (inUnits (v f) x)
      | .panic => .panic
      | .ub => .ub := by
  unfold Tree.read
  rw [h.cols f]
  cases d.cols[f]? with
  | none => rfl
  | some c =>
    simp only [Option.map_some, Option.bind_some, columnInUnits, List.getElem?_map]
    cases c.values[i]? <;> rfl

theorem test_units (hp : ∀ f, 0 < (v f).1) (sc : List (List Nat)) {c : SplitCrit} (hc : FitsUnits v c) (x : Num) :
    Tree.test sc (critInUnits v c) (inUnits (v c.featureId) x) = Tree.test sc c x := by
  obtain ⟨ty, f, y⟩ := c
  cases ty with
  | numLt => simp only [critInUnits, Tree.test, units_lt (hp f)]
  | noSplit => rfl
  | loCardCatEq =>
    rcases hc with h | h | h
    · cases h
    · cases h
    · simp only at h
      simp only [critInUnits, h, inUnits_one]
  | hiCardCatLt =>
    rcases hc with h | h | h
    · cases h
    · cases h
    · simp only at h
      simp only [critInUnits, h, inUnits_one]

theorem leafFrom_units (h : OtherUnits v d d') (hp : ∀ f, 0 < (v f).1) {t : Tree} (ht : FitsTree v t) (i : Nat) : ∀ k n,
    t.splitCrits.length - n ≤ k → Tree.leafFrom (treeInUnits v t) d' i n = Tree.leafFrom t d i n
  | k, n, hk => by
      conv_lhs => rw [Tree.leafFrom]
      conv_rhs => rw [Tree.leafFrom]
      have hl : (treeInUnits v t).splitCrits.length = t.splitCrits.length := List.length_map ..
      by_cases hn : n < t.splitCrits.length
      · rw [dif_pos hn, dif_pos (hl ▸ hn)]
        have hg : (treeInUnits v t).splitCrits[n]'(hl ▸ hn) = critInUnits v t.splitCrits[n] := List.getElem_map ..
        rw [hg, critInUnits_feature, read_units h]
        match k with
        | 0 => omega
        | k + 1 =>
          rw [leafFrom_units h hp ht i k (Tree.leftChild n) (by unfold Tree.leftChild; omega),
            leafFrom_units h hp ht i k (Tree.rightChild n) (by unfold Tree.rightChild; omega)]
          cases Tree.read d t.splitCrits[n].featureId i with
          | panic => rfl
          | ub => rfl
          | ok x =>
            simp only
            rw [show (treeInUnits v t).supercats = t.supercats from rfl,
              test_units hp _ (ht _ (List.getElem_mem hn))]
      · rw [dif_neg hn, dif_neg (hl ▸ hn)]

theorem predictSingle_units (F : FP) (h : OtherUnits v d d') (hp : ∀ f, 0 < (v f).1) {t : Tree} (ht : FitsTree v t) (i : Nat) :
    (treeInUnits v t).predictSingle F d' i = t.predictSingle F d i := by
  unfold Tree.predictSingle Tree.predictLeafId
  rw [leafFrom_units h hp ht i _ _ le_rfl]
  rfl

theorem predictLoop_units (F : FP) (h : OtherUnits v d d') (hp : ∀ f, 0 < (v f).1) {t : Tree} (ht : FitsTree v t)
    (g : Num → Num → Num) : ∀ (buf : List Num) (i : Nat), (treeInUnits v t).predictLoop F d' g i buf = t.predictLoop F d g i buf
  | [], _ => rfl
  | b :: buf, i => by
      simp only [Tree.predictLoop, predictSingle_units F h hp ht, predictLoop_units F h hp ht g buf]

theorem addTrees_units (F : FP) (h : OtherUnits v d d') (hp : ∀ f, 0 < (v f).1) : ∀ (ts : List Tree) (buf : List Num),
    (∀ t ∈ ts, FitsTree v t) → AdditiveTree.addTrees F d' (ts.map (treeInUnits v)) buf = AdditiveTree.addTrees F d ts buf
  | [], _, _ => rfl
  | t :: ts, buf, ht => by
      simp only [List.map_cons, AdditiveTree.addTrees, Tree.predictAnd, h.nexamples,
        predictLoop_units F h hp (ht t (by simp))]
      refine bind_congr fun b => addTrees_units F h hp ts b fun x hx => ht x (by simp [hx])

/-! ### Growing a tree -/

/-- Two states of the learner. -/
structure StateUnits (v : Nat → ℚ × ℚ) (s s' : State) : Prop where
  tree : s'.tree = treeInUnits v s.tree
  obj : s'.obj = s.obj
  stack : s'.stack = s.stack
  fits : FitsTree v s.tree

theorem leafValue_units (h : OtherUnits v d d') (hg : UnitsOk F v d) (hd : ds.data = d) (n : Node) {t : Tree} (o : Objective)
    (ht : FitsTree v t) :
    Out.Leads (fun a b => b = (treeInUnits v a.1, a.2) ∧ FitsTree v a.1) (leafValue F ds n t o)
      (leafValue F (ds.inUnits v d') n (treeInUnits v t) o) := by
  unfold Learner.leafValue
  simp only [leafFor_units h hg hd]
  refine .same fun is _ => .same fun a _ => ?_
  refine (setValue_units ht _ _).bind fun x y _ hxy => ?_
  rw [hxy.1]
  exact Out.Leads.ok ⟨rfl, hxy.2⟩

theorem childLeafValues_units (h : OtherUnits v d d') (hg : UnitsOk F v d) (hd : ds.data = d) (n : Node) (s : Split) {t : Tree}
    (o : Objective) (ht : FitsTree v t) :
    Out.Leads (fun a b => b = (treeInUnits v a.1, a.2) ∧ FitsTree v a.1) (childLeafValues F ds n s t o)
      (childLeafValues F (ds.inUnits v d') n (splitInUnits v s) (treeInUnits v t) o) := by
  unfold childLeafValues
  rw [show (ds.inUnits v d').getBitvec = ds.getBitvec from rfl,
    show (splitInUnits v s).crit.featureId = s.crit.featureId from critInUnits_feature _,
    show (splitInUnits v s).splitId = s.splitId from rfl]
  simp only [leafFor_units h hg hd]
  refine .same fun fm _ => .same fun is _ => .same fun a _ => ?_
  refine .same fun js _ => .same fun a2 _ => ?_
  refine (setValue_units ht _ _).bind fun x y _ hxy => ?_
  rw [hxy.1]
  refine (setValue_units hxy.2 _ _).bind fun x2 y2 _ hxy2 => ?_
  rw [hxy2.1]
  exact Out.Leads.ok ⟨rfl, hxy2.2⟩

theorem expand_units (h : OtherUnits v d d') (hg : UnitsOk F v d) (hd : ds.data = d) (w : Nat) (n : Node) {s s' : State}
    (hs : StateUnits v s s') :
    Out.Leads (StateUnits v) (expand F cfg ds w n s) (expand F cfg (ds.inUnits v d') w n s') := by
  obtain ⟨t, o, stack⟩ := s
  obtain ⟨t', o', stack'⟩ := s'
  obtain ⟨h1, ho, h3, ht⟩ := hs
  simp only at h1 ho h3 ht
  subst h1 h3 ho
  unfold expand
  refine (findBestSplit_units h hg hd _ _ _).bind fun sp sp' e hsp => ?_
  rw [hsp.1]
  simp only [show (splitInUnits v sp).crit.isNone = sp.crit.isNone from critInUnits_isNone _]
  split
  · refine (leafValue_units h hg hd n o' ht).bind fun a b _ hab => ?_
    rw [hab.1]
    exact Out.Leads.ok ⟨rfl, rfl, rfl, hab.2⟩
  · split
    · rename_i hl
      rw [if_pos (by exact hl), childNodes_units h hd]
      refine .same fun ch _ => (splitNode_units ht n.nodeId hsp.2).bind fun a b _ hab => ?_
      rw [hab.1]
      exact Out.Leads.ok ⟨rfl, rfl, rfl, hab.2⟩
    · rename_i hl
      rw [if_neg (by exact hl)]
      refine (childLeafValues_units h hg hd n sp o' ht).bind fun a b _ hab => ?_
      rw [hab.1]
      refine (splitNode_units hab.2 n.nodeId hsp.2).bind fun a2 b2 _ hab2 => ?_
      rw [hab2.1]
      exact Out.Leads.ok ⟨rfl, rfl, rfl, hab2.2⟩

theorem loop_units (h : OtherUnits v d d') (hg : UnitsOk F v d) (hd : ds.data = d) (w : Nat) : ∀ (fuel : Nat) (s s' : State),
    StateUnits v s s' →
    Out.Leads (Option.Rel (StateUnits v)) (loop F cfg ds w fuel s) (loop F cfg (ds.inUnits v d') w fuel s')
  | fuel, ⟨t, o, []⟩, ⟨t', o', stack'⟩, hs => by
      have : stack' = [] := hs.stack
      subst this
      unfold loop
      exact Out.Leads.ok (.some hs)
  | 0, ⟨t, o, n :: rest⟩, ⟨t', o', stack'⟩, hs => by
      have : stack' = n :: rest := hs.stack
      subst this
      unfold loop
      exact Out.Leads.ok .none
  | fuel + 1, ⟨t, o, n :: rest⟩, ⟨t', o', stack'⟩, hs => by
      have : stack' = n :: rest := hs.stack
      subst this
      unfold loop
      simp only
      refine Out.Leads.bind (expand_units h hg hd w n ⟨hs.tree, hs.obj, rfl, hs.fits⟩) fun a b _ hab => ?_
      exact loop_units h hg hd w fuel a b hab

theorem outOfBagLoop_units (h : OtherUnits v d d') (hp : ∀ f, 0 < (v f).1) {t : Tree} (ht : FitsTree v t) :
    ∀ (is : List Nat) (o : Objective), outOfBagLoop F d' (treeInUnits v t) is o = outOfBagLoop F d t is o
  | [], _ => rfl
  | i :: is, o => by
      unfold outOfBagLoop
      rw [predictSingle_units _ h hp ht]
      refine bind_congr fun p => bind_congr fun a => ?_
      exact outOfBagLoop_units h hp ht is a

/-- Two results of growing a tree. -/
def GrownUnits (v : Nat → ℚ × ℚ) (a b : Tree × Objective) : Prop := b = (treeInUnits v a.1, a.2) ∧ FitsTree v a.1

theorem train_units (h : OtherUnits v d d') (hg : UnitsOk F v d) (hd : ds.data = d) (sc : List (List Nat)) (fuel : Nat)
    (o : Objective) :
    Out.Leads (Option.Rel (GrownUnits v)) (train F cfg ds sc o fuel) (train F cfg (ds.inUnits v d') sc o fuel) := by
  unfold Learner.train
  refine .same fun w _ => ?_
  refine Out.Leads.bind (R := StateUnits v) ?_ fun a b _ hab => ?_
  · unfold start
    rw [rootNode_units h hd w]
    refine .same fun t e => .same fun root _ => ?_
    unfold Tree.new at e
    obtain ⟨_, _, e⟩ := Out.bind_eq_ok.1 e
    simp only [Out.pure_eq, Out.ok.injEq] at e
    refine Out.Leads.ok ⟨?_, rfl, rfl, ?_⟩
    · simp only [← e, treeInUnits, List.map_replicate]
      rfl
    · rw [← e]
      intro c hc
      rw [List.eq_of_mem_replicate hc]
      exact .inr (.inl rfl)
  · refine (loop_units h hg hd w fuel a b hab).bind fun r r' _ hr => ?_
    cases hr with
    | none => exact Out.Leads.ok .none
    | @some s s' hs =>
      simp only
      refine Out.Leads.bind (R := Eq) ?_ fun a b _ hab => Out.Leads.ok (.some ⟨by rw [hs.tree, hab], hs.fits⟩)
      unfold outOfBag
      rw [show (ds.inUnits v d').exampleSampling = ds.exampleSampling from rfl, hs.tree, hs.obj]
      split
      · unfold inactiveExamples
        rw [show (ds.inUnits v d').data = d' from rfl, h.nexamples, hd]
        refine Out.Leads.bind (R := Eq) (Out.Leads.of_eq rfl) fun x y _ e => ?_
        subst e
        rw [outOfBagLoop_units h hg.pos hs.fits]
        exact Out.Leads.of_eq rfl
      · exact Out.Leads.ok rfl

/-! ### Whole runs -/

/-- Two boosters. -/
structure BoostUnits (v : Nat → ℚ × ℚ) (d d' : Data) (b b' : Booster) : Prop where
  data : UnitsOf v d d' b.dataset b'.dataset
  obj : b'.objective = b.objective
  iter : b'.iterCount = b.iterCount
  trees : b'.ensemble.trees = b.ensemble.trees.map (treeInUnits v)
  bias : b'.ensemble.bias = b.ensemble.bias
  printed : b'.printed = b.printed
  fits : ∀ t ∈ b.ensemble.trees, FitsTree v t

variable {M : Libm}

theorem trainOneIter_units (h : OtherUnits v d d') (hg : UnitsOk F v d) {metrics : List Metric} {b b' : Booster}
    (hb : BoostUnits v d d' b b') :
    Out.Leads (BoostUnits v d d') (Booster.trainOneIter F M cfg d metrics b)
      (Booster.trainOneIter F M cfg d' metrics b') := by
  unfold Booster.trainOneIter
  rw [h.target hg.toGoodUnits, hb.obj]
  refine .same fun ts _ => .same fun o _ => ?_
  refine Out.Leads.bind (R := UnitsOf v d d') ?_ fun ds ds' _ hds => ?_
  · rw [hb.data.1]
    exact update_units h hg hb.data.2 _ _
  · refine Out.Leads.bind (R := GrownUnits v) ?_ fun r r' _ hr => ?_
    · unfold Booster.learnTree
      rw [hds.1]
      refine (train_units h hg hds.2 _ _ o).bind fun x y _ hxy => ?_
      cases hxy with
      | none => intro a e; cases e
      | some hp => exact Out.Leads.ok hp
    · rw [hr.1]
      refine Out.Leads.ok ⟨hds, rfl, by simp only [hb.iter], ?_, hb.bias, ?_, fun t ht => ?_⟩
      · simp only [AdditiveTree.pushTree, hb.trees, List.map_append, List.map_cons, List.map_nil]
      · simp only [hb.printed, hb.iter]
      · rcases List.mem_append.1 ht with ht | ht
        · exact hb.fits t ht
        · rw [List.mem_singleton.1 ht]
          exact fitsTree_congr hr.2 rfl

theorem iterate_units (h : OtherUnits v d d') (hg : UnitsOk F v d) {metrics : List Metric} : ∀ (n : Nat) (b b' : Booster),
    BoostUnits v d d' b b' →
    Out.Leads (BoostUnits v d d') (Booster.iterate F M cfg d metrics n b) (Booster.iterate F M cfg d' metrics n b')
  | 0, _, _, hb => Out.Leads.ok hb
  | n + 1, b, b', hb => by
      unfold Booster.iterate
      exact (trainOneIter_units h hg hb).bind fun x y _ hxy => iterate_units h hg n x y hxy

theorem run_units (h : OtherUnits v d d') (hg : UnitsOk F v d) (rng : Rng) (metrics : List Metric) (o : Objective) :
    Out.Leads (BoostUnits v d d') (Booster.run F M cfg d rng metrics o) (Booster.run F M cfg d' rng metrics o) := by
  unfold Booster.run Booster.new
  rw [Out.bind_assoc, Out.bind_assoc]
  refine (new_units h hg rng).bind fun ds ds' _ hds => ?_
  simp only [Out.pure_eq, Out.ok_bind]
  unfold Booster.train Booster.prepare
  refine Out.Leads.same fun _ _ => ?_
  rw [h.target hg.toGoodUnits]
  refine Out.Leads.bind (R := BoostUnits v d d') ?_ fun a b _ hab => iterate_units h hg _ _ _ hab
  refine .same fun ts _ => .same fun o1 _ => ?_
  exact Out.Leads.ok ⟨hds, rfl, rfl, rfl, rfl, rfl, fun t ht => by cases ht⟩

/-! ### Exact arithmetic -/

theorem Spec.GoodUnits.exact (hg : GoodUnits v d) : UnitsOk .exact v d := by
  refine ⟨hg, fun f c _ _ _ _ _ => ⟨fun x _ => ?_, fun i _ => ?_⟩⟩
  · rw [units_sub, units_sub, stretch_div_left _ (by decide), stretch_div (hg.pos f)]
  · rw [units_sub, stretch_div_left _ (by decide), units_rep]

/-! ### Back -/

/-- The units back. -/
def backUnits (v : Nat → ℚ × ℚ) (f : Nat) : ℚ × ℚ := ((v f).1⁻¹, -((v f).1⁻¹ * (v f).2))

theorem backUnits_num (hp : ∀ f, 0 < (v f).1) (f : Nat) (x : Num) : inUnits (backUnits v f) (inUnits (v f) x) = x := by
  cases x <;> simp only [Spec.inUnits, backUnits]
  have := (hp f).ne'
  congr 1
  field_simp
  ring

theorem backUnits_column (hp : ∀ f, 0 < (v f).1) (f : Nat) (c : Column) :
    columnInUnits (backUnits v f) (columnInUnits (v f) c) = c := by
  simp only [columnInUnits, List.map_map, backUnits_num hp]
  rw [show inUnits (backUnits v f) ∘ inUnits (v f) = id from funext fun x => backUnits_num hp f x, List.map_id]

theorem backUnits_one {f : Nat} (h : v f = (1, 0)) : backUnits v f = (1, 0) := by
  simp [backUnits, h]

theorem Spec.OtherUnits.symm (h : OtherUnits v d d') (hg : GoodUnits v d) : OtherUnits (backUnits v) d' d := by
  refine ⟨h.maxNbins.symm, h.nfeatures.symm, h.nexamples.symm, fun f => ?_⟩
  rw [h.cols f]
  cases d.cols[f]? with
  | none => rfl
  | some c => simp only [Option.map_some, backUnits_column hg.pos]

theorem Spec.GoodUnits.symm (hg : GoodUnits v d) (h : OtherUnits v d d') : GoodUnits (backUnits v) d' := by
  refine ⟨fun f => inv_pos.2 (hg.pos f), fun f c hc ht => ?_, ?_⟩
  · rw [h.cols f] at hc
    cases e : d.cols[f]? with
    | none => rw [e] at hc; cases hc
    | some c0 =>
      rw [e] at hc
      cases hc
      exact backUnits_one (hg.categorical f c0 e ht)
  · rw [h.nfeatures]
    exact backUnits_one hg.target

/-! ### Loading -/

theorem units_isNan {u : ℚ × ℚ} (x : Num) : (inUnits u x).isNan = x.isNan := by cases x <;> rfl

theorem units_le {u : ℚ × ℚ} (hu : 0 < u.1) (x y : Num) : (inUnits u x).le (inUnits u y) = x.le y := by
  cases x <;> cases y <;> simp [Spec.inUnits, Num.le, hu]

theorem units_min {u : ℚ × ℚ} (hu : 0 < u.1) (x y : Num) : Num.min (inUnits u x) (inUnits u y) = inUnits u (Num.min x y) := by
  unfold Num.min
  simp only [units_isNan, units_le hu]
  split <;> [rfl; split <;> [rfl; split <;> rfl]]

theorem units_max {u : ℚ × ℚ} (hu : 0 < u.1) (x y : Num) : Num.max (inUnits u x) (inUnits u y) = inUnits u (Num.max x y) := by
  unfold Num.max
  simp only [units_isNan, units_le hu]
  split <;> [rfl; split <;> [rfl; split <;> rfl]]

/-- A value is added to a column. -/
theorem addStats_units {u : ℚ × ℚ} (hu : 0 < u.1) {cat : Bool} (hc : cat = true → u = (1, 0)) (c : Column) (x : Num) :
    Data.addStats cat (columnInUnits u c) (inUnits u x) =
      (columnInUnits u (Data.addStats cat c x).1, (Data.addStats cat c x).2) := by
  cases cat with
  | false => simp [Data.addStats, columnInUnits, units_min hu, units_max hu]
  | true => rw [hc rfl]; simp only [columnInUnits_one, inUnits_one]

theorem setLoop_units {u : ℚ × ℚ} (hu : 0 < u.1) {cat : Bool} (hc : cat = true → u = (1, 0)) : ∀ (xs : List Num) (i : Nat)
    (c : Column), Data.setLoop cat (xs.map (inUnits u)) i (columnInUnits u c) =
      (columnInUnits u (Data.setLoop cat xs i c).1, (Data.setLoop cat xs i c).2)
  | [], _, _ => rfl
  | x :: xs, i, c => by
      simp only [List.map_cons, Data.setLoop]
      rw [show ({ columnInUnits u c with values := (columnInUnits u c).values.set i (inUnits u x) } : Column) =
        columnInUnits u { c with values := c.values.set i x } by simp only [columnInUnits, List.map_set], addStats_units hu hc]
      generalize Data.addStats cat _ x = r
      obtain ⟨r, b⟩ := r
      cases b with
      | true => exact setLoop_units hu hc xs (i + 1) r
      | false => rfl

theorem setFeatureData_units (hp : ∀ f, 0 < (v f).1) (h : OtherUnits v d d') (f : Nat) (xs : List Num) {cat : Bool}
    (hc : cat = true → v f = (1, 0)) :
    Out.Leads (fun a b => b.2 = a.2 ∧ OtherUnits v a.1 b.1) (d.setFeatureData f xs cat)
      (d'.setFeatureData f (xs.map (inUnits (v f))) cat) := by
  have key : ∀ c2 c2' : Column, c2' = columnInUnits (v f) c2 → (d.cols[f]?).isSome →
      OtherUnits v { d with cols := d.cols.set f c2 } { d' with maxNbins := d.maxNbins, nexamples := d.nexamples, cols := d'.cols.set f c2' } := by
    rintro c2 _ rfl hs
    refine ⟨rfl, h.nfeatures, rfl, fun g => ?_⟩
    have hl : d'.cols.length = d.cols.length := by
      by_contra hne
      rcases Nat.lt_or_gt_of_ne hne with hlt | hlt
      · have := h.cols d'.cols.length
        rw [List.getElem?_eq_none le_rfl, List.getElem?_eq_getElem hlt] at this
        cases this
      · have := h.cols d.cols.length
        rw [List.getElem?_eq_none (l := d.cols) le_rfl, List.getElem?_eq_getElem hlt] at this
        cases this
    simp only [List.getElem?_set, hl]
    split
    · rename_i e
      subst e
      split <;> rfl
    · exact h.cols g
  unfold Data.setFeatureData
  simp only [List.length_map, h.nexamples, h.maxNbins]
  split
  · rw [h.cols f]
    cases e : d.cols[f]? with
    | none => intro a e; cases e
    | some c =>
      simp only [Option.map_some]
      rw [show (columnInUnits (v f) c).values.length = c.values.length from List.length_map .., setLoop_units (hp f) hc]
      split
      · generalize Data.setLoop cat xs 0 c = r
        obtain ⟨r, b⟩ := r
        cases b with
        | false => exact Out.Leads.ok ⟨rfl, key _ _ rfl (by rw [e]; rfl)⟩
        | true =>
          refine Out.Leads.ok ⟨rfl, key _ _ ?_ (by rw [e]; rfl)⟩
          cases cat with
          | false => rfl
          | true => rw [hc rfl]; simp only [columnInUnits_one]
      · intro a e; cases e
  · intro a e; cases e

theorem setAll_units (hp : ∀ f, 0 < (v f).1) : ∀ (calls : List (Nat × List Num × Bool)),
    (∀ c ∈ calls, c.2.2 = true → v c.1 = (1, 0)) → ∀ d d' : Data, OtherUnits v d d' → ∀ e : Data, setAll calls d = .ok (e, true) →
    ∃ e', setAll (calls.map fun c => (c.1, c.2.1.map (inUnits (v c.1)), c.2.2)) d' = .ok (e', true) ∧ OtherUnits v e e'
  | [], _, d, d', h, e, he => by
      simp only [setAll, Out.ok.injEq, Prod.mk.injEq, and_true] at he
      subst he
      exact ⟨d', rfl, h⟩
  | (f, xs, cat) :: calls, hc, d, d', h, e, he => by
      simp only [setAll] at he
      obtain ⟨r, e1, he⟩ := Out.bind_eq_ok.1 he
      obtain ⟨r', e2, e3, h4⟩ := setFeatureData_units hp h f xs (cat := cat) (hc (f, xs, cat) (by simp)) r e1
      cases hr : r.2 with
      | false =>
        rw [hr] at he
        simp only [Bool.false_eq_true, if_false, Out.pure_eq, Out.ok.injEq] at he
        rw [he] at hr
        cases hr
      | true =>
        rw [hr] at he
        simp only [if_true] at he
        obtain ⟨e', h5, h6⟩ := setAll_units hp calls (fun c hcc => hc c (by simp [hcc])) r.1 r'.1 h4 e he
        refine ⟨e', ?_, h6⟩
        simp only [List.map_cons, setAll, e2, Out.ok_bind, e3, hr, if_true]
        exact h5

theorem empty_units (cfg : Config) (nf ne : Nat) (hu : ∀ f, 0 < (v f).1 ∧ (v f).2 = 0) :
    OtherUnits v (Data.empty cfg nf ne) (Data.empty cfg nf ne) := by
  refine ⟨rfl, rfl, rfl, fun f => ?_⟩
  simp only [Data.empty, List.getElem?_replicate]
  split
  · simp only [Option.map_some, columnInUnits, List.map_replicate, Spec.inUnits, (hu f).2, mul_zero, add_zero]
  · rfl

/-- Columns in other units, from column `k` on. -/
def colsInUnits (v : Nat → ℚ × ℚ) (k : Nat) (cs : List Column) : List Column := cs.mapIdx fun f c => columnInUnits (v (k + f)) c

theorem colsInUnits_cons (k : Nat) (c : Column) (cs : List Column) :
    colsInUnits v k (c :: cs) = columnInUnits (v k) c :: colsInUnits v (k + 1) cs := by
  simp only [colsInUnits, List.mapIdx_cons, Nat.add_zero]
  congr 1
  refine List.ext_getElem? fun i => ?_
  simp only [List.getElem?_mapIdx, Nat.add_assoc, Nat.add_comm 1]

theorem pushRecord_units (hp : ∀ f, 0 < (v f).1) (n : Nat) : ∀ (cs : List Column) (k : Nat) (fields : List (Option Num)),
    (∀ f c, cs[f]? = some c → c.ftype = .loCardCat → v (k + f) = (1, 0)) → ∀ cs2, Data.pushRecord n cs fields = .ok cs2 →
    Data.pushRecord n (colsInUnits v k cs) (fields.mapIdx fun f x => x.map (inUnits (v (k + f)))) = .ok (colsInUnits v k cs2) ∧
      (∀ f c, cs2[f]? = some c → c.ftype = .loCardCat → v (k + f) = (1, 0)) ∧ cs2.length = cs.length
  | [], k, fields, _, cs2, e => by
      simp only [Data.pushRecord, Except.ok.injEq] at e
      subst e
      exact ⟨rfl, nofun, rfl⟩
  | c :: cs, k, [], _, cs2, e => by simp [Data.pushRecord] at e
  | c :: cs, k, x :: fields, hc, cs2, e => by
      cases x with
      | none => simp [Data.pushRecord] at e
      | some x =>
        simp only [Data.pushRecord, List.head?_cons, Option.join_some, List.tail_cons] at e
        rw [colsInUnits_cons, List.mapIdx_cons]
        simp only [Data.pushRecord, List.head?_cons, Option.map_some, Option.join_some, List.tail_cons, Nat.add_zero]
        have h0 : (c.ftype == FeatType.loCardCat) = true → v k = (1, 0) := fun h => by
          have := hc 0 c rfl (by simpa using h)
          simpa using this
        rw [show ({ columnInUnits (v k) c with values := (columnInUnits (v k) c).values ++ [inUnits (v k) x] } : Column) =
          columnInUnits (v k) { c with values := c.values ++ [x] } by
            simp only [columnInUnits, List.map_append, List.map_cons, List.map_nil],
          show (columnInUnits (v k) c).ftype = c.ftype from rfl, addStats_units (hp k) h0]
        have hty : (Data.addStats (c.ftype == .loCardCat) { c with values := c.values ++ [x] } x).1.ftype = c.ftype := by
          unfold Data.addStats
          simp only
          split <;> [split <;> rfl; rfl]
        revert e hty
        generalize Data.addStats (c.ftype == .loCardCat) { c with values := c.values ++ [x] } x = r
        obtain ⟨r, ok⟩ := r
        intro e hty
        cases ok with
        | false => simp at e
        | true =>
          simp only at e ⊢
          cases e1 : Data.pushRecord n cs fields with
          | error _ => rw [e1] at e; simp at e
          | ok cs3 =>
            rw [e1] at e
            simp only [Except.ok.injEq] at e
            subst e
            obtain ⟨i1, i2, i3⟩ := pushRecord_units hp n cs (k + 1) fields (fun f c' h1 h2 => by
              have := hc (f + 1) c' (by simpa using h1) h2
              rwa [show k + (f + 1) = k + 1 + f by omega] at this) cs3 e1
            rw [show (fun i (x : Option Num) => x.map (inUnits (v (k + (i + 1))))) =
              fun i (x : Option Num) => x.map (inUnits (v (k + 1 + i))) from
                funext fun i => by rw [show k + (i + 1) = k + 1 + i by omega], i1]
            refine ⟨by rw [colsInUnits_cons], fun f c' h1 h2 => ?_, by simp [i3]⟩
            cases f with
            | zero =>
              simp only [List.getElem?_cons_zero, Option.some.injEq] at h1
              subst h1
              simp only at hty
              exact h0 (by rw [← hty, h2]; rfl)
            | succ f =>
              rw [show k + (f + 1) = k + 1 + f by omega]
              exact i2 f c' (by simpa using h1) h2

theorem csvLoop_units (hp : ∀ f, 0 < (v f).1) (cats : List Nat) (hcat : ∀ f ∈ cats, v f = (1, 0)) :
    ∀ (items : List Data.CsvItem) (n : Nat) (cs : List Column),
    (∀ f c, cs[f]? = some c → c.ftype = .loCardCat → v f = (1, 0)) → ∀ m cs2, Data.csvLoop cats items n cs = .ok (m, cs2) →
    Data.csvLoop cats (items.map (itemInUnits v)) n (colsInUnits v 0 cs) = .ok (m, colsInUnits v 0 cs2)
  | [], n, cs, _, m, cs2, e => by
      simp only [Data.csvLoop, Except.ok.injEq, Prod.mk.injEq] at e
      obtain ⟨rfl, rfl⟩ := e
      rfl
  | .error :: items, n, cs, _, m, cs2, e => by simp [Data.csvLoop] at e
  | .record fields :: items, n, cs, hc, m, cs2, e => by
      simp only [Data.csvLoop] at e
      simp only [List.map_cons, itemInUnits, Data.csvLoop]
      have h0 : (if n = 0 then Data.initColumns cats (fields.mapIdx fun f x => x.map (inUnits (v f))).length
          else colsInUnits v 0 cs) = colsInUnits v 0 (if n = 0 then Data.initColumns cats fields.length else cs) := by
        split
        · refine List.ext_getElem? fun i => ?_
          simp only [Data.initColumns, colsInUnits, List.length_mapIdx, List.getElem?_mapIdx, List.getElem?_map,
            Nat.zero_add]
          cases h : (List.range fields.length)[i]? with
          | none => rfl
          | some j =>
            simp [columnInUnits, Spec.inUnits]
        · rfl
      have h1 : ∀ f c, (if n = 0 then Data.initColumns cats fields.length else cs)[f]? = some c → c.ftype = .loCardCat →
          v (0 + f) = (1, 0) := by
        intro f c hf ht
        rw [Nat.zero_add]
        split at hf
        · simp only [Data.initColumns, List.getElem?_map] at hf
          cases hj : (List.range fields.length)[f]? with
          | none => rw [hj] at hf; cases hf
          | some j =>
            have : j = f := by
              have := List.getElem?_eq_some_iff.1 hj
              obtain ⟨hl, hh⟩ := this
              rw [List.getElem_range] at hh
              exact hh.symm
            subst this
            rw [hj] at hf
            simp only [Option.map_some, Option.some.injEq] at hf
            subst hf
            simp only at ht
            by_contra hne
            rw [if_neg fun hm => hne (hcat _ hm)] at ht
            cases ht
        · exact hc f c hf ht
      rw [h0]
      revert e h1
      generalize (if n = 0 then Data.initColumns cats fields.length else cs) = cs0
      intro e h1
      cases e1 : Data.pushRecord n cs0 fields with
      | error _ => rw [e1] at e; simp at e
      | ok cs3 =>
        rw [e1] at e
        obtain ⟨i1, i2, _⟩ := pushRecord_units hp n cs0 0 fields h1 cs3 e1
        simp only [Nat.zero_add] at i1 i2
        rw [i1]
        exact csvLoop_units hp cats hcat items (n + 1) cs3 i2 m cs2 e

theorem fromCsv_units (hp : ∀ f, 0 < (v f).1) (hcat : ∀ f ∈ cfg.categoricalFeatures, v f = (1, 0)) (items : List Data.CsvItem)
    (header : Option (List String)) (d : Data) (e : Data.fromCsv cfg items header = .ok (.ok d)) :
    ∃ d', Data.fromCsv cfg (items.map (itemInUnits v)) header = .ok (.ok d') ∧ OtherUnits v d d' := by
  unfold Data.fromCsv at e ⊢
  cases e1 : Data.csvLoop cfg.categoricalFeatures items 0 [] with
  | error _ => rw [e1] at e; simp at e
  | ok r =>
    obtain ⟨m, cs⟩ := r
    rw [e1] at e
    have h1 := csvLoop_units hp _ hcat items 0 [] nofun m cs e1
    rw [show colsInUnits v 0 [] = [] from rfl] at h1
    rw [h1]
    simp only at e ⊢
    rw [show (colsInUnits v 0 cs).length = cs.length from List.length_mapIdx ..]
    cases e2 : Data.csvNames cfg.csvHasHeader header cs.length with
    | panic => rw [e2] at e; cases e
    | ub => rw [e2] at e; cases e
    | ok r =>
      rw [e2] at e
      simp only [Out.ok_bind] at e ⊢
      cases r with
      | error _ => simp at e
      | ok names =>
        simp only at e ⊢
        split at e
        · cases e
        · simp only [Out.pure_eq, Out.ok.injEq, Except.ok.injEq] at e
          subst e
          rename_i hne
          rw [if_neg hne]
          refine ⟨_, rfl, rfl, rfl, rfl, fun f => ?_⟩
          simp only [List.getElem?_map, colsInUnits, List.getElem?_mapIdx, Nat.zero_add]
          cases cs[f]? with
          | none => rfl
          | some c =>
            simp only [Option.map_some, Data.retype, show (columnInUnits (v f) c).card = c.card from rfl]
            split <;> rfl

end
end BitBoost
