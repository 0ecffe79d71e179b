import Verif.Lemmas.Scale
import Verif.Lemmas.Constant
/-! Helper lemmas: gradients, bounds and histograms multiplied by a positive number, in exact arithmetic, with categorical
features. -/
namespace BitBoost
open Spec

/-! ### Numbers -/

variable {a : ℚ}

theorem stretch_one (x : Num) : stretch 1 x = x := by cases x <;> simp [stretch]

theorem stretch_stretch (a b : ℚ) (x : Num) : stretch a (stretch b x) = stretch (a * b) x := by
  cases x <;> simp [stretch, mul_assoc]

theorem stretch_add (a : ℚ) (x y : Num) : FP.exact.add (stretch a x) (stretch a y) = stretch a (FP.exact.add x y) := by
  cases x <;> cases y <;> simp only [stretch, FP.add, FP.exact]
  congr 1; ring

theorem stretch_neg (a : ℚ) (x : Num) : (stretch a x).neg = stretch a x.neg := by
  cases x <;> simp [stretch, Num.neg]

theorem stretch_sub (a : ℚ) (x y : Num) : FP.exact.sub (stretch a x) (stretch a y) = stretch a (FP.exact.sub x y) := by
  unfold FP.sub
  rw [stretch_neg, stretch_add]

theorem stretch_abs (ha : 0 < a) (x : Num) : (stretch a x).abs = stretch a x.abs := by
  cases x <;> simp [stretch, Num.abs, abs_mul, abs_of_pos ha]

theorem exact_mul_comm (x y : Num) : FP.exact.mul x y = FP.exact.mul y x := by
  cases x <;> cases y <;> simp only [FP.mul, FP.exact, mul_comm]

theorem stretch_mul_left (ha : 0 < a) (x y : Num) : FP.exact.mul (stretch a x) y = stretch a (FP.exact.mul x y) := by
  rw [exact_mul_comm, stretch_mul ha, exact_mul_comm]

theorem stretch_div_any (ha : 0 < a) (x y : Num) : FP.exact.div (stretch a x) y = stretch a (FP.exact.div x y) := by
  have h1 : ∀ q : ℚ, (0 < a * q) = (0 < q) := fun q => by rw [mul_pos_iff_of_pos_left ha]
  have h2 : ∀ q : ℚ, (a * q < 0) = (q < 0) := fun q => by rw [mul_neg_iff]; simp [ha, not_lt.2 ha.le]
  have h3 : ∀ s : ℤ, stretch a (FP.infOf s) = FP.infOf s := fun s => by unfold FP.infOf; split <;> [rfl; split <;> rfl]
  have h4 : ∀ q : ℚ, FP.sgn (.fin (a * q)) = FP.sgn (.fin q) := fun q => by simp only [FP.sgn, h1, h2]
  cases x with
  | fin p =>
    cases y with
    | fin q =>
      rw [show stretch a (.fin p) = .fin (a * p) from rfl]
      simp only [FP.div, h4]
      split
      · rw [h3]
      · simp only [FP.exact, stretch, mul_div_assoc]
    | nan => rfl
    | pinf => simp [stretch, FP.div]
    | ninf => simp [stretch, FP.div]
  | nan => cases y <;> rfl
  | pinf =>
    cases y with
    | fin q => simp only [stretch, FP.div]; split <;> rfl
    | _ => rfl
  | ninf =>
    cases y with
    | fin q => simp only [stretch, FP.div]; split <;> rfl
    | _ => rfl

theorem stretch_lt (ha : 0 < a) (x y : Num) : (stretch a x).lt (stretch a y) = x.lt y := by
  rw [stretch_eq]; exact units_lt (u := (a, 0)) ha x y

theorem stretch_le (ha : 0 < a) (x y : Num) : (stretch a x).le (stretch a y) = x.le y := by
  rw [stretch_eq]; exact units_le (u := (a, 0)) ha x y

theorem stretch_min (ha : 0 < a) (x y : Num) : Num.min (stretch a x) (stretch a y) = stretch a (Num.min x y) := by
  rw [stretch_eq]; exact units_min (u := (a, 0)) ha x y

theorem stretch_max (ha : 0 < a) (x y : Num) : Num.max (stretch a x) (stretch a y) = stretch a (Num.max x y) := by
  rw [stretch_eq]; exact units_max (u := (a, 0)) ha x y

/-- A pair of bounds multiplied by `a`. -/
def stretch₂ (a : ℚ) (b : Num × Num) : Num × Num := (stretch a b.1, stretch a b.2)

theorem linproj_stretch (ha : 0 < a) (w : Nat) (v c lo hi : Num) :
    BitSlice.linproj .exact w v c (stretch a lo) (stretch a hi) = stretch a (BitSlice.linproj .exact w v c lo hi) := by
  unfold BitSlice.linproj
  rw [stretch_sub, stretch_mul ha, stretch_mul ha, stretch_add]

theorem discretise_stretch (ha : 0 < a) (w : Nat) (v lo hi : Num) :
    BitSlice.discretise .exact w (stretch a v) (stretch a lo) (stretch a hi) = BitSlice.discretise .exact w v lo hi := by
  unfold BitSlice.discretise
  simp only [stretch_max ha, stretch_min ha, stretch_sub, stretch_div ha]

end BitBoost

namespace BitBoost
open Spec Learner
variable {a : ℚ}

/-! ### Gains -/

theorem getLoss_stretch (ha : 0 < a) (cfg : Config) (g : Num) (n : Nat) :
    getLoss .exact cfg (stretch a g) n = stretch (a * a) (getLoss .exact cfg g n) := by
  unfold getLoss
  rw [stretch_mul ha, stretch_mul_left ha, stretch_stretch, stretch_div_any (mul_pos ha ha), stretch_mul (mul_pos ha ha)]

/-- A histogram value with the sum of gradients multiplied by `a`. -/
def HistVal.times (a : ℚ) (v : HistVal) : HistVal := ⟨stretch a v.gradSum, v.count⟩

theorem gain_stretch (ha : 0 < a) (cfg : Config) (pg : Num) (pc : Nat) (v : HistVal) :
    gain .exact cfg (stretch a pg) pc (v.times a) = stretch (a * a) (gain .exact cfg pg pc v) := by
  unfold gain HistVal.times
  simp only [getLoss_stretch ha, stretch_sub]

/-- Histograms multiplied by `a`. -/
def histsTimes (a : ℚ) (h : Hists) : Hists := h.map (·.map (HistVal.times a))

theorem histAt_times (h : Hists) (f b : Nat) :
    Out.Leads (fun v v' => v' = HistVal.times a v) (histAt h f b) (histAt (histsTimes a h) f b) := by
  unfold histAt histsTimes at?
  rw [List.getElem?_map]
  cases h[f]? with
  | none => intro a e; cases e
  | some hs =>
    simp only [Option.map_some, Out.ok_bind, List.getElem?_map]
    cases hs[b]? with
    | none => intro a e; cases e
    | some v => exact Out.Leads.ok rfl

variable {cfg : Config} {ds : Dataset}

theorem tryCandidate_times (ha : 0 < a) (pg : Num) (pc f b : Nat) (v : HistVal) (best : Num × Split) :
    Out.Leads (fun x y => y = (stretch (a * a) x.1, x.2)) (tryCandidate .exact cfg ds pg pc f b v best)
      (tryCandidate .exact (minGainTimes (a * a) cfg) ds (stretch a pg) pc f b (v.times a) (stretch (a * a) best.1, best.2)) := by
  have h : gain .exact (minGainTimes (a * a) cfg) (stretch a pg) pc (v.times a) = stretch (a * a) (gain .exact cfg pg pc v) :=
    gain_stretch ha cfg pg pc v
  unfold tryCandidate
  rw [h]
  simp only [stretch_lt (mul_pos ha ha)]
  rw [show (v.times a).count = v.count from rfl, show (minGainTimes (a * a) cfg).minExamplesLeaf = cfg.minExamplesLeaf from rfl]
  split
  · exact Out.Leads.ok rfl
  · split
    · exact .same fun c _ => Out.Leads.ok rfl
    · exact Out.Leads.ok rfl

theorem scanBins_times (ha : 0 < a) (pg : Num) (pc : Nat) (h : Hists) (f : Nat) : ∀ (k b : Nat) (best : Num × Split),
    Out.Leads (fun x y => y = (stretch (a * a) x.1, x.2)) (scanBins .exact cfg ds pg pc h f k b best)
      (scanBins .exact (minGainTimes (a * a) cfg) ds (stretch a pg) pc (histsTimes a h) f k b (stretch (a * a) best.1, best.2))
  | 0, _, _ => Out.Leads.ok rfl
  | k + 1, b, best => by
      unfold scanBins
      refine (histAt_times h f b).bind fun v v' _ hv => ?_
      rw [hv]
      refine (tryCandidate_times ha pg pc f b v best).bind fun x y _ hxy => ?_
      rw [hxy]
      exact scanBins_times ha pg pc h f k (b + 1) x

theorem scanFeatures_times (ha : 0 < a) (pg : Num) (pc : Nat) (h : Hists) : ∀ (fs : List Nat) (best : Num × Split),
    Out.Leads (fun x y => y = (stretch (a * a) x.1, x.2)) (Learner.scanFeatures .exact cfg ds pg pc h fs best)
      (Learner.scanFeatures .exact (minGainTimes (a * a) cfg) ds (stretch a pg) pc (histsTimes a h) fs
        (stretch (a * a) best.1, best.2))
  | [], _ => Out.Leads.ok rfl
  | f :: fs, best => by
      unfold Learner.scanFeatures
      refine .same fun n _ => (scanBins_times ha pg pc h f n 0 best).bind fun x y _ hxy => ?_
      rw [hxy]
      exact scanFeatures_times ha pg pc h fs x

theorem findBestSplit_times (ha : 0 < a) (pg : Num) (pc : Nat) (h : Hists) :
    Out.Leads Eq (findBestSplit .exact cfg ds pg pc h)
      (findBestSplit .exact (minGainTimes (a * a) cfg) ds (stretch a pg) pc (histsTimes a h)) := by
  unfold findBestSplit
  refine .same fun fs _ => ?_
  have : (minGainTimes (a * a) cfg).minGain = stretch (a * a) cfg.minGain := by rw [stretch_eq]; rfl
  rw [this]
  refine (scanFeatures_times ha pg pc h fs (cfg.minGain, noSplit)).bind fun x y _ hxy => Out.Leads.ok ?_
  rw [hxy]

/-! ### Nodes -/

/-- A node with all sums of gradients multiplied by `a`. -/
def Node.times (a : ℚ) (n : Node) : Node := { n with gradSum := stretch a n.gradSum, hists := histsTimes a n.hists }

theorem gradSum_times (ha : 0 < a) (w : Nat) (bs : Num × Num) (n : Node) (fm : Blocks) :
    Out.Leads (fun v v' => v' = HistVal.times a v) (gradSum .exact cfg w bs n fm)
      (gradSum .exact (minGainTimes (a * a) cfg) w (stretch₂ a bs) (n.times a) fm) := by
  unfold gradSum
  simp only [show (n.times a).compressed = n.compressed from rfl, show (n.times a).mask = n.mask from rfl,
    show (n.times a).idx = n.idx from rfl, show (n.times a).grads = n.grads from rfl,
    show (minGainTimes (a * a) cfg).minExamplesLeaf = cfg.minExamplesLeaf from rfl, stretch₂, linproj_stretch ha]
  have h0 : ∀ c : Nat, (⟨.fin 0, c⟩ : HistVal) = HistVal.times a ⟨.fin 0, c⟩ := fun c => by simp [HistVal.times, stretch]
  split
  · refine .same fun c _ => ?_
    split
    · exact Out.Leads.ok (h0 _)
    · exact .same fun s _ => Out.Leads.ok rfl
  · refine .same fun c _ => ?_
    split
    · exact Out.Leads.ok (h0 _)
    · exact .same fun s _ => Out.Leads.ok rfl

theorem setHist_times (h : Hists) (f b : Nat) (v : HistVal) :
    Out.Leads (fun x y => y = histsTimes a x) (setHist h f b v) (setHist (histsTimes a h) f b (v.times a)) := by
  unfold setHist
  refine Out.Leads.bind (R := fun x y => y = x.map (HistVal.times a)) ?_ fun x y _ hxy => ?_
  · unfold at? histsTimes
    rw [List.getElem?_map]
    cases h[f]? with
    | none => intro a e; cases e
    | some hs => exact Out.Leads.ok rfl
  · rw [hxy, List.length_map]
    refine .same fun _ _ => Out.Leads.ok ?_
    simp only [histsTimes, List.map_set]

theorem runJobs_times {job job' : Nat → Nat → Out HistVal}
    (hj : ∀ f b, Out.Leads (fun v v' => v' = HistVal.times a v) (job f b) (job' f b)) : ∀ (js : List (Nat × Nat)) (h : Hists),
    Out.Leads (fun x y => y = histsTimes a x) (runJobs job js h) (runJobs job' js (histsTimes a h))
  | [], h => Out.Leads.ok rfl
  | (f, b) :: js, h => by
      unfold runJobs
      refine (hj f b).bind fun v v' _ hv => ?_
      rw [hv]
      refine (setHist_times h f b v).bind fun x y _ hxy => ?_
      rw [hxy]
      exact runJobs_times hj js x

theorem buildHists_times (ha : 0 < a) (w : Nat) (bs : Num × Num) (n : Node) :
    Out.Leads (fun x y => y = Node.times a x) (buildHists .exact cfg ds w bs n)
      (buildHists .exact (minGainTimes (a * a) cfg) ds w (stretch₂ a bs) (n.times a)) := by
  unfold buildHists
  refine .same fun fs _ => .same fun js _ => ?_
  refine (runJobs_times (job' := histJob .exact (minGainTimes (a * a) cfg) ds w (stretch₂ a bs) (n.times a)) (fun f b => ?_) js
    n.hists).bind fun x y _ hxy => Out.Leads.ok ?_
  · unfold histJob
    exact .same fun fm _ => gradSum_times ha w bs n fm
  · rw [hxy]; rfl

theorem newHists_times {d : Data} {h : Hists} (e : newHists d = .ok h) : histsTimes a h = h := by
  unfold newHists at e
  obtain ⟨ns, _, e⟩ := Out.bind_eq_ok.1 e
  obtain ⟨_, _, e⟩ := Out.bind_eq_ok.1 e
  simp only [Out.pure_eq, Out.ok.injEq] at e
  rw [← e, histsTimes, List.map_map]
  refine List.map_congr_left fun n _ => ?_
  simp only [Function.comp, List.map_replicate]
  congr 1
  simp [HistVal.times, HistVal.zero, stretch]

theorem compress_hists {w : Nat} {p c x : Node} {k : Nat} (e : compress w p c k = .ok x) : x.hists = c.hists := by
  unfold compress at e
  obtain ⟨_, _, e⟩ := Out.bind_eq_ok.1 e
  obtain ⟨_, _, e⟩ := Out.bind_eq_ok.1 e
  obtain ⟨_, _, e⟩ := Out.bind_eq_ok.1 e
  obtain ⟨_, _, e⟩ := Out.bind_eq_ok.1 e
  simp only [Out.pure_eq, Out.ok.injEq] at e
  rw [← e]

theorem splitExamples_hists {F : FP} {w c : Nat} {p x : Node} {s : Split} {neg : Bool} (e : splitExamples F cfg ds w p c s neg = .ok x) :
    histsTimes a x.hists = x.hists := by
  unfold splitExamples at e
  obtain ⟨fm, _, e⟩ := Out.bind_eq_ok.1 e
  obtain ⟨h, eh, e⟩ := Out.bind_eq_ok.1 e
  obtain ⟨_, _, e⟩ := Out.bind_eq_ok.1 e
  obtain ⟨r, _, e⟩ := Out.bind_eq_ok.1 e
  have hh : x.hists = h := by
    simp only at e
    split at e
    · obtain ⟨_, _, e⟩ := Out.bind_eq_ok.1 e
      rw [compress_hists e]
    · simp only [Out.pure_eq, Out.ok.injEq] at e
      rw [← e]
  rw [hh, newHists_times eh]

theorem subHists_times (p l : Hists) : subHists .exact (histsTimes a p) (histsTimes a l) = histsTimes a (subHists .exact p l) := by
  unfold subHists histsTimes
  rw [List.zipWith_map, List.map_zipWith]
  congr 1
  funext x y
  rw [List.zipWith_map, List.map_zipWith]
  congr 1
  funext v v'
  simp only [HistVal.sub, HistVal.times, stretch_sub]

theorem rightNode_times (sub : Nat → Nat → Nat) (p left right : Node) (l : HistVal) :
    rightNode .exact sub (p.times a) (left.times a) right (l.times a) = Node.times a (rightNode .exact sub p left right l) := by
  unfold rightNode Node.times HistVal.times
  simp only [subHists_times, stretch_sub]

theorem leftNode_times {left : Node} (h : histsTimes a left.hists = left.hists) (l : HistVal) :
    leftNode left (l.times a) = Node.times a (leftNode left l) := by
  unfold leftNode Node.times HistVal.times
  simp only [h]

theorem childNodes_times (ha : 0 < a) (w : Nat) (bs : Num × Num) (p : Node) (s : Split) :
    Out.Leads (fun x y => y = (Node.times a x.1, Node.times a x.2)) (childNodes .exact cfg ds w bs p s)
      (childNodes .exact (minGainTimes (a * a) cfg) ds w (stretch₂ a bs) (p.times a) s) := by
  have hs : ∀ c neg, splitExamples .exact (minGainTimes (a * a) cfg) ds w (p.times a) c s neg =
      splitExamples .exact cfg ds w p c s neg := fun _ _ => rfl
  rw [childNodes_eq, childNodes_eq]
  generalize subU32 = sub
  simp only [hs, show (p.times a).hists = histsTimes a p.hists from rfl, show (p.times a).nodeId = p.nodeId from rfl]
  refine (histAt_times p.hists _ _).bind fun v v' _ hv => ?_
  rw [hv]
  refine .same fun l el => ?_
  rw [leftNode_times (splitExamples_hists el)]
  refine (buildHists_times ha w bs _).bind fun x y _ hxy => ?_
  rw [hxy]
  refine .same fun r er => ?_
  rw [rightNode_times]
  exact Out.Leads.ok rfl

theorem fillGrads_times (ha : 0 < a) (w : Nat) (bs : Num × Num) (g : List Num) : ∀ (ps : List (Nat × Nat)) (sum : Nat) (b : Blocks),
    fillGrads .exact w (stretch₂ a bs) (g.map (stretch a)) ps sum b = fillGrads .exact w bs g ps sum b
  | [], _, _ => rfl
  | (i, j) :: ps, sum, b => by
      simp only [fillGrads, at?, List.getElem?_map]
      cases g[j]? with
      | none => rfl
      | some v =>
        simp only [Option.map_some, Out.ok_bind, BitSlice.setScaledValue, stretch₂, discretise_stretch ha]
        refine bind_congr fun r => ?_
        exact fillGrads_times ha w bs g ps _ _

theorem rootNode_times (ha : 0 < a) (w : Nat) {o o' : Objective} (hg : o'.gradients = o.gradients.map (stretch a))
    (hb : o'.bounds = stretch₂ a o.bounds) :
    Out.Leads (fun x y => y = Node.times a x) (rootNode .exact cfg ds w o)
      (rootNode .exact (minGainTimes (a * a) cfg) ds w o') := by
  unfold rootNode
  rw [hg, hb]
  simp only [fillGrads_times ha]
  refine .same fun g _ => .same fun m _ => .same fun i _ => .same fun _ _ => .same fun ps _ => .same fun r _ => .same fun h eh => ?_
  have := buildHists_times (cfg := cfg) (ds := ds) ha w o.bounds
    { nodeId := 0, exampleCount := ds.nactiveExamples
      gradSum := BitSlice.linproj .exact w (FP.exact.ofNat r.1) (FP.exact.ofNat ds.nactiveExamples) o.bounds.1 o.bounds.2
      compressed := false, hists := h, idx := i, mask := m, grads := r.2 }
  unfold Node.times at this
  simp only [newHists_times eh] at this
  simp only [stretch₂, linproj_stretch ha] at this ⊢
  exact this

end BitBoost
