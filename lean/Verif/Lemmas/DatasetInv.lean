import Verif.Lemmas.Dataset
import Verif.Lemmas.Tree
import Verif.Spec.Dataset
/-! The invariant of all reachable data sets. -/
namespace BitBoost
namespace Dataset
open Spec

theorem allocMany_spec (n : Nat) : ∀ (m : Nat) (bs : List Blocks), allocMany n m = .ok bs →
    bs.length = m ∧ (∀ b ∈ bs, b.length = (n + 255) / 256) ∧ (0 < m → 0 < n) := by
  intro m
  induction m with
  | zero => intro bs h; simp only [allocMany, Out.ok.injEq] at h; subst h; simp
  | succ m ih =>
    intro bs h
    simp only [allocMany] at h
    obtain ⟨b, e1, h⟩ := Out.bind_eq_ok.1 h
    obtain ⟨bs', e2, h⟩ := Out.bind_eq_ok.1 h
    simp only [Out.pure_eq, Out.ok.injEq] at h
    subst h
    obtain ⟨h1, h2, h3⟩ := ih bs' e2
    have hn : 0 < n := by
      rcases Nat.eq_zero_or_pos n with rfl | hn
      · unfold allocZero Blocks.zeroBits Blocks.zeroBlocks at e1
        rw [if_neg (by decide)] at e1; cases e1
      · exact hn
    obtain ⟨z, z1, z2, _⟩ := Blocks.zeroBits_spec n hn
    unfold allocZero at e1
    rw [z1] at e1; cases e1
    refine ⟨by simp [h1], fun x hx => ?_, fun _ => hn⟩
    rcases List.mem_cons.1 hx with rfl | hx
    · exact z2
    · exact h2 x hx

theorem scanFeatures_spec (d : Data) (n : Nat) : ∀ (k feat : Nat) (u : List Nat) (bv : List (List Blocks))
    (h : Bool), scanFeatures d n k feat = .ok (u, bv, h) →
    bv.length = k ∧ u.Pairwise (· < ·) ∧ (∀ f ∈ u, feat ≤ f ∧ f < feat + k) ∧
    (∀ f, feat ≤ f → f < feat + k → ∃ c bvs, d.cols[f]? = some c ∧ bv[f - feat]? = some bvs ∧
      (∀ b ∈ bvs, b.length = (n + 255) / 256) ∧
      (f ∈ u ↔ Data.colMaxNbins d.maxNbins c ≠ 0 ∧ c.lo.eqb c.hi = false) ∧
      (f ∈ u → bvs.length = Data.colMaxNbins d.maxNbins c) ∧
      (f ∈ u → h = false → c.ftype = .loCardCat)) ∧
    (u ≠ [] → 0 < n) := by
  intro k
  induction k with
  | zero =>
    intro feat u bv h e
    simp only [scanFeatures, Out.ok.injEq, Prod.mk.injEq] at e
    obtain ⟨rfl, rfl, rfl⟩ := e
    simp
  | succ k ih =>
    intro feat u bv h e
    simp only [scanFeatures] at e
    obtain ⟨c, e1, e⟩ := Out.bind_eq_ok.1 e
    unfold column at e1
    rw [at?_ok] at e1
    by_cases hu : Data.colMaxNbins d.maxNbins c = 0 ∨ c.lo.eqb c.hi = true
    · rw [if_pos hu] at e
      obtain ⟨⟨u', bv', h'⟩, e2, e⟩ := Out.bind_eq_ok.1 e
      simp only [Out.pure_eq, Out.ok.injEq, Prod.mk.injEq] at e
      obtain ⟨rfl, rfl, rfl⟩ := e
      obtain ⟨i1, i2, i3, i4, i5⟩ := ih _ _ _ _ e2
      refine ⟨by simp [i1], i2, fun f hf => by have := i3 f hf; omega, ?_, i5⟩
      intro f h1 h2
      by_cases hf : f = feat
      · subst hf
        refine ⟨c, [], e1, by simp, by simp, ?_, ?_, ?_⟩
        · constructor
          · intro hf; have := i3 f hf; omega
          · rintro ⟨h1, h2⟩
            rcases hu with hu | hu
            · exact absurd hu h1
            · rw [hu] at h2; cases h2
        · intro hf; have := i3 f hf; omega
        · intro hf; have := i3 f hf; omega
      · obtain ⟨c', bvs, g1, g2, g3⟩ := i4 f (by omega) (by omega)
        refine ⟨c', bvs, g1, ?_, g3⟩
        rw [show f - feat = (f - (feat + 1)) + 1 by omega]
        simpa using g2
    · rw [if_neg hu] at e
      obtain ⟨b, e3, e⟩ := Out.bind_eq_ok.1 e
      obtain ⟨⟨u', bv', h'⟩, e2, e⟩ := Out.bind_eq_ok.1 e
      simp only [Out.pure_eq, Out.ok.injEq, Prod.mk.injEq] at e
      obtain ⟨rfl, rfl, rfl⟩ := e
      obtain ⟨i1, i2, i3, i4, i5⟩ := ih _ _ _ _ e2
      obtain ⟨a1, a2, a3⟩ := allocMany_spec _ _ _ e3
      rw [not_or] at hu
      refine ⟨by simp [i1], List.pairwise_cons.2 ⟨fun x hx => by have := i3 x hx; omega, i2⟩, ?_, ?_, ?_⟩
      · intro f hf
        rcases List.mem_cons.1 hf with rfl | hf
        · omega
        · have := i3 f hf; omega
      · intro f h1 h2
        by_cases hf : f = feat
        · subst hf
          refine ⟨c, b, e1, by simp, a2, ?_, fun _ => a1, ?_⟩
          · simp only [List.mem_cons, true_or, true_iff]
            exact ⟨hu.1, by simpa using hu.2⟩
          · intro _ hh
            simp only [Bool.or_eq_false_iff] at hh
            simpa using hh.1
        · obtain ⟨c', bvs, g1, g2, g3, g4, g5, g6⟩ := i4 f (by omega) (by omega)
          refine ⟨c', bvs, g1, ?_, g3, ?_, ?_, ?_⟩
          · rw [show f - feat = (f - (feat + 1)) + 1 by omega]
            simpa using g2
          · rw [List.mem_cons]; simp only [hf, false_or]; exact g4
          · rw [List.mem_cons]; simp only [hf, false_or]; exact g5
          · rw [List.mem_cons]; simp only [hf, false_or]
            intro x1 x2
            simp only [Bool.or_eq_false_iff] at x2
            exact g6 x1 x2.2
      · intro _
        exact a3 (Nat.pos_of_ne_zero hu.1)

/-- The rows of the sample. -/
def rowsOf (ds : Dataset) : List Nat :=
  if ds.indexBuffer = [] then List.range ds.data.nexamples else ds.indexBuffer.take ds.nactiveExamples

structure Inv0 (F : FP) (cfg : Config) (d : Data) (k : Nat) (ds : Dataset) : Prop where
  data : ds.data = d
  uc : ds.updateCount = k
  ne : ds.nactiveExamples = share F d.nexamples cfg.exampleFraction
  nf : ds.nactiveFeatures = share F ds.useful.length cfg.featureFraction
  lbv : ds.bitvecs.length = d.nfeatures
  lnb : ds.usedNbins.length = d.nfeatures
  lsc : ds.splitCandidates.length = d.nfeatures
  lsup : ds.supercats.length = if k = 0 then 0 else d.nfeatures
  lens : ∀ (f : Nat) (bvs : List Blocks), ds.bitvecs[f]? = some bvs →
    ∀ b ∈ bvs, b.length = (ds.nactiveExamples + 255) / 256
  feat : ∀ f ∈ ds.useful, ∃ (c : Column) (bvs : List Blocks), d.cols[f]? = some c ∧
    ds.bitvecs[f]? = some bvs ∧ bvs.length = Data.colMaxNbins d.maxNbins c
  useful : ∀ f, f ∈ ds.useful ↔ Useful d f
  nodup : ds.useful.Nodup
  sorted : (ds.useful.take ds.nactiveFeatures).Pairwise (· ≤ ·)
  pos : ds.useful ≠ [] → 0 < ds.nactiveExamples
  nonlo : ds.hasNonLocard = false → ∀ f ∈ ds.useful, ∀ c, d.cols[f]? = some c → c.ftype = .loCardCat
  bag : if cfg.exampleFraction.lt (.fin 1) = true
    then ds.indexBuffer.Perm (List.range d.nexamples) ∧
      (ds.indexBuffer.take ds.nactiveExamples).Pairwise (· ≤ ·)
    else ds.indexBuffer = []
  lo : ds.indexBuffer = [] → ∀ f ∈ ds.useful, ∀ c, d.cols[f]? = some c → c.ftype = .loCardCat →
    FeatOk F cfg (List.range d.nexamples) ds f
  feats : ∀ f ∈ ds.useful.take ds.nactiveFeatures, ds.usedNbins[f]? = some 0 ∨ FeatOk F cfg (rowsOf ds) ds f

structure Inv (F : FP) (cfg : Config) (d : Data) (k : Nat) (ds : Dataset) : Prop extends
    Inv0 F cfg d k ds where
  done : k ≠ 0 → cfg.sampleFreq ≠ 0 →
    ∀ f ∈ ds.useful.take ds.nactiveFeatures, FeatOk F cfg (rowsOf ds) ds f
  fit : k ≠ 0 → cfg.sampleFreq ≠ 0 → ds.indexBuffer ≠ [] → ds.nactiveExamples ≤ d.nexamples

theorem share_zero (F : FP) (f : Num) : share F 0 f = 0 := by
  unfold share
  have h0 : F.ofNat 0 = .fin 0 := F.ofNat_eq (by norm_num)
  rw [h0]
  cases f with
  | fin q =>
    rw [FP.mul_fin, zero_mul, F.rnd_zero]
    simp [Num.round, Num.roundAway, Num.toUsize, Num.cast, Num.trunc]
    norm_num
  | pinf => simp [FP.mul, FP.sgn, FP.infOf, Num.round, Num.toUsize, Num.cast]
  | ninf => simp [FP.mul, FP.sgn, FP.infOf, Num.round, Num.toUsize, Num.cast]
  | nan => simp [FP.mul, Num.round, Num.toUsize, Num.cast]

theorem inv_new {F : FP} {cfg : Config} {d : Data} {rng : Rng} {ds : Dataset}
    (h : Dataset.new F cfg d rng = .ok ds) : Inv F cfg d 0 ds := by
  unfold Dataset.new at h
  obtain ⟨ds0, e0, h⟩ := Out.bind_eq_ok.1 h
  unfold inner at e0
  obtain ⟨⟨u, bv, hn⟩, e1, e0⟩ := Out.bind_eq_ok.1 e0
  simp only [Out.pure_eq, Out.ok.injEq] at e0
  obtain ⟨s1, s2, s3, s4, s5⟩ := scanFeatures_spec _ _ _ _ _ _ _ e1
  simp only [Nat.zero_le, Nat.zero_add, true_and, Nat.sub_zero, forall_true_left] at s3 s4
  -- facts common to both branches
  have hnd : u.Nodup := s2.imp (by intro a b hab; omega)
  have hsorted : ∀ k, (u.take k).Pairwise (· ≤ ·) := fun k =>
    (s2.imp (by intro a b hab; exact Nat.le_of_lt hab)).sublist (List.take_sublist _ _)
  have huse : ∀ f, f ∈ u ↔ Useful d f := by
    intro f
    constructor
    · intro hf
      obtain ⟨c, bvs, g1, g2, g3, g4, _⟩ := s4 f (s3 f hf)
      exact ⟨s3 f hf, c, g1, g4.1 hf⟩
    · rintro ⟨h1, c, h2, h3⟩
      obtain ⟨c', bvs, g1, g2, g3, g4, _⟩ := s4 f h1
      rw [h2] at g1; cases g1
      exact g4.2 h3
  have hfeat : ∀ f ∈ u, ∃ (c : Column) (bvs : List Blocks), d.cols[f]? = some c ∧
      bv[f]? = some bvs ∧ bvs.length = Data.colMaxNbins d.maxNbins c := by
    intro f hf
    obtain ⟨c, bvs, g1, g2, g3, g4, g5, _⟩ := s4 f (s3 f hf)
    exact ⟨c, bvs, g1, g2, g5 hf⟩
  have hlens : ∀ (f : Nat) (bvs : List Blocks), bv[f]? = some bvs →
      ∀ b ∈ bvs, b.length = (share F d.nexamples cfg.exampleFraction + 255) / 256 := by
    intro f bvs hb
    have hlt : f < d.nfeatures := by
      have := (List.getElem?_eq_some_iff.1 hb).1; omega
    obtain ⟨c, bvs', g1, g2, g3, _⟩ := s4 f hlt
    rw [hb] at g2; cases g2
    exact g3
  have hnonlo : hn = false → ∀ f ∈ u, ∀ c, d.cols[f]? = some c → c.ftype = .loCardCat := by
    intro h0 f hf c hc
    obtain ⟨c', bvs', g1, g2, g3, _, _, g6⟩ := s4 f (s3 f hf)
    rw [hc] at g1; cases g1
    exact g6 hf h0
  have hzero : ∀ f ∈ u, (List.replicate d.nfeatures 0)[f]? = some 0 := by
    intro f hf
    rw [List.getElem?_replicate_of_lt (s3 f hf)]
  by_cases hb : cfg.exampleFraction.lt (.fin 1) = true
  · rw [if_pos hb] at h
    simp only [Out.pure_eq, Out.ok.injEq] at h
    subst e0 h
    refine ⟨⟨rfl, rfl, rfl, rfl, s1, by simp, by simp, by simp, hlens, hfeat, huse, hnd, hsorted _, s5,
      hnonlo, ?_, ?_, ?_⟩, fun h => absurd rfl h, fun h => absurd rfl h⟩
    · rw [if_pos hb]
      refine ⟨List.Perm.refl _, ?_⟩
      exact ((List.pairwise_lt_range (n := d.nexamples)).imp (by intro a b hab; exact Nat.le_of_lt hab)).sublist
        (List.take_sublist _ _)
    · intro h0 f hf
      simp only at h0 hf
      exfalso
      have hn0 : d.nexamples = 0 := by simpa using h0
      have := s5 (List.ne_nil_of_mem hf)
      rw [hn0, share_zero] at this
      omega
    · intro f hf
      exact Or.inl (hzero f (List.mem_of_mem_take hf))
  · rw [if_neg hb] at h
    subst e0
    simp only at h
    obtain ⟨i1, i2, i3, i4⟩ := initLocard_spec (F := F) (cfg := cfg) _ _ _ hnd hfeat h
    have hu' : ds.useful = u := i1.useful
    refine ⟨⟨i1.data, i1.uc, i1.ne, ?_, by rw [i1.lbv]; exact s1, by rw [i1.lnb]; simp, by rw [i1.lsc]; simp,
      by rw [i1.lsup]; simp, ?_, ?_, ?_, ?_, ?_, ?_, ?_, ?_, ?_, ?_⟩, fun h => absurd rfl h,
      fun h => absurd rfl h⟩
    · rw [i1.nf, hu']
    · intro f bvs hb'
      have hf : f < bv.length := by
        have := (List.getElem?_eq_some_iff.1 hb').1
        have e := i1.lbv
        simp only at e; omega
      obtain ⟨b2, g1, g2, g3⟩ := i1.lens f bv[f] (List.getElem?_eq_getElem hf)
      rw [hb'] at g1; cases g1
      rw [i1.ne]
      exact g3 _ (hlens f _ (List.getElem?_eq_getElem hf))
    · intro f hf
      rw [hu'] at hf
      obtain ⟨c, bvs, g1, g2, g3⟩ := hfeat f hf
      obtain ⟨b2, y1, y2, _⟩ := i1.lens f bvs g2
      exact ⟨c, b2, g1, y1, y2.trans g3⟩
    · rw [hu']; exact huse
    · rw [hu']; exact hnd
    · rw [hu', i1.nf]; exact hsorted _
    · rw [hu', i1.ne]; exact s5
    · rw [hu', i1.nonlo]; exact hnonlo
    · rw [if_neg hb]; exact i1.ib
    · intro _ f hf c hc ht
      rw [hu'] at hf
      exact (i2 f hf c hc).1 ht
    · intro f hf
      rw [hu'] at hf
      have hfu := List.mem_of_mem_take hf
      obtain ⟨c, bvs, g1, _⟩ := hfeat f hfu
      by_cases ht : c.ftype = .loCardCat
      · right
        have e : rowsOf ds = List.range d.nexamples := by
          unfold rowsOf; rw [i1.ib, i1.data]; simp
        rw [e]
        exact (i2 f hfu c g1).1 ht
      · left
        rw [(i2 f hfu c g1).2 ht]
        exact hzero f hfu

theorem FeatOk.congr {F : FP} {cfg : Config} {rows : List Nat} {ds ds' : Dataset} {f : Nat}
    (h : FeatOk F cfg rows ds f) (h1 : ds'.data = ds.data) (h2 : ds'.bitvecs[f]? = ds.bitvecs[f]?)
    (h3 : ds'.usedNbins[f]? = ds.usedNbins[f]?) (h4 : ∀ sc, ds.supercats[f]? = some sc → ds'.supercats[f]? = some sc)
    (h5 : ds'.splitCandidates[f]? = ds.splitCandidates[f]?) : FeatOk F cfg rows ds' f := by
  unfold FeatOk at *
  rw [h1, h2, h3, h5]
  obtain ⟨c, bvs, nb, a1, a2, a3, a4, a5⟩ := h
  refine ⟨c, bvs, nb, a1, a2, a3, a4, ?_⟩
  cases ht : c.ftype with
  | loCardCat => rw [ht] at a5; exact a5
  | hiCardCat =>
    rw [ht] at a5
    obtain ⟨b1, b2, sc, b3, b4⟩ := a5
    exact ⟨b1, b2, sc, h4 sc b3, b4⟩
  | numerical => rw [ht] at a5; exact a5

theorem prefix_ok {α : Type} {l l' : List α} {n : Nat} : prefix' l n = .ok l' ↔ n ≤ l.length ∧ l' = l.take n := by
  unfold prefix'
  split
  · simp [*, eq_comm]
  · simp [*]

/-- The part of the invariant that does not mention the masks of the active features, for the state after
the sampling. -/
theorem inv_refresh {F : FP} {cfg : Config} {d : Data} {k : Nat} {ds ds' : Dataset} {grad : List Num}
    {bounds : Num × Num} (hi : Inv0 F cfg d k ds)
    (h : refresh F cfg ds grad bounds = .ok ds') : Inv F cfg d k ds' := by
  unfold refresh at h
  obtain ⟨ds1, e1, h⟩ := Out.bind_eq_ok.1 h
  -- feature sampling
  have step1 : ds1.useful.Perm ds.useful ∧ (ds1.useful.take ds1.nactiveFeatures).Pairwise (· ≤ ·) ∧
      (∃ r, ds1 = { ds with useful := ds1.useful, rng := r }) := by
    unfold sampleFeatures at e1
    split at e1
    · obtain ⟨⟨u, r⟩, e2, e1⟩ := Out.bind_eq_ok.1 e1
      simp only [Out.pure_eq, Out.ok.injEq] at e1
      subst e1
      obtain ⟨p1, p2, p3⟩ := shuffleFirstK_spec e2
      exact ⟨p1, p3, r, rfl⟩
    · simp only [Out.ok.injEq] at e1
      subst e1
      exact ⟨List.Perm.refl _, hi.sorted, ds.rng, rfl⟩
  obtain ⟨hperm, hsort, r1, hds1⟩ := step1
  have hmem : ∀ f, f ∈ ds1.useful ↔ f ∈ ds.useful := fun f => hperm.mem_iff
  have hnd1 : ds1.useful.Nodup := hperm.nodup_iff.2 hi.nodup
  have hlen1 : ds1.useful.length = ds.useful.length := hperm.length_eq
  generalize ds1.useful = u at *
  subst hds1
  by_cases hs : exampleSampling ({ ds with useful := u, rng := r1 } : Dataset) = true
  · rw [if_pos hs] at h
    have hib : ds.indexBuffer ≠ [] := by
      intro h0; unfold exampleSampling at hs; simp [h0] at hs
    have hbag := hi.bag
    have hlt : cfg.exampleFraction.lt (.fin 1) = true := by
      by_contra hc
      rw [if_neg hc] at hbag; exact hib hbag
    rw [if_pos hlt] at hbag
    obtain ⟨ds2, e2, h⟩ := Out.bind_eq_ok.1 h
    obtain ⟨rows, e3, h⟩ := Out.bind_eq_ok.1 h
    obtain ⟨feats, e4, h⟩ := Out.bind_eq_ok.1 h
    unfold sampleExamples at e2
    obtain ⟨⟨buf, r2⟩, e5, e2⟩ := Out.bind_eq_ok.1 e2
    simp only [Out.pure_eq, Out.ok.injEq] at e2
    subst e2
    obtain ⟨p1, p2, p3⟩ := shuffleFirstK_spec e5
    simp only at p1 p2 p3
    rw [prefix_ok] at e3 e4
    obtain ⟨q1, rfl⟩ := e3
    obtain ⟨q2, rfl⟩ := e4
    simp only at q1 q2
    obtain ⟨f1, f2⟩ := updateFeatures_spec (L := (ds.nactiveExamples + 255) / 256) _ _ _
      (hnd1.sublist (List.take_sublist _ _)) (by
        intro f hf
        obtain ⟨c, bvs, g1, g2, g3⟩ := hi.feat f ((hmem f).1 (List.mem_of_mem_take hf))
        refine ⟨c, bvs, ?_, g2, ?_, hi.lens f bvs g2, fun _ h => absurd h (by simp)⟩
        · simp only; rw [hi.data]; exact g1
        · simp only; rw [hi.data]; exact g3) h
    simp only at f1 f2
    have hne' : ds'.nactiveExamples = ds.nactiveExamples := f1.ne
    have hib' : ds'.indexBuffer = buf := f1.ib
    have hbufne : buf ≠ [] := by
      intro h0; rw [h0] at p1; exact hib (List.Perm.nil_eq p1).symm
    have hu' : ds'.useful = u := f1.useful
    have hnf' : ds'.nactiveFeatures = ds.nactiveFeatures := f1.nf
    have hrows : rowsOf ds' = buf.take ds.nactiveExamples := by
      unfold rowsOf; rw [hib', if_neg hbufne, hne']
    refine ⟨⟨f1.data.trans hi.data, f1.uc.trans hi.uc, hne'.trans hi.ne, ?_, f1.lbv.trans hi.lbv,
      f1.lnb.trans hi.lnb, f1.lsc.trans hi.lsc, f1.lsup.trans hi.lsup, ?_, ?_, ?_, ?_, ?_, ?_, ?_, ?_, ?_, ?_⟩,
      ?_, ?_⟩
    · rw [hnf', hi.nf, hu', hlen1]
    · intro f bvs hb
      have hf : f < ds.bitvecs.length := by
        have := (List.getElem?_eq_some_iff.1 hb).1
        have e := f1.lbv
        simp only at e; omega
      obtain ⟨b2, g1, g2, g3⟩ := f1.lens f ds.bitvecs[f] (List.getElem?_eq_getElem hf)
      rw [hb] at g1; cases g1
      rw [hne']
      exact g3 _ (hi.lens f _ (List.getElem?_eq_getElem hf))
    · intro f hf
      rw [hu', hmem] at hf
      obtain ⟨c, bvs, g1, g2, g3⟩ := hi.feat f hf
      obtain ⟨b2, y1, y2, _⟩ := f1.lens f bvs g2
      exact ⟨c, b2, g1, y1, y2.trans g3⟩
    · intro f; rw [hu', hmem]; exact hi.useful f
    · rw [hu']; exact hnd1
    · rw [hu', hnf']; exact hsort
    · intro hne
      rw [hne']
      apply hi.pos
      intro h0
      rw [hu'] at hne
      rw [h0] at hperm
      exact hne (List.Perm.nil_eq hperm.symm).symm
    · rw [f1.nonlo, hu']
      intro h0 f hf
      exact hi.nonlo h0 f ((hmem f).1 hf)
    · rw [if_pos hlt, hib', hne']
      exact ⟨p1.trans hbag.1, p3⟩
    · intro h0; rw [hib'] at h0; exact absurd h0 hbufne
    · intro f hf
      rw [hrows]
      rw [hu', hnf'] at hf
      exact Or.inr (f2 f hf)
    · intro _ _ f hf
      rw [hrows]
      rw [hu', hnf'] at hf
      exact f2 f hf
    · intro _ _ _
      rw [hne']
      have := hbag.1.length_eq
      simp at this
      omega
  · rw [if_neg hs] at h
    have hib : ds.indexBuffer = [] := by
      unfold exampleSampling at hs; simpa using hs
    have hrows0 : ∀ ds2 : Dataset, ds2.indexBuffer = [] → ds2.data = d → rowsOf ds2 = List.range d.nexamples := by
      intro ds2 a b; unfold rowsOf; rw [if_pos a, b]
    -- the state before the features are updated satisfies everything but `feats`, `done`
    have core : ∀ ds2 : Dataset, Frame (u.take ds.nactiveFeatures) { ds with useful := u, rng := r1 } ds2 →
        (∀ f ∈ u.take ds.nactiveFeatures, FeatOk F cfg (List.range d.nexamples) ds2 f) →
        Inv F cfg d k ds2 := by
      intro ds2 f1 f2
      have hne' : ds2.nactiveExamples = ds.nactiveExamples := f1.ne
      have hib' : ds2.indexBuffer = ds.indexBuffer := f1.ib
      have hu' : ds2.useful = u := f1.useful
      have hnf' : ds2.nactiveFeatures = ds.nactiveFeatures := f1.nf
      have hd' : ds2.data = d := f1.data.trans hi.data
      have hr := hrows0 ds2 (hib'.trans hib) hd'
      refine ⟨⟨hd', f1.uc.trans hi.uc, hne'.trans hi.ne, ?_, f1.lbv.trans hi.lbv,
        f1.lnb.trans hi.lnb, f1.lsc.trans hi.lsc, f1.lsup.trans hi.lsup, ?_, ?_, ?_, ?_, ?_, ?_, ?_, ?_, ?_, ?_⟩,
        ?_, ?_⟩
      · rw [hnf', hi.nf, hu', hlen1]
      · intro f bvs hb
        have hf : f < ds.bitvecs.length := by
          have := (List.getElem?_eq_some_iff.1 hb).1
          have e := f1.lbv
          simp only at e; omega
        obtain ⟨b2, g1, g2, g3⟩ := f1.lens f ds.bitvecs[f] (List.getElem?_eq_getElem hf)
        rw [hb] at g1; cases g1
        rw [hne']
        exact g3 _ (hi.lens f _ (List.getElem?_eq_getElem hf))
      · intro f hf
        rw [hu', hmem] at hf
        obtain ⟨c, bvs, g1, g2, g3⟩ := hi.feat f hf
        obtain ⟨b2, y1, y2, _⟩ := f1.lens f bvs g2
        exact ⟨c, b2, g1, y1, y2.trans g3⟩
      · intro f; rw [hu', hmem]; exact hi.useful f
      · rw [hu']; exact hnd1
      · rw [hu', hnf']; exact hsort
      · intro hne
        rw [hne']
        apply hi.pos
        intro h0
        rw [hu'] at hne
        rw [h0] at hperm
        exact hne (List.Perm.nil_eq hperm.symm).symm
      · rw [f1.nonlo, hu']
        intro h0 f hf
        exact hi.nonlo h0 f ((hmem f).1 hf)
      · have hb := hi.bag
        rw [hib', hne']
        exact hb
      · intro _ f hf c hc ht
        rw [hu', hmem] at hf
        by_cases hfa : f ∈ u.take ds.nactiveFeatures
        · exact f2 f hfa
        · refine FeatOk.frame ?_ f1 hfa
          exact (hi.lo hib f hf c hc ht).congr rfl rfl rfl (fun _ h => h) rfl
      · intro f hf
        rw [hr]
        rw [hu', hnf'] at hf
        exact Or.inr (f2 f hf)
      · intro _ _ f hf
        rw [hr]
        rw [hu', hnf'] at hf
        exact f2 f hf
      · intro _ _ h0; rw [hib', hib] at h0; exact absurd rfl h0
    simp only at h
    by_cases hnl : ds.hasNonLocard = true
    · rw [if_pos hnl] at h
      obtain ⟨feats, e4, h⟩ := Out.bind_eq_ok.1 h
      rw [prefix_ok] at e4
      obtain ⟨q2, rfl⟩ := e4
      have hdn : ds.data = d := hi.data
      obtain ⟨f1, f2⟩ := updateFeatures_spec (L := (ds.nactiveExamples + 255) / 256) _ _ _
        (hnd1.sublist (List.take_sublist _ _)) (by
          intro f hf
          have hfu := (hmem f).1 (List.mem_of_mem_take hf)
          obtain ⟨c, bvs, g1, g2, g3⟩ := hi.feat f hfu
          refine ⟨c, bvs, ?_, g2, ?_, hi.lens f bvs g2, fun ht _ => ?_⟩
          · simp only; rw [hi.data]; exact g1
          · simp only; rw [hi.data]; exact g3
          · have h9 := hi.lo hib f hfu c g1 ht
            rw [← hdn] at h9
            exact h9.congr rfl rfl rfl (fun _ h => h) rfl) h
      refine core ds' f1 ?_
      rw [← hdn]; exact f2
    · rw [if_neg hnl] at h
      simp only [Out.ok.injEq] at h
      subst h
      refine core _ (Frame.refl _ _) ?_
      intro f hf
      have hfu := (hmem f).1 (List.mem_of_mem_take hf)
      obtain ⟨c, bvs, g1, _⟩ := hi.feat f hfu
      exact (hi.lo hib f hfu c g1 (hi.nonlo (by simpa using hnl) f hfu c g1)).congr rfl rfl rfl (fun _ h => h) rfl

theorem updateFeature_keeps {F : FP} {cfg : Config} {grad : List Num} {bounds : Num × Num} {bagged : Bool}
    {rows : List Nat} {f : Nat} {ds ds' : Dataset}
    (h : updateFeature F cfg grad bounds bagged rows f ds = .ok ds') :
    ds'.indexBuffer = ds.indexBuffer ∧ ds'.nactiveExamples = ds.nactiveExamples ∧ ds'.useful = ds.useful ∧
      ds'.nactiveFeatures = ds.nactiveFeatures := by
  unfold updateFeature at h
  obtain ⟨c, _, h⟩ := Out.bind_eq_ok.1 h
  split at h
  · split at h
    · unfold updateLocard at h
      obtain ⟨_, _, h⟩ := Out.bind_eq_ok.1 h
      obtain ⟨_, _, h⟩ := Out.bind_eq_ok.1 h
      obtain ⟨_, _, h⟩ := Out.bind_eq_ok.1 h
      obtain ⟨_, _, h⟩ := Out.bind_eq_ok.1 h
      obtain ⟨_, _, h⟩ := Out.bind_eq_ok.1 h
      simp only [Out.pure_eq, Out.ok.injEq] at h
      subst h; exact ⟨rfl, rfl, rfl, rfl⟩
    · cases h; exact ⟨rfl, rfl, rfl, rfl⟩
  · unfold updateHicard at h
    obtain ⟨_, _, h⟩ := Out.bind_eq_ok.1 h
    obtain ⟨_, _, h⟩ := Out.bind_eq_ok.1 h
    obtain ⟨_, _, h⟩ := Out.bind_eq_ok.1 h
    obtain ⟨_, _, h⟩ := Out.bind_eq_ok.1 h
    obtain ⟨_, _, h⟩ := Out.bind_eq_ok.1 h
    obtain ⟨_, _, h⟩ := Out.bind_eq_ok.1 h
    obtain ⟨_, _, h⟩ := Out.bind_eq_ok.1 h
    obtain ⟨_, _, h⟩ := Out.bind_eq_ok.1 h
    obtain ⟨_, _, h⟩ := Out.bind_eq_ok.1 h
    simp only [Out.pure_eq, Out.ok.injEq] at h
    subst h; exact ⟨rfl, rfl, rfl, rfl⟩
  · unfold updateNum at h
    obtain ⟨_, _, h⟩ := Out.bind_eq_ok.1 h
    obtain ⟨_, _, h⟩ := Out.bind_eq_ok.1 h
    obtain ⟨_, _, h⟩ := Out.bind_eq_ok.1 h
    obtain ⟨_, _, h⟩ := Out.bind_eq_ok.1 h
    obtain ⟨_, _, h⟩ := Out.bind_eq_ok.1 h
    obtain ⟨_, _, h⟩ := Out.bind_eq_ok.1 h
    obtain ⟨_, _, h⟩ := Out.bind_eq_ok.1 h
    obtain ⟨_, _, h⟩ := Out.bind_eq_ok.1 h
    obtain ⟨_, _, h⟩ := Out.bind_eq_ok.1 h
    simp only [Out.pure_eq, Out.ok.injEq] at h
    subst h; exact ⟨rfl, rfl, rfl, rfl⟩

theorem updateFeatures_keeps {F : FP} {cfg : Config} {grad : List Num} {bounds : Num × Num} {bagged : Bool}
    {rows : List Nat} : ∀ (fs : List Nat) (ds ds' : Dataset),
    updateFeatures F cfg grad bounds bagged rows fs ds = .ok ds' →
    ds'.indexBuffer = ds.indexBuffer ∧ ds'.nactiveExamples = ds.nactiveExamples ∧ ds'.useful = ds.useful ∧
      ds'.nactiveFeatures = ds.nactiveFeatures := by
  intro fs
  induction fs with
  | nil => intro ds ds' h; cases h; exact ⟨rfl, rfl, rfl, rfl⟩
  | cons f fs ih =>
    intro ds ds' h
    simp only [updateFeatures] at h
    obtain ⟨ds1, e1, h⟩ := Out.bind_eq_ok.1 h
    obtain ⟨a1, a2, a3, a4⟩ := updateFeature_keeps e1
    obtain ⟨b1, b2, b3, b4⟩ := ih _ _ h
    exact ⟨b1.trans a1, b2.trans a2, b3.trans a3, b4.trans a4⟩

theorem initSupercats_get {ds : Dataset} {n : Nat} (h : ds.supercats.length = 0 ∨ ds.supercats.length = ds.data.nfeatures)
    (f : Nat) (sc : List Nat) (hs : ds.supercats[f]? = some sc) :
    (initSupercats { ds with updateCount := n }).supercats[f]? = some sc := by
  have hf := (List.getElem?_eq_some_iff.1 hs).1
  rcases h with h | h
  · omega
  · unfold initSupercats
    simp only
    rw [List.take_of_length_le (by omega), List.getElem?_append_left hf, hs]

theorem inv_update {F : FP} {cfg : Config} {d : Data} {k : Nat} {ds ds' : Dataset} {grad : List Num}
    {bounds : Num × Num} (hi : Inv F cfg d k ds)
    (h : ds.update F cfg grad bounds = .ok ds') : Inv F cfg d (k + 1) ds' := by
  unfold update at h
  simp only at h
  have hsup : ds.supercats.length = 0 ∨ ds.supercats.length = ds.data.nfeatures := by
    have := hi.lsup
    rw [hi.data]
    split at this <;> omega
  have hset : (initSupercats { ds with updateCount := ds.updateCount + 1 }).updateCount = k + 1 := by
    simp [initSupercats, hi.uc]
  have hlsup : (initSupercats { ds with updateCount := ds.updateCount + 1 }).supercats.length = d.nfeatures := by
    simp only [initSupercats, List.length_append, List.length_take, List.length_replicate]
    rw [← hi.data]
    omega
  have hget := fun f sc => initSupercats_get (n := ds.updateCount + 1) hsup f sc
  have hfe : ∀ rows f, FeatOk F cfg rows ds f →
      FeatOk F cfg rows (initSupercats { ds with updateCount := ds.updateCount + 1 }) f :=
    fun rows f h => h.congr rfl rfl rfl (hget f) rfl
  have core : Inv0 F cfg d (k + 1) (initSupercats { ds with updateCount := ds.updateCount + 1 }) := by
    refine ⟨hi.data, hset, hi.ne, hi.nf, hi.lbv, hi.lnb, hi.lsc, by rw [hlsup]; simp, hi.lens, hi.feat, hi.useful,
      hi.nodup, hi.sorted, hi.pos, hi.nonlo, hi.bag, ?_, ?_⟩
    · intro h0 f hf c hc ht; exact hfe _ _ (hi.lo h0 f hf c hc ht)
    · intro f hf
      rcases hi.feats f hf with h | h
      · exact Or.inl h
      · exact Or.inr (hfe _ _ h)
  by_cases hsk : skipped cfg.sampleFreq (initSupercats { ds with updateCount := ds.updateCount + 1 }).updateCount = true
  · rw [if_pos hsk] at h
    simp only [Out.ok.injEq] at h
    subst h
    have hk : cfg.sampleFreq ≠ 0 → k ≠ 0 := by
      intro h2 h3
      rw [hset, h3] at hsk
      unfold skipped at hsk
      simp at hsk
      exact h2 hsk
    refine ⟨core, ?_, ?_⟩
    · intro h1 h2 f hf; exact hfe _ _ (hi.done (hk h2) h2 f hf)
    · intro h1 h2; exact hi.fit (hk h2) h2
  · rw [if_neg hsk] at h
    exact inv_refresh core h

theorem _root_.BitBoost.Spec.Updated.inv {F : FP} {cfg : Config} {d : Data} {rng : Rng} {k : Nat} {ds : Dataset}
    (h : Updated F cfg d rng k ds) : Inv F cfg d k ds := by
  induction h with
  | new h => exact inv_new h
  | update _ h ih => exact inv_update ih h

/-- Create a data set and update it with each of the gradients in turn (for examples). -/
def exampleRun (F : FP) (cfg : Config) (d : Data) (rng : Rng) : List (List Num × (Num × Num)) → Out Dataset
  | [] => Dataset.new F cfg d rng
  | g :: gs => do
      let ds ← exampleRun F cfg d rng gs
      ds.update F cfg g.1 g.2

theorem exampleRun_updated {F : FP} {cfg : Config} {d : Data} {rng : Rng} :
    ∀ (gs : List (List Num × (Num × Num))) (ds : Dataset), exampleRun F cfg d rng gs = .ok ds →
      Updated F cfg d rng gs.length ds := by
  intro gs
  induction gs with
  | nil => intro ds h; exact .new h
  | cons g gs ih =>
    intro ds h
    simp only [exampleRun] at h
    obtain ⟨ds1, e1, h⟩ := Out.bind_eq_ok.1 h
    exact .update (ih _ e1) h

/-- A concrete run, checked by evaluation in the kernel. -/
theorem exampleRun_check {F : FP} {cfg : Config} {d : Data} {rng : Rng} {gs : List (List Num × (Num × Num))}
    (p : Dataset → Bool)
    (h : (match exampleRun F cfg d rng gs with | .ok ds => p ds | _ => false) = true) :
    ∃ ds, Updated F cfg d rng gs.length ds ∧ p ds = true := by
  cases e : exampleRun F cfg d rng gs with
  | ok ds => rw [e] at h; exact ⟨ds, exampleRun_updated gs ds e, h⟩
  | panic => rw [e] at h; cases h
  | ub => rw [e] at h; cases h

end Dataset
end BitBoost
