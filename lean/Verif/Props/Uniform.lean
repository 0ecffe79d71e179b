import Verif.Spec.Uniform
import Verif.Props.Sampling
import Verif.Lemmas.ProgressData
import Mathlib.Data.Set.Card
import Mathlib.Data.List.Permutation
/-!
# C73: random samples are uniform
-/
namespace BitBoost.Props
open BitBoost Dataset Spec

/-- The elements that are drawn from a list, and what is left of it. -/
private def picks : List Nat → List Nat → List Nat
  | _, [] => []
  | [], _ :: _ => []
  | a :: rest, v :: vs => (a :: rest).getD v 0 :: picks (((a :: rest).set v a).tail) vs

private theorem pick_perm (a : Nat) : ∀ (rest : List Nat) (m : Nat) (h : m < rest.length),
    (rest[m] :: rest.set m a).Perm (a :: rest)
  | b :: rest, 0, _ => .swap a b rest
  | b :: rest, m + 1, h => by
      simp only [List.length_cons] at h
      simp only [List.getElem_cons_succ, List.set_cons_succ]
      refine (List.Perm.swap b _ _).trans ?_
      refine ((pick_perm a rest m (by omega)).cons b).trans ?_
      exact .swap a b rest

private theorem picked_perm (a : Nat) (rest : List Nat) (v : Nat) (h : v < (a :: rest).length) :
    ((a :: rest)[v] :: ((a :: rest).set v a).tail).Perm (a :: rest) := by
  cases v with
  | zero => simp
  | succ m =>
    simp only [List.length_cons] at h
    simpa using pick_perm a rest m (by omega)

private theorem isDraw_nil {n k : Nat} {v : Nat} {vs : List Nat} (h : IsDraw n k (v :: vs)) :
    ∃ k', k = k' + 1 ∧ v < n ∧ IsDraw (n - 1) k' vs := by
  obtain ⟨h1, h2⟩ := h
  refine ⟨vs.length, by simpa using h1.symm, by simpa using h2 0 v rfl, rfl, ?_⟩
  intro i x hx
  have := h2 (i + 1) x (by simpa using hx)
  omega

private theorem picks_inj : ∀ (vs ws pool : List Nat) (k : Nat), pool.Nodup → IsDraw pool.length k vs →
    IsDraw pool.length k ws → picks pool vs = picks pool ws → vs = ws
  | [], ws, pool, k, _, h1, h2, _ => by
      obtain ⟨h3, _⟩ := h1
      obtain ⟨h4, _⟩ := h2
      rw [← h3] at h4
      exact (List.eq_nil_of_length_eq_zero h4).symm
  | v :: vs, [], pool, k, _, h1, h2, _ => by
      obtain ⟨h3, _⟩ := h1
      obtain ⟨h4, _⟩ := h2
      rw [← h4] at h3
      simp at h3
  | v :: vs, w :: ws, [], k, _, h1, _, _ => by
      obtain ⟨_, _, h, _⟩ := isDraw_nil h1
      simp at h
  | v :: vs, w :: ws, a :: rest, k, hn, h1, h2, he => by
      obtain ⟨k1, e1, hv, d1⟩ := isDraw_nil h1
      obtain ⟨k2, e2, hw, d2⟩ := isDraw_nil h2
      obtain rfl : k1 = k2 := by omega
      simp only [picks, List.cons.injEq] at he
      obtain ⟨he1, he2⟩ := he
      have hvw : v = w := by
        rw [List.getD_eq_getElem _ _ hv, List.getD_eq_getElem _ _ hw] at he1
        exact (List.Nodup.getElem_inj_iff hn).1 he1
      subst hvw
      have hp := picked_perm a rest v hv
      have hn' : (((a :: rest).set v a).tail).Nodup := by
        have := hp.nodup_iff.2 hn
        exact (List.nodup_cons.1 this).2
      have hl : (((a :: rest).set v a).tail).length = (a :: rest).length - 1 := by simp
      rw [picks_inj vs ws _ k1 hn' (by rw [hl]; exact d1) (by rw [hl]; exact d2) he2]

private theorem picks_onto : ∀ (T pool : List Nat), pool.Nodup → T.Nodup → (∀ t ∈ T, t ∈ pool) →
    ∃ vs, IsDraw pool.length T.length vs ∧ picks pool vs = T
  | [], pool, _, _, _ => ⟨[], ⟨rfl, by simp⟩, by cases pool <;> rfl⟩
  | t :: T, [], _, _, h => by simpa using h t (by simp)
  | t :: T, a :: rest, hn, hT, hsub => by
      obtain ⟨v, hv, hvt⟩ := List.getElem_of_mem (hsub t (by simp))
      have hp := picked_perm a rest v hv
      have hnd := hp.nodup_iff.2 hn
      obtain ⟨hT1, hT2⟩ := List.nodup_cons.1 hT
      have hl : (((a :: rest).set v a).tail).length = (a :: rest).length - 1 := by simp
      obtain ⟨vs, h1, h2⟩ := picks_onto T (((a :: rest).set v a).tail) (List.nodup_cons.1 hnd).2 hT2 (by
        intro x hx
        have hx' := hp.mem_iff.2 (hsub x (by simp [hx]))
        rcases List.mem_cons.1 hx' with h | h
        · rw [hvt] at h
          exact absurd (h ▸ hx) hT1
        · exact h)
      rw [hl] at h1
      refine ⟨v :: vs, ⟨by simp [h1.1], ?_⟩, ?_⟩
      · intro i x hx
        cases i with
        | zero => simp only [List.getElem?_cons_zero, Option.some.injEq] at hx; omega
        | succ i =>
          have := h1.2 i x (by simpa using hx)
          omega
      · simp only [picks, h2, List.getD_eq_getElem _ _ hv, hvt]

/-- What the loop does with given draws. -/
private theorem loop_picks : ∀ (vs : List Nat) (i : Nat) (r : Rng) (buf : List Nat) (k : Nat), i ≤ buf.length → 
    IsDraw (buf.length - i) k vs → (∀ m, m < k → r.next m = vs.getD m 0) →
    ∃ buf', shuffleLoop k i r buf = .ok (buf', ⟨fun m => r.next (k + m)⟩) ∧
      buf'.take (i + k) = buf.take i ++ picks (buf.drop i) vs
  | [], i, r, buf, k, hi, hd, _ => by
      obtain ⟨rfl, _⟩ := hd
      refine ⟨buf, by simp [shuffleLoop], ?_⟩
      cases buf.drop i <;> simp [picks]
  | v :: vs, i, r, buf, k, hi, hd, hr => by
      obtain ⟨k', rfl, hv, hd'⟩ := isDraw_nil hd
      have hil : i < buf.length := by omega
      have hj : i + v < buf.length := by omega
      have h0 : r.next 0 = v := by simpa using hr 0 (by omega)
      have hstep : shuffleLoop (k' + 1) i r buf =
          shuffleLoop k' (i + 1) ⟨fun m => r.next (m + 1)⟩ ((buf.set i buf[i + v]).set (i + v) buf[i]) := by
        simp only [shuffleLoop, Rng.genRange, if_pos hil, h0, Nat.mod_eq_of_lt hv, Out.ok_bind, swapAt, at?_lt hil, at?_lt hj,
          Out.pure_eq]
      obtain ⟨buf', h1, h2⟩ := loop_picks vs (i + 1) ⟨fun m => r.next (m + 1)⟩
        ((buf.set i buf[i + v]).set (i + v) buf[i]) k' (by simp; omega)
        (by simpa [Nat.sub_sub] using hd') (by
          intro m hm
          simpa using hr (m + 1) (by omega))
      refine ⟨buf', by
        rw [hstep, h1]
        simp only [Nat.add_right_comm k' _ 1], ?_⟩
      have hpool : buf.drop i = buf[i] :: buf.drop (i + 1) := List.drop_eq_getElem_cons hil
      rw [show i + (k' + 1) = i + 1 + k' by omega, h2]
      have e1 : ((buf.set i buf[i + v]).set (i + v) buf[i]).take (i + 1) = buf.take i ++ [buf[i + v]] := by
        apply List.ext_getElem
        · simp; omega
        · intro m hm1 hm2
          simp only [List.length_take, List.length_set] at hm1
          rw [List.getElem_take, List.getElem_set, List.getElem_set, List.getElem_append]
          simp only [List.length_take]
          by_cases hm : m = i
          · subst hm
            cases v with
            | zero => simp
            | succ v => simp
          · have : m < i := by omega
            rw [if_neg (by omega), if_neg (by omega), dif_pos (by omega), List.getElem_take]
      have e2 : ((buf.set i buf[i + v]).set (i + v) buf[i]).drop (i + 1) = ((buf[i] :: buf.drop (i + 1)).set v buf[i]).tail := by
        apply List.ext_getElem
        · simp; omega
        · intro m hm1 hm2
          simp only [List.length_drop, List.length_set] at hm1
          rw [List.getElem_drop, List.getElem_set, List.getElem_set, List.getElem_tail, List.getElem_set, List.getElem_cons_succ,
            List.getElem_drop]
          by_cases hm : v = m + 1
          · subst hm; rw [if_pos (by omega), if_pos rfl]
          · rw [if_neg (by omega), if_neg hm, if_neg (by omega)]
      rw [e1, e2, hpool]
      simp only [picks, List.append_assoc, List.singleton_append]
      congr 2
      have hv' : v < (buf[i] :: buf.drop (i + 1)).length := by simp; omega
      rw [List.getD_eq_getElem _ _ hv']
      have : ∀ (l : List Nat) (h : v < l.length), l = buf.drop i → l[v] = buf[i + v] := by
        rintro l h rfl; simp
      exact (this _ hv' hpool.symm).symm

private theorem sample_picks (r : Rng) (vs : List Nat) (k : Nat) (buf : List Nat) (hk : k ≤ buf.length)
    (hd : IsDraw buf.length k vs) (hr : ∀ m, m < k → r.next m = vs.getD m 0) :
    ∃ buf', shuffleFirstK r k buf = .ok (buf', ⟨fun m => r.next (k + m)⟩) ∧
      buf'.take k = (picks buf vs).insertionSort (· ≤ ·) := by
  obtain ⟨b, h1, h2⟩ := loop_picks vs 0 r buf k (by omega) (by simpa using hd) hr
  simp only [Nat.zero_add, List.take_zero, List.nil_append, List.drop_zero] at h2
  have hl : b.length = buf.length := ((shuffleLoop_spec k 0 _ buf).2 _ h1).1.length_eq
  refine ⟨(b.take k).insertionSort (· ≤ ·) ++ b.drop k, ?_, ?_⟩
  · unfold shuffleFirstK
    rw [h1]
    simp only [Out.ok_bind]
    rw [show decide (k ≤ b.length) = true by simp; omega]
    rfl
  · rw [List.take_left' (by simp; omega), h2]

private theorem ncard_perm (S : List Nat) (hS : S.Nodup) : {T : List Nat | T.Perm S}.ncard = S.length.factorial := by
  have : {T : List Nat | T.Perm S} = (S.permutations.toFinset : Set (List Nat)) := by
    ext T
    simp [List.mem_permutations]
  rw [this, Set.ncard_coe_finset, List.toFinset_card_of_nodup (List.nodup_permutations S hS), List.length_permutations]

/-- The draws that lead to a given sample. -/
private theorem ncard_picks (buf S : List Nat) (hb : buf.Nodup) (hS : S.Pairwise (· < ·)) (hsub : ∀ x ∈ S, x ∈ buf) :
    {vs | IsDraw buf.length S.length vs ∧ (picks buf vs).insertionSort (· ≤ ·) = S}.ncard = S.length.factorial := by
  have hnd : S.Nodup := hS.imp (by intro a b hab; omega)
  rw [← ncard_perm S hnd]
  have himg : {T : List Nat | T.Perm S} =
      picks buf '' {vs | IsDraw buf.length S.length vs ∧ (picks buf vs).insertionSort (· ≤ ·) = S} := by
    ext T
    constructor
    · intro (hT : T.Perm S)
      obtain ⟨vs, h1, h2⟩ := picks_onto T buf hb (hT.nodup_iff.2 hnd) (fun t ht => hsub t (hT.mem_iff.1 ht))
      rw [hT.length_eq] at h1
      refine ⟨vs, ⟨h1, ?_⟩, h2⟩
      rw [h2]
      exact (((List.perm_insertionSort (· ≤ ·) T).trans hT).eq_of_pairwise (fun a b _ _ h1 h2 => by omega)
        (List.pairwise_insertionSort _ _) (hS.imp (by intro a b hab; omega)))
    · rintro ⟨vs, ⟨h1, h2⟩, rfl⟩
      show List.Perm _ _
      rw [← h2]
      exact (List.perm_insertionSort _ _).symm
  rw [himg, Set.InjOn.ncard_image]
  rintro vs ⟨h1, _⟩ ws ⟨h2, _⟩ he
  exact picks_inj vs ws buf _ hb h1 h2 he

/-- **C73**: when the draws are uniform, every sample is equally likely, whatever the order of the buffer: each increasing
list of `k` of its elements is the sample for exactly `k!` of the possible draws. -/
theorem C73_shuffle (buf S : List Nat) (hb : buf.Nodup) (hS : S.Pairwise (· < ·)) (hsub : ∀ x ∈ S, x ∈ buf) :
    {vs | IsDraw buf.length S.length vs ∧ ∃ buf' r', shuffleFirstK (drawnBy vs) S.length buf = .ok (buf', r') ∧
      buf'.take S.length = S}.ncard = S.length.factorial := by
  have hnd : S.Nodup := hS.imp (by intro a b hab; omega)
  have hk : S.length ≤ buf.length := (List.subperm_of_subset hnd hsub).length_le
  rw [← ncard_picks buf S hb hS hsub]
  congr 1
  ext vs
  constructor
  · rintro ⟨h1, b, r, h2, h3⟩
    obtain ⟨b', h4, h5⟩ := sample_picks (drawnBy vs) vs _ buf hk h1 (fun _ _ => rfl)
    rw [h2] at h4
    cases h4
    exact ⟨h1, by rw [← h5]; exact h3⟩
  · rintro ⟨h1, h2⟩
    obtain ⟨b', h4, h5⟩ := sample_picks (drawnBy vs) vs _ buf hk h1 (fun _ _ => rfl)
    exact ⟨h1, b', _, h4, by rw [h5]; exact h2⟩

/-- The number of possible draws is `n (n - 1) … (n - k + 1)`. -/
theorem C73_draws (n k : Nat) : {vs | IsDraw n k vs}.ncard = n.descFactorial k := by
  induction k generalizing n with
  | zero =>
    have : {vs | IsDraw n 0 vs} = {[]} := by
      ext vs
      constructor
      · rintro ⟨h, _⟩; exact List.eq_nil_of_length_eq_zero h
      · rintro rfl; exact ⟨rfl, by simp⟩
    rw [this]; simp
  | succ k ih =>
    have : {vs | IsDraw n (k + 1) vs} = (fun p : Nat × List Nat => p.1 :: p.2) '' (Set.Iio n ×ˢ {vs | IsDraw (n - 1) k vs}) := by
      ext vs
      constructor
      · intro (h : IsDraw n (k + 1) vs)
        cases vs with
        | nil => exact absurd h.1 (by simp)
        | cons v vs =>
          obtain ⟨k', e, h1, h2⟩ := isDraw_nil h
          obtain rfl : k = k' := by omega
          exact ⟨(v, vs), ⟨h1, h2⟩, rfl⟩
      · rintro ⟨⟨v, vs⟩, ⟨h1, h2⟩, rfl⟩
        refine ⟨by simp [h2.1], ?_⟩
        intro i x hx
        cases i with
        | zero => simp only [List.getElem?_cons_zero, Option.some.injEq] at hx; subst hx; simpa using h1
        | succ i =>
          have := h2.2 i x (by simpa using hx)
          omega
    rw [this, Set.InjOn.ncard_image, Set.ncard_prod, ih]
    · cases n with
      | zero => simp
      | succ n =>
        rw [Nat.succ_descFactorial_succ]
        rw [show n + 1 - 1 = n by omega, show (Set.Iio (n + 1)).ncard = n + 1 by
          rw [show Set.Iio (n + 1) = (Finset.range (n + 1) : Set ℕ) by ext; simp, Set.ncard_coe_finset, Finset.card_range]]
    · rintro ⟨a, b⟩ _ ⟨c, d⟩ _ h
      simpa using h

/-- The generators that produce these numbers for the features and these for the rows. -/
private theorem drawnBy_append (vs ws : List Nat) (k : Nat) (h : vs.length = k) :
    (⟨fun m => (drawnBy (vs ++ ws)).next (k + m)⟩ : Rng) = drawnBy ws := by
  subst h
  unfold drawnBy
  congr 1
  funext m
  show (vs ++ ws).getD (vs.length + m) 0 = ws.getD m 0
  rw [List.getD_append_right _ _ _ _ (by omega)]
  congr 1; omega

private theorem active_unique {ds : Dataset} {a b : List Nat} (h1 : Active ds a) (h2 : Active ds b) : a = b := by
  unfold Active at h1 h2
  rw [h1] at h2
  have := congrArg (List.map Prod.snd) (Out.ok.inj h2)
  rwa [List.map_snd_zip (by simp), List.map_snd_zip (by simp)] at this

/-- **C73**: an update that is due and samples both features and rows draws every pair of samples equally often, whatever was
drawn before: exactly `f! * e!` of the possible draws give these `f` features and these `e` rows. -/
theorem C73_update (F : FP) (cfg : Config) (d : Data) (rng : Rng) (k : Nat) (ds : Dataset) (h : Updated F cfg d rng k ds)
    (hc : ValidConfig cfg) (hd : ValidData cfg d) (hz : cfg.sampleFreq ≠ 0) (hk : k + 1 = 1 ∨ cfg.sampleFreq ∣ k + 1)
    (hfs : ds.featureSampling = true) (hes : ds.exampleSampling = true)
    (grad : List Num) (bounds : Num × Num) (hgl : grad.length = d.nexamples) (hgn : ∀ g ∈ grad, g ≠ .nan)
    (hgb : ∃ lo hi : ℚ, bounds = (.fin lo, .fin hi) ∧ lo < hi)
    (useful : List Nat) (hun : useful.Nodup) (hu : ∀ f, f ∈ useful ↔ Useful d f)
    (features rows : List Nat)
    (hf1 : features.Pairwise (· < ·)) (hf2 : ∀ f ∈ features, Useful d f)
    (hf3 : features.length = (F.mul (F.ofNat useful.length) cfg.featureFraction).round.toUsize)
    (hr1 : rows.Pairwise (· < ·)) (hr2 : ∀ r ∈ rows, r < d.nexamples)
    (hr3 : rows.length = (F.mul (F.ofNat d.nexamples) cfg.exampleFraction).round.toUsize) :
    {p : List Nat × List Nat | IsDraw useful.length features.length p.1 ∧ IsDraw d.nexamples rows.length p.2 ∧
      ∃ ds', Dataset.update F cfg { ds with rng := drawnBy (p.1 ++ p.2) } grad bounds = .ok ds' ∧
        ds'.activeFeatures = .ok features ∧ Active ds' rows}.ncard =
      features.length.factorial * rows.length.factorial := by
  have hi := h.inv
  have hb := hi.bag
  have hib : ds.indexBuffer ≠ [] := by
    intro h0; simp [exampleSampling, h0] at hes
  split at hb
  swap
  · exact absurd hb hib
  have hne : ds.nactiveExamples = rows.length := by rw [hi.ne, hr3]; rfl
  have hup : ds.useful.Perm useful :=
    (List.perm_ext_iff_of_nodup hi.nodup hun).2 (fun f => (hi.useful f).trans (hu f).symm)
  have hnf : ds.nactiveFeatures = features.length := by rw [hi.nf, hf3, hup.length_eq]; rfl
  have hbl : ds.indexBuffer.length = d.nexamples := by rw [hb.1.length_eq, List.length_range]
  have c1 := ncard_picks ds.useful features hi.nodup hf1 (fun f hf => (hi.useful f).2 (hf2 f hf))
  have c2 := ncard_picks ds.indexBuffer rows (hb.1.nodup_iff.2 List.nodup_range) hr1
    (fun t ht => hb.1.mem_iff.2 (List.mem_range.2 (hr2 t ht)))
  rw [← c1, ← c2, ← Set.ncard_prod, hup.length_eq, hbl]
  congr 1
  ext ⟨vs, ws⟩
  have hfle : features.length ≤ ds.useful.length :=
    (List.subperm_of_subset (hf1.imp (by intro a b hab; omega)) (fun f hf => (hi.useful f).2 (hf2 f hf))).length_le
  have hrle : rows.length ≤ ds.indexBuffer.length :=
    (List.subperm_of_subset (hr1.imp (by intro a b hab; omega))
      (fun t ht => hb.1.mem_iff.2 (List.mem_range.2 (hr2 t ht)))).length_le
  have hi' : Inv F cfg d k { ds with rng := drawnBy (vs ++ ws) } :=
    ⟨⟨hi.data, hi.uc, hi.ne, hi.nf, hi.lbv, hi.lnb, hi.lsc, hi.lsup, hi.lens, hi.feat, hi.useful, hi.nodup, hi.sorted, hi.pos,
      hi.nonlo, hi.bag, hi.lo, hi.feats⟩, hi.done, hi.fit⟩
  have hends := update_ends hc hd hi' (grad := grad) (bounds := bounds) ⟨hgl, hgn, fun _ => hgb⟩
  have key : ∀ ds', Dataset.update F cfg { ds with rng := drawnBy (vs ++ ws) } grad bounds = .ok ds' →
      IsDraw useful.length features.length vs → IsDraw d.nexamples rows.length ws →
      ds'.activeFeatures = .ok ((picks ds.useful vs).insertionSort (· ≤ ·)) ∧
        Active ds' ((picks ds.indexBuffer ws).insertionSort (· ≤ ·)) := by
    intro ds' hds' h1 h2
    obtain ⟨fs, r1, rs, r2, g1, g2, g3, g4⟩ := due_of_inv hi' hz hk hes hds'
    rw [if_pos (show Dataset.featureSampling { ds with rng := drawnBy (vs ++ ws) } = true from hfs)] at g1
    simp only [hnf, hne] at g1 g2 g3 g4
    obtain ⟨b1, p1, p2⟩ := sample_picks (drawnBy (vs ++ ws)) vs _ ds.useful hfle (by rw [hup.length_eq]; exact h1) (by
      intro m hm
      simp only [drawnBy]
      rw [List.getD_append]
      rw [h1.1]; exact hm)
    rw [p1, drawnBy_append vs ws _ h1.1] at g1
    cases g1
    obtain ⟨b2, p3, p4⟩ := sample_picks (drawnBy ws) ws _ ds.indexBuffer hrle (by rw [hbl]; exact h2) (fun _ _ => rfl)
    rw [p3] at g2
    cases g2
    rw [p2] at g3
    rw [p4] at g4
    exact ⟨g3, g4⟩
  constructor
  · rintro ⟨h1, h2, ds', h3, h4, h5⟩
    obtain ⟨k1, k2⟩ := key ds' h3 h1 h2
    rw [k1] at h4
    cases h4
    exact ⟨⟨h1, rfl⟩, ⟨h2, active_unique k2 h5⟩⟩
  · rintro ⟨⟨h1, h2⟩, ⟨h3, h4⟩⟩
    obtain ⟨ds', hds'⟩ := hends
    obtain ⟨k1, k2⟩ := key ds' hds' h1 h3
    rw [h2] at k1
    rw [h4] at k2
    exact ⟨h1, h3, ds', hds', k1, k2⟩

/-- **C73**: an update that is due and samples only the rows draws every sample equally often, whatever was drawn before: exactly
`e!` of the possible draws give these `e` rows. -/
theorem C73_rows (F : FP) (cfg : Config) (d : Data) (rng : Rng) (k : Nat) (ds : Dataset) (h : Updated F cfg d rng k ds)
    (hc : ValidConfig cfg) (hd : ValidData cfg d) (hz : cfg.sampleFreq ≠ 0) (hk : k + 1 = 1 ∨ cfg.sampleFreq ∣ k + 1)
    (hfs : ds.featureSampling = false) (hes : ds.exampleSampling = true)
    (grad : List Num) (bounds : Num × Num) (hgl : grad.length = d.nexamples) (hgn : ∀ g ∈ grad, g ≠ .nan)
    (hgb : ∃ lo hi : ℚ, bounds = (.fin lo, .fin hi) ∧ lo < hi)
    (rows : List Nat) (hr1 : rows.Pairwise (· < ·)) (hr2 : ∀ r ∈ rows, r < d.nexamples)
    (hr3 : rows.length = (F.mul (F.ofNat d.nexamples) cfg.exampleFraction).round.toUsize) :
    {ws | IsDraw d.nexamples rows.length ws ∧
      ∃ ds', Dataset.update F cfg { ds with rng := drawnBy ws } grad bounds = .ok ds' ∧ Active ds' rows}.ncard =
      rows.length.factorial := by
  have hi := h.inv
  have hb := hi.bag
  have hib : ds.indexBuffer ≠ [] := by
    intro h0; simp [exampleSampling, h0] at hes
  split at hb
  swap
  · exact absurd hb hib
  have hne : ds.nactiveExamples = rows.length := by rw [hi.ne, hr3]; rfl
  have hbl : ds.indexBuffer.length = d.nexamples := by rw [hb.1.length_eq, List.length_range]
  have c2 := ncard_picks ds.indexBuffer rows (hb.1.nodup_iff.2 List.nodup_range) hr1
    (fun t ht => hb.1.mem_iff.2 (List.mem_range.2 (hr2 t ht)))
  rw [← c2, hbl]
  congr 1
  ext ws
  have hrle : rows.length ≤ ds.indexBuffer.length :=
    (List.subperm_of_subset (hr1.imp (by intro a b hab; omega))
      (fun t ht => hb.1.mem_iff.2 (List.mem_range.2 (hr2 t ht)))).length_le
  have hi' : Inv F cfg d k { ds with rng := drawnBy ws } :=
    ⟨⟨hi.data, hi.uc, hi.ne, hi.nf, hi.lbv, hi.lnb, hi.lsc, hi.lsup, hi.lens, hi.feat, hi.useful, hi.nodup, hi.sorted, hi.pos,
      hi.nonlo, hi.bag, hi.lo, hi.feats⟩, hi.done, hi.fit⟩
  have hends := update_ends hc hd hi' (grad := grad) (bounds := bounds) ⟨hgl, hgn, fun _ => hgb⟩
  have key : ∀ ds', Dataset.update F cfg { ds with rng := drawnBy ws } grad bounds = .ok ds' →
      IsDraw d.nexamples rows.length ws →
      Active ds' ((picks ds.indexBuffer ws).insertionSort (· ≤ ·)) := by
    intro ds' hds' h2
    obtain ⟨fs, r1, rs, r2, g1, g2, g3, g4⟩ := due_of_inv hi' hz hk hes hds'
    rw [if_neg (show ¬ Dataset.featureSampling { ds with rng := drawnBy ws } = true by
      rw [show Dataset.featureSampling { ds with rng := drawnBy ws } = false from hfs]; simp)] at g1
    obtain ⟨rfl, rfl⟩ := g1
    simp only [hne] at g2 g4
    obtain ⟨b2, p3, p4⟩ := sample_picks (drawnBy ws) ws _ ds.indexBuffer hrle (by rw [hbl]; exact h2) (fun _ _ => rfl)
    rw [p3] at g2
    cases g2
    rw [p4] at g4
    exact g4
  constructor
  · rintro ⟨h2, ds', h3, h5⟩
    exact ⟨h2, active_unique (key ds' h3 h2) h5⟩
  · rintro ⟨h3, h4⟩
    obtain ⟨ds', hds'⟩ := hends
    have k2 := key ds' hds' h3
    rw [h4] at k2
    exact ⟨h3, ds', hds', k2⟩

/-! ## A concrete case -/

private def exCfg : Config :=
  { Config.new with maxNbins := 2, exampleFraction := .fin (3 / 5), featureFraction := .fin (1 / 2), sampleFreq := 2 }
private def exData : Data :=
  ⟨2, [], 2, 5,
    [⟨[.fin 0, .fin 1, .fin 0, .fin 1, .fin 1], .fin 0, .fin 1, .loCardCat, 2⟩,
     ⟨[.fin 0, .fin 1, .fin 2, .fin 3, .fin 4], .fin 0, .fin 4, .numerical, 0⟩,
     ⟨[.fin 0, .fin 1, .fin 0, .fin 1, .fin 1], .fin 0, .fin 1, .numerical, 0⟩]⟩
private def exRng : Rng := ⟨fun i => 7 * i + 1⟩
private def exGrad : List Num := [.fin (-1), .fin 1, .fin 1, .fin (-1), .fin 0]
private def exRun : List (List Num × (Num × Num)) := List.replicate 3 (exGrad, (.fin (-1), .fin 1))

private theorem ex_useful (f : Nat) : f ∈ [0, 1] ↔ Useful exData f := by
  constructor
  · intro hf
    simp only [List.mem_cons, List.not_mem_nil, or_false] at hf
    rcases hf with rfl | rfl
    · exact ⟨by decide, _, rfl, by decide⟩
    · exact ⟨by decide, _, rfl, by decide⟩
  · rintro ⟨h, _⟩
    have : f < 2 := h
    simp; omega

/-- After three updates the fourth one is due. Of the 2 * 60 possible draws, 1 * 6 give the feature 1 and the rows 0, 2 and 4. -/
example : ∃ ds, Updated .exact exCfg exData exRng 3 ds ∧
    {p : List Nat × List Nat | IsDraw 2 1 p.1 ∧ IsDraw 5 3 p.2 ∧
      ∃ ds', Dataset.update .exact exCfg { ds with rng := drawnBy (p.1 ++ p.2) } exGrad (.fin (-1), .fin 1) = .ok ds' ∧
        ds'.activeFeatures = .ok [1] ∧ Active ds' [0, 2, 4]}.ncard = 6 := by
  obtain ⟨ds, h1, h2⟩ := exampleRun_check (F := .exact) (cfg := exCfg) (d := exData) (rng := exRng) (gs := exRun)
    (fun ds => ds.exampleSampling && ds.featureSampling) (by decide +kernel)
  simp only [Bool.and_eq_true] at h2
  refine ⟨ds, h1, ?_⟩
  have hc : ValidConfig exCfg := ⟨by decide, by decide, by decide, by decide, ⟨1 / 2, rfl, by norm_num, by norm_num⟩,
    ⟨3 / 5, rfl, by norm_num, by norm_num⟩, ⟨_, rfl, by decide +kernel⟩⟩
  have hd : ValidData exCfg exData := by
    refine ⟨?_, by decide, by decide, ?_, by decide, ⟨0, _, by decide, rfl, by decide⟩, ?_, ?_⟩
    · exact ⟨rfl, by decide⟩
    · intro q hq
      cases hq
      norm_num [exData]
    · intro f c hu hc ht
      rcases (ex_useful f).2 hu with _ | ⟨_, _ | ⟨_, h⟩⟩
      · cases hc; cases ht
      · cases hc; exact ⟨0, 4, rfl, rfl, by norm_num⟩
      · cases h
    · intro f c hu hc ht
      rcases (ex_useful f).2 hu with _ | ⟨_, _ | ⟨_, h⟩⟩
      · cases hc; cases ht
      · cases hc; cases ht
      · cases h
  exact C73_update .exact exCfg exData exRng 3 ds h1 hc hd (by decide) (Or.inr (by decide)) h2.2 h2.1 exGrad _ rfl
    (by decide) ⟨-1, 1, rfl, by norm_num⟩ [0, 1] (by decide) ex_useful [1] [0, 2, 4] (by decide)
    (fun f hf => (ex_useful f).1 (by revert f; decide)) (by decide +kernel) (by decide) (by decide) (by decide +kernel)

end BitBoost.Props
