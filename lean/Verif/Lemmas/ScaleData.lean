import Verif.Lemmas.ScaleGain
import Verif.Lemmas.SameData
/-! Helper lemmas: the training view of categorical features when the gradients are multiplied by a positive number. -/
namespace BitBoost
open Spec Dataset

variable {a : ℚ} {cfg : Config} {d d' : Data} {ts ts' : List Num}

theorem Out.Leads.after {α β : Type} {R : α → β → Prop} {x y : Out α} {z : Out β} (h : Out.Leads Eq x y) (h' : Out.Leads R y z) :
    Out.Leads R x z := by
  intro p e
  obtain ⟨q, e1, rfl⟩ := h p e
  exact h' _ e1

/-- The gradient sums per category multiplied by `a`. -/
def statTimes (a : ℚ) (p : Num × Nat) : Num × Nat := (stretch a p.1, p.2)

theorem gradStats_times (g : List Num) : ∀ (vs : List Num) (i : Nat) (st : List (Num × Nat)),
    Out.Leads (fun x y => y = x.map (statTimes a)) (gradStats .exact g vs i st)
      (gradStats .exact (g.map (stretch a)) vs i (st.map (statTimes a)))
  | [], _, _ => Out.Leads.ok rfl
  | v :: vs, i, st => by
      simp only [gradStats, at?, List.getElem?_map]
      cases st[intoCat v]? with
      | none => intro a e; cases e
      | some e =>
        cases g[i]? with
        | none => intro a e; cases e
        | some x =>
          simp only [Option.map_some, Out.ok_bind]
          have := gradStats_times g vs (i + 1) (st.set (intoCat v) (FP.exact.add e.1 x, e.2 + 1))
          rw [List.map_set] at this
          simpa only [statTimes, stretch_add] using this

theorem meanOf_times (ha : 0 < a) (p : Num × Nat) : meanOf .exact (statTimes a p) = stretch a (meanOf .exact p) := by
  unfold meanOf statTimes
  simp only
  split
  · rfl
  · rw [stretch_div_any ha]

theorem rescaled_eq (b : Binner Nat) :
    b.rescaled (a, 0) = { b with minValue := stretch a b.minValue, delta := stretch a b.delta } := by
  unfold Binner.rescaled
  rw [stretch_eq]

theorem insertAll_times (ha : 0 < a) (comb : Nat → Nat → Nat) : ∀ (l : List (Num × Nat)) (b : Binner Nat),
    Out.Leads (fun x y => y = x.rescaled (a, 0)) (Binner.insertAll .exact comb b l)
      (Binner.insertAll .exact comb (b.rescaled (a, 0)) (l.map (statTimes a)))
  | [], b => Out.Leads.ok rfl
  | (v, n) :: l, b => by
      simp only [List.map_cons, Binner.insertAll, statTimes]
      refine Out.Leads.bind (R := fun x y => y = x.rescaled (a, 0)) ?_ fun x y _ e => ?_
      · have hg : Binner.getBin .exact (b.rescaled (a, 0)) (stretch a v) = Binner.getBin .exact b v := by
          rw [rescaled_eq]
          unfold Binner.getBin
          simp only [stretch_sub, stretch_div ha]
        unfold Binner.insert
        rw [hg]
        simp only [Binner.rescaled]
        split
        · exact Out.Leads.ok rfl
        · intro a e; cases e
      · rw [e]
        exact insertAll_times ha comb l x

theorem hicardWeights_times (ha : 0 < a) (m n : Nat) (st : List (Num × Nat)) (bs : Num × Num) :
    Out.Leads (fun x y => y = x.map (stretch a)) (hicardWeights .exact m n st bs)
      (hicardWeights .exact m n (st.map (statTimes a)) (stretch₂ a bs)) := by
  unfold hicardWeights
  refine Out.Leads.bind (R := fun x y => y = x.rescaled (a, 0)) ?_ fun b b' _ e => ?_
  · unfold Binner.new stretch₂
    simp only [stretch_isFinite, stretch_lt ha, stretch_sub]
    refine .same fun _ _ => .same fun _ _ => .same fun _ _ => .same fun _ _ => Out.Leads.ok ?_
    rw [rescaled_eq]
    simp only [stretch_div_any ha]
  · rw [e]
    have hl : ((st.map (statTimes a)).filter fun p => p.2 != 0).map (fun p => (meanOf .exact p, p.2)) =
        ((st.filter fun p => p.2 != 0).map fun p => (meanOf .exact p, p.2)).map (statTimes a) := by
      rw [List.filter_map, List.map_map, List.map_map]
      refine List.map_congr_left fun p _ => ?_
      simp only [Function.comp, meanOf_times ha]
      rfl
    rw [hl]
    refine (insertAll_times ha _ _ b).bind fun x y _ e => ?_
    rw [e]
    refine .same fun q _ => Out.Leads.ok ?_
    rw [List.map_map]
    refine List.map_congr_left fun i _ => ?_
    rw [rescaled_eq]
    simp only [Function.comp, Binner.representative, stretch_mul ha, stretch_add]

theorem countBelow_times (ha : 0 < a) (x : Num) : ∀ l : List Num, countBelow (stretch a x) (l.map (stretch a)) = countBelow x l
  | [] => rfl
  | s :: ss => by simp only [List.map_cons, countBelow, stretch_lt ha, countBelow_times ha x ss]

theorem updateHicard_times (ha : 0 < a) (ds : Dataset) (f : Nat) (ex : List Nat) (g : List Num) (bs : Num × Num) :
    Out.Leads Eq (updateHicard .exact cfg ds f ex g bs) (updateHicard .exact cfg ds f ex (g.map (stretch a)) (stretch₂ a bs)) := by
  unfold updateHicard
  refine .same fun c _ => .same fun v _ => ?_
  have h0 : List.replicate c.card ((.fin 0, 0) : Num × Nat) = (List.replicate c.card (.fin 0, 0)).map (statTimes a) := by
    rw [List.map_replicate]
    simp [statTimes, stretch]
  refine Out.Leads.bind (R := fun x y => y = x.map (statTimes a)) ?_ fun st st' _ e => ?_
  · have := gradStats_times (a := a) g v 0 (List.replicate c.card (.fin 0, 0))
    rwa [← h0] at this
  · rw [e]
    refine (hicardWeights_times ha _ _ st bs).bind fun w w' _ e => ?_
    rw [e]
    have hs : (st.map (statTimes a)).map (fun p => countBelow (meanOf .exact p) (w.map (stretch a))) =
        st.map fun p => countBelow (meanOf .exact p) w := by
      rw [List.map_map]
      refine List.map_congr_left fun p _ => ?_
      simp only [Function.comp, meanOf_times ha, countBelow_times ha]
    simp only [hs, List.length_map]
    exact Out.Leads.refl _

/-- All features are categorical. -/
def AllCategorical (d : Data) : Prop := ∀ f, f ≠ d.nfeatures → ∀ c, d.cols[f]? = some c → c.ftype ≠ .numerical

theorem updateFeatures_times (ha : 0 < a) (hc : AllCategorical d) (g : List Num) (bs : Num × Num) (bagged : Bool) (ex : List Nat) :
    ∀ (fs : List Nat) (ds : Dataset), ds.data = d → (∀ u ∈ fs, u ≠ d.nfeatures) →
    Out.Leads Eq (updateFeatures .exact cfg g bs bagged ex fs ds)
      (updateFeatures .exact (minGainTimes (a * a) cfg) (g.map (stretch a)) (stretch₂ a bs) bagged ex fs ds)
  | [], ds, _, _ => Out.Leads.refl _
  | f :: fs, ds, hd, hf => by
      simp only [updateFeatures]
      refine Out.Leads.bind (R := fun x y => y = x ∧ x.data = d) ?_ fun x y _ hxy => ?_
      · refine Out.Leads.mono (R := Eq) ?_ fun x y e _ exy => ⟨exy.symm, ?_⟩
        · unfold updateFeature
          refine .same fun c ec => ?_
          have hn : c.ftype ≠ .numerical := by
            refine hc f (hf f (by simp)) c ?_
            unfold Dataset.column at? at ec
            rw [hd] at ec
            split at ec
            · cases ec; assumption
            · cases ec
          cases hx : c.ftype with
          | loCardCat => exact Out.Leads.refl _
          | hiCardCat => exact updateHicard_times ha ds f ex g bs
          | numerical => exact absurd hx hn
        · have h1 : updateFeatures .exact cfg g bs bagged ex [f] ds = .ok x := by
            simp only [updateFeatures, e, Out.ok_bind]
          rw [updateFeatures_data h1, hd]
      · rw [hxy.1]
        exact updateFeatures_times ha hc g bs bagged ex fs x hxy.2 fun u hu => hf u (by simp [hu])

theorem update_times (ha : 0 < a) (hc : AllCategorical d) {ds : Dataset} (hd : ds.data = d)
    (hu : ∀ u ∈ ds.useful, u ≠ d.nfeatures) (g : List Num) (bs : Num × Num) :
    Out.Leads Eq (ds.update .exact cfg g bs)
      (ds.update .exact (minGainTimes (a * a) cfg) (g.map (stretch a)) (stretch₂ a bs)) := by
  unfold Dataset.update
  simp only
  generalize hx : initSupercats { ds with updateCount := ds.updateCount + 1 } = x
  have hxd : x.data = d := by rw [← hx]; exact hd
  have hxc : ∀ u ∈ x.useful, u ≠ d.nfeatures := by rw [← hx]; exact hu
  rw [show (minGainTimes (a * a) cfg).sampleFreq = cfg.sampleFreq from rfl]
  split
  · exact Out.Leads.refl _
  · unfold refresh
    refine .same fun z ez => ?_
    have hz : z.data = d ∧ ∀ u ∈ z.useful, u ≠ d.nfeatures := by
      refine ⟨(sampleFeatures_data ez).trans hxd, fun u hu => hxc u ?_⟩
      unfold sampleFeatures at ez
      split at ez
      · obtain ⟨⟨us, r⟩, er, ez⟩ := Out.bind_eq_ok.1 ez
        simp only [Out.pure_eq, Out.ok.injEq] at ez
        rw [← ez] at hu
        exact (shuffleFirstK_spec er).1.mem_iff.1 hu
      · cases ez; exact hu
    split
    · refine .same fun z2 ez2 => .same fun ex _ => .same fun fs efs => ?_
      have hz2 : z2.useful = z.useful := by
        unfold sampleExamples at ez2
        obtain ⟨⟨us, r⟩, er, ez2⟩ := Out.bind_eq_ok.1 ez2
        simp only [Out.pure_eq, Out.ok.injEq] at ez2
        rw [← ez2]
      refine updateFeatures_times ha hc g bs true ex fs z2 ((sampleExamples_data ez2).trans hz.1) fun u hu => hz.2 u ?_
      rw [← hz2]
      exact prefix_mem efs hu
    · split
      · refine .same fun fs efs => ?_
        exact updateFeatures_times ha hc g bs false _ fs z hz.1 fun u hu => hz.2 u (prefix_mem efs hu)
      · exact Out.Leads.refl _

end BitBoost
