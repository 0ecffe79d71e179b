import Verif.Spec.Names
/-!
# C68: objectives and metrics are chosen by name
-/
namespace BitBoost.Props
open BitBoost Spec

private theorem sameName_iff (s : List Char) (t : String) (u : List Char) (h : t.toList.map Char.toLower = u) :
    SameName s t.toList ↔ Objective.lowercase s = u := by
  subst h
  unfold SameName Objective.lowercase
  generalize t.toList = t
  induction s generalizing t with
  | nil => cases t <;> simp
  | cons a s ih => cases t <;> simp [ih]

/-- `objective_from_name` accepts exactly the five names, in any mixture of upper and lower case, and gives a
fresh objective of the kind named. -/
theorem C68_objective (s : List Char) (o : Objective) :
    Objective.fromName s = some o ↔ ∃ n k, (n, k) ∈ objectiveNames ∧ SameName s n.toList ∧ o = Objective.new k := by
  have h1 := sameName_iff s "L2" ['l', '2'] (by decide)
  have h2 := sameName_iff s "L1" ['l', '1'] (by decide)
  have h3 := sameName_iff s "Huber" ['h', 'u', 'b', 'e', 'r'] (by decide)
  have h4 := sameName_iff s "Binary" ['b', 'i', 'n', 'a', 'r', 'y'] (by decide)
  have h5 := sameName_iff s "Hinge" ['h', 'i', 'n', 'g', 'e'] (by decide)
  unfold Objective.fromName
  constructor
  · intro h
    split_ifs at h with c1 c2 c3 c4 c5 <;> simp only [Option.some.injEq] at h
    · exact ⟨_, _, by simp [objectiveNames], h1.2 c1, h.symm⟩
    · exact ⟨"L1", .l1, by simp [objectiveNames], h2.2 c2, h.symm⟩
    · exact ⟨"Huber", .huber, by simp [objectiveNames], h3.2 c3, h.symm⟩
    · exact ⟨"Binary", .binary, by simp [objectiveNames], h4.2 c4, h.symm⟩
    · exact ⟨"Hinge", .hinge, by simp [objectiveNames], h5.2 c5, h.symm⟩
  · rintro ⟨n, k, hm, hs, rfl⟩
    simp only [objectiveNames, List.mem_cons, Prod.mk.injEq, List.not_mem_nil, or_false] at hm
    rcases hm with ⟨rfl, rfl⟩ | ⟨rfl, rfl⟩ | ⟨rfl, rfl⟩ | ⟨rfl, rfl⟩ | ⟨rfl, rfl⟩
    · rw [h1] at hs; simp [hs]
    · rw [h2] at hs; simp [hs]
    · rw [h3] at hs; simp [hs]
    · rw [h4] at hs; simp [hs]
    · rw [h5] at hs; simp [hs]

example : ∃ n k, (n, k) ∈ objectiveNames ∧ SameName "hUBER".toList n.toList ∧ Objective.new .huber = Objective.new k :=
  (C68_objective _ _).1 (by decide +kernel)

/-- `metric_from_name` accepts exactly the listed names, in any mixture of upper and lower case. -/
theorem C68_metric (s : List Char) (m : Metric) :
    Metric.fromName s = some m ↔ ∃ n, (n, m) ∈ metricNames ∧ SameName s n.toList := by
  have h1 := sameName_iff s "L2" "l2".toList (by decide)
  have h2 := sameName_iff s "RMSE" "rmse".toList (by decide)
  have h3 := sameName_iff s "BinaryLoss" "binaryloss".toList (by decide)
  have h4 := sameName_iff s "Binary_Loss" "binary_loss".toList (by decide)
  have h5 := sameName_iff s "BinaryError" "binaryerror".toList (by decide)
  have h6 := sameName_iff s "Binary_Error" "binary_error".toList (by decide)
  have h7 := sameName_iff s "BinaryError01" "binaryerror01".toList (by decide)
  have h8 := sameName_iff s "Binary_Error01" "binary_error01".toList (by decide)
  simp only [Metric.fromName]
  constructor
  · intro h
    split_ifs at h with c1 c2 c3 c4 c5 <;> simp only [Option.some.injEq] at h <;> subst h
    · exact ⟨"L2", by simp [metricNames], h1.2 c1⟩
    · exact ⟨"RMSE", by simp [metricNames], h2.2 c2⟩
    · rcases c3 with c | c
      · exact ⟨"BinaryLoss", by simp [metricNames], h3.2 c⟩
      · exact ⟨"Binary_Loss", by simp [metricNames], h4.2 c⟩
    · rcases c4 with c | c
      · exact ⟨"BinaryError", by simp [metricNames], h5.2 c⟩
      · exact ⟨"Binary_Error", by simp [metricNames], h6.2 c⟩
    · rcases c5 with c | c
      · exact ⟨"BinaryError01", by simp [metricNames], h7.2 c⟩
      · exact ⟨"Binary_Error01", by simp [metricNames], h8.2 c⟩
  · rintro ⟨n, hm, hs⟩
    simp only [metricNames, List.mem_cons, Prod.mk.injEq, List.not_mem_nil, or_false] at hm
    rcases hm with ⟨rfl, rfl⟩ | ⟨rfl, rfl⟩ | ⟨rfl, rfl⟩ | ⟨rfl, rfl⟩ | ⟨rfl, rfl⟩ | ⟨rfl, rfl⟩ | ⟨rfl, rfl⟩ | ⟨rfl, rfl⟩
    · rw [h1] at hs; rw [hs]; decide
    · rw [h2] at hs; rw [hs]; decide
    · rw [h3] at hs; rw [hs]; decide
    · rw [h4] at hs; rw [hs]; decide
    · rw [h5] at hs; rw [hs]; decide
    · rw [h6] at hs; rw [hs]; decide
    · rw [h7] at hs; rw [hs]; decide
    · rw [h8] at hs; rw [hs]; decide

example : ∃ n, (n, Metric.rmse) ∈ metricNames ∧ SameName "Rmse".toList n.toList := (C68_metric _ _).1 (by decide)

/-- `metrics_from_names` gives one metric for each name, in the same order, and fails if one of the names is unknown. -/
theorem C68_metrics (ns : List (List Char)) (ms : List Metric) :
    Metric.fromNames ns = some ms ↔
      List.Forall₂ (fun s m => ∃ n, (n, m) ∈ metricNames ∧ SameName s n.toList) ns ms := by
  simp only [← C68_metric]
  induction ns generalizing ms with
  | nil => cases ms <;> simp [Metric.fromNames]
  | cons s ns ih =>
    simp only [Metric.fromNames]
    cases h : Metric.fromName s with
    | none => cases ms <;> simp [h]
    | some m =>
      cases h' : Metric.fromNames ns with
      | none =>
        cases ms with
        | nil => simp
        | cons m' ms => simp [h, ← ih, h']
      | some ms' =>
        cases ms with
        | nil => simp
        | cons m' ms => simp [h, ← ih, h']

example : Metric.fromNames ["L2".toList, "binary_error".toList] = some [.l2, .binaryError] := by decide

/-- `metric_for_objective`: the root mean squared error for the regression objectives, the log loss for the binary
objective, and no metric for the hinge objective and unknown names. -/
theorem C68_objective_metric (s : List Char) (m : Metric) :
    Metric.forObjective s = some m ↔ ∃ n, (n, m) ∈ objectiveMetric ∧ SameName s n.toList := by
  have h1 := sameName_iff s "L2" "l2".toList (by decide)
  have h2 := sameName_iff s "L1" "l1".toList (by decide)
  have h3 := sameName_iff s "Huber" "huber".toList (by decide)
  have h4 := sameName_iff s "Binary" "binary".toList (by decide)
  simp only [Metric.forObjective]
  constructor
  · intro h
    split_ifs at h with c1 c2 <;> simp only [Option.some.injEq] at h <;> subst h
    · rcases c1 with c | c | c
      · exact ⟨"L2", by simp [objectiveMetric], h1.2 c⟩
      · exact ⟨"L1", by simp [objectiveMetric], h2.2 c⟩
      · exact ⟨"Huber", by simp [objectiveMetric], h3.2 c⟩
    · exact ⟨"Binary", by simp [objectiveMetric], h4.2 c2⟩
  · rintro ⟨n, hm, hs⟩
    simp only [objectiveMetric, List.mem_cons, Prod.mk.injEq, List.not_mem_nil, or_false] at hm
    rcases hm with ⟨rfl, rfl⟩ | ⟨rfl, rfl⟩ | ⟨rfl, rfl⟩ | ⟨rfl, rfl⟩
    · rw [h1] at hs; rw [hs]; decide
    · rw [h2] at hs; rw [hs]; decide
    · rw [h3] at hs; rw [hs]; decide
    · rw [h4] at hs; rw [hs]; decide

example : Metric.forObjective "huber".toList = some .rmse := by decide
example : Metric.forObjective "hinge".toList = none := by decide

/-- The name an objective or a metric reports selects it again. -/
theorem C68_round_trip (o : Objective) (m : Metric) :
    (∃ o', Objective.fromName o.name = some o' ∧ o'.kind = o.kind) ∧ Metric.fromName m.name = some m := by
  constructor
  · unfold Objective.name
    cases o.kind
    · exact ⟨Objective.new .l2, by decide +kernel, rfl⟩
    · exact ⟨Objective.new .l1, by decide +kernel, rfl⟩
    · exact ⟨Objective.new .huber, by decide +kernel, rfl⟩
    · exact ⟨Objective.new .binary, by decide +kernel, rfl⟩
    · exact ⟨Objective.new .hinge, by decide +kernel, rfl⟩
  · cases m <;> decide

end BitBoost.Props
