import Verif.Model.Dataset
/-! Helper lemmas: no update of a dataset changes the data it is about. -/
namespace BitBoost.Dataset

theorem updateLocard_data {ds ds' : Dataset} {f : Nat} {ex : List Nat} (h : updateLocard ds f ex = .ok ds') :
    ds'.data = ds.data := by
  unfold updateLocard at h
  obtain ⟨_, _, h⟩ := Out.bind_eq_ok.1 h
  obtain ⟨_, _, h⟩ := Out.bind_eq_ok.1 h
  obtain ⟨_, _, h⟩ := Out.bind_eq_ok.1 h
  obtain ⟨_, _, h⟩ := Out.bind_eq_ok.1 h
  obtain ⟨_, _, h⟩ := Out.bind_eq_ok.1 h
  cases h; rfl

theorem updateHicard_data {F : FP} {cfg : Config} {ds ds' : Dataset} {f : Nat} {ex : List Nat} {grad : List Num}
    {bounds : Num × Num} (h : updateHicard F cfg ds f ex grad bounds = .ok ds') : ds'.data = ds.data := by
  unfold updateHicard at h
  obtain ⟨_, _, h⟩ := Out.bind_eq_ok.1 h
  obtain ⟨_, _, h⟩ := Out.bind_eq_ok.1 h
  obtain ⟨_, _, h⟩ := Out.bind_eq_ok.1 h
  obtain ⟨_, _, h⟩ := Out.bind_eq_ok.1 h
  obtain ⟨_, _, h⟩ := Out.bind_eq_ok.1 h
  obtain ⟨_, _, h⟩ := Out.bind_eq_ok.1 h
  obtain ⟨_, _, h⟩ := Out.bind_eq_ok.1 h
  obtain ⟨_, _, h⟩ := Out.bind_eq_ok.1 h
  obtain ⟨_, _, h⟩ := Out.bind_eq_ok.1 h
  cases h; rfl

theorem updateNum_data {F : FP} {cfg : Config} {ds ds' : Dataset} {f : Nat} {ex : List Nat} {grad : List Num}
    (h : updateNum F cfg ds f ex grad = .ok ds') : ds'.data = ds.data := by
  unfold updateNum at h
  obtain ⟨_, _, h⟩ := Out.bind_eq_ok.1 h
  obtain ⟨_, _, h⟩ := Out.bind_eq_ok.1 h
  obtain ⟨_, _, h⟩ := Out.bind_eq_ok.1 h
  obtain ⟨⟨_, _⟩, _, h⟩ := Out.bind_eq_ok.1 h
  obtain ⟨_, _, h⟩ := Out.bind_eq_ok.1 h
  obtain ⟨_, _, h⟩ := Out.bind_eq_ok.1 h
  obtain ⟨_, _, h⟩ := Out.bind_eq_ok.1 h
  obtain ⟨_, _, h⟩ := Out.bind_eq_ok.1 h
  obtain ⟨_, _, h⟩ := Out.bind_eq_ok.1 h
  cases h; rfl

theorem updateFeatures_data {F : FP} {cfg : Config} {grad : List Num} {bounds : Num × Num} {bagged : Bool}
    {ex : List Nat} : ∀ {fs : List Nat} {ds ds' : Dataset},
    updateFeatures F cfg grad bounds bagged ex fs ds = .ok ds' → ds'.data = ds.data := by
  intro fs
  induction fs with
  | nil => intro ds ds' h; cases h; rfl
  | cons f fs ih =>
    intro ds ds' h
    unfold updateFeatures at h
    obtain ⟨d1, e, h⟩ := Out.bind_eq_ok.1 h
    rw [ih h]
    unfold updateFeature at e
    obtain ⟨c, _, e⟩ := Out.bind_eq_ok.1 e
    split at e
    · split at e
      · exact updateLocard_data e
      · cases e; rfl
    · exact updateHicard_data e
    · exact updateNum_data e

theorem sampleFeatures_data {ds ds' : Dataset} (h : sampleFeatures ds = .ok ds') : ds'.data = ds.data := by
  unfold sampleFeatures at h
  split at h
  · obtain ⟨⟨_, _⟩, _, h⟩ := Out.bind_eq_ok.1 h
    cases h; rfl
  · cases h; rfl

theorem sampleExamples_data {ds ds' : Dataset} (h : sampleExamples ds = .ok ds') : ds'.data = ds.data := by
  unfold sampleExamples at h
  obtain ⟨⟨_, _⟩, _, h⟩ := Out.bind_eq_ok.1 h
  cases h; rfl

theorem update_data {F : FP} {cfg : Config} {ds ds' : Dataset} {grad : List Num} {bounds : Num × Num}
    (h : update F cfg ds grad bounds = .ok ds') : ds'.data = ds.data := by
  unfold update at h
  dsimp only at h
  split at h
  · cases h; rfl
  · unfold refresh at h
    obtain ⟨d1, e, h⟩ := Out.bind_eq_ok.1 h
    have h1 := sampleFeatures_data e
    split at h
    · obtain ⟨d2, e2, h⟩ := Out.bind_eq_ok.1 h
      obtain ⟨_, _, h⟩ := Out.bind_eq_ok.1 h
      obtain ⟨_, _, h⟩ := Out.bind_eq_ok.1 h
      rw [updateFeatures_data h, sampleExamples_data e2, h1]; rfl
    · split at h
      · obtain ⟨_, _, h⟩ := Out.bind_eq_ok.1 h
        rw [updateFeatures_data h, h1]; rfl
      · cases h; rw [h1]; rfl

theorem new_data {F : FP} {cfg : Config} {d : Data} {rng : Rng} {ds : Dataset} (h : new F cfg d rng = .ok ds) :
    ds.data = d := by
  have hinit : ∀ (ex fs : List Nat) (ds ds' : Dataset), initLocard ex fs ds = .ok ds' → ds'.data = ds.data := by
    intro ex fs
    induction fs with
    | nil => intro ds ds' h; cases h; rfl
    | cons f fs ih =>
      intro ds ds' h
      unfold initLocard at h
      obtain ⟨d1, e, h⟩ := Out.bind_eq_ok.1 h
      rw [ih _ _ h]
      unfold initFeature at e
      obtain ⟨c, _, e⟩ := Out.bind_eq_ok.1 e
      split at e
      · exact updateLocard_data e
      · cases e; rfl
  unfold new at h
  obtain ⟨d1, e, h⟩ := Out.bind_eq_ok.1 h
  have hd : d1.data = d := by
    unfold inner at e
    obtain ⟨⟨_, _, _⟩, _, e⟩ := Out.bind_eq_ok.1 e
    cases e; rfl
  split at h
  · cases h; exact hd
  · rw [hinit _ _ _ _ h]; exact hd

end BitBoost.Dataset
