import Verif.Lemmas.Holds
import Verif.Props.SliceStore
import Verif.Lemmas.SameData
import Verif.Lemmas.Boost
/-!
Helper lemmas: the learner with the slice stores does what the learner on values does, and two contexts that hold the
same slices stay so.
-/
namespace BitBoost

/-- The first two computations panic, and with `P` so does the third, or all three end in the same way with related
results. -/
inductive Out.Tri {α β γ : Type} (P : Prop) (R : α → β → γ → Prop) : Out α → Out β → Out γ → Prop
  | ok {a : α} {b : β} {c : γ} (h : R a b c) : Out.Tri P R (.ok a) (.ok b) (.ok c)
  | panic {z : Out γ} (h : P → z = .panic) : Out.Tri P R .panic .panic z
  | ub : Out.Tri P R .ub .ub .ub

namespace Out
variable {P : Prop}

theorem Tri.bind {α β γ α' β' γ' : Type} {R : α → β → γ → Prop} {S : α' → β' → γ' → Prop} {x : Out α} {y : Out β}
    {z : Out γ} {f : α → Out α'} {g : β → Out β'} {h : γ → Out γ'} (hx : Tri P R x y z)
    (hf : ∀ a b c, R a b c → Tri P S (f a) (g b) (h c)) : Tri P S (x >>= f) (y >>= g) (z >>= h) := by
  cases hx with
  | ok hr => simpa using hf _ _ _ hr
  | panic hp => exact .panic fun h => by rw [hp h]; rfl
  | ub => exact .ub

theorem Tri.same {α α' β' γ' : Type} {S : α' → β' → γ' → Prop} {x : Out α} {f : α → Out α'} {g : α → Out β'}
    {h : α → Out γ'} (hf : ∀ a, x = .ok a → Tri P S (f a) (g a) (h a)) : Tri P S (x >>= f) (x >>= g) (x >>= h) := by
  cases x with
  | ok a => simpa using hf a rfl
  | panic => exact .panic fun _ => rfl
  | ub => exact .ub

theorem Tri.refl {α : Type} {R : α → α → α → Prop} (x : Out α) (hR : ∀ a, x = .ok a → R a a a) : Tri P R x x x := by
  cases x with
  | ok a => exact .ok (hR a rfl)
  | panic => exact .panic fun _ => rfl
  | ub => exact .ub

theorem Tri.diag {α γ : Type} {R : α → α → γ → Prop} {x : Out α} {z : Out γ} (h : Tri P R x x z) :
    Tri P (fun a b c => a = b ∧ R a b c) x x z := by
  generalize hy : x = y at h
  have h' : Tri P R x y z := by
    rw [hy]; exact h
  clear h
  cases h' with
  | ok h => cases hy; exact .ok ⟨rfl, h⟩
  | panic h => exact .panic h
  | ub => exact .ub

theorem Tri.mono {α β γ : Type} {R S : α → β → γ → Prop} {x : Out α} {y : Out β} {z : Out γ} (h : Tri P R x y z)
    (hRS : ∀ a b c, R a b c → S a b c) : Tri P S x y z := by
  cases h with
  | ok h => exact .ok (hRS _ _ _ h)
  | panic h => exact .panic h
  | ub => exact .ub

end Out

namespace StoreLearner
open Learner Store

/-! ## Lengths -/

theorem set_length {w : Nat} {bs bs' : Blocks} {i : Nat} {v : BitVec w} (h : Blocks.set w bs i v = .ok bs') :
    bs'.length = bs.length := by
  unfold Blocks.set at h
  split at h
  · cases h; exact Blocks.length_setWord ..
  · cases h

theorem setUnchecked_length {w : Nat} {bs bs' : Blocks} {i : Nat} {v : BitVec w}
    (h : Blocks.setUnchecked w bs i v = .ok bs') : bs'.length = bs.length := by
  unfold Blocks.setUnchecked at h
  split at h
  · cases h; exact Blocks.length_setWord ..
  · cases h

theorem setLoop_length {w bp bi : Nat} {v : BitVec 8} : ∀ {n k : Nat} {bs bs' : Blocks},
    BitSlice.setLoop w bp bi v n k bs = .ok bs' → bs'.length = bs.length := by
  intro n
  induction n with
  | zero => intro k bs bs' h; cases h; rfl
  | succ n ih =>
    intro k bs bs' h
    unfold BitSlice.setLoop at h
    obtain ⟨x, _, h⟩ := Out.bind_eq_ok.1 h
    obtain ⟨b1, e1, h⟩ := Out.bind_eq_ok.1 h
    rw [ih h, set_length e1]

theorem copyLoop_length {w fr to_ : Nat} {other : Blocks} : ∀ {n k : Nat} {bs bs' : Blocks},
    BitSlice.copyLoop w other fr to_ n k bs = .ok bs' → bs'.length = bs.length := by
  intro n
  induction n with
  | zero => intro k bs bs' h; cases h; rfl
  | succ n ih =>
    intro k bs bs' h
    unfold BitSlice.copyLoop at h
    obtain ⟨x, _, h⟩ := Out.bind_eq_ok.1 h
    obtain ⟨b1, e1, h⟩ := Out.bind_eq_ok.1 h
    rw [ih h, setUnchecked_length e1]

theorem fillGrads_length {F : FP} {w : Nat} {bounds : Num × Num} {gr : List Num} :
    ∀ {ps : List (Nat × Nat)} {sum : Nat} {bs : Blocks} {r : Nat × Blocks},
    fillGrads F w bounds gr ps sum bs = .ok r → r.2.length = bs.length := by
  intro ps
  induction ps with
  | nil => intro sum bs r h; cases h; rfl
  | cons p ps ih =>
    intro sum bs r h
    obtain ⟨i, j⟩ := p
    unfold fillGrads at h
    obtain ⟨v, _, h⟩ := Out.bind_eq_ok.1 h
    obtain ⟨x, e, h⟩ := Out.bind_eq_ok.1 h
    rw [ih h]
    unfold BitSlice.setScaledValue at e
    obtain ⟨b1, e1, e2⟩ := Out.bind_eq_ok.1 e
    cases e2
    exact setLoop_length e1

theorem splitLoop_length {idx pm fm : Blocks} {neg : Bool} : ∀ {k j z : Nat} {cm : Blocks} {r : Nat × Blocks},
    splitLoop idx pm fm neg k j z cm = .ok r → r.2.length = cm.length := by
  intro k
  induction k with
  | zero => intro j z cm r h; cases h; rfl
  | succ k ih =>
    intro j z cm r h
    unfold splitLoop at h
    obtain ⟨i, _, h⟩ := Out.bind_eq_ok.1 h
    obtain ⟨p, _, h⟩ := Out.bind_eq_ok.1 h
    obtain ⟨f, _, h⟩ := Out.bind_eq_ok.1 h
    obtain ⟨c1, e1, h⟩ := Out.bind_eq_ok.1 h
    rw [ih h, set_length e1]

theorem compressLoop_length {w : Nat} {pidx pgrads : Blocks} : ∀ {n j k : Nat} {mask cidx cgrads : Blocks}
    {r : Nat × Blocks × Blocks × Blocks}, compressLoop w pidx pgrads n j k mask cidx cgrads = .ok r →
    r.2.1.length = mask.length ∧ r.2.2.1.length = cidx.length ∧ r.2.2.2.length = cgrads.length := by
  intro n
  induction n with
  | zero => intro j k mask cidx cgrads r h; cases h; exact ⟨rfl, rfl, rfl⟩
  | succ n ih =>
    intro j k mask cidx cgrads r h
    unfold compressLoop at h
    obtain ⟨i, _, h⟩ := Out.bind_eq_ok.1 h
    obtain ⟨m, _, h⟩ := Out.bind_eq_ok.1 h
    split at h
    · exact ih h
    · obtain ⟨m1, e1, h⟩ := Out.bind_eq_ok.1 h
      obtain ⟨c1, e2, h⟩ := Out.bind_eq_ok.1 h
      obtain ⟨g1, e3, h⟩ := Out.bind_eq_ok.1 h
      obtain ⟨h1, h2, h3⟩ := ih h
      exact ⟨by rw [h1, set_length e1], by rw [h2, set_length e2], by rw [h3]; exact copyLoop_length e3⟩

theorem zeroWords_length : ∀ {n j : Nat} {mask m' : Blocks}, zeroWords n j mask = .ok m' → m'.length = mask.length := by
  intro n
  induction n with
  | zero => intro j mask m' h; cases h; rfl
  | succ n ih =>
    intro j mask m' h
    unfold zeroWords at h
    obtain ⟨m1, e1, h⟩ := Out.bind_eq_ok.1 h
    rw [ih h, set_length e1]

/-! ## Histograms in a flat slice -/

theorem flat_slice {α : Type} : ∀ (h : List (List α)) (f : Nat) (hf : f < h.length),
    (h.flatten.drop ((h.map List.length).take f).sum).take h[f].length = h[f] ∧
    ((h.map List.length).take f).sum + h[f].length ≤ h.flatten.length := by
  intro h
  induction h with
  | nil => intro f hf; simp at hf
  | cons x h ih =>
    intro f hf
    cases f with
    | zero => simp
    | succ f =>
      obtain ⟨h1, h2⟩ := ih f (by simpa using hf)
      constructor
      · simp only [List.map_cons, List.take_succ_cons, List.sum_cons, List.flatten_cons, List.getElem_cons_succ]
        rw [← List.drop_drop, List.drop_left]
        exact h1
      · simp only [List.map_cons, List.take_succ_cons, List.sum_cons, List.flatten_cons, List.getElem_cons_succ,
          List.length_append]
        omega

theorem flat_set {α : Type} : ∀ (h : List (List α)) (f b : Nat) (hf : f < h.length) (_ : b < h[f].length) (v : α),
    h.flatten.set (((h.map List.length).take f).sum + b) v = (h.set f (h[f].set b v)).flatten := by
  intro h
  induction h with
  | nil => intro f b hf; simp at hf
  | cons x h ih =>
    intro f b hf hb v
    cases f with
    | zero =>
      simp only [List.take_zero, List.sum_nil, Nat.zero_add, List.flatten_cons, List.getElem_cons_zero,
        List.set_cons_zero] at hb ⊢
      rw [List.set_append_left _ _ hb]
    | succ f =>
      simp only [List.map_cons, List.take_succ_cons, List.sum_cons, List.flatten_cons, List.getElem_cons_succ,
        List.set_cons_succ] at hb ⊢
      rw [List.set_append_right _ _ (by omega), ← ih f b (by simpa using hf) hb v]
      congr 2
      omega

theorem flat_zip {α : Type} (sub : α → α → α) : ∀ (p l : List (List α)), p.map List.length = l.map List.length →
    List.zipWith sub p.flatten l.flatten = (List.zipWith (List.zipWith sub) p l).flatten := by
  intro p
  induction p with
  | nil => intro l h; simp
  | cons x p ih =>
    intro l h
    cases l with
    | nil => simp at h
    | cons y l =>
      simp only [List.map_cons, List.cons.injEq] at h
      simp only [List.flatten_cons, List.zipWith_cons_cons]
      rw [List.zipWith_append h.1, ih l h.2]

theorem flat_length {α : Type} {p l : List (List α)} (h : p.map List.length = l.map List.length) :
    p.flatten.length = l.flatten.length := by
  rw [List.length_flatten, List.length_flatten, h]

theorem zip_shape {α : Type} {sub : α → α → α} : ∀ {p l : List (List α)}, p.map List.length = l.map List.length →
    (List.zipWith (List.zipWith sub) p l).map List.length = p.map List.length := by
  intro p
  induction p with
  | nil => intro l h; simp
  | cons x p ih =>
    intro l h
    cases l with
    | nil => simp at h
    | cons y l =>
      simp only [List.map_cons, List.cons.injEq] at h
      simp only [List.zipWith_cons_cons, List.map_cons, List.length_zipWith]
      rw [ih h.2, ← h.1]
      simp

/-! ## Contexts -/

/-- Two contexts hold the histograms `H`, masks `M`, indices `I` and gradients `G`, and will hand out the same ranges.
`ns` are the numbers of bins. At most `kh`, `km` and `kg` slices of `B` elements are in use in the stores; slices of indices have at
most `nb` elements. -/
structure Both (ns : List Nat) (B nb kh km kg : Nat) (c c' : Context) (H : List (Range × Hists)) (M I G : List (Range × Blocks)) : Prop where
  layout : c.layout = histLayout ns
  layout' : c'.layout = histLayout ns
  shape : ∀ x ∈ H, x.2.map List.length = ns
  hist : Twin 2 (kh * B) c.hist c'.hist (H.map fun x => (x.1, x.2.flatten))
  mask : Twin 2 (km * B) c.mask c'.mask M
  idx : Twin 2 (kg * B) c.idx c'.idx I
  grad : Twin 2 (kg * B) c.grad c'.grad G
  small : ∀ x ∈ I, x.2.length ≤ nb

/-- The range of a node and the node with the values. -/
structure NodeRel (I G : List (Range × Blocks)) (n : NodeRef) (v : Node) : Prop where
  id : n.nodeId = v.nodeId
  cnt : n.exampleCount = v.exampleCount
  sum : n.gradSum = v.gradSum
  compr : n.compressed = v.compressed
  idx : (n.idx, v.idx) ∈ I
  grads : (n.grads, v.grads) ∈ G

theorem NodeRel.mono {I G I' G' : List (Range × Blocks)} {n : NodeRef} {v : Node} (h : NodeRel I G n v)
    (hI : ∀ x ∈ I, x ∈ I') (hG : ∀ x ∈ G, x ∈ G') : NodeRel I' G' n v :=
  ⟨h.id, h.cnt, h.sum, h.compr, hI _ h.idx, hG _ h.grads⟩

variable {P : Prop} {ns : List Nat} {B nb kh km kg k : Nat} {c c' : Context} {H : List (Range × Hists)} {M I G : List (Range × Blocks)}

theorem layout_get (ns : List Nat) (f : Nat) :
    histogramRange (histLayout ns) f =
      if f < ns.length then .ok ((ns.take f).sum, (ns.take f).sum + ns.getD f 0) else .panic := by
  split
  · rename_i hf
    rw [(Props.C13_layout ns f hf).1, List.getD_eq_getElem?_getD, List.getElem?_eq_getElem hf]
    rfl
  · rename_i hf
    unfold histogramRange
    have hlen : ∀ (l : List Nat) (a : Nat), (histLayoutLoop a l).length = l.length + 1 := by
      intro l
      induction l with
      | nil => intro a; rfl
      | cons x l ih => intro a; simp [histLayoutLoop, ih]
    have : (histLayout ns)[f + 1]? = none := by
      rw [List.getElem?_eq_none]
      unfold histLayout
      rw [hlen]
      omega
    rw [this]
    cases (histLayout ns)[f]? <;> rfl

theorem getHist_eq {s : Store HistVal} {L : List (Range × List HistVal)} (hs : Holds s L) {r : Range} {h : Hists}
    (hm : (r, h.flatten) ∈ L) (hsh : h.map List.length = ns) (f : Nat) :
    getHist s (histLayout ns) r f = at? h f := by
  unfold getHist
  rw [layout_get]
  have hlen : ns.length = h.length := by rw [← hsh]; simp
  by_cases hf : f < h.length
  · rw [if_pos (by omega), Out.ok_bind, hs.read hm, Out.ok_bind]
    obtain ⟨h1, h2⟩ := flat_slice h f hf
    have hd : ns.getD f 0 = h[f].length := by
      rw [← hsh, List.getD_eq_getElem?_getD]
      simp [hf]
    rw [hsh] at h1 h2
    simp only
    rw [if_pos ⟨by omega, by omega⟩, hd]
    have : (ns.take f).sum + h[f].length - (ns.take f).sum = h[f].length := by omega
    rw [this, h1]
    unfold at?
    rw [List.getElem?_eq_getElem hf]
  · rw [if_neg (by omega), Out.panic_bind]
    unfold at?
    rw [List.getElem?_eq_none (by omega)]

theorem scanBins_eq {F : FP} {cfg : Config} {ds : Dataset} {pg : Num} {pc : Nat} {h : Hists} {f : Nat}
    {hs : List HistVal} (hh : at? h f = .ok hs) : ∀ (k b : Nat) (best : Num × Split),
    StoreLearner.scanBins F cfg ds pg pc hs f k b best = Learner.scanBins F cfg ds pg pc h f k b best := by
  intro k
  induction k with
  | zero => intro b best; rfl
  | succ k ih =>
    intro b best
    unfold StoreLearner.scanBins Learner.scanBins histAt
    rw [hh, Out.ok_bind]
    simp only [ih]

/-- All three results are the same. -/
def AllEq {α : Type} (a b c : α) : Prop := a = b ∧ b = c

theorem Both.getHist (hb : Both ns B nb kh km kg c c' H M I G) {r : Range} {h : Hists} (hm : (r, h) ∈ H) (f : Nat) :
    BitBoost.getHist c.hist c.layout r f = at? h f ∧ BitBoost.getHist c'.hist c'.layout r f = at? h f := by
  have hm' : (r, h.flatten) ∈ H.map fun x => (x.1, x.2.flatten) := List.mem_map.2 ⟨(r, h), hm, rfl⟩
  rw [hb.layout, hb.layout']
  exact ⟨getHist_eq hb.hist.left hm' (hb.shape _ hm) f, getHist_eq hb.hist.right hm' (hb.shape _ hm) f⟩

theorem scanFeatures_tri {F : FP} {cfg : Config} {ds : Dataset} (hb : Both ns B nb kh km kg c c' H M I G) {n : NodeRef} {v : Node}
    (hr : NodeRel I G n v) (hm : (n.hists, v.hists) ∈ H) : ∀ (fs : List Nat), (P → ∀ f ∈ fs, f < ns.length) →
    ∀ (best : Num × Split), Out.Tri P AllEq (StoreLearner.scanFeatures F cfg ds c n fs best) (StoreLearner.scanFeatures F cfg ds c' n fs best)
      (Learner.scanFeatures F cfg ds v.gradSum v.exampleCount v.hists fs best) := by
  intro fs
  induction fs with
  | nil => intro _ best; exact .ok ⟨rfl, rfl⟩
  | cons f fs ih =>
    intro hact best
    unfold StoreLearner.scanFeatures Learner.scanFeatures
    rw [(hb.getHist hm f).1, (hb.getHist hm f).2]
    cases hh : at? v.hists f with
    | panic => 
      refine .panic fun hp => ?_
      have h1 := hact hp f (List.mem_cons_self ..)
      rw [← hb.shape _ hm, List.length_map] at h1
      simp only at h1
      unfold at? at hh
      rw [List.getElem?_eq_getElem h1] at hh
      cases hh
    | ub => unfold at? at hh; split at hh <;> cases hh
    | ok hs =>
      rw [Out.ok_bind, Out.ok_bind]
      refine Out.Tri.same fun k _ => ?_
      simp only [scanBins_eq hh, hr.sum, hr.cnt]
      exact Out.Tri.same fun b _ => ih (fun hp g hg => hact hp g (List.mem_cons_of_mem _ hg)) b

theorem findBestSplit_tri {F : FP} {cfg : Config} {ds : Dataset} (hb : Both ns B nb kh km kg c c' H M I G) {n : NodeRef} {v : Node}
    (hact : P → ∀ fs, ds.activeFeatures = .ok fs → ∀ f ∈ fs, f < ns.length)
    (hr : NodeRel I G n v) (hm : (n.hists, v.hists) ∈ H) :
    Out.Tri P AllEq (StoreLearner.findBestSplit F cfg ds c n) (StoreLearner.findBestSplit F cfg ds c' n)
      (Learner.findBestSplit F cfg ds v.gradSum v.exampleCount v.hists) := by
  unfold StoreLearner.findBestSplit Learner.findBestSplit
  refine Out.Tri.same fun fs hfs => Out.Tri.bind (scanFeatures_tri hb hr hm fs (fun hp => hact hp fs hfs) _) ?_
  rintro a _ _ ⟨rfl, rfl⟩
  exact .ok ⟨rfl, rfl⟩

theorem gradSum_eq {F : FP} {cfg : Config} {w : Nat} {bounds : Num × Num} {n : NodeRef} {v : Node}
    (hr : NodeRel I G n v) (h1 : c.mask.readSlice n.mask = .ok v.mask) (h2 : c.grad.readSlice n.grads = .ok v.grads)
    (h3 : c.idx.readSlice n.idx = .ok v.idx) (fmask : Blocks) :
    StoreLearner.gradSum F cfg w bounds c n fmask = Learner.gradSum F cfg w bounds v fmask := by
  unfold StoreLearner.gradSum
  rw [h1, h2, h3]
  simp only [Out.ok_bind]
  cases hc : n.compressed with
  | true =>
    rw [if_pos rfl]
    unfold Learner.gradSum view
    simp only [hc, ← hr.compr]
  | false =>
    rw [if_neg (by simp)]
    unfold Learner.gradSum view
    simp only [hc, ← hr.compr, Bool.false_eq_true, if_false]

theorem Both.gradSum (hb : Both ns B nb kh km kg c c' H M I G) {F : FP} {cfg : Config} {w : Nat} {bounds : Num × Num} {n : NodeRef}
    {v : Node} (hr : NodeRel I G n v) (hm : (n.mask, v.mask) ∈ M) (fmask : Blocks) :
    StoreLearner.gradSum F cfg w bounds c n fmask = Learner.gradSum F cfg w bounds v fmask ∧
    StoreLearner.gradSum F cfg w bounds c' n fmask = Learner.gradSum F cfg w bounds v fmask :=
  ⟨gradSum_eq hr (hb.mask.left.read hm) (hb.grad.left.read hr.grads) (hb.idx.left.read hr.idx) fmask,
    gradSum_eq hr (hb.mask.right.read hm) (hb.grad.right.read hr.grads) (hb.idx.right.read hr.idx) fmask⟩

theorem setHist_tri {r : Range} {h : Hists} (hb : Both ns B nb kh km kg c c' ((r, h) :: H) M I G) (f b : Nat) (x : HistVal) :
    Out.Tri P (fun a a' h' => Both ns B nb kh km kg a a' ((r, h') :: H) M I G) (StoreLearner.setHist c r f b x)
      (StoreLearner.setHist c' r f b x) (Learner.setHist h f b x) := by
  have hsh := hb.shape _ (List.mem_cons_self ..)
  simp only at hsh
  have hlen : ns.length = h.length := by rw [← hsh]; simp
  unfold StoreLearner.setHist Learner.setHist
  rw [hb.layout, hb.layout', layout_get]
  by_cases hf : f < h.length
  · rw [if_pos (by omega), Out.ok_bind, Out.ok_bind]
    have ha : at? h f = .ok h[f] := by unfold at?; rw [List.getElem?_eq_getElem hf]
    rw [ha, Out.ok_bind]
    obtain ⟨_, h2⟩ := flat_slice h f hf
    have hd : ns.getD f 0 = h[f].length := by
      rw [← hsh, List.getD_eq_getElem?_getD]
      simp [hf]
    have hbd := hb.hist.left.bounds (x := (r, h.flatten)) (by simp)
    simp only at hbd
    rw [hsh] at h2
    simp only [hd]
    by_cases hbf : b < h[f].length
    · have e1 : decide ((ns.take f).sum ≤ (ns.take f).sum + h[f].length ∧
          (ns.take f).sum + h[f].length ≤ r.2 - r.1 ∧
          b < (ns.take f).sum + h[f].length - (ns.take f).sum) = true := by
        rw [decide_eq_true_eq]; omega
      rw [e1, decide_eq_true hbf]
      simp only [Out.assert_true, Out.ok_bind]
      obtain ⟨s', t', k1, k2, k3⟩ := Twin.writeAt (r := r) (l := h.flatten) (L := H.map fun x => (x.1, x.2.flatten))
        (by simpa using hb.hist) (k := (ns.take f).sum + b) x (by omega)
      rw [k1, k2]
      refine .ok ⟨rfl, rfl, ?_, ?_, hb.mask, hb.idx, hb.grad, hb.small⟩
      · intro y hy
        rcases List.mem_cons.1 hy with rfl | hy
        · simp only
          rw [← hsh]
          apply List.ext_getElem
          · simp
          · intro i h1 h2
            simp only [List.getElem_map, List.getElem_set]
            split
            · rename_i hi; subst hi; simp
            · rfl
        · exact hb.shape y (List.mem_cons_of_mem _ hy)
      · rw [List.map_cons]
        simp only
        rw [← hsh, flat_set h f b hf hbf x] at k3
        exact k3
    · have e1 : decide ((ns.take f).sum ≤ (ns.take f).sum + h[f].length ∧
          (ns.take f).sum + h[f].length ≤ r.2 - r.1 ∧
          b < (ns.take f).sum + h[f].length - (ns.take f).sum) = false := by
        rw [decide_eq_false_iff_not]; omega
      rw [e1, decide_eq_false hbf]
      exact .panic fun _ => rfl
  · rw [if_neg (by omega)]
    refine .panic fun _ => ?_
    have ha : at? h f = .panic := by unfold at?; rw [List.getElem?_eq_none (by omega)]
    rw [ha]
    rfl

theorem runJobs_tri {F : FP} {cfg : Config} {ds : Dataset} {w : Nat} {bounds : Num × Num} {n : NodeRef} {v : Node}
    (hr : NodeRel I G n v) (hm : (n.mask, v.mask) ∈ M) : ∀ (js : List (Nat × Nat)) {c c' : Context} {h : Hists},
    Both ns B nb kh km kg c c' ((n.hists, h) :: H) M I G →
    Out.Tri P (fun a a' h' => Both ns B nb kh km kg a a' ((n.hists, h') :: H) M I G) (StoreLearner.runJobs F cfg ds w bounds n js c)
      (StoreLearner.runJobs F cfg ds w bounds n js c') (Learner.runJobs (histJob F cfg ds w bounds v) js h) := by
  intro js
  induction js with
  | nil => intro c c' h hb; exact .ok hb
  | cons j js ih =>
    intro c c' h hb
    obtain ⟨f, b⟩ := j
    unfold StoreLearner.runJobs Learner.runJobs histJob
    rw [Out.bind_assoc]
    refine Out.Tri.same fun fm _ => ?_
    rw [(hb.gradSum hr hm fm).1, (hb.gradSum hr hm fm).2]
    refine Out.Tri.same fun x _ => Out.Tri.bind (setHist_tri hb f b x) ?_
    intro a a' h' hb'
    exact ih hb'

theorem buildHists_tri {F : FP} {cfg : Config} {ds : Dataset} {w : Nat} {bounds : Num × Num} {n : NodeRef} {v : Node}
    (hb : Both ns B nb kh km kg c c' ((n.hists, v.hists) :: H) M I G) (hr : NodeRel I G n v) (hm : (n.mask, v.mask) ∈ M) :
    Out.Tri P (fun a a' v' => Both ns B nb kh km kg a a' ((n.hists, v'.hists) :: H) M I G ∧ ∃ h', v' = { v with hists := h' })
      (StoreLearner.buildHists F cfg ds w bounds n c) (StoreLearner.buildHists F cfg ds w bounds n c')
      (Learner.buildHists F cfg ds w bounds v) := by
  unfold StoreLearner.buildHists Learner.buildHists
  refine Out.Tri.same fun fs _ => Out.Tri.same fun js _ => ?_
  have h := runJobs_tri (P := P) (F := F) (cfg := cfg) (ds := ds) (w := w) (bounds := bounds) hr hm js hb
  revert h
  generalize StoreLearner.runJobs F cfg ds w bounds n js c = x
  generalize StoreLearner.runJobs F cfg ds w bounds n js c' = y
  generalize Learner.runJobs (histJob F cfg ds w bounds v) js v.hists = z
  intro h
  cases h with
  | ok h => exact .ok ⟨h, _, rfl⟩
  | panic h => exact .panic fun hp => by rw [h hp]; rfl
  | ub => exact .ub

/-! ## Allocations -/

/-- The slices of the nodes are smaller than `B`, and (with `P`) `K` slices of this size fit in a store. -/
structure Fits (P : Prop) (ns : List Nat) (B nb w K : Nat) : Prop where
  bins : ns.sum < B
  blocks : nb < B
  grads : nb * w < B
  max : P → K * B < u32Max

variable {w K : Nat}

theorem Fits.next (hf : Fits P ns B nb w K) (hk : k + 1 ≤ K) (hp : P) : k * B + B < u32Max := by
  have h1 := hf.max hp
  have h2 : (k + 1) * B ≤ K * B := Nat.mul_le_mul_right B hk
  rw [Nat.succ_mul] at h2
  omega

theorem room_le {n : Nat} (h : n < B) : k * B + 2 + n - 1 ≤ (k + 1) * B := by
  rw [Nat.succ_mul]
  omega

theorem Both.grow (hb : Both ns B nb kh km kg c c' H M I G) {lh lm lg : Nat} (h1 : kh ≤ lh) (h2 : km ≤ lm)
    (h3 : kg ≤ lg) : Both ns B nb lh lm lg c c' H M I G :=
  ⟨hb.layout, hb.layout', hb.shape, hb.hist.mono (Nat.mul_le_mul_right B h1), hb.mask.mono (Nat.mul_le_mul_right B h2),
    hb.idx.mono (Nat.mul_le_mul_right B h3), hb.grad.mono (Nat.mul_le_mul_right B h3), hb.small⟩

theorem newHists_eq {d : Data} (hd : binSizes d = .ok ns) :
    newHists d = do
      Out.assert (decide (0 < ns.sum))
      return ns.map fun n => List.replicate n HistVal.zero := by
  have e : newHists d = (binSizes d >>= fun ns => do
      Out.assert (decide (0 < ns.sum))
      return ns.map fun n => List.replicate n HistVal.zero) := rfl
  rw [e, hd]
  rfl

theorem newNode_tri {d : Data} (hfit : Fits P ns B nb w K) (hk : kh + 1 ≤ K) (hd : binSizes d = .ok ns)
    (hb : Both ns B nb kh km kg c c' H M I G) (id : Nat) :
    Out.Tri P (fun a a' h => a.1 = a'.1 ∧ Both ns B nb (kh + 1) km kg a.2 a'.2 ((a.1.hists, h) :: H) M I G ∧
        a.1 = { nodeId := id, exampleCount := 0, gradSum := .fin 0, compressed := false, hists := a.1.hists,
                idx := (0, 0), mask := (0, 0), grads := (0, 0) })
      (newNode c id) (newNode c' id) (newHists d) := by
  rw [newHists_eq hd]
  unfold newNode allocHists
  rw [hb.layout, hb.layout']
  have hlast : (histLayout ns).getLast? = some ns.sum := by
    have : ∀ (l : List Nat) (a : Nat), (histLayoutLoop a l).getLast? = some (a + l.sum) := by
      intro l
      induction l with
      | nil => intro a; simp [histLayoutLoop]
      | cons x l ih =>
        intro a
        rw [histLayoutLoop, List.getLast?_cons, ih]
        simp
        omega
    have := this ns 0
    rwa [Nat.zero_add] at this
  rw [hlast]
  simp only
  rcases hb.hist.alloc ns.sum HistVal.zero with ⟨e1, e2, e3⟩ | ⟨r, s', t', e1, e2, hr, hpos, ht⟩
  · rw [e1, e2]
    refine .panic fun hp => ?_
    have h1 := hfit.next hk hp
    have h2 := hfit.bins
    have h0 : ¬ 0 < ns.sum := by omega
    rw [decide_eq_false h0]
    rfl
  · rw [e1, e2, decide_eq_true hpos]
    have hfl : (ns.map fun n => List.replicate n HistVal.zero).flatten = List.replicate ns.sum HistVal.zero := by
      clear hd hb hlast e1 e2 hr hpos ht hfit
      induction ns with
      | nil => rfl
      | cons x l ih =>
        simp only [List.map_cons, List.flatten_cons, List.sum_cons, ih]
        rw [List.replicate_append_replicate]
    refine .ok ⟨rfl, ⟨rfl, rfl, ?_, ?_, hb.mask, hb.idx, hb.grad, hb.small⟩, rfl⟩
    · intro y hy
      rcases List.mem_cons.1 hy with rfl | hy
      · simp only [List.map_map]
        conv_rhs => rw [← List.map_id ns]
        apply List.map_congr_left
        intro a _
        simp
      · exact hb.shape y hy
    · rw [List.map_cons]
      simp only [hfl]
      exact ht.mono (room_le hfit.bins)

theorem allocZero_tri {s t : Store BitBlock} {L : List (Range × Blocks)} (hfit : Fits P ns B nb w K) (hk : k + 1 ≤ K)
    (h : Twin 2 (k * B) s t L) {n : Nat} (hn : n < B) :
    Out.Tri P (fun a a' l => a.1 = a'.1 ∧ Twin 2 ((k + 1) * B) a.2 a'.2 ((a.1, l) :: L) ∧
        l = List.replicate n BitBlock.zeros ∧ 0 < n ∧ a.1.2 = a.1.1 + n)
      (BitBlockStore.allocZeroBlocks s n) (BitBlockStore.allocZeroBlocks t n) (Blocks.zeroBlocks n) := by
  unfold BitBlockStore.allocZeroBlocks Blocks.zeroBlocks
  split
  · rcases h.alloc n BitBlock.zeros with ⟨e1, e2, e3⟩ | ⟨r, s', t', e1, e2, hr, hpos, ht⟩
    · rw [e1, e2]
      refine .panic fun hp => ?_
      have h1 := hfit.next hk hp
      rw [if_neg (by omega)]
    · rw [e1, e2, if_pos hpos]
      exact .ok ⟨rfl, ht.mono (room_le hn), rfl, hpos, hr⟩
  · refine .panic fun hp => ?_
    have h1 := hfit.next hk hp
    omega

theorem trimLast_length {n k : Nat} {bs bs' : Blocks} (h : Blocks.trimLast n k bs = .ok bs') : bs'.length = bs.length := by
  unfold Blocks.trimLast at h
  split at h
  · cases h; rfl
  · obtain ⟨x, _, h⟩ := Out.bind_eq_ok.1 h
    cases h
    simp

theorem oneBits_length {n : Nat} {bs : Blocks} (h : Blocks.oneBits n = .ok bs) :
    bs.length = BitBlock.blocksRequiredFor n := by
  unfold Blocks.oneBits Blocks.oneBlocks at h
  dsimp only at h
  split at h
  · rw [Out.ok_bind] at h
    rw [trimLast_length h, List.length_replicate]
  · cases h

theorem allocOneBits_tri {s t : Store BitBlock} {L : List (Range × Blocks)} (hfit : Fits P ns B nb w K) (hk : k + 1 ≤ K)
    (h : Twin 2 (k * B) s t L) {n : Nat} (hn : BitBlock.blocksRequiredFor n < B) :
    Out.Tri P (fun a a' l => a.1 = a'.1 ∧ Twin 2 ((k + 1) * B) a.2 a'.2 ((a.1, l) :: L) ∧
        l.length = BitBlock.blocksRequiredFor n)
      (BitBlockStore.allocOneBits s n) (BitBlockStore.allocOneBits t n) (Blocks.oneBits n) := by
  have key : ∀ bs, Blocks.oneBits n = .ok bs → bs.length = BitBlock.blocksRequiredFor n := fun bs => oneBits_length
  revert key
  unfold BitBlockStore.allocOneBits BitBlockStore.allocOneBlocks Blocks.oneBits Blocks.oneBlocks
  dsimp only
  generalize BitBlock.blocksRequiredFor n = q at hn ⊢
  intro key
  by_cases hq : q < u32Max
  · rw [if_pos hq, if_pos hq]
    rcases h.alloc q BitBlock.ones with ⟨e1, e2, e3⟩ | ⟨r, s', t', e1, e2, hr, hpos, ht⟩
    · rw [e1, e2]
      refine .panic fun hp => ?_
      have h1 := hfit.next hk hp
      rw [if_neg (by omega)]
      rfl
    · rw [e1, e2, if_pos hpos]
      rw [if_pos hpos] at key
      simp only [Out.ok_bind] at key ⊢
      rw [ht.left.read (List.mem_cons_self ..), ht.right.read (List.mem_cons_self ..)]
      simp only [Out.ok_bind]
      cases e : Blocks.trimLast n q (List.replicate q BitBlock.ones) with
      | panic => exact .panic fun _ => rfl
      | ub => exact .ub
      | ok bs =>
        obtain ⟨s2, t2, k1, k2, k3⟩ := ht.writeAll (bs := bs) (trimLast_length e).symm
        simp only [Out.ok_bind]
        rw [k1, k2]
        exact .ok ⟨rfl, k3.mono (room_le hn), key bs e⟩
  · rw [if_neg hq, if_neg hq]
    refine .panic fun hp => ?_
    have h1 := hfit.next hk hp
    omega

theorem fromIterLoop_length {w : Nat} : ∀ (k : Nat) (it : List (BitVec w)), (Blocks.fromIterLoop w k it).length = k := by
  intro k
  induction k with
  | zero => intro it; rfl
  | succ k ih => intro it; simp [Blocks.fromIterLoop, ih]

theorem allocFromIter_tri {s t : Store BitBlock} {L : List (Range × Blocks)} (hfit : Fits P ns B nb w K)
    (hk : k + 1 ≤ K) (h : Twin 2 (k * B) s t L) (v : Nat) {n : Nat} (hn : BitBlock.blocksRequiredFor (n * v) < B)
    (it : List (BitVec v)) :
    Out.Tri P (fun a a' l => a.1 = a'.1 ∧ Twin 2 ((k + 1) * B) a.2 a'.2 ((a.1, l) :: L) ∧
        l.length = BitBlock.blocksRequiredFor (n * v))
      (BitBlockStore.allocFromIter v s n it) (BitBlockStore.allocFromIter v t n it) (Blocks.fromIter v n it) := by
  unfold BitBlockStore.allocFromIter Blocks.fromIter
  dsimp only
  refine Out.Tri.bind (allocZero_tri hfit hk h hn) ?_
  rintro ⟨r, s1⟩ ⟨r', t1⟩ l ⟨h1, h2, rfl, _⟩
  simp only at h1 h2
  subst h1
  obtain ⟨s2, t2, k1, k2, k3⟩ := h2.writeAll (bs := Blocks.fromIterLoop v (BitBlock.blocksRequiredFor (n * v)) it)
    (by rw [fromIterLoop_length, List.length_replicate])
  simp only
  rw [k1, k2]
  exact .ok ⟨rfl, k3, fromIterLoop_length _ _⟩

/-! ## Splitting -/

/-- What is known of a new child: it is the same in both contexts, and they hold its slices. -/
def Child (ns : List Nat) (B nb k : Nat) (H : List (Range × Hists)) (M I G : List (Range × Blocks)) (a a' : NodeRef × Context)
    (x : Node) : Prop :=
  a.1 = a'.1 ∧ ∃ I' G', (∀ y ∈ I, y ∈ I') ∧ (∀ y ∈ G, y ∈ G') ∧
    Both ns B nb k k k a.2 a'.2 ((a.1.hists, x.hists) :: H) ((a.1.mask, x.mask) :: M) I' G' ∧ NodeRel I' G' a.1 x

theorem compress_tri {p n : NodeRef} {vp vn : Node} (hfit : Fits P ns B nb w K) (hK : k + 1 ≤ K)
    (hb : Both ns B nb (k + 1) (k + 1) k c c' ((n.hists, vn.hists) :: H) ((n.mask, vn.mask) :: M) I G)
    (hp : NodeRel I G p vp) (hn : NodeRel I G n vn) {q : Nat} (hk' : q ≤ Blocks.blockLen 32 vp.idx)
    (hl : vn.mask.length = vp.idx.length) :
    Out.Tri P (Child ns B nb (k + 1) H M I G) (StoreLearner.compress w c p n q) (StoreLearner.compress w c' p n q)
      (Learner.compress w vp vn q) := by
  have hlen : BitBlock.blocksRequiredFor (q * 4 * 8) ≤ nb := by
    have h1 := hb.small _ hp.idx
    simp only at h1
    unfold Blocks.blockLen at hk'
    unfold BitBlock.blocksRequiredFor BitBlock.nbits
    simp only [beq_iff_eq]
    split <;> omega
  unfold StoreLearner.compress Learner.compress BitBlockStore.allocZeroBits Blocks.zeroBits
    BitBlockStore.allocZeroBitslice
  dsimp only
  refine Out.Tri.bind (allocZero_tri hfit hK hb.idx (Nat.lt_of_le_of_lt hlen hfit.blocks)) ?_
  rintro ⟨ri, si⟩ ⟨ri', si'⟩ ci ⟨h1, hti, hci, hpos, hri⟩
  simp only at h1 hti hri
  subst h1
  refine Out.Tri.bind (allocZero_tri hfit hK hb.grad (Nat.lt_of_le_of_lt (Nat.mul_le_mul_right w hlen) hfit.grads)) ?_
  rintro ⟨rg, sg⟩ ⟨rg', sg'⟩ cg ⟨h1, htg, hcg, _, _⟩
  simp only at h1 htg
  subst h1
  dsimp only
  have e1 := hti.left.twoSlices hp.idx
  have e2 := hti.right.twoSlices hp.idx
  have e3 := htg.left.twoSlices hp.grads
  have e4 := htg.right.twoSlices hp.grads
  simp only at e1 e2 e3 e4
  rw [e1, e2, e3, e4]
  simp only [Out.ok_bind]
  rw [hti.left.read (List.mem_cons_of_mem _ hp.idx), hti.right.read (List.mem_cons_of_mem _ hp.idx),
    hti.left.read (List.mem_cons_self ..), hti.right.read (List.mem_cons_self ..),
    htg.left.read (List.mem_cons_of_mem _ hp.grads), htg.right.read (List.mem_cons_of_mem _ hp.grads),
    htg.left.read (List.mem_cons_self ..), htg.right.read (List.mem_cons_self ..),
    hb.mask.left.read (List.mem_cons_self ..), hb.mask.right.read (List.mem_cons_self ..)]
  simp only [Out.ok_bind]
  refine Out.Tri.same fun r hr => Out.Tri.same fun m hm => ?_
  obtain ⟨l1, l2, l3⟩ := compressLoop_length hr
  have l4 := zeroWords_length hm
  obtain ⟨ms, ms', k1, k2, k3⟩ := hb.mask.writeSlice (l' := m) (by rw [l4, l1])
  obtain ⟨is, is', k4, k5, k6⟩ := hti.writeSlice l2
  obtain ⟨gs, gs', k7, k8, k9⟩ := htg.writeSlice l3
  rw [k1, k2, k4, k5, k7, k8]
  simp only [Out.ok_bind]
  have hlen2 : ci.length = ri.2 - ri.1 := by rw [hci, List.length_replicate]; omega
  have hle : ci.length ≤ m.length := by
    rw [l4, l1, hl, hci, List.length_replicate]
    unfold Blocks.blockLen at hk'
    unfold BitBlock.blocksRequiredFor BitBlock.nbits
    simp only [beq_iff_eq]
    split <;> omega
  have hsh := k3.shrink (n := ci.length) (by rw [hci, List.length_replicate]; exact hpos) hle
  rw [← hlen2]
  refine .ok ⟨rfl, (ri, r.2.2.1) :: I, (rg, r.2.2.2) :: G, fun y hy => List.mem_cons_of_mem _ hy,
    fun y hy => List.mem_cons_of_mem _ hy, ⟨hb.layout, hb.layout', hb.shape, hb.hist, hsh, k6, k9, ?_⟩,
    ⟨hn.id, hn.cnt, hn.sum, rfl, List.mem_cons_self .., List.mem_cons_self ..⟩⟩
  intro y hy
  rcases List.mem_cons.1 hy with rfl | hy
  · simp only
    rw [l2, hci, List.length_replicate]
    exact hlen
  · exact hb.small y hy

theorem splitExamples_tri {F : FP} {cfg : Config} {ds : Dataset} (hfit : Fits P ns B nb w K) (hK : k + 1 ≤ K)
    (hd : binSizes ds.data = .ok ns) (hb : Both ns B nb k k k c c' H M I G) {p : NodeRef} {v : Node} (hp : NodeRel I G p v) (hm : (p.mask, v.mask) ∈ M) (id : Nat)
    (s : Split) (neg : Bool) :
    Out.Tri P (Child ns B nb (k + 1) H M I G) (StoreLearner.splitExamples F cfg ds w p id s neg c)
      (StoreLearner.splitExamples F cfg ds w p id s neg c') (Learner.splitExamples F cfg ds w v id s neg) := by
  unfold StoreLearner.splitExamples Learner.splitExamples
  refine Out.Tri.same fun fm _ => ?_
  rw [hb.idx.left.read hp.idx, hb.idx.right.read hp.idx]
  simp only [Out.ok_bind]
  refine Out.Tri.bind (newNode_tri hfit hK hd hb id) ?_
  rintro ⟨q, c1⟩ ⟨q', c1'⟩ hs ⟨h1, hb1, hq⟩
  simp only at h1 hb1 hq
  subst h1
  refine Out.Tri.bind (allocZero_tri hfit hK hb1.mask (Nat.lt_of_le_of_lt (hb.small _ hp.idx) hfit.blocks)) ?_
  rintro ⟨rm, sm⟩ ⟨rm', sm'⟩ cm ⟨h1, htm, hcm, _, _⟩
  simp only at h1 htm
  subst h1
  dsimp only
  have e1 := htm.left.twoSlices hm
  have e2 := htm.right.twoSlices hm
  simp only at e1 e2
  rw [e1, e2]
  simp only [Out.ok_bind]
  rw [htm.left.read (List.mem_cons_of_mem _ hm), htm.right.read (List.mem_cons_of_mem _ hm),
    htm.left.read (List.mem_cons_self ..), htm.right.read (List.mem_cons_self ..)]
  simp only [Out.ok_bind]
  refine Out.Tri.same fun r hr => ?_
  have l1 := splitLoop_length hr
  obtain ⟨ms, ms', k1, k2, k3⟩ := htm.writeSlice l1
  rw [k1, k2]
  simp only [Out.ok_bind]
  have hid : q.nodeId = id := by rw [hq]
  have hcnt : q.exampleCount = 0 := by rw [hq]
  have hsum : q.gradSum = .fin 0 := by rw [hq]
  have hn : NodeRel I G { q with compressed := p.compressed, idx := p.idx, grads := p.grads, mask := rm }
      { v with nodeId := id, exampleCount := 0, gradSum := .fin 0, hists := hs, mask := r.2 } :=
    ⟨hid, hcnt, hsum, hp.compr, hp.idx, hp.grads⟩
  split
  · by_cases h0 : 0 < Blocks.blockLen 32 v.idx - r.1
    · rw [decide_eq_true h0]
      simp only [Out.assert_true, Out.ok_bind]
      refine compress_tri hfit hK ?_ hp hn (by omega) ?_
      · exact ⟨hb1.layout, hb1.layout', hb1.shape, hb1.hist, k3, hb1.idx, hb1.grad, hb1.small⟩
      · rw [l1, hcm, List.length_replicate]
    · rw [decide_eq_false h0]
      exact .panic fun _ => rfl
  · refine .ok ⟨rfl, I, G, fun y hy => hy, fun y hy => hy, ?_, hn⟩
    refine Both.grow (kh := k + 1) (km := k + 1) (kg := k) ?_ le_rfl le_rfl (by omega)
    exact ⟨hb1.layout, hb1.layout', hb1.shape, hb1.hist, k3, hb1.idx, hb1.grad, hb1.small⟩

/-- What is known of the two children of a node. -/
def Children (ns : List Nat) (B nb k : Nat) (H : List (Range × Hists)) (M I G : List (Range × Blocks))
    (a a' : (NodeRef × NodeRef) × Context) (x : Node × Node) : Prop :=
  a.1 = a'.1 ∧ ∃ I' G', (∀ y ∈ I, y ∈ I') ∧ (∀ y ∈ G, y ∈ G') ∧
    Both ns B nb k k k a.2 a'.2 ((a.1.2.hists, x.2.hists) :: (a.1.1.hists, x.1.hists) :: H)
      ((a.1.2.mask, x.2.mask) :: (a.1.1.mask, x.1.mask) :: M) I' G' ∧
    NodeRel I' G' a.1.1 x.1 ∧ NodeRel I' G' a.1.2 x.2

theorem Children.intro {l r : NodeRef} {vl vr : Node} {I' G' : List (Range × Blocks)} {rh rl rm rml : Range}
    {hl hr : Hists} {ml mr : Blocks} (e1 : r.hists = rh) (e2 : l.hists = rl) (e3 : r.mask = rm) (e4 : l.mask = rml)
    (e5 : vr.hists = hr) (e6 : vl.hists = hl) (e7 : vr.mask = mr) (e8 : vl.mask = ml)
    (hI : ∀ y ∈ I, y ∈ I') (hG : ∀ y ∈ G, y ∈ G')
    (hb : Both ns B nb k k k c c' ((rh, hr) :: (rl, hl) :: H) ((rm, mr) :: (rml, ml) :: M) I' G')
    (h1 : NodeRel I' G' l vl) (h2 : NodeRel I' G' r vr) :
    Children ns B nb k H M I G ((l, r), c) ((l, r), c') (vl, vr) := by
  subst e1 e2 e3 e4 e5 e6 e7 e8
  exact ⟨rfl, I', G', hI, hG, hb, h1, h2⟩

theorem childNodes_tri {F : FP} {cfg : Config} {ds : Dataset} {bounds : Num × Num}
    (hfit : Fits P ns B nb w K) (hK : k + 2 ≤ K) (hd : binSizes ds.data = .ok ns) (hb : Both ns B nb k k k c c' H M I G) {p : NodeRef} {v : Node} (hp : NodeRel I G p v)
    (hh : (p.hists, v.hists) ∈ H) (hm : (p.mask, v.mask) ∈ M) (s : Split) :
    Out.Tri P (Children ns B nb (k + 2) H M I G) (StoreLearner.childNodes F cfg ds w bounds p s c)
      (StoreLearner.childNodes F cfg ds w bounds p s c') (Learner.childNodes F cfg ds w bounds v s) := by
  unfold StoreLearner.childNodes Learner.childNodes histAt subHists
  generalize subU32 = sub
  generalize HistVal.sub F = hsub
  rw [(hb.getHist hh _).1, (hb.getHist hh _).2, Out.bind_assoc, hp.id, hp.sum, hp.cnt]
  refine Out.Tri.same fun hs _ => Out.Tri.same fun l _ => ?_
  refine Out.Tri.bind (splitExamples_tri hfit (by omega) hd hb hp hm _ s false) ?_
  rintro ⟨a, ca⟩ ⟨a', ca'⟩ va ⟨h1, I1, G1, hI1, hG1, hb1, hr1⟩
  simp only at h1 hb1 hr1
  subst h1
  dsimp only
  have hr1' : NodeRel I1 G1 { a with gradSum := l.gradSum, exampleCount := l.count }
      { va with gradSum := l.gradSum, exampleCount := l.count } :=
    ⟨hr1.id, rfl, rfl, hr1.compr, hr1.idx, hr1.grads⟩
  have tb := buildHists_tri (P := P) (F := F) (cfg := cfg) (ds := ds) (w := w) (bounds := bounds)
    (n := { a with gradSum := l.gradSum, exampleCount := l.count })
    (v := { va with gradSum := l.gradSum, exampleCount := l.count }) hb1 hr1' (List.mem_cons_self ..)
  refine Out.Tri.bind tb ?_
  rintro c1 c1' vl ⟨hb2, h', rfl⟩
  dsimp only at hb2 ⊢
  have hr2 : NodeRel I1 G1 { a with gradSum := l.gradSum, exampleCount := l.count }
      { va with gradSum := l.gradSum, exampleCount := l.count, hists := h' } := ⟨hr1'.id, hr1'.cnt, hr1'.sum, hr1'.compr,
        hr1'.idx, hr1'.grads⟩
  refine Out.Tri.bind (splitExamples_tri hfit hK hd hb2 (hp.mono hI1 hG1) (List.mem_cons_of_mem _ hm) _ s true) ?_
  rintro ⟨b, cb⟩ ⟨b', cb'⟩ vb ⟨h1, I2, G2, hI2, hG2, hb3, hr3⟩
  simp only at h1 hb3 hr3
  subst h1
  dsimp only
  have s1 := hb3.shape _ (List.mem_cons_self ..)
  have s2 := hb3.shape _ (List.mem_cons_of_mem _ (List.mem_cons_self ..))
  have s3 := hb3.shape (p.hists, v.hists) (List.mem_cons_of_mem _ (List.mem_cons_of_mem _ hh))
  simp only at s1 s2 s3
  have tw := hb3.hist
  rw [List.map_cons] at tw
  obtain ⟨u, u', k1, k2, k3⟩ := tw.zip (rp := p.hists) (p := v.hists.flatten) (rl := a.hists) (l := h'.flatten)
    (List.mem_map.2 ⟨(p.hists, v.hists), List.mem_cons_of_mem _ hh, rfl⟩)
    (List.mem_map.2 ⟨(a.hists, h'), List.mem_cons_self .., rfl⟩) hsub
    (flat_length (s3.trans s2.symm)) (flat_length (s3.trans s1.symm))
  rw [k1, k2]
  simp only [Out.ok_bind]
  rw [flat_zip _ _ _ (s3.trans s2.symm)] at k3
  have s4 := (zip_shape (sub := hsub) (s3.trans s2.symm)).trans s3
  generalize List.zipWith (List.zipWith hsub) v.hists h' = z at k3 s4 ⊢
  generalize F.sub v.gradSum l.gradSum = gs
  generalize sub v.exampleCount l.count = cnt
  have hrr : NodeRel I2 G2 { b with gradSum := gs, exampleCount := cnt }
      { vb with gradSum := gs, exampleCount := cnt, hists := z } :=
    ⟨hr3.id, rfl, rfl, hr3.compr, hr3.idx, hr3.grads⟩
  have hbb : Both ns B nb (k + 2) (k + 2) (k + 2) { cb with hist := u } { cb' with hist := u' }
      ((b.hists, z) :: (a.hists, h') :: H) ((b.mask, vb.mask) :: (a.mask, va.mask) :: M) I2 G2 := by
    refine ⟨hb3.layout, hb3.layout', ?_, k3, hb3.mask, hb3.idx, hb3.grad, hb3.small⟩
    intro y hy
    rcases List.mem_cons.1 hy with rfl | hy
    · exact s4
    · exact hb3.shape y (List.mem_cons_of_mem _ hy)
  refine .ok (Children.intro (I' := I2) (G' := G2) ?_ ?_ ?_ ?_ ?_ ?_ ?_ ?_ (fun y hy => hI2 _ (hI1 _ hy))
    (fun y hy => hG2 _ (hG1 _ hy)) hbb (hr2.mono hI2 hG2) hrr)
  all_goals rfl

/-! ## Leaves -/

theorem nodeItems_eq {n : NodeRef} {v : Node} (hr : NodeRel I G n v) (h1 : c.mask.readSlice n.mask = .ok v.mask)
    (h3 : c.idx.readSlice n.idx = .ok v.idx) (part : Part) :
    StoreLearner.nodeItems c n part = Learner.nodeItems v part := by
  unfold StoreLearner.nodeItems
  rw [h1, h3]
  simp only [Out.ok_bind]
  cases hc : n.compressed with
  | true =>
    rw [if_pos rfl]
    cases part <;> simp only [Learner.nodeItems, view, hc, ← hr.compr]
  | false =>
    rw [if_neg (by simp)]
    cases part <;> simp only [Learner.nodeItems, view, hc, ← hr.compr, Bool.false_eq_true, if_false]

theorem Both.nodeItems (hb : Both ns B nb kh km kg c c' H M I G) {n : NodeRef} {v : Node} (hr : NodeRel I G n v)
    (hm : (n.mask, v.mask) ∈ M) (part : Part) : StoreLearner.nodeItems c n part = Learner.nodeItems v part ∧
      StoreLearner.nodeItems c' n part = Learner.nodeItems v part :=
  ⟨nodeItems_eq hr (hb.mask.left.read hm) (hb.idx.left.read hr.idx) part,
    nodeItems_eq hr (hb.mask.right.read hm) (hb.idx.right.read hr.idx) part⟩

theorem Both.leafValue (hb : Both ns B nb kh km kg c c' H M I G) {n : NodeRef} {v : Node} (hr : NodeRel I G n v)
    (hm : (n.mask, v.mask) ∈ M) {F : FP} {ds : Dataset} {t : Tree} {o : Objective} :
    StoreLearner.leafValue F ds c n t o = Learner.leafValue F ds v t o ∧
      StoreLearner.leafValue F ds c' n t o = Learner.leafValue F ds v t o := by
  unfold StoreLearner.leafValue Learner.leafValue
  rw [(hb.nodeItems hr hm _).1, (hb.nodeItems hr hm _).2, hr.id]
  exact ⟨rfl, rfl⟩

theorem Both.childLeafValues (hb : Both ns B nb kh km kg c c' H M I G) {n : NodeRef} {v : Node} (hr : NodeRel I G n v)
    (hm : (n.mask, v.mask) ∈ M) {F : FP} {ds : Dataset} {s : Split} {t : Tree} {o : Objective} :
    StoreLearner.childLeafValues F ds c n s t o = Learner.childLeafValues F ds v s t o ∧
      StoreLearner.childLeafValues F ds c' n s t o = Learner.childLeafValues F ds v s t o := by
  unfold StoreLearner.childLeafValues Learner.childLeafValues
  simp only [(hb.nodeItems hr hm _).1, (hb.nodeItems hr hm _).2, hr.id, and_self]

theorem Both.freeNode {n : NodeRef} {v : Node}
    (hb : Both ns B nb kh km kg c c' ((n.hists, v.hists) :: H) ((n.mask, v.mask) :: M) I G) :
    ∃ a a', StoreLearner.freeNode n c = .ok a ∧ StoreLearner.freeNode n c' = .ok a' ∧ Both ns B nb kh km kg a a' H M I G := by
  have tw := hb.hist
  rw [List.map_cons] at tw
  obtain ⟨u, u', k1, k2, k3⟩ := tw.freeSlice
  obtain ⟨x, x', k4, k5, k6⟩ := hb.mask.freeSlice
  dsimp only at k1 k2
  refine ⟨{ c with hist := u, mask := x }, { c' with hist := u', mask := x' }, ?_, ?_, hb.layout, hb.layout',
    fun y hy => hb.shape y (List.mem_cons_of_mem _ hy), k3, k6, hb.idx, hb.grad, hb.small⟩
  · unfold StoreLearner.freeNode
    rw [k1, k4]
    rfl
  · unfold StoreLearner.freeNode
    rw [k2, k5]
    rfl

/-! ## Training -/

/-- The states of two learners with stores and of the learner on values. -/
structure StRel (ns : List Nat) (B nb k : Nat) (st st' : StoreLearner.State) (x : Learner.State) : Prop where
  tree : st.tree = x.tree
  tree' : st'.tree = x.tree
  obj : st.obj = x.obj
  obj' : st'.obj = x.obj
  stack : st.stack = st'.stack
  ctx : ∃ I G, Both ns B nb k k k st.ctx st'.ctx (List.zipWith (fun (n : NodeRef) (v : Node) => (n.hists, v.hists)) st.stack x.stack)
    (List.zipWith (fun (n : NodeRef) (v : Node) => (n.mask, v.mask)) st.stack x.stack) I G ∧
    List.Forall₂ (NodeRel I G) st.stack x.stack

theorem Both.swap {a b a2 : NodeRef} {va vb va2 : Node} (hb : Both ns B nb kh km kg c c'
      ((b.hists, vb.hists) :: (a.hists, va.hists) :: (a2.hists, va2.hists) :: H)
      ((b.mask, vb.mask) :: (a.mask, va.mask) :: (a2.mask, va2.mask) :: M) I G) :
    Both ns B nb kh km kg c c' ((a2.hists, va2.hists) :: (a.hists, va.hists) :: (b.hists, vb.hists) :: H)
      ((a2.mask, va2.mask) :: (a.mask, va.mask) :: (b.mask, vb.mask) :: M) I G := by
  have pm : ∀ {α : Type} (x y z : α) (l : List α), (x :: y :: z :: l).Perm (z :: y :: x :: l) := by
    intro α x y z l
    exact ((List.Perm.swap y x _).trans ((List.Perm.swap z x l).cons y)).trans (List.Perm.swap z y _)
  refine ⟨hb.layout, hb.layout', fun y hy => hb.shape y ((pm _ _ _ _).mem_iff.2 hy), ?_, hb.mask.perm (pm _ _ _ _),
    hb.idx, hb.grad, hb.small⟩
  exact hb.hist.perm ((pm _ _ _ _).map _)

theorem expand_tri {F : FP} {cfg : Config} {ds : Dataset} (hfit : Fits P ns B nb w K) (hK : k + 2 ≤ K)
    (hact : P → ∀ fs, ds.activeFeatures = .ok fs → ∀ f ∈ fs, f < ns.length) (hd : binSizes ds.data = .ok ns) {n : NodeRef}
    {v : Node} {rest : List NodeRef} {st st' : StoreLearner.State} {x : Learner.State} {restv : List Node}
    (h : StRel ns B nb k { st with stack := n :: rest } { st' with stack := n :: rest } { x with stack := v :: restv }) :
    Out.Tri P (StRel ns B nb (k + 2)) (StoreLearner.expand F cfg ds w n { st with stack := rest })
      (StoreLearner.expand F cfg ds w n { st' with stack := rest })
      (Learner.expand F cfg ds w v { x with stack := restv }) := by
  obtain ⟨h1, h2, h3, h4, _, I, G, hb, hf⟩ := h
  simp only [List.zipWith_cons_cons] at h1 h2 h3 h4 hb
  obtain ⟨hr, hrest⟩ := List.forall₂_cons.1 hf
  unfold StoreLearner.expand Learner.expand
  dsimp only
  refine Out.Tri.bind (findBestSplit_tri hb hact hr (List.mem_cons_self ..)) ?_
  rintro s _ _ ⟨rfl, rfl⟩
  rw [h1, h2, h3, h4, hr.id]
  split
  · rw [(hb.leafValue hr (List.mem_cons_self ..)).1, (hb.leafValue hr (List.mem_cons_self ..)).2]
    refine Out.Tri.same fun r _ => ?_
    obtain ⟨a, a', k1, k2, k3⟩ := hb.freeNode
    rw [k1, k2]
    exact .ok ⟨rfl, rfl, rfl, rfl, rfl, I, G, k3.grow (by omega) (by omega) (by omega), hrest⟩
  · split
    · refine Out.Tri.bind (childNodes_tri hfit hK hd hb hr (List.mem_cons_self ..) (List.mem_cons_self ..) s) ?_
      rintro ⟨⟨a, b⟩, ca⟩ ⟨q, ca'⟩ ⟨va, vb⟩ ⟨e, I', G', hI, hG, hb', ra, rb⟩
      simp only at e hb' ra rb
      subst e
      dsimp only
      refine Out.Tri.same fun t _ => ?_
      obtain ⟨u, u', k1, k2, k3⟩ := hb'.swap.freeNode
      rw [k1, k2]
      refine .ok ⟨rfl, rfl, rfl, rfl, rfl, I', G', k3, ?_⟩
      exact .cons ra (.cons rb (hrest.imp fun _ _ h => h.mono hI hG))
    · rw [(hb.childLeafValues hr (List.mem_cons_self ..)).1, (hb.childLeafValues hr (List.mem_cons_self ..)).2]
      refine Out.Tri.same fun r _ => Out.Tri.same fun t _ => ?_
      obtain ⟨a, a', k1, k2, k3⟩ := hb.freeNode
      rw [k1, k2]
      exact .ok ⟨rfl, rfl, rfl, rfl, rfl, I, G, k3.grow (by omega) (by omega) (by omega), hrest⟩

/-- Both optional results are there, related, or none is. -/
inductive OptRel {α β γ : Type} (R : α → β → γ → Prop) : Option α → Option β → Option γ → Prop
  | none : OptRel R none none none
  | some {a : α} {b : β} {c : γ} (h : R a b c) : OptRel R (some a) (some b) (some c)

theorem StRel.grow {st st' : StoreLearner.State} {x : Learner.State} (h : StRel ns B nb k st st' x) {k' : Nat}
    (hk : k ≤ k') : StRel ns B nb k' st st' x := by
  obtain ⟨h1, h2, h3, h4, h5, I, G, hb, hf⟩ := h
  exact ⟨h1, h2, h3, h4, h5, I, G, hb.grow hk hk hk, hf⟩

theorem loop_tri {F : FP} {cfg : Config} {ds : Dataset} (hfit : Fits P ns B nb w K)
    (hact : P → ∀ fs, ds.activeFeatures = .ok fs → ∀ f ∈ fs, f < ns.length) (hd : binSizes ds.data = .ok ns) :
    ∀ (fuel k : Nat), k + 2 * fuel ≤ K → ∀ (st st' : StoreLearner.State) (x : Learner.State), StRel ns B nb k st st' x →
    Out.Tri P (OptRel (StRel ns B nb K)) (StoreLearner.loop F cfg ds w fuel st) (StoreLearner.loop F cfg ds w fuel st')
      (Learner.loop F cfg ds w fuel x) := by
  intro fuel
  induction fuel with
  | zero =>
    intro k hK st st' x h
    obtain ⟨t, o, cx, sk⟩ := st
    obtain ⟨t', o', cx', sk'⟩ := st'
    obtain ⟨tv, ov, skv⟩ := x
    have e := h.stack
    simp only at e
    subst e
    obtain ⟨I, G, _, hf⟩ := h.ctx
    simp only at hf
    cases hf with
    | nil => unfold StoreLearner.loop Learner.loop; exact .ok (.some (h.grow (by omega)))
    | cons _ _ => unfold StoreLearner.loop Learner.loop; exact .ok .none
  | succ fuel ih =>
    intro k hK st st' x h
    obtain ⟨t, o, cx, sk⟩ := st
    obtain ⟨t', o', cx', sk'⟩ := st'
    obtain ⟨tv, ov, skv⟩ := x
    have e := h.stack
    simp only at e
    subst e
    obtain ⟨I, G, _, hf⟩ := h.ctx
    simp only at hf
    cases hf with
    | nil => unfold StoreLearner.loop Learner.loop; exact .ok (.some (h.grow (by omega)))
    | @cons n v rest restv _ _ =>
      unfold StoreLearner.loop Learner.loop
      refine Out.Tri.bind (expand_tri (st := ⟨t, o, cx, rest⟩) (st' := ⟨t', o', cx', rest⟩) (x := ⟨tv, ov, restv⟩) hfit
        (by omega) hact hd h) ?_
      intro a a' y hy
      exact ih (k + 2) (by omega) a a' y hy

theorem rootNode_tri {F : FP} {cfg : Config} {ds : Dataset} {o : Objective}
    (hfit : Fits P ns B nb w K) (hK : 1 ≤ K) (hnb : BitBlock.blocksRequiredFor ds.nactiveExamples ≤ nb)
    (hd : binSizes ds.data = .ok ns) (hb : Both ns B nb 0 0 0 c c' [] [] [] []) :
    Out.Tri P (fun a a' x => a.1 = a'.1 ∧ ∃ I G, Both ns B nb 1 1 1 a.2 a'.2 [(a.1.hists, x.hists)] [(a.1.mask, x.mask)] I G ∧
        NodeRel I G a.1 x)
      (StoreLearner.rootNode F cfg ds w o c) (StoreLearner.rootNode F cfg ds w o c')
      (Learner.rootNode F cfg ds w o) := by
  unfold StoreLearner.rootNode Learner.rootNode BitBlockStore.allocZeroBitslice
  dsimp only
  generalize ds.nactiveExamples = n at hnb ⊢
  refine Out.Tri.bind (allocZero_tri hfit hK hb.grad (Nat.lt_of_le_of_lt (Nat.mul_le_mul_right w hnb) hfit.grads)) ?_
  rintro ⟨rg, sg⟩ ⟨rg', sg'⟩ cg ⟨h1, htg, hcg, _, _⟩
  simp only at h1 htg
  subst h1
  refine Out.Tri.bind (allocOneBits_tri hfit hK hb.mask (Nat.lt_of_le_of_lt hnb hfit.blocks)) ?_
  rintro ⟨rm, sm⟩ ⟨rm', sm'⟩ m ⟨h1, htm, hml⟩
  simp only at h1 htm
  subst h1
  dsimp only
  rw [htm.left.read (List.mem_cons_self ..), htm.right.read (List.mem_cons_self ..)]
  simp only [Out.ok_bind]
  have hil : BitBlock.blocksRequiredFor (Blocks.blockLen 32 m * 32) ≤ nb := by
    have : m.length ≤ nb := by rw [hml]; exact hnb
    unfold BitBlock.blocksRequiredFor BitBlock.nbits Blocks.blockLen
    simp only [beq_iff_eq]
    split <;> omega
  refine Out.Tri.bind (allocFromIter_tri hfit hK hb.idx 32 (Nat.lt_of_le_of_lt hil hfit.blocks) _) ?_
  rintro ⟨ri, si⟩ ⟨ri', si'⟩ ix ⟨h1, hti, hxl⟩
  simp only at h1 hti
  subst h1
  dsimp only
  refine Out.Tri.same fun _ _ => Out.Tri.same fun ps _ => ?_
  rw [htg.left.read (List.mem_cons_self ..), htg.right.read (List.mem_cons_self ..)]
  simp only [Out.ok_bind]
  refine Out.Tri.same fun r hr => ?_
  obtain ⟨gs, gs', k1, k2, k3⟩ := htg.writeSlice (fillGrads_length hr)
  rw [k1, k2]
  simp only [Out.ok_bind]
  have hb1 : Both ns B nb 0 1 1 { c with grad := gs, mask := sm, idx := si } { c' with grad := gs', mask := sm', idx := si' } []
      [(rm, m)] [(ri, ix)] [(rg, r.2)] := ⟨hb.layout, hb.layout', hb.shape, hb.hist, htm, hti, k3, by
        intro y hy
        rw [List.mem_singleton.1 hy]
        exact Nat.le_trans (Nat.le_of_eq hxl) hil⟩
  refine Out.Tri.bind (newNode_tri hfit hK hd hb1 0) ?_
  rintro ⟨q, c1⟩ ⟨q', c1'⟩ hs ⟨h1, hb2, hq⟩
  simp only at h1 hb2 hq
  subst h1
  dsimp only
  generalize BitSlice.linproj F w (F.ofNat r.1) (F.ofNat n) o.bounds.1 o.bounds.2 = gsum
  have hid : q.nodeId = 0 := by rw [hq]
  have hcp : q.compressed = false := by rw [hq]
  have hn : NodeRel [(ri, ix)] [(rg, r.2)]
      { q with idx := ri, mask := rm, grads := rg, exampleCount := n, gradSum := gsum }
      { nodeId := 0, exampleCount := n, gradSum := gsum, compressed := false, hists := hs, idx := ix, mask := m,
        grads := r.2 } := ⟨hid, rfl, rfl, hcp, List.mem_cons_self .., List.mem_cons_self ..⟩
  have tb := buildHists_tri (P := P) (F := F) (cfg := cfg) (ds := ds) (w := w) (bounds := o.bounds)
    (n := { q with idx := ri, mask := rm, grads := rg, exampleCount := n, gradSum := gsum })
    (v := { nodeId := 0, exampleCount := n, gradSum := gsum, compressed := false, hists := hs, idx := ix, mask := m,
            grads := r.2 }) hb2 hn (List.mem_cons_self ..)
  revert tb
  generalize StoreLearner.buildHists F cfg ds w o.bounds _ c1 = x
  generalize StoreLearner.buildHists F cfg ds w o.bounds _ c1' = y
  generalize Learner.buildHists F cfg ds w o.bounds _ = z
  intro tb
  cases tb with
  | panic h => exact .panic fun hp => by rw [h hp]
  | ub => exact .ub
  | ok h =>
    obtain ⟨hb3, h', rfl⟩ := h
    simp only [Out.ok_bind]
    exact .ok ⟨rfl, _, _, hb3, ⟨hid, rfl, rfl, hcp, List.mem_cons_self .., List.mem_cons_self ..⟩⟩

/-- What a context needs to be used again: room in the stores, and the layout of the data. -/
structure Usable (ns : List Nat) (c : Context) : Prop where
  layout : c.layout = histLayout ns
  hist : 0 < c.hist.capacity ∧ c.hist.elemAlign = 2
  idx : 0 < c.idx.capacity ∧ c.idx.elemAlign = 2
  mask : 0 < c.mask.capacity ∧ c.mask.elemAlign = 2
  grad : 0 < c.grad.capacity ∧ c.grad.elemAlign = 2

theorem reset_both (h : Usable ns c) (h' : Usable ns c') : Both ns B nb 0 0 0 (reset c) (reset c') [] [] [] [] :=
  ⟨h.layout, h'.layout, by simp, .reset h.hist.1 h'.hist.1 (by decide) h.hist.2 h'.hist.2,
    .reset h.mask.1 h'.mask.1 (by decide) h.mask.2 h'.mask.2, .reset h.idx.1 h'.idx.1 (by decide) h.idx.2 h'.idx.2,
    .reset h.grad.1 h'.grad.1 (by decide) h.grad.2 h'.grad.2, by simp⟩

theorem Both.usable (h : Both ns B nb kh km kg c c' H M I G) : Usable ns c :=
  ⟨h.layout, ⟨h.hist.left.inv.capPos, h.hist.align⟩, ⟨h.idx.left.inv.capPos, h.idx.align⟩,
    ⟨h.mask.left.inv.capPos, h.mask.align⟩, ⟨h.grad.left.inv.capPos, h.grad.align⟩⟩

theorem start_tri {F : FP} {cfg : Config} {ds : Dataset} {sc : List (List Nat)} {o : Objective}
    (hfit : Fits P ns B nb w K) (hK : 1 ≤ K) (hnb : BitBlock.blocksRequiredFor ds.nactiveExamples ≤ nb) (hd : binSizes ds.data = .ok ns) (h : Usable ns c) (h' : Usable ns c') :
    Out.Tri P (StRel ns B nb 1) (StoreLearner.start F cfg ds sc w o c) (StoreLearner.start F cfg ds sc w o c')
      (Learner.start F cfg ds sc w o) := by
  unfold StoreLearner.start Learner.start
  dsimp only
  refine Out.Tri.same fun t _ => Out.Tri.bind (rootNode_tri hfit hK hnb hd (reset_both h h')) ?_
  rintro ⟨a, ca⟩ ⟨a', ca'⟩ x ⟨h1, I, G, hb, hr⟩
  simp only at h1 hb hr
  subst h1
  exact .ok ⟨rfl, rfl, rfl, rfl, rfl, I, G, hb, .cons hr .nil⟩

theorem width_pos {cfg : Config} (h : width cfg = .ok w) : 0 < w := by
  unfold width at h
  split at h
  · rename_i hh
    cases h
    omega
  · cases h

theorem train_tri {F : FP} {cfg : Config} {ds : Dataset} {sc : List (List Nat)} {o : Objective} {fuel : Nat}
    (hfit : P → ∀ w, width cfg = .ok w → ((1 + 2 * fuel) * (max ns.sum (BitBlock.blocksRequiredFor ds.nactiveExamples * w) + 1) < u32Max))
    (hact : P → ∀ fs, ds.activeFeatures = .ok fs → ∀ f ∈ fs, f < ns.length) (hd : binSizes ds.data = .ok ns) (h : Usable ns c) (h' : Usable ns c') :
    Out.Tri P (OptRel fun a a' x => a.1 = x ∧ a'.1 = x ∧ Usable ns a.2)
      (StoreLearner.train F cfg ds sc o fuel c) (StoreLearner.train F cfg ds sc o fuel c')
      (Learner.train F cfg ds sc o fuel) := by
  unfold StoreLearner.train Learner.train
  refine Out.Tri.same fun w hw => ?_
  have hw1 : 0 < w := width_pos hw
  have hf : Fits P ns (max ns.sum (BitBlock.blocksRequiredFor ds.nactiveExamples * w) + 1)
      (BitBlock.blocksRequiredFor ds.nactiveExamples) w (1 + 2 * fuel) := by
    refine ⟨by omega, ?_, by omega, fun hp => hfit hp w hw⟩
    have := Nat.le_mul_of_pos_right (BitBlock.blocksRequiredFor ds.nactiveExamples) hw1
    omega
  refine Out.Tri.bind (start_tri hf (by omega) le_rfl hd h h') ?_
  intro st st' x hst
  refine Out.Tri.bind (loop_tri hf hact hd fuel 1 le_rfl st st' x hst) ?_
  intro a a' y hy
  cases hy with
  | none => exact .ok .none
  | some hs =>
    obtain ⟨I, G, hb, _⟩ := hs.ctx
    simp only
    rw [hs.tree, hs.tree', hs.obj, hs.obj']
    refine Out.Tri.same fun o' _ => ?_
    exact .ok (.some ⟨rfl, rfl, hb.usable⟩)

theorem newContext_usable {cfg : Config} {d : Data} (hd : binSizes d = .ok ns) (h : newContext cfg d = .ok c) :
    Usable ns c := by
  unfold newContext at h
  rw [hd, Out.ok_bind] at h
  obtain ⟨s1, e1, h⟩ := Out.bind_eq_ok.1 h
  obtain ⟨s2, e2, h⟩ := Out.bind_eq_ok.1 h
  obtain ⟨s3, e3, h⟩ := Out.bind_eq_ok.1 h
  obtain ⟨s4, e4, h⟩ := Out.bind_eq_ok.1 h
  cases h
  have key : ∀ {T : Type} {a b k m : Nat} {s : Store T}, Store.aligned T a b k m = .ok s →
      0 < s.capacity ∧ s.elemAlign = m / a := by
    intro T a b k m s h
    unfold Store.aligned at h
    split at h
    · rename_i hh
      cases h
      exact ⟨hh.2.2.2, rfl⟩
    · cases h
  exact ⟨rfl, key e1, key e2, key e3, key e4⟩

theorem newContext_safe (cfg : Config) (d : Data) : newContext cfg d ≠ .ub := by
  have key : ∀ (T : Type) (a b k m : Nat), Store.aligned T a b k m ≠ .ub := by
    intro T a b k m h
    unfold Store.aligned at h
    split at h <;> cases h
  have hbin : binSizes d ≠ .ub := by
    unfold binSizes
    generalize List.range d.nfeatures = l
    induction l with
    | nil => simp
    | cons f l ih =>
      intro h
      rw [List.foldr_cons] at h
      revert h ih
      generalize List.foldr _ _ l = r
      intro ih h
      have hf : Data.featMaxNbins d f ≠ .ub := by
        intro e
        unfold Data.featMaxNbins at e
        split at e <;> cases e
      revert h hf
      generalize Data.featMaxNbins d f = q
      intro h hf
      cases q with
      | ub => exact hf rfl
      | panic => cases h
      | ok m =>
        cases r with
        | ok _ => cases h
        | panic => cases h
        | ub => exact ih rfl
  intro h
  unfold newContext at h
  cases e : binSizes d with
  | ub => exact hbin e
  | panic => rw [e] at h; cases h
  | ok ns =>
    rw [e, Out.ok_bind] at h
    cases e1 : Store.new HistVal 4 8 8192 with
    | ub => exact key _ _ _ _ _ e1
    | panic => rw [e1] at h; cases h
    | ok s1 =>
      rw [e1, Out.ok_bind] at h
      cases e2 : BitBlockStore.new 4096 with
      | ub => exact key _ _ _ _ _ e2
      | panic => rw [e2] at h; cases h
      | ok s2 =>
        rw [e2, Out.ok_bind, Out.ok_bind] at h
        cases e3 : BitBlockStore.new (4096 * cfg.discrNbits) with
        | ub => exact key _ _ _ _ _ e3
        | panic => rw [e3] at h; cases h
        | ok s3 => rw [e3] at h; cases h

theorem newContext_ok {cfg : Config} {d : Data} (h : newContext cfg d = .ok c) : ∃ ns, binSizes d = .ok ns := by
  unfold newContext at h
  obtain ⟨ns, e1, _⟩ := Out.bind_eq_ok.1 h
  exact ⟨ns, e1⟩

/-! ## Boosting -/

/-- The memory a tree of `n` examples can need, for data with the bins `ns`, fits in the index type. -/
def Room (cfg : Config) (ns : List Nat) (n : Nat) : Prop :=
  ∀ w, width cfg = .ok w →
    (1 + 2 * (2 ^ cfg.maxTreeDepth - 1)) * (max ns.sum (BitBlock.blocksRequiredFor n * w) + 1) < u32Max

theorem learnTree_tri {F : FP} {cfg : Config} {ds : Dataset} {o : Objective}
    (hfit : P → Room cfg ns ds.nactiveExamples)
    (hact : P → ∀ fs, ds.activeFeatures = .ok fs → ∀ f ∈ fs, f < ns.length) (hd : binSizes ds.data = .ok ns)
    (h : Usable ns c) :
    Out.Tri P (fun a _ x => a.1 = x ∧ Usable ns a.2) (StoreLearner.learnTree F cfg ds o c)
      (StoreLearner.learnTree F cfg ds o c) (Booster.learnTree F cfg ds o) := by
  unfold StoreLearner.learnTree Booster.learnTree
  refine Out.Tri.bind (train_tri hfit hact hd h h) ?_
  intro a b x hx
  cases hx with
  | none => exact .panic fun _ => rfl
  | some hs => exact .ok ⟨hs.1, hs.2.2⟩

theorem trainOneIter_tri {F : FP} {M : Libm} {cfg : Config} {d : Data} {ms : List Metric} {b : Booster}
    (hfit : P → ∀ ds g bd, b.dataset.update F cfg g bd = .ok ds → Room cfg ns ds.nactiveExamples ∧
      ∀ fs, ds.activeFeatures = .ok fs → ∀ f ∈ fs, f < ns.length)
    (hd : binSizes d = .ok ns) (hb : b.dataset.data = d) (h : Usable ns c) :
    Out.Tri P (fun a _ x => a.1 = x ∧ x.dataset.data = d ∧ (∃ g bd, b.dataset.update F cfg g bd = .ok x.dataset) ∧
        Usable ns a.2) (StoreLearner.trainOneIter F M cfg d ms b c)
      (StoreLearner.trainOneIter F M cfg d ms b c) (Booster.trainOneIter F M cfg d ms b) := by
  unfold StoreLearner.trainOneIter Booster.trainOneIter
  refine Out.Tri.same fun t _ => Out.Tri.same fun o _ => Out.Tri.same fun ds e => ?_
  have hds : ds.data = d := (Dataset.update_data e).trans hb
  refine Out.Tri.bind (learnTree_tri (fun hp => (hfit hp _ _ _ e).1) (fun hp => (hfit hp _ _ _ e).2)
    (by rw [hds]; exact hd) h) ?_
  rintro ⟨⟨tr, o'⟩, c1⟩ _ _ ⟨rfl, hu⟩
  exact .ok ⟨rfl, hds, ⟨_, _, e⟩, hu⟩

theorem iterate_tri {F : FP} {M : Libm} {cfg : Config} {d : Data} {ms : List Metric} {Q : Dataset → Prop}
    (hstep : P → ∀ ds ds' g bd, Q ds → ds.update F cfg g bd = .ok ds' → Q ds')
    (hfit : P → ∀ ds, Q ds → Room cfg ns ds.nactiveExamples ∧
      ∀ fs, ds.activeFeatures = .ok fs → ∀ f ∈ fs, f < ns.length)
    (hd : binSizes d = .ok ns) :
    ∀ (n : Nat) (b : Booster) (c : Context), (P → Q b.dataset) → b.dataset.data = d → Usable ns c →
    Out.Tri P (fun a _ x => a.1 = x) (StoreLearner.iterate F M cfg d ms n b c)
      (StoreLearner.iterate F M cfg d ms n b c) (Booster.iterate F M cfg d ms n b) := by
  intro n
  induction n with
  | zero => intro b c _ _ _; exact .ok rfl
  | succ n ih =>
    intro b c hq hb h
    unfold StoreLearner.iterate Booster.iterate
    refine Out.Tri.bind (trainOneIter_tri (fun hp ds g bd e => hfit hp ds (hstep hp _ _ _ _ (hq hp) e)) hd hb h).diag ?_
    rintro ⟨a, c1⟩ _ _ ⟨rfl, rfl, h1, ⟨g, bd, e⟩, h2⟩
    exact ih a c1 (fun hp => hstep hp _ _ _ _ (hq hp) e) h1 h2

theorem run_tri (P : Prop) {F : FP} {M : Libm} {cfg : Config} {d : Data} {rng : Rng} {ms : List Metric} {o : Objective}
    {Q : Dataset → Prop} (hctx : P → ∃ c, newContext cfg d = .ok c)
    (hnew : P → ∀ ds, Dataset.new F cfg d rng = .ok ds → Q ds)
    (hstep : P → ∀ ds ds' g bd, Q ds → ds.update F cfg g bd = .ok ds' → Q ds')
    (hfit : P → ∀ ns, binSizes d = .ok ns → ∀ ds, Q ds → Room cfg ns ds.nactiveExamples ∧
      ∀ fs, ds.activeFeatures = .ok fs → ∀ f ∈ fs, f < ns.length) :
    (¬P ∧ StoreLearner.run F M cfg d rng ms o = .panic) ∨
      StoreLearner.run F M cfg d rng ms o = Booster.run F M cfg d rng ms o := by
  unfold StoreLearner.run Booster.run
  cases e : Booster.new F cfg d rng o with
  | panic => exact .inr rfl
  | ub => exact .inr rfl
  | ok b =>
    simp only [Out.ok_bind]
    unfold StoreLearner.trainBooster Booster.train
    cases e1 : Out.assert (b.iterCount == 0) with
    | panic => exact .inr rfl
    | ub => exact .inr rfl
    | ok _ =>
      simp only [Out.ok_bind]
      cases e2 : newContext cfg d with
      | panic => exact .inl ⟨fun hp => (by
        obtain ⟨c, hc⟩ := hctx hp
        rw [e2] at hc
        cases hc), rfl⟩
      | ub => exact absurd e2 (newContext_safe cfg d)
      | ok c =>
        simp only [Out.ok_bind]
        obtain ⟨ns, hns⟩ := newContext_ok e2
        cases e3 : Booster.prepare F M cfg d b with
        | panic => exact .inr rfl
        | ub => exact .inr rfl
        | ok b1 =>
          simp only [Out.ok_bind]
          obtain ⟨ds, e4, rfl⟩ := Booster.new_ok e
          have hb1 : b1.dataset = ds := by
            obtain ⟨_, _, _, _, rfl⟩ := Booster.prepare_ok e3
            rfl
          have := iterate_tri (P := P) (F := F) (M := M) (cfg := cfg) (ms := ms) hstep (fun hp => hfit hp ns hns) hns
            cfg.niterations b1 c (fun hp => by rw [hb1]; exact hnew hp _ e4) (by rw [hb1]; exact Dataset.new_data e4) (newContext_usable hns e2)
          revert this
          generalize StoreLearner.iterate F M cfg d ms cfg.niterations b1 c = x
          generalize Booster.iterate F M cfg d ms cfg.niterations b1 = z
          intro h
          cases h with
          | ok h => right; simp only [Out.ok_bind]; rw [h]; rfl
          | panic h =>
            by_cases hp : P
            · right; rw [h hp]; rfl
            · left; exact ⟨hp, rfl⟩
          | ub => right; rfl

end StoreLearner
end BitBoost
