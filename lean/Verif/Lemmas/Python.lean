import Verif.Spec.Python
import Verif.Props.CApi
import Verif.Props.Config
/-! # The Python package: what its methods do -/
namespace BitBoost
namespace Python
open CApi Spec Props

theorem live_unique {w : World} {p : Ptr} {c c' : Ctx} (h : Live w p c) (h' : Live w p c') : c = c' := by
  obtain ⟨i, rfl, h1⟩ := h
  rw [live_iff, h1] at h'
  cases h'
  rfl

theorem cInt_isCInt (x : Int) : IsCInt (cInt x) := by unfold IsCInt cInt; omega

theorem cInt_le {x : Int} (hx : 0 ≤ x) : cInt x ≤ x := by unfold cInt; omega

theorem cInt_eq {x : Int} (h0 : 0 ≤ x) (h : x < 2 ^ 31) : cInt x = x := by unfold cInt; omega

/-- Positive numbers become non-positive only if they are large. -/
theorem cInt_neg {x : Int} (h0 : 0 < x) (h : cInt x ≤ 0) : 2 ^ 31 ≤ x := by unfold cInt at h; omega

/-! ## Safety -/

/-- The calls an object makes with its pointer, apart from `bb_dealloc`. -/
def Keeps (p : Ptr) : Call → Prop
  | .refreshData q _ => q = p
  | .setFeatureData q _ _ _ => q = p
  | .setConfigField q _ _ => q = p
  | .train q => q = p
  | .predict q _ => q = p
  | _ => False

/-- After such a call the context is still there. Its number of examples is the old one, or the one of
`bb_refresh_data`. -/
theorem keeps_live {E : Env} {w w' : World} {p : Ptr} {c : Ctx} {cl : Call} {r : Ret} (hs : Session E w)
    (ha : Allowed w cl) (hk : Keeps p cl) (hl : Live w p c) (h : step E w cl = .ok (w', r)) :
    ∃ c', Live w' p c' ∧ c'.nfeatures = c.nfeatures ∧ ∀ d', c'.data = some d' →
      (∃ d, c.data = some d ∧ d'.nexamples = d.nexamples ∧ ∀ n, cl = .refreshData p n → n ≤ 0) ∨
      ∃ n, 0 < n ∧ cl = .refreshData p n ∧ d'.nexamples = n.toNat := by
  cases cl with
  | numtNbytes => exact hk.elim
  | alloc n => exact hk.elim
  | dealloc q => exact hk.elim
  | refreshData q n =>
    cases hk
    obtain ⟨h1, h2⟩ := C53_refresh E w p c n hl
    by_cases hn : 0 < n
    · obtain ⟨w1, d, e, hl', e1, _⟩ := h1 hn
      rw [e] at h
      cases h
      refine ⟨_, hl', rfl, fun d' hd' => .inr ⟨n, hn, rfl, ?_⟩⟩
      cases hd'
      exact e1
    · rw [h2 (by omega)] at h
      cases h
      refine ⟨c, hl, rfl, fun d' hd' => .inl ⟨d', hd', rfl, fun m hm => ?_⟩⟩
      cases hm
      omega
  | setFeatureData q f col cat =>
    cases hk
    obtain ⟨h1, h2⟩ := C53_set_feature E w p c f col cat hs ha hl
    by_cases hb : c.data = none ∨ f < 0 ∨ (c.nfeatures : Int) < f
    · rw [h1 hb] at h
      cases h
      exact ⟨c, hl, rfl, fun d' hd' => .inl ⟨d', hd', rfl, fun m hm => by cases hm⟩⟩
    · push Not at hb
      obtain ⟨hd, hf1, hf2⟩ := hb
      obtain ⟨d, hd⟩ := Option.ne_none_iff_exists'.1 hd
      obtain ⟨w1, d1, r1, e, hl', ho, _⟩ := h2 d hd hf1 hf2
      rw [e] at h
      cases h
      refine ⟨_, hl', rfl, fun d' hd' => .inl ⟨d, hd, ?_, fun m hm => by cases hm⟩⟩
      cases hd'
      exact ho.2.1
  | setConfigField q n v =>
    cases hk
    rcases C53_set_config E w p c n v ha hl with ⟨_, _, cfg, hd, _, _, _, w1, e, hl'⟩ | ⟨_, e⟩
    · rw [e] at h
      cases h
      refine ⟨_, hl', rfl, fun d' hd' => ?_⟩
      simp only [hd] at hd'
      cases hd'
    · rw [e] at h
      cases h
      exact ⟨c, hl, rfl, fun d' hd' => .inl ⟨d', hd', rfl, fun m hm => by cases hm⟩⟩
  | train q =>
    cases hk
    rcases C53_train E w p c hs hl with ⟨d, _, _, b, hd, _, _, _, w1, e, hl'⟩ | ⟨_, e⟩
    · rw [e] at h
      cases h
      refine ⟨_, hl', rfl, fun d' hd' => .inl ⟨d', hd', rfl, fun m hm => by cases hm⟩⟩
    · rw [e] at h
      cases h
      exact ⟨c, hl, rfl, fun d' hd' => .inl ⟨d', hd', rfl, fun m hm => by cases hm⟩⟩
  | predict q cap =>
    cases hk
    obtain ⟨h1, h2⟩ := C53_predict E w p c cap hs ha hl
    have hw : w' = w := by
      by_cases hb : c.data = none ∨ c.model = none
      · rw [h2 hb] at h
        cases h
        rfl
      · push Not at hb
        obtain ⟨d, hd⟩ := Option.ne_none_iff_exists'.1 hb.1
        obtain ⟨m, hm⟩ := Option.ne_none_iff_exists'.1 hb.2
        obtain ⟨out, _, _, e⟩ := h1 d m hd hm
        rw [e] at h
        cases h
        rfl
    subst hw
    exact ⟨c, hl, rfl, fun d' hd' => .inl ⟨d', hd', rfl, fun m hm => by cases hm⟩⟩

/-- The object is in order. -/
def WInv (E : Env) (s : St) : Prop := Session E s.world ∧ PtrOk s.world s.raw.ptr

/-- In addition the data in the library has at most as many rows as the object thinks. -/
def RInv (E : Env) (s : St) : Prop :=
  WInv E s ∧ ∀ c d, Live s.world s.raw.ptr c → c.data = some d → (d.nexamples : Int) ≤ s.raw.nexamples

theorem call_safe {E : Env} {s : St} {cl : Call} (hw : WInv E s) (hp : s.raw.ptr ≠ .null) (hk : Keeps s.raw.ptr cl)
    (ha : Allowed s.world cl) :
    ∃ w r, step E s.world cl = .ok (w, r) ∧ call E s cl = .ok ({ s with world := w }, .ok r) ∧
      WInv E { s with world := w } ∧
      ((∀ n, cl ≠ .refreshData s.raw.ptr n) → RInv E s → RInv E { s with world := w }) := by
  obtain ⟨w, r, e⟩ := C53_total E s.world cl hw.1 ha
  rcases hw.2 with h | ⟨c, hl⟩
  · exact absurd h hp
  obtain ⟨c', hl', _, hd⟩ := keeps_live hw.1 ha hk hl e
  have hwi : WInv E { s with world := w } := ⟨.call hw.1 ha e, .inr ⟨c', hl'⟩⟩
  refine ⟨w, r, e, by unfold call; rw [e], hwi, fun hr hri => ⟨hwi, fun c1 d1 h1 h2 => ?_⟩⟩
  cases live_unique hl' h1
  rcases hd d1 h2 with ⟨d, h3, h4, _⟩ | ⟨n, _, h3, _⟩
  · rw [h4]; exact hri.2 c d hl h3
  · exact absurd h3 (hr n)

/-- A method ends, and keeps the object in order. -/
def Safe {α : Type} (P : St → Prop) (r : Res α) : Prop := ∃ s x, r = .ok (s, x) ∧ P s

theorem Safe.andThen {α β : Type} {P Q : St → Prop} {r : Res α} {k : St → α → Res β} (h : Safe P r)
    (hP : ∀ s, P s → Q s) (hk : ∀ s a, P s → Safe Q (k s a)) : Safe Q (r.andThen k) := by
  obtain ⟨s, x, rfl, hs⟩ := h
  cases x with
  | ok a => exact hk s a hs
  | error e => exact ⟨s, .error e, rfl, hP s hs⟩

theorem safe_check {P : St → Prop} {s : St} (h : P s) (b : Bool) (e : Exc) : Safe P (check b e s) := ⟨s, _, rfl, h⟩

theorem andThen_check {β : Type} {Q : St → Prop} {s : St} {b : Bool} {e : Exc} {k : St → Unit → Res β} (h : Q s)
    (hk : b = true → Safe Q (k s ())) : Safe Q ((check b e s).andThen k) := by
  cases b with
  | true => exact hk rfl
  | false => exact ⟨s, .error e, rfl, h⟩

theorem andThen_checkCtx {β : Type} {Q : St → Prop} {s : St} {k : St → Unit → Res β} (h : Q s)
    (hk : s.raw.ptr ≠ .null → Safe Q (k s ())) : Safe Q ((checkCtx s).andThen k) :=
  andThen_check h fun hb => hk (of_decide_eq_true hb)

theorem setFeatureData_safe {E : Env} {s : St} (h : RInv E s) (feat : Int) (v : Vector) (cat : Bool)
    (hv : s.raw.nexamples ≤ v.vals.length) :
    Safe (fun t => RInv E t ∧ t.raw = s.raw) (setFeatureData E s feat v cat) := by
  unfold setFeatureData
  refine andThen_checkCtx ⟨h, rfl⟩ fun hp => andThen_check ⟨h, rfl⟩ fun _ => andThen_check ⟨h, rfl⟩ fun _ => ?_
  obtain ⟨w, r, _, e, _, hk⟩ := call_safe (cl := .setFeatureData s.raw.ptr (cInt feat) v.vals (if cat then 1 else 0)) h.1 hp rfl
    ⟨h.1.2, cInt_isCInt _, by cases cat <;> simp [IsCInt], fun c d hl hd => by have := h.2 c d hl hd; omega⟩
  rw [e]
  exact ⟨_, _, rfl, hk (fun n hn => by cases hn) h, rfl⟩

theorem setColumns_safe {E : Env} (f32 : Bool) (isCat : Nat → Option Bool) : ∀ (cols : List (List Num)) (feat : Nat) {s : St},
    RInv E s → (∀ c ∈ cols, s.raw.nexamples ≤ (c.length : Int)) →
    Safe (fun t => RInv E t ∧ t.raw = s.raw) (setColumns E f32 isCat cols feat s) := by
  intro cols
  induction cols with
  | nil => intro feat s h _; exact ⟨s, .ok (), rfl, h, rfl⟩
  | cons c cols ih =>
    intro feat s h hc
    unfold setColumns
    cases isCat feat with
    | none => exact ⟨s, _, rfl, h, rfl⟩
    | some b =>
      refine (setFeatureData_safe h feat ⟨f32, c⟩ b (hc c (by simp))).andThen (fun t h => h) fun t _ ht => ?_
      obtain ⟨s', x, e, h1, h2⟩ := ih (feat + 1) ht.1 (fun c' hc' => by rw [ht.2]; exact hc c' (by simp [hc']))
      exact ⟨s', x, e, h1, h2.trans ht.2⟩

/-- After `bb_refresh_data` the data has at most as many rows as asked for. -/
theorem refresh_bound {E : Env} {w w' : World} {p : Ptr} {n : Nat} {r : Ret} (hs : Session E w) (hl : ∃ c, Live w p c)
    (hn : 0 < n) (h : step E w (.refreshData p (cInt n)) = .ok (w', r)) :
    ∀ c d, Live w' p c → c.data = some d → (d.nexamples : Int) ≤ n := by
  intro c' d' hl' hd'
  obtain ⟨c, hl⟩ := hl
  obtain ⟨c1, hl1, _, k⟩ := keeps_live hs (cl := .refreshData p (cInt n)) ⟨.inr ⟨c, hl⟩, cInt_isCInt _⟩ rfl hl h
  have hc := live_unique hl1 hl'
  subst hc
  rcases k d' hd' with ⟨d, k1, k2, k3⟩ | ⟨m, _, k1, k2⟩
  · have hle := cInt_neg (x := n) (by omega) (k3 _ rfl)
    obtain ⟨i, _, hi⟩ := hl
    have hd := ((session_ok hs i c hi).data d k1).2.2.2.1
    rw [k2]
    omega
  · injection k1 with _ k1
    rw [← k1] at k2
    have := cInt_le (x := n) (by omega)
    omega

theorem andThen_ok {α β : Type} {r : Res α} {s : St} {a : α} (h : r = .ok (s, .ok a)) (k : St → α → Res β) :
    r.andThen k = k s a := by
  subst h
  rfl

theorem andThen_error {α β : Type} {r : Res α} {s : St} {x : Exc} (h : r = .ok (s, .error x)) (k : St → α → Res β) :
    r.andThen k = .ok (s, .error x) := by
  subst h
  rfl

theorem check_true {b : Bool} {e : Exc} {s : St} (h : b = true) : check b e s = .ok (s, .ok ()) := by subst h; rfl
theorem check_false {b : Bool} {e : Exc} {s : St} (h : b = false) : check b e s = .ok (s, .error e) := by subst h; rfl
theorem checkCtx_ok {s : St} (h : s.raw.ptr ≠ .null) : checkCtx s = .ok (s, .ok ()) := check_true (decide_eq_true h)
theorem checkCtx_null {s : St} (h : s.raw.ptr = .null) : checkCtx s = .ok (s, .error .noContext) :=
  check_false (decide_eq_false (fun hn => hn h))

/-- `set_data` for an object that is in order and a matrix that fits. -/
theorem setData_eq {E : Env} {s : St} {X : Matrix} (isCat : Nat → Option Bool) (hp : s.raw.ptr ≠ .null)
    (hf : X.f32 = true) (hn : X.cols.length = s.raw.nfeatures) :
    setData E s X isCat = (call E ⟨s.world, { s.raw with nexamples := (X.nrows : Int) }⟩
      (.refreshData s.raw.ptr (cInt X.nrows))).andThen fun s _ => setColumns E X.f32 isCat X.cols 0 s := by
  unfold setData
  generalize (X.nrows : Int) = n
  generalize cInt n = k
  rw [andThen_ok (checkCtx_ok hp), andThen_ok (check_true hf), andThen_ok (check_true (decide_eq_true hn))]

theorem setData_bad {E : Env} {s : St} {X : Matrix} (isCat : Nat → Option Bool)
    (h : ¬ (s.raw.ptr ≠ .null ∧ X.f32 = true ∧ X.cols.length = s.raw.nfeatures)) :
    ∃ x, setData E s X isCat = .ok (s, .error x) := by
  unfold setData
  generalize (X.nrows : Int) = n
  generalize cInt n = k
  by_cases hp : s.raw.ptr = .null
  · rw [andThen_error (checkCtx_null hp)]
    exact ⟨_, rfl⟩
  rw [andThen_ok (checkCtx_ok hp)]
  by_cases hf : X.f32 = true
  · rw [andThen_ok (check_true hf)]
    by_cases hn : X.cols.length = s.raw.nfeatures
    · exact absurd ⟨hp, hf, hn⟩ h
    · rw [andThen_error (check_false (decide_eq_false hn))]
      exact ⟨_, rfl⟩
  · rw [andThen_error (check_false (Bool.not_eq_true _ ▸ hf))]
    exact ⟨_, rfl⟩

theorem setData_safe {E : Env} {s : St} (h : WInv E s) (X : Matrix) (isCat : Nat → Option Bool) (hX : 0 < X.nrows) :
    ∃ t x, setData E s X isCat = .ok (t, x) ∧ WInv E t ∧ (RInv E s → RInv E t) ∧
      (x = .ok () → RInv E t ∧ t.raw.nexamples = X.nrows) := by
  by_cases hc : s.raw.ptr ≠ .null ∧ X.f32 = true ∧ X.cols.length = s.raw.nfeatures
  · obtain ⟨hp, hf, hn⟩ := hc
    rw [setData_eq isCat hp hf hn]
    generalize hs0 : (⟨s.world, { s.raw with nexamples := (X.nrows : Int) }⟩ : St) = s0
    have e1 : s0.raw.ptr = s.raw.ptr := by rw [← hs0]
    have e2 : s0.raw.nexamples = X.nrows := by rw [← hs0]
    have h' : WInv E s0 := by rw [← hs0]; exact h
    rw [← e1] at hp ⊢
    obtain ⟨w, r, es, e, hw, _⟩ := call_safe (cl := .refreshData s0.raw.ptr (cInt X.nrows)) h' hp rfl ⟨h'.2, cInt_isCInt _⟩
    have hb := refresh_bound h'.1 (h'.2.resolve_left hp) hX es
    rw [andThen_ok e]
    have hr : RInv E { s0 with world := w } := by
      refine ⟨hw, fun c' d' hl' hd' => ?_⟩
      have := hb c' d' hl' hd'
      simp only [e2]
      exact this
    obtain ⟨t, x, et, ht, hraw⟩ := setColumns_safe X.f32 isCat X.cols 0 hr
      (fun c hc => by simp only [e2]; rw [X.rect c hc])
    exact ⟨t, x, et, ht.1, fun _ => ht, fun _ => ⟨ht, by rw [hraw]; exact e2⟩⟩
  · obtain ⟨x, e⟩ := setData_bad (E := E) isCat hc
    rw [e]
    exact ⟨s, _, rfl, h, id, fun h => by cases h⟩

theorem setTarget_safe {E : Env} {s : St} (h : RInv E s) (y : Vector) (hv : s.raw.nexamples ≤ y.vals.length) :
    Safe (RInv E) (setTarget E s y) := by
  unfold setTarget
  refine andThen_checkCtx h fun _ => ?_
  obtain ⟨t, x, e, h1, _⟩ := setFeatureData_safe h s.raw.nfeatures y false hv
  exact ⟨t, x, e, h1⟩

theorem cStr_ne (s : List Char) : cStr s ≠ .invalid := by unfold cStr; simp

theorem setConfigField_safe {E : Env} {s : St} (h : WInv E s) (n : List Char) (v : Val) :
    Safe (fun t => WInv E t ∧ (RInv E s → RInv E t)) (setConfigField E s n v) := by
  unfold setConfigField
  refine andThen_checkCtx ⟨h, id⟩ fun hp => ?_
  split
  · exact ⟨s, _, rfl, h, id⟩
  · split
    · exact ⟨s, _, rfl, h, id⟩
    · rename_i t _
      obtain ⟨w, r, _, e, hw, hk⟩ := call_safe (cl := .setConfigField s.raw.ptr (cStr n) (cStr t)) h hp rfl
        ⟨h.2, cStr_ne _, cStr_ne _⟩
      rw [e]
      exact ⟨_, _, rfl, hw, hk (fun n hn => by cases hn)⟩

theorem setFields_safe {E : Env} : ∀ (vs : List (List Char × Val)) {s : St}, WInv E s →
    Safe (fun t => WInv E t ∧ (RInv E s → RInv E t)) (setFields E vs s) := by
  intro vs
  induction vs with
  | nil => intro s h; exact ⟨s, _, rfl, h, id⟩
  | cons x vs ih =>
    intro s h
    obtain ⟨n, v⟩ := x
    unfold setFields
    refine (setConfigField_safe h n v).andThen (fun t h => h) fun t _ ht => ?_
    obtain ⟨s', x, e, h1, h2⟩ := ih ht.1
    exact ⟨s', x, e, h1, fun hr => h2 (ht.2 hr)⟩

theorem setConfig_safe {E : Env} {s : St} (h : WInv E s) (vs : List (List Char × Val)) :
    Safe (fun t => WInv E t ∧ (RInv E s → RInv E t)) (setConfig E s vs) := by
  unfold setConfig
  exact andThen_checkCtx ⟨h, id⟩ fun _ => setFields_safe vs h

theorem train_safe {E : Env} {s : St} (h : WInv E s) :
    Safe (fun t => WInv E t ∧ (RInv E s → RInv E t)) (train E s) := by
  unfold train
  refine andThen_checkCtx ⟨h, id⟩ fun hp => ?_
  obtain ⟨w, r, _, e, hw, hk⟩ := call_safe (cl := .train s.raw.ptr) h hp rfl h.2
  rw [e]
  exact ⟨_, _, rfl, hw, hk (fun n hn => by cases hn)⟩

theorem predict_safe {E : Env} {s : St} (h : RInv E s) : Safe (RInv E) (predict E s) := by
  unfold predict
  refine andThen_checkCtx h fun hp => andThen_check h fun _ => ?_
  obtain ⟨w, r, _, e, hw, hk⟩ := call_safe (cl := .predict s.raw.ptr s.raw.nexamples.toNat) h.1 hp rfl
    ⟨h.1.2, fun c d hl hd => by have := h.2 c d hl hd; omega⟩
  rw [e]
  exact ⟨_, _, rfl, hk (fun n hn => by cases hn) h⟩

theorem dealloc_safe {E : Env} {s : St} (h : WInv E s) :
    ∃ t x, dealloc E s = .ok (t, x) ∧ WInv E t ∧ t.raw.ptr = .null ∧ (s.raw.ptr ≠ .null → x = .ok ()) ∧
      (∀ q c, q ≠ s.raw.ptr → Live s.world q c → Live t.world q c) := by
  unfold dealloc checkCtx check
  by_cases hp : s.raw.ptr = .null
  · simp only [hp, ne_eq, not_true_eq_false, decide_false, Bool.false_eq_true, if_false, Res.andThen]
    exact ⟨s, _, rfl, h, hp, fun h => h.elim, fun q c _ hl => hl⟩
  simp only [ne_eq, hp, not_false_eq_true, decide_true, if_true, Res.andThen]
  obtain ⟨w, r, e⟩ := C53_total E s.world (.dealloc s.raw.ptr) h.1 h.2
  unfold call
  rw [e]
  refine ⟨_, _, rfl, ⟨.call (c := .dealloc s.raw.ptr) h.1 h.2 e, .inl rfl⟩, rfl, fun _ => rfl, fun q c hq hl => ?_⟩
  exact (C53_isolation E _ _ _ _ q c e (fun hh => hq (Option.some.inj hh).symm)).1 hl

theorem null_no_live {w : World} {c : Ctx} : ¬ Live w .null c := by
  rintro ⟨i, h, _⟩
  cases h

theorem del_safe {E : Env} {s : St} (h : WInv E s) :
    ∃ t x, del E s = .ok (t, x) ∧ WInv E t ∧ t.raw.ptr = .null ∧
      (∀ q c, q ≠ s.raw.ptr → Live s.world q c → Live t.world q c) := by
  unfold del
  split
  · obtain ⟨t, x, e, h1, h2, _, h3⟩ := dealloc_safe h
    exact ⟨t, x, e, h1, h2, h3⟩
  · rename_i hp
    push Not at hp
    exact ⟨s, _, rfl, h, hp, fun q c _ hl => hl⟩

theorem init_safe {E : Env} {w : World} (hs : Session E w) (nf n : Nat) :
    ∃ w' x, init E w nf n = .ok (w', x) ∧ Session E w' ∧ (∀ q c, Live w q c → Live w' q c) ∧
      ∀ raw, x = .ok raw → raw.nfeatures = nf ∧ raw.nexamples = -1 ∧ PtrOk w' raw.ptr ∧
        (∀ c, ¬ Live w raw.ptr c) ∧
        (∀ c, Live w' raw.ptr c → c = { config := Config.new, nfeatures := (cInt nf).toNat, data := none, model := none }) ∧
        (0 < cInt nf → ∃ c, Live w' raw.ptr c) := by
  unfold init
  by_cases h1 : 0 < nf
  · rw [if_pos h1]
    by_cases h2 : 0 < n
    · rw [if_pos h2]
      obtain ⟨k1, k2⟩ := C53_alloc E w (cInt nf)
      by_cases h3 : 0 < cInt nf
      · obtain ⟨w', p, e, hp, hn, hl⟩ := k1 h3
        rw [e]
        refine ⟨w', _, rfl, .call (c := .alloc (cInt nf)) hs (cInt_isCInt _) e, fun q c hq => (C53_isolation E _ _ _ _ q c e (by simp [Call.ptr])).1 hq, ?_⟩
        rintro raw hr
        cases hr
        exact ⟨rfl, rfl, .inr ⟨_, hl⟩, fun c hc => hn ⟨c, hc⟩, fun c hc => live_unique hc hl, fun _ => ⟨_, hl⟩⟩
      · have e := k2 (by omega)
        rw [e]
        refine ⟨w, _, rfl, .call (c := .alloc (cInt nf)) hs (cInt_isCInt _) e, fun q c hq => hq, ?_⟩
        rintro raw hr
        cases hr
        exact ⟨rfl, rfl, .inl rfl, fun c hc => null_no_live hc, fun c hc => absurd hc null_no_live, fun h => absurd h h3⟩
    · rw [if_neg h2]
      exact ⟨w, _, rfl, hs, fun q c h => h, fun raw hr => by cases hr⟩
  · rw [if_neg h1]
    exact ⟨w, _, rfl, hs, fun q c h => h, fun raw hr => by cases hr⟩

/-! ## The estimator -/

def EstInv (E : Env) (e : Est) : Prop :=
  Session E e.world ∧ ∀ raw, e.raw = some raw → PtrOk e.world raw.ptr

theorem checkXy_iff {X : Matrix} {y : Vector} : checkXy X y = true ↔
    0 < X.nrows ∧ 0 < X.cols.length ∧ (∀ c ∈ X.cols, ∀ v ∈ c, ∃ x, v = .fin x) ∧ (∀ v ∈ y.vals, ∃ x, v = .fin x) ∧
      y.vals.length = X.nrows := by
  have hf : ∀ vs : List Num, allFinite vs = true ↔ ∀ v ∈ vs, ∃ x, v = .fin x := by
    intro vs
    unfold allFinite
    rw [List.all_eq_true]
    refine forall_congr' fun v => forall_congr' fun _ => ?_
    cases v <;> simp
  unfold checkXy checkArray
  simp only [Bool.and_eq_true, decide_eq_true_eq, List.all_eq_true, hf]
  tauto

theorem checkArray_iff {X : Matrix} : checkArray X = true ↔
    0 < X.nrows ∧ 0 < X.cols.length ∧ (∀ c ∈ X.cols, ∀ v ∈ c, ∃ x, v = .fin x) := by
  have := checkXy_iff (X := X) (y := ⟨true, List.replicate X.nrows (.fin 0)⟩)
  have h2 : allFinite (List.replicate X.nrows (.fin 0)) = true := by
    unfold allFinite
    rw [List.all_eq_true]
    intro v hv
    rw [(List.mem_replicate.1 hv).2]
  unfold checkXy at this
  simp only [h2, List.length_replicate, decide_true, Bool.and_true] at this
  rw [this]
  constructor
  · rintro ⟨a, b, c, _⟩; exact ⟨a, b, c⟩
  · rintro ⟨a, b, c⟩
    exact ⟨a, b, c, fun v hv => ⟨0, (List.mem_replicate.1 hv).2⟩, trivial⟩

theorem fitRaw_safe {E : Env} {s : St} (h : WInv E s) (ps : Params) {X : Matrix} {y : Vector} (hX : 0 < X.nrows)
    (hy : y.vals.length = X.nrows) : Safe (WInv E) (fitRaw E s ps X y) := by
  unfold fitRaw
  refine (setConfig_safe h _).andThen (fun t h => h.1) fun t _ ht => ?_
  obtain ⟨t', x, e, h1, _, h3⟩ := setData_safe ht.1 X (contains (ps "categorical_features")) hX
  rw [e]
  cases x with
  | error x => exact ⟨t', _, rfl, h1⟩
  | ok _ =>
    obtain ⟨h4, h5⟩ := h3 rfl
    refine (setTarget_safe h4 y (by rw [h5, hy])).andThen (fun t h => h.1) fun t _ ht => ?_
    obtain ⟨u, x, e, hu, _⟩ := train_safe ht.1
    exact ⟨u, x, e, hu⟩

theorem dropOld_safe {E : Env} {w : World} {o : Option Raw} (hs : Session E w) (ho : ∀ r, o = some r → PtrOk w r.ptr) :
    ∃ w', dropOld E w o = .ok w' ∧ Session E w' ∧
      ∀ q c, (∀ r, o = some r → q ≠ r.ptr) → Live w q c → Live w' q c := by
  cases o with
  | none => exact ⟨w, rfl, hs, fun q c _ h => h⟩
  | some r =>
    obtain ⟨t, x, e, h1, _, h3⟩ := del_safe (E := E) (s := ⟨w, r⟩) ⟨hs, ho r rfl⟩
    unfold dropOld
    simp only
    rw [e]
    exact ⟨t.world, rfl, h1.1, fun q c hq hl => h3 q c (hq r rfl) hl⟩

/-- The new object of `fit`, after the old one is gone. -/
theorem fit_start {E : Env} {e : Est} (h : EstInv E e) (nf n : Nat) :
    ∃ w x, init E e.world nf n = .ok (w, x) ∧ Session E w ∧ (∀ q c, Live e.world q c → Live w q c) ∧
      ∀ raw, x = .ok raw → raw.nfeatures = nf ∧ ∃ w', dropOld E w e.raw = .ok w' ∧ WInv E ⟨w', raw⟩ ∧
        (0 < cInt nf → Live w' raw.ptr
          { config := Config.new, nfeatures := (cInt nf).toNat, data := none, model := none }) := by
  obtain ⟨w, x, e1, h1, h2, h3⟩ := init_safe h.1 nf n
  refine ⟨w, x, e1, h1, h2, fun raw hx => ?_⟩
  obtain ⟨k1, _, k3, k4, k5, k6⟩ := h3 raw hx
  have hold : ∀ r, e.raw = some r → PtrOk w r.ptr := by
    intro r hr
    rcases h.2 r hr with h0 | ⟨c, hc⟩
    · exact .inl h0
    · exact .inr ⟨c, h2 _ c hc⟩
  obtain ⟨w', e2, l1, l2⟩ := dropOld_safe h1 hold
  have hfresh : ∀ c, Live w raw.ptr c → Live w' raw.ptr c := by
    intro c hc
    refine l2 _ c (fun r hr hp => ?_) hc
    rcases h.2 r hr with h0 | ⟨c', hc'⟩
    · rw [hp, h0] at hc
      exact null_no_live hc
    · rw [← hp] at hc'
      exact k4 c' hc'
  refine ⟨k1, w', e2, ⟨l1, ?_⟩, fun hpos => ?_⟩
  · rcases k3 with h0 | ⟨c, hc⟩
    · exact .inl h0
    · exact .inr ⟨c, hfresh c hc⟩
  · obtain ⟨c, hc⟩ := k6 hpos
    have := k5 c hc
    subst this
    exact hfresh _ hc

theorem fit_safe {E : Env} {e : Est} (h : EstInv E e) (ps : Params) (X : Matrix) (y : Vector) :
    ∃ e' r, fit E e ps X y = .ok (e', r) ∧ EstInv E e' := by
  unfold fit
  split
  · rename_i hc
    obtain ⟨c1, _, _, _, c5⟩ := checkXy_iff.1 hc
    obtain ⟨w, x, e1, h1, h2, h3⟩ := fit_start h X.cols.length X.nrows
    rw [e1]
    cases x with
    | error x =>
      refine ⟨_, _, rfl, h1, fun raw hr => ?_⟩
      rcases h.2 raw hr with h0 | ⟨c, hc⟩
      · exact .inl h0
      · exact .inr ⟨c, h2 _ c hc⟩
    | ok raw =>
      obtain ⟨_, w', e2, hw, _⟩ := h3 raw rfl
      simp only
      rw [e2]
      simp only
      obtain ⟨s, x, e3, hs⟩ := fitRaw_safe hw ps (X := { X with f32 := true }) (y := y) c1 c5
      rw [e3]
      cases x with
      | ok _ => exact ⟨_, _, rfl, hs.1, fun r hr => by cases hr; exact hs.2⟩
      | error _ => exact ⟨_, _, rfl, hs.1, fun r hr => by cases hr; exact hs.2⟩
  · exact ⟨e, _, rfl, h⟩

theorem predictRaw_safe {E : Env} {s : St} (h : WInv E s) {X : Matrix} (hX : 0 < X.nrows) :
    Safe (WInv E) (predictRaw E s X) := by
  unfold predictRaw
  obtain ⟨t', x, e, h1, _, h3⟩ := setData_safe h X (fun _ => some false) hX
  rw [e]
  cases x with
  | error x => exact ⟨t', _, rfl, h1⟩
  | ok _ =>
    obtain ⟨u, x, e, hu⟩ := predict_safe (h3 rfl).1
    exact ⟨u, x, e, hu.1⟩

theorem predictEst_safe {E : Env} {e : Est} (h : EstInv E e) (X : Matrix) :
    ∃ e' r, predictEst E e X = .ok (e', r) ∧ EstInv E e' := by
  unfold predictEst
  split
  · rename_i hc
    obtain ⟨c1, _⟩ := checkArray_iff.1 hc
    split
    · rename_i raw _ hr
      obtain ⟨s, x, e3, hs⟩ := predictRaw_safe (E := E) (s := ⟨e.world, raw⟩) ⟨h.1, h.2 raw hr⟩ c1
      rw [e3]
      exact ⟨_, _, rfl, hs.1, fun r hr => by cases hr; exact hs.2⟩
    · exact ⟨e, _, rfl, h⟩
  · exact ⟨e, _, rfl, h⟩

theorem estimator_inv {E : Env} {e : Est} (h : Estimator E e) : EstInv E e := by
  induction h with
  | new hs => exact ⟨hs, fun r hr => by cases hr⟩
  | fit _ he ih =>
    obtain ⟨_, _, e1, h1⟩ := fit_safe ih _ _ _
    rw [he] at e1
    cases e1
    exact h1
  | predict _ he ih =>
    obtain ⟨_, _, e1, h1⟩ := predictEst_safe ih _
    rw [he] at e1
    cases e1
    exact h1
  | other _ ha hq he ih =>
    refine ⟨.call ih.1 ha he, fun r hr => ?_⟩
    rcases ih.2 r hr with h0 | ⟨c, hc⟩
    · exact .inl h0
    · exact .inr ⟨c, (C53_isolation E _ _ _ _ _ c he (hq r hr)).1 hc⟩

/-! ## Loading the data -/

/-- A column as `Data::empty` makes it. -/
def zeroCol (n : Nat) : Column := ⟨List.replicate n (.fin 0), .fin 0, .fin 0, .numerical, 0⟩

/-- That column with the values `vs`. -/
def fresh (maxNbins : Nat) (cat : Bool) (vs : List Num) : Column where
  values := vs
  lo := vs.foldl Num.min (.fin 0)
  hi := vs.foldl Num.max (.fin 0)
  ftype := if cat then
      (if vs.foldl (fun c v => Nat.max c (1 + intoCat v)) 0 > maxNbins then .hiCardCat else .loCardCat)
    else .numerical
  card := if cat then vs.foldl (fun c v => Nat.max c (1 + intoCat v)) 0 else 0

theorem setLoop_all (cat : Bool) : ∀ (vs : List Num) (i : Nat) (c : Column), i + vs.length ≤ c.values.length →
    (cat = true → ∀ v ∈ vs, Data.checkCategorical v = true) →
    Data.setLoop cat vs i c = (⟨c.values.take i ++ vs ++ c.values.drop (i + vs.length), vs.foldl Num.min c.lo,
      vs.foldl Num.max c.hi, c.ftype,
      if cat then vs.foldl (fun c v => Nat.max c (1 + intoCat v)) c.card else c.card⟩, true) := by
  intro vs
  induction vs with
  | nil => intro i c _ _; simp [Data.setLoop]
  | cons v vs ih =>
    intro i c hl hc
    simp only [List.length_cons] at hl
    unfold Data.setLoop Data.addStats
    cases cat with
    | false =>
      simp only [Bool.false_eq_true, if_false]
      rw [ih _ _ (by simp; omega) (fun h => by cases h)]
      simp only [Bool.false_eq_true, if_false, List.foldl_cons, Prod.mk.injEq, and_true, Column.mk.injEq]
      have hi : i < c.values.length := by omega
      rw [List.take_set, List.drop_set_of_lt (by omega), List.take_succ_eq_append_getElem hi,
        List.set_append_right _ _ (by simp), List.length_take, Nat.min_eq_left (by omega)]
      simp
      congr 1; omega
    | true =>
      simp only [if_true]
      rw [if_pos (hc rfl v (by simp))]
      simp only
      rw [ih _ _ (by simp; omega) (fun _ u hu => hc rfl u (by simp [hu]))]
      simp only [if_true, List.foldl_cons, Prod.mk.injEq, and_true, Column.mk.injEq]
      have hi : i < c.values.length := by omega
      rw [List.take_set, List.drop_set_of_lt (by omega), List.take_succ_eq_append_getElem hi,
        List.set_append_right _ _ (by simp), List.length_take, Nat.min_eq_left (by omega)]
      simp
      congr 1; omega

theorem setFeatureData_fresh {d : Data} {feat : Nat} {vs : List Num} {cat : Bool}
    (hc : d.cols[feat]? = some (zeroCol d.nexamples)) (hl : vs.length = d.nexamples)
    (hv : cat = true → ∀ v ∈ vs, IsCategory v) :
    Data.setFeatureData d feat vs cat = .ok ({ d with cols := d.cols.set feat (fresh d.maxNbins cat vs) }, true) := by
  unfold Data.setFeatureData
  rw [if_pos hl, hc]
  simp only
  rw [if_pos (by simp [zeroCol]), setLoop_all cat vs 0 _ (by simp [zeroCol, hl])
    (fun h v hv' => Data.checkCategorical_iff v |>.2 (hv h v hv'))]
  rw [show List.drop (0 + vs.length) (zeroCol d.nexamples).values = [] from
    List.drop_eq_nil_of_le (by simp [zeroCol, hl]), List.append_nil]
  simp only [fresh, zeroCol, List.take_zero, List.nil_append]
  cases cat with
  | false => rfl
  | true =>
    simp only [if_true]
    split_ifs <;> rfl

theorem setFeatureData_exact {E : Env} {s : St} {i : Nat} {c : Ctx} {d d' : Data} {feat : Nat} {vs : List Num} {cat : Bool}
    (hp : s.raw.ptr = .ctx i) (hi : s.world[i]? = some (some c)) (hd : c.data = some d) (hf : feat ≤ c.nfeatures)
    (hraw : feat ≤ s.raw.nfeatures) (hlt : feat < 2 ^ 31) (hl : vs.length = d.nexamples)
    (h : Data.setFeatureData d feat vs cat = .ok (d', true)) :
    setFeatureData E s feat ⟨true, vs⟩ cat =
      .ok (⟨s.world.set i (some { c with data := some d' }), s.raw⟩, .ok ()) := by
  have hstep : step E s.world (.setFeatureData (.ctx i) (cInt feat) vs (if cat then 1 else 0)) =
      .ok (s.world.set i (some { c with data := some d' }), .code 0) := by
    rw [cInt_eq (by omega) (by omega)]
    rw [show step E s.world (.setFeatureData (.ctx i) (feat : Int) vs (if cat then 1 else 0)) = wrap (.code (-1))
      (CApi.setFeatureData s.world (.ctx i) feat vs (if cat then 1 else 0)) from rfl]
    unfold CApi.setFeatureData
    rw [withCtx_eq hi, if_pos ⟨by omega, by simpa using hf⟩, hd]
    simp only
    rw [if_pos (by omega), List.take_of_length_le (by omega)]
    have hcat : decide ((if cat then (1 : Int) else 0) ≠ 0) = cat := by cases cat <;> rfl
    rw [hcat, Int.toNat_natCast, h]
    rfl
  have hcall : call E s (.setFeatureData s.raw.ptr (cInt feat) vs (if cat then 1 else 0)) =
      .ok (⟨s.world.set i (some { c with data := some d' }), s.raw⟩, .ok (.code 0)) := by
    rw [hp]
    unfold call
    rw [hstep]
  unfold setFeatureData
  rw [andThen_ok (checkCtx_ok (by rw [hp]; simp)), andThen_ok (check_true rfl),
    andThen_ok (check_true (decide_eq_true ⟨by omega, by omega⟩)), andThen_ok hcall]

theorem set_same {w : World} {i : Nat} {c : Option Ctx} (h : w[i]? = some c) : w.set i c = w := by
  apply List.ext_getElem?
  intro j
  by_cases hj : i = j
  · rw [← hj, List.getElem?_set_self (List.getElem?_eq_some_iff.1 h).1, h]
  · rw [List.getElem?_set_ne hj]

theorem setColumns_exact {E : Env} {isCat : Nat → Option Bool} {b : Nat → Bool} (hb : ∀ j, isCat j = some (b j)) :
    ∀ (cols : List (List Num)) (feat : Nat) {s : St} {i : Nat} {c : Ctx} {d : Data}, s.raw.ptr = .ctx i →
    s.world[i]? = some (some c) → c.data = some d → feat + cols.length ≤ c.nfeatures → c.nfeatures = s.raw.nfeatures →
    c.nfeatures < 2 ^ 31 → (∀ v ∈ cols, v.length = d.nexamples) →
    (∀ k v, cols[k]? = some v → b (feat + k) = true → ∀ x ∈ v, IsCategory x) →
    (∀ j, feat ≤ j → j < feat + cols.length → d.cols[j]? = some (zeroCol d.nexamples)) →
    ∃ d', setColumns E true isCat cols feat s =
        .ok (⟨s.world.set i (some { c with data := some d' }), s.raw⟩, .ok ()) ∧
      d'.nfeatures = d.nfeatures ∧ d'.nexamples = d.nexamples ∧ d'.maxNbins = d.maxNbins ∧
      d'.cols.length = d.cols.length ∧
      (∀ k v, cols[k]? = some v → d'.cols[feat + k]? = some (fresh d.maxNbins (b (feat + k)) v)) ∧
      (∀ j, j < feat ∨ feat + cols.length ≤ j → d'.cols[j]? = d.cols[j]?) := by
  intro cols
  induction cols with
  | nil =>
    intro feat s i c d hp hi hd _ _ _ _ _ _
    refine ⟨d, ?_, rfl, rfl, rfl, rfl, fun k v h => by simp at h, fun j _ => rfl⟩
    have : s.world.set i (some { c with data := some d }) = s.world := by
      rw [← hd]
      exact set_same hi
    rw [this]
    rfl
  | cons v cols ih =>
    intro feat s i c d hp hi hd hf hn hlt hlen hcat hz
    simp only [List.length_cons] at hf hz
    have hset := setFeatureData_fresh (cat := b feat) (hz feat (by omega) (by omega)) (hlen v (by simp))
      (fun h => hcat 0 v rfl h)
    have e1 := setFeatureData_exact (E := E) hp hi hd (by omega) (by omega) (by omega) (hlen v (by simp)) hset
    unfold setColumns
    rw [hb feat]
    simp only
    rw [andThen_ok e1]
    have hii : i < s.world.length := (List.getElem?_eq_some_iff.1 hi).1
    obtain ⟨d', e2, k1, k2, k3, k4, k5, k6⟩ := ih (feat + 1)
      (s := ⟨s.world.set i (some { c with data := some { d with cols := d.cols.set feat (fresh d.maxNbins (b feat) v) } }), s.raw⟩)
      (c := { c with data := some { d with cols := d.cols.set feat (fresh d.maxNbins (b feat) v) } })
      (d := { d with cols := d.cols.set feat (fresh d.maxNbins (b feat) v) }) hp
      (List.getElem?_set_self hii) rfl (by simp only; omega) hn hlt (fun u hu => hlen u (by simp [hu]))
      (fun k u hu hbk => hcat (k + 1) u (by simpa using hu) (by rw [← hbk]; congr 1; omega))
      (fun j h1 h2 => by
        simp only
        rw [List.getElem?_set_ne (by omega)]
        exact hz j (by omega) (by omega))
    rw [e2]
    have hflen : feat < d.cols.length := (List.getElem?_eq_some_iff.1 (hz feat (by omega) (by omega))).1
    refine ⟨d', by simp only [List.set_set], k1, k2, k3, by rw [k4]; simp, fun k u hu => ?_, fun j hj => ?_⟩
    · cases k with
      | zero =>
        simp at hu
        subst hu
        rw [Nat.add_zero, k6 feat (.inl (by omega))]
        simp only
        rw [List.getElem?_set_self hflen]
      | succ k =>
        have := k5 k u (by simpa using hu)
        rw [show feat + (k + 1) = feat + 1 + k by omega]
        exact this
    · simp only [List.length_cons] at hj
      rw [k6 j (by omega)]
      simp only
      rw [List.getElem?_set_ne (by omega)]

theorem setData_exact {E : Env} {s : St} {i : Nat} {c : Ctx} {X : Matrix} {isCat : Nat → Option Bool} {b : Nat → Bool}
    (hb : ∀ j, isCat j = some (b j)) (hp : s.raw.ptr = .ctx i) (hi : s.world[i]? = some (some c)) (hf : X.f32 = true)
    (hraw : X.cols.length = s.raw.nfeatures) (hn : X.cols.length = c.nfeatures) (hlt : X.cols.length < 2 ^ 31)
    (hr : 0 < X.nrows) (hr' : X.nrows < 2 ^ 31)
    (hcat : ∀ k v, X.cols[k]? = some v → b k = true → ∀ x ∈ v, IsCategory x) :
    ∃ d, setData E s X isCat =
        .ok (⟨s.world.set i (some { c with data := some d }), { s.raw with nexamples := (X.nrows : Int) }⟩, .ok ()) ∧
      d.nfeatures = X.cols.length ∧ d.nexamples = X.nrows ∧ d.maxNbins = c.config.maxNbins ∧
      d.cols.length = X.cols.length + 1 ∧
      (∀ k v, X.cols[k]? = some v → d.cols[k]? = some (fresh c.config.maxNbins (b k) v)) ∧
      d.cols[X.cols.length]? = some (zeroCol X.nrows) := by
  rw [setData_eq isCat (by rw [hp]; simp) hf hraw, hf, cInt_eq (by omega) (by omega)]
  have hii : i < s.world.length := (List.getElem?_eq_some_iff.1 hi).1
  have hcall : call E ⟨s.world, { s.raw with nexamples := (X.nrows : Int) }⟩ (.refreshData s.raw.ptr X.nrows) =
      .ok (⟨s.world.set i (some { c with data := some (Data.empty c.config c.nfeatures X.nrows) }),
        { s.raw with nexamples := (X.nrows : Int) }⟩, .ok (.code 0)) := by
    rw [hp]
    unfold call
    simp only
    rw [show step E s.world (.refreshData (.ctx i) (X.nrows : Int)) = wrap (.code (-1))
      (CApi.refreshData s.world (.ctx i) X.nrows) from rfl]
    unfold CApi.refreshData
    rw [if_pos (by omega), withCtx_eq hi]
    rfl
  rw [andThen_ok hcall]
  obtain ⟨d, e, k1, k2, k3, k4, k5, k6⟩ := setColumns_exact (E := E) hb X.cols 0
    (s := ⟨s.world.set i (some { c with data := some (Data.empty c.config c.nfeatures X.nrows) }),
        { s.raw with nexamples := (X.nrows : Int) }⟩)
    (c := { c with data := some (Data.empty c.config c.nfeatures X.nrows) })
    (d := Data.empty c.config c.nfeatures X.nrows) hp (List.getElem?_set_self hii) rfl (by simp only; omega)
    (by simp only; omega) (by simp only; omega) (fun v hv => X.rect v hv)
    (fun k v hv hb' => hcat k v hv (by rwa [Nat.zero_add] at hb'))
    (fun j _ h2 => by
      simp only [Data.empty]
      rw [List.getElem?_replicate, if_pos (by omega)]
      rfl)
  rw [e]
  refine ⟨d, by simp only [List.set_set], by rw [k1, hn]; rfl, k2, k3, by rw [k4, hn]; simp [Data.empty], fun k v hv => ?_, ?_⟩
  · have := k5 k v hv
    rw [Nat.zero_add] at this
    exact this
  · rw [k6 _ (.inr (by omega)), hn]
    simp only [Data.empty]
    rw [List.getElem?_replicate, if_pos (by omega)]
    rfl

theorem zeroCol_eq (m n : Nat) : zeroCol n = fresh m false (List.replicate n (.fin 0)) := by
  have h : ∀ (f : Num → Num → Num), f (.fin 0) (.fin 0) = .fin 0 → ∀ n,
      (List.replicate n (Num.fin 0)).foldl f (.fin 0) = .fin 0 := by
    intro f hf n
    induction n with
    | zero => rfl
    | succ n ih => rw [List.replicate_succ, List.foldl_cons, hf, ih]
  unfold zeroCol fresh
  rw [h Num.min (by simp [Num.min]), h Num.max (by simp [Num.max])]
  simp

theorem fresh_limits (m : Nat) (cat : Bool) (vs : List Num) :
    ExactLimits (fresh m cat vs).lo (fresh m cat vs).hi (.fin 0 :: (fresh m cat vs).values) := by
  simp only [fresh]
  obtain ⟨a1, a2, a3, a4⟩ := Data.foldl_min_spec vs (.fin 0) (by simp)
  obtain ⟨b1, b2, b3, b4⟩ := Data.foldl_max_spec vs (.fin 0) (by simp)
  refine ⟨fun v hv hn => ?_, fun _ => ⟨?_, ?_⟩⟩
  · rcases List.mem_cons.1 hv with rfl | hv
    · exact ⟨a2, b2⟩
    · exact ⟨a3 v hv hn, b3 v hv hn⟩
  · rcases a4 with h | h
    · rw [h]; simp
    · exact List.mem_cons_of_mem _ h
  · rcases b4 with h | h
    · rw [h]; simp
    · exact List.mem_cons_of_mem _ h

theorem table_of {m : Nat} {cols : List (List Num)} {b : Nat → Bool} {target : List Num} {d : Data}
    (h1 : d.nfeatures = cols.length) (h2 : d.nexamples = target.length) (h3 : d.maxNbins = m)
    (h4 : d.cols.length = cols.length + 1)
    (h5 : ∀ k v, cols[k]? = some v → d.cols[k]? = some (fresh m (b k) v))
    (h6 : d.cols[cols.length]? = some (fresh m false target)) :
    Table m cols (fun j => b j = true) target d := by
  have hcol : ∀ (j : Nat) (c : Column), d.cols[j]? = some c →
      (∃ v, cols[j]? = some v ∧ c = fresh m (b j) v) ∨ j = cols.length ∧ c = fresh m false target := by
    intro j c hc
    have hlt := (List.getElem?_eq_some_iff.1 hc).1
    by_cases hj : j < cols.length
    · left
      have := h5 j cols[j] (List.getElem?_eq_getElem hj)
      rw [hc] at this
      exact ⟨_, List.getElem?_eq_getElem hj, Option.some.inj this⟩
    · right
      have : j = cols.length := by omega
      subst this
      rw [hc] at h6
      exact ⟨rfl, Option.some.inj h6⟩
  refine ⟨⟨h1, h2, h3⟩, ?_, ?_, ?_, ?_⟩
  · apply List.ext_getElem?
    intro j
    rw [List.getElem?_map]
    by_cases hj : j < cols.length
    · rw [h5 j cols[j] (List.getElem?_eq_getElem hj), List.getElem?_append_left hj, List.getElem?_eq_getElem hj]
      rfl
    · by_cases hj2 : j = cols.length
      · subst hj2
        rw [h6]
        simp [fresh]
      · rw [List.getElem?_eq_none (by omega), List.getElem?_eq_none (by simp; omega)]
        rfl
  · intro c hc
    obtain ⟨j, hj⟩ := List.getElem?_of_mem hc
    rcases hcol j c hj with ⟨v, _, rfl⟩ | ⟨_, rfl⟩
    · exact fresh_limits m _ v
    · exact fresh_limits m _ target
  · intro j c hj hb hc
    rcases hcol j c hc with ⟨v, _, rfl⟩ | ⟨rfl, _⟩
    · simp only [fresh, hb, if_true]
      exact ⟨Data.exactCard_fold v, trivial⟩
    · omega
  · intro j c hj hc
    rcases hcol j c hc with ⟨v, hv, rfl⟩ | ⟨_, rfl⟩
    · have hjl := (List.getElem?_eq_some_iff.1 hv).1
      have hb : b j = false := by
        rcases hj with h | h
        · omega
        · simpa using h
      simp [fresh, hb]
    · simp [fresh]

/-! ## The configuration -/

/-- The configuration after the fields in the list: those the library accepts (C52) are set, the others are dropped. -/
inductive Configured (E : Env) : Config → List (String × Val) → Config → Prop
  | nil {c : Config} : Configured E c [] c
  | set {c c1 c2 : Config} {n : String} {v : Val} {t : List Char} {rest : List (String × Val)} : Sends n v t →
      Config.parseRecord E.pf c n t = .ok c1 → Configured E c1 rest c2 → Configured E c ((n, v) :: rest) c2
  | drop {c c2 : Config} {n : String} {v : Val} {t : List Char} {rest : List (String × Val)} {err : Config.Err} :
      Sends n v t → Config.parseRecord E.pf c n t = .error err → Configured E c rest c2 →
      Configured E c ((n, v) :: rest) c2

theorem param_facts : ∀ n ∈ paramNames,
    (n.toList.takeWhile (fun c => decide (c ≠ Char.ofNat 0))) = n.toList ∧
      configParams.lookup n = some (decide (n ∈ ["metrics", "categorical_features"])) := by
  decide +kernel

theorem joinComma_eq (parts : List (List Char)) : joinComma parts = [','].intercalate parts := by
  induction parts with
  | nil => rfl
  | cons p ps ih =>
    cases ps with
    | nil => simp [joinComma]
    | cons q qs =>
      rw [joinComma, ih]
      · simp [List.intercalate, List.intersperse]
      · simp

theorem sends_text {n : String} {v : Val} {t : List Char} (h : Sends n v t) :
    ∃ s, fieldText (decide (n ∈ ["metrics", "categorical_features"])) v = some s ∧ cStr s = .text t := by
  obtain ⟨s, rfl, h⟩ := h
  refine ⟨s, ?_, rfl⟩
  unfold fieldText
  rcases h with ⟨h1, h2⟩ | ⟨h1, h2⟩
  · rw [if_pos (decide_eq_true h1)]
    rcases h2 with rfl | ⟨items, r, rfl, h2⟩
    · rfl
    · simp only
      rw [h2, joinComma_eq]
  · rw [if_neg (by simpa using h1), h2]

theorem setConfigField_exact {E : Env} {s : St} {i : Nat} {c : Ctx} {n : String} {v : Val} {t : List Char}
    (hp : s.raw.ptr = .ctx i) (hi : s.world[i]? = some (some c)) (hd : c.data = none) (hn : n ∈ paramNames)
    (hs : Sends n v t) :
    setConfigField E s n.toList v = .ok (⟨s.world.set i (some { c with config :=
      (match Config.parseRecord E.pf c.config n t with | .ok x => x | .error _ => c.config) }), s.raw⟩, .ok ()) := by
  obtain ⟨u, h1, h2⟩ := sends_text hs
  obtain ⟨p1, p2⟩ := param_facts n hn
  have hname : cStr n.toList = .text n.toList := by unfold cStr; rw [p1]
  have hstr : String.ofList n.toList = n := String.ofList_toList
  have hcall : ∃ r, call E s (.setConfigField s.raw.ptr (cStr n.toList) (cStr u)) =
      .ok (⟨s.world.set i (some { c with config :=
      (match Config.parseRecord E.pf c.config n t with | .ok x => x | .error _ => c.config) }), s.raw⟩, .ok r) := by
    rw [hp, hname, h2]
    unfold call
    rw [show step E s.world (.setConfigField (.ctx i) (.text n.toList) (.text t)) = wrap (.code (-1))
      (CApi.setConfigField E s.world (.ctx i) (.text n.toList) (.text t)) from rfl]
    unfold CApi.setConfigField
    rw [withCtx_eq hi, hd]
    simp only [hstr]
    cases hq : Config.parseRecord E.pf c.config n t with
    | ok x => exact ⟨.code 0, by simp only [wrap, ← hd]⟩
    | error x =>
      refine ⟨.code (-1), ?_⟩
      simp only [wrap]
      rw [← hd]
      rw [set_same hi]
  obtain ⟨r, hcall⟩ := hcall
  unfold setConfigField
  rw [andThen_ok (checkCtx_ok (by rw [hp]; simp)), hstr, p2]
  simp only
  rw [h1]
  simp only
  rw [andThen_ok hcall]

theorem setFields_exact {E : Env} {ps : Params} (hs : ∀ n ∈ paramNames, ∃ t, Sends n (ps n) t) :
    ∀ (names : List String) {s : St} {i : Nat} {c : Ctx}, (∀ n ∈ names, n ∈ paramNames) →
    s.raw.ptr = .ctx i → s.world[i]? = some (some c) → c.data = none →
    ∃ cfg, Configured E c.config (names.map fun n => (n, ps n)) cfg ∧
      setFields E (names.map fun n => (n.toList, ps n)) s =
        .ok (⟨s.world.set i (some { c with config := cfg }), s.raw⟩, .ok ()) := by
  intro names
  induction names with
  | nil =>
    intro s i c _ _ hi _
    exact ⟨c.config, .nil, by rw [show ({ c with config := c.config } : Ctx) = c from rfl, set_same hi]; rfl⟩
  | cons n names ih =>
    intro s i c hn hp hi hd
    obtain ⟨t, ht⟩ := hs n (hn n (by simp))
    have e1 := setConfigField_exact (E := E) hp hi hd (hn n (by simp)) ht
    have hii : i < s.world.length := (List.getElem?_eq_some_iff.1 hi).1
    simp only [List.map_cons]
    unfold setFields
    rw [andThen_ok e1]
    cases hq : Config.parseRecord E.pf c.config n t with
    | ok x =>
      obtain ⟨cfg, h1, h2⟩ := ih (s := ⟨s.world.set i (some { c with config := x }), s.raw⟩)
        (c := { c with config := x }) (fun m hm => hn m (by simp [hm])) hp (List.getElem?_set_self hii) hd
      refine ⟨cfg, .set ht hq h1, ?_⟩
      rw [h2]
      simp only [List.set_set]
    | error x =>
      obtain ⟨cfg, h1, h2⟩ := ih (s := ⟨s.world.set i (some { c with config := c.config }), s.raw⟩)
        (c := { c with config := c.config }) (fun m hm => hn m (by simp [hm])) hp (List.getElem?_set_self hii) hd
      refine ⟨cfg, .drop ht hq h1, ?_⟩
      rw [h2]
      simp only [List.set_set]

theorem field_key_inj {f g : ConfigField} (h : f.key = g.key) : f = g := by
  cases f <;> cases g <;> first | rfl | (simp [ConfigField.key] at h)

theorem configured_field {E : Env} {c c' : Config} {l : List (String × Val)} (h : Configured E c l c')
    (hnd : (l.map Prod.fst).Nodup) (f : ConfigField) :
    (∀ v, (f.key, v) ∈ l → ∃ t, Sends f.key v t ∧ (∀ x, IsText E.pf f t x → f.get c' = x) ∧
      ((¬ ∃ x, IsText E.pf f t x) → f.get c' = f.get c)) ∧
    ((∀ v, (f.key, v) ∉ l) → f.get c' = f.get c) := by
  induction h with
  | nil => exact ⟨fun v h => (by cases h), fun _ => rfl⟩
  | @set c c1 c2 n v t rest hs hp hr ih =>
    simp only [List.map_cons, List.nodup_cons] at hnd
    obtain ⟨ih1, ih2⟩ := ih hnd.2
    obtain ⟨g, x, hg, htx, hgx, hoth⟩ := (C52_record _ _ _ _ _).1 hp
    have hmem : ∀ v, (n, v) ∉ rest := fun v hv => hnd.1 (List.mem_map.2 ⟨(n, v), hv, rfl⟩)
    constructor
    · intro u hu
      rcases List.mem_cons.1 hu with he | hu
      · obtain ⟨e1, e2⟩ := Prod.mk.inj he
        subst e2
        have hfg : f = g := field_key_inj (by rw [e1, hg])
        subst hfg
        refine ⟨t, by rw [e1]; exact hs, fun y hy => ?_, fun hno => absurd ⟨x, htx⟩ hno⟩
        rw [ih2 (by rw [e1]; exact hmem), hgx]
        exact text_unique htx hy
      · obtain ⟨t', k1, k2, k3⟩ := ih1 u hu
        refine ⟨t', k1, k2, fun hno => ?_⟩
        rw [k3 hno]
        refine hoth f fun hfg => ?_
        subst hfg
        rw [← hg] at hu
        exact hmem u hu
    · intro hno
      rw [ih2 (fun v hv => hno v (List.mem_cons_of_mem _ hv))]
      refine hoth f fun hfg => hno v ?_
      rw [hfg, ← hg]
      exact List.mem_cons_self
  | @drop c c2 n v t rest err hs hp hr ih =>
    simp only [List.map_cons, List.nodup_cons] at hnd
    obtain ⟨ih1, ih2⟩ := ih hnd.2
    have hmem : ∀ v, (n, v) ∉ rest := fun v hv => hnd.1 (List.mem_map.2 ⟨(n, v), hv, rfl⟩)
    constructor
    · intro u hu
      rcases List.mem_cons.1 hu with he | hu
      · obtain ⟨e1, e2⟩ := Prod.mk.inj he
        subst e2
        refine ⟨t, by rw [e1]; exact hs, fun y hy => ?_, fun _ => ih2 (by rw [e1]; exact hmem)⟩
        rcases (C52_record_error _ _ _ _ _).1 hp with ⟨_, hno⟩ | ⟨_, g, hg, hno⟩
        · exact absurd e1.symm (hno f)
        · have hfg : f = g := field_key_inj (by rw [e1, hg])
          subst hfg
          exact absurd hy (hno y)
      · exact ih1 u hu
    · intro hno
      exact ih2 (fun v hv => hno v (List.mem_cons_of_mem _ hv))

theorem configured_effective {E : Env} {ps : Params} {cfg : Config}
    (h : Configured E Config.new (paramNames.map fun n => (n, ps n)) cfg) : Effective E.pf ps cfg := by
  intro f
  have hnd : ((paramNames.map fun n => (n, ps n)).map Prod.fst).Nodup := by
    rw [List.map_map]
    simp only [Function.comp_def, List.map_id']
    decide
  obtain ⟨h1, h2⟩ := configured_field h hnd f
  rw [C52_defaults] at h1 h2
  constructor
  · intro hk
    exact h1 (ps f.key) (List.mem_map.2 ⟨f.key, hk, rfl⟩)
  · intro hk
    refine h2 fun v hv => hk ?_
    obtain ⟨n, hn, he⟩ := List.mem_map.1 hv
    cases he
    exact hn

theorem getParams_eq (ps : Params) : getParams ps = paramNames.map fun n => (n.toList, ps n) := rfl

/-! ## Predictions depend on the values of the features only -/

theorem leafFrom_cells {nf : Nat} {t : Tree} (ht : ∀ c ∈ t.splitCrits, c.featureId < nf) {d d' : Data}
    (h : ∀ f < nf, ∀ i, cell d f i = cell d' f i) (i : Nat) : ∀ (k n : Nat), t.splitCrits.length - n ≤ k →
      t.leafFrom d i n = t.leafFrom d' i n := by
  intro k
  induction k with
  | zero =>
    intro n hn
    rw [Tree.leafFrom.eq_1 t d, Tree.leafFrom.eq_1 t d', dif_neg (by omega), dif_neg (by omega)]
  | succ k ih =>
    intro n hn
    rw [Tree.leafFrom.eq_1 t d, Tree.leafFrom.eq_1 t d']
    by_cases hlt : n < t.splitCrits.length
    · rw [dif_pos hlt, dif_pos hlt]
      have hread : Tree.read d t.splitCrits[n].featureId i = Tree.read d' t.splitCrits[n].featureId i := by
        have := h _ (ht _ (List.getElem_mem hlt)) i
        unfold cell at this
        unfold Tree.read
        rw [this]
      rw [hread, ih (Tree.leftChild n) (by unfold Tree.leftChild; omega),
        ih (Tree.rightChild n) (by unfold Tree.rightChild; omega)]
    · rw [dif_neg hlt, dif_neg hlt]

theorem predict_cells (F : FP) {nf : Nat} {e : AdditiveTree} (he : ∀ t ∈ e.trees, WellTree nf t) {d d' : Data}
    (hn : d.nexamples = d'.nexamples) (h : ∀ f < nf, ∀ i, cell d f i = cell d' f i) :
    e.predict F d = e.predict F d' := by
  have hsingle : ∀ t ∈ e.trees, ∀ i, t.predictSingle F d i = t.predictSingle F d' i := by
    intro t ht i
    unfold Tree.predictSingle Tree.predictLeafId
    rw [leafFrom_cells (he t ht).feats h i _ 0 (le_refl _)]
  have hloop : ∀ t ∈ e.trees, ∀ (f : Num → Num → Num) (buf : List Num) (i : Nat),
      Tree.predictLoop F t d f i buf = Tree.predictLoop F t d' f i buf := by
    intro t ht f buf
    induction buf with
    | nil => intro i; rfl
    | cons b buf ih =>
      intro i
      unfold Tree.predictLoop
      rw [hsingle t ht i, ih]
  have hadd : ∀ (ts : List Tree) (buf : List Num), (∀ t ∈ ts, t ∈ e.trees) →
      AdditiveTree.addTrees F d ts buf = AdditiveTree.addTrees F d' ts buf := by
    intro ts
    induction ts with
    | nil => intro buf _; rfl
    | cons t ts ih =>
      intro buf hts
      unfold AdditiveTree.addTrees Tree.predictAnd
      rw [hn, hloop t (hts t (by simp))]
      congr 1
      funext buf'
      exact ih buf' (fun u hu => hts u (by simp [hu]))
  unfold AdditiveTree.predict AdditiveTree.predictBuf
  rw [hn]
  exact hadd _ _ (fun t ht => ht)

/-! ## `fit` and `predict` -/

theorem fitRaw_exact {E : Env} {s : St} {i : Nat} {c : Ctx} {ps : Params} {X : Matrix} {y : Vector} {cats : List Int}
    (hw : WInv E s) (hp : s.raw.ptr = .ctx i) (hi : s.world[i]? = some (some c))
    (hc : c = { config := Config.new, nfeatures := X.cols.length, data := none, model := none })
    (hraw : s.raw.nfeatures = X.cols.length) (hf : X.f32 = true) (hlt : X.cols.length < 2 ^ 31)
    (hr : 0 < X.nrows) (hr' : X.nrows < 2 ^ 31) (hyf : y.f32 = true) (hy : y.vals.length = X.nrows)
    (hs : ∀ n ∈ paramNames, ∃ t, Sends n (ps n) t) (hcs : Categories ps cats)
    (hcat : ∀ (k : Nat) v, X.cols[k]? = some v → (k : Int) ∈ cats → ∀ x ∈ v, IsCategory x) :
    ∃ cfg d, Configured E Config.new (paramNames.map fun n => (n, ps n)) cfg ∧
      Table cfg.maxNbins X.cols (fun j => (j : Int) ∈ cats) y.vals d ∧
      ∃ t c', fitRaw E s ps X y = .ok (t, .ok ()) ∧ t.raw.ptr = .ctx i ∧ t.raw.nfeatures = X.cols.length ∧
        Live t.world (.ctx i) c' ∧ c'.nfeatures = X.cols.length ∧
        ((∃ o ms b, Objective.fromName cfg.objective = some o ∧ Metric.fromNames cfg.metrics = some ms ∧
            Booster.run E.F E.M cfg d (E.seed cfg.randomSeed) ms o = .ok b ∧ c'.model = some b.ensemble) ∨
          ((¬ ∃ o ms b, Objective.fromName cfg.objective = some o ∧ Metric.fromNames cfg.metrics = some ms ∧
            Booster.run E.F E.M cfg d (E.seed cfg.randomSeed) ms o = .ok b) ∧ c'.model = none)) := by
  subst hc
  have hpn : s.raw.ptr ≠ .null := by rw [hp]; simp
  have hii : i < s.world.length := (List.getElem?_eq_some_iff.1 hi).1
  obtain ⟨cfg, hcfg, e1⟩ := setFields_exact (E := E) hs paramNames (fun n h => h) hp hi rfl
  have e1' : setConfig E s (getParams ps) = .ok (⟨s.world.set i (some
      { config := cfg, nfeatures := X.cols.length, data := none, model := none }), s.raw⟩, .ok ()) := by
    unfold setConfig
    rw [andThen_ok (checkCtx_ok hpn), getParams_eq]
    exact e1
  obtain ⟨items, str, hps, rfl⟩ := hcs
  have hb : ∀ j, contains (ps "categorical_features") j = some (decide ((j : Int) ∈ items.filterMap Item.int)) := by
    intro j; rw [hps]; rfl
  obtain ⟨d, e2, k1, k2, k3, k4, k5, k6⟩ := setData_exact (E := E)
    (s := ⟨s.world.set i (some { config := cfg, nfeatures := X.cols.length, data := none, model := none }), s.raw⟩)
    (c := { config := cfg, nfeatures := X.cols.length, data := none, model := none }) hb hp
    (List.getElem?_set_self hii) hf hraw.symm rfl hlt hr hr'
    (fun k v hv hbk => hcat k v hv (of_decide_eq_true hbk))
  simp only [List.set_set] at e2
  have hset := setFeatureData_fresh (d := d) (feat := X.cols.length) (vs := y.vals) (cat := false)
    (by rw [k6, k2]) (by rw [hy, k2]) (fun h => by cases h)
  obtain ⟨yf, yv⟩ := y
  simp only at hyf hy hset ⊢
  subst hyf
  obtain ⟨d3, hd3⟩ : ∃ x, x = { d with cols := d.cols.set X.cols.length (fresh d.maxNbins false yv) } := ⟨_, rfl⟩
  rw [← hd3] at hset
  let c3 : Ctx := ⟨cfg, X.cols.length, some d3, none⟩
  let s3' : St := ⟨s.world.set i (some c3), { s.raw with nexamples := (X.nrows : Int) }⟩
  have e3 := setFeatureData_exact (E := E) (feat := X.cols.length)
    (s := ⟨s.world.set i (some { config := cfg, nfeatures := X.cols.length, data := some d, model := none }),
      { s.raw with nexamples := (X.nrows : Int) }⟩)
    (c := { config := cfg, nfeatures := X.cols.length, data := some d, model := none })
    hp (List.getElem?_set_self hii) rfl (le_refl _) (by simp only; omega) hlt (by rw [hy, k2]) hset
  simp only [List.set_set] at e3
  have e3' : setTarget E ⟨s.world.set i (some { config := cfg, nfeatures := X.cols.length, data := some d, model := none }),
      { s.raw with nexamples := (X.nrows : Int) }⟩ ⟨true, yv⟩ = .ok (s3', .ok ()) := by
    unfold setTarget
    rw [andThen_ok (checkCtx_ok (s := ⟨s.world.set i (some { config := cfg, nfeatures := X.cols.length, data := some d, model := none }),
      { s.raw with nexamples := (X.nrows : Int) }⟩) hpn)]
    simp only [s3', c3, hraw]
    simp only [hraw] at e3
    exact e3
  have htab : Table cfg.maxNbins X.cols (fun j => decide ((j : Int) ∈ items.filterMap Item.int) = true) yv
      d3 := by
    rw [hd3]
    refine table_of (b := fun j => decide ((j : Int) ∈ items.filterMap Item.int)) k1 (by simp only; omega) k3
      (by simp [k4]) (fun k v hv => ?_) ?_
    · have := (List.getElem?_eq_some_iff.1 hv).1
      simp only
      rw [List.getElem?_set_ne (by omega)]
      exact k5 k v hv
    · simp only
      rw [List.getElem?_set_self (by omega), k3]
  simp only [decide_eq_true_eq] at htab
  refine ⟨cfg, _, hcfg, htab, ?_⟩
  -- the session up to here
  have hrun : fitRaw E s ps X ⟨true, yv⟩ = train E s3' := by
    unfold fitRaw
    rw [andThen_ok e1', andThen_ok e2, andThen_ok e3']
  obtain ⟨s3, hs3⟩ : ∃ x, s3' = x := ⟨_, rfl⟩
  rw [hs3] at hrun
  have hw3 : WInv E s3 := by
    obtain ⟨t1, x1, f1, g1, _⟩ := setConfig_safe hw (getParams ps)
    rw [e1'] at f1
    cases f1
    obtain ⟨t2, x2, f2, _, _, g2⟩ := setData_safe g1 X (contains (ps "categorical_features")) hr
    rw [e2] at f2
    cases f2
    obtain ⟨g3, g4⟩ := g2 rfl
    obtain ⟨t3, x3, f3, g5⟩ := setTarget_safe g3 ⟨true, yv⟩ (by rw [g4]; simp only; omega)
    rw [e3'] at f3
    cases f3
    rw [← hs3]
    exact g5.1
  have hp3 : s3.raw.ptr = .ctx i := by rw [← hs3]; exact hp
  have hn3 : s3.raw.nfeatures = X.cols.length := by rw [← hs3]; exact hraw
  have hl3 : Live s3.world (.ctx i) c3 := by
    rw [← hs3]
    exact live_iff.2 (List.getElem?_set_self hii)
  rw [hrun]
  have htr : ∀ w r, step E s3.world (.train (.ctx i)) = .ok (w, r) → train E s3 = .ok ({ s3 with world := w }, .ok ()) := by
    intro w r he
    have hcall : call E s3 (.train s3.raw.ptr) = .ok ({ s3 with world := w }, .ok r) := by
      unfold call
      rw [hp3, he]
    unfold train
    rw [andThen_ok (checkCtx_ok (by rw [hp3]; simp)), andThen_ok hcall]
  rcases C53_train E s3.world (.ctx i) _ hw3.1 hl3 with ⟨d', o, ms, b, q1, q2, q3, q4, w, q5, q6⟩ | ⟨q1, q2⟩
  · have q1 : d3 = d' := Option.some.inj q1
    subst q1
    exact ⟨_, _, htr _ _ q5, hp3, hn3, q6, rfl, .inl ⟨o, ms, b, q2, q3, q4, rfl⟩⟩
  · refine ⟨_, _, htr _ _ q2, hp3, hn3, hl3, rfl, .inr ⟨?_, rfl⟩⟩
    rintro ⟨o, ms, b, r1, r2, r3⟩
    exact q1 ⟨_, o, ms, b, rfl, r1, r2, r3⟩

theorem andThen_inv {α β : Type} {r : Res α} {k : St → α → Res β} {s : St} {b : β} (h : r.andThen k = .ok (s, .ok b)) :
    ∃ t a, r = .ok (t, .ok a) ∧ k t a = .ok (s, .ok b) := by
  unfold Res.andThen at h
  split at h
  · exact ⟨_, _, rfl, h⟩
  · cases h
  · cases h
  · cases h

/-- Training data is only accepted with a target of 32-bit floats. -/
theorem fitRaw_f32 {E : Env} {s t : St} {ps : Params} {X : Matrix} {y : Vector} (h : fitRaw E s ps X y = .ok (t, .ok ())) :
    y.f32 = true := by
  unfold fitRaw at h
  obtain ⟨_, _, _, h⟩ := andThen_inv h
  obtain ⟨_, _, _, h⟩ := andThen_inv h
  obtain ⟨_, _, h, _⟩ := andThen_inv h
  unfold setTarget at h
  obtain ⟨_, _, _, h⟩ := andThen_inv h
  unfold setFeatureData at h
  obtain ⟨_, _, _, h⟩ := andThen_inv h
  obtain ⟨_, _, h, _⟩ := andThen_inv h
  unfold check at h
  split at h
  · assumption
  · cases h

/-- A value that `set_config_field` sends. -/
theorem text_sends {n : String} {v : Val} {s : List Char}
    (h : fieldText (decide (n ∈ ["metrics", "categorical_features"])) v = some s) : ∃ t, Sends n v t := by
  refine ⟨_, s, rfl, ?_⟩
  unfold fieldText at h
  by_cases hn : n ∈ ["metrics", "categorical_features"]
  · rw [if_pos (decide_eq_true hn)] at h
    refine .inl ⟨hn, ?_⟩
    cases v with
    | str u => cases h; exact .inl rfl
    | scalar u => cases h
    | seq items r => cases h; exact .inr ⟨items, r, rfl, joinComma_eq _⟩
  · rw [if_neg (by simpa using hn)] at h
    cases h
    exact .inr ⟨hn, rfl⟩

theorem setConfigField_sends {E : Env} {s t : St} {n : String} {v : Val} (hn : n ∈ paramNames)
    (h : setConfigField E s n.toList v = .ok (t, .ok ())) : ∃ t, Sends n v t := by
  unfold setConfigField at h
  obtain ⟨_, _, _, h⟩ := andThen_inv h
  rw [String.ofList_toList, (param_facts n hn).2] at h
  simp only at h
  split at h
  · cases h
  · rename_i u hu
    exact text_sends hu

theorem setFields_sends {E : Env} {ps : Params} : ∀ (names : List String) {s t : St},
    (∀ n ∈ names, n ∈ paramNames) → setFields E (names.map fun n => (n.toList, ps n)) s = .ok (t, .ok ()) →
    ∀ n ∈ names, ∃ t, Sends n (ps n) t := by
  intro names
  induction names with
  | nil => intro s t _ _ n hn; cases hn
  | cons m names ih =>
    intro s t hm h n hn
    simp only [List.map_cons] at h
    unfold setFields at h
    obtain ⟨_, _, h1, h2⟩ := andThen_inv h
    rcases List.mem_cons.1 hn with rfl | hn
    · exact setConfigField_sends (hm _ (by simp)) h1
    · exact ih (fun k hk => hm k (by simp [hk])) h2 n hn

theorem fitRaw_params {E : Env} {s t : St} {ps : Params} {X : Matrix} {y : Vector} (hX : 0 < X.cols.length)
    (h : fitRaw E s ps X y = .ok (t, .ok ())) :
    (∀ n ∈ paramNames, ∃ t, Sends n (ps n) t) ∧ ∃ cats, Categories ps cats := by
  unfold fitRaw at h
  obtain ⟨_, _, h1, h⟩ := andThen_inv h
  obtain ⟨_, _, h2, _⟩ := andThen_inv h
  constructor
  · unfold setConfig at h1
    obtain ⟨_, _, _, h1⟩ := andThen_inv h1
    exact setFields_sends (ps := ps) paramNames (fun _ h => h) h1
  · unfold setData at h2
    obtain ⟨_, _, _, h2⟩ := andThen_inv h2
    obtain ⟨_, _, _, h2⟩ := andThen_inv h2
    obtain ⟨_, _, _, h2⟩ := andThen_inv h2
    obtain ⟨_, _, _, h2⟩ := andThen_inv h2
    cases hc : X.cols with
    | nil => rw [hc] at hX; cases hX
    | cons c cols =>
      rw [hc] at h2
      unfold setColumns at h2
      unfold contains at h2
      cases hv : ps "categorical_features" with
      | str u => rw [hv] at h2; cases h2
      | scalar u => rw [hv] at h2; cases h2
      | seq items r => exact ⟨_, items, r, hv, rfl⟩

end Python
end BitBoost
