import Verif.Lemmas.NodeSplit
import Verif.Props.Discretise
import Verif.Props.Bits
/-! Helper lemmas: the root of the tree stands for all active examples. -/
namespace BitBoost
namespace Learner

theorem fillGrads_spec (F : FP) {w : Nat} (hw : validWidth w) (bounds : Num × Num) (gradients : List Num) :
    ∀ (rows : List Nat) (i0 sum : Nat) (bs : Blocks), i0 + rows.length ≤ Spec.slots w bs →
    ∀ (zs : List (Nat × Nat)), zs = (List.range' i0 rows.length).zip rows →
    match Spec.gradCodes F w bounds gradients zs with
    | .ok cs => cs.length = rows.length ∧ ∃ bs', fillGrads F w bounds gradients zs sum bs = .ok (sum + cs.sum, bs') ∧
        bs'.length = bs.length ∧ (∀ t, t < rows.length → Spec.valueAt w bs' (i0 + t) = cs.getD t 0) ∧
        ∀ v, v < i0 → Spec.valueAt w bs' v = Spec.valueAt w bs v
    | .panic => fillGrads F w bounds gradients zs sum bs = .panic
    | .ub => False
  | [], i0, sum, bs, _, zs, hzs => by
      subst hzs
      simp [Spec.gradCodes, fillGrads]
  | r :: rows, i0, sum, bs, hlen, zs, hzs => by
      subst hzs
      rw [List.length_cons, List.range'_succ, List.zip_cons_cons]
      unfold Spec.gradCodes fillGrads
      simp only [List.length_cons] at hlen
      cases hv : at? gradients r with
      | panic => simp
      | ub =>
        unfold at? at hv
        cases hh : gradients[r]? <;> rw [hh] at hv <;> cases hv
      | ok v =>
        simp only [Out.ok_bind]
        obtain ⟨bs1, e1, hl1, hg1, ho1⟩ := Props.C14_get_set hw bs i0
          (BitSlice.discretise F w v bounds.1 bounds.2)
          (by
            have := Props.C15_code_in_range_any F hw v bounds.1 bounds.2
            have h2 : 0 < 2 ^ w := Nat.two_pow_pos w
            omega) (by omega)
        have es : BitSlice.setScaledValue F w bs i0 v bounds.1 bounds.2 =
            .ok (bs1, BitSlice.discretise F w v bounds.1 bounds.2) := by
          unfold BitSlice.setScaledValue
          simp only []
          rw [e1, Out.ok_bind]
          rfl
        rw [es, Out.ok_bind]
        have ih := fillGrads_spec F hw bounds gradients rows (i0 + 1)
          (sum + (BitSlice.discretise F w v bounds.1 bounds.2).toNat) bs1 (by
            have : Spec.slots w bs1 = Spec.slots w bs := by unfold Spec.slots; rw [hl1]
            omega) _ rfl
        revert ih
        cases hc : Spec.gradCodes F w bounds gradients ((List.range' (i0 + 1) rows.length).zip rows) with
        | panic => intro ih; simpa using ih
        | ub => intro ih; exact absurd ih (by simp)
        | ok cs =>
          rintro ⟨hcl, bs2, e2, hl2, hv2, ho2⟩
          simp only [Out.ok_bind, Out.pure_eq]
          refine ⟨by simp [hcl], bs2, ?_, by rw [hl2, hl1], ?_, ?_⟩
          · rw [e2]
            simp only [List.sum_cons]
            congr 2
            omega
          · intro t ht
            cases t with
            | zero =>
              rw [Nat.add_zero, ho2 i0 (by omega)]
              unfold Spec.valueAt
              rw [hg1]
              rfl
            | succ t =>
              have := hv2 t (by omega)
              rw [show i0 + (t + 1) = i0 + 1 + t by omega, this]
              rfl
          · intro v' hv'
            rw [ho2 v' (by omega)]
            unfold Spec.valueAt
            rw [ho1 v' (by omega)]

/-- The node made of the root's masks. -/
theorem root_rep {w n : Nat} (hw : validWidth w) (hn : 0 < n) (hn2 : n ≤ 2 ^ 32 - 256) {mask idx grads : Blocks}
    (hm : Blocks.oneBits n = .ok mask)
    (hi : Blocks.fromIter 32 (Blocks.blockLen 32 mask)
      ((List.range (Blocks.blockLen 32 mask)).map (BitVec.ofNat 32)) = .ok idx)
    (hg : grads.length = (n + 255) / 256 * w) {codes : List Nat}
    (hv : ∀ t, t < n → Spec.valueAt w grads t = codes.getD t 0) (node : Node)
    (e1 : node.compressed = false) (e2 : node.mask = mask) (e3 : node.idx = idx) (e4 : node.grads = grads) :
    Rep w ((n + 255) / 256) codes node (List.range n) := by
  obtain ⟨mask', em, hml, hmb⟩ := Blocks.oneBits_spec n hn
  rw [hm] at em
  cases em
  generalize hL : (n + 255) / 256 = L at *
  have hbm : Blocks.blockLen 32 mask = 8 * L := by unfold Blocks.blockLen; rw [hml]; omega
  have hLp : 0 < L := by omega
  obtain ⟨idx', ei, hil, hig⟩ := Props.C04_from_iter 32 (by omega) (by omega) (Blocks.blockLen 32 mask)
    ((List.range (Blocks.blockLen 32 mask)).map (BitVec.ofNat 32)) (by omega)
  rw [hi] at ei
  cases ei
  have hil' : idx.length = L := by rw [hil, hbm]; omega
  have hbi : Blocks.blockLen 32 idx = 8 * L := by unfold Blocks.blockLen; rw [hil']; omega
  have hword : ∀ k, k < 8 * L → (Blocks.word 32 idx k).toNat = k := by
    intro k hk
    have := hig k (by omega)
    rw [Blocks.get_word (by omega)] at this
    simp only [Out.ok.injEq] at this
    rw [this, List.getD_eq_getElem?_getD, List.getElem?_map, List.getElem?_range (by omega)]
    simp only [Option.map_some, Option.getD_some, BitVec.toNat_ofNat]
    omega
  have hplain : ∀ v, v < L * 256 → Spec.exampleAt idx v = v := by
    intro v hv
    unfold Spec.exampleAt Spec.indexAt
    rw [hword _ (by omega)]
    omega
  have hlt : ∀ i, i < n → i < L * 256 := by intro i hi; omega
  refine ⟨⟨mask, hml, ?_, ⟨?_, 8 * L, ?_, ?_, ?_, ?_, ?_⟩, fun _ => e2⟩, ?_, ?_, ?_, ?_, ?_, ?_⟩
  · rw [setPositions_eq]
    have hsplit : 256 * mask.length = n + (256 * mask.length - n) := by rw [hml]; omega
    rw [hsplit, List.range_add, List.filter_append]
    have h1 : (List.range n).filter (Blocks.bit mask) = List.range n := by
      rw [List.filter_eq_self]
      intro i hi
      rw [hmb]
      simpa using hi
    have h2 : ((List.range (256 * mask.length - n)).map (n + ·)).filter (Blocks.bit mask) = [] := by
      rw [List.filter_eq_nil_iff]
      intro i hi
      simp only [List.mem_map, List.mem_range] at hi
      obtain ⟨a, _, rfl⟩ := hi
      rw [hmb]
      simp
    rw [h1, h2, List.append_nil]
  · rw [e2, e3, hbm, hbi]
  · rw [e2, hbm]
  · intro k l hkl hl
    rw [e3, hword k (by omega), hword l hl]
    exact hkl
  · intro k hk
    rw [e2, e3, hword k hk, hbm]
    exact ⟨hk, rfl⟩
  · intro k hk hk2
    rw [e2, hbm] at hk2
    omega
  · intro i hi _
    rw [hbm] at hi
    exact ⟨i, hi, by rw [e3]; exact hword i hi⟩
  · intro _ k hk
    rw [e3]
    exact hword k hk
  · rw [e2]
    intro hnil
    rw [hnil] at hml
    simp at hml
    omega
  · intro k hk
    rw [e3] at hk ⊢
    unfold Spec.indexAt
    rw [hword k (by omega)]
    omega
  · rw [e2, hml]
  · rw [e4, e2, hml, hg]
  · intro v hvb
    rw [e2, hmb] at hvb
    have hvn : v < n := by simpa using hvb
    rw [e4, e3, hplain v (hlt v hvn)]
    exact hv v hvn

end Learner
end BitBoost
