import Verif.Proofs.FEInit
import Verif.Spec.Names
import Verif.Model.Problem
/-
Helper lemmas: what reading a freshly created finite element yields.
-/
namespace Nosnoc

theorem resolve_nat {n j : Nat} (h : j < n) : (PyIdx.nat j).resolve n = .ok j := by
  simp [PyIdx.resolve, h]
theorem resolve_last {n : Nat} (h : 0 < n) : PyIdx.last.resolve n = .ok (n - 1) := by
  simp [PyIdx.resolve, h]

theorem ownEnd_eq (o : PreOpts) : ownEnd o = hasXEnd o := rfl

theorem extraPt_eq (o : PreOpts) (k e : Nat) : extraPt o k e = endAllowance o k e := by
  unfold extraPt endAllowance rightBoundary nfe
  simp only [Bool.and_eq_true, Bool.not_eq_true', decide_eq_true_eq, and_assoc]

theorem lastLam_eq (o : PreOpts) (k e : Nat) :
    lastLam o k e = o.nS + endAllowance o k e - 1 := by rw [lastLam, extraPt_eq]

theorem nominalH_h0 (o : PreOpts) (k : Nat) : nominalH o k = h0Of o k := rfl

section
variable {o : PreOpts} {m : PreModel} {oc : PreOcp} {k e : Nat} {prev : FERef}

@[simp] theorem feInit_rows_x : (feInit o m oc k e prev).rows1 .x = rowsX o := rfl
@[simp] theorem feInit_rows_v : (feInit o m oc k e prev).rows1 .v = o.nS := rfl
@[simp] theorem feInit_rows_z : (feInit o m oc k e prev).rows1 .z = o.nS := rfl
@[simp] theorem feInit_nSys : (feInit o m oc k e prev).nSys = m.dims.nSys := rfl
@[simp] theorem feInit_k : (feInit o m oc k e prev).k = k := rfl
@[simp] theorem feInit_e : (feInit o m oc k e prev).e = e := rfl
@[simp] theorem feInit_prev : (feInit o m oc k e prev).prev = some prev := rfl
@[simp] theorem feInit_h : (feInit o m oc k e prev).hExpr = .ok (hVal o k e) := rfl

/-- Number of rows of the two-level lists. -/
def rows2Of (o : PreOpts) (k e : Nat) : Fam2 → Nat
  | .theta | .alpha => o.nS
  | _ => o.nS + endAllowance o k e

@[simp] theorem feInit_rows2 (f : Fam2) :
    (feInit o m oc k e prev).rows2 f = rows2Of o k e f := by
  cases f <;> rfl

theorem slotInRange_two {d : Dims} {f : Fam2} {j s : Nat} :
    slotInRange o k e d (.two f j s) ↔ j < rows2Of o k e f ∧ s < d.nSys := by
  cases f <;> rfl

theorem feInit_read2 {f : Fam2} {i : PyIdx} {j : Nat}
    (hi : i.resolve (rows2Of o k e f) = .ok j) (hj : j < rows2Of o k e f) :
    (feInit o m oc k e prev).read2 f i = .ok (vars (rowSyms o m.dims k e f j)) := by
  unfold FE.read2 FE.get2
  rw [feInit_rows2, hi]
  simp only [ok_bind, feInit_nSys]
  rw [gather_flatMap (g := fun s => slotSyms o k e m.dims (.two f j s))]
  · rfl
  · intro s hs
    exact feInit_gather (slotInRange_two.2 ⟨hj, by simpa using hs⟩)

theorem feInit_get2 {f : Fam2} {i : PyIdx} {j : Nat}
    (hi : i.resolve (rows2Of o k e f) = .ok j) (hj : j < rows2Of o k e f) :
    ∃ idx, (feInit o m oc k e prev).get2 f i = .ok idx ∧
      gather (feInit o m oc k e prev).form.w idx = .ok (rowSyms o m.dims k e f j) := by
  unfold FE.get2
  rw [feInit_rows2, hi]
  refine ⟨_, rfl, ?_⟩
  rw [feInit_nSys, gather_flatMap (g := fun s => slotSyms o k e m.dims (.two f j s))]
  · rfl
  · intro s hs
    exact feInit_gather (slotInRange_two.2 ⟨hj, by simpa using hs⟩)

theorem feInit_read1 {f : Fam1} {i : PyIdx} {j : Nat}
    (hi : i.resolve ((feInit o m oc k e prev).rows1 f) = .ok j)
    (hj : slotInRange o k e m.dims (.one f j)) :
    (feInit o m oc k e prev).read1 f i = .ok (vars (slotSyms o k e m.dims (.one f j))) := by
  unfold FE.read1 FE.get1
  rw [hi]
  simp only [ok_bind]
  rw [feInit_gather hj]
  rfl

/-- `self.w[self.ind_x[-1]]`. -/
theorem feInit_lastX (hn : 0 < o.nS) :
    (feInit o m oc k e prev).read1 .x .last = .ok (vars (blk m.dims.nX (endX o k e))) := by
  have hp := rowsX_pos o hn
  rw [feInit_read1 (resolve_last (by simpa using hp)) (by
    simp only [feInit_rows_x, slotInRange]; omega)]
  simp only [feInit_rows_x, slotSyms]
  by_cases hx : hasXEnd o = true
  · have : endX o k e = .xEnd k e := by funext i; simp [endX, ownEnd_eq, hx]
    simp [hx, this]
  · simp only [hx, Bool.false_eq_true, false_and, if_false]
    have : o.irkRep ≠ .differential ∧ o.rbe = true := by
      simp only [hasXEnd, Bool.or_eq_true, Bool.not_eq_true', decide_eq_true_eq, not_or] at hx
      exact ⟨hx.2, by simpa using hx.1⟩
    have h' : endX o k e = .st1 .x k e (o.nS - 1) := by funext i; simp [endX, ownEnd_eq, hx]
    simp [this.1, rowsX, this.2, h']

/-- `self.w[self.ind_x[j]]`, `j < n_s`, when the stage states are variables. -/
theorem feInit_stageX (hr : o.irkRep ≠ .differential) {j : Nat} (hj : j < o.nS) :
    (feInit o m oc k e prev).read1 .x (.nat j)
      = .ok (vars (blk m.dims.nX (.st1 .x k e j))) := by
  have hj' : j < rowsX o := by unfold rowsX; rw [if_neg hr]; split <;> omega
  rw [feInit_read1 (resolve_nat (by simpa using hj')) (by simpa [slotInRange] using hj')]
  simp only [slotSyms]
  rw [if_neg, if_neg hr]
  rintro ⟨h1, h2⟩
  have := rowsX_of_xEnd o h1 hr
  omega

theorem feInit_stageV (hr : o.irkRep ≠ .integral) {j : Nat} (hj : j < o.nS) :
    (feInit o m oc k e prev).read1 .v (.nat j)
      = .ok (vars (blk m.dims.nX (.st1 .v k e j))) := by
  rw [feInit_read1 (resolve_nat (by simpa using hj)) (by simpa [slotInRange] using hj)]
  simp [slotSyms, hr]

theorem rows2Of_ge (f : Fam2) : o.nS ≤ rows2Of o k e f := by
  cases f <;> simp [rows2Of]

theorem rows2Of_lam : rows2Of o k e .lam = o.nS + endAllowance o k e := rfl

theorem feInit_Lambda {j : Nat} (hj : j < o.nS + endAllowance o k e) :
    (feInit o m oc k e prev).Lambda (.nat j) = .ok (vars (lamSyms o m.dims k e j)) := by
  unfold FE.Lambda
  rw [feInit_read2 (resolve_nat hj) hj, feInit_read2 (resolve_nat hj) hj,
    feInit_read2 (resolve_nat hj) hj]
  simp [vars, lamSyms]

theorem feInit_Lambda_last (hn : 0 < o.nS) :
    (feInit o m oc k e prev).Lambda .last
      = .ok (vars (lamSyms o m.dims k e (lastLam o k e))) := by
  have h : ∀ f ∈ [Fam2.lam, .lamN, .lamP],
      PyIdx.last.resolve (rows2Of o k e f) = .ok (lastLam o k e) ∧
      lastLam o k e < rows2Of o k e f := by
    intro f hf
    have hp : 0 < rows2Of o k e f := lt_of_lt_of_le hn (rows2Of_ge f)
    have hl : rows2Of o k e f = o.nS + endAllowance o k e := by
      simp at hf; rcases hf with rfl | rfl | rfl <;> rfl
    rw [resolve_last hp, hl]
    exact ⟨by rw [lastLam_eq], by rw [lastLam_eq]; omega⟩
  unfold FE.Lambda
  rw [feInit_read2 (h .lam (by simp)).1 (h .lam (by simp)).2,
    feInit_read2 (h .lamN (by simp)).1 (h .lamN (by simp)).2,
    feInit_read2 (h .lamP (by simp)).1 (h .lamP (by simp)).2]
  simp [vars, lamSyms]

theorem feInit_Theta {j : Nat} (hj : j < o.nS) :
    (feInit o m oc k e prev).Theta (.nat j) = .ok (thetaVec o m.dims k e j) := by
  unfold FE.Theta
  rw [feInit_read2 (resolve_nat (lt_of_lt_of_le hj (rows2Of_ge _)))
    (lt_of_lt_of_le hj (rows2Of_ge _)), feInit_read2 (resolve_nat (lt_of_lt_of_le hj (rows2Of_ge _)))
    (lt_of_lt_of_le hj (rows2Of_ge _))]
  simp [vars, thetaVec]

theorem feInit_get1z {i : PyIdx} {j : Nat} (hi : i.resolve o.nS = .ok j) (hj : j < o.nS) :
    ∃ idx, (feInit o m oc k e prev).get1 .z i = .ok idx ∧
      gather (feInit o m oc k e prev).form.w idx = .ok (blk m.dims.nZ (.st1 .z k e j)) := by
  unfold FE.get1
  rw [feInit_rows_z, hi]
  exact ⟨_, rfl, feInit_gather (s := .one .z j) hj⟩

/-- `rk_stage_z`: convex multipliers from row `j`, multipliers from row `jl`. -/
theorem feInit_rkStageZ {i : PyIdx} {j jl : Nat}
    (h1 : i.resolve o.nS = .ok j) (hj : j < o.nS)
    (h2 : i.resolve (o.nS + endAllowance o k e) = .ok jl) (hjl : jl < o.nS + endAllowance o k e) :
    (feInit o m oc k e prev).rkStageZ i = .ok (vars (zSyms o m.dims k e j jl)) := by
  obtain ⟨a, ha, ga⟩ := feInit_get2 (m := m) (oc := oc) (prev := prev) (f := .theta) h1 hj
  obtain ⟨b, hb, gb⟩ := feInit_get2 (m := m) (oc := oc) (prev := prev) (f := .lam) h2 hjl
  obtain ⟨c, hc, gc⟩ := feInit_get2 (m := m) (oc := oc) (prev := prev) (f := .mu) h2 hjl
  obtain ⟨d, hd, gd⟩ := feInit_get2 (m := m) (oc := oc) (prev := prev) (f := .alpha) h1 hj
  obtain ⟨f, hf, gf⟩ := feInit_get2 (m := m) (oc := oc) (prev := prev) (f := .lamN) h2 hjl
  obtain ⟨g, hg, gg⟩ := feInit_get2 (m := m) (oc := oc) (prev := prev) (f := .lamP) h2 hjl
  obtain ⟨z, hz, gz⟩ := feInit_get1z (m := m) (oc := oc) (prev := prev) (k := k) (e := e) h1 hj
  unfold FE.rkStageZ
  rw [ha, hb, hc, hd, hf, hg, hz]
  simp only [ok_bind]
  rw [gather_append (gather_append (gather_append (gather_append (gather_append
    (gather_append ga gb) gc) gd) gf) gg) gz]
  simp [zSyms]

theorem feInit_rkStageZ_nat {j : Nat} (hj : j < o.nS) :
    (feInit o m oc k e prev).rkStageZ (.nat j) = .ok (vars (zSyms o m.dims k e j j)) :=
  feInit_rkStageZ (resolve_nat hj) hj (resolve_nat (by omega)) (by omega)

theorem feInit_rkStageZ_last (hn : 0 < o.nS) :
    (feInit o m oc k e prev).rkStageZ .last
      = .ok (vars (zSyms o m.dims k e (o.nS - 1) (lastLam o k e))) := by
  rw [lastLam_eq]
  exact feInit_rkStageZ (resolve_last hn) (by omega) (resolve_last (by omega)) (by omega)

end

/-! ### The initial element -/

/-- Cells used by `FiniteElementZero`. -/
def fe0Fams : PssMode → List Fam2
  | .stewart => [.lam]
  | .step => [.lamN, .lamP]

def fe0Slots (pss : PssMode) (d : Dims) : List Slot :=
  .one .x 0 :: (List.range d.nSys).flatMap fun s => (fe0Fams pss).map fun f => .two f 0 s

def slotSyms0 (pss : PssMode) (d : Dims) : Slot → List Sym
  | .one .x _ => blk d.nX .x0
  | .one _ _ => []
  | .two f _ s => if f ∈ fe0Fams pss then blk (d.famLen pss f s) (.lam00 f s) else []

noncomputable def slotCall0 (pss : PssMode) (m : PreModel) (s : Slot) : VarCall :=
  match s with
  | .two f j s => ⟨.two f j s, slotSyms0 pss m.dims (.two f j s),
      List.replicate (m.dims.famLen pss f s) ⊥, List.replicate (m.dims.famLen pss f s) ⊤,
      List.replicate (m.dims.famLen pss f s) 1⟩
  | .one f j => ⟨.one f j, slotSyms0 pss m.dims (.one f j), m.x0.map (fun r => (r : EReal)),
      m.x0.map (fun r => (r : EReal)), m.x0⟩

theorem fe0Calls_eq (pss : PssMode) (m : PreModel) :
    fe0Calls pss m.dims m.x0 = (fe0Slots pss m.dims).map (slotCall0 pss m) := by
  unfold fe0Calls fe0Slots
  rw [List.map_cons, List.map_flatMap]
  congr 1
  apply flatMap_congr'
  intro s _
  cases pss <;> simp [fe0Fams, slotCall0, slotSyms0, Dims.famLen]

theorem slotCall0_slot (pss : PssMode) (m : PreModel) (s : Slot) :
    (slotCall0 pss m s).slot = s := by cases s <;> rfl

theorem slotCall0_syms (pss : PssMode) (m : PreModel) (s : Slot) :
    (slotCall0 pss m s).syms = slotSyms0 pss m.dims s := by cases s <;> rfl

theorem fe0Calls_slots (pss : PssMode) (m : PreModel) :
    (fe0Calls pss m.dims m.x0).map VarCall.slot = fe0Slots pss m.dims := by
  rw [fe0Calls_eq, List.map_map]
  conv_rhs => rw [← List.map_id (fe0Slots pss m.dims)]
  apply List.map_congr_left
  intro s _
  simp [slotCall0_slot]

theorem mem_fe0Slots {pss : PssMode} {d : Dims} {s : Slot} :
    s ∈ fe0Slots pss d ↔ s = .one .x 0 ∨ ∃ f ∈ fe0Fams pss, ∃ i < d.nSys, s = .two f 0 i := by
  simp only [fe0Slots, List.mem_cons, List.mem_flatMap, List.mem_range, List.mem_map]
  apply or_congr Iff.rfl
  constructor
  · rintro ⟨i, hi, f, hf, rfl⟩; exact ⟨f, hf, i, hi, rfl⟩
  · rintro ⟨f, hf, i, hi, rfl⟩; exact ⟨i, hi, f, hf, rfl⟩

theorem fe0Slots_nodup (pss : PssMode) (d : Dims) : (fe0Slots pss d).Nodup := by
  unfold fe0Slots
  rw [List.nodup_cons]
  refine ⟨by simp, ?_⟩
  rw [List.nodup_flatMap]
  refine ⟨fun s _ => ?_, ?_⟩
  · cases pss <;> simp [fe0Fams]
  · refine List.Pairwise.imp ?_ List.nodup_range
    intro a b hab s h1 h2
    simp only [List.mem_map] at h1 h2
    obtain ⟨f, _, rfl⟩ := h1
    obtain ⟨g, _, h⟩ := h2
    cases h
    exact hab rfl

noncomputable def fe0Init (pss : PssMode) (m : PreModel) : FE :=
  { FE.blank0 m.dims with
    form := Form.empty.extend (fe0Calls pss m.dims m.x0)
    ind := assign 0 (fe0Calls pss m.dims m.x0) (fun _ => []) }

theorem FE.init0_ok {pss : PssMode} {m : PreModel} (hx : m.x0.length = m.dims.nX) :
    FE.init0 pss m = .ok (fe0Init pss m) := by
  unfold FE.init0
  rw [addVars_ok]
  · rfl
  · rw [fe0Calls_eq]
    intro c hc
    obtain ⟨s, hs, rfl⟩ := List.mem_map.1 hc
    rw [mem_fe0Slots] at hs
    rcases hs with rfl | ⟨f, hf, i, hi, rfl⟩
    · simp [VarCall.Ok, slotCall0, slotSyms0, hx]
    · simp [VarCall.Ok, slotCall0, slotSyms0, hf]
  · rw [fe0Calls_eq]
    intro c hc
    obtain ⟨s, hs, rfl⟩ := List.mem_map.1 hc
    rw [slotCall0_slot]
    rw [mem_fe0Slots] at hs
    rcases hs with rfl | ⟨f, hf, i, hi, rfl⟩
    · simp [FE.inRange, FE.blank0]
    · cases pss <;> simp [fe0Fams] at hf
      · subst hf; simp [FE.inRange, FE.blank0, hi]
      · rcases hf with rfl | rfl <;> simp [FE.inRange, FE.blank0, hi]

theorem FE.init0_of_ok {pss : PssMode} {m : PreModel} {fe : FE} (h : FE.init0 pss m = .ok fe) :
    m.x0.length = m.dims.nX := by
  unfold FE.init0 at h
  have := (addVars_of_ok h).1 (slotCall0 pss m (.one .x 0)) (by
    rw [fe0Calls_eq]; exact List.mem_map_of_mem (by simp [fe0Slots]))
  simpa [VarCall.Ok, slotCall0, slotSyms0] using this.2.2

theorem fe0Init_gather {pss : PssMode} {m : PreModel} {s : Slot}
    (hr : (FE.blank0 m.dims).inRange s) :
    gather (fe0Init pss m).form.w ((fe0Init pss m).ind s) = .ok (slotSyms0 pss m.dims s) := by
  by_cases hs : s ∈ fe0Slots pss m.dims
  · have hc : slotCall0 pss m s ∈ fe0Calls pss m.dims m.x0 := by
      rw [fe0Calls_eq]; exact List.mem_map_of_mem hs
    have := gather_assign (w := [])
      (cs := fe0Calls pss m.dims m.x0) (ind := fun _ => []) (c := slotCall0 pss m s)
      (by rw [fe0Calls_slots]; exact fe0Slots_nodup _ _) hc
    rw [slotCall0_slot, slotCall0_syms] at this
    simpa [fe0Init, Form.extend, Form.empty] using this
  · have h1 : (fe0Init pss m).ind s = [] := by
      simp only [fe0Init]
      rw [assign_not_mem]
      rw [fe0Calls_slots]; exact hs
    rw [h1]
    rw [mem_fe0Slots] at hs
    push Not at hs
    cases s with
    | one f j =>
      cases f with
      | x =>
        exfalso
        simp [FE.inRange, FE.blank0] at hr
        subst hr
        exact hs.1 rfl
      | v => rfl
      | z => rfl
    | two f j i =>
      simp only [slotSyms0]
      split
      · rename_i hf
        exfalso
        have : j = 0 ∧ i < m.dims.nSys := by
          cases pss <;> simp [fe0Fams] at hf
          · subst hf; simpa [FE.inRange, FE.blank0] using hr
          · rcases hf with rfl | rfl <;> simpa [FE.inRange, FE.blank0] using hr
        exact hs.2 f hf i this.2 (by rw [this.1])
      · rfl

section
variable {o : PreOpts} {m : PreModel}

theorem fe0Init_lastX : (fe0Init o.pss m).read1 .x .last = .ok (vars (blk m.dims.nX .x0)) := by
  unfold FE.read1 FE.get1
  have : (fe0Init o.pss m).rows1 .x = 1 := rfl
  rw [this, resolve_last (by omega)]
  simp only [ok_bind]
  rw [fe0Init_gather (by simp [FE.inRange, FE.blank0])]
  rfl

theorem lam00Row_eq {f : Fam2} (hf : f ∈ [Fam2.lam, .lamN, .lamP]) :
    lam00Row o m.dims f
      = (List.range m.dims.nSys).flatMap fun s => slotSyms0 o.pss m.dims (.two f 0 s) := by
  unfold lam00Row
  apply flatMap_congr'
  intro s _
  simp only [slotSyms0]
  split
  · rfl
  · rename_i h
    cases hp : o.pss <;> rw [hp] at h <;> simp at hf <;> rcases hf with rfl | rfl | rfl <;>
      simp [fe0Fams] at h <;> simp [Dims.famLen, blk]

theorem fe0Init_get2 {f : Fam2} (hf : f ∈ [Fam2.lam, .lamN, .lamP]) {i : PyIdx}
    (hi : i.resolve 1 = .ok 0) :
    ∃ idx, (fe0Init o.pss m).get2 f i = .ok idx ∧
      gather (fe0Init o.pss m).form.w idx = .ok (lam00Row o m.dims f) := by
  unfold FE.get2
  have h1 : (fe0Init o.pss m).rows2 f = 1 := by
    simp at hf; rcases hf with rfl | rfl | rfl <;> rfl
  rw [h1, hi]
  refine ⟨_, rfl, ?_⟩
  rw [lam00Row_eq hf]
  apply gather_flatMap
  intro s hs
  apply fe0Init_gather
  have hs' : s < m.dims.nSys := List.mem_range.1 hs
  simp at hf; rcases hf with rfl | rfl | rfl <;> simp [FE.inRange, FE.blank0, hs']

theorem fe0Init_Lambda_last :
    (fe0Init o.pss m).Lambda .last = .ok (vars (lam00Row o m.dims .lam ++ lam00Row o m.dims .lamN
      ++ lam00Row o m.dims .lamP)) := by
  unfold FE.Lambda FE.read2
  have hi : PyIdx.last.resolve 1 = .ok 0 := rfl
  obtain ⟨a, ha, ga⟩ := fe0Init_get2 (o := o) (m := m) (f := .lam) (by simp) hi
  obtain ⟨b, hb, gb⟩ := fe0Init_get2 (o := o) (m := m) (f := .lamN) (by simp) hi
  obtain ⟨c, hc, gc⟩ := fe0Init_get2 (o := o) (m := m) (f := .lamP) (by simp) hi
  rw [ha, hb, hc]
  simp [ga, gb, gc, vars]

theorem lambda00Syms_ok :
    lambda00Syms (fe0Init o.pss m) = .ok (lam00Row o m.dims .lam ++ lam00Row o m.dims .lamN
      ++ lam00Row o m.dims .lamP) := by
  unfold lambda00Syms
  have hi : (PyIdx.nat 0).resolve 1 = .ok 0 := rfl
  obtain ⟨a, ha, ga⟩ := fe0Init_get2 (o := o) (m := m) (f := .lam) (by simp) hi
  obtain ⟨b, hb, gb⟩ := fe0Init_get2 (o := o) (m := m) (f := .lamN) (by simp) hi
  obtain ⟨c, hc, gc⟩ := fe0Init_get2 (o := o) (m := m) (f := .lamP) (by simp) hi
  rw [ha, hb, hc]
  simp [ga, gb, gc]

end

end Nosnoc
