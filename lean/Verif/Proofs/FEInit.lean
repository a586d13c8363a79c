import Verif.Proofs.Layout
import Mathlib.Data.List.Flatten
import Mathlib.Tactic.FinCases
/-
Helper lemmas: closed form of a freshly created finite element.
-/
namespace Nosnoc

variable (o : PreOpts) (m : PreModel) (oc : PreOcp) (k e : Nat)

/-- Symbols stored under each cell. -/
def slotSyms (d : Dims) : Slot → List Sym
  | .one .v j => if o.irkRep = .integral then [] else blk d.nX (.st1 .v k e j)
  | .one .x j =>
      if hasXEnd o = true ∧ j = rowsX o - 1 then blk d.nX (.xEnd k e)
      else if o.irkRep = .differential then [] else blk d.nX (.st1 .x k e j)
  | .one .z j => blk d.nZ (.st1 .z k e j)
  | .two f j s => blk (d.famLen o.pss f s) (.st2 f k e j s)

noncomputable def slotLb : Slot → List EReal
  | .one .v _ => List.replicate m.dims.nX ⊥
  | .one .x _ => oc.lbx
  | .one .z _ => m.lbz
  | .two .mu _ _ => List.replicate 1 ⊥
  | .two f _ s => List.replicate (m.dims.famLen o.pss f s) (lbDual o.mpcc)

noncomputable def slotUb : Slot → List EReal
  | .one .v _ => List.replicate m.dims.nX ⊤
  | .one .x _ => oc.ubx
  | .one .z _ => m.ubz
  | .two .mu _ _ => List.replicate 1 ⊤
  | .two .alpha _ s => List.replicate (m.dims.famLen o.pss .alpha s) 1
  | .two f _ s => List.replicate (m.dims.famLen o.pss f s) ⊤

noncomputable def slotInit : Slot → List ℝ
  | .one .v _ => List.replicate m.dims.nX 0
  | .one .x _ => m.x0
  | .one .z _ => m.z0
  | .two .mu _ _ => List.replicate 1 1
  | .two .theta _ s => List.replicate (m.dims.famLen o.pss .theta s) (o.sigma0 / m.dims.nF s)
  | .two .lam _ s => List.replicate (m.dims.famLen o.pss .lam s) (o.sigma0 / m.dims.nF s)
  | .two f _ s => List.replicate (m.dims.famLen o.pss f s) (1 / 2)

noncomputable def slotCall (s : Slot) : VarCall :=
  ⟨s, slotSyms o k e m.dims s, slotLb o m oc s, slotUb o m oc s, slotInit o m s⟩

/-- Families of the active mode, in creation order. -/
def pssFams : PssMode → List Fam2
  | .stewart => [.theta, .lam, .mu]
  | .step => [.alpha, .lamN, .lamP]

def pssEndFams : PssMode → List Fam2
  | .stewart => [.lam, .mu]
  | .step => [.lamN, .lamP]

def famSlots (d : Dims) (f : Fam2) (j : Nat) : List Slot :=
  (List.range d.nSys).map fun s => .two f j s

def stageSlots (d : Dims) (j : Nat) : List Slot :=
  (if o.irkRep = .integral then [] else [.one .v j])
  ++ (if o.irkRep = .differential then [] else [.one .x j])
  ++ (pssFams o.pss).flatMap (fun f => famSlots d f j) ++ [.one .z j]

def boundarySlots (d : Dims) : List Slot :=
  if rightBoundary o k e then (pssEndFams o.pss).flatMap (fun f => famSlots d f o.nS) else []

def xEndSlots : List Slot := if hasXEnd o then [.one .x (rowsX o - 1)] else []

def feSlots (d : Dims) : List Slot :=
  (List.range o.nS).flatMap (stageSlots o d) ++ boundarySlots o k e d ++ xEndSlots o

theorem rowsX_of_xEnd (h : hasXEnd o = true) (hr : o.irkRep ≠ .differential) :
    rowsX o - 1 = o.nS := by
  have : o.rbe = false := by
    simp only [hasXEnd, Bool.or_eq_true, Bool.not_eq_true', decide_eq_true_eq] at h
    rcases h with h | h
    · exact h
    · exact absurd h hr
  simp [rowsX, hr, this]

theorem stageCalls_eq {j : Nat} (hj : j < o.nS) :
    stageCalls o m oc k e j = (stageSlots o m.dims j).map (slotCall o m oc k e) := by
  have hx : o.irkRep ≠ .differential →
      slotSyms o k e m.dims (.one .x j) = blk m.dims.nX (.st1 .x k e j) := by
    intro hr
    simp only [slotSyms]
    rw [if_neg, if_neg hr]
    rintro ⟨h1, h2⟩
    have := rowsX_of_xEnd o h1 hr
    omega
  unfold stageCalls stageSlots
  cases hr : o.irkRep <;> cases hp : o.pss <;>
    simp [hr, pssFams, famCalls, famSlots, slotCall, slotSyms, slotLb, slotUb, slotInit,
      Dims.famLen, hp, Function.comp_def]
  all_goals
    first
    | done
    | (have := hx (by simp [hr]); simpa [slotSyms, hr] using this.symm)

theorem boundaryCalls_eq :
    boundaryCalls o m k e = (boundarySlots o k e m.dims).map (slotCall o m oc k e) := by
  unfold boundaryCalls boundarySlots
  by_cases hb : rightBoundary o k e = true
  · cases hp : o.pss <;>
      simp [hb, pssEndFams, famCalls, famSlots, slotCall, slotSyms, slotLb, slotUb,
        slotInit, Dims.famLen, hp, Function.comp_def]
  · simp [hb]

theorem xEndCalls_eq :
    xEndCalls o m oc k e = (xEndSlots o).map (slotCall o m oc k e) := by
  unfold xEndCalls xEndSlots
  by_cases hb : hasXEnd o = true
  · simp [hb, slotCall, slotSyms, slotLb, slotUb, slotInit]
  · simp [hb]

theorem flatMap_congr' {α β : Type} {l : List α} {f g : α → List β}
    (h : ∀ a ∈ l, f a = g a) : l.flatMap f = l.flatMap g := by
  induction l with
  | nil => rfl
  | cons a t ih =>
    rw [List.flatMap_cons, List.flatMap_cons, h a (by simp), ih fun b hb => h b (by simp [hb])]

theorem feCalls_eq :
    feCalls o m oc k e = (feSlots o k e m.dims).map (slotCall o m oc k e) := by
  unfold feCalls feSlots
  rw [boundaryCalls_eq o m oc k e, xEndCalls_eq]
  simp only [List.map_append, List.map_flatMap]
  congr 2
  apply flatMap_congr'
  intro j hj
  exact stageCalls_eq o m oc k e (by simpa using hj)

/-! ### Which cells are used -/

theorem mem_famSlots {d : Dims} {f : Fam2} {j : Nat} {s : Slot} :
    s ∈ famSlots d f j ↔ ∃ i < d.nSys, s = .two f j i := by
  simp [famSlots, eq_comm]

theorem mem_stageSlots {d : Dims} {j : Nat} {s : Slot} :
    s ∈ stageSlots o d j ↔
      (o.irkRep ≠ .integral ∧ s = .one .v j) ∨ (o.irkRep ≠ .differential ∧ s = .one .x j) ∨
      (∃ f ∈ pssFams o.pss, ∃ i < d.nSys, s = .two f j i) ∨ s = .one .z j := by
  unfold stageSlots
  simp only [List.mem_append, List.mem_flatMap, mem_famSlots, List.mem_singleton, or_assoc]
  apply or_congr
  · split <;> simp_all
  apply or_congr
  · split <;> simp_all
  rfl

theorem mem_feSlots {d : Dims} {s : Slot} :
    s ∈ feSlots o k e d ↔
      (∃ j < o.nS, s ∈ stageSlots o d j) ∨
      (rightBoundary o k e = true ∧ ∃ f ∈ pssEndFams o.pss, ∃ i < d.nSys, s = .two f o.nS i) ∨
      (hasXEnd o = true ∧ s = .one .x (rowsX o - 1)) := by
  unfold feSlots
  simp only [List.mem_append, List.mem_flatMap, List.mem_range, or_assoc]
  apply or_congr Iff.rfl
  apply or_congr
  · unfold boundarySlots
    split <;> simp_all [mem_famSlots]
  · unfold xEndSlots
    split <;> simp_all

theorem pssFams_nodup (p : PssMode) : (pssFams p).Nodup := by cases p <;> simp [pssFams]
theorem pssEndFams_nodup (p : PssMode) : (pssEndFams p).Nodup := by cases p <;> simp [pssEndFams]

theorem famSlots_flatMap_nodup (d : Dims) (fs : List Fam2) (hfs : fs.Nodup) (j : Nat) :
    (fs.flatMap (fun f => famSlots d f j)).Nodup := by
  rw [List.nodup_flatMap]
  refine ⟨fun f _ => ?_, ?_⟩
  · unfold famSlots
    exact List.Nodup.map (fun a b h => by cases h; rfl) List.nodup_range
  · refine List.Pairwise.imp ?_ hfs
    intro f g hfg s h1 h2
    rw [mem_famSlots] at h1 h2
    obtain ⟨i, _, rfl⟩ := h1
    obtain ⟨i', _, h⟩ := h2
    cases h
    exact hfg rfl

theorem stageSlots_nodup (d : Dims) (j : Nat) : (stageSlots o d j).Nodup := by
  unfold stageSlots
  have h := famSlots_flatMap_nodup d (pssFams o.pss) (pssFams_nodup _) j
  have hv : Slot.one .v j ∉ (pssFams o.pss).flatMap (fun f => famSlots d f j) := by
    simp [mem_famSlots]
  have hx : Slot.one .x j ∉ (pssFams o.pss).flatMap (fun f => famSlots d f j) := by
    simp [mem_famSlots]
  have hz : Slot.one .z j ∉ (pssFams o.pss).flatMap (fun f => famSlots d f j) := by
    simp [mem_famSlots]
  cases hr : o.irkRep <;>
    simp [List.nodup_append, h] <;> aesop

theorem feSlots_nodup (d : Dims) : (feSlots o k e d).Nodup := by
  unfold feSlots
  rw [List.nodup_append, List.nodup_append]
  refine ⟨⟨?_, ?_, ?_⟩, ?_, ?_⟩
  · rw [List.nodup_flatMap]
    refine ⟨fun j _ => stageSlots_nodup o d j, ?_⟩
    refine List.Pairwise.imp ?_ List.nodup_range
    intro i j hij s h1 h2
    rw [mem_stageSlots] at h1 h2
    aesop
  · unfold boundarySlots
    split
    · exact famSlots_flatMap_nodup d _ (pssEndFams_nodup _) _
    · simp
  · intro a ha b hb hab
    subst hab
    simp only [List.mem_flatMap, List.mem_range, mem_stageSlots] at ha
    obtain ⟨j, hj, ha⟩ := ha
    unfold boundarySlots at hb
    split at hb
    · simp only [List.mem_flatMap, mem_famSlots] at hb
      obtain ⟨f, _, i, _, rfl⟩ := hb
      rcases ha with h | h | ⟨f', _, i', _, h⟩ | h
      · cases h.2
      · cases h.2
      · cases h; omega
      · cases h
    · simp at hb
  · unfold xEndSlots; split <;> simp
  · intro a ha b hb hab
    subst hab
    unfold xEndSlots at hb
    split at hb
    · rename_i hx
      rw [List.mem_singleton] at hb
      subst hb
      rw [List.mem_append] at ha
      rcases ha with ha | ha
      · simp only [List.mem_flatMap, List.mem_range, mem_stageSlots] at ha
        obtain ⟨j, hj, ha⟩ := ha
        rcases ha with h | h | ⟨f', _, i', _, h⟩ | h
        · cases h.2
        · have := rowsX_of_xEnd o hx h.1
          have h' := h.2
          simp only [Slot.one.injEq, true_and] at h'
          omega
        · cases h
        · cases h
      · unfold boundarySlots at ha
        split at ha
        · simp [mem_famSlots] at ha
        · simp at ha
    · simp at hb

/-- The lengths the data must have for the finite elements to be created. -/
structure FEDataOk (m : PreModel) (oc : PreOcp) : Prop where
  x0 : m.x0.length = m.dims.nX
  lbx : oc.lbx.length = m.dims.nX
  ubx : oc.ubx.length = m.dims.nX
  z0 : m.z0.length = m.dims.nZ
  lbz : m.lbz.length = m.dims.nZ
  ubz : m.ubz.length = m.dims.nZ

@[simp] theorem length_blk (n : Nat) (f : Nat → Sym) : (blk n f).length = n := by simp [blk]

theorem slotCall_ok {o m oc k e} (hd : FEDataOk m oc) {s : Slot} (hs : s ∈ feSlots o k e m.dims) :
    (slotCall o m oc k e s).Ok := by
  rw [mem_feSlots] at hs
  rcases hs with ⟨j, hj, hs⟩ | ⟨hb, f, hf, i, hi, rfl⟩ | ⟨hx, rfl⟩
  · rw [mem_stageSlots] at hs
    rcases hs with ⟨hr, rfl⟩ | ⟨hr, rfl⟩ | ⟨f, hf, i, hi, rfl⟩ | rfl
    · simp [VarCall.Ok, slotCall, slotSyms, slotLb, slotUb, slotInit, hr]
    · have : (slotSyms o k e m.dims (.one .x j)).length = m.dims.nX := by
        simp only [slotSyms]; split <;> simp
      simp [VarCall.Ok, slotCall, slotLb, slotUb, slotInit, this, hd.x0, hd.lbx, hd.ubx]
    · cases hp : o.pss <;> rw [hp] at hf <;> simp [pssFams] at hf <;>
        rcases hf with rfl | rfl | rfl <;>
        simp [VarCall.Ok, slotCall, slotSyms, slotLb, slotUb, slotInit, Dims.famLen, hp]
    · simp [VarCall.Ok, slotCall, slotSyms, slotLb, slotUb, slotInit, hd.z0, hd.lbz, hd.ubz]
  · cases hp : o.pss <;> rw [hp] at hf <;> simp [pssEndFams] at hf <;>
        rcases hf with rfl | rfl <;>
        simp [VarCall.Ok, slotCall, slotSyms, slotLb, slotUb, slotInit, Dims.famLen, hp]
  · simp [VarCall.Ok, slotCall, slotSyms, slotLb, slotUb, slotInit, hx, hd.x0, hd.lbx, hd.ubx]

/-- Range of the cells of finite element `(k, e)`. -/
def slotInRange (d : Dims) : Slot → Prop
  | .one .x j => j < rowsX o
  | .one _ j => j < o.nS
  | .two .theta j s => j < o.nS ∧ s < d.nSys
  | .two .alpha j s => j < o.nS ∧ s < d.nSys
  | .two _ j s => j < o.nS + endAllowance o k e ∧ s < d.nSys

theorem blank_inRange {prev : FERef} {d : Dims} {s : Slot} :
    (FE.blank o d k e prev).inRange s ↔ slotInRange o k e d s := by
  cases s with
  | one f j => cases f <;> simp [FE.inRange, FE.blank, slotInRange]
  | two f j i => cases f <;> simp [FE.inRange, FE.blank, slotInRange]

theorem rowsX_pos (hn : 0 < o.nS) : 0 < rowsX o := by
  unfold rowsX; split
  · omega
  · split <;> omega

theorem feSlots_inRange {o k e} {d : Dims} {s : Slot} (hn : 0 < o.nS)
    (hs : s ∈ feSlots o k e d) : slotInRange o k e d s := by
  rw [mem_feSlots] at hs
  rcases hs with ⟨j, hj, hs⟩ | ⟨hb, f, hf, i, hi, rfl⟩ | ⟨hx, rfl⟩
  · rw [mem_stageSlots] at hs
    rcases hs with ⟨hr, rfl⟩ | ⟨hr, rfl⟩ | ⟨f, hf, i, hi, rfl⟩ | rfl
    · exact hj
    · simp only [slotInRange, rowsX]
      rw [if_neg hr]; split <;> omega
    · cases f <;> simp only [slotInRange] <;> omega
    · exact hj
  · cases hp : o.pss <;> rw [hp] at hf <;> simp [pssEndFams] at hf <;>
      rcases hf with rfl | rfl <;> simp [slotInRange, endAllowance, hb, hi]
  · simp only [slotInRange]
    have := rowsX_pos o hn
    omega

/-- Cells that no call fills have no symbols. -/
theorem slotSyms_unused {o k e} {d : Dims} {s : Slot} (hr : slotInRange o k e d s)
    (hs : s ∉ feSlots o k e d) : slotSyms o k e d s = [] := by
  rw [mem_feSlots] at hs
  push Not at hs
  obtain ⟨h1, h2, h3⟩ := hs
  cases s with
  | one f j =>
    cases f with
    | v =>
      have := h1 j hr
      rw [mem_stageSlots] at this
      push Not at this
      have h := this.1
      simp only [slotSyms]
      split
      · rfl
      · rename_i h'; exact absurd rfl (h h')
    | x =>
      simp only [slotInRange] at hr
      simp only [slotSyms]
      split
      · rename_i h; exact absurd (by rw [h.2]) (h3 h.1)
      split
      · rfl
      · rename_i hne hdiff
        exfalso
        by_cases hj : j < o.nS
        · have := h1 j hj
          rw [mem_stageSlots] at this
          push Not at this
          exact this.2.1 hdiff rfl
        · apply hne
          unfold rowsX at hr ⊢
          rw [if_neg hdiff] at hr ⊢
          by_cases hrb : o.rbe = true
          · simp [hrb] at hr; omega
          · simp only [Bool.not_eq_true] at hrb
            simp only [hrb] at hr ⊢
            simp at hr ⊢
            exact ⟨by simp [hasXEnd, hrb], by omega⟩
    | z =>
      have := h1 j hr
      rw [mem_stageSlots] at this
      push Not at this
      exact absurd rfl this.2.2.2
  | two f j i =>
    have key : f ∉ pssFams o.pss → d.famLen o.pss f i = 0 := by
      cases hp : o.pss <;> cases f <;> simp [pssFams, Dims.famLen]
    by_cases hf : f ∈ pssFams o.pss
    · exfalso
      have hi : i < d.nSys := by cases f <;> exact hr.2
      by_cases hj : j < o.nS
      · have := h1 j hj
        rw [mem_stageSlots] at this
        push Not at this
        exact this.2.2.1 f hf i hi rfl
      · have hb : rightBoundary o k e = true ∧ j = o.nS ∧ f ∈ pssEndFams o.pss := by
          have hea : endAllowance o k e ≤ 1 := by unfold endAllowance; split <;> omega
          have hb' : endAllowance o k e = 1 → rightBoundary o k e = true := by
            unfold endAllowance; split <;> simp_all
          cases hp : o.pss <;> rw [hp] at hf <;> cases f <;> simp [pssFams] at hf <;>
            simp only [slotInRange] at hr <;>
            first
            | (exfalso; omega)
            | exact ⟨hb' (by omega), by omega, by simp [pssEndFams]⟩
        exact h2 hb.1 f hb.2.2 i hi (by rw [hb.2.1])
    · simp [slotSyms, key hf, blk]

/-- The finite element `(k, e)` right after construction. -/
noncomputable def feInit (prev : FERef) : FE :=
  let b := FE.blank o m.dims k e prev
  { b with
    form := b.form.extend (feCalls o m oc k e)
    ind := assign b.form.w.length (feCalls o m oc k e) (fun _ => []) }

theorem FE.init_ok {prev : FERef} (hn : 0 < o.nS) (hd : FEDataOk m oc) :
    FE.init o m oc k e prev = .ok (feInit o m oc k e prev) := by
  unfold FE.init
  rw [addVars_ok]
  · rfl
  · rw [feCalls_eq]
    intro c hc
    obtain ⟨s, hs, rfl⟩ := List.mem_map.1 hc
    exact slotCall_ok hd hs
  · rw [feCalls_eq]
    intro c hc
    obtain ⟨s, hs, rfl⟩ := List.mem_map.1 hc
    exact (blank_inRange o k e).2 (feSlots_inRange hn hs)

theorem feCalls_slots : (feCalls o m oc k e).map VarCall.slot = feSlots o k e m.dims := by
  rw [feCalls_eq, List.map_map]
  conv_rhs => rw [← List.map_id (feSlots o k e m.dims)]
  rfl

/-- Reading any existing cell gives its symbols. -/
theorem feInit_gather {o m oc k e} {prev : FERef} {s : Slot} (hr : slotInRange o k e m.dims s) :
    gather (feInit o m oc k e prev).form.w ((feInit o m oc k e prev).ind s)
      = .ok (slotSyms o k e m.dims s) := by
  by_cases hs : s ∈ feSlots o k e m.dims
  · have hc : slotCall o m oc k e s ∈ feCalls o m oc k e := by
      rw [feCalls_eq]; exact List.mem_map_of_mem hs
    have := gather_assign (w := (FE.blank o m.dims k e prev).form.w)
      (cs := feCalls o m oc k e) (ind := fun _ => []) (c := slotCall o m oc k e s)
      (by rw [feCalls_slots]; exact feSlots_nodup o k e m.dims) hc
    exact this
  · have h1 : (feInit o m oc k e prev).ind s = [] := by
      simp only [feInit]
      rw [assign_not_mem]
      rw [feCalls_slots]; exact hs
    rw [h1, slotSyms_unused hr hs]
    rfl

end Nosnoc
