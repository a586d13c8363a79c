import Verif.Proofs.Feas
import Verif.Spec.Feasible
/-
Helper lemmas: which symbols are variables of the problem.
-/
namespace Nosnoc
section
variable {o : PreOpts} {m : PreModel} {oc : PreOcp} {um : UserModel} {uo : UserOcp}

/-- Variables of element `(k, e)` before the complementarities are created. -/
theorem feOf_w (k e : Nat) : (feOf o m oc k e).form.w
    = (if o.useFesd then [.h k e] else [])
      ++ (feSlots o k e m.dims).flatMap (slotSyms o k e m.dims) := by
  show (FE.blank o m.dims k e (prevRef o k e)).form.w
      ++ (feCalls o m oc k e).flatMap VarCall.syms = _
  rw [feCalls_eq, List.flatMap_map]
  unfold FE.blank
  by_cases h : o.useFesd = true <;> simp [h, Form.empty, slotCall]

theorem mem_blk {n : Nat} {f : Nat → Sym} {s : Sym} : s ∈ blk n f ↔ ∃ i < n, f i = s := by
  simp [blk]

theorem isVar_of_feOf {k e : Nat} (hk : HasFE o k e) {s : Sym}
    (hs : s ∈ (feOf o m oc k e).form.w) : IsVar o m.dims s := by
  rw [feOf_w] at hs
  rcases List.mem_append.1 hs with hs | hs
  · split at hs
    · rename_i hu
      rw [List.mem_singleton] at hs
      subst hs
      exact ⟨hu, hk⟩
    · cases hs
  obtain ⟨sl, hsl, hs⟩ := List.mem_flatMap.1 hs
  have hlam : ∀ {j : Nat}, j < o.nS → j < nLamPts o k e := fun hj => by
    unfold nLamPts; omega
  rw [mem_feSlots] at hsl
  rcases hsl with ⟨j, hj, hsl⟩ | ⟨hb, f, hf, i, hi, rfl⟩ | ⟨hx, rfl⟩
  · rw [mem_stageSlots] at hsl
    rcases hsl with ⟨hr, rfl⟩ | ⟨hr, rfl⟩ | ⟨f, hf, i, hi, rfl⟩ | rfl
    · simp only [slotSyms, if_neg hr] at hs
      obtain ⟨i, hi, rfl⟩ := mem_blk.1 hs
      exact ⟨hr, hk, hj, hi⟩
    · simp only [slotSyms, if_neg hr] at hs
      split at hs
      · rename_i h
        obtain ⟨i, hi, rfl⟩ := mem_blk.1 hs
        exact ⟨h.1, hk, hi⟩
      · obtain ⟨i, hi, rfl⟩ := mem_blk.1 hs
        exact ⟨hr, hk, hj, hi⟩
    · simp only [slotSyms] at hs
      obtain ⟨i', hi', rfl⟩ := mem_blk.1 hs
      cases hp : o.pss <;> rw [hp] at hf <;> simp only [pssFams, List.mem_cons, List.not_mem_nil,
        or_false] at hf <;> rcases hf with rfl | rfl | rfl <;>
        simp only [Dims.famLen, hp] at hi' <;> simp only [IsVar, hp, true_and]
      · exact ⟨hk, hj, hi, hi'⟩
      · exact ⟨hk, hlam hj, hi, hi'⟩
      · exact ⟨hk, hlam hj, hi, by omega⟩
      · exact ⟨hk, hj, hi, hi'⟩
      · exact ⟨hk, hlam hj, hi, hi'⟩
      · exact ⟨hk, hlam hj, hi, hi'⟩
    · simp only [slotSyms] at hs
      obtain ⟨i, hi, rfl⟩ := mem_blk.1 hs
      exact ⟨hk, hj, hi⟩
  · simp only [slotSyms] at hs
    obtain ⟨i', hi', rfl⟩ := mem_blk.1 hs
    have hl : o.nS < nLamPts o k e := by
      unfold nLamPts; rw [extraPt_eq]; unfold endAllowance; rw [if_pos hb]; omega
    cases hp : o.pss <;> rw [hp] at hf <;> simp only [pssEndFams, List.mem_cons, List.not_mem_nil,
      or_false] at hf <;> rcases hf with rfl | rfl <;>
      simp only [Dims.famLen, hp] at hi' <;> simp only [IsVar, hp, true_and]
    · exact ⟨hk, hl, hi, hi'⟩
    · exact ⟨hk, hl, hi, by omega⟩
    · exact ⟨hk, hl, hi, hi'⟩
    · exact ⟨hk, hl, hi, hi'⟩
  · simp only [slotSyms, hx, true_and, if_true] at hs
    obtain ⟨i, hi, rfl⟩ := mem_blk.1 hs
    exact ⟨hx, hk, hi⟩

theorem feOf_slot {k e : Nat} {sl : Slot} {s : Sym} (h1 : sl ∈ feSlots o k e m.dims)
    (h2 : s ∈ slotSyms o k e m.dims sl) : s ∈ (feOf o m oc k e).form.w := by
  rw [feOf_w]
  exact List.mem_append.2 (.inr (List.mem_flatMap.2 ⟨sl, h1, h2⟩))

theorem slot_two {k e j i : Nat} {f : Fam2} (hf : f ∈ pssFams o.pss) (hi : i < m.dims.nSys)
    (hj : j < o.nS ∨ f ∈ pssEndFams o.pss ∧ j < nLamPts o k e) :
    Slot.two f j i ∈ feSlots o k e m.dims := by
  rw [mem_feSlots]
  by_cases h : j < o.nS
  · exact .inl ⟨j, h, (mem_stageSlots o).2 (.inr (.inr (.inl ⟨f, hf, i, hi, rfl⟩)))⟩
  · rcases hj with hj | ⟨hf', hj⟩
    · exact absurd hj h
    · unfold nLamPts at hj
      rw [extraPt_eq] at hj
      unfold endAllowance at hj
      by_cases hb : rightBoundary o k e = true
      · rw [if_pos hb] at hj
        obtain rfl : j = o.nS := by omega
        exact .inr (.inl ⟨hb, f, hf', i, hi, rfl⟩)
      · rw [if_neg hb] at hj
        omega

/-- Elementwise variables. -/
theorem mem_feOf {s : Sym} (hs : IsVar o m.dims s) :
    (∃ k e, HasFE o k e ∧ s ∈ (feOf o m oc k e).form.w) ∨ s ∈ (primalOf o m oc).form.w := by
  have hprim : (primalOf o m oc).form.w
      = globSyms o m.dims ++ (List.range o.nStages).flatMap (headSyms o m.dims) := rfl
  cases s with
  | sElastic =>
    right
    rw [hprim, List.mem_append]; left
    unfold globSyms isElastic
    simp only [IsVar] at hs
    rcases hs with hs | hs | hs <;> simp [hs]
  | vGlob i =>
    right
    rw [hprim, List.mem_append]; left
    exact List.mem_append.2 (.inr (mem_blk.2 ⟨i, hs, rfl⟩))
  | u k i =>
    right
    rw [hprim, List.mem_append]; right
    exact List.mem_flatMap.2 ⟨k, List.mem_range.2 hs.1,
      List.mem_append.2 (.inl (mem_blk.2 ⟨i, hs.2, rfl⟩))⟩
  | sot k =>
    right
    rw [hprim, List.mem_append]; right
    exact List.mem_flatMap.2 ⟨k, List.mem_range.2 hs.2,
      List.mem_append.2 (.inr (by simp [hs.1]))⟩
  | h k e =>
    left
    refine ⟨k, e, hs.2, ?_⟩
    rw [feOf_w]
    simp [hs.1]
  | st1 f k e j i =>
    left
    cases f with
    | v =>
      obtain ⟨hr, hk, hj, hi⟩ := hs
      refine ⟨k, e, hk, feOf_slot (sl := .one .v j) ?_ ?_⟩
      · exact (mem_feSlots o k e).2 (.inl ⟨j, hj, (mem_stageSlots o).2 (.inl ⟨hr, rfl⟩)⟩)
      · simp only [slotSyms, if_neg hr]; exact mem_blk.2 ⟨i, hi, rfl⟩
    | x =>
      obtain ⟨hr, hk, hj, hi⟩ := hs
      refine ⟨k, e, hk, feOf_slot (sl := .one .x j) ?_ ?_⟩
      · exact (mem_feSlots o k e).2 (.inl ⟨j, hj, (mem_stageSlots o).2 (.inr (.inl ⟨hr, rfl⟩))⟩)
      · simp only [slotSyms, if_neg hr]
        rw [if_neg]
        · exact mem_blk.2 ⟨i, hi, rfl⟩
        · rintro ⟨hx, rfl⟩
          have := rowsX_of_xEnd o hx hr
          omega
    | z =>
      obtain ⟨hk, hj, hi⟩ := hs
      refine ⟨k, e, hk, feOf_slot (sl := .one .z j) ?_ (mem_blk.2 ⟨i, hi, rfl⟩)⟩
      exact (mem_feSlots o k e).2 (.inl ⟨j, hj, (mem_stageSlots o).2 (.inr (.inr (.inr rfl)))⟩)
  | xEnd k e i =>
    left
    obtain ⟨hx, hk, hi⟩ := hs
    rw [ownEnd_eq] at hx
    refine ⟨k, e, hk, feOf_slot (sl := .one .x (rowsX o - 1)) ?_ ?_⟩
    · exact (mem_feSlots o k e).2 (.inr (.inr ⟨hx, rfl⟩))
    · simp only [slotSyms, hx, true_and, if_true]; exact mem_blk.2 ⟨i, hi, rfl⟩
  | st2 f k e j s i =>
    left
    cases f with
    | theta =>
      obtain ⟨hp, hk, hj, hs, hi⟩ := hs
      exact ⟨k, e, hk, feOf_slot (sl := .two .theta j s)
        (slot_two (by simp [pssFams, hp]) hs (.inl hj))
        (mem_blk.2 ⟨i, by simpa [Dims.famLen, hp] using hi, rfl⟩)⟩
    | lam =>
      obtain ⟨hp, hk, hj, hs, hi⟩ := hs
      exact ⟨k, e, hk, feOf_slot (sl := .two .lam j s)
        (slot_two (by simp [pssFams, hp]) hs (.inr ⟨by simp [pssEndFams, hp], hj⟩))
        (mem_blk.2 ⟨i, by simpa [Dims.famLen, hp] using hi, rfl⟩)⟩
    | mu =>
      obtain ⟨hp, hk, hj, hs, hi⟩ := hs
      exact ⟨k, e, hk, feOf_slot (sl := .two .mu j s)
        (slot_two (by simp [pssFams, hp]) hs (.inr ⟨by simp [pssEndFams, hp], hj⟩))
        (mem_blk.2 ⟨i, by simp [Dims.famLen, hp, hi], rfl⟩)⟩
    | alpha =>
      obtain ⟨hp, hk, hj, hs, hi⟩ := hs
      exact ⟨k, e, hk, feOf_slot (sl := .two .alpha j s)
        (slot_two (by simp [pssFams, hp]) hs (.inl hj))
        (mem_blk.2 ⟨i, by simpa [Dims.famLen, hp] using hi, rfl⟩)⟩
    | lamN =>
      obtain ⟨hp, hk, hj, hs, hi⟩ := hs
      exact ⟨k, e, hk, feOf_slot (sl := .two .lamN j s)
        (slot_two (by simp [pssFams, hp]) hs (.inr ⟨by simp [pssEndFams, hp], hj⟩))
        (mem_blk.2 ⟨i, by simpa [Dims.famLen, hp] using hi, rfl⟩)⟩
    | lamP =>
      obtain ⟨hp, hk, hj, hs, hi⟩ := hs
      exact ⟨k, e, hk, feOf_slot (sl := .two .lamP j s)
        (slot_two (by simp [pssFams, hp]) hs (.inr ⟨by simp [pssEndFams, hp], hj⟩))
        (mem_blk.2 ⟨i, by simpa [Dims.famLen, hp] using hi, rfl⟩)⟩
  | _ => exact hs.elim

theorem mem_form5_of_isVar (hx : FEDataOk m oc) (hf : FunsOk o m oc) (ha : NoAugSum o) {s : Sym}
    (hs : IsVar o m.dims s) : s ∈ (form5 o m oc).w := by
  rcases mem_feOf (oc := oc) hs with ⟨k, e, hk, h⟩ | h
  · refine mem_w_of_fe (k := k) (e := e) hk ?_
    rw [(feDone_facts hx hf ha k e).w]
    exact List.mem_append.2 (.inl h)
  · rw [form5_w, List.append_assoc]
    exact List.mem_append.2 (.inl h)

theorem isVar_of_primal {s : Sym} (hs : s ∈ (primalOf o m oc).form.w) : IsVar o m.dims s := by
  have hprim : (primalOf o m oc).form.w
      = globSyms o m.dims ++ (List.range o.nStages).flatMap (headSyms o m.dims) := rfl
  rw [hprim] at hs
  rcases List.mem_append.1 hs with hs | hs
  · rcases List.mem_append.1 hs with hs | hs
    · split at hs
      · rename_i he
        rw [List.mem_singleton] at hs
        subst hs
        unfold isElastic at he
        simp only [IsVar]
        cases hm : o.mpcc <;> rw [hm] at he <;> simp_all
      · cases hs
    · obtain ⟨i, hi, rfl⟩ := mem_blk.1 hs
      exact hi
  · obtain ⟨k, hk, hs⟩ := List.mem_flatMap.1 hs
    rcases List.mem_append.1 hs with hs | hs
    · obtain ⟨i, hi, rfl⟩ := mem_blk.1 hs
      exact ⟨List.mem_range.1 hk, hi⟩
    · split at hs
      · rename_i h
        rw [List.mem_singleton] at hs
        subst hs
        exact ⟨h, List.mem_range.1 hk⟩
      · cases hs

theorem seqVars_nil (hb : o.mpcc ≠ .boolean) {bs : Nat → Sym} {pos : Nat} {cs : List Cmd} :
    seqVars o bs pos cs = [] := by
  have h0 : seqNV o cs = 0 := by
    unfold seqNV
    apply List.sum_eq_zero
    intro n hn
    obtain ⟨c, _, rfl⟩ := List.mem_map.1 hn
    cases c <;> simp [cmdNV, hb]
  simp [seqVars, h0]

theorem isVar_of_form5 (hx : FEDataOk m oc) (hf : FunsOk o m oc) (ha : NoAugSum o) {s : Sym}
    (hs : s ∈ (form5 o m oc).w) : IsVar o m.dims s ∨ o.mpcc = .boolean ∧ IsBoolSym s := by
  rw [form5_w] at hs
  rcases List.mem_append.1 hs with hs | hs
  · rcases List.mem_append.1 hs with hs | hs
    · exact .inl (isVar_of_primal hs)
    · right
      unfold globBools at hs
      rw [cmdVars_eq] at hs
      obtain ⟨i, hi, rfl⟩ := List.mem_map.1 hs
      refine ⟨?_, trivial⟩
      by_contra hb
      simp [globC, cmdNV, hb] at hi
  · obtain ⟨q, hq, hs⟩ := List.mem_flatMap.1 hs
    rw [(feDone_facts hx hf ha q.1 q.2).w] at hs
    rcases List.mem_append.1 hs with hs | hs
    · exact .inl (isVar_of_feOf (mem_allFE.1 hq) hs)
    · right
      by_cases hb : o.mpcc = .boolean
      · obtain ⟨i, hi, rfl⟩ := List.mem_map.1 hs
        exact ⟨hb, trivial⟩
      · rw [seqVars_nil hb] at hs
        cases hs

end
end Nosnoc
