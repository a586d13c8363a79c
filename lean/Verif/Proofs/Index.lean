import Verif.Proofs.Feas
import Verif.Spec.Index
/-
Helper lemmas: the index lists of the built problem.
-/
namespace Nosnoc
section
variable {o : PreOpts} {m : PreModel} {oc : PreOcp} {um : UserModel} {uo : UserOcp}

theorem execs_indBool (cs : List Cmd) (fe : FE) :
    (cs.foldl (execFE o) fe).indBool.flatten
      = fe.indBool.flatten ++ List.range' fe.form.w.length (seqNV o cs) := by
  induction cs generalizing fe with
  | nil => simp [seqNV]
  | cons c cs ih =>
    rw [List.foldl_cons, ih]
    have hlen : (execFE o fe c).form.w.length = fe.form.w.length + cmdNV o c := by
      simp [execFE, execForm, length_cmdVars]
    rw [hlen]
    have hb : (cmdBoolIdx o fe.form.w.length c).flatten
        = List.range' fe.form.w.length (cmdNV o c) := by
      cases c with
      | compl xs y => simp only [cmdBoolIdx, cmdNV]; split <;> simp
      | _ => rfl
    simp only [execFE, List.flatten_append, hb, seqNV, List.map_cons, List.sum_cons,
      List.append_assoc, List.range'_append_1]

/-- All cells of the index lists of element `(k, e)`. -/
noncomputable def allSlots (o : PreOpts) (d : Dims) (k e : Nat) : List Slot :=
  [Fam1.v, .x, .z].flatMap (fun f => (List.range ((FE.blank o d k e .zero).rows1 f)).map (.one f))
  ++ [Fam2.theta, .lam, .mu, .alpha, .lamN, .lamP].flatMap fun f =>
      (List.range ((FE.blank o d k e .zero).rows2 f)).flatMap fun j =>
        (List.range d.nSys).map (.two f j)

theorem mem_allSlots {d : Dims} {k e : Nat} {s : Slot} :
    s ∈ allSlots o d k e ↔ slotInRange o k e d s := by
  rw [← blank_inRange (prev := .zero)]
  have hn : (FE.blank o d k e .zero).nSys = d.nSys := rfl
  cases s with
  | one f j => cases f <;> simp [allSlots, FE.inRange]
  | two f j i => cases f <;> simp [allSlots, FE.inRange, hn]

theorem allSlots_nodup (d : Dims) (k e : Nat) : (allSlots o d k e).Nodup := by
  unfold allSlots
  rw [List.nodup_append]
  refine ⟨?_, ?_, ?_⟩
  · rw [List.nodup_flatMap]
    refine ⟨fun f _ => List.Nodup.map (fun a b h => by cases h; rfl) List.nodup_range, ?_⟩
    refine List.Pairwise.imp ?_ (show List.Nodup [Fam1.v, .x, .z] by decide)
    intro f g hfg s h1 h2
    simp only [List.mem_map] at h1 h2
    obtain ⟨_, _, rfl⟩ := h1
    obtain ⟨_, _, h⟩ := h2
    cases h
    exact hfg rfl
  · rw [List.nodup_flatMap]
    constructor
    · intro f _
      rw [List.nodup_flatMap]
      refine ⟨fun j _ => List.Nodup.map (fun a b h => by cases h; rfl) List.nodup_range, ?_⟩
      refine List.Pairwise.imp ?_ List.nodup_range
      intro i j hij s h1 h2
      simp only [List.mem_map] at h1 h2
      obtain ⟨_, _, rfl⟩ := h1
      obtain ⟨_, _, h⟩ := h2
      cases h
      exact hij rfl
    · refine List.Pairwise.imp ?_
        (show List.Nodup [Fam2.theta, .lam, .mu, .alpha, .lamN, .lamP] by decide)
      intro f g hfg s h1 h2
      simp only [List.mem_flatMap, List.mem_map] at h1 h2
      obtain ⟨_, _, _, _, rfl⟩ := h1
      obtain ⟨_, _, _, _, h⟩ := h2
      cases h
      exact hfg rfl
  · intro a ha b hb hab
    subst hab
    simp only [List.mem_flatMap, List.mem_map] at ha hb
    obtain ⟨_, _, _, _, rfl⟩ := ha
    obtain ⟨_, _, _, _, _, _, h⟩ := hb
    cases h

theorem flatMap_map_add {α : Type} (l : List α) (f : α → List Nat) (n : Nat) :
    l.flatMap (fun a => (f a).map (· + n)) = (l.flatMap f).map (· + n) := by
  induction l with
  | nil => rfl
  | cons a l ih => simp [ih]

theorem range'_map_add (a b n : Nat) : (List.range' a b).map (· + n) = List.range' (n + a) b := by
  rw [List.range'_eq_map_range, List.map_map, List.range'_eq_map_range]
  apply List.map_congr_left
  intro i _
  simp only [Function.comp]
  omega

/-- The index lists of one processed element cover exactly its variables. -/
theorem feDone_all_perm (hn : 0 < o.nS) (hx : FEDataOk m oc) (hf : FunsOk o m oc)
    (ha : NoAugSum o) (k e n : Nat) :
    ((feDone o m oc k e).idxAt n).all.Perm
      (List.range' n (feDone o m oc k e).form.w.length) := by
  have hE := feDone_facts hx hf ha k e
  have hslots : [Fam1.v, .x, .z].flatMap (fun f =>
        (((feDone o m oc k e).idxAt n).one f).flatten)
      ++ [Fam2.theta, .lam, .mu, .alpha, .lamN, .lamP].flatMap (fun f =>
        (((feDone o m oc k e).idxAt n).two f).flatten.flatten)
      = ((allSlots o m.dims k e).flatMap (feOf o m oc k e).ind).map (· + n) := by
    have hr1 : (feDone o m oc k e).rows1 = (FE.blank o m.dims k e .zero).rows1 := hE.rows1
    have hr2 : (feDone o m oc k e).rows2 = (FE.blank o m.dims k e .zero).rows2 := hE.rows2
    have hns : (feDone o m oc k e).nSys = m.dims.nSys := hE.nSys
    have hind : (feDone o m oc k e).ind = (feOf o m oc k e).ind := hE.ind
    unfold allSlots FE.idxAt
    simp only [hr1, hr2, hns, hind]
    simp only [List.flatMap_cons, List.flatMap_nil, List.flatMap_append, List.map_append,
      List.append_nil]
    have e1 : ∀ f N, ((List.range N).map fun j =>
        ((feOf o m oc k e).ind (Slot.one f j)).map (· + n)).flatten
        = (((List.range N).map (Slot.one f)).flatMap (feOf o m oc k e).ind).map (· + n) := by
      intro f N
      rw [← List.flatMap_def, flatMap_map_add, List.flatMap_map]
    have e2 : ∀ f N, (((List.range N).map fun j => (List.range m.dims.nSys).map fun s =>
        ((feOf o m oc k e).ind (Slot.two f j s)).map (· + n)).flatten).flatten
        = ((((List.range N).flatMap fun j => (List.range m.dims.nSys).map (Slot.two f j))).flatMap
          (feOf o m oc k e).ind).map (· + n) := by
      intro f N
      rw [← List.flatMap_def, List.flatMap_assoc, ← flatMap_map_add]
      induction N with
      | zero => rfl
      | succ N ih =>
        rw [List.range_succ, List.flatMap_append, List.flatMap_append, List.flatten_append, ih]
        congr 1
        simp only [List.flatMap_cons, List.flatMap_nil, List.append_nil]
        rw [← List.flatMap_def, flatMap_map_add, List.flatMap_map]
    simp only [e1, e2, List.append_assoc]
  have hperm : ((allSlots o m.dims k e).flatMap (feOf o m oc k e).ind).Perm
      (List.range' (FE.blank o m.dims k e .zero).form.w.length
        ((feSlots o k e m.dims).flatMap (slotSyms o k e m.dims)).length) := by
    have := assign_perm (off := (FE.blank o m.dims k e .zero).form.w.length)
      (cs := feCalls o m oc k e) (L := allSlots o m.dims k e)
      (by rw [feCalls_slots]; exact feSlots_nodup o k e m.dims) (allSlots_nodup _ _ _)
      (fun c hc => mem_allSlots.2 (feSlots_inRange hn (by
        rw [← feCalls_slots o m oc k e]; exact List.mem_map_of_mem hc)))
    have hl : (feCalls o m oc k e).flatMap VarCall.syms
        = (feSlots o k e m.dims).flatMap (slotSyms o k e m.dims) := by
      rw [feCalls_eq, List.flatMap_map]
      rfl
    rw [hl] at this
    exact this
  have hw0 : (feOf o m oc k e).form.w.length = (FE.blank o m.dims k e .zero).form.w.length
      + ((feSlots o k e m.dims).flatMap (slotSyms o k e m.dims)).length := by
    show ((FE.blank o m.dims k e (prevRef o k e)).form.w
      ++ (feCalls o m oc k e).flatMap VarCall.syms).length = _
    rw [feCalls_eq, List.flatMap_map, List.length_append]
    rfl
  have hh : ((feDone o m oc k e).idxAt n).h
      = List.range' n (FE.blank o m.dims k e .zero).form.w.length := by
    show (feDone o m oc k e).indH.map (· + n) = _
    rw [hE.indH]
    show (FE.blank o m.dims k e .zero).indH.map (· + n) = _
    unfold FE.blank
    by_cases h : o.useFesd = true <;> simp [h, Form.empty]
  have hb : ((feDone o m oc k e).idxAt n).bool.flatten
      = List.range' (n + (feOf o m oc k e).form.w.length) (seqNV o (feCmds o m oc k e)) := by
    show ((feDone o m oc k e).indBool.map (List.map (· + n))).flatten = _
    rw [← List.map_flatten]
    have : (feDone o m oc k e).indBool.flatten = _ := execs_indBool (feCmds o m oc k e) _
    rw [this]
    have h0 : (feOf o m oc k e).indBool = [] := rfl
    rw [h0, List.flatten_nil, List.nil_append, range'_map_add]
  have hlen : (feDone o m oc k e).form.w.length
      = (feOf o m oc k e).form.w.length + seqNV o (feCmds o m oc k e) := by
    rw [hE.w]; simp [seqVars]
  unfold FEIdx.all
  rw [List.append_assoc _ _ (List.flatMap _ _), hslots, hh, hb, hlen]
  have h3 : List.range' n ((feOf o m oc k e).form.w.length + seqNV o (feCmds o m oc k e))
      = List.range' n (FE.blank o m.dims k e .zero).form.w.length
        ++ List.range' (n + (FE.blank o m.dims k e .zero).form.w.length)
          ((feSlots o k e m.dims).flatMap (slotSyms o k e m.dims)).length
        ++ List.range' (n + (feOf o m oc k e).form.w.length) (seqNV o (feCmds o m oc k e)) := by
    rw [List.range'_append_1, ← hw0, List.range'_append_1]
  rw [h3]
  refine List.Perm.append_right _ (List.Perm.append_left _ ?_)
  rw [← range'_map_add]
  exact hperm.map _

theorem collectIdx_perm {fes : List FE}
    (h : ∀ fe ∈ fes, ∀ n, (fe.idxAt n).all.Perm (List.range' n fe.form.w.length)) (n : Nat) :
    ((collectIdx n fes).flatMap FEIdx.all).Perm
      (List.range' n (fes.flatMap fun fe => fe.form.w).length) := by
  induction fes generalizing n with
  | nil => simp [collectIdx]
  | cons fe fes ih =>
    simp only [collectIdx, List.flatMap_cons, List.length_append]
    rw [← List.range'_append_1]
    exact (h fe (by simp) n).append (ih (fun fe' h' => h fe' (by simp [h'])) _)

theorem collectIdxs_perm {sts : List (List FE)}
    (h : ∀ st ∈ sts, ∀ fe ∈ st, ∀ n, (fe.idxAt n).all.Perm (List.range' n fe.form.w.length))
    (n : Nat) :
    ((collectIdxs n sts).flatten.flatMap FEIdx.all).Perm
      (List.range' n (sts.flatten.flatMap fun fe => fe.form.w).length) := by
  induction sts generalizing n with
  | nil => simp [collectIdxs]
  | cons st sts ih =>
    simp only [collectIdxs, List.flatten_cons, List.flatMap_append, List.length_append]
    rw [← List.range'_append_1]
    exact (collectIdx_perm (h st (by simp)) n).append (ih (fun st' h' => h st' (by simp [h'])) _)

theorem mem_doneFEs {st : List FE} (h : st ∈ (List.range o.nStages).map (doneFEs o m oc)) :
    ∀ fe ∈ st, ∃ k e, FEIn o k e ∧ fe = feDone o m oc k e := by
  intro fe hfe
  obtain ⟨k, hk, rfl⟩ := List.mem_map.1 h
  obtain ⟨e, he, rfl⟩ := List.mem_map.1 hfe
  exact ⟨k, e, ⟨List.mem_range.1 hk, List.mem_range.1 he⟩, rfl⟩

/-- Position of the variables of element `(k, e)`. -/
theorem collectIdx_get {fes : List FE} {n e : Nat} {fe : FE} (h : fes[e]? = some fe) :
    ∃ pre post, fes.flatMap (fun fe => fe.form.w) = pre ++ fe.form.w ++ post ∧
      (collectIdx n fes)[e]? = some (fe.idxAt (n + pre.length)) := by
  induction fes generalizing n e with
  | nil => simp at h
  | cons fe' fes ih =>
    cases e with
    | zero =>
      simp only [List.getElem?_cons_zero, Option.some.injEq] at h
      subst h
      exact ⟨[], fes.flatMap (fun fe => fe.form.w), by simp, by simp [collectIdx]⟩
    | succ e =>
      rw [List.getElem?_cons_succ] at h
      obtain ⟨pre, post, h1, h2⟩ := ih (n := n + fe'.form.w.length) h
      refine ⟨fe'.form.w ++ pre, post, by simp [h1], ?_⟩
      rw [collectIdx, List.getElem?_cons_succ, h2, List.length_append, Nat.add_assoc]

theorem collectIdxs_get {sts : List (List FE)} {n k e : Nat} {st : List FE} {fe : FE}
    (hk : sts[k]? = some st) (he : st[e]? = some fe) :
    ∃ pre post row, sts.flatten.flatMap (fun fe => fe.form.w) = pre ++ fe.form.w ++ post ∧
      (collectIdxs n sts)[k]? = some row ∧ row[e]? = some (fe.idxAt (n + pre.length)) := by
  induction sts generalizing n k with
  | nil => simp at hk
  | cons st' sts ih =>
    cases k with
    | zero =>
      simp only [List.getElem?_cons_zero, Option.some.injEq] at hk
      subst hk
      obtain ⟨pre, post, h1, h2⟩ := collectIdx_get (n := n) he
      exact ⟨pre, post ++ sts.flatten.flatMap (fun fe => fe.form.w), _, by simp [h1],
        by simp [collectIdxs], h2⟩
    | succ k =>
      rw [List.getElem?_cons_succ] at hk
      obtain ⟨pre, post, row, h1, h2, h3⟩ :=
        ih (n := n + (st'.flatMap fun fe => fe.form.w).length) hk
      refine ⟨(st'.flatMap fun fe => fe.form.w) ++ pre, post, row, by simp [h1], ?_, ?_⟩
      · rw [collectIdxs, List.getElem?_cons_succ, h2]
      · rw [h3, List.length_append, Nat.add_assoc]

theorem gather_shift {w pre post : List Sym} {idx : List Nat} {s : List Sym}
    (h : gather w idx = .ok s) :
    gather (pre ++ w ++ post) (idx.map (· + pre.length)) = .ok s := by
  rw [gather_eq_ok] at *
  rw [List.forall₂_map_left_iff]
  refine h.imp fun i a hi => ?_
  obtain ⟨hlt, hv⟩ := List.getElem?_eq_some_iff.1 hi
  rw [List.append_assoc, List.getElem?_append_right (by omega),
    show i + pre.length - pre.length = i by omega, List.getElem?_append_left hlt]
  exact hi

/-- The index lists of element `(k, e)` and its variables inside `w`. -/
theorem idx_get {k e : Nat} (h : FEIn o k e) (n : Nat) :
    ∃ pre post row, (allFE o).flatMap (fun q => (feDone o m oc q.1 q.2).form.w)
        = pre ++ (feDone o m oc k e).form.w ++ post ∧
      (collectIdxs n ((List.range o.nStages).map (doneFEs o m oc)))[k]? = some row ∧
      row[e]? = some ((feDone o m oc k e).idxAt (n + pre.length)) := by
  have hk : ((List.range o.nStages).map (doneFEs o m oc))[k]? = some (doneFEs o m oc k) := by
    simp [h.1]
  have he : (doneFEs o m oc k)[e]? = some (feDone o m oc k e) := by simp [doneFEs, h.2]
  obtain ⟨pre, post, row, h1, h2, h3⟩ := collectIdxs_get (n := n) hk he
  refine ⟨pre, post, row, ?_, h2, h3⟩
  rw [← h1]
  have := allDone_flatten (o := o) (m := m) (oc := oc)
  have h4 : ((List.range o.nStages).map (doneFEs o m oc)).flatten
      = (allFE o).map fun q => feDone o m oc q.1 q.2 := this
  rw [h4, List.flatMap_map]

end
end Nosnoc
