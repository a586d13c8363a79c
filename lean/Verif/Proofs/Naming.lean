import Verif.Proofs.Index
import Verif.Proofs.WMem
import Verif.Spec.Naming
import Verif.Spec.Setup
import Verif.Proofs.Master
/-
Helper lemmas: the index lists name the documented variables, cover `w` exactly once, and `w` has no
duplicates.
-/
namespace Nosnoc
section
variable {o : PreOpts} {m : PreModel} {oc : PreOcp}

theorem Names.of_gather {w : List Sym} {ix : List Nat} {s : List Sym} (h : gather w ix = .ok s) :
    Names w ix s := gather_eq_ok.1 h

theorem feDone_names {w pre post : List Sym} (hx : FEDataOk m oc) (hf : FunsOk o m oc)
    (ha : NoAugSum o) {k e : Nat} (hw : w = pre ++ (feDone o m oc k e).form.w ++ post) {s : Slot}
    (hs : slotInRange o k e m.dims s) :
    Names w (((feDone o m oc k e).ind s).map (· + pre.length)) (slotSyms o k e m.dims s) := by
  subst hw
  have hE := feDone_facts hx hf ha k e
  apply Names.of_gather
  apply gather_shift
  rw [hE.w, hE.ind]
  apply gather_mono
  exact feInit_gather hs

theorem forall₂_range {α β : Type} {R : α → β → Prop} {n : Nat} {f : Nat → α} {g : Nat → β}
    (h : ∀ i < n, R (f i) (g i)) : List.Forall₂ R ((List.range n).map f) ((List.range n).map g) := by
  rw [List.forall₂_map_left_iff, List.forall₂_map_right_iff, List.forall₂_same]
  intro i hi
  exact h i (List.mem_range.1 hi)

theorem xRows_eq (d : Dims) (k e : Nat) :
    xRows o d k e = (List.range (rowsX o)).map fun j => slotSyms o k e d (.one .x j) := by
  unfold xRows
  rw [ownEnd_eq]
  simp only [slotSyms]
  by_cases hd : o.irkRep = .differential
  · have h1 : hasXEnd o = true := by simp [hasXEnd, hd]
    simp [hd, h1, rowsX]
  · by_cases hb : o.rbe = true
    · have h1 : hasXEnd o = false := by simp [hasXEnd, hd, hb]
      simp [hd, h1, rowsX, hb]
    · have h1 : hasXEnd o = true := by simp [hasXEnd, hb]
      simp only [Bool.not_eq_true] at hb
      simp only [hd, h1, rowsX, hb, if_false, if_true, true_and]
      simp only [Bool.false_eq_true, if_false, Nat.add_sub_cancel]
      simp only [List.range_succ, List.map_append, List.map_cons, List.map_nil, if_true]
      congr 1
      apply List.map_congr_left
      intro j hj
      rw [if_neg]
      have := List.mem_range.1 hj
      omega

theorem fe_names {w pre post : List Sym} (hn : 0 < o.nS) (hx : FEDataOk m oc)
    (hf : FunsOk o m oc) (ha : NoAugSum o) {k e : Nat}
    (hw : w = pre ++ (feDone o m oc k e).form.w ++ post) :
    FENames o m.dims w k e ((feDone o m oc k e).idxAt pre.length) := by
  have hE := feDone_facts hx hf ha k e
  have h := fun {s} (hs : slotInRange o k e m.dims s) => feDone_names hx hf ha hw hs
  have hr1 : (feDone o m oc k e).rows1 = (FE.blank o m.dims k e .zero).rows1 := hE.rows1
  have hr2 : (feDone o m oc k e).rows2 = (FE.blank o m.dims k e .zero).rows2 := hE.rows2
  have hns : (feDone o m oc k e).nSys = m.dims.nSys := hE.nSys
  have hl : nLamPts o k e = o.nS + endAllowance o k e := by rw [nLamPts, extraPt_eq]
  have two : ∀ f pts len, pts = rows2Of o k e f →
      (∀ s, len s = m.dims.famLen o.pss f s) →
      List.Forall₂ (List.Forall₂ (Names w)) (((feDone o m oc k e).idxAt pre.length).two f)
        (famRows m.dims pts len f k e) := by
    intro f pts len hp hlen
    subst hp
    have : (feDone o m oc k e).rows2 f = rows2Of o k e f := by rw [hr2]; cases f <;> rfl
    unfold FE.idxAt famRows
    simp only [this, hns]
    refine forall₂_range fun j hj => forall₂_range fun s hs => ?_
    have := h (s := .two f j s) (slotInRange_two.2 ⟨hj, hs⟩)
    simp only [slotSyms, ← hlen] at this
    exact this
  constructor
  · show Names w ((feDone o m oc k e).indH.map (· + pre.length)) _
    rw [hE.indH]
    apply Names.of_gather
    rw [hw]
    apply gather_shift
    rw [hE.w]
    apply gather_mono
    rw [feOf_w]
    show gather _ (FE.blank o m.dims k e .zero).indH = _
    unfold FE.blank
    by_cases hu : o.useFesd = true
    · simp only [hu, if_true]; rfl
    · simp only [hu]; rfl
  · unfold FE.idxAt vRows
    simp only [hr1]
    exact forall₂_range fun j hj => h (s := .one .v j) hj
  · rw [xRows_eq]
    unfold FE.idxAt
    simp only [hr1]
    exact forall₂_range fun j hj => h (s := .one .x j) hj
  · unfold FE.idxAt zRows
    simp only [hr1]
    exact forall₂_range fun j hj => h (s := .one .z j) hj
  · unfold FE.idxAt
    simp only [hr1]
    have hp := rowsX_pos o hn
    have h1 := h (s := .one .x (rowsX o - 1)) (by simp only [slotInRange]; omega)
    have h2 : slotSyms o k e m.dims (.one .x (rowsX o - 1)) = blk m.dims.nX (endX o k e) := by
      unfold slotSyms
      by_cases hx : hasXEnd o = true
      · have : endX o k e = .xEnd k e := by funext i; simp [endX, ownEnd_eq, hx]
        simp [hx, this]
      · have hx' : hasXEnd o = false := by simpa using hx
        have : endX o k e = .st1 .x k e (o.nS - 1) := by funext i; simp [endX, ownEnd_eq, hx']
        simp only [hasXEnd, Bool.or_eq_false_iff, Bool.not_eq_false', decide_eq_false_iff_not] at hx'
        simp [hx, this, hx'.2, rowsX, hx'.1]
    rw [h2] at h1
    exact h1
  · exact two _ _ _ rfl fun s => by cases o.pss <;> simp [Dims.famLen]
  · exact two _ _ _ hl fun s => by cases o.pss <;> simp [Dims.famLen]
  · exact two _ _ _ hl fun s => by cases o.pss <;> simp [Dims.famLen]
  · exact two _ _ _ rfl fun s => by cases o.pss <;> simp [Dims.famLen]
  · exact two _ _ _ hl fun s => by cases o.pss <;> simp [Dims.famLen]
  · exact two _ _ _ hl fun s => by cases o.pss <;> simp [Dims.famLen]

theorem collectIdx_rel {β : Type} {w : List Sym} {R : β → FEIdx → Prop} {fes : List FE} {es : List β}
    (h : List.Forall₂ (fun fe b => ∀ pre post, w = pre ++ fe.form.w ++ post →
      R b (fe.idxAt pre.length)) fes es) :
    ∀ pre post, w = pre ++ fes.flatMap (fun fe => fe.form.w) ++ post →
      List.Forall₂ (fun fi b => R b fi) (collectIdx pre.length fes) es := by
  induction h with
  | nil => intro _ _ _; exact .nil
  | @cons fe b fes es h1 _ ih =>
    intro pre post hw
    refine .cons (h1 pre (fes.flatMap (fun fe => fe.form.w) ++ post) (by simp [hw])) ?_
    have := ih (pre ++ fe.form.w) post (by simp [hw])
    rwa [List.length_append] at this

theorem collectIdxs_rel {β : Type} {w : List Sym} {R : β → List FEIdx → Prop}
    {sts : List (List FE)} {bs : List β}
    (h : List.Forall₂ (fun st b => ∀ pre post,
      w = pre ++ st.flatMap (fun fe => fe.form.w) ++ post →
      R b (collectIdx pre.length st)) sts bs) :
    ∀ pre post, w = pre ++ sts.flatten.flatMap (fun fe => fe.form.w) ++ post →
      List.Forall₂ (fun row b => R b row) (collectIdxs pre.length sts) bs := by
  induction h with
  | nil => intro _ _ _; exact .nil
  | @cons st b sts bs h1 _ ih =>
    intro pre post hw
    refine .cons (h1 pre (sts.flatten.flatMap (fun fe => fe.form.w) ++ post) (by simp [hw])) ?_
    have := ih (pre ++ st.flatMap fun fe => fe.form.w) post (by simp [hw])
    rwa [List.length_append] at this

theorem lsqForm_w (f : Form) : (lsqForm o f).w = f.w := by unfold lsqForm; split <;> rfl

theorem allDone_flatten' :
    ((List.range o.nStages).map (doneFEs o m oc)).flatten.flatMap (fun fe => fe.form.w)
      = (allFE o).flatMap fun q => (feDone o m oc q.1 q.2).form.w := by
  have h4 : ((List.range o.nStages).map (doneFEs o m oc)).flatten
      = (allFE o).map fun q => feDone o m oc q.1 q.2 := allDone_flatten
  rw [h4, List.flatMap_map]

theorem gather_range' {a b c : List Sym} :
    Names (a ++ b ++ c) (List.range' a.length b.length) b := by
  unfold Names
  rw [List.forall₂_iff_get]
  refine ⟨by simp, ?_⟩
  intro i h1 h2
  simp only [List.length_range'] at h1
  simp only [List.get_eq_getElem, List.getElem_range', Nat.one_mul]
  rw [List.append_assoc, List.getElem?_append_right (by omega), Nat.add_sub_cancel_left,
    List.getElem?_append_left h1, List.getElem?_eq_getElem h1]

theorem names_range' {w a b c : List Sym} {i n : Nat} (hw : w = a ++ b ++ c) (hi : i = a.length)
    (hn : n = b.length) : Names w (List.range' i n) b := by
  subst hw hi hn
  exact gather_range'

theorem flatMap_head_split (d : Dims) {k : Nat} (hk : k < o.nStages) :
    ∃ post, (List.range o.nStages).flatMap (headSyms o d)
      = (List.range k).flatMap (headSyms o d) ++ headSyms o d k ++ post := by
  obtain ⟨n, hn⟩ := Nat.exists_eq_add_of_lt hk
  refine ⟨(List.range' (k + 1) n).flatMap (headSyms o d), ?_⟩
  have : List.range o.nStages = List.range k ++ [k] ++ List.range' (k + 1) n := by
    rw [← List.range_succ, List.range_eq_range', List.range_eq_range', hn]
    have := List.range'_append_1 (s := 0) (m := k + 1) (n := n)
    rw [Nat.zero_add] at this
    rw [this]
    congr 1; omega
  rw [this]
  simp

/-- The index lists of the built problem name the documented variables. -/
theorem problemOf_names (hn : 0 < o.nS) (hx : FEDataOk m oc) (hf : FunsOk o m oc)
    (ha : NoAugSum o) (triv : Bool) : IndexSpec o m.dims (problemOf o m oc triv) := by
  have hw : (problemOf o m oc triv).form.w = (form4 o m oc).w
      ++ (allFE o).flatMap fun q => (feDone o m oc q.1 q.2).form.w := by
    show (lsqForm o (form5 o m oc)).w = _
    rw [lsqForm_w, form5_w, form4_w]
  have hp : (primalOf o m oc).form.w
      = globSyms o m.dims ++ (List.range o.nStages).flatMap (headSyms o m.dims) := rfl
  have hw' : ∃ post, (problemOf o m oc triv).form.w
      = globSyms o m.dims ++ (List.range o.nStages).flatMap (headSyms o m.dims) ++ post :=
    ⟨_, by rw [hw, form4_w, hp]; simp only [List.append_assoc]; rfl⟩
  obtain ⟨post, hw'⟩ := hw'
  have hgl : (globSyms o m.dims).length = nEl o + m.dims.nV := by
    unfold globSyms nEl; split <;> simp [Dims.mV, Nat.add_comm]
  refine ⟨?_, ?_, ?_, ?_, ?_⟩
  · show List.Forall₂ _ (if isElastic o.mpcc then [[0]] else []) _
    have hel : (isElastic o.mpcc = true) ↔
        (o.mpcc = .elasticIneq ∨ o.mpcc = .elasticEq ∨ o.mpcc = .elasticTwoSided) := by
      cases o.mpcc <;> simp [isElastic]
    by_cases he : isElastic o.mpcc = true
    · rw [if_pos he, if_pos (hel.1 he)]
      refine .cons ?_ .nil
      exact names_range' (a := []) (b := [.sElastic]) (i := 0) (n := 1)
        (c := m.dims.mV ++ ((List.range o.nStages).flatMap (headSyms o m.dims) ++ post))
        (by rw [hw']; simp [globSyms, he]) rfl rfl
    · rw [if_neg he, if_neg (fun h => he (hel.2 h))]
      exact .nil
  · refine .cons ?_ .nil
    refine names_range' (a := if isElastic o.mpcc then [.sElastic] else []) (b := m.dims.mV)
      (c := (List.range o.nStages).flatMap (headSyms o m.dims) ++ post)
      (by rw [hw']; simp [globSyms]) ?_ (by simp [Dims.mV])
    unfold nEl; split <;> rfl
  · show List.Forall₂ _ ((List.range o.nStages).map fun k =>
      List.range' ((globForm o m.dims oc).w.length + k * headLen o m.dims) m.dims.nU) _
    refine forall₂_range fun k hk => ?_
    obtain ⟨p2, hp2⟩ := flatMap_head_split (o := o) m.dims hk
    refine names_range' (a := globSyms o m.dims ++ (List.range k).flatMap (headSyms o m.dims))
      (b := blk m.dims.nU (.u k)) (c := (if o.sot = .local then [.sot k] else []) ++ p2 ++ post)
      ?_ ?_ (by simp)
    · rw [hw', hp2]; simp [headSyms]
    · rw [List.length_append, length_flatMap_head]; rfl
  · show List.Forall₂ _ (if o.sot = .local then (List.range o.nStages).map fun k =>
      List.range' ((globForm o m.dims oc).w.length + k * headLen o m.dims + m.dims.nU) 1 else []) _
    by_cases hs : o.sot = .local
    · rw [if_pos hs, if_pos hs]
      refine forall₂_range fun k hk => ?_
      obtain ⟨p2, hp2⟩ := flatMap_head_split (o := o) m.dims hk
      refine names_range' (a := globSyms o m.dims ++ (List.range k).flatMap (headSyms o m.dims)
        ++ blk m.dims.nU (.u k)) (b := [.sot k]) (c := p2 ++ post) ?_ ?_ rfl
      · rw [hw', hp2]; simp [headSyms, hs]
      · rw [List.length_append, List.length_append, length_flatMap_head, length_blk]; rfl
    · rw [if_neg hs, if_neg hs]; exact .nil
  · show List.Forall₂ _ (collectIdxs (form4 o m oc).w.length _) _
    refine collectIdxs_rel (w := (problemOf o m oc triv).form.w)
      (R := fun k row => List.Forall₂ (fun fi e => FENames o m.dims (problemOf o m oc triv).form.w
        k e fi) row (List.range (nfe o k))) (sts := (List.range o.nStages).map (doneFEs o m oc))
      ?_ (form4 o m oc).w [] (by rw [List.append_nil, allDone_flatten']; exact hw)
    rw [List.forall₂_map_left_iff, List.forall₂_same]
    intro k _ pre post hpp
    refine collectIdx_rel (w := (problemOf o m oc triv).form.w)
      (R := fun e fi => FENames o m.dims (problemOf o m oc triv).form.w k e fi) ?_ pre post hpp
    unfold doneFEs
    rw [List.forall₂_map_left_iff, List.forall₂_same]
    intro e _ pre' post' hpp'
    exact fe_names hn hx hf ha hpp'

/-! ### The index lists cover `w` -/

theorem heads_perm (n : Nat) (hl hu : Nat) (K : Nat) (loc : Bool)
    (h : hl = hu + (if loc then 1 else 0)) :
    (((List.range K).map fun k => List.range' (n + k * hl) hu).flatten
      ++ (if loc then (List.range K).map fun k => List.range' (n + k * hl + hu) 1 else []).flatten).Perm
      (List.range' n (K * hl)) := by
  subst h
  cases loc with
  | false =>
    simp only [Bool.false_eq_true, if_false, List.flatten_nil, List.append_nil, Nat.add_zero]
    induction K with
    | zero => simp
    | succ K ih =>
      rw [List.range_succ, List.map_append, List.flatten_append, Nat.succ_mul,
        ← List.range'_append_1]
      exact ih.append (by simp)
  | true =>
    simp only [if_true]
    induction K with
    | zero => simp
    | succ K ih =>
      rw [List.range_succ, List.map_append, List.flatten_append, List.map_append,
        List.flatten_append, Nat.succ_mul, ← List.range'_append_1]
      simp only [List.map_cons, List.map_nil, List.flatten_cons, List.flatten_nil, List.append_nil]
      refine List.Perm.trans ?_ (ih.append_right _)
      rw [← List.range'_append_1 (m := hu) (n := 1)]
      rw [List.append_assoc, List.append_assoc]
      refine List.Perm.append_left _ ?_
      rw [← List.append_assoc, ← List.append_assoc]
      exact List.Perm.append_right _ List.perm_append_comm

theorem problemOf_perm (hn : 0 < o.nS) (hx : FEDataOk m oc) (hf : FunsOk o m oc)
    (ha : NoAugSum o) (triv : Bool) :
    (problemOf o m oc triv).allIndices.Perm
      (List.range (problemOf o m oc triv).form.w.length) := by
  have hw : (problemOf o m oc triv).form.w = (form4 o m oc).w
      ++ (allFE o).flatMap fun q => (feDone o m oc q.1 q.2).form.w := by
    show (lsqForm o (form5 o m oc)).w = _
    rw [lsqForm_w, form5_w, form4_w]
  have hgl : (globForm o m.dims oc).w.length = nEl o + m.dims.nV := by
    show (globSyms o m.dims).length = _
    unfold globSyms nEl; split <;> simp [Dims.mV, Nat.add_comm]
  have hp : (primalOf o m oc).form.w.length
      = nEl o + m.dims.nV + o.nStages * headLen o m.dims := by
    show (globSyms o m.dims ++ (List.range o.nStages).flatMap (headSyms o m.dims)).length = _
    rw [List.length_append, length_flatMap_head]
    rw [← hgl]; rfl
  have h0 : (form0 o m oc).w.length = nEl o + m.dims.nV + o.nStages * headLen o m.dims := by
    unfold form0; rw [Form.addBs_w, hp]
  unfold Problem.allIndices
  rw [hw, List.length_append, form4_w, List.length_append, hp, List.range_eq_range',
    ← List.range'_append_1, ← List.range'_append_1, ← List.range'_append_1, ← List.range'_append_1]
  simp only [Nat.zero_add]
  refine List.Perm.append (List.Perm.append ?_ ?_) ?_
  · rw [List.append_assoc]
    refine List.Perm.append ?_ ?_
    · refine List.Perm.append ?_ ?_
      · show (if isElastic o.mpcc then [[0]] else []).flatten.Perm _
        unfold nEl
        split <;> simp
      · show [List.range' (nEl o) m.dims.nV].flatten.Perm _
        simp
    · have := heads_perm (nEl o + m.dims.nV) (headLen o m.dims) m.dims.nU o.nStages
        (decide (o.sot = .local)) (by unfold headLen; simp)
      simp only [decide_eq_true_eq] at this
      show (((List.range o.nStages).map fun k => List.range'
        ((globForm o m.dims oc).w.length + k * headLen o m.dims) m.dims.nU).flatten ++
        (if o.sot = .local then (List.range o.nStages).map fun k => List.range'
          ((globForm o m.dims oc).w.length + k * headLen o m.dims + m.dims.nU) 1 else []).flatten).Perm _
      rw [hgl]
      exact this
  · show (if o.mpcc = .boolean then [List.range' (form0 o m oc).w.length
      oc.gGlobalFun.2.outs.length] else []).flatten.Perm _
    rw [h0]
    unfold globBools
    rw [length_cmdVars]
    unfold globC cmdNV
    by_cases hb : o.mpcc = .boolean
    · rw [if_pos hb]
      simp only [hb, if_true, List.flatten_cons, List.flatten_nil, List.append_nil]
      apply List.Perm.of_eq
      congr 1
      simp [CFun.app]
    · simp [hb]
  · show ((collectIdxs (form4 o m oc).w.length
      ((List.range o.nStages).map (doneFEs o m oc))).flatten.flatMap FEIdx.all).Perm _
    refine List.Perm.trans (collectIdxs_perm ?_ _) ?_
    · intro st hst fe hfe n
      obtain ⟨k, e, _, rfl⟩ := mem_doneFEs hst fe hfe
      exact feDone_all_perm hn hx hf ha k e n
    · rw [allDone_flatten', form4_w, List.length_append, hp]

/-! ### No variable occurs twice -/

/-- The cell a variable of an element is stored in. -/
def symSlot (o : PreOpts) : Sym → Slot
  | .st1 f _ _ j _ => .one f j
  | .st2 f _ _ j s _ => .two f j s
  | _ => .one .x (rowsX o - 1)

/-- The element a variable belongs to. -/
def symFE : Sym → Option (Nat × Nat)
  | .h k e => some (k, e)
  | .st1 _ k e _ _ => some (k, e)
  | .st2 _ k e _ _ _ => some (k, e)
  | .xEnd k e _ => some (k, e)
  | .boolFe k e _ => some (k, e)
  | _ => none

theorem blk_nodup {n : Nat} {f : Nat → Sym} (h : Function.Injective f) : (blk n f).Nodup :=
  List.Nodup.map h List.nodup_range

theorem slotSyms_nodup (d : Dims) (k e : Nat) (sl : Slot) : (slotSyms o k e d sl).Nodup := by
  cases sl with
  | one f j =>
    cases f <;> simp only [slotSyms] <;> (repeat' split) <;>
      first
      | exact List.nodup_nil
      | exact blk_nodup fun a b h => by cases h; rfl
  | two f j s => exact blk_nodup fun a b h => by cases h; rfl

theorem symSlot_eq {d : Dims} {k e : Nat} {sl : Slot} {s : Sym} (h : s ∈ slotSyms o k e d sl) :
    symSlot o s = sl ∧ symFE s = some (k, e) ∧ ∀ a b, s ≠ .h a b ∧ ∀ c, s ≠ .boolFe a b c := by
  cases sl with
  | one f j =>
    cases f <;> simp only [slotSyms] at h <;> (repeat' split at h) <;>
      first
      | (cases h; done)
      | (obtain ⟨i, _, rfl⟩ := mem_blk.1 h; exact ⟨rfl, rfl, by simp⟩)
      | (rename_i h'; obtain ⟨i, _, rfl⟩ := mem_blk.1 h; exact ⟨by simp [symSlot, h'.2], rfl, by simp⟩)
  | two f j s' => obtain ⟨i, _, rfl⟩ := mem_blk.1 h; exact ⟨rfl, rfl, by simp⟩

theorem feDone_w_nodup (hx : FEDataOk m oc) (hf : FunsOk o m oc) (ha : NoAugSum o) (k e : Nat) :
    (feDone o m oc k e).form.w.Nodup ∧ ∀ s ∈ (feDone o m oc k e).form.w, symFE s = some (k, e) := by
  rw [(feDone_facts hx hf ha k e).w, feOf_w]
  have hb : (seqVars o (Sym.boolFe (feOf o m oc k e).k (feOf o m oc k e).e)
      (feOf o m oc k e).form.w.length (feCmds o m oc k e)).Nodup :=
    List.Nodup.map (fun a b h => by cases h; rfl) List.nodup_range'
  constructor
  · rw [List.nodup_append]
    refine ⟨?_, ?_, ?_⟩
    · rw [List.nodup_append]
      refine ⟨by split <;> simp, ?_, ?_⟩
      · rw [List.nodup_flatMap]
        refine ⟨fun sl _ => slotSyms_nodup _ _ _ _, ?_⟩
        refine List.Pairwise.imp ?_ (feSlots_nodup o k e m.dims)
        intro a b hab s h1 h2
        exact hab ((symSlot_eq h1).1.symm.trans (symSlot_eq h2).1)
      · intro a h1 b h2 hab
        subst hab
        split at h1
        · rw [List.mem_singleton] at h1
          obtain ⟨sl, _, h2⟩ := List.mem_flatMap.1 h2
          exact ((symSlot_eq h2).2.2 k e).1 h1
        · cases h1
    · rw [← feOf_w (m := m) (oc := oc)]; exact hb
    · intro a h1 b h2 hab
      subst hab
      obtain ⟨i, _, rfl⟩ := List.mem_map.1 h2
      rcases List.mem_append.1 h1 with h1 | h1
      · split at h1 <;> simp at h1
      · obtain ⟨sl, _, h1⟩ := List.mem_flatMap.1 h1
        exact ((symSlot_eq h1).2.2 _ _).2 _ rfl
  · intro s hs
    rcases List.mem_append.1 hs with hs | hs
    · rcases List.mem_append.1 hs with hs | hs
      · split at hs
        · rw [List.mem_singleton] at hs; subst hs; rfl
        · cases hs
      · obtain ⟨sl, _, hs⟩ := List.mem_flatMap.1 hs
        exact (symSlot_eq hs).2.1
    · obtain ⟨i, _, rfl⟩ := List.mem_map.1 hs
      rfl

theorem allFE_nodup : (allFE o).Nodup := by
  unfold allFE
  rw [List.nodup_flatMap]
  refine ⟨fun k _ => List.Nodup.map (fun a b h => by cases h; rfl) List.nodup_range, ?_⟩
  refine List.Pairwise.imp ?_ List.nodup_range
  intro a b hab q h1 h2
  obtain ⟨_, _, rfl⟩ := List.mem_map.1 h1
  obtain ⟨_, _, h⟩ := List.mem_map.1 h2
  cases h
  exact hab rfl

theorem form5_w_nodup (hx : FEDataOk m oc) (hf : FunsOk o m oc) (ha : NoAugSum o) :
    (form5 o m oc).w.Nodup := by
  rw [form5_w]
  have hp : (primalOf o m oc).form.w
      = globSyms o m.dims ++ (List.range o.nStages).flatMap (headSyms o m.dims) := rfl
  have hhead : ∀ k s, s ∈ headSyms o m.dims k → (∃ i, s = .u k i) ∨ s = .sot k := by
    intro k s hs
    rcases List.mem_append.1 hs with hs | hs
    · obtain ⟨i, _, rfl⟩ := mem_blk.1 hs; exact .inl ⟨i, rfl⟩
    · split at hs
      · rw [List.mem_singleton] at hs; exact .inr hs
      · cases hs
  have hglob : ∀ s ∈ globSyms o m.dims, s = .sElastic ∨ ∃ i, s = .vGlob i := by
    intro s hs
    rcases List.mem_append.1 hs with hs | hs
    · split at hs
      · rw [List.mem_singleton] at hs; exact .inl hs
      · cases hs
    · obtain ⟨i, _, rfl⟩ := mem_blk.1 hs; exact .inr ⟨i, rfl⟩
  have hgb : ∀ s ∈ globBools o m oc, ∃ i, s = .boolGlob i := by
    intro s hs
    unfold globBools at hs
    rw [cmdVars_eq] at hs
    obtain ⟨i, _, rfl⟩ := List.mem_map.1 hs
    exact ⟨i, rfl⟩
  rw [List.nodup_append]
  refine ⟨?_, ?_, ?_⟩
  · rw [List.nodup_append]
    refine ⟨?_, ?_, ?_⟩
    · rw [hp, List.nodup_append]
      refine ⟨?_, ?_, ?_⟩
      · unfold globSyms
        rw [List.nodup_append]
        refine ⟨by split <;> simp, blk_nodup fun a b h => by cases h; rfl, ?_⟩
        intro a h1 b h2 hab
        subst hab
        obtain ⟨i, _, rfl⟩ := mem_blk.1 h2
        split at h1 <;> simp at h1
      · rw [List.nodup_flatMap]
        constructor
        · intro k _
          unfold headSyms
          rw [List.nodup_append]
          refine ⟨blk_nodup fun a b h => by cases h; rfl, by split <;> simp, ?_⟩
          intro a h1 b h2 hab
          subst hab
          obtain ⟨i, _, rfl⟩ := mem_blk.1 h1
          split at h2 <;> simp at h2
        · refine List.Pairwise.imp ?_ List.nodup_range
          intro a b hab s h1 h2
          rcases hhead a s h1 with ⟨i, rfl⟩ | rfl <;> rcases hhead b _ h2 with ⟨j, h⟩ | h <;>
            cases h <;> exact hab rfl
      · intro a h1 b h2 hab
        subst hab
        obtain ⟨k, _, h2⟩ := List.mem_flatMap.1 h2
        rcases hglob a h1 with rfl | ⟨i, rfl⟩ <;> rcases hhead k _ h2 with ⟨j, h⟩ | h <;> cases h
    · unfold globBools
      rw [cmdVars_eq]
      exact List.Nodup.map (fun a b h => by cases h; rfl) List.nodup_range'
    · intro a h1 b h2 hab
      subst hab
      obtain ⟨i, rfl⟩ := hgb a h2
      rw [hp] at h1
      rcases List.mem_append.1 h1 with h1 | h1
      · rcases hglob _ h1 with h | ⟨_, h⟩ <;> cases h
      · obtain ⟨k, _, h1⟩ := List.mem_flatMap.1 h1
        rcases hhead k _ h1 with ⟨j, h⟩ | h <;> cases h
  · rw [List.nodup_flatMap]
    refine ⟨fun q _ => (feDone_w_nodup hx hf ha q.1 q.2).1, ?_⟩
    refine List.Pairwise.imp ?_ allFE_nodup
    intro a b hab s h1 h2
    have e1 := (feDone_w_nodup hx hf ha a.1 a.2).2 s h1
    have e2 := (feDone_w_nodup hx hf ha b.1 b.2).2 s h2
    rw [e1] at e2
    exact hab (Option.some.inj e2)
  · intro a h1 b h2 hab
    subst hab
    obtain ⟨q, _, h2⟩ := List.mem_flatMap.1 h2
    have e2 := (feDone_w_nodup hx hf ha q.1 q.2).2 a h2
    rcases List.mem_append.1 h1 with h1 | h1
    · rw [hp] at h1
      rcases List.mem_append.1 h1 with h1 | h1
      · rcases hglob _ h1 with rfl | ⟨_, rfl⟩ <;> cases e2
      · obtain ⟨k, _, h1⟩ := List.mem_flatMap.1 h1
        rcases hhead k _ h1 with ⟨j, rfl⟩ | rfl <;> cases e2
    · obtain ⟨i, rfl⟩ := hgb a h1
      cases e2

end
end Nosnoc
