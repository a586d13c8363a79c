import Verif.Proofs.Sat
import Verif.Spec.Doc
/-
Helper lemmas: the variables of the problem with their bounds and guesses, per symbol.
-/
namespace Nosnoc

/-- Bounds and guesses are those of the documentation `doc`. -/
def DocL (doc : Sym → VarDoc) (w : List Sym) (lb ub : List EReal) (w0 : List ℝ) : Prop :=
  lb = w.map (fun s => (doc s).lb) ∧ ub = w.map (fun s => (doc s).ub) ∧
    w0 = w.map (fun s => (doc s).init)

section
variable {doc : Sym → VarDoc}

theorem DocL.nil : DocL doc [] [] [] [] := ⟨rfl, rfl, rfl⟩

theorem DocL.append {w w' lb lb' ub ub' w0 w0'} (h : DocL doc w lb ub w0)
    (h' : DocL doc w' lb' ub' w0') :
    DocL doc (w ++ w') (lb ++ lb') (ub ++ ub') (w0 ++ w0') := by
  obtain ⟨rfl, rfl, rfl⟩ := h
  obtain ⟨rfl, rfl, rfl⟩ := h'
  simp [DocL]

theorem DocL.flatMap {α : Type} {l : List α} {w : α → List Sym} {lb ub : α → List EReal}
    {w0 : α → List ℝ} (h : ∀ a ∈ l, DocL doc (w a) (lb a) (ub a) (w0 a)) :
    DocL doc (l.flatMap w) (l.flatMap lb) (l.flatMap ub) (l.flatMap w0) := by
  induction l with
  | nil => exact DocL.nil
  | cons a l ih =>
    simp only [List.flatMap_cons]
    exact (h a (by simp)).append (ih fun b hb => h b (by simp [hb]))

theorem docL_blk {n : Nat} {f : Nat → Sym} {lb ub : List EReal} {w0 : List ℝ}
    (h1 : lb = (List.range n).map fun i => (doc (f i)).lb)
    (h2 : ub = (List.range n).map fun i => (doc (f i)).ub)
    (h3 : w0 = (List.range n).map fun i => (doc (f i)).init) : DocL doc (blk n f) lb ub w0 := by
  subst h1 h2 h3
  simp [DocL, blk]

theorem docL_single {s : Sym} : DocL doc [s] [(doc s).lb] [(doc s).ub] [(doc s).init] :=
  ⟨rfl, rfl, rfl⟩

end

theorem range_getD {α : Type} {l : List α} {n : Nat} {d : α} (h : l.length = n) :
    l = (List.range n).map (fun i => l.getD i d) := by
  subst h
  apply List.ext_getElem
  · simp
  · intro i h1 h2
    simp [h1]

theorem orDefault_map {α : Type} {given : Option (List α)} {n : Nat} {d : α} {l : List α}
    (h : orDefault given n d = .ok l) : l = (List.range n).map (getOr given d) := by
  have hl := orDefault_length h
  rw [orDefault_eq_ok] at h
  rw [h.2]
  cases given with
  | none =>
    show List.replicate n d = (List.range n).map (fun _ => d)
    simp [List.map_const']
  | some g => exact range_getD (h.1 g rfl)

theorem orDefaultE_map {α : Type} {given : Option (List α)} {n : Nat} {d : α} {l : List α}
    (h : orDefaultE given n d = .ok l) : l = (List.range n).map (getOr given d) := by
  have hl := orDefaultE_length h
  rw [orDefaultE_eq_ok] at h
  rw [h.2]
  cases given with
  | none =>
    show List.replicate n d = (List.range n).map (fun _ => d)
    simp [List.map_const']
  | some g => exact range_getD (h.1 g rfl)

theorem replicate_eq_map {α : Type} (n : Nat) (a : α) :
    List.replicate n a = (List.range n).map fun _ => a := by
  simp [List.map_const']

section
variable {um : UserModel} {o : PreOpts} {m : PreModel} {uo : UserOcp} {oc : PreOcp}

/-- The resolved data in terms of what the user passed. -/
structure UData (um : UserModel) (uo : UserOcp) (o : PreOpts) (m : PreModel) (oc : PreOcp) :
    Prop where
  nX : m.dims.nX = um.nX
  nU : m.dims.nU = um.nU
  nZ : m.dims.nZ = um.nZ
  nV : m.dims.nV = um.nV
  nSys : m.dims.nSys = um.nSys
  nPtv : m.dims.nPtv = um.nPtv
  nPgl : m.dims.nPgl = um.nPgl
  lbx : oc.lbx = (List.range m.dims.nX).map (getOr uo.lbx ⊥)
  ubx : oc.ubx = (List.range m.dims.nX).map (getOr uo.ubx ⊤)
  lbu : oc.lbu = (List.range m.dims.nU).map (getOr uo.lbu ⊥)
  ubu : oc.ubu = (List.range m.dims.nU).map (getOr uo.ubu ⊤)
  uGuess : oc.uGuess = (List.range m.dims.nU).map (getOr uo.uGuess 0)
  lbv : oc.lbv = (List.range m.dims.nV).map (getOr uo.lbv ⊥)
  ubv : oc.ubv = (List.range m.dims.nV).map (getOr uo.ubv ⊤)
  vGuess : oc.vGuess = (List.range m.dims.nV).map (getOr uo.vGuess 0)
  lbz : m.lbz = (List.range m.dims.nZ).map (getOr um.lbz ⊥)
  ubz : m.ubz = (List.range m.dims.nZ).map (getOr um.ubz ⊤)
  z0 : m.z0 = (List.range m.dims.nZ).map (getOr um.z0 0)
  lbg : oc.lbg = (List.range uo.nGPath).map (getOr uo.lbg 0)
  ubg : oc.ubg = (List.range uo.nGPath).map (getOr uo.ubg 0)
  x0 : m.x0 = um.x0
  nF : o.pss = .stewart → ∀ s < um.nSys, m.dims.nF s = (um.Fmat s).nCols
  nC : o.pss = .step → ∀ s < um.nSys, m.dims.nC s = (um.cVec s).len

theorem nFsys_eq {nF : List Nat} {pss : PssMode} (h : um.nFsys pss = .ok nF) {F : List UMat}
    (hF : um.F = some F) : nF = F.map UMat.nCols := by
  unfold UserModel.nFsys at h
  rw [hF] at h
  simp only [bind_eq_ok, check_eq_ok] at h
  obtain ⟨_, _, h⟩ := h
  by_cases hg : um.gStewartTruthy = true
  · simp only [hg, if_true, bind_eq_ok] at h
    obtain ⟨_, _, _, _, h⟩ := h
    injection h with h; exact h.symm
  · simp only [hg] at h
    split at h
    · simp at *
    · split at h
      · simp only [bind_eq_ok] at h
        obtain ⟨_, _, _, _, h⟩ := h
        injection h with h; exact h.symm
      · cases h

theorem Pre.udata {nC nF : List Nat} {g up : List Vec} {f0 : Vec} {acc : DcsAcc}
    (h : Pre um o m nC nF g up f0 acc) (ho : OcpPre uo m oc) : UData um uo o m oc where
  nX := by rw [h.dims]; rfl
  nU := by rw [h.dims]; rfl
  nZ := by rw [h.dims]; rfl
  nV := by rw [h.dims]; rfl
  nSys := by rw [h.dims]; rfl
  nPtv := by rw [h.dims]; rfl
  nPgl := by rw [h.dims]; rfl
  lbx := orDefault_map ho.lbx
  ubx := orDefault_map ho.ubx
  lbu := orDefault_map ho.lbu
  ubu := orDefault_map ho.ubu
  uGuess := orDefault_map ho.uGuess
  lbv := orDefaultE_map ho.lbv
  ubv := orDefaultE_map ho.ubv
  vGuess := orDefaultE_map ho.vGuess
  lbz := by
    have : m.dims.nZ = um.nZ := by rw [h.dims]; rfl
    rw [this]; exact orDefault_map h.lbz
  ubz := by
    have : m.dims.nZ = um.nZ := by rw [h.dims]; rfl
    rw [this]; exact orDefault_map h.ubz
  z0 := by
    have : m.dims.nZ = um.nZ := by rw [h.dims]; rfl
    rw [this]; exact orDefault_map h.z0
  lbg := orDefault_map ho.lbg
  ubg := orDefault_map ho.ubg
  x0 := h.x0
  nF := by
    intro hp s hs
    exact ((h.stewartAcc hp).1 s hs).cols.symm
  nC := by
    intro hp s hs
    exact ((h.stepAcc hp).1 s hs).cLen.symm

theorem lbDual_eq (mode : MpccMode) : lbDual mode = dualLb mode := by
  cases mode <;> simp [lbDual, dualLb]

theorem nominalH_eq (k : Nat) : h0Of o k = nominalH o k := rfl

/-- The documentation of one cell. -/
theorem slot_doc (hd : UData um uo o m oc) (hx : m.x0.length = m.dims.nX) {k e : Nat} {s : Slot}
    (hs : s ∈ feSlots o k e m.dims) :
    DocL (varDoc o um uo) (slotSyms o k e m.dims s) (slotLb o m oc s) (slotUb o m oc s)
      (slotInit o m s) := by
  have hx0 : m.x0 = (List.range m.dims.nX).map fun i => um.x0.getD i 0 := by
    rw [← hd.x0]; exact range_getD hx
  have hnF : o.pss = .stewart → ∀ s < m.dims.nSys, m.dims.nF s = (um.Fmat s).nCols := by
    rw [hd.nSys]; exact hd.nF
  rw [mem_feSlots] at hs
  rcases hs with ⟨j, hj, hs⟩ | ⟨hb, f, hf, i, hi, rfl⟩ | ⟨hx, rfl⟩
  · rw [mem_stageSlots] at hs
    rcases hs with ⟨hr, rfl⟩ | ⟨hr, rfl⟩ | ⟨f, hf, i, hi, rfl⟩ | rfl
    · simp only [slotSyms, if_neg hr]
      exact docL_blk (replicate_eq_map _ _) (replicate_eq_map _ _) (replicate_eq_map _ _)
    · have : ¬ (hasXEnd o = true ∧ j = rowsX o - 1) := by
        rintro ⟨h1, h2⟩
        have := rowsX_of_xEnd o h1 hr
        omega
      simp only [slotSyms, if_neg hr, if_neg this]
      exact docL_blk hd.lbx hd.ubx hx0
    · cases hp : o.pss <;> rw [hp] at hf <;> simp [pssFams] at hf <;>
        rcases hf with rfl | rfl | rfl <;>
        refine docL_blk ?_ ?_ ?_ <;>
        simp [slotLb, slotUb, slotInit, Dims.famLen, hp, varDoc, lbDual_eq, List.map_const'] <;>
        rw [hnF hp i hi] <;> exact Or.inr rfl
    · exact docL_blk hd.lbz hd.ubz hd.z0
  · cases hp : o.pss <;> rw [hp] at hf <;> simp [pssEndFams] at hf <;>
      rcases hf with rfl | rfl <;>
      refine docL_blk ?_ ?_ ?_ <;>
      simp [slotLb, slotUb, slotInit, Dims.famLen, hp, varDoc, lbDual_eq, List.map_const']
    · rw [hnF hp i hi]; exact Or.inr rfl
  · simp only [slotSyms, hx, true_and, if_true]
    exact docL_blk hd.lbx hd.ubx hx0

theorem docL_bools {bs : Nat → Sym} (h : ∀ i, varDoc o um uo (bs i) = ⟨0, 1, 1 / 2⟩)
    (pos n : Nat) :
    DocL (varDoc o um uo) ((List.range' pos n).map bs) (List.replicate n 0) (List.replicate n 1)
      (List.replicate n (1 / 2)) := by
  refine ⟨?_, ?_, ?_⟩ <;> simp [List.map_map, Function.comp_def, h, List.map_const']

theorem feDone_doc (hd : UData um uo o m oc) (hx : FEDataOk m oc) (hf : FunsOk o m oc)
    (ha : NoAugSum o) (k e : Nat) :
    DocL (varDoc o um uo) (feDone o m oc k e).form.w (feDone o m oc k e).form.lbw
      (feDone o m oc k e).form.ubw (feDone o m oc k e).form.w0 := by
  have hE := feDone_facts hx hf ha k e
  rw [hE.w, hE.lbw, hE.ubw, hE.w0]
  refine DocL.append ?_ (docL_bools (fun i => rfl) _ _)
  show DocL _ (Form.extend _ _).w (Form.extend _ _).lbw (Form.extend _ _).ubw (Form.extend _ _).w0
  simp only [Form.extend, feCalls_eq o m oc k e, List.flatMap_map]
  refine DocL.append ?_ (DocL.flatMap fun s hs => slot_doc hd hx.x0 hs)
  unfold FE.blank
  by_cases hu : o.useFesd = true
  · simp only [hu, if_true]; exact docL_single
  · simp only [hu]; exact DocL.nil

theorem glob_doc (hd : UData um uo o m oc) :
    DocL (varDoc o um uo) (globForm o m.dims oc).w (globForm o m.dims oc).lbw
      (globForm o m.dims oc).ubw (globForm o m.dims oc).w0 := by
  simp only [globForm, globSyms]
  refine DocL.append ?_ (docL_blk hd.lbv hd.ubv hd.vGuess)
  by_cases he : isElastic o.mpcc = true
  · simp only [he, if_true]; exact docL_single
  · simp only [he]; exact DocL.nil

theorem primal_doc (hd : UData um uo o m oc) :
    DocL (varDoc o um uo) (primalOf o m oc).form.w (primalOf o m oc).form.lbw
      (primalOf o m oc).form.ubw (primalOf o m oc).form.w0 := by
  show DocL _ (Form.heads _ _ _ _ _).w (Form.heads _ _ _ _ _).lbw (Form.heads _ _ _ _ _).ubw
    (Form.heads _ _ _ _ _).w0
  simp only [Form.heads]
  refine DocL.append (glob_doc hd) (DocL.flatMap fun k _ => ?_)
  unfold headSyms headLb headUb headInit
  refine DocL.append (docL_blk hd.lbu hd.ubu hd.uGuess) ?_
  by_cases hs : o.sot = .local
  · simp only [hs, if_true]; exact docL_single
  · simp only [hs, if_false]; exact DocL.nil

theorem elasticCost_same (f : Form) : (elasticCost o f).w = f.w ∧ (elasticCost o f).lbw = f.lbw ∧
    (elasticCost o f).ubw = f.ubw ∧ (elasticCost o f).w0 = f.w0 ∧ (elasticCost o f).g = f.g ∧
    (elasticCost o f).lbg = f.lbg ∧ (elasticCost o f).ubg = f.ubg := by
  unfold elasticCost
  split
  · split <;> simp
  · simp

/-- Number of binary variables of the global complementarities. -/
noncomputable def globBools (o : PreOpts) (m : PreModel) (oc : PreOcp) : List Sym :=
  cmdVars o .boolGlob (form0 o m oc).w.length (globC m oc)

theorem form4_w : (form4 o m oc).w = (primalOf o m oc).form.w ++ globBools o m oc := by
  unfold form4
  rw [Form.addBs_w, (elasticCost_same _).1]
  simp [Form.addB, execForm, form0, globBools]

/-- All variables, in order. -/
theorem form5_w : (form5 o m oc).w = (primalOf o m oc).form.w ++ globBools o m oc
    ++ (allFE o).flatMap fun q => (feDone o m oc q.1 q.2).form.w := by
  simp only [form5, Form.addFEs, allDone, List.flatMap_map, form4_w]

theorem form4_doc (hd : UData um uo o m oc) :
    DocL (varDoc o um uo) (form4 o m oc).w (form4 o m oc).lbw (form4 o m oc).ubw
      (form4 o m oc).w0 := by
  unfold form4
  obtain ⟨h1, h2, h3, h4, _⟩ := elasticCost_same (o := o)
    ((execForm o .boolGlob (form0 o m oc) (globC m oc)).addB (termBlk o m oc))
  rw [Form.addBs_w, Form.addBs_lbw, Form.addBs_ubw, Form.addBs_w0, h1, h2, h3, h4]
  simp only [Form.addB, execForm, form0, Form.addBs_w, Form.addBs_lbw, Form.addBs_ubw,
    Form.addBs_w0]
  refine (primal_doc hd).append ?_
  rw [length_cmdVars, cmdVars_eq]
  exact docL_bools (fun i => rfl) _ _

/-- Bounds and guesses of all variables. -/
theorem form5_doc (hd : UData um uo o m oc) (hx : FEDataOk m oc) (hf : FunsOk o m oc)
    (ha : NoAugSum o) :
    DocL (varDoc o um uo) (form5 o m oc).w (form5 o m oc).lbw (form5 o m oc).ubw
      (form5 o m oc).w0 := by
  simp only [form5, Form.addFEs, allDone, List.flatMap_map]
  exact (form4_doc hd).append (DocL.flatMap fun q _ => feDone_doc hd hx hf ha q.1 q.2)

theorem docL_bounds {doc : Sym → VarDoc} {f : Form} (h : DocL doc f.w f.lbw f.ubw f.w0) {env : Env} :
    (∀ r ∈ f.brows, BRow.Sat env r) ↔
      ∀ s ∈ f.w, (doc s).lb ≤ ((env s : ℝ) : EReal) ∧ ((env s : ℝ) : EReal) ≤ (doc s).ub := by
  unfold Form.brows mkBRows
  rw [h.1, h.2.1]
  have : ∀ w : List Sym, w.zip ((w.map fun s => (doc s).lb).zip (w.map fun s => (doc s).ub))
      = w.map fun s => (s, (doc s).lb, (doc s).ub) := by
    intro w
    induction w with
    | nil => rfl
    | cons a w ih => simp [ih]
  rw [this]
  simp [BRow.Sat]

end
end Nosnoc
