import Verif.Proofs.Primal
/-
Helper lemmas: constraint rows and the effect of executing commands on a finite element.
-/
namespace Nosnoc

/-- A constraint with its bounds. -/
abbrev Row := Expr × EReal × EReal

/-- `lb ≤ g ≤ ub` at a point. -/
def Row.Sat (env : Env) (r : Row) : Prop :=
  r.2.1 ≤ ((r.1 env : ℝ) : EReal) ∧ ((r.1 env : ℝ) : EReal) ≤ r.2.2

def mkRows (g : Vec) (lb ub : List EReal) : List Row := g.zip (lb.zip ub)
def Form.rows (f : Form) : List Row := mkRows f.g f.lbg f.ubg

/-- Bound rows of the variables. -/
abbrev BRow := Sym × EReal × EReal
def BRow.Sat (env : Env) (r : BRow) : Prop :=
  r.2.1 ≤ ((env r.1 : ℝ) : EReal) ∧ ((env r.1 : ℝ) : EReal) ≤ r.2.2
def mkBRows (w : List Sym) (lb ub : List EReal) : List BRow := w.zip (lb.zip ub)
def Form.brows (f : Form) : List BRow := mkBRows f.w f.lbw f.ubw

theorem feasible_iff_rows {f : Form} {env : Env} :
    f.Feasible env ↔ (∀ r ∈ f.brows, BRow.Sat env r) ∧ (∀ r ∈ f.rows, Row.Sat env r) := Iff.rfl

/-- Lengths agree. -/
structure Form.Aligned (f : Form) : Prop where
  lbw : f.lbw.length = f.w.length
  ubw : f.ubw.length = f.w.length
  w0 : f.w0.length = f.w.length
  lbg : f.lbg.length = f.g.length
  ubg : f.ubg.length = f.g.length

theorem mkRows_append {g g' : Vec} {lb lb' ub ub' : List EReal}
    (h1 : lb.length = g.length) (h2 : ub.length = g.length) :
    mkRows (g ++ g') (lb ++ lb') (ub ++ ub') = mkRows g lb ub ++ mkRows g' lb' ub' := by
  unfold mkRows
  rw [List.zip_append (by rw [h1, h2]), List.zip_append (by simp [h1, h2])]

theorem mkBRows_append {g g' : List Sym} {lb lb' ub ub' : List EReal}
    (h1 : lb.length = g.length) (h2 : ub.length = g.length) :
    mkBRows (g ++ g') (lb ++ lb') (ub ++ ub') = mkBRows g lb ub ++ mkBRows g' lb' ub' := by
  unfold mkBRows
  rw [List.zip_append (by rw [h1, h2]), List.zip_append (by simp [h1, h2])]

variable {o : PreOpts}

/-- Variables, constraints (with bounds) and cost contributed by a command when `w` has `pos`
entries. -/
def cmdVars (o : PreOpts) (bs : Nat → Sym) (pos : Nat) : Cmd → List Sym
  | .compl _ y => if o.mpcc = .boolean then (List.range' pos y.length).map bs else []
  | _ => []

noncomputable def cmdG (o : PreOpts) (z : List Sym) : Cmd → Vec
  | .con g _ => g
  | .compl xs y => if o.mpcc = .boolean then boolExpr z xs y
      else match compExpr o.toOpts xs y with
        | .ok g => g
        | .error _ => []
  | .cost _ => []

noncomputable def cmdBnd (o : PreOpts) (z : List Sym) : Cmd → List EReal × List EReal
  | .con g none => (List.replicate g.length 0, List.replicate g.length 0)
  | .con _ (some b) => b
  | .compl xs y => compBounds o.mpcc y.length (cmdG o z (.compl xs y)).length
  | .cost _ => ([], [])

noncomputable def cmdCost : Cmd → Env → ℝ
  | .cost e, env => e env
  | _, _ => 0

noncomputable def cmdRows (o : PreOpts) (z : List Sym) (c : Cmd) : List Row :=
  mkRows (cmdG o z c) (cmdBnd o z c).1 (cmdBnd o z c).2

def isCompl : Cmd → Bool
  | .compl _ _ => true
  | _ => false

/-- Index lists appended to `ind_bool` / `ind_comp`. -/
noncomputable def cmdBoolIdx (o : PreOpts) (pos : Nat) : Cmd → List (List Nat)
  | .compl _ y => if o.mpcc = .boolean then [List.range' pos y.length] else []
  | _ => []
noncomputable def cmdCompIdx (o : PreOpts) (z : List Sym) (ng : Nat) (c : Cmd) : List (List Nat) :=
  if isCompl c = true ∧ (cmdG o z c).length ≠ 0 then [List.range' ng (cmdG o z c).length] else []

/-- Consistency of a command. -/
def CmdOk (o : PreOpts) : Cmd → Prop
  | .con g bnd => ∀ b, bnd = some b → b.1.length = g.length ∧ b.2.length = g.length
  | .compl xs y => xs ≠ [] ∧ (∀ x ∈ xs, x.length = y.length) ∧
      (o.mpcc = .fischerBurmeisterIpAug → xs.length = 1)
  | .cost _ => True

noncomputable def execForm (o : PreOpts) (bs : Nat → Sym) (f : Form) (c : Cmd) : Form :=
  let z := cmdVars o bs f.w.length c
  { w := f.w ++ z
    lbw := f.lbw ++ List.replicate z.length 0
    ubw := f.ubw ++ List.replicate z.length 1
    w0 := f.w0 ++ List.replicate z.length (1 / 2)
    g := f.g ++ cmdG o z c
    lbg := f.lbg ++ (cmdBnd o z c).1
    ubg := f.ubg ++ (cmdBnd o z c).2
    cost := fun env => f.cost env + cmdCost c env }

theorem Form.addConstraint_ok {f : Form} {g : Vec} {lb ub : List EReal}
    (h1 : lb.length = g.length) (h2 : ub.length = g.length) :
    f.addConstraint g (some (lb, ub)) = .ok
      ({ f with g := f.g ++ g, lbg := f.lbg ++ lb, ubg := f.ubg ++ ub },
        if g.length = 0 then none else some (List.range' f.g.length g.length)) := by
  unfold Form.addConstraint
  by_cases hg : g.length = 0
  · have hg' : g = [] := List.length_eq_zero_iff.1 hg
    subst hg'
    simp at h1 h2
    simp [h1, h2]
  · simp [hg, h1, h2]

theorem Form.addConstraint_none {f : Form} {g : Vec} :
    f.addConstraint g none = f.addConstraint g
      (some (List.replicate g.length 0, List.replicate g.length 0)) := by
  unfold Form.addConstraint; rfl

theorem compBounds_length (mode : MpccMode) (n nc : Nat)
    (h : mode = .elasticTwoSided → nc = 2 * n) :
    (compBounds mode n nc).1.length = nc ∧ (compBounds mode n nc).2.length = nc := by
  cases mode <;> simp [compBounds]
  have := h rfl
  omega

theorem cmdG_compl_twoSided (z : List Sym) {xs : List Vec} {y : Vec}
    (h : o.mpcc = .elasticTwoSided) : (cmdG o z (.compl xs y)).length = 2 * y.length := by
  simp [cmdG, h, compExpr]; omega

theorem cmdBnd_length (z : List Sym) {c : Cmd} (hc : CmdOk o c) :
    (cmdBnd o z c).1.length = (cmdG o z c).length ∧
    (cmdBnd o z c).2.length = (cmdG o z c).length := by
  cases c with
  | con g bnd =>
    cases bnd with
    | none => simp [cmdBnd, cmdG]
    | some b => exact hc b rfl
  | compl xs y => exact compBounds_length _ _ _ fun h => cmdG_compl_twoSided z h
  | cost e => simp [cmdBnd, cmdG]

theorem compExpr_ok {xs : List Vec} {y : Vec} (hc : CmdOk o (.compl xs y))
    (hb : o.mpcc ≠ .boolean) (z : List Sym) :
    compExpr o.toOpts xs y = .ok (cmdG o z (.compl xs y)) := by
  have hip := hc.2.2
  simp only [cmdG, if_neg hb]
  cases h : o.mpcc with
  | fischerBurmeisterIpAug =>
    obtain ⟨x, rfl⟩ := List.length_eq_one_iff.1 (hip h)
    simp [compExpr, h]
  | boolean => exact absurd h hb
  | _ => simp [compExpr, h]

theorem createCompl_ok {f : Form} {bs : Nat → Sym} {xs : List Vec} {y : Vec}
    (hc : CmdOk o (.compl xs y)) :
    f.createCompl o.toOpts bs xs y = .ok (execForm o bs f (.compl xs y),
      (if o.mpcc = .boolean then some (List.range' f.w.length y.length) else none),
      (if (cmdG o (cmdVars o bs f.w.length (.compl xs y)) (.compl xs y)).length = 0 then none else
        some (List.range' f.g.length
          (cmdG o (cmdVars o bs f.w.length (.compl xs y)) (.compl xs y)).length))) := by
  unfold Form.createCompl
  have h0 : ¬ (xs = [] ∨ ∃ x ∈ xs, x.length ≠ y.length) := by
    rintro (h | ⟨x, hx, h⟩)
    · exact hc.1 h
    · exact h (hc.2.1 x hx)
  rw [if_neg h0]
  by_cases hb : o.mpcc = .boolean
  · rw [if_pos hb]
    have hz : cmdVars o bs f.w.length (.compl xs y) = (List.range' f.w.length y.length).map bs := by
      simp [cmdVars, hb]
    have hl := cmdBnd_length (cmdVars o bs f.w.length (.compl xs y)) hc
    dsimp only
    rw [(Form.addVariable_eq_ok (f := f)
      (syms := (List.range' f.w.length y.length).map bs) (lb := List.replicate y.length 0)
      (ub := List.replicate y.length 1) (init := List.replicate y.length (1 / 2))).2
      ⟨by simp, rfl, rfl⟩]
    simp only [ok_bind]
    have hg : cmdG o (cmdVars o bs f.w.length (.compl xs y)) (.compl xs y)
        = boolExpr ((List.range' f.w.length y.length).map bs) xs y := by
      simp [cmdG, hb, cmdVars]
    simp only [cmdBnd, hb, hg] at hl
    rw [Form.addConstraint_ok hl.1 hl.2]
    simp only [ok_bind, if_pos hb, hg]
    simp [execForm, cmdVars, hb, cmdG, cmdBnd, cmdCost]
  · rw [if_neg hb, compExpr_ok hc hb (cmdVars o bs f.w.length (.compl xs y))]
    have hl := cmdBnd_length (cmdVars o bs f.w.length (.compl xs y)) hc
    simp only [cmdBnd] at hl
    simp only [ok_bind]
    rw [Form.addConstraint_ok hl.1 hl.2]
    simp only [ok_bind, if_neg hb]
    simp [execForm, cmdVars, hb, cmdBnd, cmdCost]

noncomputable def execFE (o : PreOpts) (fe : FE) (c : Cmd) : FE :=
  let z := cmdVars o (.boolFe fe.k fe.e) fe.form.w.length c
  { fe with
    form := execForm o (.boolFe fe.k fe.e) fe.form c
    indBool := fe.indBool ++ cmdBoolIdx o fe.form.w.length c
    indComp := fe.indComp ++ cmdCompIdx o z fe.form.g.length c }

theorem exec_ok {fe : FE} {c : Cmd} (hc : CmdOk o c) : fe.exec o c = .ok (execFE o fe c) := by
  cases c with
  | con g bnd =>
    unfold FE.exec
    cases bnd with
    | none =>
      simp only
      rw [Form.addConstraint_none, Form.addConstraint_ok (by simp) (by simp)]
      simp [execFE, execForm, cmdVars, cmdG, cmdBnd, cmdCost, cmdBoolIdx, cmdCompIdx, isCompl]
    | some b =>
      simp only
      rw [Form.addConstraint_ok (hc b rfl).1 (hc b rfl).2]
      simp [execFE, execForm, cmdVars, cmdG, cmdBnd, cmdCost, cmdBoolIdx, cmdCompIdx, isCompl]
  | compl xs y =>
    unfold FE.exec
    simp only
    rw [createCompl_ok hc]
    simp only [ok_bind, execFE]
    congr 2
    · simp only [cmdCompIdx, isCompl, true_and]
      split <;> simp_all [appendIdx]
    · by_cases hb : o.mpcc = .boolean <;> simp [hb, appendIdx, cmdBoolIdx]
  | cost e =>
    simp [FE.exec, execFE, execForm, cmdVars, cmdG, cmdBnd, cmdCost, cmdBoolIdx, cmdCompIdx,
      isCompl]

theorem execs_ok {fe : FE} {cs : List Cmd} (hc : ∀ c ∈ cs, CmdOk o c) :
    cs.foldlM (FE.exec o) fe = .ok (cs.foldl (execFE o) fe) := by
  induction cs generalizing fe with
  | nil => rfl
  | cons c cs ih =>
    rw [List.foldlM_cons, exec_ok (hc c (by simp)), ok_bind, ih fun c' h => hc c' (by simp [h])]
    rfl

/-- With the augmented Fischer-Burmeister function, a successful execution has only
single-vector complementarities. -/
theorem execs_of_ok {fe fe' : FE} {cs : List Cmd} (h : cs.foldlM (FE.exec o) fe = .ok fe')
    {xs : List Vec} {y : Vec} (hmem : Cmd.compl xs y ∈ cs)
    (hm : o.mpcc = .fischerBurmeisterIpAug) : xs.length = 1 := by
  induction cs generalizing fe with
  | nil => cases hmem
  | cons c cs ih =>
    rw [List.foldlM_cons, bind_eq_ok] at h
    obtain ⟨f1, h1, h2⟩ := h
    rcases List.mem_cons.1 hmem with rfl | hmem
    · unfold FE.exec at h1
      simp only [bind_eq_ok] at h1
      obtain ⟨⟨a, b, c⟩, h1, _⟩ := h1
      unfold Form.createCompl at h1
      split at h1
      · cases h1
      rw [if_neg (by rw [hm]; simp)] at h1
      simp only [bind_eq_ok] at h1
      obtain ⟨g, hg, _⟩ := h1
      simp only [compExpr, hm] at hg
      match xs, hg with
      | [x], _ => rfl
      | [], hg => cases hg
      | _ :: _ :: _, hg => cases hg
    · exact ih h2 hmem

/-! ### Sequences of commands -/

/-- Number of variables a command adds. -/
def cmdNV (o : PreOpts) : Cmd → Nat
  | .compl _ y => if o.mpcc = .boolean then y.length else 0
  | _ => 0

theorem length_cmdVars (bs : Nat → Sym) (pos : Nat) (c : Cmd) :
    (cmdVars o bs pos c).length = cmdNV o c := by
  cases c with
  | compl xs y => simp only [cmdVars, cmdNV]; split <;> simp
  | _ => rfl

def seqNV (o : PreOpts) (cs : List Cmd) : Nat := (cs.map (cmdNV o)).sum

/-- Constraint rows of a sequence of commands. -/
noncomputable def seqRows (o : PreOpts) (bs : Nat → Sym) : Nat → List Cmd → List Row
  | _, [] => []
  | pos, c :: cs => cmdRows o (cmdVars o bs pos c) c ++ seqRows o bs (pos + cmdNV o c) cs

/-- Variables of a sequence of commands. -/
def seqVars (o : PreOpts) (bs : Nat → Sym) (pos : Nat) (cs : List Cmd) : List Sym :=
  (List.range' pos (seqNV o cs)).map bs

theorem cmdVars_eq (bs : Nat → Sym) (pos : Nat) (c : Cmd) :
    cmdVars o bs pos c = (List.range' pos (cmdNV o c)).map bs := by
  cases c with
  | compl xs y => simp only [cmdVars, cmdNV]; split <;> simp
  | _ => rfl

theorem execForm_aligned {bs : Nat → Sym} {f : Form} {c : Cmd} (hf : f.Aligned)
    (hc : CmdOk o c) : (execForm o bs f c).Aligned := by
  have := cmdBnd_length (o := o) (cmdVars o bs f.w.length c) hc
  constructor <;> simp [execForm, hf.lbw, hf.ubw, hf.w0, hf.lbg, hf.ubg, this.1, this.2]

theorem execForm_rows {bs : Nat → Sym} {f : Form} {c : Cmd} (hf : f.Aligned) :
    (execForm o bs f c).rows = f.rows ++ cmdRows o (cmdVars o bs f.w.length c) c := by
  unfold Form.rows
  simp only [execForm]
  rw [mkRows_append hf.lbg hf.ubg]
  rfl

/-- The finite element after executing a sequence of commands. -/
theorem execs_form {fe : FE} {cs : List Cmd} (hf : fe.form.Aligned) (hc : ∀ c ∈ cs, CmdOk o c) :
    (cs.foldl (execFE o) fe).form.Aligned ∧
    (cs.foldl (execFE o) fe).form.rows
      = fe.form.rows ++ seqRows o (.boolFe fe.k fe.e) fe.form.w.length cs ∧
    (cs.foldl (execFE o) fe).form.w
      = fe.form.w ++ seqVars o (.boolFe fe.k fe.e) fe.form.w.length cs ∧
    (cs.foldl (execFE o) fe).form.lbw = fe.form.lbw ++ List.replicate (seqNV o cs) 0 ∧
    (cs.foldl (execFE o) fe).form.ubw = fe.form.ubw ++ List.replicate (seqNV o cs) 1 ∧
    (cs.foldl (execFE o) fe).form.w0 = fe.form.w0 ++ List.replicate (seqNV o cs) (1 / 2) ∧
    (∀ env, (cs.foldl (execFE o) fe).form.cost env
      = fe.form.cost env + (cs.map fun c => cmdCost c env).sum) ∧
    (cs.foldl (execFE o) fe).k = fe.k ∧ (cs.foldl (execFE o) fe).e = fe.e ∧
    (cs.foldl (execFE o) fe).nSys = fe.nSys ∧ (cs.foldl (execFE o) fe).rows1 = fe.rows1 ∧
    (cs.foldl (execFE o) fe).rows2 = fe.rows2 ∧ (cs.foldl (execFE o) fe).ind = fe.ind ∧
    (cs.foldl (execFE o) fe).indH = fe.indH ∧ (cs.foldl (execFE o) fe).h = fe.h ∧
    (cs.foldl (execFE o) fe).prev = fe.prev := by
  induction cs generalizing fe with
  | nil => simp [seqRows, seqVars, seqNV, hf]
  | cons c cs ih =>
    have hc0 := hc c (by simp)
    have h := ih (fe := execFE o fe c) (execForm_aligned hf hc0) fun c' h => hc c' (by simp [h])
    rw [List.foldl_cons]
    have hlen : (execFE o fe c).form.w.length = fe.form.w.length + cmdNV o c := by
      simp [execFE, execForm, length_cmdVars]
    obtain ⟨h1, h2, h3, h4, h5, h6, h7, h8⟩ := h
    refine ⟨h1, ?_, ?_, ?_, ?_, ?_, ?_, h8⟩
    · rw [h2, hlen]
      simp only [execFE]
      rw [execForm_rows hf]
      simp [seqRows]
    · rw [h3, hlen]
      simp only [execFE, execForm, cmdVars_eq, seqVars, seqNV, List.map_cons, List.sum_cons]
      rw [List.append_assoc, ← List.map_append, List.range'_append_1]
    · rw [h4]
      simp only [execFE, execForm, seqNV, List.map_cons, List.sum_cons, length_cmdVars]
      rw [List.append_assoc, List.replicate_append_replicate]
    · rw [h5]
      simp only [execFE, execForm, seqNV, List.map_cons, List.sum_cons, length_cmdVars]
      rw [List.append_assoc, List.replicate_append_replicate]
    · rw [h6]
      simp only [execFE, execForm, seqNV, List.map_cons, List.sum_cons, length_cmdVars]
      rw [List.append_assoc, List.replicate_append_replicate]
    · intro env
      rw [h7]
      simp [execFE, execForm, add_assoc]

/-- The same, as a structure. -/
structure Executed (o : PreOpts) (cs : List Cmd) (fe fe' : FE) : Prop where
  aligned : fe'.form.Aligned
  rows : fe'.form.rows = fe.form.rows ++ seqRows o (.boolFe fe.k fe.e) fe.form.w.length cs
  w : fe'.form.w = fe.form.w ++ seqVars o (.boolFe fe.k fe.e) fe.form.w.length cs
  lbw : fe'.form.lbw = fe.form.lbw ++ List.replicate (seqNV o cs) 0
  ubw : fe'.form.ubw = fe.form.ubw ++ List.replicate (seqNV o cs) 1
  w0 : fe'.form.w0 = fe.form.w0 ++ List.replicate (seqNV o cs) (1 / 2)
  cost : ∀ env, fe'.form.cost env = fe.form.cost env + (cs.map fun c => cmdCost c env).sum
  k : fe'.k = fe.k
  e : fe'.e = fe.e
  nSys : fe'.nSys = fe.nSys
  rows1 : fe'.rows1 = fe.rows1
  rows2 : fe'.rows2 = fe.rows2
  ind : fe'.ind = fe.ind
  indH : fe'.indH = fe.indH
  h : fe'.h = fe.h
  prev : fe'.prev = fe.prev

theorem executed {fe : FE} {cs : List Cmd} (hf : fe.form.Aligned) (hc : ∀ c ∈ cs, CmdOk o c) :
    Executed o cs fe (cs.foldl (execFE o) fe) := by
  obtain ⟨h1, h2, h3, h4, h5, h6, h7, h8, h9, h10, h11, h12, h13, h14, h15, h16⟩ :=
    execs_form hf hc
  exact ⟨h1, h2, h3, h4, h5, h6, h7, h8, h9, h10, h11, h12, h13, h14, h15, h16⟩

/-- Executing commands does not change what is read through the index lists (so computing the
commands before executing them is the same as interleaving, see `FE.process`). -/
theorem exec_reads {fe : FE} {cs : List Cmd} (hf : fe.form.Aligned) (hc : ∀ c ∈ cs, CmdOk o c)
    {idx : List Nat} {s : List Sym} (h : gather fe.form.w idx = .ok s) :
    gather (cs.foldl (execFE o) fe).form.w idx = .ok s ∧
    (cs.foldl (execFE o) fe).ind = fe.ind := by
  have := execs_form hf hc
  rw [this.2.2.1]
  exact ⟨gather_mono h, this.2.2.2.2.2.2.2.2.2.2.2.2.1⟩

end Nosnoc
