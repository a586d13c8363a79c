import Verif.Model.Opts
/-
Model of nosnoc/model.py: the user model, its validation and the CasADi functions derived from it.
-/
namespace Nosnoc

/-- A matrix-valued user expression `F[i]` with `n_x` rows: columns `nCols`, entries depending on
`(x, z, u, p, v_global)` (the inputs of `f_x_fun`, model.py:311). -/
structure UMat where
  nCols : Nat
  entry : (row col : Nat) → (x z u p v : List ℝ) → ℝ

/-- A vector-valued user expression `c[i]` or `g_Stewart[i]`, depending on `(x, z, p)` (the inputs
common to `g_z_switching_fun` and `lambda00_fun`, model.py:314-322). -/
structure UVec where
  len : Nat
  entry : Nat → (x z p : List ℝ) → ℝ

/-- A numeric matrix `S[i]`. -/
structure SMat where
  rows : Nat
  cols : Nat
  entry : Nat → Nat → ℝ

/-- `f_x` of a general inclusion (model.py:43, 84): a list of `pieces` expressions with
`shape[1] = shape1[i]`, whose concatenation has `n_x` rows; it may depend on `alpha`. -/
structure UFx where
  pieces : Nat
  shape1 : List Nat
  entry : (row : Nat) → (x alpha z u p v : List ℝ) → ℝ

/-- User algebraic equations `g_z`, depending on `(x, z, u, p)` (model.py:316). -/
structure UGz where
  len : Nat
  entry : Nat → (x z u p : List ℝ) → ℝ

/-- Constructor arguments of `NosnocModel` (model.py:57-79).  Symbolic vectors are represented by
their lengths; the experimental `theta` argument is left out. `alpha` gives the lengths of the
vectors in the list. `F` is assumed to have `n_x` rows. -/
structure UserModel where
  nX : Nat
  nU : Nat
  nZ : Nat
  nPtv : Nat
  nPgl : Nat
  nV : Nat
  x0 : List ℝ
  F : Option (List UMat)
  c : Option (List UVec)
  S : Option (List SMat)
  gStewart : Option (List UVec)
  alpha : Option (List Nat)
  fx : Option UFx
  gz : UGz
  z0 : Option (List ℝ)
  lbz : Option (List EReal)
  ubz : Option (List EReal)
  pTimeVarVal : Option (List (List ℝ))
  pGlobalVal : List ℝ
  tVar : Option ((x : List ℝ) → ℝ)

/-- `if not cond: raise e`. -/
def check (cond : Prop) [Decidable cond] (e : PyErr) : Except PyErr Unit :=
  if cond then .ok () else .error e

/-- nosnoc/model.py:90-95, the checks of `NosnocModel.__init__`. -/
def UserModel.initCheck (m : UserModel) : Except PyErr Unit := do
  check (xor m.F.isSome (m.fx.isSome && m.alpha.isSome) = true) .valueError
  if m.F.isSome then
    check (xor (m.c.isSome && m.S.isSome) m.gStewart.isSome = true) .valueError
  else .ok ()

/-- nosnoc/dims.py:4-16.  Lists indexed by subsystem are functions (read below `nSys` only). -/
structure Dims where
  nX : Nat
  nU : Nat
  nZ : Nat
  nSys : Nat
  nPtv : Nat
  nPgl : Nat
  /-- length of `v_global` (not part of `NosnocDims`, always computed by `casadi_length`) -/
  nV : Nat
  nC : Nat → Nat
  nF : Nat → Nat

/-- `bool(self.g_Stewart)`: neither `None` nor the empty list (model.py:140, 154, 225). -/
def UserModel.gStewartTruthy (m : UserModel) : Bool := match m.gStewart with
  | some (_ :: _) => true
  | _ => false

/-- Reading `l[i]` of an optional Python list: TypeError on `None`, IndexError when too short. -/
def optGet {α : Type} (l : Option (List α)) (i : Nat) : Except PyErr α := match l with
  | none => .error .typeError
  | some l => match l[i]? with
    | some a => .ok a
    | none => .error .indexError

/-- `x if given else default`, with the length check of model.py:127-138 / ocp.py:103-135. -/
def orDefault {α : Type} (given : Option (List α)) (n : Nat) (dflt : α) :
    Except PyErr (List α) := match given with
  | none => .ok (List.replicate n dflt)
  | some l => if l.length = n then .ok l else .error .valueError

/-- Blocks of model symbols. -/
def Dims.mX (d : Dims) : List Sym := blk d.nX .mX
def Dims.mU (d : Dims) : List Sym := blk d.nU .mU
def Dims.mZ (d : Dims) : List Sym := blk d.nZ .mZ
/-- model.py:201 `self.p = vertcat(p_time_var, p_global)`. -/
def Dims.mP (d : Dims) : List Sym := blk d.nPtv .mPtv ++ blk d.nPgl .mPgl
def Dims.mV (d : Dims) : List Sym := blk d.nV .vGlob

/-- Number of scalar entries of family `f` for subsystem `s` in one stage
(problem.py:305-348, model.py:336-354). -/
def Dims.famLen (d : Dims) (pss : PssMode) (f : Fam2) (s : Nat) : Nat :=
  match pss, f with
  | .stewart, .theta => d.nF s
  | .stewart, .lam => d.nF s
  | .stewart, .mu => 1
  | .step, .alpha => d.nC s
  | .step, .lamN => d.nC s
  | .step, .lamP => d.nC s
  | _, _ => 0

/-- One list from `create_stage_vars` (model.py:330-360), concatenated:
`[SX.sym(name, n) for ij in range(n_sys)]`; empty for families of the other mode. -/
def Dims.stageVars (d : Dims) (pss : PssMode) (f : Fam2) : List (List Sym) :=
  (List.range d.nSys).map fun s => blk (d.famLen pss f s) (.mAlg f s)

/-- The result of `preprocess_model`. -/
structure PreModel where
  dims : Dims
  x0 : List ℝ
  z0 : List ℝ
  lbz : List EReal
  ubz : List EReal
  /-- `p_val_ctrl_stages` -/
  pVal : List (List ℝ)
  /-- `z_all` -/
  zAll : List Sym
  fxFun : CFun
  gzSwitchingFun : CFun
  gzAllFun : CFun
  lambda00Fun : CFun
  tFun : Option CFun
  /-- `g_Stewart_list` (Stewart mode only) -/
  gStewartList : List Vec

/-- An entry of `c[i]`/`g_Stewart[i]` as expression in the model symbols. -/
def UVec.expr (d : Dims) (c : UVec) (i : Nat) : Expr := fun env =>
  c.entry i (d.mX.map env) (d.mZ.map env) (d.mP.map env)
def UVec.vec (d : Dims) (c : UVec) : Vec := (List.range c.len).map (c.expr d)

/-- An entry of `F[i]` as expression in the model symbols. -/
def UMat.expr (d : Dims) (F : UMat) (row col : Nat) : Expr := fun env =>
  F.entry row col (d.mX.map env) (d.mZ.map env) (d.mU.map env) (d.mP.map env) (d.mV.map env)

/-- `M @ v` for a user matrix with `n_x` rows (CasADi raises on mismatching inner dimension). -/
def UMat.mul (d : Dims) (F : UMat) (v : Vec) : Except PyErr Vec :=
  if F.nCols = v.length then
    .ok ((List.range d.nX).map fun row env =>
      ((List.range F.nCols).map fun col => F.expr d row col env * at' v col env).sum)
  else .error .casadi

/-- model.py:228 `-S[i] @ c[i]`. -/
def negSmulC (S : SMat) (c : Vec) : Except PyErr Vec :=
  if S.cols = c.length then
    .ok ((List.range S.rows).map fun i env =>
      ((List.range S.cols).map fun k => -(S.entry i k) * at' c k env).sum)
  else .error .casadi

/-- model.py:246-251: one multi-affine term `upsilon_ij` of row `j` of `S` (starting from 1,
factors only for nonzero entries). -/
noncomputable def upsilonRow (S : SMat) (alpha : Vec) (j : Nat) : Expr := fun env =>
  (List.range S.cols).foldl (fun acc k =>
    if S.entry j k ≠ 0 then
      acc * ((1 / 2) * (1 - S.entry j k) + S.entry j k * at' alpha k env)
    else acc) 1

/-- model.py:243-252: `upsilon_temp` for one subsystem.  `alpha[ii][k]` raises when `k` is out of
range and the entry is used. -/
noncomputable def upsilonCol (S : SMat) (alpha : Vec) : Except PyErr Vec :=
  if ∃ j < S.rows, ∃ k < S.cols, S.entry j k ≠ 0 ∧ alpha.length ≤ k then .error .casadi
  else .ok ((List.range S.rows).map fun j => upsilonRow S alpha j)

/-- `ca.mmin` of a vector (model.py:286); only used for nonempty vectors. -/
noncomputable def mmin (v : List ℝ) : ℝ := match v with
  | [] => 0
  | a :: l => l.foldl min a

/-- model.py:285-286: `g - mmin(g)`. -/
noncomputable def stewartLambda00 (g : Vec) : Vec :=
  g.map fun e env => e env - mmin (evalVec g env)

/-- model.py:125 `n_sys`. -/
def UserModel.nSys (m : UserModel) : Nat := match m.F with
  | some F => F.length
  | none => match m.fx with
    | some f => f.pieces
    | none => 0

/-- model.py:140-143 `n_c_sys`. -/
def UserModel.nCsys (m : UserModel) : Except PyErr (List Nat) :=
  if m.gStewartTruthy then .ok [0]
  else (List.range m.nSys).mapM fun i => UVec.len <$> optGet m.c i

/-- model.py:159-161: the loop over `g_Stewart` from position `i` on. -/
def checkGStewart (F : List UMat) : Nat → List UVec → Except PyErr Unit
  | _, [] => .ok ()
  | i, g :: gs => match F[i]? with
    | none => .error .indexError
    | some f => do
        check (g.len = f.nCols) .valueError
        checkGStewart F (i + 1) gs

/-- model.py:146-180: sanity checks, returning `n_f_sys`. -/
def UserModel.nFsys (m : UserModel) (pss : PssMode) : Except PyErr (List Nat) :=
  match m.F with
  | some F => do
      -- 150-152
      check (∀ f ∈ F, f.nCols ≠ 1) .warning
      -- 154-161
      if m.gStewartTruthy then
        check (pss = .stewart) .valueError
        checkGStewart F 0 (m.gStewart.getD [])
        .ok (F.map UMat.nCols)
      else
        -- 163-172
        match m.c, m.S with
        | some c, some S =>
            check (c.length = S.length) .valueError
            check (∀ fs ∈ F.zip S, fs.1.nCols = fs.2.rows) .valueError
            .ok (F.map UMat.nCols)
        | _, _ => .error .valueError
  | none => do
      -- 174-180
      check (pss ≠ .stewart) .valueError
      match m.c, m.alpha with
      | some c, some a =>
          check ((c.map UVec.len).sum = a.sum) .valueError
          .ok (match m.fx with | some f => f.shape1 | none => [])
      | _, _ => .error .valueError

/-- model.py:190-191: `p_time_var_val` with its default. -/
def UserModel.ptv (m : UserModel) (nStages : Nat) : List (List ℝ) :=
  m.pTimeVarVal.getD (List.replicate nStages (List.replicate m.nPtv 0))

/-- model.py:183-207: parameter checks, returning `p_val_ctrl_stages`. -/
def UserModel.pValCtrl (m : UserModel) (nStages : Nat) : Except PyErr (List (List ℝ)) := do
  check (m.pGlobalVal.length = m.nPgl) .exception
  check ((m.ptv nStages).length = nStages ∧ ∀ r ∈ m.ptv nStages, r.length = m.nPtv) .exception
  .ok ((m.ptv nStages).map fun r => r ++ m.pGlobalVal)

/-- model.py:224-230 `g_Stewart_list`. -/
def UserModel.gStewartVecs (m : UserModel) (d : Dims) (pss : PssMode) :
    Except PyErr (List Vec) :=
  match pss with
  | .stewart =>
      if m.gStewartTruthy then .ok ((m.gStewart.getD []).map (UVec.vec d))
      else (List.range m.nSys).mapM fun i => do
        let S ← optGet m.S i
        let c ← optGet m.c i
        negSmulC S (c.vec d)
  | .step => .ok []

/-- model.py:233-235: the alpha symbols; a user-supplied list replaces the created one. -/
def UserModel.alphaVars (m : UserModel) (d : Dims) (pss : PssMode) : List (List Sym) :=
  match m.alpha with
  | some a => a.zipIdx.map fun ns => blk ns.1 (.mAlg .alpha ns.2)
  | none => d.stageVars pss .alpha

/-- model.py:240-253 `upsilon` (its columns); `ca.horzcat` needs equal numbers of rows. -/
noncomputable def UserModel.upsilon (m : UserModel) (alpha : List (List Sym)) (pss : PssMode) :
    Except PyErr (List Vec) :=
  if pss = .step ∧ m.F.isSome then do
    let cols ← (List.range m.nSys).mapM fun i => do
      let S ← optGet m.S i
      let a ← optGet (some alpha) i
      upsilonCol S (vars a)
    check (∀ v ∈ cols, v.length = (cols.headD []).length) .casadi
    .ok cols
  else .ok []

/-- model.py:263-269: the order of `z` used by `FiniteElement`. -/
def UserModel.zAll (m : UserModel) (d : Dims) (pss : PssMode) : List Sym :=
  (d.stageVars pss .theta).flatten ++ (d.stageVars pss .lam).flatten
    ++ (d.stageVars pss .mu).flatten ++ (m.alphaVars d pss).flatten
    ++ (d.stageVars pss .lamN).flatten ++ (d.stageVars pss .lamP).flatten ++ d.mZ

/-- model.py:271-275: the initial right-hand side; with general inclusions the assignment
`z[0:sum(n_c_sys)] = vertcat(alpha)` needs equal lengths. -/
def UserModel.fx0 (m : UserModel) (d : Dims) (nCsys : List Nat) (alpha : List (List Sym)) :
    Except PyErr Vec :=
  match m.F, m.fx with
  | none, some f => do
      check (nCsys.sum = alpha.flatten.length) .casadi
      .ok ((List.range m.nX).map fun row env =>
        f.entry row (d.mX.map env) (alpha.flatten.map env) (d.mZ.map env) (d.mU.map env)
          (d.mP.map env) (d.mV.map env))
  | _, _ => .ok (List.replicate m.nX (const 0))

/-- Accumulated `f_x, g_switching, g_convex, lambda00_expr` of model.py:256-300. -/
structure DcsAcc where
  fx : Vec
  gSwitching : Vec
  gConvex : Vec
  lambda00 : Vec

/-- model.py:278-286: loop body in Stewart mode. -/
noncomputable def stewartBody (m : UserModel) (d : Dims) (g : List Vec) (acc : DcsAcc) (ii : Nat) :
    Except PyErr DcsAcc := do
  let F ← optGet m.F ii
  let th ← optGet (some (d.stageVars .stewart .theta)) ii
  let la ← optGet (some (d.stageVars .stewart .lam)) ii
  let mu ← optGet (some (d.stageVars .stewart .mu)) ii
  let gi ← optGet (some g) ii
  let Fth ← F.mul d (vars th)
  check (gi.length = la.length) .casadi
  .ok { fx := vadd acc.fx Fth
        -- g_Stewart - lam + mu, mu being a scalar
        gSwitching := acc.gSwitching ++
          (vsub gi (vars la)).map (fun e env => e env + at' (vars mu) 0 env)
        gConvex := acc.gConvex ++ [fun env => (evalVec (vars th) env).sum - 1]
        lambda00 := acc.lambda00 ++ stewartLambda00 gi }

/-- model.py:289-292: `f_x + F[ii] @ upsilon[:, ii]` for Filippov models. -/
def stepRhs (m : UserModel) (d : Dims) (upsilon : List Vec) (fx : Vec) (ii : Nat) :
    Except PyErr Vec :=
  match m.F with
  | some _ => do
      let F ← optGet m.F ii
      let up ← optGet (some upsilon) ii
      let Fu ← F.mul d up
      .ok (vadd fx Fu)
  | none => .ok fx

/-- model.py:288-300: loop body in Step mode.  CasADi raises when the multipliers and `c[ii]` have
different lengths (possible only when `g_Stewart` is given together with a general `f_x`; the
scalar-with-empty broadcast of that corner case is not distinguished from the error). -/
noncomputable def stepBody (m : UserModel) (d : Dims) (upsilon : List Vec)
    (alpha : List (List Sym)) (acc : DcsAcc) (ii : Nat) : Except PyErr DcsAcc := do
  let fx ← stepRhs m d upsilon acc.fx ii
  let _ ← optGet (some alpha) ii
  let c ← optGet m.c ii
  let lp ← optGet (some (d.stageVars .step .lamP)) ii
  let ln ← optGet (some (d.stageVars .step .lamN)) ii
  check (c.len = lp.length) .casadi
  .ok { fx := fx
        gSwitching := acc.gSwitching ++ vadd (vsub (c.vec d) (vars lp)) (vars ln)
        gConvex := acc.gConvex
        lambda00 := acc.lambda00 ++ (c.vec d).map (fun e env => -(min (e env) 0))
          ++ (c.vec d).map (fun e env => max (e env) 0) }

/-- model.py:120-328 `preprocess_model` (with 330-360 `create_stage_vars`), after the constructor
checks.  Modelled apart: `rootfinder_for_initial_z` (Model/Root.lean), `std_compl_res_fun` and
`mu00_stewart_fun` (Model/StageFuns.lean), which the library defines but does not call.  Not modelled:
`isinstance(..., list)` checks (always lists here). -/
noncomputable def UserModel.preprocess (m : UserModel) (o : PreOpts) : Except PyErr PreModel := do
  -- 127-138
  let z0 ← orDefault m.z0 m.nZ 0
  let lbz ← orDefault m.lbz m.nZ ⊥
  let ubz ← orDefault m.ubz m.nZ ⊤
  let nCsys ← m.nCsys
  let nFsys ← m.nFsys o.pss
  let pVal ← m.pValCtrl o.nStages
  -- 215-222
  let d : Dims :=
    { nX := m.nX, nU := m.nU, nZ := m.nZ, nSys := m.nSys, nPtv := m.nPtv, nPgl := m.nPgl,
      nV := m.nV, nC := fun i => nCsys.getD i 0, nF := fun i => nFsys.getD i 0 }
  let g ← m.gStewartVecs d o.pss
  let alpha := m.alphaVars d o.pss
  let upsilon ← m.upsilon alpha o.pss
  let z := m.zAll d o.pss
  let fx0 ← m.fx0 d nCsys alpha
  -- 277-302
  let acc ← match o.pss with
    | .stewart => (List.range m.nSys).foldlM (stewartBody m d g) ⟨fx0, [], [], []⟩
    | .step => (List.range m.nSys).foldlM (stepBody m d upsilon alpha) ⟨fx0, [], [], []⟩
  -- 305
  let gz : Vec := (List.range m.gz.len).map fun i env =>
    m.gz.entry i (d.mX.map env) (d.mZ.map env) (d.mU.map env) (d.mP.map env)
  -- 317-320
  check (m.tVar.isSome ∨ o.timeFreezing = false) .valueError
  .ok {
    dims := d, x0 := m.x0, z0 := z0, lbz := lbz, ubz := ubz, pVal := pVal, zAll := z
    fxFun := ⟨[d.mX, z, d.mU, d.mP, d.mV], acc.fx⟩
    gzSwitchingFun := ⟨[d.mX, z, d.mU, d.mP], acc.gSwitching⟩
    gzAllFun := ⟨[d.mX, z, d.mU, d.mP], acc.gSwitching ++ acc.gConvex ++ gz⟩
    lambda00Fun := ⟨[d.mX, d.mZ, d.mP], acc.lambda00⟩
    tFun := m.tVar.map fun t => ⟨[d.mX], [fun env => t (d.mX.map env)]⟩
    gStewartList := g }

end Nosnoc
