import Verif.Model.Model
/-
Model of nosnoc/ocp.py.
-/
namespace Nosnoc

/-- One row `(a, b)` of `g_path_comp` (ocp.py:38): two user expressions, together with the answers
of `ca.which_depends` for the stage variables `(x, z)` and the control-stage variables
`(u, p_time_var)` (ocp.py:84-91). -/
structure PathComp where
  a : (x u z p v : List ℝ) → ℝ
  b : (x u z p v : List ℝ) → ℝ
  dependsRk : Bool
  dependsCtrl : Bool

/-- Constructor arguments of `NosnocOcp` (ocp.py:27-60).  `gPathCompWidth` is `shape[1]` of
`g_path_comp`. -/
structure UserOcp where
  lbu : Option (List EReal)
  ubu : Option (List EReal)
  uGuess : Option (List ℝ)
  lbx : Option (List EReal)
  ubx : Option (List EReal)
  fq : (x u p v : List ℝ) → ℝ
  nGPath : Nat
  gPath : Nat → (x u p v : List ℝ) → ℝ
  lbg : Option (List EReal)
  ubg : Option (List EReal)
  gPathComp : List PathComp
  gPathCompWidth : Nat
  fTerminal : (x p v : List ℝ) → ℝ
  nGTerminal : Nat
  gTerminal : Nat → (x p v : List ℝ) → ℝ
  lbv : Option (List EReal)
  ubv : Option (List EReal)
  vGuess : Option (List ℝ)

/-- `NosnocOcp()` (defaults of ocp.py:27-44), used when no ocp is given (problem.py:720-722). -/
def UserOcp.trivial : UserOcp where
  lbu := none
  ubu := none
  uGuess := none
  lbx := none
  ubx := none
  fq := fun _ _ _ _ => 0
  nGPath := 0
  gPath := fun _ _ _ _ _ => 0
  lbg := none
  ubg := none
  gPathComp := []
  gPathCompWidth := 2
  fTerminal := fun _ _ _ => 0
  nGTerminal := 0
  gTerminal := fun _ _ _ _ => 0
  lbv := none
  ubv := none
  vGuess := none

/-- The three categories of ocp.py:78-94. -/
structure CompSplit where
  global : List PathComp
  ctrl : List PathComp
  stage : List PathComp

/-- ocp.py:87-94, the classification loop. -/
def splitComps (rows : List PathComp) : CompSplit :=
  rows.foldl (fun acc r =>
    if r.dependsRk then { acc with stage := acc.stage ++ [r] }
    else if r.dependsCtrl then { acc with ctrl := acc.ctrl ++ [r] }
    else { acc with global := acc.global ++ [r] }) ⟨[], [], []⟩

/-- The result of `preprocess_ocp`.  A two-column function is a pair of functions (its columns, as
split by `ca.horzsplit` at problem.py:539, 543, 710). -/
structure PreOcp where
  lbu : List EReal
  ubu : List EReal
  uGuess : List ℝ
  lbx : List EReal
  ubx : List EReal
  lbg : List EReal
  ubg : List EReal
  lbv : List EReal
  ubv : List EReal
  vGuess : List ℝ
  gTerminalFun : CFun
  fqTFun : CFun
  fqFun : CFun
  gPathFun : CFun
  gGlobalFun : CFun × CFun
  gCtrlFun : CFun × CFun
  gRkFun : CFun × CFun

/-- A path complementarity column as expressions in the model symbols. -/
def compCol (d : Dims) (sel : PathComp → (x u z p v : List ℝ) → ℝ) (rows : List PathComp) : Vec :=
  rows.map fun r env =>
    sel r (d.mX.map env) (d.mU.map env) (d.mZ.map env) (d.mP.map env) (d.mV.map env)

/-- Default/length check with `Exception` instead of `ValueError` (ocp.py:138-152). -/
def orDefaultE {α : Type} (given : Option (List α)) (n : Nat) (dflt : α) :
    Except PyErr (List α) := match given with
  | none => .ok (List.replicate n dflt)
  | some l => if l.length = n then .ok l else .error .exception

/-- nosnoc/ocp.py:62-152 `preprocess_ocp`. -/
noncomputable def UserOcp.preprocess (oc : UserOcp) (m : PreModel) : Except PyErr PreOcp := do
  let d := m.dims
  -- 73-74
  check (oc.gPathCompWidth = 2) .valueError
  let split := splitComps oc.gPathComp
  -- 103-111
  let lbg ← orDefault oc.lbg oc.nGPath 0
  let ubg ← orDefault oc.ubg oc.nGPath 0
  -- 114-121
  let lbx ← orDefault oc.lbx d.nX ⊥
  let ubx ← orDefault oc.ubx d.nX ⊤
  -- 124-135
  let lbu ← orDefault oc.lbu d.nU ⊥
  let ubu ← orDefault oc.ubu d.nU ⊤
  let uGuess ← orDefault oc.uGuess d.nU 0
  -- 138-152
  let lbv ← orDefaultE oc.lbv d.nV ⊥
  let ubv ← orDefaultE oc.ubv d.nV ⊤
  let vGuess ← orDefaultE oc.vGuess d.nV 0
  .ok {
    lbu := lbu, ubu := ubu, uGuess := uGuess, lbx := lbx, ubx := ubx, lbg := lbg, ubg := ubg
    lbv := lbv, ubv := ubv, vGuess := vGuess
    -- 64-70
    gTerminalFun := ⟨[d.mX, d.mP, d.mV], (List.range oc.nGTerminal).map fun i env =>
      oc.gTerminal i (d.mX.map env) (d.mP.map env) (d.mV.map env)⟩
    fqTFun := ⟨[d.mX, d.mP, d.mV],
      [fun env => oc.fTerminal (d.mX.map env) (d.mP.map env) (d.mV.map env)]⟩
    fqFun := ⟨[d.mX, d.mU, d.mP, d.mV],
      [fun env => oc.fq (d.mX.map env) (d.mU.map env) (d.mP.map env) (d.mV.map env)]⟩
    gPathFun := ⟨[d.mX, d.mU, d.mP, d.mV], (List.range oc.nGPath).map fun i env =>
      oc.gPath i (d.mX.map env) (d.mU.map env) (d.mP.map env) (d.mV.map env)⟩
    -- 96-100
    gGlobalFun := (⟨[blk d.nPgl .mPgl, d.mV], compCol d PathComp.a split.global⟩,
                   ⟨[blk d.nPgl .mPgl, d.mV], compCol d PathComp.b split.global⟩)
    gCtrlFun := (⟨[d.mU, d.mP, d.mV], compCol d PathComp.a split.ctrl⟩,
                 ⟨[d.mU, d.mP, d.mV], compCol d PathComp.b split.ctrl⟩)
    gRkFun := (⟨[d.mX, d.mU, m.zAll, d.mP, d.mV], compCol d PathComp.a split.stage⟩,
               ⟨[d.mX, d.mU, m.zAll, d.mP, d.mV], compCol d PathComp.b split.stage⟩) }

end Nosnoc
