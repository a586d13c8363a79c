import Mathlib.Data.Real.Sign
import Verif.Model.Model
/-
Model of nosnoc/auto_model.py: `NosnocAutoModel`, which turns an ODE written with `sign`, `fmax`
and `fmin` into a `NosnocModel`.

Here expressions are syntax trees (elsewhere in the model an expression is its denotation),
because the code under consideration inspects them.  Simplifications:
* CasADi simplifies expressions while building them (`1*x` to `x`, ...).  The trees here are built
  without simplification; both have the same values, and no property below refers to the exact
  shape of a built tree beyond where `sign`, `fmax`, `fmin` occur.
* floats are rationals (constants) and reals (values).
-/
namespace Nosnoc

/-- Symbols in expressions: entries of `x`, `u`, `p` of the auto model (auto_model.py:35-41) and
the symbols `alpha_<k>` created by the reformulation (auto_model.py:218). -/
inductive Leaf
  | x (i : Nat) | u (i : Nat) | p (i : Nat) | alpha (name : String)
  deriving DecidableEq

/-- Unary operations: those the code asks about, and the others by name. -/
inductive UnOp
  | neg | sign | other (name : String)
  deriving DecidableEq

/-- Binary operations: those the code asks about, and the others by name. -/
inductive BinOp
  | add | sub | mul | fmin | fmax | other (name : String)
  deriving DecidableEq

/-- A scalar `ca.SX`: a node with `n_dep()` 0, 1 or 2 children. -/
inductive SX
  | num (q : ℚ)
  | leaf (l : Leaf)
  | un (op : UnOp) (a : SX)
  | bin (op : BinOp) (a b : SX)
  deriving DecidableEq

/-- The meaning of the other operations (sin, cos, division, ...). -/
structure Interp where
  un : String → ℝ → ℝ
  bin : String → ℝ → ℝ → ℝ

noncomputable def UnOp.eval (I : Interp) : UnOp → ℝ → ℝ
  | .neg, a => -a
  | .sign, a => Real.sign a
  | .other n, a => I.un n a

noncomputable def BinOp.eval (I : Interp) : BinOp → ℝ → ℝ → ℝ
  | .add, a, b => a + b
  | .sub, a, b => a - b
  | .mul, a, b => a * b
  | .fmin, a, b => min a b
  | .fmax, a, b => max a b
  | .other n, a, b => I.bin n a b

/-- The value of an expression, CasADi's evaluation of an `SX`. -/
noncomputable def SX.eval (I : Interp) (env : Leaf → ℝ) : SX → ℝ
  | .num q => (q : ℝ)
  | .leaf l => env l
  | .un op a => op.eval I (a.eval I env)
  | .bin op a b => op.eval I (a.eval I env) (b.eval I env)

/-- The lists of a `NosnocAutoModel` that `reformulate` fills (auto_model.py:47-51).  `F` holds
matrices with two columns, as lists of rows. -/
structure AutoState where
  c : List SX
  S : List (List Int)
  F : List (List (SX × SX))
  alpha : List SX

/-- auto_model.py:47-51. -/
def AutoState.init : AutoState := ⟨[], [], [], []⟩

/-- auto_model.py:218: the name of a fresh symbol. -/
def alphaName (k : Nat) : String := "alpha_" ++ toString k

/-- auto_model.py:210-218 `_find_matching_expr_nonlin`: always a fresh symbol. -/
def AutoState.fresh (s : AutoState) : SX := .leaf (.alpha (alphaName s.alpha.length))

/-- auto_model.py:171-173 (= 187-189, 197-199): record the switching function and its symbol. -/
def AutoState.record (s : AutoState) (c : SX) : AutoState :=
  { s with c := s.c ++ [c], alpha := s.alpha ++ [s.fresh] }

/-- auto_model.py:159-208 `_rebuild_nonlin`. -/
def rebuildNonlin : SX → AutoState → SX × AutoState
  | .num q, s => (.num q, s)
  | .leaf l, s => (.leaf l, s)
  | .un .sign a, s =>
      -- 2*alpha - 1
      (.bin .sub (.bin .mul (.num 2) s.fresh) (.num 1), s.record a)
  | .un op a, s =>
      let r := rebuildNonlin a s
      (.un op r.1, r.2)
  | .bin .fmax a b, s =>
      -- alpha*dep(0) + (1-alpha)*dep(1)
      (.bin .add (.bin .mul s.fresh a) (.bin .mul (.bin .sub (.num 1) s.fresh) b),
        s.record (.bin .sub a b))
  | .bin .fmin a b, s =>
      -- (1-alpha)*dep(0) + alpha*dep(1)
      (.bin .add (.bin .mul (.bin .sub (.num 1) s.fresh) a) (.bin .mul s.fresh b),
        s.record (.bin .sub a b))
  | .bin op a b, s =>
      let l := rebuildNonlin a s
      let r := rebuildNonlin b l.2
      (.bin op l.1 r.1, r.2)

/-- auto_model.py:118-121 `_reformulate_nonlin`: the rows of `f_nonsmooth_ode` in order. -/
def rebuildRows : List SX → AutoState → List SX × AutoState
  | [], s => ([], s)
  | e :: rest, s =>
      let r := rebuildNonlin e s
      let rs := rebuildRows rest r.2
      (r.1 :: rs.1, rs.2)

/-- auto_model.py:245-262 `_check_smooth`. -/
def checkSmooth : SX → Bool
  | .num _ => true
  | .leaf _ => true
  | .un .sign _ => false
  | .un _ a => checkSmooth a
  | .bin .fmax _ _ => false
  | .bin .fmin _ _ => false
  | .bin _ a b => checkSmooth a && checkSmooth b

/-- `node.is_op(OP_SIGN) or node.is_op(OP_FMAX) or node.is_op(OP_FMIN)` (auto_model.py:235, 237). -/
def SX.isSwitchOp : SX → Bool
  | .un .sign _ => true
  | .bin .fmax _ _ => true
  | .bin .fmin _ _ => true
  | _ => false

/-- auto_model.py:220-243 `_check_additive` (`None`, returned for other unary nodes, is falsy). -/
def checkAdditive : SX → Bool
  | .un .neg a => checkAdditive a
  | .un .sign _ => true
  | .bin .fmin _ _ => true
  | .bin .fmax _ _ => true
  | .bin .mul a b =>
      if a.isSwitchOp then checkSmooth b
      else if b.isSwitchOp then checkSmooth a
      else false
  | _ => false

/-- auto_model.py:264-278 `_find_nonlinear_components`. -/
def components : SX → List SX
  | .un .neg a => (components a).map (.un .neg)
  | .bin .add a b => components a ++ components b
  | .bin .sub a b => components a ++ (components b).map (.un .neg)
  | e => [e]

/-- auto_model.py:123-131 `_detect_additive`. -/
def detectAdditive (rows : List SX) : Bool :=
  rows.any fun e => (components e).any checkAdditive

/-- auto_model.py:134-157 `_rebuild_additive_component`: children, switching function, rows of the
switching matrix.  The five-element tuple returned for `fmin` (150) does not unpack into three
names in any of its callers (90, 144, 153, 154): ValueError. -/
def rebuildAdditive : SX → Except PyErr (List SX × Option SX × Option (List Int))
  | .num q => .ok ([.num q], none, none)
  | .leaf l => .ok ([.leaf l], none, none)
  | .un .sign a => .ok ([.num 1, .num (-1)], some a, some [1, -1])
  | .un op a => do
      let (children, c, S) ← rebuildAdditive a
      .ok (children.map (.un op), c, S)
  | .bin .fmax a b => .ok ([a, b], some (.bin .sub a b), some [1, -1])
  | .bin .fmin _ _ => .error .unpack
  | .bin op a b => do
      let (lc, c1, S1) ← rebuildAdditive a
      let (rc, c2, S2) ← rebuildAdditive b
      .ok (lc.flatMap fun l => rc.map fun r => .bin op l r, c1.or c2, S1.or S2)

/-- nosnoc/utils.py:59-63 `casadi_sum_list`: IndexError on the empty list. -/
def sumList : List SX → Except PyErr SX
  | [] => .error .indexError
  | a :: rest => .ok (rest.foldl (.bin .add) a)

/-- One entry `(f, c, S)` of `collated` (auto_model.py:91): only `f[0]` and `f[1]` are read later
(106-107). `id` is the identity of the CasADi node `c`, by which it is hashed as dictionary key. -/
structure AddComp where
  f0 : SX
  f1 : SX
  c : SX
  S : List Int
  id : Nat

/-- auto_model.py:90-91 for one component. -/
def addComp (id : Nat) (e : SX) : Except PyErr AddComp := do
  let (children, c, S) ← rebuildAdditive e
  match c, S with
  | some c, some S => match children with
      | f0 :: f1 :: _ => .ok ⟨f0, f1, c, S, id⟩
      | _ => .error .indexError
  | _, _ => .error .attributeError

/-- auto_model.py:86-92 for one row: `nodeId j` is the node identity of the switching function of
the `j`-th component. -/
def collate (nodeId : Nat → Nat) (comps : List SX) : Except PyErr (List AddComp) :=
  comps.zipIdx.mapM fun ej => addComp (nodeId ej.2) ej.1

/-- auto_model.py:94 `all_c` (without repetitions): `str()` of two expressions agrees iff they are
the same tree. -/
def allC (collated : List (List AddComp)) : List SX :=
  (collated.flatten.map AddComp.c).dedup

/-- auto_model.py:102-108: the entry `f_i[c_str]`. -/
def fEntry (row : List AddComp) (c : SX) : SX × SX :=
  let comps := row.filter fun a => a.c = c
  (comps.foldl (fun acc a => .bin .add acc a.f0) (.num 0),
   comps.foldl (fun acc a => .bin .add acc a.f1) (.num 0))

/-- auto_model.py:105 `cS_map[c] = S`: a dictionary in insertion order, with the node identity as
key. -/
def insertKey (m : List (Nat × SX × List Int)) (a : AddComp) : List (Nat × SX × List Int) :=
  if m.any fun e => e.1 = a.id then m.map fun e => if e.1 = a.id then (e.1, e.2.1, a.S) else e
  else m ++ [(a.id, a.c, a.S)]

/-- auto_model.py:97-109: `cS_map` after the loops over rows, over the set `all_c` in the order
`order`, and over the components. -/
def csMap (collated : List (List AddComp)) (order : List SX) : List (Nat × SX × List Int) :=
  (collated.flatMap fun row => order.flatMap fun c => row.filter fun a => a.c = c).foldl
    insertKey []

/-- auto_model.py:115-116 `F[0][:, k] += f_common`; IndexError if there is no `F[0]`. -/
def addCommon (common : List SX) : List (List (SX × SX)) → Except PyErr (List (List (SX × SX)))
  | [] => .error .indexError
  | F0 :: rest =>
      .ok (List.zipWith (fun e f => (.bin .add e.1 f, .bin .add e.2 f)) F0 common :: rest)

/-- What CasADi and Python's hashing decide: `nodeId i j` is the identity of the node of the
switching function of the `j`-th nonsmooth component of row `i`, and `order` the order in which
the set `all_c` of strings is iterated. -/
structure AutoEnv where
  nodeId : Nat → Nat → Nat
  order : List SX → List SX

/-- auto_model.py:65-116 `_reformulate_linear`. -/
def reformulateLinear (E : AutoEnv) (rows : List SX) (s : AutoState) :
    Except PyErr AutoState := do
  let sm := rows.map fun e => (components e).filter checkSmooth
  let nsm := rows.map fun e => (components e).filter fun t => !checkSmooth t
  let common ← sm.mapM sumList
  let collated ← nsm.zipIdx.mapM fun ri => collate (E.nodeId ri.2) ri.1
  let m := csMap collated (E.order (allC collated))
  let F := s.F ++ m.map fun e => collated.map fun row => fEntry row e.2.1
  let F' ← addCommon common F
  .ok { s with F := F', c := s.c ++ m.map fun e => e.2.1, S := s.S ++ m.map fun e => e.2.2 }

/-- The arguments with which `reformulate` calls `NosnocModel` (auto_model.py:60, 63). -/
inductive AutoOut
  | general (f c alpha : List SX)
  | filippov (F : List (List (SX × SX))) (c : List SX) (S : List (List Int))

/-- auto_model.py:53-63 `reformulate`, with the state of the object before and after. -/
def reformulate (E : AutoEnv) (rows : List SX) (s : AutoState) :
    Except PyErr (AutoOut × AutoState) :=
  if detectAdditive rows then
    let r := rebuildRows rows s
    .ok (.general r.1 r.2.c r.2.alpha, r.2)
  else do
    let s' ← reformulateLinear E rows s
    .ok (.filippov s'.F s'.c s'.S, s')

/-- A model returned earlier, when the object has meanwhile the state `s`: the model holds the
lists `self.c`, `self.F`, `self.S` themselves, not copies (auto_model.py:60, 63); `alpha` is a new
vector. -/
def AutoOut.later (s : AutoState) : AutoOut → AutoOut
  | .general f _ alpha => .general f s.c alpha
  | .filippov _ _ _ => .filippov s.F s.c s.S

/-! The returned `NosnocModel`. -/

/-- The values of the symbols. -/
def leafEnv (x u : List ℝ) (alpha : String → ℝ) : Leaf → ℝ
  | .x i => x.getD i 0
  | .u i => u.getD i 0
  | .p _ => 0
  | .alpha n => alpha n

/-- The symbols of an expression. -/
def SX.leaves : SX → List Leaf
  | .num _ => []
  | .leaf l => [l]
  | .un _ a => a.leaves
  | .bin _ a b => a.leaves ++ b.leaves

/-- Whether the right-hand side is an expression in the symbols that the CasADi functions of the
model have as inputs: `reformulate` does not hand `p` to the model (auto_model.py:60, 63). -/
def SX.noP (e : SX) : Bool := e.leaves.all fun l => match l with | .p _ => false | _ => true
/-- Whether a switching function is an expression in the inputs of `lambda00_fun` (model.py:322),
that is of `x` only. -/
def SX.onlyX (e : SX) : Bool := e.leaves.all fun l => match l with | .x _ => true | _ => false

/-- All expressions of the model. -/
def AutoOut.closed : AutoOut → Bool
  | .general f c _ => f.all SX.noP && c.all SX.onlyX
  | .filippov F c _ =>
      (F.all fun M => M.all fun e => e.1.noP && e.2.noP) && c.all SX.onlyX

/-- A switching function as argument of `NosnocModel` (one row). -/
noncomputable def SX.toUVec (I : Interp) (e : SX) : UVec :=
  ⟨1, fun _ x _ _ => e.eval I (leafEnv x [] fun _ => 0)⟩

/-- The value of the symbol `name` when the list of symbols has the values `vals`. -/
def lookupAlpha (alpha : List SX) (vals : List ℝ) (name : String) : ℝ :=
  vals.getD (alpha.findIdx fun a => a = .leaf (.alpha name)) 0

/-- The user model of auto_model.py:60, 63, for closed expressions: `n_x = len(x)`,
`n_u = len(u)`, everything else is left at the defaults of model.py:57-79. -/
noncomputable def AutoOut.toModel (I : Interp) (nX nU : Nat) (x0 : List ℝ) :
    AutoOut → UserModel
  | .general f c alpha =>
      { nX := nX, nU := nU, nZ := 0, nPtv := 0, nPgl := 0, nV := 0, x0 := x0
        F := none, c := some (c.map (SX.toUVec I)), S := none, gStewart := none
        alpha := some [alpha.length]
        fx := some ⟨1, [1], fun row x a _ u _ _ =>
          (f.getD row (.num 0)).eval I (leafEnv x u (lookupAlpha alpha a))⟩
        gz := ⟨0, fun _ _ _ _ _ => 0⟩, z0 := none, lbz := none, ubz := none
        pTimeVarVal := none, pGlobalVal := [], tVar := none }
  | .filippov F c S =>
      { nX := nX, nU := nU, nZ := 0, nPtv := 0, nPgl := 0, nV := 0, x0 := x0
        F := some (F.map fun M => ⟨2, fun row col x _ u _ _ =>
          let e := M.getD row (.num 0, .num 0)
          (if col = 0 then e.1 else e.2).eval I (leafEnv x u fun _ => 0)⟩)
        c := some (c.map (SX.toUVec I))
        S := some (S.map fun M => ⟨M.length, 1, fun j _ => ((M.getD j 0 : Int) : ℝ)⟩)
        gStewart := none, alpha := none, fx := none
        gz := ⟨0, fun _ _ _ _ _ => 0⟩, z0 := none, lbz := none, ubz := none
        pTimeVarVal := none, pGlobalVal := [], tVar := none }

/-- `preprocess_model` of the returned model: CasADi raises when a function is created whose
expression has a symbol that is no input (reported here before the other errors of
`preprocess_model`). -/
noncomputable def AutoOut.preprocess (I : Interp) (nX nU : Nat) (x0 : List ℝ) (o : PreOpts)
    (out : AutoOut) : Except PyErr PreModel :=
  if out.closed then (out.toModel I nX nU x0).preprocess o else .error .casadi

end Nosnoc
