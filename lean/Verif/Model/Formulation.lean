import Mathlib.Analysis.SpecialFunctions.Pow.Real
import Mathlib.Analysis.SpecialFunctions.Trigonometric.DerivHyp
import Verif.Model.Ocp
/-
Model of `NosnocFormulationObject` (nosnoc/problem.py:15-175): variables, constraints,
complementarity constraints.
-/
namespace Nosnoc

/-- nosnoc/problem.py:18-31: variables with bounds and guess, constraints with bounds, cost.
Every entry of `w` is a symbol. -/
structure Form where
  w : List Sym
  lbw : List EReal
  ubw : List EReal
  w0 : List ℝ
  g : Vec
  lbg : List EReal
  ubg : List EReal
  cost : Expr

/-- nosnoc/problem.py:20-31. -/
def Form.empty : Form := ⟨[], [], [], [], [], [], [], const 0⟩

/-- nosnoc/problem.py:42-62 `add_variable`: returns the new object and `new_indices`
(storing them, lines 63-69, is done by the caller). -/
def Form.addVariable (f : Form) (syms : List Sym) (lb ub : List EReal) (init : List ℝ) :
    Except PyErr (Form × List Nat) :=
  if lb.length ≠ syms.length ∨ ub.length ≠ syms.length ∨ init.length ≠ syms.length then
    .error .exception
  else
    .ok ({ f with w := f.w ++ syms, lbw := f.lbw ++ lb, ubw := f.ubw ++ ub, w0 := f.w0 ++ init },
      List.range' f.w.length syms.length)

/-- nosnoc/problem.py:72-92 `add_constraint`; `bnd = none` stands for the defaults
`lb = ub = 0`.  The second component is `some new_indices` when something was added. -/
noncomputable def Form.addConstraint (f : Form) (g : Vec)
    (bnd : Option (List EReal × List EReal)) : Except PyErr (Form × Option (List Nat)) :=
  if g.length = 0 then .ok (f, none)
  else
    let lb := match bnd with | some b => b.1 | none => List.replicate g.length 0
    let ub := match bnd with | some b => b.2 | none => List.replicate g.length 0
    if lb.length ≠ g.length ∨ ub.length ≠ g.length then .error .exception
    else .ok ({ f with g := f.g ++ g, lbg := f.lbg ++ lb, ubg := f.ubg ++ ub },
      some (List.range' f.g.length g.length))

/-- `casadi_sum_list(x)[j]` (utils.py:57-61). -/
def sumAt (xs : List Vec) (j : Nat) : Expr := fun env => (xs.map fun x => at' x j env).sum

/-- The Fischer-Burmeister term of problem.py:125, 133:
`x + y - sqrt(x**2 + y**2 + sigma**2)`. -/
noncomputable def fbTerm (x y sigma : ℝ) : ℝ := x + y - Real.sqrt (x ^ 2 + y ^ 2 + sigma ^ 2)

/-- `sum_{x_i in x} fb(x_i[j], y[j])` (problem.py:123-125, 131-133). -/
noncomputable def fbAt (xs : List Vec) (y : Vec) (j : Nat) : Expr := fun env =>
  (xs.map fun x => fbTerm (at' x j env) (at' y j env) (env .sigma)).sum

/-- problem.py:144 `bigM = 1e5`. -/
def bigM : ℝ := 100000

/-- problem.py:107-155: the expression `g_comp` for the modes other than BOOLEAN. -/
noncomputable def compExpr (o : Opts) (xs : List Vec) (y : Vec) : Except PyErr Vec :=
  let n := y.length
  let prod (j : Nat) : Expr := fun env => sumAt xs j env * at' y j env
  match o.mpcc with
  | .scholtesEq | .scholtesIneq =>
      .ok ((List.range n).map fun j env => prod j env - env .sigma)
  | .elasticEq | .elasticIneq =>
      .ok ((List.range n).map fun j env => prod j env - env .sElastic)
  | .elasticTwoSided =>
      .ok (((List.range n).map fun j env => prod j env - env .sElastic)
        ++ (List.range n).map fun j env => prod j env + env .sElastic)
  | .fischerBurmeister => .ok ((List.range n).map fun j => fbAt xs y j)
  | .fischerBurmeisterIpAug =>
      match xs with
      | [x] => .ok (
          ((List.range n).map fun j => fbAt [x] y j)
          ++ ((List.range n).map fun j env =>
                o.fbAug1 * (at' x j env - env .sigma) * Real.sqrt (env .tau))
          ++ ((List.range n).map fun j env =>
                o.fbAug1 * (at' y j env - env .sigma) * Real.sqrt (env .tau))
          ++ ((List.range n).map fun j env =>
                o.fbAug2 * fbAt [x] y j env * Real.sqrt (1 + (at' x j env - at' y j env) ^ 2)))
      | _ => .error .exception
  | .boolean => .ok []

/-- problem.py:149-155: `g_comp` in BOOLEAN mode with binary variables `z`. -/
def boolExpr (z : List Sym) (xs : List Vec) (y : Vec) : Vec :=
  let n := y.length
  let zz (j : Nat) : Expr := at' (vars z) j
  ((List.range n).map fun j env => bigM * zz j env - at' y j env)
    ++ ((List.range n).map fun j env => at' y j env + bigM * zz j env)
    ++ ((List.range n).map fun j env => bigM * (1 - zz j env) - sumAt xs j env)
    ++ ((List.range n).map fun j env => sumAt xs j env + bigM * (1 - zz j env))

/-- problem.py:157-173: bounds of the complementarity constraints; `n = len(y)`,
`nComp = len(g_comp)`. -/
noncomputable def compBounds (mode : MpccMode) (n nComp : Nat) : List EReal × List EReal :=
  match mode with
  | .scholtesIneq | .elasticIneq => (List.replicate nComp ⊥, List.replicate nComp 0)
  | .scholtesEq | .fischerBurmeister | .fischerBurmeisterIpAug | .elasticEq =>
      (List.replicate nComp 0, List.replicate nComp 0)
  | .elasticTwoSided =>
      (List.replicate n ⊥ ++ List.replicate n 0, List.replicate n 0 ++ List.replicate n ⊤)
  | .boolean => (List.replicate nComp 0, List.replicate nComp ⊤)

/-- nosnoc/problem.py:94-175 `create_complementarity`.  `boolSym` names the fresh symbols created
by `ca.SX.sym("z", n_z)` at position `pos` of `w`.  Returns the new object, the indices appended to
`ind_bool` (BOOLEAN mode) and to `ind_comp`.  All vectors must be as long as `y` (CasADi would
expand scalars; never used by the library except with length-1 vectors). -/
noncomputable def Form.createCompl (o : Opts) (boolSym : Nat → Sym) (f : Form) (xs : List Vec)
    (y : Vec) : Except PyErr (Form × Option (List Nat) × Option (List Nat)) :=
  if xs = [] ∨ ∃ x ∈ xs, x.length ≠ y.length then .error .casadi
  else if o.mpcc = .boolean then do
    let n := y.length
    let z := (List.range' f.w.length n).map boolSym
    let (f1, bi) ← f.addVariable z (List.replicate n 0) (List.replicate n 1)
      (List.replicate n (1 / 2))
    let g := boolExpr z xs y
    let (f2, ci) ← f1.addConstraint g (some (compBounds .boolean n g.length))
    .ok (f2, some bi, ci)
  else do
    let g ← compExpr o xs y
    let (f1, ci) ← f.addConstraint g (some (compBounds o.mpcc y.length g.length))
    .ok (f1, none, ci)

end Nosnoc
