import Verif.Model.Problem
/-
Model of `get_results_from_primal_vector` (nosnoc/solver.py:472-539).  Real numbers stand for floats.
-/
namespace Nosnoc

/-- `w_opt[ind]` for a list `ind` of positions (an empty list gives an empty array). -/
def takeIdx (w : List ℝ) (ix : List Nat) : Except PyErr (List ℝ) :=
  ix.mapM fun i => match w[i]? with
    | some v => .ok v
    | none => .error .indexError

/-- `w_opt[np.array(ind)]`: as `takeIdx`, but `np.array([])` has dtype float and is not a valid
index. -/
def takeIdxArr (w : List ℝ) (ix : List Nat) : Except PyErr (List ℝ) :=
  if ix = [] then .error .indexError else takeIdx w ix

/-- `w_opt[ind]` for a list of lists: a matrix; rows of different length raise ValueError
(numpy ≥ 1.24). -/
def takeRows (w : List ℝ) (ixs : List (List Nat)) : Except PyErr (List (List ℝ)) :=
  if ∀ a ∈ ixs, ∀ b ∈ ixs, a.length = b.length then ixs.mapM (takeIdx w) else .error .valueError

/-- `L[-1]`. -/
def lastOf {α : Type} (l : List α) : Except PyErr α := match l.getLast? with
  | some a => .ok a
  | none => .error .indexError

/-- `np.cumsum`, starting from `a`. -/
def cumsumFrom {α : Type} [Add α] (a : α) : List α → List α
  | [] => []
  | x :: l => (a + x) :: cumsumFrom (a + x) l

/-- solver.py:472-539: the entries of the result dictionary (`u_traj` is `u_list`). -/
structure Results where
  xOut : List ℝ
  xList : List (List ℝ)
  xAllList : List (List ℝ)
  uList : List (List ℝ)
  sot : Option (List (List ℝ))
  thetaList : List (List (List ℝ))
  lambdaList : List (List (List ℝ))
  alphaList : List (List ℝ)
  lambdaNList : List (List ℝ)
  lambdaPList : List (List ℝ)
  zList : List (List ℝ)
  timeSteps : List ℝ
  xTraj : List (List ℝ)
  tGrid : List ℝ
  tGridU : List ℝ
  vGlobal : List (List ℝ)
  switchTimes : List ℝ

/-- utils.py:112-113 `get_cont_algebraic_indices`: the last point of every finite element. -/
def contRows (idx : List (List FEIdx)) {α : Type} (f : FEIdx → List α) : Except PyErr (List α) :=
  idx.flatten.mapM fun fi => lastOf (f fi)

/-- solver.py:503-510: without FESD the constant step lengths (all entries of `Nfe_list`; an entry
0 raises ZeroDivisionError). -/
noncomputable def stdSteps (T : ℝ) (nStages : Nat) (nfeList : List Nat) : Except PyErr (List ℝ) := do
  let l ← nfeList.mapM fun (n : Nat) =>
    if n = 0 then .error .zeroDivision
    else (.ok (List.replicate n (T / (nStages : ℝ) / (n : ℝ))) : Except PyErr (List ℝ))
  .ok l.flatten

/-- solver.py:503-510. -/
noncomputable def timeStepsOf (o : PreOpts) (P : Problem) (w : List ℝ) : Except PyErr (List ℝ) :=
  if o.useFesd then takeIdx w (P.idx.flatten.flatMap FEIdx.h)
  else stdSteps o.terminalTime o.nStages o.nfeList

/-- `any(np.abs(a - b) > 0.1)`. -/
noncomputable def changed (a b : List ℝ) : Bool :=
  (List.zipWith (fun x y => decide (1 / 10 < |x - y|)) a b).any id

/-- solver.py:524-537: positions `i`, counted from `n`, at which the entry after `prev` differs from
its predecessor. -/
noncomputable def switchLoop (prev : List ℝ) : (n : Nat) → List (List ℝ) → List Nat
  | _, [] => []
  | n, a :: l => (if changed a prev then [n] else []) ++ switchLoop a (n + 1) l

/-- solver.py:524-537: the list must have a first entry. -/
noncomputable def switchIndices : List (List ℝ) → Except PyErr (List Nat)
  | [] => .error .indexError
  | a :: l => .ok (switchLoop a 0 l)

/-- solver.py:524-537: which multipliers are compared (`theta.flatten()` for Stewart). -/
def switchData (pss : PssMode) (alphaList : List (List ℝ)) (thetaList : List (List (List ℝ))) :
    List (List ℝ) := match pss with
  | .step => alphaList
  | .stewart => thetaList.map List.flatten

/-- solver.py:484-485. -/
def sotOf (mode : SotMode) (ind : List (List Nat)) (w : List ℝ) :
    Except PyErr (Option (List (List ℝ))) := match mode with
  | .none => .ok none
  | _ => do
    let l ← ind.mapM (takeIdx w)
    .ok (some l)

/-- solver.py:472-539 `get_results_from_primal_vector`. -/
noncomputable def getResults (o : PreOpts) (x0 : List ℝ) (P : Problem) (w : List ℝ) :
    Except PyErr Results := do
  let lastRow ← lastOf P.idx
  let lastFe ← lastOf lastRow
  let lastX ← lastOf (lastFe.one .x)
  let xOut ← takeIdx w lastX
  let xList ← P.idx.flatten.mapM fun fi => takeIdx w fi.xCont
  let xAll ← (P.idx.flatten.flatMap fun fi => fi.one .x).mapM (takeIdxArr w)
  let uList ← P.indU.mapM (takeIdx w)
  let sot ← sotOf o.sot P.indSot w
  let thetaRows ← contRows P.idx fun fi => fi.two .theta
  let thetaList ← thetaRows.mapM (takeRows w)
  let lamRows ← contRows P.idx fun fi => fi.two .lam
  let lambdaList ← lamRows.mapM (takeRows w)
  let alphaRows ← contRows P.idx fun fi => fi.two .alpha
  let alphaList ← alphaRows.mapM fun r => takeIdx w r.flatten
  let lamNRows ← contRows P.idx fun fi => fi.two .lamN
  let lambdaNList ← lamNRows.mapM fun r => takeIdx w r.flatten
  let lamPRows ← contRows P.idx fun fi => fi.two .lamP
  let lambdaPList ← lamPRows.mapM fun r => takeIdx w r.flatten
  let zRows ← contRows P.idx fun fi => fi.one .z
  let zList ← zRows.mapM (takeIdx w)
  let timeSteps ← timeStepsOf o P w
  let tGrid := 0 :: cumsumFrom 0 timeSteps
  let tGridU ← takeIdx tGrid (0 :: cumsumFrom 0 o.nfeList)
  let vGlobal ← takeRows w P.indVGlobal
  let sw ← switchIndices (switchData o.pss alphaList thetaList)
  let switchTimes ← takeIdx timeSteps sw
  .ok { xOut, xList, xAllList := x0 :: xAll, uList, sot, thetaList, lambdaList, alphaList,
        lambdaNList, lambdaPList, zList, timeSteps, xTraj := x0 :: xList, tGrid, tGridU, vGlobal,
        switchTimes }

/-- The assignment of values to symbols given by a vector `w` of variable values and a vector `p` of
parameter values (the arguments of the NLP functions). -/
noncomputable def Problem.point (P : Problem) (w p : List ℝ) : Env := fun s =>
  (((P.form.w ++ P.p).zip (w ++ p)).lookup s).getD 0

end Nosnoc
