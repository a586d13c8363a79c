import Verif.Model.FiniteElement
/-
Names of the discretised quantities: which symbols stand for the state, multipliers, … of a finite
element.  This is the vocabulary in which the properties are stated; it does not refer to index
lists.
-/
namespace Nosnoc

/-- Number of finite elements of control stage `k`. -/
def nfe (o : PreOpts) (k : Nat) : Nat := o.nfeList.getD k 0

/-- All entries of family `f` (over all subsystems) at stage point `j` of element `(k, e)`. -/
def rowSyms (o : PreOpts) (d : Dims) (k e : Nat) (f : Fam2) (j : Nat) : List Sym :=
  (List.range d.nSys).flatMap fun s => blk (d.famLen o.pss f s) (.st2 f k e j s)

/-- Is the state at the end of an element a variable of its own?  It is unless the last stage is the
end point (`rbe`) and the stage states are variables. -/
def ownEnd (o : PreOpts) : Bool := !o.rbe || decide (o.irkRep = .differential)

/-- Number of multiplier points after the stages of element `(k, e)`: with FESD and a scheme whose
last stage is not the end point, every element except the last one of its control stage has
multipliers at its end. -/
def extraPt (o : PreOpts) (k e : Nat) : Nat :=
  if o.useFesd = true ∧ o.rbe = false ∧ e + 1 < nfe o k then 1 else 0

/-- Nominal step length on control stage `k`: `(T / N_stages) / N_fe(k)`. -/
noncomputable def nominalH (o : PreOpts) (k : Nat) : ℝ := o.terminalTime / o.nStages / (nfe o k : ℝ)

/-- State component `i` at the end of element `(k, e)`: a variable of its own, or the last stage
state. -/
def endX (o : PreOpts) (k e i : Nat) : Sym :=
  if ownEnd o then .xEnd k e i else .st1 .x k e (o.nS - 1) i

/-- Multipliers at point `j` of element `(k, e)`: Stewart `λ`, Step `λⁿ` then `λᵖ`. -/
def lamSyms (o : PreOpts) (d : Dims) (k e j : Nat) : List Sym :=
  rowSyms o d k e .lam j ++ rowSyms o d k e .lamN j ++ rowSyms o d k e .lamP j

/-- Index of the last point of element `(k, e)` that has multipliers: the boundary point if there
is one, otherwise the last stage. -/
def lastLam (o : PreOpts) (k e : Nat) : Nat := o.nS + extraPt o k e - 1

/-- The convex multipliers at stage `j`: Stewart `θ`, Step `α` then `1 - α`. -/
def thetaVec (o : PreOpts) (d : Dims) (k e j : Nat) : Vec :=
  vars (rowSyms o d k e .theta j) ++ vars (rowSyms o d k e .alpha j)
    ++ (vars (rowSyms o d k e .alpha j)).map (fun x env => 1 - x env)

/-- All algebraic variables at stage `j`, multipliers taken at point `jl`. -/
def zSyms (o : PreOpts) (d : Dims) (k e j jl : Nat) : List Sym :=
  rowSyms o d k e .theta j ++ rowSyms o d k e .lam jl ++ rowSyms o d k e .mu jl
    ++ rowSyms o d k e .alpha j ++ rowSyms o d k e .lamN jl ++ rowSyms o d k e .lamP jl
    ++ blk d.nZ (.st1 .z k e j)

/-- The element before `(k, e)`: `none` for the very first one. -/
def prevFe (o : PreOpts) (k e : Nat) : Option (Nat × Nat) :=
  if 0 < e then some (k, e - 1)
  else if 0 < k then some (k - 1, nfe o (k - 1) - 1)
  else none

/-- State component `i` at the beginning of element `(k, e)`: the end state of the previous
element, the parameter `x0` for the first one. -/
def startX (o : PreOpts) (k e i : Nat) : Sym :=
  match prevFe o k e with
  | some (k', e') => endX o k' e' i
  | none => .x0 i

/-- Multipliers of the initial point (parameters), per family. -/
def lam00Row (o : PreOpts) (d : Dims) (f : Fam2) : List Sym :=
  (List.range d.nSys).flatMap fun s => blk (d.famLen o.pss f s) (.lam00 f s)

/-- Multipliers at the beginning of element `(k, e)`. -/
def startLamSyms (o : PreOpts) (d : Dims) (k e : Nat) : List Sym :=
  match prevFe o k e with
  | some (k', e') => lamSyms o d k' e' (lastLam o k' e')
  | none => lam00Row o d .lam ++ lam00Row o d .lamN ++ lam00Row o d .lamP

/-- Step length of element `(k, e)`. -/
noncomputable def hVal (o : PreOpts) (k e : Nat) : Expr :=
  if o.useFesd then var (.h k e) else const (nominalH o k)

/-- Speed of time on control stage `k`. -/
def sotVal (o : PreOpts) (k : Nat) : Expr :=
  if o.sot = .local then var (.sot k) else const 1

end Nosnoc
