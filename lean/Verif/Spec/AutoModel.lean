import Verif.Model.AutoModel
/-
Specification for the auto model (C73-C77, C82): nonsmooth nodes of an expression, the meaning of
switching multipliers, the vector field of the returned model.
-/
namespace Nosnoc.Spec
open Nosnoc

/-- A `sign`, `max` or `min` node. -/
inductive IsSwitch : SX → Prop
  | sign (a) : IsSwitch (.un .sign a)
  | max (a b) : IsSwitch (.bin .fmax a b)
  | min (a b) : IsSwitch (.bin .fmin a b)

/-- `t` occurs in `e` (possibly `t = e`). -/
inductive Subterm (t : SX) : SX → Prop
  | here : Subterm t t
  | un {op a} : Subterm t a → Subterm t (.un op a)
  | left {op a b} : Subterm t a → Subterm t (.bin op a b)
  | right {op a b} : Subterm t b → Subterm t (.bin op a b)

/-- No `sign`, `max` or `min` occurs. -/
def Smooth (e : SX) : Prop := ∀ t, Subterm t e → ¬ IsSwitch t

/-- The occurrences of nonsmooth nodes that are not inside other nonsmooth nodes, from left to
right. -/
def outer : SX → List SX
  | .num _ => []
  | .leaf _ => []
  | .un op a => if op = .sign then [.un op a] else outer a
  | .bin op a b =>
      if op = .fmax ∨ op = .fmin then [.bin op a b] else outer a ++ outer b

/-- The switching function of a nonsmooth node: the argument of `sign`, the difference of the
arguments of `max` and `min`. -/
def switchOf : SX → SX
  | .un _ a => a
  | .bin _ a b => .bin .sub a b
  | e => e

/-- Some nonsmooth node has a nonsmooth node in an argument. -/
def Nested (e : SX) : Prop :=
  ∃ t, Subterm t e ∧ IsSwitch t ∧ ∃ t', Subterm t' t ∧ t' ≠ t ∧ IsSwitch t'

/-- `α` is a value of the (set-valued) step function of `v`: 1 for positive, 0 for negative
arguments.  At zero nothing is required. -/
def StepValue (v α : ℝ) : Prop := (0 < v → α = 1) ∧ (v < 0 → α = 0)

/-- The symbols `as` have the values of the step functions of `cs`. -/
def StepValues (I : Interp) (env : Leaf → ℝ) (cs as : List SX) : Prop :=
  List.Forall₂ (fun c a => StepValue (c.eval I env) (a.eval I env)) cs as

/-- The expression contains no symbol made by the reformulation (as every expression the user can
write). -/
def UserExpr (e : SX) : Prop := ∀ n, .alpha n ∉ e.leaves

/-- Two valuations give the user's symbols the same values. -/
def SameUser (env env' : Leaf → ℝ) : Prop := ∀ l, (∀ n, l ≠ .alpha n) → env' l = env l

/-- No `sign` outside other nonsmooth nodes is evaluated at zero. -/
def SignsNonzero (I : Interp) (env : Leaf → ℝ) (e : SX) : Prop :=
  ∀ a, .un .sign a ∈ outer e → a.eval I env ≠ 0

/-- The region `j` of a system with switching function value `v` and a column `S` of signs is
active: `S_j v > 0`. -/
def Active (S : List Int) (v : ℝ) (j : Nat) : Prop := ∃ s, S[j]? = some s ∧ 0 < (s : ℝ) * v

/-- Column `j` of row `i` of a two-column matrix. -/
def entry (M : List (SX × SX)) (i j : Nat) : SX :=
  if j = 0 then (M.getD i (.num 0, .num 0)).1 else (M.getD i (.num 0, .num 0)).2

/-- `v` is component `i` of the vector field of the model at a point: for a general inclusion `f`
with the step values of the switching functions for `alpha`, for Filippov systems the sum of the
columns of the active regions. -/
def FieldValue (I : Interp) (env : Leaf → ℝ) (i : Nat) (v : ℝ) : AutoOut → Prop
  | .general f c alpha =>
      StepValues I env c alpha ∧ ∃ e, f[i]? = some e ∧ v = e.eval I env
  | .filippov F c S =>
      F.length = c.length ∧ S.length = c.length ∧
      ∃ js : List Nat, js.length = c.length ∧
        (∀ s < c.length, Active (S.getD s []) ((c.getD s (.num 0)).eval I env) (js.getD s 0)) ∧
        v = ((List.range c.length).map fun s =>
          (entry (F.getD s []) i (js.getD s 0)).eval I env).sum

/-- The point lies on no switching surface of the model. -/
def OffSurfaces (I : Interp) (env : Leaf → ℝ) : AutoOut → Prop
  | .general _ c _ => ∀ e ∈ c, e.eval I env ≠ 0
  | .filippov _ c _ => ∀ e ∈ c, e.eval I env ≠ 0

/-- Every additive component of the right-hand side contains at most one outermost nonsmooth
node. -/
def OneEach (rows : List SX) : Prop := ∀ e ∈ rows, ∀ t ∈ components e, (outer t).length ≤ 1

/-- The switching function of the `j`-th nonsmooth component of row `i` (of its first outermost
nonsmooth node). -/
def switchAt (rows : List SX) (i j : Nat) : Option SX :=
  (((rows.getD i (.num 0) |> components).flatMap fun t => (outer t).take 1)[j]?).map switchOf

/-- The right-hand side does not depend on parameters. -/
def NoParams (rows : List SX) : Prop := ∀ e ∈ rows, ∀ k, .p k ∉ e.leaves

/-- The switching functions depend on states only. -/
def StateSwitched (rows : List SX) : Prop :=
  ∀ e ∈ rows, ∀ t ∈ outer e, ∀ l ∈ (switchOf t).leaves, ∃ k, l = .x k

/-- Python iterates over the set of switching functions in some order. -/
def SetOrder (E : AutoEnv) : Prop := ∀ l, (E.order l).Perm l

/-- A node has one expression. -/
def NodesSound (E : AutoEnv) (rows : List SX) : Prop :=
  ∀ i j i' j' c c', switchAt rows i j = some c → switchAt rows i' j' = some c' →
    E.nodeId i j = E.nodeId i' j' → c = c'

/-- Equal switching functions are one shared CasADi node (this holds for instance if every switching
function is a state or occurs only once). -/
def NodesShared (E : AutoEnv) (rows : List SX) : Prop :=
  ∀ i j i' j' c, switchAt rows i j = some c → switchAt rows i' j' = some c →
    E.nodeId i j = E.nodeId i' j'

end Nosnoc.Spec
