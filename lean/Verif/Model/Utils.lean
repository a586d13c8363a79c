/-
Model of nosnoc/utils.py (nested index lists, statuses, errors).
-/
namespace Nosnoc

/-- Python exceptions raised (explicitly or by the interpreter / numpy / CasADi) in the
modelled code.  Messages are dropped; only the class is kept. -/
inductive PyErr
  | valueError | exception | attributeError | indexError | notImplemented
  | typeError | warning | unboundLocal | casadi | unpack | zeroDivision
  deriving DecidableEq, Repr

/-- A Python value as seen by the list utilities: an integer, a nested list, or something
else (a string, a float, ...), for which `increment_indices` raises. -/
inductive PyVal
  | int (n : Int)
  | list (l : List PyVal)
  | other

namespace PyVal

/-- `isinstance(e, list)`. -/
def isList : PyVal → Bool
  | .list _ => true
  | _ => false

/-- nosnoc/utils.py:83-87 `flatten`.
`flatten(L)` is `[a for i in L for a in flatten(i)]` for lists and `[L]` otherwise. -/
def flatten : PyVal → List PyVal
  | .list l => flattenAll l
  | v => [v]
where
  flattenAll : List PyVal → List PyVal
    | [] => []
    | i :: is => flatten i ++ flattenAll is

/-- nosnoc/utils.py:96-105 `increment_indices`.  The argument is iterated, so a
non-list argument raises TypeError (`int` is not iterable). -/
def incrementIndices (v : PyVal) (inc : Int) : Except PyErr PyVal :=
  match v with
  | .list l => do
      let l' ← go l inc
      return .list l'
  | _ => throw .typeError
where
  go : List PyVal → Int → Except PyErr (List PyVal)
    | [], _ => return []
    | .int n :: es, inc => do
        let r ← go es inc
        return .int (n + inc) :: r
    | .list l :: es, inc => do
        let l' ← go l inc
        let r ← go es inc
        return .list l' :: r
    | .other :: _, _ => throw .valueError

/-- nosnoc/utils.py:75 `sum(L, [])`: concatenation; `list + non-list` raises TypeError. -/
def sumLists : List PyVal → Except PyErr (List PyVal)
  | [] => return []
  | .list l :: es => do
      let r ← sumLists es
      return l ++ r
  | _ :: _ => throw .typeError

/-- nosnoc/utils.py:71-79 `flatten_layer(L, layer)`; iterating a non-list raises TypeError. -/
def flattenLayer : Nat → PyVal → Except PyErr PyVal
  | 0, .list l =>
      if l.any isList then do
        let r ← sumLists l
        return .list r
      else return .list l
  | n + 1, .list l => do
      let r ← l.mapM (flattenLayer n)
      return .list r
  | _, _ => throw .typeError

/-- nosnoc/utils.py:90-93 `flatten_outer_layers(L, n_layers)`. -/
def flattenOuterLayers : Nat → PyVal → Except PyErr PyVal
  | 0, v => return v
  | n + 1, v => do
      let v' ← flattenLayer 0 v
      flattenOuterLayers n v'

end PyVal

/-- nosnoc/utils.py:64-68 `check_ipopt_success`. -/
def checkIpoptSuccess (status : String) : Bool :=
  status ∈ ["Solve_Succeeded", "Solved_To_Acceptable_Level", "Feasible_Point_Found",
    "Search_Direction_Becomes_Too_Small"]

end Nosnoc
