# Generates lean/Verif/Model/RkTables.lean from the literals of /repo/nosnoc/rk_utils.py
import sys; sys.path.insert(0,'/verif/tools')
from extract_tables import tabs
from fractions import Fraction
def q(x):
    x=Fraction(x)
    if x.denominator==1: return str(x.numerator) if x>=0 else f"({x.numerator})"
    return f"({x.numerator}/{x.denominator})"
def vec(v): return "["+", ".join(q(x) for x in v)+"]"
def mat(m): return "["+",\n     ".join(vec(r) for r in m)+"]"
out=['''import Mathlib.Data.Rat.Defs
/-
GENERATED by tools/gen_tables.py from the literals of nosnoc/rk_utils.py:49-1052
(`generate_butcher_tableu`).  The decimal literals are kept exactly, as rationals.
-/
namespace Nosnoc

/-- A Butcher tableau as returned by `generate_butcher_tableu`. -/
structure Tableau where
  A : List (List ℚ)
  b : List ℚ
  c : List ℚ
  order : Nat
''']
for (name,ns),(d,l0,_,lines) in tabs.items():
    order = f"2 * {ns} - 1" if name=='radau' else f"2 * {ns}"
    out.append(f'''/-- nosnoc/rk_utils.py, {'RADAU_IIA' if name=='radau' else 'GAUSS_LEGENDRE'} branch `n_s == {ns}` (starting at line {l0}). -/
def {name}{ns} : Tableau where
  A := {mat(d['A'])}
  b := {vec(d['b'])}
  c := {vec(d['c'])}
  order := {order}
''')
out.append("end Nosnoc")
open('/verif/lean/Verif/Model/RkTables.lean','w').write("\n".join(out)+"\n")
