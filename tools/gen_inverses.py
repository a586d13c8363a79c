# Generates lean/Verif/Proofs/TableInverse.lean: approximate inverses of the Butcher matrices of /repo/nosnoc/rk_utils.py
import sys; sys.path.insert(0,'/verif/tools')
from extract_tables import tabs
from fractions import Fraction as F
def inv(A):
    n=len(A); M=[[F(x) for x in r]+[F(int(i==j)) for j in range(n)] for i,r in enumerate(A)]
    for i in range(n):
        p=next(k for k in range(i,n) if M[k][i]!=0); M[i],M[p]=M[p],M[i]
        M[i]=[x/M[i][i] for x in M[i]]
        for k in range(n):
            if k!=i: M[k]=[x-M[k][i]*y for x,y in zip(M[k],M[i])]
    return [r[n:] for r in M]
D=100
def q(x):
    x=F(round(x*D),D)
    if x.denominator==1: return str(x.numerator) if x>=0 else f"({x.numerator})"
    return f"({x.numerator}/{x.denominator})"
out=['''import Verif.Model.Rk
/-
GENERATED by tools/gen_inverses.py: approximate inverses (to two digits) of the Butcher matrices.
-/
namespace Nosnoc

/-- An approximate inverse of the matrix of `generateButcher n s`. -/
def approxInverse (n : Nat) (s : IrkScheme) : List (List ℚ) :=
  match s, n with''']
for (name,ns),(d,*_) in tabs.items():
    A=[[F(x) for x in r] for r in d['A']]; B=inv(A)
    R=[[F(round(x*D),D) for x in r] for r in B]
    err=max(sum(abs(int(i==j)-sum(R[i][k]*A[k][j] for k in range(ns))) for j in range(ns)) for i in range(ns))
    print(name,ns,float(err))
    c='.radauIIA' if name=='radau' else '.gaussLegendre'
    out.append(f"  | {c}, {ns} => ["+",\n      ".join("["+", ".join(q(x) for x in r)+"]" for r in B)+"]")
out.append("  | _, _ => []\n\nend Nosnoc")
open('/verif/lean/Verif/Proofs/TableInverse.lean','w').write("\n".join(out)+"\n")
