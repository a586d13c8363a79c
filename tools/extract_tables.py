import ast,sys
from fractions import Fraction
src=open('/repo/nosnoc/rk_utils.py').read()
t=ast.parse(src)
fn=[n for n in t.body if isinstance(n,ast.FunctionDef) and n.name=='generate_butcher_tableu'][0]
def lit(n):
    s=ast.get_source_segment(src,n)
    if isinstance(n,ast.List): return [lit(e) for e in n.elts]
    if isinstance(n,ast.UnaryOp): return -lit(n.operand)
    return Fraction(s)
tabs={}
for br,name in ((fn.body[0],'radau'),(fn.body[0].orelse[0],'gauss')):
    node=[s for s in br.body if isinstance(s,ast.If)][0]
    while True:
        ns=node.test.comparators[0].value
        d={}
        for a in node.body:
            d[a.targets[0].id]=lit(a.value.args[0])
        tabs[(name,ns)]=(d,node.lineno,node.end_lineno, [a.lineno for a in node.body])
        if len(node.orelse)==1 and isinstance(node.orelse[0],ast.If): node=node.orelse[0]
        else: break
import json
if __name__=='__main__':
  for (name,ns),(d,_,_,_) in tabs.items():
    A,b,c=d['A'],d['b'],d['c']
    assert len(A)==ns and all(len(r)==ns for r in A) and len(b)==ns==len(c)
    e1=max(abs(sum(r)-ci) for r,ci in zip(A,c))
    e2=max(abs(sum(bi*ci**(k-1) for bi,ci in zip(b,c))-Fraction(1,k)) for k in range(1,(2*ns if name=='gauss' else 2*ns-1)+1))
    e3=max(abs(sum(A[i][j]*c[j]**(k-1) for j in range(ns))-c[i]**k/k) for i in range(ns) for k in range(1,ns+1))
    stiff=A[-1]==b
    inc=all(c[i]<c[i+1] for i in range(ns-1)) and c[0]>0 and c[-1]<=1
    pos=all(x>0 for x in b)
    e4=max(abs(sum(b[i]*c[i]**(k-1)*A[i][j] for i in range(ns))-b[j]*(1-c[j]**k)/k) for j in range(ns) for k in range(1,ns+1))
    diag=max(abs(c[i]+c[-1-i]-1) for i in range(ns))
    print(name,ns,float(e1),float(e2),float(e3),float(e4),stiff,inc,pos,float(c[-1]),float(diag), float(abs(c[-1]-1)))
