import Verif.Spec.Feasible
import Verif.Spec.Index
/-
Which variable every index list of a problem names.
-/
namespace Nosnoc

/-- The positions `ix` of `w` hold exactly the variables `syms`, in this order. -/
def Names (w : List Sym) : (ix : List Nat) → (syms : List Sym) → Prop :=
  List.Forall₂ fun i s => w[i]? = some s

/-- Rows of `ind_v`: the stage derivatives, one row per stage. -/
def vRows (o : PreOpts) (d : Dims) (k e : Nat) : List (List Sym) :=
  (List.range o.nS).map fun j => if o.irkRep = .integral then [] else blk d.nX (.st1 .v k e j)
/-- Rows of `ind_x`: the stage states where they are variables, then the end state where it is a
variable of its own. -/
def xRows (o : PreOpts) (d : Dims) (k e : Nat) : List (List Sym) :=
  (if o.irkRep = .differential then [] else
    (List.range o.nS).map fun j => blk d.nX (.st1 .x k e j))
  ++ (if ownEnd o then [blk d.nX (.xEnd k e)] else [])
/-- Rows of `ind_z`. -/
def zRows (o : PreOpts) (d : Dims) (k e : Nat) : List (List Sym) :=
  (List.range o.nS).map fun j => blk d.nZ (.st1 .z k e j)
/-- Rows of the two-level lists: one row per point, one entry per subsystem. -/
def famRows (d : Dims) (pts : Nat) (len : Nat → Nat) (f : Fam2) (k e : Nat) :
    List (List (List Sym)) :=
  (List.range pts).map fun j => (List.range d.nSys).map fun s => blk (len s) (.st2 f k e j s)

/-- The index lists of finite element `(k, e)` name its variables. -/
structure FENames (o : PreOpts) (d : Dims) (w : List Sym) (k e : Nat) (fi : FEIdx) : Prop where
  h : Names w fi.h (if o.useFesd then [.h k e] else [])
  v : List.Forall₂ (Names w) (fi.one .v) (vRows o d k e)
  x : List.Forall₂ (Names w) (fi.one .x) (xRows o d k e)
  z : List.Forall₂ (Names w) (fi.one .z) (zRows o d k e)
  xCont : Names w fi.xCont (blk d.nX (endX o k e))
  theta : List.Forall₂ (List.Forall₂ (Names w)) (fi.two .theta)
    (famRows d o.nS (fun s => if o.pss = .stewart then d.nF s else 0) .theta k e)
  lam : List.Forall₂ (List.Forall₂ (Names w)) (fi.two .lam)
    (famRows d (nLamPts o k e) (fun s => if o.pss = .stewart then d.nF s else 0) .lam k e)
  mu : List.Forall₂ (List.Forall₂ (Names w)) (fi.two .mu)
    (famRows d (nLamPts o k e) (fun _ => if o.pss = .stewart then 1 else 0) .mu k e)
  alpha : List.Forall₂ (List.Forall₂ (Names w)) (fi.two .alpha)
    (famRows d o.nS (fun s => if o.pss = .step then d.nC s else 0) .alpha k e)
  lamN : List.Forall₂ (List.Forall₂ (Names w)) (fi.two .lamN)
    (famRows d (nLamPts o k e) (fun s => if o.pss = .step then d.nC s else 0) .lamN k e)
  lamP : List.Forall₂ (List.Forall₂ (Names w)) (fi.two .lamP)
    (famRows d (nLamPts o k e) (fun s => if o.pss = .step then d.nC s else 0) .lamP k e)

/-- All index lists of the problem name the documented variables. -/
structure IndexSpec (o : PreOpts) (d : Dims) (P : Problem) : Prop where
  elastic : List.Forall₂ (Names P.form.w) P.indElastic
    (if o.mpcc = .elasticIneq ∨ o.mpcc = .elasticEq ∨ o.mpcc = .elasticTwoSided
      then [[.sElastic]] else [])
  vGlobal : List.Forall₂ (Names P.form.w) P.indVGlobal [blk d.nV .vGlob]
  u : List.Forall₂ (Names P.form.w) P.indU ((List.range o.nStages).map fun k => blk d.nU (.u k))
  sot : List.Forall₂ (Names P.form.w) P.indSot
    (if o.sot = .local then (List.range o.nStages).map fun k => [.sot k] else [])
  fe : List.Forall₂ (fun row k => List.Forall₂ (fun fi e => FENames o d P.form.w k e fi) row
    (List.range (nfe o k))) P.idx (List.range o.nStages)

end Nosnoc
