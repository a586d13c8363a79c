import Verif.Model.Opts
import Verif.Spec.User
/-
Which user models are consistent, stated in terms of what the user passes in.
-/
namespace Nosnoc

/-- A vector the user may leave out has the right length when given. -/
def LenOk {α : Type} (v : Option (List α)) (n : Nat) : Prop := ∀ l, v = some l → l.length = n

/-- Requirements common to all kinds of models. -/
structure CommonOk (um : UserModel) (o : PreOpts) : Prop where
  z0 : LenOk um.z0 um.nZ
  lbz : LenOk um.lbz um.nZ
  ubz : LenOk um.ubz um.nZ
  pGlobal : um.pGlobalVal.length = um.nPgl
  pTimeVar : ∀ V, um.pTimeVarVal = some V → V.length = o.nStages ∧ ∀ r ∈ V, r.length = um.nPtv
  time : um.tVar.isSome = true ∨ o.timeFreezing = false

/-- Switching systems `F`, `c`, `S`: one column of `F` per row of `S`, one switching function per column
of `S`; every system switches.  In the step representation superfluous zero columns of `S` are
tolerated and all systems must have the same number of regions (the multipliers are collected in
one matrix). -/
structure SwitchedOk (um : UserModel) (pss : PssMode) (Fs : List UMat) (cs : List UVec) (Ss : List SMat) :
    Prop where
  F : um.F = some Fs
  c : um.c = some cs
  S : um.S = some Ss
  g : um.gStewart = none
  switching : ∀ f ∈ Fs, f.nCols ≠ 1
  lenCS : cs.length = Ss.length
  lenFC : Fs.length ≤ cs.length
  rows : ∀ s < Fs.length, (um.Fmat s).nCols = (um.Smat s).rows
  cols : pss = .stewart → ∀ s < Fs.length, (um.Smat s).cols = (um.cVec s).len
  used : pss = .step → ∀ s < Fs.length, ∀ i < (um.Smat s).rows, ∀ k < (um.Smat s).cols,
    (um.Smat s).entry i k ≠ 0 → k < (um.cVec s).len
  equal : pss = .step → ∀ s < Fs.length, (um.Smat s).rows = (um.Smat 0).rows

/-- Systems `F` with Stewart's indicator functions: one function per column of `F`. -/
structure IndicatorOk (um : UserModel) (pss : PssMode) (Fs : List UMat) (gs : List UVec) : Prop where
  F : um.F = some Fs
  g : um.gStewart = some gs
  nonempty : gs ≠ []
  cS : um.c = none ∨ um.S = none
  stewart : pss = .stewart
  switching : ∀ f ∈ Fs, f.nCols ≠ 1
  len : gs.length = Fs.length
  cols : ∀ s < Fs.length, (um.gSt s).len = (um.Fmat s).nCols

/-- General inclusions `f_x(alpha)`: as many switching functions as `alpha`s. -/
structure InclusionOk (um : UserModel) (pss : PssMode) (f : UFx) (cs : List UVec) (al : List Nat) :
    Prop where
  F : um.F = none
  fx : um.fx = some f
  c : um.c = some cs
  alpha : um.alpha = some al
  step : pss = .step
  total : (cs.map UVec.len).sum = al.sum
  lenA : f.pieces ≤ al.length
  lenC : f.pieces ≤ cs.length
  first : um.gStewartTruthy = false → ((cs.take f.pieces).map UVec.len).sum = al.sum
  noG : um.gStewartTruthy = true → al.sum = 0

end Nosnoc
