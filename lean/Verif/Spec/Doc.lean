import Verif.Spec.User
import Verif.Spec.Names
/-
Bounds and initial guess of every optimisation variable, stated per variable and in terms of what
the user passes in (options, model, ocp).
-/
namespace Nosnoc

/-- Component `i` of an optional user vector, `d` when the user gave none. -/
def getOr {α : Type} (given : Option (List α)) (d : α) (i : Nat) : α := match given with
  | some l => l.getD i d
  | none => d

/-- Bounds and guess of one variable. -/
structure VarDoc where
  lb : EReal
  ub : EReal
  init : ℝ

/-- Lower bound of the multipliers: `0` for the modes that multiply them, otherwise none. -/
noncomputable def dualLb (mode : MpccMode) : EReal :=
  if mode = .scholtesEq ∨ mode = .scholtesIneq ∨ mode = .elasticIneq ∨ mode = .elasticEq
  then 0 else ⊥

/-- The documented bounds and guess of every variable (parameters and model symbols are no
variables; their value here is irrelevant). -/
noncomputable def varDoc (o : PreOpts) (um : UserModel) (uo : UserOcp) : Sym → VarDoc
  | .sElastic => ⟨((o.sElasticMin : ℝ) : EReal), ((o.sElasticMax : ℝ) : EReal), o.sElastic0⟩
  | .vGlob i => ⟨getOr uo.lbv ⊥ i, getOr uo.ubv ⊤ i, getOr uo.vGuess 0 i⟩
  | .u _ i => ⟨getOr uo.lbu ⊥ i, getOr uo.ubu ⊤ i, getOr uo.uGuess 0 i⟩
  | .sot _ => ⟨((o.sotMin : ℝ) : EReal), ((o.sotMax : ℝ) : EReal), 1⟩
  | .h k _ => ⟨(((1 - o.gammaH) * nominalH o k : ℝ) : EReal),
      (((1 + o.gammaH) * nominalH o k : ℝ) : EReal), nominalH o k⟩
  | .st1 .v _ _ _ _ => ⟨⊥, ⊤, 0⟩
  | .st1 .x _ _ _ i => ⟨getOr uo.lbx ⊥ i, getOr uo.ubx ⊤ i, um.x0.getD i 0⟩
  | .st1 .z _ _ _ i => ⟨getOr um.lbz ⊥ i, getOr um.ubz ⊤ i, getOr um.z0 0 i⟩
  | .xEnd _ _ i => ⟨getOr uo.lbx ⊥ i, getOr uo.ubx ⊤ i, um.x0.getD i 0⟩
  | .st2 .mu _ _ _ _ _ => ⟨⊥, ⊤, 1⟩
  | .st2 .theta _ _ _ s _ => ⟨dualLb o.mpcc, ⊤, o.sigma0 / ((um.Fmat s).nCols : ℝ)⟩
  | .st2 .lam _ _ _ s _ => ⟨dualLb o.mpcc, ⊤, o.sigma0 / ((um.Fmat s).nCols : ℝ)⟩
  | .st2 .alpha _ _ _ _ _ => ⟨dualLb o.mpcc, 1, 1 / 2⟩
  | .st2 .lamN _ _ _ _ _ => ⟨dualLb o.mpcc, ⊤, 1 / 2⟩
  | .st2 .lamP _ _ _ _ _ => ⟨dualLb o.mpcc, ⊤, 1 / 2⟩
  | .boolFe _ _ _ => ⟨0, 1, 1 / 2⟩
  | .boolGlob _ => ⟨0, 1, 1 / 2⟩
  | _ => ⟨⊥, ⊤, 0⟩

end Nosnoc
