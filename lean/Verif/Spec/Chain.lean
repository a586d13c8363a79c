import Verif.Spec.Window
/-
A chain of points of a problem with one control stage, and the problem over the whole time.
-/
namespace Nosnoc

/-- Options for `N` control stages, each like the only one of `o`. -/
noncomputable def Opts.repeated (o : Opts) (N : Nat) : Opts :=
  { o with
    nStages := N
    terminalTime := o.terminalTime * N
    nfeList := List.replicate N (o.nfeAfter.headD 0) }

/-- The model with the values of the time-varying parameters in all `N` stages. -/
def UserModel.repeated (um : UserModel) (N : Nat) : UserModel :=
  { um with pTimeVarVal := um.pTimeVarVal.map fun V => (List.replicate N V).flatten }

/-- Preprocessed options for the `N` stages. -/
noncomputable def PreOpts.repeated (po : PreOpts) (N : Nat) : PreOpts :=
  { po with
    nStages := N
    terminalTime := po.terminalTime * N
    nfeList := List.replicate N (po.nfeList.headD 0) }

/-- The points `E 0, E 1, …` of a problem with one control stage as one point with many control stages. -/
def chainEnv (E : Nat → Env) : Env
  | .u k i => E k (.u 0 i)
  | .sot k => E k (.sot 0)
  | .h k e => E k (.h 0 e)
  | .st1 f k e j i => E k (.st1 f 0 e j i)
  | .st2 f k e j s i => E k (.st2 f 0 e j s i)
  | .xEnd k e i => E k (.xEnd 0 e i)
  | .pStage k i => E k (.pStage 0 i)
  | t => E 0 t

/-- Every point starts in the state in which the one before ends; what belongs to no stage has one value. -/
structure Linked (po : PreOpts) (d : Dims) (N : Nat) (E : Nat → Env) : Prop where
  state : ∀ k, k + 1 < N → ∀ i < d.nX, E (k + 1) (.x0 i) = E k (endX po 0 (nfe po 0 - 1) i)
  sigma : ∀ k < N, E k .sigma = E 0 .sigma
  tau : ∀ k < N, E k .tau = E 0 .tau
  shared : ∀ k < N, ∀ s : Sym, s.IsShared → IsVar po d s → E k s = E 0 s
  params : ∀ k < N, ∀ i < d.nPtv + d.nPgl, E k (.pStage 0 i) = E 0 (.pStage 0 i)

/-- The initial multipliers of every point are the last multipliers of the one before. -/
def LinkedMultipliers (po : PreOpts) (d : Dims) (N : Nat) (E : Nat → Env) : Prop :=
  ∀ k, k + 1 < N → ∀ q, IsPair po d q →
    lam00At (E (k + 1)) q = lamAt 0 (nfe po 0 - 1) (lastLam po 0 (nfe po 0 - 1)) (E k) q

end Nosnoc
