import Verif.Spec.Feasible
import Verif.Spec.Filippov
/-
The same point with other homotopy parameters (C96), and the distance of a point from the other regions
(C97).
-/
namespace Nosnoc

/-- Replace the homotopy parameters `σ` and `τ`, keep everything else. -/
def withSigma (env : Env) (σ τ : ℝ) : Env
  | .sigma => σ
  | .tau => τ
  | s => env s

/-- The modes that bound complementarity products from above, and BOOLEAN. -/
def Opts.RelaxesByInequality (o : Opts) : Prop :=
  o.mpcc = .scholtesIneq ∨ o.mpcc = .elasticIneq ∨ o.mpcc = .elasticEq ∨ o.mpcc = .elasticTwoSided

/-- The modes that keep complementarity products (or the Fischer-Burmeister function) at a value. -/
def Opts.RelaxesByEquality (o : Opts) : Prop :=
  o.mpcc = .scholtesEq ∨ o.mpcc = .fischerBurmeister ∨ o.mpcc = .fischerBurmeisterIpAug

/-- The point lies in region `i` of system `s`, and all switching functions that this region is defined by
are at least `δ` away from zero. -/
def UserModel.DeepIn (um : UserModel) (s i : Nat) (δ : ℝ) (x z p : List ℝ) : Prop :=
  ∀ n < (um.Smat s).cols, (um.Smat s).entry i n ≠ 0 →
    δ ≤ (um.Smat s).entry i n * (um.cVec s).entry n x z p

/-- The number of terms in the bound: half the number of other regions (Stewart), the number of switching
functions the region is defined by (Step). -/
noncomputable def selConst (o : Opts) (um : UserModel) (s i : Nat) : ℝ :=
  match o.pss with
  | .stewart => (((um.Fmat s).nCols : ℝ) - 1) / 2
  | .step => ((Finset.range (um.Smat s).cols).filter fun n => (um.Smat s).entry i n ≠ 0).card

/-- The amount by which the mode lets a product of two complementary variables exceed zero. -/
noncomputable def relaxTol (o : Opts) (env : Env) : ℝ :=
  match o.mpcc with
  | .scholtesIneq | .scholtesEq => env .sigma
  | .elasticIneq | .elasticEq | .elasticTwoSided => env .sElastic
  | .fischerBurmeister | .fischerBurmeisterIpAug => env .sigma ^ 2 / 2
  | .boolean => 0

end Nosnoc
