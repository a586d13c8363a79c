import Verif.Props.Smooth
import Verif.Spec.SetGuess
/-
What the RK4_SMOOTHENED initialisation should write: integrate the smoothed system with classical RK4
steps from one stage point to the next, and evaluate the smoothed multipliers there.
-/
namespace Nosnoc

/-- Right-hand side of the smoothed system: the Step right-hand side at the smoothed steps. -/
noncomputable def smoothRhs (um : UserModel) (sm : ℝ) (p x : List ℝ) : List ℝ :=
  (List.range um.nX).map fun row => um.rhsStep row x [] [] p [] (um.smoothAlpha sm x [] p)

/-- Steps between the points `c` of an element of length `dt`. -/
noncomputable def stageSteps (dt : ℝ) (c : List ℝ) : List ℝ :=
  (List.zipWith (· - ·) c (0 :: c)).map fun d => dt * d

/-- The states of the smoothed system after each step, `n` elements with the stage points `c`. -/
noncomputable def smoothTraj (um : UserModel) (sm : ℝ) (p : List ℝ) (dt : ℝ) (c : List ℝ) (n : Nat)
    (x0 : List ℝ) : List (List ℝ) :=
  rk4OnTimegrid (smoothRhs um sm p) x0 (List.replicate n (stageSteps dt c)).flatten

/-- The guesses of the first control stage: states `X e j` at stage `j` of element `e < n`, multipliers
`θ` from the smoothed steps, `λ` from the switching conditions, `μ` given. -/
noncomputable def rk4Guess (um : UserModel) (sm : ℝ) (p : List ℝ) (n : Nat) (X : Nat → Nat → List ℝ)
    (mu : List ℝ → Nat → ℝ) : Sym → Option ℝ
  | .st1 .x 0 e j i => if e < n then some ((X e j).getD i 0) else none
  | .st2 .theta 0 e j s i => if e < n then
      some (regionWeight (um.Smat s) i (um.smoothAlpha sm (X e j) [] p s)) else none
  | .st2 .lam 0 e j s i => if e < n then some (um.lam00St (X e j) [] p s i) else none
  | .st2 .mu 0 e j s _ => if e < n then some (mu (X e j) s) else none
  | _ => none

end Nosnoc
