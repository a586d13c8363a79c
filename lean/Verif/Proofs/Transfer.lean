import Verif.Proofs.Dynamics
/-
Helper: feasibility carries over between the representations of the same Runge-Kutta method.
-/
namespace Nosnoc

/-- The point `env` with other stage derivatives, stage states and end states. -/
def reEnv (env : Env) (V X : Nat → Nat → Nat → Nat → ℝ) (E : Nat → Nat → Nat → ℝ) : Env
  | .st1 .v k e j i => V k e j i
  | .st1 .x k e j i => X k e j i
  | .xEnd k e i => E k e i
  | s => env s

/-- The options with another representation and coefficients. -/
def reOpts (o : PreOpts) (r : IrkRep) (c : PreOpts) : PreOpts :=
  { o with irkRep := r, aIrk := c.aIrk, bIrk := c.bIrk, BIrk := c.BIrk, CIrk := c.CIrk,
           DIrk := c.DIrk, timePts := c.timePts }

section
variable {o c : PreOpts} {r : IrkRep} {d : Dims} {um : UserModel} {uo : UserOcp} {env : Env}
  {V X : Nat → Nat → Nat → Nat → ℝ} {E : Nat → Nat → Nat → ℝ}

theorem reEnv_lamStart (k e : Nat) (q : Pair) :
    lamStart (reOpts o r c) k e (reEnv env V X E) q = lamStart o k e env q := by
  unfold lamStart
  have hp : prevFe (reOpts o r c) k e = prevFe o k e := rfl
  rw [hp]
  cases prevFe o k e <;> cases q <;> rfl

theorem reEnv_thetaAt (k e j : Nat) (q : Pair) :
    thetaAt k e j (reEnv env V X E) q = thetaAt k e j env q := by cases q <;> rfl

theorem reEnv_lamAt (k e j : Nat) (q : Pair) :
    lamAt k e j (reEnv env V X E) q = lamAt k e j env q := by cases q <;> rfl

theorem reEnv_isPair {q : Pair} : IsPair (reOpts o r c) d q ↔ IsPair o d q := by
  cases q <;> exact Iff.rfl

theorem reEnv_hVal (k e : Nat) :
    hVal (reOpts o r c) k e (reEnv env V X E) = hVal o k e env := by
  unfold hVal
  show (if o.useFesd then var (.h k e) else const (nominalH o k)) (reEnv env V X E) = _
  split <;> rfl

theorem reEnv_sotVal (k : Nat) :
    sotVal (reOpts o r c) k (reEnv env V X E) = sotVal o k env := by
  unfold sotVal
  show (if o.sot = .local then var (.sot k) else const 1) (reEnv env V X E) = _
  split <;> rfl

theorem reEnv_nuOf (k e : Nat) :
    nuOf (reOpts o r c) d k e (reEnv env V X E) = nuOf o d k e env := by
  unfold nuOf sumLam sumTheta
  simp only [reEnv_lamStart, reEnv_thetaAt, reEnv_lamAt]
  rfl

theorem reEnv_alphaVal (k e j : Nat) :
    alphaVal (reOpts o r c) d k e j (reEnv env V X E) = alphaVal o d k e j env := by
  unfold alphaVal rowSyms
  simp only [List.map_flatMap, blk, List.map_map]
  rfl

theorem reEnv_rhs {k e j i : Nat}
    (hx : xVal (reOpts o r c) d k e j (reEnv env V X E) = xVal o d k e j env) :
    um.stageRhs (reOpts o r c) d k e j i (reEnv env V X E) = um.stageRhs o d k e j i env := by
  unfold UserModel.stageRhs
  rw [hx, reEnv_alphaVal]
  rfl

theorem reEnv_switching {k e jl : Nat} {x z p : List ℝ} :
    um.Switching (reOpts o r c) k e jl x z p (reEnv env V X E) ↔ um.Switching o k e jl x z p env :=
  Iff.rfl

theorem reEnv_algebraic {k e j : Nat} {x : List ℝ} :
    um.Algebraic (reOpts o r c) d k e j x (reEnv env V X E) ↔ um.Algebraic o d k e j x env :=
  Iff.rfl

/-- Feasibility carries over when stage states and end states are the same and the dynamics hold in
the new form. -/
theorem FeasibleSpec.transfer (hf : FeasibleSpec o d um uo env) (hn : 0 < o.nS)
    (hx : ∀ k e, HasFE o k e → ∀ j < o.nS,
      xVal (reOpts o r c) d k e j (reEnv env V X E) = xVal o d k e j env)
    (hend : ∀ k e, HasFE o k e →
      xEndVal (reOpts o r c) d k e (reEnv env V X E) = xEndVal o d k e env)
    (hlast : HasFE o (o.nStages - 1) (nfe o (o.nStages - 1) - 1))
    (hstg : ∀ k < o.nStages, 0 < nfe o k)
    (hbX : r ≠ .differential → ∀ k e, HasFE o k e → ∀ j < o.nS, ∀ i < d.nX,
      getOr uo.lbx ⊥ i ≤ ((X k e j i : ℝ) : EReal) ∧ ((X k e j i : ℝ) : EReal) ≤ getOr uo.ubx ⊤ i)
    (hbE : ownEnd (reOpts o r c) = true → ∀ k e, HasFE o k e → ∀ i < d.nX,
      getOr uo.lbx ⊥ i ≤ ((E k e i : ℝ) : EReal) ∧ ((E k e i : ℝ) : EReal) ≤ getOr uo.ubx ⊤ i)
    (hrk : ∀ k e, HasFE o k e → ∀ j < o.nS, ∀ i < d.nX,
      RkEq um (reOpts o r c) d k e j i (reEnv env V X E))
    (hlift : r = .differentialLiftX → ∀ k e, HasFE o k e → ∀ j < o.nS, ∀ i < d.nX,
      LiftEq (reOpts o r c) k e j i (reEnv env V X E))
    (hcont : ownEnd (reOpts o r c) = true → ∀ k e, HasFE o k e → ∀ i < d.nX,
      EndEq (reOpts o r c) k e i (reEnv env V X E)) :
    FeasibleSpec (reOpts o r c) d um uo (reEnv env V X E) where
  bounds := by
    intro s hs
    cases s with
    | sElastic => exact hf.bounds .sElastic hs
    | vGlob i => exact hf.bounds (.vGlob i) hs
    | u k i => exact hf.bounds (.u k i) hs
    | sot k => exact hf.bounds (.sot k) hs
    | h k e => exact hf.bounds (.h k e) hs
    | st1 f k e j i =>
      cases f with
      | v => exact ⟨bot_le, le_top⟩
      | x => exact hbX hs.1 k e hs.2.1 j hs.2.2.1 i hs.2.2.2
      | z => exact hf.bounds (.st1 .z k e j i) hs
    | xEnd k e i => exact hbE hs.1 k e hs.2.1 i hs.2.2
    | st2 f k e j s i =>
      cases f with
      | theta => exact hf.bounds (.st2 .theta k e j s i) hs
      | lam => exact hf.bounds (.st2 .lam k e j s i) hs
      | mu => exact hf.bounds (.st2 .mu k e j s i) hs
      | alpha => exact hf.bounds (.st2 .alpha k e j s i) hs
      | lamN => exact hf.bounds (.st2 .lamN k e j s i) hs
      | lamP => exact hf.bounds (.st2 .lamP k e j s i) hs
    | _ => exact absurd hs (by simp [IsVar])
  alg := by
    intro k e hk j hj
    rw [hx k e hk j hj, reEnv_algebraic]
    exact hf.alg k e hk j hj
  rk := hrk
  lift := hlift
  cont := hcont
  boundary := by
    intro h1 h2 k e hk
    rw [hend k e hk, reEnv_switching]
    exact hf.boundary h1 h2 k e hk
  pathEnd := by
    intro k e hk he
    rw [hend k e hk]
    have hj : o.nS - 1 < o.nS := by omega
    show PathSat uo d k (if o.rbe then
      xVal (reOpts o r c) d k e (o.nS - 1) (reEnv env V X E) else _) _
    rw [hx k e hk _ hj]
    exact hf.pathEnd k e hk he
  pathStage := by
    intro hg k e hk j hj
    have hj' : j < o.nS := lt_of_lt_of_le hj (Nat.sub_le _ _)
    rw [hx k e hk j hj']
    exact hf.pathStage hg k e hk j hj
  stageComp := by
    intro k e hk j hj q hq
    rw [hx k e hk j hj]
    exact hf.stageComp k e hk j hj q hq
  ctrlComp := fun k e hk he q hq => hf.ctrlComp k e hk he q hq
  globComp := fun q hq => hf.globComp q hq
  compStd := by
    intro hu k e hk j hj q hq
    rw [reEnv_lamAt, reEnv_thetaAt]
    exact hf.compStd hu k e hk j hj q (reEnv_isPair.1 hq)
  compAll := by
    intro hu hc k e hk j hj q hq
    rw [reEnv_thetaAt, reEnv_lamStart]
    have := hf.compAll hu hc k e hk j hj q (reEnv_isPair.1 hq)
    refine ⟨this.1, fun j' hj' => ?_⟩
    rw [reEnv_lamAt]
    exact this.2 j' hj'
  compSum := by
    intro hu hc k e hk j hj q hq
    rw [reEnv_thetaAt, reEnv_lamStart]
    simp only [reEnv_lamAt]
    exact hf.compSum hu hc k e hk j hj q (reEnv_isPair.1 hq)
  stepDirect := by
    intro hu hs k e hk he
    rw [reEnv_nuOf, reEnv_hVal, reEnv_hVal]
    exact hf.stepDirect hu hs k e hk he
  stepDirectComp := by
    intro hu hs k e hk he
    rw [reEnv_nuOf, reEnv_hVal, reEnv_hVal]
    exact hf.stepDirectComp hu hs k e hk he
  stepHComp := by
    intro hu hs k e hk he
    rw [reEnv_hVal, reEnv_hVal]
    exact hf.stepHComp hu hs k e hk he
  equi := by
    intro hu he k hk
    simp only [reEnv_hVal]
    exact hf.equi hu he k hk
  time := by
    intro h1 h2 h3
    simp only [reEnv_hVal]
    exact hf.time h1 h2 h3
  freeze := by
    intro t ht h1 h2 k hk
    have hk' : k < o.nStages := hk
    have := hstg k hk'
    show |t (xEndVal (reOpts o r c) d k (nfe o k - 1) (reEnv env V X E)) - _| ≤ _
    rw [hend k (nfe o k - 1) ⟨hk', by omega⟩]
    exact hf.freeze t ht h1 h2 k hk
  term := by
    intro i hi
    show uo.gTerminal i (xEndVal (reOpts o r c) d (o.nStages - 1) (nfe o (o.nStages - 1) - 1)
      (reEnv env V X E)) _ _ = 0
    rw [hend _ _ hlast]
    exact hf.term i hi

end
end Nosnoc
