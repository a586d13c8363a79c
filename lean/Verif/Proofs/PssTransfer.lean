import Verif.Proofs.Transfer
import Verif.Proofs.DcsAlg
import Verif.Spec.SamePath
import Verif.Spec.Objective
/-
Helper: feasibility carries over between the Stewart and the step representation when everything but
the multipliers stays the same.
-/
namespace Nosnoc

/-- The point `env` with other multipliers. -/
def multEnv (env : Env) (M : Fam2 → Nat → Nat → Nat → Nat → Nat → ℝ) (L : Fam2 → Nat → Nat → ℝ) : Env
  | .st2 f k e j s i => M f k e j s i
  | .lam00 f s i => L f s i
  | s => env s

/-- The options with another representation of the discontinuity. -/
def pssOpts (o : PreOpts) (p : PssMode) : PreOpts := { o with pss := p }

/-- The dimensions with other numbers of multipliers. -/
def pssDims (d : Dims) (nC nF : Nat → Nat) : Dims := { d with nC := nC, nF := nF }

theorem multEnv_other {env : Env} {M : Fam2 → Nat → Nat → Nat → Nat → Nat → ℝ}
    {L : Fam2 → Nat → Nat → ℝ} (s : Sym) (hs : ¬ s.IsMult) : multEnv env M L s = env s := by
  cases s with
  | st2 f k e j s i => exact absurd trivial hs
  | lam00 f s i => exact absurd trivial hs
  | _ => rfl

section
variable {o : PreOpts} {p : PssMode} {d : Dims} {nC nF : Nat → Nat} {um : UserModel} {uo : UserOcp}
  {env : Env} {M : Fam2 → Nat → Nat → Nat → Nat → Nat → ℝ} {L : Fam2 → Nat → Nat → ℝ}

theorem multEnv_hVal (k e : Nat) : hVal (pssOpts o p) k e (multEnv env M L) = hVal o k e env := by
  unfold hVal
  show (if o.useFesd then var (.h k e) else const (nominalH o k)) (multEnv env M L) = _
  split <;> rfl

theorem multEnv_sotVal (k : Nat) : sotVal (pssOpts o p) k (multEnv env M L) = sotVal o k env := by
  unfold sotVal
  show (if o.sot = .local then var (.sot k) else const 1) (multEnv env M L) = _
  split <;> rfl

theorem multEnv_endX (k e i : Nat) :
    multEnv env M L (endX (pssOpts o p) k e i) = env (endX o k e i) := by
  have : endX (pssOpts o p) k e i = endX o k e i := rfl
  rw [this]
  unfold endX
  split <;> rfl

theorem multEnv_startX (k e i : Nat) :
    multEnv env M L (startX (pssOpts o p) k e i) = env (startX o k e i) := by
  have : startX (pssOpts o p) k e i = startX o k e i := rfl
  rw [this]
  unfold startX
  cases prevFe o k e with
  | none => rfl
  | some q => exact multEnv_endX (p := p) q.1 q.2 i

theorem multEnv_xVal (k e j : Nat) :
    xVal (pssOpts o p) (pssDims d nC nF) k e j (multEnv env M L) = xVal o d k e j env := by
  refine ext_getD (by rw [length_xVal, length_xVal]; rfl) fun i hi => ?_
  rw [length_xVal] at hi
  rw [xVal_get hi, xVal_get (show i < d.nX from hi), multEnv_startX, multEnv_hVal]
  rfl

theorem multEnv_xEndVal (k e : Nat) :
    xEndVal (pssOpts o p) (pssDims d nC nF) k e (multEnv env M L) = xEndVal o d k e env := by
  unfold xEndVal
  exact List.map_congr_left fun i _ => multEnv_endX k e i

/-- Nonnegative multipliers that are complementary wherever the problem asks for it. -/
structure MultOk (o : PreOpts) (d : Dims) (env : Env) : Prop where
  theta : ∀ k e, HasFE o k e → ∀ j < o.nS, ∀ q, IsPair o d q → 0 ≤ thetaAt k e j env q
  lam : ∀ k e, HasFE o k e → ∀ j < nLamPts o k e, ∀ q, IsPair o d q → 0 ≤ lamAt k e j env q
  lam00 : ∀ q, IsPair o d q → 0 ≤ lam00At env q
  own : ∀ k e, HasFE o k e → ∀ j < o.nS, ∀ q, IsPair o d q →
    thetaAt k e j env q * lamAt k e j env q = 0
  cross : o.useFesd = true → ∀ k e, HasFE o k e → ∀ j < o.nS, ∀ j' < o.nS, ∀ q, IsPair o d q →
    thetaAt k e j env q * lamAt k e j' env q = 0
  crossEnd : o.useFesd = true → o.crossComp = .sumLambdas → ∀ k e, HasFE o k e → ∀ j < o.nS,
    ∀ j' < nLamPts o k e, ∀ q, IsPair o d q → thetaAt k e j env q * lamAt k e j' env q = 0
  crossStart : o.useFesd = true → ∀ k e, HasFE o k e → ∀ j < o.nS, ∀ q, IsPair o d q →
    thetaAt k e j env q * lamStart o k e env q = 0

theorem nLamPts_last {o : PreOpts} (hn : 0 < o.nS) (k e : Nat) : lastLam o k e < nLamPts o k e := by
  unfold lastLam nLamPts; omega

theorem MultOk.start {o : PreOpts} {d : Dims} {env : Env} (H : MultOk o d env) (hn : 0 < o.nS)
    (hpos : ∀ k < o.nStages, 0 < nfe o k) {k e : Nat} (hk : HasFE o k e) {q : Pair}
    (hq : IsPair o d q) : 0 ≤ lamStart o k e env q := by
  unfold lamStart prevFe
  by_cases he : 0 < e
  · simp only [he, if_true]
    exact H.lam k (e - 1) ⟨hk.1, by have := hk.2; omega⟩ _ (nLamPts_last hn _ _) q hq
  · by_cases hk0 : 0 < k
    · simp only [he, hk0, if_true, if_false]
      have := hk.1
      exact H.lam (k - 1) _ ⟨by omega, by have := hpos (k - 1) (by omega); omega⟩ _
        (nLamPts_last hn _ _) q hq
    · simp only [he, hk0, if_false]
      exact H.lam00 q hq

theorem dualLb_le {md : MpccMode} {x : ℝ} (hx : 0 ≤ x) : dualLb md ≤ ((x : ℝ) : EReal) := by
  unfold dualLb
  split
  · exact EReal.coe_nonneg.2 hx
  · exact bot_le

/-- Feasibility carries over to another representation of the discontinuity, possibly with other
switching functions. -/
theorem FeasibleSpec.mult {c' : Option (List UVec)} {S' : Option (List SMat)} {g' : Option (List UVec)}
    (hf : FeasibleSpec o d um uo env) (hn : 0 < o.nS)
    (hpos : ∀ k < o.nStages, 0 < nfe o k)
    (hst : o.stepEq ≠ .direct ∧ o.stepEq ≠ .directComplementarity)
    (hcomp : ∀ xs y, (∀ x ∈ xs, 0 ≤ x) → 0 ≤ y → (∀ x ∈ xs, x * y = 0) → Compl o env xs y)
    (hmult : MultOk (pssOpts o p) (pssDims d nC nF) (multEnv env M L))
    (hsw : ∀ k e, HasFE o k e → ∀ j < o.nS,
      ({ um with c := c', S := S', gStewart := g' } : UserModel).Switching (pssOpts o p) k e j
        (xVal o d k e j env) (zVal d k e j env) (pVal d k env) (multEnv env M L))
    (hbd : o.rbe = false → o.useFesd = true → ∀ k e, HasFE o k e →
      ({ um with c := c', S := S', gStewart := g' } : UserModel).Switching (pssOpts o p) k e
        (lastLam o k e) (xEndVal o d k e env) (zVal d k e (o.nS - 1) env) (pVal d k env)
        (multEnv env M L))
    (hconv : p = .stewart → ∀ k e, HasFE o k e → ∀ j < o.nS, ∀ s < um.nSys,
      ∑ i ∈ Finset.range (um.Fmat s).nCols, M .theta k e j s i = 1)
    (hrhs : ∀ k e, HasFE o k e → ∀ j < o.nS, ∀ i < d.nX,
      ({ um with c := c', S := S', gStewart := g' } : UserModel).stageRhs (pssOpts o p)
        (pssDims d nC nF) k e j i (multEnv env M L) = um.stageRhs o d k e j i env) :
    FeasibleSpec (pssOpts o p) (pssDims d nC nF) { um with c := c', S := S', gStewart := g' } uo
      (multEnv env M L) where
  bounds := by
    intro s hs
    cases s with
    | sElastic => exact hf.bounds .sElastic hs
    | vGlob i => exact hf.bounds (.vGlob i) hs
    | u k i => exact hf.bounds (.u k i) hs
    | sot k => exact hf.bounds (.sot k) hs
    | h k e => exact hf.bounds (.h k e) hs
    | st1 f k e j i =>
      cases f with
      | v => exact hf.bounds (.st1 .v k e j i) hs
      | x => exact hf.bounds (.st1 .x k e j i) hs
      | z => exact hf.bounds (.st1 .z k e j i) hs
    | xEnd k e i => exact hf.bounds (.xEnd k e i) hs
    | st2 f k e j s i =>
      cases f with
      | theta =>
        exact ⟨dualLb_le (hmult.theta k e hs.2.1 j hs.2.2.1 (.region s i) ⟨hs.1, hs.2.2.2⟩), le_top⟩
      | lam =>
        exact ⟨dualLb_le (hmult.lam k e hs.2.1 j hs.2.2.1 (.region s i) ⟨hs.1, hs.2.2.2⟩), le_top⟩
      | mu => exact ⟨bot_le, le_top⟩
      | alpha =>
        refine ⟨dualLb_le (hmult.theta k e hs.2.1 j hs.2.2.1 (.neg s i) ⟨hs.1, hs.2.2.2⟩), ?_⟩
        have : 0 ≤ 1 - M .alpha k e j s i :=
          hmult.theta k e hs.2.1 j hs.2.2.1 (.pos s i) ⟨hs.1, hs.2.2.2⟩
        change ((M .alpha k e j s i : ℝ) : EReal) ≤ 1
        exact_mod_cast (by linarith : M .alpha k e j s i ≤ 1)
      | lamN =>
        exact ⟨dualLb_le (hmult.lam k e hs.2.1 j hs.2.2.1 (.neg s i) ⟨hs.1, hs.2.2.2⟩), le_top⟩
      | lamP =>
        exact ⟨dualLb_le (hmult.lam k e hs.2.1 j hs.2.2.1 (.pos s i) ⟨hs.1, hs.2.2.2⟩), le_top⟩
    | _ => exact absurd hs (by simp [IsVar])
  alg := by
    intro k e hk j hj
    rw [multEnv_xVal]
    obtain ⟨-, -, a3⟩ := hf.alg k e hk j hj
    refine ⟨?_, fun hp s hs => hconv hp k e hk j hj s hs, a3⟩
    exact hsw k e hk j hj
  rk := by
    intro k e hk j hj i hi
    have := hf.rk k e hk j hj i hi
    unfold RkEq at this ⊢
    rw [hrhs k e hk j hj i hi, multEnv_sotVal, multEnv_hVal, multEnv_startX]
    exact this
  lift := by
    intro hl k e hk j hj i hi
    have := hf.lift hl k e hk j hj i hi
    unfold LiftEq at this ⊢
    rw [multEnv_startX, multEnv_hVal]
    exact this
  cont := by
    intro hl k e hk i hi
    have := hf.cont hl k e hk i hi
    unfold EndEq at this ⊢
    rw [multEnv_startX, multEnv_hVal]
    exact this
  boundary := by
    intro h1 h2 k e hk
    rw [multEnv_xEndVal]
    exact hbd h1 h2 k e hk
  pathEnd := by
    intro k e hk he
    rw [multEnv_xEndVal, multEnv_xVal]
    exact hf.pathEnd k e hk he
  pathStage := by
    intro hg k e hk j hj
    rw [multEnv_xVal]
    exact hf.pathStage hg k e hk j hj
  stageComp := by
    intro k e hk j hj q hq
    rw [multEnv_xVal]
    exact hf.stageComp k e hk j hj q hq
  ctrlComp := fun k e hk he q hq => hf.ctrlComp k e hk he q hq
  globComp := fun q hq => hf.globComp q hq
  compStd := by
    intro hu k e hk j hj q hq
    refine hcomp _ _ ?_ (hmult.theta k e hk j hj q hq) ?_
    · simp only [List.mem_singleton, forall_eq]
      exact hmult.lam k e hk j (lt_of_lt_of_le hj (Nat.le_add_right _ _)) q hq
    · simp only [List.mem_singleton, forall_eq]
      rw [mul_comm]
      exact hmult.own k e hk j hj q hq
  compAll := by
    intro hu hc k e hk j hj q hq
    refine ⟨hcomp _ _ ?_ (hmult.start hn hpos hk hq) ?_, fun j' hj' => hcomp _ _ ?_
      (hmult.lam k e hk j' (lt_of_lt_of_le hj' (Nat.le_add_right _ _)) q hq) ?_⟩
    all_goals simp only [List.mem_singleton, forall_eq]
    · exact hmult.theta k e hk j hj q hq
    · exact hmult.crossStart hu k e hk j hj q hq
    · exact hmult.theta k e hk j hj q hq
    · exact hmult.cross hu k e hk j hj j' hj' q hq
  compSum := by
    intro hu hc k e hk j hj q hq
    refine hcomp _ _ ?_ (hmult.theta k e hk j hj q hq) ?_
    · intro x hx
      rcases List.mem_append.1 hx with hx | hx
      · obtain ⟨j', hj', rfl⟩ := List.mem_map.1 hx
        exact hmult.lam k e hk j' (List.mem_range.1 hj') q hq
      · rw [List.mem_singleton.1 hx]
        exact hmult.start hn hpos hk hq
    · intro x hx
      rw [mul_comm]
      rcases List.mem_append.1 hx with hx | hx
      · obtain ⟨j', hj', rfl⟩ := List.mem_map.1 hx
        exact hmult.crossEnd hu hc k e hk j hj j' (List.mem_range.1 hj') q hq
      · rw [List.mem_singleton.1 hx]
        exact hmult.crossStart hu k e hk j hj q hq
  stepDirect := fun _ hs => absurd hs hst.1
  stepDirectComp := fun _ hs => absurd hs hst.2
  stepHComp := by
    intro hu hs k e hk he
    rw [multEnv_hVal, multEnv_hVal]
    exact hf.stepHComp hu hs k e hk he
  equi := by
    intro hu he k hk
    simp only [multEnv_hVal]
    exact hf.equi hu he k hk
  time := by
    intro h1 h2 h3
    simp only [multEnv_hVal]
    exact hf.time h1 h2 h3
  freeze := by
    intro t ht h1 h2 k hk
    rw [multEnv_xEndVal]
    exact hf.freeze t ht h1 h2 k hk
  term := by
    intro i hi
    rw [multEnv_xEndVal]
    exact hf.term i hi

/-- Feasibility carries over to the other representation of the discontinuity. -/
theorem FeasibleSpec.pss (hf : FeasibleSpec o d um uo env) (hn : 0 < o.nS)
    (hpos : ∀ k < o.nStages, 0 < nfe o k)
    (hst : o.stepEq ≠ .direct ∧ o.stepEq ≠ .directComplementarity)
    (hcomp : ∀ xs y, (∀ x ∈ xs, 0 ≤ x) → 0 ≤ y → (∀ x ∈ xs, x * y = 0) → Compl o env xs y)
    (hmult : MultOk (pssOpts o p) (pssDims d nC nF) (multEnv env M L))
    (hsw : ∀ k e, HasFE o k e → ∀ j < nLamPts o k e, ∀ x z p',
      um.Switching o k e j x z p' env → um.Switching (pssOpts o p) k e j x z p' (multEnv env M L))
    (hconv : p = .stewart → ∀ k e, HasFE o k e → ∀ j < o.nS, ∀ s < um.nSys,
      ∑ i ∈ Finset.range (um.Fmat s).nCols, M .theta k e j s i = 1)
    (hrhs : ∀ k e, HasFE o k e → ∀ j < o.nS, ∀ i < d.nX,
      um.stageRhs (pssOpts o p) (pssDims d nC nF) k e j i (multEnv env M L)
        = um.stageRhs o d k e j i env) :
    FeasibleSpec (pssOpts o p) (pssDims d nC nF) um uo (multEnv env M L) :=
  hf.mult (c' := um.c) (S' := um.S) (g' := um.gStewart) hn hpos hst hcomp hmult
    (fun k e hk j hj => hsw k e hk j (lt_of_lt_of_le hj (Nat.le_add_right _ _)) _ _ _
      (hf.alg k e hk j hj).1)
    (fun h1 h2 k e hk => hsw k e hk _ (nLamPts_last hn k e) _ _ _ (hf.boundary h1 h2 k e hk))
    hconv hrhs

theorem objective_multEnv (hs : o.useFesd = false ∨ (o.stepEq ≠ .l2RelaxedScaled ∧ o.stepEq ≠ .l2Relaxed)) :
    objectiveSpec (pssOpts o p) (pssDims d nC nF) uo (multEnv env M L) = objectiveSpec o d uo env := by
  have h1 : runningCost (pssOpts o p) (pssDims d nC nF) uo (multEnv env M L) = runningCost o d uo env := by
    unfold runningCost
    simp only [multEnv_xVal, multEnv_hVal, multEnv_sotVal]
    rfl
  have h2 : stepCosts (pssOpts o p) (pssDims d nC nF) (multEnv env M L) = stepCosts o d env := by
    unfold stepCosts
    refine Finset.sum_congr rfl fun k _ => Finset.sum_congr rfl fun e _ => ?_
    unfold stepCost stepDiff
    simp only [multEnv_hVal]
    have eo : (pssOpts o p).stepEq = o.stepEq := rfl
    have eu : (pssOpts o p).useFesd = o.useFesd := rfl
    rw [eo, eu]
    rcases hs with hs | ⟨h1, h2⟩
    · simp only [hs]; rfl
    · cases h3 : o.stepEq with
      | l2RelaxedScaled => exact absurd h3 h1
      | l2Relaxed => exact absurd h3 h2
      | _ => rfl
  have h3 : terminalCost (pssOpts o p) (pssDims d nC nF) uo (multEnv env M L) = terminalCost o d uo env := by
    unfold terminalCost
    rw [multEnv_xEndVal]
    rfl
  unfold objectiveSpec plainObjective
  rw [h1, h2, h3]
  rfl

/-- Points with the same trajectory have the same objective, unless the step equilibration looks at the
multipliers. -/
theorem objective_samePath {env' : Env} (hp : SamePath env env')
    (hs : o.useFesd = false ∨ (o.stepEq ≠ .l2RelaxedScaled ∧ o.stepEq ≠ .l2Relaxed)) :
    objectiveSpec (pssOpts o p) (pssDims d nC nF) uo env' = objectiveSpec o d uo env := by
  have e : env' = multEnv env (fun f k e j s i => env' (.st2 f k e j s i)) fun f s i => env' (.lam00 f s i) := by
    funext t
    cases t with
    | st2 => rfl
    | lam00 => rfl
    | _ => exact hp _ (by simp [Sym.IsMult])
  rw [e]
  exact objective_multEnv hs

end
end Nosnoc
