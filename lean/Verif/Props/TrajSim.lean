import Verif.Props.Trajectory
import Verif.Props.ExamplesEx
/-
C132 for simulations: every chain of discrete trajectories is the result of a simulation.
-/
namespace Nosnoc

section
variable {colloc : IrkScheme → Nat → List ℝ} {o : Opts} {um : UserModel}
  {po : PreOpts} {m : PreModel} {oc : PreOcp} {P : Problem} {T : Traj}

/-- The multipliers of a discrete trajectory are told apart from 0 and 1 by the tolerance: each of them (and the
minimum of the indicator functions) is 0, is 1, or is away from both. -/
def Traj.Separated (T : Traj) (o : PreOpts) (um : UserModel) (ct : ℝ) : Prop :=
  ∀ k e, HasFE o k e → ∀ j < o.nS, ∀ s < um.nSys,
    (∀ i < (um.Fmat s).nCols, Clean ct (T.theta k e j s i) ∧
      Clean ct (um.lam00St (T.stageL um k e j) [] (T.pL um k) s i)) ∧
    Clean ct (-⨅ i : Fin (um.Fmat s).nCols, um.gVal s i (T.stageL um k e j) [] (T.pL um k))

theorem Traj.clean (h : SetupEx colloc o um none po m oc P) (hp : o.pss = .stewart) (hr : po.rbe = true)
    (hb : o.mpcc ≠ .boolean) (hT : T.Separated po um o.compTol) :
    ∀ t ∈ P.form.w, IsMultiplier t → Clean o.compTol (T.env po um t) := by
  intro s hs hmul
  have hp' := h.e_pss.trans hp
  obtain ⟨-, -, -, -, -, -, dS, dF, -⟩ := h.toSetup.dims
  rcases (C04_variables h.toSetup s).2 hs with hv | ⟨hb', -⟩
  · cases s with
    | st2 f k e j s i =>
      cases f with
      | theta =>
        obtain ⟨-, hk, hj, hsy, hi⟩ := hv
        have hs' : s < um.nSys := by rw [← dS]; exact hsy
        rw [dF hp' s hs'] at hi
        exact ((hT k e hk j hj s hs').1 i hi).1
      | lam =>
        obtain ⟨-, hk, hj, hsy, hi⟩ := hv
        rw [nLamPts_rbe hr] at hj
        have hs' : s < um.nSys := by rw [← dS]; exact hsy
        rw [dF hp' s hs'] at hi
        exact ((hT k e hk j hj s hs').1 i hi).2
      | mu =>
        obtain ⟨-, hk, hj, hsy, -⟩ := hv
        rw [nLamPts_rbe hr] at hj
        have hs' : s < um.nSys := by rw [← dS]; exact hsy
        exact (hT k e hk j hj s hs').2
      | alpha => exact absurd (hp'.symm.trans hv.1) (by decide)
      | lamN => exact absurd (hp'.symm.trans hv.1) (by decide)
      | lamP => exact absurd (hp'.symm.trans hv.1) (by decide)
    | _ => exact hmul.elim
  · exact absurd (h.e_mpcc.symm.trans hb') hb

/-- The parameters of the problem, for a trajectory from the stored initial state. -/
theorem Traj.params (h : SetupEx colloc o um none po m oc P) (hp : o.pss = .stewart) (hz0 : um.nZ = 0)
    (hpar : um.nPtv + um.nPgl = 0) {S : Solver} (hi : Inv po m P S)
    (hx : S.m.x0 = (List.range um.nX).map T.x0) (σ τ : ℝ) :
    ∀ s ∈ P.p, withSigma (T.env po um) σ τ s = paramVal um S σ τ s := by
  have h' := h.toSetup
  have hp' := h.e_pss.trans hp
  obtain ⟨dX, -, -, -, dT, dG, -, -, -⟩ := h'.dims
  intro s ht
  rw [p_eq h'] at ht
  unfold pHead at ht
  simp only [List.mem_append, List.mem_flatMap, blk, List.mem_map] at ht
  rcases ht with ((⟨k, hk, i, hi', rfl⟩ | ht) | ((hb | hb) | hb)) | ⟨i, hi', rfl⟩
  · have := List.mem_range.1 hi'
    rw [dT, dG, hpar] at this
    omega
  · simp at ht
    rcases ht with rfl | rfl <;> rfl
  · obtain ⟨s, i, rfl⟩ := mem_lam00Row hb
    change um.lam00St ((List.range um.nX).map T.x0) [] (T.pL um 0) s i
      = um.lam00St S.m.x0 S.m.z0 (S.m.pVal.headD []) s i
    have hz0 : S.m.z0 = [] := by
      rw [hi.z0]
      exact List.eq_nil_of_length_eq_zero (by rw [z0_length h', hz0])
    have hp0 : S.m.pVal.headD [] = [] := by
      cases hpv : S.m.pVal with
      | nil => rfl
      | cons a l =>
        apply List.eq_nil_of_length_eq_zero
        rw [List.headD_cons, hi.pRow a (by rw [hpv]; simp), dT, dG, hpar]
    rw [hx, hz0, hp0]
    unfold Traj.pL
    rw [hpar]
    rfl
  · exfalso
    unfold lam00Row at hb
    simp [hp', Dims.famLen, blk] at hb
  · exfalso
    unfold lam00Row at hb
    simp [hp', Dims.famLen, blk] at hb
  · have hi' := List.mem_range.1 hi'
    rw [dX] at hi'
    change T.x0 i = S.m.x0.getD i 0
    rw [hx]
    simp [List.getD_eq_getElem?_getD, hi']

/-- The last parameters are the initial state. -/
theorem params_state (h : SetupEx colloc o um none po m oc P) (env : Env) :
    (P.p.map env).drop ((P.p.map env).length - um.nX) = (List.range um.nX).map fun i => env (.x0 i) := by
  have dX := h.toSetup.dims.1
  rw [p_eq h.toSetup, List.map_append]
  have : (blk m.dims.nX Sym.x0).map env = (List.range um.nX).map fun i => env (.x0 i) := by
    unfold blk
    rw [List.map_map, dX]
    rfl
  rw [this]
  have hl : ∀ A B : List ℝ, B.length = um.nX → (A ++ B).drop ((A ++ B).length - um.nX) = B := by
    intro A B hB
    rw [List.length_append, hB, Nat.add_sub_cancel, List.drop_left]
  exact hl _ _ (by simp)

/-- C132, simulations: whenever discrete trajectories fit together (`F` assigns to a state a trajectory from it,
and every state `x (k + 1)` is the end of the trajectory of `x k`) and, in case of polishing, the tolerance tells
their multipliers apart from 0 and 1, there is an NLP solver that answers with solutions of the NLPs it is given, and a
simulation with it returns exactly these states, every step reported as SUCCESS. -/
theorem C132_simulated (h : SetupEx colloc o um none po m oc P) (hp : o.pss = .stewart)
    (hf : o.useFesd = true) (hr : po.rbe = true) (hm : o.RelaxesByInequality) (hex : ExactMode o) (hS : SignsOk o um)
    (hz0 : um.nZ = 0) (hpl : PlainProblem o um UserOcp.trivial)
    (hc : o.irkRep = .integral → CollocOk (colloc o.scheme o.nS) o.nS)
    (htol : o.polish = true → o.compTol ≤ 1 / 10) (hfix : o.fixActiveSetFe0 = false)
    (hs0 : 0 < o.sigma0) (hsl : 0 < o.slope) (hpar : um.nPtv + um.nPgl = 0) (hu : um.nU = 0)
    (hst : o.nStages = 1) (hL : o.nfeAfter.length = o.nStages) (hx : 0 < um.nX) (hsot : o.sot ≠ .local)
    (hini : o.initStrategy = .allXcurrentW0Start ∨ o.initStrategy = .allXcurrentWoptPrev)
    (hU : ∀ s < um.nSys, ∀ s' < um.nSys, (um.Fmat s).nCols = (um.Fmat s').nCols)
    {F : List ℝ → Traj} {x : Nat → List ℝ} {N : Nat} (hx0 : (x 0).length = um.nX)
    (hF : ∀ k < N, (List.range um.nX).map (F (x k)).x0 = x k ∧
      (F (x k)).Solves colloc um UserOcp.trivial po ∧
      (o.polish = true → (F (x k)).Separated po um o.compTol) ∧
      x (k + 1) = (F (x k)).stageL um 0 (nfe po 0 - 1) (o.nS - 1)) :
    ∃ orc S L L' R, orc.Exact P ∧ Solver.create colloc o um none = .ok S ∧
      Reachable colloc o um none orc S ∧
      Looper.create S (x 0) N none none = .ok L ∧ L.run orc false = (L', .ok true) ∧ L'.getResults = .ok R ∧
      R.status = List.replicate N .success ∧ ∀ k ≤ N, R.xSim[k * o.nfeAfter.sum]? = some (x k) := by
  have h' := h.toSetup
  let f : List ℝ → List ℝ := fun p => P.form.w.map ((F (p.drop (p.length - um.nX))).env po um)
  obtain ⟨hcr, hSr, hrd⟩ := h'.create (wishOracle P f) (by rcases hini with e | e <;> rw [e] <;> decide)
  obtain ⟨L, hcL⟩ := (C64_create_iff h' hSr (x 0) N none none).1.2 ⟨⟨hu, hst, rfl⟩, .inl rfl⟩
  obtain ⟨L', R, hrun, hR⟩ := C62_run_returns h' hL hSr hrd hx hx0
    (fun _ => ⟨hsot, by rcases hm with e | e | e | e <;> rw [e] <;> decide⟩) (.inl ⟨hini, rfl⟩)
    (fun _ => hU) hcL false
  refine ⟨wishOracle P f, _, L, L', R, wishOracle_exact P f, hcr, hSr, hcL, hrun, hR, ?_⟩
  obtain ⟨result, calls, sim, q1, -⟩ := run_sim h' hL hSr hcL hrun hR
  -- one step
  have step : ∀ k < N, R.xSim[k * o.nfeAfter.sum]? = some (x k) →
      (result k).status = .success ∧ R.xSim[(k + 1) * o.nfeAfter.sum]? = some (x (k + 1)) := by
    intro k hk hxk
    obtain ⟨f1, f2, f3, f4⟩ := hF k hk
    obtain ⟨hB, -, -, hres, -⟩ := q1 k hk
    obtain ⟨x', e1, e2, -⟩ := sim.start k hk
    rw [hxk] at e1
    obtain rfl := Option.some.inj e1
    have D := (Traj.point h hp hf hr hex hS hz0 hpl hc f2).1
    have k1 : ∀ σ τ : ℝ, 0 ≤ σ → P.form.Feasible (withSigma ((F (x k)).env po um) σ τ) :=
      fun σ τ hσ => C98_homotopy h hm hσ D
    have k2 := Traj.params (T := F (x k)) h hp hz0 hpar (hB.inv h') (by rw [e2, f1])
    have k3 : ∀ σ τ : ℝ, f (P.p.map (withSigma ((F (x k)).env po um) σ τ))
        = P.form.w.map ((F (x k)).env po um) := by
      intro σ τ
      show P.form.w.map ((F (List.drop _ _)).env po um) = _
      rw [params_state h]
      have : ((List.range um.nX).map fun i => withSigma ((F (x k)).env po um) σ τ (.x0 i)) = x k := f1
      rw [this]
    obtain ⟨g1, g2⟩ : (result k).status = .success ∧ (result k).wSol = P.form.w.map ((F (x k)).env po um) := by
      cases hpol : o.polish with
      | true =>
        exact wish_polish h hB (sim.solved k hk).1 hpol (.inl hp) (htol hpol) hfix hs0 hsl k1 k2 k3
          (Traj.clean h hp hr hpl.mode.1 (f3 hpol))
      | false => exact wish_plain h hB (sim.solved k hk).1 hpol (.inl hp) hfix hs0 hsl k1 k2 k3
    refine ⟨g1, ?_⟩
    rw [g2] at hres
    have hres := C58_results_at h' hL hres
    rw [sim.finish k hk, hres.xOut, Traj.env_xEnd h', f4, h.e_nStages, hst, h.e_nS]
  have states : ∀ k ≤ N, R.xSim[k * o.nfeAfter.sum]? = some (x k) := by
    intro k
    induction k with
    | zero => intro _; rw [sim.states]; simp
    | succ k ih => intro hk; exact (step k (by omega) (ih (by omega))).2
  refine ⟨?_, states⟩
  rw [sim.status]
  refine List.ext_getElem (by simp) fun k h1 _ => ?_
  have hk : k < N := by simpa using h1
  simpa using (step k hk (states k hk.le)).1

end

end Nosnoc
