import Verif.Props.StepTraj
import Verif.Props.TrajSim
import Verif.Proofs.WellPosed
/-
C137 for models with one switching function per subsystem, and for simulations in Step mode.
-/
namespace Nosnoc

section
variable {colloc : IrkScheme → Nat → List ℝ} {o : Opts} {um : UserModel}
  {po : PreOpts} {m : PreModel} {oc : PreOcp} {P : Problem} {T : Traj}
  {a : Nat → Nat → Nat → Nat → Nat → ℝ}

/-- The representation of the switched system does not matter for being a discrete trajectory. -/
theorem Traj.Solves.pss {uo uo' : Option UserOcp} {uo'' : UserOcp} {p : PssMode} {po' : PreOpts} {m' : PreModel}
    {oc' : PreOcp} {P' : Problem} (h : SetupEx colloc o um uo po m oc P)
    (h' : SetupEx colloc { o with pss := p } um uo' po' m' oc' P') (hT : T.Solves colloc um uo'' po) :
    T.Solves colloc um uo'' po' := by
  have e1 : po'.nStages = po.nStages := h'.e_nStages.trans h.e_nStages.symm
  have e2 : po'.nfeList = po.nfeList := h'.e_nfeList.trans h.e_nfeList.symm
  have e3 : po'.nS = po.nS := h'.e_nS.trans h.e_nS.symm
  have e4 : po'.irkRep = po.irkRep := h'.e_irkRep.trans h.e_irkRep.symm
  have e5 : po'.scheme = po.scheme := h'.e_scheme.trans h.e_scheme.symm
  have e6 : po'.gammaH = po.gammaH := h'.e_gammaH.trans h.e_gammaH.symm
  have e7 : po'.terminalTime = po.terminalTime := h'.e_terminalTime.trans h.e_terminalTime.symm
  have e8 : po'.equidistant = po.equidistant := h'.e_equidistant.trans h.e_equidistant.symm
  have e9 : po'.sot = po.sot := h'.e_sot.trans h.e_sot.symm
  have e10 : po'.sotMin = po.sotMin :=
    (congrArg Opts.sotMin h'.opts).trans (congrArg Opts.sotMin h.opts).symm
  have e11 : po'.sotMax = po.sotMax :=
    (congrArg Opts.sotMax h'.opts).trans (congrArg Opts.sotMax h.opts).symm
  have e12 : po'.gPathAtFe = po.gPathAtFe :=
    (congrArg Opts.gPathAtFe h'.opts).trans (congrArg Opts.gPathAtFe h.opts).symm
  have en : nfe po' = nfe po := by funext k; unfold nfe; rw [e2]
  have ef : ∀ {k e}, HasFE po' k e → HasFE po k e := by
    intro k e hk; unfold HasFE at hk ⊢; rwa [← e1, ← en]
  have ep : prevFe po' = prevFe po := by funext k e; unfold prevFe; rw [en]
  have es : T.start po' = T.start po := by funext k e i; unfold Traj.start; rw [ep, e3]
  have eS : T.startL po' um = T.startL po um := by funext k e; unfold Traj.startL; rw [es]
  have eP : prevStage po' = prevStage po := by funext k e; unfold prevStage; rw [ep]
  have eN : nominalH po' = nominalH po := by funext k; unfold nominalH; rw [e7, e1, en]
  refine ⟨?_, ?_, ?_, ?_, ?_, ?_, ?_, ?_, ?_, ?_, ?_, ?_, ?_, ?_, ?_⟩
  · rw [e4, e3, e5, es]; exact fun h k e hk => hT.collocation h k e (ef hk)
  · rw [e4, e3, e5, es]; exact fun h t ht k e hk => hT.rungeKutta h t ht k e (ef hk)
  · rw [e3]; exact fun k e hk => hT.convex k e (ef hk)
  · rw [e3]; exact fun k e hk => hT.closed k e (ef hk)
  · rw [e3, eS, eP]; exact fun k e hk => hT.closedStart k e (ef hk)
  · rw [e6, eN]; exact fun k e hk => hT.box k e (ef hk)
  · rw [e8, e1, en, e7]; exact hT.equi
  · rw [e8, e1, en, e7]; exact hT.time
  · rw [e9, e1]; exact hT.noSpeed
  · rw [e9, e1, e10, e11]; exact hT.speedBox
  · rw [e4, e3]; exact fun k e hk => hT.xBox k e (ef hk)
  · rw [e1]; exact hT.uBox
  · exact hT.vBox
  · rw [e3, e12, en]; exact fun k e hk => hT.path k e (ef hk)
  · rw [e1, e3, en]; exact hT.term

/-- With one switching function per subsystem, whose two signs give the two regions, every convex combination is a
product of values of step functions. -/
theorem Traj.Solves.stepWeights {uo : UserOcp} (hD : ∀ s < um.nSys, (um.Smat s).IsDense ∧ (um.Smat s).Partition ∧
      (um.Smat s).cols = 1 ∧ (um.cVec s).len = 1 ∧ (um.Fmat s).nCols = (um.Smat s).rows)
    (hT : T.Solves colloc um uo po) : ∃ a, T.StepWeights a um po := by
  have hrow : ∀ s, ∃ r r', s < um.nSys → r < (um.Smat s).rows ∧ r' < (um.Smat s).rows ∧
      (um.Smat s).entry r 0 = 1 ∧ (um.Smat s).entry r' 0 = -1 ∧ (∀ i < (um.Smat s).rows, i = r ∨ i = r') ∧
      ∀ f : Nat → ℝ, ∑ i ∈ Finset.range (um.Smat s).rows, f i = f r + f r' := by
    intro s
    by_cases hs : s < um.nSys
    · obtain ⟨h1, h2, h3, -⟩ := hD s hs
      obtain ⟨r, hr, r', hr', -, e1, e2, e3, e4⟩ := SMat.two_rows h1 h2 h3
      exact ⟨r, r', fun _ => ⟨hr, hr', e1, e2, e3, e4⟩⟩
    · exact ⟨0, 0, fun h => absurd h hs⟩
  choose r r' hr using hrow
  have key : ∀ k e, HasFE po k e → ∀ j < po.nS, ∀ s < um.nSys,
      0 ≤ T.theta k e j s (r s) ∧ 0 ≤ T.theta k e j s (r' s) ∧
        T.theta k e j s (r' s) = 1 - T.theta k e j s (r s) := by
    intro k e hk j hj s hs
    obtain ⟨-, -, -, -, hc⟩ := hD s hs
    obtain ⟨r1, r2, -, -, -, r6⟩ := hr s hs
    obtain ⟨c1, c2⟩ := hT.convex k e hk j hj s hs
    rw [hc, r6] at c2
    exact ⟨c1 _ (by omega), c1 _ (by omega), by linarith⟩
  have region : ∀ s < um.nSys, ∀ n < (um.cVec s).len, ∀ x p,
      (um.InClosedRegion s (r s) x p → 0 ≤ (um.cVec s).entry n x [] p) ∧
      (um.InClosedRegion s (r' s) x p → (um.cVec s).entry n x [] p ≤ 0) := by
    intro s hs n hn x p
    obtain ⟨-, -, h3, h4, -⟩ := hD s hs
    obtain ⟨-, -, r3, r4, -⟩ := hr s hs
    obtain rfl : n = 0 := by omega
    constructor
    · intro hc
      have := hc 0 (by omega)
      rwa [r3, one_mul] at this
    · intro hc
      have := hc 0 (by omega)
      rw [r4] at this
      linarith
  refine ⟨fun k e j s _ => T.theta k e j s (r s), ?_, ?_, ?_, ?_, ?_, ?_⟩
  · intro k e hk j hj s hs n hn
    obtain ⟨k1, k2, k3⟩ := key k e hk j hj s hs
    exact ⟨k1, by linarith⟩
  · intro k e hk j hj s hs i hi
    obtain ⟨-, -, h3, -, h5⟩ := hD s hs
    obtain ⟨r1, r2, r3, r4, r5, r6⟩ := hr s hs
    obtain ⟨k1, k2, k3⟩ := key k e hk j hj s hs
    unfold regionWeight
    rw [h3, Finset.range_one]
    rcases r5 i (by omega) with rfl | rfl
    · rw [Finset.filter_singleton, if_pos (by rw [r3]; norm_num), Finset.prod_singleton, r3]
      ring
    · rw [Finset.filter_singleton, if_pos (by rw [r4]; norm_num), Finset.prod_singleton, r4, k3]
      ring
  · intro k e hk j hj s hs n hn ha j' hj'
    obtain ⟨-, -, -, -, h5⟩ := hD s hs
    exact (region s hs n hn _ _).1 (hT.closed k e hk j hj s hs (r s) (by rw [h5]; exact (hr s hs).1) ha j' hj')
  · intro k e hk j hj s hs n hn ha j' hj'
    obtain ⟨-, -, -, -, h5⟩ := hD s hs
    obtain ⟨k1, k2, k3⟩ := key k e hk j hj s hs
    exact (region s hs n hn _ _).2 (hT.closed k e hk j hj s hs (r' s) (by rw [h5]; exact (hr s hs).2.1)
      (fun h0 => ha (by linarith)) j' hj')
  · intro k e hk j hj s hs n hn ha
    obtain ⟨-, -, -, -, h5⟩ := hD s hs
    exact (region s hs n hn _ _).1 (hT.closedStart k e hk j hj s hs (r s) (by rw [h5]; exact (hr s hs).1) ha)
  · intro k e hk j hj s hs n hn ha
    obtain ⟨-, -, -, -, h5⟩ := hD s hs
    obtain ⟨k1, k2, k3⟩ := key k e hk j hj s hs
    exact (region s hs n hn _ _).2 (hT.closedStart k e hk j hj s hs (r' s) (by rw [h5]; exact (hr s hs).2.1)
      (fun h0 => ha (by linarith)))

/-- C137, one switching function per subsystem: every discrete trajectory, with whatever convex weights, is a feasible
point of the NLP in Step mode with exact complementarity (so both representations have the same trajectories). -/
theorem C137_one_switch {uo : Option UserOcp} (h : SetupEx colloc o um uo po m oc P) (hp : o.pss = .step)
    (hF : um.F.isSome = true) (hf : o.useFesd = true) (hr : po.rbe = true) (hm : ExactMode o)
    (hz0 : um.nZ = 0) (hpl : PlainProblem o um (uo.getD UserOcp.trivial))
    (hc : o.irkRep = .integral → CollocOk (colloc o.scheme o.nS) o.nS)
    (hD : ∀ s < um.nSys, (um.Smat s).IsDense ∧ (um.Smat s).Partition ∧
      (um.Smat s).cols = 1 ∧ (um.cVec s).len = 1 ∧ (um.Fmat s).nCols = (um.Smat s).rows)
    (hT : T.Solves colloc um (uo.getD UserOcp.trivial) po) :
    ∃ env, ExactPoint o po m P env ∧ um.InitialMultipliers po m.dims env ∧
      (∀ i, env (.x0 i) = T.x0 i) ∧ (∀ k i, env (.u k i) = T.u k i) ∧ (∀ i, env (.vGlob i) = T.v i) ∧
      (∀ k i, env (.pStage k i) = T.p k i) ∧
      ∀ k e, HasFE po k e → hVal po k e env = T.H k e ∧ sotVal po k env = T.speed k ∧
        xEndVal po m.dims k e env = T.stageL um k e (o.nS - 1) ∧
        ∀ j < o.nS, xVal po m.dims k e j env = T.stageL um k e j ∧
          ∀ s < um.nSys, ∀ i < (um.Fmat s).nCols,
            regionWeight (um.Smat s) i (fun n => env (.st2 .alpha k e j s n)) = T.theta k e j s i := by
  obtain ⟨a, hA⟩ := hT.stepWeights hD
  obtain ⟨env, e1, e2, e3, e4, e5, e6, -, e7⟩ := C137_no_trajectory_lost h hp hF hf hr hm hz0 hpl hc hT hA
  refine ⟨env, e1, e2, e3, e4, e5, e6, fun k e hk => ?_⟩
  obtain ⟨g1, g2, g3, g4⟩ := e7 k e hk
  refine ⟨g1, g2, g3, fun j hj => ⟨(g4 j hj).1, fun s hs i hi => ?_⟩⟩
  rw [hA.weight k e hk j (by rw [h.e_nS]; exact hj) s hs i hi]
  congr 1
  funext n
  exact (g4 j hj).2 s n

/-- The values of the step functions and the positive and negative parts of the switching functions at the
Runge-Kutta points are told apart from 0 and 1 by the tolerance. -/
def Traj.SeparatedStep (T : Traj) (a : Nat → Nat → Nat → Nat → Nat → ℝ) (o : PreOpts) (um : UserModel) (ct : ℝ) :
    Prop :=
  ∀ k e, HasFE o k e → ∀ j < o.nS, ∀ s < um.nSys, ∀ n < (um.cVec s).len, Clean ct (a k e j s n) ∧
    Clean ct (max (-(um.cVec s).entry n (T.stageL um k e j) [] (T.pL um k)) 0) ∧
    Clean ct (max ((um.cVec s).entry n (T.stageL um k e j) [] (T.pL um k)) 0)

theorem Traj.cleanStep (h : SetupEx colloc o um none po m oc P) (hp : o.pss = .step) (hr : po.rbe = true)
    (hb : o.mpcc ≠ .boolean) (hT : T.SeparatedStep a po um o.compTol) :
    ∀ t ∈ P.form.w, IsMultiplier t → Clean o.compTol (T.envStep a po um t) := by
  intro s hs hmul
  have hp' := h.e_pss.trans hp
  obtain ⟨-, -, -, -, -, -, dS, -, dC⟩ := h.toSetup.dims
  rcases (C04_variables h.toSetup s).2 hs with hv | ⟨hb', -⟩
  · cases s with
    | st2 f k e j s i =>
      cases f with
      | theta => exact absurd (hp'.symm.trans hv.1) (by decide)
      | lam => exact absurd (hp'.symm.trans hv.1) (by decide)
      | mu => exact absurd (hp'.symm.trans hv.1) (by decide)
      | alpha =>
        obtain ⟨-, hk, hj, hsy, hi⟩ := hv
        have hs' : s < um.nSys := by rw [← dS]; exact hsy
        rw [dC hp' s hs'] at hi
        exact (hT k e hk j hj s hs' i hi).1
      | lamN =>
        obtain ⟨-, hk, hj, hsy, hi⟩ := hv
        rw [nLamPts_rbe hr] at hj
        have hs' : s < um.nSys := by rw [← dS]; exact hsy
        rw [dC hp' s hs'] at hi
        exact (hT k e hk j hj s hs' i hi).2.1
      | lamP =>
        obtain ⟨-, hk, hj, hsy, hi⟩ := hv
        rw [nLamPts_rbe hr] at hj
        have hs' : s < um.nSys := by rw [← dS]; exact hsy
        rw [dC hp' s hs'] at hi
        exact (hT k e hk j hj s hs' i hi).2.2
    | _ => exact hmul.elim
  · exact absurd (h.e_mpcc.symm.trans hb') hb

/-- The parameters of the problem, for a trajectory from the stored initial state. -/
theorem Traj.paramsStep (h : SetupEx colloc o um none po m oc P) (hp : o.pss = .step) (hz0 : um.nZ = 0)
    (hpar : um.nPtv + um.nPgl = 0) {S : Solver} (hi : Inv po m P S)
    (hx : S.m.x0 = (List.range um.nX).map T.x0) (σ τ : ℝ) :
    ∀ s ∈ P.p, withSigma (T.envStep a po um) σ τ s = paramVal um S σ τ s := by
  have h' := h.toSetup
  have hp' := h.e_pss.trans hp
  obtain ⟨dX, -, -, -, dT, dG, -, -, -⟩ := h'.dims
  have hz0' : S.m.z0 = [] := by
    rw [hi.z0]
    exact List.eq_nil_of_length_eq_zero (by rw [z0_length h', hz0])
  have hp0 : S.m.pVal.headD [] = [] := by
    cases hpv : S.m.pVal with
    | nil => rfl
    | cons a l =>
      apply List.eq_nil_of_length_eq_zero
      rw [List.headD_cons, hi.pRow a (by rw [hpv]; simp), dT, dG, hpar]
  have hpl : T.pL um 0 = [] := by
    unfold Traj.pL
    rw [hpar]
    rfl
  intro s ht
  rw [p_eq h'] at ht
  unfold pHead at ht
  simp only [List.mem_append, List.mem_flatMap, blk, List.mem_map] at ht
  rcases ht with ((⟨k, hk, i, hi', rfl⟩ | ht) | ((hb | hb) | hb)) | ⟨i, hi', rfl⟩
  · have := List.mem_range.1 hi'
    rw [dT, dG, hpar] at this
    omega
  · simp at ht
    rcases ht with rfl | rfl <;> rfl
  · exfalso
    unfold lam00Row at hb
    simp [hp', Dims.famLen, blk] at hb
  · obtain ⟨s, i, rfl⟩ := mem_lam00Row hb
    change um.lam00Neg ((List.range um.nX).map T.x0) [] (T.pL um 0) s i
      = um.lam00Neg S.m.x0 S.m.z0 (S.m.pVal.headD []) s i
    rw [hx, hz0', hp0, hpl]
  · obtain ⟨s, i, rfl⟩ := mem_lam00Row hb
    change um.lam00Pos ((List.range um.nX).map T.x0) [] (T.pL um 0) s i
      = um.lam00Pos S.m.x0 S.m.z0 (S.m.pVal.headD []) s i
    rw [hx, hz0', hp0, hpl]
  · have hi' := List.mem_range.1 hi'
    rw [dX] at hi'
    change T.x0 i = S.m.x0.getD i 0
    rw [hx]
    simp [List.getD_eq_getElem?_getD, hi']

/-- C137, simulations: whenever discrete trajectories fit together (`F` and `A` assign to a state a trajectory from it
and the values of its step functions,
and every state `x (k + 1)` is the end of the trajectory of `x k`) and, in case of polishing, the tolerance tells
their multipliers apart from 0 and 1, there is an NLP solver that answers with solutions of the NLPs it is given, and a
simulation with it returns exactly these states, every step reported as SUCCESS. -/
theorem C137_simulated (h : SetupEx colloc o um none po m oc P) (hp : o.pss = .step) (hFs : um.F.isSome = true) (hn : um.nSys ≤ 1)
    (hf : o.useFesd = true) (hr : po.rbe = true) (hm : o.RelaxesByInequality) (hex : ExactMode o) 
    (hz0 : um.nZ = 0) (hpl : PlainProblem o um UserOcp.trivial)
    (hc : o.irkRep = .integral → CollocOk (colloc o.scheme o.nS) o.nS)
    (htol : o.polish = true → o.compTol ≤ 1 / 10) (hfix : o.fixActiveSetFe0 = false)
    (hs0 : 0 < o.sigma0) (hsl : 0 < o.slope) (hpar : um.nPtv + um.nPgl = 0) (hu : um.nU = 0)
    (hst : o.nStages = 1) (hL : o.nfeAfter.length = o.nStages) (hx : 0 < um.nX) (hsot : o.sot ≠ .local)
    (hini : o.initStrategy = .allXcurrentW0Start ∨ o.initStrategy = .allXcurrentWoptPrev)
    {F : List ℝ → Traj} {A : List ℝ → Nat → Nat → Nat → Nat → Nat → ℝ} {x : Nat → List ℝ} {N : Nat} (hx0 : (x 0).length = um.nX)
    (hF : ∀ k < N, (List.range um.nX).map (F (x k)).x0 = x k ∧
      (F (x k)).Solves colloc um UserOcp.trivial po ∧ (F (x k)).StepWeights (A (x k)) um po ∧
      (o.polish = true → (F (x k)).SeparatedStep (A (x k)) po um o.compTol) ∧
      x (k + 1) = (F (x k)).stageL um 0 (nfe po 0 - 1) (o.nS - 1)) :
    ∃ orc S L L' R, orc.Exact P ∧ Solver.create colloc o um none = .ok S ∧
      Reachable colloc o um none orc S ∧
      Looper.create S (x 0) N none none = .ok L ∧ L.run orc false = (L', .ok true) ∧ L'.getResults = .ok R ∧
      R.status = List.replicate N .success ∧ ∀ k ≤ N, R.xSim[k * o.nfeAfter.sum]? = some (x k) := by
  have h' := h.toSetup
  let f : List ℝ → List ℝ := fun p => P.form.w.map ((F (p.drop (p.length - um.nX))).envStep (A (p.drop (p.length - um.nX))) po um)
  obtain ⟨hcr, hSr, hrd⟩ := h'.create (wishOracle P f) (by rcases hini with e | e <;> rw [e] <;> decide)
  obtain ⟨L, hcL⟩ := (C64_create_iff h' hSr (x 0) N none none).1.2 ⟨⟨hu, hst, rfl⟩, .inl rfl⟩
  obtain ⟨L', R, hrun, hR⟩ := C62_run_returns h' hL hSr hrd hx hx0
    (fun _ => ⟨hsot, by rcases hm with e | e | e | e <;> rw [e] <;> decide⟩) (.inl ⟨hini, rfl⟩)
    (fun hst => absurd (hp.symm.trans hst) (by decide)) hcL false
  refine ⟨wishOracle P f, _, L, L', R, wishOracle_exact P f, hcr, hSr, hcL, hrun, hR, ?_⟩
  obtain ⟨result, calls, sim, q1, -⟩ := run_sim h' hL hSr hcL hrun hR
  -- one step
  have step : ∀ k < N, R.xSim[k * o.nfeAfter.sum]? = some (x k) →
      (result k).status = .success ∧ R.xSim[(k + 1) * o.nfeAfter.sum]? = some (x (k + 1)) := by
    intro k hk hxk
    obtain ⟨f1, f2, fA, f3, f4⟩ := hF k hk
    obtain ⟨hB, -, -, hres, -⟩ := q1 k hk
    obtain ⟨x', e1, e2, -⟩ := sim.start k hk
    rw [hxk] at e1
    obtain rfl := Option.some.inj e1
    have D := (Traj.pointStep h hp hFs hf hr hex hz0 hpl hc f2 fA).1
    have k1 : ∀ σ τ : ℝ, 0 ≤ σ → P.form.Feasible (withSigma ((F (x k)).envStep (A (x k)) po um) σ τ) :=
      fun σ τ hσ => C98_homotopy h hm hσ D
    have k2 := Traj.paramsStep (T := F (x k)) (a := A (x k)) h hp hz0 hpar (hB.inv h') (by rw [e2, f1])
    have k3 : ∀ σ τ : ℝ, f (P.p.map (withSigma ((F (x k)).envStep (A (x k)) po um) σ τ))
        = P.form.w.map ((F (x k)).envStep (A (x k)) po um) := by
      intro σ τ
      show P.form.w.map ((F (List.drop _ _)).envStep (A (List.drop _ _)) po um) = _
      rw [params_state h]
      have : ((List.range um.nX).map fun i => withSigma ((F (x k)).envStep (A (x k)) po um) σ τ (.x0 i)) = x k := f1
      rw [this]
    obtain ⟨g1, g2⟩ : (result k).status = .success ∧ (result k).wSol = P.form.w.map ((F (x k)).envStep (A (x k)) po um) := by
      cases hpol : o.polish with
      | true =>
        exact wish_polish h hB (sim.solved k hk).1 hpol (.inr hn) (htol hpol) hfix hs0 hsl k1 k2 k3
          (Traj.cleanStep h hp hr hpl.mode.1 (f3 hpol))
      | false => exact wish_plain h hB (sim.solved k hk).1 hpol (.inr hn) hfix hs0 hsl k1 k2 k3
    refine ⟨g1, ?_⟩
    rw [g2] at hres
    have hres := C58_results_at h' hL hres
    rw [sim.finish k hk, hres.xOut, Traj.step_env_xEnd h', f4, h.e_nStages, hst, h.e_nS]
  have states : ∀ k ≤ N, R.xSim[k * o.nfeAfter.sum]? = some (x k) := by
    intro k
    induction k with
    | zero => intro _; rw [sim.states]; simp
    | succ k ih => intro hk; exact (step k (by omega) (ih (by omega))).2
  refine ⟨?_, states⟩
  rw [sim.status]
  refine List.ext_getElem (by simp) fun k h1 _ => ?_
  have hk : k < N := by simpa using h1
  simpa using (step k hk (states k hk.le)).1

end
end Nosnoc
