import Verif.Props.Chain
import Verif.Props.ExactSim
/-
C128 for the simulation loop.
-/
namespace Nosnoc

section
variable {colloc : IrkScheme → Nat → List ℝ} {o : Opts} {um : UserModel} {uo : Option UserOcp}
  {po : PreOpts} {m : PreModel} {oc : PreOcp} {P : Problem} {env : Env} {N : Nat} {orc : Oracle} {S : Solver}

/-- The initial multipliers computed from the state in which the point before ended are its last multipliers. -/
theorem linkedMultipliers_of_exact (h : SetupEx colloc o um uo po m oc P) (h1 : o.nStages = 1) (hz : um.nZ = 0)
    {E : Nat → Env} (hD : ∀ k < N, ExactPoint o po m P (E k)) (K : Linked po m.dims N E)
    (hl : ∀ k < N, ∀ q, IsPair po m.dims q → lam00At (E k) q
      = um.lam00Val ((List.range um.nX).map fun i => E k (.x0 i)) [] (pVal m.dims 0 (E k)) q) :
    LinkedMultipliers po m.dims N E := by
  intro k hk q hq
  have dd := h.toSetup.dims
  rw [hl (k + 1) hk q hq]
  have key := C127_restart_multipliers (a := 1) h (hD k (by omega)) Nat.one_pos (by omega) hq
  have hzv : zVal m.dims (1 - 1) (nfe po (1 - 1) - 1) (o.nS - 1) (E k) = [] := by
    unfold zVal
    rw [dd.2.2.1, hz]
    rfl
  have hprev : prevFe po 1 0 = some (0, nfe po 0 - 1) := by simp [prevFe]
  have e1 : lam00At (windowEnv po 1 (E k)) q = lamAt 0 (nfe po 0 - 1) (lastLam po 0 (nfe po 0 - 1)) (E k) q := by
    cases q <;> simp only [lam00At, lamAt, windowEnv, hprev]
  have e2 : ((List.range um.nX).map fun i => windowEnv po 1 (E k) (.x0 i))
      = (List.range um.nX).map fun i => E (k + 1) (.x0 i) := by
    refine List.map_congr_left fun i hi => ?_
    rw [K.state k hk i (by rw [dd.1]; exact List.mem_range.1 hi)]
    simp only [windowEnv, startX, hprev]
  have e3 : pVal m.dims (1 - 1) (E k) = pVal m.dims 0 (E (k + 1)) := by
    unfold pVal
    refine List.map_congr_left fun i hi => ?_
    have hi := List.mem_range.1 hi
    rw [K.params (k + 1) hk i hi]
    exact K.params k (by omega) i hi
  rw [e1, e2, hzv, e3] at key
  exact key.symm

/-- C128: a simulation (`NosnocSimLooper`) with an exact NLP solver, polishing switched on, all of whose steps are
reported as SUCCESS, returns the states and steps of one exact point of the problem with `Nsim` control stages over
the whole simulated time, for the same model, parameters and initial state. -/
theorem C128_simulation {x0 : List ℝ} {pv : Option Arr} {wi : Option (List Arr)}
    {L L' : Looper} {stop bb : Bool} {R : SimResults}
    (h : SetupEx colloc o um uo po m oc P) (hL : o.nfeAfter.length = o.nStages)
    (hS : Reachable colloc o um uo orc S) (hon : orc.Exact P)
    (hc : Looper.create S x0 N pv wi = .ok L)
    (hrun : L.run orc stop = (L', .ok bb)) (hR : L'.getResults = .ok R)
    (hst : ∀ i < N, R.status[i]? = some .success) (hN : 0 < N)
    (hpol : o.polish = true) (hfesd : o.useFesd = true)
    (hmode : o.mpcc = .scholtesIneq ∨ o.mpcc = .scholtesEq ∨
      ((o.mpcc = .fischerBurmeister ∨ o.mpcc = .fischerBurmeisterIpAug) ∧ o.crossComp = .complementAll))
    (hpss : o.pss = .stewart ∨ um.nSys ≤ 1) (hq : o.equidistant = true) (ht : o.timeFreezing = false)
    (hz : um.nZ = 0) (hv : um.nV = 0) (h0 : (uo.getD UserOcp.trivial).nGTerminal = 0)
    (hpar : ∀ i < N, simParams um S pv i = simParams um S pv 0) :
    ∃ m' oc' P' env,
      SetupEx colloc (o.repeated N) (um.repeated N) uo (po.repeated N) m' oc' P' ∧
      ExactPoint (o.repeated N) (po.repeated N) m' P' env ∧
      R.xSim[0]? = some ((List.range um.nX).map fun i => env (.x0 i)) ∧
      (∀ q, IsPair (po.repeated N) m'.dims q → lam00At env q
        = um.lam00Val ((List.range um.nX).map fun i => env (.x0 i)) [] (simParams um S pv 0) q) ∧
      (∀ k < N, pVal m'.dims k env = simParams um S pv 0) ∧
      R.xSim.length = 1 + N * o.nfeAfter.sum ∧ R.timeSteps.length = N * o.nfeAfter.sum ∧
      ∀ k < N, ∀ e < o.nfeAfter.sum, HasFE (po.repeated N) k e ∧
        R.xSim[k * o.nfeAfter.sum + e + 1]? = some (xEndVal (po.repeated N) m'.dims k e env) ∧
        R.timeSteps[k * o.nfeAfter.sum + e]? = some (hVal (po.repeated N) k e env) := by
  have h' := h.toSetup
  obtain ⟨result, calls, sim, hsteps⟩ := honest_sim h hL hS hon hc hrun hR
  obtain ⟨⟨hU, hN1, hun⟩, hpv⟩ := (C64_create_iff h' hS x0 N pv wi).1.1 ⟨L, hc⟩
  obtain ⟨result', calls', sim', q1, q2, -⟩ := run_sim h' hL hS hc hrun hR
  have e1 : po.nStages = 1 := h'.e_nStages.trans hN1
  have hlist : po.nfeList = o.nfeAfter := by rw [h'.opts]
  have hL1 : o.nfeAfter.length = 1 := hL.trans hN1
  have hl1 : po.nfeList.length = 1 := by rw [hlist]; exact hL1
  have dd := h'.dims
  set nE := o.nfeAfter.sum with hnE
  have hnf : nfe po 0 = nE := by
    unfold nfe
    rw [hlist, hnE]
    obtain ⟨a, ha⟩ := List.length_eq_one_iff.1 hL1
    rw [ha]; simp
  have hpos : 0 < nE := elements_pos h' hL
  have hel : ∀ e < nE, (elements po)[e]? = some (0, e) := by
    intro e he
    have := elements_get (po := po) (by rw [hlist, hL, h'.e_nStages]) (k := 0) (e := e)
      ⟨by omega, by omega⟩
    simpa using this
  have hnb : o.mpcc ≠ .boolean := by
    rcases hmode with hm | hm | ⟨hm | hm, -⟩ <;> rw [hm] <;> decide
  have hmode' : ExactMode o := by
    rcases hmode with hm | hm | ⟨hm, hcc⟩
    · exact .inl (.inr (.inl hm))
    · exact .inl (.inl hm)
    · exact .inr ⟨hm, fun _ => hcc⟩
  have hel' : ¬ (o.mpcc = .elasticIneq ∨ o.mpcc = .elasticEq ∨ o.mpcc = .elasticTwoSided) := by
    rcases hmode with hm | hm | ⟨hm | hm, -⟩ <;> rw [hm] <;> simp
  have hno : ∀ env, NoSlack o env := by
    intro env hs
    rcases hmode with hm | hm | ⟨hm | hm, -⟩ <;> rw [hm] at hs <;> simp at hs
  -- the points of the steps
  have hpt : ∀ i, ∃ env : Env, i < N → ExactPoint o po m P env ∧ env .tau = 0 ∧
      pVal m.dims 0 env = simParams um S pv i ∧
      (∀ q, IsPair po m.dims q → lam00At env q
        = um.lam00Val ((List.range um.nX).map fun i => env (.x0 i)) [] (pVal m.dims 0 env) q) ∧
      R.xSim[i * nE]? = some ((List.range um.nX).map fun j => env (.x0 j)) ∧
      ∀ e < nE, R.xSim[i * nE + e + 1]? = some (xEndVal po m.dims 0 e env) ∧
          R.timeSteps[i * nE + e]? = some (hVal po 0 e env) := by
    intro i
    by_cases hi : i < N
    swap
    · exact ⟨fun _ => 0, fun hh => absurd hh hi⟩
    obtain ⟨env, sigma, tau, x, f1, -, f3, f4, f5, f6, f7, -, f9⟩ := hsteps i hi (hst i hi)
    have hre := (q1 i hi).1
    have hinv := hre.inv h'
    have hok := (sim.solved i hi).1
    obtain ⟨hrd, -⟩ := ready_of_ok h' hinv hok
    obtain ⟨g1, g2⟩ := initial_of_params h' hinv hrd.x0 hz (f7 hpss)
    have hsig : env .sigma = 0 := by
      rw [f6 _ (sigma_mem h') fun hc => hc]
      exact (f9 hpol).1
    have htau : env .tau = 0 := by
      rw [f6 _ (mem_p_of_isPar h'.built (show IsPar po m.dims .tau from trivial)) fun hc => hc]
      exact (f9 hpol).2
    have hpv' := pVal_of_params h' hinv f6
    have hx0 : ((List.range um.nX).map fun i => env (.x0 i)) = (beforeStep orc L i).m.x0 := by
      have : ∀ j ∈ List.range um.nX, env (.x0 j) = (beforeStep orc L i).m.x0.getD j 0 := by
        intro j hj
        rw [f6 _ (x0_mem h' (by rw [dd.1]; exact List.mem_range.1 hj)) fun hc => hc]; rfl
      rw [List.map_congr_left this, ← hrd.x0]
      exact map_getD_range _
    have hz0 : (beforeStep orc L i).m.z0 = [] := by
      rw [hinv.z0]
      exact List.eq_nil_of_length_eq_zero (by rw [z0_length h', hz])
    refine ⟨env, fun _ => ⟨⟨hfesd, hmode', (h.iff hnb).2 f1, hsig, hno env, g2⟩, htau, ?_, ?_, by rw [f3, f4],
      fun e he => f5 e (0, e) (hel e he)⟩⟩
    · rw [hpv']
      obtain ⟨hpn, hpf⟩ := sim_pVal h' hS hc (fun j hj => (q1 j hj).2.2.2.2)
        (fun j hj => (sim'.solved j hj).1) q2 (fun j hj => (q1 j hj).1)
      unfold simParams
      rcases hpv with rfl | ⟨f, rfl⟩
      · rw [hpn rfl i hi]
        exact (List.take_append_drop _ _).symm
      · rw [hpf f rfl i hi]
        have hl := (hS.inv h').pLen
        cases hpl : S.m.pVal with
        | nil => rw [hpl] at hl; simp at hl; omega
        | cons a l => rfl
    · intro q hq
      rw [hx0, hpv']
      cases q with
      | region s i =>
        obtain ⟨hps, hs, hi⟩ := hq
        simp only [lam00At]
        rw [f7 hpss _ (lam00_mem h' (.inl rfl) hs (by rw [hps]; simpa [Dims.famLen] using hi))]
        simp only [paramVal, UserModel.lam00Val, hz0]
      | neg s i =>
        obtain ⟨hps, hs, hi⟩ := hq
        simp only [lam00At]
        rw [f7 hpss _ (lam00_mem h' (.inr (.inl rfl)) hs (by rw [hps]; simpa [Dims.famLen] using hi))]
        simp only [paramVal, UserModel.lam00Val, hz0]
      | pos s i =>
        obtain ⟨hps, hs, hi⟩ := hq
        simp only [lam00At]
        rw [f7 hpss _ (lam00_mem h' (.inr (.inr rfl)) hs (by rw [hps]; simpa [Dims.famLen] using hi))]
        simp only [paramVal, UserModel.lam00Val, hz0]
  choose E hE using hpt
  have pIdx : ∀ k < N, ∀ i < m.dims.nPtv + m.dims.nPgl, E k (.pStage 0 i) = (simParams um S pv 0).getD i 0 := by
    intro k hk i hi
    rw [← hpar k hk, ← (hE k hk).2.2.1]
    simp [pVal, List.getD_eq_getElem?_getD, hi]
  have K : Linked po m.dims N E := by
    refine ⟨fun k hk i hi => ?_, fun k hk => ?_, fun k hk => ?_, fun k hk s hs hvar => ?_, fun k hk i hi => ?_⟩
    · have a1 := (hE (k + 1) hk).2.2.2.2.1
      have a2 := ((hE k (by omega)).2.2.2.2.2 (nE - 1) (by omega)).1
      rw [show k * nE + (nE - 1) + 1 = (k + 1) * nE by rw [Nat.succ_mul]; omega, a1] at a2
      have a3 := Option.some.inj a2
      unfold xEndVal at a3
      rw [dd.1] at a3 hi
      have := congrArg (fun l => l[i]?) a3
      simp only [List.getElem?_map, List.getElem?_range hi, Option.map_some, Option.some.injEq] at this
      rw [hnf]
      exact this
    · rw [(hE k hk).1.sigma, (hE 0 hN).1.sigma]
    · rw [(hE k hk).2.1, (hE 0 hN).2.1]
    · cases s with
      | vGlob i =>
        have : i < m.dims.nV := hvar
        rw [dd.2.2.2.1] at this
        have : i < um.nV := this
        omega
      | sElastic =>
        have : po.mpcc = .elasticIneq ∨ po.mpcc = .elasticEq ∨ po.mpcc = .elasticTwoSided := hvar
        rw [h'.opts] at this
        exact absurd this hel'
      | _ => exact absurd hs id
    · rw [pIdx k hk i hi, pIdx 0 hN i hi]
  have hM := linkedMultipliers_of_exact h hN1 hz (fun k hk => (hE k hk).1) K fun k hk => (hE k hk).2.2.2.1
  obtain ⟨m', oc', P', hP', hd, key, -⟩ := C128_chain h hN1 hL1 hnb (fun _ => hq) ht h0 hN
  have l0 : ∀ q, lam00At (chainEnv E) q = lam00At (E 0) q := fun q => by cases q <;> rfl
  have hEnd : ∀ k e, xEndVal (po.repeated N) m.dims k e (chainEnv E) = xEndVal po m.dims 0 e (E k) := by
    intro k e
    unfold xEndVal
    refine List.map_congr_left fun i _ => ?_
    unfold endX
    show chainEnv E (if ownEnd po then _ else _) = _
    split <;> rfl
  have hH : ∀ k < N, ∀ e, hVal (po.repeated N) k e (chainEnv E) = hVal po 0 e (E k) := by
    intro k hk e
    have hf : po.useFesd = true := by rw [h'.opts]; exact hfesd
    have hf' : (po.repeated N).useFesd = true := hf
    unfold hVal
    rw [if_pos hf, if_pos hf']
    rfl
  have pk : ∀ k < N, pVal m.dims k (chainEnv E) = simParams um S pv 0 := by
    intro k hk
    rw [← hpar k hk, ← (hE k hk).2.2.1]
    rfl
  refine ⟨m', oc', P', chainEnv E, hP', ⟨hfesd, hmode', key E (fun k hk => (hE k hk).1.feas) K hM,
    (hE 0 hN).1.sigma, hno _, fun q hq => ?_⟩, ?_, fun q hq => ?_, fun k hk => ?_, sim.number, ?_,
    fun k hk e he => ⟨⟨hk, ?_⟩, ?_, ?_⟩⟩
  · rw [l0]
    rw [hd] at hq
    exact (hE 0 hN).1.lam00 q hq
  · have := (hE 0 hN).2.2.2.2.1
    rw [Nat.zero_mul] at this
    exact this
  · rw [l0, (hE 0 hN).2.2.2.1 q (by rw [hd] at hq; exact hq), (hE 0 hN).2.2.1]
    rfl
  · rw [hd]; exact pk k hk
  · have len : ∀ j < N, (result' j).res.timeSteps.length = nE := by
      intro j hj
      obtain ⟨-, -, b3, b4, -⟩ := q1 j hj
      exact (step_results h' hL b3 b4).2.2
    rw [sim'.steps, List.length_flatMap, List.map_congr_left (g := fun _ => nE)
      fun i hi => len i (List.mem_range.1 hi)]
    simp
  · rw [repeated_nfe hk hl1, hnf]; exact he
  · rw [hd, hEnd]; exact ((hE k hk).2.2.2.2.2 e he).1
  · rw [hH k hk]; exact ((hE k hk).2.2.2.2.2 e he).2

end
end Nosnoc
