import Verif.Spec.Root
import Verif.Props.Params
import Verif.Props.Schedule
import Verif.Witness.Alg
/-
C91: the initial multipliers belong to a consistent initial point.
-/
namespace Nosnoc

variable {colloc : IrkScheme → Nat → List ℝ} {o : Opts} {um : UserModel} {uo : Option UserOcp} {po : PreOpts}
  {m : PreModel} {oc : PreOcp} {P : Problem} {S S1 : Solver} {orc : Oracle} {lam00 : List ℝ}

/-- `lambda00_fun` gives the multipliers of the discontinuous system. -/
theorem multipliersAt (um : UserModel) (pss : PssMode) (x z p : List ℝ) :
    um.MultipliersAt pss x z p (um.lam00List pss x z p) := by
  refine ⟨fun hp => ⟨um.lam00St x z p, by rw [hp]; rfl, fun s hs hn => ?_⟩,
    fun hp => ⟨um.lam00Neg x z p, um.lam00Pos x z p, by rw [hp]; rfl, fun s hs => ?_⟩⟩
  · generalize hg : (fun i : Fin (um.Fmat s).nCols => um.gVal s i x z p) = g
    have hl : ∀ i : Fin (um.Fmat s).nCols, um.lam00St x z p s i = g i - ⨅ j, g j := by
      intro i; rw [← hg]; rfl
    haveI : Nonempty (Fin (um.Fmat s).nCols) := ⟨⟨0, hn⟩⟩
    refine ⟨?_, fun θ lam mu hst i => ?_⟩
    · obtain ⟨j, hj⟩ := exists_min g hn
      refine ⟨fun i => if i = j then 1 else 0, -(⨅ i, g i), ⟨fun i => ?_, ?_, fun i => ?_,
        fun i => ?_, fun i => ?_⟩⟩
      · rw [hl]; ring
      · simp
      · split <;> norm_num
      · rw [hl]
        have := ciInf_le (Set.finite_range g).bddBelow i
        linarith
      · rw [hl]
        split
        · next hij => rw [hij, hj]; ring
        · ring
    · rw [hl]; exact stewart_lam_unique hn hst i
  · refine ⟨⟨fun i => if 0 < (um.cVec s).entry i x z p then 1 else 0,
      step_exists fun i : Fin (um.cVec s).len => (um.cVec s).entry i x z p⟩,
      fun α n q hst i => ?_⟩
    have h1 := hst.eq i
    have h2 := hst.lamN_nonneg i
    have h3 := hst.lamP_nonneg i
    have h4 := hst.compl_neg i
    have h5 := hst.compl_pos i
    simp only [UserModel.lam00Neg, UserModel.lam00Pos]
    rw [h1]
    rcases mul_eq_zero.1 h4 with h6 | h6
    · rw [h6] at h5
      have h7 : q i = 0 := by linarith
      rw [h7]
      constructor
      · rw [max_eq_left (by linarith)]; ring
      · rw [max_eq_right (by linarith)]
    · rw [h6]
      constructor
      · rw [max_eq_right (by linarith)]
      · rw [max_eq_left (by linarith)]; ring

theorem initializeRoot_length (rf : RootFinder) (um : UserModel) (S : Solver) :
    (S.initializeRoot rf um).1.P.form.w0.length = S.P.form.w0.length := by
  unfold Solver.initializeRoot
  split
  · rfl
  · rw [thenReturn_fst]; exact initGuess_length S

theorem initializeRoot_val (rf : RootFinder) (hrf : rf.Correct um.nZ)
    (h : Setup colloc o um uo po m oc P) (hi : Inv po m P S) (hx : S.m.x0.length = um.nX)
    (hroot : um.rootCheck = .ok ()) (hini : S.initializeRoot rf um = (S1, .ok lam00)) :
    ∃ p0 z, S.m.pVal[0]? = some p0 ∧ um.Consistent S.m.x0 z p0 ∧
      lam00 = um.lam00List po.pss S.m.x0 z p0 := by
  obtain ⟨p0, hp0, hpl, -⟩ := computeLambda00_ok h hi hx
  obtain ⟨hsq, hu⟩ : um.RootOk := by
    unfold UserModel.rootCheck check at hroot
    split at hroot
    · assumption
    · cases hroot
  unfold Solver.initializeRoot PreModel.computeLambda00Root at hini
  rw [listGet_eq_ok.2 hp0, ok_bind] at hini
  cases hz : rf (um.z0Residual S.m.x0 p0) S.m.z0 with
  | error e => rw [hz] at hini; cases hini
  | ok z =>
    obtain ⟨hzl, hz0⟩ := hrf _ _ _ hz
    rw [hz, ok_bind, hi.lam00, lambda00_num h hx hzl hpl] at hini
    refine ⟨p0, z, hp0, ⟨hzl, fun i hi' u => ?_⟩, ?_⟩
    · rw [hu i hi' S.m.x0 z u [] p0]
      exact hz0 _ (List.mem_map.2 ⟨i, List.mem_range.2 hi', rfl⟩)
    · unfold thenReturn at hini
      dsimp only at hini
      split at hini
      · cases hini
      · cases hini; rfl

/-- C91 with `rootfinder_for_initial_z=True`: when the initialisation succeeds, the initial
multipliers are those of the discontinuous system at the current `x0`, the parameters of the first
stage and algebraic variables that solve the user's algebraic equations there. -/
theorem C91_rootfinder (rf : RootFinder) (hrf : rf.Correct um.nZ)
    (h : Setup colloc o um uo po m oc P) (hS : Reachable colloc o um uo orc S) (hr : Ready um S)
    (hroot : um.rootCheck = .ok ()) (hini : S.initializeRoot rf um = (S1, .ok lam00)) :
    ∃ p0 z, S.m.pVal[0]? = some p0 ∧ um.Consistent S.m.x0 z p0 ∧
      um.MultipliersAt o.pss S.m.x0 z p0 lam00 := by
  obtain ⟨p0, z, h1, h2, h3⟩ := initializeRoot_val rf hrf h (hS.inv h) hr.x0 hroot hini
  have e1 : po.pss = o.pss := by rw [h.opts]
  refine ⟨p0, z, h1, h2, ?_⟩
  rw [h3, e1]
  exact multipliersAt um o.pss S.m.x0 z p0

/-- The run of `solve` with the root finder, without polishing. -/
theorem solveRoot_run (orc : Oracle) (rf : RootFinder) (hrf : rf.Correct um.nZ)
    (h : Setup colloc o um uo po m oc P) (hS : Reachable colloc o um uo orc S) (hr : Ready um S)
    (hroot : um.rootCheck = .ok ()) (hp : o.polish = false) {r : SolveResult}
    (hok : (S.solveRoot orc rf um).2 = .ok r) :
    ∃ p0 z w0 lbx ubx n calls sols, S.m.pVal[0]? = some p0 ∧ um.Consistent S.m.x0 z p0 ∧
      Homotopy orc S (um.lam00List po.pss S.m.x0 z p0) w0 lbx ubx n calls sols ∧
      (o.fixActiveSetFe0 = false → lbx = S.P.form.lbw ∧ ubx = S.P.form.ubw) ∧
      (S.solveRoot orc rf um).1.log = S.log ++ (List.range n).map calls ∧
      r.wSol = (sols (n - 1)).x ∧ r.wSol.length = S.P.form.w.length ∧
      r.status = statusOf (sols (n - 1)).status ∧
      getResults S.o S.m.x0 S.P r.wSol = .ok r.res := by
  have hi := hS.inv h
  have e1 : po.pss = o.pss := by rw [h.opts]
  unfold Solver.solveRoot at hok ⊢
  rcases hini : S.initializeRoot rf um with ⟨S1, r1⟩
  rw [hini] at hok
  cases r1 with
  | error e => unfold Solver.solveFrom at hok; cases hok
  | ok lam00 =>
    obtain ⟨p0, z, h1, h2, h3⟩ := initializeRoot_val rf hrf h hi hr.x0 hroot hini
    have hog : OnlyGuess S S1 := by
      have := initializeRoot_onlyGuess rf um S
      rw [hini] at this
      exact this
    have hi1 := hog.inv hi
    have hl : S1.P.form.w0.length = S1.P.form.w.length := by
      have := initializeRoot_length rf um S
      rw [hini] at this
      rw [this, hr.guess, hi.w, hi1.w]
    obtain ⟨w0, b, n, calls, sols, st, hact, hh, hsp, hsol, hlen⟩ :=
      solveFrom_run orc h hi hr hog hl h3
    have hpo : S1.o.polish = false := by rw [hi1.opts, h.opts]; exact hp
    rw [finish_nopolish hpo (hsp.last' hh.pos)] at hsol
    rw [hsol] at hok ⊢
    unfold resultOf at hok ⊢
    have hgr : getResults S1.o S1.m.x0 S1.P (sols (n - 1)).x
        = getResults S.o S.m.x0 S.P (sols (n - 1)).x := by
      rw [hog.o, hog.m, hog.P]; rfl
    rw [hgr] at hok ⊢
    cases hg : getResults S.o S.m.x0 S.P (sols (n - 1)).x with
    | error e => rw [hg] at hok; cases hok
    | ok res =>
      rw [hg] at hok
      dsimp only at hok ⊢
      injection hok with hok
      subst hok
      subst h3
      refine ⟨p0, z, w0, b.lbw, b.ubw, n, calls, sols, h1, h2, hh, fun hfx => ?_, ?_, rfl,
        hlen _ (by have := hh.pos; omega), rfl, hg⟩
      · have hfx' : S1.o.fixActiveSetFe0 = false := by rw [hi1.opts, h.opts]; exact hfx
        unfold activeSet at hact
        rw [if_neg (by rw [hfx']; simp)] at hact
        cases hact
        exact ⟨by rw [hi1.lbw, hi.lbw], by rw [hi1.ubw, hi.ubw]⟩
      · have : st.log = S.log ++ (List.range n).map calls := by
          rw [hsp.log]
          show S1.log ++ _ = _
          rw [hog.log]
        split
        · exact this
        · exact this

/-- C91 for a whole solve: with `rootfinder_for_initial_z=True` every NLP of the homotopy is handed, as
initial multipliers, those of the discontinuous system at the current `x0` and at consistent algebraic
variables (`Homotopy.params`); the results are those of the last NLP solve, as without the option
(C49). -/
theorem C91_solve_rootfinder (orc : Oracle) (rf : RootFinder) (hrf : rf.Correct um.nZ)
    (h : Setup colloc o um uo po m oc P) (hS : Reachable colloc o um uo orc S) (hr : Ready um S)
    (hroot : um.rootCheck = .ok ()) (hp : o.polish = false) {r : SolveResult}
    (hok : (S.solveRoot orc rf um).2 = .ok r) :
    ∃ p0 z lam00 w0 lbx ubx n calls sols, S.m.pVal[0]? = some p0 ∧ um.Consistent S.m.x0 z p0 ∧
      um.MultipliersAt o.pss S.m.x0 z p0 lam00 ∧
      Homotopy orc S lam00 w0 lbx ubx n calls sols ∧
      (S.solveRoot orc rf um).1.log = S.log ++ (List.range n).map calls ∧
      (∀ k < n, ∃ sigma tau, (calls k).p
        = S.m.pVal.flatten ++ [sigma, tau] ++ lam00 ++ S.m.x0) ∧
      r.wSol = (sols (n - 1)).x ∧ r.wSol.length = S.P.form.w.length ∧
      r.status = statusOf (sols (n - 1)).status ∧
      getResults S.o S.m.x0 S.P r.wSol = .ok r.res := by
  obtain ⟨p0, z, w0, lbx, ubx, n, calls, sols, h1, h2, hh, -, h4⟩ :=
    solveRoot_run orc rf hrf h hS hr hroot hp hok
  have e1 : po.pss = o.pss := by rw [h.opts]
  have hm := multipliersAt um o.pss S.m.x0 z p0
  rw [← e1] at hm
  obtain ⟨h5, h6⟩ := h4
  exact ⟨p0, z, _, w0, lbx, ubx, n, calls, sols, h1, h2, e1 ▸ hm, hh, h5,
    fun k hk => ⟨_, _, hh.params k hk⟩, h6⟩

/-- With the option, `solve` does return a result whenever its initialisation succeeds, whatever the NLP
solver answers. -/
theorem C91_solve_returns (orc : Oracle) (rf : RootFinder) (hrf : rf.Correct um.nZ)
    (h : Setup colloc o um uo po m oc P) (hL : o.nfeAfter.length = o.nStages)
    (hS : Reachable colloc o um uo orc S) (hr : Ready um S) (hx : 0 < um.nX)
    (hroot : um.rootCheck = .ok ()) (hp : o.polish = false)
    (hU : o.pss = .stewart → ∀ s < um.nSys, ∀ s' < um.nSys,
      (um.Fmat s).nCols = (um.Fmat s').nCols)
    (hini : S.initializeRoot rf um = (S1, .ok lam00)) :
    ∃ r, (S.solveRoot orc rf um).2 = .ok r := by
  have hi := hS.inv h
  obtain ⟨p0, z, h1, h2, h3⟩ := initializeRoot_val rf hrf h hi hr.x0 hroot hini
  have hog : OnlyGuess S S1 := by
    have := initializeRoot_onlyGuess rf um S
    rw [hini] at this
    exact this
  have hi1 := hog.inv hi
  have hl : S1.P.form.w0.length = S1.P.form.w.length := by
    have := initializeRoot_length rf um S
    rw [hini] at this
    rw [this, hr.guess, hi.w, hi1.w]
  obtain ⟨w0, b, n, calls, sols, st, hact, hh, hsp, hsol, hlen⟩ :=
    solveFrom_run orc h hi hr hog hl h3
  have hpo : S1.o.polish = false := by rw [hi1.opts, h.opts]; exact hp
  rw [finish_nopolish hpo (hsp.last' hh.pos)] at hsol
  unfold Solver.solveRoot
  rw [hini, hsol]
  unfold resultOf
  have hwl := hlen (n - 1) (by have := hh.pos; omega)
  rw [hi.w] at hwl
  obtain ⟨q, hq⟩ := (C61_results_partial (x0 := S1.m.x0) h hL hwl).2.2 hx hU
  have : getResults S1.o S1.m.x0 S1.P (sols (n - 1)).x = .ok q := by
    rw [hi1.opts, hi1.prob]
    exact hq
  rw [this]
  exact ⟨_, rfl⟩

/-- C91 without the option, as far as it holds: if the guess `z0` of the user happens to be
consistent with the current `x0`, the initial multipliers are those of the discontinuous system at
this point. -/
theorem C91_consistent_guess_partial (h : Setup colloc o um uo po m oc P)
    (hS : Reachable colloc o um uo orc S) (hr : Ready um S)
    (hini : S.initialize = (S1, .ok lam00))
    (hc : ∀ p0, S.m.pVal[0]? = some p0 → um.Consistent S.m.x0 S.m.z0 p0) :
    ∃ p0 z, S.m.pVal[0]? = some p0 ∧ um.Consistent S.m.x0 z p0 ∧
      um.MultipliersAt o.pss S.m.x0 z p0 lam00 := by
  have hi := hS.inv h
  obtain ⟨p0, hp0, -, hv⟩ := initialize_val h hi hr.x0 hini
  have e1 : po.pss = o.pss := by rw [h.opts]
  refine ⟨p0, S.m.z0, hp0, hc p0 hp0, ?_⟩
  rw [hv, e1, hi.z0]
  exact multipliersAt um o.pss S.m.x0 m.z0 p0

/-! ### Witnesses -/

open Classical in
/-- A root finder that finds a zero of length `n` whenever there is one. -/
noncomputable def exactRoot (n : Nat) : RootFinder := fun r _ =>
  if h : ∃ z : List ℝ, z.length = n ∧ ∀ v ∈ r z, v = 0 then .ok h.choose else .error .casadi

theorem exactRoot_correct (n : Nat) : (exactRoot n).Correct n := by
  intro r z0 z hz
  unfold exactRoot at hz
  split at hz
  · next h => cases hz; exact h.choose_spec
  · cases hz

theorem alg_p {po m oc P} (h : SetupEx oneColloc algOpts algModel (some UserOcp.trivial) po m oc P) :
    P.p = [.sigma, .tau, .lam00 .lam 0 0, .lam00 .lam 0 1, .x0 0] := by
  have D := alg_data h
  have n1 : m.dims.nPtv = 0 := h.dims.2.2.2.2.1
  have n2 : m.dims.nPgl = 0 := h.dims.2.2.2.2.2.1
  rw [p_eq h.toSetup]
  simp [pHead, lam00Row, D.stages, D.pss, Dims.famLen, D.sys, D.nF, n1, n2, D.nX, blk,
    List.range_succ]

theorem alg_lam (z : ℝ) : algModel.lam00List .stewart [1] [z] []
    = [1 / 2 - z - min (1 / 2 - z) (z - 1 / 2), z - 1 / 2 - min (1 / 2 - z) (z - 1 / 2)] := by
  have hF : (algModel.Fmat 0).nCols = 2 := rfl
  have hinf : (⨅ j : Fin (algModel.Fmat 0).nCols, algModel.gVal 0 j [1] [z] [])
      = min (1 / 2 - z) (z - 1 / 2) := by
    show (⨅ j : Fin 2, algModel.gVal 0 j [1] [z] []) = _
    apply le_antisymm
    · apply le_min
      · have := ciInf_le (Set.finite_range fun j : Fin 2 => algModel.gVal 0 j [1] [z] []).bddBelow 0
        simpa [alg_g] using this
      · have := ciInf_le (Set.finite_range fun j : Fin 2 => algModel.gVal 0 j [1] [z] []).bddBelow 1
        simpa [alg_g] using this
    · apply le_ciInf
      intro j
      rw [alg_g _ _ _ _ j.2]
      split <;> simp
  show (List.range 1).flatMap _ = _
  simp only [List.range_one, List.flatMap_cons, List.flatMap_nil, List.append_nil, hF]
  have h0 : algModel.lam00St [1] [z] [] 0 0 = 1 / 2 - z - min (1 / 2 - z) (z - 1 / 2) := by
    unfold UserModel.lam00St
    rw [hinf, alg_g _ _ _ _ (by omega)]
    simp
  have h1 : algModel.lam00St [1] [z] [] 0 1 = z - 1 / 2 - min (1 / 2 - z) (z - 1 / 2) := by
    unfold UserModel.lam00St
    rw [hinf, alg_g _ _ _ _ (by omega)]
    simp
  simp only [List.range_succ, List.range_zero, List.nil_append, List.map_cons, List.map_nil,
    List.cons_append, h0, h1]

/-- Data of the solver for the witness. -/
theorem alg_vals {po m oc P} (h : SetupEx oneColloc algOpts algModel (some UserOcp.trivial) po m oc P) :
    m.pVal = [[]] ∧ m.x0 = [1] ∧ m.z0 = [0] := by
  obtain ⟨nC, nF, g, up, f0, acc, hp⟩ := h.toSetup.built.pre
  have h1 := hp.pVal
  have h2 := hp.z0
  rw [(alg_data h).stages] at h1
  refine ⟨?_, hp.x0, ?_⟩
  · have : algModel.pValCtrl 1 = .ok [[]] := rfl
    rw [this] at h1
    exact (Except.ok.inj h1).symm
  · have : orDefault algModel.z0 algModel.nZ 0 = .ok [(0 : ℝ)] := rfl
    rw [this] at h2
    exact (Except.ok.inj h2).symm

/-- The only consistent value of the algebraic variable is 1. -/
theorem alg_consistent (z : List ℝ) : algModel.Consistent [1] z [] ↔ z = [1] := by
  constructor
  · rintro ⟨hl, hz⟩
    have hl' : z.length = 1 := hl
    match z, hl' with
    | [a], _ =>
      have := hz 0 (by simp [algModel]) []
      simp [algModel] at this
      rw [show a = 1 by linarith]
  · rintro rfl
    exact ⟨rfl, fun i _ u => by simp [algModel]⟩

/-- C91 fails without the option: `z = x` by the user's equation, the switching function is
`z - 1/2`, the start is `x0 = 1` and the user gives no guess for `z`.  The initial multipliers are
computed at `z = 0`, on the other side of the switching surface.  Because of this no point
satisfies the constraints in any NLP call with `σ < 1/2`, whatever the NLP solver does, whereas with
the multipliers of the consistent point there is a feasible point for every `σ` used. -/
theorem C91_guess_violated (orc : Oracle) : ∃ po m oc P S n calls,
    SetupEx oneColloc algOpts algModel (some UserOcp.trivial) po m oc P ∧
    Reachable oneColloc algOpts algModel (some UserOcp.trivial) orc S ∧ Ready algModel S ∧
    S.m.x0 = [1] ∧ (∀ z, algModel.Consistent [1] z [] ↔ z = [1]) ∧
    0 < n ∧ (S.solve orc).1.log = (List.range n).map calls ∧
    ∀ k < n, ∃ sigma tau l0 l1, sigma = sigmaAt algOpts k ∧ 0 < sigma ∧
      (calls k).p = [sigma, tau, l0, l1, 1] ∧
      ¬ algModel.MultipliersAt algOpts.pss [1] [1] [] [l0, l1] ∧
      (∀ env, S.P.p.map env = (calls k).p → S.P.form.Feasible env → 1 / 2 ≤ sigma) ∧
      ∃ env l0' l1', S.P.p.map env = [sigma, tau, l0', l1', 1] ∧ S.P.form.Feasible env ∧
        algModel.MultipliersAt algOpts.pss [1] [1] [] [l0', l1'] := by
  obtain ⟨po, m, oc, P, h, hrbe, hA⟩ := alg_setup
  obtain ⟨-, hS, hr⟩ := h.toSetup.create orc (by simp [algOpts, Opts.default])
  obtain ⟨w0, lam00, hini, -⟩ := C54_initialise_writes_x0 h.toSetup hS hr Nat.one_pos (.inl rfl)
  have hi := hS.inv h.toSetup
  obtain ⟨w0, lbx, ubx, n, calls, sols, hh, -, -, -, h5, -⟩ :=
    C52_solve_is_a_homotopy orc h.toSetup hS hr hini
  obtain ⟨hpv, hx0, hz0⟩ := alg_vals h
  refine ⟨po, m, oc, P, _, n, calls, h, hS, hr, hx0, alg_consistent, hh.pos, h5 rfl,
    fun k hk => ?_⟩
  have D := alg_data h
  have hsig : ∀ k, sigmaAt po.toOpts k = sigmaAt algOpts k := by
    intro k
    rw [h.opts]
    induction k with
    | zero => rfl
    | succ k ih => rw [sigmaAt_succ, ih, sigmaAt_succ]; rfl
  have hlam : lam00 = [1, 0] := by
    obtain ⟨p0, hp0, hpl, hv⟩ := initialize_val h.toSetup hi hr.x0 hini
    have hp00 : p0 = [] := List.length_eq_zero_iff.1 hpl
    rw [hv, D.pss, hz0, hp00]
    show algModel.lam00List .stewart m.x0 _ _ = _
    rw [hx0, alg_lam]
    norm_num
  have hpk : (calls k).p = [sigmaAt algOpts k,
      min (sigmaAt algOpts k ^ (3 / 2 : ℝ)) (sigmaAt algOpts k), 1, 0, 1] := by
    rw [hh.params k hk, hsig]
    show m.pVal.flatten ++ _ ++ lam00 ++ m.x0 = _
    rw [hpv, hlam, hx0]
    rfl
  have hP : P.p = _ := alg_p h
  have hM := multipliersAt algModel .stewart [1] [1] []
  rw [alg_lam] at hM
  norm_num at hM
  have hpos : 0 < sigmaAt algOpts k :=
    sigmaAt_pos (by norm_num [algOpts, Opts.default]) (by norm_num [algOpts, Opts.default]) k
  refine ⟨_, _, _, _, rfl, hpos, hpk, fun hc => ?_, fun env hpe hf => ?_, ?_⟩
  · obtain ⟨lam, hl, hs⟩ := hc.stewart rfl
    obtain ⟨lam', hl', hs'⟩ := hM.stewart rfl
    have n1 : algModel.nSys = 1 := rfl
    have n2 : (algModel.Fmat 0).nCols = 2 := rfl
    obtain ⟨⟨θ, mu, hst⟩, -⟩ := hs' 0 (by rw [n1]; omega) (by rw [n2]; omega)
    have := (hs 0 (by rw [n1]; omega) (by rw [n2]; omega)).2 _ _ _ hst ⟨0, by rw [n2]; omega⟩
    rw [n1] at hl hl'
    simp [n2, List.range_succ] at hl hl'
    simp [← hl.1, ← hl'.1] at this
  · rw [hpk] at hpe
    have hpe' : P.p.map env = _ := hpe
    rw [hP] at hpe'
    simp only [List.map_cons, List.map_nil, List.cons.injEq] at hpe'
    obtain ⟨q1, -, q3, q4, q5, -⟩ := hpe'
    rw [← q1]
    exact alg_infeasible h hrbe hA q5 q3 q4 hf
  · refine ⟨algEnv fun
      | .sigma => sigmaAt algOpts k
      | .tau => min (sigmaAt algOpts k ^ (3 / 2 : ℝ)) (sigmaAt algOpts k)
      | .lam00 _ _ i => if i = 0 then 0 else 1
      | .x0 _ => 1
      | _ => 0, 0, 1, ?_, alg_feasible h hrbe hA rfl hpos.le (by simp), hM⟩
    show P.p.map _ = _
    rw [hP]
    simp [algEnv]

/-- With a root finder the initialisation succeeds, with the multipliers of the consistent point. -/
theorem alg_initializeRoot {po m oc P}
    (h : SetupEx oneColloc algOpts algModel (some UserOcp.trivial) po m oc P) :
    algModel.rootCheck = .ok () ∧
    ∃ S1, Solver.initializeRoot (exactRoot algModel.nZ) algModel ⟨po, m, P, none, []⟩
      = (S1, .ok [0, 1]) := by
  obtain ⟨-, hS, hr⟩ := h.toSetup.create echoOracle (by simp [algOpts, Opts.default])
  obtain ⟨w0, lam00, hini, -⟩ := C54_initialise_writes_x0 h.toSetup hS hr Nat.one_pos (.inl rfl)
  have hi := hS.inv h.toSetup
  obtain ⟨hpv, hx0, hz0⟩ := alg_vals h
  have hc : ∃ z : List ℝ, z.length = algModel.nZ ∧ ∀ v ∈ algModel.z0Residual [1] [] z, v = 0 :=
    ⟨[1], rfl, fun v hv => by
      simp only [UserModel.z0Residual, List.mem_map] at hv
      obtain ⟨i, -, rfl⟩ := hv
      simp [algModel]⟩
  have hroot : algModel.rootCheck = .ok () := by
    unfold UserModel.rootCheck check
    rw [if_pos ⟨rfl, fun i _ x z u u' p => rfl⟩]
  refine ⟨hroot, (Solver.initGuess ⟨po, m, P, none, []⟩).1, ?_⟩
  have hz : hc.choose = [1] := (alg_consistent _).1 ⟨hc.choose_spec.1, fun i hi' u => by
    have := hc.choose_spec.2 _ (List.mem_map.2 ⟨i, List.mem_range.2 hi', rfl⟩)
    exact this⟩
  have hlam : PreModel.computeLambda00Root (exactRoot algModel.nZ) algModel m = .ok [0, 1] := by
    unfold PreModel.computeLambda00Root
    rw [hpv, show listGet [([] : List ℝ)] 0 = .ok [] from rfl, ok_bind, hx0]
    unfold exactRoot
    rw [dif_pos hc, hz, ok_bind, lambda00_num h.toSetup rfl rfl rfl, (alg_data h).pss, alg_lam]
    norm_num
  generalize hS0 : (⟨po, m, P, none, []⟩ : Solver) = S0 at hini ⊢
  have hm : S0.m = m := by rw [← hS0]
  unfold Solver.initialize at hini
  unfold Solver.initializeRoot
  rw [hm, hlam]
  split at hini
  · exact absurd (congrArg Prod.snd hini) (by simp)
  · unfold thenReturn at hini ⊢
    dsimp only at hini ⊢
    split at hini
    · exact absurd (congrArg Prod.snd hini) (by simp)
    · rfl

/-- The hypotheses of `C91_rootfinder`, `C91_solve_rootfinder`, `C91_solve_returns` are met by the same
problem. -/
example : ∃ po m oc P S S1,
    (exactRoot algModel.nZ).Correct algModel.nZ ∧
    SetupEx oneColloc algOpts algModel (some UserOcp.trivial) po m oc P ∧
    Reachable oneColloc algOpts algModel (some UserOcp.trivial) echoOracle S ∧ Ready algModel S ∧
    algModel.rootCheck = .ok () ∧
    S.initializeRoot (exactRoot algModel.nZ) algModel = (S1, .ok [0, 1]) ∧ algOpts.polish = false ∧
    ∃ r, (S.solveRoot echoOracle (exactRoot algModel.nZ) algModel).2 = .ok r := by
  obtain ⟨po, m, oc, P, h, hrbe, hA⟩ := alg_setup
  obtain ⟨-, hS, hr⟩ := h.toSetup.create echoOracle (by simp [algOpts, Opts.default])
  obtain ⟨hroot, S1, hI⟩ := alg_initializeRoot h
  exact ⟨po, m, oc, P, _, S1, exactRoot_correct _, h, hS, hr, hroot, hI, rfl,
    C91_solve_returns echoOracle _ (exactRoot_correct _) h.toSetup rfl hS hr Nat.one_pos hroot
      rfl (fun _ s hs s' hs' => by rw [alg_sys hs, alg_sys hs']) hI⟩

/-- The hypotheses of `C91_consistent_guess_partial` are met by the same problem after
`set('x0', [0])`: then `z = 0` is consistent. -/
example : ∃ po m oc P S S1 lam00,
    SetupEx oneColloc algOpts algModel (some UserOcp.trivial) po m oc P ∧
    Reachable oneColloc algOpts algModel (some UserOcp.trivial) echoOracle S ∧ Ready algModel S ∧
    S.initialize = (S1, .ok lam00) ∧ S.m.x0 = [0] ∧
    ∀ p0, S.m.pVal[0]? = some p0 → algModel.Consistent S.m.x0 S.m.z0 p0 := by
  obtain ⟨po, m, oc, P, h, hrbe, hA⟩ := alg_setup
  obtain ⟨-, hS, hr⟩ := h.toSetup.create echoOracle (by simp [algOpts, Opts.default])
  obtain ⟨hpv, hx0, hz0⟩ := alg_vals h
  have hS' := hS.set .x0 (.vec [0])
  have hr' : Ready algModel (Solver.set ⟨po, m, P, none, []⟩ .x0 (.vec [0])).1 := ⟨rfl, hr.guess⟩
  obtain ⟨w0, lam00, hini, -⟩ :=
    C54_initialise_writes_x0 h.toSetup hS' hr' Nat.one_pos (.inl rfl)
  refine ⟨po, m, oc, P, _, _, lam00, h, hS', hr', hini, rfl, fun p0 hp0 => ?_⟩
  have hz : (Solver.set ⟨po, m, P, none, []⟩ .x0 (.vec [0])).1.m.z0 = [0] := hz0
  rw [hz]
  refine ⟨rfl, fun i _ u => ?_⟩
  show (0 : ℝ) - 0 = 0
  norm_num

end Nosnoc
