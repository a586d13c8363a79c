import Verif.Props.Polish
import Verif.Props.Objective
import Verif.Props.Cross
/-
C50: the reported cost.  C51: the reported status.
-/
namespace Nosnoc

section
variable {colloc : IrkScheme → Nat → List ℝ} {o : Opts} {um : UserModel} {uo : Option UserOcp}
  {po : PreOpts} {m : PreModel} {oc : PreOcp} {P : Problem} {orc : Oracle} {S S1 : Solver}
  {lam00 : List ℝ}

/-! ### C50 -/

/-- C50: without polishing the reported cost is the absolute value of the objective at `w_sol` (with
the parameter values of the last NLP solve); so it is the objective exactly if that is not negative.

Partial: the property says that it is the objective, also if that is negative or after polishing. -/
theorem C50_cost_partial (orc : Oracle) (h : Setup colloc o um uo po m oc P)
    (hS : Reachable colloc o um uo orc S) (hr : Ready um S) (hp : o.polish = false)
    {r : SolveResult} (hok : (S.solve orc).2 = .ok r) :
    ∃ c, (S.solve orc).1.log.getLast? = some c ∧
      r.costVal = |P.form.cost (P.point r.wSol c.p)| ∧
      (r.costVal = P.form.cost (P.point r.wSol c.p) ↔ 0 ≤ P.form.cost (P.point r.wSol c.p)) := by
  have hi := hS.inv h
  obtain ⟨lam00, w0, lbx, ubx, n, calls, sols, -, hh, hlog, -, -, -, hcost, -⟩ :=
    C49_results_of_last_solve orc h hS hr hp hok
  have e : S.P.form.cost (S.P.point r.wSol (calls (n - 1)).p)
      = P.form.cost (P.point r.wSol (calls (n - 1)).p) := by rw [hi.prob]; rfl
  rw [e] at hcost
  refine ⟨calls (n - 1), ?_, hcost, by rw [hcost]; exact abs_eq_self⟩
  obtain ⟨k, rfl⟩ : ∃ k, n = k + 1 := ⟨n - 1, by have := hh.pos; omega⟩
  rw [hlog, List.range_succ, List.map_append, ← List.append_assoc]
  simp

/-- A point that has the same value in every variable. -/
theorem Setup.point_replicate (h : Setup colloc o um uo po m oc P) {p : List ℝ} {v : ℝ} {s : Sym}
    (hs : s ∈ P.form.w) : P.point (List.replicate P.form.w.length v) p s = v := by
  have := h.point_w (w := List.replicate P.form.w.length v) (p := p) (by simp)
  have hm : P.point (List.replicate P.form.w.length v) p s ∈
      P.form.w.map (P.point (List.replicate P.form.w.length v) p) := List.mem_map_of_mem hs
  rw [this] at hm
  exact List.eq_of_mem_replicate hm

/-- A problem with terminal cost `f`. -/
def terminalOcp (f : List ℝ → ℝ) : UserOcp :=
  { UserOcp.trivial with fTerminal := fun x _ _ => f x }

/-- Default options without FESD (no cost on the step lengths). -/
noncomputable def costOpts (polish : Bool) : Opts :=
  { Opts.default with useFesd := false, polish := polish }

theorem cost_setup (f : List ℝ → ℝ) (polish : Bool) : ∃ po m oc P,
    SetupEx oneColloc (costOpts polish) flexModel (some (terminalOcp f)) po m oc P ∧
    m.dims = flexDims ∧
    ∀ env, P.form.cost env = f (xEndVal po m.dims 0 (nfe po 0 - 1) env) := by
  obtain ⟨po, m, oc, P, h, hd⟩ := flex_setup (colloc := oneColloc) (o := costOpts polish)
    (uo := terminalOcp f)
    (by constructor <;> simp [costOpts, Opts.default, Opts.nfeAfter])
    (flex_preOpts (by simp [costOpts, Opts.default]) (.inl rfl))
    (by intro r hr; simp [terminalOcp, UserOcp.trivial] at hr)
    (by intro m hm; unfold UserOcp.preprocess; rw [hm]; exact ⟨_, rfl⟩)
  refine ⟨po, m, oc, P, h, hd, fun env => ?_⟩
  have e1 : po.useFesd = false := h.e_useFesd
  have e2 : po.nStages = 1 := h.e_nStages
  rw [C45_plain h (by simp [costOpts, Opts.default])]
  have hs : stepCosts po m.dims env = 0 := by
    unfold stepCosts
    refine Finset.sum_eq_zero fun k _ => Finset.sum_eq_zero fun e _ => ?_
    unfold stepCost
    rw [e1]; rfl
  have hq : runningCost po m.dims ((some (terminalOcp f)).getD UserOcp.trivial) env = 0 := by
    unfold runningCost
    refine Finset.sum_eq_zero fun k _ => Finset.sum_eq_zero fun e _ => Finset.sum_eq_zero fun j _ => ?_
    simp [terminalOcp, UserOcp.trivial]
  rw [hs, hq]
  unfold terminalCost
  rw [e2]
  simp [terminalOcp]

/-- The property fails for negative objectives: whatever the NLP solver answers, the objective is `-1`
everywhere but the reported cost is `1`. -/
theorem C50_negative_objective_violated (orc : Oracle) : ∃ (po : PreOpts) (m : PreModel) (oc : PreOcp)
    (P : Problem) (S : Solver) (r : SolveResult) (c : NlpCall),
    Setup oneColloc (costOpts false) flexModel (some (terminalOcp fun _ => -1)) po m oc P ∧
    Reachable oneColloc (costOpts false) flexModel (some (terminalOcp fun _ => -1)) orc S ∧
    (S.solve orc).2 = .ok r ∧ (S.solve orc).1.log.getLast? = some c ∧
    P.form.cost (P.point r.wSol c.p) = -1 ∧ r.costVal = 1 := by
  obtain ⟨po, m, oc, P, h, -, hc⟩ := cost_setup (fun _ => -1) false
  obtain ⟨-, h2, h3⟩ := h.toSetup.create orc (by simp [costOpts, Opts.default])
  obtain ⟨w0, lam00, h4, -⟩ := C54_initialise_writes_x0 h.toSetup h2 h3 Nat.one_pos (.inl rfl)
  obtain ⟨r, hr⟩ := C49_solve_succeeds orc h.toSetup h2 h3 rfl h4 Nat.one_pos
    (by simp [costOpts, Opts.default, Opts.nfeAfter]) (by
      intro _ s hs s' hs'
      have e : flexModel.nSys = 1 := rfl
      rw [e] at hs hs'
      have : s = s' := by omega
      rw [this])
  obtain ⟨c, hl, hv, -⟩ := C50_cost_partial orc h.toSetup h2 h3 rfl hr
  refine ⟨po, m, oc, P, _, r, c, h.toSetup, h2, hr, hl, hc _, ?_⟩
  rw [hv, hc]
  simp

/-- An NLP solver that answers its `k`-th call with the vector `(k, …, k)`. -/
def countOracle : Oracle where
  sol log := ⟨List.replicate ((log.getLast?.map fun c => c.x0.length).getD 0) log.length,
    "Solve_Succeeded", 0, 0, 0⟩
  len log c := by simp

/-- The property fails after polishing: the reported cost is that of the unpolished solution. -/
theorem C50_polishing_violated : ∃ (po : PreOpts) (m : PreModel) (oc : PreOcp)
    (P : Problem) (S : Solver) (r : SolveResult) (c : NlpCall),
    Setup oneColloc (costOpts true) flexModel (some (terminalOcp fun x => x.getD 0 0)) po m oc P ∧
    Reachable oneColloc (costOpts true) flexModel (some (terminalOcp fun x => x.getD 0 0))
      countOracle S ∧
    (S.solve countOracle).2 = .ok r ∧ (S.solve countOracle).1.log.getLast? = some c ∧
    P.form.cost (P.point r.wSol c.p) = r.costVal + 1 := by
  obtain ⟨po, m, oc, P, h, hd, hc⟩ := cost_setup (fun x => x.getD 0 0) true
  obtain ⟨-, h2, h3⟩ := h.toSetup.create countOracle (by simp [costOpts, Opts.default])
  obtain ⟨w0, lam00, h4, -⟩ := C54_initialise_writes_x0 h.toSetup h2 h3 Nat.one_pos (.inl rfl)
  have hi := h2.inv h.toSetup
  have hv : ∀ t ∈ P.form.w, IsMultiplier t ∨ IsPrimal t := by
    intro t ht
    rcases (C04_variables h.toSetup t).2 ht with hv | ⟨hb, -⟩
    · cases t with
      | st2 f k e j s i => exact .inl trivial
      | sot k =>
        have := hv.1
        rw [h.opts] at this
        cases this
      | h => exact .inr trivial
      | u => exact .inr trivial
      | st1 => exact .inr trivial
      | xEnd => exact .inr trivial
      | vGlob => exact .inr trivial
      | sElastic => exact .inr trivial
      | _ => exact hv.elim
    · rw [h.opts] at hb
      cases hb
  have hU : (costOpts true).pss = .stewart → ∀ s < flexModel.nSys, ∀ s' < flexModel.nSys,
      (flexModel.Fmat s).nCols = (flexModel.Fmat s').nCols := by
    intro _ s hs s' hs'
    have e : flexModel.nSys = 1 := rfl
    rw [e] at hs hs'
    have : s = s' := by omega
    rw [this]
  obtain ⟨r, hr⟩ := (C57_polishing_runs_iff countOracle h.toSetup h2 h3 rfl h4 Nat.one_pos
    (by simp [costOpts, Opts.default, Opts.nfeAfter])).2 ⟨hv, hU⟩
  obtain ⟨lam, w0', lbx, ubx, n, calls, sols, c, -, hh, hlx, hpc, hlog, hw, hwl, -, -, hcost, -⟩ :=
    C57_polishing_partial countOracle h.toSetup h2 h3 rfl hr
  have hlog' : (Solver.solve countOracle ⟨po, m, P, none, []⟩).1.log
      = (List.range n).map calls ++ [c] := by
    rw [hlog]; rfl
  refine ⟨po, m, oc, P, _, r, c, h.toSetup, h2, hr, by rw [hlog']; simp, ?_⟩
  have hnS : po.nS = 2 := h.e_nS
  have hst : po.nStages = 1 := h.e_nStages
  have hxe : endX po 0 (nfe po 0 - 1) 0 ∈ P.form.w := by
    apply (C04_variables h.toSetup _).1
    have hn := (h.toSetup.built.ok.primal.nfe 0 (by omega)).2
    have hfe : HasFE po 0 (nfe po 0 - 1) := ⟨by omega, by unfold nfe at *; omega⟩
    unfold endX
    have hdx : 0 < m.dims.nX := by rw [hd]; exact Nat.one_pos
    split
    · rename_i ho
      exact ⟨ho, hfe, hdx⟩
    · exact ⟨by rw [h.e_irkRep]; decide, hfe, by omega, hdx⟩
  have hval : ∀ v p, P.form.cost (P.point (List.replicate P.form.w.length v) p) = v := by
    intro v p
    rw [hc]
    unfold xEndVal
    rw [hd]
    show (List.map _ (List.range 1)).getD 0 0 = v
    simp [h.toSetup.point_replicate hxe]
  have hws : r.wSol = List.replicate P.form.w.length ((n : ℝ) + 1) := by
    have hl := hwl
    rw [hw, hlog'] at hl ⊢
    simp only [countOracle, List.length_replicate] at hl ⊢
    rw [hl]
    simp
  have hso : (sols (n - 1)).x = List.replicate P.form.w.length (n : ℝ) := by
    have hl := hlx
    have hn := hh.pos
    rw [hh.answer _ (by omega)] at hl ⊢
    simp only [countOracle, List.length_replicate] at hl ⊢
    rw [hl]
    have e : n - 1 + 1 = n := by omega
    simp [e]
  have hcost' : r.costVal = |P.form.cost (P.point (sols (n - 1)).x (calls (n - 1)).p)| := hcost
  rw [hcost', hws, hso, hval, hval, abs_of_nonneg (Nat.cast_nonneg n)]

/-! ### C51 -/

/-- C51: the status is SUCCESS exactly if the last NLP solve ended in one of the accepted statuses. -/
theorem C51_status (orc : Oracle) (h : Setup colloc o um uo po m oc P)
    (hS : Reachable colloc o um uo orc S) (hr : Ready um S)
    {r : SolveResult} (hok : (S.solve orc).2 = .ok r) :
    r.wSol = (orc.sol (S.solve orc).1.log).x ∧
    (r.status = .success ↔ (orc.sol (S.solve orc).1.log).status ∈ ["Solve_Succeeded",
      "Solved_To_Acceptable_Level", "Feasible_Point_Found", "Search_Direction_Becomes_Too_Small"]) := by
  have key : ∀ s, statusOf s = .success ↔ s ∈ ["Solve_Succeeded", "Solved_To_Acceptable_Level",
      "Feasible_Point_Found", "Search_Direction_Becomes_Too_Small"] := by
    intro s
    unfold statusOf checkIpoptSuccess
    split <;> simp_all
  cases hp : o.polish with
  | false =>
    obtain ⟨lam00, w0, lbx, ubx, n, calls, sols, -, hh, hlog, hw, -, hst, -⟩ :=
      C49_results_of_last_solve orc h hS hr hp hok
    have hn := hh.pos
    have e : n - 1 + 1 = n := by omega
    have := hh.answer (n - 1) (by omega)
    rw [e, ← hlog] at this
    rw [hw, hst, ← this]
    exact ⟨rfl, key _⟩
  | true =>
    obtain ⟨lam00, w0, lbx, ubx, n, calls, sols, c, -, hh, -, hpc, hlog, hw, -, hst, -⟩ :=
      C57_polishing_partial orc h hS hr hp hok
    rw [hst]
    exact ⟨hw, key _⟩

/-- C51: without polishing, when the homotopy ends before its budget is used and before `sigma` has
reached `sigma_N`, the complementarity residual at `w_sol` is below `comp_tol`.

Partial: the property says that SUCCESS implies a residual below `comp_tol`. -/
theorem C51_residual_partial (orc : Oracle) (h : Setup colloc o um uo po m oc P)
    (hS : Reachable colloc o um uo orc S) (hr : Ready um S) (hp : o.polish = false)
    {r : SolveResult} (hok : (S.solve orc).2 = .ok r) :
    ∃ (new : List NlpCall) (c : NlpCall), (S.solve orc).1.log = S.log ++ new ++ [c] ∧
      (P.compRes (P.point r.wSol c.p) < o.compTol ∨ sigmaAt o new.length ≤ o.sigmaN ∨
        new.length + 1 = po.maxIterHomotopy) := by
  have hi := hS.inv h
  obtain ⟨lam00, w0, lbx, ubx, n, calls, sols, -, hh, hlog, hw, -⟩ :=
    C49_results_of_last_solve orc h hS hr hp hok
  have hsig : ∀ k, sigmaAt S.o.toOpts k = sigmaAt o k := by
    intro k
    rw [hi.opts, h.opts]
    induction k with
    | zero => rfl
    | succ k ih => rw [sigmaAt_succ, ih, sigmaAt_succ]; rfl
  obtain ⟨k, rfl⟩ : ∃ k, n = k + 1 := ⟨n - 1, by have := hh.pos; omega⟩
  refine ⟨(List.range k).map calls, calls k, ?_, ?_⟩
  · rw [hlog, List.range_succ, List.map_append, ← List.append_assoc]; rfl
  · have hs := hh.stop
    have e : S.residual (sols k).x (calls k).p = P.compRes (P.point r.wSol (calls k).p) := by
      rw [hw]
      unfold Solver.residual
      rw [hi.prob]; rfl
    have e1 : S.o.maxIterHomotopy = po.maxIterHomotopy := by rw [hi.opts]
    have e2 : S.o.compTol = o.compTol := by rw [hi.opts, h.opts]
    have e3 : S.o.sigmaN = o.sigmaN := by rw [hi.opts, h.opts]
    rw [Nat.add_sub_cancel, e, hsig, e1, e2, e3] at hs
    simpa using hs

/-- The property fails: SUCCESS is reported although the complementarity residual is 1. -/
theorem C51_residual_violated : ∃ (po : PreOpts) (m : PreModel) (oc : PreOcp)
    (P : Problem) (S : Solver) (r : SolveResult),
    Setup demoColloc Opts.default demoModel (some demoOcp) po m oc P ∧
    Reachable demoColloc Opts.default demoModel (some demoOcp) (constOracle 1) S ∧
    (S.solve (constOracle 1)).2 = .ok r ∧ r.status = .success ∧
    ∀ p, Opts.default.compTol < P.compRes (P.point r.wSol p) := by
  obtain ⟨po, m, oc, P, h, -⟩ := demo_setup demo_default
  obtain ⟨-, h2, h3⟩ := h.toSetup.create (constOracle 1) (by simp [Opts.default])
  obtain ⟨w0, lam00, h4, -⟩ := C54_initialise_writes_x0 h.toSetup h2 h3 Nat.one_pos (.inl rfl)
  have hU : Opts.default.pss = .stewart → ∀ s < demoModel.nSys, ∀ s' < demoModel.nSys,
      (demoModel.Fmat s).nCols = (demoModel.Fmat s').nCols := by
    intro _ s hs s' hs'
    have e : demoModel.nSys = 1 := rfl
    rw [e] at hs hs'
    have : s = s' := by omega
    rw [this]
  obtain ⟨r, hr⟩ := C49_solve_succeeds (constOracle 1) h.toSetup h2 h3 rfl h4 Nat.one_pos
    (by simp [Opts.default, Opts.nfeAfter]) hU
  refine ⟨po, m, oc, P, _, r, h.toSetup, h2, hr, ?_, fun p => ?_⟩
  · exact (C51_status _ h.toSetup h2 h3 hr).2.2 (by simp [constOracle])
  · obtain ⟨lam00, w0, lbx, ubx, n, calls, sols, -, hh, hlog, hw, hwl, -⟩ :=
      C49_results_of_last_solve _ h.toSetup h2 h3 rfl hr
    have hws : r.wSol = List.replicate P.form.w.length 1 := by
      have hl := hwl
      rw [(C51_status _ h.toSetup h2 h3 hr).1] at hl ⊢
      simp only [constOracle, List.length_replicate] at hl ⊢
      rw [hl]
    by_contra hc
    push Not at hc
    have hst : po.nStages = 1 := h.e_nStages
    have hnS : po.nS = 2 := h.e_nS
    have hps : po.pss = .stewart := by rw [h.opts]; rfl
    have hfe : HasFE po 0 0 := ⟨by omega, (h.toSetup.built.ok.primal.nfe 0 (by omega)).2⟩
    have hsys : m.dims.nSys = 1 := h.toSetup.dims.2.2.2.2.2.2.1
    have hnf : m.dims.nF 0 = 2 := h.toSetup.dims.2.2.2.2.2.2.2.1 hps 0 Nat.one_pos
    have hq : IsPair po m.dims (.region 0 0) := ⟨hps, by omega, by omega⟩
    have hlt : P.compRes (P.point r.wSol p) < 1 := by
      refine lt_of_le_of_lt hc ?_
      simp [Opts.default]; norm_num
    have := ((C34_residual_bounds h.toSetup 1 hlt hfe (j := 0) (by simp [Opts.default]) hq).1
      rfl).1 0 (by simp [Opts.default])
    rw [hws] at this
    have m1 : Sym.st2 .theta 0 0 0 0 0 ∈ P.form.w := (C04_variables h.toSetup _).1
      ⟨hps, hfe, by omega, by omega, by omega⟩
    have m2 : Sym.st2 .lam 0 0 0 0 0 ∈ P.form.w := (C04_variables h.toSetup _).1
      ⟨hps, hfe, by unfold nLamPts; omega, by omega, by omega⟩
    simp only [thetaAt, lamAt, h.toSetup.point_replicate m1, h.toSetup.point_replicate m2] at this
    norm_num at this

/-! ### The hypotheses are met -/

/-- A solve of the demo problem with the default options, in which the NLP solver returns its starting
point. -/
example : ∃ po m oc P S r, Setup demoColloc Opts.default demoModel (some demoOcp) po m oc P ∧
    Reachable demoColloc Opts.default demoModel (some demoOcp) echoOracle S ∧ Ready demoModel S ∧
    Opts.default.polish = false ∧ (S.solve echoOracle).2 = .ok r ∧ r.status = .success := by
  obtain ⟨po, m, oc, P, h, -⟩ := demo_setup demo_default
  obtain ⟨-, h2, h3⟩ := h.toSetup.create echoOracle (by simp [Opts.default])
  obtain ⟨w0, lam00, h4, -⟩ := C54_initialise_writes_x0 h.toSetup h2 h3 Nat.one_pos (.inl rfl)
  obtain ⟨r, hr⟩ := C49_solve_succeeds echoOracle h.toSetup h2 h3 rfl h4 Nat.one_pos
    (by simp [Opts.default, Opts.nfeAfter]) (fun _ s hs s' hs' => by
      have e : demoModel.nSys = 1 := rfl
      rw [e] at hs hs'
      have : s = s' := by omega
      rw [this])
  exact ⟨po, m, oc, P, _, r, h.toSetup, h2, h3, rfl, hr,
    (C51_status _ h.toSetup h2 h3 hr).2.2 (by simp [echoOracle])⟩

end
end Nosnoc
