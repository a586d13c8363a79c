import Verif.Props.Progress
import Verif.Props.Polish
import Verif.Props.Cross
import Verif.Props.Schedule
/-
C101: does polishing keep a solved problem solved?
-/
namespace Nosnoc

section
variable {colloc : IrkScheme → Nat → List ℝ} {o : Opts} {um : UserModel} {uo : Option UserOcp}
  {po : PreOpts} {m : PreModel} {oc : PreOcp} {P : Problem} {orc : Oracle} {S S1 : Solver}
  {r : SolveResult}

/-- An exact and clean point solves the polishing NLP that starts from it. -/
theorem polish_within (h : SetupEx colloc o um uo po m oc P)
    (hS : Reachable colloc o um uo orc S) (hx0 : S.m.x0.length = um.nX) {lam00 : List ℝ}
    (hini : S.initialize = (S1, .ok lam00)) (hmode : o.pss = .stewart ∨ um.nSys ≤ 1)
    (htol : o.compTol ≤ 1 / 10)
    {env : Env} (hfe : P.form.Feasible env) (hpar : ∀ t ∈ P.p, env t = paramVal um S 0 0 t)
    (hclean : ∀ t ∈ P.form.w, IsMultiplier t → env t = 0 ∨ env t = 1 ∨
      (10 * o.compTol ≤ env t ∧ 10 * o.compTol ≤ |env t - 1|))
    {c : NlpCall} (hpc : PolishCall S lam00 (P.form.w.map env) c) :
    c.p = P.p.map env ∧ Within (P.form.w.map env) c.lbx c.ubx ∧
    Within (P.form.g.map fun q => q (P.point (P.form.w.map env) c.p)) c.lbg c.ubg := by
  have h' := h.toSetup
  have hi := hS.inv h'
  have hpm : c.p = P.p.map env := by
    rw [hpc.p]
    have := pValues_paramVal h' hi hx0 hini hmode 0 0
    rw [this, hi.p]
    exact (List.map_congr_left hpar).symm
  have hct : S.o.compTol = o.compTol := by rw [hi.opts, h'.opts]
  have e1 : S.P.form.w = P.form.w := hi.w
  refine ⟨hpm, within_of_feasible h' h.sound hpm
    (by rw [hpc.g.1, hi.prob]) (by rw [hpc.g.2, hi.prob]) ?_ hfe⟩
  intro i t ht
  have ht' : S.P.form.w[i]? = some t := by rw [e1]; exact ht
  by_cases hm : IsMultiplier t
  · have hv : (P.form.w.map env)[i]? = some (env t) := by rw [List.getElem?_map, ht]; rfl
    have hcl := hclean t (List.mem_of_getElem? ht) hm
    by_cases h1 : |env t - 1| < 10 * o.compTol
    · right
      have : env t = 1 := by
        rcases hcl with hc | hc | hc
        · rw [hc] at h1; norm_num at h1; linarith
        · exact hc
        · linarith [hc.2]
      rw [this]
      exact hpc.one i t _ ht' hm hv (by rw [hct]; exact h1)
    · push Not at h1
      by_cases h2 : env t < 10 * o.compTol
      · right
        have : env t = 0 := by
          rcases hcl with hc | hc | hc
          · exact hc
          · rw [hc] at h2; linarith
          · linarith [hc.1]
        rw [this]
        exact hpc.zero i t _ ht' hm hv (by rw [hct]; exact h1) (by rw [hct]; exact h2)
      · left
        push Not at h2
        have := hpc.free i t _ ht' hm hv (by rw [hct]; exact h1) (by rw [hct]; exact h2)
        rw [← hi.lbw, ← hi.ubw]
        exact this
  · left
    rw [← hi.lbw, ← hi.ubw]
    exact hpc.keep i t ht' hm

/-- C101: the last homotopy solution satisfies the problem with exact complementarity (`σ = τ = 0`), and
every multiplier is 0, 1, or at least ten times the complementarity tolerance away from both.  Then, with
an NLP solver that solves every feasible NLP, `solve` with polishing reports SUCCESS.

Partial: the property says that polishing never turns a solved problem into a failed one. -/
theorem C101_polishing_succeeds_partial (h : SetupEx colloc o um uo po m oc P)
    (hS : Reachable colloc o um uo orc S) (hcomp : orc.Complete P) (hok : (S.solve orc).2 = .ok r)
    (hpol : o.polish = true) (hmode : o.pss = .stewart ∨ um.nSys ≤ 1) (htol : o.compTol ≤ 1 / 10)
    {env : Env} (hfe : P.form.Feasible env) (hpar : ∀ t ∈ P.p, env t = paramVal um S 0 0 t)
    (hlast : r.wAll.getLast? = some (P.form.w.map env))
    (hclean : ∀ t ∈ P.form.w, IsMultiplier t → env t = 0 ∨ env t = 1 ∨
      (10 * o.compTol ≤ env t ∧ 10 * o.compTol ≤ |env t - 1|)) :
    r.status = .success := by
  have h' := h.toSetup
  have hi := hS.inv h'
  obtain ⟨hr, S1, lam00', hini⟩ := ready_of_ok h' hi hok
  obtain ⟨lam00, w0, lbx, ubx, n, calls, sols, c, hini', hh, hlx, hpc, hlog, hw, hwl, hst, -, -, hall, -⟩ :=
    C57_polishing_partial orc h' hS hr hpol hok
  have hlam : lam00' = lam00 := by rw [hini] at hini'; exact Except.ok.inj hini'
  subst hlam
  have hx : (sols (n - 1)).x = P.form.w.map env := by
    obtain ⟨k, rfl⟩ : ∃ k, n = k + 1 := ⟨n - 1, by have := hh.pos; omega⟩
    rw [hall, List.range_succ, List.map_append, ← List.cons_append, List.map_singleton,
      List.getLast?_concat] at hlast
    exact Option.some.inj hlast
  rw [hx] at hpc
  obtain ⟨-, w1, w2⟩ := polish_within h hS hr.x0 hini hmode htol hfe hpar hclean hpc
  have hst1 := Nat.pos_of_ne_zero h'.built.ok.primal.stages
  rw [h'.e_nStages] at hst1
  obtain ⟨k, hk⟩ : ∃ k, o.nStages = k + 1 := ⟨o.nStages - 1, by omega⟩
  refine ((C51_status _ h' hS hr hok).2).2 ?_
  rw [hlog, hk, List.replicate_succ', ← List.append_assoc]
  exact hcomp _ c ⟨P.form.w.map env, by rw [hpc.x0], w1, w2⟩

end

/-! ### The property fails -/

section
variable {pol : Bool} {po : PreOpts} {m : PreModel} {oc : PreOcp} {P : Problem} {T : Solver}
  {orc : Oracle} {q : SolveResult}

/-- Two regions, the switching function is the constant `1e-8`: the state stays in the first region. -/
noncomputable abbrev nearModel : UserModel := constModel signMat fun _ => 1 / 10 ^ 8

/-- The problem of this model has a feasible point for all parameters. -/
theorem near_feasible (h : SetupEx oneColloc (constOpts .stewart false pol) nearModel none po m oc P)
    (hf : ∀ (y σ τ : ℝ) (l : Fam2 → Nat → Nat → ℝ), 0 ≤ σ →
      P.form.Feasible (constEnvP .stewart signMat (fun _ => 1 / 10 ^ 8) 0 y σ τ l))
    (T : Solver) {σ : ℝ} (hσ : 0 ≤ σ) (τ : ℝ) :
    ∃ env, P.form.Feasible env ∧ ∀ t ∈ P.p, env t = paramVal nearModel T σ τ t := by
  refine ⟨_, hf (T.m.x0.getD 0 0) σ τ (fun f s i => paramVal nearModel T σ τ (.lam00 f s i)) hσ, ?_⟩
  have h' := h.toSetup
  intro t ht
  rw [p_eq h'] at ht
  unfold pHead at ht
  simp only [List.mem_append, List.mem_flatMap, blk, List.mem_map] at ht
  rcases ht with ((⟨k, -, i, hi', rfl⟩ | ht) | ((hb | hb) | hb)) | ⟨i, hi', rfl⟩
  · rw [h'.dims.2.2.2.2.1, h'.dims.2.2.2.2.2.1] at hi'
    simp [constModel] at hi'
  · simp at ht
    rcases ht with rfl | rfl
    · rfl
    · rfl
  · obtain ⟨s, i, rfl⟩ := mem_lam00Row hb; rfl
  · obtain ⟨s, i, rfl⟩ := mem_lam00Row hb; rfl
  · obtain ⟨s, i, rfl⟩ := mem_lam00Row hb; rfl
  · rw [h'.dims.1] at hi'
    have : i = 0 := by simpa [constModel] using hi'
    subst this
    rfl

/-- The multipliers of feasible points. -/
theorem near_multipliers (h : SetupEx oneColloc (constOpts .stewart false pol) nearModel none po m oc P)
    {env : Env} (hfe : P.form.Feasible env) :
    HasFE po 0 0 ∧ po.nS = 1 ∧
    env (.st2 .lam 0 0 0 0 1) - env (.st2 .lam 0 0 0 0 0) = 2 / 10 ^ 8 ∧
    env (.st2 .theta 0 0 0 0 0) + env (.st2 .theta 0 0 0 0 1) = 1 ∧
    (∀ i < 2, 0 ≤ env (.st2 .lam 0 0 0 0 i) ∧ 0 ≤ env (.st2 .theta 0 0 0 0 i)) ∧
    (∀ i < 2, IsPair po m.dims (.region 0 i)) ∧
    (∀ i < 2, env (.st2 .lam 0 0 0 0 i) * env (.st2 .theta 0 0 0 0 i) ≤ env .sigma) := by
  have h' := h.toSetup
  have hs := h.spec hfe
  have e1 : po.pss = .stewart := h.e_pss
  have e2 : po.nStages = 1 := h.e_nStages
  have e3 : po.useFesd = false := h.e_useFesd
  have e6 : po.nS = 1 := h.e_nS
  have e9 : po.mpcc = .scholtesIneq := h.e_mpcc
  have hFE : HasFE po 0 0 := ⟨by omega, h'.nfe_pos 0 (by omega)⟩
  obtain ⟨-, -, -, -, -, -, d1, d2, d3⟩ := h'.dims
  have dn : m.dims.nSys = 1 := d1
  have df : m.dims.nF 0 = 2 := d2 e1 0 (by show 0 < 1; omega)
  have hpair : ∀ i < 2, IsPair po m.dims (.region 0 i) := fun i hi => ⟨e1, by omega, by omega⟩
  obtain ⟨a1, a2, -⟩ := hs.alg 0 0 hFE 0 (by omega)
  unfold UserModel.Switching at a1
  rw [e1] at a1
  have g0 := a1 0 (by show 0 < 1; omega) 0 (by show 0 < 2; omega)
  have g1 := a1 0 (by show 0 < 1; omega) 1 (by show 1 < 2; omega)
  have gv : ∀ i x z p, nearModel.gVal 0 i x z p = -(signMat.entry i 0 * (1 / 10 ^ 8)) := by
    intro i x z p
    simp [UserModel.gVal, UserModel.gStewartTruthy, constModel, UserModel.Smat, UserModel.cVec, signMat]
  rw [gv] at g0 g1
  have hθ := a2 e1 0 (by show 0 < 1; omega)
  have : (nearModel.Fmat 0).nCols = 2 := rfl
  rw [this, Finset.sum_range_succ, Finset.sum_range_one] at hθ
  refine ⟨hFE, e6, ?_, hθ, ?_, hpair, ?_⟩
  · have s0 : signMat.entry 0 0 = 1 := by simp [signMat]
    have s1 : signMat.entry 1 0 = -1 := by simp [signMat]
    rw [s0] at g0
    rw [s1] at g1
    linarith
  · intro i hi
    have b1 := (hs.bounds (.st2 .lam 0 0 0 0 i) ⟨e1, hFE, by unfold nLamPts; omega, by omega, by omega⟩).1
    have b2 := (hs.bounds (.st2 .theta 0 0 0 0 i) ⟨e1, hFE, by omega, by omega, by omega⟩).1
    simp only [varDoc, e9, dualLb] at b1 b2
    rw [if_pos (by simp)] at b1 b2
    exact ⟨by exact_mod_cast b1, by exact_mod_cast b2⟩
  · intro i hi
    have := hs.compStd e3 0 0 hFE 0 (by omega) (.region 0 i) (hpair i hi)
    unfold Compl CompSat at this
    rw [e9] at this
    simpa [lamAt, thetaAt] using this

theorem near_polish_fails (h : SetupEx oneColloc (constOpts .stewart false true) nearModel none po m oc P)
    (hf : ∀ (y σ τ : ℝ) (l : Fam2 → Nat → Nat → ℝ), 0 ≤ σ →
      P.form.Feasible (constEnvP .stewart signMat (fun _ => 1 / 10 ^ 8) 0 y σ τ l))
    (hT : Reachable oneColloc (constOpts .stewart false true) nearModel none orc T)
    (hex : orc.Exact P) (hcomp : orc.Complete P) (hok : (T.solve orc).2 = .ok q) :
    q.status = .infeasible := by
  by_contra hne
  have hsucc : q.status = .success := by cases hq : q.status <;> simp_all
  have h' := h.toSetup
  have hi := hT.inv h'
  obtain ⟨hr, S1, lam00', hini⟩ := ready_of_ok h' hi hok
  obtain ⟨lam00, w0, lbx, ubx, n, calls, sols, c, hini', hh, hlx, hpc, hlog, hw, hwl, hst, -, -, -, hbd, -⟩ :=
    C57_polishing_partial orc h' hT hr rfl hok
  have hlam : lam00' = lam00 := by rw [hini] at hini'; exact Except.ok.inj hini'
  subst hlam
  obtain ⟨k, rfl⟩ : ∃ k, n = k + 1 := ⟨n - 1, by have := hh.pos; omega⟩
  rw [Nat.add_sub_cancel] at hlx hpc
  have hsig : ∀ k, sigmaAt T.o.toOpts k = sigmaAt (constOpts .stewart false true) k := by
    intro k
    rw [hi.opts, h'.opts]
    induction k with
    | zero => rfl
    | succ k ih => rw [sigmaAt_succ, ih, sigmaAt_succ]; rfl
  have hσ := sigmaAt_pos (o := constOpts .stewart false true) (by norm_num [constOpts, Opts.default])
    (by norm_num [constOpts, Opts.default]) k
  have hnofix : ∀ t, ¬ T.FixedTheta nearModel t := by
    intro t ht
    have := ht.1
    rw [hi.opts, h'.opts] at this
    simp [constOpts, Opts.default] at this
  obtain ⟨g1, g2, g3, g4⟩ := hh.bounds k (by omega)
  -- the last homotopy call
  have hbounds : ∀ (i : Nat) t, P.form.w[i]? = some t →
      (calls k).lbx[i]? = P.form.lbw[i]? ∧ (calls k).ubx[i]? = P.form.ubw[i]? := by
    intro i t ht
    rw [g1, g2, ← hi.lbw, ← hi.ubw]
    exact hbd i t (by rw [hi.w]; exact ht) (hnofix t)
  have hp1 := hh.params k (by omega)
  rw [hsig] at hp1
  set σ := sigmaAt (constOpts .stewart false true) k with hσd
  set τ := min (σ ^ (3 / 2 : ℝ)) σ with hτd
  obtain ⟨env, hfe, hpar⟩ := near_feasible h hf T hσ.le τ
  have hpm : (calls k).p = P.p.map env := by
    rw [hp1]
    have := pValues_paramVal h' hi hr.x0 hini (.inl rfl) σ τ
    rw [this, hi.p]
    exact (List.map_congr_left hpar).symm
  have hans := hh.answer k (by omega)
  rw [List.range_succ, List.map_append, ← List.append_assoc, List.map_singleton] at hans
  have hx0 : (calls k).x0.length = P.form.w.length := by
    rw [← hi.w, ← hlx, hans]
    exact (orc.len _ _).symm
  have hacc := hcomp (T.log ++ (List.range k).map calls) (calls k) ⟨P.form.w.map env,
    by rw [hx0, List.length_map], within_of_feasible h' h.sound hpm (by rw [g3, hi.prob])
      (by rw [g4, hi.prob]) (fun i t ht => .inl (hbounds i t ht)) hfe⟩
  obtain ⟨v1, v2⟩ := hex _ _ hacc
  rw [← hans] at v1 v2
  have hlx' : (sols k).x.length = P.form.w.length := by rw [hlx, hi.w]
  have hfe1 := within_feasible h' hlx' (fun i t ht => .inl (hbounds i t ht)) (by rw [g3, hi.prob])
    (by rw [g4, hi.prob]) v1 v2
  obtain ⟨hFE, hnS, a1, a2, a3, a4, a5⟩ := near_multipliers h hfe1
  have hpl : (calls k).p.length = P.p.length := by rw [hpm, List.length_map]
  have hσ1 : P.point (sols k).x (calls k).p .sigma = σ := by
    have hm : Sym.sigma ∈ P.p := by rw [p_eq h']; simp [pHead]
    have := List.map_inj_left.1 ((h'.point_p hlx' hpl).trans hpm) _ hm
    rw [this, hpar _ hm]
    rfl
  set E := P.point (sols k).x (calls k).p with hE
  -- products are small
  have hprod : ∀ i < 2, E (.st2 .lam 0 0 0 0 i) * E (.st2 .theta 0 0 0 0 i) ≤ 35 / 10 ^ 9 := by
    intro i hi2
    have hstop := hh.stop
    rw [Nat.add_sub_cancel, hsig] at hstop
    rcases hstop with hs | hs | hs
    · have e0 : T.residual (sols k).x (calls k).p = P.compRes E := by
        unfold Solver.residual
        rw [hi.prob]; rfl
      have e1 : T.o.compTol = 1 / 10 ^ 8 := by rw [hi.opts, h'.opts]; rfl
      rw [e0, e1] at hs
      have := (C34_residual_bounds h' _ hs hFE (j := 0) (by simp [constOpts]) (a4 i hi2)).2 rfl
      simp only [thetaAt, lamAt] at this
      rw [mul_comm]
      refine this.le.trans (by norm_num)
    · have e1 : T.o.sigmaN = 1 / 10 ^ 8 := by rw [hi.opts, h'.opts]; rfl
      rw [e1] at hs
      exact (a5 i hi2).trans (by rw [hσ1]; exact hs.trans (by norm_num))
    · have e1 : T.o.maxIterHomotopy = po.maxIterHomotopy := by rw [hi.opts]
      have hpre : (constOpts .stewart false true).preprocess oneColloc = .ok po := by
        have hc := h'.ok
        unfold construct at hc
        simp only [bind_eq_ok] at hc
        obtain ⟨_, -, po', hpo, m', -, oc', -, P', -, hc⟩ := hc
        cases hc
        exact hpo
      have hb := (C48_default_budget hpre rfl rfl (by norm_num [constOpts, Opts.default])
        (by norm_num [constOpts, Opts.default]) (by norm_num [constOpts, Opts.default])
        (by norm_num [constOpts, Opts.default])).2.1
      rw [← e1, ← hs, Nat.add_sub_cancel] at hb
      refine (a5 i hi2).trans ?_
      rw [hσ1]
      refine hb.trans ?_
      have hsq : (2 / 7 : ℝ) ≤ √(1 / 10) := Real.le_sqrt_of_sq_le (by norm_num)
      show (1 / 10 ^ 8 : ℝ) / √(1 / 10) ≤ 35 / 10 ^ 9
      rw [div_le_iff₀ (by linarith)]
      linarith
  have hsmall : ∀ i < 2, E (.st2 .lam 0 0 0 0 i) < 1 / 10 ^ 7 := by
    have p0 := hprod 0 (by omega)
    have p1 := hprod 1 (by omega)
    obtain ⟨l0, t0⟩ := a3 0 (by omega)
    obtain ⟨l1, t1⟩ := a3 1 (by omega)
    have key : E (.st2 .lam 0 0 0 0 1) < 1 / 10 ^ 7 := by
      by_cases hc : 1 / 2 ≤ E (.st2 .theta 0 0 0 0 0)
      · nlinarith
      · nlinarith
    intro i hi2
    obtain rfl | rfl : i = 0 ∨ i = 1 := by omega
    · linarith
    · exact key
  -- both multipliers are fixed to 0
  have hps : po.pss = .stewart := h.e_pss
  have dn : m.dims.nSys = 1 := h'.dims.2.2.2.2.2.2.1
  have df : m.dims.nF 0 = 2 := h'.dims.2.2.2.2.2.2.2.1 hps 0 (by show 0 < 1; omega)
  have hct : T.o.compTol = 1 / 10 ^ 8 := by rw [hi.opts, h'.opts]; rfl
  have hns : (constOpts .stewart false true).nStages = 1 := rfl
  rw [hns] at hlog
  change _ = T.log ++ _ ++ [c] at hlog
  have hacc2 := ((C51_status _ h' hT hr hok).2).1 hsucc
  rw [hlog] at hacc2 hw
  obtain ⟨u1, u2⟩ := hex _ _ hacc2
  rw [← hw] at u1 u2
  have hwl' : q.wSol.length = P.form.w.length := by rw [hwl, hi.w]
  have hzero : ∀ i < 2, P.point q.wSol c.p (.st2 .lam 0 0 0 0 i) = 0 := by
    intro i hi2
    have hmem : Sym.st2 .lam 0 0 0 0 i ∈ P.form.w := (C04_variables h' _).1
      ⟨hps, hFE, by unfold nLamPts; omega, by omega, by omega⟩
    obtain ⟨n, hn, hget⟩ := List.getElem_of_mem hmem
    have hget' : P.form.w[n]? = some (.st2 .lam 0 0 0 0 i) := by rw [List.getElem?_eq_getElem hn, hget]
    have hv : (sols k).x[n]? = some (E (.st2 .lam 0 0 0 0 i)) := by
      rw [← h'.point_w (p := (calls k).p) hlx', List.getElem?_map, hget']
      rfl
    have hv' : q.wSol[n]? = some (P.point q.wSol c.p (.st2 .lam 0 0 0 0 i)) := by
      conv_lhs => rw [← h'.point_w (p := c.p) hwl', List.getElem?_map, hget']
      rfl
    have hsm := hsmall i hi2
    have hz := hpc.zero n (.st2 .lam 0 0 0 0 i) _ (by rw [hi.w]; exact hget') trivial hv
      (by rw [hct, abs_sub_comm, le_abs]; left; norm_num at hsm ⊢; linarith)
      (by rw [hct]; norm_num at hsm ⊢; linarith)
    have := u1 n _ hv'
    have z1 := this.1 _ hz.1
    have z2 := this.2 _ hz.2
    exact le_antisymm (by exact_mod_cast z2) (by exact_mod_cast z1)
  obtain ⟨sg, ta, log, c', hl', q1, q2, -, q3, -⟩ := last_call h' hT hr hok hini
  rw [hlog] at hl'
  obtain ⟨-, hcc⟩ := List.append_inj' hl' rfl
  cases hcc
  have hfe2 := within_feasible h' hwl' q3 q1 q2 u1 u2
  obtain ⟨-, -, b1, -⟩ := near_multipliers h hfe2
  rw [hzero 0 (by omega), hzero 1 (by omega)] at b1
  norm_num at b1

/-- The property fails: polishing can turn a solved problem into a failed one.  Two regions, the switching
function has the constant value `1e-8`, all options of the homotopy at their defaults.  For every NLP
solver that is exact and complete: without polishing, `solve` reports SUCCESS for every initial state;
with polishing, the same problem is always reported as infeasible, because the multipliers `0` and
`2e-8` are both fixed to 0 although they differ. -/
theorem C101_polishing_violated : ∃ (um : UserModel) (po po' : PreOpts) (m m' : PreModel)
    (oc oc' : PreOcp) (P P' : Problem),
    SetupEx oneColloc (constOpts .stewart) um none po m oc P ∧
    SetupEx oneColloc { constOpts .stewart with polish := true } um none po' m' oc' P' ∧
    (∀ (orc : Oracle) (S : Solver) (r : SolveResult), orc.Complete P →
      Reachable oneColloc (constOpts .stewart) um none orc S →
      (S.solve orc).2 = .ok r → r.status = .success) ∧
    (∀ (orc : Oracle) (S : Solver) (r : SolveResult), orc.Exact P' → orc.Complete P' →
      Reachable oneColloc { constOpts .stewart with polish := true } um none orc S →
      (S.solve orc).2 = .ok r → r.status = .infeasible) := by
  have hmin : ∀ i < signMat.rows, constG signMat (fun _ => 1 / 10 ^ 8) 0
      ≤ constG signMat (fun _ => 1 / 10 ^ 8) i := by
    intro i hi
    have : i = 0 ∨ i = 1 := by have : i < 2 := hi; omega
    rcases this with rfl | rfl <;> norm_num [constG, signMat]
  obtain ⟨po, m, oc, P, h, hf⟩ := const_none (pss := .stewart) (S := signMat) (c := fun _ => 1 / 10 ^ 8)
    (pol := false) (by decide)
  obtain ⟨po', m', oc', P', h1, hf1⟩ := const_none (pss := .stewart) (S := signMat)
    (c := fun _ => 1 / 10 ^ 8) (pol := true) (by decide)
  refine ⟨nearModel, po, po', m, m', oc, oc', P, P', h, h1, ?_, ?_⟩
  · intro orc S r hc hS hok
    refine C100_feasible_succeeds_partial h hS hc hok rfl (.inl rfl) fun k => ?_
    obtain ⟨env, n1, n2⟩ := near_feasible h (fun y σ τ l hσ => hf 0 (by decide) hmin y σ τ l hσ) S
      (sigmaAt_pos (o := constOpts .stewart) (by norm_num [constOpts, Opts.default])
        (by norm_num [constOpts, Opts.default]) k).le
        (min (sigmaAt (constOpts .stewart) k ^ (3 / 2 : ℝ)) (sigmaAt (constOpts .stewart) k))
    refine ⟨env, n1, n2, fun t _ hF => ?_⟩
    have := hF.1
    rw [(hS.inv h.toSetup).opts, h.toSetup.opts] at this
    exact absurd this (by simp [constOpts, Opts.default])
  · intro orc S r he hc hS hok
    exact near_polish_fails h1 (fun y σ τ l hσ => hf1 0 (by decide) hmin y σ τ l hσ) hS he hc hok

/-- Such solvers and calls exist, with and without polishing. -/
example : ∃ po m oc P S r,
    SetupEx oneColloc { constOpts .stewart with polish := pol } nearModel none po m oc P ∧
    (exactOracle P).Exact P ∧ (exactOracle P).Complete P ∧
    Reachable oneColloc { constOpts .stewart with polish := pol } nearModel none (exactOracle P) S ∧
    (S.solve (exactOracle P)).2 = .ok r := by
  obtain ⟨po, m, oc, P, h, -⟩ := const_none (pss := .stewart) (S := signMat) (c := fun _ => 1 / 10 ^ 8)
    (pol := pol) (by decide)
  have h' := h.toSetup
  obtain ⟨-, hS, hrd⟩ := h'.create (exactOracle P) (by simp [constOpts, Opts.default])
  obtain ⟨w0, lam00, hini, -⟩ := C54_initialise_writes_x0 h' hS hrd Nat.one_pos (.inl rfl)
  have hL : (constOpts .stewart false pol).nfeAfter.length = (constOpts .stewart false pol).nStages := by
    simp [constOpts, Opts.default, Opts.nfeAfter]
  have hU : (constOpts .stewart false pol).pss = .stewart → ∀ s < nearModel.nSys, ∀ s' < nearModel.nSys,
      (nearModel.Fmat s).nCols = (nearModel.Fmat s').nCols := by
    intro _ s hs s' hs'
    have e : nearModel.nSys = 1 := rfl
    obtain rfl : s = 0 := by omega
    obtain rfl : s' = 0 := by omega
    rfl
  obtain ⟨r, hok⟩ : ∃ r, (Solver.solve (exactOracle P) ⟨po, m, P, none, []⟩).2 = .ok r := by
    cases pol with
    | true =>
      exact (C57_polishing_runs_iff _ h' hS hrd rfl hini Nat.one_pos hL).2
        ⟨polish_vars h' (by simp [constOpts, Opts.default]) (by simp [constOpts, Opts.default]), hU⟩
    | false => exact C49_solve_succeeds _ h' hS hrd rfl hini Nat.one_pos hL hU
  exact ⟨po, m, oc, P, _, r, h, exactOracle_exact P, exactOracle_complete P, hS, hok⟩

end
end Nosnoc
