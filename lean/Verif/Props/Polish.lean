import Verif.Proofs.Polish
import Verif.Props.Solve
/-
C57: polishing.
-/
namespace Nosnoc

section
variable {colloc : IrkScheme → Nat → List ℝ} {o : Opts} {um : UserModel} {uo : Option UserOcp}
  {po : PreOpts} {m : PreModel} {oc : PreOcp} {P : Problem} {orc : Oracle} {S S1 : Solver}
  {lam00 : List ℝ}

/-- C57: with polishing, when a result is returned, the homotopy is followed by one NLP solve per control
stage, all with the same arguments (`PolishCall`: start at the last homotopy solution, `σ = τ = 0`, all
bounds kept except that multipliers close to 1 are fixed to 1 and multipliers below the threshold are
fixed to 0).  The results are those of the last of these solves, except `w_all` and the cost, which are
those of the homotopy.  The homotopy has the bounds of C52.

Partial: the property says that multipliers are fixed to 0 only if they are close to 0, and that
polishing works for every problem; see the theorems below. -/
theorem C57_polishing_partial (orc : Oracle) (h : Setup colloc o um uo po m oc P)
    (hS : Reachable colloc o um uo orc S) (hr : Ready um S) (hp : o.polish = true)
    {r : SolveResult} (hok : (S.solve orc).2 = .ok r) :
    ∃ lam00 w0 lbx ubx n calls sols c, S.initialize.2 = .ok lam00 ∧
      Homotopy orc S lam00 w0 lbx ubx n calls sols ∧
      (sols (n - 1)).x.length = S.P.form.w.length ∧ PolishCall S lam00 (sols (n - 1)).x c ∧
      (S.solve orc).1.log = S.log ++ (List.range n).map calls ++ List.replicate o.nStages c ∧
      r.wSol = (orc.sol (S.solve orc).1.log).x ∧ r.wSol.length = S.P.form.w.length ∧
      r.status = statusOf (orc.sol (S.solve orc).1.log).status ∧
      getResults S.o S.m.x0 S.P r.wSol = .ok r.res ∧
      r.costVal = |S.P.form.cost (S.P.point (sols (n - 1)).x (calls (n - 1)).p)| ∧
      r.wAll = S.initialize.1.P.form.w0 :: (List.range n).map (fun k => (sols k).x) ∧
      (∀ (i : Nat) t, S.P.form.w[i]? = some t → ¬ S.FixedTheta um t →
        lbx[i]? = S.P.form.lbw[i]? ∧ ubx[i]? = S.P.form.ubw[i]?) ∧
      (∀ (i : Nat) t, S.P.form.w[i]? = some t → S.FixedTheta um t →
        lbx[i]? = some 0 ∧ ubx[i]? = some 0) := by
  have hi := hS.inv h
  rcases hini : S.initialize with ⟨S1, r1⟩
  cases r1 with
  | error e =>
    have : S.solve orc = (S1, .error e) := by unfold Solver.solve Solver.solveFrom; rw [hini]
    rw [this] at hok
    cases hok
  | ok lam00 =>
    obtain ⟨hog, hl, w0, b, n, calls, sols, st, hact, hh, hsp, hsol, hlen⟩ :=
      solve_run orc h hi hr hini
    have hi1 := hog.inv hi
    have hpo : S1.o.polish = true := by rw [hi1.opts, h.opts]; exact hp
    rw [finish_polish hpo (hsp.last' hh.pos)] at hsol
    have hS1P : S1.P = { S.P with form := { S.P.form with w0 := S1.P.form.w0 } } := hog.P
    cases hq : polish orc S1 lam00 (sols (n - 1)).x st.log with
    | error e =>
      rw [hq] at hsol
      rw [hsol] at hok
      cases hok
    | ok q =>
      rw [hq] at hsol
      dsimp only at hsol
      have hx : (sols (n - 1)).x.length = S.P.form.w.length := hlen _ (by have := hh.pos; omega)
      obtain ⟨q1, q2, q3⟩ := polish_ok hq
      have hrun := (polish_iff (orc := orc) (lam00 := lam00) h hi1 (w := (sols (n - 1)).x)
        (by rw [hx, hi.w]) st.log).1 ⟨q, hq⟩
      have hpc := polishCall_spec (lam00 := lam00) h hi1 (w := (sols (n - 1)).x) hrun.1
      have hlog : st.log = S.log ++ (List.range n).map calls := by
        rw [hsp.log]; show S1.log ++ _ = _; rw [hog.log]
      have hgr : getResults S1.o S1.m.x0 S1.P q.2.x = getResults S.o S.m.x0 S.P q.2.x := by
        rw [hog.o, hog.m, hS1P]; rfl
      have hns : S1.o.nStages = o.nStages := by rw [hi1.opts, h.opts]
      unfold resultOf at hsol
      rw [hgr] at hsol
      cases hg : getResults S.o S.m.x0 S.P q.2.x with
      | error e => rw [hg] at hsol; rw [hsol] at hok; cases hok
      | ok res =>
        rw [hg] at hsol
        dsimp only at hsol
        have hlog2 : (S.solve orc).1.log = q.1 := by
          rw [hsol]
          dsimp only
          split <;> rfl
        rw [hsol] at hok
        injection hok with hok
        subst hok
        have hq2 : q.2 = orc.sol (S.solve orc).1.log := by rw [hlog2]; exact q3
        have e1 : S1.P.form.w = S.P.form.w := by rw [hS1P]
        have e2 : S1.P.form.lbw = S.P.form.lbw := by rw [hS1P]
        have e3 : S1.P.form.ubw = S.P.form.ubw := by rw [hS1P]
        refine ⟨lam00, w0, _, _, n, calls, sols, polishCall S1 lam00 (sols (n - 1)).x, rfl, hh, hx, ?_, ?_,
          ?_, ?_, ?_, ?_, ?_, ?_, fun i t ht hf => ((start_bounds h hi hr hini hog hl hact).1 i t ht hf).2,
          fun i t ht hf => ((start_bounds h hi hr hini hog hl hact).2.1 i t ht hf).2⟩
        · obtain ⟨a1, a2, a3, a4, a5, a6, a7, a8⟩ := hpc
          rw [e1] at a4 a5 a6 a7 a8
          rw [e2, e3] at a5 a8
          rw [hog.o] at a6 a7 a8
          refine ⟨a1, ?_, ?_, a4, a5, a6, a7, a8⟩
          · rw [hS1P] at a2; exact a2
          · rw [hog.m] at a3; exact a3
        · rw [hlog2, q2, hlog, hns]
        · rw [← hq2]
        · show q.2.x.length = _
          rw [q3, q2]
          obtain ⟨k, hk⟩ : ∃ k, S1.o.nStages = k + 1 := ⟨S1.o.nStages - 1, by omega⟩
          rw [hk, List.replicate_succ', ← List.append_assoc, orc.len]
          exact hx
        · rw [← hq2]
        · exact hg
        · show costVal S1.P _ _ = _
          unfold costVal
          rw [hS1P]; rfl
        · show st.wAll = _
          rw [hsp.wAll]; rfl

/-- C57: polishing runs through exactly if all variables are multipliers, states, controls, steps,
derivatives, global, user algebraic or elastic variables, and (in Stewart mode) all systems have the
same number of regions; then a result is returned. -/
theorem C57_polishing_runs_iff (orc : Oracle) (h : Setup colloc o um uo po m oc P)
    (hS : Reachable colloc o um uo orc S) (hr : Ready um S) (hp : o.polish = true)
    (hini : S.initialize = (S1, .ok lam00)) (hx : 0 < um.nX)
    (hL : o.nfeAfter.length = o.nStages) :
    (∃ r, (S.solve orc).2 = .ok r) ↔ (∀ t ∈ P.form.w, IsMultiplier t ∨ IsPrimal t) ∧
      (o.pss = .stewart → ∀ s < um.nSys, ∀ s' < um.nSys,
        (um.Fmat s).nCols = (um.Fmat s').nCols) := by
  have hi := hS.inv h
  obtain ⟨hog, hl, w0, b, n, calls, sols, st, hact, hh, hsp, hsol, hlen⟩ :=
    solve_run orc h hi hr hini
  have hi1 := hog.inv hi
  have hpo : S1.o.polish = true := by rw [hi1.opts, h.opts]; exact hp
  have hps : po.pss = o.pss := by rw [h.opts]
  rw [finish_polish hpo (hsp.last' hh.pos)] at hsol
  have hlx : (sols (n - 1)).x.length = P.form.w.length := by
    rw [hlen _ (by have := hh.pos; omega), hi.w]
  have hiff := polish_iff (orc := orc) (lam00 := lam00) h hi1 (w := (sols (n - 1)).x) hlx st.log
  rw [hps] at hiff
  rw [← hiff, hsol]
  cases hq : polish orc S1 lam00 (sols (n - 1)).x st.log with
  | error e => exact ⟨fun ⟨r, hr⟩ => (by cases hr), fun ⟨q, hq⟩ => (by cases hq)⟩
  | ok q =>
    rw [hq] at hiff
    refine ⟨fun _ => ⟨q, rfl⟩, fun _ => ?_⟩
    obtain ⟨q1, q2, q3⟩ := polish_ok hq
    have hlq : q.2.x.length = P.form.w.length := by
      rw [q3, q2]
      obtain ⟨k, hk⟩ : ∃ k, S1.o.nStages = k + 1 := ⟨S1.o.nStages - 1, by omega⟩
      rw [hk, List.replicate_succ', ← List.append_assoc, orc.len]
      exact hlx
    obtain ⟨r, hr'⟩ := (C61_results_partial h (x0 := S1.m.x0) hL (w := q.2.x) hlq).2.2 hx
      (hiff.1 ⟨q, rfl⟩).2
    have : getResults S1.o S1.m.x0 S1.P q.2.x = .ok r := by
      rw [hi1.opts, hi1.prob]; exact hr'
    dsimp only
    unfold resultOf
    rw [this]
    exact ⟨_, rfl⟩

/-- The property fails: with speed-of-time variables (a documented option) polishing always raises,
whatever the NLP solver answers. -/
theorem C57_speed_of_time_violated (orc : Oracle) (h : Setup colloc o um uo po m oc P)
    (hS : Reachable colloc o um uo orc S) (hr : Ready um S) (hp : o.polish = true)
    (hsot : o.sot = .local) : ¬ ∃ r, (S.solve orc).2 = .ok r := by
  rintro ⟨r, hok⟩
  have hi := hS.inv h
  rcases hini : S.initialize with ⟨S1, r1⟩
  cases r1 with
  | error e =>
    have : S.solve orc = (S1, .error e) := by unfold Solver.solve Solver.solveFrom; rw [hini]
    rw [this] at hok
    cases hok
  | ok lam00 =>
    obtain ⟨hog, hl, w0, b, n, calls, sols, st, hact, hh, hsp, hsol, hlen⟩ :=
      solve_run orc h hi hr hini
    have hi1 := hog.inv hi
    have hpo : S1.o.polish = true := by rw [hi1.opts, h.opts]; exact hp
    rw [finish_polish hpo (hsp.last' hh.pos)] at hsol
    cases hq : polish orc S1 lam00 (sols (n - 1)).x st.log with
    | error e =>
      rw [hq] at hsol
      rw [hsol] at hok
      cases hok
    | ok q =>
      have hrun := (polish_iff (orc := orc) (lam00 := lam00) h hi1 (w := (sols (n - 1)).x)
        (by rw [hlen _ (by have := hh.pos; omega), hi.w]) st.log).1 ⟨q, hq⟩
      have hs : Sym.sot 0 ∈ P.form.w := (C04_variables h (.sot 0)).1
        ⟨by rw [h.opts]; exact hsot, Nat.pos_of_ne_zero h.built.ok.primal.stages⟩
      rcases hrun.1 _ hs with hc | hc
      · exact hc
      · exact hc

/-! ### Witnesses -/

/-- An NLP solver that returns `v` in every component. -/
def constOracle (v : ℝ) : Oracle where
  sol log := ⟨List.replicate ((log.getLast?.map fun c => c.x0.length).getD 0) v, "Solve_Succeeded", 0, 0, 0⟩
  len log c := by simp

/-- The default options with polishing. -/
noncomputable def polishOpts : Opts := { Opts.default with polish := true }

/-- Without speed-of-time and binary variables all variables are among those polishing knows. -/
theorem polish_vars {colloc : IrkScheme → Nat → List ℝ} {o : Opts} {um : UserModel} {uo : Option UserOcp}
    {po : PreOpts} {m : PreModel} {oc : PreOcp} {P : Problem} (h : Setup colloc o um uo po m oc P)
    (hs : o.sot ≠ .local) (hb : o.mpcc ≠ .boolean) : ∀ t ∈ P.form.w, IsMultiplier t ∨ IsPrimal t := by
  intro t ht
  rcases (C04_variables h t).2 ht with hv | ⟨hb', -⟩
  · cases t with
    | st2 f k e j s i => exact .inl trivial
    | sot k => exact absurd (h.e_sot.symm.trans hv.1) hs
    | h => exact .inr trivial
    | u => exact .inr trivial
    | st1 => exact .inr trivial
    | xEnd => exact .inr trivial
    | vGlob => exact .inr trivial
    | sElastic => exact .inr trivial
    | _ => exact hv.elim
  · exact absurd (h.e_mpcc.symm.trans hb') hb

theorem polish_demo_setup (orc : Oracle) : ∃ po m oc P S S1 lam00 r,
    Setup demoColloc polishOpts demoModel (some demoOcp) po m oc P ∧
    Reachable demoColloc polishOpts demoModel (some demoOcp) orc S ∧
    Ready demoModel S ∧ S.P.form.w = P.form.w ∧ S.o = po ∧
    S.initialize = (S1, .ok lam00) ∧ (S.solve orc).2 = .ok r := by
  obtain ⟨po, m, oc, P, h, -⟩ := demo_setup (o := polishOpts)
    (by constructor <;> simp [polishOpts, Opts.default, Opts.nfeAfter])
  obtain ⟨-, h2, h3⟩ := h.toSetup.create orc (by simp [polishOpts, Opts.default])
  obtain ⟨w0, lam00, h4, -⟩ := C54_initialise_writes_x0 h.toSetup h2 h3 Nat.one_pos (.inl rfl)
  have hv := polish_vars h.toSetup (by simp [polishOpts, Opts.default]) (by simp [polishOpts, Opts.default])
  have hU : polishOpts.pss = .stewart → ∀ s < demoModel.nSys, ∀ s' < demoModel.nSys,
      (demoModel.Fmat s).nCols = (demoModel.Fmat s').nCols := by
    intro _ s hs s' hs'
    have e : demoModel.nSys = 1 := rfl
    rw [e] at hs hs'
    have : s = s' := by omega
    rw [this]
  obtain ⟨r, hr⟩ := (C57_polishing_runs_iff orc h.toSetup h2 h3 rfl h4 Nat.one_pos
    (by simp [polishOpts, Opts.default, Opts.nfeAfter])).2 ⟨hv, hU⟩
  exact ⟨po, m, oc, P, _, _, lam00, r, h.toSetup, h2, h3, rfl, rfl, h4, hr⟩

/-- The demo problem is polished successfully, whatever the NLP solver answers. -/
example (orc : Oracle) : ∃ po m oc P S S1 lam00 r,
    Setup demoColloc polishOpts demoModel (some demoOcp) po m oc P ∧
    Reachable demoColloc polishOpts demoModel (some demoOcp) orc S ∧
    Ready demoModel S ∧ S.P.form.w = P.form.w ∧ S.o = po ∧
    S.initialize = (S1, .ok lam00) ∧ (S.solve orc).2 = .ok r := polish_demo_setup orc

/-- The demo problem with speed-of-time variables and polishing: `solve` raises whatever the NLP solver
answers. -/
example (orc : Oracle) : ∃ po m oc P S,
    Setup demoColloc { gaussOpts with polish := true } demoModel (some demoOcp) po m oc P ∧
    Reachable demoColloc { gaussOpts with polish := true } demoModel (some demoOcp) orc S ∧
    ¬ ∃ r, (S.solve orc).2 = .ok r := by
  obtain ⟨po, m, oc, P, h, -⟩ := demo_setup (o := { gaussOpts with polish := true })
    (by constructor <;> simp [gaussOpts, Opts.default, Opts.nfeAfter])
  obtain ⟨-, h2, h3⟩ := h.toSetup.create orc (by simp [gaussOpts, Opts.default])
  exact ⟨po, m, oc, P, _, h.toSetup, h2,
    C57_speed_of_time_violated orc h.toSetup h2 h3 rfl (by simp [gaussOpts])⟩

/-- The property fails: a multiplier `μ` (which has no sign constraint) with value `-1`, far from 0, is
fixed to 0. -/
theorem C57_negative_multiplier_violated : ∃ (po : PreOpts) (m : PreModel) (oc : PreOcp) (P : Problem)
    (S : Solver) (r : SolveResult),
    Setup demoColloc polishOpts demoModel (some demoOcp) po m oc P ∧
    Reachable demoColloc polishOpts demoModel (some demoOcp)
      (constOracle (-1)) S ∧
    Ready demoModel S ∧ (S.solve (constOracle (-1))).2 = .ok r ∧
    ∃ (i : Nat) (c : NlpCall), S.P.form.w[i]? = some (.st2 .mu 0 0 0 0 0) ∧
      S.P.form.lbw[i]? = some ⊥ ∧ S.P.form.ubw[i]? = some ⊤ ∧
      (S.solve (constOracle (-1))).1.log.getLast? = some c ∧
      c.x0[i]? = some (-1) ∧ c.lbx[i]? = some 0 ∧ c.ubx[i]? = some 0 := by
  obtain ⟨po, m, oc, P, S, S1, lam00', r, h, hS, hr, hw, ho, -, hok⟩ :=
    polish_demo_setup (constOracle (-1))
  obtain ⟨lam00, w0, lbx, ubx, n, calls, sols, c, -, hh, hlx, hpc, hlog, -⟩ :=
    C57_polishing_partial (constOracle (-1)) h hS hr rfl hok
  have hst : po.nStages = 1 := by rw [h.opts]; rfl
  have hfe : HasFE po 0 0 := ⟨by omega, (h.built.ok.primal.nfe 0 (by omega)).2⟩
  have hnS : po.nS = 2 := by rw [h.opts]; rfl
  have hd : m.dims.nSys = 1 := h.dims.2.2.2.2.2.2.1
  have hmem : Sym.st2 .mu 0 0 0 0 0 ∈ P.form.w := (C04_variables h _).1
    ⟨by rw [h.opts]; rfl, hfe, by unfold nLamPts; omega, by omega, rfl⟩
  rw [← hw] at hmem
  obtain ⟨i, hi, he⟩ := List.getElem_of_mem hmem
  have hget : S.P.form.w[i]? = some (.st2 .mu 0 0 0 0 0) := by
    rw [List.getElem?_eq_getElem hi, he]
  obtain ⟨b1, b2, -⟩ := C04_bounds_and_guess h
  have hi' := hS.inv h
  have hsx : (sols (n - 1)).x[i]? = some (-1) := by
    have hl := hlx
    rw [hh.answer _ (by have := hh.pos; omega)] at hl ⊢
    simp only [constOracle, List.length_replicate] at hl ⊢
    rw [hl, List.getElem?_replicate, if_pos hi]
  have hct : S.o.compTol = 1e-8 := by rw [ho, h.opts]; simp [polishOpts, Opts.default]; norm_num
  have hz := hpc.zero i _ (-1) hget trivial hsx (by rw [hct]; norm_num) (by rw [hct]; norm_num)
  refine ⟨po, m, oc, P, S, r, h, hS, hr, hok, i, c, hget, ?_, ?_, ?_, ?_, hz⟩
  · rw [hi'.lbw, b1, ← hi'.w, List.getElem?_map, hget]; rfl
  · rw [hi'.ubw, b2, ← hi'.w, List.getElem?_map, hget]; rfl
  · rw [hlog]
    show List.getLast? (_ ++ List.replicate 1 c) = _
    simp
  · rw [hpc.x0]; exact hsx

end
end Nosnoc
