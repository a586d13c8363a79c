import Verif.Proofs.ParamNames
import Verif.Props.Outcome
import Verif.Props.Discretised
import Verif.Props.Looper
/-
C87: what SUCCESS means if the NLP solver is exact: the returned solution satisfies the discretised
optimal control problem.  A solve that meets the hypotheses: Verif/Props/HonestEx.lean.
-/
namespace Nosnoc

section
variable {colloc : IrkScheme → Nat → List ℝ} {o : Opts} {um : UserModel} {uo : Option UserOcp}
  {po : PreOpts} {m : PreModel} {oc : PreOcp} {P : Problem} {orc : Oracle} {S S1 : Solver}
  {lam00 : List ℝ} {r : SolveResult}

/-- The last NLP call of a solve. -/
theorem last_call (h : Setup colloc o um uo po m oc P)
    (hS : Reachable colloc o um uo orc S) (hr : Ready um S)
    (hok : (S.solve orc).2 = .ok r) (hini : S.initialize = (S1, .ok lam00)) :
    ∃ sigma tau log c, (S.solve orc).1.log = log ++ [c] ∧
      c.lbg = P.form.lbg ∧ c.ubg = P.form.ubg ∧ c.p = S.pValues lam00 sigma tau ∧
      (∀ (i : Nat) t, P.form.w[i]? = some t →
        (c.lbx[i]? = P.form.lbw[i]? ∧ c.ubx[i]? = P.form.ubw[i]?) ∨
        IsMultiplier t ∧ (o.polish = true ∨ o.fixActiveSetFe0 = true) ∧ ((c.lbx[i]? = some 0 ∧ c.ubx[i]? = some 0) ∨
          (c.lbx[i]? = some 1 ∧ c.ubx[i]? = some 1))) ∧
      (o.polish = false → ∃ k, log.length = S.log.length + k ∧ sigma = sigmaAt o k ∧
        tau = min (sigmaAt o k ^ (3 / 2 : ℝ)) (sigmaAt o k)) ∧
      (o.polish = true → sigma = 0 ∧ tau = 0) ∧ r.wSol.length = P.form.w.length := by
  have hi := hS.inv h
  have hsig : ∀ k, sigmaAt S.o.toOpts k = sigmaAt o k := by
    intro k
    rw [hi.opts, h.opts]
    induction k with
    | zero => rfl
    | succ k ih => rw [sigmaAt_succ, ih, sigmaAt_succ]; rfl
  cases hp : o.polish with
  | false =>
    obtain ⟨-, -, -, -, -, -, -, -, -, -, -, hwl, -⟩ := C49_results_of_last_solve orc h hS hr hp hok
    obtain ⟨w0, lbx, ubx, n, calls, sols, hh, h1, h2, -, h5, -⟩ :=
      C52_solve_is_a_homotopy orc h hS hr hini
    obtain ⟨k, rfl⟩ : ∃ k, n = k + 1 := ⟨n - 1, by have := hh.pos; omega⟩
    obtain ⟨b1, b2, b3, b4⟩ := hh.bounds k (by omega)
    refine ⟨_, _, S.log ++ (List.range k).map calls, calls k, ?_, ?_, ?_, hh.params k (by omega), ?_,
      ?_, fun hc => (by cases hc), by rw [hwl, hi.w]⟩
    · rw [h5 hp, List.range_succ, List.map_append, ← List.append_assoc]; rfl
    · rw [b3, hi.prob]
    · rw [b4, hi.prob]
    · intro i t ht
      rw [← hi.w] at ht
      rw [b1, b2, ← hi.lbw, ← hi.ubw]
      by_cases hf : S.FixedTheta um t
      · obtain ⟨-, j, s, i', rfl, -⟩ := hf.2
        exact .inr ⟨trivial, .inr (by rw [← hf.1, hi.opts, h.opts]), .inl (h2 i _ ht hf).2⟩
      · exact .inl (h1 i t ht hf).2
    · intro _
      refine ⟨k, by simp, hsig k, ?_⟩
      rw [hsig]
  | true =>
    obtain ⟨lam00', w0, lbx, ubx, n, calls, sols, c, hl, hh, hlx, hpc, hlog, -, hwl, -⟩ :=
      C57_polishing_partial orc h hS hr hp hok
    rw [hini] at hl
    cases hl
    obtain ⟨k, hk⟩ : ∃ k, o.nStages = k + 1 := by
      have : po.nStages = o.nStages := by rw [h.opts]
      exact ⟨o.nStages - 1, by have := h.built.ok.primal.stages; omega⟩
    refine ⟨0, 0, S.log ++ (List.range n).map calls ++ List.replicate k c, c, ?_, ?_, ?_, hpc.p, ?_,
      fun hc => (by cases hc), fun _ => ⟨rfl, rfl⟩, by rw [hwl, hi.w]⟩
    · rw [hlog, hk, List.replicate_succ', ← List.append_assoc]
    · rw [hpc.g.1, hi.prob]
    · rw [hpc.g.2, hi.prob]
    · intro i t ht
      rw [← hi.w] at ht
      rw [← hi.lbw, ← hi.ubw]
      by_cases hm : IsMultiplier t
      · have hlt : i < (sols (n - 1)).x.length := by
          rw [hlx]; exact (List.getElem?_eq_some_iff.1 ht).1
        have hv := List.getElem?_eq_getElem hlt
        by_cases c1 : |(sols (n - 1)).x[i] - 1| < 10 * S.o.compTol
        · exact .inr ⟨hm, .inl rfl, .inr (hpc.one i t _ ht hm hv c1)⟩
        · by_cases c2 : (sols (n - 1)).x[i] < 10 * S.o.compTol
          · exact .inr ⟨hm, .inl rfl, .inl (hpc.zero i t _ ht hm hv (not_lt.1 c1) c2)⟩
          · exact .inl (hpc.free i t _ ht hm hv (not_lt.1 c1) (not_lt.1 c2))
      · exact .inl (hpc.keep i t ht hm)

theorem dualLb_le {mode : MpccMode} {x : ℝ} (hx : 0 ≤ x) : dualLb mode ≤ (x : EReal) := by
  unfold dualLb
  split
  · exact_mod_cast hx
  · exact bot_le

/-- The stored bounds of a multiplier admit 0 and 1. -/
theorem multiplier_bounds {t : Sym} (uo' : UserOcp) (ht : IsMultiplier t) {x : ℝ} (h0 : 0 ≤ x)
    (h1 : x ≤ 1) : (varDoc po um uo' t).lb ≤ (x : EReal) ∧ (x : EReal) ≤ (varDoc po um uo' t).ub := by
  cases t with
  | st2 f k e j s i =>
    cases f <;> simp only [varDoc] <;>
      first
        | exact ⟨bot_le, le_top⟩
        | exact ⟨dualLb_le h0, le_top⟩
        | exact ⟨dualLb_le h0, by exact_mod_cast h1⟩
  | _ => exact ht.elim

/-- A point that satisfies the bounds and constraints of an NLP call is feasible for the problem. -/
theorem within_feasible (h : Setup colloc o um uo po m oc P) {w : List ℝ} {c : NlpCall}
    (hw : w.length = P.form.w.length)
    (hb : ∀ (i : Nat) t, P.form.w[i]? = some t →
        (c.lbx[i]? = P.form.lbw[i]? ∧ c.ubx[i]? = P.form.ubw[i]?) ∨
        IsMultiplier t ∧ (o.polish = true ∨ o.fixActiveSetFe0 = true) ∧ ((c.lbx[i]? = some 0 ∧ c.ubx[i]? = some 0) ∨
          (c.lbx[i]? = some 1 ∧ c.ubx[i]? = some 1)))
    (hlg : c.lbg = P.form.lbg) (hug : c.ubg = P.form.ubg)
    (h1 : Within w c.lbx c.ubx)
    (h2 : Within (P.form.g.map fun q => q (P.point w c.p)) c.lbg c.ubg) :
    P.form.Feasible (P.point w c.p) := by
  obtain ⟨b1, b2, -⟩ := C04_bounds_and_guess h
  constructor
  · rintro ⟨t, l, u⟩ hq
    obtain ⟨i, hq⟩ := List.mem_iff_getElem?.1 hq
    rw [List.getElem?_zip_eq_some, List.getElem?_zip_eq_some] at hq
    obtain ⟨ht, hl, hu⟩ := hq
    dsimp only at ht hl hu ⊢
    have hv : w[i]? = some (P.point w c.p t) := by
      conv_lhs => rw [← h.point_w (p := c.p) hw]
      rw [List.getElem?_map, ht]
      rfl
    obtain ⟨g1, g2⟩ := h1 i _ hv
    rcases hb i t ht with ⟨e1, e2⟩ | ⟨hm, -, ⟨e1, e2⟩ | ⟨e1, e2⟩⟩
    · exact ⟨g1 l (e1.trans hl), g2 u (e2.trans hu)⟩
    all_goals
      rw [b1, List.getElem?_map, ht] at hl
      rw [b2, List.getElem?_map, ht] at hu
      cases hl
      cases hu
      have a1 := g1 _ e1
      have a2 := g2 _ e2
      refine multiplier_bounds _ hm ?_ ?_
      · have a1' : ((0 : ℝ) : EReal) ≤ _ := le_trans (by norm_num) a1
        exact_mod_cast a1'
      · have a2' : _ ≤ ((1 : ℝ) : EReal) := le_trans a2 (by norm_num)
        exact_mod_cast a2'
  · rintro ⟨g, l, u⟩ hq
    obtain ⟨i, hq⟩ := List.mem_iff_getElem?.1 hq
    rw [List.getElem?_zip_eq_some, List.getElem?_zip_eq_some] at hq
    obtain ⟨ht, hl, hu⟩ := hq
    dsimp only at ht hl hu ⊢
    obtain ⟨g1, g2⟩ := h2 i (g (P.point w c.p)) (by rw [List.getElem?_map, ht]; rfl)
    exact ⟨g1 l (by rw [hlg]; exact hl), g2 u (by rw [hug]; exact hu)⟩

/-! ### C87 -/

/-- C87: if the NLP solver is exact and `solve` reports SUCCESS, the returned `w_sol` satisfies the
discretised optimal control problem (`Verif/Spec/Feasible.lean`), for the initial state and parameter
values currently set and the homotopy parameter of the last NLP solve (0 after polishing).  Every entry
of the result dictionary is read off this point.  The initial multipliers are the right ones for
Stewart mode and for at most one switching system (C08). -/
theorem C87_success_is_feasible (h : SetupEx colloc o um uo po m oc P)
    (hS : Reachable colloc o um uo orc S) (hL : o.nfeAfter.length = o.nStages)
    (hon : orc.Exact P) (hok : (S.solve orc).2 = .ok r) (hs : r.status = .success) :
    ∃ (env : Env) (sigma tau : ℝ),
      FeasibleSpec po m.dims um (uo.getD UserOcp.trivial) env ∧
      P.form.w.map env = r.wSol ∧ ResultsSpec po m.dims S.m.x0 env r.res ∧
      (∀ t ∈ P.p, ¬ IsLam00 t → env t = paramVal um S sigma tau t) ∧
      (o.pss = .stewart ∨ um.nSys ≤ 1 → ∀ t ∈ P.p, env t = paramVal um S sigma tau t) ∧
      (o.polish = false → ∃ k, (S.solve orc).1.log.length = S.log.length + (k + 1) ∧
        sigma = sigmaAt o k ∧ tau = min (sigmaAt o k ^ (3 / 2 : ℝ)) (sigmaAt o k)) ∧
      (o.polish = true → sigma = 0 ∧ tau = 0) := by
  have h' := h.toSetup
  have hi := hS.inv h'
  obtain ⟨hr, S1, lam00, hini⟩ := ready_of_ok h' hi hok
  obtain ⟨sigma, tau, log, c, hlog, hlg, hug, hp, hb, hn, hy, hwl⟩ := last_call h' hS hr hok hini
  obtain ⟨hw, hst⟩ := C51_status orc h' hS hr hok
  obtain ⟨w1, w2⟩ := hon log c (by rw [← hlog]; exact hst.1 hs)
  rw [← hlog, ← hw] at w1 w2
  obtain ⟨p0, -, -, hv⟩ := initialize_val h' hi hr.x0 hini
  have hll := lam00List_length h' S.m.x0 m.z0 p0
  rw [← hv] at hll
  have hpl : c.p.length = P.p.length := by
    rw [hp, pValues_length h' hi hr.x0 hll, hi.p]
  have hpm := h'.point_p hwl hpl
  refine ⟨P.point r.wSol c.p, sigma, tau, h.spec (within_feasible h' hwl hb hlg hug w1 w2),
    h'.point_w hwl, ?_, ?_, ?_, ?_, hy⟩
  · obtain ⟨new, -, -, -, -, f5, -⟩ := solve_facts h' hi hok
    exact C58_results_meaning h' hL hwl f5 _
  · intro t ht hl
    exact h'.pValues_symbols hi hr.x0 hll (hpm.trans hp) ht hl
  · intro hmode
    apply List.map_inj_left.1
    rw [hpm, hp, ← hi.p]
    exact pValues_paramVal h' hi hr.x0 hini hmode sigma tau
  · intro hpo
    obtain ⟨k, a, b⟩ := hn hpo
    exact ⟨k, by rw [hlog, List.length_append, a]; simp [Nat.add_assoc], b⟩

theorem flatMap_get {α : Type} (f : Nat → List α) {nE N : Nat} (hf : ∀ i < N, (f i).length = nE)
    {i j : Nat} (hi : i < N) (hj : j < nE) :
    ((List.range N).flatMap f)[i * nE + j]? = (f i)[j]? := by
  induction N with
  | zero => omega
  | succ N ih =>
    have hlen : ((List.range N).flatMap f).length = N * nE := by
      rw [List.length_flatMap]
      have : (List.range N).map (fun i => (f i).length) = (List.range N).map fun _ => nE :=
        List.map_congr_left fun i hi => hf i (by have := List.mem_range.1 hi; omega)
      rw [this]
      simp
    rw [flatMap_range_succ]
    by_cases hiN : i < N
    · have : i * nE + j < N * nE := by
        calc i * nE + j < i * nE + nE := by omega
          _ = (i + 1) * nE := by ring
          _ ≤ N * nE := Nat.mul_le_mul_right _ hiN
      rw [List.getElem?_append_left (by omega)]
      exact ih (fun i hi => hf i (by omega)) hiN
    · obtain rfl : i = N := by omega
      rw [List.getElem?_append_right (by omega), hlen]
      congr 1
      omega

section
variable {stop : Bool} {L L' : Looper} {N : Nat} {x0 : List ℝ} {pv : Option Arr}
  {wi : Option (List Arr)} {R : SimResults} {b : Bool}

/-- Every step of a simulation, with the solver object it is run on. -/
theorem honest_sim (h : SetupEx colloc o um uo po m oc P) (hL : o.nfeAfter.length = o.nStages)
    (hS : Reachable colloc o um uo orc S) (hon : orc.Exact P)
    (hc : Looper.create S x0 N pv wi = .ok L)
    (hrun : L.run orc stop = (L', .ok b)) (hR : L'.getResults = .ok R) :
    ∃ result calls,
      Simulation orc S L'.solver x0 N o.nfeAfter.sum (beforeStep orc L) result calls R ∧
      ∀ i < N, R.status[i]? = some .success → ∃ (env : Env) (sigma tau : ℝ) (x : List ℝ),
        FeasibleSpec po m.dims um (uo.getD UserOcp.trivial) env ∧
        R.wSim[i]? = some (P.form.w.map env) ∧
        R.xSim[i * o.nfeAfter.sum]? = some x ∧ x = (List.range um.nX).map (fun j => env (.x0 j)) ∧
        (∀ (n : Nat) q, (elements po)[n]? = some q →
          R.xSim[i * o.nfeAfter.sum + n + 1]? = some (xEndVal po m.dims q.1 q.2 env) ∧
          R.timeSteps[i * o.nfeAfter.sum + n]? = some (hVal po q.1 q.2 env)) ∧
        (∀ t ∈ P.p, ¬ IsLam00 t → env t = paramVal um (beforeStep orc L i) sigma tau t) ∧
        (o.pss = .stewart ∨ um.nSys ≤ 1 → ∀ t ∈ P.p,
          env t = paramVal um (beforeStep orc L i) sigma tau t) ∧
        (o.polish = false → ∃ k, (calls i).length = k + 1 ∧
          sigma = sigmaAt o k ∧ tau = min (sigmaAt o k ^ (3 / 2 : ℝ)) (sigmaAt o k)) ∧
        (o.polish = true → sigma = 0 ∧ tau = 0) := by
  have h' := h.toSetup
  obtain ⟨result, calls, sim, h1, -⟩ := run_sim h' hL hS hc hrun hR
  refine ⟨result, calls, sim, fun i hi hst => ?_⟩
  obtain ⟨a1, -, a3, a4, -⟩ := h1 i hi
  have hok := (sim.solved i hi).1
  have hst' : (result i).status = .success := by
    rw [sim.status, List.getElem?_map, List.getElem?_range hi] at hst
    exact Option.some.inj hst
  obtain ⟨env, sigma, tau, f1, f2, f3, f4, f5, f6, f7⟩ := C87_success_is_feasible h a1 hL hon hok hst'
  obtain ⟨x, hx, hx0, -⟩ := sim.start i hi
  obtain ⟨hr, -⟩ := ready_of_ok h' (a1.inv h') hok
  have hlen : (elements po).length = o.nfeAfter.sum := by
    have := (step_results h' hL a3 a4).1
    rw [f3.xList] at this
    simpa using this
  have len : ∀ j < N, (result j).res.xList.length = o.nfeAfter.sum ∧
      (result j).res.timeSteps.length = o.nfeAfter.sum := by
    intro j hj
    obtain ⟨-, -, b3, b4, -⟩ := h1 j hj
    obtain ⟨r1, -, r3⟩ := step_results h' hL b3 b4
    exact ⟨r1, r3⟩
  refine ⟨env, sigma, tau, x, f1, ?_, hx, ?_, fun n q hq => ?_, f4, f5,
    fun hp => ?_, f7⟩
  · rw [sim.w, List.getElem?_map, List.getElem?_range hi, f2]
    rfl
  · rw [← hx0]
    have : ∀ j ∈ List.range um.nX, env (.x0 j) = (beforeStep orc L i).m.x0.getD j 0 := by
      intro j hj
      refine f4 _ ?_ fun hc => hc
      rw [p_eq h']
      refine List.mem_append_right _ ?_
      simp only [blk, List.mem_map]
      exact ⟨j, by rw [h'.dims.1]; exact hj, rfl⟩
    rw [List.map_congr_left this, ← hr.x0]
    exact (map_getD_range _).symm
  · have hn : n < o.nfeAfter.sum := by
      rw [← hlen]; exact (List.getElem?_eq_some_iff.1 hq).1
    constructor
    · rw [sim.states, List.getElem?_cons_succ,
        flatMap_get (fun i => (result i).res.xList) (fun j hj => (len j hj).1) hi hn]
      beta_reduce
      rw [f3.xList, List.getElem?_map, hq]
      rfl
    · rw [sim.steps, flatMap_get (fun i => (result i).res.timeSteps) (fun j hj => (len j hj).2) hi hn]
      beta_reduce
      rw [f3.steps, List.getElem?_map, hq]
      rfl
  · obtain ⟨k, e1, e2⟩ := f6 hp
    refine ⟨k, ?_, e2⟩
    have e3 := congrArg List.length (sim.solved i hi).2.1
    rw [e1, List.length_append] at e3
    omega

/-- C87 for simulations: with an exact NLP solver every step of a simulation (`Spec/Looper.lean`) that is
reported as SUCCESS is a solution of the discretised system that starts where the previous step ended:
the states and step lengths in `X_sim`, `time_steps` at the positions of step `i` are those of a point
satisfying the discretised problem, with the state `X_sim[i * nE]` as initial state and the homotopy
parameter of the last NLP solve of the step (0 after polishing). -/
theorem C87_simulation (h : SetupEx colloc o um uo po m oc P) (hL : o.nfeAfter.length = o.nStages)
    (hS : Reachable colloc o um uo orc S) (hon : orc.Exact P)
    (hc : Looper.create S x0 N pv wi = .ok L)
    (hrun : L.run orc stop = (L', .ok b)) (hR : L'.getResults = .ok R) :
    ∃ before result calls,
      Simulation orc S L'.solver x0 N o.nfeAfter.sum before result calls R ∧
      ∀ i < N, R.status[i]? = some .success → ∃ (env : Env) (sigma tau : ℝ) (x : List ℝ),
        FeasibleSpec po m.dims um (uo.getD UserOcp.trivial) env ∧
        R.wSim[i]? = some (P.form.w.map env) ∧
        R.xSim[i * o.nfeAfter.sum]? = some x ∧ x = (List.range um.nX).map (fun j => env (.x0 j)) ∧
        (∀ (n : Nat) q, (elements po)[n]? = some q →
          R.xSim[i * o.nfeAfter.sum + n + 1]? = some (xEndVal po m.dims q.1 q.2 env) ∧
          R.timeSteps[i * o.nfeAfter.sum + n]? = some (hVal po q.1 q.2 env)) ∧
        (∀ t ∈ P.p, ¬ IsLam00 t → env t = paramVal um (before i) sigma tau t) ∧
        (o.pss = .stewart ∨ um.nSys ≤ 1 → ∀ t ∈ P.p,
          env t = paramVal um (before i) sigma tau t) ∧
        (o.polish = false → ∃ k, (calls i).length = k + 1 ∧
          sigma = sigmaAt o k ∧ tau = min (sigmaAt o k ^ (3 / 2 : ℝ)) (sigmaAt o k)) ∧
        (o.polish = true → sigma = 0 ∧ tau = 0) := by
  obtain ⟨result, calls, hs⟩ := honest_sim h hL hS hon hc hrun hR
  exact ⟨_, result, calls, hs⟩

end

end

end Nosnoc
