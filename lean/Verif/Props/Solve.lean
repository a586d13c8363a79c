import Verif.Proofs.Repeat
import Verif.Witness.Setups
/-
C46, C49, C52, C53, C54: initialisation, the homotopy loop and its results, repeated solves.
-/
namespace Nosnoc

section
variable {colloc : IrkScheme → Nat → List ℝ} {o : Opts} {um : UserModel} {uo : Option UserOcp}
  {po : PreOpts} {m : PreModel} {oc : PreOcp} {P : Problem} {orc : Oracle} {S S1 : Solver}
  {lam00 : List ℝ}

/-! ### Solver objects exist and are ready -/

/-- A solver object can be created whenever the problem can (unless the smoothed functions of
RK4_SMOOTHENED are needed), and it is ready to solve. -/
theorem Setup.create (orc : Oracle) (h : Setup colloc o um uo po m oc P)
    (hs : o.initStrategy ≠ .rk4Smoothened) :
    Solver.create colloc o um uo = .ok ⟨po, m, P, none, []⟩ ∧
    Reachable colloc o um uo orc ⟨po, m, P, none, []⟩ ∧ Ready um ⟨po, m, P, none, []⟩ := by
  have hc : Solver.create colloc o um uo = .ok ⟨po, m, P, none, []⟩ := by
    unfold Solver.create
    rw [bind_eq_ok]
    refine ⟨_, h.ok, ?_⟩
    rw [bind_eq_ok]
    refine ⟨none, ?_, rfl⟩
    unfold smoothFor
    rw [if_neg (by rw [h.opts]; exact hs)]
  refine ⟨hc, .create hc, ?_, ?_⟩
  · show m.x0.length = um.nX
    rw [← h.dims.1]; exact h.built.ok.primal.x0
  · show P.form.w0.length = P.form.w.length
    rw [(C04_bounds_and_guess h).2.2, List.length_map]

/-- `solve` keeps a solver object ready. -/
theorem Ready.solve (orc : Oracle) (h : Setup colloc o um uo po m oc P)
    (hi : Reachable colloc o um uo orc S) (hr : Ready um S) : Ready um (S.solve orc).1 := by
  have hinv := hi.inv h
  obtain ⟨h1, h2, h3, h4⟩ := solve_only orc S
  refine ⟨by rw [h3]; exact hr.x0, ?_⟩
  have hw : (S.solve orc).1.P.form.w = S.P.form.w := by rw [h4]
  rw [hw]
  rcases hini : S.initialize with ⟨S1, r⟩
  cases r with
  | error e =>
    have : S.solve orc = (S1, .error e) := by unfold Solver.solve Solver.solveFrom; rw [hini]
    rw [this]
    have := initialize_length S
    rw [hini] at this
    rw [this]; exact hr.guess
  | ok lam00 =>
    obtain ⟨hog, hl, w0, b, n, calls, sols, st, hact, hh, hsp, hsol, hlen⟩ :=
      solve_run orc h hinv hr hini
    have hl' : S1.P.form.w0.length = S.P.form.w.length := by
      rw [hl, hinv.w, (hog.inv hinv).w]
    have hres : ∀ log w cpu iter cost status, w.length = S.P.form.w.length →
        (resultOf S1 st log w cpu iter cost status).1.P.form.w0.length = S.P.form.w.length := by
      intro log w cpu iter cost status hw
      unfold resultOf
      split
      · exact hl'
      · dsimp only
        split
        · exact hw
        · exact hl'
    have hx := hlen (n - 1) (by have := hh.pos; omega)
    rw [hsol]
    cases hp : S1.o.polish with
    | false =>
      rw [finish_nopolish hp (hsp.last' hh.pos)]
      exact hres _ _ _ _ _ _ hx
    | true =>
      rw [finish_polish hp (hsp.last' hh.pos)]
      cases hq : polish orc S1 lam00 (sols (n - 1)).x st.log with
      | error e => exact hl'
      | ok q =>
        obtain ⟨q1, q2, q3⟩ := polish_ok hq
        refine hres _ _ _ _ _ _ ?_
        rw [q3, q2]
        obtain ⟨k, hk⟩ : ∃ k, S1.o.nStages = k + 1 := ⟨S1.o.nStages - 1, by omega⟩
        rw [hk, List.replicate_succ', ← List.append_assoc, orc.len]
        exact hx

/-! ### C54 -/

/-- C54: with ALL_XCURRENT_* `initialize` succeeds, writes the current `x0` into every state entry of
the guess (stage states and end states of all elements) and changes nothing else. -/
theorem C54_initialise_writes_x0 (h : Setup colloc o um uo po m oc P)
    (hS : Reachable colloc o um uo orc S) (hr : Ready um S) (hx : 0 < um.nX)
    (hs : o.initStrategy = .allXcurrentW0Start ∨ o.initStrategy = .allXcurrentWoptPrev) :
    ∃ (w0 : List ℝ) (lam00 : List ℝ), S.initialize = (S.setW0 w0, .ok lam00) ∧ w0.length = S.P.form.w.length ∧
      ∀ (i : Nat) t, S.P.form.w[i]? = some t → w0[i]? = match stateIdx t with
        | some j => S.m.x0[j]?
        | none => S.P.form.w0[i]? := by
  have hi := hS.inv h
  obtain ⟨g, hg⟩ := exists_map (C01_index_lists_partition h).2 (v := S.P.form.w0)
    (by rw [hr.guess, hi.w])
  have hg' : S.P.form.w0 = S.P.form.w.map g := by rw [hg, hi.w]
  obtain ⟨p0, -, -, hini⟩ := initialize_ok h hi hr.x0 (initGuess_xcurrent h hi hs hr.x0 hx hg')
  refine ⟨_, _, hini, by rw [List.length_map], fun i t ht => ?_⟩
  rw [List.getElem?_map, ht]
  have hv : ∀ j, stateIdx t = some j → j < um.nX := by
    intro j hj
    have hmem : t ∈ P.form.w := by rw [← hi.w]; exact List.mem_of_getElem? ht
    have hv : IsVar po m.dims t := by
      rcases (C04_variables h t).2 hmem with hv | ⟨-, ⟨k, e, i, rfl⟩ | ⟨i, rfl⟩⟩
      · exact hv
      · cases hj
      · cases hj
    rw [← h.dims.1]
    cases t with
    | st1 f k e j' i' =>
      cases f with
      | x => cases hj; exact hv.2.2.2
      | v => cases hj
      | z => cases hj
    | xEnd k e i' => cases hj; exact hv.2.2
    | _ => cases hj
  cases hst : stateIdx t with
  | none =>
    show some (match stateIdx t with | some i => S.m.x0.getD i 0 | none => g t) = _
    rw [hst, hg', List.getElem?_map, ht]; rfl
  | some j =>
    show some (match stateIdx t with | some i => S.m.x0.getD i 0 | none => g t) = _
    rw [hst]
    have := hv j hst
    rw [← hr.x0] at this
    simp [List.getD_eq_getElem?_getD, this]

/-- C54: with EXTERNAL nothing changes. -/
theorem C54_external (h : Setup colloc o um uo po m oc P) (hS : Reachable colloc o um uo orc S)
    (hr : Ready um S) (hs : o.initStrategy = .external) :
    ∃ lam00, S.initialize = (S, .ok lam00) := by
  have hi := hS.inv h
  have hg : S.initGuess = (S, none) := by
    unfold Solver.initGuess
    rw [hi.opts, h.opts]
    show (match o.initStrategy with | _ => _) = _
    rw [hs]
  obtain ⟨p0, -, -, hini⟩ := initialize_ok h hi hr.x0 hg
  exact ⟨_, hini⟩

/-! ### C46, C52 -/

/-- The guess and the bounds the homotopy starts with. -/
theorem start_bounds (h : Setup colloc o um uo po m oc P) (hi : Inv po m P S) (hr : Ready um S)
    (hini : S.initialize = (S1, .ok lam00)) (hog : OnlyGuess S S1)
    (hl : S1.P.form.w0.length = S1.P.form.w.length) {w0 : List ℝ} {b : Bounds}
    (hact : activeSet S1 lam00 = .ok (w0, b)) :
    (∀ (i : Nat) t, S.P.form.w[i]? = some t → ¬ S.FixedTheta um t →
      w0[i]? = S1.P.form.w0[i]? ∧ b.lbw[i]? = S.P.form.lbw[i]? ∧ b.ubw[i]? = S.P.form.ubw[i]?) ∧
    (∀ (i : Nat) t, S.P.form.w[i]? = some t → S.FixedTheta um t →
      w0[i]? = some 0 ∧ b.lbw[i]? = some 0 ∧ b.ubw[i]? = some 0) ∧
    w0.length = S.P.form.w.length := by
  classical
  have hi1 := hog.inv hi
  obtain ⟨p0, hp0, -, hv⟩ := initialize_val h hi hr.x0 hini
  obtain ⟨g, hg⟩ := exists_map (C01_index_lists_partition h).2 (v := S1.P.form.w0)
    (by rw [hl, hi1.w])
  obtain ⟨b1, b2, -⟩ := C04_bounds_and_guess h
  have ha := activeSet_ok h hi1 S.m.x0 m.z0 p0 hg b1 b2
  dsimp only at ha
  rw [← hv, hact] at ha
  injection ha with ha
  obtain ⟨rfl, hb⟩ := Prod.mk.inj ha
  have hfix : ∀ (i : Nat) t, S.P.form.w[i]? = some t → (S.FixedTheta um t ↔
      po.fixActiveSetFe0 = true ∧ po.pss = .stewart ∧
        t ∈ fixedTheta um po.nS (um.lam00St S.m.x0 m.z0 p0) (10 * po.compTol)) := by
    intro i t ht
    have hhead : S.m.pVal.headD [] = p0 := by
      cases hp : S.m.pVal with
      | nil => rw [hp] at hp0; cases hp0
      | cons a l => rw [hp] at hp0; cases hp0; rfl
    unfold Solver.FixedTheta
    rw [hhead, hi.opts, hi.z0]
    refine and_congr_right fun _ => and_congr_right fun hps => ?_
    rw [mem_fixedTheta]
    constructor
    · rintro ⟨j, s, i', rfl, hc⟩
      have hmem : Sym.st2 .theta 0 0 j s i' ∈ P.form.w := by
        rw [← hi.w]; exact List.mem_of_getElem? ht
      rcases (C04_variables h _).2 hmem with hv | ⟨-, ⟨k, e, i, he⟩ | ⟨i, he⟩⟩
      · obtain ⟨-, -, h3, h4, h5⟩ := hv
        rw [h.dims.2.2.2.2.2.2.1] at h4
        rw [h.dims.2.2.2.2.2.2.2.1 hps s h4] at h5
        exact ⟨j, h3, s, h4, i', h5, hc, rfl⟩
      · cases he
      · cases he
    · rintro ⟨j, -, s, -, i', -, hc, rfl⟩
      exact ⟨j, s, i', rfl, hc⟩
  refine ⟨?_, ?_, by rw [List.length_map, hi.w]⟩
  · intro i t ht hnf
    rw [hfix i t ht] at hnf
    rw [hi.lbw, hi.ubw, hg, hb, b1, b2, ← hi.w]
    simp only [List.getElem?_map, ht, Option.map_some, if_neg hnf, and_self]
  · intro i t ht hf
    rw [hfix i t ht] at hf
    rw [hb, ← hi.w]
    simp only [List.getElem?_map, ht, Option.map_some, if_pos hf, and_self]

/-- C52: for a ready solver object whose initialisation (C54) yields the object `S1` and the initial
multipliers `lam00`, `solve` performs a homotopy (`Spec/Solve.lean`: warm starts, same bounds, current
parameters) that starts at the guess of `S1`, the entries fixed by `fix_active_set_fe0` being replaced
by 0; the bounds are the stored ones, those of the fixed entries being replaced by 0.  The NLP calls
of the homotopy are the only ones made (polishing adds at most one per control stage, each from the last
solution of the homotopy, with `sigma = tau = 0`). -/
theorem C52_solve_is_a_homotopy (orc : Oracle) (h : Setup colloc o um uo po m oc P)
    (hS : Reachable colloc o um uo orc S) (hr : Ready um S)
    (hini : S.initialize = (S1, .ok lam00)) :
    ∃ (w0 : List ℝ) (lbx ubx : List EReal) (n : Nat) (calls : Nat → NlpCall) (sols : Nat → NlpSol),
      Homotopy orc S lam00 w0 lbx ubx n calls sols ∧
      (∀ (i : Nat) t, S.P.form.w[i]? = some t → ¬ S.FixedTheta um t →
        w0[i]? = S1.P.form.w0[i]? ∧ lbx[i]? = S.P.form.lbw[i]? ∧ ubx[i]? = S.P.form.ubw[i]?) ∧
      (∀ (i : Nat) t, S.P.form.w[i]? = some t → S.FixedTheta um t →
        w0[i]? = some 0 ∧ lbx[i]? = some 0 ∧ ubx[i]? = some 0) ∧
      w0.length = S.P.form.w.length ∧
      (o.polish = false → (S.solve orc).1.log = S.log ++ (List.range n).map calls) ∧
      ∃ extra : List NlpCall, (extra.length = 0 ∨ extra.length = o.nStages) ∧
        (S.solve orc).1.log = S.log ++ (List.range n).map calls ++ extra ∧
        ∀ c ∈ extra, c.x0 = (sols (n - 1)).x ∧ c.lbg = S.P.form.lbg ∧ c.ubg = S.P.form.ubg ∧
          c.p = S.m.pVal.flatten ++ [0, 0] ++ lam00 ++ S.m.x0 := by
  have hi := hS.inv h
  obtain ⟨hog, hl, w0, b, n, calls, sols, st, hact, hh, hsp, hsol, hlen⟩ :=
    solve_run orc h hi hr hini
  have hi1 := hog.inv hi
  obtain ⟨f1, f2, f3⟩ := start_bounds h hi hr hini hog hl hact
  refine ⟨_, _, _, n, calls, sols, hh, f1, f2, f3, ?_⟩
  · have hlog : st.log = S.log ++ (List.range n).map calls := by
      rw [hsp.log]
      show S1.log ++ _ = _
      rw [hog.log]
    have hres : ∀ log w cpu iter cost status,
        (resultOf S1 st log w cpu iter cost status).1.log = log := by
      intro log w cpu iter cost status
      unfold resultOf
      split
      · rfl
      · dsimp only; split <;> rfl
    have hpo : S1.o.polish = o.polish := by rw [hi1.opts, h.opts]
    rw [hsol]
    cases hp : S1.o.polish with
    | false =>
      rw [finish_nopolish hp (hsp.last' hh.pos), hres, hlog]
      exact ⟨fun _ => rfl, [], .inl rfl, by simp, fun c hc => by cases hc⟩
    | true =>
      refine ⟨fun hc => (by rw [← hpo, hp] at hc; cases hc), ?_⟩
      rw [finish_polish hp (hsp.last' hh.pos)]
      cases hq : polish orc S1 lam00 (sols (n - 1)).x st.log with
      | error e => exact ⟨[], .inl rfl, by simp [hlog], fun c hc => by cases hc⟩
      | ok q =>
        obtain ⟨q1, q2, q3⟩ := polish_ok hq
        refine ⟨List.replicate S1.o.nStages (polishCall S1 lam00 (sols (n - 1)).x), .inr ?_, ?_, ?_⟩
        · rw [List.length_replicate, hi1.opts, h.opts]
        · dsimp only
          rw [hres, q2, hlog]
        · intro c hc
          rw [List.eq_of_mem_replicate hc]
          refine ⟨rfl, ?_, ?_, ?_⟩
          · show S1.P.form.lbg = _
            rw [hog.P]
          · show S1.P.form.ubg = _
            rw [hog.P]
          · show S1.m.pVal.flatten ++ [0, 0] ++ lam00 ++ S1.m.x0 = _
            rw [hog.m]

/-- C46: `solve` performs at least one and at most `max_iter_homotopy` NLP solves (polishing adds at
most one per control stage); in the `k`-th `sigma` has the value given by the update rule; it stops at
the first solve with residual below `comp_tol` or `sigma ≤ sigma_N`, or when the budget is used up. -/
theorem C46_homotopy_loop (orc : Oracle) (h : Setup colloc o um uo po m oc P)
    (hS : Reachable colloc o um uo orc S) (hr : Ready um S)
    (hini : S.initialize = (S1, .ok lam00)) :
    ∃ (n : Nat) (calls : Nat → NlpCall) (sols : Nat → NlpSol), 0 < n ∧ n ≤ po.maxIterHomotopy ∧
      (∀ k < n, sols k = orc.sol (S.log ++ (List.range (k + 1)).map calls)) ∧
      (∀ k < n, ((calls k).p[(o.nStages * (um.nPtv + um.nPgl))]? = some (sigmaAt o k))) ∧
      (∀ k, k + 1 < n → o.compTol ≤ S.residual (sols k).x (calls k).p ∧ o.sigmaN < sigmaAt o k) ∧
      (S.residual (sols (n - 1)).x (calls (n - 1)).p < o.compTol ∨ sigmaAt o (n - 1) ≤ o.sigmaN ∨
        n = po.maxIterHomotopy) ∧
      (o.polish = false → (S.solve orc).1.log = S.log ++ (List.range n).map calls) ∧
      ∃ extra : List NlpCall, extra.length ≤ o.nStages ∧
        (S.solve orc).1.log = S.log ++ (List.range n).map calls ++ extra := by
  have hi := hS.inv h
  obtain ⟨w0, lbx, ubx, n, calls, sols, hh, -, -, -, h5, extra, h6, h7, -⟩ :=
    C52_solve_is_a_homotopy orc h hS hr hini
  have hsig : ∀ k, sigmaAt S.o.toOpts k = sigmaAt o k := by
    intro k
    rw [hi.opts, h.opts]
    induction k with
    | zero => rfl
    | succ k ih => rw [sigmaAt_succ, ih, sigmaAt_succ]; rfl
  have e1 : S.o.maxIterHomotopy = po.maxIterHomotopy := by rw [hi.opts]
  have e2 : S.o.compTol = o.compTol := by rw [hi.opts, h.opts]
  have e3 : S.o.sigmaN = o.sigmaN := by rw [hi.opts, h.opts]
  have e4 : po.nStages = o.nStages := by rw [h.opts]
  refine ⟨n, calls, sols, hh.pos, e1 ▸ hh.le, hh.answer, ?_, ?_, ?_, h5, extra, by omega, h7⟩
  · intro k hk
    have hflat : S.m.pVal.flatten.length = o.nStages * (um.nPtv + um.nPgl) := by
      have : S.m.pVal.map List.length = List.replicate S.m.pVal.length (um.nPtv + um.nPgl) := by
        rw [← List.map_const']
        apply List.map_congr_left
        intro r hr'
        rw [hi.pRow r hr', h.dims.2.2.2.2.1, h.dims.2.2.2.2.2.1]
      rw [List.length_flatten, this, hi.pLen, e4]
      simp
    rw [hh.params k hk, ← hflat, List.append_assoc, List.append_assoc,
      List.getElem?_append_right le_rfl, Nat.sub_self, hsig]
    rfl
  · intro k hk
    have := hh.goOn k hk
    rw [e2, e3, hsig] at this
    exact this
  · have := hh.stop
    rw [e1, e2, e3, hsig] at this
    exact this

/-! ### C49 -/

/-- C49: without polishing, the results are those of the last NLP solve: `w_sol` is its point, the
status its status, the cost the absolute value of the objective (C50) at that point; the trajectories
are those read from `w_sol`; `w_all` is the initialised guess followed by every NLP solution; the
statistics are filled for the executed iterations and `None` for the rest. -/
theorem C49_results_of_last_solve (orc : Oracle) (h : Setup colloc o um uo po m oc P)
    (hS : Reachable colloc o um uo orc S) (hr : Ready um S) (hp : o.polish = false)
    {r : SolveResult} (hok : (S.solve orc).2 = .ok r) :
    ∃ lam00 w0 lbx ubx n calls sols, S.initialize.2 = .ok lam00 ∧
      Homotopy orc S lam00 w0 lbx ubx n calls sols ∧
      (S.solve orc).1.log = S.log ++ (List.range n).map calls ∧
      r.wSol = (sols (n - 1)).x ∧ r.wSol.length = S.P.form.w.length ∧
      r.status = statusOf (sols (n - 1)).status ∧
      r.costVal = |S.P.form.cost (S.P.point r.wSol (calls (n - 1)).p)| ∧
      getResults S.o S.m.x0 S.P r.wSol = .ok r.res ∧
      r.wAll = S.initialize.1.P.form.w0 :: (List.range n).map (fun k => (sols k).x) ∧
      r.cpuTimeNlp = (List.range po.maxIterHomotopy).map
        (fun k => if k < n then some (sols k).tProc else none) ∧
      r.nlpIter = (List.range po.maxIterHomotopy).map
        (fun k => if k < n then some (sols k).iter else none) := by
  have hi := hS.inv h
  rcases hini : S.initialize with ⟨S1, r1⟩
  cases r1 with
  | error e =>
    have : S.solve orc = (S1, .error e) := by unfold Solver.solve Solver.solveFrom; rw [hini]
    rw [this] at hok
    cases hok
  | ok lam00 =>
    obtain ⟨hog, hl, w0, b, n, calls, sols, st, hact, hh, hsp, hsol, hlen⟩ :=
      solve_run orc h hi hr hini
    have hi1 := hog.inv hi
    have hpo : S1.o.polish = false := by rw [hi1.opts, h.opts]; exact hp
    have hspo : S.o.polish = false := by rw [hi.opts, h.opts]; exact hp
    rw [finish_nopolish hpo (hsp.last' hh.pos)] at hsol
    have hS1P : S1.P = { S.P with form := { S.P.form with w0 := S1.P.form.w0 } } := hog.P
    rw [hsol] at hok
    unfold resultOf at hok hsol
    have hgr : getResults S1.o S1.m.x0 S1.P (sols (n - 1)).x
        = getResults S.o S.m.x0 S.P (sols (n - 1)).x := by
      rw [hog.o, hog.m, hS1P]; rfl
    rw [hgr] at hok hsol
    cases hg : getResults S.o S.m.x0 S.P (sols (n - 1)).x with
    | error e => rw [hg] at hok; cases hok
    | ok res =>
      rw [hg] at hok hsol
      dsimp only at hok hsol
      injection hok with hok
      subst hok
      have hcpu : ∀ {α : Type} (l l0 : List (Option α)) (v : Nat → α),
          l0 = List.replicate (S.o.maxIterHomotopy + if S.o.polish then 1 else 0) none →
          l.length = l0.length →
          (∀ i < l0.length, l[i]? = if i < n then some (some (v i)) else l0[i]?) →
          l = (List.range po.maxIterHomotopy).map (fun k => if k < n then some (v k) else none) := by
        intro α l l0 v h0 hlen hv
        rw [hspo] at h0
        subst h0
        apply List.ext_getElem?
        intro i
        by_cases hi' : i < po.maxIterHomotopy
        · rw [hv i (by simpa [hi.opts] using hi')]
          rw [List.getElem?_map, List.getElem?_range hi']
          simp only [Option.map_some]
          split
          · rfl
          · rw [List.getElem?_replicate, if_pos (by simpa [hi.opts] using hi')]
        · rw [List.getElem?_eq_none (by rw [hlen]; simpa [hi.opts] using hi'),
            List.getElem?_eq_none (by simpa using hi')]
      refine ⟨lam00, w0, _, _, n, calls, sols, rfl, hh, ?_, rfl,
        hlen _ (by have := hh.pos; omega), rfl, ?_, hg, ?_, ?_, ?_⟩
      · rw [hsol]
        have : st.log = S.log ++ (List.range n).map calls := by
          rw [hsp.log]; show S1.log ++ _ = _; rw [hog.log]
        rw [← this]
        dsimp only
        split <;> rfl
      · show costVal S1.P _ _ = _
        unfold costVal
        rw [hS1P]; rfl
      · show st.wAll = _
        rw [hsp.wAll]; rfl
      · exact hcpu _ _ _ rfl hsp.cpuLen hsp.cpu
      · exact hcpu _ _ _ rfl hsp.iterLen hsp.iter

/-- `solve` (without polishing) returns a result whenever the trajectories can be read off (C61). -/
theorem C49_solve_succeeds (orc : Oracle) (h : Setup colloc o um uo po m oc P)
    (hS : Reachable colloc o um uo orc S) (hr : Ready um S) (hp : o.polish = false)
    (hini : S.initialize = (S1, .ok lam00)) (hx : 0 < um.nX)
    (hL : o.nfeAfter.length = o.nStages)
    (hU : o.pss = .stewart → ∀ s < um.nSys, ∀ s' < um.nSys,
      (um.Fmat s).nCols = (um.Fmat s').nCols) : ∃ r, (S.solve orc).2 = .ok r := by
  have hi := hS.inv h
  obtain ⟨hog, hl, w0, b, n, calls, sols, st, hact, hh, hsp, hsol, hlen⟩ :=
    solve_run orc h hi hr hini
  have hi1 := hog.inv hi
  have hpo : S1.o.polish = false := by rw [hi1.opts, h.opts]; exact hp
  rw [finish_nopolish hpo (hsp.last' hh.pos)] at hsol
  obtain ⟨r, hr'⟩ := (C61_results_partial h (x0 := S1.m.x0) hL (w := (sols (n - 1)).x)
    (by rw [hlen _ (by have := hh.pos; omega), hi.w])).2.2 hx hU
  have : getResults S1.o S1.m.x0 S1.P (sols (n - 1)).x = .ok r := by
    rw [hi1.opts, hi1.prob]; exact hr'
  rw [hsol]
  unfold resultOf
  rw [this]
  exact ⟨_, rfl⟩

/-! ### C53 -/

/-- C53: `solve` changes nothing of the stored problem but the guess (and the record of NLP calls):
options, model (with `x0` and all parameter values), bounds, constraints, index lists stay, whatever
the NLP solver answers and whether or not `solve` raises. -/
theorem C53_solve_keeps_problem (orc : Oracle) (S : Solver) : (S.solve orc).1 =
    { S with P := { S.P with form := { S.P.form with w0 := (S.solve orc).1.P.form.w0 } },
             log := (S.solve orc).1.log } := by
  obtain ⟨h1, h2, h3, h4⟩ := solve_only orc S
  generalize (S.solve orc).1 = T at *
  obtain ⟨o, m, P, sm, log⟩ := T
  dsimp only at h1 h2 h3 h4 ⊢
  rw [h1, h2, h3, ← h4]

/-- C53: the guess after `solve`: the initialised one, except that ALL_XCURRENT_WOPT_PREV stores the
solution when a result is returned. -/
theorem C53_guess_after_solve (orc : Oracle) (S : Solver) :
    (S.o.initStrategy ≠ .allXcurrentWoptPrev →
      (S.solve orc).1.P.form.w0 = S.initialize.1.P.form.w0) ∧
    (S.o.initStrategy = .allXcurrentWoptPrev → ∀ r, (S.solve orc).2 = .ok r →
      (S.solve orc).1.P.form.w0 = r.wSol) := by
  have ho := (initialize_onlyGuess S).o
  rcases solve_cases orc S with ⟨e, he⟩ | ⟨lam00, w0, b, -, -, -, -, he⟩
  · rw [he]; exact ⟨fun _ => rfl, fun _ r hr => by cases hr⟩
  · rw [he]
    generalize solveLoop orc S.initialize.1 lam00 b S.o.maxIterHomotopy 0 _ = st
    constructor
    · intro hne
      obtain ⟨log, hf | ⟨hs, -⟩⟩ := finish_fst orc S.initialize.1 lam00 st
      · rw [hf]
      · rw [ho] at hs; exact absurd hs hne
    · intro hs r hr
      exact finish_wopt _ _ _ _ (by rw [ho]; exact hs) hr

/-- C53: with EXTERNAL the guess does not change at all; with ALL_XCURRENT_W0_START only its state
entries change, and they become `x0`. -/
theorem C53_guess_entries (orc : Oracle) (h : Setup colloc o um uo po m oc P)
    (hS : Reachable colloc o um uo orc S) (hr : Ready um S) :
    (o.initStrategy = .external → (S.solve orc).1.P.form.w0 = S.P.form.w0) ∧
    (o.initStrategy = .allXcurrentW0Start → 0 < um.nX →
      ∀ (i : Nat) t, S.P.form.w[i]? = some t → (S.solve orc).1.P.form.w0[i]? =
        match stateIdx t with
        | some j => S.m.x0[j]?
        | none => S.P.form.w0[i]?) := by
  have hi := hS.inv h
  have ho : S.o.initStrategy = o.initStrategy := by rw [hi.opts, h.opts]
  obtain ⟨h1, -⟩ := C53_guess_after_solve orc S
  rw [ho] at h1
  constructor
  · intro hs
    obtain ⟨l, hl⟩ := C54_external h hS hr hs
    rw [h1 (by rw [hs]; simp), hl]
  · intro hs hx i t ht
    obtain ⟨w0, l, hl, -, hw⟩ := C54_initialise_writes_x0 h hS hr hx (.inl hs)
    rw [h1 (by rw [hs]; simp), hl]
    exact hw i t ht

/-- C53: with ALL_XCURRENT_W0_START or EXTERNAL and an NLP solver whose answer depends on the call
only, a second `solve` issues the same NLP calls and returns the same result (or error). -/
theorem C53_repeated_solve (h : Setup colloc o um uo po m oc P)
    (hd : ∀ log c, orc.sol (log ++ [c]) = orc.sol [c])
    (hS : Reachable colloc o um uo orc S) (hr : Ready um S)
    (hs : o.initStrategy = .external ∨ o.initStrategy = .allXcurrentW0Start ∧ 0 < um.nX) :
    ((S.solve orc).1.solve orc).2 = (S.solve orc).2 ∧
    ∃ new, (S.solve orc).1.log = S.log ++ new ∧
      ((S.solve orc).1.solve orc).1 = (S.solve orc).1.withLog (S.log ++ new ++ new) := by
  have hi := hS.inv h
  have ho : S.o.initStrategy = o.initStrategy := by rw [hi.opts, h.opts]
  -- the initialised object is initialised to itself
  obtain ⟨w0, lam, hini, hini2⟩ : ∃ w0 lam, S.initialize = (S.setW0 w0, .ok lam) ∧
      (S.setW0 w0).initialize = (S.setW0 w0, .ok lam) := by
    rcases hs with hs | ⟨hs, hx⟩
    · obtain ⟨l, hl⟩ := C54_external h hS hr hs
      exact ⟨S.P.form.w0, l, hl, hl⟩
    · have hi := hS.inv h
      have hd := (C01_index_lists_partition h).2
      obtain ⟨g, hg⟩ := exists_map hd (v := S.P.form.w0) (by rw [hr.guess, hi.w])
      have hg' : S.P.form.w0 = S.P.form.w.map g := by rw [hg, hi.w]
      have hgi := initGuess_withState h hi (.inl hs) hr.x0 hx hg'
      obtain ⟨p0, hp0, -, hini⟩ := initialize_ok h hi hr.x0 hgi
      obtain ⟨w0, hw⟩ : ∃ w0, w0 = S.P.form.w.map (withState S.m.x0 g) := ⟨_, rfl⟩
      rw [← hw] at hgi hini
      have hi' : Inv po m P (S.setW0 w0) := hi.of_only rfl rfl rfl
      have hgi' := initGuess_withState h hi' (.inl hs) hr.x0 hx (g := withState S.m.x0 g)
        (show (S.setW0 w0).P.form.w0 = _ from hw)
      have e : (S.setW0 w0).P.form.w.map (withState (S.setW0 w0).m.x0 (withState S.m.x0 g))
          = w0 := by
        rw [hw]
        show S.P.form.w.map (withState S.m.x0 (withState S.m.x0 g)) = _
        rw [withState_twice]
      rw [e] at hgi'
      obtain ⟨p0', hp0', -, hini'⟩ := initialize_ok h hi' hr.x0 hgi'
      have : p0' = p0 := by
        have h2 : S.m.pVal[0]? = some p0' := hp0'
        rw [hp0] at h2; cases h2; rfl
      subst this
      exact ⟨w0, _, hini, hini'⟩
  -- solving it is solving `S`
  have e1 : S.solve orc = (S.setW0 w0).solve orc := by
    unfold Solver.solve Solver.solveFrom
    rw [hini, hini2]
    rfl
  generalize hT : S.setW0 w0 = T at *
  have hTlog : T.log = S.log := by rw [← hT]; rfl
  have hTo : T.o.initStrategy ≠ .allXcurrentWoptPrev := by
    rw [← hT]
    show S.o.initStrategy ≠ _
    rw [ho]
    rcases hs with hs | ⟨hs, -⟩ <;> rw [hs] <;> simp
  -- the solved object is `T` with a longer record
  have keep : ∀ l, ((T.withLog l).solve orc).1 = T.withLog ((T.withLog l).solve orc).1.log := by
    intro l
    have k1 := C53_solve_keeps_problem orc (T.withLog l)
    have k2 := (C53_guess_after_solve orc (T.withLog l)).1 hTo
    rw [initialize_log, hini2] at k2
    rw [k2] at k1
    exact k1
  have e2 := solve_log hd T
  obtain ⟨A, hA⟩ : ∃ A, A = (T.withLog []).solve orc := ⟨_, rfl⟩
  rw [← hA] at e2
  have hA1 : A.1 = T.withLog A.1.log := by rw [hA]; exact keep []
  have e3 : T.solve orc = (T.withLog (S.log ++ A.1.log), A.2) := by
    have := e2 S.log
    rw [hA1] at this
    rw [← hTlog] at this ⊢
    exact this
  rw [e1, e3]
  dsimp only
  rw [e2, hA1]
  exact ⟨rfl, A.1.log, rfl, rfl⟩

/-! ### The hypotheses are met -/

/-- An NLP solver that returns its starting point. -/
def echoOracle : Oracle where
  sol log := ⟨(log.getLast?.map NlpCall.x0).getD [], "Solve_Succeeded", 0, 0, 0⟩
  len log c := by simp

/-- A constructed demo solver (default options, ALL_XCURRENT_WOPT_PREV replaced by W0_START): it is
reachable, ready, its initialisation succeeds, and so does `solve`. -/
example : ∃ po m oc P S S1 lam00 r,
    Setup demoColloc { Opts.default with initStrategy := .allXcurrentW0Start }
      demoModel (some demoOcp) po m oc P ∧
    Reachable demoColloc { Opts.default with initStrategy := .allXcurrentW0Start } demoModel
      (some demoOcp) echoOracle S ∧ Ready demoModel S ∧ 0 < demoModel.nX ∧
    S.initialize = (S1, .ok lam00) ∧ (S.solve echoOracle).2 = .ok r ∧
    ∀ log c, echoOracle.sol (log ++ [c]) = echoOracle.sol [c] := by
  obtain ⟨po, m, oc, P, h, -⟩ := demo_setup
    (o := { Opts.default with initStrategy := .allXcurrentW0Start })
    (by constructor <;> simp [Opts.default, Opts.nfeAfter])
  obtain ⟨-, h2, h3⟩ := h.toSetup.create echoOracle (by simp)
  have hx : 0 < demoModel.nX := Nat.one_pos
  obtain ⟨w0, lam00, h4, -⟩ := C54_initialise_writes_x0 h.toSetup h2 h3 hx (.inl rfl)
  obtain ⟨r, hr⟩ := C49_solve_succeeds echoOracle h.toSetup h2 h3 (by simp [Opts.default]) h4 hx
    (by simp [Opts.default, Opts.nfeAfter]) (fun _ s hs s' hs' => by
      have e : demoModel.nSys = 1 := rfl
      rw [e] at hs hs'
      have : s = s' := by omega
      rw [this])
  exact ⟨po, m, oc, P, _, _, lam00, r, h.toSetup, h2, h3, hx, h4, hr, fun log c => by
    simp [echoOracle]⟩

end
end Nosnoc
