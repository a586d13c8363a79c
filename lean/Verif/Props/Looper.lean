import Verif.Proofs.Sim
import Verif.Props.Polish
import Verif.Witness.Sim
/-
C62-C65, C79: the simulation loop.
-/
namespace Nosnoc

section
variable {colloc : IrkScheme → Nat → List ℝ} {o : Opts} {um : UserModel} {uo : Option UserOcp}
  {po : PreOpts} {m : PreModel} {oc : PreOcp} {P : Problem} {orc : Oracle} {S : Solver}
  {stop : Bool} {L L' : Looper} {N : Nat} {x0 : List ℝ} {pv : Option Arr}
  {wi : Option (List Arr)} {R : SimResults} {b : Bool}

/-- Everything about a run that returns. -/
theorem run_inv (h : Setup colloc o um uo po m oc P) (hL : o.nfeAfter.length = o.nStages)
    (hS : Reachable colloc o um uo orc S) (hc : Looper.create S x0 N pv wi = .ok L)
    (hrun : L.run orc stop = (L', .ok b)) :
    b = true ∧ ∃ (result : Nat → SolveResult) (calls : Nat → List NlpCall),
      (∀ j < N, Reachable colloc o um uo orc (beforeStep orc L j) ∧
        ((beforeStep orc L j).solve orc).2 = .ok (result j) ∧
        ((beforeStep orc L j).solve orc).1.log = (beforeStep orc L j).log ++ calls j ∧
        calls j ≠ [] ∧
        (∀ c ∈ calls j, ∃ lam00 sigma tau, c.p = (beforeStep orc L j).pValues lam00 sigma tau) ∧
        (result j).wSol.length = P.form.w.length ∧
        getResults po (beforeStep orc L j).m.x0 P (result j).wSol = .ok (result j).res ∧
        ((loopAt orc L 0 j).sets j).2 = none) ∧
      (∀ j ≤ N, SimInv orc S x0 N o.nfeAfter.sum pv wi result calls j (loopAt orc L 0 j)) ∧
      L' = loopAt orc L 0 N := by
  have hn : L.nSim = N := by rw [(create_ok hc).2.2]
  unfold Looper.run at hrun
  rw [hn] at hrun
  obtain ⟨hb, hL', ok⟩ := runLoop_ok hrun
  choose! result hres using ok
  obtain ⟨calls, h1, h2⟩ := sim_inv h hL hS hc hres
  exact ⟨hb, result, calls, h1, h2, hL'⟩

/-- The simulation behind a run that returns. -/
theorem run_sim (h : Setup colloc o um uo po m oc P) (hL : o.nfeAfter.length = o.nStages)
    (hS : Reachable colloc o um uo orc S) (hc : Looper.create S x0 N pv wi = .ok L)
    (hrun : L.run orc stop = (L', .ok b)) (hR : L'.getResults = .ok R) :
    ∃ (result : Nat → SolveResult) (calls : Nat → List NlpCall),
      Simulation orc S L'.solver x0 N o.nfeAfter.sum (beforeStep orc L) result calls R ∧
      (∀ j < N, Reachable colloc o um uo orc (beforeStep orc L j) ∧
        (∀ c ∈ calls j, ∃ lam00 sigma tau, c.p = (beforeStep orc L j).pValues lam00 sigma tau) ∧
        (result j).wSol.length = P.form.w.length ∧
        getResults po (beforeStep orc L j).m.x0 P (result j).wSol = .ok (result j).res ∧
        ((loopAt orc L 0 j).sets j).2 = none) ∧
      (∀ j ≤ N, SimInv orc S x0 N o.nfeAfter.sum pv wi result calls j (loopAt orc L 0 j)) ∧
      L' = loopAt orc L 0 N := by
  obtain ⟨-, result, calls, h1, h2, hL'⟩ := run_inv h hL hS hc hrun
  have I := h2 N le_rfl
  rw [← hL'] at I
  unfold Looper.getResults at hR
  simp only [bind_eq_ok, check_eq_ok] at hR
  obtain ⟨-, -, hR⟩ := hR
  cases hR
  have hpre : ∀ j ≤ N, ∃ rest, L'.xSim = (loopAt orc L 0 j).xSim ++ rest := by
    intro j hj
    refine ⟨(List.range' j (N - j)).flatMap fun i => (result i).res.xList, ?_⟩
    rw [I.states, (h2 j hj).states, List.cons_append, ← List.flatMap_append]
    congr 2
    rw [List.range_eq_range', List.range_eq_range']
    have := List.range'_append_1 (s := 0) (m := j) (n := N - j)
    rw [Nat.zero_add] at this
    rw [this]
    congr 1; omega
  have hcur : ∀ j ≤ N, L'.xSim[j * o.nfeAfter.sum]? = some (loopAt orc L 0 j).xcurrent := by
    intro j hj
    obtain ⟨rest, hr⟩ := hpre j hj
    rw [hr, List.getElem?_append_left (by rw [(h2 j hj).number]; omega), (h2 j hj).cur]
  refine ⟨result, calls, ⟨?_, I.log, I.states, I.number, ?_, ?_, I.steps, ?_,
    I.status, I.cost, I.w, I.wAll, I.theta, I.lam, I.alpha, I.z, I.sot, ?_⟩, fun j hj => ?_, h2, hL'⟩
  · intro j hj
    obtain ⟨-, a2, a3, a4, -⟩ := h1 j hj
    exact ⟨a2, a3, a4⟩
  · intro j hj
    obtain ⟨-, -, -, -, a5, -, -, a8⟩ := h1 j hj
    have hx : (beforeStep orc L j).m.x0 = (loopAt orc L 0 j).xcurrent :=
      (sets_ok (colloc := colloc) (o := o) (um := um) (uo := uo) (orc := orc) a8).2.1
    refine ⟨_, hcur j (by omega), hx, fun c hc => ?_⟩
    obtain ⟨lam00, sigma, tau, hp⟩ := a5 c hc
    rw [hp, ← hx]
    exact List.suffix_append _ _
  · intro j hj
    obtain ⟨-, -, -, -, -, a6, a7, -⟩ := h1 j hj
    obtain ⟨r1, r2, -⟩ := step_results h hL a6 a7
    obtain ⟨rest, hr⟩ := hpre (j + 1) (by omega)
    have J := h2 (j + 1) (by omega)
    show L'.xSim[_]? = _
    rw [hr, List.getElem?_append_left (by rw [J.number]; omega)]
    have hlast : (loopAt orc L 0 (j + 1)).xSim.getLast? = some (result j).res.xOut := by
      rw [J.states, flatMap_range_succ, ← List.cons_append, List.getLast?_append, r2]
      rfl
    rw [← hlast, List.getLast?_eq_getElem?, J.number]
    congr 1; omega
  · show 0 :: cumsumFrom 0 L'.timeSteps = _
    rw [zero_cumsum, I.stepsLen]
  · show L'.cpuNlp.map _ = _
    rw [I.cpu, List.map_map]
    apply List.map_congr_left
    intro i hi
    simp [List.mem_range.1 hi]
  · obtain ⟨a1, -, -, -, a5, a6, a7, a8⟩ := h1 j hj
    exact ⟨a1, a5, a6, a7, a8⟩

/-- C62: whenever `run` returns, the result dictionary is that of a simulation: a chain of `Nsim`
solves, each started at the final state of the one before (`Spec/Looper.lean`). -/
theorem C62_simulation (h : Setup colloc o um uo po m oc P) (hL : o.nfeAfter.length = o.nStages)
    (hS : Reachable colloc o um uo orc S) (hc : Looper.create S x0 N pv wi = .ok L)
    (hrun : L.run orc stop = (L', .ok b)) (hR : L'.getResults = .ok R) :
    ∃ before result calls,
      Simulation orc S L'.solver x0 N o.nfeAfter.sum before result calls R := by
  obtain ⟨result, calls, h1, -⟩ := run_sim h hL hS hc hrun hR
  exact ⟨_, result, calls, h1⟩

/-- C63, what holds: whenever `run` returns, all `Nsim` steps have been run and `True` is returned, with
or without `stop_on_failure`.  Partial: `stop_on_failure` has no effect
(`C63_stop_on_failure_violated`). -/
theorem C63_all_steps_partial (h : Setup colloc o um uo po m oc P)
    (hL : o.nfeAfter.length = o.nStages) (hS : Reachable colloc o um uo orc S)
    (hc : Looper.create S x0 N pv wi = .ok L) (hrun : L.run orc stop = (L', .ok b)) :
    b = true ∧ L'.status.length = N := by
  obtain ⟨hb, result, calls, -, h2, hL'⟩ := run_inv h hL hS hc hrun
  have I := h2 N le_rfl
  rw [← hL'] at I
  exact ⟨hb, by rw [I.status]; simp⟩

/-- C63 is violated: `stop_on_failure` makes no difference whatsoever. -/
theorem C63_no_effect_violated (orc : Oracle) (L : Looper) : L.run orc true = L.run orc false := by
  unfold Looper.run
  generalize L.nSim = n
  generalize 0 = i
  induction n generalizing i L with
  | zero => rfl
  | succ n ih =>
    rw [Looper.runLoop, Looper.runLoop]
    split
    · rfl
    · simp [statusEqStr, ih]

/-- C64: the looper is constructed exactly for problems without controls, with one control stage, built
without an `ocp`, and for parameter values of shape `(Nsim, n_p_glob)`; the first failing condition
raises Exception, the second ValueError. -/
theorem C64_create_iff (h : Setup colloc o um uo po m oc P) (hS : Reachable colloc o um uo orc S)
    (x0 : List ℝ) (N : Nat) (pv : Option Arr) (wi : Option (List Arr)) :
    ((∃ L, Looper.create S x0 N pv wi = .ok L) ↔ (um.nU = 0 ∧ o.nStages = 1 ∧ uo = none) ∧
      (pv = none ∨ ∃ f, pv = some (.mat N um.nPgl f))) ∧
    (¬ (um.nU = 0 ∧ o.nStages = 1 ∧ uo = none) → Looper.create S x0 N pv wi = .error .exception) ∧
    ((um.nU = 0 ∧ o.nStages = 1 ∧ uo = none) → ¬ (pv = none ∨ ∃ f, pv = some (.mat N um.nPgl f)) →
      Looper.create S x0 N pv wi = .error .valueError) := by
  have hi := hS.inv h
  have htriv : P.ocpTrivial = uo.isNone := by
    have := h.ok
    unfold construct at this
    simp only [bind_eq_ok] at this
    obtain ⟨-, -, po', -, m', -, oc', -, p', hb, he⟩ := this
    cases he
    unfold build at hb
    simp only [bind_eq_ok] at hb
    obtain ⟨_, -, _, -, _, -, _, -, _, -, _, -, _, -, _, -, hb⟩ := hb
    cases hb
    rfl
  have hsim : (S.P.isSim S.o S.m = true) ↔ (um.nU = 0 ∧ o.nStages = 1 ∧ uo = none) := by
    unfold Problem.isSim
    rw [hi.dims, hi.opts, h.dims.2.1, h.e_nStages, hi.prob]
    simp only [htriv, Bool.and_eq_true, decide_eq_true_eq, Option.isNone_iff_eq_none, and_assoc]
  have hshape : (∀ a, pv = some a → shapeIs a N S.m.dims.nPgl = true)
      ↔ (pv = none ∨ ∃ f, pv = some (.mat N um.nPgl f)) := by
    rw [hi.dims, h.dims.2.2.2.2.2.1]
    cases pv with
    | none => simp
    | some a =>
      cases a with
      | vec v => simp [shapeIs]
      | mat r c f =>
        simp only [Option.some.injEq, forall_eq', shapeIs, Bool.and_eq_true, decide_eq_true_eq,
          reduceCtorEq, Arr.mat.injEq, false_or]
        constructor
        · rintro ⟨rfl, rfl⟩; exact ⟨f, rfl, rfl, rfl⟩
        · rintro ⟨_, h1, h2, -⟩; exact ⟨h1, h2⟩
  refine ⟨?_, fun hne => ?_, fun hok hne => ?_⟩
  · constructor
    · rintro ⟨L, hL⟩
      obtain ⟨h1, h2, -⟩ := create_ok hL
      exact ⟨hsim.1 h1, hshape.1 h2⟩
    · rintro ⟨h1, h2⟩
      unfold Looper.create
      rw [check_pos (hsim.2 h1), ok_bind, check_pos (hshape.2 h2), ok_bind]
      exact ⟨_, rfl⟩
  · unfold Looper.create
    rw [show check (S.P.isSim S.o S.m = true) .exception = .error .exception from
      if_neg (fun hs => hne (hsim.1 hs))]
    rfl
  · unfold Looper.create
    rw [check_pos (hsim.2 hok), ok_bind]
    unfold check
    rw [if_neg (fun hs => hne (hshape.1 hs))]
    rfl

/-- The parameter values before step `j`. -/
theorem sim_pVal (h : Setup colloc o um uo po m oc P) (hS : Reachable colloc o um uo orc S)
    (hc : Looper.create S x0 N pv wi = .ok L) {result : Nat → SolveResult}
    {calls : Nat → List NlpCall}
    (h1 : ∀ j < N, ((loopAt orc L 0 j).sets j).2 = none)
    (hok : ∀ j < N, ((beforeStep orc L j).solve orc).2 = .ok (result j))
    (h2 : ∀ j ≤ N, SimInv orc S x0 N o.nfeAfter.sum pv wi result calls j (loopAt orc L 0 j))
    (hR : ∀ j < N, Reachable colloc o um uo orc (beforeStep orc L j)) :
    (pv = none → ∀ j < N, (beforeStep orc L j).m.pVal = S.m.pVal) ∧
    (∀ f, pv = some (.mat N um.nPgl f) → ∀ j < N, (beforeStep orc L j).m.pVal =
      S.m.pVal.map (setGlobal um.nPtv ((List.range um.nPgl).map (f j)))) := by
  have hL0 : L.solver = S := by rw [(create_ok hc).2.2]
  -- the solver object of step `j` keeps the model data
  have hkeep : ∀ j < N, (loopAt orc L 0 (j + 1)).solver.m = (beforeStep orc L j).m := by
    intro j hj
    have hs : ((loopAt orc L 0 j).step orc j).2 = .ok (result j) := by
      have a := h1 j hj
      have b := hok j hj
      unfold beforeStep at b
      unfold Looper.step
      rcases hset : (loopAt orc L 0 j).sets j with ⟨T, e⟩
      rw [hset] at a b
      dsimp only at a b ⊢
      subst a
      dsimp only
      rcases hsol : T.solve orc with ⟨T', q⟩
      rw [hsol] at b
      dsimp only at b
      rw [b]
    obtain ⟨-, -, h3⟩ := step_ok hs
    rw [loopAt, Nat.zero_add, h3]
    show (((loopAt orc L 0 j).sets j).1.solve orc).1.m = _
    rw [(solve_only orc _).2.2.1]
    rfl
  constructor
  · intro hpv
    have key : ∀ j ≤ N, (loopAt orc L 0 j).solver.m.pVal = S.m.pVal := by
      intro j
      induction j with
      | zero => intro _; rw [loopAt, hL0]
      | succ j ih =>
        intro hj
        rw [hkeep j (by omega)]
        obtain ⟨-, -, -, -, -, s6, -⟩ := sets_ok (colloc := colloc) (o := o) (um := um) (uo := uo)
          (orc := orc) (h1 j (by omega))
        rw [← ih (by omega)]
        exact s6 (by rw [(h2 j (by omega)).pv]; exact hpv)
    intro j hj
    obtain ⟨-, -, -, -, -, s6, -⟩ := sets_ok (colloc := colloc) (o := o) (um := um) (uo := uo)
      (orc := orc) (h1 j hj)
    rw [← key j (by omega)]
    exact s6 (by rw [(h2 j (by omega)).pv]; exact hpv)
  · intro f hpv
    have hreach : ∀ j ≤ N, Reachable colloc o um uo orc (loopAt orc L 0 j).solver :=
      loop_reachable (result := result) (by rw [hL0]; exact hS) fun j hj => by
        rw [Nat.zero_add]
        have a := h1 j hj
        have b := hok j hj
        unfold beforeStep at b
        unfold Looper.step
        rcases hset : (loopAt orc L 0 j).sets j with ⟨T, e⟩
        rw [hset] at a b
        dsimp only at a b ⊢
        subst a
        dsimp only
        rcases hsol : T.solve orc with ⟨T', q⟩
        rw [hsol] at b
        dsimp only at b
        rw [b]
    have hset : ∀ j < N, (beforeStep orc L j).m.pVal = (loopAt orc L 0 j).solver.m.pVal.map
        (setGlobal um.nPtv ((List.range um.nPgl).map (f j))) := by
      intro j hj
      obtain ⟨-, -, -, -, -, -, s7⟩ := sets_ok (colloc := colloc) (o := o) (um := um) (uo := uo)
        (orc := orc) (h1 j hj)
      have hd := ((hreach j (by omega)).inv h).dims
      have := (s7 N um.nPgl f (by rw [(h2 j (by omega)).pv]; exact hpv)).2
        (by rw [hd, h.dims.2.2.2.2.2.1])
      rw [hd, h.dims.2.2.2.2.1] at this
      exact this
    have key : ∀ j ≤ N, (loopAt orc L 0 j).solver.m.pVal.map (List.take um.nPtv)
        = S.m.pVal.map (List.take um.nPtv) := by
      intro j
      induction j with
      | zero => intro _; rw [loopAt, hL0]
      | succ j ih =>
        intro hj
        rw [hkeep j (by omega), hset j (by omega), List.map_map, ← ih (by omega)]
        apply List.map_congr_left
        intro r hr
        have hl := ((hreach j (by omega)).inv h).pRow r hr
        rw [h.dims.2.2.2.2.1] at hl
        simp only [Function.comp, setGlobal]
        rw [List.take_append_of_le_length (by rw [List.length_take]; omega), List.take_take,
          Nat.min_self]
    intro j hj
    rw [hset j hj]
    have e : ∀ l : List (List ℝ), l.map (setGlobal um.nPtv ((List.range um.nPgl).map (f j)))
        = (l.map (List.take um.nPtv)).map fun r => r ++ (List.range um.nPgl).map (f j) := by
      intro l
      rw [List.map_map]; rfl
    rw [e, key j (by omega), ← e]

/-- C64: with `p_values`, all NLP calls of step `i` use row `i` of them as global parameters; the
time-varying parameters are those of the solver object.  Without `p_values` the parameters stay as they
are. -/
theorem C64_row_per_step (h : Setup colloc o um uo po m oc P) (hL : o.nfeAfter.length = o.nStages)
    (hS : Reachable colloc o um uo orc S) (hc : Looper.create S x0 N pv wi = .ok L)
    (hrun : L.run orc stop = (L', .ok b)) (hR : L'.getResults = .ok R) :
    ∃ before result calls,
      Simulation orc S L'.solver x0 N o.nfeAfter.sum before result calls R ∧
      ∀ i < N, ∀ c ∈ calls i,
        (∀ j < um.nPtv, c.p[j]? = (S.m.pVal.headD [])[j]?) ∧
        (∀ j < um.nPgl, c.p[um.nPtv + j]? = match pv with
          | some (.mat _ _ f) => some (f i j)
          | _ => (S.m.pVal.headD [])[um.nPtv + j]?) := by
  obtain ⟨result, calls, hsim, h1, h2, hL'⟩ := run_sim h hL hS hc hrun hR
  refine ⟨_, result, calls, hsim, fun i hi c hcc => ?_⟩
  obtain ⟨hpn, hpf⟩ := sim_pVal h hS hc (fun j hj => (h1 j hj).2.2.2.2)
    (fun j hj => (hsim.solved j hj).1) h2 (fun j hj => (h1 j hj).1)
  obtain ⟨lam00, sigma, tau, hp⟩ := (h1 i hi).2.1 c hcc
  have hcr := (C64_create_iff h hS x0 N pv wi).1.1 ⟨L, hc⟩
  have hinv := hS.inv h
  -- one row
  obtain ⟨row, hrow⟩ : ∃ row, S.m.pVal = [row] := by
    have := hinv.pLen
    rw [h.e_nStages, hcr.1.2.1] at this
    exact List.length_eq_one_iff.1 this
  have hlen : row.length = um.nPtv + um.nPgl := by
    have := hinv.pRow row (by rw [hrow]; simp)
    rw [h.dims.2.2.2.2.1, h.dims.2.2.2.2.2.1] at this
    exact this
  have hhd : S.m.pVal.headD [] = row := by rw [hrow]; rfl
  rw [hhd, hp]
  rcases hcr.2 with hpv | ⟨f, hpv⟩
  · have hb : (beforeStep orc L i).m.pVal = [row] := by rw [hpn hpv i hi, hrow]
    have e : ∀ j < um.nPtv + um.nPgl,
        ((beforeStep orc L i).pValues lam00 sigma tau)[j]? = row[j]? := by
      intro j hj
      unfold Solver.pValues
      rw [hb]
      simp only [List.flatten_cons, List.flatten_nil, List.append_nil, List.append_assoc]
      rw [List.getElem?_append_left (by omega)]
    subst hpv
    exact ⟨fun j hj => e j (by omega), fun j hj => e _ (by omega)⟩
  · have hb : (beforeStep orc L i).m.pVal
        = [row.take um.nPtv ++ (List.range um.nPgl).map (f i)] := by
      rw [hpf f hpv i hi, hrow]; rfl
    have e : ∀ j < um.nPtv + um.nPgl, ((beforeStep orc L i).pValues lam00 sigma tau)[j]?
        = (row.take um.nPtv ++ (List.range um.nPgl).map (f i))[j]? := by
      intro j hj
      unfold Solver.pValues
      rw [hb]
      simp only [List.flatten_cons, List.flatten_nil, List.append_nil]
      rw [List.append_assoc, List.append_assoc, List.getElem?_append_left (by
        rw [List.length_append, List.length_take, List.length_map, List.length_range]; omega)]
    subst hpv
    refine ⟨fun j hj => ?_, fun j hj => ?_⟩
    · rw [e j (by omega), List.getElem?_append_left (by rw [List.length_take]; omega),
        List.getElem?_take_of_lt hj]
    · rw [e _ (by omega), List.getElem?_append_right (by rw [List.length_take]; omega),
        List.length_take, List.getElem?_map, List.getElem?_range (by omega)]
      show some (f i _) = some (f i j)
      congr 2
      omega

/-- C65: the switch times of step `i` are those the step reports, shifted by the time at which the step
starts (the total time of the steps before).  (What a single step reports is the subject of C60.) -/
theorem C65_switch_times_shifted (h : Setup colloc o um uo po m oc P)
    (hL : o.nfeAfter.length = o.nStages)
    (hS : Reachable colloc o um uo orc S) (hc : Looper.create S x0 N pv wi = .ok L)
    (hrun : L.run orc stop = (L', .ok b)) (hR : L'.getResults = .ok R) :
    ∃ before result calls,
      Simulation orc S L'.solver x0 N o.nfeAfter.sum before result calls R ∧
      R.switchTimes = (List.range N).flatMap (fun i =>
        (result i).res.switchTimes.map fun t => t + R.tGrid.getD (i * o.nfeAfter.sum) 0) ∧
      ∀ i < N, R.tGrid[i * o.nfeAfter.sum]?
        = some ((List.range i).map fun i' => (result i').res.timeSteps.sum).sum := by
  obtain ⟨result, calls, hsim, h1, h2, hL'⟩ := run_sim h hL hS hc hrun hR
  have I := h2 N le_rfl
  rw [← hL'] at I
  have hR' := hR
  unfold Looper.getResults at hR'
  simp only [bind_eq_ok, check_eq_ok] at hR'
  obtain ⟨-, -, hR'⟩ := hR'
  have hsw : R.switchTimes = L'.switchTimes := by cases hR'; rfl
  have hgrid : ∀ i < N, R.tGrid[i * o.nfeAfter.sum]?
      = some ((List.range i).map fun i' => (result i').res.timeSteps.sum).sum := by
    intro i hi
    have J := h2 i (by omega)
    have hpre : R.timeSteps.take (i * o.nfeAfter.sum)
        = (List.range i).flatMap fun i' => (result i').res.timeSteps := by
      have hlen : ((List.range i).flatMap fun i' => (result i').res.timeSteps).length
          = i * o.nfeAfter.sum := by rw [← J.steps]; exact J.stepsLen
      have hsplit : List.range N = List.range i ++ List.range' i (N - i) := by
        rw [List.range_eq_range', List.range_eq_range']
        have := List.range'_append_1 (s := 0) (m := i) (n := N - i)
        rw [Nat.zero_add] at this
        rw [this]
        congr 1; omega
      rw [hsim.steps, hsplit, List.flatMap_append, ← hlen, List.take_left]
    rw [hsim.grid, List.getElem?_map, List.getElem?_range (by
      have := Nat.mul_le_mul_right o.nfeAfter.sum (le_of_lt hi)
      omega)]
    show some (R.timeSteps.take _).sum = _
    rw [hpre, sum_flatMap_range]
  refine ⟨_, result, calls, hsim, ?_, hgrid⟩
  rw [hsw, I.switch]
  apply List.flatMap_congr
  intro i hi
  apply List.map_congr_left
  intro t _
  rw [List.getD_eq_getElem?_getD, hgrid i (List.mem_range.1 hi)]
  rfl

/-! ### Runs that return -/

theorem setPRow_succeeds {i : Nat} (hpv : pv = none ∨ ∃ f, pv = some (.mat N S.m.dims.nPgl f))
    (hi : i < N) : (setPRow pv i S).2 = none := by
  rcases hpv with rfl | ⟨f, rfl⟩
  · rfl
  · unfold setPRow Arr.row
    dsimp only
    rw [if_pos hi]
    show (S.setPGlobal _).2 = none
    have : Arr.bcast1 S.m.dims.nPgl (.vec ((List.range S.m.dims.nPgl).map (f i)))
        = .ok ((List.range S.m.dims.nPgl).map (f i)) := by
      show bcast _ _ = _
      unfold bcast
      rw [if_pos (by simp)]
    unfold Solver.setPGlobal
    rw [this]

theorem set_p_of_ok (h : Setup colloc o um uo po m oc P) {w : List ℝ} {r : Results}
    (hL : o.nfeAfter.length = o.nStages) (hw : w.length = P.form.w.length)
    (hr : getResults po x0 P w = .ok r) : r.xOut.length = um.nX ∧ ∀ x ∈ r.xList, x.length = um.nX := by
  have hS := C58_results_meaning h hL hw hr []
  constructor
  · rw [hS.xOut, length_xEndVal, h.dims.1]
  · intro x hx
    rw [hS.xList] at hx
    obtain ⟨q, -, rfl⟩ := List.mem_map.1 hx
    rw [length_xEndVal, h.dims.1]

/-- C62: `run` does return, whatever the NLP solver answers: for a simulation problem, an initial state
of the right length, parameter values of the right shape, no polishing (or polishing without
speed-of-time and binary variables), and either the default kind of
initialisation or the EXTERNAL one (with guesses of the right length, or none). -/
theorem C62_run_returns (h : Setup colloc o um uo po m oc P) (hL : o.nfeAfter.length = o.nStages)
    (hS : Reachable colloc o um uo orc S) (hr : Ready um S) (hx : 0 < um.nX)
    (hx0 : x0.length = um.nX) (hp : o.polish = true → o.sot ≠ .local ∧ o.mpcc ≠ .boolean)
    (hs : (o.initStrategy = .allXcurrentW0Start ∨ o.initStrategy = .allXcurrentWoptPrev) ∧ wi = none ∨
      o.initStrategy = .external ∧ (wi = none ∨ ∃ ws, wi = some ws ∧ N ≤ ws.length ∧
        ∀ a ∈ ws, ∃ v, a = .vec v ∧ v.length = S.P.form.w.length))
    (hU : o.pss = .stewart → ∀ s < um.nSys, ∀ s' < um.nSys,
      (um.Fmat s).nCols = (um.Fmat s').nCols)
    (hc : Looper.create S x0 N pv wi = .ok L) (stop : Bool) :
    ∃ L' R, L.run orc stop = (L', .ok true) ∧ L'.getResults = .ok R := by
  have hcr := (C64_create_iff h hS x0 N pv wi).1.1 ⟨L, hc⟩
  have hLe := (create_ok hc).2.2
  have hL0 : L.solver = S := by rw [hLe]
  -- invariant: the looper can make a step
  have step : ∀ T : Looper, Reachable colloc o um uo orc T.solver →
      T.solver.P.form.w0.length = T.solver.P.form.w.length → T.xcurrent.length = um.nX →
      T.wInit = wi → T.pValues = pv → ∀ i < N, ∃ r, (T.step orc i).2 = .ok r ∧
        Reachable colloc o um uo orc (T.step orc i).1.solver ∧
        (T.step orc i).1.solver.P.form.w0.length = (T.step orc i).1.solver.P.form.w.length ∧
        (T.step orc i).1.xcurrent.length = um.nX ∧ (T.step orc i).1.wInit = wi ∧
        (T.step orc i).1.pValues = pv ∧ (∀ x ∈ r.res.xList, x.length = um.nX) := by
    intro T hT hg hxc hwi hpv i hi
    have hTi := hT.inv h
    have hset : (T.sets i).2 = none := by
      unfold Looper.sets
      rw [hwi, hpv]
      obtain ⟨A, hA, hAd⟩ : ∃ A : Solver, setWInit wi i (T.solver.setX0 T.xcurrent) = (A, none) ∧
          A.m.dims = T.solver.m.dims := by
        rcases hs with ⟨-, rfl⟩ | ⟨he, rfl | ⟨ws, rfl, hN, hv⟩⟩
        · exact ⟨_, rfl, rfl⟩
        · exact ⟨_, rfl, rfl⟩
        · obtain ⟨v, hav, hvl⟩ := hv ws[i] (List.getElem_mem (by omega))
          refine ⟨(T.solver.setX0 T.xcurrent).setW0 v, ?_, rfl⟩
          unfold setWInit
          dsimp only
          rw [List.getElem?_eq_getElem (by omega), hav]
          show (T.solver.setX0 T.xcurrent).set .w (.vec v) = _
          show ((T.solver.setX0 T.xcurrent).setW0 v).warn = _
          have he' : ((T.solver.setX0 T.xcurrent).setW0 v).o.initStrategy = .external := by
            show T.solver.o.initStrategy = _
            rw [hTi.opts, h.opts]
            exact he
          unfold Solver.warn
          rw [he']
          rfl
      show (andThen (setWInit wi i (T.solver.setX0 T.xcurrent)) (setPRow pv i)).2 = none
      rw [hA]
      show (setPRow pv i A).2 = none
      apply setPRow_succeeds ?_ hi
      rw [hAd, hTi.dims, h.dims.2.2.2.2.2.1]
      exact hcr.2
    obtain ⟨s1, s2, s3, s4, s5, -⟩ := sets_ok (colloc := colloc) (o := o) (um := um) (uo := uo)
      (orc := orc) hset
    have hB := s3 hT
    have hrd : Ready um (T.sets i).1 := by
      refine ⟨by rw [s2]; exact hxc, ?_⟩
      cases wi with
      | none => rw [s4 hwi]; exact hg
      | some ws =>
        rcases hs with ⟨-, hn⟩ | ⟨-, hn | ⟨ws', hw, -, hv⟩⟩
        · cases hn
        · cases hn
        · cases hw
          obtain ⟨-, a, ha, hav⟩ := s5 ws hwi
          obtain ⟨v, e, hvl⟩ := hv a (List.mem_of_getElem? ha)
          rw [hav v e, (hB.inv h).w, hvl, (hS.inv h).w]
    obtain ⟨S1, lam00, hini⟩ : ∃ S1 lam00, (T.sets i).1.initialize = (S1, .ok lam00) := by
      rcases hs with ⟨hs, -⟩ | ⟨he, -⟩
      · obtain ⟨w0, lam00, hini, -⟩ := C54_initialise_writes_x0 h hB hrd hx hs
        exact ⟨_, _, hini⟩
      · obtain ⟨lam00, hini⟩ := C54_external h hB hrd he
        exact ⟨_, _, hini⟩
    obtain ⟨r, hok⟩ : ∃ r, ((T.sets i).1.solve orc).2 = .ok r := by
      by_cases hpol : o.polish = true
      · exact (C57_polishing_runs_iff orc h hB hrd hpol hini hx hL).2
          ⟨polish_vars h (hp hpol).1 (hp hpol).2, hU⟩
      · exact C49_solve_succeeds orc h hB hrd (by simpa using hpol) hini hx hL hU
    have hst : (T.step orc i).2 = .ok r := by
      unfold Looper.step
      rcases hset' : T.sets i with ⟨A, e⟩
      rw [hset'] at hset hok
      dsimp only at hset hok ⊢
      subst hset
      dsimp only
      rcases hsol : A.solve orc with ⟨A', q⟩
      rw [hsol] at hok
      dsimp only at hok
      rw [hok]
    obtain ⟨-, -, h3⟩ := step_ok hst
    obtain ⟨new, -, -, -, f4, f5, -⟩ := solve_facts h (hB.inv h) hok
    obtain ⟨r1, r2, -⟩ := step_results h hL f4 f5
    obtain ⟨r4, r5⟩ := set_p_of_ok h hL f4 f5
    refine ⟨r, hst, ?_, ?_, ?_, ?_, ?_, r5⟩
    · rw [h3]; exact .solve hB
    · rw [h3]; exact (Ready.solve orc h hB hrd).guess
    · rw [h3]
      show (((T.xSim ++ r.res.xList).getLast?).getD []).length = _
      rw [List.getLast?_append, r2]
      exact r4
    · rw [h3]; exact hwi
    · rw [h3]; exact hpv
  have inv : ∀ j ≤ N, Reachable colloc o um uo orc (loopAt orc L 0 j).solver ∧
      (loopAt orc L 0 j).solver.P.form.w0.length = (loopAt orc L 0 j).solver.P.form.w.length ∧
      (loopAt orc L 0 j).xcurrent.length = um.nX ∧ (loopAt orc L 0 j).wInit = wi ∧
      (loopAt orc L 0 j).pValues = pv := by
    intro j
    induction j with
    | zero =>
      intro _
      rw [loopAt, hL0]
      exact ⟨hS, hr.guess, by rw [hLe]; exact hx0, by rw [hLe], by rw [hLe]⟩
    | succ j ih =>
      intro hj
      obtain ⟨a1, a2, a3, a4, a5⟩ := ih (by omega)
      obtain ⟨r, -, b1, b2, b3, b4, b5, -⟩ := step _ a1 a2 a3 a4 a5 j (by omega)
      rw [loopAt, Nat.zero_add]
      exact ⟨b1, b2, b3, b4, b5⟩
  have ok : ∀ j < N, ∃ r, ((loopAt orc L 0 j).step orc (0 + j)).2 = .ok r := by
    intro j hj
    obtain ⟨a1, a2, a3, a4, a5⟩ := inv j (by omega)
    obtain ⟨r, hr, -⟩ := step _ a1 a2 a3 a4 a5 j hj
    rw [Nat.zero_add]
    exact ⟨r, hr⟩
  have hn : L.nSim = N := by rw [hLe]
  have hrun : L.run orc stop = (loopAt orc L 0 N, .ok true) := by
    unfold Looper.run
    rw [hn]
    exact runLoop_all ok
  refine ⟨loopAt orc L 0 N, ?_⟩
  obtain ⟨-, result, calls, h1, h2, -⟩ := run_inv h hL hS hc hrun
  have I := h2 N le_rfl
  have hlen : ∀ x ∈ (loopAt orc L 0 N).xSim, x.length = um.nX := by
    intro x hxm
    rw [I.states] at hxm
    rcases List.mem_cons.1 hxm with rfl | hxm
    · exact hx0
    · obtain ⟨j, hj, hxm⟩ := List.mem_flatMap.1 hxm
      obtain ⟨-, -, -, -, -, a6, a7, -⟩ := h1 j (List.mem_range.1 hj)
      exact (set_p_of_ok h hL a6 a7).2 x hxm
  have hsame : sameLen (loopAt orc L 0 N).xSim = true := by
    unfold sameLen
    rw [List.all_eq_true]
    intro a ha
    rw [List.all_eq_true]
    intro b hb
    rw [hlen a ha, hlen b hb]
    simp
  cases hg : (loopAt orc L 0 N).getResults with
  | ok R => exact ⟨R, hrun, rfl⟩
  | error e =>
    unfold Looper.getResults at hg
    rw [check_pos hsame, ok_bind] at hg
    cases hg

/-- C63 is violated: for a simulation problem and an NLP solver that never finds a feasible point,
`run(stop_on_failure=True)` runs all steps, records a failure for each of them and returns `True`. -/
theorem C63_stop_on_failure_violated (N : Nat) : ∃ po m oc P S L L',
    Setup oneColloc (simOpts .allXcurrentW0Start) jumpModel none po m oc P ∧
    Solver.create oneColloc (simOpts .allXcurrentW0Start) jumpModel none = .ok S ∧
    Looper.create S [1] N none none = .ok L ∧ L.run failOracle true = (L', .ok true) ∧
    L'.status = List.replicate N .infeasible := by
  obtain ⟨po, m, oc, P, h⟩ := sim_setup .allXcurrentW0Start
  obtain ⟨hcr, hS, hr⟩ := h.create failOracle (by simp [simOpts])
  have hL : (simOpts .allXcurrentW0Start).nfeAfter.length
      = (simOpts .allXcurrentW0Start).nStages := by
    simp [simOpts, Opts.default, Opts.nfeAfter]
  obtain ⟨L, hc⟩ := (C64_create_iff h hS [1] N none none).1.2 ⟨⟨rfl, rfl, rfl⟩, .inl rfl⟩
  obtain ⟨L', R, hrun, -⟩ := C62_run_returns h hL hS hr Nat.one_pos rfl (fun hp => nomatch hp) (.inl ⟨.inl rfl, rfl⟩)
    (fun _ s hs s' hs' => by rw [jump_sys hs, jump_sys hs']) hc true
  refine ⟨po, m, oc, P, _, L, L', h, hcr, hc, hrun, ?_⟩
  obtain ⟨-, result, calls, h1, h2, hL'⟩ := run_inv h hL hS hc hrun
  have I := h2 N le_rfl
  rw [← hL'] at I
  rw [I.status, List.eq_replicate_iff]
  refine ⟨by simp, fun st hst => ?_⟩
  obtain ⟨j, hj, rfl⟩ := List.mem_map.1 hst
  obtain ⟨a1, a2, -⟩ := h1 j (List.mem_range.1 hj)
  have hrd := (ready_of_ok h (a1.inv h) a2).1
  obtain ⟨lam00, w0, lbx, ubx, n, cs, sols, -, hh, -, -, -, hstat, -⟩ :=
    C49_results_of_last_solve failOracle h a1 hrd rfl a2
  rw [hstat, hh.answer (n - 1) (by have := hh.pos; omega)]
  show statusOf "Infeasible_Problem_Detected" = _
  decide

/-! ### C79 -/

/-- C79: with `w_init`, the first NLP call of step `i` starts from `w_init[i]` (unless
`fix_active_set_fe0` replaces entries). -/
theorem C79_w_init (h : Setup colloc o um uo po m oc P) (hL : o.nfeAfter.length = o.nStages)
    (hS : Reachable colloc o um uo orc S) {ws : List Arr}
    (hc : Looper.create S x0 N pv (some ws) = .ok L) (hf : o.fixActiveSetFe0 = false)
    (hrun : L.run orc stop = (L', .ok b)) (hR : L'.getResults = .ok R) :
    ∃ before result calls,
      Simulation orc S L'.solver x0 N o.nfeAfter.sum before result calls R ∧
      ∀ i < N, ∃ a c, ws[i]? = some a ∧ (calls i)[0]? = some c ∧ ∀ v, a = .vec v → c.x0 = v := by
  obtain ⟨result, calls, hsim, h1, h2, hL'⟩ := run_sim h hL hS hc hrun hR
  refine ⟨_, result, calls, hsim, fun i hi => ?_⟩
  obtain ⟨a1, -, -, -, a5⟩ := h1 i hi
  obtain ⟨-, -, -, -, s5, -⟩ := sets_ok (colloc := colloc) (o := o) (um := um) (uo := uo)
    (orc := orc) a5
  obtain ⟨hext, a, ha, hav⟩ := s5 ws (h2 i (by omega)).wi
  have hok := (hsim.solved i hi).1
  have hext' : o.initStrategy = .external := by
    rw [(h2 i (by omega)).o, (hS.inv h).opts, h.opts] at hext
    exact hext
  obtain ⟨hrd, -⟩ := ready_of_ok h (a1.inv h) hok
  obtain ⟨lam00, hini⟩ := C54_external h a1 hrd hext'
  obtain ⟨w0, lbx, ubx, n, cs, sols, hh, e1, -, e3, -, extra, -, e6, -⟩ :=
    C52_solve_is_a_homotopy orc h a1 hrd hini
  have hcalls : calls i = (List.range n).map cs ++ extra := by
    have := (hsim.solved i hi).2.1
    rw [e6, List.append_assoc] at this
    exact (List.append_cancel_left this).symm
  have hn := hh.pos
  refine ⟨a, cs 0, ha, ?_, fun v hv => ?_⟩
  · rw [hcalls, List.getElem?_append_left (by simpa using hn), List.getElem?_map,
      List.getElem?_range hn]
    rfl
  · rw [hh.first, ← hav v hv]
    apply List.ext_getElem?
    intro k
    cases hk : (beforeStep orc L i).P.form.w[k]? with
    | none =>
      rw [List.getElem?_eq_none_iff] at hk
      rw [List.getElem?_eq_none (by omega), List.getElem?_eq_none (by
        have := hrd.guess
        show _ ≤ k
        unfold beforeStep at hk this
        omega)]
    | some t =>
      refine (e1 k t hk ?_).1
      rintro ⟨hft, -⟩
      rw [(a1.inv h).opts, h.opts] at hft
      rw [show ({ o with .. } : Opts).fixActiveSetFe0 = o.fixActiveSetFe0 from rfl, hf] at hft
      cases hft

/-- C79: `w_init` is for EXTERNAL initialisation only: with any other strategy `run` raises. -/
theorem C79_w_init_needs_external (h : Setup colloc o um uo po m oc P)
    (hL : o.nfeAfter.length = o.nStages) (hS : Reachable colloc o um uo orc S) {ws : List Arr}
    (hc : Looper.create S x0 N pv (some ws) = .ok L) (hN : 0 < N)
    (hs : o.initStrategy ≠ .external) : ∃ L' e, L.run orc stop = (L', .error e) := by
  rcases hrun : L.run orc stop with ⟨L', q⟩
  cases q with
  | error e => exact ⟨L', e, rfl⟩
  | ok b =>
    exfalso
    obtain ⟨-, result, calls, h1, h2, -⟩ := run_inv h hL hS hc hrun
    obtain ⟨-, -, -, -, -, -, -, a8⟩ := h1 0 hN
    obtain ⟨-, -, -, -, s5, -⟩ := sets_ok (colloc := colloc) (o := o) (um := um) (uo := uo)
      (orc := orc) a8
    obtain ⟨hext, -⟩ := s5 ws (h2 0 (by omega)).wi
    rw [(h2 0 (by omega)).o, (hS.inv h).opts, h.opts] at hext
    exact hs hext

/-- The theorems of this file apply: a simulation of three steps of the jump problem that returns. -/
example : ∃ po m oc P S L L' R, Setup oneColloc (simOpts .allXcurrentW0Start) jumpModel none po m oc P ∧
    (simOpts .allXcurrentW0Start).nfeAfter.length = (simOpts .allXcurrentW0Start).nStages ∧
    Reachable oneColloc (simOpts .allXcurrentW0Start) jumpModel none echoOracle S ∧
    Looper.create S [1] 3 (some (.mat 3 0 fun _ _ => 0)) none = .ok L ∧
    L.run echoOracle false = (L', .ok true) ∧ L'.getResults = .ok R := by
  obtain ⟨po, m, oc, P, h⟩ := sim_setup .allXcurrentW0Start
  obtain ⟨hcr, hS, hr⟩ := h.create echoOracle (by simp [simOpts])
  have hL : (simOpts .allXcurrentW0Start).nfeAfter.length
      = (simOpts .allXcurrentW0Start).nStages := by
    simp [simOpts, Opts.default, Opts.nfeAfter]
  obtain ⟨L, hc⟩ := (C64_create_iff h hS [1] 3 (some (.mat 3 0 fun _ _ => 0)) none).1.2
    ⟨⟨rfl, rfl, rfl⟩, .inr ⟨_, rfl⟩⟩
  obtain ⟨L', R, hrun, hR⟩ := C62_run_returns h hL hS hr Nat.one_pos rfl (fun hp => nomatch hp) (.inl ⟨.inl rfl, rfl⟩)
    (fun _ s hs s' hs' => by rw [jump_sys hs, jump_sys hs']) hc false
  exact ⟨po, m, oc, P, _, L, L', R, h, hL, hS, hc, hrun, hR⟩

/-- …and one with EXTERNAL initialisation and guesses. -/
example : ∃ po m oc P S ws L L' R, Setup oneColloc (simOpts .external) jumpModel none po m oc P ∧
    Reachable oneColloc (simOpts .external) jumpModel none echoOracle S ∧
    (simOpts .external).fixActiveSetFe0 = false ∧
    Looper.create S [1] 3 none (some ws) = .ok L ∧
    L.run echoOracle false = (L', .ok true) ∧ L'.getResults = .ok R := by
  obtain ⟨po, m, oc, P, h⟩ := sim_setup .external
  obtain ⟨hcr, hS, hr⟩ := h.create echoOracle (by simp [simOpts])
  have hL : (simOpts .external).nfeAfter.length = (simOpts .external).nStages := by
    simp [simOpts, Opts.default, Opts.nfeAfter]
  obtain ⟨L, hc⟩ := (C64_create_iff h hS [1] 3 none
    (some (List.replicate 3 (.vec (List.replicate P.form.w.length 2))))).1.2 ⟨⟨rfl, rfl, rfl⟩, .inl rfl⟩
  obtain ⟨L', R, hrun, hR⟩ := C62_run_returns h hL hS hr Nat.one_pos rfl (fun hp => nomatch hp)
    (.inr ⟨rfl, .inr ⟨_, rfl, by simp, fun a ha => ⟨_, List.eq_of_mem_replicate ha, by simp⟩⟩⟩)
    (fun _ s hs s' hs' => by rw [jump_sys hs, jump_sys hs']) hc false
  exact ⟨po, m, oc, P, _, _, L, L', R, h, hS, rfl, hc, hrun, hR⟩

end
end Nosnoc
