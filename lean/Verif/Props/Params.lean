import Verif.Spec.Params
import Verif.Props.Solve
import Verif.Witness.TwoSys
/-
C08, C09, C26: parameter values, parameter setters, initial multipliers.
-/
namespace Nosnoc

section
variable {colloc : IrkScheme → Nat → List ℝ} {o : Opts} {um : UserModel} {uo : Option UserOcp}
  {po : PreOpts} {m : PreModel} {oc : PreOcp} {P : Problem} {orc : Oracle} {S S1 : Solver}
  {lam00 : List ℝ}

/-! ### C08 -/

theorem flatten_table {rows : List (List ℝ)} {n c : Nat} (hl : rows.length = n)
    (hr : ∀ r ∈ rows, r.length = c) :
    rows.flatten = (List.range n).flatMap fun k => (List.range c).map fun i =>
      (rows.getD k []).getD i 0 := by
  subst hl
  induction rows with
  | nil => rfl
  | cons r rows ih =>
    rw [List.flatten_cons, List.length_cons, List.range_succ_eq_map, List.flatMap_cons,
      List.flatMap_map, ih fun r' h' => hr r' (List.mem_cons_of_mem _ h')]
    congr 1
    have : r.length = c := hr r List.mem_cons_self
    subst this
    exact (map_getD_range r).symm

/-- The solver object with other algebraic variables at the initial time. -/
def Solver.withZ0 (S : Solver) (z : List ℝ) : Solver := { S with m := { S.m with z0 := z } }

theorem paramVal_of_lam00_z (h : Setup colloc o um uo po m oc P) (hi : Inv po m P S)
    (hx : S.m.x0.length = um.nX) {p0 : List ℝ} (hp0 : S.m.pVal[0]? = some p0)
    {z : List ℝ} (hv : lam00 = um.lam00List po.pss S.m.x0 z p0)
    (hmode : o.pss = .stewart ∨ um.nSys ≤ 1) (sigma tau : ℝ) :
    S.m.pVal.flatten ++ [sigma, tau] ++ lam00 ++ S.m.x0 = S.P.p.map (paramVal um (S.withZ0 z) sigma tau) := by
  obtain ⟨d1, -, d3, -, d5, d6, d7, d8, d9⟩ := h.dims
  have hhead : S.m.pVal.headD [] = p0 := by
    cases hp : S.m.pVal with
    | nil => rw [hp] at hp0; cases hp0
    | cons a l => rw [hp] at hp0; cases hp0; rfl
  rw [hi.p, p_eq h]
  simp only [pHead, List.map_append, List.map_flatMap]
  have e1 : S.m.pVal.flatten = (List.range po.nStages).flatMap fun k =>
      (blk (m.dims.nPtv + m.dims.nPgl) (.pStage k)).map (paramVal um (S.withZ0 z) sigma tau) := by
    rw [flatten_table hi.pLen hi.pRow]
    simp only [blk, List.map_map]
    rfl
  have e2 : S.m.x0 = (blk m.dims.nX .x0).map (paramVal um (S.withZ0 z) sigma tau) := by
    rw [d1, ← hx]
    simp only [blk, List.map_map]
    exact (map_getD_range _).symm
  have e3 : lam00 = (lam00Row po m.dims .lam).map (paramVal um (S.withZ0 z) sigma tau)
      ++ (lam00Row po m.dims .lamN).map (paramVal um (S.withZ0 z) sigma tau)
      ++ (lam00Row po m.dims .lamP).map (paramVal um (S.withZ0 z) sigma tau) := by
    rw [hv, ← hhead]
    unfold UserModel.lam00List lam00Row
    cases hps : po.pss with
    | stewart =>
      simp only [Dims.famLen, List.map_flatMap, d7, blk, List.map_map, List.range_zero,
        List.map_nil]
      have : ∀ s ∈ List.range um.nSys, m.dims.nF s = (um.Fmat s).nCols := fun s hs =>
        d8 hps s (List.mem_range.1 hs)
      rw [show ((List.range um.nSys).flatMap fun _ => ([] : List ℝ)) = [] by simp,
        List.append_nil, List.append_nil]
      apply List.flatMap_congr
      intro s hs
      rw [this s hs]
      rfl
    | step =>
      have hn : um.nSys ≤ 1 := by
        rcases hmode with hm | hm
        · have : po.pss = o.pss := by rw [h.opts]
          rw [this, hm] at hps; cases hps
        · exact hm
      simp only [Dims.famLen, List.map_flatMap, d7, blk, List.map_map, List.range_zero,
        List.map_nil]
      have hc : um.nSys = 0 ∨ um.nSys = 1 := by omega
      rcases hc with hc | hc
      · rw [hc]; rfl
      · have := d9 hps 0 (by omega)
        rw [hc]
        simp only [List.range_one, List.flatMap_cons, List.flatMap_nil, List.append_nil, this,
          List.nil_append]
        rfl
  rw [← e1, ← e2, ← e3]
  rfl

theorem paramVal_of_lam00 (h : Setup colloc o um uo po m oc P) (hi : Inv po m P S)
    (hx : S.m.x0.length = um.nX) {p0 : List ℝ} (hp0 : S.m.pVal[0]? = some p0)
    (hv : lam00 = um.lam00List po.pss S.m.x0 m.z0 p0)
    (hmode : o.pss = .stewart ∨ um.nSys ≤ 1) (sigma tau : ℝ) :
    S.m.pVal.flatten ++ [sigma, tau] ++ lam00 ++ S.m.x0 = S.P.p.map (paramVal um S sigma tau) := by
  rw [← hi.z0] at hv
  exact paramVal_of_lam00_z h hi hx hp0 hv hmode sigma tau

/-- The numbers handed to the NLP solver are, symbol by symbol, those the symbols stand for. -/
theorem pValues_paramVal (h : Setup colloc o um uo po m oc P) (hi : Inv po m P S)
    (hx : S.m.x0.length = um.nX) (hini : S.initialize = (S1, .ok lam00))
    (hmode : o.pss = .stewart ∨ um.nSys ≤ 1) (sigma tau : ℝ) :
    S.m.pVal.flatten ++ [sigma, tau] ++ lam00 ++ S.m.x0 = S.P.p.map (paramVal um S sigma tau) := by
  obtain ⟨p0, hp0, -, hv⟩ := initialize_val h hi hx hini
  exact paramVal_of_lam00 h hi hx hp0 hv hmode sigma tau

/-- C08 (partial: Stewart mode, or at most one switching system): every NLP call of the homotopy
and of the polishing step (with `σ = τ = 0`) gets for each symbol of the parameter vector the quantity the
symbol stands for.  Missing: Step mode with several systems, where this fails (`C08_step_several_systems_violated`). -/
theorem C08_parameter_values_partial (orc : Oracle) (h : Setup colloc o um uo po m oc P)
    (hS : Reachable colloc o um uo orc S) (hr : Ready um S)
    (hini : S.initialize = (S1, .ok lam00)) (hmode : o.pss = .stewart ∨ um.nSys ≤ 1) :
    ∃ (n : Nat) (calls : Nat → NlpCall) (extra : List NlpCall), 0 < n ∧
      (S.solve orc).1.log = S.log ++ (List.range n).map calls ++ extra ∧
      (o.polish = false → extra = []) ∧
      (∀ k < n, (calls k).p = S.P.p.map (paramVal um S (sigmaAt o k)
        (min (sigmaAt o k ^ (3 / 2 : ℝ)) (sigmaAt o k)))) ∧
      ∀ c ∈ extra, c.p = S.P.p.map (paramVal um S 0 0) := by
  have hi := hS.inv h
  obtain ⟨w0, lbx, ubx, n, calls, sols, hh, -, -, -, h5, extra, h6, h7, h8⟩ :=
    C52_solve_is_a_homotopy orc h hS hr hini
  refine ⟨n, calls, extra, hh.pos, h7, fun hp => ?_, fun k hk => ?_,
    fun c hc => (h8 c hc).2.2.2.trans (pValues_paramVal h hi hr.x0 hini hmode 0 0)⟩
  · have := h5 hp
    rw [h7] at this
    simpa using this
  have hsig : ∀ k, sigmaAt S.o.toOpts k = sigmaAt o k := by
    intro k
    rw [hi.opts, h.opts]
    induction k with
    | zero => rfl
    | succ k ih => rw [sigmaAt_succ, ih, sigmaAt_succ]; rfl
  rw [hh.params k hk, hsig]
  exact pValues_paramVal h hi hr.x0 hini hmode _ _

theorem two_dims {po m oc P}
    (h : SetupEx oneColloc twoOpts twoModel (some UserOcp.trivial) po m oc P) :
    P.p = [.sigma, .tau, .lam00 .lamN 0 0, .lam00 .lamN 1 0, .lam00 .lamP 0 0, .lam00 .lamP 1 0,
      .x0 0] := by
  obtain ⟨d1, -, d3, -, d5, d6, d7, d8, d9⟩ := h.dims
  have e1 : po.nStages = 1 := by rw [h.opts]; rfl
  have e2 : po.pss = .step := by rw [h.opts]; rfl
  have n : twoModel.nSys = 2 := rfl
  rw [n] at d7 d9
  have c0 : m.dims.nC 0 = 1 := d9 e2 0 (by omega)
  have c1 : m.dims.nC 1 = 1 := d9 e2 1 (by omega)
  have n1 : m.dims.nPtv = 0 := d5
  have n2 : m.dims.nPgl = 0 := d6
  have n3 : m.dims.nX = 1 := d1
  rw [p_eq h.toSetup]
  simp [pHead, lam00Row, e1, e2, Dims.famLen, d7, c0, c1, n1, n2, n3, blk, List.range_succ]

/-- With the initial multipliers in the wrong places there is no feasible point for small `σ`. -/
theorem two_infeasible {po m oc P} {env : Env}
    (h : SetupEx oneColloc twoOpts twoModel (some UserOcp.trivial) po m oc P) (hrbe : po.rbe = true)
    (hf : P.form.Feasible env) (q4 : env (.lam00 .lamN 1 0) = 1) (q6 : env (.lam00 .lamP 1 0) = 1) :
    1 / 2 ≤ env .sigma := by
  have e2 : po.pss = .step := by rw [h.opts]; rfl
  have e1 : po.nStages = 1 := by rw [h.opts]; rfl
  have hsp := h.spec hf
  have d7 : m.dims.nSys = 2 := h.dims.2.2.2.2.2.2.1
  have d9 : m.dims.nC 1 = 1 := h.dims.2.2.2.2.2.2.2.2 e2 1 (by show 1 < 2; omega)
  have hfe : HasFE po 0 0 := ⟨by omega, (h.toSetup.built.ok.primal.nfe 0 (by omega)).2⟩
  have e3 : po.nS = 1 := by rw [h.opts]; rfl
  have e4 : po.useFesd = true := by rw [h.opts]; rfl
  have e5 : po.crossComp = .sumLambdas := by rw [h.opts]; rfl
  have e6 : po.mpcc = .scholtesIneq := by rw [h.opts]; rfl
  have hl : nLamPts po 0 0 = 1 := by simp [nLamPts, extraPt, hrbe, e3]
  have b : ∀ f : Fam2, f = .alpha ∨ f = .lamN ∨ f = .lamP → 0 ≤ env (.st2 f 0 0 0 1 0) := by
    intro f hf
    have hv : IsVar po m.dims (.st2 f 0 0 0 1 0) := by
      rcases hf with rfl | rfl | rfl
      · exact ⟨e2, hfe, by omega, by omega, by omega⟩
      · exact ⟨e2, hfe, by omega, by omega, by omega⟩
      · exact ⟨e2, hfe, by omega, by omega, by omega⟩
    have := (hsp.bounds _ hv).1
    rcases hf with rfl | rfl | rfl <;>
    · simp [varDoc, e6, dualLb] at this
      exact_mod_cast this
  have ba := b .alpha (.inl rfl)
  have bn := b .lamN (.inr (.inl rfl))
  have bp := b .lamP (.inr (.inr rfl))
  have ba1 : env (.st2 .alpha 0 0 0 1 0) ≤ 1 := by
    have := (hsp.bounds (.st2 .alpha 0 0 0 1 0) ⟨e2, hfe, by omega, by omega, by omega⟩).2
    simp only [varDoc] at this
    exact_mod_cast this
  have c1 := hsp.compSum e4 e5 0 0 hfe 0 (by omega) (.neg 1 0) ⟨e2, by omega, by omega⟩
  have c2 := hsp.compSum e4 e5 0 0 hfe 0 (by omega) (.pos 1 0) ⟨e2, by omega, by omega⟩
  rw [hl] at c1 c2
  simp only [Compl, CompSat, e6, List.range_one, List.map_cons, List.map_nil, List.cons_append,
    List.nil_append, List.sum_cons, List.sum_nil, lamAt, lamStart, prevFe, lt_irrefl, if_false,
    lam00At, thetaAt, q4, q6] at c1 c2
  nlinarith

/-- C08 fails in Step mode with two switching systems: both switching functions have the value 1, so
both `λⁿ` should be 0, but the NLP solver gets 1 for that of the second system.  Because of this no
point satisfies the constraints in any NLP call with `σ < 1/2` (the default schedule starts at 1 and
divides by 10). -/
theorem C08_step_several_systems_violated (orc : Oracle) : ∃ po m oc P S n calls,
    SetupEx oneColloc twoOpts twoModel (some UserOcp.trivial) po m oc P ∧
    Reachable oneColloc twoOpts twoModel (some UserOcp.trivial) orc S ∧ Ready twoModel S ∧
    0 < n ∧ (S.solve orc).1.log = (List.range n).map calls ∧
    ∀ k < n, S.P.p[3]? = some (.lam00 .lamN 1 0) ∧ (calls k).p[3]? = some 1 ∧
      paramVal twoModel S (sigmaAt twoOpts k)
        (min (sigmaAt twoOpts k ^ (3 / 2 : ℝ)) (sigmaAt twoOpts k)) (.lam00 .lamN 1 0) = 0 ∧
      ∀ env, S.P.p.map env = (calls k).p → S.P.form.Feasible env → 1 / 2 ≤ sigmaAt twoOpts k := by
  obtain ⟨po, m, oc, P, h, hrbe, hA⟩ := two_setup
  obtain ⟨-, hS, hr⟩ := h.toSetup.create orc (by simp [twoOpts, Opts.default])
  obtain ⟨w0, lam00, hini, -⟩ := C54_initialise_writes_x0 h.toSetup hS hr Nat.one_pos (.inl rfl)
  have hi := hS.inv h.toSetup
  obtain ⟨w0, lbx, ubx, n, calls, sols, hh, -, -, -, h5, -⟩ :=
    C52_solve_is_a_homotopy orc h.toSetup hS hr hini
  refine ⟨po, m, oc, P, _, n, calls, h, hS, hr, hh.pos, h5 rfl, fun k hk => ?_⟩
  have hsig : ∀ k, sigmaAt po.toOpts k = sigmaAt twoOpts k := by
    intro k
    rw [h.opts]
    induction k with
    | zero => rfl
    | succ k ih => rw [sigmaAt_succ, ih, sigmaAt_succ]; rfl
  obtain ⟨p0, hp0, hpl, hv⟩ := initialize_val h.toSetup hi hr.x0 hini
  have e2 : po.pss = .step := by rw [h.opts]; rfl
  have e1 : po.nStages = 1 := by rw [h.opts]; rfl
  have hp00 : p0 = [] := by
    have : p0.length = 0 := hpl
    exact List.length_eq_zero_iff.1 this
  have hpv : m.pVal = [[]] := by
    have := hi.pLen
    rw [e1] at this
    have hp0' : m.pVal[0]? = some [] := by rw [← hp00]; exact hp0
    have hl : m.pVal.length = 1 := this
    match hm : m.pVal, hl with
    | [a], _ => rw [hm] at hp0'; cases hp0'; rfl
  have hx0 : m.x0 = [0] := by
    obtain ⟨nC, nF, g, up, f0, acc, hp⟩ := h.toSetup.built.pre
    exact hp.x0
  have hlam : lam00 = [0, 1, 0, 1] := by
    rw [hv, e2]
    simp [UserModel.lam00List, twoModel, UserModel.nSys, UserModel.cVec, List.range_succ,
      UserModel.lam00Neg, UserModel.lam00Pos]
  have hpk : (calls k).p = [sigmaAt twoOpts k,
      min (sigmaAt twoOpts k ^ (3 / 2 : ℝ)) (sigmaAt twoOpts k), 0, 1, 0, 1, 0] := by
    rw [hh.params k hk, hsig]
    show m.pVal.flatten ++ _ ++ lam00 ++ m.x0 = _
    rw [hpv, hlam, hx0]
    rfl
  have hP : P.p = _ := two_dims h
  refine ⟨by show P.p[3]? = _; rw [hP]; rfl, by rw [hpk]; rfl, ?_, fun env hpe hf => ?_⟩
  · simp [paramVal, UserModel.lam00Neg, twoModel, UserModel.cVec]
  rw [hpk] at hpe
  have hpe' : P.p.map env = _ := hpe
  rw [hP] at hpe'
  simp only [List.map_cons, List.map_nil, List.cons.injEq] at hpe'
  obtain ⟨q1, -, -, q4, -, q6, -, -⟩ := hpe'
  rw [← q1]
  exact two_infeasible h hrbe hf q4 q6


/-! ### C09 -/

/-- The parameter setters on the table: one well-formed operation. -/
theorem op_params (hi : Inv po m P S) {q : Params} {op : Op}
    (hq : S.m.pVal = q.table po.nStages m.dims.nPtv m.dims.nPgl)
    (hop : op.ParamsOk po.nStages m.dims.nPtv m.dims.nPgl) :
    (op.run orc S).m.pVal = (op.params q).table po.nStages m.dims.nPtv m.dims.nPgl := by
  cases op with
  | solve =>
    show (S.solve orc).1.m.pVal = _
    rw [(solve_only orc S).2.2.1]
    exact hq
  | set f v =>
    have keep : ∀ {S'}, OnlyGuess S S' → S'.m.pVal = q.table po.nStages m.dims.nPtv m.dims.nPgl :=
      fun ho => by rw [ho.m]; exact hq
    cases f with
    | x0 => cases v <;> exact hq
    | x => exact keep (setX_onlyGuess S v)
    | u => exact keep (setArr_onlyGuess S _ v)
    | vGlobal => exact keep (setArr_onlyGuess S _ v)
    | theta => exact keep (setTheta_onlyGuess S v)
    | w => cases v <;> exact keep (onlyGuess_setW0 S _)
    | other => exact hq
    | pGlobal =>
      obtain ⟨l, rfl, hl⟩ := hop
      show (S.setPGlobal (.vec l)).1.m.pVal = _
      have e : (Arr.vec l).bcast1 S.m.dims.nPgl = .ok l := by
        rw [hi.dims]; simp [Arr.bcast1, bcast, hl]
      unfold Solver.setPGlobal
      rw [e]
      show S.m.pVal.map _ = _
      rw [hq, hi.dims]
      simp only [Params.table, Op.params, List.map_map]
      apply List.map_congr_left
      intro k _
      simp only [Function.comp, setGlobal]
      rw [List.take_left' (by simp), ← hl, map_getD_range]
    | pTimeVar =>
      obtain ⟨f, rfl⟩ := hop
      show (timeVarLoop S.m.dims.nPtv (.mat po.nStages m.dims.nPtv f) 0 S.m.pVal).1 = _
      rw [hq, hi.dims]
      have key : ∀ (n i : Nat), i + n = po.nStages →
          (timeVarLoop m.dims.nPtv (.mat po.nStages m.dims.nPtv f) i
            ((List.range' i n).map fun k => (List.range m.dims.nPtv).map (q.tv k)
              ++ (List.range m.dims.nPgl).map q.gl))
          = ((List.range' i n).map fun k => (List.range m.dims.nPtv).map (f k)
              ++ (List.range m.dims.nPgl).map q.gl, none) := by
        intro n
        induction n with
        | zero => intro i _; rfl
        | succ n ih =>
          intro i hn
          rw [List.range'_succ, List.map_cons, timeVarLoop]
          have hrow : (do
              let v ← (Arr.mat po.nStages m.dims.nPtv f).row i
              bcast m.dims.nPtv v) = .ok ((List.range m.dims.nPtv).map (f i)) := by
            simp only [Arr.row]
            rw [if_pos (by omega)]
            simp [bcast]
          rw [hrow]
          dsimp only
          rw [ih (i + 1) (by omega)]
          simp only [setTimeVar, List.map_cons]
          rw [List.drop_left' (by simp)]
      have := key po.nStages 0 (by omega)
      rw [← List.range_eq_range'] at this
      simp only [Params.table, Op.params]
      rw [this]

/-- C09, whole histories: after any sequence of `set` and `solve` calls (raising or not) in which the
arrays given for parameters have the documented shapes, the table of stage parameters holds what the
last writes say, starting from the values of the model. -/
theorem C09_last_write_wins (h : Setup colloc o um uo po m oc P) (orc : Oracle) {S0 : Solver}
    (hS : Reachable colloc o um uo orc S0) {q : Params}
    (hq : S0.m.pVal = q.table o.nStages um.nPtv um.nPgl) (ops : List Op)
    (hops : ∀ op ∈ ops, op.ParamsOk o.nStages um.nPtv um.nPgl) :
    (ops.foldl (Op.run orc) S0).m.pVal
      = (ops.foldl Op.params q).table o.nStages um.nPtv um.nPgl := by
  obtain ⟨-, -, -, -, d5, d6, -⟩ := h.dims
  have e1 : po.nStages = o.nStages := by rw [h.opts]
  induction ops generalizing S0 q with
  | nil => exact hq
  | cons op ops ih =>
    rw [List.foldl_cons, List.foldl_cons]
    refine ih ?_ ?_ fun op' h' => hops op' (List.mem_cons_of_mem _ h')
    · cases op with
      | set f v => exact hS.set f v
      | solve => exact hS.solve
    · have := op_params (orc := orc) (hS.inv h) (q := q) (op := op)
        (by rw [e1, d5, d6]; exact hq) (by rw [e1, d5, d6]; exact hops op List.mem_cons_self)
      rw [e1, d5, d6] at this
      exact this

/-- C09: a constructed solver object starts with the values of the model. -/
theorem C09_initial (h : Setup colloc o um uo po m oc P) {S : Solver}
    (hc : Solver.create colloc o um uo = .ok S) :
    S.m.pVal = (Params.mk (fun k i => ((um.ptv o.nStages).getD k []).getD i 0)
      fun i => um.pGlobalVal.getD i 0).table o.nStages um.nPtv um.nPgl := by
  obtain ⟨sm, rfl⟩ := create_eq h hc
  obtain ⟨nC, nF, g, up, f0, acc, hp⟩ := h.built.pre
  have hv := hp.pVal
  have e1 : po.nStages = o.nStages := by rw [h.opts]
  rw [e1] at hv
  unfold UserModel.pValCtrl at hv
  simp only [bind_eq_ok, check_eq_ok] at hv
  obtain ⟨-, h1, -, ⟨h2, h3⟩, hv⟩ := hv
  injection hv with hv
  show m.pVal = _
  rw [← hv]
  simp only [Params.table]
  rw [← h1, map_getD_range]
  apply List.ext_getElem
  · simp [h2]
  · intro k k1 k2
    simp only [List.getElem_map, List.getElem_range]
    have k3 : k < (um.ptv o.nStages).length := by simpa using k1
    have hr := h3 _ (List.getElem_mem k3)
    rw [← hr]
    congr 1
    rw [List.getD_eq_getElem?_getD, List.getElem?_eq_getElem k3, Option.getD_some]
    exact (map_getD_range _).symm

/-- C09: what one well-formed call of `set("p_global", …)` does: it does not raise, changes nothing but
the table, sets the global part of every stage and keeps the time-varying part. -/
theorem C09_set_p_global (h : Setup colloc o um uo po m oc P)
    (hS : Reachable colloc o um uo orc S) {v : List ℝ} (hv : v.length = um.nPgl) :
    ∃ T, S.set .pGlobal (.vec v) = (S.setPVal T, none) ∧ T.length = S.m.pVal.length ∧
      ∀ (k : Nat) r, S.m.pVal[k]? = some r → T[k]? = some (r.take um.nPtv ++ v) := by
  have hi := hS.inv h
  obtain ⟨-, -, -, -, d5, d6, -⟩ := h.dims
  refine ⟨S.m.pVal.map fun r => r.take um.nPtv ++ v, ?_, by simp, fun k r hr => by simp [hr]⟩
  have e : (Arr.vec v).bcast1 S.m.dims.nPgl = .ok v := by
    rw [hi.dims, d6]; simp [Arr.bcast1, bcast, hv]
  show S.setPGlobal (.vec v) = _
  unfold Solver.setPGlobal
  rw [e, hi.dims, d5]
  rfl

/-- C09: what one well-formed call of `set("p_time_var", …)` does: it does not raise, changes nothing
but the table, sets the time-varying part of stage `k` to row `k` and keeps the global part. -/
theorem C09_set_p_time_var (h : Setup colloc o um uo po m oc P)
    (hS : Reachable colloc o um uo orc S) (f : Nat → Nat → ℝ) :
    ∃ T, S.set .pTimeVar (.mat o.nStages um.nPtv f) = (S.setPVal T, none) ∧
      T.length = S.m.pVal.length ∧
      ∀ (k : Nat) r, S.m.pVal[k]? = some r →
        T[k]? = some ((List.range um.nPtv).map (f k) ++ r.drop um.nPtv) := by
  have hi := hS.inv h
  obtain ⟨-, -, -, -, d5, d6, -⟩ := h.dims
  have e1 : po.nStages = o.nStages := by rw [h.opts]
  have key : ∀ (l : List (List ℝ)) (i : Nat), i + l.length = o.nStages →
      timeVarLoop um.nPtv (.mat o.nStages um.nPtv f) i l
      = (l.zipIdx i |>.map fun q => (List.range um.nPtv).map (f q.2) ++ q.1.drop um.nPtv, none) := by
    intro l
    induction l with
    | nil => intro i _; rfl
    | cons r l ih =>
      intro i hn
      simp only [List.length_cons] at hn
      rw [timeVarLoop]
      have hrow : (do
          let v ← (Arr.mat o.nStages um.nPtv f).row i
          bcast um.nPtv v) = .ok ((List.range um.nPtv).map (f i)) := by
        simp only [Arr.row]
        rw [if_pos (by omega)]
        simp [bcast]
      rw [hrow]
      dsimp only
      rw [ih (i + 1) (by omega)]
      rfl
  refine ⟨(S.m.pVal.zipIdx 0).map fun q : List ℝ × Nat =>
      (List.range um.nPtv).map (f q.2) ++ q.1.drop um.nPtv, ?_, ?_, ?_⟩
  rotate_left
  · show (((S.m.pVal.zipIdx 0).map fun q : List ℝ × Nat =>
      (List.range um.nPtv).map (f q.2) ++ q.1.drop um.nPtv).length = _)
    simp
  · intro k r hr
    simp [List.getElem?_zipIdx, hr]
  · show (S.setPVal (timeVarLoop S.m.dims.nPtv _ 0 S.m.pVal).1,
      (timeVarLoop S.m.dims.nPtv _ 0 S.m.pVal).2) = _
    rw [hi.dims, d5, key _ 0 (by rw [hi.pLen, e1, Nat.zero_add])]

/-- C09: the two setters commute, and repeating one of them changes nothing. -/
theorem C09_commute_and_repeat (h : Setup colloc o um uo po m oc P)
    (hS : Reachable colloc o um uo orc S) {v : List ℝ} (hv : v.length = um.nPgl)
    (f : Nat → Nat → ℝ) :
    ((S.set .pGlobal (.vec v)).1.set .pTimeVar (.mat o.nStages um.nPtv f)).1
      = ((S.set .pTimeVar (.mat o.nStages um.nPtv f)).1.set .pGlobal (.vec v)).1 ∧
    ((S.set .pGlobal (.vec v)).1.set .pGlobal (.vec v)).1 = (S.set .pGlobal (.vec v)).1 ∧
    ((S.set .pTimeVar (.mat o.nStages um.nPtv f)).1.set .pTimeVar (.mat o.nStages um.nPtv f)).1
      = (S.set .pTimeVar (.mat o.nStages um.nPtv f)).1 := by
  have hi := hS.inv h
  obtain ⟨-, -, -, -, d5, d6, -⟩ := h.dims
  have ext : ∀ {A B : List (List ℝ)}, A.length = S.m.pVal.length → B.length = S.m.pVal.length →
      (∀ (k : Nat) r, S.m.pVal[k]? = some r → A[k]? = B[k]?) → A = B := by
    intro A B hA hB hk
    apply List.ext_getElem?
    intro k
    by_cases hlt : k < S.m.pVal.length
    · exact hk k _ (List.getElem?_eq_getElem hlt)
    · rw [List.getElem?_eq_none (by omega), List.getElem?_eq_none (by omega)]
  have hrow : ∀ (k : Nat) r, S.m.pVal[k]? = some r → r.length = um.nPtv + um.nPgl := by
    intro k r hr
    rw [← d5, ← d6]
    exact hi.pRow r (List.mem_of_getElem? hr)
  obtain ⟨T1, a1, a2, a3⟩ := C09_set_p_global h hS hv
  obtain ⟨T2, b1, b2, b3⟩ := C09_set_p_time_var h hS f
  have hS1 := hS.set .pGlobal (.vec v)
  have hS2 := hS.set .pTimeVar (.mat o.nStages um.nPtv f)
  rw [a1] at hS1
  rw [b1] at hS2
  obtain ⟨T12, c1, c2, c3⟩ := C09_set_p_time_var h hS1 f
  obtain ⟨T21, e1, e2, e3⟩ := C09_set_p_global h hS2 hv
  obtain ⟨T11, f1, f2, f3⟩ := C09_set_p_global h hS1 hv
  obtain ⟨T22, g1, g2, g3⟩ := C09_set_p_time_var h hS2 f
  rw [a1, b1]
  dsimp only
  rw [c1, e1, f1, g1]
  dsimp only
  have n1 : (S.setPVal T1).m.pVal = T1 := rfl
  have n2 : (S.setPVal T2).m.pVal = T2 := rfl
  rw [n1] at c2 c3 f2 f3
  rw [n2] at e2 e3 g2 g3
  have t1 : T12 = T21 := by
    refine ext (by omega) (by omega) fun k r hr => ?_
    have hl := hrow k r hr
    rw [c3 k _ (a3 k r hr), e3 k _ (b3 k r hr), List.drop_left' (by simp; omega),
      List.take_left' (by simp)]
  have t2 : T11 = T1 := by
    refine ext (by omega) (by omega) fun k r hr => ?_
    have hl := hrow k r hr
    rw [f3 k _ (a3 k r hr), a3 k r hr, List.take_left' (by simp; omega)]
  have t3 : T22 = T2 := by
    refine ext (by omega) (by omega) fun k r hr => ?_
    rw [g3 k _ (b3 k r hr), b3 k r hr, List.drop_left' (by simp)]
  rw [t1, t2, t3]
  exact ⟨rfl, rfl, rfl⟩

/-! ### C26 -/

/-- Stewart: the smallest indicator value is attained. -/
theorem exists_min {n : Nat} (g : Fin n → ℝ) (hn : 0 < n) : ∃ j, g j = ⨅ i, g i := by
  haveI : Nonempty (Fin n) := ⟨⟨0, hn⟩⟩
  exact exists_eq_ciInf_of_finite

theorem stewart_lam_unique {n : Nat} {g θ lam : Fin n → ℝ} {mu : ℝ} (hn : 0 < n)
    (h : StewartStage g θ lam mu) (i : Fin n) : lam i = g i - ⨅ j, g j := by
  haveI : Nonempty (Fin n) := ⟨⟨0, hn⟩⟩
  obtain ⟨j, hj⟩ : ∃ j, 0 < θ j := by
    by_contra hc
    push Not at hc
    have : ∑ i, θ i ≤ 0 := Finset.sum_nonpos fun i _ => hc i
    rw [h.sum] at this
    linarith
  have hlj : lam j = 0 := by
    have := h.compl j
    rcases mul_eq_zero.1 this with h0 | h0
    · rw [h0] at hj; exact absurd hj (lt_irrefl _)
    · exact h0
  have hmu : mu = -g j := by have := h.eq j; rw [hlj] at this; linarith
  have hmin : g j = ⨅ i, g i := by
    apply le_antisymm
    · apply le_ciInf
      intro i
      have h1 := h.eq i
      have h2 := h.lam_nonneg i
      linarith
    · exact ciInf_le (Set.finite_range g).bddBelow j
  have := h.eq i
  linarith

/-- C26: the initial multipliers computed from the current `x0` (with the initial algebraic variables
and the parameters of the first stage).  Stewart: they solve the stage conditions of every system
together with a suitable `θ` and `μ`, and they are the only ones; hence they are nonnegative and
complementary to every `θ` that is possible at the initial point.  Step: likewise, with `α`. -/
theorem C26_initial_multipliers (h : Setup colloc o um uo po m oc P)
    (hS : Reachable colloc o um uo orc S) (hr : Ready um S)
    (hini : S.initialize = (S1, .ok lam00)) :
    ∃ p0, S.m.pVal[0]? = some p0 ∧ lam00 = um.lam00List o.pss S.m.x0 S.m.z0 p0 ∧
      (o.pss = .stewart → ∀ s < um.nSys, 0 < (um.Fmat s).nCols →
        (∃ θ mu, StewartStage (fun i : Fin (um.Fmat s).nCols => um.gVal s i S.m.x0 S.m.z0 p0) θ
          (fun i => um.lam00St S.m.x0 S.m.z0 p0 s i) mu) ∧
        ∀ θ lam mu, StewartStage (fun i : Fin (um.Fmat s).nCols => um.gVal s i S.m.x0 S.m.z0 p0)
          θ lam mu → ∀ i, lam i = um.lam00St S.m.x0 S.m.z0 p0 s i ∧
            θ i * um.lam00St S.m.x0 S.m.z0 p0 s i = 0) ∧
      (o.pss = .step → ∀ s < um.nSys,
        (∃ α, StepStage (fun i : Fin (um.cVec s).len => (um.cVec s).entry i S.m.x0 S.m.z0 p0) α
          (fun i => um.lam00Neg S.m.x0 S.m.z0 p0 s i) (fun i => um.lam00Pos S.m.x0 S.m.z0 p0 s i)) ∧
        ∀ α lamN lamP, StepStage
          (fun i : Fin (um.cVec s).len => (um.cVec s).entry i S.m.x0 S.m.z0 p0) α lamN lamP →
          ∀ i, lamN i = um.lam00Neg S.m.x0 S.m.z0 p0 s i ∧
            lamP i = um.lam00Pos S.m.x0 S.m.z0 p0 s i) := by
  have hi := hS.inv h
  obtain ⟨p0, hp0, -, hv⟩ := initialize_val h hi hr.x0 hini
  have e1 : po.pss = o.pss := by rw [h.opts]
  refine ⟨p0, hp0, by rw [← e1, hi.z0]; exact hv, fun _ s hs hn => ?_, fun _ s hs => ?_⟩
  · generalize hg : (fun i : Fin (um.Fmat s).nCols => um.gVal s i S.m.x0 S.m.z0 p0) = g
    have hl : ∀ i : Fin (um.Fmat s).nCols,
        um.lam00St S.m.x0 S.m.z0 p0 s i = g i - ⨅ j, g j := by
      intro i; rw [← hg]; rfl
    haveI : Nonempty (Fin (um.Fmat s).nCols) := ⟨⟨0, hn⟩⟩
    refine ⟨?_, fun θ lam mu hst i => ?_⟩
    · obtain ⟨j, hj⟩ := exists_min g hn
      refine ⟨fun i => if i = j then 1 else 0, -(⨅ i, g i), ⟨fun i => ?_, ?_, fun i => ?_,
        fun i => ?_, fun i => ?_⟩⟩
      · rw [hl]; ring
      · simp
      · split <;> norm_num
      · rw [hl]
        have := ciInf_le (Set.finite_range g).bddBelow i
        linarith
      · rw [hl]
        split
        · next hij => rw [hij, hj]; ring
        · ring
    · have hu := stewart_lam_unique hn hst i
      rw [hl, ← hu]
      exact ⟨rfl, hst.compl i⟩
  · refine ⟨⟨fun i => if 0 ≤ (um.cVec s).entry i S.m.x0 S.m.z0 p0 then 1 else 0,
      ⟨fun i => ?_, fun i => ?_, fun i => ?_, fun i => le_max_right _ _,
        fun i => le_max_right _ _, fun i => ?_, fun i => ?_⟩⟩, fun α lamN lamP hst i => ?_⟩
    all_goals try simp only [UserModel.lam00Neg, UserModel.lam00Pos]
    · rcases le_total 0 ((um.cVec s).entry i S.m.x0 S.m.z0 p0) with hc | hc
      · rw [max_eq_left hc, max_eq_right (by linarith)]; ring
      · rw [max_eq_right hc, max_eq_left (by linarith)]; ring
    · split <;> norm_num
    · split <;> norm_num
    · split
      · next hc => rw [max_eq_right (by linarith)]; ring
      · ring
    · split
      · ring
      · next hc => rw [max_eq_right (by linarith)]; ring
    · have h1 := hst.eq i
      have h2 := hst.lamN_nonneg i
      have h3 := hst.lamP_nonneg i
      have h4 := hst.compl_neg i
      have h5 := hst.compl_pos i
      rw [h1]
      rcases mul_eq_zero.1 h4 with h6 | h6
      · rw [h6] at h5
        have h7 : lamP i = 0 := by linarith
        rw [h7]
        constructor
        · rw [max_eq_left (by linarith)]; ring
        · rw [max_eq_right (by linarith)]
      · rw [h6]
        constructor
        · rw [max_eq_right (by linarith)]
        · rw [max_eq_left (by linarith)]; ring

/-! ### The hypotheses are met -/

/-- The demo problem meets the hypotheses of C08, C09 and C26 in both modes (it has one switching
system, a time-varying and a global parameter). -/
example (pss : PssMode) : ∃ po m oc P S S1 lam00,
    Setup demoColloc { Opts.default with pss := pss } demoModel (some demoOcp) po m oc P ∧
    Solver.create demoColloc { Opts.default with pss := pss } demoModel (some demoOcp) = .ok S ∧
    Reachable demoColloc { Opts.default with pss := pss } demoModel (some demoOcp) echoOracle S ∧
    Ready demoModel S ∧ S.initialize = (S1, .ok lam00) ∧ demoModel.nSys ≤ 1 ∧
    (Op.set .pGlobal (.vec [5])).ParamsOk 1 demoModel.nPtv demoModel.nPgl ∧
    (Op.set .pTimeVar (.mat 1 1 fun _ _ => 5)).ParamsOk 1 demoModel.nPtv demoModel.nPgl ∧
    0 < demoModel.nSys ∧ 0 < (demoModel.Fmat 0).nCols := by
  obtain ⟨po, m, oc, P, h, -⟩ := demo_setup (o := { Opts.default with pss := pss })
    (by constructor <;> simp [Opts.default, Opts.nfeAfter])
  obtain ⟨h1, h2, h3⟩ := h.toSetup.create echoOracle (by simp [Opts.default])
  obtain ⟨w0, lam00, h4, -⟩ := C54_initialise_writes_x0 h.toSetup h2 h3 Nat.one_pos (.inl rfl)
  exact ⟨po, m, oc, P, _, _, lam00, h.toSetup, h1, h2, h3, h4, le_rfl, ⟨_, rfl, rfl⟩,
    ⟨_, rfl⟩, Nat.one_pos, Nat.two_pos⟩

end
end Nosnoc
