import Verif.Props.Results
import Verif.Props.Dynamics
import Verif.Proofs.CompBind
import Verif.Proofs.Cross
import Verif.Proofs.OptsEq
import Verif.Proofs.Cost
import Verif.Witness.Euler
/-
C35-C38: path complementarities, path constraints, terminal constraint and cost.
-/
namespace Nosnoc
open Finset

section
variable {colloc : IrkScheme → Nat → List ℝ} {o : Opts} {um : UserModel} {uo : Option UserOcp}
  {po : PreOpts} {m : PreModel} {oc : PreOcp} {P : Problem} {env : Env}

/-- What the MPCC mode makes of the path complementarity `a ⟂ b` of row `r` when its expressions
are evaluated at state `x`, control `u`, algebraic variables `z`, parameters `p` and global
variables `v`. -/
def PathComp.Holds (r : PathComp) (po : PreOpts) (env : Env) (x u z p v : List ℝ) : Prop :=
  Compl po env [r.a x u z p v] (r.b x u z p v)

/-! ### C35 -/

/-- C35: every stage-dependent path complementarity is imposed at every Runge-Kutta stage of every
finite element. -/
theorem C35_stage (h : SetupEx colloc o um uo po m oc P) (hf : P.form.Feasible env)
    {r : PathComp} (hr : r ∈ (uo.getD UserOcp.trivial).gPathComp) (hd : r.dependsRk = true)
    {k e j : Nat} (hk : HasFE po k e) (hj : j < o.nS) :
    r.Holds po env (xVal po m.dims k e j env) (uVal m.dims k env) (zVal m.dims k e j env)
      (pVal m.dims k env) (vVal m.dims env) :=
  (h.spec hf).stageComp k e hk j (by rw [h.e_nS]; exact hj) r
    (List.mem_filter.2 ⟨hr, by simpa using hd⟩)

/-- C35: every control-dependent path complementarity is imposed in every control stage, provided
all entries of `Nfe_list` equal `N_finite_elements`.  Without this restriction it is false
(`C35_ctrl_violated`). -/
theorem C35_ctrl_partial (h : SetupEx colloc o um uo po m oc P) (hf : P.form.Feasible env)
    (hN : ∀ k < o.nStages, o.nfeAfter[k]? = some o.nFe)
    {r : PathComp} (hr : r ∈ (uo.getD UserOcp.trivial).gPathComp) (hd : r.dependsRk = false)
    (hc : r.dependsCtrl = true) {k : Nat} (hk : k < o.nStages) (x z : List ℝ) :
    r.Holds po env x (uVal m.dims k env) z (pVal m.dims k env) (vVal m.dims env) := by
  have hk' : k < po.nStages := by rw [h.e_nStages]; exact hk
  have hn : nfe po k = po.nFe := by
    rw [h.e_nFe]
    simp only [nfe, List.getD_eq_getElem?_getD]
    rw [h.e_nfeList, hN k hk]
    rfl
  have hpos := h.toSetup.nfe_pos k hk'
  have := (h.spec hf).ctrlComp k (po.nFe - 1) ⟨hk', by omega⟩ (by omega) r
    (List.mem_filter.2 ⟨hr, by simp [hd, hc]⟩)
  unfold PathComp.Holds
  rw [((h.sound r hr).stage hd x [] _ z [] _ _).1, ((h.sound r hr).stage hd x [] _ z [] _ _).2]
  exact this

/-- C35: with the default (empty) `Nfe_list` the hypothesis of `C35_ctrl_partial` holds. -/
theorem nfeAfter_default (he : o.nfeList = []) : ∀ k < o.nStages, o.nfeAfter[k]? = some o.nFe := by
  intro k hk
  simp [Opts.nfeAfter, he, hk]

/-- C35: every path complementarity that depends on neither is imposed (once), with the global
parameters. -/
theorem C35_global (h : SetupEx colloc o um uo po m oc P) (hf : P.form.Feasible env)
    {r : PathComp} (hr : r ∈ (uo.getD UserOcp.trivial).gPathComp) (hd : r.dependsRk = false)
    (hc : r.dependsCtrl = false) (x u z ptv : List ℝ) (hp : ptv.length = m.dims.nPtv) :
    r.Holds po env x u z (ptv ++ pGlobVal m.dims 0 env) (vVal m.dims env) := by
  have := (h.spec hf).globComp r (List.mem_filter.2 ⟨hr, by simp [hd, hc]⟩)
  have s1 := (h.sound r hr).stage hd x [] u z [] (ptv ++ pGlobVal m.dims 0 env) (vVal m.dims env)
  have s2 := (h.sound r hr).ctrl hd hc [] u [] [] (ptv ++ pGlobVal m.dims 0 env)
    (List.replicate m.dims.nPtv 0 ++ pGlobVal m.dims 0 env) (vVal m.dims env)
    (by rw [List.drop_left' hp, List.drop_left' (by simp)]) (by simp [hp])
  unfold PathComp.Holds
  rw [s1.1, s1.2, s2.1, s2.2]
  exact this

/-! ### C36 -/

/-- C36: a `g_path_comp` matrix whose width is not 2 is rejected with ValueError. -/
theorem C36_width_rejected {u : UserOcp} (hw : u.gPathCompWidth ≠ 2) (m : PreModel) :
    u.preprocess m = .error .valueError := by
  unfold UserOcp.preprocess check
  rw [if_neg hw]
  rfl

/-- C36: the three functions the code generates contain, in their original order, exactly the rows
that depend on `x` or `z`; else on `u` or `p_time_var`; else the rest.  `sel` is either column. -/
theorem C36_classification {u : UserOcp} (h : u.preprocess m = .ok oc) (env : Env) :
    u.gPathCompWidth = 2 ∧
    (let at' (f : (x u z p v : List ℝ) → ℝ) : ℝ := f (m.dims.mX.map env) (m.dims.mU.map env)
        (m.dims.mZ.map env) (m.dims.mP.map env) (m.dims.mV.map env)
     evalVec oc.gRkFun.1.outs env = (u.gPathComp.filter fun r => r.dependsRk).map (fun r => at' r.a) ∧
     evalVec oc.gRkFun.2.outs env = (u.gPathComp.filter fun r => r.dependsRk).map (fun r => at' r.b) ∧
     evalVec oc.gCtrlFun.1.outs env
       = (u.gPathComp.filter fun r => !r.dependsRk && r.dependsCtrl).map (fun r => at' r.a) ∧
     evalVec oc.gCtrlFun.2.outs env
       = (u.gPathComp.filter fun r => !r.dependsRk && r.dependsCtrl).map (fun r => at' r.b) ∧
     evalVec oc.gGlobalFun.1.outs env
       = (u.gPathComp.filter fun r => !r.dependsRk && !r.dependsCtrl).map (fun r => at' r.a) ∧
     evalVec oc.gGlobalFun.2.outs env
       = (u.gPathComp.filter fun r => !r.dependsRk && !r.dependsCtrl).map (fun r => at' r.b)) := by
  have hp := preprocess_ocp h
  have hw : u.gPathCompWidth = 2 := by
    by_contra hw
    rw [C36_width_rejected hw m] at h
    cases h
  refine ⟨hw, ?_⟩
  rw [hp.gRk, hp.gCtrl, hp.gGlob, splitComps_eq]
  simp [compCol, evalVec, List.map_map, Function.comp_def]

/-- C36: every row goes to exactly one of the three categories. -/
theorem C36_partition (rows : List PathComp) :
    List.Perm rows ((splitComps rows).stage ++ ((splitComps rows).ctrl ++ (splitComps rows).global)) ∧
    (splitComps rows).stage.Sublist rows ∧ (splitComps rows).ctrl.Sublist rows ∧
    (splitComps rows).global.Sublist rows ∧
    (∀ r ∈ (splitComps rows).stage, r.dependsRk = true) ∧
    (∀ r ∈ (splitComps rows).ctrl, r.dependsRk = false ∧ r.dependsCtrl = true) ∧
    (∀ r ∈ (splitComps rows).global, r.dependsRk = false ∧ r.dependsCtrl = false) := by
  rw [splitComps_eq]
  refine ⟨?_, List.filter_sublist, List.filter_sublist, List.filter_sublist, ?_, ?_, ?_⟩
  · dsimp only
    have h1 := (List.filter_append_perm (fun r : PathComp => r.dependsRk) rows).symm
    refine h1.trans (List.Perm.append_left _ ?_)
    have h2 := (List.filter_append_perm (fun r : PathComp => r.dependsCtrl)
      (rows.filter fun r => !r.dependsRk)).symm
    refine h2.trans ?_
    rw [List.filter_filter, List.filter_filter]
    simp only [Bool.and_comm]
    exact List.Perm.refl _
  · simp
  · simp
  · simp

/-! ### C37 -/

/-- C37: the path constraints hold at the end of every control stage. -/
theorem C37_stage_end (h : SetupEx colloc o um uo po m oc P) (hf : P.form.Feasible env)
    {k : Nat} (hk : k < o.nStages) :
    PathSat (uo.getD UserOcp.trivial) m.dims k (xEndVal po m.dims k (nfe po k - 1) env) env := by
  have hk' : k < po.nStages := by rw [h.e_nStages]; exact hk
  have hpos := h.toSetup.nfe_pos k hk'
  have hF : HasFE po k (nfe po k - 1) := ⟨hk', by omega⟩
  have := (h.spec hf).pathEnd k _ hF (.inl (by omega))
  cases hb : po.rbe
  · simpa [hb] using this
  · rw [hb, if_pos rfl, h.e_nS, C16_last_stage_is_end h hf hb hF] at this
    exact this

/-- C37: with `g_path_at_fe` they hold at the end of every finite element. -/
theorem C37_fe_end (h : SetupEx colloc o um uo po m oc P) (hf : P.form.Feasible env)
    (hg : o.gPathAtFe = true) {k e : Nat} (hk : HasFE po k e) :
    PathSat (uo.getD UserOcp.trivial) m.dims k (xEndVal po m.dims k e env) env := by
  have := (h.spec hf).pathEnd k _ hk (.inr (by rw [h.e_gPathAtFe]; exact hg))
  cases hb : po.rbe
  · simpa [hb] using this
  · rw [hb, if_pos rfl, h.e_nS, C16_last_stage_is_end h hf hb hk] at this
    exact this

/-- C37: with `g_path_at_stg` they hold at every stage, except for the last stage of the elements
that are not the last of their control stage, if the scheme ends in 1 and `g_path_at_fe` is off.
For those it is false (`C37_stage_violated`). -/
theorem C37_stage_partial (h : SetupEx colloc o um uo po m oc P) (hf : P.form.Feasible env)
    (hg : o.gPathAtStg = true) {k e j : Nat} (hk : HasFE po k e) (hj : j < o.nS)
    (hex : po.rbe = false ∨ j + 1 < o.nS ∨ o.gPathAtFe = true ∨ e + 1 = nfe po k) :
    PathSat (uo.getD UserOcp.trivial) m.dims k (xVal po m.dims k e j env) env := by
  have hst := (h.spec hf).pathStage (by rw [h.e_gPathAtStg]; exact hg) k e hk j
  rw [h.e_nS] at hst
  cases hb : po.rbe
  · exact hst (by rw [hb]; simpa using hj)
  · by_cases hl : j + 1 < o.nS
    · exact hst (by rw [hb]; simp; omega)
    · have hj' : j = o.nS - 1 := by omega
      subst hj'
      rw [hb] at hex
      have := (h.spec hf).pathEnd k e hk (by
        rcases hex with hc | hc | hc | hc
        · cases hc
        · exact absurd hc hl
        · exact .inr (by rw [h.e_gPathAtFe]; exact hc)
        · exact .inl hc)
      rw [hb, if_pos rfl, h.e_nS] at this
      exact this

/-! ### C38 -/

/-- C38: every feasible point satisfies the terminal constraint at the reported final state
`x_out`, with the parameters of the last control stage and the reported global variables. -/
theorem C38_terminal_constraint (h : SetupEx colloc o um uo po m oc P)
    (hL : o.nfeAfter.length = o.nStages) {w p x0 : List ℝ} {r : Results}
    (hw : w.length = P.form.w.length) (hr : getResults po x0 P w = .ok r)
    (hf : P.form.Feasible (P.point w p)) :
    ∃ v, r.vGlobal = [v] ∧ ∀ i < (uo.getD UserOcp.trivial).nGTerminal,
      (uo.getD UserOcp.trivial).gTerminal i r.xOut
        (pVal m.dims (o.nStages - 1) (P.point w p)) v = 0 := by
  have R := C58_results_meaning h.toSetup hL hw hr p
  refine ⟨_, R.v, fun i hi => ?_⟩
  rw [R.xOut, ← h.e_nStages]
  exact (h.spec hf).term i hi

/-- C38: the terminal cost in the objective is `f_terminal` at the reported final state. -/
theorem C38_terminal_cost (h : SetupEx colloc o um uo po m oc P)
    (hL : o.nfeAfter.length = o.nStages) {w p x0 : List ℝ} {r : Results}
    (hw : w.length = P.form.w.length) (hr : getResults po x0 P w = .ok r) :
    ∃ v, r.vGlobal = [v] ∧
      ∀ env', env' = P.point w p → ∀ total,
      total = runningCost po m.dims (uo.getD UserOcp.trivial) env' + stepCosts po m.dims env'
          + (uo.getD UserOcp.trivial).fTerminal r.xOut (pVal m.dims (o.nStages - 1) env') v →
      P.form.cost env' =
        if o.mpcc = .elasticIneq ∨ o.mpcc = .elasticEq ∨ o.mpcc = .elasticTwoSided then
          if o.objScalingDirect then total + 1 / env' .sigma * env' .sElastic
          else env' .sigma * total + env' .sElastic
        else total := by
  have R := C58_results_meaning h.toSetup hL hw hr p
  refine ⟨_, R.v, ?_⟩
  rintro env' rfl total rfl
  rw [h.toSetup.built.cost h.exact', R.xOut, ← h.e_nStages, ← h.e_mpcc, ← h.e_objScalingDirect]
  rfl

end

/-! ### Witnesses -/

/-- An ocp with a path constraint `x = 0`, a terminal constraint `x = 0`, and the path
complementarities `x ⟂ 1`, `u ⟂ 1`, `v ⟂ 1`. -/
noncomputable def pathOcp : UserOcp :=
  { UserOcp.trivial with
    nGPath := 1
    gPath := fun _ x _ _ _ => x.getD 0 0
    nGTerminal := 1
    gTerminal := fun _ x _ _ => x.getD 0 0
    fTerminal := fun x _ v => x.getD 0 0 + v.getD 0 0
    gPathComp := [⟨fun x _ _ _ _ => x.getD 0 0, fun _ _ _ _ _ => 1, true, false⟩,
      ⟨fun _ u _ _ _ => u.getD 0 0, fun _ _ _ _ _ => 1, false, true⟩,
      ⟨fun _ _ _ _ v => v.getD 0 0, fun _ _ _ _ _ => 1, false, false⟩] }

theorem pathOcp_sound : ∀ r ∈ pathOcp.gPathComp, r.Sound flexDims := by
  intro r hr
  simp only [pathOcp, List.mem_cons, List.not_mem_nil, or_false] at hr
  rcases hr with rfl | rfl | rfl <;> constructor <;> simp

theorem pathOcp_pre (m : PreModel) (hm : m.dims = flexDims) : ∃ oc, pathOcp.preprocess m = .ok oc := by
  unfold UserOcp.preprocess
  rw [hm]
  exact ⟨_, rfl⟩

/-- Options: `Nfe_list = l` while `N_finite_elements = 2`; DIFFERENTIAL_LIFT_X, Radau, one stage;
no FESD; path constraints at stages as given. -/
noncomputable def pathOpts (l : List Nat) (atStg : Bool) : Opts :=
  { Opts.default with
    nfeList := l, nS := 1, irkRep := .differentialLiftX, useFesd := false, gPathAtStg := atStg }

theorem pathOpts_setup {l : List Nat} {g : Bool} (hl : l = [] ∨ l = [1]) : ∃ po m oc P,
    SetupEx oneColloc (pathOpts l g) flexModel (some pathOcp) po m oc P ∧ m.dims = flexDims ∧
    po.rbe = true ∧ po.aIrk 0 0 = 1 := by
  obtain ⟨po, m, oc, P, h, hd⟩ := flex_setup (o := pathOpts l g) (colloc := oneColloc) (uo := pathOcp)
    (by constructor <;> (try simp [pathOpts, Opts.default, Opts.nfeAfter]) <;>
        rcases hl with rfl | rfl <;> simp)
    (flex_preOpts (by simp [pathOpts, Opts.default]) (.inr ⟨radau1, rfl, by simp [radau1]⟩))
    pathOcp_sound pathOcp_pre
  refine ⟨po, m, oc, P, h, hd, ?_, ?_⟩
  · exact (h.toSetup.built.opts.rbe_iff (by simp [pathOpts])).2 rfl
  · obtain ⟨t, ht, hA, _⟩ := h.toSetup.built.opts.diff (by simp [pathOpts])
    have h2 : generateButcher (pathOpts l g).nS (pathOpts l g).scheme = .ok radau1 := rfl
    rw [h2] at ht
    cases ht
    rw [hA]; norm_num [matFun, radau1]

/-- Feasibility of `eulerPt` for these options. -/
theorem pathOpts_feasible {l : List Nat} {g : Bool} (hl : l = [] ∨ l = [1]) {po m oc P}
    (h : SetupEx oneColloc (pathOpts l g) flexModel (some pathOcp) po m oc P)
    (hd : m.dims = flexDims) (hrbe : po.rbe = true) (hA : po.aIrk 0 0 = 1)
    (X : Nat → Nat → ℝ) (V : Nat → Nat → ℝ) (u : Nat → ℝ) {v σ : ℝ} (hσ : 0 ≤ σ) (hv : v ≤ σ)
    (hX : ∀ e, X 0 e ≤ σ)
    (hstep : ∀ e, e < nfe po 0 → X 0 e = (if e = 0 then 0 else X 0 (e - 1))
      + 1 / nfe po 0 * V 0 e)
    (hend : X 0 (nfe po 0 - 1) = 0) (hu : nfe po 0 = 2 → u 0 ≤ σ) :
    P.form.Feasible (eulerPt X V (fun _ _ => 0) u v σ).env := by
  have e1 : po.irkRep = .differentialLiftX := h.e_irkRep
  have e2 : po.nStages = 1 := h.e_nStages
  have e3 : po.useFesd = false := h.e_useFesd
  have e4 : po.pss = .stewart := h.e_pss
  have e6 : po.nS = 1 := h.e_nS
  have e7 : po.terminalTime = 1 := h.e_terminalTime
  have e8 : po.sot = .none := h.e_sot
  have e9 : po.mpcc = .scholtesIneq := h.e_mpcc
  have e10 : po.gPathAtFe = false := h.e_gPathAtFe
  have e11 : po.timeFreezing = false := h.e_timeFreezing
  have e12 : po.nFe = 2 := h.e_nFe
  have e16 : po.sElasticMin = 0 := h.e_sElasticMin
  have e17 : po.sElasticMax = 10 := h.e_sElasticMax
  have hown : ownEnd po = false := by simp [ownEnd, e1, hrbe]
  have hk0 : ∀ k e, HasFE po k e → k = 0 := fun k e hk => by have := hk.1; omega
  rw [h.iff (by simp [pathOpts, Opts.default]), hd]
  show FeasibleSpec po flexDims flexModel pathOcp _
  have nf : po.useFesd = true → False := fun hc => absurd (e3.symm.trans hc) (by decide)
  refine euler_spec e4 e8 e1 e6 hrbe hA e11 e9 hσ rfl rfl rfl rfl rfl rfl (by rw [e16, e17]; norm_num)
    ?_ (fun hc => (nf hc).elim) ?_ ?_ ?_ ?_ (fun hc => (nf hc).elim) (fun hc => (nf hc).elim)
    (fun hc => (nf hc).elim) (fun hc => by omega) ?_
  · intro k e hk
    obtain rfl := hk0 k e hk
    have hs : (eulerPt X V (fun _ _ => 0) u v σ).env (startX po 0 e 0)
        = if e = 0 then 0 else X 0 (e - 1) := by
      by_cases he : e = 0
      · subst he; rfl
      · have hpf : prevFe po 0 e = some (0, e - 1) := by
          unfold prevFe; rw [if_pos (by omega)]
        rw [if_neg he]
        unfold startX
        rw [hpf]
        simp only [endX, hown]
        rfl
    rw [hs, hstep e hk.2]
    simp [hVal, e3, nominalH, e7, e2, const]
  · intro k e hk he
    obtain rfl := hk0 k e hk
    have he : e = nfe po 0 - 1 := by
      rcases he with he | he
      · omega
      · exact absurd (e10.symm.trans he) (by decide)
    subst he
    intro i hi
    simp [pathOcp, hend, getOr, UserOcp.trivial]
  · intro k e hk r hr
    obtain rfl := hk0 k e hk
    simp only [stageComps, pathOcp, List.filter_cons, List.filter_nil, if_true,
      List.mem_cons, List.not_mem_nil, or_false, Bool.false_eq_true, if_false] at hr
    subst hr
    simpa using hX e
  · intro k e hk he r hr
    obtain rfl := hk0 k e hk
    simp [ctrlComps, pathOcp] at hr
    subst hr
    have hnf : nfe po 0 = 2 := by
      have h1 := hk.2
      have h2 : nfe po 0 = 2 ∨ nfe po 0 = 1 := by
        have h5 : po.nfeList = (pathOpts l g).nfeAfter := h.e_nfeList
        rcases hl with rfl | rfl
        · left; simp [nfe, h5, pathOpts, Opts.nfeAfter, Opts.default]
        · right; simp [nfe, h5, pathOpts, Opts.nfeAfter]
      omega
    simpa using hu hnf
  · intro r hr
    simp [globComps, pathOcp] at hr
    subst hr
    simpa using hv
  · intro i hi
    rw [e2]
    simpa [pathOcp] using hend

/-- The hypotheses of C35, C37 and C38 are met by a problem with all kinds of constraints. -/
example : ∃ po m oc P env,
    SetupEx oneColloc (pathOpts [] true) flexModel (some pathOcp) po m oc P ∧
    P.form.Feasible env ∧ (∀ k < (pathOpts [] true).nStages,
      (pathOpts [] true).nfeAfter[k]? = some (pathOpts [] true).nFe) ∧
    (pathOpts [] true).gPathAtStg = true ∧ HasFE po 0 1 ∧ 0 < (pathOpts [] true).nS := by
  obtain ⟨po, m, oc, P, h, hd, hrbe, hA⟩ := pathOpts_setup (g := true) (.inl rfl)
  refine ⟨po, m, oc, P, _, h, pathOpts_feasible (.inl rfl) h hd hrbe hA (fun _ _ => 0) (fun _ _ => 0)
    (fun _ => 0) (le_refl 0) (le_refl 0) (by simp) (by simp) rfl (by simp),
    nfeAfter_default rfl, rfl, ⟨?_, ?_⟩, by decide⟩
  · rw [h.e_nStages]; decide
  · have : po.nfeList = [2] := h.e_nfeList
    simp [nfe, this]

/-- C35 fails for control-dependent path complementarities when `Nfe_list` differs from
`N_finite_elements`: `u ⟂ 1` is never imposed, and `u = 1` is feasible at `σ = 0`. -/
theorem C35_ctrl_violated : ∃ po m oc P env r,
    SetupEx oneColloc (pathOpts [1] false) flexModel (some pathOcp) po m oc P ∧
    P.form.Feasible env ∧ r ∈ pathOcp.gPathComp ∧ r.dependsRk = false ∧ r.dependsCtrl = true ∧
    env .sigma = 0 ∧
    ¬ r.Holds po env [] (uVal m.dims 0 env) [] (pVal m.dims 0 env) (vVal m.dims env) := by
  obtain ⟨po, m, oc, P, h, hd, hrbe, hA⟩ := pathOpts_setup (l := [1]) (g := false) (.inr rfl)
  have hn : nfe po 0 = 1 := by
    have : po.nfeList = [1] := h.e_nfeList
    simp [nfe, this]
  have e9 : po.mpcc = .scholtesIneq := h.e_mpcc
  refine ⟨po, m, oc, P, _, _, h, pathOpts_feasible (.inr rfl) h hd hrbe hA (fun _ _ => 0) (fun _ _ => 0)
    (fun _ => 1) (le_refl 0) (le_refl 0) (by simp) (by simp) rfl (by simp [hn]),
    List.mem_cons_of_mem _ List.mem_cons_self, rfl, rfl, rfl, ?_⟩
  rw [hd]
  unfold PathComp.Holds Compl CompSat
  simp only [e9]
  intro hc
  have : ((1 : ℝ) + 0) * 1 ≤ 0 := hc
  norm_num at this

/-- C37 fails at the last stage of the first of two elements: with `g_path_at_stg` and a Radau scheme
the path constraint `x = 0` is not imposed there, and `x = 1` is feasible. -/
theorem C37_stage_violated : ∃ po m oc P env,
    SetupEx oneColloc (pathOpts [] true) flexModel (some pathOcp) po m oc P ∧
    P.form.Feasible env ∧ (pathOpts [] true).gPathAtStg = true ∧ HasFE po 0 0 ∧
    0 < (pathOpts [] true).nS ∧
    ¬ PathSat pathOcp m.dims 0 (xVal po m.dims 0 0 0 env) env := by
  obtain ⟨po, m, oc, P, h, hd, hrbe, hA⟩ := pathOpts_setup (l := []) (g := true) (.inl rfl)
  have hn : nfe po 0 = 2 := by
    have : po.nfeList = [2] := h.e_nfeList
    simp [nfe, this]
  refine ⟨po, m, oc, P, _, h, pathOpts_feasible (.inl rfl) h hd hrbe hA
    (fun _ e => if e = 0 then 1 else 0) (fun _ e => if e = 0 then 2 else -2)
    (fun _ => 0) (σ := 1) (v := 0) (by norm_num) (by norm_num) ?_ ?_ ?_ (by simp), rfl, ⟨?_, ?_⟩, by decide, ?_⟩
  · intro e; split <;> norm_num
  · intro e he
    rw [hn] at he ⊢
    have : e = 0 ∨ e = 1 := by omega
    rcases this with rfl | rfl <;> norm_num
  · rw [hn]; norm_num
  · rw [h.e_nStages]; decide
  · omega
  · rw [hd, euler_xVal h.e_irkRep]
    intro hc
    have := (hc 0 (by decide)).2
    simp [pathOcp, UserOcp.trivial, getOr] at this
    exact absurd this (by norm_num)

end Nosnoc
