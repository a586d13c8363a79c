import Verif.Proofs.Size
import Verif.Proofs.CompRows
import Verif.Spec.Setup
import Verif.Witness.Setups
/-
C01 - C07: layout of the generated problem.
-/
namespace Nosnoc
section
variable {colloc : IrkScheme → Nat → List ℝ} {o : Opts} {um : UserModel} {uo : Option UserOcp}
  {po : PreOpts} {m : PreModel} {oc : PreOcp} {P : Problem}

theorem Setup.built (h : Setup colloc o um uo po m oc P) : Built colloc o um uo po m oc P :=
  construct_built h.ok h.nS

/-- The preprocessed options are the user's, with `max_iter_homotopy` and `Nfe_list` filled in. -/
theorem Setup.opts (h : Setup colloc o um uo po m oc P) :
    po.toOpts = { o with maxIterHomotopy := po.maxIterHomotopy, nfeList := o.nfeAfter } :=
  h.built.opts.toOpts

theorem SetupEx.exact' (h : SetupEx colloc o um uo po m oc P) :
    po.constraintHandling = .exact := by rw [h.toSetup.opts]; exact h.exact

/-- The dimensions used by all specifications are those of the user's model. -/
theorem Setup.dims (h : Setup colloc o um uo po m oc P) :
    m.dims.nX = um.nX ∧ m.dims.nU = um.nU ∧ m.dims.nZ = um.nZ ∧ m.dims.nV = um.nV ∧
    m.dims.nPtv = um.nPtv ∧ m.dims.nPgl = um.nPgl ∧ m.dims.nSys = um.nSys ∧
    (po.pss = .stewart → ∀ s < um.nSys, m.dims.nF s = (um.Fmat s).nCols) ∧
    (po.pss = .step → ∀ s < um.nSys, m.dims.nC s = (um.cVec s).len) := by
  obtain ⟨nC, nF, g, up, f0, acc, hp⟩ := h.built.pre
  have hd := hp.udata h.built.ocp
  refine ⟨?_, ?_, ?_, ?_, ?_, ?_, ?_, hd.nF, hd.nC⟩ <;> rw [hp.dims] <;> rfl

/-! ### C01 -/

/-- C01: the index lists contain every position of `w` exactly once and nothing else; no variable
occurs twice in `w`. -/
theorem C01_index_lists_partition (h : Setup colloc o um uo po m oc P) :
    P.allIndices.Perm (List.range P.form.w.length) ∧ P.form.w.Nodup := by
  have hb := h.built
  have hx := hb.data.fe hb.ok.primal
  rw [hb.eq]
  refine ⟨problemOf_perm hb.nS hx hb.funs hb.ok.aug _, ?_⟩
  show (lsqForm po (form5 po m oc)).w.Nodup
  rw [lsqForm_w]
  exact form5_w_nodup hx hb.funs hb.ok.aug

/-- C01, read as a statement about positions: each is named by exactly one entry. -/
theorem C01_each_position_once (h : Setup colloc o um uo po m oc P) (i : Nat) :
    P.allIndices.count i = if i < P.form.w.length then 1 else 0 := by
  rw [(C01_index_lists_partition h).1.count_eq]
  split
  · rename_i hi
    exact List.count_eq_one_of_mem List.nodup_range (List.mem_range.2 hi)
  · rename_i hi
    exact List.count_eq_zero.2 (by simpa using hi)

/-! ### C02 -/

/-- C02: every index list names the documented variables (`IndexSpec`). -/
theorem C02_index_lists_name (h : Setup colloc o um uo po m oc P) : IndexSpec po m.dims P := by
  have hb := h.built
  rw [hb.eq]
  exact problemOf_names hb.nS (hb.data.fe hb.ok.primal) hb.funs hb.ok.aug _

theorem forall₂_range_get {α : Type} {R : α → Nat → Prop} {l : List α} {n : Nat}
    (h : List.Forall₂ R l (List.range n)) {k : Nat} (hk : k < n) :
    ∃ a, l[k]? = some a ∧ R a k := by
  have hl : l.length = n := by simpa using h.length_eq
  have := (List.forall₂_iff_get.1 h).2 k (by omega) (by simpa using hk)
  exact ⟨l[k], by simp [hl, hk], by simpa using this⟩

theorem forall₂_map_get {α β : Type} {R : α → β → Prop} {l : List α} {n : Nat} {f : Nat → β}
    (h : List.Forall₂ R l ((List.range n).map f)) {k : Nat} (hk : k < n) :
    ∃ a, l[k]? = some a ∧ R a (f k) := by
  rw [List.forall₂_map_right_iff] at h
  exact forall₂_range_get h hk

/-- C02, one family spelled out: `w[ind_theta[k][e][j][s]]` is the vector of convex multipliers of
system `s` at stage `j` of element `e` of control stage `k`. -/
theorem C02_ind_theta (h : Setup colloc o um uo po m oc P) (hp : o.pss = .stewart)
    {k e j s i : Nat} (hk : k < o.nStages) (he : e < nfe po k) (hj : j < o.nS) (hs : s < um.nSys)
    (hi : i < (um.Fmat s).nCols) :
    ∃ row fi ps ix n, P.idx[k]? = some row ∧ row[e]? = some fi ∧ (fi.two .theta)[j]? = some ps ∧
      ps[s]? = some ix ∧ ix[i]? = some n ∧ P.form.w[n]? = some (.st2 .theta k e j s i) := by
  have hS := C02_index_lists_name h
  have eo := h.opts
  have hpp : po.pss = .stewart := by rw [eo]; exact hp
  obtain ⟨_, _, _, _, _, _, d7, d8, _⟩ := h.dims
  obtain ⟨row, h1, hrow⟩ := forall₂_range_get hS.fe (k := k) (by rw [eo]; exact hk)
  obtain ⟨fi, h2, hfi⟩ := forall₂_range_get hrow he
  obtain ⟨ps, h3, hps⟩ := forall₂_map_get hfi.theta (k := j) (by rw [eo]; exact hj)
  obtain ⟨ix, h4, hix⟩ := forall₂_map_get hps (k := s) (by rw [d7]; exact hs)
  obtain ⟨n, h5, hn⟩ := forall₂_map_get hix (k := i) (by beta_reduce; rw [if_pos hpp, d8 hpp s hs]; exact hi)
  exact ⟨row, fi, ps, ix, n, h1, h2, h3, h4, h5, hn⟩

/-! ### C03 -/

/-- C03: the number of optimisation variables. -/
theorem C03_size (h : Setup colloc o um uo po m oc P) :
    P.form.w.length = decisionSize po m.dims (uo.getD UserOcp.trivial) := by
  have hb := h.built
  rw [hb.eq]
  show (lsqForm po (form5 po m oc)).w.length = _
  rw [lsqForm_w]
  exact form5_length (hb.data.fe hb.ok.primal) hb.funs hb.ok.aug hb.ocp

/-! ### C04 -/

theorem lsqForm_bounds (f : Form) : (lsqForm po f).lbw = f.lbw ∧ (lsqForm po f).ubw = f.ubw ∧
    (lsqForm po f).w0 = f.w0 := by unfold lsqForm; split <;> exact ⟨rfl, rfl, rfl⟩

/-- C04: `lbw`, `ubw`, `w0` hold, position by position, the documented bounds and guess of the
variable at that position. -/
theorem C04_bounds_and_guess (h : Setup colloc o um uo po m oc P) :
    P.form.lbw = P.form.w.map (fun s => (varDoc po um (uo.getD UserOcp.trivial) s).lb) ∧
    P.form.ubw = P.form.w.map (fun s => (varDoc po um (uo.getD UserOcp.trivial) s).ub) ∧
    P.form.w0 = P.form.w.map (fun s => (varDoc po um (uo.getD UserOcp.trivial) s).init) := by
  have hb := h.built
  obtain ⟨nC, nF, g, up, f0, acc, hp⟩ := hb.pre
  rw [hb.eq]
  show (lsqForm po (form5 po m oc)).lbw = (lsqForm po (form5 po m oc)).w.map _ ∧
    (lsqForm po (form5 po m oc)).ubw = (lsqForm po (form5 po m oc)).w.map _ ∧
    (lsqForm po (form5 po m oc)).w0 = (lsqForm po (form5 po m oc)).w.map _
  obtain ⟨h1, h2, h3⟩ := lsqForm_bounds (po := po) (form5 po m oc)
  rw [lsqForm_w, h1, h2, h3]
  exact form5_doc (hp.udata hb.ocp) (hb.data.fe hb.ok.primal) hb.funs hb.ok.aug

/-- C04: which variables there are (so the theorem above speaks about all of them): exactly the
documented ones, and the binary variables of the BOOLEAN mode. -/
theorem C04_variables (h : Setup colloc o um uo po m oc P) (s : Sym) :
    (IsVar po m.dims s → s ∈ P.form.w) ∧
    (s ∈ P.form.w → IsVar po m.dims s ∨ (po.mpcc = .boolean ∧
      ((∃ k e i, s = .boolFe k e i) ∨ ∃ i, s = .boolGlob i))) := by
  have hb := h.built
  have hx := hb.data.fe hb.ok.primal
  rw [hb.eq]
  show (_ → s ∈ (lsqForm po (form5 po m oc)).w) ∧ (s ∈ (lsqForm po (form5 po m oc)).w → _)
  rw [lsqForm_w]
  refine ⟨mem_form5_of_isVar hx hb.funs hb.ok.aug, fun hs => ?_⟩
  rcases isVar_of_form5 hx hb.funs hb.ok.aug hs with h' | ⟨h1, h2⟩
  · exact .inl h'
  · refine .inr ⟨h1, ?_⟩
    cases s <;> simp [IsBoolSym] at h2 ⊢

/-! ### C05 -/

/-- C05: `g`, `lbg`, `ubg` have equal length; `ind_comp` lists positions of `g`, each once. -/
theorem C05_constraints_aligned (h : Setup colloc o um uo po m oc P) :
    P.form.lbg.length = P.form.g.length ∧ P.form.ubg.length = P.form.g.length ∧
    P.compIndices.Nodup ∧
    (o.constraintHandling = .exact → ∀ i ∈ P.compIndices, i < P.form.g.length) := by
  have hb := h.built
  have he : o.constraintHandling = .exact → po.constraintHandling = .exact := by
    intro h'; rw [h.opts]; exact h'
  have hal : P.form.lbg.length = P.form.g.length ∧ P.form.ubg.length = P.form.g.length := by
    by_cases hc : po.constraintHandling = .exact
    · exact ⟨(hb.aligned hc).lbg, (hb.aligned hc).ubg⟩
    · rw [hb.eq]
      have : po.constraintHandling = .leastSquares := by
        cases h' : po.constraintHandling <;> simp_all
      simp [problemOf, lsqForm, this]
  exact ⟨hal.1, hal.2, hb.comp_sorted.imp fun h => Nat.ne_of_lt h, fun h' => hb.comp_lt (he h')⟩

/-- C05: the constraints at the positions in `ind_comp` are exactly the complementarity conditions
of the problem, the constraints at all other positions exactly the remaining conditions. -/
theorem C05_ind_comp (h : SetupEx colloc o um uo po m oc P) (hb : o.mpcc ≠ .boolean) (env : Env) :
    ((∀ i ∈ P.compIndices, RowHolds P.form env i) ↔
      ComplSpec po m.dims (uo.getD UserOcp.trivial) env) ∧
    ((∀ i < P.form.g.length, i ∉ P.compIndices → RowHolds P.form env i) ↔
      SmoothSpec po m.dims um (uo.getD UserOcp.trivial) env) := by
  have hB := h.toSetup.built
  exact ⟨hB.compl_iff h.exact' (by rw [h.toSetup.opts]; exact hb) h.sound,
    hB.smooth_iff h.exact' h.alpha⟩

/-- C05 in BOOLEAN mode (the complementarities involve binary variables, so only the other
constraints are described here; see C30 for the meaning of the boolean ones). -/
theorem C05_ind_comp_boolean (h : SetupEx colloc o um uo po m oc P) (env : Env) :
    (∀ i < P.form.g.length, i ∉ P.compIndices → RowHolds P.form env i) ↔
      SmoothSpec po m.dims um (uo.getD UserOcp.trivial) env :=
  h.toSetup.built.smooth_iff h.exact' h.alpha

/-! ### C06 -/

/-- C06: given that options, model and ocp pass their own checks (EXACT constraint handling), the
problem is built if and only if the data are consistent: at least one control stage, an initial
state of the right length, a positive number of finite elements for every control stage, a supported
speed-of-time mode, and not the one unsupported combination of complementarity options. -/
theorem C06_construct_iff (hi : um.initCheck = .ok ()) (ho : o.preprocess colloc = .ok po)
    (hm : um.preprocess po = .ok m) (hoc : (uo.getD UserOcp.trivial).preprocess m = .ok oc)
    (hn : 0 < o.nS) (ha : um.F.isSome = true → um.alpha = none)
    (he : o.constraintHandling = .exact) :
    (∃ P, construct colloc o um uo = .ok (po, m, oc, P)) ↔
      o.nStages ≠ 0 ∧ um.x0.length = um.nX ∧ o.sot ≠ .global ∧
      (∀ k < o.nStages, ∃ n, o.nfeAfter[k]? = some n ∧ 0 < n) ∧
      ¬ (o.mpcc = .fischerBurmeisterIpAug ∧ o.useFesd = true ∧ o.crossComp = .sumLambdas) := by
  have h1 := preprocess_opts ho
  obtain ⟨nC, nF, g, up, f0, acc, hp⟩ := preprocess_pre hm
  have h3 := preprocess_ocp hoc
  have e := h1.toOpts
  have hn' : 0 < po.nS := by rw [e]; exact hn
  have hc : ∀ P, construct colloc o um uo = .ok (po, m, oc, P) ↔
      BuildOk po m oc ∧ P = problemOf po m oc uo.isNone := by
    intro P
    rw [← build_iff hn' (hp.dataOk h3) (hp.funsOk h3)]
    unfold construct
    rw [hi, ho]
    simp only [ok_bind, hm, hoc, bind_eq_ok]
    constructor
    · rintro ⟨P', h1, h2⟩; cases h2; exact h1
    · intro h1; exact ⟨P, h1, rfl⟩
  have hB : BuildOk po m oc ↔ PrimalOk po m ∧ NoAugSum po :=
    ⟨fun h => ⟨h.primal, h.aug⟩, fun h => ⟨h.1, zOk_of_alphaOk hp hi ha, h.2, fun h' => by
      rw [e] at h'; simp [he] at h'⟩⟩
  simp only [hc, hB]
  have hx : m.x0.length = m.dims.nX ↔ um.x0.length = um.nX := by
    rw [hp.x0, dims_nX hp]
  have hnfe : (∀ k < po.nStages, k < po.nfeList.length ∧ 0 < nfe po k) ↔
      ∀ k < o.nStages, ∃ n, o.nfeAfter[k]? = some n ∧ 0 < n := by
    have e1 : po.nStages = o.nStages := by rw [e]
    have e2 : po.nfeList = o.nfeAfter := by rw [e]
    unfold nfe
    rw [e1, e2]
    refine forall₂_congr fun k _ => ?_
    constructor
    · rintro ⟨h1, h2⟩
      refine ⟨o.nfeAfter[k], List.getElem?_eq_getElem h1, ?_⟩
      rwa [List.getD_eq_getElem?_getD, List.getElem?_eq_getElem h1] at h2
    · rintro ⟨n, h1, h2⟩
      obtain ⟨h3, h4⟩ := List.getElem?_eq_some_iff.1 h1
      refine ⟨h3, ?_⟩
      rw [List.getD_eq_getElem?_getD, h1]
      exact h2
  constructor
  · rintro ⟨P, ⟨hP, hA⟩, _⟩
    refine ⟨?_, hx.1 hP.x0, ?_, hnfe.1 hP.nfe, ?_⟩
    · have := hP.stages; rwa [e] at this
    · have := hP.sot; rwa [e] at this
    · unfold NoAugSum at hA; rwa [e] at hA
  · rintro ⟨c1, c2, c3, c4, c5⟩
    refine ⟨_, ⟨⟨?_, hx.2 c2, ?_, hnfe.2 c4⟩, ?_⟩, rfl⟩
    · rw [e]; exact c1
    · rw [e]; exact c3
    · unfold NoAugSum; rw [e]; exact c5

/-- C06: an initial state of the wrong length never yields a problem. -/
theorem C06_wrong_x0_rejected (hn : 0 < o.nS) (hx : um.x0.length ≠ um.nX) :
    ∃ e, construct colloc o um uo = .error e := by
  cases h : construct colloc o um uo with
  | error e => exact ⟨e, rfl⟩
  | ok r =>
    obtain ⟨po, m, oc, P⟩ := r
    have hb := construct_built h hn
    obtain ⟨nC, nF, g, up, f0, acc, hp⟩ := hb.pre
    have := hb.ok.primal.x0
    rw [hp.x0, dims_nX hp] at this
    exact absurd this hx

/-! ### C07 -/

/-- C07 is violated: with `SpeedOfTimeVariableMode.GLOBAL` no problem is ever built, whatever the
options, model and ocp. -/
theorem C07_global_sot_violated (hn : 0 < o.nS) (hs : o.sot = .global) :
    ∃ e, construct colloc o um uo = .error e := by
  cases h : construct colloc o um uo with
  | error e => exact ⟨e, rfl⟩
  | ok r =>
    obtain ⟨po, m, oc, P⟩ := r
    have hb := construct_built h hn
    have := hb.ok.primal.sot
    rw [hb.opts.toOpts] at this
    exact absurd hs this

/-- C07, the part that holds: LOCAL mode adds one bounded speed-of-time variable per control stage,
and it scales the right-hand side at every Runge-Kutta stage of that control stage; NONE adds none
and the right-hand side is not scaled. -/
theorem C07_local_sot_partial (h : SetupEx colloc o um uo po m oc P) (env : Env)
    (hf : P.form.Feasible env) :
    (o.sot = .local → ∀ k < o.nStages, Sym.sot k ∈ P.form.w ∧ o.sotMin ≤ env (.sot k) ∧
      env (.sot k) ≤ o.sotMax) ∧
    (o.sot = .none → ∀ k, Sym.sot k ∉ P.form.w) ∧
    (o.irkRep ≠ .integral → ∀ k e, HasFE po k e → ∀ j < o.nS, ∀ i < um.nX,
      env (.st1 .v k e j i) = (if o.sot = .local then env (.sot k) else 1)
        * um.stageRhs po m.dims k e j i env) := by
  have hB := h.toSetup.built
  have hS := master_spec hB h.exact' h.alpha h.sound hf
  have e := h.toSetup.opts
  obtain ⟨d1, _⟩ := h.toSetup.dims
  refine ⟨fun hs k hk => ?_, fun hs k hk => ?_, fun hr k e' hk j hj i hi => ?_⟩
  · have hv : IsVar po m.dims (.sot k) := ⟨by rw [e]; exact hs, by rw [e]; exact hk⟩
    have := hS.bounds _ hv
    simp only [varDoc, EReal.coe_le_coe_iff] at this
    rw [e] at this
    exact ⟨(C04_variables h.toSetup _).1 hv, this⟩
  · rcases (C04_variables h.toSetup _).2 hk with h' | ⟨_, ⟨_, _, _, h'⟩ | ⟨_, h'⟩⟩
    · have := h'.1; rw [e] at this; rw [hs] at this; cases this
    · cases h'
    · cases h'
  · have := hS.rk k e' hk j (by rw [e]; exact hj) i (by rw [d1]; exact hi)
    unfold RkEq at this
    rw [if_neg (by rw [e]; exact hr)] at this
    rw [this]
    unfold sotVal
    rw [show po.sot = o.sot by rw [e]]
    split <;> rfl

end

/-! ### The hypotheses are satisfiable -/

/-- All of C01 - C05, C07 apply to the demo problem with default options and with a very different
option set. -/
example : ∃ po m oc P, SetupEx demoColloc Opts.default demoModel (some demoOcp) po m oc P := by
  obtain ⟨po, m, oc, P, h, _⟩ := demo_setup demo_default
  exact ⟨po, m, oc, P, h⟩
example : ∃ po m oc P, SetupEx demoColloc gaussOpts demoModel (some demoOcp) po m oc P ∧
    P.form.Feasible (demoEnv po) := by
  obtain ⟨po, m, oc, P, h, h', _⟩ := demo_setup demo_gauss
  exact ⟨po, m, oc, P, h, h'⟩

/-- The demo problem with default options (1 control stage, 2 finite elements, 2 stages): 32
variables. -/
example : ∃ po m oc P, construct demoColloc Opts.default demoModel (some demoOcp)
    = .ok (po, m, oc, P) ∧ P.form.w.length = 32 := by
  obtain ⟨po, m, oc, P, h, _, hd, ho⟩ := demo_setup demo_default
  refine ⟨po, m, oc, P, h.ok, ?_⟩
  have hr : po.rbe = true := by
    obtain ⟨t, ht, hr⟩ := h.toSetup.built.opts.rbe
    obtain ⟨_, _, _, hi⟩ := h.toSetup.built.opts.integral rfl
    rw [hi] at ht
    simp [demoColloc, Opts.default] at ht
    rw [hr, ← ht]; simp
  have hnfe : ∀ k, nfe po k = if k = 0 then 2 else 0 := by
    intro k
    unfold nfe
    rw [ho]
    cases k <;> simp [Opts.nfeAfter, Opts.default]
  rw [C03_size h.toSetup, hd]
  have e1 : po.useFesd = true := by rw [ho]; rfl
  have e2 : po.irkRep = .integral := by rw [ho]; rfl
  have e3 : po.pss = .stewart := by rw [ho]; rfl
  have e4 : po.mpcc = .scholtesIneq := by rw [ho]; rfl
  have e5 : po.nStages = 1 := by rw [ho]; rfl
  have e6 : po.nS = 2 := by rw [ho]; rfl
  have e7 : po.sot = .none := by rw [ho]; rfl
  simp [decisionSize, feVars, stageVars, sysVars, e1, e2, e3, e4, e5, e6, e7, hr, hnfe, dimsOf,
    UserModel.nSys, demoModel, Dims.nF]

/-- C06: both sides occur. -/
example : ∃ e, construct demoColloc Opts.default { demoModel with x0 := [1, 2] } none = .error e :=
  C06_wrong_x0_rejected (by simp [Opts.default]) (by simp [demoModel])

end Nosnoc
