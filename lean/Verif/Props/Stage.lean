import Verif.Witness.Const
import Verif.Props.CrossViol
import Verif.Witness.Setups
/-
C28, C29: which variables the model functions see at a stage and at the end of an element.
-/
namespace Nosnoc
open Finset

section
variable {colloc : IrkScheme → Nat → List ℝ} {o : Opts} {um : UserModel} {uo : Option UserOcp}
  {po : PreOpts} {m : PreModel} {oc : PreOcp} {P : Problem} {env : Env}

/-! ### C28 -/

/-- The input symbol of the model functions and the optimisation variable of stage `j` of element `(k, e)`
with the same meaning: same family (`theta`, `lambda`, `mu`, `alpha`, `lambda_n`, `lambda_p` or user `z`),
same subsystem, same component. -/
inductive SameMeaning (k e j : Nat) : Sym → Sym → Prop
  | alg (f : Fam2) (s i : Nat) : SameMeaning k e j (.mAlg f s i) (.st2 f k e j s i)
  | z (i : Nat) : SameMeaning k e j (.mZ i) (.st1 .z k e j i)

theorem blk_meaning {k e j : Nat} (f : Fam2) (s n : Nat) :
    List.Forall₂ (SameMeaning k e j) (blk n (.mAlg f s)) (blk n (.st2 f k e j s)) := by
  unfold blk
  rw [List.forall₂_map_left_iff, List.forall₂_map_right_iff, List.forall₂_same]
  exact fun i _ => .alg f s i

theorem stageVars_meaning {k e j : Nat} (f : Fam2) (d : Dims) :
    List.Forall₂ (SameMeaning k e j) (d.stageVars po.pss f).flatten (rowSyms po d k e f j) := by
  unfold Dims.stageVars rowSyms
  rw [← List.flatMap_def]
  induction List.range d.nSys with
  | nil => exact .nil
  | cons a l ih =>
    rw [List.flatMap_cons, List.flatMap_cons]
    exact List.rel_append (blk_meaning f a _) ih

/-- Grouped like the switching functions, the user's `alpha`s are named like generated ones. -/
theorem alphaVars_eq (h : Setup colloc o um uo po m oc P)
    (hal : ∀ al, um.alpha = some al → al = (List.range um.nSys).map fun s => (um.cVec s).len) :
    um.alphaVars m.dims po.pss = m.dims.stageVars po.pss .alpha := by
  obtain ⟨nC, nF, g, up, f0, acc, hp⟩ := h.built.pre
  obtain ⟨-, -, -, -, -, -, d1, d2, d3⟩ := h.dims
  cases hA : um.alpha with
  | none => unfold UserModel.alphaVars; rw [hA]
  | some al =>
    have hst : po.pss = .step := by
      cases hF : um.F with
      | some Fs => exact absurd (h.alpha (by rw [hF]; rfl)) (by rw [hA]; simp)
      | none =>
        have hnF := hp.hnF
        unfold UserModel.nFsys at hnF
        rw [hF] at hnF
        simp only [bind_eq_ok, check_eq_ok] at hnF
        obtain ⟨_, hps, _⟩ := hnF
        cases hq : po.pss with
        | stewart => exact absurd hq hps
        | step => rfl
    unfold UserModel.alphaVars
    rw [hA, hal al hA]
    unfold Dims.stageVars
    rw [hst, d1]
    refine List.ext_getElem (by simp) fun s h1 h2 => ?_
    have hs : s < um.nSys := by simpa using h1
    simp [Dims.famLen, d3 hst s hs]

/-- C28: the algebraic vector handed to the model functions at stage `j` of an element consists of
optimisation variables, one for each algebraic input symbol of the model functions and in the same
order.  (With a general inclusion the user's `alpha`s have to be grouped like the switching
functions.) -/
theorem C28_stage_vector (h : Setup colloc o um uo po m oc P)
    (hal : ∀ al, um.alpha = some al → al = (List.range um.nSys).map fun s => (um.cVec s).len)
    {k e j : Nat} (hj : j < o.nS) {prev : FERef} {fe : FE} (hfe : FE.init po m oc k e prev = .ok fe) :
    ∃ l, fe.rkStageZ (.nat j) = .ok (vars l) ∧ List.Forall₂ (SameMeaning k e j) m.zAll l ∧
      m.fxFun.ins = [m.dims.mX, m.zAll, m.dims.mU, m.dims.mP, m.dims.mV] ∧
      m.gzAllFun.ins = [m.dims.mX, m.zAll, m.dims.mU, m.dims.mP] ∧
      m.gzSwitchingFun.ins = [m.dims.mX, m.zAll, m.dims.mU, m.dims.mP] := by
  have hb := h.built
  have hx := hb.data.fe hb.ok.primal
  rw [FE.init_ok _ _ _ _ _ hb.nS hx] at hfe
  cases hfe
  have e1 : po.nS = o.nS := by rw [h.opts]
  obtain ⟨nC, nF, g, up, f0, acc, hp⟩ := hb.pre
  refine ⟨zSyms po m.dims k e j j, feInit_rkStageZ_nat (by omega), ?_, by rw [hp.fx], by rw [hp.gz],
    by rw [hp.sw]⟩
  have ha : List.Forall₂ (SameMeaning k e j) (um.alphaVars m.dims po.pss).flatten
      (rowSyms po m.dims k e .alpha j) := by
    rw [alphaVars_eq h hal]
    exact stageVars_meaning .alpha m.dims
  rw [hp.zAll]
  unfold UserModel.zAll zSyms
  refine List.rel_append (List.rel_append (List.rel_append (List.rel_append (List.rel_append
    (List.rel_append ?_ ?_) ?_) ha) ?_) ?_) ?_
  · exact stageVars_meaning .theta m.dims
  · exact stageVars_meaning .lam m.dims
  · exact stageVars_meaning .mu m.dims
  · exact stageVars_meaning .lamN m.dims
  · exact stageVars_meaning .lamP m.dims
  · unfold Dims.mZ blk
    rw [List.forall₂_map_left_iff, List.forall₂_map_right_iff, List.forall₂_same]
    exact fun i _ => .z i

/-- C28: what a model function computes when called as the code does at stage `j`: the value at a point is
the value of the function's expression when state, algebraic variables, control, parameters and global
variables are replaced by those of the stage. -/
theorem C28_call (h : Setup colloc o um uo po m oc P)
    (hal : ∀ al, um.alpha = some al → al = (List.range um.nSys).map fun s => (um.cVec s).len)
    {k e j : Nat} (hj : j < o.nS) {prev : FERef} {fe : FE} (hfe : FE.init po m oc k e prev = .ok fe)
    {f : CFun} (hf : f.ins = [m.dims.mX, m.zAll, m.dims.mU, m.dims.mP, m.dims.mV])
    {X : Vec} (hX : X.length = m.dims.nX) :
    ∃ z out, fe.rkStageZ (.nat j) = .ok z ∧
      f.call [X, z, ctrlU m.dims k, ctrlP m.dims k, globV m.dims] = .ok out ∧
      ∀ env, ∃ env', evalVec out env = evalVec f.outs env' ∧
        m.dims.mX.map env' = evalVec X env ∧
        m.dims.mZ.map env' = (List.range m.dims.nZ).map (fun i => env (.st1 .z k e j i)) ∧
        m.dims.mU.map env' = (List.range m.dims.nU).map (fun i => env (.u k i)) ∧
        m.dims.mP.map env' = (List.range (m.dims.nPtv + m.dims.nPgl)).map (fun i => env (.pStage k i)) ∧
        m.dims.mV.map env' = (List.range m.dims.nV).map (fun i => env (.vGlob i)) ∧
        ∀ fam, ∀ s < um.nSys, ∀ i < m.dims.famLen po.pss fam s,
          env' (.mAlg fam s i) = env (.st2 fam k e j s i) := by
  have hb := h.built
  have hx := hb.data.fe hb.ok.primal
  rw [FE.init_ok _ _ _ _ _ hb.nS hx] at hfe
  cases hfe
  have e1 : po.nS = o.nS := by rw [h.opts]
  obtain ⟨nC, nF, g, up, f0, acc, hp⟩ := hb.pre
  have hz : ZOk po m := hb.ok.z
  have d1 := dims_nSys hp
  refine ⟨_, f.outs.map fun ex env => ex (rebind f.ins.flatten
      [X, vars (zSyms po m.dims k e j j), ctrlU m.dims k, ctrlP m.dims k, globV m.dims].flatten env),
    feInit_rkStageZ_nat (by omega), ?_, fun env => ?_⟩
  · unfold CFun.call
    rw [if_pos]
    rw [hf]
    simp [hX, length_zSyms, show m.zAll.length = _ from hz]
  · obtain ⟨hS, hv⟩ := bind5 hp hz hX k e j j env
    refine ⟨rebind f.ins.flatten
      [X, vars (zSyms po m.dims k e j j), ctrlU m.dims k, ctrlP m.dims k, globV m.dims].flatten env,
      ?_, ?_⟩
    · simp [evalVec]
    · rw [hf]
      refine ⟨hS.x, hS.z.z, hS.u, hS.p, hv, fun fam s hs i hi => ?_⟩
      cases fam with
      | theta => exact hS.z.theta s (by omega) i hi
      | lam => exact hS.z.lam s (by omega) i hi
      | mu => exact hS.z.mu s (by omega) i hi
      | lamN => exact hS.z.lamN s (by omega) i hi
      | lamP => exact hS.z.lamP s (by omega) i hi
      | alpha =>
        have := hS.z.alpha
        rw [alphaVars_eq h hal] at this
        exact row_match this s (by omega) i hi

/-- The hypotheses are met. -/
example : ∃ po m oc P, Setup demoColloc gaussOpts demoModel (some demoOcp) po m oc P ∧
    (∀ al, demoModel.alpha = some al → al = (List.range demoModel.nSys).map fun s =>
      (demoModel.cVec s).len) ∧ 1 < gaussOpts.nS ∧
    (∃ fe, FE.init po m oc 1 0 (.fe 0 1) = .ok fe) ∧
    m.fxFun.ins = [m.dims.mX, m.zAll, m.dims.mU, m.dims.mP, m.dims.mV] := by
  obtain ⟨po, m, oc, P, ⟨h, -, -⟩, -⟩ := demo_setup demo_gauss
  have hb := h.built
  obtain ⟨nC, nF, g, up, f0, acc, hp⟩ := hb.pre
  exact ⟨po, m, oc, P, h, fun al hal => (by cases hal), by simp [gaussOpts, Opts.default],
    ⟨_, FE.init_ok _ _ _ _ _ hb.nS (hb.data.fe hb.ok.primal)⟩, by rw [hp.fx]⟩

/-! ### C29 -/

/-- C29, proved part: with FESD and a scheme whose last stage is not the end point, every element but the
last one of its control stage has multipliers of its own at its end, and they satisfy the switching
equations at the end state (algebraic variables are those of the last stage).  Missing: the last
element of every control stage. -/
theorem C29_own_multipliers_partial (h : SetupEx colloc o um uo po m oc P) (hf : P.form.Feasible env)
    (hF : o.useFesd = true) (hr : po.rbe = false) {k e : Nat} (hk : HasFE po k e)
    (he : e + 1 < nfe po k) :
    um.Switching po k e o.nS (xEndVal po m.dims k e env) (zVal m.dims k e (o.nS - 1) env)
      (pVal m.dims k env) env ∧
    (∀ s i, o.pss = .stewart → s < um.nSys → i < (um.Fmat s).nCols →
      Sym.st2 .lam k e o.nS s i ∈ P.form.w ∧ Sym.st2 .mu k e o.nS s 0 ∈ P.form.w) ∧
    (∀ s i, o.pss = .step → s < um.nSys → i < (um.cVec s).len →
      Sym.st2 .lamN k e o.nS s i ∈ P.form.w ∧ Sym.st2 .lamP k e o.nS s i ∈ P.form.w) := by
  have e1 := h.e_nS
  have e2 := h.e_useFesd
  have e3 := h.e_pss
  have hF' : po.useFesd = true := e2.trans hF
  have hx : extraPt po k e = 1 := by unfold extraPt; rw [if_pos ⟨hF', hr, he⟩]
  have hl : lastLam po k e = o.nS := by unfold lastLam; rw [hx, e1]; rfl
  have hn : nLamPts po k e = o.nS + 1 := by unfold nLamPts; rw [hx, e1]
  have hb := (h.spec hf).boundary hr hF' k e hk
  rw [hl, e1] at hb
  obtain ⟨-, -, -, -, -, -, d1, d2, d3⟩ := h.toSetup.dims
  refine ⟨hb, fun s i hp hs hi => ?_, fun s i hp hs hi => ?_⟩
  · have hp' := e3.trans hp
    exact ⟨(C04_variables h.toSetup _).1 ⟨hp', hk, by omega, by omega, by rw [d2 hp' s hs]; exact hi⟩,
      (C04_variables h.toSetup _).1 ⟨hp', hk, by omega, by omega, rfl⟩⟩
  · have hp' := e3.trans hp
    exact ⟨(C04_variables h.toSetup _).1 ⟨hp', hk, by omega, by omega, by rw [d3 hp' s hs]; exact hi⟩,
      (C04_variables h.toSetup _).1 ⟨hp', hk, by omega, by omega, by rw [d3 hp' s hs]; exact hi⟩⟩

/-- C29 fails on the last element of every control stage: there are no multipliers at its end, the
equations of the end point are imposed on those of the last stage.  As a consequence the switching
functions (Step), or the differences of the indicator functions (Stewart), are forced to have the same
value at the end state as at the last stage. -/
theorem C29_last_element_violated (h : SetupEx colloc o um uo po m oc P) (hf : P.form.Feasible env)
    (hF : o.useFesd = true) (hr : po.rbe = false) {k e : Nat} (hk : HasFE po k e)
    (he : e + 1 = nfe po k) :
    (∀ f s i, Sym.st2 f k e o.nS s i ∉ P.form.w) ∧
    um.Switching po k e (o.nS - 1) (xEndVal po m.dims k e env) (zVal m.dims k e (o.nS - 1) env)
      (pVal m.dims k env) env ∧
    (o.pss = .step → ∀ s < um.nSys, ∀ i < (um.cVec s).len,
      (um.cVec s).entry i (xEndVal po m.dims k e env) (zVal m.dims k e (o.nS - 1) env) (pVal m.dims k env)
        = (um.cVec s).entry i (xVal po m.dims k e (o.nS - 1) env) (zVal m.dims k e (o.nS - 1) env)
          (pVal m.dims k env)) ∧
    (o.pss = .stewart → ∀ s < um.nSys, ∀ i < (um.Fmat s).nCols, ∀ i' < (um.Fmat s).nCols,
      um.gVal s i (xEndVal po m.dims k e env) (zVal m.dims k e (o.nS - 1) env) (pVal m.dims k env)
          - um.gVal s i' (xEndVal po m.dims k e env) (zVal m.dims k e (o.nS - 1) env) (pVal m.dims k env)
        = um.gVal s i (xVal po m.dims k e (o.nS - 1) env) (zVal m.dims k e (o.nS - 1) env)
            (pVal m.dims k env)
          - um.gVal s i' (xVal po m.dims k e (o.nS - 1) env) (zVal m.dims k e (o.nS - 1) env)
            (pVal m.dims k env)) := by
  have e1 := h.e_nS
  have e2 := h.e_useFesd
  have e3 := h.e_pss
  have hF' : po.useFesd = true := e2.trans hF
  have hx : extraPt po k e = 0 := by unfold extraPt; rw [if_neg (by omega)]
  have hl : lastLam po k e = o.nS - 1 := by unfold lastLam; rw [hx, e1]; rfl
  have hn : nLamPts po k e = o.nS := by unfold nLamPts; rw [hx, e1]; rfl
  have hsp := h.spec hf
  have hb := hsp.boundary hr hF' k e hk
  rw [hl, e1] at hb
  have hnS := h.toSetup.nS
  have ha := (hsp.alg k e hk (o.nS - 1) (by omega)).1
  refine ⟨fun f s i hm => ?_, hb, fun hp s hs i hi => ?_, fun hp s hs i hi i' hi' => ?_⟩
  · rcases (C04_variables h.toSetup _).2 hm with hv | ⟨_, hv⟩
    · cases f <;> have := hv.2.2.1 <;> omega
    · rcases hv with ⟨_, _, _, hv⟩ | ⟨_, hv⟩ <;> cases hv
  · unfold UserModel.Switching at hb ha
    rw [e3, hp] at hb ha
    exact (hb s hs i hi).trans (ha s hs i hi).symm
  · unfold UserModel.Switching at hb ha
    rw [e3, hp] at hb ha
    have := hb s hs i hi
    have := ha s hs i hi
    have := hb s hs i' hi'
    have := ha s hs i' hi'
    linarith

/-- The hypotheses of the two theorems are met: two elements of the implicit midpoint rule. -/
example : ∃ po m oc P env, SetupEx oneColloc (gaussOneOpts .complementAll) flexModel
    (some UserOcp.trivial) po m oc P ∧ P.form.Feasible env ∧ po.rbe = false ∧
    HasFE po 0 0 ∧ 0 + 1 < nfe po 0 ∧ HasFE po 0 1 ∧ 1 + 1 = nfe po 0 := by
  obtain ⟨_, _, _, _, po, m, oc, P, env, -, h, -, -, hf, -⟩ := C33_gauss_violated
  have e5 : po.nfeList = [2] := h.e_nfeList
  have e2 : po.nStages = 1 := h.e_nStages
  have hn : nfe po 0 = 2 := by unfold nfe; rw [e5]; rfl
  refine ⟨po, m, oc, P, env, h, hf, ?_, ⟨by omega, by omega⟩, by omega, ⟨by omega, by omega⟩, by omega⟩
  have := h.toSetup.built.opts.rbe_iff (by simp [gaussOneOpts])
  cases hb : po.rbe
  · rfl
  · exact absurd (this.1 hb) (by simp [gaussOneOpts])

/-- A harmless model: `ẋ = 1` on both sides of the switching surface `x = 0`. -/
def driftModel : UserModel where
  nX := 1
  nU := 0
  nZ := 0
  nPtv := 0
  nPgl := 0
  nV := 0
  x0 := [1]
  F := some [⟨2, fun _ _ _ _ _ _ _ => 1⟩]
  c := some [⟨1, fun _ x _ _ => x.getD 0 0⟩]
  S := some [⟨2, 1, fun i _ => if i = 0 then 1 else -1⟩]
  gStewart := none
  alpha := none
  fx := none
  gz := ⟨0, fun _ _ _ _ _ => 0⟩
  z0 := none
  lbz := none
  ubz := none
  pTimeVarVal := none
  pGlobalVal := []
  tVar := none

/-- Implicit midpoint rule with FESD, one element. -/
noncomputable def midOpts (fesd : Bool) : Opts :=
  { Opts.default with
    useFesd := fesd, irkRep := .differential, scheme := .gaussLegendre, nS := 1, nFe := 1 }

theorem drift_setup (fesd : Bool) :
    ∃ po m oc P, SetupEx oneColloc (midOpts fesd) driftModel (some UserOcp.trivial) po m oc P ∧
      po.rbe = false ∧ po.aIrk 0 0 = 1 / 2 ∧ po.bIrk 0 = 1 := by
  obtain ⟨po, hpo⟩ : ∃ po, (midOpts fesd).preprocess oneColloc = .ok po :=
    flex_preOpts (by norm_num [midOpts, Opts.default]) (.inr ⟨gauss1, rfl, by simp [gauss1]⟩)
  have h1 := preprocess_opts hpo
  have e := h1.toOpts
  have e2 : po.timeFreezing = false := by rw [e]; rfl
  have e1 : po.pss = .stewart := by rw [e]; rfl
  obtain ⟨m, hm⟩ : ∃ m, driftModel.preprocess po = .ok m := by
    refine switched_ok (Fs := _) (cs := _) (Ss := _) ⟨?_, ?_, ?_, rfl, ?_, .inr e2⟩
      ⟨rfl, rfl, rfl, rfl, ?_, rfl, le_rfl, ?_, ?_, ?_, ?_⟩ rfl
    · intro l h; cases h
    · intro l h; cases h
    · intro l h; cases h
    · intro V h; cases h
    · intro f hf
      simp only [List.mem_singleton] at hf
      rw [hf]
      decide
    · intro s hs
      obtain rfl : s = 0 := by simpa using hs
      rfl
    · intro _ s hs
      obtain rfl : s = 0 := by simpa using hs
      rfl
    · intro hc; rw [e1] at hc; cases hc
    · intro hc; rw [e1] at hc; cases hc
  obtain ⟨oc, hoc⟩ : ∃ oc, UserOcp.trivial.preprocess m = .ok oc := by
    obtain ⟨nC, nF, g, up, f0, acc, hp⟩ := preprocess_pre hm
    unfold UserOcp.preprocess
    rw [hp.dims]
    exact ⟨_, rfl⟩
  obtain ⟨P, hP⟩ := (C06_construct_iff (uo := some UserOcp.trivial) rfl hpo hm hoc
    (by simp [midOpts]) (fun _ => rfl) rfl).2 ⟨by simp [midOpts, Opts.default], rfl,
      by simp [midOpts, Opts.default], fun k hk => by
        have hk0 : k = 0 := by simpa [midOpts, Opts.default] using hk
        subst hk0
        exact ⟨1, rfl, Nat.one_pos⟩, by simp [midOpts, Opts.default]⟩
  refine ⟨po, m, oc, P, ⟨⟨hP, by simp [midOpts], fun _ => rfl⟩, rfl, by simp [UserOcp.trivial]⟩, ?_⟩
  have hr : ¬ po.rbe = true := by
    rw [h1.rbe_iff (by simp [midOpts])]
    simp [midOpts]
  obtain ⟨t, ht, hA, hB, -⟩ := h1.diff (by simp [midOpts])
  have : t = gauss1 := by
    have h2 : generateButcher (midOpts fesd).nS (midOpts fesd).scheme = .ok gauss1 := rfl
    rw [h2] at ht; cases ht; rfl
  subst this
  refine ⟨by simpa using hr, ?_, ?_⟩
  · rw [hA]; norm_num [matFun, gauss1]
  · rw [hB]; norm_num [vecFun, gauss1]

/-- C29 fails with consequences: `ẋ = 1`, one step of the implicit midpoint rule with FESD.  No point is
feasible, for any initial state, although the only trajectory crosses no switching surface when it
starts at a positive state. -/
theorem C29_infeasible_violated :
    ∃ po m oc P, SetupEx oneColloc (midOpts true) driftModel (some UserOcp.trivial) po m oc P ∧
      ∀ env, ¬ P.form.Feasible env := by
  obtain ⟨po, m, oc, P, h, hr, hA, hB⟩ := drift_setup true
  refine ⟨po, m, oc, P, h, fun env hf => ?_⟩
  have e1 : po.irkRep = .differential := h.e_irkRep
  have e2 : po.nStages = 1 := h.e_nStages
  have e3 : po.useFesd = true := h.e_useFesd
  have e4 : po.pss = .stewart := h.e_pss
  have e6 : po.nS = 1 := h.e_nS
  have e7 : po.terminalTime = 1 := h.e_terminalTime
  have e8 : po.sot = .none := h.e_sot
  have e9 : po.equidistant = true := h.e_equidistant
  have hnfe : nfe po 0 = 1 := by
    have := h.e_nfeList
    unfold nfe
    rw [this]
    rfl
  have hk : HasFE po 0 0 := ⟨by omega, by omega⟩
  obtain ⟨dx, -, -, -, -, -, d1, d2, d3⟩ := h.toSetup.dims
  have hsp := h.spec hf
  have hd := (C29_last_element_violated h hf rfl hr hk (by omega)).2.2.2 rfl 0 (by decide) 0 (by decide) 1
    (by decide)
  have hown : ownEnd po = true := by simp [ownEnd, hr]
  have hs0 : startX po 0 0 0 = .x0 0 := by simp [startX, prevFe]
  have hdx : m.dims.nX = 1 := dx
  -- the step length is 1
  have hh := hsp.equi e3 e9 0 (by omega)
  rw [hnfe, sum_range_one, e7, e2] at hh
  -- the stage derivative is 1
  have hv := hsp.rk 0 0 hk 0 (by omega) 0 (by omega)
  unfold RkEq at hv
  rw [if_neg (by rw [e1]; decide)] at hv
  have hrhs : driftModel.stageRhs po m.dims 0 0 0 0 env = 1 := by
    have := (hsp.alg 0 0 hk 0 (by omega)).2.1 e4 0 (by decide)
    unfold UserModel.stageRhs
    rw [e4]
    simpa [UserModel.rhsStewart, UserModel.nSys, driftModel, UserModel.Fmat] using this
  rw [hrhs] at hv
  have hv : env (.st1 .v 0 0 0 0) = 1 := by simpa [sotVal, e8, const] using hv
  -- the end state
  have hE := hsp.cont hown 0 0 hk 0 (by omega)
  unfold EndEq at hE
  rw [if_neg (by rw [e1]; decide), e6, sum_range_one, hh, hB, hv, hs0] at hE
  have hX : xEndVal po m.dims 0 0 env = [env (.x0 0) + 1] := by
    simp [xEndVal, hdx, endX, hown]
    rw [hE]; norm_num
  have hx : xVal po m.dims 0 0 0 env = [env (.x0 0) + 1 / 2] := by
    unfold xVal stageX
    rw [if_pos e1]
    simp only [evalVec, hdx, List.range_one, List.map_cons, List.map_nil, e6, sum_range_one, hs0, hA, hv, hh]
    norm_num
  have hm1 : (midOpts true).nS - 1 = 0 := rfl
  rw [hm1, hX, hx] at hd
  simp [UserModel.gVal, UserModel.gStewartTruthy, driftModel, UserModel.Smat, UserModel.cVec] at hd
  linarith

end
end Nosnoc
