import Verif.Proofs.WorldSteps
import Verif.Proofs.OptsEq
import Verif.Witness.World
/-
C68, C71: options and model objects that are used again.
-/
namespace Nosnoc
section
variable {colloc : IrkScheme → Nat → List ℝ} {orc : Nat → Oracle} {w : World}

/-! ### Options (C68) -/

/-- After any history the attributes of an options object are the ones the user assigned, except
`max_iter_homotopy` and `Nfe_list`. -/
theorem C68_assigned_partial {i : Nat} {o : PreOpts} (h : w.opts[i]? = some o) {ops : List Action}
    (hb : ∀ f, .assign i f ∈ ops → Blind f) :
    ∃ o', (w.run colloc orc ops).opts[i]? = some o' ∧ ∃ k l,
      o'.toOpts = { assigned i o.toOpts ops with maxIterHomotopy := k, nfeList := l } := by
  have key : ∀ (ops : List Action) (w : World) (o : PreOpts) (u : Opts), w.opts[i]? = some o →
      (∀ f, .assign i f ∈ ops → Blind f) →
      (∃ k l, o.toOpts = { u with maxIterHomotopy := k, nfeList := l }) →
      ∃ o', (w.run colloc orc ops).opts[i]? = some o' ∧ ∃ k l,
        o'.toOpts = { assigned i u ops with maxIterHomotopy := k, nfeList := l } := by
    intro ops
    induction ops with
    | nil => intro w o u h _ hu; exact ⟨o, h, hu⟩
    | cons op ops ih =>
      intro w o u h hb hu
      have hb' : ∀ f, .assign i f ∈ ops → Blind f := fun f hf => hb f (List.mem_cons_of_mem _ hf)
      rw [run_cons]
      by_cases ha : ∃ f, op = .assign i f
      · obtain ⟨f, rfl⟩ := ha
        have e2 : (w.step colloc orc (.assign i f)).1.opts[i]? = some { o with toOpts := f o.toOpts } := by
          unfold World.step
          dsimp only
          rw [List.getElem?_modify, h]
          exact congrArg some (if_pos rfl)
        have hs : assigned i u (.assign i f :: ops) = assigned i (f u) ops := by
          show assigned i (if i = i then f u else u) ops = _
          rw [if_pos rfl]
        rw [hs]
        refine ih _ _ (f u) e2 hb' ?_
        obtain ⟨k, l, hu⟩ := hu
        dsimp only
        rw [hu]
        exact hb f List.mem_cons_self u k l
      · have hsame : assigned i u (op :: ops) = assigned i u ops := by
          cases op with
          | assign j f =>
            show assigned i (if j = i then f u else u) ops = _
            rw [if_neg fun hj => ha ⟨f, by rw [hj]⟩]
          | _ => rfl
        rw [hsame]
        rcases step_opts (colloc := colloc) (orc := orc) op h with e | ⟨f, e', -⟩ | ⟨_, _, _, -, -, e⟩
        · exact ih _ _ u e hb' hu
        · exact absurd ⟨f, e'⟩ ha
        · refine ih _ _ u e hb' ?_
          obtain ⟨k, l, hu⟩ := hu
          obtain ⟨k', l', he, -⟩ := preprocessed_opts (colloc := colloc) o
          exact ⟨k', l', by rw [he, hu]⟩
  exact key ops w o o.toOpts h hb ⟨o.maxIterHomotopy, o.nfeList, rfl⟩

/-- C68, part: if `Nfe_list` and `max_iter_homotopy` are set back to their defaults, an options object
can be changed and used again: the solver is the one of a new options object with the values the
user has assigned. -/
theorem C68_reset_partial {i : Nat} {o : PreOpts} (h : w.opts[i]? = some o) {ops : List Action}
    (hb : ∀ f, .assign i f ∈ ops → Blind f) {j : Nat} {mo : ModelObj}
    (hm : (w.run colloc orc ops).models[j]? = some mo) (hi : mo.user.initCheck = .ok ())
    {ci : Option Nat} {w' : World} (hw' : w' = w.run colloc orc (ops ++ [.assign i resetDerived])) :
    (∀ S, Solver.create colloc (resetDerived (assigned i o.toOpts ops)) mo.user (w'.ocpArg ci) = .ok S →
      (w'.step colloc orc (.newSolver i j ci)).2 = .ok none ∧
      ∃ sm, (w'.step colloc orc (.newSolver i j ci)).1.solver? w'.solvers.length
        = some { S with smooth := sm } ∧ (S.smooth = none ∨ sm = S.smooth)) ∧
    (∀ e, Solver.create colloc (resetDerived (assigned i o.toOpts ops)) mo.user (w'.ocpArg ci) = .error e →
      ∃ e', (w'.step colloc orc (.newSolver i j ci)).2 = .error e') := by
  obtain ⟨o', ho', k, l, he⟩ := C68_assigned_partial (colloc := colloc) (orc := orc) h hb
  have hrun : w' = ((w.run colloc orc ops).step colloc orc (.assign i resetDerived)).1 := by
    rw [hw', run_append]; rfl
  have h1 : w'.opts[i]? = some { o' with toOpts := resetDerived o'.toOpts } := by
    rw [hrun]
    unfold World.step
    dsimp only
    rw [List.getElem?_modify, ho']
    exact congrArg some (if_pos rfl)
  have h2 : w'.models[j]? = some mo := by rw [hrun]; exact hm
  have e : resetDerived o'.toOpts = resetDerived (assigned i o.toOpts ops) := by rw [he]; rfl
  obtain ⟨a, b⟩ := newSolver_create (colloc := colloc) (ci := ci) h1 h2 hi
  dsimp only at a b
  rw [e] at a b
  constructor
  · intro S hS
    obtain ⟨a1, a2, -⟩ := a S hS
    refine ⟨a1, _, a2, ?_⟩
    cases hsm : S.smooth with
    | none => exact .inl rfl
    | some x => exact .inr rfl
  · intro e he
    exact (b e he).1

/-- After a successful construction the options object is the preprocessed one. -/
private theorem newSolver_opts {i j : Nat} {ci : Option Nat} {o po : PreOpts} {mo : ModelObj}
    (ho : w.opts[i]? = some o) (hm : w.models[j]? = some mo) (hp : o.toOpts.preprocess colloc = .ok po) :
    (w.step colloc orc (.newSolver i j ci)).1.opts[i]? = some po := by
  have e : (makeProblem colloc o mo (w.ocpArg ci)).o = po := by
    unfold makeProblem
    rw [preprocessed_ok hp]
    dsimp only
    split
    · rfl
    · split <;> rfl
  show (w.newSolver colloc i j ci).1.opts[i]? = _
  unfold World.newSolver
  rw [ho, hm]
  dsimp only
  rw [e]
  split <;> exact getElem?_set_self' ho

private theorem assign_opts {i : Nat} {o : PreOpts} (f : Opts → Opts) (ho : w.opts[i]? = some o) :
    (w.step colloc orc (.assign i f)).1.opts[i]? = some { o with toOpts := f o.toOpts } := by
  unfold World.step
  dsimp only
  rw [List.getElem?_modify, ho]
  exact congrArg some (if_pos rfl)

/-- C68 fails: after a solver has been created from an options object with the default `Nfe_list`,
increasing `N_stages` makes every later construction with that object raise. -/
theorem C68_more_stages_violated {i j j' : Nat} {ci ci' : Option Nat} {o : PreOpts} {mo mo' : ModelObj}
    (ho : w.opts[i]? = some o) (hn : 0 < o.nS) (hl : o.nfeList = [])
    (h0 : 0 < o.nStages) {n : Nat} (hn' : o.nStages < n)
    (hm : w.models[j]? = some mo) (hp : ∃ po, o.toOpts.preprocess colloc = .ok po) {w2 : World}
    (hw2 : w2 = w.run colloc orc [.newSolver i j ci, .assign i fun o => { o with nStages := n }])
    (hm' : w2.models[j']? = some mo') (hi' : mo'.user.initCheck = .ok ()) :
    ∃ e, (w2.step colloc orc (.newSolver i j' ci')).2 = .error e := by
  obtain ⟨po, hp⟩ := hp
  have h2 : w2.opts[i]? = some { po with nStages := n } := by
    rw [hw2, run_cons, run_cons, run_nil]
    exact assign_opts (fun o => { o with nStages := n }) (newSolver_opts ho hm hp)
  obtain ⟨a, b⟩ := newSolver_create (colloc := colloc) (ci := ci') h2 hm' hi'
  cases hS : Solver.create colloc ({ po with nStages := n } : PreOpts).toOpts mo'.user (w2.ocpArg ci') with
  | error e => exact (b e hS).1
  | ok S =>
    exfalso
    unfold Solver.create at hS
    simp only [bind_eq_ok] at hS
    obtain ⟨⟨po', m, oc, P⟩, hc, -⟩ := hS
    have hpo := preprocess_opts hp
    have e1 : po.nS = o.nS := by rw [hpo.toOpts]
    have e2 : po.nfeList = o.toOpts.nfeAfter := by rw [hpo.toOpts]
    have hb := construct_built hc (by show 0 < po.nS; rw [e1]; exact hn)
    have e3 : po'.nfeList = ({ po with nStages := n } : PreOpts).toOpts.nfeAfter := by
      rw [hb.opts.toOpts]
    have e4 : po'.nStages = n := by rw [hb.opts.toOpts]
    have e5 : o.toOpts.nfeAfter = List.replicate o.nStages o.nFe := by
      unfold Opts.nfeAfter
      rw [hl]
      rfl
    have e6 : ({ po with nStages := n } : PreOpts).toOpts.nfeAfter = List.replicate o.nStages o.nFe := by
      unfold Opts.nfeAfter
      dsimp only
      rw [e2, e5, List.length_replicate, if_neg h0.ne']
    have := (hb.ok.primal.nfe o.nStages (by rw [e4]; exact hn')).1
    rw [e3, e6, List.length_replicate] at this
    exact lt_irrefl _ this

/-- A user program: a solver is created, then the number of finite elements is changed and another
solver is created (with another model object). -/
noncomputable def changeElements (tol : ℝ) (stages fes fes' : Nat) : List Action :=
  [.newOpts (plainOpts tol stages fes), .newModel (plainModel 0), .newModel (plainModel 0),
    .newSolver 0 0 none, .assign 0 (fun o => { o with nFe := fes' }), .newSolver 0 1 none]

/-- C68 fails: after a change of `N_finite_elements` on a used options object, the next solver still has
the old number of elements. -/
theorem C68_elements_violated {tol : ℝ} {stages fes fes' : Nat} (ht : 0 < tol) (hs : 0 < stages)
    (hf : 0 < fes) :
    ∃ S, (World.initial.run colloc orc (changeElements tol stages fes fes')).solver? 1 = some S ∧
      S.o.nFe = fes' ∧ S.P.idx.map List.length = List.replicate stages fes := by
  set w0 : World := ⟨IpoptDict.initial, [(plainOpts tol stages fes).fresh],
    [⟨plainModel 0, none, none⟩, ⟨plainModel 0, none, none⟩], [], []⟩ with hw0
  have hrun : World.initial.run colloc orc (changeElements tol stages fes fes')
      = ((((w0.step colloc orc (.newSolver 0 0 none)).1).step colloc orc
        (.assign 0 (fun o => { o with nFe := fes' }))).1.step colloc orc (.newSolver 0 1 none)).1 := rfl
  have pl := plainOpts_plain ht hs hf
  obtain ⟨po, hp⟩ : ∃ po, (plainOpts tol stages fes).preprocess colloc = .ok po :=
    flex_preOpts pl.iter (.inl pl.rep)
  have hpo := (preprocess_opts hp).toOpts
  have hl : (plainOpts tol stages fes).nfeAfter = List.replicate stages fes := rfl
  rw [hl] at hpo
  set w1 := (w0.step colloc orc (.newSolver 0 0 none)).1 with hw1
  have h1 : w1.opts[0]? = some po := newSolver_opts (w := w0) rfl rfl hp
  have hm1 : w1.models[1]? = some ⟨plainModel 0, none, none⟩ := by
    rcases step_models (w := w0) (colloc := colloc) (orc := orc) (.newSolver 0 0 none) (j := 1) rfl with
      e | ⟨_, _, _, e, -⟩ | ⟨_, _, _, _, -, -, -, ⟨e, -⟩ | ⟨_, _, e, -⟩, -⟩
    · exact e
    · cases e
    · cases e
    · cases e
  obtain ⟨S0, hS0, -⟩ := plain_create colloc pl 0
  have hs1 : w1.solvers.length = 1 := by
    have := ((newSolver_create (colloc := colloc) (w := w0) (oi := 0) (mi := 0) (ci := none) rfl rfl
      (rfl : (plainModel 0).initCheck = .ok ())).1 S0 hS0).2.2
    show (w0.newSolver colloc 0 0 none).1.solvers.length = 1
    rw [this]
    rfl
  set w2 := (w1.step colloc orc (.assign 0 fun o => { o with nFe := fes' })).1 with hw2
  have h2 : w2.opts[0]? = some { po with nFe := fes' } := assign_opts (fun o => { o with nFe := fes' }) h1
  have hm2 : w2.models[1]? = some ⟨plainModel 0, none, none⟩ := hm1
  have hs2 : w2.solvers.length = 1 := hs1
  have e2 : ({ po with nFe := fes' } : PreOpts).toOpts = { plainOpts tol stages fes with
      maxIterHomotopy := po.maxIterHomotopy, nfeList := List.replicate stages fes, nFe := fes' } := by
    show { po.toOpts with nFe := fes' } = _
    rw [hpo]
  have hn2 : ({ plainOpts tol stages fes with
      maxIterHomotopy := po.maxIterHomotopy, nfeList := List.replicate stages fes, nFe := fes' } : Opts).nfeAfter = List.replicate stages fes := by
    unfold Opts.nfeAfter
    dsimp only
    rw [List.length_replicate, if_neg hs.ne']
  have pl2 : PlainOpts { plainOpts tol stages fes with
      maxIterHomotopy := po.maxIterHomotopy, nfeList := List.replicate stages fes, nFe := fes' } :=
    ⟨pl.iter, pl.rep, pl.nS, pl.handling, pl.sot, pl.freezing, pl.stages, by
      intro k hk
      rw [hn2]
      exact ⟨fes, by rw [List.getElem?_replicate, if_pos (show k < stages from hk)], hf⟩, pl.mpcc, pl.strategy⟩
  obtain ⟨po2, m, oc, P, hset⟩ := plain_setup colloc pl2 0
  have hc := (hset.create failOracle pl2.strategy).1
  have hnew := ((newSolver_create (colloc := colloc) (ci := none) h2 hm2
    (rfl : (plainModel 0).initCheck = .ok ())).1 _ (by rw [e2]; exact hc)).2.1
  rw [hs2] at hnew
  refine ⟨_, hnew, ?_, ?_⟩
  · exact hset.e_nFe
  · have hfe := (C02_index_lists_name hset).fe
    have hst : po2.nStages = stages := hset.e_nStages
    have hnf : ∀ k < stages, nfe po2 k = fes := by
      intro k hk
      have : po2.nfeList = List.replicate stages fes := by rw [hset.opts]; exact hn2
      unfold nfe
      rw [this, List.getD_eq_getElem?_getD, List.getElem?_replicate, if_pos hk]
      rfl
    dsimp only
    rw [hst] at hfe
    apply List.eq_replicate_iff.2
    refine ⟨by rw [List.length_map, hfe.length_eq, List.length_range], ?_⟩
    intro n hn
    obtain ⟨row, hrow, rfl⟩ := List.mem_map.1 hn
    obtain ⟨k, hk, rfl⟩ := List.mem_iff_getElem.1 hrow
    have hk' : k < stages := by rw [hfe.length_eq, List.length_range] at hk; exact hk
    have := hfe.get hk (by rw [List.length_range]; exact hk')
    have h3 := this.length_eq
    simp only [List.get_eq_getElem, List.getElem_range, List.length_range] at h3
    rw [h3, hnf k hk']

/-- A history that meets the hypotheses of the theorems about changed options. -/
example : Blind (fun o => { o with nStages := 7 }) ∧
    (∃ po, (plainOpts 1 2 3).fresh.toOpts.preprocess colloc = .ok po) :=
  ⟨fun _ k l => ⟨k, l, rfl⟩, flex_preOpts (plainOpts_plain one_pos two_pos three_pos).iter (.inl rfl)⟩

/-! ### Models (C71) -/

/-- What a history does to a model object: the initial state may change, defaults are filled in. -/
private theorem models_kept {j n : Nat} {mo : ModelObj} (h : w.models[j]? = some mo) {um : UserModel}
    (hf : Filled um mo.user)
    (hv : mo.user.pTimeVarVal = um.pTimeVarVal ∨ mo.user.pTimeVarVal = some (um.ptv n))
    {ops : List Action} (hu : um.pTimeVarVal ≠ none ∨ Along colloc orc (StagesOnly j n) w ops) :
    ∃ mo', (w.run colloc orc ops).models[j]? = some mo' ∧ Filled um mo'.user ∧
      (mo'.user.pTimeVarVal = um.pTimeVarVal ∨ mo'.user.pTimeVarVal = some (um.ptv n)) := by
  have hptv : ∀ {mo : ModelObj}, Filled um mo.user →
      (mo.user.pTimeVarVal = um.pTimeVarVal ∨ mo.user.pTimeVarVal = some (um.ptv n)) →
      ∀ k, (um.pTimeVarVal ≠ none ∨ k = n) → mo.user.ptv k = um.ptv n := by
    intro mo hf hv k hk
    have e : mo.user.nPtv = um.nPtv := by rw [hf.eq]
    unfold UserModel.ptv at hv ⊢
    rcases hv with hv | hv
    · rw [hv, e]
      rcases hk with hk | rfl
      · obtain ⟨V, hV⟩ := Option.ne_none_iff_exists'.1 hk
        rw [hV]; rfl
      · rfl
    · rw [hv]; rfl
  induction ops generalizing w mo with
  | nil => exact ⟨mo, h, hf, hv⟩
  | cons op ops ih =>
    rw [run_cons]
    have hu' : um.pTimeVarVal ≠ none ∨ Along colloc orc (StagesOnly j n) (w.step colloc orc op).1 ops :=
      hu.imp_right And.right
    rcases step_models (colloc := colloc) (orc := orc) op h with
      e | ⟨oi, ci, o, rfl, ho, e⟩ | ⟨s, so, S, S', -, -, -, -, e⟩
    · exact ih e hf hv hu'
    · have hk : um.pTimeVarVal ≠ none ∨ o.nStages = n := hu.imp_right fun h => h.1 rfl o ho
      refine ih e ?_ ?_ hu'
      · unfold makeProblem
        dsimp only
        split
        · exact hf
        · obtain ⟨t1, -, -⟩ := touched_filled mo.user (o.preprocessed colloc).1
          split
          · exact hf.trans t1
          · split <;> exact hf.trans t1
      · have hst : (o.preprocessed colloc).1.nStages = o.nStages := by
          obtain ⟨k, l, he, -⟩ := preprocessed_opts (colloc := colloc) o
          rw [he]
        have t3 : (mo.user.touched (o.preprocessed colloc).1).pTimeVarVal = um.pTimeVarVal ∨
            (mo.user.touched (o.preprocessed colloc).1).pTimeVarVal = some (um.ptv n) := by
          obtain ⟨-, -, t⟩ := touched_filled mo.user (o.preprocessed colloc).1
          rcases t with t | t
          · rw [t]; exact hv
          · right
            rw [t, hst, hptv hf hv _ hk]
        unfold makeProblem
        dsimp only
        split
        · exact hv
        · split
          · exact t3
          · split <;> exact t3
    · exact ih e (hf.setX0 _) hv hu'

/-- C71, part: a model object can be used again, with the same result as a new model object with the
present initial state, if its `p_time_var_val` was given, or if it has only been used with the same
`N_stages`. -/
theorem C71_reuse_partial {j n : Nat} {um : UserModel} (h : w.models[j]? = some ⟨um, none, none⟩)
    (hi : um.initCheck = .ok ()) {ops : List Action}
    (hu : um.pTimeVarVal ≠ none ∨ Along colloc orc (StagesOnly j n) w ops) {w' : World}
    (hw' : w' = w.run colloc orc ops) {i : Nat} {o : PreOpts} (ho : w'.opts[i]? = some o)
    (hn : um.pTimeVarVal ≠ none ∨ o.nStages = n) (ci : Option Nat) :
    ∃ mo, w'.models[j]? = some mo ∧
      (∀ S, Solver.create colloc o.toOpts { um with x0 := mo.user.x0 } (w'.ocpArg ci) = .ok S →
        (w'.step colloc orc (.newSolver i j ci)).2 = .ok none ∧
        ∃ sm, (w'.step colloc orc (.newSolver i j ci)).1.solver? w'.solvers.length
          = some { S with smooth := sm } ∧ (S.smooth = none ∨ sm = S.smooth)) ∧
      (∀ e, Solver.create colloc o.toOpts { um with x0 := mo.user.x0 } (w'.ocpArg ci) = .error e →
        ∃ e', (w'.step colloc orc (.newSolver i j ci)).2 = .error e') := by
  obtain ⟨mo, hm, hf, hv⟩ := models_kept h (.refl um) (.inl rfl) hu
  rw [← hw'] at hm
  refine ⟨mo, hm, ?_⟩
  have hi' : mo.user.initCheck = .ok () := by rw [hf.eq]; exact hi
  have hptv : mo.user.ptv o.nStages = um.ptv o.nStages := by
    have e : mo.user.nPtv = um.nPtv := by rw [hf.eq]
    unfold UserModel.ptv at hv ⊢
    rcases hv with hv | hv
    · rw [hv, e]
    · rw [hv]
      rcases hn with hn | rfl
      · obtain ⟨V, hV⟩ := Option.ne_none_iff_exists'.1 hn
        rw [hV]; rfl
      · rfl
  have hc : Solver.create colloc o.toOpts { um with x0 := mo.user.x0 } (w'.ocpArg ci)
      = Solver.create colloc o.toOpts mo.user (w'.ocpArg ci) := by
    unfold Solver.create construct
    have e1 : ({ um with x0 := mo.user.x0 } : UserModel).initCheck = .ok () := hi
    rw [e1, hi']
    simp only [ok_bind]
    cases hp : o.toOpts.preprocess colloc with
    | error e => rfl
    | ok po =>
      have hst : po.nStages = o.nStages := by rw [(preprocess_opts hp).toOpts]
      have e2 : mo.user.preprocess po = ({ um with x0 := mo.user.x0 } : UserModel).preprocess po :=
        hf.preprocess (by rw [hst]; exact hptv)
      have e3 : ∀ d, smoothFor mo.user po d = smoothFor { um with x0 := mo.user.x0 } po d := by
        intro d
        rw [hf.eq]
        rfl
      simp only [ok_bind, e2, e3, bind_assoc]
  obtain ⟨a, b⟩ := newSolver_create (colloc := colloc) (ci := ci) ho hm hi'
  rw [hc]
  constructor
  · intro S hS
    obtain ⟨a1, a2, -⟩ := a S hS
    refine ⟨a1, _, a2, ?_⟩
    cases hsm : S.smooth with
    | none => exact .inl rfl
    | some x => exact .inr rfl
  · intro e he
    exact (b e he).1

/-- C71 fails: once a solver has been created from a model whose `p_time_var_val` was left at its
default, every construction with another `N_stages` raises. -/
theorem C71_other_stages_violated {i i' j : Nat} {ci ci' : Option Nat} {o o' : PreOpts} {mo : ModelObj}
    (ho : w.opts[i]? = some o) (hm : w.models[j]? = some mo) (hi : mo.user.initCheck = .ok ())
    (hd : mo.user.pTimeVarVal = none) {w' : World}
    (hw' : w' = w.run colloc orc [.newSolver i j ci]) (hok : (w.step colloc orc (.newSolver i j ci)).2 = .ok none)
    (ho' : w'.opts[i']? = some o') (hn : o'.nStages ≠ o.nStages) :
    ∃ e, (w'.step colloc orc (.newSolver i' j ci')).2 = .error e := by
  obtain ⟨a, b⟩ := newSolver_create (colloc := colloc) (ci := ci) ho hm hi
  cases hS : Solver.create colloc o.toOpts mo.user (w.ocpArg ci) with
  | error e =>
    obtain ⟨⟨e', he'⟩, -⟩ := b e hS
    exact absurd (hok.symm.trans he') (by simp)
  | ok S =>
    obtain ⟨e1, -⟩ := (makeProblem_create (colloc := colloc) (o := o) (uo := w.ocpArg ci) hi).1 S hS
    unfold Solver.create at hS
    simp only [bind_eq_ok] at hS
    obtain ⟨⟨po, m, oc, P⟩, hc, sm, -, hS⟩ := hS
    cases hS
    have hc' := hc
    unfold construct at hc
    simp only [bind_eq_ok] at hc
    obtain ⟨-, -, po', h2, m', h3, oc', -, P', -, he⟩ := hc
    cases he
    have hst : po.nStages = o.nStages := by rw [(preprocess_opts h2).toOpts]
    have ht := touched_ok h3
    have hm' : ∃ mo', w'.models[j]? = some mo' ∧ mo'.user = mo.user.touched po := by
      refine ⟨(makeProblem colloc o mo (w.ocpArg ci)).mo, ?_, ?_⟩
      · rw [hw', run_cons, run_nil]
        show (w.newSolver colloc i j ci).1.models[j]? = _
        unfold World.newSolver
        rw [ho, hm]
        dsimp only
        split <;> exact getElem?_set_self' hm
      · rw [e1]
    obtain ⟨mo', hmo', hu'⟩ := hm'
    have hi' : mo'.user.initCheck = .ok () := by rw [hu', ht]; exact hi
    obtain ⟨a', b'⟩ := newSolver_create (colloc := colloc) (ci := ci') ho' hmo' hi'
    cases hS' : Solver.create colloc o'.toOpts mo'.user (w'.ocpArg ci') with
    | error e => exact (b' e hS').1
    | ok S' =>
      exfalso
      unfold Solver.create construct at hS'
      simp only [bind_eq_ok] at hS'
      obtain ⟨_, ⟨-, -, po2, k2, m2, k3, -⟩, -⟩ := hS'
      have hst2 : po2.nStages = o'.nStages := by rw [(preprocess_opts k2).toOpts]
      obtain ⟨nC, nF, g, up, f0, acc, hp⟩ := preprocess_pre k3
      have hpv := hp.pVal
      unfold UserModel.pValCtrl at hpv
      simp only [bind_eq_ok, check_eq_ok] at hpv
      obtain ⟨_, -, _, ⟨hlen, -⟩, -⟩ := hpv
      have : mo'.user.ptv po2.nStages = List.replicate o.nStages (List.replicate mo.user.nPtv 0) := by
        rw [hu', ht]
        unfold UserModel.ptv
        dsimp only
        rw [hd, hst]
        rfl
      rw [this, List.length_replicate, hst2] at hlen
      exact hn hlen.symm

/-- Both situations occur: a model with default `p_time_var_val` from which a solver is created, next
to options with another `N_stages`, with which a new model object would be accepted. -/
example : ∃ w : World, ∃ o o' mo, w.opts[0]? = some o ∧ w.opts[1]? = some o' ∧
    w.models[0]? = some mo ∧ mo.user.pTimeVarVal = none ∧ mo.user.initCheck = .ok () ∧
    (w.step colloc orc (.newSolver 0 0 none)).2 = .ok none ∧
    (w.step colloc orc (.newSolver 1 0 none)).2 = .ok none ∧ o'.nStages ≠ o.nStages ∧
    Along colloc orc (StagesOnly 0 1) w [.newSolver 0 0 none, .solve 0] := by
  set w0 : World := ⟨IpoptDict.initial, [(plainOpts 1 1 1).fresh, (plainOpts 1 2 1).fresh],
    [⟨plainModel 0, none, none⟩], [], []⟩ with hw0
  obtain ⟨S, hS, -⟩ := plain_create colloc (plainOpts_plain (stages := 1) (fes := 1) one_pos one_pos one_pos) 0
  obtain ⟨S', hS', -⟩ := plain_create colloc (plainOpts_plain (stages := 2) (fes := 1) one_pos two_pos one_pos) 0
  refine ⟨w0, (plainOpts 1 1 1).fresh, (plainOpts 1 2 1).fresh, ⟨plainModel 0, none, none⟩, rfl, rfl, rfl, rfl, rfl,
    ?_, ?_, by decide, ?_, trivial, trivial⟩
  · exact ((newSolver_create (colloc := colloc) (w := w0) (oi := 0) (mi := 0) (ci := none) rfl rfl rfl).1 S hS).1
  · exact ((newSolver_create (colloc := colloc) (w := w0) (oi := 1) (mi := 0) (ci := none) rfl rfl rfl).1 S' hS').1
  · rintro - o ho
    cases ho
    rfl

end
end Nosnoc
