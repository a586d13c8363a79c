import Verif.Proofs.WorldSteps
import Verif.Witness.World
/-
C81: solvers do not interfere, as long as they do not share a model or options object.
-/
namespace Nosnoc
section
variable {colloc : IrkScheme → Nat → List ℝ} {orc : Nat → Oracle} {w : World}

private theorem set_keeps (S : Solver) (f : Field) (v : Arr) :
    (S.set f v).1.o = S.o ∧ (S.set f v).1.smooth = S.smooth := by
  cases f with
  | x0 => cases v <;> exact ⟨rfl, rfl⟩
  | x => exact ⟨(setX_onlyGuess S v).o, (setX_onlyGuess S v).smooth⟩
  | u => exact ⟨(setArr_onlyGuess S _ v).o, (setArr_onlyGuess S _ v).smooth⟩
  | vGlobal => exact ⟨(setArr_onlyGuess S _ v).o, (setArr_onlyGuess S _ v).smooth⟩
  | pGlobal =>
    simp only [Solver.set, Solver.setPGlobal]
    split <;> exact ⟨rfl, rfl⟩
  | pTimeVar => exact ⟨rfl, rfl⟩
  | theta => exact ⟨(setTheta_onlyGuess S v).o, (setTheta_onlyGuess S v).smooth⟩
  | w => cases v <;> exact ⟨rfl, rfl⟩
  | other => exact ⟨rfl, rfl⟩

/-- The parts of a solver. -/
private theorem solver?_some {s : Nat} {S : Solver} (h : w.solver? s = some S) :
    ∃ so mo, w.solvers[s]? = some so ∧ w.opts[so.opts]? = some S.o ∧ w.models[so.model]? = some mo ∧
      mo.pre = some S.m ∧ so.P = S.P ∧ mo.smooth = S.smooth ∧ so.log = S.log := by
  unfold World.solver? at h
  simp only [Option.bind_eq_bind, Option.bind_eq_some_iff] at h
  obtain ⟨so, h1, po, h2, mo, h3, m, h4, h5⟩ := h
  cases h5
  exact ⟨so, mo, h1, h2, h3, h4, rfl, rfl, rfl⟩

private theorem solver?_of {s : Nat} {S : Solver} {so : SolverObj} {mo : ModelObj}
    (h1 : w.solvers[s]? = some so) (h2 : w.opts[so.opts]? = some S.o) (h3 : w.models[so.model]? = some mo)
    (h4 : mo.pre = some S.m) (h5 : so.P = S.P) (h6 : mo.smooth = S.smooth) (h7 : so.log = S.log) :
    w.solver? s = some S := by
  unfold World.solver?
  simp only [Option.bind_eq_bind, Option.bind_eq_some_iff]
  exact ⟨so, h1, _, h2, mo, h3, _, h4, by rw [h5, h6, h7]⟩

/-- A method of a solver sees and changes the solver as if it were alone. -/
private theorem solver?_writeBack {s : Nat} {S S' : Solver} (h : w.solver? s = some S) (ho : S'.o = S.o)
    (hs : S'.smooth = S.smooth) : (w.writeBack s S').solver? s = some S' := by
  obtain ⟨so, mo, h1, h2, h3, h4, h5, h6, h7⟩ := solver?_some h
  have e : w.writeBack s S' = { w with
        solvers := w.solvers.set s { so with P := S'.P, log := S'.log }
        models := w.models.modify so.model fun mo =>
          { mo with user := { mo.user with x0 := S'.m.x0 }, pre := some S'.m } } := by
    unfold World.writeBack
    rw [h1]
  rw [e]
  refine solver?_of (so := { so with P := S'.P, log := S'.log })
    (mo := { mo with user := { mo.user with x0 := S'.m.x0 }, pre := some S'.m })
    (getElem?_set_self' h1) (by rw [ho]; exact h2) ?_ rfl rfl (h6.trans hs.symm) rfl
  dsimp only
  rw [List.getElem?_modify, h3]
  exact congrArg some (if_pos rfl)

/-- C81, part: a solver whose options and model object are not used by anything else behaves, in any
history, exactly as if only its own methods were called. -/
theorem C81_alone_partial {s : Nat} {so : SolverObj} {S : Solver} (hso : w.solvers[s]? = some so)
    (h : w.solver? s = some S) {ops : List Action}
    (ha : Along colloc orc (Apart so.opts so.model s) w ops) :
    (w.run colloc orc ops).solver? s = some (ops.foldl (ownStep (orc s) s) S) := by
  induction ops generalizing w S so with
  | nil => exact h
  | cons op ops ih =>
    rw [run_cons, List.foldl_cons]
    have hop := ha.1
    obtain ⟨so1, mo, h1, h2, h3, h4, h5, h6, h7⟩ := solver?_some h
    rw [hso] at h1
    cases h1
    -- the references stay
    have hrefs : ∃ so', (w.step colloc orc op).1.solvers[s]? = some so' ∧ so'.opts = so.opts ∧
        so'.model = so.model := by
      rcases step_solvers (colloc := colloc) (orc := orc) op hso with e | ⟨S1, S2, -, -, e⟩
      · exact ⟨_, e, rfl, rfl⟩
      · exact ⟨_, e, rfl, rfl⟩
    obtain ⟨so', hso', r1, r2⟩ := hrefs
    have ha' : Along colloc orc (Apart so'.opts so'.model s) (w.step colloc orc op).1 ops := by
      rw [r1, r2]; exact ha.2
    refine ih hso' ?_ ha'
    -- operations of the solver itself
    by_cases hown : op = .solve s ∨ ∃ f v, op = .set s f v
    · rcases hown with rfl | ⟨f, v, rfl⟩
      · have e : (w.step colloc orc (.solve s)).1 = w.writeBack s (S.solve (orc s)).1 := by
          unfold World.step
          dsimp only
          rw [h]
        have e2 : ownStep (orc s) s S (.solve s) = (S.solve (orc s)).1 := if_pos rfl
        obtain ⟨k1, k2, -⟩ := solve_only (orc s) S
        rw [e, e2]
        exact solver?_writeBack h k1 k2
      · have e : (w.step colloc orc (.set s f v)).1 = w.writeBack s (S.set f v).1 := by
          unfold World.step
          dsimp only
          rw [h]
        have e2 : ownStep (orc s) s S (.set s f v) = (S.set f v).1 := if_pos rfl
        rw [e, e2]
        exact solver?_writeBack h (set_keeps S f v).1 (set_keeps S f v).2
    · -- operations of others
      have e2 : ownStep (orc s) s S op = S := by
        cases op with
        | solve s' => exact if_neg fun hs => hown (.inl (by rw [hs]))
        | set s' f v => exact if_neg fun hs => hown (.inr ⟨f, v, by rw [hs]⟩)
        | _ => rfl
      rw [e2]
      have k1 : (w.step colloc orc op).1.solvers[s]? = some so := by
        rcases step_solvers (colloc := colloc) (orc := orc) op hso with e | ⟨S1, S2, -, ⟨e, -⟩ | ⟨f, v, e, -⟩, -⟩
        · exact e
        · exact absurd (.inl e) hown
        · exact absurd (.inr ⟨f, v, e⟩) hown
      have k2 : (w.step colloc orc op).1.opts[so.opts]? = some S.o := by
        rcases step_opts (colloc := colloc) (orc := orc) op h2 with e | ⟨f, rfl, -⟩ | ⟨_, _, _, rfl, -, -⟩
        · exact e
        · exact absurd rfl hop
        · exact absurd rfl hop.1
      have k3 : (w.step colloc orc op).1.models[so.model]? = some mo := by
        rcases step_models (colloc := colloc) (orc := orc) op h3 with
          e | ⟨_, _, _, rfl, -, -⟩ | ⟨s', so2, S1, S2, g1, g2, -, ⟨rfl, -⟩ | ⟨f, v, rfl, -⟩, -⟩
        · exact e
        · exact absurd rfl hop.2
        · rcases hop with rfl | hop
          · exact absurd (.inl rfl) hown
          · exact absurd g2 (hop _ g1)
        · rcases hop with rfl | hop
          · exact absurd (.inr ⟨f, v, rfl⟩) hown
          · exact absurd g2 (hop _ g1)
      exact solver?_of k1 k2 k3 h4 h5 h6 h7

/-- ... and what the user sees of a call is what that solver returns. -/
theorem C81_seen {s : Nat} {S : Solver} (h : w.solver? s = some S) :
    (w.step colloc orc (.solve s)).2 = (S.solve (orc s)).2.map some ∧
    (∀ f v e, (S.set f v).2 = some e → (w.step colloc orc (.set s f v)).2 = .error e) ∧
    ∀ f v, (S.set f v).2 = none → (w.step colloc orc (.set s f v)).2 = .ok none := by
  refine ⟨?_, ?_, ?_⟩
  · unfold World.step
    dsimp only
    rw [h]
  · intro f v e he
    unfold World.step
    dsimp only
    rw [h]
    dsimp only
    rw [he]
  · intro f v he
    unfold World.step
    dsimp only
    rw [h]
    dsimp only
    rw [he]

/-- C81 fails for solvers created from the same model object: setting the initial state of one changes
the initial state of the other. -/
theorem C81_shared_model_violated {s s' : Nat} {so so' : SolverObj} {S S' : Solver} (hne : s ≠ s')
    (hs : w.solvers[s]? = some so) (hs' : w.solvers[s']? = some so') (hm : so'.model = so.model)
    (h : w.solver? s = some S) (h' : w.solver? s' = some S') (x0 : List ℝ) :
    ∃ S'', (w.step colloc orc (.set s .x0 (.vec x0))).1.solver? s' = some S'' ∧ S''.m.x0 = x0 := by
  obtain ⟨so1, mo, h1, h2, h3, h4, h5, h6, h7⟩ := solver?_some h
  obtain ⟨so2, mo2, g1, g2, g3, g4, g5, g6, g7⟩ := solver?_some h'
  rw [hs] at h1
  cases h1
  rw [hs'] at g1
  cases g1
  have e : (w.step colloc orc (.set s .x0 (.vec x0))).1 = w.writeBack s (S.setX0 x0) := by
    unfold World.step
    dsimp only
    rw [h]
    rfl
  have e2 : w.writeBack s (S.setX0 x0) = { w with
        solvers := w.solvers.set s { so with P := (S.setX0 x0).P, log := (S.setX0 x0).log }
        models := w.models.modify so.model fun mo =>
          { mo with user := { mo.user with x0 := (S.setX0 x0).m.x0 }, pre := some (S.setX0 x0).m } } := by
    unfold World.writeBack
    rw [hs]
  refine ⟨⟨S'.o, (S.setX0 x0).m, S'.P, mo.smooth, S'.log⟩, ?_, rfl⟩
  rw [e, e2]
  refine solver?_of (so := so')
    (mo := { mo with user := { mo.user with x0 := (S.setX0 x0).m.x0 }, pre := some (S.setX0 x0).m })
    ?_ g2 ?_ rfl g5 rfl g7
  · dsimp only
    rw [List.getElem?_set_ne hne]
    exact hs'
  · dsimp only
    rw [List.getElem?_modify, hm, h3]
    exact congrArg some (if_pos rfl)

/-- C81 fails: creating another solver from the same model object replaces the parameter values (and all
other model data) of the existing one by those of the new one, whatever was set before. -/
theorem C81_new_solver_violated {s i j : Nat} {ci : Option Nat} {so : SolverObj} {S : Solver} {mo : ModelObj}
    {o : PreOpts} (hs : w.solvers[s]? = some so) (h : w.solver? s = some S) (hj : so.model = j)
    (ho : w.opts[i]? = some o) (hm : w.models[j]? = some mo) (hi : mo.user.initCheck = .ok ())
    (hok : (w.step colloc orc (.newSolver i j ci)).2 = .ok none) :
    ∃ S' N, (w.step colloc orc (.newSolver i j ci)).1.solver? s = some S' ∧
      (w.step colloc orc (.newSolver i j ci)).1.solver? w.solvers.length = some N ∧ S'.m = N.m ∧
      ∃ po, o.toOpts.preprocess colloc = .ok po ∧ mo.user.preprocess po = .ok S'.m := by
  obtain ⟨a, b⟩ := newSolver_create (colloc := colloc) (ci := ci) ho hm hi
  cases hS : Solver.create colloc o.toOpts mo.user (w.ocpArg ci) with
  | error e =>
    obtain ⟨⟨e', he'⟩, -⟩ := b e hS
    exact absurd (hok.symm.trans he') (by simp)
  | ok N =>
    obtain ⟨-, a2, a3⟩ := a N hS
    obtain ⟨so1, mo1, h1, h2, h3, h4, h5, h6, h7⟩ := solver?_some h
    rw [hs] at h1
    cases h1
    obtain ⟨e1, -⟩ := (makeProblem_create (colloc := colloc) (o := o) (uo := w.ocpArg ci) hi).1 N hS
    have k3 : (w.newSolver colloc i j ci).1.models[so.model]?
        = some ⟨mo.user.touched N.o, some N.m, N.smooth.or mo.smooth⟩ := by
      rw [hj]
      unfold World.newSolver
      rw [ho, hm]
      dsimp only
      rw [e1]
      exact getElem?_set_self' hm
    have k2 : ∃ o', (w.newSolver colloc i j ci).1.opts[so.opts]? = some o' := by
      rcases step_opts (colloc := colloc) (orc := orc) (.newSolver i j ci) h2 with
        e | ⟨f, -, e⟩ | ⟨_, _, _, -, -, e⟩ <;> exact ⟨_, e⟩
    obtain ⟨o', k2⟩ := k2
    have hlt := (List.getElem?_eq_some_iff.1 hs).1
    have k1 : (w.newSolver colloc i j ci).1.solvers[s]? = some so := by
      rw [a3, List.getElem?_append_left hlt]; exact hs
    refine ⟨⟨o', N.m, so.P, N.smooth.or mo.smooth, so.log⟩, _,
      solver?_of (so := so) k1 k2 k3 rfl rfl rfl rfl, a2, rfl, ?_⟩
    unfold Solver.create construct at hS
    simp only [bind_eq_ok] at hS
    obtain ⟨q, ⟨-, -, po, g1, m, g2, oc, -, P, -, hq⟩, sm, -, hN⟩ := hS
    cases hq
    cases hN
    exact ⟨po, g1, g2⟩

/-- C81: a solver never loses its options, its model or its problem. -/
theorem C81_usable (colloc : IrkScheme → Nat → List ℝ) (orc : Nat → Oracle) (ops : List Action) {s : Nat}
    (hs : s < (World.initial.run colloc orc ops).solvers.length) :
    ∃ S, (World.initial.run colloc orc ops).solver? s = some S := by
  have key : ∀ (ops : List Action) (w : World),
      (∀ (s : Nat) (so : SolverObj), w.solvers[s]? = some so → ∃ o mo m, w.opts[so.opts]? = some o ∧
        w.models[so.model]? = some mo ∧ mo.pre = some m) →
      ∀ (s : Nat) (so : SolverObj), (w.run colloc orc ops).solvers[s]? = some so →
        ∃ o mo m, (w.run colloc orc ops).opts[so.opts]? = some o ∧
        (w.run colloc orc ops).models[so.model]? = some mo ∧ mo.pre = some m := by
    intro ops
    induction ops with
    | nil => intro w h; exact h
    | cons op ops ih =>
      intro w h
      refine ih _ ?_
      intro s so hso
      rcases step_solvers_new op hso with ⟨so', h', -, e1, e2⟩ | ⟨ci, o, rfl, rfl, ho, -⟩
      · obtain ⟨o, mo, m, ho, hm, hp⟩ := h s so' h'
        rw [e1] at ho
        rw [e2] at hm
        have a1 : ∃ o', (w.step colloc orc op).1.opts[so.opts]? = some o' := by
          rcases step_opts (colloc := colloc) (orc := orc) op ho with e | ⟨f, -, e⟩ | ⟨_, _, _, -, -, e⟩ <;>
            exact ⟨_, e⟩
        obtain ⟨o', ho'⟩ := a1
        have a2 : ∃ mo' m', (w.step colloc orc op).1.models[so.model]? = some mo' ∧ mo'.pre = some m' := by
          rcases step_models (colloc := colloc) (orc := orc) op hm with
            e | ⟨oi, ci, o, -, -, e⟩ | ⟨_, _, _, S', -, -, -, -, e⟩
          · exact ⟨_, m, e, hp⟩
          · have hpre : ∃ m', (makeProblem colloc o mo (w.ocpArg ci)).mo.pre = some m' := by
              unfold makeProblem
              dsimp only
              split
              · exact ⟨m, hp⟩
              · split
                · exact ⟨m, hp⟩
                · split <;> exact ⟨_, rfl⟩
            obtain ⟨m', hm'⟩ := hpre
            exact ⟨_, m', e, hm'⟩
          · exact ⟨_, _, e, rfl⟩
        obtain ⟨mo', m', hm', hp'⟩ := a2
        exact ⟨o', mo', m', ho', hm', hp'⟩
      · have hst : (w.step colloc orc (.newSolver so.opts so.model ci)).1
            = (w.newSolver colloc so.opts so.model ci).1 := rfl
        beta_reduce at hso ⊢
        rw [hst] at hso ⊢
        unfold World.newSolver at hso ⊢
        cases hm : w.models[so.model]? with
        | none =>
          rw [ho, hm] at hso
          exact absurd (List.getElem?_eq_some_iff.1 hso).1 (lt_irrefl _)
        | some mo =>
          rw [ho, hm] at hso
          rw [ho]
          dsimp only at hso ⊢
          cases hr : (makeProblem colloc o mo (w.ocpArg ci)).res with
          | error e =>
            rw [hr] at hso
            exact absurd (List.getElem?_eq_some_iff.1 hso).1 (lt_irrefl _)
          | ok P =>
            dsimp only
            have hpre : ∃ m', (makeProblem colloc o mo (w.ocpArg ci)).mo.pre = some m' := by
              unfold makeProblem at hr ⊢
              dsimp only at hr ⊢
              split
              · rename_i hx; rw [hx] at hr; cases hr
              · rename_i hx
                rw [hx] at hr
                dsimp only at hr
                split
                · rename_i hy; rw [hy] at hr; cases hr
                · split <;> exact ⟨_, rfl⟩
            obtain ⟨m', hm'⟩ := hpre
            exact ⟨_, _, m', getElem?_set_self' ho, getElem?_set_self' hm, hm'⟩
  obtain ⟨o, mo, m, h1, h2, h3⟩ := key ops World.initial (by intro s so h; simp [World.initial] at h) s _
    (List.getElem?_eq_getElem hs)
  exact ⟨⟨o, m, _, mo.smooth, _⟩, solver?_of (List.getElem?_eq_getElem hs) h1 h2 h3 rfl rfl rfl⟩

/-- Two solvers from two model objects, or from one. -/
noncomputable def twoSolvers (mj : Nat) : List Action :=
  [.newOpts (plainOpts 1 1 1), .newOpts (plainOpts 1 1 1), .newModel (plainModel 0), .newModel (plainModel 0),
    .newSolver 0 0 none, .newSolver 1 mj none]

private theorem twoSolvers_length {mj : Nat} (hmj : mj = 0 ∨ mj = 1) :
    (World.initial.run colloc orc (twoSolvers mj)).solvers.map (fun so => (so.opts, so.model))
      = [(0, 0), (1, mj)] := by
  set w0 : World := ⟨IpoptDict.initial, [(plainOpts 1 1 1).fresh, (plainOpts 1 1 1).fresh],
    [⟨plainModel 0, none, none⟩, ⟨plainModel 0, none, none⟩], [], []⟩ with hw0
  have pl := plainOpts_plain (stages := 1) (fes := 1) one_pos one_pos one_pos
  obtain ⟨S, hS, -⟩ := plain_create colloc pl 0
  have hrun : World.initial.run colloc orc (twoSolvers mj)
      = ((w0.newSolver colloc 0 0 none).1.newSolver colloc 1 mj none).1 := rfl
  have h1 := ((newSolver_create (colloc := colloc) (w := w0) (oi := 0) (mi := 0) (ci := none) rfl rfl
    rfl).1 S hS).2.2
  have ho : (w0.newSolver colloc 0 0 none).1.opts[1]? = some (plainOpts 1 1 1).fresh := by
    rcases step_opts (w := w0) (colloc := colloc) (orc := orc) (.newSolver 0 0 none) (i := 1) rfl with
      e | ⟨f, e, -⟩ | ⟨_, _, _, e, -⟩
    · exact e
    · cases e
    · cases e
  have hm : ∃ mo, (w0.newSolver colloc 0 0 none).1.models[mj]? = some mo ∧
      Solver.create colloc (plainOpts 1 1 1) mo.user none = .ok S ∧ mo.user.initCheck = .ok () := by
    rcases hmj with rfl | rfl
    · obtain ⟨e1, -⟩ := (makeProblem_create (colloc := colloc) (o := (plainOpts 1 1 1).fresh)
        (mo := ⟨plainModel 0, none, none⟩) (uo := none) rfl).1 S hS
      have hS2 := hS
      unfold Solver.create at hS2
      simp only [bind_eq_ok] at hS2
      obtain ⟨⟨po, m, oc, P⟩, hc, sm, -, hS2⟩ := hS2
      cases hS2
      unfold construct at hc
      simp only [bind_eq_ok] at hc
      obtain ⟨-, -, po', h2, m', h3, oc', -, P', -, he⟩ := hc
      cases he
      have ht := touched_ok h3
      have hst : po.nStages = 1 := by rw [(preprocess_opts h2).toOpts]; rfl
      obtain ⟨hf, hx, -⟩ := touched_filled (plainModel 0) po
      refine ⟨⟨(plainModel 0).touched po, some m, sm⟩, ?_, ?_, ?_⟩
      · unfold World.newSolver
        have g1 : w0.opts[0]? = some (plainOpts 1 1 1).fresh := rfl
        have g2 : w0.models[0]? = some ⟨plainModel 0, none, none⟩ := rfl
        rw [g1, g2]
        dsimp only
        have g3 : w0.ocpArg none = none := rfl
        rw [g3, e1]
        cases sm <;> rfl
      · rw [← hS]
        unfold Solver.create construct
        have i1 : ((plainModel 0).touched po).initCheck = .ok () := by rw [ht]; rfl
        have i2 : (plainModel 0).initCheck = .ok () := rfl
        rw [i1, i2, h2]
        simp only [ok_bind]
        have e2 : ((plainModel 0).touched po).preprocess po = (plainModel 0).preprocess po := by
          rw [hf.preprocess (by rw [ht]; rfl), hx]
        have e3 : ∀ d, smoothFor ((plainModel 0).touched po) po d = smoothFor (plainModel 0) po d := by
          intro d
          rw [ht]
          rfl
        simp only [ok_bind, e2, e3, bind_assoc]
      · rw [ht]; rfl
    · refine ⟨⟨plainModel 0, none, none⟩, ?_, hS, rfl⟩
      rcases step_models (w := w0) (colloc := colloc) (orc := orc) (.newSolver 0 0 none) (j := 1) rfl with
        e | ⟨_, _, _, e, -⟩ | ⟨_, _, _, _, -, -, -, ⟨e, -⟩ | ⟨_, _, e, -⟩, -⟩
      · exact e
      · cases e
      · cases e
      · cases e
  obtain ⟨mo, hmo, hc, hi⟩ := hm
  have h2 := ((newSolver_create (colloc := colloc) (ci := none) ho hmo hi).1 S hc).2.2
  rw [hrun, h2, h1]
  rfl

/-- Two solvers that share nothing meet the hypotheses of `C81_alone_partial`. -/
example (x0 : List ℝ) : ∃ so S, (World.initial.run colloc orc (twoSolvers 1)).solvers[0]? = some so ∧
    (World.initial.run colloc orc (twoSolvers 1)).solver? 0 = some S ∧
    Along colloc orc (Apart so.opts so.model 0) (World.initial.run colloc orc (twoSolvers 1))
      [.set 1 .x0 (.vec x0), .solve 0] := by
  have h := twoSolvers_length (colloc := colloc) (orc := orc) (mj := 1) (.inr rfl)
  obtain ⟨S, hS⟩ := C81_usable colloc orc (twoSolvers 1) (s := 0) (by
    have := congrArg List.length h
    rw [List.length_map] at this
    rw [this]; decide)
  generalize World.initial.run colloc orc (twoSolvers 1) = w at h hS
  match hw : w.solvers with
  | [] => rw [hw] at h; cases h
  | [_] => rw [hw] at h; simp at h
  | _ :: _ :: _ :: _ => rw [hw] at h; simp at h
  | [so, so'] =>
    rw [hw] at h
    simp only [List.map_cons, List.map_nil, List.cons.injEq, Prod.mk.injEq] at h
    refine ⟨so, S, rfl, hS, ?_, .inl rfl, trivial⟩
    right
    intro so2 hso2
    rw [hw] at hso2
    cases hso2
    rw [h.1.2, h.2.1.2]
    decide

/-- Two solvers from one model object: the hypotheses of `C81_shared_model_violated` are met. -/
example : ∃ so so' S S', (World.initial.run colloc orc (twoSolvers 0)).solvers[0]? = some so ∧
    (World.initial.run colloc orc (twoSolvers 0)).solvers[1]? = some so' ∧ so'.model = so.model ∧
    (World.initial.run colloc orc (twoSolvers 0)).solver? 0 = some S ∧
    (World.initial.run colloc orc (twoSolvers 0)).solver? 1 = some S' := by
  have h := twoSolvers_length (colloc := colloc) (orc := orc) (mj := 0) (.inl rfl)
  have hl := congrArg List.length h
  rw [List.length_map] at hl
  obtain ⟨S, hS⟩ := C81_usable colloc orc (twoSolvers 0) (s := 0) (by rw [hl]; decide)
  obtain ⟨S', hS'⟩ := C81_usable colloc orc (twoSolvers 0) (s := 1) (by rw [hl]; decide)
  generalize World.initial.run colloc orc (twoSolvers 0) = w at h hS hS'
  match hw : w.solvers with
  | [] => rw [hw] at h; cases h
  | [_] => rw [hw] at h; simp at h
  | _ :: _ :: _ :: _ => rw [hw] at h; simp at h
  | [so, so'] =>
    rw [hw] at h
    simp only [List.map_cons, List.map_nil, List.cons.injEq, Prod.mk.injEq] at h
    exact ⟨so, so', S, S', rfl, rfl, h.2.1.2.trans h.1.2.symm, hS, hS'⟩

end
end Nosnoc
