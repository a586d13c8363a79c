import Verif.Model.World
import Verif.Proofs.SolverObj
import Verif.Proofs.SolveRun
/-
Helper lemmas about the objects of a process.
-/
namespace Nosnoc
section
variable {colloc : IrkScheme → Nat → List ℝ} {orc : Nat → Oracle} {w : World}

/-! ### Filling in defaults -/

theorem orDefault_fill {α : Type} (g : Option (List α)) (n : Nat) (d : α) :
    orDefault (fill g n d) n d = orDefault g n d := by
  unfold orDefault fill
  cases g with
  | none => simp
  | some l => rfl

theorem orDefaultE_fill {α : Type} (g : Option (List α)) (n : Nat) (d : α) :
    orDefaultE (fill g n d) n d = orDefaultE g n d := by
  unfold orDefaultE fill
  cases g with
  | none => simp
  | some l => rfl

theorem lenOk_orDefault {α : Type} {g : Option (List α)} {n : Nat} {d : α} {l : List α}
    (h : orDefault g n d = .ok l) : lenOk g n = true ∧ fill g n d = some l := by
  unfold orDefault at h
  unfold lenOk fill
  cases g with
  | none => cases h; exact ⟨rfl, rfl⟩
  | some l' =>
    dsimp only at h ⊢
    split at h
    · cases h; exact ⟨by simpa, rfl⟩
    · cases h

theorem lenOk_orDefaultE {α : Type} {g : Option (List α)} {n : Nat} {d : α} {l : List α}
    (h : orDefaultE g n d = .ok l) : lenOk g n = true ∧ fill g n d = some l := by
  unfold orDefaultE at h
  unfold lenOk fill
  cases g with
  | none => cases h; exact ⟨rfl, rfl⟩
  | some l' =>
    dsimp only at h ⊢
    split at h
    · cases h; exact ⟨by simpa, rfl⟩
    · cases h

/-- `m'` is `m` with a new initial state and some defaults filled in. -/
structure Filled (m m' : UserModel) : Prop where
  eq : m' = { m with x0 := m'.x0, z0 := m'.z0, lbz := m'.lbz, ubz := m'.ubz, pTimeVarVal := m'.pTimeVarVal }
  z0 : orDefault m'.z0 m.nZ 0 = orDefault m.z0 m.nZ 0
  lbz : orDefault m'.lbz m.nZ ⊥ = orDefault m.lbz m.nZ ⊥
  ubz : orDefault m'.ubz m.nZ ⊤ = orDefault m.ubz m.nZ ⊤

theorem Filled.refl (m : UserModel) : Filled m m := ⟨rfl, rfl, rfl, rfl⟩

theorem Filled.setX0 {m m' : UserModel} (h : Filled m m') (x0 : List ℝ) :
    Filled m { m' with x0 := x0 } := by
  refine ⟨?_, h.z0, h.lbz, h.ubz⟩
  have := h.eq
  dsimp only
  rw [this]

theorem Filled.trans {m m' m'' : UserModel} (h : Filled m m') (h' : Filled m' m'') : Filled m m'' := by
  have e1 := h.eq
  have e2 := h'.eq
  have hz : m'.nZ = m.nZ := by rw [e1]
  refine ⟨?_, ?_, ?_, ?_⟩
  · rw [e1] at e2
    exact e2
  · have := h'.z0
    rw [hz] at this
    rw [this, h.z0]
  · have := h'.lbz
    rw [hz] at this
    rw [this, h.lbz]
  · have := h'.ubz
    rw [hz] at this
    rw [this, h.ubz]

/-- What `preprocess_model` leaves behind. -/
theorem touched_filled (m : UserModel) (o : PreOpts) : Filled m (m.touched o) ∧
    (m.touched o).x0 = m.x0 ∧
    ((m.touched o).pTimeVarVal = m.pTimeVarVal ∨ (m.touched o).pTimeVarVal = some (m.ptv o.nStages)) := by
  unfold UserModel.touched
  dsimp only
  have f1 := orDefault_fill m.z0 m.nZ 0
  have f2 := orDefault_fill m.lbz m.nZ ⊥
  have f3 := orDefault_fill m.ubz m.nZ ⊤
  split
  · exact ⟨⟨rfl, rfl, rfl, rfl⟩, rfl, .inl rfl⟩
  · split
    · exact ⟨⟨rfl, f1, rfl, rfl⟩, rfl, .inl rfl⟩
    · split
      · exact ⟨⟨rfl, f1, f2, rfl⟩, rfl, .inl rfl⟩
      · split
        · split
          · exact ⟨⟨rfl, f1, f2, f3⟩, rfl, .inr rfl⟩
          · exact ⟨⟨rfl, f1, f2, f3⟩, rfl, .inl rfl⟩
        · exact ⟨⟨rfl, f1, f2, f3⟩, rfl, .inl rfl⟩

/-- After a successful `preprocess_model` all defaults are stored. -/
theorem touched_ok {m : UserModel} {o : PreOpts} {pm : PreModel} (h : m.preprocess o = .ok pm) :
    m.touched o = { m with z0 := some pm.z0, lbz := some pm.lbz, ubz := some pm.ubz,
                           pTimeVarVal := some (m.ptv o.nStages) } := by
  obtain ⟨nC, nF, g, up, f0, acc, hp⟩ := preprocess_pre h
  obtain ⟨a1, a2⟩ := lenOk_orDefault hp.z0
  obtain ⟨b1, b2⟩ := lenOk_orDefault hp.lbz
  obtain ⟨c1, c2⟩ := lenOk_orDefault hp.ubz
  have hg : m.pGlobalVal.length = m.nPgl := by
    have hpv := hp.pVal
    unfold UserModel.pValCtrl at hpv
    simp only [bind_eq_ok, check_eq_ok] at hpv
    obtain ⟨_, h1, -⟩ := hpv
    exact h1
  unfold UserModel.touched
  rw [a1, b1, c1, a2, b2, c2, hp.hnC, hp.hnF]
  dsimp only
  rw [if_neg (by decide), if_neg (by decide), if_neg (by decide), if_pos hg]

/-- Preprocessing a model with filled-in defaults. -/
theorem Filled.preprocess {m m' : UserModel} (h : Filled m m') {o : PreOpts}
    (hp : m'.ptv o.nStages = m.ptv o.nStages) :
    m'.preprocess o = ({ m with x0 := m'.x0 } : UserModel).preprocess o := by
  have h1 := h.z0
  have h2 := h.lbz
  have h3 := h.ubz
  have e := h.eq
  generalize hx : m'.x0 = x0 at e ⊢
  generalize m'.z0 = z0 at e h1
  generalize m'.lbz = lbz at e h2
  generalize m'.ubz = ubz at e h3
  have h4 : m'.pValCtrl o.nStages = ({ m with x0 := x0 } : UserModel).pValCtrl o.nStages := by
    unfold UserModel.pValCtrl
    rw [hp, e]
    rfl
  generalize m'.pTimeVarVal = V at e
  subst e
  unfold UserModel.preprocess
  dsimp only
  rw [h1, h2, h3, h4]
  rfl

/-! ### Options -/

/-- What preprocessing of the options leaves behind. -/
theorem preprocessed_opts (o : PreOpts) : ∃ k l, (o.preprocessed colloc).1.toOpts
    = { o.toOpts with maxIterHomotopy := k, nfeList := l } ∧
      (k = o.maxIterHomotopy ∨ o.maxIterHomotopy = 0) ∧
      (l = o.nfeList ∨ o.nfeList = [] ∧ l = List.replicate o.nStages o.nFe) := by
  have hl : ∀ o : Opts, o.nfeAfter = o.nfeList ∨
      o.nfeList = [] ∧ o.nfeAfter = List.replicate o.nStages o.nFe := by
    intro o
    unfold Opts.nfeAfter
    split
    · rename_i h
      exact .inr ⟨List.eq_nil_of_length_eq_zero h, rfl⟩
    · exact .inl rfl
  have hk : ∀ {o : Opts} {k : Nat}, o.maxIter = .ok k → k = o.maxIterHomotopy ∨ o.maxIterHomotopy = 0 := by
    intro o k h
    unfold Opts.maxIter at h
    split at h
    · exact .inr ‹_›
    · cases h; exact .inl rfl
  unfold PreOpts.preprocessed
  split
  · exact ⟨_, _, rfl, .inl rfl, .inl rfl⟩
  · split
    · exact ⟨_, _, rfl, hk ‹_›, hl _⟩
    · rename_i k h1 po h2
      have hp := preprocess_opts h2
      exact ⟨_, _, hp.toOpts, hk hp.iter, hl _⟩

theorem preprocessed_ok {o : PreOpts} {po : PreOpts} (h : o.toOpts.preprocess colloc = .ok po) :
    o.preprocessed colloc = (po, none) := by
  unfold PreOpts.preprocessed
  rw [(preprocess_opts h).iter, h]

theorem preprocessed_error {o : PreOpts} {e : PyErr} (h : o.toOpts.preprocess colloc = .error e) :
    (o.preprocessed colloc).2 = some e := by
  unfold PreOpts.preprocessed
  cases hm : o.toOpts.maxIter with
  | ok k => dsimp only; rw [h]
  | error e' =>
    dsimp only
    unfold Opts.preprocess at h
    rw [hm] at h
    exact congrArg some (Except.error.inj h)

/-! ### Creating a solver -/

/-- Creating a solver from objects is `Solver.create` on their present values. -/
theorem makeProblem_create {o : PreOpts} {mo : ModelObj} {uo : Option UserOcp}
    (hi : mo.user.initCheck = .ok ()) :
    (∀ S, Solver.create colloc o.toOpts mo.user uo = .ok S →
      makeProblem colloc o mo uo = ⟨S.o, ⟨mo.user.touched S.o, some S.m, S.smooth.or mo.smooth⟩,
        uo.map (UserOcp.touched · S.m.dims), .ok S.P⟩ ∧ S.log = []) ∧
    (∀ e, Solver.create colloc o.toOpts mo.user uo = .error e →
      ∃ e', (makeProblem colloc o mo uo).res = .error e') := by
  have key : Solver.create colloc o.toOpts mo.user uo = (do
      let po ← o.toOpts.preprocess colloc
      let m ← mo.user.preprocess po
      let oc ← (uo.getD UserOcp.trivial).preprocess m
      let p ← build po m oc uo.isNone
      let sm ← smoothFor mo.user po m.dims
      .ok ⟨po, m, p, sm, []⟩) := by
    unfold Solver.create construct
    rw [hi]
    simp only [ok_bind, bind_assoc]
  constructor
  · intro S hS
    rw [key] at hS
    simp only [bind_eq_ok] at hS
    obtain ⟨po, h1, m, h2, oc, h3, p, h4, sm, h5, h6⟩ := hS
    cases h6
    refine ⟨?_, rfl⟩
    unfold makeProblem
    rw [preprocessed_ok h1]
    dsimp only
    rw [h2]
    dsimp only
    rw [h5]
    dsimp only
    rw [h3, ok_bind, h4]
  · intro e hS
    rw [key] at hS
    unfold makeProblem
    cases h1 : o.toOpts.preprocess colloc with
    | error e1 => dsimp only; rw [preprocessed_error h1]; exact ⟨_, rfl⟩
    | ok po =>
      rw [h1, ok_bind] at hS
      rw [preprocessed_ok h1]
      dsimp only
      cases h2 : mo.user.preprocess po with
      | error e2 => exact ⟨_, rfl⟩
      | ok m =>
        rw [h2, ok_bind] at hS
        dsimp only
        cases h5 : smoothFor mo.user po m.dims with
        | error e5 => exact ⟨_, rfl⟩
        | ok sm =>
          dsimp only
          cases h3 : (uo.getD UserOcp.trivial).preprocess m with
          | error e3 => exact ⟨_, rfl⟩
          | ok oc =>
            rw [h3, ok_bind] at hS
            rw [ok_bind]
            cases h4 : build po m oc uo.isNone with
            | error e4 => exact ⟨_, rfl⟩
            | ok p =>
              rw [h4, ok_bind, h5, ok_bind] at hS
              cases hS

theorem getElem?_set_self' {α : Type} {l : List α} {i : Nat} {a b : α} (h : l[i]? = some a) :
    (l.set i b)[i]? = some b := by
  rw [List.getElem?_set_self]
  exact (List.getElem?_eq_some_iff.1 h).1

/-- In the process: a solver is created, or an exception is raised and no solver is created. -/
theorem newSolver_create {oi mi : Nat} {ci : Option Nat} {o : PreOpts} {mo : ModelObj}
    (ho : w.opts[oi]? = some o) (hm : w.models[mi]? = some mo) (hi : mo.user.initCheck = .ok ()) :
    (∀ S, Solver.create colloc o.toOpts mo.user (w.ocpArg ci) = .ok S →
      (w.newSolver colloc oi mi ci).2 = .ok none ∧
      (w.newSolver colloc oi mi ci).1.solver? w.solvers.length
        = some { S with smooth := S.smooth.or mo.smooth } ∧
      (w.newSolver colloc oi mi ci).1.solvers = w.solvers ++
        [⟨oi, mi, S.P, [], w.ipopt.defaultTol o.compTol⟩]) ∧
    (∀ e, Solver.create colloc o.toOpts mo.user (w.ocpArg ci) = .error e →
      (∃ e', (w.newSolver colloc oi mi ci).2 = .error e') ∧
      (w.newSolver colloc oi mi ci).1.solvers = w.solvers) := by
  obtain ⟨h1, h2⟩ := makeProblem_create (colloc := colloc) (o := o) (uo := w.ocpArg ci) hi
  constructor
  · intro S hS
    obtain ⟨e1, e2⟩ := h1 S hS
    unfold World.newSolver
    rw [ho, hm]
    dsimp only
    rw [e1]
    dsimp only
    refine ⟨rfl, ?_, rfl⟩
    unfold World.solver?
    dsimp only
    rw [List.getElem?_concat_length]
    simp only [Option.bind_eq_bind, Option.bind_some]
    rw [getElem?_set_self' ho, getElem?_set_self' hm]
    simp only [Option.bind_some]
    rw [← e2]
  · intro e hS
    obtain ⟨e', he⟩ := h2 e hS
    unfold World.newSolver
    rw [ho, hm]
    dsimp only
    rw [he]
    exact ⟨⟨_, rfl⟩, rfl⟩

end
end Nosnoc
