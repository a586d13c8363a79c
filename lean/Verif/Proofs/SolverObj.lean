import Verif.Proofs.Solve
import Verif.Proofs.Writes
import Verif.Props.Layout
/-
Helper lemmas about reachable solver objects: what stays as constructed, and initialisation.
-/
namespace Nosnoc

/-- The result of `solveFrom` after the initialisation. -/
theorem solveFrom_cases (orc : Oracle) (S : Solver) (ini : Solver × Except PyErr (List ℝ)) :
    (∃ e, S.solveFrom orc ini = (ini.1, .error e)) ∨
    ∃ lam00 w0 b, ini.2 = .ok lam00 ∧ activeSet ini.1 lam00 = .ok (w0, b) ∧
      w0.length = ini.1.P.form.w.length ∧
      (ini.1.pValues lam00 0 0).length = ini.1.P.p.length ∧
      S.solveFrom orc ini = finish orc ini.1 lam00
        (solveLoop orc ini.1 lam00 b S.o.maxIterHomotopy 0
          { log := ini.1.log, sigma := S.o.sigma0, w0 := w0,
            wAll := [ini.1.P.form.w0],
            cpu := List.replicate (S.o.maxIterHomotopy + if S.o.polish then 1 else 0) none,
            iter := List.replicate (S.o.maxIterHomotopy + if S.o.polish then 1 else 0) none,
            last := none }) := by
  unfold Solver.solveFrom
  rcases ini with ⟨S1, r⟩
  cases r with
  | error e => exact .inl ⟨e, rfl⟩
  | ok lam00 =>
    dsimp only
    cases ha : activeSet S1 lam00 with
    | error e => exact .inl ⟨e, rfl⟩
    | ok q =>
      obtain ⟨w0, b⟩ := q
      dsimp only
      split
      · rename_i hc
        exact .inr ⟨lam00, w0, b, rfl, ha, hc.1, hc.2, rfl⟩
      · exact .inl ⟨_, rfl⟩

/-- The result of `solve` after the initialisation. -/
theorem solve_cases (orc : Oracle) (S : Solver) :
    (∃ e, S.solve orc = (S.initialize.1, .error e)) ∨
    ∃ lam00 w0 b, S.initialize.2 = .ok lam00 ∧ activeSet S.initialize.1 lam00 = .ok (w0, b) ∧
      w0.length = S.initialize.1.P.form.w.length ∧
      (S.initialize.1.pValues lam00 0 0).length = S.initialize.1.P.p.length ∧
      S.solve orc = finish orc S.initialize.1 lam00
        (solveLoop orc S.initialize.1 lam00 b S.o.maxIterHomotopy 0
          { log := S.initialize.1.log, sigma := S.o.sigma0, w0 := w0,
            wAll := [S.initialize.1.P.form.w0],
            cpu := List.replicate (S.o.maxIterHomotopy + if S.o.polish then 1 else 0) none,
            iter := List.replicate (S.o.maxIterHomotopy + if S.o.polish then 1 else 0) none,
            last := none }) :=
  solveFrom_cases orc S S.initialize

/-- Nothing but the record of calls and the stored guess is changed by `finish`. -/
theorem finish_fst (orc : Oracle) (S : Solver) (lam00 : List ℝ) (st : SolveSt) :
    ∃ log, (finish orc S lam00 st).1 = { S with log := log } ∨
      (S.o.initStrategy = .allXcurrentWoptPrev ∧ ∃ r, (finish orc S lam00 st).2 = .ok r ∧
        (finish orc S lam00 st).1 = ({ S with log := log } : Solver).setW0 r.wSol) := by
  unfold finish
  dsimp only
  split
  · exact ⟨_, .inl rfl⟩
  · split
    · exact ⟨_, .inl rfl⟩
    · split
      · exact ⟨_, .inl rfl⟩
      · rename_i log w' _ _ _ _ _ _ _
        refine ⟨log, ?_⟩
        by_cases hs : S.o.initStrategy = .allXcurrentWoptPrev
        · right
          exact ⟨hs, _, rfl, by rw [if_pos hs]⟩
        · left
          rw [if_neg hs]

/-- `solve` changes the stored guess and the record of calls only. -/
theorem finish_wopt (orc : Oracle) (S : Solver) (lam00 : List ℝ) (st : SolveSt)
    (hs : S.o.initStrategy = .allXcurrentWoptPrev) {r : SolveResult}
    (hr : (finish orc S lam00 st).2 = .ok r) : (finish orc S lam00 st).1.P.form.w0 = r.wSol := by
  revert hr
  unfold finish
  dsimp only
  split
  · intro hr; cases hr
  · split
    · intro hr; cases hr
    · split
      · intro hr; cases hr
      · intro hr
        cases hr
        rw [if_pos hs]
        rfl

theorem solveFrom_only (orc : Oracle) (S : Solver) (ini : Solver × Except PyErr (List ℝ))
    (hi : OnlyGuess S ini.1) :
    (S.solveFrom orc ini).1.o = S.o ∧ (S.solveFrom orc ini).1.smooth = S.smooth ∧ (S.solveFrom orc ini).1.m = S.m ∧
    (S.solveFrom orc ini).1.P = { S.P with form := { S.P.form with w0 := (S.solveFrom orc ini).1.P.form.w0 } } := by
  rcases solveFrom_cases orc S ini with ⟨e, he⟩ | ⟨lam00, w0, b, -, -, -, -, he⟩
  · rw [he]; exact ⟨hi.o, hi.smooth, hi.m, hi.P⟩
  · rw [he]
    obtain ⟨log, h | ⟨-, r, -, h⟩⟩ := finish_fst orc ini.1 lam00
      (solveLoop orc ini.1 lam00 b S.o.maxIterHomotopy 0
          { log := ini.1.log, sigma := S.o.sigma0, w0 := w0,
            wAll := [ini.1.P.form.w0],
            cpu := List.replicate (S.o.maxIterHomotopy + if S.o.polish then 1 else 0) none,
            iter := List.replicate (S.o.maxIterHomotopy + if S.o.polish then 1 else 0) none,
            last := none })
    · rw [h]; exact ⟨hi.o, hi.smooth, hi.m, hi.P⟩
    · rw [h]
      refine ⟨hi.o, hi.smooth, hi.m, ?_⟩
      show ({ ini.1.P with form := { ini.1.P.form with w0 := r.wSol } } : Problem) = _
      rw [hi.P]; rfl

theorem solve_only (orc : Oracle) (S : Solver) :
    (S.solve orc).1.o = S.o ∧ (S.solve orc).1.smooth = S.smooth ∧ (S.solve orc).1.m = S.m ∧
    (S.solve orc).1.P = { S.P with form := { S.P.form with w0 := (S.solve orc).1.P.form.w0 } } :=
  solveFrom_only orc S S.initialize (initialize_onlyGuess S)

/-- The root finder does not touch the solver object. -/
theorem initializeRoot_onlyGuess (rf : RootFinder) (um : UserModel) (S : Solver) :
    OnlyGuess S (S.initializeRoot rf um).1 := by
  unfold Solver.initializeRoot
  split
  · exact OnlyGuess.refl S
  · unfold thenReturn
    split <;> exact initGuess_onlyGuess S

/-- What stays as constructed. -/
structure Inv (po : PreOpts) (m : PreModel) (P : Problem) (S : Solver) : Prop where
  opts : S.o = po
  model : S.m = { m with x0 := S.m.x0, pVal := S.m.pVal }
  prob : S.P = { P with form := { P.form with w0 := S.P.form.w0 } }
  pLen : S.m.pVal.length = po.nStages
  pRow : ∀ r ∈ S.m.pVal, r.length = m.dims.nPtv + m.dims.nPgl

namespace Inv
variable {po : PreOpts} {m : PreModel} {P : Problem} {S : Solver}
theorem w (h : Inv po m P S) : S.P.form.w = P.form.w := by rw [h.prob]
theorem idx (h : Inv po m P S) : S.P.idx = P.idx := by rw [h.prob]
theorem indU (h : Inv po m P S) : S.P.indU = P.indU := by rw [h.prob]
theorem indVGlobal (h : Inv po m P S) : S.P.indVGlobal = P.indVGlobal := by rw [h.prob]
theorem p (h : Inv po m P S) : S.P.p = P.p := by rw [h.prob]
theorem lbw (h : Inv po m P S) : S.P.form.lbw = P.form.lbw := by rw [h.prob]
theorem ubw (h : Inv po m P S) : S.P.form.ubw = P.form.ubw := by rw [h.prob]
theorem dims (h : Inv po m P S) : S.m.dims = m.dims := by rw [h.model]
theorem lam00 (h : Inv po m P S) : S.m.lambda00Fun = m.lambda00Fun := by rw [h.model]
theorem z0 (h : Inv po m P S) : S.m.z0 = m.z0 := by rw [h.model]

theorem of_only (h : Inv po m P S) {S' : Solver} (ho : S'.o = S.o) (hm : S'.m = S.m)
    (hP : S'.P = { S.P with form := { S.P.form with w0 := S'.P.form.w0 } }) : Inv po m P S' := by
  refine ⟨ho.trans h.opts, ?_, ?_, ?_, ?_⟩
  · rw [hm]; exact h.model
  · rw [hP, h.prob]
  · rw [hm]; exact h.pLen
  · rw [hm]; exact h.pRow
end Inv

theorem OnlyGuess.inv {po : PreOpts} {m : PreModel} {P : Problem} {S S' : Solver}
    (h : OnlyGuess S S') (hi : Inv po m P S) : Inv po m P S' := hi.of_only h.o h.m h.P

theorem bcast_length {n : Nat} {v v' : List ℝ} (h : bcast n v = .ok v') : v'.length = n := by
  unfold bcast at h
  split at h
  · cases h; assumption
  · split at h
    · cases h; simp
    · cases h

theorem timeVarLoop_shape {n k : Nat} (v : Arr) : ∀ (l : List (List ℝ)) (i : Nat),
    (∀ r ∈ l, r.length = n + k) → (timeVarLoop n v i l).1.length = l.length ∧
      ∀ r ∈ (timeVarLoop n v i l).1, r.length = n + k
  | [], _, _ => by simp [timeVarLoop]
  | r :: rs, i, h => by
    rw [timeVarLoop]
    split
    · exact ⟨rfl, h⟩
    · rename_i v' hv
      obtain ⟨h1, h2⟩ := timeVarLoop_shape (n := n) (k := k) v rs (i + 1) fun r hr =>
        h r (List.mem_cons_of_mem _ hr)
      simp only [bind_eq_ok] at hv
      obtain ⟨a, -, hb⟩ := hv
      refine ⟨by simp [h1], fun r' hr' => ?_⟩
      rcases List.mem_cons.1 hr' with rfl | hr'
      · have := h r List.mem_cons_self
        simp [setTimeVar, bcast_length hb, this]
      · exact h2 r' hr'

theorem Arr.bcast1_length {n : Nat} {a : Arr} {v : List ℝ} (h : a.bcast1 n = .ok v) :
    v.length = n := by
  cases a with
  | vec l => exact bcast_length h
  | mat r c f =>
    simp only [Arr.bcast1] at h
    split at h
    · exact bcast_length h
    · cases h

theorem Inv.set {po : PreOpts} {m : PreModel} {P : Problem} {S : Solver} (h : Inv po m P S)
    (f : Field) (v : Arr) : Inv po m P (S.set f v).1 := by
  have key : ∀ S' : Solver, S'.o = S.o → S'.m = { S.m with x0 := S'.m.x0, pVal := S'.m.pVal } →
      S'.P = S.P → S'.m.pVal.length = po.nStages →
      (∀ r ∈ S'.m.pVal, r.length = m.dims.nPtv + m.dims.nPgl) → Inv po m P S' := by
    intro S' ho hm hP h1 h2
    refine ⟨ho.trans h.opts, ?_, ?_, h1, h2⟩
    · rw [hm, h.model]
    · rw [hP, h.prob]
  cases f with
  | x0 => cases v <;> exact key _ rfl rfl rfl h.pLen h.pRow
  | x => exact (setX_onlyGuess S v).inv h
  | u => exact (setArr_onlyGuess S _ v).inv h
  | vGlobal => exact (setArr_onlyGuess S _ v).inv h
  | pGlobal =>
    simp only [Solver.set, Solver.setPGlobal]
    split
    · exact h
    · rename_i v' hv
      refine key _ rfl rfl rfl (by simp [Solver.setPVal, h.pLen]) ?_
      intro r hr
      simp only [Solver.setPVal, List.mem_map] at hr
      obtain ⟨r', hr', rfl⟩ := hr
      have := h.pRow r' hr'
      have h2 := Arr.bcast1_length hv
      rw [h.dims] at h2 ⊢
      simp [setGlobal, h2, this]
  | pTimeVar =>
    obtain ⟨h1, h2⟩ := timeVarLoop_shape (n := m.dims.nPtv) (k := m.dims.nPgl) v S.m.pVal 0 h.pRow
    rw [← h.dims] at h1 h2
    exact key _ rfl rfl rfl (h1.trans h.pLen) (by rw [← h.dims]; exact h2)
  | theta => exact (setTheta_onlyGuess S v).inv h
  | w => cases v <;> exact (onlyGuess_setW0 S _).inv h
  | other => exact h

section
variable {colloc : IrkScheme → Nat → List ℝ} {o : Opts} {um : UserModel} {uo : Option UserOcp}
  {po : PreOpts} {m : PreModel} {oc : PreOcp} {P : Problem} {orc : Oracle} {S : Solver}

theorem pValCtrl_shape {n : Nat} {pv : List (List ℝ)} (h : um.pValCtrl n = .ok pv) :
    pv.length = n ∧ ∀ r ∈ pv, r.length = um.nPtv + um.nPgl := by
  unfold UserModel.pValCtrl at h
  simp only [bind_eq_ok, check_eq_ok] at h
  obtain ⟨-, h1, -, ⟨h2, h3⟩, h⟩ := h
  cases h
  refine ⟨by simp [h2], fun r hr => ?_⟩
  obtain ⟨r', hr', rfl⟩ := List.mem_map.1 hr
  simp [h3 r' hr', h1]

theorem create_eq (h : Setup colloc o um uo po m oc P) (hc : Solver.create colloc o um uo = .ok S) :
    ∃ sm, S = ⟨po, m, P, sm, []⟩ := by
  unfold Solver.create at hc
  simp only [bind_eq_ok] at hc
  obtain ⟨q, hq, hc⟩ := hc
  rw [h.ok] at hq
  cases hq
  obtain ⟨sm, -, hc⟩ := hc
  cases hc
  exact ⟨sm, rfl⟩

theorem Reachable.inv (h : Setup colloc o um uo po m oc P)
    (hr : Reachable colloc o um uo orc S) : Inv po m P S := by
  induction hr with
  | create hc =>
    obtain ⟨sm, rfl⟩ := create_eq h hc
    obtain ⟨nC, nF, g, up, f0, acc, hp⟩ := h.built.pre
    obtain ⟨h1, h2⟩ := pValCtrl_shape hp.pVal
    obtain ⟨_, _, _, _, d5, d6, _⟩ := h.dims
    refine ⟨rfl, rfl, rfl, h1, ?_⟩
    rw [d5, d6]; exact h2
  | set f v _ ih => exact ih.set f v
  | solve _ ih =>
    obtain ⟨h1, -, h3, h4⟩ := solve_only orc _
    exact ih.of_only h1 h3 h4
  | solveRoot rf _ ih =>
    obtain ⟨h1, -, h3, h4⟩ := solveFrom_only orc _ _ (initializeRoot_onlyGuess rf um _)
    exact ih.of_only h1 h3 h4

end

end Nosnoc
