import Verif.Proofs.SolveRun
import Verif.Proofs.Accept
/-
Helper lemmas: a solver that answers by the current call only, and repeated solves.
-/
namespace Nosnoc

/-- The same object with another record of calls. -/
def Solver.withLog (S : Solver) (l : List NlpCall) : Solver := { S with log := l }

/-- The loop body, given the answer of the NLP solver. -/
noncomputable def bodyWith (S : Solver) (sol : NlpSol) (call : NlpCall) (ii : Nat) (st : SolveSt) :
    SolveSt × Bool :=
  let st' : SolveSt :=
    { st with log := st.log ++ [call], cpu := st.cpu.set ii (some sol.tProc),
              iter := st.iter.set ii (some sol.iter), w0 := sol.x, wAll := st.wAll ++ [sol.x],
              last := some (sol.x, sol.status, costVal S.P sol.x call.p) }
  if S.P.compRes (S.P.point sol.x call.p) < S.o.compTol then (st', true)
  else if st.sigma ≤ S.o.sigmaN then (st', true)
  else ({ st' with sigma := sigmaUpdate S.o.toOpts st.sigma }, false)

theorem bodyWith_log (S : Solver) (sol : NlpSol) (call : NlpCall) (ii : Nat) (st : SolveSt)
    (pre : List NlpCall) :
    bodyWith S sol call ii { st with log := pre ++ st.log }
      = ({ (bodyWith S sol call ii st).1 with log := pre ++ (bodyWith S sol call ii st).1.log },
          (bodyWith S sol call ii st).2) := by
  unfold bodyWith
  by_cases h1 : S.P.compRes (S.P.point sol.x call.p) < S.o.compTol <;>
  by_cases h2 : st.sigma ≤ S.o.sigmaN <;>
  simp only [h1, h2, if_true, if_false, List.append_assoc]

theorem solveBody_with (orc : Oracle) (S : Solver) (lam00 : List ℝ) (b : Bounds) (ii : Nat)
    (st : SolveSt) : solveBody orc S lam00 b ii st
      = bodyWith S (orc.sol (st.log ++ [callOf S lam00 b st])) (callOf S lam00 b st) ii st := rfl

theorem solveLoop_log {orc : Oracle} (hd : ∀ log c, orc.sol (log ++ [c]) = orc.sol [c])
    (S : Solver) (lam00 : List ℝ) (b : Bounds) (pre l : List NlpCall) (n ii : Nat) (st : SolveSt) :
    solveLoop orc (S.withLog l) lam00 b n ii { st with log := pre ++ st.log }
      = { solveLoop orc S lam00 b n ii st with
            log := pre ++ (solveLoop orc S lam00 b n ii st).log } := by
  induction n generalizing ii st with
  | zero => rfl
  | succ n ih =>
    have hb : solveBody orc (S.withLog l) lam00 b ii { st with log := pre ++ st.log }
        = ({ (solveBody orc S lam00 b ii st).1 with
              log := pre ++ (solveBody orc S lam00 b ii st).1.log },
            (solveBody orc S lam00 b ii st).2) := by
      rw [solveBody_with, solveBody_with, hd, hd st.log]
      exact bodyWith_log S _ _ ii st pre
    rw [solveLoop, hb]
    dsimp only
    rw [solveLoop]
    split
    · rfl
    · exact ih _ _

theorem polishLoop_log {orc : Oracle} (hd : ∀ log c, orc.sol (log ++ [c]) = orc.sol [c])
    (S : Solver) (call : NlpCall) (pre l : List NlpCall) (ks : List Nat) (log : List NlpCall)
    (last : Option NlpSol) :
    polishLoop orc (S.withLog l) call ks (pre ++ log) last
      = (polishLoop orc S call ks log last).map fun q => (pre ++ q.1, q.2) := by
  induction ks generalizing log last with
  | nil => rfl
  | cons k ks ih =>
    rw [polishLoop, polishLoop, hd, hd log]
    dsimp only [Solver.withLog]
    cases h1 : listGet S.P.idx k with
    | error e => rfl
    | ok row =>
      simp only [Bind.bind, Except.bind]
      cases h2 : listGet S.o.nfeList k with
      | error e => rfl
      | ok n =>
        dsimp only
        split
        · rfl
        · rw [List.append_assoc]; exact ih _ _

theorem polish_log {orc : Oracle} (hd : ∀ log c, orc.sol (log ++ [c]) = orc.sol [c])
    (S : Solver) (lam00 w : List ℝ) (pre l log : List NlpCall) :
    polish orc (S.withLog l) lam00 w (pre ++ log)
      = (polish orc S lam00 w log).map fun q => (pre ++ q.1, q.2) := by
  have key := polishLoop_log hd S (polishCall S lam00 w) pre l (List.range S.o.nStages) log none
  unfold polish
  show (do
    check _ _
    let (log', last) ← polishLoop orc (S.withLog l) (polishCall S lam00 w)
      (List.range S.o.nStages) (pre ++ log) none
    match last with
    | some sol => Except.ok (log', sol)
    | none => .error .unboundLocal) = Except.map _ (do
    check _ _
    let (log', last) ← polishLoop orc S (polishCall S lam00 w)
      (List.range S.o.nStages) log none
    match last with
    | some sol => Except.ok (log', sol)
    | none => .error .unboundLocal)
  rw [key]
  by_cases hc : ∀ iw < w.length, iw ∈ S.P.polishSet ++ S.P.polishKeep
  · rw [check_pos (show ∀ iw < w.length, iw ∈ (S.withLog l).P.polishSet ++ (S.withLog l).P.polishKeep
      from hc), check_pos hc]
    cases polishLoop orc S (polishCall S lam00 w) (List.range S.o.nStages) log none with
    | error e => rfl
    | ok q =>
      obtain ⟨a, b⟩ := q
      cases b <;> rfl
  · have e : ∀ (p : Prop) [Decidable p] (e : PyErr), ¬ p → check p e = .error e := by
      intro p _ e hp; simp [check, hp]
    rw [e _ _ (show ¬ ∀ iw < w.length, iw ∈ (S.withLog l).P.polishSet ++ (S.withLog l).P.polishKeep
      from hc), e _ _ hc]
    rfl

theorem resultOf_log (S : Solver) (st : SolveSt) (pre l log : List NlpCall) (w cpu iter cost status) :
    resultOf (S.withLog l) { st with log := pre ++ st.log } (pre ++ log) w cpu iter cost status
      = ((resultOf S st log w cpu iter cost status).1.withLog
            (pre ++ (resultOf S st log w cpu iter cost status).1.log),
          (resultOf S st log w cpu iter cost status).2) := by
  unfold resultOf
  dsimp only [Solver.withLog]
  cases getResults S.o S.m.x0 S.P w with
  | error e => rfl
  | ok r =>
    dsimp only
    by_cases hs : S.o.initStrategy = .allXcurrentWoptPrev <;> simp only [hs, if_true, if_false] <;> rfl

theorem finish_log {orc : Oracle} (hd : ∀ log c, orc.sol (log ++ [c]) = orc.sol [c])
    (S : Solver) (lam00 : List ℝ) (pre l : List NlpCall) (st : SolveSt) :
    finish orc (S.withLog l) lam00 { st with log := pre ++ st.log }
      = ((finish orc S lam00 st).1.withLog (pre ++ (finish orc S lam00 st).1.log),
          (finish orc S lam00 st).2) := by
  obtain ⟨st', hst⟩ : ∃ st' : SolveSt, st' = { st with log := pre ++ st.log } := ⟨_, rfl⟩
  have hlast : st'.last = st.last := by rw [hst]
  rw [← hst]
  rcases hl : st.last with _ | ⟨w, status, cost⟩
  · rw [hst]; unfold finish; dsimp only; rw [hl]; rfl
  · have hl' : st'.last = some (w, status, cost) := hlast.trans hl
    cases hp : S.o.polish with
    | false =>
      rw [finish_nopolish (S1 := S) hp hl, finish_nopolish (S1 := S.withLog l) hp hl', hst]
      exact resultOf_log S st pre l st.log _ _ _ _ _
    | true =>
      rw [finish_polish (S1 := S) hp hl, finish_polish (S1 := S.withLog l) hp hl', hst,
        polish_log hd]
      cases polish orc S lam00 w st.log with
      | error e => rfl
      | ok q => exact resultOf_log S st pre l q.1 _ _ _ _ _

theorem rk4Loop_log (S : Solver) (l : List NlpCall) (sm f p0 grid) (fis : List FEIdx) (x : List ℝ) :
    rk4Loop (S.withLog l) sm f p0 grid fis x = rk4Loop S sm f p0 grid fis x := by
  induction fis generalizing x with
  | nil => rfl
  | cons fi fis ih =>
    rw [rk4Loop, rk4Loop]
    simp only [ih]
    rfl

theorem initialize_log (S : Solver) (l : List NlpCall) :
    (S.withLog l).initialize = (S.initialize.1.withLog l, S.initialize.2) := by
  have hr : rk4Writes (S.withLog l) = rk4Writes S := by
    unfold rk4Writes
    simp only [rk4Loop_log]
    rfl
  have hg : (S.withLog l).initGuess = (S.initGuess.1.withLog l, S.initGuess.2) := by
    unfold Solver.initGuess
    rw [hr]
    have : (S.withLog l).o = S.o := rfl
    rw [this]
    cases S.o.initStrategy with
    | external => rfl
    | allXcurrentW0Start => rfl
    | allXcurrentWoptPrev => rfl
    | rk4Smoothened =>
      dsimp only
      cases rk4Writes S with
      | error e => rfl
      | ok q => rfl
  unfold Solver.initialize
  rw [hg]
  have : (S.withLog l).m = S.m := rfl
  rw [this]
  cases S.m.computeLambda00 with
  | error e => rfl
  | ok v =>
    dsimp only
    unfold thenReturn
    cases S.initGuess.2 <;> rfl

/-- `solve` with another record of calls: the same, the record being extended. -/
theorem solve_log {orc : Oracle} (hd : ∀ log c, orc.sol (log ++ [c]) = orc.sol [c]) (S : Solver)
    (l : List NlpCall) :
    (S.withLog l).solve orc
      = (((S.withLog []).solve orc).1.withLog (l ++ ((S.withLog []).solve orc).1.log),
          ((S.withLog []).solve orc).2) := by
  have h0 : ∀ S : Solver, S.withLog S.log = S := fun S => rfl
  have hh : ∀ (S : Solver) (a b : List NlpCall), (S.withLog a).withLog b = S.withLog b :=
    fun S a b => rfl
  have key : ∀ T : Solver, T.log = [] → (T.withLog l).solve orc
      = ((T.solve orc).1.withLog (l ++ (T.solve orc).1.log), (T.solve orc).2) := by
    intro T hT
    unfold Solver.solve Solver.solveFrom
    rw [initialize_log]
    have hlog : T.initialize.1.log = [] := (initialize_onlyGuess T).log.trans hT
    rcases hi : T.initialize with ⟨S1, r⟩
    rw [hi] at hlog
    dsimp only at hlog ⊢
    cases r with
    | error e => dsimp only; rw [hlog, List.append_nil]
    | ok lam00 =>
      dsimp only
      have ha : activeSet (S1.withLog l) lam00 = activeSet S1 lam00 := rfl
      rw [ha]
      cases activeSet S1 lam00 with
      | error e => dsimp only; rw [hlog, List.append_nil]
      | ok q =>
        obtain ⟨w0, b⟩ := q
        dsimp only
        have hc : (w0.length = (S1.withLog l).P.form.w.length ∧
            ((S1.withLog l).pValues lam00 0 0).length = (S1.withLog l).P.p.length)
            = (w0.length = S1.P.form.w.length ∧
              (S1.pValues lam00 0 0).length = S1.P.p.length) := rfl
        by_cases hcond : w0.length = S1.P.form.w.length ∧
              (S1.pValues lam00 0 0).length = S1.P.p.length
        · rw [if_pos (hc ▸ hcond), if_pos hcond]
          have := solveLoop_log hd S1 lam00 b l l T.o.maxIterHomotopy 0 (startSt T S1 w0)
          have h2 := finish_log hd S1 lam00 l l
            (solveLoop orc S1 lam00 b T.o.maxIterHomotopy 0 (startSt T S1 w0))
          refine Eq.trans ?_ h2
          rw [← this]
          unfold startSt
          dsimp only
          rw [hlog, List.append_nil]
          rfl
        · rw [if_neg (hc ▸ hcond), if_neg hcond]
          dsimp only; rw [hlog, List.append_nil]
  exact key (S.withLog []) rfl

end Nosnoc
