import Verif.Proofs.ActiveSet
import Verif.Props.Results
/-
Helper lemmas: what one call of `solve` does.
-/
namespace Nosnoc

section
variable {colloc : IrkScheme → Nat → List ℝ} {o : Opts} {um : UserModel} {uo : Option UserOcp}
  {po : PreOpts} {m : PreModel} {oc : PreOcp} {P : Problem} {orc : Oracle} {S S1 : Solver}
  {lam00 : List ℝ}

theorem maxIter_pos {n : Nat} (h : o.maxIter = .ok n) : 0 < n := by
  unfold Opts.maxIter at h
  split at h
  · unfold autoMaxIter at h
    split at h
    · cases h; omega
    · cases h
  · cases h; omega

theorem Setup.maxIter_pos (h : Setup colloc o um uo po m oc P) : 0 < po.maxIterHomotopy :=
  Nosnoc.maxIter_pos h.built.opts.iter

theorem initGuess_length (S : Solver) : S.initGuess.1.P.form.w0.length = S.P.form.w0.length := by
  have hx : ∀ (rows : List (List FEIdx)) (x0 w : List ℝ),
      (xcurrentLoop x0 w rows).1.length = w.length := by
    intro rows
    induction rows with
    | nil => intro _ _; rfl
    | cons r rows ih =>
      intro x0 w
      rw [xcurrentLoop]
      split
      · rfl
      · dsimp only
        split
        · exact npAssignAll_length _ _
        · rw [ih]; exact npAssignAll_length _ _
  unfold Solver.initGuess
  split
  · exact hx _ _ _
  · exact hx _ _ _
  · rfl
  · split
    · rfl
    · exact npAssignAll_length _ _

theorem initialize_length (S : Solver) :
    S.initialize.1.P.form.w0.length = S.P.form.w0.length := by
  unfold Solver.initialize
  split
  · rfl
  · rw [thenReturn_fst]; exact initGuess_length S

theorem initialize_val (h : Setup colloc o um uo po m oc P) (hi : Inv po m P S)
    (hx : S.m.x0.length = um.nX) (hini : S.initialize = (S1, .ok lam00)) :
    ∃ p0, S.m.pVal[0]? = some p0 ∧ p0.length = um.nPtv + um.nPgl ∧
      lam00 = um.lam00List po.pss S.m.x0 m.z0 p0 := by
  obtain ⟨p0, h1, h2, h3⟩ := computeLambda00_ok h hi hx
  refine ⟨p0, h1, h2, ?_⟩
  unfold Solver.initialize at hini
  rw [h3] at hini
  dsimp only at hini
  unfold thenReturn at hini
  split at hini
  · simp only [Prod.mk.injEq, reduceCtorEq, and_false] at hini
  · simp only [Prod.mk.injEq, Except.ok.injEq] at hini
    exact hini.2.symm

/-- The guess of a homotopy may be replaced in the solver object it refers to. -/
theorem Homotopy.setW0 {w0 : List ℝ} {lbx ubx : List EReal} {n : Nat} {calls sols} {v : List ℝ}
    (h : Homotopy orc (S.setW0 v) lam00 w0 lbx ubx n calls sols) :
    Homotopy orc S lam00 w0 lbx ubx n calls sols :=
  ⟨h.pos, h.le, h.answer, h.first, h.warm, h.bounds, h.params, h.goOn, h.stop⟩

/-- The state of `solve` when the loop starts. -/
noncomputable def startSt (S S1 : Solver) (w0 : List ℝ) : SolveSt :=
  { log := S1.log, sigma := S.o.sigma0, w0 := w0, wAll := [S1.P.form.w0],
    cpu := List.replicate (S.o.maxIterHomotopy + if S.o.polish then 1 else 0) none,
    iter := List.replicate (S.o.maxIterHomotopy + if S.o.polish then 1 else 0) none, last := none }

/-- The result dictionary. -/
noncomputable def resultOf (S1 : Solver) (st : SolveSt) (log : List NlpCall)
    (w : List ℝ) (cpu : List (Option ℝ)) (iter : List (Option Nat)) (cost : ℝ) (status : String) :
    Solver × Except PyErr SolveResult :=
  match getResults S1.o S1.m.x0 S1.P w with
  | .error e => ({ S1 with log := log }, .error e)
  | .ok r => (if S1.o.initStrategy = .allXcurrentWoptPrev
      then ({ S1 with log := log } : Solver).setW0 w else { S1 with log := log },
      .ok { res := r, cpuTimeNlp := cpu, nlpIter := iter, wAll := st.wAll, wSol := w,
            costVal := cost, status := statusOf status })

theorem finish_nopolish {st : SolveSt} {w : List ℝ} {status : String} {cost : ℝ}
    (hp : S1.o.polish = false) (hl : st.last = some (w, status, cost)) :
    finish orc S1 lam00 st = resultOf S1 st st.log w st.cpu st.iter cost status := by
  unfold finish resultOf
  rw [hl, hp]
  rfl

theorem finish_polish {st : SolveSt} {w : List ℝ} {status : String} {cost : ℝ}
    (hp : S1.o.polish = true) (hl : st.last = some (w, status, cost)) :
    finish orc S1 lam00 st = match polish orc S1 lam00 w st.log with
      | .error e => ({ S1 with log := st.log }, .error e)
      | .ok q => resultOf S1 st q.1 q.2.x (st.cpu.set S1.o.maxIterHomotopy (some q.2.wall))
          (st.iter.set S1.o.maxIterHomotopy (some q.2.iter)) cost q.2.status := by
  unfold finish resultOf
  rw [hl, hp]
  dsimp only
  cases polish orc S1 lam00 w st.log with
  | error e => rfl
  | ok q => rfl

theorem polishLoop_ok {call : NlpCall} {ks : List Nat} {log log' : List NlpCall}
    {last last' : Option NlpSol} (h : polishLoop orc S call ks log last = .ok (log', last')) :
    log' = log ++ List.replicate ks.length call ∧
      (ks = [] → last' = last) ∧ (ks ≠ [] → last' = some (orc.sol log')) := by
  induction ks generalizing log last with
  | nil => cases h; simp
  | cons k ks ih =>
    unfold polishLoop at h
    simp only [bind_eq_ok] at h
    obtain ⟨_, _, _, _, _, _, h⟩ := h
    obtain ⟨h1, h2, h3⟩ := ih h
    refine ⟨by rw [h1, List.append_assoc, List.length_cons, List.replicate_succ]; rfl,
      fun h => absurd h (by simp), fun _ => ?_⟩
    by_cases hk : ks = []
    · subst hk; rw [h2 rfl, h1]; simp
    · exact h3 hk

/-- The NLP of the polishing step. -/
noncomputable def polishCall (S : Solver) (lam00 w : List ℝ) : NlpCall :=
  ⟨w, S.P.form.lbg, S.P.form.ubg, (polishBounds S w).lbw, (polishBounds S w).ubw,
    S.pValues lam00 0 0⟩

theorem polish_ok {w : List ℝ} {log : List NlpCall} {q : List NlpCall × NlpSol}
    (h : polish orc S lam00 w log = .ok q) :
    0 < S.o.nStages ∧ q.1 = log ++ List.replicate S.o.nStages (polishCall S lam00 w) ∧
    q.2 = orc.sol q.1 := by
  unfold polish at h
  simp only [bind_eq_ok] at h
  obtain ⟨_, -, ⟨log', last⟩, h2, h3⟩ := h
  obtain ⟨h4, h5, h6⟩ := polishLoop_ok h2
  rw [List.length_range] at h4
  dsimp only at h3
  cases hl : last with
  | none => rw [hl] at h3; cases h3
  | some sol =>
    rw [hl] at h3
    cases h3
    by_cases hn : List.range S.o.nStages = []
    · rw [h5 hn] at hl; cases hl
    · refine ⟨?_, h4, ?_⟩
      · rcases Nat.eq_zero_or_pos S.o.nStages with h0 | h0
        · rw [h0] at hn; simp at hn
        · exact h0
      · rw [h6 hn] at hl
        injection hl with hl
        exact hl.symm

/-- The run of `solve` from an initialisation that returned multipliers of the current `x0` and of some
algebraic variables and parameters. -/
theorem solveFrom_run (orc : Oracle) (h : Setup colloc o um uo po m oc P) (hi : Inv po m P S)
    (hr : Ready um S) (hog : OnlyGuess S S1) (hl : S1.P.form.w0.length = S1.P.form.w.length)
    {x z p0 : List ℝ} (hv : lam00 = um.lam00List po.pss x z p0) :
    ∃ w0 b n calls sols st, activeSet S1 lam00 = .ok (w0, b) ∧
      Homotopy orc S lam00 w0 b.lbw b.ubw n calls sols ∧
      IterSpec orc S1 lam00 b (startSt S S1 w0) calls sols n st ∧
      S.solveFrom orc (S1, .ok lam00) = finish orc S1 lam00 st ∧
      ∀ k < n, (sols k).x.length = S.P.form.w.length := by
  have hi1 : Inv po m P S1 := hog.inv hi
  have hd := (C01_index_lists_partition h).2
  obtain ⟨g, hg⟩ := exists_map hd (v := S1.P.form.w0) (by rw [hl, hi1.w])
  obtain ⟨b1, b2, b3⟩ := C04_bounds_and_guess h
  obtain ⟨w0, b, hact, hlw⟩ : ∃ w0 b, activeSet S1 lam00 = .ok (w0, b) ∧
      w0.length = S1.P.form.w.length := by
    have := activeSet_ok h hi1 x z p0 hg b1 b2
    dsimp only at this
    rw [← hv] at this
    exact ⟨_, _, this, by rw [List.length_map, hi1.w]⟩
  have hog' : S1 = S.setW0 S1.P.form.w0 := hog.eq
  have hmi : 0 < S1.o.maxIterHomotopy := by rw [hi1.opts]; exact h.maxIter_pos
  have hsolve : S.solveFrom orc (S1, .ok lam00) = finish orc S1 lam00 (solveLoop orc S1 lam00 b
      S1.o.maxIterHomotopy 0 (startSt S S1 w0)) := by
    unfold Solver.solveFrom
    dsimp only
    rw [hact]
    dsimp only
    rw [if_pos]
    · rw [hog.o]; rfl
    · refine ⟨hlw, pValues_length h hi1 (by rw [hog.m]; exact hr.x0) ?_ _ _⟩
      rw [hv]
      exact lam00List_length h _ _ _
  obtain ⟨n, calls, sols, hh, hsp⟩ := solveLoop_homotopy (orc := orc) (S := S1) (lam00 := lam00)
    (b := b) (st := startSt S S1 w0) hmi (by rw [hog.o]; rfl) rfl
  have hh : Homotopy orc S lam00 w0 b.lbw b.ubw n calls sols := by
    rw [hog'] at hh
    exact hh.setW0 (v := S1.P.form.w0)
  refine ⟨_, _, n, calls, sols, _, hact, hh, hsp, hsolve, ?_⟩
  have hcl : ∀ k < n, (calls k).x0.length = S.P.form.w.length := by
    intro k
    induction k with
    | zero => intro _; rw [hh.first, hlw, hi.w, hi1.w]
    | succ k ih =>
      intro hk
      rw [hh.warm k hk, hh.answer k (by omega), List.range_succ, List.map_append,
        ← List.append_assoc]
      show (orc.sol (_ ++ [calls k])).x.length = _
      rw [orc.len]; exact ih (by omega)
  intro k hk
  rw [hh.answer k hk, List.range_succ, List.map_append, ← List.append_assoc]
  show (orc.sol (_ ++ [calls k])).x.length = _
  rw [orc.len]; exact hcl k hk

theorem solve_run (orc : Oracle) (h : Setup colloc o um uo po m oc P) (hi : Inv po m P S)
    (hr : Ready um S) (hini : S.initialize = (S1, .ok lam00)) :
    OnlyGuess S S1 ∧ S1.P.form.w0.length = S1.P.form.w.length ∧
    ∃ w0 b n calls sols st, activeSet S1 lam00 = .ok (w0, b) ∧
      Homotopy orc S lam00 w0 b.lbw b.ubw n calls sols ∧
      IterSpec orc S1 lam00 b (startSt S S1 w0) calls sols n st ∧
      S.solve orc = finish orc S1 lam00 st ∧
      ∀ k < n, (sols k).x.length = S.P.form.w.length := by
  have hog : OnlyGuess S S1 := by have := initialize_onlyGuess S; rw [hini] at this; exact this
  have hi1 : Inv po m P S1 := hog.inv hi
  have hl : S1.P.form.w0.length = S1.P.form.w.length := by
    have := initialize_length S
    rw [hini] at this
    rw [this, hr.guess, hi.w, hi1.w]
  refine ⟨hog, hl, ?_⟩
  obtain ⟨p0, -, -, hv⟩ := initialize_val h hi hr.x0 hini
  have := solveFrom_run orc h hi hr hog hl hv
  rw [← hini] at this
  exact this

/-- The state of `solve` when the loop has ended. -/
theorem IterSpec.last' {b : Bounds} {st st' : SolveSt} {calls sols} {n : Nat}
    (h : IterSpec orc S lam00 b st calls sols n st') (hn : 0 < n) :
    st'.last = some ((sols (n - 1)).x, (sols (n - 1)).status,
      costVal S.P (sols (n - 1)).x (calls (n - 1)).p) := by
  obtain ⟨k, rfl⟩ : ∃ k, n = k + 1 := ⟨n - 1, by omega⟩
  exact h.last

end

end Nosnoc
