import Verif.Spec.Solve
import Verif.Proofs.Bind
/-
Helper lemmas about the solver object and the homotopy loop.
-/
namespace Nosnoc

theorem SameProblem.refl (S : Solver) : SameProblem S S := ⟨rfl, rfl, rfl, rfl⟩

theorem SameProblem.trans {A B C : Solver} (h : SameProblem A B) (h' : SameProblem B C) :
    SameProblem A C := by
  refine ⟨h'.o.trans h.o, h'.smooth.trans h.smooth, ?_, ?_⟩
  · rw [h'.m]; rw [h.m]
  · rw [h'.P]; rw [h.P]

theorem same_setW0 (S : Solver) (w : List ℝ) : SameProblem S (S.setW0 w) := ⟨rfl, rfl, rfl, rfl⟩
theorem same_setX0 (S : Solver) (w : List ℝ) : SameProblem S (S.setX0 w) := ⟨rfl, rfl, rfl, rfl⟩
theorem same_setPVal (S : Solver) (w : List (List ℝ)) : SameProblem S (S.setPVal w) :=
  ⟨rfl, rfl, rfl, rfl⟩
theorem same_log (S : Solver) (l : List NlpCall) : SameProblem S { S with log := l } :=
  ⟨rfl, rfl, rfl, rfl⟩

/-! ### What `set` changes -/

/-- `set` of a guess changes nothing but the guess. -/
structure OnlyGuess (S S' : Solver) : Prop where
  o : S'.o = S.o
  smooth : S'.smooth = S.smooth
  m : S'.m = S.m
  P : S'.P = { S.P with form := { S.P.form with w0 := S'.P.form.w0 } }
  log : S'.log = S.log

theorem OnlyGuess.refl (S : Solver) : OnlyGuess S S := ⟨rfl, rfl, rfl, rfl, rfl⟩
theorem OnlyGuess.same {S S' : Solver} (h : OnlyGuess S S') : SameProblem S S' :=
  ⟨h.o, h.smooth, by rw [h.m], h.P⟩
theorem onlyGuess_setW0 (S : Solver) (w : List ℝ) : OnlyGuess S (S.setW0 w) :=
  ⟨rfl, rfl, rfl, rfl, rfl⟩
theorem OnlyGuess.eq {S S' : Solver} (h : OnlyGuess S S') : S' = S.setW0 S'.P.form.w0 := by
  cases S; cases S'
  obtain ⟨h1, h2, h3, h4, h5⟩ := h
  simp only [Solver.setW0] at *
  subst h1 h2 h3 h5
  rw [h4]

theorem write_onlyGuess (S : Solver) (l) : OnlyGuess S (S.write l).1 := onlyGuess_setW0 _ _

theorem writeRows_onlyGuess (S : Solver) (v l) : OnlyGuess S (S.writeRows v l).1 := by
  unfold Solver.writeRows
  split
  · exact .refl S
  · exact write_onlyGuess _ _

theorem warn_fst (S : Solver) : S.warn.1 = S := rfl

theorem thenWarn_fst (r : Outcome) : (thenWarn r).1 = r.1 := by
  unfold thenWarn; split <;> rfl

theorem thenReturn_fst {α : Type} (r : Outcome) (a : α) : (thenReturn r a).1 = r.1 := by
  unfold thenReturn; split <;> rfl

theorem setX_onlyGuess (S : Solver) (v) : OnlyGuess S (S.setX v).1 := by
  unfold Solver.setX
  rw [thenWarn_fst]
  unfold Solver.setXWrites
  split
  · exact writeRows_onlyGuess _ _ _
  · split
    · exact writeRows_onlyGuess _ _ _
    · exact .refl S

theorem setArr_onlyGuess (S : Solver) (ix v) : OnlyGuess S (S.setArr ix v).1 := by
  unfold Solver.setArr
  split
  · exact .refl S
  · exact write_onlyGuess _ _

theorem setTheta_onlyGuess (S : Solver) (v) : OnlyGuess S (S.setTheta v).1 := by
  unfold Solver.setTheta
  split
  · split
    · exact .refl S
    · exact write_onlyGuess _ _
  · exact .refl S

theorem set_same (S : Solver) (f : Field) (v : Arr) : SameProblem S (S.set f v).1 := by
  cases f with
  | x0 => cases v <;> exact same_setX0 _ _
  | x => exact (setX_onlyGuess S v).same
  | u => exact (setArr_onlyGuess S _ v).same
  | vGlobal => exact (setArr_onlyGuess S _ v).same
  | pGlobal =>
    simp only [Solver.set, Solver.setPGlobal]
    split
    · exact .refl S
    · exact same_setPVal _ _
  | pTimeVar => exact same_setPVal _ _
  | theta => exact (setTheta_onlyGuess S v).same
  | w => cases v <;> exact same_setW0 _ _
  | other => exact .refl S

/-! ### initialize and solve -/

theorem initGuess_onlyGuess (S : Solver) : OnlyGuess S S.initGuess.1 := by
  unfold Solver.initGuess
  split
  · exact onlyGuess_setW0 _ _
  · exact onlyGuess_setW0 _ _
  · exact .refl S
  · split
    · exact .refl S
    · exact write_onlyGuess _ _

theorem initialize_onlyGuess (S : Solver) : OnlyGuess S S.initialize.1 := by
  unfold Solver.initialize
  split
  · exact .refl S
  · rw [thenReturn_fst]; exact initGuess_onlyGuess S

/-! ### The homotopy loop -/

section
variable (orc : Oracle) (S : Solver) (lam00 : List ℝ) (b : Bounds)

/-- The states of the loop if it never stopped. -/
noncomputable def iterSt (st : SolveSt) (ii : Nat) : Nat → SolveSt
  | 0 => st
  | k + 1 => (solveBody orc S lam00 b (ii + k) (iterSt st ii k)).1

theorem iterSt_succ (st : SolveSt) (ii k : Nat) :
    iterSt orc S lam00 b (solveBody orc S lam00 b ii st).1 (ii + 1) k
      = iterSt orc S lam00 b st ii (k + 1) := by
  induction k with
  | zero => simp [iterSt]
  | succ k ih =>
    rw [iterSt, ih, iterSt.eq_def _ _ _ _ _ _ (k + 1 + 1)]
    simp only [show ii + 1 + k = ii + (k + 1) from by omega]

theorem solveLoop_eq (n ii : Nat) (st : SolveSt) (hn : 0 < n) :
    ∃ m, 0 < m ∧ m ≤ n ∧ solveLoop orc S lam00 b n ii st = iterSt orc S lam00 b st ii m ∧
      (∀ k, k + 1 < m →
        (solveBody orc S lam00 b (ii + k) (iterSt orc S lam00 b st ii k)).2 = false) ∧
      ((solveBody orc S lam00 b (ii + (m - 1)) (iterSt orc S lam00 b st ii (m - 1))).2 = true ∨
        m = n) := by
  induction n generalizing ii st with
  | zero => omega
  | succ n ih =>
    rw [solveLoop]
    by_cases hbr : (solveBody orc S lam00 b ii st).2 = true
    · refine ⟨1, by omega, by omega, ?_, by intro k hk; omega, Or.inl ?_⟩
      · rw [if_pos hbr]; rfl
      · exact hbr
    · rw [if_neg hbr]
      by_cases h0 : n = 0
      · subst h0
        exact ⟨1, by omega, by omega, rfl, by intro k hk; omega, Or.inr rfl⟩
      · obtain ⟨m, h1, h2, h3, h4, h5⟩ := ih (ii + 1) (solveBody orc S lam00 b ii st).1 (by omega)
        refine ⟨m + 1, by omega, by omega, ?_, ?_, ?_⟩
        · rw [h3, iterSt_succ]
        · intro k hk
          cases k with
          | zero => simpa [iterSt] using hbr
          | succ k =>
            have := h4 k (by omega)
            rw [iterSt_succ] at this
            rwa [show ii + (k + 1) = ii + 1 + k from by omega]
        · rcases h5 with h5 | h5
          · left
            rw [iterSt_succ, show ii + 1 + (m - 1) = ii + m from by omega,
              show m - 1 + 1 = m from by omega] at h5
            simpa using h5
          · right; omega

/-- The call made in state `st`. -/
noncomputable def callOf (st : SolveSt) : NlpCall :=
  ⟨st.w0, S.P.form.lbg, S.P.form.ubg, b.lbw, b.ubw, S.pValues lam00 st.sigma (tauOf st.sigma)⟩

theorem solveBody_snd (ii : Nat) (st : SolveSt) :
    (solveBody orc S lam00 b ii st).2 = true ↔
      (S.P.compRes (S.P.point (orc.sol (st.log ++ [callOf S lam00 b st])).x
        (callOf S lam00 b st).p) < S.o.compTol ∨ st.sigma ≤ S.o.sigmaN) := by
  unfold solveBody
  simp only [callOf]
  split
  · simp [*]
  · split <;> simp [*]

theorem solveBody_fst (ii : Nat) (st : SolveSt) :
    let r := (solveBody orc S lam00 b ii st).1
    let sol := orc.sol (st.log ++ [callOf S lam00 b st])
    r.log = st.log ++ [callOf S lam00 b st] ∧ r.w0 = sol.x ∧ r.wAll = st.wAll ++ [sol.x] ∧
    r.cpu = st.cpu.set ii (some sol.tProc) ∧ r.iter = st.iter.set ii (some sol.iter) ∧
    r.last = some (sol.x, sol.status, costVal S.P sol.x (callOf S lam00 b st).p) ∧
    ((solveBody orc S lam00 b ii st).2 = false → r.sigma = sigmaUpdate S.o.toOpts st.sigma) := by
  unfold solveBody
  simp only [callOf]
  split
  · simp
  · split <;> simp

end

theorem sigmaAt_succ (o : Opts) (k : Nat) : sigmaAt o (k + 1) = sigmaUpdate o (sigmaAt o k) := by
  simp only [sigmaAt, sigmaUpdate]
  cases o.rule <;> rfl

/-- The state after `k` iterations, none of which but possibly the last left the loop. -/
structure IterSpec (orc : Oracle) (S : Solver) (lam00 : List ℝ) (b : Bounds) (st : SolveSt)
    (calls : Nat → NlpCall) (sols : Nat → NlpSol) (k : Nat) (st' : SolveSt) : Prop where
  log : st'.log = st.log ++ (List.range k).map calls
  w0 : st'.w0 = match k with | 0 => st.w0 | k + 1 => (sols k).x
  wAll : st'.wAll = st.wAll ++ (List.range k).map fun i => (sols i).x
  cpuLen : st'.cpu.length = st.cpu.length
  cpu : ∀ i < st.cpu.length, st'.cpu[i]? = if i < k then some (some (sols i).tProc) else st.cpu[i]?
  iterLen : st'.iter.length = st.iter.length
  iter : ∀ i < st.iter.length,
    st'.iter[i]? = if i < k then some (some (sols i).iter) else st.iter[i]?
  last : st'.last = match k with
    | 0 => st.last
    | k + 1 => some ((sols k).x, (sols k).status, costVal S.P (sols k).x (calls k).p)

section
variable {orc : Oracle} {S : Solver} {lam00 : List ℝ} {b : Bounds} {st : SolveSt}

theorem iterSt_sigma (hs : st.sigma = S.o.sigma0) {m : Nat}
    (hgo : ∀ k, k + 1 < m →
      (solveBody orc S lam00 b (0 + k) (iterSt orc S lam00 b st 0 k)).2 = false) :
    ∀ k < m, (iterSt orc S lam00 b st 0 k).sigma = sigmaAt S.o.toOpts k := by
  intro k
  induction k with
  | zero => intro _; exact hs
  | succ k ih =>
    intro hk
    rw [iterSt, sigmaAt_succ, ← ih (by omega)]
    exact (solveBody_fst orc S lam00 b _ _).2.2.2.2.2.2 (hgo k hk)

theorem iterSt_spec (k : Nat) :
    IterSpec orc S lam00 b st
      (fun i => callOf S lam00 b (iterSt orc S lam00 b st 0 i))
      (fun i => orc.sol ((iterSt orc S lam00 b st 0 i).log
        ++ [callOf S lam00 b (iterSt orc S lam00 b st 0 i)]))
      k (iterSt orc S lam00 b st 0 k) := by
  induction k with
  | zero =>
    exact ⟨by simp [iterSt], rfl, by simp [iterSt], rfl, by simp [iterSt], rfl,
      by simp [iterSt], rfl⟩
  | succ k ih =>
    obtain ⟨h1, h2, h3, h4, h5, h6, -⟩ := solveBody_fst orc S lam00 b (0 + k)
      (iterSt orc S lam00 b st 0 k)
    refine ⟨?_, h2, ?_, ?_, ?_, ?_, ?_, h6⟩
    · show (solveBody orc S lam00 b (0 + k) _).1.log = _
      rw [h1, ih.log, List.range_succ, List.map_append, List.append_assoc]; rfl
    · show (solveBody orc S lam00 b (0 + k) _).1.wAll = _
      rw [h3, ih.wAll, List.range_succ, List.map_append, List.append_assoc]; rfl
    · show (solveBody orc S lam00 b (0 + k) _).1.cpu.length = _
      rw [h4, List.length_set, ih.cpuLen]
    · intro i hi
      show (solveBody orc S lam00 b (0 + k) _).1.cpu[i]? = _
      rw [h4, List.getElem?_set, ih.cpu i hi]
      by_cases hik : 0 + k = i
      · subst hik
        have : 0 + k < (iterSt orc S lam00 b st 0 k).cpu.length := by rw [ih.cpuLen]; exact hi
        simp [this] at this ⊢
        simp [this]
      · rw [if_neg hik]
        by_cases hlt : i < k
        · rw [if_pos hlt, if_pos (by omega)]
        · rw [if_neg hlt, if_neg (by omega)]
    · show (solveBody orc S lam00 b (0 + k) _).1.iter.length = _
      rw [h5, List.length_set, ih.iterLen]
    · intro i hi
      show (solveBody orc S lam00 b (0 + k) _).1.iter[i]? = _
      rw [h5, List.getElem?_set, ih.iter i hi]
      by_cases hik : 0 + k = i
      · subst hik
        have : 0 + k < (iterSt orc S lam00 b st 0 k).iter.length := by rw [ih.iterLen]; exact hi
        simp [this] at this ⊢
        simp [this]
      · rw [if_neg hik]
        by_cases hlt : i < k
        · rw [if_pos hlt, if_pos (by omega)]
        · rw [if_neg hlt, if_neg (by omega)]

/-- The homotopy loop, in terms of the specification. -/
theorem solveLoop_homotopy (hN : 0 < S.o.maxIterHomotopy) (hs : st.sigma = S.o.sigma0)
    (hlog : st.log = S.log) :
    ∃ n calls sols, Homotopy orc S lam00 st.w0 b.lbw b.ubw n calls sols ∧
      IterSpec orc S lam00 b st calls sols n
        (solveLoop orc S lam00 b S.o.maxIterHomotopy 0 st) := by
  obtain ⟨m, h1, h2, h3, h4, h5⟩ := solveLoop_eq orc S lam00 b S.o.maxIterHomotopy 0 st hN
  have hsig := iterSt_sigma hs h4
  have hsp := fun k => iterSt_spec (orc := orc) (S := S) (lam00 := lam00) (b := b) (st := st) k
  refine ⟨m, _, _, ⟨h1, h2, ?_, rfl, ?_, ?_, ?_, ?_, ?_⟩, by rw [h3]; exact hsp m⟩
  · intro k _
    simp only [(hsp k).log, hlog, List.range_succ, List.map_append, List.append_assoc]
    rfl
  · intro k _
    exact (hsp (k + 1)).w0
  · intro k _
    exact ⟨rfl, rfl, rfl, rfl⟩
  · intro k hk
    simp only [callOf, Solver.pValues, hsig k hk, tauOf]
  · intro k hk
    have := h4 k hk
    rw [← Bool.not_eq_true, solveBody_snd, not_or, not_lt, not_le, hsig k (by omega)] at this
    exact this
  · rcases h5 with h5 | h5
    · rw [solveBody_snd, hsig (m - 1) (by omega)] at h5
      rcases h5 with h5 | h5
      · exact Or.inl h5
      · exact Or.inr (Or.inl h5)
    · exact Or.inr (Or.inr h5)

end

end Nosnoc
