import Verif.Proofs.World
import Verif.Spec.World
/-
Helper lemmas: what one operation does to the objects of a process.
-/
namespace Nosnoc
section
variable {colloc : IrkScheme → Nat → List ℝ} {orc : Nat → Oracle} {w : World}

theorem run_nil : w.run colloc orc [] = w := rfl
theorem run_cons (op : Action) (ops : List Action) :
    w.run colloc orc (op :: ops) = (w.step colloc orc op).1.run colloc orc ops := rfl
theorem run_append (ops ops' : List Action) :
    w.run colloc orc (ops ++ ops') = (w.run colloc orc ops).run colloc orc ops' := by
  unfold World.run
  rw [List.foldl_append]

theorem along_append {Q : World → Action → Prop} {ops ops' : List Action} :
    Along colloc orc Q w (ops ++ ops') ↔
      Along colloc orc Q w ops ∧ Along colloc orc Q (w.run colloc orc ops) ops' := by
  induction ops generalizing w with
  | nil => exact ⟨fun h => ⟨trivial, h⟩, fun h => h.2⟩
  | cons op ops ih =>
    exact (and_congr_right fun _ => ih).trans and_assoc.symm

/-! ### writeBack -/

theorem writeBack_ipopt (s : Nat) (S : Solver) : (w.writeBack s S).ipopt = w.ipopt := by
  unfold World.writeBack; split <;> rfl
theorem writeBack_opts (s : Nat) (S : Solver) : (w.writeBack s S).opts = w.opts := by
  unfold World.writeBack; split <;> rfl
theorem writeBack_ocps (s : Nat) (S : Solver) : (w.writeBack s S).ocps = w.ocps := by
  unfold World.writeBack; split <;> rfl

/-! ### The IPOPT options -/

theorem step_ipopt (op : Action) : (w.step colloc orc op).1.ipopt = w.ipopt ∨
    (∃ i v, op = .setTol i v ∧ i < w.opts.length ∧ (w.step colloc orc op).1.ipopt = w.ipopt.setTol v) ∨
    (∃ i v, op = .setNlpMaxIter i v ∧ i < w.opts.length ∧
      (w.step colloc orc op).1.ipopt = { w.ipopt with maxIter := v }) ∨
    (∃ oi mi ci o, op = .newSolver oi mi ci ∧ w.opts[oi]? = some o ∧
      (w.step colloc orc op).1.ipopt = w.ipopt.defaultTol o.compTol) := by
  cases op with
  | newOpts o => exact .inl rfl
  | assign i f => exact .inl rfl
  | setTol i v =>
    by_cases h : i < w.opts.length
    · refine .inr (.inl ⟨i, v, rfl, h, ?_⟩)
      unfold World.step; dsimp only; rw [if_pos h]
    · refine .inl ?_
      unfold World.step; dsimp only; rw [if_neg h]
  | setNlpMaxIter i v =>
    by_cases h : i < w.opts.length
    · refine .inr (.inr (.inl ⟨i, v, rfl, h, ?_⟩))
      unfold World.step; dsimp only; rw [if_pos h]
    · refine .inl ?_
      unfold World.step; dsimp only; rw [if_neg h]
  | newModel um => left; unfold World.step; dsimp only; split <;> rfl
  | newOcp oc => exact .inl rfl
  | newSolver oi mi ci =>
    unfold World.step World.newSolver
    dsimp only
    split
    · rename_i o mo ho hm
      refine .inr (.inr (.inr ⟨oi, mi, ci, o, rfl, ho, ?_⟩))
      split <;> rfl
    · exact .inl rfl
  | set s f v =>
    left; unfold World.step; dsimp only; split
    · rfl
    · exact writeBack_ipopt _ _
  | solve s =>
    left; unfold World.step; dsimp only; split
    · rfl
    · exact writeBack_ipopt _ _

/-! ### Options objects -/

theorem step_opts_length (op : Action) : w.opts.length ≤ (w.step colloc orc op).1.opts.length := by
  cases op with
  | newOpts o => simp [World.step]
  | assign i f => simp [World.step]
  | setTol i v => unfold World.step; dsimp only; split <;> exact le_rfl
  | setNlpMaxIter i v => unfold World.step; dsimp only; split <;> exact le_rfl
  | newModel um => unfold World.step; dsimp only; split <;> exact le_rfl
  | newOcp oc => exact le_rfl
  | newSolver oi mi ci =>
    unfold World.step World.newSolver
    dsimp only
    split
    · split <;> simp
    · exact le_rfl
  | set s f v =>
    unfold World.step; dsimp only; split
    · exact le_rfl
    · simp [writeBack_opts]
  | solve s =>
    unfold World.step; dsimp only; split
    · exact le_rfl
    · simp [writeBack_opts]

/-- What an operation does to an options object. -/
theorem step_opts (op : Action) {i : Nat} {o : PreOpts} (h : w.opts[i]? = some o) :
    (w.step colloc orc op).1.opts[i]? = some o ∨
    (∃ f, op = .assign i f ∧
      (w.step colloc orc op).1.opts[i]? = some { o with toOpts := f o.toOpts }) ∨
    (∃ mi ci mo, op = .newSolver i mi ci ∧ w.models[mi]? = some mo ∧
      (w.step colloc orc op).1.opts[i]? = some (o.preprocessed colloc).1) := by
  have hlt : i < w.opts.length := (List.getElem?_eq_some_iff.1 h).1
  cases op with
  | newOpts o' =>
    left
    unfold World.step
    dsimp only
    rw [List.getElem?_append_left hlt, h]
  | assign j f =>
    unfold World.step
    dsimp only
    rw [List.getElem?_modify]
    by_cases hj : j = i
    · subst hj
      exact .inr (.inl ⟨f, rfl, by simp [h]⟩)
    · left
      rw [h]
      exact congrArg some (if_neg hj)
  | setTol j v => left; unfold World.step; dsimp only; split <;> exact h
  | setNlpMaxIter j v => left; unfold World.step; dsimp only; split <;> exact h
  | newModel um => left; unfold World.step; dsimp only; split <;> exact h
  | newOcp oc => exact .inl h
  | newSolver oi mi ci =>
    unfold World.step World.newSolver
    dsimp only
    split
    · rename_i o' mo ho hm
      by_cases hj : oi = i
      · subst hj
        rw [h] at ho
        cases ho
        refine .inr (.inr ⟨mi, ci, mo, rfl, hm, ?_⟩)
        have e : (makeProblem colloc o mo (w.ocpArg ci)).o = (o.preprocessed colloc).1 := by
          unfold makeProblem
          dsimp only
          split
          · rfl
          · split
            · rfl
            · split <;> rfl
        rw [← e]
        split <;> exact getElem?_set_self' h
      · left
        split
        · dsimp only; rw [List.getElem?_set_ne hj]; exact h
        · dsimp only; rw [List.getElem?_set_ne hj]; exact h
    · exact .inl h
  | set s f v =>
    left; unfold World.step; dsimp only; split
    · exact h
    · rw [writeBack_opts]; exact h
  | solve s =>
    left; unfold World.step; dsimp only; split
    · exact h
    · rw [writeBack_opts]; exact h

/-! ### Model objects -/

/-- What an operation does to a model object. -/
theorem step_models (op : Action) {j : Nat} {mo : ModelObj} (h : w.models[j]? = some mo) :
    (w.step colloc orc op).1.models[j]? = some mo ∨
    (∃ oi ci o, op = .newSolver oi j ci ∧ w.opts[oi]? = some o ∧
      (w.step colloc orc op).1.models[j]? = some (makeProblem colloc o mo (w.ocpArg ci)).mo) ∨
    (∃ s so S S', w.solvers[s]? = some so ∧ so.model = j ∧ w.solver? s = some S ∧
      (op = .solve s ∧ S' = (S.solve (orc s)).1 ∨ ∃ f v, op = .set s f v ∧ S' = (S.set f v).1) ∧
      (w.step colloc orc op).1.models[j]?
        = some { mo with user := { mo.user with x0 := S'.m.x0 }, pre := some S'.m }) := by
  have hlt : j < w.models.length := (List.getElem?_eq_some_iff.1 h).1
  have wb : ∀ (s : Nat) (S' : Solver), (w.writeBack s S').models[j]? = some mo ∨
      ∃ so, w.solvers[s]? = some so ∧ so.model = j ∧ (w.writeBack s S').models[j]?
        = some { mo with user := { mo.user with x0 := S'.m.x0 }, pre := some S'.m } := by
    intro s S'
    unfold World.writeBack
    split
    · exact .inl h
    · rename_i so hso
      dsimp only
      rw [List.getElem?_modify, h]
      by_cases hj : so.model = j
      · exact .inr ⟨so, hso, hj, congrArg some (if_pos hj)⟩
      · exact .inl (congrArg some (if_neg hj))
  cases op with
  | newOpts o' => exact .inl h
  | assign j f => exact .inl h
  | setTol j v => left; unfold World.step; dsimp only; split <;> exact h
  | setNlpMaxIter j v => left; unfold World.step; dsimp only; split <;> exact h
  | newModel um =>
    left; unfold World.step; dsimp only; split
    · exact h
    · dsimp only; rw [List.getElem?_append_left hlt, h]
  | newOcp oc => exact .inl h
  | newSolver oi mi ci =>
    unfold World.step World.newSolver
    dsimp only
    split
    · rename_i o mo' ho hm
      by_cases hj : mi = j
      · subst hj
        rw [h] at hm
        cases hm
        refine .inr (.inl ⟨oi, ci, o, rfl, ho, ?_⟩)
        split <;> exact getElem?_set_self' h
      · left
        split
        · dsimp only; rw [List.getElem?_set_ne hj]; exact h
        · dsimp only; rw [List.getElem?_set_ne hj]; exact h
    · exact .inl h
  | set s f v =>
    unfold World.step; dsimp only; split
    · exact .inl h
    · rename_i S hS
      rcases wb s (S.set f v).1 with h1 | ⟨so, h1, h2, h3⟩
      · exact .inl h1
      · exact .inr (.inr ⟨s, so, S, _, h1, h2, hS, .inr ⟨f, v, rfl, rfl⟩, h3⟩)
  | solve s =>
    unfold World.step; dsimp only; split
    · exact .inl h
    · rename_i S hS
      rcases wb s (S.solve (orc s)).1 with h1 | ⟨so, h1, h2, h3⟩
      · exact .inl h1
      · exact .inr (.inr ⟨s, so, S, _, h1, h2, hS, .inl ⟨rfl, rfl⟩, h3⟩)

/-! ### Solvers -/

/-- What an operation does to a solver. -/
theorem step_solvers (op : Action) {s : Nat} {so : SolverObj} (h : w.solvers[s]? = some so) :
    (w.step colloc orc op).1.solvers[s]? = some so ∨
    (∃ S S', w.solver? s = some S ∧
      (op = .solve s ∧ S' = (S.solve (orc s)).1 ∨ ∃ f v, op = .set s f v ∧ S' = (S.set f v).1) ∧
      (w.step colloc orc op).1.solvers[s]? = some { so with P := S'.P, log := S'.log }) := by
  have hlt : s < w.solvers.length := (List.getElem?_eq_some_iff.1 h).1
  have wb : ∀ (s' : Nat) (S' : Solver), (w.writeBack s' S').solvers[s]? = some so ∨
      s' = s ∧ (w.writeBack s' S').solvers[s]? = some { so with P := S'.P, log := S'.log } := by
    intro s' S'
    unfold World.writeBack
    split
    · exact .inl h
    · rename_i so' hso
      dsimp only
      by_cases hj : s' = s
      · subst hj
        rw [h] at hso
        cases hso
        exact .inr ⟨rfl, getElem?_set_self' h⟩
      · exact .inl (by rw [List.getElem?_set_ne hj]; exact h)
  cases op with
  | newOpts o' => exact .inl h
  | assign j f => exact .inl h
  | setTol j v => left; unfold World.step; dsimp only; split <;> exact h
  | setNlpMaxIter j v => left; unfold World.step; dsimp only; split <;> exact h
  | newModel um => left; unfold World.step; dsimp only; split <;> exact h
  | newOcp oc => exact .inl h
  | newSolver oi mi ci =>
    left
    unfold World.step World.newSolver
    dsimp only
    split
    · split
      · exact h
      · dsimp only; rw [List.getElem?_append_left hlt, h]
    · exact h
  | set s' f v =>
    unfold World.step; dsimp only; split
    · exact .inl h
    · rename_i S hS
      rcases wb s' (S.set f v).1 with h1 | ⟨rfl, h1⟩
      · exact .inl h1
      · exact .inr ⟨S, _, hS, .inr ⟨f, v, rfl, rfl⟩, h1⟩
  | solve s' =>
    unfold World.step; dsimp only; split
    · exact .inl h
    · rename_i S hS
      rcases wb s' (S.solve (orc s')).1 with h1 | ⟨rfl, h1⟩
      · exact .inl h1
      · exact .inr ⟨S, _, hS, .inl ⟨rfl, rfl⟩, h1⟩

/-- A solver that exists after an operation existed before, or is new and has the present IPOPT
options. -/
theorem step_solvers_new (op : Action) {s : Nat} {so : SolverObj}
    (h : (w.step colloc orc op).1.solvers[s]? = some so) :
    (∃ so', w.solvers[s]? = some so' ∧ so'.ipopt = so.ipopt ∧ so'.opts = so.opts ∧
      so'.model = so.model) ∨
    (∃ ci o, op = .newSolver so.opts so.model ci ∧ s = w.solvers.length ∧
      w.opts[so.opts]? = some o ∧ so.ipopt = w.ipopt.defaultTol o.compTol) := by
  by_cases hlt : s < w.solvers.length
  · left
    obtain ⟨so', hso⟩ : ∃ so', w.solvers[s]? = some so' := ⟨_, List.getElem?_eq_getElem hlt⟩
    rcases step_solvers (colloc := colloc) (orc := orc) op hso with h1 | ⟨S, S', -, -, h1⟩
    · rw [h1] at h; cases h; exact ⟨_, hso, rfl, rfl, rfl⟩
    · rw [h1] at h; cases h; exact ⟨_, hso, rfl, rfl, rfl⟩
  · right
    have hnone : w.solvers[s]? = none := List.getElem?_eq_none (by omega)
    have wb : ∀ (s' : Nat) (S' : Solver), (w.writeBack s' S').solvers[s]? = none := by
      intro s' S'
      unfold World.writeBack
      split
      · exact hnone
      · dsimp only
        rw [List.getElem?_eq_none (by simp; omega)]
    cases op with
    | newOpts o' => exact absurd (hnone.symm.trans h) (by simp)
    | assign j f => exact absurd (hnone.symm.trans h) (by simp)
    | setTol j v => 
      unfold World.step at h; dsimp only at h
      split at h <;> exact absurd (hnone.symm.trans h) (by simp)
    | setNlpMaxIter j v =>
      unfold World.step at h; dsimp only at h
      split at h <;> exact absurd (hnone.symm.trans h) (by simp)
    | newModel um =>
      unfold World.step at h; dsimp only at h
      split at h <;> exact absurd (hnone.symm.trans h) (by simp)
    | newOcp oc => exact absurd (hnone.symm.trans h) (by simp)
    | newSolver oi mi ci =>
      unfold World.step World.newSolver at h
      dsimp only at h
      split at h
      · rename_i o mo ho hm
        split at h
        · exact absurd (hnone.symm.trans h) (by simp)
        · dsimp only at h
          have hs : s = w.solvers.length := by
            have := (List.getElem?_eq_some_iff.1 h).1
            simp at this
            omega
          subst hs
          rw [List.getElem?_concat_length] at h
          cases h
          exact ⟨ci, o, rfl, rfl, ho, rfl⟩
      · exact absurd (hnone.symm.trans h) (by simp)
    | set s' f v =>
      unfold World.step at h; dsimp only at h
      split at h
      · exact absurd (hnone.symm.trans h) (by simp)
      · rw [wb] at h; cases h
    | solve s' =>
      unfold World.step at h; dsimp only at h
      split at h
      · exact absurd (hnone.symm.trans h) (by simp)
      · rw [wb] at h; cases h

end
end Nosnoc
