import Verif.Proofs.Recross
/-
Two constructions that differ in an option which is only read at the end (helper lemmas for C43, C44).
-/
namespace Nosnoc

/-- The options with another constraint handling. -/
def Opts.withHandling (o : Opts) (c : ConstraintHandling) : Opts :=
  { o with constraintHandling := c }

/-- The options with another scaling of the elastic objective. -/
def Opts.withScaling (o : Opts) (b : Bool) : Opts := { o with objScalingDirect := b }

/-- The options with another constraint handling. -/
def PreOpts.withHandling (po : PreOpts) (c : ConstraintHandling) : PreOpts :=
  { po with toOpts := po.toOpts.withHandling c }

/-- The options with another scaling. -/
def PreOpts.withScaling (po : PreOpts) (b : Bool) : PreOpts :=
  { po with toOpts := po.toOpts.withScaling b }

theorem preprocess_handling (colloc : IrkScheme → Nat → List ℝ) (o : Opts) (c : ConstraintHandling) :
    (o.withHandling c).preprocess colloc
      = (o.preprocess colloc).map fun po => po.withHandling c := by
  unfold Opts.preprocess
  have h1 : (o.withHandling c).maxIter = o.maxIter := rfl
  have h2 : (o.withHandling c).nfeAfter = o.nfeAfter := rfl
  rw [h1, h2]
  cases o.maxIter with
  | error e => rfl
  | ok n =>
    simp only [ok_bind, Opts.withHandling]
    cases hr : o.irkRep with
    | integral =>
      simp only [ok_bind]
      split <;> rfl
    | differential =>
      cases generateButcher o.nS o.scheme with
      | error e => rfl
      | ok t =>
        simp only [ok_bind]
        split <;> rfl
    | differentialLiftX =>
      cases generateButcher o.nS o.scheme with
      | error e => rfl
      | ok t =>
        simp only [ok_bind]
        split <;> rfl

theorem preprocess_scaling (colloc : IrkScheme → Nat → List ℝ) (o : Opts) (c : Bool) :
    (o.withScaling c).preprocess colloc
      = (o.preprocess colloc).map fun po => po.withScaling c := by
  unfold Opts.preprocess
  have h1 : (o.withScaling c).maxIter = o.maxIter := rfl
  have h2 : (o.withScaling c).nfeAfter = o.nfeAfter := rfl
  rw [h1, h2]
  cases o.maxIter with
  | error e => rfl
  | ok n =>
    simp only [ok_bind, Opts.withScaling]
    cases hr : o.irkRep with
    | integral =>
      simp only [ok_bind]
      split <;> rfl
    | differential =>
      cases generateButcher o.nS o.scheme with
      | error e => rfl
      | ok t =>
        simp only [ok_bind]
        split <;> rfl
    | differentialLiftX =>
      cases generateButcher o.nS o.scheme with
      | error e => rfl
      | ok t =>
        simp only [ok_bind]
        split <;> rfl

section
variable {colloc : IrkScheme → Nat → List ℝ} {o : Opts} {um : UserModel} {uo : Option UserOcp}
  {po : PreOpts} {m : PreModel} {oc : PreOcp} {P : Problem} {env : Env}
  {po' : PreOpts} {m' : PreModel} {oc' : PreOcp} {P' : Problem} {c : ConstraintHandling} {b : Bool}

theorem Setup.reScaling (h : Setup colloc o um uo po m oc P)
    (h' : Setup colloc (o.withScaling b) um uo po' m' oc' P') :
    po' = po.withScaling b ∧ m' = m ∧ oc' = oc := by
  obtain ⟨_, h1, h2, h3, _⟩ := construct_parts h.ok
  obtain ⟨_, h1', h2', h3', _⟩ := construct_parts h'.ok
  rw [preprocess_scaling, h1] at h1'
  cases h1'
  have : um.preprocess (po.withScaling b) = um.preprocess po := rfl
  rw [this, h2] at h2'
  cases h2'
  rw [h3] at h3'
  cases h3'
  exact ⟨rfl, rfl, rfl⟩

theorem createFEs_handling (k : Nat) (n e : Nat) (prev : FERef) :
    createFEs (po.withHandling c) m oc k n e prev = createFEs po m oc k n e prev := by
  induction n generalizing e prev with
  | zero => rfl
  | succ n ih =>
    unfold createFEs
    simp only [ih]
    rfl

theorem createControlStage_handling :
    createControlStage (po.withHandling c) m oc = createControlStage po m oc := by
  funext acc k
  unfold createControlStage
  simp only [createFEs_handling]
  rfl

theorem elasticVar_handling : elasticVar (po.withHandling c) = elasticVar po := rfl

theorem pHead_handling : pHead (po.withHandling c) = pHead po := rfl

theorem createPrimal_handling : createPrimal (po.withHandling c) m oc = createPrimal po m oc := by
  unfold createPrimal
  rw [createControlStage_handling, elasticVar_handling, pHead_handling]
  rfl

theorem FE.process_handling {h : Heap} {a : StageArgs} {fe : FE} :
    fe.process h (po.withHandling c) m oc a = fe.process h po m oc a := rfl

theorem processFEs_handling {h : Heap} {a : StageArgs} (f : Form) (l : List FE) :
    processFEs h (po.withHandling c) m oc a f l = processFEs h po m oc a f l := by
  induction l generalizing f with
  | nil => rfl
  | cons fe l ih =>
    unfold processFEs
    simp only [ih, FE.process_handling]

theorem processStage_handling {h : Heap} :
    processStage h (po.withHandling c) m oc = processStage h po m oc := by
  funext u s acc kst
  unfold processStage
  simp only [processFEs_handling]
  rfl

theorem globalCompl_handling : globalCompl (po.withHandling c) = globalCompl po := rfl
theorem compVector_handling {h : Heap} : compVector h (po.withHandling c) = compVector h po := rfl
theorem terminal_handling : terminal (po.withHandling c) = terminal po := rfl
theorem elasticCost_handling : elasticCost (po.withHandling c) = elasticCost po := rfl
theorem terminalTimeCon_handling : terminalTimeCon (po.withHandling c) = terminalTimeCon po := rfl

/-- The problem after the least-squares reformulation. -/
noncomputable def Problem.squared (P : Problem) : Problem :=
  { P with form := { P.form with
      cost := fun env => P.form.cost env + (P.form.g.map fun e => e env ^ 2).sum
      g := [], lbg := [], ubg := [] } }

open Classical in
theorem build_lsq {t : Bool} (h : build (po.withHandling .exact) m oc t = .ok P) :
    build (po.withHandling .leastSquares) m oc t
      = if ∃ l ∈ P.form.lbg, l ≠ 0 then .error .exception else .ok P.squared := by
  unfold build at h ⊢
  simp only [createPrimal_handling, processStage_handling, globalCompl_handling,
    compVector_handling, terminal_handling, elasticCost_handling, terminalTimeCon_handling] at h ⊢
  simp only [bind_eq_ok] at h
  obtain ⟨pr, h1, acc, h2, ⟨f1, bg, cg⟩, h3, cv, h4, f2, h5, f4, h6, ⟨f5, idx⟩, h7, f6, h8, h9⟩ := h
  rw [h1]; simp only [ok_bind]
  rw [h2]; simp only [ok_bind]
  rw [h3]; simp only [ok_bind]
  rw [h4]; simp only [ok_bind]
  rw [h5]; simp only [ok_bind]
  rw [h6]; simp only [ok_bind]
  rw [h7]; simp only [ok_bind]
  have e1 : lsq (po.withHandling .exact) f5 = .ok f5 := by
    unfold lsq
    rw [if_neg (by simp [PreOpts.withHandling, Opts.withHandling])]
  rw [e1] at h8
  cases h8
  cases h9
  unfold lsq
  rw [if_pos (show (po.withHandling .leastSquares).constraintHandling = .leastSquares from rfl)]
  show _ = if ∃ l ∈ f5.lbg, l ≠ 0 then _ else _
  split
  · rfl
  · rfl

open Classical in
theorem construct_lsq (h : construct colloc (o.withHandling .exact) um uo = .ok (po, m, oc, P)) :
    construct colloc (o.withHandling .leastSquares) um uo
      = if ∃ l ∈ P.form.lbg, l ≠ 0 then .error .exception
        else .ok (po.withHandling .leastSquares, m, oc, P.squared) := by
  unfold construct at h ⊢
  simp only [bind_eq_ok] at h
  obtain ⟨_, hi, po', hpo, m', hm, oc', hoc, P', hP, h⟩ := h
  cases h
  rw [hi]; simp only [ok_bind]
  rw [preprocess_handling] at hpo ⊢
  cases hq : o.preprocess colloc with
  | error e => rw [hq] at hpo; cases hpo
  | ok q =>
    rw [hq] at hpo
    cases hpo
    simp only [Except.map, ok_bind]
    have e1 : um.preprocess (q.withHandling .leastSquares) = um.preprocess (q.withHandling .exact) := rfl
    rw [e1, hm]; simp only [ok_bind]
    rw [hoc]; simp only [ok_bind]
    rw [build_lsq hP]
    split <;> rfl

end
end Nosnoc
