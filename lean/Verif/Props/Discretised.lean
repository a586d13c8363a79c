import Verif.Proofs.Closed3
import Verif.Props.Reps
import Verif.Witness.Setups
/-
C83: the generated NLP is the discretised optimal control problem, neither more nor less.
C84: the generated NLP is closed: all its functions depend on its variables and parameters only.
-/
namespace Nosnoc

variable {colloc : IrkScheme → Nat → List ℝ} {o : Opts} {um : UserModel} {uo : Option UserOcp}
  {po : PreOpts} {m : PreModel} {oc : PreOcp} {P : Problem} {env env' : Env}

/-- C83, all modes but BOOLEAN: the points satisfying the bounds and constraints of the generated
problem are exactly the points of the discretised optimal control problem
(`Verif/Spec/Feasible.lean`). -/
theorem C83_feasible_iff (h : SetupEx colloc o um uo po m oc P) (hb : o.mpcc ≠ .boolean) :
    P.form.Feasible env ↔ FeasibleSpec po m.dims um (uo.getD UserOcp.trivial) env :=
  h.iff hb

/-- C83, BOOLEAN mode: a point belongs to the discretised optimal control problem (with the big-M
form of the complementarities) exactly if the binary variables can be chosen such that the generated
problem is satisfied. -/
theorem C83_feasible_iff_boolean (h : SetupEx colloc o um uo po m oc P) (hm : o.mpcc = .boolean) :
    (∃ env', (∀ s, ¬ IsBoolSym s → env' s = env s) ∧ P.form.Feasible env') ↔
      FeasibleSpec po m.dims um (uo.getD UserOcp.trivial) env :=
  h.toSetup.built.bool_iff h.exact' (by rw [h.toSetup.opts]; exact hm) h.alpha h.sound

/-- C84, the functions: two points that agree on the variables `w` and the parameters `p` of the
problem have the same constraint values, cost and complementarity residuals (any constraint
handling). -/
theorem C84_closed (h : Setup colloc o um uo po m oc P)
    (hs : ∀ r ∈ (uo.getD UserOcp.trivial).gPathComp, r.Sound m.dims)
    (hw : ∀ s ∈ P.form.w, env s = env' s) (hp : ∀ s ∈ P.p, env s = env' s) :
    (∀ q ∈ P.form.g, q env = q env') ∧ P.form.cost env = P.form.cost env' ∧
      ∀ q ∈ P.compVec, q env = q env' :=
  h.built.closed h.alpha hs hw hp

/-- C84, feasibility: whether a point is feasible is decided by the values of `w` and `p`. -/
theorem C84_feasible (h : Setup colloc o um uo po m oc P)
    (hs : ∀ r ∈ (uo.getD UserOcp.trivial).gPathComp, r.Sound m.dims)
    (hw : ∀ s ∈ P.form.w, env s = env' s) (hp : ∀ s ∈ P.p, env s = env' s) :
    P.form.Feasible env ↔ P.form.Feasible env' := by
  obtain ⟨hg, _, _⟩ := C84_closed h hs hw hp
  unfold Form.Feasible
  refine and_congr ?_ ?_ <;> refine forall_congr' fun q => forall_congr' fun hq => ?_
  · rw [hw q.1 (List.of_mem_zip hq).1]
  · rw [hg q.1 (List.of_mem_zip hq).1]

/-- Options of a BOOLEAN problem with several control stages. -/
noncomputable def boolOpts : Opts :=
  { Opts.default with mpcc := .boolean, nStages := 2, nfeList := [2, 3] }

theorem demo_bool : ∃ po m oc P,
    SetupEx demoColloc boolOpts demoModel (some demoOcp) po m oc P ∧
    FeasibleSpec po m.dims demoModel demoOcp (demoEnv po) := by
  have hb : DemoBase boolOpts := by
    constructor <;> simp [boolOpts, Opts.default, Opts.nfeAfter]
  obtain ⟨po, m, oc, P, hc⟩ := demo_construct hb
  obtain ⟨_, _, hm, _⟩ := construct_parts hc
  have hbt := construct_built hc (by rw [hb.nS]; exact Nat.succ_pos 1)
  refine ⟨po, m, oc, P, ⟨⟨hc, by rw [hb.nS]; exact Nat.succ_pos 1, fun _ => rfl⟩, hb.exact,
    demo_sound _⟩, ?_⟩
  exact demo_spec hb hbt.opts hm (by simpa using hb.gamma) (.inl rfl)
    fun k hk => (hbt.ok.primal.nfe k hk).2

/-- Non-vacuity of C83: both sides are inhabited, in the default options, in a Gauss-Legendre Step
problem with two control stages, and in BOOLEAN mode. -/
example : ∃ po m oc P, SetupEx demoColloc gaussOpts demoModel (some demoOcp) po m oc P ∧
    gaussOpts.mpcc ≠ .boolean ∧ P.form.Feasible (demoEnv po) ∧
    FeasibleSpec po m.dims demoModel demoOcp (demoEnv po) := by
  obtain ⟨po, m, oc, P, h, hf, _⟩ := demo_setup demo_gauss
  exact ⟨po, m, oc, P, h, by simp [gaussOpts], hf, (C83_feasible_iff h (by simp [gaussOpts])).1 hf⟩

example : ∃ po m oc P, SetupEx demoColloc boolOpts demoModel (some demoOcp) po m oc P ∧
    boolOpts.mpcc = .boolean ∧ ∃ env, P.form.Feasible env := by
  obtain ⟨po, m, oc, P, h, hf⟩ := demo_bool
  obtain ⟨env, _, he⟩ := (C83_feasible_iff_boolean h rfl).2 hf
  exact ⟨po, m, oc, P, h, rfl, env, he⟩

/-- Non-vacuity of C84: the two points differ (outside of the problem). -/
example : ∃ po m oc P, SetupEx demoColloc Opts.default demoModel (some demoOcp) po m oc P ∧
    ∃ env env' : Env, env ≠ env' ∧ (∀ s ∈ P.form.w, env s = env' s) ∧
      (∀ s ∈ P.p, env s = env' s) := by
  obtain ⟨po, m, oc, P, h, _⟩ := demo_setup demo_default
  classical
  refine ⟨po, m, oc, P, h, fun _ => 0, fun s => if s ∈ P.form.w ∨ s ∈ P.p then 0 else 1, ?_, ?_, ?_⟩
  · intro he
    obtain ⟨k, hk⟩ : ∃ k, Sym.u k 0 ∉ P.form.w ∧ Sym.u k 0 ∉ P.p := by
      by_contra hc
      push Not at hc
      have : Set.Infinite {s : Sym | s ∈ P.form.w ++ P.p} := by
        refine Set.infinite_of_injective_forall_mem (f := fun k : Nat => Sym.u k 0) ?_ ?_
        · intro a b hab
          simpa using hab
        · intro k
          by_cases hk : Sym.u k 0 ∈ P.form.w
          · exact List.mem_append.2 (.inl hk)
          · exact List.mem_append.2 (.inr (hc k hk))
      exact this (List.finite_toSet _)
    have := congrFun he (.u k 0)
    simp [hk.1, hk.2] at this
  · intro s hs; simp [hs]
  · intro s hs; simp [hs]

end Nosnoc
