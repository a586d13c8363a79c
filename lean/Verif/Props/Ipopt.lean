import Verif.Proofs.WorldSteps
import Verif.Witness.World
/-
C67, C80: the IPOPT options.  They are stored in one dictionary for all options objects.
-/
namespace Nosnoc
section
variable {colloc : IrkScheme → Nat → List ℝ} {orc : Nat → Oracle} {w : World}

/-- All four tolerances have this value. -/
def IpoptDict.AllTol (d : IpoptDict) (v : Option ℝ) : Prop :=
  d.tol = v ∧ d.dualInfTol = v ∧ d.complInfTol = v ∧ d.muTarget = v

private theorem setTol_all (d : IpoptDict) (v : Option ℝ) : (d.setTol v).AllTol v := ⟨rfl, rfl, rfl, rfl⟩

private theorem default_none {d : IpoptDict} (h : d.AllTol none) (c : ℝ) :
    (d.defaultTol c).AllTol (some (c / 100)) := by
  have e : d.defaultTol c = d.setTol (some (c * (1 / 100))) := by
    unfold IpoptDict.defaultTol
    rw [h.1]
  rw [e, show c * (1 / 100) = c / 100 by ring]
  exact setTol_all _ _

private theorem default_some {d : IpoptDict} {t : ℝ} (h : d.AllTol (some t)) (c : ℝ) :
    d.defaultTol c = d := by
  unfold IpoptDict.defaultTol
  rw [h.1]

private theorem initial_all : World.initial.ipopt.AllTol none := ⟨rfl, rfl, rfl, rfl⟩

private theorem maxIter_all {d : IpoptDict} {v : Option ℝ} (h : d.AllTol v) (k : Int) :
    ({ d with maxIter := k } : IpoptDict).AllTol v := h

private theorem default_maxIter (d : IpoptDict) (c : ℝ) : (d.defaultTol c).maxIter = d.maxIter := by
  unfold IpoptDict.defaultTol
  split <;> rfl

/-- C67, part: as long as all options objects have the same `comp_tol`, and the user does not set
`tol_ipopt`, every solver uses `0.01 * comp_tol`, for all four tolerances. -/
theorem C67_uniform_partial {c : ℝ} {ops : List Action} (h : ∀ op ∈ ops, UniformTol c op) {s : Nat}
    {so : SolverObj} (hs : (World.initial.run colloc orc ops).solvers[s]? = some so) :
    so.ipopt.AllTol (some (c / 100)) := by
  have key : ∀ (ops : List Action) (w : World), (∀ op ∈ ops, UniformTol c op) →
      (∀ (i : Nat) (o : PreOpts), w.opts[i]? = some o → o.compTol = c) →
      (w.ipopt.AllTol none ∨ w.ipopt.AllTol (some (c / 100))) →
      (∀ (s : Nat) (so : SolverObj), w.solvers[s]? = some so → so.ipopt.AllTol (some (c / 100))) →
      ∀ (s : Nat) (so : SolverObj), (w.run colloc orc ops).solvers[s]? = some so → so.ipopt.AllTol (some (c / 100)) := by
    intro ops
    induction ops with
    | nil => intro w _ _ _ h3 s so hs; exact h3 s so hs
    | cons op ops ih =>
      intro w h h1 h2 h3
      have hop := h op List.mem_cons_self
      have hd : ∀ o : PreOpts, o.compTol = c → (w.ipopt.defaultTol o.compTol).AllTol (some (c / 100)) := by
        intro o ho
        rw [ho]
        rcases h2 with h2 | h2
        · exact default_none h2 c
        · rw [default_some h2]; exact h2
      refine ih _ (fun op' h' => h op' (List.mem_cons_of_mem _ h')) ?_ ?_ ?_
      · intro i o' ho'
        by_cases hi : i < w.opts.length
        · obtain ⟨o, ho⟩ : ∃ o, w.opts[i]? = some o := ⟨_, List.getElem?_eq_getElem hi⟩
          rcases step_opts (colloc := colloc) (orc := orc) op ho with e | ⟨f, rfl, e⟩ | ⟨_, _, _, -, -, e⟩
          · rw [e] at ho'; cases ho'; exact h1 i _ ho
          · rw [e] at ho'; cases ho'; exact hop _ (h1 i _ ho)
          · rw [e] at ho'
            cases ho'
            obtain ⟨k, l, he, -⟩ := preprocessed_opts (colloc := colloc) o
            rw [he]
            exact h1 i _ ho
        · cases op with
          | newOpts o =>
            unfold World.step at ho'
            dsimp only at ho'
            have hi' := (List.getElem?_eq_some_iff.1 ho').1
            simp only [List.length_append, List.length_singleton] at hi'
            obtain rfl : i = w.opts.length := by omega
            rw [List.getElem?_concat_length] at ho'
            cases ho'
            exact hop
          | assign j f =>
            have := (List.getElem?_eq_some_iff.1 ho').1
            simp [World.step] at this
            exact absurd this hi
          | setTol j v => exact hop.elim
          | setNlpMaxIter j v =>
            unfold World.step at ho'
            dsimp only at ho'
            split at ho' <;> exact absurd (List.getElem?_eq_some_iff.1 ho').1 hi
          | newModel um =>
            unfold World.step at ho'
            dsimp only at ho'
            split at ho' <;> exact absurd (List.getElem?_eq_some_iff.1 ho').1 hi
          | newOcp oc => exact absurd (List.getElem?_eq_some_iff.1 ho').1 hi
          | newSolver oi mi ci =>
            unfold World.step World.newSolver at ho'
            dsimp only at ho'
            split at ho'
            · split at ho'
              · have := (List.getElem?_eq_some_iff.1 ho').1
                simp at this
                exact absurd this hi
              · have := (List.getElem?_eq_some_iff.1 ho').1
                simp at this
                exact absurd this hi
            · exact absurd (List.getElem?_eq_some_iff.1 ho').1 hi
          | set s f v =>
            unfold World.step at ho'
            dsimp only at ho'
            split at ho'
            · exact absurd (List.getElem?_eq_some_iff.1 ho').1 hi
            · rw [writeBack_opts] at ho'
              exact absurd (List.getElem?_eq_some_iff.1 ho').1 hi
          | solve s =>
            unfold World.step at ho'
            dsimp only at ho'
            split at ho'
            · exact absurd (List.getElem?_eq_some_iff.1 ho').1 hi
            · rw [writeBack_opts] at ho'
              exact absurd (List.getElem?_eq_some_iff.1 ho').1 hi
      · rcases step_ipopt (w := w) (colloc := colloc) (orc := orc) op with
          e | ⟨i, v, rfl, -, -⟩ | ⟨i, v, -, -, e⟩ | ⟨oi, mi, ci, o, -, ho, e⟩
        · rw [e]; exact h2
        · exact hop.elim
        · rw [e]; exact h2.imp (maxIter_all · v) (maxIter_all · v)
        · rw [e]; exact .inr (hd o (h1 _ _ ho))
      · intro s so hs
        rcases step_solvers_new op hs with ⟨so', h', e, -, -⟩ | ⟨ci, o, -, -, ho, e⟩
        · rw [← e]; exact h3 s so' h'
        · rw [e]; exact hd o (h1 _ _ ho)
  exact key ops _ h (by intro i o h; simp [World.initial] at h) (.inl initial_all)
    (by intro i o h; simp [World.initial] at h) s so hs

/-- C67, part: the first solver of a process uses `0.01 * comp_tol` of its options object, if the user
does not set `tol_ipopt`. -/
theorem C67_first_partial {ops : List Action}
    (h : ∀ op ∈ ops, (∀ i v, op ≠ .setTol i v) ∧ ∀ oi mi ci, op ≠ .newSolver oi mi ci) {oi mi : Nat}
    {ci : Option Nat} {o : PreOpts} (ho : (World.initial.run colloc orc ops).opts[oi]? = some o)
    {s : Nat} {so : SolverObj}
    (hs : (World.initial.run colloc orc (ops ++ [.newSolver oi mi ci])).solvers[s]? = some so) :
    so.ipopt.AllTol (some (o.compTol / 100)) := by
  have key : ∀ (ops : List Action) (w : World),
      (∀ op ∈ ops, (∀ i v, op ≠ .setTol i v) ∧ ∀ oi mi ci, op ≠ .newSolver oi mi ci) →
      w.ipopt.AllTol none → w.solvers = [] →
      (w.run colloc orc ops).ipopt.AllTol none ∧ (w.run colloc orc ops).solvers = [] := by
    intro ops
    induction ops with
    | nil => intro w _ h1 h2; exact ⟨h1, h2⟩
    | cons op ops ih =>
      intro w h h1 h2
      obtain ⟨a, b⟩ := h op List.mem_cons_self
      refine ih _ (fun op' h' => h op' (List.mem_cons_of_mem _ h')) ?_ ?_
      · rcases step_ipopt (w := w) (colloc := colloc) (orc := orc) op with
          e | ⟨i, v, e, -, -⟩ | ⟨i, v, -, -, e⟩ | ⟨oi, mi, ci, o, e, ho, -⟩
        · rw [e]; exact h1
        · exact absurd e (a _ _)
        · rw [e]; exact maxIter_all h1 v
        · exact absurd e (b _ _ _)
      · refine List.eq_nil_iff_forall_not_mem.2 fun so hso => ?_
        obtain ⟨s, hs, rfl⟩ := List.mem_iff_getElem.1 hso
        rcases step_solvers_new op (List.getElem?_eq_getElem hs) with ⟨so', h', -⟩ | ⟨ci, o, e, -⟩
        · rw [h2] at h'; cases h'
        · exact b _ _ _ e
  obtain ⟨k1, k2⟩ := key ops _ h initial_all rfl
  rw [run_append] at hs
  rcases step_solvers_new _ hs with ⟨so', h', -⟩ | ⟨ci', o', e1, -, ho', e⟩
  · rw [k2] at h'; cases h'
  · obtain ⟨rfl, rfl, rfl⟩ : oi = so.opts ∧ mi = so.model ∧ ci = ci' := by
      injection e1 with a b c; exact ⟨a, b, c⟩
    rw [ho] at ho'
    cases ho'
    rw [e]
    exact default_none k1 _

/-- C67, part: a value of `tol_ipopt` set by the user on any existing options object is used by all
solvers created later (until it is set again). -/
theorem C67_set_partial {i : Nat} {t : ℝ} (hi : i < w.opts.length) {ops : List Action}
    (h : ∀ op ∈ ops, ∀ i v, op ≠ .setTol i v) {s : Nat} (hnew : w.solvers.length ≤ s)
    {so : SolverObj} (hs : (w.run colloc orc (.setTol i (some t) :: ops)).solvers[s]? = some so) :
    so.ipopt.AllTol (some t) := by
  have key : ∀ (ops : List Action) (w : World), (∀ op ∈ ops, ∀ i v, op ≠ .setTol i v) →
      w.ipopt.AllTol (some t) →
      (∀ so, w.solvers[s]? = some so → so.ipopt.AllTol (some t)) →
      ∀ so, (w.run colloc orc ops).solvers[s]? = some so → so.ipopt.AllTol (some t) := by
    intro ops
    induction ops with
    | nil => intro w _ _ h2; exact h2
    | cons op ops ih =>
      intro w h h1 h2
      refine ih _ (fun op' h' => h op' (List.mem_cons_of_mem _ h')) ?_ ?_
      · rcases step_ipopt (w := w) (colloc := colloc) (orc := orc) op with
          e | ⟨i, v, e, -, -⟩ | ⟨i, v, -, -, e⟩ | ⟨oi, mi, ci, o, -, ho, e⟩
        · rw [e]; exact h1
        · exact absurd e (h op List.mem_cons_self _ _)
        · rw [e]; exact maxIter_all h1 v
        · rw [e, default_some h1]; exact h1
      · intro so hs
        rcases step_solvers_new op hs with ⟨so', h', e, -, -⟩ | ⟨ci, o, -, -, -, e⟩
        · rw [← e]; exact h2 so' h'
        · rw [e, default_some h1]; exact h1
  have e : (w.step colloc orc (.setTol i (some t))).1 = { w with ipopt := w.ipopt.setTol (some t) } := by
    unfold World.step
    dsimp only
    rw [if_pos hi]
  rw [run_cons, e] at hs
  refine key ops _ h (setTol_all _ _) ?_ so hs
  intro so hso
  have := (List.getElem?_eq_some_iff.1 hso).1
  exact absurd this (by dsimp only; omega)

/-- C67, C80, part: the IPOPT options of a solver never change after it was created. -/
theorem C67_fixed_partial {s : Nat} {so : SolverObj} (hs : w.solvers[s]? = some so)
    (ops : List Action) : ∃ so', (w.run colloc orc ops).solvers[s]? = some so' ∧ so'.ipopt = so.ipopt := by
  induction ops generalizing w so with
  | nil => exact ⟨so, hs, rfl⟩
  | cons op ops ih =>
    rw [run_cons]
    rcases step_solvers (colloc := colloc) (orc := orc) op hs with h1 | ⟨S, S', -, -, h1⟩
    · exact ih h1
    · obtain ⟨so', a, b⟩ := ih h1
      exact ⟨so', a, b⟩

/-! ### Witnesses -/

/-- Two options objects, two models. -/
noncomputable def twoObjects (c1 c2 : ℝ) : List Action :=
  [.newOpts (plainOpts c1 1 1), .newOpts (plainOpts c2 1 1), .newModel (plainModel 0),
    .newModel (plainModel 0)]

private theorem twoObjects_run (c1 c2 : ℝ) : World.initial.run colloc orc (twoObjects c1 c2) =
    ⟨IpoptDict.initial, [(plainOpts c1 1 1).fresh, (plainOpts c2 1 1).fresh],
      [⟨plainModel 0, none, none⟩, ⟨plainModel 0, none, none⟩], [], []⟩ := rfl

private theorem newSolver_plain {w : World} {oi mi : Nat} {o : PreOpts} {mo : ModelObj}
    (ho : w.opts[oi]? = some o) (hm : w.models[mi]? = some mo) (hu : mo.user = plainModel 0)
    (hp : PlainOpts o.toOpts) :
    (w.newSolver colloc oi mi none).2 = .ok none ∧
    ∃ P, (w.newSolver colloc oi mi none).1.solvers = w.solvers ++
        [⟨oi, mi, P, [], w.ipopt.defaultTol o.compTol⟩] := by
  obtain ⟨S, hS, -⟩ := plain_create colloc hp 0
  obtain ⟨h1, -, h3⟩ := (newSolver_create (colloc := colloc) (ci := none) ho hm (by rw [hu]; rfl)).1 S
    (by rw [hu]; exact hS)
  exact ⟨h1, S.P, h3⟩

private theorem newSolver_others {w : World} {oi mi : Nat} {ci : Option Nat} {i : Nat} :
    (i ≠ oi → (w.newSolver colloc oi mi ci).1.opts[i]? = w.opts[i]?) ∧
    (i ≠ mi → (w.newSolver colloc oi mi ci).1.models[i]? = w.models[i]?) := by
  unfold World.newSolver
  split
  · dsimp only
    constructor
    · intro h; split <;> exact List.getElem?_set_ne (Ne.symm h)
    · intro h; split <;> exact List.getElem?_set_ne (Ne.symm h)
  · exact ⟨fun _ => rfl, fun _ => rfl⟩

private theorem newSolver_ipopt {w : World} {oi mi : Nat} {ci : Option Nat} {o : PreOpts} {mo : ModelObj}
    (ho : w.opts[oi]? = some o) (hm : w.models[mi]? = some mo) :
    (w.newSolver colloc oi mi ci).1.ipopt = w.ipopt.defaultTol o.compTol := by
  unfold World.newSolver
  rw [ho, hm]
  dsimp only
  split <;> rfl

/-- C67 fails: with two options objects with different `comp_tol`, and `tol_ipopt` never set, the second
solver uses the tolerance of the first one. -/
theorem C67_other_object_violated {c1 c2 : ℝ} (h1 : 0 < c1) (h2 : 0 < c2) (hne : c1 ≠ c2) :
    ∃ ops, (∀ op ∈ ops, ∀ i v, op ≠ .setTol i v) ∧
      ∃ so o, (World.initial.run colloc orc ops).solvers[1]? = some so ∧
        (World.initial.run colloc orc ops).opts[so.opts]? = some o ∧ o.compTol = c2 ∧
        so.ipopt.tol ≠ some (o.compTol / 100) ∧ so.ipopt.AllTol (some (c1 / 100)) := by
  refine ⟨twoObjects c1 c2 ++ [.newSolver 0 0 none, .newSolver 1 1 none], ?_, ?_⟩
  · intro op hop i v e
    subst e
    simp [twoObjects] at hop
  rw [run_append, twoObjects_run]
  set w0 : World := ⟨IpoptDict.initial, [(plainOpts c1 1 1).fresh, (plainOpts c2 1 1).fresh],
      [⟨plainModel 0, none, none⟩, ⟨plainModel 0, none, none⟩], [], []⟩ with hw0
  have p1 := plainOpts_plain (stages := 1) (fes := 1) h1 one_pos one_pos
  have p2 := plainOpts_plain (stages := 1) (fes := 1) h2 one_pos one_pos
  obtain ⟨-, P1, e1⟩ := newSolver_plain (colloc := colloc) (w := w0) (oi := 0) (mi := 0) rfl rfl rfl p1
  obtain ⟨q1, -⟩ := newSolver_others (colloc := colloc) (w := w0) (oi := 0) (mi := 0) (ci := none) (i := 1)
  obtain ⟨-, q2⟩ := newSolver_others (colloc := colloc) (w := w0) (oi := 0) (mi := 0) (ci := none) (i := 1)
  have hi := newSolver_ipopt (colloc := colloc) (w := w0) (oi := 0) (mi := 0) (ci := none) rfl rfl
  set w1 := (w0.newSolver colloc 0 0 none).1 with hw1
  have ho1 : w1.opts[1]? = some (plainOpts c2 1 1).fresh := q1 (by decide)
  have hm1 : w1.models[1]? = some ⟨plainModel 0, none, none⟩ := q2 (by decide)
  obtain ⟨-, P2, e2⟩ := newSolver_plain (colloc := colloc) (w := w1) (oi := 1) (mi := 1) ho1 hm1 rfl p2
  have hall : w1.ipopt.AllTol (some (c1 / 100)) := by
    rw [hi]
    exact default_none initial_all c1
  have hrun : w0.run colloc orc [.newSolver 0 0 none, .newSolver 1 1 none]
      = (w1.newSolver colloc 1 1 none).1 := rfl
  rw [hrun]
  have hs1 : w1.solvers = [⟨0, 0, P1, [], w0.ipopt.defaultTol (plainOpts c1 1 1).fresh.compTol⟩] := e1
  have hopts : ∃ o, (w1.newSolver colloc 1 1 none).1.opts[1]? = some o ∧ o.compTol = c2 := by
    rcases step_opts (colloc := colloc) (orc := orc) (.newSolver 1 1 none) ho1 with
      e | ⟨f, e, -⟩ | ⟨_, _, _, -, -, e⟩
    · exact ⟨_, e, rfl⟩
    · cases e
    · obtain ⟨k, l, he, -⟩ := preprocessed_opts (colloc := colloc) (plainOpts c2 1 1).fresh
      exact ⟨_, e, by rw [he]; rfl⟩
  obtain ⟨o, ho, hc⟩ := hopts
  have hA : (w1.ipopt.defaultTol (plainOpts c2 1 1).fresh.compTol).AllTol (some (c1 / 100)) := by
    rw [default_some hall]; exact hall
  refine ⟨⟨1, 1, P2, [], w1.ipopt.defaultTol (plainOpts c2 1 1).fresh.compTol⟩, o, ?_, ho, hc, ?_, hA⟩
  · rw [e2, hs1]; rfl
  · dsimp only
    rw [hA.1, hc]
    intro h
    have := Option.some.inj h
    apply hne
    linarith

/-- The hypotheses of `C67_uniform_partial` and `C67_first_partial` are met by a history that creates
a solver. -/
example : (∀ op ∈ twoObjects 1 1 ++ [.newSolver 0 0 none, .solve 0], UniformTol 1 op) ∧
    (∀ op ∈ twoObjects 1 2, (∀ i v, op ≠ .setTol i v) ∧ ∀ oi mi ci, op ≠ .newSolver oi mi ci) ∧
    ∃ so, (World.initial.run colloc orc (twoObjects 1 2 ++ [.newSolver 1 0 none])).solvers[0]?
      = some so := by
  refine ⟨?_, ?_, ?_⟩
  · intro op hop
    simp only [twoObjects, List.mem_append, List.mem_cons, List.not_mem_nil, or_false] at hop
    rcases hop with (rfl | rfl | rfl | rfl) | rfl | rfl
    · exact rfl
    · exact rfl
    all_goals exact trivial
  · intro op hop
    simp only [twoObjects, List.mem_cons, List.not_mem_nil, or_false] at hop
    rcases hop with rfl | rfl | rfl | rfl <;> simp
  · rw [run_append, twoObjects_run]
    obtain ⟨-, P, e⟩ := newSolver_plain (colloc := colloc)
      (w := ⟨IpoptDict.initial, [(plainOpts 1 1 1).fresh, (plainOpts 2 1 1).fresh],
        [⟨plainModel 0, none, none⟩, ⟨plainModel 0, none, none⟩], [], []⟩) (oi := 1) (mi := 0) rfl rfl rfl
      (plainOpts_plain (stages := 1) (fes := 1) two_pos one_pos one_pos)
    exact ⟨_, by
      show (World.newSolver colloc _ 1 0 none).1.solvers[0]? = _
      rw [e]
      rfl⟩

/-! ### nlp_max_iter -/

/-- The last value assigned to `nlp_max_iter`, on whichever object. -/
def lastMaxIter (v : Int) : List Action → Int
  | [] => v
  | .setNlpMaxIter _ v' :: ops => lastMaxIter v' ops
  | _ :: ops => lastMaxIter v ops

/-- C80, part: if `nlp_max_iter` is only set on one options object, a solver created from it uses the
last value (500 if there is none). -/
theorem C80_single_object_partial {i : Nat} {ops : List Action}
    (h : Along colloc orc (fun w op => ∀ j v, op = .setNlpMaxIter j v → j = i ∧ i < w.opts.length)
      World.initial ops) {mi : Nat} {ci : Option Nat} {s : Nat} {so : SolverObj}
    (hnew : (World.initial.run colloc orc ops).solvers.length ≤ s)
    (hs : (World.initial.run colloc orc (ops ++ [.newSolver i mi ci])).solvers[s]? = some so) :
    so.ipopt.maxIter = lastMaxIter 500 ops := by
  have key : ∀ (ops : List Action) (w : World),
      Along colloc orc (fun w op => ∀ j v, op = .setNlpMaxIter j v → j = i ∧ i < w.opts.length) w ops →
      (w.run colloc orc ops).ipopt.maxIter = lastMaxIter w.ipopt.maxIter ops := by
    intro ops
    induction ops with
    | nil => intro w _; rfl
    | cons op ops ih =>
      intro w h
      rw [run_cons, ih _ h.2]
      cases op with
      | setNlpMaxIter j v =>
        obtain ⟨rfl, hj⟩ := h.1 j v rfl
        unfold World.step
        dsimp only
        rw [if_pos hj]
        rfl
      | _ =>
        refine congrArg (lastMaxIter · ops) ?_
        rcases step_ipopt (w := w) (colloc := colloc) (orc := orc) _ with
          e | ⟨i, v, e', -, e⟩ | ⟨i, v, e', -, -⟩ | ⟨oi, mi, ci, o, e', ho, e⟩
        · rw [e]
        · rw [e]; rfl
        · cases e'
        · rw [e, default_maxIter]
  rw [run_append] at hs
  rcases step_solvers_new _ hs with ⟨so', h', -⟩ | ⟨ci', o', -, -, -, e⟩
  · exact absurd (List.getElem?_eq_some_iff.1 h').1 (by omega)
  · rw [e, default_maxIter, key ops _ h]
    rfl

/-- C80 fails: a value set on one options object is used by the solvers of another one. -/
theorem C80_other_object_violated (v : Int) :
    ∃ so, (World.initial.run colloc orc (twoObjects 1 1 ++ [.setNlpMaxIter 0 v, .newSolver 1 0 none])).solvers[0]?
      = some so ∧ so.opts = 1 ∧ so.ipopt.maxIter = v := by
  rw [run_append, twoObjects_run]
  obtain ⟨-, P, e⟩ := newSolver_plain (colloc := colloc)
      (w := ⟨{ IpoptDict.initial with maxIter := v }, [(plainOpts 1 1 1).fresh, (plainOpts 1 1 1).fresh],
        [⟨plainModel 0, none, none⟩, ⟨plainModel 0, none, none⟩], [], []⟩) (oi := 1) (mi := 0) rfl rfl rfl
      (plainOpts_plain (stages := 1) (fes := 1) one_pos one_pos one_pos)
  refine ⟨⟨1, 0, P, [], ({ IpoptDict.initial with maxIter := v } : IpoptDict).defaultTol
    (plainOpts 1 1 1).fresh.compTol⟩, ?_, rfl, ?_⟩
  · show (World.newSolver colloc _ 1 0 none).1.solvers[0]? = _
    exact (congrArg (fun l : List SolverObj => l[0]?) e)
  · rw [default_maxIter]

/-- The hypotheses of `C80_single_object_partial` are met by a history that creates a solver. -/
example (v : Int) : Along colloc orc
    (fun w op => ∀ j v, op = .setNlpMaxIter j v → j = 1 ∧ 1 < w.opts.length) World.initial
      (twoObjects 1 1 ++ [.setNlpMaxIter 1 v]) := by
  refine ⟨?_, ?_, ?_, ?_, ?_, trivial⟩
  · intro j v e; cases e
  · intro j v e; cases e
  · intro j v e; cases e
  · intro j v e; cases e
  · intro j v e
    cases e
    exact ⟨rfl, Nat.one_lt_two⟩

end
end Nosnoc
