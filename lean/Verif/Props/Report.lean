import Verif.Model.Report
import Verif.Props.Honest
import Verif.Props.StepStewartViol
import Verif.Witness.TwoStewart
import Verif.Witness.Setups
/-
C88: the problem report of `print`.  C89: the problem written by `dump`.
-/
namespace Nosnoc

section
variable {colloc : IrkScheme → Nat → List ℝ} {o : Opts} {um : UserModel} {uo : Option UserOcp}
  {po : PreOpts} {m : PreModel} {oc : PreOcp} {P : Problem} {orc : Oracle} {S : Solver}

/-! ### C88 -/

theorem printFlag_bound {lb ub : EReal} {x : ℝ} : printFlag lb ub x = .boundError ↔ ub < lb := by
  unfold printFlag
  by_cases h : lb > ub
  · simp [h]
  · rw [if_neg h]
    split <;> simp [h]

theorem printFlag_w0 {lb ub : EReal} {x : ℝ} :
    printFlag lb ub x = .w0Error ↔ lb ≤ ub ∧ (x : EReal) < lb := by
  unfold printFlag
  by_cases h : lb > ub
  · simp [h]
  · rw [if_neg h]
    by_cases h2 : (x : EReal) < lb
    · simp [h2, not_lt.1 h]
    · simp [h2]

/-- C88: `print` returns and shows one line per variable.  A variable is flagged BOUND ERROR exactly if
its bounds contradict each other, and W0 ERROR exactly if its guess is below the lower bound; `errors`
is the number of flagged variables.

Partial: the property asks for the flag W0 ERROR also if the guess is above the upper bound, see
`C88_guess_above_violated`. -/
theorem C88_print_partial (h : Setup colloc o um uo po m oc P)
    (hS : Reachable colloc o um uo orc S) (hr : Ready um S) :
    ∃ fl n, S.P.print = .ok (fl, n) ∧ fl.length = S.P.form.w.length ∧
      (∀ (i : Nat) lb ub x, S.P.form.lbw[i]? = some lb → S.P.form.ubw[i]? = some ub →
        S.P.form.w0[i]? = some x → ∃ f, fl[i]? = some f ∧ (f = .boundError ↔ ub < lb) ∧
          (f = .w0Error ↔ lb ≤ ub ∧ (x : EReal) < lb)) ∧
      n = fl.countP (fun f => f = .boundError ∨ f = .w0Error) := by
  have hi := hS.inv h
  obtain ⟨b1, b2, -⟩ := C04_bounds_and_guess h
  obtain ⟨g1, g2, -⟩ := C05_constraints_aligned h
  have l1 : S.P.form.lbw.length = S.P.form.w.length := by rw [hi.prob]; simp [b1]
  have l2 : S.P.form.ubw.length = S.P.form.w.length := by rw [hi.prob]; simp [b2]
  have l3 := hr.guess
  have l4 : S.P.form.ubg.length = S.P.form.lbg.length := by rw [hi.prob]; exact g2.trans g1.symm
  have l5 : S.P.form.g.length = S.P.form.lbg.length := by rw [hi.prob]; exact g1.symm
  have hf : S.P.printFlags = .ok ((List.range S.P.form.lbw.length).map fun i =>
      printFlag (S.P.form.lbw.getD i 0) (S.P.form.ubw.getD i 0) (S.P.form.w0.getD i 0)) := by
    refine mapM_ok fun i hi => ?_
    have hi := List.mem_range.1 hi
    have e : ∀ {α : Type} (l : List α) (d : α), l.length = S.P.form.w.length →
        listGet l i = .ok (l.getD i d) := by
      intro α l d hl
      rw [listGet_eq_ok, List.getElem?_eq_getElem (by omega)]
      simp [List.getD_eq_getElem?_getD, List.getElem?_eq_getElem (show i < l.length by omega)]
    obtain ⟨t, ht⟩ : ∃ t, S.P.form.w[i]? = some t :=
      ⟨_, List.getElem?_eq_getElem (by omega)⟩
    simp only [e _ 0 l1, e _ 0 l2, e _ 0 l3, listGet_eq_ok.2 ht]
    rfl
  have hg : ∀ {α : Type} (l : List α), l.length = S.P.form.lbg.length →
      ∃ r, (List.range S.P.form.lbg.length).mapM (listGet l) = .ok r := by
    intro α l hl
    cases l with
    | nil => rw [← hl]; exact ⟨[], rfl⟩
    | cons d l =>
      refine ⟨_, mapM_ok (g := fun i => (d :: l).getD i d) fun i hi => ?_⟩
      have hi := List.mem_range.1 hi
      rw [listGet_eq_ok, List.getD_eq_getElem?_getD, List.getElem?_eq_getElem (by omega)]
      rfl
  obtain ⟨r1, h1⟩ := hg _ l4
  obtain ⟨r2, h2⟩ := hg _ l5
  refine ⟨(List.range S.P.form.lbw.length).map fun i =>
      printFlag (S.P.form.lbw.getD i 0) (S.P.form.ubw.getD i 0) (S.P.form.w0.getD i 0),
    _, ?_, ?_, ?_, rfl⟩
  · unfold Problem.print
    rw [h1, h2, hf]
    simp only [ok_bind]
    congr 2
    rw [← List.countP_eq_length_filter]
    refine List.countP_congr fun f _ => ?_
    cases f <;> simp
  · simp [l1]
  · intro i lb ub x q1 q2 q3
    have hlt : i < S.P.form.lbw.length := (List.getElem?_eq_some_iff.1 q1).1
    refine ⟨printFlag lb ub x, ?_, printFlag_bound, printFlag_w0⟩
    rw [List.getElem?_map, List.getElem?_range hlt]
    simp [List.getD_eq_getElem?_getD, q1, q2, q3]

/-- C88: `print` reports no errors exactly if the bounds of every variable are consistent and its guess
is not below the lower bound.  (The property says: exactly if the guess is within its bounds.) -/
theorem C88_no_errors_partial (h : Setup colloc o um uo po m oc P)
    (hS : Reachable colloc o um uo orc S) (hr : Ready um S) :
    (∃ fl, S.P.print = .ok (fl, 0)) ↔
      ∀ (i : Nat) lb ub x, S.P.form.lbw[i]? = some lb → S.P.form.ubw[i]? = some ub →
        S.P.form.w0[i]? = some x → lb ≤ ub ∧ lb ≤ (x : EReal) := by
  have hi := hS.inv h
  obtain ⟨b1, b2, -⟩ := C04_bounds_and_guess h
  obtain ⟨fl, n, h1, h2, h3, h4⟩ := C88_print_partial h hS hr
  constructor
  · rintro ⟨fl', h'⟩ i lb ub x q1 q2 q3
    rw [h1] at h'
    cases h'
    obtain ⟨f, hf, a, b⟩ := h3 i lb ub x q1 q2 q3
    have hn := List.countP_eq_zero.1 h4.symm f (List.mem_of_getElem? hf)
    simp only [decide_eq_true_eq, not_or] at hn
    have c1 := not_lt.1 (fun hc => hn.1 (a.2 hc))
    exact ⟨c1, not_lt.1 fun hc => hn.2 (b.2 ⟨c1, hc⟩)⟩
  · intro hq
    refine ⟨fl, ?_⟩
    rw [h1]
    congr 2
    rw [h4, List.countP_eq_zero]
    intro f hf
    obtain ⟨i, hf⟩ := List.mem_iff_getElem?.1 hf
    have hlt : i < S.P.form.w.length := h2 ▸ (List.getElem?_eq_some_iff.1 hf).1
    have l1 : i < S.P.form.lbw.length := by rw [hi.lbw, b1, List.length_map, ← hi.w]; exact hlt
    have l2 : i < S.P.form.ubw.length := by rw [hi.ubw, b2, List.length_map, ← hi.w]; exact hlt
    have l3 : i < S.P.form.w0.length := by rw [hr.guess]; exact hlt
    obtain ⟨f', hf', a, b⟩ := h3 i _ _ _ (List.getElem?_eq_getElem l1)
      (List.getElem?_eq_getElem l2) (List.getElem?_eq_getElem l3)
    obtain ⟨c1, c2⟩ := hq i _ _ _ (List.getElem?_eq_getElem l1)
      (List.getElem?_eq_getElem l2) (List.getElem?_eq_getElem l3)
    rw [hf] at hf'
    cases hf'
    simp only [decide_eq_true_eq, not_or]
    exact ⟨fun hc => absurd (a.1 hc) (not_lt.2 c1), fun hc => absurd (b.1 hc).2 (not_lt.2 c2)⟩

/-- The full claim of C88 fails: after `set('w', …)` with a guess that is far above the upper bound of
a step length, `print` still shows `errors: 0`. -/
theorem C88_guess_above_violated (orc : Oracle) : ∃ (po : PreOpts) (m : PreModel) (oc : PreOcp)
    (P : Problem) (S : Solver) (fl : List Flag) (i : Nat) (x : ℝ) (u : EReal),
    SetupEx demoColloc Opts.default demoModel (some demoOcp) po m oc P ∧
    Reachable demoColloc Opts.default demoModel (some demoOcp) orc S ∧ Ready demoModel S ∧
    S.P.form.w0[i]? = some x ∧ S.P.form.ubw[i]? = some u ∧ u < (x : EReal) ∧
    S.P.print = .ok (fl, 0) := by
  obtain ⟨po, m, oc, P, h, hf, hd, hopt⟩ := demo_setup demo_default
  have h' := h.toSetup
  obtain ⟨-, hS, hr⟩ := h'.create orc (by simp [Opts.default])
  obtain ⟨b1, b2, -⟩ := C04_bounds_and_guess h'
  have hS2 := hS.set .w (.vec (P.form.w.map fun t => demoEnv po t + 100))
  have hw0 : ((Solver.set ⟨po, m, P, none, []⟩ .w
      (.vec (P.form.w.map fun t => demoEnv po t + 100))).1).P.form.w0
        = P.form.w.map fun t => demoEnv po t + 100 := rfl
  have hi := hS2.inv h'
  have hr2 : Ready demoModel (Solver.set ⟨po, m, P, none, []⟩ .w
      (.vec (P.form.w.map fun t => demoEnv po t + 100))).1 := by
    refine ⟨hr.x0, ?_⟩
    rw [hw0, hi.w]
    simp
  have hfe : po.useFesd = true := by rw [hopt]; rfl
  have hmem : Sym.h 0 0 ∈ P.form.w := by
    refine (C04_variables h' _).1 ⟨hfe, ?_⟩
    have e1 : po.nStages = 1 := by rw [hopt]; rfl
    have e2 : po.nfeList = [2] := by rw [hopt]; simp [Opts.nfeAfter, Opts.default]
    simp [HasFE, e1, e2, nfe]
  obtain ⟨i, hi'⟩ := List.mem_iff_getElem?.1 hmem
  have e3 : nominalH po 0 = 1 / 2 := by
    have e1 : po.nStages = 1 := by rw [hopt]; rfl
    have e2 : po.nfeList = [2] := by rw [hopt]; simp [Opts.nfeAfter, Opts.default]
    have e3 : po.terminalTime = 1 := by rw [hopt]; rfl
    norm_num [nominalH, e1, e2, e3, nfe]
  have e4 : po.gammaH = 1 := by rw [hopt]; rfl
  obtain ⟨fl, hfl⟩ := (C88_no_errors_partial h' hS2 hr2).2 (by
    intro j lb ub x q1 q2 q3
    rw [hi.lbw] at q1
    rw [hi.ubw] at q2
    rw [hw0, List.getElem?_map] at q3
    cases ht : P.form.w[j]? with
    | none => rw [ht] at q3; cases q3
    | some t =>
      rw [ht] at q3
      cases q3
      obtain ⟨a, b⟩ := hf.1 (t, lb, ub) (List.mem_iff_getElem?.2 ⟨j, by
        rw [List.getElem?_zip_eq_some, List.getElem?_zip_eq_some]; exact ⟨ht, q1, q2⟩⟩)
      refine ⟨le_trans a b, le_trans a ?_⟩
      exact_mod_cast (by linarith : demoEnv po t ≤ demoEnv po t + 100))
  refine ⟨po, m, oc, P, _, fl, i, demoEnv po (.h 0 0) + 100,
    (((1 + po.gammaH) * nominalH po 0 : ℝ) : EReal), h, hS2, hr2, ?_, ?_, ?_, hfl⟩
  · rw [hw0, List.getElem?_map, hi']
    rfl
  · rw [hi.ubw, b2, List.getElem?_map, hi']
    rfl
  · have e5 : demoEnv po (.h 0 0) = 1 / 2 := (one_mul _).trans e3
    rw [e5]
    rw [e3, e4]
    exact_mod_cast (by norm_num : ((1 + 1) * (1 / 2) : ℝ) < 1 / 2 + 100)

/-! ### C89 -/

/-- A point satisfies the bounds and constraints that are stored in a dump. -/
def Dump.Feasible (D : Dump) (w p : List ℝ) : Prop :=
  Within w D.lbw D.ubw ∧ Within (D.g w p) D.lbg D.ubg

/-- C89: `dump` returns; shapes, bounds and guess are those of the problem, and `p0` has the size of the
parameter vector. -/
theorem C89_dump_returns (h : Setup colloc o um uo po m oc P)
    (hS : Reachable colloc o um uo orc S) (hr : Ready um S) :
    ∃ D, S.dump = .ok D ∧ D.wShape = P.form.w.length ∧ D.pShape = P.p.length ∧
      D.p0.length = D.pShape ∧ D.lbw.length = D.wShape ∧ D.ubw.length = D.wShape ∧
      D.w0 = S.P.form.w0 ∧ D.w0.length = D.wShape ∧ D.lbg.length = D.ubg.length ∧
      ∀ w p, (D.g w p).length = D.lbg.length := by
  have hi := hS.inv h
  obtain ⟨p0, hp0, hl, hc⟩ := computeLambda00_ok h hi hr.x0
  obtain ⟨b1, b2, -⟩ := C04_bounds_and_guess h
  obtain ⟨g1, g2, -⟩ := C05_constraints_aligned h
  have hpl := pValues_length h hi hr.x0 (lam00List_length h S.m.x0 m.z0 p0) 0 0
  unfold Solver.dump
  rw [hc]
  refine ⟨_, rfl, congrArg _ hi.w, congrArg _ hi.p, hpl, ?_, ?_, rfl, hr.guess, ?_, fun w p => ?_⟩
  · show S.P.form.lbw.length = S.P.form.w.length
    rw [hi.lbw, b1, hi.w, List.length_map]
  · show S.P.form.ubw.length = S.P.form.w.length
    rw [hi.ubw, b2, hi.w, List.length_map]
  · show S.P.form.lbg.length = S.P.form.ubg.length
    rw [hi.prob]; exact g1.trans g2.symm
  · show (S.P.form.g.map _).length = S.P.form.lbg.length
    rw [hi.prob, List.length_map]; exact g1.symm

theorem within_iff {α : Type} {ev : α → ℝ} {l : List α} {lb ub : List EReal} (h1 : lb.length = l.length)
    (h2 : ub.length = l.length) : Within (l.map ev) lb ub ↔
      ∀ q ∈ l.zip (lb.zip ub), q.2.1 ≤ ((ev q.1 : ℝ) : EReal) ∧ ((ev q.1 : ℝ) : EReal) ≤ q.2.2 := by
  constructor
  · rintro hw ⟨t, a, b⟩ hq
    obtain ⟨i, hq⟩ := List.mem_iff_getElem?.1 hq
    rw [List.getElem?_zip_eq_some, List.getElem?_zip_eq_some] at hq
    obtain ⟨q1, q2⟩ := hw i (ev t) (by rw [List.getElem?_map, hq.1]; rfl)
    exact ⟨q1 a hq.2.1, q2 b hq.2.2⟩
  · intro hw i x hx
    rw [List.getElem?_map] at hx
    cases ht : l[i]? with
    | none => rw [ht] at hx; cases hx
    | some t =>
      rw [ht] at hx
      cases hx
      have hlt : i < l.length := (List.getElem?_eq_some_iff.1 ht).1
      have q1 := List.getElem?_eq_getElem (show i < lb.length by omega)
      have q2 := List.getElem?_eq_getElem (show i < ub.length by omega)
      obtain ⟨a, b⟩ := hw (t, _, _) (List.mem_iff_getElem?.2 ⟨i, by
        rw [List.getElem?_zip_eq_some, List.getElem?_zip_eq_some]; exact ⟨ht, q1, q2⟩⟩)
      refine ⟨fun v hv => ?_, fun v hv => ?_⟩
      · rw [q1] at hv; cases hv; exact a
      · rw [q2] at hv; cases hv; exact b

theorem dump_agree (h : Setup colloc o um uo po m oc P) (env : Env) :
    (∀ t ∈ P.form.w, P.point (P.form.w.map env) (P.p.map env) t = env t) ∧
      ∀ t ∈ P.p, P.point (P.form.w.map env) (P.p.map env) t = env t :=
  ⟨List.map_inj_left.1 (h.point_w (by simp)), List.map_inj_left.1 (h.point_p (by simp) (by simp))⟩

/-- The dumped problem at a point is the problem at this point. -/
theorem dump_feasible (h : SetupEx colloc o um uo po m oc P) (hi : Inv po m P S)
    {D : Dump} (hD : S.dump = .ok D) (env : Env) :
    D.Feasible (P.form.w.map env) (P.p.map env) ↔ P.form.Feasible env := by
  have h' := h.toSetup
  unfold Solver.dump at hD
  rw [bind_eq_ok] at hD
  obtain ⟨lam00, -, hD⟩ := hD
  cases hD
  have hpt : ∀ w p, S.P.point w p = P.point w p := by
    intro w p
    rw [hi.prob]
    rfl
  obtain ⟨a1, a2⟩ := dump_agree h' env
  rw [← C84_feasible h' h.sound a1 a2]
  unfold Dump.Feasible
  dsimp only
  have hfull : P.form.lbw.length = P.form.w.length ∧ P.form.ubw.length = P.form.w.length ∧
      P.form.lbg.length = P.form.g.length ∧ P.form.ubg.length = P.form.g.length := by
    obtain ⟨b1, b2, -⟩ := C04_bounds_and_guess h'
    obtain ⟨g1, g2, -⟩ := C05_constraints_aligned h'
    exact ⟨by simp [b1], by simp [b2], g1, g2⟩
  have e1 : S.P.form.lbw = P.form.lbw := hi.lbw
  have e2 : S.P.form.ubw = P.form.ubw := hi.ubw
  have e3 : S.P.form.lbg = P.form.lbg := by rw [hi.prob]
  have e4 : S.P.form.ubg = P.form.ubg := by rw [hi.prob]
  have e5 : S.P.form.g = P.form.g := by rw [hi.prob]
  rw [e1, e2, e3, e4, e5]
  simp only [hpt]
  generalize henv : P.point (P.form.w.map env) (P.p.map env) = env'
  rw [henv] at a1
  have hw' : P.form.w.map env = P.form.w.map env' := by
    exact (List.map_inj_left.2 a1).symm
  rw [hw']
  exact and_congr (within_iff hfull.1 hfull.2.1) (within_iff hfull.2.2.1 hfull.2.2.2)

/-- C89: the dumped functions, bounds and parameter values are the discretised optimal control problem
for the initial state and parameters that are currently set, with both homotopy parameters 0.  For every
point `env` of it (values of variables and parameters, the latter as in `p0`): the dumped problem is
satisfied at the values of the variables exactly if the point satisfies the discretised problem (with
BOOLEAN: for some values of the binary variables), and the dumped objective is its objective.  The entries
of `p0` are the values of the parameters, except that the initial multipliers are only in the right places
for Stewart mode or at most one switching system.

Partial: Step mode with several systems is violated (`C89_step_several_systems_violated`); in elastic mode
with `objective_scaling_direct` the objective is divided by the homotopy parameter, so the dumped `f`
cannot be evaluated at `p0`. -/
theorem C89_dump_partial (h : SetupEx colloc o um uo po m oc P)
    (hS : Reachable colloc o um uo orc S) (hr : Ready um S)
    {D : Dump} (hD : S.dump = .ok D) :
    (∀ env : Env, P.p.map env = D.p0 →
      (o.mpcc ≠ .boolean → (D.Feasible (P.form.w.map env) D.p0 ↔
        FeasibleSpec po m.dims um (uo.getD UserOcp.trivial) env)) ∧
      (o.mpcc = .boolean → ((∃ env', (∀ t, ¬ IsBoolSym t → env' t = env t) ∧
          D.Feasible (P.form.w.map env') D.p0) ↔
        FeasibleSpec po m.dims um (uo.getD UserOcp.trivial) env)) ∧
      (∀ t ∈ P.p, ¬ IsLam00 t → env t = paramVal um S 0 0 t)) ∧
    (∀ env : Env, (env .sigma ≠ 0 ∨ o.objScalingDirect = false ∨
        (o.mpcc ≠ .elasticIneq ∧ o.mpcc ≠ .elasticEq ∧ o.mpcc ≠ .elasticTwoSided)) →
      D.f (P.form.w.map env) (P.p.map env) = objectiveSpec po m.dims (uo.getD UserOcp.trivial) env) ∧
    (o.pss = .stewart ∨ um.nSys ≤ 1 → D.p0 = P.p.map (paramVal um S 0 0)) := by
  have h' := h.toSetup
  have hi := hS.inv h'
  have hF := dump_feasible h hi hD
  obtain ⟨p0, hp0, hl, hc⟩ := computeLambda00_ok h' hi hr.x0
  have hll := lam00List_length h' S.m.x0 m.z0 p0
  unfold Solver.dump at hD
  rw [hc] at hD
  cases hD
  have hpt : ∀ w p, S.P.point w p = P.point w p := by
    intro w p
    rw [hi.prob]
    rfl
  refine ⟨fun env he => ⟨fun hb => ?_, fun hb => ?_, ?_⟩, fun env _ => ?_, ?_⟩
  · rw [← he, hF, C83_feasible_iff h hb]
  · rw [← C83_feasible_iff_boolean h hb]
    refine exists_congr fun env' => and_congr_right fun hs => ?_
    have e : P.p.map env' = P.p.map env := List.map_inj_left.2 fun t ht => hs t fun hbs => by
      have := h'.isParam ht
      cases t <;> simp_all [IsBoolSym, IsParam]
    rw [← he, ← e, hF]
  · intro t ht hlam
    exact h'.pValues_symbols hi hr.x0 hll he ht hlam
  · obtain ⟨a1, a2⟩ := dump_agree h' env
    rw [← h'.built.cost h.exact']
    dsimp only
    rw [hpt, show S.P.form.cost = P.form.cost by rw [hi.prob]]
    exact (C84_closed h' h.sound a1 a2).2.1
  · intro hm
    rw [← hi.p]
    exact paramVal_of_lam00 h' hi hr.x0 hp0 rfl hm 0 0

/-- The trajectory of the two systems: both stay in their first region. -/
def twoPath : Path where
  x0 := fun _ => 0
  u := fun _ _ => 0
  v := fun _ => 0
  p := fun _ _ => 0
  speed := fun _ => 1
  H := fun _ _ => 1
  X := fun _ _ _ => 0
  theta := fun _ _ _ i => if i = 0 then 1 else 0

/-- The point of the Step problem that belongs to it, with the right initial multipliers. -/
theorem two_exact {po m oc P} (h' : SetupEx oneColloc twoOpts twoModel (some UserOcp.trivial) po m oc P) :
    ∃ env, P.form.Feasible env ∧ env .sigma = 0 ∧ env (.x0 0) = 0 ∧
      (∀ s < 2, env (.lam00 .lamN s 0) = 0 ∧ env (.lam00 .lamP s 0) = 1) := by
  obtain ⟨po1, m1, oc1, P1, h, hr, -⟩ := two_stewart_setup
  have e1 : po1.nStages = 1 := h.e_nStages
  have e2 : nfe po1 0 = 1 := by unfold nfe; rw [h.e_nfeList]; rfl
  have e3 : po1.terminalTime = 1 := h.e_terminalTime
  have e4 : po1.gammaH = 1 := h.e_gammaH
  have e5 : po1.equidistant = true := h.e_equidistant
  have e6 : po1.sot = .none := h.e_sot
  have hW : ∑ j ∈ Finset.range twoStewartOpts.nS, (fun _ => (1 : ℝ)) j = 1 := by
    simp [twoStewartOpts]
  have sys : ∀ {s}, s < twoModel.nSys → s = 0 ∨ s = 1 := by
    intro s hs
    have : twoModel.nSys = 2 := rfl
    omega
  have eF : ∀ {s}, s < twoModel.nSys → twoModel.Fmat s = ⟨2, fun _ i _ _ _ _ _ => i⟩ := by
    intro s hs; rcases sys hs with rfl | rfl <;> rfl
  have eS : ∀ {s}, s < twoModel.nSys → twoModel.Smat s = signMat := by
    intro s hs; rcases sys hs with rfl | rfl <;> rfl
  have eC : ∀ {s}, s < twoModel.nSys → twoModel.cVec s = ⟨1, fun _ _ _ _ => 1⟩ := by
    intro s hs; rcases sys hs with rfl | rfl <;> rfl
  have hcl : ∀ {s}, s < twoModel.nSys → ∀ {i k e}, twoPath.theta k e s i ≠ 0 → ∀ x p,
      twoModel.InClosedRegion s i x p := by
    intro s hs i k e hθ x p n hn
    have hi : i = 0 := by
      by_contra hne
      exact hθ (by simp [twoPath, hne])
    subst hi
    rw [eS hs, eC hs]
    simp [signMat]
  have hstart : ∀ k e i, twoPath.start po1 k e i = 0 := by
    intro k e i
    unfold Path.start
    split <;> rfl
  have hT : twoPath.Solves twoModel UserOcp.trivial po1
      (∑ j ∈ Finset.range twoStewartOpts.nS, (fun _ => (1 : ℝ)) j) := by
    rw [hW]
    have lt : ∀ {k e}, HasFE po1 k e → k = 0 := by
      intro k e hk
      have := hk.1
      omega
    refine ⟨?_, ?_, fun k e _ s hs i _ hθ => ⟨hcl hs hθ _ _, hcl hs hθ _ _⟩,
      fun k e _ s hs i _ hθ => hcl hs hθ _ _, ?_, ?_, ?_, ?_, ?_, ?_, ?_, ?_, ?_, ?_, ?_⟩
    · intro k e hk i _
      rw [hstart]
      have : twoPath.slope twoModel k e i = 0 := by
        unfold Path.slope
        refine Finset.sum_eq_zero fun s hs => ?_
        rw [eF (Finset.mem_range.1 hs)]
        simp [Finset.sum_range_succ, twoPath]
      rw [this]
      simp [twoPath]
    · intro k e hk s hs
      rw [eF hs]
      refine ⟨fun i _ => ?_, by simp [Finset.sum_range_succ, twoPath]⟩
      simp only [twoPath]
      split <;> norm_num
    · intro k e hk
      obtain rfl := lt hk
      unfold nominalH
      rw [e1, e2, e3, e4]
      norm_num [twoPath]
    · intro _ k hk
      obtain rfl : k = 0 := by omega
      rw [e1, e2, e3]
      simp [twoPath]
    · intro _ h1; rw [e5] at h1; cases h1
    · intro _ k _; rfl
    · intro h0; rw [e6] at h0; cases h0
    · intro i _; exact ⟨bot_le, le_top⟩
    · intro k e _ i _; exact ⟨bot_le, le_top⟩
    · intro k _ i hi; exact absurd hi (by simp [twoModel])
    · intro i hi; exact absurd hi (by simp [twoModel])
    · intro k e _ _ i hi; exact absurd hi (by simp [UserOcp.trivial])
    · intro i hi; exact absurd hi (by simp [UserOcp.trivial])
  have hFS : FullSigns twoModel := ⟨rfl, rfl, fun s hs => by
    rw [eS hs]; exact ⟨signMat_dense, signMat_partition⟩⟩
  obtain ⟨env, D, a1, -, -, -, a5, -⟩ := C95_filippov_step_partial (b := fun _ => 1) (T := twoPath) h h' rfl rfl
    hr (.inl (by simp [SignedMode, twoStewartOpts, Opts.default]))
    (fun s hs => ⟨by rw [eS hs]; exact signMat_partition,
      fun _ => ⟨rfl, by rw [eS hs]; exact signMat_dense⟩, fun hc => by cases hc⟩) hFS
    (by simp [twoStewartOpts, Opts.default])
    ⟨rfl, fun s hs _ _ _ _ _ _ _ => by rw [eF hs],
      fun s hs _ _ _ => ⟨fun _ => 0, 1, fun x => by rw [eC hs]; simp⟩⟩
    ⟨rfl, rfl, fun _ => rfl, rfl, by simp [twoStewartOpts, Opts.default],
      by simp [twoStewartOpts, Opts.default], by simp [twoStewartOpts, Opts.default]⟩
    (fun hc => by cases hc)
    ⟨fun _ _ => zero_le_one, fun _ t ht j hj => by
      have h2 : generateButcher twoStewartOpts.nS twoStewartOpts.scheme = .ok radau1 := rfl
      rw [h2] at ht; cases ht
      obtain rfl : j = 0 := by
        have : twoStewartOpts.nS = 1 := rfl
        omega
      norm_num [radau1, Tableau.w], fun hc => by cases hc⟩ hT
    (fun k e _ s hs => .inl (by rw [eS hs]; rfl))
  have ep : po.pss = .step := h'.e_pss
  obtain ⟨-, -, -, -, -, -, dS, -, dC⟩ := h'.toSetup.dims
  have isP : ∀ s < 2, s < m.dims.nSys ∧ 0 < m.dims.nC s := by
    intro s hs
    refine ⟨by rw [dS]; exact hs, ?_⟩
    rw [dC ep s hs, eC hs]
    exact Nat.one_pos
  refine ⟨env, D.feas, D.sigma, a1 0, fun s hs => ⟨?_, ?_⟩⟩
  · rw [show env (.lam00 .lamN s 0) = lam00At env (.neg s 0) from rfl, a5 (.neg s 0) ⟨ep, (isP s hs)⟩]
    simp [UserModel.lam00Val, UserModel.lam00Neg, eC (s := s) hs]
  · rw [show env (.lam00 .lamP s 0) = lam00At env (.pos s 0) from rfl, a5 (.pos s 0) ⟨ep, (isP s hs)⟩]
    simp [UserModel.lam00Val, UserModel.lam00Pos, eC (s := s) hs]

/-- C89 is violated in Step mode with two switching systems: the dumped parameter values have 1 where the
initial multiplier of the second system should be 0, and no point with these parameters satisfies the
dumped problem, although there is a solution with the right ones (`τ` does not occur in the problem with
the default mode). -/
theorem C89_step_several_systems_violated (orc : Oracle) : ∃ po m oc P S D,
    SetupEx oneColloc twoOpts twoModel (some UserOcp.trivial) po m oc P ∧
    Reachable oneColloc twoOpts twoModel (some UserOcp.trivial) orc S ∧ Ready twoModel S ∧
    S.dump = .ok D ∧ P.p[3]? = some (.lam00 .lamN 1 0) ∧ D.p0[3]? = some 1 ∧
    paramVal twoModel S 0 0 (.lam00 .lamN 1 0) = 0 ∧
    (∀ env, P.p.map env = D.p0 → ¬ D.Feasible (P.form.w.map env) D.p0) ∧
    ∃ env, D.Feasible (P.form.w.map env) (P.p.map env) ∧
      ∀ t ∈ P.p, t ≠ .tau → env t = paramVal twoModel S 0 0 t := by
  obtain ⟨po, m, oc, P, h, hrbe, hA⟩ := two_setup
  obtain ⟨-, hS, hr⟩ := h.toSetup.create orc (by simp [twoOpts, Opts.default])
  have hi := hS.inv h.toSetup
  obtain ⟨D, hD, -⟩ := C89_dump_returns h.toSetup hS hr
  have hF := dump_feasible h hi hD
  obtain ⟨p0, hp0, hpl, hv⟩ := computeLambda00_ok h.toSetup hi hr.x0
  have e2 : po.pss = .step := by rw [h.opts]; rfl
  have e1 : po.nStages = 1 := by rw [h.opts]; rfl
  have hp00 : p0 = [] := by
    have : p0.length = 0 := hpl
    exact List.length_eq_zero_iff.1 this
  have hpv : m.pVal = [[]] := by
    have := hi.pLen
    rw [e1] at this
    have hp0' : m.pVal[0]? = some [] := by rw [← hp00]; exact hp0
    have hl : m.pVal.length = 1 := this
    match hm : m.pVal, hl with
    | [a], _ => rw [hm] at hp0'; cases hp0'; rfl
  have hx0 : m.x0 = [0] := by
    obtain ⟨nC, nF, g, up, f0, acc, hp⟩ := h.toSetup.built.pre
    exact hp.x0
  have hlam : twoModel.lam00List po.pss m.x0 m.z0 p0 = [0, 1, 0, 1] := by
    rw [e2]
    simp [UserModel.lam00List, twoModel, UserModel.nSys, UserModel.cVec, List.range_succ,
      UserModel.lam00Neg, UserModel.lam00Pos]
  have hp : D.p0 = [0, 0, 0, 1, 0, 1, 0] := by
    unfold Solver.dump at hD
    rw [hv] at hD
    cases hD
    show m.pVal.flatten ++ [0, 0] ++ twoModel.lam00List po.pss m.x0 m.z0 p0 ++ m.x0 = _
    rw [hpv, hlam, hx0]
    rfl
  have hP := two_dims h
  refine ⟨po, m, oc, P, _, D, h, hS, hr, hD, by rw [hP]; rfl, by rw [hp]; rfl, ?_, fun env he hf => ?_, ?_⟩
  · simp [paramVal, UserModel.lam00Neg, twoModel, UserModel.cVec]
  · rw [← he, hF] at hf
    rw [hp, hP] at he
    simp only [List.map_cons, List.map_nil, List.cons.injEq] at he
    obtain ⟨q1, -, -, q4, -, q6, -, -⟩ := he
    have := two_infeasible h hrbe hf q4 q6
    rw [q1] at this
    norm_num at this
  · obtain ⟨env, f1, f2, f3, f4⟩ := two_exact h
    refine ⟨env, (hF env).2 f1, fun t ht hne => ?_⟩
    rw [hP] at ht
    simp only [List.mem_cons, List.not_mem_nil, or_false] at ht
    have n0 := f4 0 (by omega)
    have n1 := f4 1 (by omega)
    rcases ht with rfl | rfl | rfl | rfl | rfl | rfl | rfl
    · exact f2
    · exact absurd rfl hne
    · rw [n0.1]; simp [paramVal, UserModel.lam00Neg, twoModel, UserModel.cVec]
    · rw [n1.1]; simp [paramVal, UserModel.lam00Neg, twoModel, UserModel.cVec]
    · rw [n0.2]; simp [paramVal, UserModel.lam00Pos, twoModel, UserModel.cVec]
    · rw [n1.2]; simp [paramVal, UserModel.lam00Pos, twoModel, UserModel.cVec]
    · rw [f3]; simp [paramVal, hx0]

/-- The hypotheses of C88 and C89 are met. -/
example (orc : Oracle) : ∃ po m oc P S D,
    SetupEx demoColloc Opts.default demoModel (some demoOcp) po m oc P ∧
    Reachable demoColloc Opts.default demoModel (some demoOcp) orc S ∧ Ready demoModel S ∧
    S.dump = .ok D ∧ ∃ env, P.p.map env = D.p0 := by
  obtain ⟨po, m, oc, P, h, -⟩ := demo_setup demo_default
  obtain ⟨-, hS, hr⟩ := h.toSetup.create orc (by simp [Opts.default])
  obtain ⟨D, hD, -, e2, e3, -⟩ := C89_dump_returns h.toSetup hS hr
  exact ⟨po, m, oc, P, _, D, h, hS, hr, hD, _,
    h.toSetup.point_p (w := P.form.w.map fun _ => 0) (by simp) (e3.trans e2)⟩

end

end Nosnoc
