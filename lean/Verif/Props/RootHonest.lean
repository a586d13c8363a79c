import Verif.Props.Root
import Verif.Props.Honest
import Verif.Witness.Exact
/-
C91, C87: what SUCCESS means with an exact NLP solver and the root finder for the initial algebraic
variables.
-/
namespace Nosnoc

variable {colloc : IrkScheme → Nat → List ℝ} {o : Opts} {um : UserModel} {uo : Option UserOcp} {po : PreOpts}
  {m : PreModel} {oc : PreOcp} {P : Problem} {S : Solver} {orc : Oracle}

/-- C91 with an exact NLP solver: if `solve` with `rootfinder_for_initial_z=True` reports SUCCESS, the
returned `w_sol` satisfies the discretised optimal control problem; there the parameters have the values
currently set, the initial state is the current `x0`, and the initial multipliers are those of the
discontinuous system at `x0` and at algebraic variables that solve the user's equations.  (Without
polishing and without `fix_active_set_fe0`; Stewart mode or at most one system, cf. C08.) -/
theorem C91_success_is_feasible (rf : RootFinder) (hrf : rf.Correct um.nZ)
    (h : SetupEx colloc o um uo po m oc P) (hS : Reachable colloc o um uo orc S) (hr : Ready um S)
    (hL : o.nfeAfter.length = o.nStages)
    (hroot : um.rootCheck = .ok ()) (hp : o.polish = false) (hfx : o.fixActiveSetFe0 = false)
    (hmode : o.pss = .stewart ∨ um.nSys ≤ 1) (hon : orc.Exact P) {r : SolveResult}
    (hok : (S.solveRoot orc rf um).2 = .ok r) (hs : r.status = .success) :
    ∃ (env : Env) (sigma tau : ℝ) (p0 z : List ℝ),
      FeasibleSpec po m.dims um (uo.getD UserOcp.trivial) env ∧
      P.form.w.map env = r.wSol ∧ ResultsSpec po m.dims S.m.x0 env r.res ∧
      S.m.pVal[0]? = some p0 ∧ um.Consistent S.m.x0 z p0 ∧
      (∀ t ∈ P.p, ¬ IsLam00 t → env t = paramVal um S sigma tau t) ∧
      (∀ s i, .lam00 .lam s i ∈ P.p → env (.lam00 .lam s i) = um.lam00St S.m.x0 z p0 s i) ∧
      (∀ s i, .lam00 .lamN s i ∈ P.p → env (.lam00 .lamN s i) = um.lam00Neg S.m.x0 z p0 s i) ∧
      (∀ s i, .lam00 .lamP s i ∈ P.p → env (.lam00 .lamP s i) = um.lam00Pos S.m.x0 z p0 s i) ∧
      ∃ k, (S.solveRoot orc rf um).1.log.length = S.log.length + (k + 1) ∧
        sigma = sigmaAt o k ∧ tau = min (sigmaAt o k ^ (3 / 2 : ℝ)) (sigmaAt o k) := by
  have h' := h.toSetup
  have hi := hS.inv h'
  obtain ⟨p0, z, w0, lbx, ubx, n, calls, sols, h1, h2, hh, hb, hlog, hw, hwl, hst, hres⟩ :=
    solveRoot_run orc rf hrf h' hS hr hroot hp hok
  obtain ⟨hb1, hb2⟩ := hb hfx
  obtain ⟨k, rfl⟩ : ∃ k, n = k + 1 := ⟨n - 1, by have := hh.pos; omega⟩
  rw [Nat.add_sub_cancel] at hw hst
  have hsig : sigmaAt S.o.toOpts k = sigmaAt o k := by
    rw [hi.opts, h.opts]
    clear * -
    induction k with
    | zero => rfl
    | succ k ih => rw [sigmaAt_succ, ih, sigmaAt_succ]; rfl
  have hsol := hh.answer k (by omega)
  rw [List.range_succ, List.map_append, ← List.append_assoc, List.map_cons, List.map_nil] at hsol
  obtain ⟨b1, b2, b3, b4⟩ := hh.bounds k (by omega)
  have hpk := hh.params k (by omega)
  rw [hsig] at hpk
  have hacc : (orc.sol (S.log ++ (List.range k).map calls ++ [calls k])).status ∈ acceptedStatus := by
    rw [← hsol]
    rw [hst] at hs
    unfold statusOf at hs
    split at hs
    · next h9 => simpa [acceptedStatus, checkIpoptSuccess] using h9
    · cases hs
  obtain ⟨w1, w2⟩ := hon _ _ hacc
  rw [← hsol, ← hw] at w1 w2
  have hwl' : r.wSol.length = P.form.w.length := by rw [hwl, hi.w]
  have hll := lam00List_length h' S.m.x0 z p0
  have hpl : (calls k).p.length = P.p.length := by
    rw [hpk, ← hi.p]
    exact pValues_length h' hi hr.x0 hll _ _
  have hpm := h'.point_p hwl' hpl
  have hall : ∀ t ∈ P.p, P.point r.wSol (calls k).p t
      = paramVal um (S.withZ0 z) (sigmaAt o k)
        (min (sigmaAt o k ^ (3 / 2 : ℝ)) (sigmaAt o k)) t := by
    apply List.map_inj_left.1
    rw [hpm, hpk, ← hi.p]
    exact paramVal_of_lam00_z h' hi hr.x0 h1 rfl hmode _ _
  have hhead : S.m.pVal.headD [] = p0 := by
    cases hp : S.m.pVal with
    | nil => rw [hp] at h1; cases h1
    | cons a l => rw [hp] at h1; cases h1; rfl
  refine ⟨P.point r.wSol (calls k).p, _, _, p0, z, h.spec (within_feasible h' hwl' ?_ ?_ ?_ w1 w2),
    h'.point_w hwl', C58_results_meaning h' hL hwl' ?_ _, h1, h2, ?_, ?_, ?_, ?_, k, ?_, rfl, rfl⟩
  · intro i t ht
    left
    rw [b1, b2, hb1, hb2, hi.lbw, hi.ubw]
    exact ⟨rfl, rfl⟩
  · rw [b3, hi.prob]
  · rw [b4, hi.prob]
  · rw [hi.opts, hi.prob] at hres
    exact hres
  · intro t ht hl
    rw [hall t ht]
    cases t <;> first | rfl | exact absurd trivial hl
  · intro s i ht
    rw [hall _ ht, ← hhead]
    rfl
  · intro s i ht
    rw [hall _ ht, ← hhead]
    rfl
  · intro s i ht
    rw [hall _ ht, ← hhead]
    rfl
  · rw [hlog]; simp

/-! ### Witness -/

/-- A feasible point is one the NLP solver may return (bounds and constraints of the problem). -/
theorem feasible_within (h : SetupEx colloc o um uo po m oc P) {env : Env} {p : List ℝ}
    (hf : P.form.Feasible env) (hp : P.p.map env = p) :
    Within (P.form.w.map env) P.form.lbw P.form.ubw ∧
    Within (P.form.g.map fun q => q (P.point (P.form.w.map env) p)) P.form.lbg P.form.ubg := by
  have h' := h.toSetup
  have hlen : (P.form.w.map env).length = P.form.w.length := by simp
  have hpl : p.length = P.p.length := by rw [← hp]; simp
  have hcl := (C84_closed h' h.sound (List.map_inj_left.1 (h'.point_w (p := p) hlen))
    (List.map_inj_left.1 ((h'.point_p hlen hpl).trans hp.symm))).1
  constructor
  · intro i x hx
    rw [List.getElem?_map, Option.map_eq_some_iff] at hx
    obtain ⟨t, ht, rfl⟩ := hx
    obtain ⟨b1, b2, -⟩ := C04_bounds_and_guess h'
    have := fun l u hl hu => feasible_bounds hf ht (l := l) (u := u) hl hu
    constructor
    · intro l hl
      exact (this l _ hl (by rw [b2, List.getElem?_map, ht]; rfl)).1
    · intro u hu
      exact (this _ u (by rw [b1, List.getElem?_map, ht]; rfl) hu).2
  · intro i x hx
    rw [List.getElem?_map, Option.map_eq_some_iff] at hx
    obtain ⟨g, hg, rfl⟩ := hx
    rw [hcl g (List.mem_of_getElem? hg)]
    obtain ⟨hl1, hl2, -⟩ := C05_constraints_aligned h'
    have hi' := (List.getElem?_eq_some_iff.1 hg).1
    have key : ∀ l u, P.form.lbg[i]? = some l → P.form.ubg[i]? = some u →
        l ≤ ((g env : ℝ) : EReal) ∧ ((g env : ℝ) : EReal) ≤ u := by
      intro l u hl hu
      refine hf.2 (g, l, u) ?_
      rw [List.mem_iff_getElem?]
      exact ⟨i, by simp [List.getElem?_zip_eq_some, hg, hl, hu]⟩
    constructor
    · intro l hl
      exact (key l _ hl (List.getElem?_eq_getElem (by omega))).1
    · intro u hu
      exact (key _ u (List.getElem?_eq_getElem (by omega)) hu).2

/-- The hypotheses of `C91_success_is_feasible` are met: the problem of `C91_guess_violated`, which
cannot be solved without the option, is solved with it. -/
example : ∃ po m oc P S r,
    (exactRoot algModel.nZ).Correct algModel.nZ ∧
    SetupEx oneColloc algOpts algModel (some UserOcp.trivial) po m oc P ∧
    Reachable oneColloc algOpts algModel (some UserOcp.trivial) (exactOracle P) S ∧
    Ready algModel S ∧ algModel.rootCheck = .ok () ∧ algOpts.polish = false ∧
    algOpts.fixActiveSetFe0 = false ∧ algOpts.pss = .stewart ∧ (exactOracle P).Exact P ∧
    (S.solveRoot (exactOracle P) (exactRoot algModel.nZ) algModel).2 = .ok r ∧
    r.status = .success := by
  obtain ⟨po, m, oc, P, h, hrbe, hA⟩ := alg_setup
  obtain ⟨-, hS, hr⟩ := h.toSetup.create (exactOracle P) (by simp [algOpts, Opts.default])
  obtain ⟨hroot, S1, hI⟩ := alg_initializeRoot h
  obtain ⟨r, hok⟩ := C91_solve_returns (exactOracle P) _ (exactRoot_correct _) h.toSetup rfl hS hr
    Nat.one_pos hroot rfl (fun _ s hs s' hs' => by rw [alg_sys hs, alg_sys hs']) hI
  refine ⟨po, m, oc, P, _, r, exactRoot_correct _, h, hS, hr, hroot, rfl, rfl, rfl,
    exactOracle_exact P, hok, ?_⟩
  obtain ⟨p0, z, w0, lbx, ubx, n, calls, sols, h1, h2, hh, hb, -, hw, hwl, hst, -⟩ :=
    solveRoot_run (exactOracle P) _ (exactRoot_correct _) h.toSetup hS hr hroot rfl hok
  obtain ⟨hb1, hb2⟩ := hb rfl
  obtain ⟨hpv, hx0, hz0⟩ := alg_vals h
  have hi := hS.inv h.toSetup
  obtain ⟨k, rfl⟩ : ∃ k, n = k + 1 := ⟨n - 1, by have := hh.pos; omega⟩
  rw [Nat.add_sub_cancel] at hw hst
  have hsol := hh.answer k (by omega)
  rw [List.range_succ, List.map_append, ← List.append_assoc, List.map_cons, List.map_nil] at hsol
  obtain ⟨b1, b2, b3, b4⟩ := hh.bounds k (by omega)
  have hp0 : p0 = [] := by
    have h1' : m.pVal[0]? = some p0 := h1
    rw [hpv] at h1'
    exact (Option.some.inj h1').symm
  have hz : z = [1] := by
    have h2' : algModel.Consistent m.x0 z p0 := h2
    rw [hx0, hp0] at h2'
    exact (alg_consistent z).1 h2'
  have hpk : ∃ σ τ, (calls k).p = [σ, τ, 0, 1, 1] ∧ 0 ≤ σ := by
    refine ⟨sigmaAt po.toOpts k, min (sigmaAt po.toOpts k ^ (3 / 2 : ℝ)) (sigmaAt po.toOpts k), ?_,
      (sigmaAt_pos (o := po.toOpts) ?_ ?_ k).le⟩
    · rw [hh.params k (by omega), hz, hp0, (alg_data h).pss]
      show m.pVal.flatten ++ _ ++ algModel.lam00List .stewart m.x0 _ _ ++ m.x0 = _
      rw [hpv, hx0, alg_lam]
      norm_num
    · rw [h.opts]; norm_num [algOpts, Opts.default]
    · rw [h.opts]; norm_num [algOpts, Opts.default]
  obtain ⟨σ, τ, hpk, hσ⟩ := hpk
  obtain ⟨env, hf, hpe⟩ : ∃ env, P.form.Feasible env ∧ P.p.map env = (calls k).p := by
    refine ⟨algEnv fun
      | .sigma => σ
      | .tau => τ
      | .lam00 _ _ i => if i = 0 then 0 else 1
      | .x0 _ => 1
      | _ => 0, alg_feasible h hrbe hA rfl hσ (by simp), ?_⟩
    rw [hpk, alg_p h]
    simp [algEnv]
  obtain ⟨w1, w2⟩ := feasible_within h hf hpe
  have hlen := (exactOracle P).len (([] : List NlpCall) ++ (List.range k).map calls) (calls k)
  have hwl' : r.wSol.length = P.form.w.length := hwl
  have hs := exactOracle_succeeds P (log := ([] : List NlpCall) ++ (List.range k).map calls)
    (c := calls k) (x := P.form.w.map env)
    (by rw [List.length_map, ← hwl', hw, hsol]; exact hlen) (by rw [b1, b2, hb1, hb2]; exact w1)
    (by rw [b3, b4]; exact w2)
  rw [hst, hsol, hs]
  rfl

end Nosnoc
