import Verif.Spec.ActiveSet
import Verif.Witness.Jump
import Verif.Props.Params
import Verif.Props.Cross
/-
C56: fixing multipliers of the first element (`fix_active_set_fe0`).
-/
namespace Nosnoc

section
variable {colloc : IrkScheme → Nat → List ℝ} {o : Opts} {um : UserModel} {uo : Option UserOcp}
  {po : PreOpts} {m : PreModel} {oc : PreOcp} {P : Problem} {orc : Oracle} {S S1 : Solver}
  {lam00 : List ℝ}

/-- C56: in every NLP call of the homotopy exactly the multipliers of the first element whose initial
multiplier exceeds `10 comp_tol` (`FixedTheta`; none unless `fix_active_set_fe0` in Stewart mode) are
fixed to 0; all other bounds are the stored ones; the stored bounds do not change. -/
theorem C56_fixed_multipliers (orc : Oracle) (h : Setup colloc o um uo po m oc P)
    (hS : Reachable colloc o um uo orc S) (hr : Ready um S)
    (hini : S.initialize = (S1, .ok lam00)) :
    ∃ (n : Nat) (calls : Nat → NlpCall) (extra : List NlpCall), 0 < n ∧
      (S.solve orc).1.log = S.log ++ (List.range n).map calls ++ extra ∧
      (o.polish = false → extra = []) ∧
      (∀ k < n, ∀ (i : Nat) t, S.P.form.w[i]? = some t →
        (S.FixedTheta um t → (calls k).lbx[i]? = some 0 ∧ (calls k).ubx[i]? = some 0) ∧
        (¬ S.FixedTheta um t → (calls k).lbx[i]? = S.P.form.lbw[i]? ∧
          (calls k).ubx[i]? = S.P.form.ubw[i]?)) ∧
      (S.solve orc).1.P.form.lbw = S.P.form.lbw ∧ (S.solve orc).1.P.form.ubw = S.P.form.ubw := by
  obtain ⟨w0, lbx, ubx, n, calls, sols, hh, h1, h2, -, h5, extra, h6, h7, -⟩ :=
    C52_solve_is_a_homotopy orc h hS hr hini
  refine ⟨n, calls, extra, hh.pos, h7, fun hp => ?_, fun k hk i t ht => ⟨fun hfx => ?_, fun hfx => ?_⟩,
    ?_, ?_⟩
  · have := h5 hp
    rw [h7] at this
    simpa using this
  · obtain ⟨-, a, b⟩ := h2 i t ht hfx
    obtain ⟨c, d, -⟩ := hh.bounds k hk
    rw [c, d]; exact ⟨a, b⟩
  · obtain ⟨-, a, b⟩ := h1 i t ht hfx
    obtain ⟨c, d, -⟩ := hh.bounds k hk
    rw [c, d]; exact ⟨a, b⟩
  · rw [(solve_only orc S).2.2.2]
  · rw [(solve_only orc S).2.2.2]

theorem lam00St_nonneg (x z p : List ℝ) (s : Nat) {i : Nat} (hi : i < (um.Fmat s).nCols) :
    0 ≤ um.lam00St x z p s i := by
  unfold UserModel.lam00St
  have := ciInf_le (Set.finite_range fun j : Fin (um.Fmat s).nCols => um.gVal s j x z p).bddBelow
    ⟨i, hi⟩
  linarith

theorem feasible_bounds {f : Form} {env : Env} (hf : f.Feasible env) {i : Nat} {t : Sym} {l u : EReal}
    (ht : f.w[i]? = some t) (hl : f.lbw[i]? = some l) (hu : f.ubw[i]? = some u) :
    l ≤ ((env t : ℝ) : EReal) ∧ ((env t : ℝ) : EReal) ≤ u := by
  refine hf.1 (t, l, u) ?_
  rw [List.mem_iff_getElem?]
  exact ⟨i, by simp [List.getElem?_zip_eq_some, ht, hl, hu]⟩

/-- C56, for every mode: no point is lost at which the multipliers of the first element are complementary
to the initial multipliers of this solve. -/
theorem C56_complementary_points_kept (orc : Oracle) (h : SetupEx colloc o um uo po m oc P)
    (hS : Reachable colloc o um uo orc S) (hr : Ready um S)
    (hini : S.initialize = (S1, .ok lam00)) (hc : 0 ≤ o.compTol) {env : Env}
    (hf : S.P.form.Feasible env)
    (hl : ∀ j < o.nS, ∀ s < um.nSys, ∀ i < (um.Fmat s).nCols,
      env (.st2 .theta 0 0 j s i) * um.lam00St S.m.x0 S.m.z0 (S.m.pVal.headD []) s i = 0) :
    ∃ (n : Nat) (calls : Nat → NlpCall) (extra : List NlpCall), 0 < n ∧
      (S.solve orc).1.log = S.log ++ (List.range n).map calls ++ extra ∧
      (o.polish = false → extra = []) ∧ ∀ k < n, (calls k).Admits S.P.form.w env := by
  have hi := hS.inv h.toSetup
  obtain ⟨n, calls, extra, h1, h2, h3, h4, -⟩ := C56_fixed_multipliers orc h.toSetup hS hr hini
  refine ⟨n, calls, extra, h1, h2, h3, fun k hk i t ht => ?_⟩
  obtain ⟨hA, hB⟩ := h4 k hk i t ht
  by_cases hfx : S.FixedTheta um t
  · obtain ⟨hl0, hu0⟩ := hA hfx
    obtain ⟨-, hp, j, s, i', rfl, hgt⟩ := hfx
    rw [hi.opts] at hp hgt
    have e1 : po.compTol = o.compTol := by rw [h.opts]
    have hmem : Sym.st2 .theta 0 0 j s i' ∈ P.form.w := by
      rw [← hi.w]; exact List.mem_of_getElem? ht
    have hv : IsVar po m.dims (.st2 .theta 0 0 j s i') := by
      rcases (C04_variables h.toSetup _).2 hmem with hv | ⟨-, ⟨k, e, i, hc⟩ | ⟨i, hc⟩⟩
      · exact hv
      · cases hc
      · cases hc
    obtain ⟨-, hfe, hj, hss, hii⟩ := hv
    have d7 := h.dims.2.2.2.2.2.2.1
    have d8 := h.dims.2.2.2.2.2.2.2.1 hp
    have hz : env (.st2 .theta 0 0 j s i') = 0 := by
      rcases mul_eq_zero.1 (hl j (h.e_nS ▸ hj) s (d7 ▸ hss) i' (d8 s (d7 ▸ hss) ▸ hii)) with h0 | h0
      · exact h0
      · rw [h0, e1] at hgt
        linarith
    rw [hz]
    refine ⟨fun l hl' => ?_, fun u hu' => ?_⟩
    · rw [hl0] at hl'; cases hl'; simp
    · rw [hu0] at hu'; cases hu'; simp
  · obtain ⟨hl0, hu0⟩ := hB hfx
    obtain ⟨b1, b2, -⟩ := C04_bounds_and_guess h.toSetup
    rw [hi.w] at ht
    have hlb : S.P.form.lbw[i]? = some ((varDoc po um (uo.getD UserOcp.trivial) t).lb) := by
      rw [hi.lbw, b1, List.getElem?_map, ht]; rfl
    have hub : S.P.form.ubw[i]? = some ((varDoc po um (uo.getD UserOcp.trivial) t).ub) := by
      rw [hi.ubw, b2, List.getElem?_map, ht]; rfl
    have := feasible_bounds hf (by rw [hi.w]; exact ht) hlb hub
    refine ⟨fun l hl' => ?_, fun u hu' => ?_⟩
    · rw [hl0, hlb] at hl'; cases hl'; exact this.1
    · rw [hu0, hub] at hu'; cases hu'; exact this.2

/-- C56: with FESD and `σ = 0`, no slack, no feasible point is lost: a point that is feasible for the problem
as constructed, for the initial multipliers of this solve, satisfies the bounds of every NLP call.

Partial: without FESD this is false (`C56_without_fesd_violated`); the modes without sign constraints
on the multipliers are only covered with Fischer-Burmeister functions and COMPLEMENT_ALL. -/
theorem C56_no_point_lost_partial (orc : Oracle) (h : SetupEx colloc o um uo po m oc P)
    (hS : Reachable colloc o um uo orc S) (hr : Ready um S)
    (hini : S.initialize = (S1, .ok lam00)) (hu : o.useFesd = true)
    (hm : SignedMode o.mpcc ∨ o.crossComp = .complementAll ∧
      (o.mpcc = .fischerBurmeister ∨ o.mpcc = .fischerBurmeisterIpAug))
    (hc : 0 ≤ o.compTol) {env : Env} (hf : S.P.form.Feasible env) (hσ : env .sigma = 0)
    (hs : NoSlack o env)
    (hl : ∀ s < um.nSys, ∀ i < (um.Fmat s).nCols,
      env (.lam00 .lam s i) = um.lam00St S.m.x0 S.m.z0 (S.m.pVal.headD []) s i) :
    ∃ (n : Nat) (calls : Nat → NlpCall) (extra : List NlpCall), 0 < n ∧
      (S.solve orc).1.log = S.log ++ (List.range n).map calls ++ extra ∧
      (o.polish = false → extra = []) ∧ ∀ k < n, (calls k).Admits S.P.form.w env := by
  have hi := hS.inv h.toSetup
  by_cases hp : o.pss = .stewart
  swap
  · -- nothing is fixed
    obtain ⟨n, calls, extra, h1, h2, h3, h4, -⟩ := C56_fixed_multipliers orc h.toSetup hS hr hini
    refine ⟨n, calls, extra, h1, h2, h3, fun k hk i t ht => ?_⟩
    obtain ⟨-, hB⟩ := h4 k hk i t ht
    obtain ⟨hl0, hu0⟩ := hB fun hfx => hp (by have := hfx.2.1; rw [hi.opts, h.e_pss] at this; exact this)
    obtain ⟨b1, b2, -⟩ := C04_bounds_and_guess h.toSetup
    rw [hi.w] at ht
    have hlb : S.P.form.lbw[i]? = some ((varDoc po um (uo.getD UserOcp.trivial) t).lb) := by
      rw [hi.lbw, b1, List.getElem?_map, ht]; rfl
    have hub : S.P.form.ubw[i]? = some ((varDoc po um (uo.getD UserOcp.trivial) t).ub) := by
      rw [hi.ubw, b2, List.getElem?_map, ht]; rfl
    have := feasible_bounds hf (by rw [hi.w]; exact ht) hlb hub
    refine ⟨fun l hl' => ?_, fun u hu' => ?_⟩
    · rw [hl0, hlb] at hl'; cases hl'; exact this.1
    · rw [hu0, hub] at hu'; cases hu'; exact this.2
  refine C56_complementary_points_kept orc h hS hr hini hc hf fun j hj s hss i hii => ?_
  have hfP : P.form.Feasible env := by rw [hi.prob] at hf; exact hf
  have hp' : po.pss = .stewart := by rw [h.e_pss]; exact hp
  have d7 := h.dims.2.2.2.2.2.2.1
  have d8 := h.dims.2.2.2.2.2.2.2.1 hp'
  have hq : IsPair po m.dims (.region s i) := ⟨hp', by rw [d7]; exact hss, by rw [d8 s hss]; exact hii⟩
  have hst := h.toSetup.built.ok.primal.stages
  have hfe : HasFE po 0 0 := ⟨by omega, h.toSetup.nfe_pos 0 (by omega)⟩
  have hsp := h.spec hfP
  have hls : lamStart po 0 0 env (.region s i) = env (.lam00 .lam s i) := by
    simp [lamStart, prevFe, lam00At]
  rw [← hl s hss i hii, ← hls]
  rcases hm with hm | ⟨hca, hm⟩
  · have h0 : ∀ q, IsPair po m.dims q → 0 ≤ lam00At env q := by
      intro q hq
      cases q with
      | region s i =>
        obtain ⟨-, hs, hi⟩ := hq
        rw [d7] at hs
        rw [d8 s hs] at hi
        show 0 ≤ env (.lam00 .lam s i)
        rw [hl s hs i hi]
        exact lam00St_nonneg _ _ _ s hi
      | neg s i => exact absurd (hp'.symm.trans hq.1) (by decide)
      | pos s i => exact absurd (hp'.symm.trans hq.1) (by decide)
    have hge : 0 ≤ env (.st2 .theta 0 0 j s i) :=
      thetaAt_nonneg (q := .region s i) (by rw [h.e_mpcc]; exact hm) hsp.bounds hfe (h.e_nS ▸ hj) hq
    rcases hge.eq_or_lt with h1 | h1
    · rw [← h1, zero_mul]
    · rw [(C32_no_switch h hu hm hfP hσ hs h0 hfe hq hj (q := .region s i) h1).2, mul_zero]
  · obtain ⟨h1, -⟩ := hsp.compAll (h.e_useFesd.trans hu) (h.e_crossComp.trans hca) 0 0 hfe j
      (h.e_nS ▸ hj) _ hq
    unfold Compl at h1
    rw [hσ] at h1
    exact (C31_fischer_burmeister_pair (h.e_mpcc ▸ hm) h1).2.2

theorem map_calls_eq {n n' : Nat} {c c' : Nat → NlpCall}
    (h : (List.range n).map c = (List.range n').map c') : n = n' ∧ ∀ k < n, c k = c' k := by
  have hl := congrArg List.length h
  simp only [List.length_map, List.length_range] at hl
  subst hl
  exact ⟨rfl, fun k hk => List.map_inj_left.1 h k (List.mem_range.2 hk)⟩

theorem jump_sigma (k : Nat) : 0 ≤ sigmaAt jumpOpts k ∧ sigmaAt jumpOpts k ≤ 1 := by
  induction k with
  | zero => simp [sigmaAt, jumpOpts, Opts.default]
  | succ k ih =>
    have : sigmaAt jumpOpts (k + 1) = jumpOpts.slope * sigmaAt jumpOpts k := rfl
    rw [this]
    have : jumpOpts.slope = 1 / 10 := by norm_num [jumpOpts, Opts.default]
    rw [this]
    constructor <;> linarith [ih.1, ih.2]

theorem jump_lam00 (z p : List ℝ) : jumpModel.lam00St [1] z p 0 1 = 2 := by
  unfold UserModel.lam00St
  have hinf : (⨅ j : Fin (jumpModel.Fmat 0).nCols, jumpModel.gVal 0 j [1] z p) = -1 := by
    show (⨅ j : Fin 2, jumpModel.gVal 0 j [1] z p) = -1
    apply le_antisymm
    · have := ciInf_le (Set.finite_range fun j : Fin 2 => jumpModel.gVal 0 j [1] z p).bddBelow 0
      rw [jump_g _ _ _ _ (by decide)] at this
      simpa using this
    · refine le_ciInf fun j => ?_
      rw [jump_g _ _ _ _ j.2]
      split <;> simp
  rw [hinf, jump_g _ _ _ _ (by omega)]
  norm_num

/-- C56 fails without FESD: the initial multiplier does not enter the complementarity conditions then,
so the multiplier of a region that is left during the first element is not known to vanish.  Here the
solution `x = -1` of the first (only) implicit Euler step lies in the other region than `x0 = 1`: every NLP
call of the homotopy has a solution with exact complementarity before fixing, and none after. -/
theorem C56_without_fesd_violated (orc : Oracle) : ∃ po m oc P S n calls,
    SetupEx oneColloc jumpOpts jumpModel (some UserOcp.trivial) po m oc P ∧
    Reachable oneColloc jumpOpts jumpModel (some UserOcp.trivial) orc S ∧ Ready jumpModel S ∧
    0 < n ∧ (S.solve orc).1.log = (List.range n).map calls ∧
    ∀ k < n,
      (∃ env, S.P.p.map env = (calls k).p ∧ S.P.form.Feasible env ∧
        ∀ q, IsPair po m.dims q → lamAt 0 0 0 env q * thetaAt 0 0 0 env q = 0) ∧
      ¬ ∃ env, S.P.p.map env = (calls k).p ∧ S.P.form.Feasible env ∧
        (calls k).Admits S.P.form.w env := by
  obtain ⟨po, m, oc, P, h, hrbe, hA⟩ := jump_setup
  obtain ⟨-, hS, hr⟩ := h.toSetup.create orc (by simp [jumpOpts, Opts.default])
  obtain ⟨w0, lam00, hini, -⟩ := C54_initialise_writes_x0 h.toSetup hS hr Nat.one_pos (.inl rfl)
  have hi := hS.inv h.toSetup
  have D := jump_data h
  obtain ⟨n, calls, extra, h1, h2, h3, h4, -⟩ := C56_fixed_multipliers orc h.toSetup hS hr hini
  obtain ⟨n', calls', extra', h1', h2', h3', h4', -⟩ :=
    C08_parameter_values_partial orc h.toSetup hS hr hini (.inl rfl)
  rw [h3 rfl] at h2
  rw [h3' rfl] at h2'
  have hlog : (List.range n).map calls = (List.range n').map calls' := by
    have := h2.symm.trans h2'
    simpa using this
  obtain ⟨rfl, hcalls⟩ := map_calls_eq hlog
  have hx0 : m.x0 = [1] := by
    obtain ⟨nC, nF, g, up, f0, acc, hp⟩ := h.toSetup.built.pre
    exact hp.x0
  refine ⟨po, m, oc, P, _, n, calls, h, hS, hr, h1, by simpa using h2, fun k hk => ⟨?_, ?_⟩⟩
  · refine ⟨jumpEnv (paramVal jumpModel ⟨po, m, P, none, []⟩ (sigmaAt jumpOpts k)
      (min (sigmaAt jumpOpts k ^ (3 / 2 : ℝ)) (sigmaAt jumpOpts k))), ?_, ?_, ?_⟩
    · rw [hcalls k hk, h4' k hk]
      apply List.map_congr_left
      intro s hs
      have hs : s ∈ P.p := hs
      rw [p_eq h.toSetup] at hs
      simp only [pHead, lam00Row, blk, List.mem_append, List.mem_flatMap, List.mem_map,
        List.mem_range, List.mem_cons, List.not_mem_nil, or_false] at hs
      rcases hs with ((⟨k, -, i, -, rfl⟩ | rfl | rfl) | (⟨s, -, i, -, rfl⟩ | ⟨s, -, i, -, rfl⟩) |
        ⟨s, -, i, -, rfl⟩) | ⟨i, -, rfl⟩ <;> rfl
    · refine jump_feasible h hrbe hA ?_ (jump_sigma k).1
      show m.x0.getD 0 0 = 1
      rw [hx0]; rfl
    · intro q hq
      cases q with
      | region s i =>
        show (if i = 1 then (0 : ℝ) else 2) * (if i = 1 then 1 else 0) = 0
        split <;> simp
      | neg s i => exact absurd (D.pss.symm.trans hq.1) (by decide)
      | pos s i => exact absurd (D.pss.symm.trans hq.1) (by decide)
  · rintro ⟨env, hp, hf, ha⟩
    rw [hcalls k hk, h4' k hk] at hp
    have hval : ∀ s ∈ P.p, env s = paramVal jumpModel ⟨po, m, P, none, []⟩ (sigmaAt jumpOpts k)
      (min (sigmaAt jumpOpts k ^ (3 / 2 : ℝ)) (sigmaAt jumpOpts k)) s := List.map_inj_left.1 hp
    have hσ : env .sigma = sigmaAt jumpOpts k := hval _ (by
      rw [p_eq h.toSetup]; simp [pHead])
    have hxv : env (.x0 0) = 1 := by
      rw [hval (.x0 0) (by rw [p_eq h.toSetup]; simp [blk, D.nX])]
      show m.x0.getD 0 0 = 1
      rw [hx0]; rfl
    have hv : IsVar po m.dims (.st2 .theta 0 0 0 0 1) :=
      ⟨D.pss, ⟨by rw [D.stages]; omega, by rw [D.nfe]; omega⟩, by rw [D.nS]; omega,
        by rw [D.sys]; omega, by rw [D.nF]; omega⟩
    obtain ⟨i, hi'⟩ := List.mem_iff_getElem?.1 ((C04_variables h.toSetup _).1 hv)
    have hfx : Solver.FixedTheta jumpModel ⟨po, m, P, none, []⟩ (.st2 .theta 0 0 0 0 1) := by
      refine ⟨?_, D.pss, 0, 0, 1, rfl, ?_⟩
      · show po.fixActiveSetFe0 = true
        rw [h.opts]; rfl
      · show 10 * po.compTol < jumpModel.lam00St m.x0 _ _ 0 1
        rw [hx0, jump_lam00]
        have : po.compTol = 1 / 10 ^ 8 := by rw [h.opts]; rfl
        rw [this]; norm_num
    obtain ⟨hl0, hu0⟩ := (h4 k hk i _ hi').1 hfx
    obtain ⟨a1, a2⟩ := ha i _ hi'
    have b1 := a1 0 hl0
    have b2 := a2 0 hu0
    have hθ : env (.st2 .theta 0 0 0 0 1) = 0 := by
      have c1 : 0 ≤ env (.st2 .theta 0 0 0 0 1) := by exact_mod_cast b1
      have c2 : env (.st2 .theta 0 0 0 0 1) ≤ 0 := by exact_mod_cast b2
      linarith
    have := jump_infeasible h hA hxv hθ hf
    rw [hσ] at this
    linarith [(jump_sigma k).2]

/-- The hypotheses of `C56_no_point_lost_partial` are met by the demo problem, which starts on the
switching surface. -/
example : ∃ po m oc P S S1 lam00 env,
    SetupEx demoColloc { Opts.default with fixActiveSetFe0 := true } demoModel (some demoOcp) po m oc P ∧
    Reachable demoColloc { Opts.default with fixActiveSetFe0 := true } demoModel (some demoOcp)
      echoOracle S ∧ Ready demoModel S ∧ S.initialize = (S1, .ok lam00) ∧
    S.P.form.Feasible env ∧ env .sigma = 0 ∧
    NoSlack { Opts.default with fixActiveSetFe0 := true } env ∧
    SignedMode { Opts.default with fixActiveSetFe0 := true }.mpcc ∧
    ∀ s < demoModel.nSys, ∀ i < (demoModel.Fmat s).nCols,
      env (.lam00 .lam s i) = demoModel.lam00St S.m.x0 S.m.z0 (S.m.pVal.headD []) s i := by
  obtain ⟨po, m, oc, P, h, hf, -⟩ := demo_setup (o := { Opts.default with fixActiveSetFe0 := true })
    (by constructor <;> simp [Opts.default, Opts.nfeAfter])
  obtain ⟨-, h2, h3⟩ := h.toSetup.create echoOracle (by simp [Opts.default])
  obtain ⟨w0, lam00, h4, -⟩ := C54_initialise_writes_x0 h.toSetup h2 h3 Nat.one_pos (.inl rfl)
  refine ⟨po, m, oc, P, _, _, lam00, demoEnv po, h, h2, h3, h4, hf, rfl, ?_, ?_, ?_⟩
  · simp [NoSlack, Opts.default]
  · simp [SignedMode, Opts.default]
  · intro s hs i hi
    have hx0 : m.x0 = [0] := by
      obtain ⟨nC, nF, g, up, f0, acc, hp⟩ := h.toSetup.built.pre
      exact hp.x0
    obtain rfl : s = 0 := by
      have : demoModel.nSys = 1 := rfl
      omega
    have hg : ∀ j, demoModel.gVal 0 j m.x0 m.z0 (m.pVal.headD []) = 0 := by
      intro j
      rw [hx0]
      simp [UserModel.gVal, demoModel, UserModel.gStewartTruthy, UserModel.Smat, UserModel.cVec]
    show (0 : ℝ) = demoModel.lam00St m.x0 _ _ 0 i
    unfold UserModel.lam00St
    simp only [hg]
    simp

end
end Nosnoc
