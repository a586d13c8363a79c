import Verif.Props.Honest
import Verif.Props.ActiveSet
import Verif.Props.ExactSim
import Verif.Props.WellPosed
import Verif.Props.Schedule
import Verif.Witness.Exact
/-
C100: with an NLP solver that solves every feasible NLP, `solve` reports SUCCESS whenever the discretised
problem has a feasible point; simulations with one switching function always succeed.
-/
namespace Nosnoc

section
variable {colloc : IrkScheme → Nat → List ℝ} {o : Opts} {um : UserModel} {uo : Option UserOcp}
  {po : PreOpts} {m : PreModel} {oc : PreOcp} {P : Problem} {orc : Oracle} {S S1 : Solver}
  {r : SolveResult} {b : Nat → ℝ}

theorem exactOracle_complete (P : Problem) : (exactOracle P).Complete P := by
  rintro log c ⟨x, h1, h2, h3⟩
  rw [exactOracle_succeeds P h1 h2 h3]
  simp [acceptedStatus]

/-- A feasible point of the problem solves an NLP call with the same parameters and bounds. -/
theorem within_of_feasible (h : Setup colloc o um uo po m oc P)
    (hs : ∀ q ∈ (uo.getD UserOcp.trivial).gPathComp, q.Sound m.dims) {d : NlpCall} {env : Env}
    (hpl : d.p = P.p.map env) (hlg : d.lbg = P.form.lbg) (hug : d.ubg = P.form.ubg)
    (hb : ∀ (i : Nat) t, P.form.w[i]? = some t →
      (d.lbx[i]? = P.form.lbw[i]? ∧ d.ubx[i]? = P.form.ubw[i]?) ∨
      (d.lbx[i]? = some ((env t : ℝ) : EReal) ∧ d.ubx[i]? = some ((env t : ℝ) : EReal)))
    (hfe : P.form.Feasible env) :
    Within (P.form.w.map env) d.lbx d.ubx ∧
    Within (P.form.g.map fun q => q (P.point (P.form.w.map env) d.p)) d.lbg d.ubg := by
  have hlen : (P.form.w.map env).length = P.form.w.length := by simp
  have hpt : ∀ s ∈ P.form.w, P.point (P.form.w.map env) d.p s = env s :=
    List.map_inj_left.1 (h.point_w hlen)
  have hpt' : ∀ s ∈ P.p, P.point (P.form.w.map env) d.p s = env s :=
    List.map_inj_left.1 ((h.point_p hlen (by rw [hpl]; simp)).trans hpl)
  have hcl := (C84_closed h hs hpt hpt').1
  constructor
  · intro i x hx
    rw [List.getElem?_map, Option.map_eq_some_iff] at hx
    obtain ⟨t, ht, rfl⟩ := hx
    rcases hb i t ht with ⟨e1, e2⟩ | ⟨e1, e2⟩
    · obtain ⟨b1, b2, -⟩ := C04_bounds_and_guess h
      rw [e1, e2]
      have := fun l u hl hu => feasible_bounds hfe ht (l := l) (u := u) hl hu
      constructor
      · intro l hl
        exact (this l _ hl (by rw [b2, List.getElem?_map, ht]; rfl)).1
      · intro u hu
        exact (this _ u (by rw [b1, List.getElem?_map, ht]; rfl) hu).2
    · rw [e1, e2]
      constructor
      · intro l hl; cases hl; exact le_rfl
      · intro u hu; cases hu; exact le_rfl
  · intro i x hx
    rw [List.getElem?_map, Option.map_eq_some_iff] at hx
    obtain ⟨g, hg, rfl⟩ := hx
    rw [hcl g (List.mem_of_getElem? hg), hlg, hug]
    obtain ⟨hl1, hl2, -⟩ := C05_constraints_aligned h
    have hi' := (List.getElem?_eq_some_iff.1 hg).1
    have hmem := hfe.2
    have key : ∀ l u, P.form.lbg[i]? = some l → P.form.ubg[i]? = some u →
        l ≤ ((g env : ℝ) : EReal) ∧ ((g env : ℝ) : EReal) ≤ u := by
      intro l u hl hu
      refine hmem (g, l, u) ?_
      rw [List.mem_iff_getElem?]
      exact ⟨i, by simp [List.getElem?_zip_eq_some, hg, hl, hu]⟩
    constructor
    · intro l hl
      exact (key l _ hl (List.getElem?_eq_getElem (by omega))).1
    · intro u hu
      exact (key _ u (List.getElem?_eq_getElem (by omega)) hu).2

/-- Without polishing, the last NLP call fixes exactly the multipliers of the first element that
`fix_active_set_fe0` is meant to fix. -/
theorem last_bounds {lam00 : List ℝ} (h : Setup colloc o um uo po m oc P)
    (hS : Reachable colloc o um uo orc S) (hr : Ready um S) (hini : S.initialize = (S1, .ok lam00))
    (hpol : o.polish = false) {log : List NlpCall} {d : NlpCall}
    (hlog : (S.solve orc).1.log = log ++ [d]) (i : Nat) (t : Sym) (ht : P.form.w[i]? = some t) :
    (S.FixedTheta um t → d.lbx[i]? = some 0 ∧ d.ubx[i]? = some 0) ∧
    (¬ S.FixedTheta um t → d.lbx[i]? = P.form.lbw[i]? ∧ d.ubx[i]? = P.form.ubw[i]?) := by
  have hi := hS.inv h
  obtain ⟨n, calls, extra, h1, h2, h3, h4, -⟩ := C56_fixed_multipliers orc h hS hr hini
  obtain ⟨k, rfl⟩ : ∃ k, n = k + 1 := ⟨n - 1, by omega⟩
  rw [h3 hpol, List.append_nil, List.range_succ, List.map_append, ← List.append_assoc, hlog] at h2
  obtain ⟨-, hd⟩ := List.append_inj' h2 rfl
  have hd : d = calls k := by simpa using hd
  have := h4 k (by omega) i t (by rw [hi.w]; exact ht)
  rw [hd, ← hi.lbw, ← hi.ubw]
  exact this

/-- At an exact point with the initial multipliers the solver uses, these multipliers are zero. -/
theorem fixed_zero {env : Env} (h : SetupEx colloc o um uo po m oc P) (hi : Inv po m P S)
    (hm : SignedMode o.mpcc) (hc : 0 ≤ o.compTol) (D : ExactPoint o po m P env)
    (hl : ∀ s < um.nSys, ∀ i < (um.Fmat s).nCols,
      env (.lam00 .lam s i) = um.lam00St S.m.x0 S.m.z0 (S.m.pVal.headD []) s i) :
    ∀ t ∈ P.form.w, S.FixedTheta um t → env t = 0 := by
  rintro t hmem ⟨-, hp, j, s, i, rfl, hgt⟩
  rw [hi.opts] at hp hgt
  have e1 : po.compTol = o.compTol := by rw [h.opts]
  have hv : IsVar po m.dims (.st2 .theta 0 0 j s i) := by
    rcases (C04_variables h.toSetup _).2 hmem with hv | ⟨-, ⟨k, e, i, hc⟩ | ⟨i, hc⟩⟩
    · exact hv
    · cases hc
    · cases hc
  obtain ⟨-, hfe, hj, hss, hii⟩ := hv
  have d7 := h.dims.2.2.2.2.2.2.1
  have d8 := h.dims.2.2.2.2.2.2.2.1 hp
  have hq : IsPair po m.dims (.region s i) := ⟨hp, hss, hii⟩
  have hge : 0 ≤ env (.st2 .theta 0 0 j s i) :=
    thetaAt_nonneg (q := .region s i) (by rw [h.e_mpcc]; exact hm) (h.spec D.feas).bounds hfe hj hq
  by_contra hne
  have hpos : 0 < thetaAt 0 0 j env (.region s i) := lt_of_le_of_ne hge (Ne.symm hne)
  have := (C32_no_switch h D.fesd hm D.feas D.sigma D.slack D.lam00 hfe hq (h.e_nS ▸ hj) hpos).2
  have hls : lamStart po 0 0 env (.region s i) = env (.lam00 .lam s i) := by
    simp [lamStart, prevFe, lam00At]
  rw [hls, hl s (d7 ▸ hss) i (d8 s (d7 ▸ hss) ▸ hii)] at this
  rw [this, e1] at hgt
  linarith

/-- C100: if the NLP solver solves every feasible NLP, and the problem with the values currently set has a
feasible point for every homotopy parameter of the schedule, then `solve` reports SUCCESS.  With
`fix_active_set_fe0` the convex coefficients this option fixes must be zero at these points (C56).
Without polishing, which adds constraints (C101). -/
theorem C100_feasible_succeeds_partial (h : SetupEx colloc o um uo po m oc P)
    (hS : Reachable colloc o um uo orc S) (hcomp : orc.Complete P) (hok : (S.solve orc).2 = .ok r)
    (hpol : o.polish = false)
    (hmode : o.pss = .stewart ∨ um.nSys ≤ 1)
    (hfeas : ∀ k, ∃ env, P.form.Feasible env ∧ (∀ t ∈ P.p,
      env t = paramVal um S (sigmaAt o k) (min (sigmaAt o k ^ (3 / 2 : ℝ)) (sigmaAt o k)) t) ∧
      ∀ t ∈ P.form.w, S.FixedTheta um t → env t = 0) :
    r.status = .success := by
  have h' := h.toSetup
  have hi := hS.inv h'
  obtain ⟨hr, S1, lam00, hini⟩ := ready_of_ok h' hi hok
  obtain ⟨sigma, tau, log, d, hlog, hlg, hug, hp, -, hn, -, hwl⟩ := last_call h' hS hr hok hini
  obtain ⟨hw, hst⟩ := C51_status _ h' hS hr hok
  obtain ⟨k, -, rfl, rfl⟩ := hn hpol
  obtain ⟨env, hfe, hpar, hfix⟩ := hfeas k
  have hpm : d.p = P.p.map env := by
    rw [hp]
    have := pValues_paramVal h' hi hr.x0 hini hmode (sigmaAt o k)
      (min (sigmaAt o k ^ (3 / 2 : ℝ)) (sigmaAt o k))
    unfold Solver.pValues
    rw [this, hi.p]
    exact (List.map_congr_left hpar).symm
  refine hst.2 ?_
  rw [hlog]
  refine hcomp log d ⟨P.form.w.map env, ?_, within_of_feasible h' h.sound hpm hlg hug ?_ hfe⟩
  · rw [List.length_map, ← hwl, hw, hlog]
    exact orc.len log d
  · intro i t ht
    obtain ⟨b1, b2⟩ := last_bounds h' hS hr hini hpol hlog i t ht
    by_cases hF : S.FixedTheta um t
    · right
      rw [hfix t (List.mem_of_getElem? ht) hF]
      exact b1 hF
    · exact .inl (b2 hF)

/-- C100, simulations: a system with one switching function and piecewise constant vector fields (C98), in a
mode that relaxes complementarity by inequalities.  Whatever initial state and parameter values are set
(the switching function must not jump between control stages), `solve` reports SUCCESS. -/
theorem C100_one_switch (h : SetupEx colloc o um uo po m oc P)
    (hS : Reachable colloc o um uo orc S) (hcomp : orc.Complete P) (hok : (S.solve orc).2 = .ok r)
    (hpol : o.polish = false) (htol : o.fixActiveSetFe0 = true → 0 ≤ o.compTol)
    (hs0 : 0 < o.sigma0) (hsl : 0 < o.slope) (hp : o.pss = .stewart)
    (hf : o.useFesd = true) (hr : po.rbe = true) (hm : o.mpcc = .scholtesIneq ∨ o.mpcc = .elasticIneq ∨
      o.mpcc = .elasticEq) (hg : um.gStewartTruthy = false)
    (hC : OneSwitch um (uo.getD UserOcp.trivial) po)
    (hpl : PlainProblem o um (uo.getD UserOcp.trivial))
    (hc : o.irkRep = .integral → CollocOk (colloc o.scheme o.nS) o.nS ∧
      ∀ t ∈ colloc o.scheme o.nS, 0 ≤ t ∧ t ≤ 1)
    (hb : SchemeWeights colloc o b)
    (hps : ∀ k < po.nStages, ∀ x, (um.cVec 0).entry 0 x [] (S.m.pVal.getD k [])
        = (um.cVec 0).entry 0 x [] (S.m.pVal.getD 0 []))
    {u : Nat → Nat → ℝ} {v : Nat → ℝ}
    (hu : ∀ k < po.nStages, ∀ i < um.nU, getOr (uo.getD UserOcp.trivial).lbu ⊥ i ≤ ((u k i : ℝ) : EReal) ∧
      ((u k i : ℝ) : EReal) ≤ getOr (uo.getD UserOcp.trivial).ubu ⊤ i)
    (hv : ∀ i < um.nV, getOr (uo.getD UserOcp.trivial).lbv ⊥ i ≤ ((v i : ℝ) : EReal) ∧
      ((v i : ℝ) : EReal) ≤ getOr (uo.getD UserOcp.trivial).ubv ⊤ i) :
    r.status = .success := by
  have h' := h.toSetup
  have hi := hS.inv h'
  obtain ⟨hrd, -⟩ := ready_of_ok h' hi hok
  have hm1 : ExactMode o := by
    rcases hm with hm | hm | hm
    · exact .inl (.inr (.inl hm))
    · exact .inl (.inr (.inr (.inl hm)))
    · exact .inl (.inr (.inr (.inr hm)))
  have hm2 : o.RelaxesByInequality := by
    rcases hm with hm | hm | hm
    · exact .inl hm
    · exact .inr (.inl hm)
    · exact .inr (.inr (.inl hm))
  have hrow : ∀ k < po.nStages, (List.range (um.nPtv + um.nPgl)).map
      (fun i => (S.m.pVal.getD k []).getD i 0) = S.m.pVal.getD k [] := by
    intro k hk
    have hl : (S.m.pVal.getD k []).length = um.nPtv + um.nPgl := by
      rw [← h'.dims.2.2.2.2.1, ← h'.dims.2.2.2.2.2.1]
      refine hi.pRow _ ?_
      rw [List.getD_eq_getElem?_getD, List.getElem?_eq_getElem (by rw [hi.pLen]; exact hk)]
      exact List.getElem_mem _
    rw [← hl]
    exact map_getD_range _
  have hst := Nat.pos_of_ne_zero h'.built.ok.primal.stages
  refine C100_feasible_succeeds_partial h hS hcomp hok hpol (.inl hp) fun k => ?_
  obtain ⟨env, D, -, i1, -, -, i4, i5⟩ := C98_simulation h hp hf hr hm1 hg hC hpl hc hb
    (fun i => S.m.x0.getD i 0) u v (fun k i => (S.m.pVal.getD k []).getD i 0)
    (fun k hk x => by rw [hrow k hk, hrow 0 hst]; exact hps k hk x) hu hv
  have hlam : ∀ s i, env (.lam00 .lam s i) = um.lam00St S.m.x0 S.m.z0 (S.m.pVal.headD []) s i := by
    intro s i
    rw [i5, hrow 0 hst, ← hrd.x0, map_getD_range]
    have hz0 : S.m.z0 = [] := by
      rw [hi.z0]
      exact List.eq_nil_of_length_eq_zero (by rw [z0_length h', hC.pc.noZ])
    have hh : S.m.pVal.headD [] = S.m.pVal.getD 0 [] := by
      cases S.m.pVal <;> rfl
    rw [hz0, hh]
  refine ⟨withSigma env (sigmaAt o k) (min (sigmaAt o k ^ (3 / 2 : ℝ)) (sigmaAt o k)), C98_homotopy h hm2 (sigmaAt_pos hsl hs0 k).le D, fun t ht => ?_,
    fun t ht hF => ?_⟩
  swap
  · have hm3 : SignedMode o.mpcc := by
      rcases hm with hm | hm | hm
      · exact .inr (.inl hm)
      · exact .inr (.inr (.inl hm))
      · exact .inr (.inr (.inr hm))
    have hFo : o.fixActiveSetFe0 = true := by
      have := hF.1
      rw [hi.opts, h'.opts] at this
      exact this
    have hz := fixed_zero h hi hm3 (htol hFo) D (fun s _ i _ => hlam s i) t ht hF
    obtain ⟨-, -, j, s, i, rfl, -⟩ := hF
    exact hz
  rw [p_eq h'] at ht
  unfold pHead at ht
  simp only [List.mem_append, List.mem_flatMap, blk, List.mem_map] at ht
  rcases ht with ((⟨k, hk, i, hi', rfl⟩ | ht) | ((hb | hb) | hb)) | ⟨i, hi', rfl⟩
  · exact i4 k i
  · simp at ht
    rcases ht with rfl | rfl <;> rfl
  · obtain ⟨s, i, rfl⟩ := mem_lam00Row hb
    exact hlam s i
  · exfalso
    have hp' := h.e_pss.trans hp
    unfold lam00Row at hb
    simp [hp', Dims.famLen, blk] at hb
  · exfalso
    have hp' := h.e_pss.trans hp
    unfold lam00Row at hb
    simp [hp', Dims.famLen, blk] at hb
  · exact i1 i

/-- C100, whole simulations: every step of the simulation succeeds. -/
theorem C100_simulation {x0 : List ℝ} {N : Nat} {pv : Option Arr} {wi : Option (List Arr)}
    {L L' : Looper} {stop bb : Bool} {R : SimResults}
    (h : SetupEx colloc o um uo po m oc P) (hL : o.nfeAfter.length = o.nStages)
    (hS : Reachable colloc o um uo orc S) (hcomp : orc.Complete P)
    (hcr : Looper.create S x0 N pv wi = .ok L)
    (hrun : L.run orc stop = (L', .ok bb)) (hR : L'.getResults = .ok R)
    (hpol : o.polish = false) (htol : o.fixActiveSetFe0 = true → 0 ≤ o.compTol)
    (hs0 : 0 < o.sigma0) (hsl : 0 < o.slope) (hp : o.pss = .stewart)
    (hf : o.useFesd = true) (hr : po.rbe = true) (hm : o.mpcc = .scholtesIneq ∨ o.mpcc = .elasticIneq ∨
      o.mpcc = .elasticEq) (hg : um.gStewartTruthy = false)
    (hC : OneSwitch um UserOcp.trivial po) (hpl : PlainProblem o um UserOcp.trivial)
    (hc : o.irkRep = .integral → CollocOk (colloc o.scheme o.nS) o.nS ∧
      ∀ t ∈ colloc o.scheme o.nS, 0 ≤ t ∧ t ≤ 1)
    (hb : SchemeWeights colloc o b) :
    R.status = List.replicate N .success := by
  have h' := h.toSetup
  obtain ⟨⟨hU, hN1, rfl⟩, -⟩ := (C64_create_iff h' hS x0 N pv wi).1.1 ⟨L, hcr⟩
  obtain ⟨result, calls, sim, q1, -⟩ := run_sim h' hL hS hcr hrun hR
  have e1 : po.nStages = 1 := h'.e_nStages.trans hN1
  have key : ∀ i ∈ List.range N, (result i).status = .success := by
    intro i hi
    have hi := List.mem_range.1 hi
    refine C100_one_switch (u := fun _ _ => 0) (v := fun _ => 0) h (q1 i hi).1 hcomp
      (sim.solved i hi).1 hpol htol hs0 hsl hp hf hr hm hg hC hpl hc hb ?_ ?_ ?_
    · intro k hk x
      obtain rfl : k = 0 := by omega
      rfl
    · intro k _ i hi
      omega
    · intro i _
      exact ⟨bot_le, le_top⟩
  rw [sim.status, List.map_congr_left key]
  simp

end

/-- The hypotheses are met, with the default options and any number `nf ≥ 2` of elements: the simulation of
`ẋ = -sign x` from any initial state, over any number of steps, runs and succeeds. -/
example (x0 : ℝ) (N nf : Nat) (hn : 2 ≤ nf) : ∃ po m oc P S L L' R,
    SetupEx demoColloc (slideOpts 1 nf) slideModel none po m oc P ∧
    Reachable demoColloc (slideOpts 1 nf) slideModel none (exactOracle P) S ∧
    (exactOracle P).Complete P ∧ Looper.create S [x0] N none none = .ok L ∧
    L.run (exactOracle P) false = (L', .ok true) ∧ L'.getResults = .ok R ∧
    R.status = List.replicate N .success := by
  obtain ⟨po, m, oc, P, h0, hr⟩ := slide_setup_pos .stewart Nat.one_pos (by omega : 0 < nf)
  replace h0 : SetupEx demoColloc (slideOpts 1 nf) slideModel (some UserOcp.trivial) po m oc P := h0
  have h : SetupEx demoColloc (slideOpts 1 nf) slideModel none po m oc _ :=
    ⟨h0.toSetup.toNone, rfl, by simp [UserOcp.trivial]⟩
  have h' := h.toSetup
  obtain ⟨hcr, hS, hrd⟩ := h'.create (exactOracle _) (by simp [slideOpts, Opts.default])
  have hL : (slideOpts 1 nf).nfeAfter.length = (slideOpts 1 nf).nStages := by
    simp [slideOpts, Opts.default, Opts.nfeAfter]
  obtain ⟨L, hc⟩ := (C64_create_iff h' hS [x0] N none none).1.2 ⟨⟨rfl, rfl, rfl⟩, .inl rfl⟩
  obtain ⟨L', R, hrun, hR⟩ := C62_run_returns h' hL hS hrd Nat.one_pos rfl (fun hp => nomatch hp) (.inl ⟨.inl rfl, rfl⟩)
    (fun _ s hs s' hs' => by rw [slide_sys hs, slide_sys hs']) hc false
  refine ⟨po, m, oc, _, _, L, L', R, h, hS, exactOracle_complete _, hc, hrun, hR, ?_⟩
  exact C100_simulation h hL hS (exactOracle_complete _) hc hrun hR rfl
    (fun _ => by norm_num [slideOpts, Opts.default])
    (by norm_num [slideOpts, Opts.default]) (by norm_num [slideOpts, Opts.default]) rfl rfl hr (.inl rfl) rfl
    (slide_oneSwitch Nat.one_pos hn h0) (slide_plain 1 nf) (fun _ => slide_colloc 1 nf) (slide_weights 1 nf)

end Nosnoc
