import Verif.Props.Exactness
import Verif.Props.Honest
/-
C99: simulations of piecewise constant systems with an exact NLP solver and polishing return samples of an
exact Filippov solution.  A simulation that meets the hypotheses: Verif/Props/ExactSimEx.lean.
-/
namespace Nosnoc

/-- The parameter values during step `i` of a simulation: the time-varying part stored in the solver
object, then row `i` of `p_values` (without `p_values`: the global part stored in the solver object). -/
def simParams (um : UserModel) (S : Solver) (pv : Option Arr) (i : Nat) : List ℝ :=
  (S.m.pVal.headD []).take um.nPtv ++ match pv with
    | some (.mat _ _ f) => (List.range um.nPgl).map (f i)
    | _ => (S.m.pVal.headD []).drop um.nPtv

section
variable {colloc : IrkScheme → Nat → List ℝ} {o : Opts} {um : UserModel} {uo : Option UserOcp}
  {po : PreOpts} {m : PreModel} {oc : PreOcp} {P : Problem} {orc : Oracle} {S S1 : Solver}
  {env : Env} {sigma tau : ℝ}

theorem lam00_mem (h : Setup colloc o um uo po m oc P) {f : Fam2} (hf : f = .lam ∨ f = .lamN ∨ f = .lamP)
    {s i : Nat} (hs : s < m.dims.nSys) (hi : i < m.dims.famLen po.pss f s) : Sym.lam00 f s i ∈ P.p := by
  have key : Sym.lam00 f s i ∈ lam00Row po m.dims f := by
    unfold lam00Row
    simp only [List.mem_flatMap, blk, List.mem_map, List.mem_range]
    exact ⟨s, hs, i, hi, rfl⟩
  rw [p_eq h]
  refine List.mem_append_left _ (List.mem_append_right _ ?_)
  rcases hf with rfl | rfl | rfl
  · exact List.mem_append_left _ (List.mem_append_left _ key)
  · exact List.mem_append_left _ (List.mem_append_right _ key)
  · exact List.mem_append_right _ key

theorem pStage_mem (h : Setup colloc o um uo po m oc P) {k i : Nat} (hk : k < po.nStages)
    (hi : i < m.dims.nPtv + m.dims.nPgl) : Sym.pStage k i ∈ P.p := by
  rw [p_eq h]
  refine List.mem_append_left _ (List.mem_append_left _ ?_)
  unfold pHead
  simp only [List.mem_append, List.mem_flatMap, blk, List.mem_map, List.mem_range]
  exact .inl ⟨k, hk, i, hi, rfl⟩

theorem x0_mem (h : Setup colloc o um uo po m oc P) {i : Nat} (hi : i < m.dims.nX) :
    Sym.x0 i ∈ P.p := by
  rw [p_eq h]
  refine List.mem_append_right _ ?_
  simp only [blk, List.mem_map, List.mem_range]
  exact ⟨i, hi, rfl⟩

theorem sigma_mem (h : Setup colloc o um uo po m oc P) : Sym.sigma ∈ P.p := by
  rw [p_eq h]
  refine List.mem_append_left _ (List.mem_append_left _ ?_)
  unfold pHead
  simp

/-- The parameters of stage 0 at a point that carries the values stored in the solver object. -/
theorem pVal_of_params (h : Setup colloc o um uo po m oc P) (hS : Inv po m P S)
    (hp : ∀ t ∈ P.p, ¬ IsLam00 t → env t = paramVal um S sigma tau t) :
    pVal m.dims 0 env = S.m.pVal.headD [] := by
  obtain ⟨p0, hp0, hl⟩ := hS.pVal0 h.built.ok.primal.stages
  have hst := Nat.pos_of_ne_zero h.built.ok.primal.stages
  have hh : S.m.pVal.headD [] = p0 := by
    cases hc : S.m.pVal with
    | nil => rw [hc] at hp0; cases hp0
    | cons a l => rw [hc] at hp0; simpa using hp0
  rw [hh]
  unfold pVal
  rw [← hl]
  have : ∀ i ∈ List.range p0.length, env (.pStage 0 i) = p0.getD i 0 := by
    intro i hi
    rw [hp _ (pStage_mem h hst (by rw [← hl]; exact List.mem_range.1 hi)) fun hc => hc]
    simp only [paramVal, List.getD_eq_getElem?_getD (l := S.m.pVal), hp0, Option.getD_some]
  rw [List.map_congr_left this]
  exact (map_getD_range _)

/-- The initial multipliers stored by `compute_lambda00` are nonnegative and those of the initial state. -/
theorem initial_of_params (h : Setup colloc o um uo po m oc P) (hS : Inv po m P S)
    (hx : S.m.x0.length = um.nX) (hz : um.nZ = 0)
    (hp : ∀ t ∈ P.p, env t = paramVal um S sigma tau t) :
    um.InitialMultipliers po m.dims env ∧ ∀ q, IsPair po m.dims q → 0 ≤ lam00At env q := by
  have hpv := pVal_of_params h hS fun t ht _ => hp t ht
  have hx0 : ((List.range m.dims.nX).map fun i => env (.x0 i)) = S.m.x0 := by
    have : ∀ i ∈ List.range m.dims.nX, env (.x0 i) = S.m.x0.getD i 0 := by
      intro i hi
      rw [hp _ (x0_mem h (List.mem_range.1 hi))]; rfl
    rw [List.map_congr_left this, h.dims.1, ← hx]
    exact map_getD_range _
  have hz0 : S.m.z0 = [] := by
    rw [hS.z0]
    exact List.eq_nil_of_length_eq_zero (by rw [z0_length h, hz])
  obtain ⟨-, -, -, -, -, -, d1, d2, d3⟩ := h.dims
  constructor
  · unfold UserModel.InitialMultipliers
    rw [hx0, hpv]
    cases hps : po.pss with
    | stewart =>
      dsimp only
      intro s hs
      refine ⟨-⨅ j : Fin (um.Fmat s).nCols, um.gVal s j S.m.x0 [] (S.m.pVal.headD []), fun i hi => ?_⟩
      rw [hp _ (lam00_mem h (.inl rfl) (by omega) (by rw [hps]; simp [Dims.famLen, d2 hps s hs, hi]))]
      simp only [paramVal, UserModel.lam00St, hz0]
      ring
    | step =>
      dsimp only
      intro s hs i hi
      rw [hp _ (lam00_mem h (.inr (.inr rfl)) (by omega)
          (by rw [hps]; simp [Dims.famLen, d3 hps s hs, hi])),
        hp _ (lam00_mem h (.inr (.inl rfl)) (by omega)
          (by rw [hps]; simp [Dims.famLen, d3 hps s hs, hi]))]
      simp only [paramVal, UserModel.lam00Pos, UserModel.lam00Neg, hz0]
      rcases le_total 0 ((um.cVec s).entry i S.m.x0 [] (S.m.pVal.headD [])) with hc | hc
      · rw [max_eq_left hc, max_eq_right (by linarith)]; ring
      · rw [max_eq_right hc, max_eq_left (by linarith)]; ring
  · rintro (⟨s, i⟩ | ⟨s, i⟩ | ⟨s, i⟩) ⟨hps, hs, hi⟩
    · simp only [lam00At]
      rw [hp _ (lam00_mem h (.inl rfl) hs (by rw [hps]; simpa [Dims.famLen] using hi))]
      simp only [paramVal, UserModel.lam00St]
      have hi' : i < (um.Fmat s).nCols := by rw [← d2 hps s (by omega)]; exact hi
      have := ciInf_le (Set.finite_range (fun j : Fin (um.Fmat s).nCols =>
        um.gVal s j S.m.x0 S.m.z0 (S.m.pVal.headD []))).bddBelow ⟨i, hi'⟩
      simpa using this
    · simp only [lam00At]
      rw [hp _ (lam00_mem h (.inr (.inl rfl)) hs (by rw [hps]; simpa [Dims.famLen] using hi))]
      exact le_max_right _ _
    · simp only [lam00At]
      rw [hp _ (lam00_mem h (.inr (.inr rfl)) hs (by rw [hps]; simpa [Dims.famLen] using hi))]
      exact le_max_right _ _

/-- Step lengths are nonnegative. -/
theorem hVal_nonneg (h : Setup colloc o um uo po m oc P) (hγ : o.gammaH ≤ 1) (hT : 0 ≤ o.terminalTime)
    {uo' : UserOcp} (hf : FeasibleSpec po m.dims um uo' env) {k e : Nat} (hk : HasFE po k e) :
    0 ≤ hVal po k e env := by
  have hn : 0 ≤ nominalH po k := by
    unfold nominalH
    rw [h.e_terminalTime]
    positivity
  unfold hVal
  split
  · rename_i hu
    have := (hf.bounds (.h k e) ⟨hu, hk⟩).1
    simp only [varDoc] at this
    have := EReal.coe_le_coe_iff.1 this
    rw [h.e_gammaH] at this
    have h2 : 0 ≤ (1 - o.gammaH) * nominalH po k := mul_nonneg (by linarith) hn
    exact h2.trans this
  · exact hn

/-! ### A polygon through given points -/

section
variable {M : Nat} {H : Nat → ℝ}

theorem polygon_flat (hnn : ∀ n < M, 0 ≤ H n) (a : ℝ) (d : Nat → ℝ) {n : Nat} (hn : n < M) {t : ℝ}
    (h1 : ∑ j ∈ Finset.range n, H j ≤ t) (h2 : t ≤ ∑ j ∈ Finset.range (n + 1), H j) :
    polygon 1 (fun _ => M) (fun _ => H) a (fun _ => d) t
      = a + ∑ j ∈ Finset.range n, d j * H j + d n * (t - ∑ j ∈ Finset.range n, H j) := by
  have hg : gridT (fun _ => M) (fun _ => H) 0 n = ∑ j ∈ Finset.range n, H j := by simp [gridT]
  rw [Finset.sum_range_succ] at h2
  rw [polygon_segment (N := 1) (nf := fun _ => M) (hh := fun _ => H) (fun k _ e he => hnn e he) a
    (fun _ => d) Nat.one_pos hn (by rw [hg]; exact h1) (by rw [hg]; exact h2), hg]
  simp

theorem polygon_node (hnn : ∀ n < M, 0 ≤ H n) (a : ℝ) (d : Nat → ℝ) {n : Nat} (hn : n ≤ M) :
    polygon 1 (fun _ => M) (fun _ => H) a (fun _ => d) (∑ j ∈ Finset.range n, H j)
      = a + ∑ j ∈ Finset.range n, d j * H j := by
  rcases Nat.lt_or_ge n M with h | h
  · rw [polygon_flat hnn a d h le_rfl]
    · simp
    · rw [Finset.sum_range_succ]; linarith [hnn n h]
  · obtain rfl : n = M := by omega
    cases n with
    | zero => simp [polygon]
    | succ n =>
      rw [polygon_flat hnn a d (Nat.lt_succ_self n) _ le_rfl, Finset.sum_range_succ (fun j => d j * H j),
        Finset.sum_range_succ H]
      · ring
      · rw [Finset.sum_range_succ]; linarith [hnn n (Nat.lt_succ_self n)]

theorem polygon_flat_deriv (hnn : ∀ n < M, 0 ≤ H n) (a : ℝ) (d : Nat → ℝ) {n : Nat} (hn : n < M) {t : ℝ}
    (h1 : ∑ j ∈ Finset.range n, H j < t) (h2 : t < ∑ j ∈ Finset.range (n + 1), H j) :
    HasDerivAt (polygon 1 (fun _ => M) (fun _ => H) a (fun _ => d)) (d n) t := by
  have hg : gridT (fun _ => M) (fun _ => H) 0 n = ∑ j ∈ Finset.range n, H j := by simp [gridT]
  rw [Finset.sum_range_succ] at h2
  exact polygon_deriv (N := 1) (nf := fun _ => M) (hh := fun _ => H) (fun k _ e he => hnn e he) a
    (fun _ => d) Nat.one_pos hn (by rw [hg]; exact h1) (by rw [hg]; exact h2)

end

/-- Gluing segments: points `X 0, X 1, …` at the times `0, H 0, H 0 + H 1, …`; on every segment the state
moves with the velocity `W y`, which is in the set `F` everywhere on the segment. -/
theorem glue {M nX : Nat} {H : Nat → ℝ} {X : Nat → Nat → ℝ} {W : ℝ} {F : Nat → (Nat → ℝ) → (Nat → ℝ) → Prop}
    (hnn : ∀ n < M, 0 ≤ H n)
    (hseg : ∀ n < M, ∃ y : Nat → ℝ, (∀ i < nX, X (n + 1) i = X n i + H n * (W * y i)) ∧
      ∀ (x : Nat → ℝ) (r : ℝ), 0 ≤ r → r ≤ 1 →
        (∀ i < nX, x i = (1 - r) * X n i + r * X (n + 1) i) → F n x y) :
    ∃ x : ℝ → Nat → ℝ, (∀ i, Continuous fun t => x t i) ∧
      (∀ n ≤ M, ∀ i < nX, x (∑ j ∈ Finset.range n, H j) i = X n i) ∧
      ∀ n < M, ∀ t, ∑ j ∈ Finset.range n, H j < t → t < ∑ j ∈ Finset.range (n + 1), H j →
        ∃ y : Nat → ℝ, F n (x t) y ∧ ∀ i < nX, HasDerivAt (fun t => x t i) (W * y i) t := by
  classical
  have : ∀ n, ∃ y : Nat → ℝ, n < M → (∀ i < nX, X (n + 1) i = X n i + H n * (W * y i)) ∧
      ∀ (x : Nat → ℝ) (r : ℝ), 0 ≤ r → r ≤ 1 →
        (∀ i < nX, x i = (1 - r) * X n i + r * X (n + 1) i) → F n x y := by
    intro n
    by_cases hn : n < M
    · obtain ⟨y, hy⟩ := hseg n hn
      exact ⟨y, fun _ => hy⟩
    · exact ⟨fun _ => 0, fun h => absurd h hn⟩
  choose y hy using this
  have tele : ∀ i < nX, ∀ n ≤ M, X n i = X 0 i + ∑ j ∈ Finset.range n, W * y j i * H j := by
    intro i hi n
    induction n with
    | zero => intro _; simp
    | succ n ih =>
      intro hn
      rw [(hy n hn).1 i hi, ih (by omega), Finset.sum_range_succ]
      ring
  refine ⟨fun t i => polygon 1 (fun _ => M) (fun _ => H) (X 0 i) (fun _ n => W * y n i) t,
    fun i => polygon_continuous _ _ _ _ _, fun n hn i hi => ?_, fun n hn t h1 h2 =>
      ⟨y n, ?_, fun i _ => polygon_flat_deriv hnn _ _ hn h1 h2⟩⟩
  · dsimp only
    rw [polygon_node hnn _ _ hn, tele i hi n hn]
  · have hH : 0 < H n := by rw [Finset.sum_range_succ] at h2; linarith
    set T := ∑ j ∈ Finset.range n, H j with hT
    refine (hy n hn).2 _ ((t - T) / H n) (div_nonneg (by linarith) hH.le) ?_ fun i hi => ?_
    · rw [div_le_one hH]
      rw [Finset.sum_range_succ] at h2
      linarith
    · dsimp only
      rw [polygon_flat hnn _ _ hn h1.le h2.le, (hy n hn).1 i hi, tele i hi n hn.le, ← hT]
      field_simp
      ring

/-- C99 with the factor given: the sum of the weights of the scheme. -/
theorem exact_sim {x0 : List ℝ} {N : Nat} {pv : Option Arr} {wi : Option (List Arr)}
    {L L' : Looper} {stop bb : Bool} {R : SimResults}
    (h : SetupEx colloc o um uo po m oc P) (hL : o.nfeAfter.length = o.nStages)
    (hS : Reachable colloc o um uo orc S) (hon : orc.Exact P)
    (hc : Looper.create S x0 N pv wi = .ok L) (hx0 : x0.length = um.nX)
    (hrun : L.run orc stop = (L', .ok bb)) (hR : L'.getResults = .ok R)
    (hst : ∀ i < N, R.status[i]? = some .success)
    (hpol : o.polish = true) (hfesd : o.useFesd = true)
    (hmode : o.mpcc = .scholtesIneq ∨ o.mpcc = .scholtesEq ∨
      ((o.mpcc = .fischerBurmeister ∨ o.mpcc = .fischerBurmeisterIpAug) ∧ o.crossComp = .complementAll))
    (hpss : o.pss = .stewart ∨ um.nSys ≤ 1) (hsot : o.sot ≠ .local)
    (hγ : o.gammaH ≤ 1) (hT : 0 ≤ o.terminalTime)
    (hF : um.F.isSome = true) (hsg : SignsOk o um) (hpc : um.PiecewiseConstant) (hv : um.nV = 0)
    {b : Nat → ℝ} (hb : SchemeWeights colloc o b)
    (hcol : o.irkRep = .integral → CollocOk (colloc o.scheme o.nS) o.nS)
    (hr : po.rbe = true ∨ o.crossComp = .sumLambdas) :
    ∃ x : ℝ → Nat → ℝ,
      (∀ i, Continuous fun t => x t i) ∧
      (∀ n ≤ N * o.nfeAfter.sum, ∃ t, R.tGrid[n]? = some t ∧
        R.xSim[n]? = some ((List.range um.nX).map (x t))) ∧
      (∀ n t0 t1, R.tGrid[n]? = some t0 → R.tGrid[n + 1]? = some t1 → ∀ t, t0 < t → t < t1 →
        ∃ y : Nat → ℝ,
          um.InFilippov ((List.range um.nX).map (x t)) [] (simParams um S pv (n / o.nfeAfter.sum)) [] y ∧
          ∀ i < um.nX, HasDerivAt (fun t => x t i) ((∑ j ∈ Finset.range o.nS, b j) * y i) t) ∧
      (∀ n < N * o.nfeAfter.sum, ∀ t0 t1, R.tGrid[n]? = some t0 → R.tGrid[n + 1]? = some t1 → t0 ≤ t1) := by
  have h' := h.toSetup
  obtain ⟨result, calls, sim, hsteps⟩ := honest_sim h hL hS hon hc hrun hR
  obtain ⟨⟨hU, hN1, hun⟩, hpv⟩ := (C64_create_iff h' hS x0 N pv wi).1.1 ⟨L, hc⟩
  obtain ⟨result', calls', sim', q1, q2, -⟩ := run_sim h' hL hS hc hrun hR
  have e1 : po.nStages = 1 := h'.e_nStages.trans hN1
  have hlist : po.nfeList = o.nfeAfter := by rw [h'.opts]
  set nE := o.nfeAfter.sum with hnE
  have hnf : nfe po 0 = nE := by
    unfold nfe
    rw [hlist, hnE]
    rw [hN1] at hL
    obtain ⟨a, ha⟩ := List.length_eq_one_iff.1 hL
    rw [ha]; simp
  have hpos : 0 < nE := elements_pos h' hL
  have hel : ∀ e < nE, (elements po)[e]? = some (0, e) := by
    intro e he
    have := elements_get (po := po) (by rw [hlist, hL, h'.e_nStages]) (k := 0) (e := e)
      ⟨by omega, by omega⟩
    simpa using this
  have hFE : ∀ e < nE, HasFE po 0 e := fun e he => ⟨by omega, by omega⟩
  -- the points
  have hpt : ∀ i, ∃ env : Env, i < N → ExactPoint o po m P env ∧ um.InitialMultipliers po m.dims env ∧
      pVal m.dims 0 env = simParams um S pv i ∧
      FeasibleSpec po m.dims um (uo.getD UserOcp.trivial) env ∧
      R.xSim[i * nE]? = some ((List.range um.nX).map fun j => env (.x0 j)) ∧
      ∀ e < nE, R.xSim[i * nE + e + 1]? = some (xEndVal po m.dims 0 e env) ∧
          R.timeSteps[i * nE + e]? = some (hVal po 0 e env) := by
    intro i
    by_cases hi : i < N
    swap
    · exact ⟨fun _ => 0, fun hh => absurd hh hi⟩
    obtain ⟨env, sigma, tau, x, f1, -, f3, f4, f5, f6, f7, -, f9⟩ := hsteps i hi (hst i hi)
    have hre := (q1 i hi).1
    have hinv := hre.inv h'
    have hok := (sim.solved i hi).1
    obtain ⟨hrd, -⟩ := ready_of_ok h' hinv hok
    have hnb : o.mpcc ≠ .boolean := by
      rcases hmode with hm | hm | ⟨hm | hm, -⟩ <;> rw [hm] <;> decide
    obtain ⟨g1, g2⟩ := initial_of_params h' hinv hrd.x0 hpc.noZ (f7 hpss)
    have hsig : env .sigma = 0 := by
      rw [f6 _ (sigma_mem h') fun hc => hc]
      exact (f9 hpol).1
    refine ⟨env, fun _ => ⟨⟨hfesd, ?_, (h.iff hnb).2 f1, hsig, ?_, g2⟩, g1, ?_, f1, by rw [f3, f4],
      fun e he => f5 e (0, e) (hel e he)⟩⟩
    · rcases hmode with hm | hm | ⟨hm, hcc⟩
      · exact .inl (.inr (.inl hm))
      · exact .inl (.inl hm)
      · exact .inr ⟨hm, fun _ => hcc⟩
    · intro hs
      rcases hmode with hm | hm | ⟨hm | hm, -⟩ <;> rw [hm] at hs <;> simp at hs
    · rw [pVal_of_params h' hinv f6]
      obtain ⟨hpn, hpf⟩ := sim_pVal h' hS hc (fun j hj => (q1 j hj).2.2.2.2)
        (fun j hj => (sim'.solved j hj).1) q2 (fun j hj => (q1 j hj).1)
      unfold simParams
      rcases hpv with rfl | ⟨f, rfl⟩
      · rw [hpn rfl i hi]
        exact (List.take_append_drop _ _).symm
      · rw [hpf f rfl i hi]
        have hl := (hS.inv h').pLen
        cases hpl : S.m.pVal with
        | nil => rw [hpl] at hl; simp at hl; omega
        | cons a l => rfl
  choose E hE using hpt
  -- positions
  have hdiv : ∀ n < N * nE, n / nE < N ∧ n % nE < nE ∧ n = n / nE * nE + n % nE := by
    intro n hn
    refine ⟨Nat.div_lt_of_lt_mul (by rw [Nat.mul_comm]; exact hn), Nat.mod_lt _ hpos, ?_⟩
    rw [Nat.mul_comm]; exact (Nat.div_add_mod n nE).symm
  have dX := h'.dims.1
  set X : Nat → Nat → ℝ := fun n i => (R.xSim.getD n []).getD i 0 with hX
  set H : Nat → ℝ := fun n => R.timeSteps.getD n 0 with hH
  have hstart : ∀ i < N, ∀ e < nE, R.xSim[i * nE + e]? = some (startVal po m.dims 0 e (E i)) := by
    intro i hi e he
    obtain ⟨-, -, -, -, k5, k6⟩ := hE i hi
    cases e with
    | zero =>
      rw [startVal_first (by simp [prevFe]), dX]
      exact k5
    | succ e =>
      rw [startVal_prev (k' := 0) (e' := e) (by simp [prevFe])]
      exact (k6 e (by omega)).1
  have hXs : ∀ n < N * nE, X n = fun i => (startVal po m.dims 0 (n % nE) (E (n / nE))).getD i 0 := by
    intro n hn
    obtain ⟨a1, a2, a3⟩ := hdiv n hn
    have := hstart _ a1 _ a2
    rw [← a3] at this
    simp only [hX, List.getD_eq_getElem?_getD (l := R.xSim), this, Option.getD_some]
  have hXe : ∀ n < N * nE, X (n + 1) = fun i => (xEndVal po m.dims 0 (n % nE) (E (n / nE))).getD i 0 := by
    intro n hn
    obtain ⟨a1, a2, a3⟩ := hdiv n hn
    have := ((hE _ a1).2.2.2.2.2 _ a2).1
    rw [← a3] at this
    simp only [hX, List.getD_eq_getElem?_getD (l := R.xSim), this, Option.getD_some]
  have hHn : ∀ n < N * nE, H n = hVal po 0 (n % nE) (E (n / nE)) := by
    intro n hn
    obtain ⟨a1, a2, a3⟩ := hdiv n hn
    have := ((hE _ a1).2.2.2.2.2 _ a2).2
    rw [← a3] at this
    simp only [hH, List.getD_eq_getElem?_getD, this, Option.getD_some]
  have hlenX : ∀ n ≤ N * nE, ∃ xs, R.xSim[n]? = some xs ∧ xs.length = um.nX := by
    intro n hn
    cases n with
    | zero =>
      exact ⟨x0, by rw [sim.states]; rfl, hx0⟩
    | succ n =>
      obtain ⟨a1, a2, a3⟩ := hdiv n (by omega)
      have := ((hE _ a1).2.2.2.2.2 _ a2).1
      rw [← a3] at this
      exact ⟨_, this, by simp [xEndVal, dX]⟩
  have hlenT : ∀ n < N * nE, n < R.timeSteps.length := by
    intro n hn
    obtain ⟨a1, a2, a3⟩ := hdiv n hn
    have := ((hE _ a1).2.2.2.2.2 _ a2).2
    rw [← a3] at this
    exact (List.getElem?_eq_some_iff.1 this).1
  have hgrid : ∀ n ≤ N * nE, R.tGrid[n]? = some (∑ j ∈ Finset.range n, H j) := by
    intro n hn
    rw [sim.grid, List.getElem?_map, List.getElem?_range (by omega)]
    simp only [Option.map_some, Option.some.injEq]
    clear hXs hXe hHn
    induction n with
    | zero => simp
    | succ n ih =>
      rw [Finset.sum_range_succ, ← ih (by omega), List.take_add_one,
        List.getElem?_eq_getElem (hlenT n (by omega)), List.sum_append]
      simp only [hH, List.getD_eq_getElem?_getD, List.getElem?_eq_getElem (hlenT n (by omega)),
        Option.getD_some, Option.toList_some, List.sum_singleton]
  obtain ⟨x, x1, x2, x3⟩ := glue (M := N * nE) (nX := um.nX) (H := H) (X := X)
    (W := ∑ j ∈ Finset.range o.nS, b j)
    (F := fun n xx y => um.InFilippov ((List.range um.nX).map xx) []
      (simParams um S pv (n / nE)) [] y)
    (fun n hn => by
      obtain ⟨a1, a2, -⟩ := hdiv n hn
      rw [hHn n hn]
      exact hVal_nonneg h' hγ hT (hE _ a1).2.2.2.1 (hFE _ a2))
    (fun n hn => by
      obtain ⟨a1, a2, -⟩ := hdiv n hn
      obtain ⟨D, k2, k3, -, -, -⟩ := hE _ a1
      obtain ⟨y, y1, y2⟩ := D.segment h hF hsg hpc k2 (fun k hk s hs n x => by
        obtain rfl : k = 0 := by omega
        rfl) hb hcol (hFE _ a2) (hr.imp_right .inl)
      have hsv : sotVal po 0 (E (n / nE)) = 1 := by
        unfold sotVal
        rw [if_neg (by rw [h'.e_sot]; exact hsot)]
        rfl
      have hu0 : uVal m.dims 0 (E (n / nE)) = [] := by
        unfold uVal; rw [h'.dims.2.1, hU]; rfl
      have hv0 : vVal m.dims (E (n / nE)) = [] := by
        unfold vVal; rw [h'.dims.2.2.2.1, hv]; rfl
      rw [hu0, hv0, k3] at y2
      refine ⟨y, fun i hi => ?_, fun xx r r0 r1 hxx => y2 xx r r0 r1 fun i hi => ?_⟩
      · rw [hXs n hn, hXe n hn, hHn n hn]
        dsimp only
        rw [y1 i hi, hsv, mul_one]
      · rw [hxx i hi, hXs n hn, hXe n hn])
  refine ⟨x, x1, fun n hn => ⟨_, hgrid n hn, ?_⟩, fun n t0 t1 g0 g1 t ht0 ht1 => ?_, fun n hn t0 t1 g0 g1 => ?_⟩
  · obtain ⟨xs, hxs, hl⟩ := hlenX n hn
    rw [hxs]
    have : ∀ i ∈ List.range um.nX, x (∑ j ∈ Finset.range n, H j) i = xs.getD i 0 := by
      intro i hi
      rw [x2 n hn i (List.mem_range.1 hi)]
      simp only [hX, List.getD_eq_getElem?_getD (l := R.xSim), hxs, Option.getD_some]
    rw [List.map_congr_left this, ← hl]
    exact congrArg some (map_getD_range _).symm
  · have hn : n + 1 ≤ N * nE := by
      have := (List.getElem?_eq_some_iff.1 g1).1
      rw [sim.grid] at this
      simp at this
      omega
    rw [hgrid n (by omega)] at g0
    rw [hgrid (n + 1) hn] at g1
    cases g0
    cases g1
    exact x3 n hn t ht0 ht1
  · rw [hgrid n hn.le] at g0
    rw [hgrid (n + 1) hn] at g1
    cases g0
    cases g1
    rw [Finset.sum_range_succ, hHn n hn]
    obtain ⟨a1, a2, -⟩ := hdiv n hn
    have := hVal_nonneg h' hγ hT (hE _ a1).2.2.2.1 (hFE _ a2)
    linarith

/-- C99: a simulation (`NosnocSimLooper`) of a piecewise constant system with an exact NLP solver, polishing
switched on, all of whose steps are reported as SUCCESS, returns samples of an exact solution of the
differential inclusion: there is one continuous trajectory `x` with `X_sim[n] = x(t_grid[n])` for all `n`,
across all steps of the simulation, and between two grid points its derivative is in the Filippov set of
the system with the parameters of that step.  (The factor `W` is the sum of the weights of the scheme,
which is 1 up to the rounding of the tables.) -/
theorem C99_simulation_exact {x0 : List ℝ} {N : Nat} {pv : Option Arr} {wi : Option (List Arr)}
    {L L' : Looper} {stop bb : Bool} {R : SimResults}
    (h : SetupEx colloc o um uo po m oc P) (hL : o.nfeAfter.length = o.nStages)
    (hS : Reachable colloc o um uo orc S) (hon : orc.Exact P)
    (hc : Looper.create S x0 N pv wi = .ok L) (hx0 : x0.length = um.nX)
    (hrun : L.run orc stop = (L', .ok bb)) (hR : L'.getResults = .ok R)
    (hst : ∀ i < N, R.status[i]? = some .success)
    (hpol : o.polish = true) (hfesd : o.useFesd = true)
    (hmode : o.mpcc = .scholtesIneq ∨ o.mpcc = .scholtesEq ∨
      ((o.mpcc = .fischerBurmeister ∨ o.mpcc = .fischerBurmeisterIpAug) ∧ o.crossComp = .complementAll))
    (hpss : o.pss = .stewart ∨ um.nSys ≤ 1) (hsot : o.sot ≠ .local)
    (hγ : o.gammaH ≤ 1) (hT : 0 ≤ o.terminalTime)
    (hF : um.F.isSome = true) (hsg : SignsOk o um) (hpc : um.PiecewiseConstant) (hv : um.nV = 0)
    {b : Nat → ℝ} (hb : SchemeWeights colloc o b)
    (hcol : o.irkRep = .integral → CollocOk (colloc o.scheme o.nS) o.nS)
    (hr : po.rbe = true ∨ o.crossComp = .sumLambdas) :
    ∃ (W : ℝ) (x : ℝ → Nat → ℝ),
      (o.irkRep = .integral → W = 1) ∧ |W - 1| ≤ 1 / 10 ^ 11 ∧
      (∀ i, Continuous fun t => x t i) ∧
      (∀ n ≤ N * o.nfeAfter.sum, ∃ t, R.tGrid[n]? = some t ∧
        R.xSim[n]? = some ((List.range um.nX).map (x t))) ∧
      ∀ n t0 t1, R.tGrid[n]? = some t0 → R.tGrid[n + 1]? = some t1 → ∀ t, t0 < t → t < t1 →
        ∃ y : Nat → ℝ,
          um.InFilippov ((List.range um.nX).map (x t)) [] (simParams um S pv (n / o.nfeAfter.sum)) [] y ∧
          ∀ i < um.nX, HasDerivAt (fun t => x t i) (W * y i) t := by
  have hW := C92_weights h hb
  obtain ⟨x, x1, x2, x3, -⟩ := exact_sim h hL hS hon hc hx0 hrun hR hst hpol hfesd hmode hpss hsot hγ hT hF hsg hpc hv
    hb hcol hr
  exact ⟨_, x, hW.1, hW.2, x1, x2, x3⟩

end

end Nosnoc
