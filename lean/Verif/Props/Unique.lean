import Verif.Props.ExactSim
import Verif.Spec.OneSided
import Mathlib.Analysis.Calculus.Deriv.MeanValue
import Mathlib.Analysis.SpecialFunctions.ExpDeriv
/-
C129: the results of simulations of systems with unique solutions are unique.
-/
namespace Nosnoc

/-- A function whose derivative is not positive off a finite set does not increase. -/
theorem le_of_deriv_off_finite {g : ℝ → ℝ} (s : Finset ℝ) : ∀ (n : Nat) (u v : ℝ), u ≤ v →
    (s.filter fun t => u < t ∧ t < v).card = n → ContinuousOn g (Set.Icc u v) →
    (∀ t, u < t → t < v → t ∉ s → ∃ g', HasDerivAt g g' t ∧ g' ≤ 0) → g v ≤ g u := by
  intro n
  induction n using Nat.strong_induction_on with
  | _ n ih =>
    intro u v huv hn hc hd
    by_cases he : ∃ c ∈ s, u < c ∧ c < v
    · obtain ⟨c, hcs, h1, h2⟩ := he
      have hmem : c ∈ s.filter fun t => u < t ∧ t < v := Finset.mem_filter.2 ⟨hcs, h1, h2⟩
      have l1 : (s.filter fun t => u < t ∧ t < c).card < n := by
        rw [← hn]
        refine Finset.card_lt_card ⟨fun t ht => ?_, fun hsub => ?_⟩
        · obtain ⟨a, b, d⟩ := Finset.mem_filter.1 ht
          exact Finset.mem_filter.2 ⟨a, b, d.trans h2⟩
        · exact lt_irrefl c (Finset.mem_filter.1 (hsub hmem)).2.2
      have l2 : (s.filter fun t => c < t ∧ t < v).card < n := by
        rw [← hn]
        refine Finset.card_lt_card ⟨fun t ht => ?_, fun hsub => ?_⟩
        · obtain ⟨a, b, d⟩ := Finset.mem_filter.1 ht
          exact Finset.mem_filter.2 ⟨a, h1.trans b, d⟩
        · exact lt_irrefl c (Finset.mem_filter.1 (hsub hmem)).2.1
      have a1 := ih _ l1 u c h1.le rfl (hc.mono (Set.Icc_subset_Icc_right h2.le)) fun t h3 h4 h5 =>
        hd t h3 (h4.trans h2) h5
      have a2 := ih _ l2 c v h2.le rfl (hc.mono (Set.Icc_subset_Icc_left h1.le)) fun t h3 h4 h5 =>
        hd t (h1.trans h3) h4 h5
      exact a2.trans a1
    · have hder : ∀ t ∈ Set.Ioo u v, ∃ g', HasDerivAt g g' t ∧ g' ≤ 0 := fun t ht =>
        hd t ht.1 ht.2 fun hts => he ⟨t, hts, ht.1, ht.2⟩
      have anti : AntitoneOn g (Set.Icc u v) := by
        refine antitoneOn_of_deriv_nonpos (convex_Icc u v) hc (fun t ht => ?_) fun t ht => ?_
        · rw [interior_Icc] at ht
          obtain ⟨g', h1, -⟩ := hder t ht
          exact h1.differentiableAt.differentiableWithinAt
        · rw [interior_Icc] at ht
          obtain ⟨g', h1, h2⟩ := hder t ht
          rw [h1.deriv]
          exact h2
      exact anti (Set.left_mem_Icc.2 huv) (Set.right_mem_Icc.2 huv) huv

/-- A time between the first and the last of an increasing list of times lies in one of the intervals. -/
theorem find_interval {T : Nat → ℝ} : ∀ (M : Nat) {t : ℝ}, T 0 < t → t < T M → (∀ n ≤ M, t ≠ T n) →
    ∃ n < M, T n < t ∧ t < T (n + 1) := by
  intro M
  induction M with
  | zero => intro t h1 h2; exact absurd (h1.trans h2) (lt_irrefl _)
  | succ M ih =>
    intro t h1 h2 hne
    rcases lt_or_gt_of_ne (hne M (by omega)) with h3 | h3
    · obtain ⟨n, hn, h4⟩ := ih h1 h3 fun n hn => hne n (by omega)
      exact ⟨n, by omega, h4⟩
    · exact ⟨M, by omega, h3, h2⟩

section
variable {colloc : IrkScheme → Nat → List ℝ} {um : UserModel} {uo : Option UserOcp}

/-- A simulation as in C99: piecewise constant system, polishing, exact NLP solver, every step reported as
SUCCESS; the parameters have the values `p` in all steps. -/
structure ExactRun (colloc : IrkScheme → Nat → List ℝ) (o : Opts) (um : UserModel) (uo : Option UserOcp)
    (po : PreOpts) (m : PreModel) (oc : PreOcp) (P : Problem) (orc : Oracle) (S : Solver) (x0 : List ℝ) (N : Nat)
    (pv : Option Arr) (p : List ℝ) (b : Nat → ℝ) (R : SimResults) : Prop where
  setup : SetupEx colloc o um uo po m oc P
  lists : o.nfeAfter.length = o.nStages
  reach : Reachable colloc o um uo orc S
  exact : orc.Exact P
  run : ∃ wi L L' stop bb, Looper.create S x0 N pv wi = .ok L ∧ L.run orc stop = (L', .ok bb) ∧
    L'.getResults = .ok R
  start : x0.length = um.nX
  success : ∀ i < N, R.status[i]? = some .success
  polish : o.polish = true
  fesd : o.useFesd = true
  mode : o.mpcc = .scholtesIneq ∨ o.mpcc = .scholtesEq ∨
    ((o.mpcc = .fischerBurmeister ∨ o.mpcc = .fischerBurmeisterIpAug) ∧ o.crossComp = .complementAll)
  pss : o.pss = .stewart ∨ um.nSys ≤ 1
  sot : o.sot ≠ .local
  gamma : o.gammaH ≤ 1
  time : 0 ≤ o.terminalTime
  F : um.F.isSome = true
  signs : SignsOk o um
  pc : um.PiecewiseConstant
  nv : um.nV = 0
  weights : SchemeWeights colloc o b
  colloc : o.irkRep = .integral → CollocOk (colloc o.scheme o.nS) o.nS
  ends : po.rbe = true ∨ o.crossComp = .sumLambdas
  params : ∀ i < N, simParams um S pv i = p

variable {o o' : Opts} {uo' : Option UserOcp} {po po' : PreOpts} {m m' : PreModel} {oc oc' : PreOcp}
  {P P' : Problem} {orc orc' : Oracle} {S S' : Solver} {x0 x0' : List ℝ} {N N' : Nat} {pv pv' : Option Arr}
  {p : List ℝ} {b b' : Nat → ℝ} {R R' : SimResults}

/-- The trajectory of such a simulation. -/
theorem ExactRun.trajectory (A : ExactRun colloc o um uo po m oc P orc S x0 N pv p b R) :
    ∃ (M : Nat) (T : Nat → ℝ) (x : ℝ → Nat → ℝ), (∀ i, Continuous fun t => x t i) ∧ R.tGrid.length = M + 1 ∧
      T 0 = 0 ∧ (∀ n < M, T n ≤ T (n + 1)) ∧ (∀ i < um.nX, x 0 i = x0.getD i 0) ∧
      (∀ n ≤ M, R.tGrid[n]? = some (T n) ∧ R.xSim[n]? = some ((List.range um.nX).map (x (T n)))) ∧
      ∀ n < M, ∀ t, T n < t → t < T (n + 1) → ∃ y : Nat → ℝ,
        um.InFilippov ((List.range um.nX).map (x t)) [] p [] y ∧
        ∀ i < um.nX, HasDerivAt (fun t => x t i) ((∑ j ∈ Finset.range o.nS, b j) * y i) t := by
  obtain ⟨wi, L, L', stop, bb, hc, hrun, hR⟩ := A.run
  obtain ⟨x, x1, x2, x3, x4⟩ := exact_sim A.setup A.lists A.reach A.exact hc A.start hrun hR A.success A.polish
    A.fesd A.mode A.pss A.sot A.gamma A.time A.F A.signs A.pc A.nv A.weights A.colloc A.ends
  obtain ⟨result, calls, sim, -⟩ := run_sim A.setup.toSetup A.lists A.reach hc hrun hR
  have hpos : 0 < o.nfeAfter.sum := elements_pos A.setup.toSetup A.lists
  set M := N * o.nfeAfter.sum with hM
  have hg : ∀ n ≤ M, R.tGrid[n]? = some (R.tGrid.getD n 0) := by
    intro n hn
    obtain ⟨t, ht, -⟩ := x2 n hn
    rw [List.getD_eq_getElem?_getD, ht]; rfl
  have g0 : R.tGrid.getD 0 0 = 0 := by
    rw [sim.grid]
    simp [List.getD_eq_getElem?_getD]
  have hxs : ∀ n ≤ M, R.xSim[n]? = some ((List.range um.nX).map (x (R.tGrid.getD n 0))) := by
    intro n hn
    obtain ⟨t, ht, h2⟩ := x2 n hn
    rw [hg n hn] at ht
    rw [Option.some.inj ht]
    exact h2
  refine ⟨M, fun n => R.tGrid.getD n 0, x, x1, ?_, g0, fun n hn => ?_, fun i hi => ?_,
    fun n hn => ⟨hg n hn, hxs n hn⟩, fun n hn t h1 h2 => ?_⟩
  · rw [sim.grid]; simp [hM]
  · exact x4 n hn _ _ (hg n hn.le) (hg (n + 1) hn)
  · have := hxs 0 (Nat.zero_le _)
    rw [sim.states, g0] at this
    have h3 : x0 = (List.range um.nX).map (x 0) := Option.some.inj this
    rw [h3]
    simp [List.getD_eq_getElem?_getD, hi]
  · have hN : n / o.nfeAfter.sum < N := Nat.div_lt_of_lt_mul (by rw [Nat.mul_comm]; exact hn)
    have := x3 n _ _ (hg n hn.le) (hg (n + 1) hn) t h1 h2
    rwa [A.params _ hN] at this

/-- C129: two exact simulations of the same piecewise constant system whose right-hand side is one-sided Lipschitz,
with whatever initial guesses, NLP solvers, numbers of steps and of finite elements, and options: at a common grid
time `t`, the distance of the states is at most `exp (K t)` times that of the initial states.  (`W` is the sum of
the weights of the scheme, 1 up to the rounding of the tables; with INTEGRAL it is 1 for every scheme.) -/
theorem C129_stable (A : ExactRun colloc o um uo po m oc P orc S x0 N pv p b R)
    (A' : ExactRun colloc o' um uo' po' m' oc' P' orc' S' x0' N' pv' p b' R') {W : ℝ}
    (hW : W = ∑ j ∈ Finset.range o.nS, b j) (hW' : W = ∑ j ∈ Finset.range o'.nS, b' j)
    {K : ℝ} (hK : um.OneSided p K) {n n' : Nat} {t : ℝ} (ht : R.tGrid[n]? = some t) (ht' : R'.tGrid[n']? = some t) :
    ∃ X X', R.xSim[n]? = some X ∧ R'.xSim[n']? = some X' ∧
      sqDist X X' ≤ Real.exp (2 * (W * K) * t) * sqDist x0 x0' := by
  obtain ⟨M, T, x, a1, a2, a3, a4, a5, a6, a7⟩ := A.trajectory
  obtain ⟨M', T', x', b1, b2, b3, b4, b5, b6, b7⟩ := A'.trajectory
  have hn : n ≤ M := by
    have := (List.getElem?_eq_some_iff.1 ht).1
    omega
  have hn' : n' ≤ M' := by
    have := (List.getElem?_eq_some_iff.1 ht').1
    omega
  have eT : T n = t := by
    have := (a6 n hn).1
    rw [ht] at this
    exact (Option.some.inj this).symm
  have eT' : T' n' = t := by
    have := (b6 n' hn').1
    rw [ht'] at this
    exact (Option.some.inj this).symm
  have mono : ∀ {M : Nat} {T : Nat → ℝ}, (∀ n < M, T n ≤ T (n + 1)) → ∀ n ≤ M, T 0 ≤ T n := by
    intro M T h n
    induction n with
    | zero => intro _; exact le_rfl
    | succ n ih => intro hn; exact (ih (by omega)).trans (h n (by omega))
  have t0 : 0 ≤ t := by
    rw [← a3, ← eT]
    exact mono a4 n hn
  have hW0 : 0 ≤ W := by
    have := abs_le.1 (C92_weights A.setup A.weights).2
    rw [← hW] at this
    have h2 := this.1
    norm_num at h2
    linarith
  refine ⟨_, _, (a6 n hn).2, (b6 n' hn').2, ?_⟩
  classical
  -- the distance along the two trajectories
  let d : ℝ → ℝ := fun τ => ∑ i ∈ Finset.range um.nX, (x τ i - x' τ i) ^ 2
  let g : ℝ → ℝ := fun τ => Real.exp (-(2 * (W * K) * τ)) * d τ
  let s : Finset ℝ := ((Finset.range (n + 1)).image T) ∪ ((Finset.range (n' + 1)).image T')
  have hd : ∀ τ, 0 < τ → τ < t → τ ∉ s → ∃ g', HasDerivAt g g' τ ∧ g' ≤ 0 := by
    intro τ h1 h2 h3
    simp only [s, Finset.mem_union, Finset.mem_image, Finset.mem_range, not_or, not_exists, not_and] at h3
    obtain ⟨k, hk, k1, k2⟩ := find_interval (T := T) (t := τ) n (by rw [a3]; exact h1) (by rw [eT]; exact h2)
      fun k hk h => h3.1 k (by omega) h.symm
    obtain ⟨k', hk', k1', k2'⟩ := find_interval (T := T') (t := τ) n' (by rw [b3]; exact h1) (by rw [eT']; exact h2)
      fun k hk h => h3.2 k (by omega) h.symm
    obtain ⟨y, y1, y2⟩ := a7 k (by omega) τ k1 k2
    obtain ⟨y', y1', y2'⟩ := b7 k' (by omega) τ k1' k2'
    rw [← hW] at y2
    rw [← hW'] at y2'
    have der : HasDerivAt d (∑ i ∈ Finset.range um.nX, 2 * (x τ i - x' τ i) * (W * y i - W * y' i)) τ := by
      refine HasDerivAt.fun_sum fun i hi => ?_
      have hi := Finset.mem_range.1 hi
      have := ((y2 i hi).sub (y2' i hi)).pow 2
      refine this.congr_deriv ?_
      simp
    have ex : HasDerivAt (fun τ => Real.exp (-(2 * (W * K) * τ)))
        (Real.exp (-(2 * (W * K) * τ)) * -(2 * (W * K))) τ := by
      have := ((hasDerivAt_id τ).const_mul (2 * (W * K))).neg.exp
      simpa using this
    refine ⟨_, ex.mul der, ?_⟩
    have key := hK (x τ) (x' τ) y y' y1 y1'
    have e1 : ∑ i ∈ Finset.range um.nX, 2 * (x τ i - x' τ i) * (W * y i - W * y' i)
        = 2 * W * ∑ i ∈ Finset.range um.nX, (x τ i - x' τ i) * (y i - y' i) := by
      rw [Finset.mul_sum]
      refine Finset.sum_congr rfl fun i _ => ?_
      ring
    have e2 : 2 * W * ∑ i ∈ Finset.range um.nX, (x τ i - x' τ i) * (y i - y' i) ≤ 2 * W * (K * d τ) :=
      mul_le_mul_of_nonneg_left key (by positivity)
    rw [e1]
    have e3 := mul_le_mul_of_nonneg_left e2 (Real.exp_pos (-(2 * (W * K) * τ))).le
    nlinarith [e3]
  have hcd : Continuous d := by
    refine continuous_finset_sum _ fun i _ => ?_
    exact ((a1 i).sub (b1 i)).pow 2
  have hcg : Continuous g := (Real.continuous_exp.comp (by fun_prop)).mul hcd
  have main := le_of_deriv_off_finite (g := g) s _ 0 t t0 rfl hcg.continuousOn hd
  have hg0 : g 0 = d 0 := by simp [g]
  have hd0 : d 0 = sqDist x0 x0' := by
    unfold sqDist
    rw [A.start]
    refine Finset.sum_congr rfl fun i hi => ?_
    rw [a5 i (Finset.mem_range.1 hi), b5 i (Finset.mem_range.1 hi)]
  have hdt : sqDist ((List.range um.nX).map (x (T n))) ((List.range um.nX).map (x' (T' n'))) = d t := by
    unfold sqDist
    rw [List.length_map, List.length_range, eT, eT']
    refine Finset.sum_congr rfl fun i hi => ?_
    simp [List.getD_eq_getElem?_getD, Finset.mem_range.1 hi]
  rw [hg0, hd0] at main
  rw [hdt]
  have h1 : d t = Real.exp (2 * (W * K) * t) * g t := by
    simp only [g]
    rw [← mul_assoc, ← Real.exp_add]
    simp
  rw [h1]
  exact mul_le_mul_of_nonneg_left main (Real.exp_pos _).le

/-- C129: from the same initial state, they return the same states at common grid times. -/
theorem C129_unique (A : ExactRun colloc o um uo po m oc P orc S x0 N pv p b R)
    (A' : ExactRun colloc o' um uo' po' m' oc' P' orc' S' x0 N' pv' p b' R')
    (hW : ∑ j ∈ Finset.range o.nS, b j = ∑ j ∈ Finset.range o'.nS, b' j)
    {K : ℝ} (hK : um.OneSided p K) {n n' : Nat} {t : ℝ} (ht : R.tGrid[n]? = some t) (ht' : R'.tGrid[n']? = some t) :
    R.xSim[n]? = R'.xSim[n']? := by
  obtain ⟨X, X', h1, h2, h3⟩ := C129_stable A A' rfl hW hK ht ht'
  have hz : sqDist x0 x0 = 0 := by simp [sqDist]
  rw [hz, mul_zero] at h3
  obtain ⟨M, T, x, -, a2, -, -, -, a6, -⟩ := A.trajectory
  obtain ⟨M', T', x', -, b2, -, -, -, b6, -⟩ := A'.trajectory
  have hn := (List.getElem?_eq_some_iff.1 ht).1
  have hn' := (List.getElem?_eq_some_iff.1 ht').1
  have l1 := (a6 n (by omega)).2
  have l2 := (b6 n' (by omega)).2
  rw [h1] at l1
  rw [h2] at l2
  have l1 := congrArg List.length (Option.some.inj l1)
  have l2 := congrArg List.length (Option.some.inj l2)
  simp only [List.length_map, List.length_range] at l1 l2
  rw [h1, h2]
  congr 1
  have hzero := (Finset.sum_eq_zero_iff_of_nonneg (fun i _ => sq_nonneg (X.getD i 0 - X'.getD i 0))).1
    (le_antisymm h3 (Finset.sum_nonneg fun i _ => sq_nonneg _))
  refine List.ext_getElem (by omega) fun i hi hi' => ?_
  have := pow_eq_zero_iff (two_ne_zero) |>.1 (hzero i (Finset.mem_range.2 hi))
  simp only [List.getD_eq_getElem?_getD, List.getElem?_eq_getElem hi, List.getElem?_eq_getElem hi',
    Option.getD_some] at this
  linarith

end
end Nosnoc
