import Mathlib.Analysis.SpecialFunctions.Pow.Real
import Verif.Props.Solve
/-
C47, C48: the values of the homotopy parameters and the automatic iteration budget.
-/
namespace Nosnoc

/-! ### C47 -/

/-- C47: LINEAR rule: geometric, positive, strictly decreasing. -/
theorem C47_linear {o : Opts} (hr : o.rule = .linear) (h0 : 0 < o.slope) (h1 : o.slope < 1)
    (hs : 0 < o.sigma0) (k : Nat) :
    sigmaAt o k = o.slope ^ k * o.sigma0 ∧ 0 < sigmaAt o k ∧ sigmaAt o (k + 1) < sigmaAt o k := by
  have e : ∀ k, sigmaAt o k = o.slope ^ k * o.sigma0 := by
    intro k
    induction k with
    | zero => simp [sigmaAt]
    | succ k ih => rw [sigmaAt, hr]; dsimp only; rw [ih, pow_succ]; ring
  have hp : ∀ k, 0 < sigmaAt o k := fun k => by rw [e]; positivity
  refine ⟨e k, hp k, ?_⟩
  rw [sigmaAt, hr]
  dsimp only
  nlinarith [hp k]

theorem sigmaAt_pos {o : Opts} (h0 : 0 < o.slope) (hs : 0 < o.sigma0) :
    ∀ k, 0 < sigmaAt o k := by
  intro k
  induction k with
  | zero => exact hs
  | succ k ih =>
    rw [sigmaAt]
    split
    · positivity
    · exact lt_max_of_lt_right (lt_min (by positivity) (Real.rpow_pos_of_pos ih _))

theorem sigmaAt_lt {o : Opts} (h0 : 0 < o.slope) (h1 : o.slope < 1) (hs : 0 < o.sigma0) {k : Nat}
    (hk : o.sigmaN < sigmaAt o k) : sigmaAt o (k + 1) < sigmaAt o k := by
  have hp := sigmaAt_pos h0 hs k
  rw [sigmaAt]
  split
  · nlinarith
  · exact max_lt hk (lt_of_le_of_lt (min_le_left _ _) (by nlinarith))

/-- C47: SUPERLINEAR rule: positive, never below `sigma_N` after the first solve, strictly decreasing
as long as it is above `sigma_N`. -/
theorem C47_superlinear {o : Opts} (hr : o.rule = .superlinear) (h0 : 0 < o.slope)
    (h1 : o.slope < 1) (hs : 0 < o.sigma0) (k : Nat) :
    0 < sigmaAt o k ∧ o.sigmaN ≤ sigmaAt o (k + 1) ∧
      (o.sigmaN < sigmaAt o k → sigmaAt o (k + 1) < sigmaAt o k) := by
  refine ⟨sigmaAt_pos h0 hs k, ?_, sigmaAt_lt h0 h1 hs⟩
  rw [sigmaAt, hr]
  exact le_max_left _ _

section
variable {colloc : IrkScheme → Nat → List ℝ} {o : Opts} {um : UserModel} {uo : Option UserOcp}
  {po : PreOpts} {m : PreModel} {oc : PreOcp} {P : Problem} {orc : Oracle} {S S1 : Solver}
  {lam00 : List ℝ}

/-- C47: what the NLP solver gets in one `solve`: the entries `sigma` and `tau` of the parameter
vector are positive, `tau = min(sigma^1.5, sigma) ≤ sigma`, `sigma` is `sigma_0` in the first call and
strictly smaller in each following one. -/
theorem C47_parameters_of_calls (orc : Oracle) (h : Setup colloc o um uo po m oc P)
    (hS : Reachable colloc o um uo orc S) (hr : Ready um S)
    (hini : S.initialize = (S1, .ok lam00)) (h0 : 0 < o.slope) (h1 : o.slope < 1)
    (hs : 0 < o.sigma0) :
    ∃ (n : Nat) (calls : Nat → NlpCall) (sigma tau : Nat → ℝ) (extra : List NlpCall),
      (S.solve orc).1.log = S.log ++ (List.range n).map calls ++ extra ∧
      (o.polish = false → extra = []) ∧ 0 < n ∧ sigma 0 = o.sigma0 ∧
      (∀ k < n, (calls k).p[o.nStages * (um.nPtv + um.nPgl)]? = some (sigma k) ∧
        (calls k).p[o.nStages * (um.nPtv + um.nPgl) + 1]? = some (tau k) ∧
        tau k = min (sigma k ^ (3 / 2 : ℝ)) (sigma k) ∧ 0 < tau k ∧ tau k ≤ sigma k) ∧
      ∀ k, k + 1 < n → sigma (k + 1) < sigma k := by
  have hi := hS.inv h
  obtain ⟨w0, lbx, ubx, n, calls, sols, hh, -, -, -, h5, extra, h6, h7, -⟩ :=
    C52_solve_is_a_homotopy orc h hS hr hini
  have hsig : ∀ k, sigmaAt S.o.toOpts k = sigmaAt o k := by
    intro k
    rw [hi.opts, h.opts]
    induction k with
    | zero => rfl
    | succ k ih => rw [sigmaAt_succ, ih, sigmaAt_succ]; rfl
  have e3 : S.o.sigmaN = o.sigmaN := by rw [hi.opts, h.opts]
  have e4 : po.nStages = o.nStages := by rw [h.opts]
  have hflat : S.m.pVal.flatten.length = o.nStages * (um.nPtv + um.nPgl) := by
    have : S.m.pVal.map List.length = List.replicate S.m.pVal.length (um.nPtv + um.nPgl) := by
      rw [← List.map_const']
      apply List.map_congr_left
      intro r hr'
      rw [hi.pRow r hr', h.dims.2.2.2.2.1, h.dims.2.2.2.2.2.1]
    rw [List.length_flatten, this, hi.pLen, e4]
    simp
  refine ⟨n, calls, sigmaAt o, fun k => min (sigmaAt o k ^ (3 / 2 : ℝ)) (sigmaAt o k), extra, h7,
    fun hp => ?_, hh.pos, rfl, fun k hk => ?_, fun k hk => ?_⟩
  · have := h5 hp
    rw [h7] at this
    simpa using this
  · have hp := sigmaAt_pos h0 hs k
    rw [hh.params k hk, ← hflat, List.append_assoc, List.append_assoc, hsig]
    generalize S.m.pVal.flatten = l
    refine ⟨?_, ?_, rfl, lt_min (Real.rpow_pos_of_pos hp _) hp, min_le_right _ _⟩
    · rw [List.getElem?_append_right le_rfl, Nat.sub_self]; rfl
    · rw [List.getElem?_append_right (by omega), Nat.add_sub_cancel_left]; rfl
  · have := (hh.goOn k hk).2
    rw [e3, hsig] at this
    exact sigmaAt_lt h0 h1 hs this

/-! ### C48 -/

theorem abs_sub_npRound (x : ℝ) : |x - npRound x| ≤ 1 / 2 := by
  have hf := Int.fract_add_floor x
  unfold npRound
  split
  · next h =>
    split
    · rw [abs_le]
      constructor <;> linarith
    · rw [abs_le]
      push_cast
      constructor <;> linarith
  · exact abs_sub_round x

/-- C48: with `max_iter_homotopy = 0` preprocessing chooses a positive budget for which, under the
LINEAR rule, the last scheduled `sigma` is `comp_tol` up to a factor `sqrt(slope)`. -/
theorem C48_default_budget (h : o.preprocess colloc = .ok po) (hm : o.maxIterHomotopy = 0)
    (hr : o.rule = .linear) (h0 : 0 < o.slope) (h1 : o.slope < 1) (hc : 0 < o.compTol)
    (hcs : o.compTol ≤ o.sigma0) :
    1 ≤ po.maxIterHomotopy ∧
    sigmaAt o (po.maxIterHomotopy - 1) ≤ o.compTol / √o.slope ∧
    o.compTol * √o.slope ≤ sigmaAt o (po.maxIterHomotopy - 1) := by
  have hs : 0 < o.sigma0 := hc.trans_le hcs
  have hi := (preprocess_opts h).iter
  unfold Opts.maxIter autoMaxIter at hi
  rw [if_pos hm, if_pos ⟨by positivity, h0.le, h1.ne⟩] at hi
  injection hi with hi
  have hlog : Real.log o.slope < 0 := Real.log_neg h0 h1
  obtain ⟨r, hrd⟩ : ∃ r, r = Real.log (o.compTol / o.sigma0) / Real.log o.slope := ⟨_, rfl⟩
  have hr0 : 0 ≤ r := by
    rw [hrd]
    apply div_nonneg_of_nonpos _ hlog.le
    exact Real.log_nonpos (by positivity) ((div_le_one hs).2 hcs)
  rw [← hrd, abs_of_nonneg hr0] at hi
  have hrn := abs_sub_npRound r
  have hnn : 0 ≤ npRound r := by
    rw [abs_le] at hrn
    by_contra hneg
    have : npRound r ≤ -1 := by omega
    have : ((npRound r : Int) : ℝ) ≤ -1 := by exact_mod_cast this
    linarith [hrn.2]
  obtain ⟨n, hn⟩ : ∃ n : Nat, npRound r = n := ⟨(npRound r).toNat, by omega⟩
  rw [hn] at hi hrn
  have hpo : po.maxIterHomotopy = n + 1 := by rw [← hi]; simp
  have hct : o.slope ^ r * o.sigma0 = o.compTol := by
    rw [Real.rpow_def_of_pos h0, hrd, mul_div_cancel₀ _ hlog.ne, Real.exp_log (by positivity)]
    field_simp
  rw [hpo, Nat.add_sub_cancel, (C47_linear hr h0 h1 hs n).1]
  have hsq : √o.slope = o.slope ^ (1 / 2 : ℝ) := Real.sqrt_eq_rpow _
  have hsp : 0 < √o.slope := Real.sqrt_pos.2 h0
  rw [abs_le] at hrn
  push_cast at hrn
  refine ⟨by omega, ?_, ?_⟩
  · rw [le_div_iff₀ hsp, hsq, ← Real.rpow_natCast, ← hct]
    have : o.slope ^ (n : ℝ) * o.slope ^ (1 / 2 : ℝ) ≤ o.slope ^ r := by
      rw [← Real.rpow_add h0]
      exact Real.rpow_le_rpow_of_exponent_ge h0 h1.le (by linarith)
    nlinarith
  · rw [hsq, ← Real.rpow_natCast, ← hct]
    have : o.slope ^ r * o.slope ^ (1 / 2 : ℝ) ≤ o.slope ^ (n : ℝ) := by
      rw [← Real.rpow_add h0]
      exact Real.rpow_le_rpow_of_exponent_ge h0 h1.le (by linarith)
    nlinarith

end

/-- The hypotheses of C48 are met by the default options. -/
example : Opts.default.maxIterHomotopy = 0 ∧ Opts.default.rule = .linear ∧ 0 < Opts.default.slope ∧
    Opts.default.slope < 1 ∧ 0 < Opts.default.compTol ∧
    Opts.default.compTol ≤ Opts.default.sigma0 ∧
    ∃ po, Opts.default.preprocess demoColloc = .ok po := by
  obtain ⟨po, m, oc, P, h, _⟩ := demo_setup demo_default
  have hok := h.ok
  unfold construct at hok
  simp only [bind_eq_ok] at hok
  obtain ⟨_, -, po', h1, -⟩ := hok
  refine ⟨rfl, rfl, ?_, ?_, ?_, ?_, po', h1⟩
  all_goals simp only [Opts.default]; norm_num

end Nosnoc
