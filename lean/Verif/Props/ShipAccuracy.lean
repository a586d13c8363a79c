import Verif.Props.Examples
import Verif.Props.Accuracy
import Verif.Proofs.NearFlow
/-
C118: the shipped simplest examples without polishing (the shipped setting) are accurate up to the tolerance.
-/
namespace Nosnoc

section
variable {colloc : IrkScheme → Nat → List ℝ} {orc : Oracle} {o : Opts} {a b xm x0 T : ℝ} {N : Nat}
  {R : SimResults} {uo : Option UserOcp} {po : PreOpts} {m : PreModel} {oc : PreOcp} {P : Problem} {env : Env}

theorem finalTol_nonneg (h : 0 < o.compTol) : 0 ≤ finalTol o :=
  le_max_of_le_left (div_nonneg h.le (Real.sqrt_nonneg _))

theorem simplest_selConst {i : Nat} (hi : i < 2) : 0 ≤ selConst o (simplestModel a b xm) 0 i ∧
    selConst o (simplestModel a b xm) 0 i ≤ 1 := by
  unfold selConst
  cases o.pss with
  | stewart =>
    show 0 ≤ (((2 : Nat) : ℝ) - 1) / 2 ∧ (((2 : Nat) : ℝ) - 1) / 2 ≤ 1
    norm_num
  | step =>
    refine ⟨Nat.cast_nonneg _, ?_⟩
    show (((Finset.range ((simplestModel a b xm).Smat 0).cols).filter
        fun n => ((simplestModel a b xm).Smat 0).entry i n ≠ 0).card : ℝ) ≤ 1
    have : ((Finset.range ((simplestModel a b xm).Smat 0).cols).filter
        fun n => ((simplestModel a b xm).Smat 0).entry i n ≠ 0).card ≤ 1 :=
      (Finset.card_filter_le _ _).trans (by simp [simplestModel, UserModel.Smat])
    exact_mod_cast this

/-- One element of a relaxed point. -/
theorem simplest_element (D : RelaxedPoint o po m P env)
    (h : SetupEx colloc o (simplestModel a b xm) uo po m oc P)
    (hu : o.useFesd = true) (hso : o.sot = .none)
    (h0 : (simplestModel a b xm).InitialMultipliers po m.dims env)
    {w : Nat → ℝ} (hw : SchemeWeights colloc o w)
    (hcol : o.irkRep = .integral → CollocOk (colloc o.scheme o.nS) o.nS) (hr : po.rbe = true) {E : ℝ}
    (hE0 : 0 ≤ E) (hE : P.compRes env ≤ E) {k e : Nat} (hk : HasFE po k e) (hh : 0 ≤ hVal po k e env) :
    NearFlow ((∑ j ∈ Finset.range o.nS, w j) * a) ((∑ j ∈ Finset.range o.nS, w j) * b)
      ((∑ j ∈ Finset.range o.nS, w j) * |a - b| * E) (hVal po k e env)
      ((startVal po m.dims k e env).getD 0 0) ((xEndVal po m.dims k e env).getD 0 0) := by
  set W := ∑ j ∈ Finset.range o.nS, w j with hW
  have hW0 : 0 ≤ W := Finset.sum_nonneg fun j hj => hw.nonneg j (Finset.mem_range.1 hj)
  set x := (startVal po m.dims k e env).getD 0 0 with hx
  set x' := (xEndVal po m.dims k e env).getD 0 0 with hx'
  have hso1 : sotVal po k env = 1 := by
    unfold sotVal
    rw [if_neg (by rw [h.e_sot, hso]; simp)]
    rfl
  have hsame : (simplestModel a b xm).SameSwitching po m.dims env := by
    intro k _ s hs n x
    obtain rfl := simplest_sys hs
    rfl
  -- a region and a point of the element in this region
  have el : ∀ (i : Nat) (hi : i < 2) (δ : ℝ), 0 < δ →
      δ ≤ (if i = 0 then -1 else 1) * x ∨ δ ≤ (if i = 0 then -1 else 1) * x' →
      δ * |x' - x - hVal po k e env * (W * (if i = 0 then a else b))| ≤ hVal po k e env * (W * |a - b| * E) := by
    intro i hi δ hδ hd
    have := C97_element D h hu rfl simplest_signs simplest_pc h0 hsame hw hcol hE hδ hk (reg := fun _ => i)
      (row := 0) (M := |a - b|) ?_ (by simp [simplestModel]) ?_
    · rw [hso1, mul_one, ← hW] at this
      have hs1 : (simplestModel a b xm).nSys = 1 := rfl
      rw [hs1, Finset.sum_range_one, Finset.sum_range_one, abs_of_nonneg hh] at this
      obtain ⟨s0, s1⟩ := simplest_selConst (o := o) (a := a) (b := b) (xm := xm) hi
      have hent : ((simplestModel a b xm).Fmat 0).entry 0 i [] [] (uVal m.dims k env) (pVal m.dims k env)
        (vVal m.dims env) = if i = 0 then a else b := rfl
      rw [hent] at this
      rw [show x' - x - hVal po k e env * (W * (if i = 0 then a else b))
        = x' - (x + hVal po k e env * W * (if i = 0 then a else b)) by ring]
      refine (mul_le_mul_of_nonneg_left this hδ.le).trans ?_
      have : selConst o (simplestModel a b xm) 0 i * (E / δ) * |a - b| ≤ 1 * (E / δ) * |a - b| :=
        mul_le_mul_of_nonneg_right (mul_le_mul_of_nonneg_right s1 (div_nonneg hE0 hδ.le)) (abs_nonneg _)
      calc δ * (hVal po k e env * W * (selConst o (simplestModel a b xm) 0 i * (E / δ) * |a - b|))
          ≤ δ * (hVal po k e env * W * (1 * (E / δ) * |a - b|)) := by gcongr
        _ = _ := by field_simp
    · intro s hs
      obtain rfl := simplest_sys hs
      refine ⟨hi, ?_⟩
      have deep : ∀ y : List ℝ, δ ≤ (if i = 0 then -1 else 1) * y.getD 0 0 →
          (simplestModel a b xm).DeepIn 0 i δ y [] (pVal m.dims k env) := by
        intro y hy n hn _
        exact hy
      rcases hd with hd | hd
      · exact .inl (deep _ hd)
      · exact .inr (.inr ⟨hr, deep _ hd⟩)
    · intro s hs r hr2
      obtain rfl := simplest_sys hs
      show |(if r = 0 then a else b) - (if i = 0 then a else b)| ≤ |a - b|
      split <;> split <;> simp [abs_sub_comm]
  -- the slope of the element
  have hst : ∀ j < o.nS, min a b ≤ (simplestModel a b xm).stageRhs po m.dims k e j 0 env ∧
      (simplestModel a b xm).stageRhs po m.dims k e j 0 env ≤ max a b := by
    intro j hj
    obtain ⟨g1, g2⟩ := D.weights h rfl simplest_signs hk hj
    obtain ⟨n1, s1⟩ := g1 0 (by simp [simplestModel, UserModel.nSys])
    have hcols : ((simplestModel a b xm).Fmat 0).nCols = 2 := rfl
    rw [hcols, Finset.sum_range_succ, Finset.sum_range_one] at s1
    rw [hcols] at n1
    have e0 := n1 0 (by norm_num)
    have e1 := n1 1 (by norm_num)
    rw [g2 0]
    unfold UserModel.rhsStewart
    rw [show (simplestModel a b xm).nSys = 1 from rfl, Finset.sum_range_one, hcols, Finset.sum_range_succ,
      Finset.sum_range_one]
    show min a b ≤ a * _ + b * _ ∧ a * _ + b * _ ≤ max a b
    set p := wgt o (simplestModel a b xm) env k e j 0 0
    set q := wgt o (simplestModel a b xm) env k e j 0 1
    have k0 := mul_nonneg e0 (sub_nonneg.2 (min_le_left a b))
    have k1 := mul_nonneg e1 (sub_nonneg.2 (min_le_right a b))
    have k2 : min a b = min a b * (p + q) := by rw [s1, mul_one]
    have l0 := mul_nonneg e0 (sub_nonneg.2 (le_max_left a b))
    have l1 := mul_nonneg e1 (sub_nonneg.2 (le_max_right a b))
    have l2 : max a b = max a b * (p + q) := by rw [s1, mul_one]
    constructor
    · rw [k2]; linarith
    · rw [l2]; linarith
  have hstep := hw.step h D.feas hcol hk (i := 0) (by simp [simplestModel])
  rw [hso1] at hstep
  have slo : W * min a b ≤ ∑ j ∈ Finset.range o.nS,
      w j * (1 * (simplestModel a b xm).stageRhs po m.dims k e j 0 env) := by
    rw [hW, Finset.sum_mul]
    refine Finset.sum_le_sum fun j hj => ?_
    have hj := Finset.mem_range.1 hj
    rw [one_mul]
    exact mul_le_mul_of_nonneg_left (hst j hj).1 (hw.nonneg j hj)
  have shi : ∑ j ∈ Finset.range o.nS,
      w j * (1 * (simplestModel a b xm).stageRhs po m.dims k e j 0 env) ≤ W * max a b := by
    rw [hW, Finset.sum_mul]
    refine Finset.sum_le_sum fun j hj => ?_
    have hj := Finset.mem_range.1 hj
    rw [one_mul]
    exact mul_le_mul_of_nonneg_left (hst j hj).2 (hw.nonneg j hj)
  rw [← hx, ← hx'] at hstep
  refine ⟨hh, by positivity, ?_, ?_, fun g => ?_, fun g => ?_, fun g => ?_, fun g => ?_⟩
  · rw [← mul_min_of_nonneg _ _ hW0]
    have := mul_le_mul_of_nonneg_left slo hh
    linarith
  · rw [← mul_max_of_nonneg _ _ hW0]
    have := mul_le_mul_of_nonneg_left shi hh
    linarith
  · exact el 0 (by norm_num) _ (by linarith) (.inl (by simp))
  · exact el 0 (by norm_num) _ (by linarith) (.inr (by simp))
  · exact el 1 (by norm_num) _ g (.inl (by simp))
  · exact el 1 (by norm_num) _ g (.inr (by simp))

/-- The trajectory of a run of the driver without polishing. -/
theorem simplest_near (cfg : NearSimOpts colloc o) (hT : 0 ≤ T)
    (hex : ∀ q, construct colloc { o with terminalTime := T / N } (simplestModel a b xm) none = .ok q →
      orc.Exact q.2.2.2)
    (hR : solveSimplest colloc orc o (simplestModel a b xm) [x0] N T = .ok R)
    (hst : ∀ s ∈ R.status, s = .success) :
    ∃ (W : ℝ) (X τ : Nat → ℝ),
      (o.irkRep = .integral → W = 1) ∧ |W - 1| ≤ 1 / 10 ^ 11 ∧
      R.xSim.length = N * o.nfeAfter.sum + 1 ∧ R.tGrid = (List.range (N * o.nfeAfter.sum + 1)).map τ ∧
      (∀ n ≤ N * o.nfeAfter.sum, R.xSim[n]? = some [X n]) ∧
      τ 0 = 0 ∧ X 0 = x0 ∧ τ (N * o.nfeAfter.sum) = T ∧
      ∀ n < N * o.nfeAfter.sum,
        NearFlow (W * a) (W * b) (W * |a - b| * finalTol o) (τ (n + 1) - τ n) (X n) (X (n + 1)) := by
  obtain ⟨hN, po, m, oc, P, S, hr⟩ := simplest_run cfg.nS cfg.exact cfg.lists cfg.sot hex hR hst rfl rfl rfl
  obtain ⟨w, hw⟩ := cfg.weights
  have hw' : SchemeWeights colloc { o with terminalTime := T / N } w := ⟨hw.nonneg, hw.table, hw.quad⟩
  have h' := hr.setup.toSetup
  have hTN : 0 ≤ T / N := by positivity
  have hrbe : po.rbe = true := by
    have hk := h'.ok
    unfold construct at hk
    simp only [bind_eq_ok] at hk
    obtain ⟨-, -, po', hp, m', -, oc', -, P', -, e⟩ := hk
    cases e
    exact cfg.ends _ _ hp
  obtain ⟨⟨-, hN1, hnE0⟩, ⟨hx0, hlen, hlenT, hgrid⟩, before, result, hsteps⟩ := hr.steps
  have hnf : ({ o with terminalTime := T / N } : Opts).nfeAfter = o.nfeAfter := rfl
  rw [hnf] at hlen hlenT hgrid hnE0 hsteps
  obtain ⟨W1, W2⟩ := C92_weights hr.setup hw'
  set M := N * o.nfeAfter.sum with hM
  set nE := o.nfeAfter.sum with hnE
  have hg : ∀ n ≤ M, R.tGrid[n]? = some ((R.timeSteps.take n).sum) := fun n hn => by
    rw [hgrid, List.getElem?_map, List.getElem?_range (by omega)]; rfl
  have dX : m.dims.nX = 1 := h'.dims.1
  -- the elements
  have elem : ∀ n < M, ∃ x x' h, R.xSim[n]? = some [x] ∧ R.xSim[n + 1]? = some [x'] ∧
      R.timeSteps[n]? = some h ∧ NearFlow ((∑ j ∈ Finset.range o.nS, w j) * a)
        ((∑ j ∈ Finset.range o.nS, w j) * b) ((∑ j ∈ Finset.range o.nS, w j) * |a - b| * finalTol o) h x x' := by
    intro n hn
    have hdm : n / nE * nE + n % nE = n := Nat.div_add_mod' n nE
    have hi : n / nE < N := (Nat.div_lt_iff_lt_mul hnE0).2 hn
    have he : n % nE < nE := Nat.mod_lt _ hnE0
    obtain ⟨a1, a2, a3, -, a5⟩ := hsteps _ hi
    obtain ⟨env, j, tau, j0, j1, -, D, hI, hRs, hp, hstop⟩ := success_point hr.setup a1 hr.lists hr.exact a2 a3
      cfg.polish (cfg.mode.elim (fun hm => .inl (.inr (.inl hm))) fun hm => .inl (.inl hm))
      (.inr (by simp [simplestModel, UserModel.nSys])) rfl
    obtain ⟨hrd, -⟩ := ready_of_ok h' (a1.inv h') a2
    have a5 := a5 env hRs (x0_of_params h' hrd.x0 fun t ht _ => hp t ht) _ he
    rw [hdm] at a5
    obtain ⟨hFE, b2, b3, b4⟩ := a5
    obtain ⟨q, hq⟩ : ∃ q, IsPair po m.dims q := by
      obtain ⟨-, -, -, -, -, -, dS, dF, dC⟩ := h'.dims
      cases hp : po.pss with
      | stewart => exact ⟨.region 0 0, hp, by rw [dS]; exact Nat.one_pos, by
          rw [dF hp 0 Nat.one_pos]; exact Nat.two_pos⟩
      | step => exact ⟨.neg 0 0, hp, by rw [dS]; exact Nat.one_pos, by
          rw [dC hp 0 Nat.one_pos]; exact Nat.one_pos⟩
    have hres : P.compRes env ≤ sigmaAt { o with terminalTime := T / N } (j - 1) := by
      refine (C97_residual D hr.setup hq).trans (le_of_eq ?_)
      have hsig : env .sigma = sigmaAt { o with terminalTime := T / N } (j - 1) := hp _ (sigma_mem h')
      refine Eq.trans ?_ hsig
      show relaxTol o env = _
      unfold relaxTol
      rcases cfg.mode with hm | hm <;> rw [hm]
    have htol : P.compRes env ≤ finalTol o :=
      tol_of_budget hr.setup cfg.budget cfg.rule cfg.slope.1 cfg.slope.2 cfg.tol.1 cfg.tol.2 hres hstop
    have hlt : n < R.timeSteps.length := by rw [hlenT]; exact hn
    have hh : 0 ≤ hVal po 0 (n % nE) env := by
      have := (hr.small (fun _ => cfg.gamma) hTN _ (List.mem_of_getElem? b4)).1
      exact this
    have f := simplest_element D hr.setup cfg.fesd cfg.sot hI hw' cfg.points hrbe (finalTol_nonneg cfg.tol.1) htol
      hFE hh
    have single : ∀ l : List ℝ, l.length = 1 → l = [l.getD 0 0] := by
      intro l hl
      obtain ⟨y, rfl⟩ := List.length_eq_one_iff.1 hl
      rfl
    have l1 : (startVal po m.dims 0 (n % nE) env).length = 1 := by
      unfold startVal
      split
      · rw [length_xEndVal, dX]
      · split
        · rw [length_xEndVal, dX]
        · simp [dX]
    refine ⟨_, _, _, ?_, ?_, b4, f⟩
    · rw [← single _ l1]; exact b2
    · rw [← single _ (by rw [length_xEndVal, dX])]; exact b3
  have gd : ∀ {n : Nat} {y : ℝ}, R.xSim[n]? = some [y] → (R.xSim.getD n []).getD 0 0 = y := by
    intro n y hy
    rw [List.getD_eq_getElem?_getD (l := R.xSim), hy]; rfl
  have hxs : ∀ n ≤ M, R.xSim[n]? = some [(R.xSim.getD n []).getD 0 0] := by
    intro n hn
    cases n with
    | zero => rw [gd hx0]; exact hx0
    | succ n =>
      obtain ⟨x, x', h, -, e2, -⟩ := elem n (by omega)
      rw [gd e2]; exact e2
  refine ⟨_, fun n => (R.xSim.getD n []).getD 0 0, fun n => (R.timeSteps.take n).sum, W1, W2, by omega, hgrid, hxs,
    by simp, ?_, ?_, fun n hn => ?_⟩
  · exact gd hx0
  · have := hr.total cfg.fesd cfg.equidistant le_rfl
    rw [hnf, ← hM, hg M le_rfl] at this
    refine (Option.some.inj this).trans ?_
    have : (N : ℝ) ≠ 0 := by exact_mod_cast hN
    show (N : ℝ) * (T / N) = T
    field_simp
  · obtain ⟨x, x', h, e1, e2, e3, f⟩ := elem n hn
    have t : (R.timeSteps.take (n + 1)).sum - (R.timeSteps.take n).sum = h := by
      rw [List.take_add_one, e3, List.sum_append]
      simp
    beta_reduce
    rw [t, gd e1, gd e2]
    exact f

/-! ### C118 -/

/-- C118, crossing (`get_simplest_model_switch`): if `solve_simplest_example` returns without polishing and all steps
are reported as SUCCESS, the grid runs from 0 to `Tsim`, and the `n`-th reported state differs from the analytic
solution at the `n`-th reported time by at most `n` times a multiple of the tolerance; the factor depends on the two
slopes only.  (`W`: as in C117.) -/
theorem C118_crossing (cfg : NearSimOpts colloc o) (hT : 0 ≤ T) (ha : 0 < a) (hb : 0 < b)
    (hex : ∀ q, construct colloc { o with terminalTime := T / N } (simplestModel a b xm) none = .ok q →
      orc.Exact q.2.2.2)
    (hR : solveSimplest colloc orc o (simplestModel a b xm) [x0] N T = .ok R)
    (hst : ∀ s ∈ R.status, s = .success) :
    ∃ W : ℝ, (o.irkRep = .integral → W = 1) ∧ |W - 1| ≤ 1 / 10 ^ 11 ∧
      R.xSim.length = R.tGrid.length ∧ R.tGrid.head? = some 0 ∧ R.tGrid.getLast? = some T ∧
      ∀ (n : Nat) (t : ℝ) (x : List ℝ), R.tGrid[n]? = some t → R.xSim[n]? = some x → ∃ y, x = [y] ∧
        |y - crossingSol (W * a) (W * b) x0 t|
          ≤ n * (4 * |a - b| * max a b / min a b ^ 2 * finalTol o) := by
  obtain ⟨W, X, τ, w1, w2, hl, hg, hx, t0, x00, tT, hf⟩ := simplest_near cfg hT hex hR hst
  have hW : 0 < W := by have := abs_le.1 w2; norm_num at this; linarith
  refine ⟨W, w1, w2, by rw [hl, hg]; simp, by rw [hg, List.range_succ_eq_map]; simp [t0],
    by rw [hg]; simp [List.range_succ, tT], fun n t x ht hxn => ?_⟩
  have hn : n ≤ N * o.nfeAfter.sum := by
    have := (List.getElem?_eq_some_iff.1 hxn).1
    omega
  rw [hx n hn] at hxn
  rw [hg, List.getElem?_map, List.getElem?_range (by omega)] at ht
  refine ⟨X n, (Option.some.inj hxn).symm, ?_⟩
  have ht : τ n = t := Option.some.inj ht
  have hμ : 0 < min a b := lt_min ha hb
  have := crossing_near (κ := W * |a - b| * finalTol o) (mul_pos hW hμ) (mul_le_mul_of_nonneg_left (min_le_left a b) hW.le)
    (mul_le_mul_of_nonneg_left (min_le_right a b) hW.le)
    (mul_le_mul_of_nonneg_left (le_max_left a b) hW.le) (mul_le_mul_of_nonneg_left (le_max_right a b) hW.le)
    t0 hf n hn
  rw [x00, ht] at this
  refine this.trans (le_of_eq ?_)
  field_simp

/-- C118, sliding (`get_simplest_model_sliding`): likewise, with `n + 1` in place of `n`. -/
theorem C118_sliding (cfg : NearSimOpts colloc o) (hT : 0 ≤ T) (ha : 0 < a) (hb : b < 0)
    (hex : ∀ q, construct colloc { o with terminalTime := T / N } (simplestModel a b xm) none = .ok q →
      orc.Exact q.2.2.2)
    (hR : solveSimplest colloc orc o (simplestModel a b xm) [x0] N T = .ok R)
    (hst : ∀ s ∈ R.status, s = .success) :
    ∃ W : ℝ, (o.irkRep = .integral → W = 1) ∧ |W - 1| ≤ 1 / 10 ^ 11 ∧
      R.xSim.length = R.tGrid.length ∧ R.tGrid.head? = some 0 ∧ R.tGrid.getLast? = some T ∧
      ∀ (n : Nat) (t : ℝ) (x : List ℝ), R.tGrid[n]? = some t → R.xSim[n]? = some x → ∃ y, x = [y] ∧
        |y - slidingSol (W * a) (W * b) x0 t| ≤ (n + 1) * (2 * |a - b| / min a (-b) * finalTol o) := by
  obtain ⟨W, X, τ, w1, w2, hl, hg, hx, t0, x00, tT, hf⟩ := simplest_near cfg hT hex hR hst
  have hW : 0 < W := by have := abs_le.1 w2; norm_num at this; linarith
  refine ⟨W, w1, w2, by rw [hl, hg]; simp, by rw [hg, List.range_succ_eq_map]; simp [t0],
    by rw [hg]; simp [List.range_succ, tT], fun n t x ht hxn => ?_⟩
  have hn : n ≤ N * o.nfeAfter.sum := by
    have := (List.getElem?_eq_some_iff.1 hxn).1
    omega
  rw [hx n hn] at hxn
  rw [hg, List.getElem?_map, List.getElem?_range (by omega)] at ht
  refine ⟨X n, (Option.some.inj hxn).symm, ?_⟩
  have ht : τ n = t := Option.some.inj ht
  have hm : 0 < min a (-b) := lt_min ha (by linarith)
  have hκ : 0 ≤ W * |a - b| * finalTol o :=
    mul_nonneg (mul_nonneg hW.le (abs_nonneg _)) (finalTol_nonneg cfg.tol.1)
  have m1 : W * min a (-b) ≤ W * a := mul_le_mul_of_nonneg_left (min_le_left a (-b)) hW.le
  have m2 : W * min a (-b) ≤ -(W * b) := by
    have := mul_le_mul_of_nonneg_left (min_le_right a (-b)) hW.le
    linarith
  have e : 2 * (W * |a - b| * finalTol o) / (W * min a (-b)) = 2 * |a - b| / min a (-b) * finalTol o := by
    field_simp
  rw [← e, ← ht]
  unfold slidingSol
  split
  · rename_i h0
    have := sliding_near hκ (mul_pos hW hm) m1 m2 t0 (by rw [x00]; exact h0) hf n hn
    rw [x00] at this
    exact this
  · rename_i h0
    push Not at h0
    have := sliding_near (X := fun n => -X n) hκ (mul_pos hW hm) m2 (by simpa using m1) t0
      (by beta_reduce; rw [x00]; linarith) (fun n hn => (hf n hn).neg) n hn
    beta_reduce at this
    rw [x00, show -x0 + -(W * b) * τ n = -(x0 + W * b * τ n) by ring,
      show min (-(x0 + W * b * τ n)) 0 = -max (x0 + W * b * τ n) 0 by rw [← min_neg_neg, neg_zero],
      ← neg_sub', abs_neg] at this
    exact this

end
end Nosnoc
