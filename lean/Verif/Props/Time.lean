import Verif.Props.Results
/-
C10 - C14: the time grid, as reported in the results.
-/
namespace Nosnoc
section
variable {colloc : IrkScheme → Nat → List ℝ} {o : Opts} {um : UserModel} {uo : Option UserOcp}
  {po : PreOpts} {m : PreModel} {oc : PreOcp} {P : Problem} {w p x0 : List ℝ} {r : Results}

/-- The vector `w` satisfies the variable bounds of the NLP. -/
def Form.InBounds (f : Form) (w : List ℝ) : Prop :=
  ∀ (i : Nat) (v : ℝ) (l u : EReal), w[i]? = some v → f.lbw[i]? = some l → f.ubw[i]? = some u →
    l ≤ (v : EReal) ∧ (v : EReal) ≤ u

/-- A feasible point satisfies the variable bounds. -/
theorem Form.Feasible.inBounds {f : Form} {env : Env} (hf : f.Feasible env) :
    f.InBounds (f.w.map env) := by
  intro i v l u hv hl hu
  rw [List.getElem?_map, Option.map_eq_some_iff] at hv
  obtain ⟨sy, hs, rfl⟩ := hv
  exact hf.1 (sy, (l, u)) (List.mem_of_getElem? (i := i) (by
    rw [List.getElem?_zip_eq_some]
    exact ⟨hs, by rw [List.getElem?_zip_eq_some]; exact ⟨hl, hu⟩⟩))

/-- Within the bounds every step variable lies in its box. -/
theorem Setup.step_box (h : Setup colloc o um uo po m oc P) (hw : w.length = P.form.w.length)
    (hb : P.form.InBounds w) (hu : o.useFesd = true) {k e : Nat} (hk : HasFE po k e) :
    (1 - o.gammaH) * nominalH po k ≤ hVal po k e (P.point w p) ∧
    hVal po k e (P.point w p) ≤ (1 + o.gammaH) * nominalH po k := by
  have e' := h.opts
  have hu' : po.useFesd = true := by rw [e']; exact hu
  have hm := (C04_variables h (.h k e)).1 ⟨hu', hk⟩
  obtain ⟨i, hi, hs⟩ := List.getElem_of_mem hm
  have hs' : P.form.w[i]? = some (.h k e) := by rw [List.getElem?_eq_getElem hi, hs]
  obtain ⟨c1, c2, _⟩ := C04_bounds_and_guess h
  have hv : w[i]? = some (P.point w p (.h k e)) := by
    conv_lhs => rw [← h.point_w (p := p) hw]
    rw [List.getElem?_map, hs']; rfl
  have := hb i _ _ _ hv (by rw [c1, List.getElem?_map, hs']; rfl)
    (by rw [c2, List.getElem?_map, hs']; rfl)
  simp only [varDoc, EReal.coe_le_coe_iff] at this
  have eg : po.gammaH = o.gammaH := by rw [e']
  rw [eg] at this
  simpa [hVal, hu', var] using this

theorem getElem?_flatMap_range {γ : Type} {F : Nat → List γ} {N k e : Nat} (hk : k < N)
    (he : e < (F k).length) :
    ((List.range N).flatMap F)[((List.range k).map fun i => (F i).length).sum + e]? = (F k)[e]? := by
  obtain ⟨m, rfl⟩ := Nat.exists_eq_add_of_lt hk
  rw [Nat.add_assoc, List.range_add, List.flatMap_append, ← List.length_flatMap,
    List.getElem?_append_right (by omega), Nat.add_sub_cancel_left, List.range_succ_eq_map,
    List.map_cons, List.flatMap_cons, List.getElem?_append_left (by simpa using he)]
  rfl

/-- Position of element `(k, e)` in the reported lists. -/
theorem elements_get (hL : po.nfeList.length = po.nStages) {k e : Nat} (hk : HasFE po k e) :
    (elements po)[(po.nfeList.take k).sum + e]? = some (k, e) := by
  unfold elements
  have hle : (po.nfeList.take k).sum = ((List.range k).map fun i =>
      ((List.range (nfe po i)).map fun e => (i, e)).length).sum := by
    rw [nfeList_eq hL, ← List.map_take, List.take_range, Nat.min_eq_left hk.1.le]
    simp
  rw [hle, getElem?_flatMap_range (F := fun k => (List.range (nfe po k)).map fun e => (k, e)) hk.1
    (by simpa using hk.2), List.getElem?_map, List.getElem?_range hk.2]
  rfl

/-! ### C10 -/

/-- C10: within the variable bounds, every reported FESD step lies in its box around the nominal
length `T / (N_stages * N_fe(k))`. -/
theorem C10_step_box (h : Setup colloc o um uo po m oc P) (hL : o.nfeAfter.length = o.nStages)
    (hu : o.useFesd = true) (hw : w.length = P.form.w.length) (hb : P.form.InBounds w)
    (hr : getResults po x0 P w = .ok r) {k e n : Nat} (hk : k < o.nStages)
    (hn : o.nfeAfter[k]? = some n) (he : e < n) :
    ∃ t, r.timeSteps[(o.nfeAfter.take k).sum + e]? = some t ∧
      (1 - o.gammaH) * (o.terminalTime / (o.nStages * n)) ≤ t ∧
      t ≤ (1 + o.gammaH) * (o.terminalTime / (o.nStages * n)) := by
  have S := C58_results_meaning h hL hw hr []
  have e' := h.opts
  have e1 : po.nfeList = o.nfeAfter := by rw [e']
  have e2 : po.nStages = o.nStages := by rw [e']
  have e3 : po.terminalTime = o.terminalTime := by rw [e']
  have hnfe : nfe po k = n := by
    unfold nfe; rw [e1, List.getD_eq_getElem?_getD, hn]; rfl
  have hk' : HasFE po k e := ⟨by rw [e2]; exact hk, by rw [hnfe]; exact he⟩
  have hget := elements_get (by rw [e1, e2]; exact hL) hk'
  refine ⟨hVal po k e (P.point w []), ?_, ?_⟩
  · rw [S.steps, List.getElem?_map, ← e1, hget]; rfl
  · have := h.step_box (p := []) hw hb hu hk'
    unfold nominalH at this
    rwa [hnfe, e2, e3, div_div] at this

/-- C10: the reported time grid is nondecreasing for `γ_h ≤ 1`, strictly increasing for `γ_h < 1`
and a positive horizon. -/
theorem C10_grid_monotone (h : Setup colloc o um uo po m oc P)
    (hL : o.nfeAfter.length = o.nStages) (hu : o.useFesd = true)
    (hw : w.length = P.form.w.length) (hb : P.form.InBounds w)
    (hr : getResults po x0 P w = .ok r) (hT : 0 ≤ o.terminalTime) (hg : o.gammaH ≤ 1) :
    r.tGrid.Pairwise (· ≤ ·) ∧
    (0 < o.terminalTime → o.gammaH < 1 → r.tGrid.Pairwise (· < ·)) := by
  have S := C58_results_meaning h hL hw hr []
  have e' := h.opts
  have hpr := h.built.ok.primal
  have hsteps : ∀ t ∈ r.timeSteps, 0 ≤ t ∧ (0 < o.terminalTime → o.gammaH < 1 → 0 < t) := by
    intro t ht
    rw [S.steps] at ht
    obtain ⟨⟨k, e⟩, hq, rfl⟩ := List.mem_map.1 ht
    have hk : HasFE po k e := by
      rw [elements_eq_allFE, mem_allFE] at hq; exact hq
    have hbx := h.step_box (p := []) hw hb hu hk
    have hN : 0 < (po.nStages : ℝ) := by
      exact_mod_cast Nat.pos_of_ne_zero hpr.stages
    have hn : 0 < (nfe po k : ℝ) := by exact_mod_cast (hpr.nfe k hk.1).2
    have e3 : po.terminalTime = o.terminalTime := by rw [e']
    have h0 : 0 ≤ nominalH po k := by unfold nominalH; rw [e3]; positivity
    refine ⟨le_trans (mul_nonneg (by linarith) h0) hbx.1, fun hT' hg' => ?_⟩
    have h1 : 0 < nominalH po k := by unfold nominalH; rw [e3]; positivity
    exact lt_of_lt_of_le (mul_pos (by linarith) h1) hbx.1
  have hgen : ∀ (l : List ℝ) (i j : Nat), i < j → j ≤ l.length →
      (∀ t ∈ l, 0 ≤ t) → (l.take i).sum ≤ (l.take j).sum ∧
      ((∀ t ∈ l, 0 < t) → (l.take i).sum < (l.take j).sum) := by
    intro l i j hij hj hl
    obtain ⟨c, rfl⟩ := Nat.exists_eq_add_of_lt hij
    rw [Nat.add_assoc, List.take_add, List.sum_append]
    have hmem : ∀ t ∈ (l.drop i).take (c + 1), t ∈ l := fun t ht =>
      List.mem_of_mem_drop (List.mem_of_mem_take ht)
    refine ⟨?_, fun hpos => ?_⟩
    · have := List.sum_nonneg (l := (l.drop i).take (c + 1)) fun t ht => hl t (hmem t ht)
      linarith
    · have : 0 < ((l.drop i).take (c + 1)).sum := by
        apply List.sum_pos
        · exact fun t ht => hpos t (hmem t ht)
        · intro hc
          have hlen := congrArg List.length hc
          simp at hlen
          omega
      linarith
  have hlen : r.timeSteps.length = (elements po).length := by rw [S.steps]; simp
  rw [S.grid]
  constructor
  · rw [List.pairwise_map]
    refine List.pairwise_lt_range.imp_of_mem fun hi hj hij => ?_
    exact (hgen _ _ _ hij (by have := List.mem_range.1 hj; omega) fun t ht => (hsteps t ht).1).1
  · intro hT' hg'
    rw [List.pairwise_map]
    refine List.pairwise_lt_range.imp_of_mem fun hi hj hij => ?_
    exact (hgen _ _ _ hij (by have := List.mem_range.1 hj; omega) fun t ht => (hsteps t ht).1).2
      fun t ht => (hsteps t ht).2 hT' hg'

/-! ### C11 -/

theorem SetupEx.spec (h : SetupEx colloc o um uo po m oc P) {env : Env}
    (hf : P.form.Feasible env) : FeasibleSpec po m.dims um (uo.getD UserOcp.trivial) env :=
  master_spec h.toSetup.built h.exact' h.alpha h.sound hf

/-- C11: with FESD and an equidistant control grid, every feasible point reports the control grid
`k T / N_stages`. -/
theorem C11_equidistant_grid (h : SetupEx colloc o um uo po m oc P)
    (hL : o.nfeAfter.length = o.nStages) (hu : o.useFesd = true) (hq : o.equidistant = true)
    {env : Env} (hf : P.form.Feasible env)
    (hr : getResults po x0 P (P.form.w.map env) = .ok r) :
    r.tGridU = (List.range (o.nStages + 1)).map fun k : Nat => (k : ℝ) * o.terminalTime / o.nStages := by
  have S := C58_results_at h.toSetup hL hr
  have F := h.spec hf
  have e' := h.toSetup.opts
  have e2 : po.nStages = o.nStages := by rw [e']
  have e3 : po.terminalTime = o.terminalTime := by rw [e']
  rw [S.gridU, e2]
  apply List.map_congr_left
  intro k hk
  have hk := List.mem_range.1 hk
  unfold stageStart
  rw [Finset.sum_congr rfl fun k' hk' => F.equi (by rw [e']; exact hu) (by rw [e']; exact hq) k'
    (by have := Finset.mem_range.1 hk'; omega)]
  rw [Finset.sum_const, Finset.card_range, nsmul_eq_mul, e2, e3, mul_div_assoc]

/-! ### C12 -/

/-- C12, the part that holds: with FESD, if the control grid is equidistant or there is more than one
control stage, every feasible point reports a grid that ends at the terminal time. -/
theorem C12_total_time_partial (h : SetupEx colloc o um uo po m oc P)
    (hL : o.nfeAfter.length = o.nStages) (hu : o.useFesd = true)
    (hq : o.equidistant = true ∨ 1 < o.nStages)
    {env : Env} (hf : P.form.Feasible env)
    (hr : getResults po x0 P (P.form.w.map env) = .ok r) :
    r.tGrid.getLast? = some o.terminalTime ∧ r.tGridU.getLast? = some o.terminalTime := by
  have S := C58_results_at h.toSetup hL hr
  have F := h.spec hf
  have e' := h.toSetup.opts
  have e2 : po.nStages = o.nStages := by rw [e']
  have e3 : po.terminalTime = o.terminalTime := by rw [e']
  have e1 : po.nfeList = o.nfeAfter := by rw [e']
  have hN : (o.nStages : ℝ) ≠ 0 := by
    have := h.toSetup.built.ok.primal.stages; rw [e2] at this; exact_mod_cast this
  have htot : stageStart po o.nStages env = o.terminalTime := by
    unfold stageStart
    by_cases hq' : o.equidistant = true
    · rw [Finset.sum_congr rfl fun k' hk' => F.equi (by rw [e']; exact hu) (by rw [e']; exact hq')
        k' (by have := Finset.mem_range.1 hk'; omega)]
      rw [Finset.sum_const, Finset.card_range, nsmul_eq_mul, e2, e3]
      field_simp
    · have := F.time (by rw [e2]; exact hq.resolve_left hq') (by rw [e']; exact hu)
        (by rw [e']; simpa using hq')
      rwa [e2, e3] at this
  constructor
  · obtain ⟨_, _, _, _, hg, hl, _, _, hgu, _⟩ := C58_results_aligned h.toSetup hL (by simp) hr
    have h1 := hgu o.nStages le_rfl
    rw [S.gridU, List.getElem?_map, List.getElem?_range (by omega), ← hL, List.take_length] at h1
    rw [List.getLast?_eq_getElem?]
    have h2 : r.tGrid.length - 1 = o.nfeAfter.sum := by
      rw [S.grid]; simp
      rw [length_elements, ← nfeList_eq (by rw [e1, e2]; exact hL), e1]
    rw [h2, ← h1, hL]
    simp [htot]
  · rw [S.gridU, getLast?_range_map _ (Nat.succ_pos _), e2]
    simp [htot]

/-! ### C13 -/

/-- C13: without FESD the reported steps are the constants `T / (N_stages N_fe(k))`, for every
solution vector; the control grid is equidistant and ends at `T`. -/
theorem C13_standard_grid (h : Setup colloc o um uo po m oc P)
    (hL : o.nfeAfter.length = o.nStages) (hu : o.useFesd = false)
    (hw : w.length = P.form.w.length) (hr : getResults po x0 P w = .ok r) :
    r.timeSteps = o.nfeAfter.flatMap
      (fun n => List.replicate n (o.terminalTime / (o.nStages * n))) ∧
    r.timeSteps.sum = o.terminalTime ∧
    r.tGridU = (List.range (o.nStages + 1)).map fun k : Nat => (k : ℝ) * o.terminalTime / o.nStages := by
  have S := C58_results_meaning h hL hw hr []
  have e' := h.opts
  have e2 : po.nStages = o.nStages := by rw [e']
  have e3 : po.terminalTime = o.terminalTime := by rw [e']
  have e1 : po.nfeList = o.nfeAfter := by rw [e']
  have eu : po.useFesd = false := by rw [e']; exact hu
  have hpr := h.built.ok.primal
  have hL' : po.nfeList.length = po.nStages := by rw [e1, e2]; exact hL
  have hN : (o.nStages : ℝ) ≠ 0 := by
    have := hpr.stages; rw [e2] at this; exact_mod_cast this
  have hstage : ∀ k ≤ o.nStages, stageStart po k (P.point w []) = k * o.terminalTime / o.nStages := by
    intro k hk
    unfold stageStart
    have : ∀ k' ∈ Finset.range k, ∑ e ∈ Finset.range (nfe po k'), hVal po k' e (P.point w [])
        = o.terminalTime / o.nStages := by
      intro k' hk'
      have hk' := Finset.mem_range.1 hk'
      have hn : (nfe po k' : ℝ) ≠ 0 := by
        exact_mod_cast (hpr.nfe k' (by omega)).2.ne'
      simp only [hVal, eu, Bool.false_eq_true, if_false, const, nominalH]
      rw [Finset.sum_const, Finset.card_range, nsmul_eq_mul, e2, e3]
      field_simp
    rw [Finset.sum_congr rfl this, Finset.sum_const, Finset.card_range, nsmul_eq_mul, mul_div_assoc]
  refine ⟨?_, ?_, ?_⟩
  · rw [S.steps, ← e1, nfeList_eq hL', elements]
    simp only [List.map_flatMap, List.flatMap_map, List.map_map]
    refine List.flatMap_congr fun k hk => ?_
    have : ((fun q : Nat × Nat => hVal po q.1 q.2 (P.point w [])) ∘ fun e => (k, e))
        = fun _ => o.terminalTime / (o.nStages * (nfe po k : ℝ)) := by
      funext e
      simp [hVal, eu, const, nominalH, e2, e3, div_div]
    rw [this, List.map_const']
    simp
  · have := stageStart_eq (o := po) (k := po.nStages) le_rfl (P.point w [])
    rw [S.steps]
    rw [← nfeList_eq hL', ← hL', List.take_length] at this
    rw [List.take_of_length_le (by
      rw [List.length_map, length_elements, ← nfeList_eq hL'])] at this
    rw [this, hL', e2, hstage _ le_rfl]
    field_simp
  · rw [S.gridU, e2]
    apply List.map_congr_left
    intro k hk
    exact hstage k (by have := List.mem_range.1 hk; omega)

/-! ### C14 -/

/-- C14: with time freezing and an equidistant control grid, the physical clock at the reported state
at the end of control stage `k` is within the tolerance of `t(x0) + (k+1) T / N_stages`. -/
theorem C14_time_freezing (h : SetupEx colloc o um uo po m oc P)
    (hL : o.nfeAfter.length = o.nStages) {env : Env} (hf : P.form.Feasible env)
    (hr : getResults po x0 P (P.form.w.map env) = .ok r)
    {t : List ℝ → ℝ} (ht : um.tVar = some t) (hz : o.timeFreezing = true)
    (hq : o.equidistant = true) {k : Nat} (hk : k < o.nStages) :
    ∃ x, r.xTraj[(o.nfeAfter.take (k + 1)).sum]? = some x ∧
      |t x - (t ((List.range um.nX).map fun i => env (.x0 i))
        + (k + 1) * o.terminalTime / o.nStages)| ≤ o.timeFreezingTol := by
  have S := C58_results_at h.toSetup hL hr
  have F := h.spec hf
  have e' := h.toSetup.opts
  have e2 : po.nStages = o.nStages := by rw [e']
  have e3 : po.terminalTime = o.terminalTime := by rw [e']
  have e1 : po.nfeList = o.nfeAfter := by rw [e']
  have e4 : po.timeFreezingTol = o.timeFreezingTol := by rw [e']
  obtain ⟨d1, _⟩ := h.toSetup.dims
  have hL' : po.nfeList.length = po.nStages := by rw [e1, e2]; exact hL
  have hpos := (h.toSetup.built.ok.primal.nfe k (by rw [e2]; exact hk)).2
  have hk' : HasFE po k (nfe po k - 1) := ⟨by rw [e2]; exact hk, by omega⟩
  have hget := elements_get hL' hk'
  refine ⟨xEndVal po m.dims k (nfe po k - 1) env, ?_, ?_⟩
  · have hpos' : (o.nfeAfter.take (k + 1)).sum = ((o.nfeAfter.take k).sum + (nfe po k - 1)) + 1 := by
      rw [List.take_add_one, List.sum_append]
      have hkl : k < o.nfeAfter.length := by omega
      have : nfe po k = o.nfeAfter[k] := by
        unfold nfe; rw [e1, List.getD_eq_getElem?_getD, List.getElem?_eq_getElem hkl]; rfl
      rw [List.getElem?_eq_getElem hkl]
      simp [this]
      omega
    rw [S.xTraj, hpos', List.getElem?_cons_succ, List.getElem?_map, ← e1, hget]
    rfl
  · have := F.freeze t ht (by rw [e']; exact hz) (by rw [e']; exact hq) k (by rw [e2]; exact hk)
    rw [e2, e3, e4, d1] at this
    convert this using 2
    ring

end

/-! ### C12, violation, and satisfiability of the hypotheses -/

/-- C12 is violated: with one control stage and a non-equidistant control grid nothing fixes the total
time.  With the default step box (`γ_h = 1`) there is a problem for `T = 1` with feasible points
whose grid ends at any time in `[0, 2]`. -/
theorem C12_total_time_violated (T' : ℝ) (h0 : 0 ≤ T') (h2 : T' ≤ 2) :
    ∃ po m oc P env r,
      SetupEx demoColloc { Opts.default with equidistant := false } demoModel (some demoOcp)
        po m oc P ∧
      P.form.Feasible env ∧ getResults po [0] P (P.form.w.map env) = .ok r ∧
      r.tGrid.getLast? = some T' := by
  have hd : DemoOpts { Opts.default with equidistant := false } := by
    constructor <;> simp [Opts.default, Opts.nfeAfter]
  obtain ⟨po, m, oc, P, h1, hf, _, e⟩ := demo_exists_scaled hd
  have h : SetupEx demoColloc { Opts.default with equidistant := false } demoModel (some demoOcp)
      po m oc P := ⟨⟨h1, by simp [Opts.default], fun _ => rfl⟩, rfl, demo_sound _⟩
  have hL : ({ Opts.default with equidistant := false } : Opts).nfeAfter.length = 1 := by
    simp [Opts.nfeAfter, Opts.default]
  obtain ⟨r, hr⟩ := (C61_results_partial (x0 := [0]) h.toSetup hL
    (w := P.form.w.map (demoEnvC T' po)) (by simp)).2.2 (by simp [demoModel])
    (by simp [demoModel, UserModel.nSys])
  refine ⟨po, m, oc, P, demoEnvC T' po, r, h, hf T' ?_ (.inr ⟨rfl, rfl⟩), hr, ?_⟩
  · rw [abs_le]; simp only [Opts.default]; constructor <;> linarith
  · have S := C58_results_at h.toSetup hL hr
    have e1 : po.nfeList = [2] := by rw [e]; simp [Opts.nfeAfter, Opts.default]
    have e2 : po.nStages = 1 := by rw [e]; rfl
    have e3 : po.terminalTime = 1 := by rw [e]; rfl
    have e4 : po.useFesd = true := by rw [e]; rfl
    have hel : elements po = [(0, 0), (0, 1)] := by
      simp [elements, e2, nfe, e1, List.range_succ]
    rw [S.grid, getLast?_range_map _ (Nat.succ_pos _), S.steps, hel]
    simp only [demo_hVal po e4, nominalH, e2, e3, nfe, e1]
    simp
    ring

/-- Hypotheses of C10, C11, C12 (several control stages with different numbers of elements, FESD,
equidistant control grid, a feasible point with results). -/
example : ∃ po m oc P env r, SetupEx demoColloc gaussOpts demoModel (some demoOcp) po m oc P ∧
    P.form.Feasible env ∧ getResults po [0] P (P.form.w.map env) = .ok r ∧
    gaussOpts.useFesd = true ∧ gaussOpts.equidistant = true ∧ gaussOpts.nfeAfter = [2, 3] := by
  obtain ⟨po, m, oc, P, h, hf, _⟩ := demo_setup demo_gauss
  obtain ⟨r, hr⟩ := (C61_results_partial (x0 := [0]) h.toSetup
    (by simp [gaussOpts, Opts.default, Opts.nfeAfter]) (w := P.form.w.map (demoEnv po))
    (by simp)).2.2 (by simp [demoModel]) (fun hc => by simp [gaussOpts] at hc)
  exact ⟨po, m, oc, P, _, r, h, hf, hr, rfl, rfl, rfl⟩

/-- Options of the time freezing and the fixed-grid example. -/
noncomputable def frozenOpts : Opts :=
  { gaussOpts with timeFreezing := true, timeFreezingTol := 2, useFesd := false }

/-- Hypotheses of C13 and C14. -/
example : ∃ po m oc P env r, SetupEx demoColloc frozenOpts demoModel (some demoOcp) po m oc P ∧
    P.form.Feasible env ∧ getResults po [0] P (P.form.w.map env) = .ok r ∧
    frozenOpts.useFesd = false ∧ frozenOpts.timeFreezing = true ∧ frozenOpts.equidistant = true ∧
    frozenOpts.nfeAfter = [2, 3] := by
  have hd : DemoOpts frozenOpts := by
    constructor <;> simp [frozenOpts, gaussOpts, Opts.default, Opts.nfeAfter]
  obtain ⟨po, m, oc, P, h, hf, _⟩ := demo_setup hd
  obtain ⟨r, hr⟩ := (C61_results_partial (x0 := [0]) h.toSetup
    (by simp [frozenOpts, gaussOpts, Opts.default, Opts.nfeAfter])
    (w := P.form.w.map (demoEnv po))
    (by simp)).2.2 (by simp [demoModel]) (fun hc => by simp [frozenOpts, gaussOpts] at hc)
  exact ⟨po, m, oc, P, _, r, h, hf, hr, rfl, rfl, rfl, rfl⟩

end Nosnoc
