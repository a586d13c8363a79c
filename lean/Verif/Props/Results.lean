import Verif.Proofs.Results
import Verif.Props.Layout
/-
C58 - C61: the result dictionary.
-/
namespace Nosnoc
section
variable {colloc : IrkScheme → Nat → List ℝ} {o : Opts} {um : UserModel} {uo : Option UserOcp}
  {po : PreOpts} {m : PreModel} {oc : PreOcp} {P : Problem} {w p x0 : List ℝ} {r : Results}

theorem lookup_zip_append {s : Sym} {ws ps : List Sym} {w p : List ℝ} (hl : w.length = ws.length)
    (hd : ws.Nodup) {i : Nat} (hi : i < ws.length) (hs : ws[i]? = some s) :
    ((ws ++ ps).zip (w ++ p)).lookup s = w[i]? := by
  induction ws generalizing w i with
  | nil => simp at hi
  | cons a t ih =>
    cases w with
    | nil => simp at hl
    | cons v w =>
      simp only [List.cons_append, List.zip_cons_cons, List.lookup_cons]
      cases i with
      | zero =>
        simp at hs
        subst hs
        simp
      | succ i =>
        have hs' : t[i]? = some s := by simpa using hs
        have hne : s ≠ a := by
          rintro rfl
          exact (List.nodup_cons.1 hd).1 (List.mem_of_getElem? hs')
        rw [beq_false_of_ne hne]
        simp only [List.getElem?_cons_succ]
        exact ih (by simpa using hl) (List.nodup_cons.1 hd).2 (by simpa using hi) hs'

/-- The assignment `P.point w p` gives the `i`-th variable the value `w[i]`. -/
theorem Setup.point_w (h : Setup colloc o um uo po m oc P) (hw : w.length = P.form.w.length) :
    P.form.w.map (P.point w p) = w := by
  apply List.ext_getElem?
  intro i
  rw [List.getElem?_map]
  by_cases hi : i < P.form.w.length
  · have hs := List.getElem?_eq_getElem hi
    rw [hs]
    show some (P.point w p P.form.w[i]) = _
    unfold Problem.point
    rw [lookup_zip_append hw (C01_index_lists_partition h).2 hi hs,
      List.getElem?_eq_getElem (by omega)]
    rfl
  · rw [List.getElem?_eq_none (by omega), List.getElem?_eq_none (by omega)]
    rfl

/-! ### C61 -/

open Classical in
/-- C61, exact outcome of the extraction for every solution vector of the right length (`Nfe_list`
having one entry per control stage): it fails iff the model has no states, or the Stewart
representation is used with subsystems that have different numbers of regions. -/
theorem C61_results_partial (h : Setup colloc o um uo po m oc P)
    (hL : o.nfeAfter.length = o.nStages) (hw : w.length = P.form.w.length) :
    (um.nX = 0 → getResults po x0 P w = .error .indexError) ∧
    (0 < um.nX → o.pss = .stewart →
      (∃ s < um.nSys, ∃ s' < um.nSys, (um.Fmat s).nCols ≠ (um.Fmat s').nCols) →
      getResults po x0 P w = .error .valueError) ∧
    (0 < um.nX → (o.pss = .stewart → ∀ s < um.nSys, ∀ s' < um.nSys,
        (um.Fmat s).nCols = (um.Fmat s').nCols) →
      ∃ r, getResults po x0 P w = .ok r) := by
  have hb := h.built
  have e := h.opts
  obtain ⟨d1, _, _, _, _, _, d7, d8, _⟩ := h.dims
  have hpss : po.pss = o.pss := by rw [e]
  have key := getResults_eq (C02_index_lists_name h) hb.nS hb.ok.primal.stages
    (fun k hk => (hb.ok.primal.nfe k hk).2) hb.ok.primal.sot
    (by rw [e]; exact hL) x0 (P.point w [])
  rw [h.point_w hw, d1] at key
  have hU : o.pss = .stewart → (Uniform m.dims ↔ ∀ s < um.nSys, ∀ s' < um.nSys,
      (um.Fmat s).nCols = (um.Fmat s').nCols) := by
    intro hst
    unfold Uniform
    rw [d7]
    have hst' : po.pss = .stewart := by rw [hpss]; exact hst
    constructor
    · intro H s hs s' hs'
      rw [← d8 hst' s hs, ← d8 hst' s' hs']; exact H s hs s' hs'
    · intro H s hs s' hs'
      rw [d8 hst' s hs, d8 hst' s' hs']; exact H s hs s' hs'
  refine ⟨fun hx => ?_, fun hx hst ⟨s, hs, s', hs', hne⟩ => ?_, fun hx hu => ?_⟩
  · rw [key, if_pos hx]
  · rw [key, if_neg (by omega), if_pos]
    refine ⟨by rw [hpss]; exact hst, fun H => hne ?_⟩
    exact (hU hst).1 H s hs s' hs'
  · rw [key, if_neg (by omega), if_neg]
    · exact ⟨_, rfl⟩
    · rintro ⟨hst, hn⟩
      rw [hpss] at hst
      exact hn ((hU hst).2 (hu hst))

/-- C61 is violated: with the Stewart representation and two subsystems with different numbers of
regions (a supported model, the problem is built), no solution vector has results. -/
theorem C61_ragged_systems_violated (h : Setup colloc o um uo po m oc P)
    (hL : o.nfeAfter.length = o.nStages) (hw : w.length = P.form.w.length) (hx : 0 < um.nX)
    (hst : o.pss = .stewart) {s s' : Nat} (hs : s < um.nSys) (hs' : s' < um.nSys)
    (hne : (um.Fmat s).nCols ≠ (um.Fmat s').nCols) :
    getResults po x0 P w = .error .valueError :=
  (C61_results_partial h hL hw).2.1 hx hst ⟨s, hs, s', hs', hne⟩

/-- C61 is violated: with FESD, a `Nfe_list` that has more entries than there are control stages
(accepted when the problem is built) makes the extraction fail. -/
theorem C61_long_nfe_list_violated (h : Setup colloc o um uo po m oc P) (hu : o.useFesd = true)
    (hL : ((List.range o.nStages).map fun k => nfe po k).sum < o.nfeAfter.sum)
    (hw : w.length = P.form.w.length) : ∃ e, getResults po x0 P w = .error e := by
  cases hr : getResults po x0 P w with
  | error e => exact ⟨e, rfl⟩
  | ok r =>
    exfalso
    have e := h.opts
    unfold getResults at hr
    simp only [bind_eq_ok] at hr
    obtain ⟨_, _, _, _, _, _, _, _, _, _, _, _, _, _, _, _, _, _, _, _, _, _, _, _, _, _, _, _, _, _,
      _, _, _, _, _, _, _, _, _, _, ts, hts, tu, htu, _⟩ := hr
    unfold timeStepsOf at hts
    rw [if_pos (by rw [e]; exact hu)] at hts
    have hE := forall₂_flatten (C02_index_lists_name h).fe
    have hlen : (P.idx.flatten.flatMap FEIdx.h).length = (elements po).length := by
      rw [List.length_flatMap]
      have : P.idx.flatten.map (fun a => a.h.length) = (elements po).map fun _ => 1 := by
        have h' : List.Forall₂ (fun fi (_ : Nat × Nat) => fi.h.length = 1) P.idx.flatten
            (elements po) := hE.imp fun fi q hq => by
          have := hq.h.length_eq
          rwa [if_pos (by rw [e]; exact hu)] at this
        generalize P.idx.flatten = l' at h' ⊢
        generalize elements po = l at h' ⊢
        induction h' with
        | nil => rfl
        | cons h1 h2 ih => rw [List.map_cons, List.map_cons, h1, ih]
      rw [this]
      simp
    have hts' : ts.length = (elements po).length := by
      rw [← hlen]
      exact (mapM_eq_ok.1 hts).length_eq.symm
    rw [zero_cumsum, zero_cumsum] at htu
    have hm : po.nfeList.sum ∈ (List.range (po.nfeList.length + 1)).map
        fun n => (po.nfeList.take n).sum :=
      List.mem_map.2 ⟨po.nfeList.length, by simp, by simp⟩
    obtain ⟨b, _, hb⟩ := forall₂_left_mem (mapM_eq_ok.1 htu) hm
    have hlt : po.nfeList.sum < ts.length + 1 := by
      by_contra hc
      rw [List.getElem?_eq_none (by simp; omega)] at hb
      cases hb
    rw [hts', length_elements] at hlt
    have e1 : po.nfeList = o.nfeAfter := by rw [e]
    have e2 : po.nStages = o.nStages := by rw [e]
    rw [e1, e2] at hlt
    exact absurd hL (by change ¬ (_ : Nat) < _; exact Nat.not_lt.2 (Nat.lt_succ_iff.1 hlt))

/-! ### C58 -/

/-- C58: the meaning of every entry of the result dictionary (`ResultsSpec`), for every solution
vector. -/
theorem C58_results_meaning (h : Setup colloc o um uo po m oc P)
    (hL : o.nfeAfter.length = o.nStages) (hw : w.length = P.form.w.length)
    (hr : getResults po x0 P w = .ok r) (p : List ℝ) :
    ResultsSpec po m.dims x0 (P.point w p) r := by
  classical
  have hb := h.built
  have e := h.opts
  have key := getResults_eq (C02_index_lists_name h) hb.nS hb.ok.primal.stages
    (fun k hk => (hb.ok.primal.nfe k hk).2) hb.ok.primal.sot
    (by rw [e]; exact hL) x0 (P.point w p)
  rw [h.point_w hw, hr] at key
  split at key
  · cases key
  · split at key
    · cases key
    · cases key
      exact resultsOf_spec _ _

/-- C58, for a solution vector given by an assignment of values to symbols. -/
theorem C58_results_at (h : Setup colloc o um uo po m oc P) (hL : o.nfeAfter.length = o.nStages)
    {env : Env} (hr : getResults po x0 P (P.form.w.map env) = .ok r) :
    ResultsSpec po m.dims x0 env r := by
  classical
  have hb := h.built
  have e := h.opts
  have key := getResults_eq (C02_index_lists_name h) hb.nS hb.ok.primal.stages
    (fun k hk => (hb.ok.primal.nfe k hk).2) hb.ok.primal.sot
    (by rw [e]; exact hL) x0 env
  rw [hr] at key
  split at key
  · cases key
  · split at key
    · cases key
    · cases key
      exact resultsOf_spec _ _

/-- C58: lengths and alignment of the reported lists. -/
theorem C58_results_aligned (h : Setup colloc o um uo po m oc P)
    (hL : o.nfeAfter.length = o.nStages) (hw : w.length = P.form.w.length)
    (hr : getResults po x0 P w = .ok r) :
    r.xTraj.length = o.nfeAfter.sum + 1 ∧ r.tGrid.length = o.nfeAfter.sum + 1 ∧
    r.xTraj[0]? = some x0 ∧ r.xTraj.getLast? = some r.xOut ∧
    (∀ n ≤ o.nfeAfter.sum, r.tGrid[n]? = some (r.timeSteps.take n).sum) ∧
    r.timeSteps.length = o.nfeAfter.sum ∧
    r.uList.length = o.nStages ∧ r.tGridU.length = o.nStages + 1 ∧
    (∀ k ≤ o.nStages, r.tGridU[k]? = r.tGrid[(o.nfeAfter.take k).sum]?) ∧
    r.thetaList.length = o.nfeAfter.sum ∧ r.lambdaList.length = o.nfeAfter.sum ∧
    r.alphaList.length = o.nfeAfter.sum ∧ r.zList.length = o.nfeAfter.sum := by
  have S := C58_results_meaning h hL hw hr []
  have e := h.opts
  have e2 : po.nStages = o.nStages := by rw [e]
  have e1 : po.nfeList = o.nfeAfter := by rw [e]
  have hL' : po.nfeList.length = po.nStages := by rw [e1, e2]; exact hL
  have hlen : (elements po).length = o.nfeAfter.sum := by
    rw [length_elements, ← nfeList_eq hL', e1]
  have hgrid : ∀ n ≤ o.nfeAfter.sum, r.tGrid[n]? = some (r.timeSteps.take n).sum := by
    intro n hn
    rw [S.grid, List.getElem?_map, List.getElem?_range (by omega)]
    rfl
  refine ⟨by rw [S.xTraj]; simp [hlen], by rw [S.grid]; simp [hlen], by rw [S.xTraj]; rfl, ?_, hgrid,
    by rw [S.steps]; simp [hlen], by rw [S.uList]; simp [e2], by rw [S.gridU]; simp [e2], ?_,
    by rw [S.theta]; simp [hlen], by rw [S.lam]; simp [hlen], by rw [S.alpha]; simp [hlen],
    by rw [S.z]; simp [hlen]⟩
  · rw [S.xTraj, S.xOut]
    have hN := h.built.ok.primal.stages
    have hne := (h.built.ok.primal.nfe (po.nStages - 1) (by omega)).2
    have : (elements po).getLast? = some (po.nStages - 1, nfe po (po.nStages - 1) - 1) := by
      unfold elements
      obtain ⟨N, hN'⟩ := Nat.exists_eq_succ_of_ne_zero hN
      rw [hN', List.range_succ, List.flatMap_append]
      simp only [List.flatMap_cons, List.flatMap_nil, List.append_nil, Nat.succ_eq_add_one,
        Nat.add_sub_cancel]
      rw [hN', Nat.succ_eq_add_one, Nat.add_sub_cancel] at hne
      rw [List.getLast?_append, getLast?_range_map _ hne]
      rfl
    rw [List.getLast?_cons, List.getLast?_map, this]
    rfl
  · intro k hk
    have hb : (o.nfeAfter.take k).sum ≤ o.nfeAfter.sum := by
      conv_rhs => rw [← List.take_append_drop k o.nfeAfter, List.sum_append]
      omega
    rw [hgrid _ hb, S.gridU, List.getElem?_map, List.getElem?_range (by rw [e2]; omega)]
    rw [S.steps, ← e1, nfeList_eq hL']
    rw [stageStart_eq (by rw [e2]; exact hk)]
    rfl

/-! ### C59 -/

/-- The multipliers that tell the mode of every element, as reported. -/
def Results.modes (r : Results) (pss : PssMode) : List (List ℝ) :=
  if pss = .step then r.alphaList else r.thetaList.map List.flatten

/-- C59: the reported switches belong exactly to the boundaries `n | n + 1` at which some multiplier
changes by more than 0.1, in temporal order, one entry each. -/
theorem C59_switches_exact (h : Setup colloc o um uo po m oc P)
    (hL : o.nfeAfter.length = o.nStages) (hw : w.length = P.form.w.length)
    (hr : getResults po x0 P w = .ok r) :
    ∃ S : List Nat, S.Pairwise (· < ·) ∧ r.switchTimes = S.map (fun n => r.timeSteps.getD n 0) ∧
      ∀ n, n ∈ S ↔ ∃ a b, (r.modes o.pss)[n]? = some a ∧ (r.modes o.pss)[n + 1]? = some b ∧
        ∃ (i : Nat) (x y : ℝ), a[i]? = some x ∧ b[i]? = some y ∧ 1 / 10 < |y - x| := by
  classical
  have S := C58_results_meaning h hL hw hr []
  have e := h.opts
  have hpss : po.pss = o.pss := by rw [e]
  have hmodes : r.modes o.pss
      = (elements po).map fun q => modeVec po m.dims q.1 q.2 (P.point w []) := by
    unfold Results.modes modeVec
    rw [← hpss]
    by_cases hst : po.pss = .step
    · rw [if_pos hst, if_pos hst, S.alpha]
    · have hst' : po.pss = .stewart := by
        revert hst; cases po.pss <;> simp
      rw [if_neg hst, if_neg hst, S.theta, List.map_map]
      apply List.map_congr_left
      intro q _
      simp only [Function.comp_apply, rowSyms, List.flatMap_def, List.map_flatten, List.map_map,
        hst', if_true, blk, Dims.famLen]
      simp only [Function.comp_def, List.map_map]
  refine ⟨switches po m.dims (P.point w []), ?_, S.switch, fun n => ?_⟩
  · exact List.Pairwise.filter _ List.pairwise_lt_range
  · rw [hmodes]
    unfold switches ModeChange
    simp only [List.mem_filter, List.mem_range, decide_eq_true_eq, List.getElem?_map,
      Option.map_eq_some_iff]
    constructor
    · rintro ⟨_, q, q', h1, h2, i, x, y, hx, hy, hlt⟩
      exact ⟨_, _, ⟨q, h1, rfl⟩, ⟨q', h2, rfl⟩, i, y, x, hy, hx, hlt⟩
    · rintro ⟨a, b, ⟨q, h1, rfl⟩, ⟨q', h2, rfl⟩, i, x, y, hx, hy, hlt⟩
      refine ⟨?_, q, q', h1, h2, i, y, x, hy, hx, hlt⟩
      obtain ⟨h3, _⟩ := List.getElem?_eq_some_iff.1 h2
      omega

/-! ### C60 -/

/-- C60, what the code reports: for the switch at boundary `n` the length `t_grid[n+1] - t_grid[n]`
of the element before the switch.  This is the time of the boundary only for the first element. -/
theorem C60_switch_times_partial (h : Setup colloc o um uo po m oc P)
    (hL : o.nfeAfter.length = o.nStages) (hw : w.length = P.form.w.length)
    (hr : getResults po x0 P w = .ok r) :
    ∃ S : List Nat, r.switchTimes = S.map (fun n => r.tGrid.getD (n + 1) 0 - r.tGrid.getD n 0) ∧
      (∀ n ∈ S, n + 1 < r.tGrid.length) ∧ r.tGrid.getD 0 0 = 0 := by
  classical
  have S := C58_results_meaning h hL hw hr []
  have hn : ∀ n ≤ (elements po).length, r.tGrid.getD n 0 = (r.timeSteps.take n).sum := by
    intro n hn
    rw [S.grid, List.getD_eq_getElem?_getD, List.getElem?_map, List.getElem?_range (by omega)]
    rfl
  refine ⟨switches po m.dims (P.point w []), ?_, fun n hn' => ?_, ?_⟩
  · rw [S.switch]
    apply List.map_congr_left
    intro n hm
    have hlt := List.mem_range.1 (List.mem_filter.1 hm).1
    have hl : n < r.timeSteps.length := by rw [S.steps, List.length_map]; omega
    rw [hn _ (by omega), hn _ (by omega), List.take_add_one, List.getElem?_eq_getElem hl,
      List.sum_append, List.getD_eq_getElem?_getD, List.getElem?_eq_getElem hl]
    simp
  · have hlt := List.mem_range.1 (List.mem_filter.1 hn').1
    rw [S.grid]
    simp
    omega
  · rw [hn 0 (Nat.zero_le _)]; simp

/-- C60 is violated: whenever all steps are positive, every reported switch time other than one at
the end of the first element is strictly smaller than the time of its boundary. -/
theorem C60_switch_times_violated (h : Setup colloc o um uo po m oc P)
    (hL : o.nfeAfter.length = o.nStages) (hw : w.length = P.form.w.length)
    (hr : getResults po x0 P w = .ok r) (hpos : ∀ t ∈ r.timeSteps, 0 < t) :
    ∃ S : List Nat,
      (∀ n, n ∈ S ↔ ∃ a b, (r.modes o.pss)[n]? = some a ∧ (r.modes o.pss)[n + 1]? = some b ∧
        ∃ (i : Nat) (x y : ℝ), a[i]? = some x ∧ b[i]? = some y ∧ 1 / 10 < |y - x|) ∧
      List.Forall₂ (fun t n => 0 < n → t < r.tGrid.getD (n + 1) 0) r.switchTimes S := by
  obtain ⟨S, hs, hsw, hS⟩ := C59_switches_exact h hL hw hr
  refine ⟨S, hS, ?_⟩
  have R := C58_results_meaning h hL hw hr []
  rw [hsw, List.forall₂_map_left_iff, List.forall₂_same]
  intro n hn hn0
  obtain ⟨a, b, h1, h2, _⟩ := (hS n).1 hn
  obtain ⟨h3, _⟩ := List.getElem?_eq_some_iff.1 h2
  have hlen : (r.modes o.pss).length = (elements po).length := by
    unfold Results.modes
    split
    · rw [R.alpha]; simp
    · rw [R.theta]; simp
  have hl : n < r.timeSteps.length := by rw [R.steps, List.length_map]; omega
  have hg : r.tGrid.getD (n + 1) 0 = (r.timeSteps.take (n + 1)).sum := by
    rw [R.grid, List.getD_eq_getElem?_getD, List.getElem?_map, List.getElem?_range (by omega)]
    rfl
  rw [hg, List.take_add_one, List.getElem?_eq_getElem hl, List.sum_append,
    List.getD_eq_getElem?_getD, List.getElem?_eq_getElem hl]
  have hpos' : 0 < (r.timeSteps.take n).sum := by
    apply List.sum_pos
    · intro t ht; exact hpos t (List.mem_of_mem_take ht)
    · intro hc
      have := List.length_take (l := r.timeSteps) (i := n)
      rw [hc] at this
      simp at this
      omega
  simpa using hpos'

end

/-! ### The hypotheses are satisfiable -/

/-- C58 - C60 apply to the demo problem: its solution vectors have results. -/
example : ∃ po m oc P, SetupEx demoColloc gaussOpts demoModel (some demoOcp) po m oc P ∧
    ∀ w : List ℝ, w.length = P.form.w.length → ∃ r, getResults po [0] P w = .ok r := by
  obtain ⟨po, m, oc, P, h, _⟩ := demo_setup demo_gauss
  refine ⟨po, m, oc, P, h, fun w hw => ?_⟩
  refine (C61_results_partial h.toSetup (by simp [gaussOpts, Opts.default, Opts.nfeAfter]) hw).2.2
    (by simp [demoModel]) ?_
  intro hc
  simp [gaussOpts] at hc

/-- Two subsystems, with two and three regions. -/
def raggedModel : UserModel :=
  { demoModel with
    F := some [⟨2, fun _ _ _ _ _ _ _ => 1⟩, ⟨3, fun _ _ _ _ _ _ _ => 1⟩]
    c := some [⟨1, fun _ x _ _ => x.getD 0 0⟩, ⟨2, fun _ x _ _ => x.getD 0 0⟩]
    S := some [⟨2, 1, fun i _ => if i = 0 then 1 else -1⟩, ⟨3, 2, fun _ _ => 1⟩] }

/-- C61 (violation): a problem with two and three regions is built, but no solution vector has
results. -/
example : ∃ po m oc P, Setup demoColloc Opts.default raggedModel none po m oc P ∧
    ∀ w : List ℝ, w.length = P.form.w.length → getResults po [0] P w = .error .valueError := by
  obtain ⟨po, hpo⟩ := demo_preOpts demo_default
  have e := (preprocess_opts hpo).toOpts
  have hm : ∃ m, raggedModel.preprocess po = .ok m := by
    unfold UserModel.preprocess
    have hp : po.pss = .stewart := by rw [e]; rfl
    have h1 : raggedModel.nCsys = .ok [1, 2] := rfl
    have h2 : raggedModel.nFsys po.pss = .ok [2, 3] := by
      simp [UserModel.nFsys, raggedModel, demoModel, check, UserModel.gStewartTruthy]
    have h3 : ∃ pv, raggedModel.pValCtrl po.nStages = .ok pv := by
      simp [UserModel.pValCtrl, raggedModel, demoModel, check, UserModel.ptv]
    obtain ⟨pv, h3⟩ := h3
    have h4 : check (raggedModel.tVar.isSome ∨ po.timeFreezing = false) .valueError = .ok () := by
      simp [check, raggedModel, demoModel]
    rw [h1, h2, h3, h4, hp]
    exact ⟨_, rfl⟩
  obtain ⟨m, hm⟩ := hm
  obtain ⟨oc, hoc⟩ : ∃ oc, (Option.getD none UserOcp.trivial).preprocess m = .ok oc := ⟨_, rfl⟩
  obtain ⟨P, hP⟩ := (C06_construct_iff (uo := none) rfl hpo hm hoc (by simp [Opts.default])
    (fun _ => rfl) rfl).2 ⟨by simp [Opts.default], rfl, by simp [Opts.default],
      by simp [Opts.default, Opts.nfeAfter], by simp [Opts.default]⟩
  have h : Setup demoColloc Opts.default raggedModel none po m oc P :=
    ⟨hP, by simp [Opts.default], fun _ => rfl⟩
  refine ⟨po, m, oc, P, h, fun w hw => ?_⟩
  exact C61_ragged_systems_violated h (by simp [Opts.default, Opts.nfeAfter]) hw
    (by simp [raggedModel, demoModel]) rfl (s := 0) (s' := 1)
    (by simp [raggedModel, UserModel.nSys]) (by simp [raggedModel, UserModel.nSys])
    (by simp [raggedModel, UserModel.Fmat])

/-- C61 (violation): `Nfe_list = [2, 5]` with one control stage. -/
example : ∃ po m oc P,
    Setup demoColloc { Opts.default with nfeList := [2, 5] } demoModel (some demoOcp) po m oc P ∧
    ∀ w : List ℝ, w.length = P.form.w.length → ∃ e, getResults po [0] P w = .error e := by
  obtain ⟨po, m, oc, P, h, _, _, e⟩ := demo_setup (o := { Opts.default with nfeList := [2, 5] })
    (by constructor <;> simp [Opts.default, Opts.nfeAfter])
  refine ⟨po, m, oc, P, h.toSetup, fun w hw => C61_long_nfe_list_violated h.toSetup rfl ?_ hw⟩
  have e1 : po.nfeList = [2, 5] := by rw [e]; simp [Opts.nfeAfter]
  simp [nfe, e1, Opts.nfeAfter, Opts.default]

/-- C60 (violation): a solution vector with three steps of length 1 and switches after the first and
second element; reported are `1, 1` instead of the times `1, 2`. -/
example : ∃ po m oc P, ∃ (w : List ℝ) (r : Results),
    Setup demoColloc { Opts.default with nfeList := [3] } demoModel (some demoOcp) po m oc P ∧
    w.length = P.form.w.length ∧ getResults po [0] P w = .ok r ∧
    (∀ t ∈ r.timeSteps, 0 < t) ∧ r.switchTimes = [1, 1] ∧ r.tGrid = [0, 1, 2, 3] := by
  classical
  obtain ⟨po, m, oc, P, h, _, hd, e⟩ := demo_setup (o := { Opts.default with nfeList := [3] })
    (by constructor <;> simp [Opts.default, Opts.nfeAfter])
  have hS := h.toSetup
  have hL : ({ Opts.default with nfeList := [3] } : Opts).nfeAfter.length = 1 := by
    simp [Opts.nfeAfter]
  let env : Env := fun s => match s with
    | .h _ _ => 1
    | .st2 .theta _ e _ _ _ => if e = 1 then 1 else 0
    | _ => 0
  have hw : (P.form.w.map env).length = P.form.w.length := List.length_map _
  obtain ⟨r, hr⟩ := (C61_results_partial (x0 := [0]) hS hL hw).2.2 (by simp [demoModel])
    (by simp [demoModel, UserModel.nSys])
  have hb := hS.built
  have key := getResults_eq (C02_index_lists_name hS) hb.nS hb.ok.primal.stages
    (fun k hk => (hb.ok.primal.nfe k hk).2) hb.ok.primal.sot (by rw [e]; exact hL) [0] env
  rw [hr] at key
  split at key
  · cases key
  split at key
  · cases key
  cases key
  have e1 : po.nfeList = [3] := by rw [e]; simp [Opts.nfeAfter]
  have e2 : po.nStages = 1 := by rw [e]; rfl
  have e3 : po.useFesd = true := by rw [e]; rfl
  have e4 : po.pss = .stewart := by rw [e]; rfl
  have hel : elements po = [(0, 0), (0, 1), (0, 2)] := by
    simp [elements, e2, nfe, e1, List.range_succ]
  have hmode : ∀ k i, modeVec po m.dims k i env = if i = 1 then [1, 1] else [0, 0] := by
    intro k i
    simp only [modeVec, e4, rowSyms, hd, dimsOf, Dims.famLen, demoModel, UserModel.nSys]
    simp [env, blk, List.range_succ]
    split <;> rfl
  have hsw : switches po m.dims env = [0, 1] := by
    unfold switches
    rw [hel]
    have h1 : ModeChange [1, 1] [0, 0] := ⟨0, 1, 0, rfl, rfl, by norm_num⟩
    have h2 : ModeChange [0, 0] [1, 1] := ⟨0, 0, 1, rfl, rfl, by norm_num⟩
    simp [List.range_succ, List.filter_cons, hmode, h1, h2]
  have hts : ((elements po).map fun q => hVal po q.1 q.2 env) = [1, 1, 1] := by
    rw [hel]; simp [hVal, e3, var, env]
  refine ⟨po, m, oc, P, P.form.w.map env, _, hS, hw, hr, ?_, ?_, ?_⟩
  · simp only [resultsOf, hts]; simp
  · simp only [resultsOf, hts, hsw]; simp
  · simp only [resultsOf, hts]
    rw [hel]
    simp [List.range_succ]
    norm_num

end Nosnoc
