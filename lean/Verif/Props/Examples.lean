import Verif.Spec.Examples
import Verif.Proofs.Examples
import Verif.Props.SimConverge
/-
C117: the shipped simplest examples return their analytic solutions.
-/
namespace Nosnoc

section
variable {colloc : IrkScheme → Nat → List ℝ} {o : Opts} {um : UserModel} {uo : Option UserOcp}
  {po : PreOpts} {m : PreModel} {oc : PreOcp} {P : Problem} {orc : Oracle} {S : Solver} {x0 : List ℝ} {N : Nat}
  {pv : Option Arr} {R : SimResults}

/-- Every step of a simulation takes exactly the terminal time. -/
theorem SimRun.total (hr : SimRun colloc o um uo po m oc P orc S x0 N pv R)
    (hu : o.useFesd = true) (hq : o.equidistant = true) {i : Nat} (hi : i ≤ N) :
    R.tGrid[i * o.nfeAfter.sum]? = some (i * o.terminalTime) := by
  obtain ⟨⟨-, hN1, hnE0⟩, ⟨-, -, hlenT, hgrid⟩, before, result, hsteps⟩ := hr.steps
  have h' := hr.setup.toSetup
  set nE := o.nfeAfter.sum with hnE
  rw [hgrid, List.getElem?_map, List.getElem?_range (by
    have := Nat.mul_le_mul_right nE hi; omega)]
  simp only [Option.map_some, Option.some.injEq]
  induction i with
  | zero => simp
  | succ i ih =>
    obtain ⟨a1, a2, a3, -, a5⟩ := hsteps i (by omega)
    obtain ⟨hrd, -⟩ := ready_of_ok h' (a1.inv h') a2
    obtain ⟨env, sigma, tau, f1, -, hR, f4, -⟩ := C87_success_is_feasible hr.setup a1 hr.lists hr.exact a2 a3
    have a5 := a5 env hR (x0_of_params h' hrd.x0 f4)
    have key : ∀ e ≤ nE, (R.timeSteps.take (i * nE + e)).sum
        = i * o.terminalTime + ∑ e' ∈ Finset.range e, hVal po 0 e' env := by
      intro e
      induction e with
      | zero => intro _; rw [Nat.add_zero, ih (by omega)]; simp
      | succ e ihe =>
        intro he
        obtain ⟨-, -, -, b4⟩ := a5 e (by omega)
        rw [← Nat.add_assoc, List.take_add_one, b4, List.sum_append, ihe (by omega), Finset.sum_range_succ]
        simp only [Option.toList_some, List.sum_singleton]
        ring
    have e1 : po.nStages = 1 := h'.e_nStages.trans hN1
    have heq := f1.equi (by rw [h'.e_useFesd]; exact hu) (by rw [h'.e_equidistant]; exact hq) 0 (by omega)
    have hnf : nfe po 0 = nE := by
      unfold nfe
      rw [h'.e_nfeList]
      have hl := hr.lists
      rw [hN1] at hl
      obtain ⟨a, ha⟩ := List.length_eq_one_iff.1 hl
      rw [hnE, ha]; simp
    rw [hnf, e1, h'.e_terminalTime] at heq
    have := key nE le_rfl
    rw [heq] at this
    rw [Nat.succ_mul, this]
    push_cast
    ring

end

section
variable {colloc : IrkScheme → Nat → List ℝ} {orc : Oracle} {o : Opts} {a b xm x0 T : ℝ} {N : Nat}
  {R : SimResults}

theorem simplest_sys {s : Nat} (h : s < (simplestModel a b xm).nSys) : s = 0 := by
  simpa [simplestModel, UserModel.nSys] using h

theorem simplest_pc : (simplestModel a b xm).PiecewiseConstant where
  noZ := rfl
  F := by
    intro s hs row i x x' u p v
    obtain rfl := simplest_sys hs
    rfl
  c := by
    intro s hs n hn p
    obtain rfl := simplest_sys hs
    exact ⟨fun _ => 1, 0, fun x => by simp [simplestModel, UserModel.cVec]⟩

theorem simplest_partition : ((simplestModel a b xm).Smat 0).Partition := by
  intro σ
  have hS : (simplestModel a b xm).Smat 0 = ⟨2, 1, fun i _ => if i = 0 then -1 else 1⟩ := rfl
  rw [hS]
  cases h : σ 0
  · refine ⟨⟨0, by simp⟩, fun k hk _ => ?_, fun i hi => ?_⟩
    · obtain rfl : k = 0 := by simpa using hk
      simp [h]
    · have := hi 0 (by simp) (by simp; split <;> norm_num)
      rw [h] at this
      apply Fin.ext
      have hi2 : i.1 < 2 := i.2
      by_contra hne
      have h0 : i.1 = 1 := by simp only at hne; omega
      rw [h0] at this
      norm_num at this
  · refine ⟨⟨1, by simp⟩, fun k hk _ => ?_, fun i hi => ?_⟩
    · obtain rfl : k = 0 := by simpa using hk
      simp [h]
    · have := hi 0 (by simp) (by simp; split <;> norm_num)
      rw [h] at this
      apply Fin.ext
      have hi2 : i.1 < 2 := i.2
      by_contra hne
      have h0 : i.1 = 0 := by simp only at hne; omega
      rw [h0] at this
      norm_num at this

theorem simplest_dense : ((simplestModel a b xm).Smat 0).IsDense := by
  have hS : (simplestModel a b xm).Smat 0 = ⟨2, 1, fun i _ => if i = 0 then -1 else 1⟩ := rfl
  rw [hS]
  refine ⟨fun i hi k hk => ?_, fun i hi j hj hij => ?_⟩
  · obtain rfl | rfl : i = 0 ∨ i = 1 := by simp at hi; omega
    · left; rfl
    · right; rfl
  · refine ⟨0, by simp, ?_⟩
    simp only at hi hj
    obtain ⟨rfl, rfl⟩ | ⟨rfl, rfl⟩ : (i = 0 ∧ j = 1) ∨ (i = 1 ∧ j = 0) := by omega
    · simp; norm_num
    · simp; norm_num

theorem simplest_signs : SignsOk o (simplestModel a b xm) := by
  intro s hs
  obtain rfl := simplest_sys hs
  refine ⟨simplest_partition, fun _ => ⟨rfl, simplest_dense⟩, fun _ i hi k hk => ?_⟩
  rcases simplest_dense.1 i hi k hk with h | h
  · exact .inl h
  · exact .inr (.inr h)

/-- The Filippov set of the model. -/
theorem simplest_filippov {x : ℝ} {p : List ℝ} {y : Nat → ℝ}
    (h : (simplestModel a b xm).InFilippov [x] [] p [] y) :
    (x < 0 → y 0 = a) ∧ (0 < x → y 0 = b) ∧ min a b ≤ y 0 ∧ y 0 ≤ max a b := by
  obtain ⟨θ, h1, h2⟩ := h
  obtain ⟨n1, s1, r1⟩ := h1 0 (by simp [simplestModel, UserModel.nSys])
  have hy := h2 0 (by simp [simplestModel])
  have hcols : ((simplestModel a b xm).Fmat 0).nCols = 2 := rfl
  rw [hcols] at n1 s1 r1
  have hsys : (simplestModel a b xm).nSys = 1 := rfl
  rw [hsys, Finset.sum_range_one, hcols, Finset.sum_range_succ, Finset.sum_range_one] at hy
  rw [Finset.sum_range_succ, Finset.sum_range_one] at s1
  have hy : y 0 = a * θ 0 0 + b * θ 0 1 := hy
  have q0 : θ 0 0 ≠ 0 → x ≤ 0 := fun hh => by
    have : 0 ≤ (-1 : ℝ) * x := r1 0 (by norm_num) hh 0 (by simp [simplestModel, UserModel.Smat])
    linarith
  have q1 : θ 0 1 ≠ 0 → 0 ≤ x := fun hh => by
    have : 0 ≤ (1 : ℝ) * x := r1 1 (by norm_num) hh 0 (by simp [simplestModel, UserModel.Smat])
    linarith
  refine ⟨fun hx => ?_, fun hx => ?_, ?_, ?_⟩
  · have : θ 0 1 = 0 := by
      by_contra hh; exact absurd (q1 hh) (not_le.2 hx)
    rw [this] at s1 hy
    rw [hy, show θ 0 0 = 1 by linarith]; ring
  · have : θ 0 0 = 0 := by
      by_contra hh; exact absurd (q0 hh) (not_le.2 hx)
    rw [this] at s1 hy
    rw [hy, show θ 0 1 = 1 by linarith]; ring
  · have e0 := n1 0 (by norm_num)
    have e1 := n1 1 (by norm_num)
    rw [hy]
    have k0 := mul_nonneg e0 (sub_nonneg.2 (min_le_left a b))
    have k1 := mul_nonneg e1 (sub_nonneg.2 (min_le_right a b))
    have k2 : min a b = min a b * (θ 0 0 + θ 0 1) := by rw [s1, mul_one]
    rw [k2]
    linarith
  · have e0 := n1 0 (by norm_num)
    have e1 := n1 1 (by norm_num)
    rw [hy]
    have k0 := mul_nonneg e0 (sub_nonneg.2 (le_max_left a b))
    have k1 := mul_nonneg e1 (sub_nonneg.2 (le_max_right a b))
    have k2 : max a b = max a b * (θ 0 0 + θ 0 1) := by rw [s1, mul_one]
    rw [k2]
    linarith

/-- What a run of the driver is. -/
theorem simplest_run (hnS : 0 < o.nS) (hch : o.constraintHandling = .exact) (hli : o.nfeAfter.length = o.nStages)
    (hso : o.sot = .none) {um : UserModel} {xs : List ℝ}
    (hex : ∀ q, construct colloc { o with terminalTime := T / N } um none = .ok q → orc.Exact q.2.2.2)
    (hR : solveSimplest colloc orc o um xs N T = .ok R) (hst : ∀ s ∈ R.status, s = .success)
    (hal : um.alpha = none) (hz : um.nZ = 0) (hv : um.nV = 0) :
    N ≠ 0 ∧ ∃ po m oc P S,
      SimRun colloc { o with terminalTime := T / N } um none po m oc P orc S xs N none R := by
  unfold solveSimplest at hR
  simp only [bind_eq_ok, check_eq_ok] at hR
  obtain ⟨-, hN, S, hS, L, hL, hR⟩ := hR
  refine ⟨hN, ?_⟩
  have hS' := hS
  unfold Solver.create at hS'
  simp only [bind_eq_ok] at hS'
  obtain ⟨⟨po, m, oc, P⟩, hq, -⟩ := hS'
  have h : SetupEx colloc { o with terminalTime := T / N } um none po m oc P :=
    ⟨⟨hq, hnS, fun _ => hal⟩, hch, by simp [UserOcp.trivial]⟩
  cases hrun : L.run orc false with
  | mk L' r =>
    rw [hrun] at hR
    cases r with
    | error e => simp at hR
    | ok bb =>
      have hR : L'.getResults = .ok R := hR
      refine ⟨po, m, oc, P, S, h, .create hS, hli, hex _ hq, ⟨none, L, L', false, bb, hL, hrun, hR⟩,
        fun i hi => ?_, by rw [show ({ o with terminalTime := T / N } : Opts).sot = o.sot from rfl, hso]; simp,
        hz, hv⟩
      obtain ⟨result, calls, sim, -⟩ := run_sim h.toSetup hli (.create hS) hL hrun hR
      have hg : R.status[i]? = some (result i).status := by
        rw [sim.status, List.getElem?_map, List.getElem?_range hi]; rfl
      rw [hg, hst _ (List.mem_of_getElem? hg)]

/-- The trajectory of a run of the driver on one of the models. -/
theorem simplest_flow (cfg : ExactSimOpts colloc o) (hT : 0 ≤ T)
    (hex : ∀ q, construct colloc { o with terminalTime := T / N } (simplestModel a b xm) none = .ok q →
      orc.Exact q.2.2.2)
    (hR : solveSimplest colloc orc o (simplestModel a b xm) [x0] N T = .ok R)
    (hst : ∀ s ∈ R.status, s = .success) :
    ∃ (W : ℝ) (x : ℝ → ℝ) (τ : Nat → ℝ),
      (o.irkRep = .integral → W = 1) ∧ |W - 1| ≤ 1 / 10 ^ 11 ∧
      R.xSim.length = N * o.nfeAfter.sum + 1 ∧ R.tGrid = (List.range (N * o.nfeAfter.sum + 1)).map τ ∧
      (∀ n ≤ N * o.nfeAfter.sum, R.xSim[n]? = some [x (τ n)]) ∧
      τ 0 = 0 ∧ x 0 = x0 ∧ τ (N * o.nfeAfter.sum) = T ∧
      ∀ n < N * o.nfeAfter.sum, τ n ≤ τ (n + 1) ∧ ScalarFlow (W * a) (W * b) x (τ n) (τ (n + 1)) := by
  obtain ⟨hN, po, m, oc, P, S, hr⟩ := simplest_run cfg.nS cfg.exact cfg.lists cfg.sot hex hR hst rfl rfl rfl
  obtain ⟨w, hw⟩ := cfg.weights
  obtain ⟨wi, L, L', stop, bb, hc, hrun, hres⟩ := hr.run
  have h' := hr.setup.toSetup
  have hTN : 0 ≤ T / N := by positivity
  obtain ⟨W, x, w1, w2, x1, x2, x3⟩ := C99_simulation_exact hr.setup hr.lists hr.reach hr.exact hc rfl hrun hres
    hr.success cfg.polish cfg.fesd cfg.mode (.inr (by simp [simplestModel, UserModel.nSys]))
    (by rw [show ({ o with terminalTime := T / N } : Opts).sot = o.sot from rfl, cfg.sot]; simp)
    cfg.gamma.2 hTN rfl simplest_signs simplest_pc rfl (b := w) ⟨hw.nonneg, hw.table, hw.quad⟩ cfg.points
    (cfg.ends.symm.imp (fun hh => by
      have hk := h'.ok
      unfold construct at hk
      simp only [bind_eq_ok] at hk
      obtain ⟨-, -, po', hp, m', -, oc', -, P', -, e⟩ := hk
      cases e
      exact hh _ _ hp) id)
  obtain ⟨-, ⟨hx0, hlen, hlenT, hgrid⟩, -⟩ := hr.steps
  have hnf : ({ o with terminalTime := T / N } : Opts).nfeAfter = o.nfeAfter := rfl
  rw [hnf] at x2 hlen hlenT hgrid
  set M := N * o.nfeAfter.sum with hM
  have hg : ∀ n ≤ M, R.tGrid[n]? = some ((R.timeSteps.take n).sum) := fun n hn => by
    rw [hgrid, List.getElem?_map, List.getElem?_range (by omega)]; rfl
  have hxs : ∀ n ≤ M, R.xSim[n]? = some [x ((R.timeSteps.take n).sum) 0] := by
    intro n hn
    obtain ⟨t, ht, hx⟩ := x2 n hn
    rw [hg n hn] at ht
    rw [hx, ← Option.some.inj ht]
    rfl
  have hw0 : 0 ≤ W := by have := abs_le.1 w2; norm_num at this; linarith
  refine ⟨W, fun t => x t 0, fun n => (R.timeSteps.take n).sum, w1, w2, by omega, hgrid, hxs, by simp, ?_, ?_, ?_⟩
  · have := hxs 0 (Nat.zero_le _)
    rw [hx0] at this
    simpa using this.symm
  · have := hr.total cfg.fesd cfg.equidistant le_rfl
    rw [hnf, ← hM, hg M le_rfl] at this
    refine (Option.some.inj this).trans ?_
    have : (N : ℝ) ≠ 0 := by exact_mod_cast hN
    show (N : ℝ) * (T / N) = T
    field_simp
  · intro n hn
    have hle : (R.timeSteps.take n).sum ≤ (R.timeSteps.take (n + 1)).sum := by
      rw [List.take_add_one, List.getElem?_eq_getElem (by omega : n < R.timeSteps.length), List.sum_append]
      have := (hr.small (fun _ => cfg.gamma) hTN _ (List.getElem_mem (by omega : n < R.timeSteps.length))).1
      simpa using this
    refine ⟨hle, x1 0, fun t h0 h1 => ?_⟩
    obtain ⟨y, y1, y2⟩ := x3 n _ _ (hg n hn.le) (hg (n + 1) hn) t h0 h1
    obtain ⟨f1, f2, f3, f4⟩ := simplest_filippov y1
    refine ⟨W * y 0, y2 0 (by simp [simplestModel]), fun hx => by rw [f1 hx], fun hx => by rw [f2 hx], ?_, ?_⟩
    · rw [← mul_min_of_nonneg _ _ hw0]
      exact mul_le_mul_of_nonneg_left f3 hw0
    · rw [← mul_max_of_nonneg _ _ hw0]
      exact mul_le_mul_of_nonneg_left f4 hw0

/-- Crossing, grid point by grid point. -/
theorem crossing_chain {A B x0 : ℝ} (hA : 0 < A) (hB : 0 < B) (hAB : A ≠ B) {x : ℝ → ℝ} {τ : Nat → ℝ} {M : Nat}
    (h0 : τ 0 = 0) (hx : x 0 = x0)
    (hf : ∀ n < M, τ n ≤ τ (n + 1) ∧ ScalarFlow A B x (τ n) (τ (n + 1))) :
    (∀ n ≤ M, x (τ n) = crossingSol A B x0 (τ n)) ∧
    (x0 < 0 → -x0 / A ≤ τ M → ∃ n ≤ M, τ n = -x0 / A) := by
  have hpos : ∀ n ≤ M, 0 ≤ τ n := by
    intro n
    induction n with
    | zero => intro _; rw [h0]
    | succ n ih => intro hn; exact (ih (by omega)).trans (hf n (by omega)).1
  have hel := fun n hn => (hf n hn).2.crossing hA hB hAB (hf n hn).1
  rcases le_or_gt 0 x0 with hx0 | hx0
  · refine ⟨fun n hn => ?_, fun hh => absurd hx0 (not_le.2 hh)⟩
    have : x (τ n) = x0 + B * τ n := by
      induction n with
      | zero => rw [h0, hx]; ring
      | succ n ih =>
        have ih := ih (by omega)
        have hn0 := hpos n (by omega)
        rcases hel n (by omega) with ⟨e1, e2⟩ | ⟨e1, e2⟩
        · have hle := (hf n (by omega)).1
          have k1 : 0 ≤ x (τ n) := by rw [ih]; positivity
          have k2 : 0 ≤ A * (τ (n + 1) - τ n) := mul_nonneg hA.le (by linarith)
          have k3 : A * (τ (n + 1) - τ n) = 0 := by linarith
          have k4 : τ (n + 1) - τ n = 0 := by
            rcases mul_eq_zero.1 k3 with k | k
            · exact absurd k hA.ne'
            · exact k
          rw [e2, k3, ih, show τ (n + 1) = τ n by linarith]; ring
        · rw [e2, ih]; ring
    rw [this, crossingSol, if_pos hx0]
  · have key : ∀ n ≤ M, (x (τ n) ≤ 0 ∧ x (τ n) = x0 + A * τ n) ∨
        (0 ≤ x (τ n) ∧ x (τ n) = B * (τ n - (-x0 / A))) := by
      intro n
      induction n with
      | zero => intro _; left; rw [h0, hx]; exact ⟨hx0.le, by ring⟩
      | succ n ih =>
        intro hn
        have hle := (hf n (by omega)).1
        have hsame : x (τ n) = 0 → (x (τ n) = x0 + A * τ n ∧ x (τ n) = B * (τ n - (-x0 / A))) := by
          intro hz
          rcases ih (by omega) with ⟨-, i2⟩ | ⟨-, i2⟩
          · refine ⟨i2, ?_⟩
            have : τ n = -x0 / A := by
              rw [eq_div_iff hA.ne']; linarith
            rw [hz, this]; ring
          · refine ⟨?_, i2⟩
            have : τ n - (-x0 / A) = 0 := by
              rcases mul_eq_zero.1 (i2.symm.trans hz) with k | k
              · exact absurd k hB.ne'
              · exact k
            have : τ n = -x0 / A := by linarith
            rw [hz, this]
            field_simp
            ring
        rcases hel n (by omega) with ⟨e1, e2⟩ | ⟨e1, e2⟩
        · left
          refine ⟨e1, ?_⟩
          have k2 : 0 ≤ A * (τ (n + 1) - τ n) := mul_nonneg hA.le (by linarith)
          have : x (τ n) = x0 + A * τ n := by
            rcases ih (by omega) with ⟨-, i2⟩ | ⟨i1, -⟩
            · exact i2
            · exact (hsame (by linarith)).1
          rw [e2, this]; ring
        · right
          have k2 : 0 ≤ B * (τ (n + 1) - τ n) := mul_nonneg hB.le (by linarith)
          refine ⟨by linarith, ?_⟩
          have : x (τ n) = B * (τ n - (-x0 / A)) := by
            rcases ih (by omega) with ⟨i1, -⟩ | ⟨-, i2⟩
            · exact (hsame (by linarith)).2
            · exact i2
          rw [e2, this]; ring
    refine ⟨fun n hn => ?_, fun _ hM => ?_⟩
    · unfold crossingSol
      rw [if_neg (not_le.2 hx0)]
      rcases key n hn with ⟨k1, k2⟩ | ⟨k1, k2⟩
      · rw [if_pos (by rw [le_div_iff₀ hA]; linarith), k2]
      · split
        · rename_i hle
          have : B * (τ n - (-x0 / A)) ≤ 0 := mul_nonpos_of_nonneg_of_nonpos hB.le (by linarith)
          have k3 : B * (τ n - (-x0 / A)) = 0 := by linarith
          have k4 : τ n = -x0 / A := by
            rcases mul_eq_zero.1 k3 with k | k
            · exact absurd k hB.ne'
            · linarith
          rw [k2, k3, k4]
          field_simp
          ring
        · exact k2
    · have hend : 0 ≤ x (τ M) := by
        rcases key M le_rfl with ⟨-, k2⟩ | ⟨k1, -⟩
        · rw [k2]
          rw [div_le_iff₀ hA] at hM
          linarith
        · exact k1
      classical
      have hex : ∃ n, n ≤ M ∧ 0 ≤ x (τ n) := ⟨M, le_rfl, hend⟩
      obtain ⟨f1, f2⟩ := Nat.find_spec hex
      refine ⟨Nat.find hex, f1, ?_⟩
      have hzero : x (τ (Nat.find hex)) = 0 ∧ x (τ (Nat.find hex)) = x0 + A * τ (Nat.find hex) := by
        generalize hn : Nat.find hex = n at *
        cases n with
        | zero => rw [h0, hx] at f2; exact absurd f2 (not_le.2 hx0)
        | succ n =>
          have hlt : x (τ n) < 0 := by
            by_contra hge
            push Not at hge
            have := Nat.find_min' hex ⟨by omega, hge⟩
            omega
          rcases hel n (by omega) with ⟨e1, e2⟩ | ⟨e1, -⟩
          · refine ⟨le_antisymm e1 f2, ?_⟩
            rcases key n (by omega) with ⟨-, k2⟩ | ⟨k1, -⟩
            · rw [e2, k2]; ring
            · exact absurd k1 (not_le.2 hlt)
          · exact absurd e1 (not_le.2 hlt)
      rw [eq_div_iff hA.ne']
      linarith [hzero.1, hzero.2]

/-- Sliding from below, grid point by grid point. -/
theorem sliding_chain {A B x0 : ℝ} (hA : 0 < A) (hB : B ≤ 0) {x : ℝ → ℝ} {τ : Nat → ℝ} {M : Nat}
    (h0 : τ 0 = 0) (hx : x 0 = x0) (hx0 : x0 ≤ 0)
    (hf : ∀ n < M, τ n ≤ τ (n + 1) ∧ ScalarFlow A B x (τ n) (τ (n + 1))) :
    (∀ n ≤ M, x (τ n) = min (x0 + A * τ n) 0) ∧
    (-x0 / A ≤ τ M → ∃ n ≤ M, τ n = -x0 / A) := by
  have key : ∀ n ≤ M, x (τ n) ≤ 0 ∧
      (x (τ n) = x0 + A * τ n ∨ (x (τ n) = 0 ∧ 0 ≤ x0 + A * τ n ∧ ∃ k ≤ n, τ k = -x0 / A)) := by
    intro n
    induction n with
    | zero => intro _; rw [h0, hx]; exact ⟨hx0, .inl (by ring)⟩
    | succ n ih =>
      intro hn
      obtain ⟨i1, i2⟩ := ih (by omega)
      have hle := (hf n (by omega)).1
      have k2 : 0 ≤ A * (τ (n + 1) - τ n) := mul_nonneg hA.le (by linarith)
      rcases (hf n (by omega)).2.sliding hA hB hle i1 with ⟨e1, e2⟩ | ⟨e1, e2⟩
      · refine ⟨e1, ?_⟩
        rcases i2 with i2 | ⟨i2, i3, k, i4, i5⟩
        · left; rw [e2, i2]; ring
        · right
          exact ⟨by linarith, by linarith, k, by omega, i5⟩
      · refine ⟨e2.le, .inr ⟨e2, ?_, ?_⟩⟩
        · rcases i2 with i2 | ⟨-, i3, -⟩ <;> linarith
        · rcases i2 with i2 | ⟨-, -, k, i4, i5⟩
          · exact ⟨n, by omega, by rw [eq_div_iff hA.ne']; linarith⟩
          · exact ⟨k, by omega, i5⟩
  refine ⟨fun n hn => ?_, fun hM => ?_⟩
  · obtain ⟨k1, k2 | ⟨k2, k3, -⟩⟩ := key n hn
    · rw [min_eq_left (by linarith), k2]
    · rw [min_eq_right k3, k2]
  · obtain ⟨k1, k2 | ⟨-, -, k, i4, i5⟩⟩ := key M le_rfl
    · refine ⟨M, le_rfl, le_antisymm ?_ hM⟩
      rw [le_div_iff₀ hA]
      linarith
    · exact ⟨k, i4, i5⟩

/-- Leaving the surface, grid point by grid point. -/
theorem leaving_chain {A B : ℝ} (hA : A < 0) (hB : 0 < B) {x : ℝ → ℝ} {τ : Nat → ℝ} {M : Nat}
    (h0 : τ 0 = 0) (hx : x 0 = 0)
    (hf : ∀ n < M, τ n ≤ τ (n + 1) ∧ ScalarFlow A B x (τ n) (τ (n + 1))) :
    ∃ s c, (c = A ∨ c = B) ∧ 0 ≤ s ∧ s ≤ τ M ∧ (∃ k ≤ M, s = τ k) ∧
      ∀ n ≤ M, x (τ n) = c * max (τ n - s) 0 := by
  induction M with
  | zero =>
    refine ⟨0, A, .inl rfl, le_rfl, by rw [h0], ⟨0, le_rfl, h0.symm⟩, fun n hn => ?_⟩
    obtain rfl : n = 0 := by omega
    rw [h0, hx]; simp
  | succ M ih =>
    obtain ⟨s, c, hc, s0, s1, ⟨k, hk, rfl⟩, hs⟩ := ih fun n hn => hf n (by omega)
    obtain ⟨hle, fl⟩ := hf M (by omega)
    have hM := hs M le_rfl
    rw [max_eq_left (by linarith)] at hM
    have ext : ∀ {s' c' : ℝ}, (∀ n ≤ M, x (τ n) = c' * max (τ n - s') 0) →
        x (τ (M + 1)) = c' * max (τ (M + 1) - s') 0 → ∀ n ≤ M + 1, x (τ n) = c' * max (τ n - s') 0 := by
      intro s' c' g1 g2 n hn
      rcases Nat.lt_or_ge M n with hlt | hge
      · obtain rfl : n = M + 1 := by omega
        exact g2
      · exact g1 n hge
    have hmono : ∀ n ≤ M, τ n ≤ τ M := by
      intro n hn
      obtain ⟨d, rfl⟩ := Nat.exists_eq_add_of_le hn
      clear ih hs hM ext fl hle hk s1 s0 hn
      induction d with
      | zero => exact le_rfl
      | succ d ihd =>
        refine (ihd fun m hm => hf m (by omega)).trans ?_
        exact (hf (n + d) (by omega)).1
    -- still on the surface
    have rest : x (τ M) = 0 → ∀ c', ∀ n ≤ M, x (τ n) = c' * max (τ n - τ M) 0 := by
      intro hz c' n hn
      rw [max_eq_right (by linarith [hmono n hn]), mul_zero]
      have hk0 : τ M - τ k = 0 := by
        rcases mul_eq_zero.1 (hM.symm.trans hz) with g | g
        · rcases hc with rfl | rfl
          · exact absurd g hA.ne
          · exact absurd g hB.ne'
        · exact g
      rw [hs n hn, max_eq_right (by linarith [hmono n hn]), mul_zero]
    have fresh : ∀ c', (c' = A ∨ c' = B) → x (τ M) = 0 → x (τ (M + 1)) = x (τ M) + c' * (τ (M + 1) - τ M) →
        ∃ s c, (c = A ∨ c = B) ∧ 0 ≤ s ∧ s ≤ τ (M + 1) ∧ (∃ k ≤ M + 1, s = τ k) ∧
          ∀ n ≤ M + 1, x (τ n) = c * max (τ n - s) 0 := by
      intro c' hc' hz he
      refine ⟨τ M, c', hc', by linarith, hle, ⟨M, by omega, rfl⟩, ext (rest hz c') ?_⟩
      rw [he, hz, max_eq_left (by linarith), zero_add]
    have keep : x (τ (M + 1)) = x (τ M) + c * (τ (M + 1) - τ M) →
        ∃ s c, (c = A ∨ c = B) ∧ 0 ≤ s ∧ s ≤ τ (M + 1) ∧ (∃ k ≤ M + 1, s = τ k) ∧
          ∀ n ≤ M + 1, x (τ n) = c * max (τ n - s) 0 := by
      intro he
      refine ⟨τ k, c, hc, s0, s1.trans hle, ⟨k, by omega, rfl⟩, ext hs ?_⟩
      rw [he, hM, max_eq_left (by linarith)]; ring
    by_cases hz : x (τ M) = 0
    · rcases fl.leaving hA hB hle with ⟨-, e⟩ | ⟨-, e⟩ | ⟨-, e⟩
      · refine ⟨τ (M + 1), c, hc, by linarith, le_rfl, ⟨M + 1, le_rfl, rfl⟩, ext (fun n hn => ?_) ?_⟩
        · have := rest hz c n hn
          rw [this, max_eq_right (by linarith [hmono n hn]), max_eq_right (by linarith [hmono n hn])]
        · rw [e]; simp
      · exact fresh A (.inl rfl) hz e
      · exact fresh B (.inr rfl) hz e
    · have hlt : 0 < τ M - τ k := by
        refine lt_of_le_of_ne (by linarith) fun he => hz ?_
        rw [hM, ← he, mul_zero]
      rcases fl.leaving hA hB hle with ⟨e, -⟩ | ⟨g, e⟩ | ⟨g, e⟩
      · exact absurd e hz
      · rcases hc with rfl | rfl
        · exact keep e
        · have := mul_pos hB hlt
          linarith
      · rcases hc with rfl | rfl
        · have := mul_neg_of_neg_of_pos hA hlt
          linarith
        · exact keep e

end

/-! ### C117 -/

section
variable {colloc : IrkScheme → Nat → List ℝ} {orc : Oracle} {o : Opts} {a b xm x0 T : ℝ} {N : Nat}
  {R : SimResults}

/-- C117, crossing (`get_simplest_model_switch`: `a = 3, b = 1`, or `1, 3`): if `solve_simplest_example` returns
and all steps are reported as SUCCESS, the reported states are the analytic solution at the reported times, the
grid runs from 0 to `Tsim`, and the switching time is a grid point if it is at most `Tsim`.  The slopes are
multiplied by the sum `W` of the weights of the scheme, 1 up to the rounding of the Butcher tables. -/
theorem C117_crossing (cfg : ExactSimOpts colloc o) (hT : 0 ≤ T) (ha : 0 < a) (hb : 0 < b) (hab : a ≠ b)
    (hex : ∀ q, construct colloc { o with terminalTime := T / N } (simplestModel a b xm) none = .ok q →
      orc.Exact q.2.2.2)
    (hR : solveSimplest colloc orc o (simplestModel a b xm) [x0] N T = .ok R)
    (hst : ∀ s ∈ R.status, s = .success) :
    ∃ W : ℝ, (o.irkRep = .integral → W = 1) ∧ |W - 1| ≤ 1 / 10 ^ 11 ∧
      R.xSim = R.tGrid.map (fun t => [crossingSol (W * a) (W * b) x0 t]) ∧
      R.tGrid.head? = some 0 ∧ R.tGrid.getLast? = some T ∧
      (x0 < 0 → -x0 / (W * a) ≤ T → -x0 / (W * a) ∈ R.tGrid) := by
  obtain ⟨W, x, τ, w1, w2, hl, hg, hx, t0, x00, tT, hf⟩ := simplest_flow cfg hT hex hR hst
  have hW : 0 < W := by have := abs_le.1 w2; norm_num at this; linarith
  obtain ⟨k1, k2⟩ := crossing_chain (mul_pos hW ha) (mul_pos hW hb)
    (fun h => hab (mul_left_cancel₀ hW.ne' h)) t0 x00 hf
  refine ⟨W, w1, w2, ?_, by rw [hg, List.range_succ_eq_map]; simp [t0], by rw [hg]; simp [List.range_succ, tT], fun h0 h1 => ?_⟩
  · apply List.ext_getElem?
    intro n
    rcases Nat.lt_or_ge (N * o.nfeAfter.sum) n with hn | hn
    · rw [List.getElem?_eq_none (by omega), List.getElem?_eq_none (by rw [hg]; simp; omega)]
    · rw [hx n hn, hg, List.getElem?_map, List.getElem?_map, List.getElem?_range (by omega), k1 n hn]
      rfl
  · obtain ⟨n, hn, e⟩ := k2 h0 (by rw [tT]; exact h1)
    rw [hg, ← e]
    exact List.mem_map.2 ⟨n, List.mem_range.2 (by omega), rfl⟩

/-- C117, sliding (`get_simplest_model_sliding`: `a = 3, b = -1`, or `1, -3`): likewise, and the time at which the
surface is reached is a grid point. -/
theorem C117_sliding (cfg : ExactSimOpts colloc o) (hT : 0 ≤ T) (ha : 0 < a) (hb : b < 0)
    (hex : ∀ q, construct colloc { o with terminalTime := T / N } (simplestModel a b xm) none = .ok q →
      orc.Exact q.2.2.2)
    (hR : solveSimplest colloc orc o (simplestModel a b xm) [x0] N T = .ok R)
    (hst : ∀ s ∈ R.status, s = .success) :
    ∃ W : ℝ, (o.irkRep = .integral → W = 1) ∧ |W - 1| ≤ 1 / 10 ^ 11 ∧
      R.xSim = R.tGrid.map (fun t => [slidingSol (W * a) (W * b) x0 t]) ∧
      R.tGrid.head? = some 0 ∧ R.tGrid.getLast? = some T ∧
      (x0 < 0 → -x0 / (W * a) ≤ T → -x0 / (W * a) ∈ R.tGrid) ∧
      (0 < x0 → -x0 / (W * b) ≤ T → -x0 / (W * b) ∈ R.tGrid) := by
  obtain ⟨W, x, τ, w1, w2, hl, hg, hx, t0, x00, tT, hf⟩ := simplest_flow cfg hT hex hR hst
  have hW : 0 < W := by have := abs_le.1 w2; norm_num at this; linarith
  have hA := mul_pos hW ha
  have hB : 0 < -(W * b) := by
    have := mul_neg_of_pos_of_neg hW hb; linarith
  have hstates : ∀ f : ℝ → ℝ, (∀ n ≤ N * o.nfeAfter.sum, x (τ n) = f (τ n)) →
      R.xSim = R.tGrid.map (fun t => [f t]) := by
    intro f hfx
    apply List.ext_getElem?
    intro n
    rcases Nat.lt_or_ge (N * o.nfeAfter.sum) n with hn | hn
    · rw [List.getElem?_eq_none (by omega), List.getElem?_eq_none (by rw [hg]; simp; omega)]
    · rw [hx n hn, hg, List.getElem?_map, List.getElem?_map, List.getElem?_range (by omega), hfx n hn]
      rfl
  refine ⟨W, w1, w2, ?_, by rw [hg, List.range_succ_eq_map]; simp [t0], by rw [hg]; simp [List.range_succ, tT], fun h0 h1 => ?_,
    fun h0 h1 => ?_⟩
  · apply hstates
    intro n hn
    unfold slidingSol
    split
    · rename_i h0
      exact (sliding_chain hA (by linarith) t0 x00 h0 hf).1 n hn
    · rename_i h0
      have := (sliding_chain hB (by linarith : -(W * a) ≤ 0) t0 (x := fun t => -x t) (by rw [x00])
        (by linarith : -x0 ≤ 0) fun n hn => ⟨(hf n hn).1, (hf n hn).2.neg⟩).1 n hn
      rw [show -x0 + -(W * b) * τ n = -(x0 + W * b * τ n) by ring,
        show min (-(x0 + W * b * τ n)) 0 = -max (x0 + W * b * τ n) 0 by rw [← min_neg_neg, neg_zero]] at this
      linarith
  · obtain ⟨n, hn, e⟩ := (sliding_chain hA (by linarith) t0 x00 h0.le hf).2 (by rw [tT]; exact h1)
    rw [hg, ← e]
    exact List.mem_map.2 ⟨n, List.mem_range.2 (by omega), rfl⟩
  · have e' : -x0 / (W * b) = - -x0 / -(W * b) := by rw [neg_div_neg_eq]
    obtain ⟨n, hn, e⟩ := (sliding_chain hB (by linarith : -(W * a) ≤ 0) t0 (x := fun t => -x t) (by rw [x00])
        (by linarith : -x0 ≤ 0) fun n hn => ⟨(hf n hn).1, (hf n hn).2.neg⟩).2 (by rw [tT, ← e']; exact h1)
    rw [hg, e', ← e]
    exact List.mem_map.2 ⟨n, List.mem_range.2 (by omega), rfl⟩

/-- C117, spontaneous switch (`get_spontaneous_switch_model`: `a = -1, b = 1` from `x0 = 0`), which has many
solutions: the result is one of them.  It stays on the surface up to some grid point and then leaves it with one of
the two slopes. -/
theorem C117_leaving (cfg : ExactSimOpts colloc o) (hT : 0 ≤ T) (ha : a < 0) (hb : 0 < b)
    (hex : ∀ q, construct colloc { o with terminalTime := T / N } (simplestModel a b xm) none = .ok q →
      orc.Exact q.2.2.2)
    (hR : solveSimplest colloc orc o (simplestModel a b xm) [0] N T = .ok R)
    (hst : ∀ s ∈ R.status, s = .success) :
    ∃ W s c : ℝ, (o.irkRep = .integral → W = 1) ∧ |W - 1| ≤ 1 / 10 ^ 11 ∧
      (c = a ∨ c = b) ∧ s ∈ R.tGrid ∧ 0 ≤ s ∧ s ≤ T ∧
      R.xSim = R.tGrid.map (fun t => [W * c * max (t - s) 0]) ∧
      R.tGrid.head? = some 0 ∧ R.tGrid.getLast? = some T := by
  obtain ⟨W, x, τ, w1, w2, hl, hg, hx, t0, x00, tT, hf⟩ := simplest_flow cfg hT hex hR hst
  have hW : 0 < W := by have := abs_le.1 w2; norm_num at this; linarith
  obtain ⟨s, c, hc, s0, s1, ⟨k, hk, rfl⟩, hs⟩ := leaving_chain (mul_neg_of_pos_of_neg hW ha) (mul_pos hW hb)
    t0 x00 hf
  obtain ⟨c', hc', rfl⟩ : ∃ c', (c' = a ∨ c' = b) ∧ c = W * c' := by
    rcases hc with h | h
    · exact ⟨a, .inl rfl, h⟩
    · exact ⟨b, .inr rfl, h⟩
  refine ⟨W, τ k, c', w1, w2, hc', by rw [hg]; exact List.mem_map.2 ⟨k, List.mem_range.2 (by omega), rfl⟩, s0,
    by rw [← tT]; exact s1, ?_, by rw [hg, List.range_succ_eq_map]; simp [t0], by rw [hg]; simp [List.range_succ, tT]⟩
  apply List.ext_getElem?
  intro n
  rcases Nat.lt_or_ge (N * o.nfeAfter.sum) n with hn | hn
  · rw [List.getElem?_eq_none (by omega), List.getElem?_eq_none (by rw [hg]; simp; omega)]
  · rw [hx n hn, hg, List.getElem?_map, List.getElem?_map, List.getElem?_range (by omega), hs n hn]
    rfl

end

end Nosnoc
