import Verif.Witness.Slide
import Verif.Props.Progress
/-
A problem for witnesses with a conserved quantity `x + y`: `(ẋ, ẏ)` is `(1, -1)` in one region and `(2, -2)` in
the other, the switching function is zero; Radau IIA or Gauss-Legendre with two stages, INTEGRAL.
-/
namespace Nosnoc
open Polynomial

def pairModel : UserModel where
  nX := 2
  nU := 0
  nZ := 0
  nPtv := 0
  nPgl := 0
  nV := 0
  x0 := [0, 0]
  F := some [⟨2, fun row i _ _ _ _ _ => (if row = 0 then 1 else -1) * if i = 0 then 1 else 2⟩]
  c := some [⟨1, fun _ _ _ _ => 0⟩]
  S := some [signMat]
  gStewart := none
  alpha := none
  fx := none
  gz := ⟨0, fun _ _ _ _ _ => 0⟩
  z0 := none
  lbz := none
  ubz := none
  pTimeVarVal := none
  pGlobalVal := []
  tVar := none

noncomputable def pairOpts (sc : IrkScheme) (nf : Nat) : Opts := { slideOpts 1 nf with scheme := sc }

theorem pair_setup (sc : IrkScheme) {nf : Nat} (h0' : 0 < nf) :
    ∃ po m oc P, SetupEx demoColloc (pairOpts sc nf) pairModel (some UserOcp.trivial) po m oc P := by
  obtain ⟨po, hpo⟩ : ∃ po, (pairOpts sc nf).preprocess demoColloc = .ok po :=
    flex_preOpts (by norm_num [pairOpts, slideOpts, Opts.default]) (.inl rfl)
  have h1 := preprocess_opts hpo
  have e := h1.toOpts
  have e2 : po.timeFreezing = false := by rw [e]; rfl
  obtain ⟨m, hm⟩ : ∃ m, pairModel.preprocess po = .ok m := by
    refine switched_ok (Fs := [⟨2, fun row i _ _ _ _ _ => (if row = 0 then 1 else -1) * if i = 0 then 1 else 2⟩])
      (cs := [⟨1, fun _ _ _ _ => 0⟩])
      (Ss := [signMat]) ⟨?_, ?_, ?_, rfl, ?_, .inr e2⟩
      ⟨rfl, rfl, rfl, rfl, ?_, rfl, le_rfl, ?_, ?_, ?_, ?_⟩ rfl
    · intro l h; cases h
    · intro l h; cases h
    · intro l h; cases h
    · intro V h; cases h
    · intro f hf
      simp only [List.mem_singleton] at hf
      rw [hf]
      simp
    · intro s hs
      obtain rfl : s = 0 := by simpa using hs
      rfl
    · intro _ s hs
      obtain rfl : s = 0 := by simpa using hs
      rfl
    · intro _ s hs i hi k hk _
      obtain rfl : s = 0 := by simpa using hs
      exact hk
    · intro _ s hs
      obtain rfl : s = 0 := by simpa using hs
      rfl
  obtain ⟨oc, hoc⟩ : ∃ oc, UserOcp.trivial.preprocess m = .ok oc := by
    obtain ⟨nC, nF, g, up, f0, acc, hp⟩ := preprocess_pre hm
    unfold UserOcp.preprocess
    rw [hp.dims]
    exact ⟨_, rfl⟩
  obtain ⟨P, hP⟩ := (C06_construct_iff (uo := some UserOcp.trivial) rfl hpo hm hoc
    (by simp [pairOpts, slideOpts, Opts.default]) (fun _ => rfl) rfl).2 ⟨by simp [pairOpts, slideOpts], rfl,
      by simp [pairOpts, slideOpts, Opts.default], fun k hk => ⟨nf, by
        show (List.replicate 1 nf)[k]? = some nf
        have hk : k < 1 := hk
        simp [hk], h0'⟩, by simp [pairOpts, slideOpts, Opts.default]⟩
  exact ⟨po, m, oc, P, ⟨hP, by simp [pairOpts, slideOpts, Opts.default], fun _ => rfl⟩, rfl, by simp [UserOcp.trivial]⟩

/-- The solution from `(y, z)` at time `t`. -/
noncomputable def pairX (y z t : ℝ) (i : Nat) : ℝ := if i = 0 then y + t else z - t

noncomputable def pairEnv (sc : IrkScheme) (nf : Nat) (y z σ τ : ℝ) : Env
  | .st1 .x _ e j i => pairX y z (((e : ℝ) + (demoColloc sc 2).getD j 0) / nf) i
  | .xEnd _ e i => pairX y z (((e : ℝ) + 1) / nf) i
  | .st2 .theta _ _ _ _ i => if i = 0 then 1 else 0
  | .h _ _ => 1 / nf
  | .x0 i => if i = 0 then y else z
  | .sigma => σ
  | .tau => τ
  | _ => 0

theorem demo_colloc (sc : IrkScheme) : CollocOk (demoColloc sc 2) 2 := by
  have h3 : (Real.sqrt 3) ^ 2 = 3 := Real.sq_sqrt (by norm_num)
  have h0 : 0 < Real.sqrt 3 := Real.sqrt_pos.2 (by norm_num)
  have h2 : Real.sqrt 3 < 2 := by nlinarith
  cases sc
  · refine ⟨rfl, by norm_num [demoColloc], fun t ht _ => ?_⟩
    simpa [demoColloc] using ht.symm
  · refine ⟨rfl, ?_, fun t ht hlt => ?_⟩
    · simp only [demoColloc, List.nodup_cons, List.mem_cons, List.not_mem_nil, or_false, not_or,
        not_false_iff, List.nodup_nil, and_true]
      refine ⟨⟨?_, ?_⟩, ?_⟩
      · intro hc; linarith
      · intro hc; linarith
      · intro hc; linarith
    · exfalso
      simp only [demoColloc, List.getLast?_cons_cons, List.getLast?_singleton, Option.some.injEq] at ht
      rw [← ht, abs_lt] at hlt
      have : (1 : ℝ) / 10 ^ 9 < 1 / 10 := by norm_num
      linarith [hlt.1]

theorem pair_sys {s : Nat} (h : s < pairModel.nSys) : s = 0 := by
  simpa [pairModel, UserModel.nSys] using h

section
variable {po : PreOpts} {m : PreModel} {oc : PreOcp} {P : Problem} {nf : Nat} {sc : IrkScheme}

theorem pair_feasible
    (h : SetupEx demoColloc (pairOpts sc nf) pairModel (some UserOcp.trivial) po m oc P)
    (hnf : 0 < nf) {y z σ τ : ℝ} (hσ : 0 ≤ σ) :
    P.form.Feasible (pairEnv sc nf y z σ τ) := by
  have e1 : po.irkRep = .integral := h.e_irkRep
  have e2 : po.nStages = 1 := h.e_nStages
  have e3 : po.useFesd = true := h.e_useFesd
  have e5 : po.gammaH = 1 := h.e_gammaH
  have e4 : po.pss = .stewart := h.e_pss
  have e6 : po.nS = 2 := h.e_nS
  have e7 : po.terminalTime = 1 := h.e_terminalTime
  have e8 : po.sot = .none := h.e_sot
  have e9 : po.mpcc = .scholtesIneq := h.e_mpcc
  have e10 : po.stepEq = .heuristicDelta := h.e_stepEq
  have e11 : po.timeFreezing = false := h.e_timeFreezing
  have hnd := (demo_colloc sc).nodup
  have hlen : (demoColloc sc 2).length = 2 := (demo_colloc sc).length
  have hlast : po.rbe = true → (demoColloc sc 2).getD 1 0 = 1 := by
    intro hr
    obtain ⟨t, ht, hr'⟩ := h.toSetup.built.opts.rbe
    obtain ⟨-, -, -, htp⟩ := h.toSetup.built.opts.integral rfl
    rw [htp] at ht
    rw [hr', decide_eq_true_eq] at hr
    have ht : (0 :: demoColloc sc 2).getLast? = some t := ht
    have ht : (demoColloc sc 2).getLast? = some t := by cases sc <;> exact ht
    have := (demo_colloc sc).last t ht hr
    subst this
    rw [List.getLast?_eq_getElem?, hlen] at ht
    rw [List.getD_eq_getElem?_getD]
    simp at ht
    rw [ht]; rfl
  have hown : ownEnd po = true ∨ po.rbe = true := by
    cases hr : po.rbe
    · left; simp [ownEnd, e1, hr]
    · exact .inr rfl
  have hnfe : nfe po 0 = nf := by
    have := h.e_nfeList
    unfold nfe
    rw [this]
    rfl
  have hn0 : (nf : ℝ) ≠ 0 := by positivity
  obtain ⟨d0, -, -, -, -, -, d1, d2, d3⟩ := h.toSetup.dims
  have d0 : m.dims.nX = 2 := d0
  have hFE : ∀ k e, HasFE po k e → k = 0 ∧ e < nf := by
    intro k e hk
    have hk0 : k = 0 := by have := hk.1; omega
    subst hk0
    exact ⟨rfl, by have := hk.2; omega⟩
  set env := pairEnv sc nf y z σ τ with henv
  have hh : ∀ k e, hVal po k e env = 1 / nf := by
    intro k e
    unfold hVal
    rw [if_pos e3]
    rfl
  have hend : ∀ e i, env (endX po 0 e i) = pairX y z (((e : ℝ) + 1) / nf) i := by
    intro e i
    unfold endX
    rw [e6]
    split
    · rfl
    · rename_i hc
      show pairX y z (((e : ℝ) + (demoColloc sc 2).getD 1 0) / nf) i = _
      rw [hlast (hown.resolve_left hc)]
  have hstart : ∀ e i, env (startX po 0 e i) = pairX y z ((e : ℝ) / nf) i := by
    intro e i
    unfold startX prevFe
    rcases Nat.eq_zero_or_pos e with rfl | he
    · simp [henv, pairEnv, pairX]
    · simp only [he, if_true]
      rw [hend]
      simp [Nat.cast_sub (show 1 ≤ e from he)]
  have hrhs : ∀ k e j i, pairModel.stageRhs po m.dims k e j i env = if i = 0 then 1 else -1 := by
    intro k e j i
    unfold UserModel.stageRhs
    rw [e4]
    simp only [UserModel.rhsStewart]
    rw [show pairModel.nSys = 1 from rfl, Finset.sum_range_one, show (pairModel.Fmat 0).nCols = 2 from rfl,
      Finset.sum_range_succ, Finset.sum_range_one]
    simp only [show ∀ r c x z u p v, (pairModel.Fmat 0).entry r c x z u p v
      = (if r = 0 then 1 else -1) * (if c = 0 then 1 else 2) from fun _ _ _ _ _ _ _ => rfl]
    simp [henv, pairEnv]
  have poly : ∀ (e i : Nat), ∃ p : ℝ[X], p.natDegree ≤ 1 ∧
      (∀ t, p.eval t = pairX y z (((e : ℝ) + t) / nf) i) ∧
      ∀ t, (derivative p).eval t = 1 / nf * if i = 0 then 1 else -1 := by
    intro e i
    refine ⟨C (pairX y z ((e : ℝ) / nf) i) + C ((1 / nf : ℝ) * if i = 0 then (1 : ℝ) else -1) * X, ?_, fun t => ?_, fun t => ?_⟩
    · rw [add_comm]; exact natDegree_linear_le
    · simp only [eval_add, eval_mul, eval_C, eval_X, pairX]
      split <;> ring
    · simp
  have hnode : ∀ r < 2, node (demoColloc sc 2) (r + 1) = (demoColloc sc 2).getD r 0 := by
    intro r hr
    interval_cases r <;> rfl
  have hlam : ∀ k e j q, lamAt k e j env q = 0 := by
    intro k e j q; cases q <;> rfl
  have hls : ∀ k e q, lamStart po k e env q = 0 := by
    intro k e q
    unfold lamStart
    split
    · exact hlam _ _ _ _
    · cases q <;> rfl
  rw [h.iff (by simp [pairOpts, slideOpts, Opts.default])]
  show FeasibleSpec po m.dims pairModel UserOcp.trivial _
  have hdual : ∀ {v : ℝ}, 0 ≤ v → dualLb po.mpcc ≤ ((v : ℝ) : EReal) := by
    intro v hv
    have : dualLb po.mpcc ≤ 0 := by unfold dualLb; split <;> simp
    exact this.trans (by rw [← EReal.coe_zero]; exact EReal.coe_le_coe_iff.2 hv)
  have hsig : env .sigma = σ := rfl
  constructor
  · intro s hs
    cases s with
    | xEnd k e i => exact ⟨bot_le, le_top⟩
    | st1 f k e j i => cases f <;> exact ⟨bot_le, le_top⟩
    | st2 f k e j s i =>
      cases f with
      | theta =>
        refine ⟨hdual ?_, le_top⟩
        show (0 : ℝ) ≤ if i = 0 then 1 else 0
        split <;> norm_num
      | lam => exact ⟨hdual le_rfl, le_top⟩
      | mu => exact ⟨bot_le, le_top⟩
      | alpha => exact absurd (e4.symm.trans hs.1) (by decide)
      | lamN => exact absurd (e4.symm.trans hs.1) (by decide)
      | lamP => exact absurd (e4.symm.trans hs.1) (by decide)
    | h k e =>
      obtain ⟨rfl, -⟩ := hFE k e hs.2
      have h1 : (0 : ℝ) ≤ 1 / nf := by positivity
      have a1 : (((0 : ℝ)) : EReal) ≤ ((1 / nf : ℝ) : EReal) := EReal.coe_le_coe_iff.2 h1
      have a2 : ((1 / nf : ℝ) : EReal) ≤ ((1 / nf + 1 / nf : ℝ) : EReal) := EReal.coe_le_coe_iff.2 (by linarith)
      have hv : env (.h 0 e) = 1 / nf := rfl
      rw [hv]
      simp only [varDoc, nominalH, e5, e7, e2, hnfe]
      have a3 : ((1 / nf + 1 / nf : ℝ) : EReal) = ((2 : ℝ) : EReal) * ((1 / nf : ℝ) : EReal) := by
        rw [← two_mul, EReal.coe_mul]
      rw [a3] at a2
      norm_num
      simpa using a2
    | u k i => exact ⟨bot_le, le_top⟩
    | vGlob i => exact ⟨bot_le, le_top⟩
    | sot k => exact absurd (e8.symm.trans hs.1) (by decide)
    | sElastic => rw [IsVar, e9] at hs; simp at hs
    | _ => exact hs.elim
  · intro k e hk j hj
    refine ⟨?_, ?_, ?_⟩
    · unfold UserModel.Switching
      rw [e4]
      intro s hs i hi
      obtain rfl := pair_sys hs
      simp [henv, pairEnv, UserModel.gVal, UserModel.gStewartTruthy, UserModel.Smat, UserModel.cVec,
        pairModel]
    · intro _ s hs
      obtain rfl := pair_sys hs
      show ∑ i ∈ Finset.range 2, (if i = 0 then (1 : ℝ) else 0) = 1
      simp
    · intro i hi; simp [pairModel] at hi
  · intro k e hk j hj i hi
    obtain ⟨rfl, he⟩ := hFE k e hk
    unfold RkEq
    rw [if_pos e1, hrhs, hstart, hh, e6, (h.toSetup.built.opts.integral rfl).2.1]
    obtain ⟨p, hdeg, hev, hdv⟩ := poly e i
    have key := C15_derivative hnd (p := p) (by rw [hlen]; omega) (j + 1)
    rw [hlen, Finset.sum_range_succ'] at key
    rw [hdv] at key
    have hs0 : sotVal po 0 env = 1 := by simp [sotVal, e8, const]
    rw [hs0, one_mul, ← key, add_comm]
    congr 1
    · show _ * p.eval (0 : ℝ) = _
      rw [hev, add_zero]
      rfl
    · refine Finset.sum_congr rfl fun r hr => ?_
      rw [hnode r (Finset.mem_range.1 hr), hev]
      rfl
  · intro hc; exact absurd (e1.symm.trans hc) (by decide)
  · intro _ k e hk i hi
    obtain ⟨rfl, he⟩ := hFE k e hk
    unfold EndEq
    rw [if_pos e1, hstart, e6, (h.toSetup.built.opts.integral rfl).2.2.1]
    obtain ⟨p, hdeg, hev, -⟩ := poly e i
    have key := C15_end_value hnd (p := p) (by rw [hlen]; omega)
    rw [hlen, Finset.sum_range_succ', hev 1] at key
    show pairX y z (((e : ℝ) + 1) / nf) i = _
    rw [← key, add_comm]
    congr 1
    · show _ * p.eval (0 : ℝ) = _
      rw [hev, add_zero]
      rfl
    · refine Finset.sum_congr rfl fun r hr => ?_
      rw [hnode r (Finset.mem_range.1 hr), hev]
      rfl
  · intro _ _ k e hk
    unfold UserModel.Switching
    rw [e4]
    intro s hs i hi
    obtain rfl := pair_sys hs
    simp [henv, pairEnv, UserModel.gVal, UserModel.gStewartTruthy, UserModel.Smat, UserModel.cVec,
      pairModel]
  · intro k e hk he i hi; simp [UserOcp.trivial] at hi
  · intro _ k e _ j _ i hi; simp [UserOcp.trivial] at hi
  · intro k e _ j _ q hq; simp [stageComps, UserOcp.trivial] at hq
  · intro k e _ _ q hq; simp [ctrlComps, UserOcp.trivial] at hq
  · intro q hq; simp [globComps, UserOcp.trivial] at hq
  · intro hc; exact absurd (e3.symm.trans hc) (by decide)
  · intro hu _ k e hk j hj q hq
    unfold Compl CompSat
    rw [e9]
    refine ⟨by simp [hls, hsig, hσ], fun j' hj' => by simp [hlam, hsig, hσ]⟩
  · intro hu _ k e hk j hj q hq
    unfold Compl CompSat
    rw [e9]
    simp [hls, hlam, hsig, hσ]
  · intro _ hc; exact absurd (e10.symm.trans hc) (by decide)
  · intro _ hc; exact absurd (e10.symm.trans hc) (by decide)
  · intro _ hc; exact absurd (e10.symm.trans hc) (by decide)
  · intro _ _ k hk
    have hk0 : k = 0 := by omega
    subst hk0
    simp [hnfe, hh, e7, e2, hn0]
  · intro h1; omega
  · intro _ _ hc; exact absurd (e11.symm.trans hc) (by decide)
  · intro i hi; simp [UserOcp.trivial] at hi

theorem pair_lam00 (x z p : List ℝ) (s i : Nat) : pairModel.lam00St x z p s i = 0 := by
  have hg : ∀ s i, pairModel.gVal s i x z p = 0 := by
    intro s i
    have hc : ∀ k, (pairModel.cVec s).entry k x z p = 0 := by
      intro k
      rcases s with _ | s <;> rfl
    simp [UserModel.gVal, UserModel.gStewartTruthy, pairModel] at hc ⊢
    exact Finset.sum_eq_zero fun k _ => by rw [hc]; simp
  unfold UserModel.lam00St
  simp only [hg]
  simp

/-- Every solve of the problem succeeds, whatever initial state is set. -/
theorem pair_success {T : Solver} {q : SolveResult}
    (h : SetupEx demoColloc (pairOpts sc nf) pairModel none po m oc P)
    (hfe : ∀ y z σ τ : ℝ, 0 ≤ σ → P.form.Feasible (pairEnv sc nf y z σ τ))
    (hT : Reachable demoColloc (pairOpts sc nf) pairModel none (exactOracle P) T)
    (hok : (T.solve (exactOracle P)).2 = .ok q) : q.status = .success := by
  have h' := h.toSetup
  have hp : po.pss = .stewart := h'.e_pss
  refine C100_feasible_succeeds_partial h hT (exactOracle_complete P) hok rfl (.inl rfl) fun k =>
    ⟨pairEnv sc nf (T.m.x0.getD 0 0) (T.m.x0.getD 1 0) (sigmaAt (pairOpts sc nf) k)
      (min (sigmaAt (pairOpts sc nf) k ^ (3 / 2 : ℝ)) (sigmaAt (pairOpts sc nf) k)),
      hfe _ _ _ _ (sigmaAt_pos (by norm_num [pairOpts, slideOpts, Opts.default])
        (by norm_num [pairOpts, slideOpts, Opts.default]) k).le, fun t ht => ?_, fun t _ hF => ?_⟩
  · rw [p_eq h'] at ht
    unfold pHead at ht
    simp only [List.mem_append, List.mem_flatMap, blk, List.mem_map] at ht
    rcases ht with ((⟨k, hk, i, hi', rfl⟩ | ht) | ((hb | hb) | hb)) | ⟨i, hi', rfl⟩
    · rw [h'.dims.2.2.2.2.1, h'.dims.2.2.2.2.2.1] at hi'
      simp [pairModel] at hi'
    · simp at ht
      rcases ht with rfl | rfl <;> rfl
    · obtain ⟨s, i, rfl⟩ := mem_lam00Row hb
      exact (pair_lam00 _ _ _ s i).symm
    · exfalso
      unfold lam00Row at hb
      simp [hp, Dims.famLen, blk] at hb
    · exfalso
      unfold lam00Row at hb
      simp [hp, Dims.famLen, blk] at hb
    · rw [h'.dims.1] at hi'
      have hi' : i < 2 := List.mem_range.1 hi'
      interval_cases i <;> rfl
  · obtain ⟨-, -, j, s, i, -, hlt⟩ := hF
    rw [pair_lam00] at hlt
    have hi := hT.inv h'
    have : 0 ≤ T.o.compTol := by
      rw [hi.opts, h'.opts]
      norm_num [pairOpts, slideOpts, Opts.default]
    linarith

end
end Nosnoc
