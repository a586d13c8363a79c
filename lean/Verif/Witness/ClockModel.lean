import Verif.Witness.Slide
import Verif.Props.Progress
import Verif.Spec.Clock
/-
A problem for witnesses with a clock `t` and an integral `w` of it: `ṫ = 1`, `ẇ = t` in two equal regions.
-/
namespace Nosnoc
open Polynomial

def clockModel : UserModel where
  nX := 2
  nU := 0
  nZ := 0
  nPtv := 0
  nPgl := 0
  nV := 0
  x0 := [0, 0]
  F := some [⟨2, fun row _ x _ _ _ _ => if row = 0 then 1 else x.getD 0 0⟩]
  c := some [⟨1, fun _ _ _ _ => 0⟩]
  S := some [signMat]
  gStewart := none
  alpha := none
  fx := none
  gz := ⟨0, fun _ _ _ _ _ => 0⟩
  z0 := none
  lbz := none
  ubz := none
  pTimeVarVal := none
  pGlobalVal := []
  tVar := none

/-- The default options with one control stage and `nf` finite elements, with or without FESD. -/
noncomputable def clockOpts (nf : Nat) (b : Bool) : Opts := { slideOpts 1 nf with useFesd := b }

theorem clock_setup' (b : Bool) {nf : Nat} (h0' : 0 < nf) :
    ∃ po m oc P, SetupEx demoColloc (clockOpts nf b) clockModel
      (some UserOcp.trivial) po m oc P ∧ po.rbe = true := by
  obtain ⟨po, hpo⟩ : ∃ po, (clockOpts nf b).preprocess demoColloc = .ok po :=
    flex_preOpts (by norm_num [clockOpts, slideOpts, Opts.default]) (.inl rfl)
  have h1 := preprocess_opts hpo
  have e := h1.toOpts
  have e2 : po.timeFreezing = false := by rw [e]; rfl
  obtain ⟨m, hm⟩ : ∃ m, clockModel.preprocess po = .ok m := by
    refine switched_ok (Fs := [⟨2, fun row _ x _ _ _ _ => if row = 0 then 1 else x.getD 0 0⟩])
      (cs := [⟨1, fun _ _ _ _ => 0⟩])
      (Ss := [signMat]) ⟨?_, ?_, ?_, rfl, ?_, .inr e2⟩
      ⟨rfl, rfl, rfl, rfl, ?_, rfl, le_rfl, ?_, ?_, ?_, ?_⟩ rfl
    · intro l h; cases h
    · intro l h; cases h
    · intro l h; cases h
    · intro V h; cases h
    · intro f hf
      simp only [List.mem_singleton] at hf
      rw [hf]
      simp
    · intro s hs
      obtain rfl : s = 0 := by simpa using hs
      rfl
    · intro _ s hs
      obtain rfl : s = 0 := by simpa using hs
      rfl
    · intro _ s hs i hi k hk _
      obtain rfl : s = 0 := by simpa using hs
      exact hk
    · intro _ s hs
      obtain rfl : s = 0 := by simpa using hs
      rfl
  obtain ⟨oc, hoc⟩ : ∃ oc, UserOcp.trivial.preprocess m = .ok oc := by
    obtain ⟨nC, nF, g, up, f0, acc, hp⟩ := preprocess_pre hm
    unfold UserOcp.preprocess
    rw [hp.dims]
    exact ⟨_, rfl⟩
  obtain ⟨P, hP⟩ := (C06_construct_iff (uo := some UserOcp.trivial) rfl hpo hm hoc
    (by simp [clockOpts, slideOpts, Opts.default]) (fun _ => rfl) rfl).2 ⟨by simp [clockOpts, slideOpts], rfl,
      by simp [clockOpts, slideOpts, Opts.default], fun k hk => ⟨nf, by
        show (List.replicate 1 nf)[k]? = some nf
        have hk : k < 1 := hk
        simp [hk], h0'⟩, by simp [clockOpts, slideOpts, Opts.default]⟩
  refine ⟨po, m, oc, P, ⟨⟨hP, by simp [clockOpts, slideOpts, Opts.default], fun _ => rfl⟩, rfl, by simp [UserOcp.trivial]⟩,
    ?_⟩
  obtain ⟨t, ht, hr⟩ := h1.rbe
  obtain ⟨-, -, -, htp⟩ := h1.integral rfl
  rw [htp] at ht
  have : t = 1 := by simpa [clockOpts, slideOpts, Opts.default, demoColloc] using ht.symm
  rw [hr, this]
  norm_num

theorem clock_setup {nf : Nat} (h0' : 0 < nf) :
    ∃ po m oc P, SetupEx demoColloc (slideOpts 1 nf) clockModel
      (some UserOcp.trivial) po m oc P ∧ po.rbe = true :=
  clock_setup' true h0'

/-- The solution from `(y, z)` at time `t`. -/
noncomputable def clockX (y z t : ℝ) (i : Nat) : ℝ := if i = 0 then y + t else z + y * t + t ^ 2 / 2

noncomputable def clockEnv (nf : Nat) (y z σ τ : ℝ) : Env
  | .st1 .x _ e j i => clockX y z (((e : ℝ) + if j = 0 then 1 / 3 else 1) / nf) i
  | .st2 .theta _ _ _ _ i => if i = 0 then 1 else 0
  | .h _ _ => 1 / nf
  | .x0 i => if i = 0 then y else z
  | .sigma => σ
  | .tau => τ
  | _ => 0

theorem clock_sys {s : Nat} (h : s < clockModel.nSys) : s = 0 := by
  simpa [clockModel, UserModel.nSys] using h

section
variable {po : PreOpts} {m : PreModel} {oc : PreOcp} {P : Problem} {nf : Nat} {b : Bool}

theorem clock_feasible'
    (h : SetupEx demoColloc (clockOpts nf b) clockModel (some UserOcp.trivial) po m oc P)
    (hrbe : po.rbe = true) (hnf : 0 < nf) {y z σ τ : ℝ} (hσ : 0 ≤ σ) :
    P.form.Feasible (clockEnv nf y z σ τ) := by
  have e1 : po.irkRep = .integral := h.e_irkRep
  have e2 : po.nStages = 1 := h.e_nStages
  have e3 : po.useFesd = b := h.e_useFesd
  have e5 : po.gammaH = 1 := h.e_gammaH
  have e4 : po.pss = .stewart := h.e_pss
  have e6 : po.nS = 2 := h.e_nS
  have e7 : po.terminalTime = 1 := h.e_terminalTime
  have e8 : po.sot = .none := h.e_sot
  have e9 : po.mpcc = .scholtesIneq := h.e_mpcc
  have e10 : po.stepEq = .heuristicDelta := h.e_stepEq
  have e11 : po.timeFreezing = false := h.e_timeFreezing
  have hown : ownEnd po = false := by simp [ownEnd, e1, hrbe]
  have hnfe : nfe po 0 = nf := by
    have := h.e_nfeList
    unfold nfe
    rw [this]
    rfl
  have hn0 : (nf : ℝ) ≠ 0 := by positivity
  obtain ⟨d0, -, -, -, -, -, d1, d2, d3⟩ := h.toSetup.dims
  have d0 : m.dims.nX = 2 := d0
  have hFE : ∀ k e, HasFE po k e → k = 0 ∧ e < nf := by
    intro k e hk
    have hk0 : k = 0 := by have := hk.1; omega
    subst hk0
    exact ⟨rfl, by have := hk.2; omega⟩
  set env := clockEnv nf y z σ τ with henv
  have hh : ∀ e, hVal po 0 e env = 1 / nf := by
    intro e
    unfold hVal
    split
    · rfl
    · simp [const, nominalH, e7, e2, hnfe]
  have hstart : ∀ e i, env (startX po 0 e i) = clockX y z ((e : ℝ) / nf) i := by
    intro e i
    unfold startX prevFe
    rcases Nat.eq_zero_or_pos e with rfl | he
    · simp [henv, clockEnv, clockX]
    · simp only [he, if_true]
      unfold endX
      rw [hown, e6]
      show clockX y z ((((e - 1 : Nat) : ℝ) + if 2 - 1 = 0 then 1 / 3 else 1) / nf) i = _
      simp [Nat.cast_sub (show 1 ≤ e from he)]
  have hx : ∀ k e j, (xVal po m.dims k e j env).getD 0 0
      = y + ((e : ℝ) + if j = 0 then 1 / 3 else 1) / nf := by
    intro k e j
    unfold xVal stageX evalVec
    rw [if_neg (by rw [e1]; decide), d0]
    rfl
  have hrhs : ∀ k e j i, clockModel.stageRhs po m.dims k e j i env
      = if i = 0 then 1 else y + ((e : ℝ) + if j = 0 then 1 / 3 else 1) / nf := by
    intro k e j i
    unfold UserModel.stageRhs
    rw [e4]
    simp only [UserModel.rhsStewart]
    rw [show clockModel.nSys = 1 from rfl, Finset.sum_range_one, show (clockModel.Fmat 0).nCols = 2 from rfl,
      Finset.sum_range_succ, Finset.sum_range_one]
    simp only [show ∀ r c x z u p v, (clockModel.Fmat 0).entry r c x z u p v
      = if r = 0 then 1 else x.getD 0 0 from fun _ _ _ _ _ _ _ => rfl, hx]
    simp [henv, clockEnv]
  have hlam : ∀ k e j q, lamAt k e j env q = 0 := by
    intro k e j q; cases q <;> rfl
  have hls : ∀ k e q, lamStart po k e env q = 0 := by
    intro k e q
    unfold lamStart
    split
    · exact hlam _ _ _ _
    · cases q <;> rfl
  rw [h.iff (by simp [clockOpts, slideOpts, Opts.default])]
  show FeasibleSpec po m.dims clockModel UserOcp.trivial _
  have hdual : ∀ {v : ℝ}, 0 ≤ v → dualLb po.mpcc ≤ ((v : ℝ) : EReal) := by
    intro v hv
    have : dualLb po.mpcc ≤ 0 := by unfold dualLb; split <;> simp
    exact this.trans (by rw [← EReal.coe_zero]; exact EReal.coe_le_coe_iff.2 hv)
  have hsig : env .sigma = σ := rfl
  constructor
  · intro s hs
    cases s with
    | xEnd k e i => exact ⟨bot_le, le_top⟩
    | st1 f k e j i => cases f <;> exact ⟨bot_le, le_top⟩
    | st2 f k e j s i =>
      cases f with
      | theta =>
        refine ⟨hdual ?_, le_top⟩
        show (0 : ℝ) ≤ if i = 0 then 1 else 0
        split <;> norm_num
      | lam => exact ⟨hdual le_rfl, le_top⟩
      | mu => exact ⟨bot_le, le_top⟩
      | alpha => exact absurd (e4.symm.trans hs.1) (by decide)
      | lamN => exact absurd (e4.symm.trans hs.1) (by decide)
      | lamP => exact absurd (e4.symm.trans hs.1) (by decide)
    | h k e =>
      obtain ⟨rfl, -⟩ := hFE k e hs.2
      have h1 : (0 : ℝ) ≤ 1 / nf := by positivity
      have a1 : (((0 : ℝ)) : EReal) ≤ ((1 / nf : ℝ) : EReal) := EReal.coe_le_coe_iff.2 h1
      have a2 : ((1 / nf : ℝ) : EReal) ≤ ((1 / nf + 1 / nf : ℝ) : EReal) := EReal.coe_le_coe_iff.2 (by linarith)
      have hv : env (.h 0 e) = 1 / nf := rfl
      rw [hv]
      simp only [varDoc, nominalH, e5, e7, e2, hnfe]
      have a3 : ((1 / nf + 1 / nf : ℝ) : EReal) = ((2 : ℝ) : EReal) * ((1 / nf : ℝ) : EReal) := by
        rw [← two_mul, EReal.coe_mul]
      rw [a3] at a2
      norm_num
      simpa using a2
    | u k i => exact ⟨bot_le, le_top⟩
    | vGlob i => exact ⟨bot_le, le_top⟩
    | sot k => exact absurd (e8.symm.trans hs.1) (by decide)
    | sElastic => rw [IsVar, e9] at hs; simp at hs
    | _ => exact hs.elim
  · intro k e hk j hj
    refine ⟨?_, ?_, ?_⟩
    · unfold UserModel.Switching
      rw [e4]
      intro s hs i hi
      obtain rfl := clock_sys hs
      simp [henv, clockEnv, UserModel.gVal, UserModel.gStewartTruthy, UserModel.Smat, UserModel.cVec,
        clockModel]
    · intro _ s hs
      obtain rfl := clock_sys hs
      show ∑ i ∈ Finset.range 2, (if i = 0 then (1 : ℝ) else 0) = 1
      simp
    · intro i hi; simp [clockModel] at hi
  · intro k e hk j hj i hi
    obtain ⟨rfl, he⟩ := hFE k e hk
    unfold RkEq
    rw [if_pos e1, hrhs, hstart, hh, e6, (h.toSetup.built.opts.integral rfl).2.1]
    have hnd : (0 :: demoColloc (clockOpts nf b).scheme (clockOpts nf b).nS).Nodup := (slide_colloc 1 nf).1.nodup
    have hlen : (demoColloc (clockOpts nf b).scheme (clockOpts nf b).nS).length = 2 := rfl
    let s : ℝ[X] := C ((e : ℝ) / nf) + C (1 / nf : ℝ) * X
    let p : ℝ[X] := if i = 0 then C y + s else C z + C y * s + C (1 / 2) * s ^ 2
    have hs1 : s.natDegree ≤ 1 := by
      show (C _ + C _ * X : ℝ[X]).natDegree ≤ 1
      rw [add_comm]; exact natDegree_linear_le
    have hdeg : p.natDegree ≤ 2 := by
      show (if i = 0 then C y + s else C z + C y * s + C (1 / 2) * s ^ 2).natDegree ≤ 2
      split
      · refine (natDegree_add_le _ _).trans (max_le (by simp) (by omega))
      · refine (natDegree_add_le _ _).trans (max_le ((natDegree_add_le _ _).trans (max_le (by simp) ?_)) ?_)
        · exact (natDegree_C_mul_le _ _).trans (by omega)
        · refine (natDegree_C_mul_le _ _).trans (natDegree_pow_le.trans (by omega))
    have hev : ∀ t, p.eval t = clockX y z (((e : ℝ) + t) / nf) i := by
      intro t
      show (if i = 0 then C y + s else C z + C y * s + C (1 / 2) * s ^ 2).eval t = _
      unfold clockX
      split
      · simp [s]; ring
      · simp [s]; ring
    have hdv : ∀ t, (derivative p).eval t = 1 / nf * if i = 0 then 1 else y + ((e : ℝ) + t) / nf := by
      intro t
      show (derivative (if i = 0 then C y + s else C z + C y * s + C (1 / 2) * s ^ 2)).eval t = _
      split
      · simp [s]
      · simp [s, derivative_pow]; ring
    have key := C15_derivative hnd (p := p) (by rw [hlen]; exact hdeg) (j + 1)
    rw [hlen, Finset.sum_range_succ'] at key
    have hnode : ∀ r < 2, node (demoColloc (clockOpts nf b).scheme (clockOpts nf b).nS) (r + 1)
        = if r = 0 then 1 / 3 else 1 := by
      intro r hr
      interval_cases r <;> rfl
    rw [hdv, hnode j (by omega)] at key
    have hs0 : sotVal po 0 env = 1 := by simp [sotVal, e8, const]
    rw [hs0, one_mul, ← key, add_comm]
    congr 1
    · show _ * p.eval (0 : ℝ) = _
      rw [hev, add_zero]
    · refine Finset.sum_congr rfl fun r hr => ?_
      rw [hnode r (Finset.mem_range.1 hr), hev]
      rfl
  · intro hc; exact absurd (e1.symm.trans hc) (by decide)
  · intro hc; exact absurd (hown.symm.trans hc) (by decide)
  · intro hc; exact absurd (hrbe.symm.trans hc) (by decide)
  · intro k e hk he i hi; simp [UserOcp.trivial] at hi
  · intro _ k e _ j _ i hi; simp [UserOcp.trivial] at hi
  · intro k e _ j _ q hq; simp [stageComps, UserOcp.trivial] at hq
  · intro k e _ _ q hq; simp [ctrlComps, UserOcp.trivial] at hq
  · intro q hq; simp [globComps, UserOcp.trivial] at hq
  · intro _ k e hk j hj q hq
    unfold Compl CompSat
    rw [e9]
    simp [hlam, hsig, hσ]
  · intro hu _ k e hk j hj q hq
    unfold Compl CompSat
    rw [e9]
    refine ⟨by simp [hls, hsig, hσ], fun j' hj' => by simp [hlam, hsig, hσ]⟩
  · intro hu _ k e hk j hj q hq
    unfold Compl CompSat
    rw [e9]
    simp [hls, hlam, hsig, hσ]
  · intro _ hc; exact absurd (e10.symm.trans hc) (by decide)
  · intro _ hc; exact absurd (e10.symm.trans hc) (by decide)
  · intro _ hc; exact absurd (e10.symm.trans hc) (by decide)
  · intro _ _ k hk
    have hk0 : k = 0 := by omega
    subst hk0
    simp [hnfe, hh, e7, e2, hn0]
  · intro h1; omega
  · intro _ _ hc; exact absurd (e11.symm.trans hc) (by decide)
  · intro i hi; simp [UserOcp.trivial] at hi

theorem clock_feasible
    (h : SetupEx demoColloc (slideOpts 1 nf) clockModel (some UserOcp.trivial) po m oc P)
    (hrbe : po.rbe = true) (hnf : 0 < nf) {y z σ τ : ℝ} (hσ : 0 ≤ σ) :
    P.form.Feasible (clockEnv nf y z σ τ) :=
  clock_feasible' (nf := nf) (b := true) h hrbe hnf hσ

theorem clock_lam00 (x z p : List ℝ) (s i : Nat) : clockModel.lam00St x z p s i = 0 := by
  have hg : ∀ s i, clockModel.gVal s i x z p = 0 := by
    intro s i
    have hc : ∀ k, (clockModel.cVec s).entry k x z p = 0 := by
      intro k
      rcases s with _ | s <;> rfl
    simp [UserModel.gVal, UserModel.gStewartTruthy, clockModel] at hc ⊢
    exact Finset.sum_eq_zero fun k _ => by rw [hc]; simp
  unfold UserModel.lam00St
  simp only [hg]
  simp

/-- Every solve of the problem succeeds, whatever initial state is set. -/
theorem clock_success' {T : Solver} {q : SolveResult}
    (h : SetupEx demoColloc (clockOpts nf b) clockModel none po m oc P)
    (hfe : ∀ y z σ τ : ℝ, 0 ≤ σ → P.form.Feasible (clockEnv nf y z σ τ))
    (hT : Reachable demoColloc (clockOpts nf b) clockModel none (exactOracle P) T)
    (hok : (T.solve (exactOracle P)).2 = .ok q) : q.status = .success := by
  have h' := h.toSetup
  have hp : po.pss = .stewart := h'.e_pss
  refine C100_feasible_succeeds_partial h hT (exactOracle_complete P) hok rfl (.inl rfl) fun k =>
    ⟨clockEnv nf (T.m.x0.getD 0 0) (T.m.x0.getD 1 0) (sigmaAt (clockOpts nf b) k)
      (min (sigmaAt (clockOpts nf b) k ^ (3 / 2 : ℝ)) (sigmaAt (clockOpts nf b) k)),
      hfe _ _ _ _ (sigmaAt_pos (by norm_num [clockOpts, slideOpts, Opts.default])
        (by norm_num [clockOpts, slideOpts, Opts.default]) k).le, fun t ht => ?_, fun t _ hF => ?_⟩
  · rw [p_eq h'] at ht
    unfold pHead at ht
    simp only [List.mem_append, List.mem_flatMap, blk, List.mem_map] at ht
    rcases ht with ((⟨k, hk, i, hi', rfl⟩ | ht) | ((hb | hb) | hb)) | ⟨i, hi', rfl⟩
    · rw [h'.dims.2.2.2.2.1, h'.dims.2.2.2.2.2.1] at hi'
      simp [clockModel] at hi'
    · simp at ht
      rcases ht with rfl | rfl <;> rfl
    · obtain ⟨s, i, rfl⟩ := mem_lam00Row hb
      exact (clock_lam00 _ _ _ s i).symm
    · exfalso
      unfold lam00Row at hb
      simp [hp, Dims.famLen, blk] at hb
    · exfalso
      unfold lam00Row at hb
      simp [hp, Dims.famLen, blk] at hb
    · rw [h'.dims.1] at hi'
      have hi' : i < 2 := List.mem_range.1 hi'
      interval_cases i <;> rfl
  · obtain ⟨-, -, j, s, i, -, hlt⟩ := hF
    rw [clock_lam00] at hlt
    have hi := hT.inv h'
    have : 0 ≤ T.o.compTol := by
      rw [hi.opts, h'.opts]
      norm_num [clockOpts, slideOpts, Opts.default]
    linarith

/-- Every solve of the problem succeeds, whatever initial state is set. -/
theorem clock_success {T : Solver} {q : SolveResult}
    (h : SetupEx demoColloc (slideOpts 1 nf) clockModel none po m oc P)
    (hfe : ∀ y z σ τ : ℝ, 0 ≤ σ → P.form.Feasible (clockEnv nf y z σ τ))
    (hT : Reachable demoColloc (slideOpts 1 nf) clockModel none (exactOracle P) T)
    (hok : (T.solve (exactOracle P)).2 = .ok q) : q.status = .success :=
  clock_success' (nf := nf) (b := true) h hfe hT hok

/-- The rows: component 0 is a clock, component 1 integrates the polynomial `X` of it. -/
theorem clock_rows : clockModel.Clock 0 ∧ clockModel.Integrates 1 0 X := by
  refine ⟨⟨Nat.two_pos, fun _ _ _ _ _ _ => 1, ?_, ?_⟩, ⟨Nat.one_lt_two, fun _ x _ _ _ _ => x.getD 0 0, ?_, ?_⟩⟩
  · intro s hs i _ x z u p v
    obtain rfl := clock_sys hs
    rfl
  · intro x z u p v
    show ∑ _s ∈ Finset.range 1, (1 : ℝ) = 1
    simp
  · intro s hs i _ x z u p v
    obtain rfl := clock_sys hs
    rfl
  · intro x z u p v
    show ∑ _s ∈ Finset.range 1, x.getD 0 0 = _
    simp

end
end Nosnoc
