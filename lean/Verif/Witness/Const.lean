import Verif.Witness.Flex
import Verif.Proofs.Accept
import Verif.Props.Dcs
/-
A family of problems for witnesses with one switching system of any shape: the sign matrix is `S`, the
switching functions are constants `c`, the right-hand side of region `i` is the number `i`.  One implicit
Euler step without FESD, in either representation.
-/
namespace Nosnoc

def constModel (S : SMat) (c : Nat → ℝ) : UserModel where
  nX := 1
  nU := 0
  nZ := 0
  nPtv := 0
  nPgl := 0
  nV := 0
  x0 := [0]
  F := some [⟨S.rows, fun _ i _ _ _ _ _ => i⟩]
  c := some [⟨S.cols, fun k _ _ _ => c k⟩]
  S := some [S]
  gStewart := none
  alpha := none
  fx := none
  gz := ⟨0, fun _ _ _ _ _ => 0⟩
  z0 := none
  lbz := none
  ubz := none
  pTimeVarVal := none
  pGlobalVal := []
  tVar := none

noncomputable def constOpts (pss : PssMode) (fesd : Bool := false) (pol : Bool := false) : Opts :=
  { Opts.default with
    pss := pss, useFesd := fesd, polish := pol, irkRep := .differentialLiftX, nS := 1, nFe := 1 }

section
variable {S : SMat} {c : Nat → ℝ} {pss : PssMode} {fesd pol : Bool}

theorem const_setup (hS : S.rows ≠ 1) :
    ∃ po m oc P, SetupEx oneColloc (constOpts pss fesd pol) (constModel S c) (some UserOcp.trivial) po m oc P ∧
      po.rbe = true ∧ po.aIrk 0 0 = 1 := by
  obtain ⟨po, hpo⟩ : ∃ po, (constOpts pss fesd pol).preprocess oneColloc = .ok po :=
    flex_preOpts (by norm_num [constOpts, Opts.default]) (.inr ⟨radau1, rfl, by simp [radau1]⟩)
  have h1 := preprocess_opts hpo
  have e := h1.toOpts
  have e1 : po.pss = pss := by rw [e]; rfl
  have e2 : po.timeFreezing = false := by rw [e]; rfl
  obtain ⟨m, hm⟩ : ∃ m, (constModel S c).preprocess po = .ok m := by
    refine switched_ok (Fs := [⟨S.rows, fun _ i _ _ _ _ _ => i⟩]) (cs := [⟨S.cols, fun k _ _ _ => c k⟩])
      (Ss := [S]) ⟨?_, ?_, ?_, rfl, ?_, .inr e2⟩
      ⟨rfl, rfl, rfl, rfl, ?_, rfl, le_rfl, ?_, ?_, ?_, ?_⟩ rfl
    · intro l h; cases h
    · intro l h; cases h
    · intro l h; cases h
    · intro V h; cases h
    · intro f hf
      simp only [List.mem_singleton] at hf
      rw [hf]
      exact hS
    · intro s hs
      obtain rfl : s = 0 := by simpa using hs
      rfl
    · intro _ s hs
      obtain rfl : s = 0 := by simpa using hs
      rfl
    · intro _ s hs i hi k hk _
      obtain rfl : s = 0 := by simpa using hs
      exact hk
    · intro _ s hs
      obtain rfl : s = 0 := by simpa using hs
      rfl
  obtain ⟨oc, hoc⟩ : ∃ oc, UserOcp.trivial.preprocess m = .ok oc := by
    obtain ⟨nC, nF, g, up, f0, acc, hp⟩ := preprocess_pre hm
    unfold UserOcp.preprocess
    rw [hp.dims]
    exact ⟨_, rfl⟩
  obtain ⟨P, hP⟩ := (C06_construct_iff (uo := some UserOcp.trivial) rfl hpo hm hoc
    (by simp [constOpts]) (fun _ => rfl) rfl).2 ⟨by simp [constOpts, Opts.default], rfl,
      by simp [constOpts, Opts.default], fun k hk => by
        have hk0 : k = 0 := by simpa [constOpts, Opts.default] using hk
        subst hk0
        exact ⟨1, rfl, Nat.one_pos⟩, by simp [constOpts, Opts.default]⟩
  refine ⟨po, m, oc, P, ⟨⟨hP, by simp [constOpts], fun _ => rfl⟩, rfl, by simp [UserOcp.trivial]⟩,
    ?_, ?_⟩
  · exact (h1.rbe_iff (by simp [constOpts])).2 rfl
  · obtain ⟨t, ht, hA, -, -⟩ := h1.diff (by simp [constOpts])
    have : t = radau1 := by
      have h2 : generateButcher (constOpts pss fesd pol).nS (constOpts pss fesd pol).scheme = .ok radau1 := rfl
      rw [h2] at ht; cases ht; rfl
    subst this
    rw [hA]; norm_num [matFun, radau1]

/-- Stewart's indicator values. -/
noncomputable def constG (S : SMat) (c : Nat → ℝ) (i : Nat) : ℝ :=
  -∑ k ∈ Finset.range S.cols, S.entry i k * c k

/-- Stewart: region `r` is active, in the step representation `α` is the step function. -/
noncomputable def constRhs (pss : PssMode) (S : SMat) (c : Nat → ℝ) (r : Nat) : ℝ :=
  match pss with
  | .stewart => r
  | .step => ∑ i ∈ Finset.range S.rows, (i : ℝ) * regionWeight S i fun k => if 0 < c k then 1 else 0

/-- A point with region `r` active, initial state `y`, parameters `σ, τ` and initial multipliers `l`. -/
noncomputable def constEnvP (pss : PssMode) (S : SMat) (c : Nat → ℝ) (r : Nat) (y σ τ : ℝ)
    (l : Fam2 → Nat → Nat → ℝ) : Env
  | .st1 .x _ _ _ _ => y + constRhs pss S c r
  | .st1 .v _ _ _ _ => constRhs pss S c r
  | .st2 .theta _ _ _ _ i => if i = r then 1 else 0
  | .st2 .lam _ _ _ _ i => constG S c i - constG S c r
  | .st2 .mu _ _ _ _ _ => - constG S c r
  | .st2 .alpha _ _ _ _ i => if 0 < c i then 1 else 0
  | .st2 .lamN _ _ _ _ i => max (-c i) 0
  | .st2 .lamP _ _ _ _ i => max (c i) 0
  | .h _ _ => 1
  | .x0 _ => y
  | .sigma => σ
  | .tau => τ
  | .lam00 f s i => l f s i
  | _ => 0

/-- The same with zero parameters. -/
noncomputable abbrev constEnv (pss : PssMode) (S : SMat) (c : Nat → ℝ) (r : Nat) : Env :=
  constEnvP pss S c r 0 0 0 fun _ _ _ => 0

theorem const_sys {s : Nat} (h : s < (constModel S c).nSys) : s = 0 := by
  simpa [constModel, UserModel.nSys] using h

theorem const_feasibleP {po m oc P}
    (h : SetupEx oneColloc (constOpts pss fesd pol) (constModel S c) (some UserOcp.trivial) po m oc P)
    (hrbe : po.rbe = true) (hA : po.aIrk 0 0 = 1) {r : Nat} (hr : r < S.rows)
    (hmin : ∀ i < S.rows, constG S c r ≤ constG S c i)
    {y σ τ : ℝ} {l : Fam2 → Nat → Nat → ℝ} (hσ : 0 ≤ σ) (hl : fesd = true → ∀ f s i, l f s i = 0) :
    P.form.Feasible (constEnvP pss S c r y σ τ l) := by
  have e1 : po.irkRep = .differentialLiftX := h.e_irkRep
  have e2 : po.nStages = 1 := h.e_nStages
  have e3 : po.useFesd = fesd := h.e_useFesd
  have e5 : po.gammaH = 1 := h.e_gammaH
  have e4 : po.pss = pss := h.e_pss
  have e6 : po.nS = 1 := h.e_nS
  have e7 : po.terminalTime = 1 := h.e_terminalTime
  have e8 : po.sot = .none := h.e_sot
  have e9 : po.mpcc = .scholtesIneq := h.e_mpcc
  have e11 : po.timeFreezing = false := h.e_timeFreezing
  have hown : ownEnd po = false := by simp [ownEnd, e1, hrbe]
  have hnfe : nfe po 0 = 1 := by
    have := h.e_nfeList
    unfold nfe
    rw [this]
    rfl
  obtain ⟨-, -, -, -, -, -, d1, d2, d3⟩ := h.toSetup.dims
  have hv : ∀ k e j i, constEnvP pss S c r y σ τ l (.st1 .v k e j i) = constRhs pss S c r := fun _ _ _ _ => rfl
  have hx : ∀ k e j i, constEnvP pss S c r y σ τ l (.st1 .x k e j i) = y + constRhs pss S c r := fun _ _ _ _ => rfl
  have hx0 : ∀ i, constEnvP pss S c r y σ τ l (.x0 i) = y := fun _ => rfl
  have hz : ∀ k e j i, constEnvP pss S c r y σ τ l (.st1 .z k e j i) = 0 := fun _ _ _ _ => rfl
  have hst := step_exists (n := S.cols) fun k => c k
  have hFE : ∀ k e, HasFE po k e → k = 0 ∧ e = 0 := by
    intro k e hk
    have hk0 : k = 0 := by have := hk.1; omega
    subst hk0
    exact ⟨rfl, by have := hk.2; omega⟩
  have hh : ∀ k, k = 0 → ∀ e, hVal po k e (constEnvP pss S c r y σ τ l) = 1 := by
    rintro k rfl e
    unfold hVal
    split
    · rfl
    · simp [const, nominalH, e7, e2, hnfe]
  have hrhs : ∀ k e j i, (constModel S c).stageRhs po m.dims k e j i (constEnvP pss S c r y σ τ l)
      = constRhs pss S c r := by
    intro k e j i
    unfold UserModel.stageRhs
    cases pss with
    | stewart =>
      rw [e4]
      simp [UserModel.rhsStewart, UserModel.nSys, constModel, UserModel.Fmat, constEnvP, constRhs, hr]
    | step =>
      rw [e4]
      simp [UserModel.rhsStep, UserModel.rhsStewart, UserModel.nSys, constModel, UserModel.Fmat, constEnvP,
        constRhs, UserModel.Smat]
  have hcomp : ∀ k e j q, IsPair po m.dims q →
      lamAt k e j (constEnvP pss S c r y σ τ l) q * thetaAt k e j (constEnvP pss S c r y σ τ l) q ≤ σ := by
    intro k e j q hq
    refine le_trans ?_ hσ
    cases q with
    | region s i =>
      show (constG S c i - constG S c r) * (if i = r then 1 else 0) ≤ 0
      by_cases hi : i = r
      · simp [hi]
      · simp [hi]
    | neg s i =>
      obtain ⟨hp, hs, hi⟩ := hq
      obtain rfl := const_sys (S := S) (c := c) (s := s) (by omega)
      rw [d3 hp 0 (by omega)] at hi
      have := hst.compl_neg ⟨i, hi⟩
      show max (-c i) 0 * (if 0 < c i then 1 else 0) ≤ 0
      rw [mul_comm]
      exact this.le
    | pos s i =>
      obtain ⟨hp, hs, hi⟩ := hq
      obtain rfl := const_sys (S := S) (c := c) (s := s) (by omega)
      rw [d3 hp 0 (by omega)] at hi
      have := hst.compl_pos ⟨i, hi⟩
      show max (c i) 0 * (1 - (if 0 < c i then 1 else 0)) ≤ 0
      rw [mul_comm]
      exact this.le
  rw [h.iff (by simp [constOpts, Opts.default])]
  show FeasibleSpec po m.dims (constModel S c) UserOcp.trivial _
  have hdual : ∀ {v : ℝ}, 0 ≤ v → dualLb po.mpcc ≤ ((v : ℝ) : EReal) := by
    intro v hv
    have : dualLb po.mpcc ≤ 0 := by unfold dualLb; split <;> simp
    exact this.trans (by rw [← EReal.coe_zero]; exact EReal.coe_le_coe_iff.2 hv)
  constructor
  · intro s hs
    cases s with
    | xEnd k e i => exact ⟨bot_le, le_top⟩
    | st1 f k e j i => cases f <;> exact ⟨bot_le, le_top⟩
    | st2 f k e j s i =>
      cases f with
      | theta =>
        refine ⟨hdual ?_, le_top⟩
        show (0 : ℝ) ≤ if i = r then 1 else 0
        split <;> norm_num
      | lam =>
        obtain ⟨hp, _, _, hs, hi⟩ := hs
        obtain rfl := const_sys (S := S) (c := c) (s := s) (by omega)
        rw [d2 hp 0 (by omega)] at hi
        exact ⟨hdual (sub_nonneg.2 (hmin i hi)), le_top⟩
      | mu => exact ⟨bot_le, le_top⟩
      | alpha =>
        constructor
        · refine hdual ?_
          show (0 : ℝ) ≤ if 0 < c i then 1 else 0
          split <;> norm_num
        · show (((if 0 < c i then 1 else 0 : ℝ) : ℝ) : EReal) ≤ 1
          rw [← EReal.coe_one]
          refine EReal.coe_le_coe_iff.2 ?_
          split <;> norm_num
      | lamN => exact ⟨hdual (le_max_right _ _), le_top⟩
      | lamP => exact ⟨hdual (le_max_right _ _), le_top⟩
    | h k e =>
      obtain ⟨rfl, rfl⟩ := hFE k e hs.2
      have : (1 : EReal) ≤ 1 + 1 := by
        rw [← EReal.coe_one, ← EReal.coe_add]
        exact EReal.coe_le_coe_iff.2 (by norm_num)
      simpa [varDoc, constEnvP, nominalH, e5, e7, e2, hnfe] using this
    | u k i => exact ⟨bot_le, le_top⟩
    | vGlob i => exact ⟨bot_le, le_top⟩
    | sot k => exact absurd (e8.symm.trans hs.1) (by decide)
    | sElastic => rw [IsVar, e9] at hs; simp at hs
    | _ => exact hs.elim
  · intro k e hk j hj
    refine ⟨?_, ?_, ?_⟩
    · unfold UserModel.Switching
      cases pss with
      | stewart =>
        rw [e4]
        intro s hs i hi
        obtain rfl := const_sys hs
        show constG S c i = (constG S c i - constG S c r) - -constG S c r
        ring
      | step =>
        rw [e4]
        intro s hs i hi
        obtain rfl := const_sys hs
        exact hst.eq ⟨i, hi⟩
    · intro _ s hs
      obtain rfl := const_sys hs
      show ∑ i ∈ Finset.range S.rows, (if i = r then (1 : ℝ) else 0) = 1
      simp [hr]
    · intro i hi; simp [constModel] at hi
  · intro k e hk j hj i hi
    unfold RkEq
    rw [if_neg (by rw [e1]; decide), hrhs, hv]
    simp [sotVal, e8, const]
  · intro _ k e hk j hj i hi
    have hk0 : k = 0 := by have := hk.1; omega
    subst hk0
    have he0 : e = 0 := by have := hk.2; omega
    subst he0
    have hj0 : j = 0 := by omega
    subst hj0
    unfold LiftEq
    have hs0 : startX po 0 0 i = .x0 i := by simp [startX, prevFe]
    rw [e6, Finset.sum_range_one, hA, hx, hv, hs0, hx0]
    simp [hh]
  · intro hc; exact absurd (hown.symm.trans hc) (by decide)
  · intro hc; exact absurd (hrbe.symm.trans hc) (by decide)
  · intro k e hk he i hi; simp [UserOcp.trivial] at hi
  · intro _ k e _ j _ i hi; simp [UserOcp.trivial] at hi
  · intro k e _ j _ q hq; simp [stageComps, UserOcp.trivial] at hq
  · intro k e _ _ q hq; simp [ctrlComps, UserOcp.trivial] at hq
  · intro q hq; simp [globComps, UserOcp.trivial] at hq
  · intro _ k e _ j _ q hq
    unfold Compl CompSat
    rw [e9]
    simpa [constEnvP] using hcomp k e j q hq
  · intro hu _ k e hk j hj q hq
    obtain ⟨rfl, rfl⟩ := hFE k e hk
    unfold Compl CompSat
    rw [e9]
    have h0 : lamStart po 0 0 (constEnvP pss S c r y σ τ l) q = 0 := by
      unfold lamStart
      cases q <;> exact hl (e3.symm.trans hu) _ _ _
    refine ⟨by simp [h0, constEnvP, hσ], fun j' hj' => ?_⟩
    have hj0 : j = j' := by omega
    subst hj0
    have := hcomp 0 0 j q hq
    rw [mul_comm] at this
    simpa [constEnvP] using this
  · intro hu _ k e hk j hj q hq
    obtain ⟨rfl, rfl⟩ := hFE k e hk
    unfold Compl CompSat
    rw [e9]
    have h0 : lamStart po 0 0 (constEnvP pss S c r y σ τ l) q = 0 := by
      unfold lamStart
      cases q <;> exact hl (e3.symm.trans hu) _ _ _
    have hn : nLamPts po 0 0 = 1 := by simp [nLamPts, extraPt, hrbe, e6]
    have hj0 : j = 0 := by omega
    subst hj0
    have := hcomp 0 0 0 q hq
    simp only [h0, hn]
    simpa [constEnvP] using this
  · intro _ _ k e hk he
    obtain ⟨rfl, rfl⟩ := hFE k e hk
    exact absurd he (lt_irrefl _)
  · intro _ _ k e hk he
    obtain ⟨rfl, rfl⟩ := hFE k e hk
    exact absurd he (lt_irrefl _)
  · intro _ _ k e hk he
    obtain ⟨rfl, rfl⟩ := hFE k e hk
    exact absurd he (lt_irrefl _)
  · intro _ _ k hk
    have hk0 : k = 0 := by omega
    subst hk0
    simp [hnfe, hh, e7, e2]
  · intro h1; omega
  · intro _ _ hc; exact absurd (e11.symm.trans hc) (by decide)
  · intro i hi; simp [UserOcp.trivial] at hi

theorem const_feasible {po m oc P}
    (h : SetupEx oneColloc (constOpts pss fesd pol) (constModel S c) (some UserOcp.trivial) po m oc P)
    (hrbe : po.rbe = true) (hA : po.aIrk 0 0 = 1) {r : Nat} (hr : r < S.rows)
    (hmin : ∀ i < S.rows, constG S c r ≤ constG S c i) :
    P.form.Feasible (constEnv pss S c r) :=
  const_feasibleP h hrbe hA hr hmin le_rfl fun _ _ _ _ => rfl

theorem const_lam00 (q : Pair) (r : Nat) : 0 ≤ lam00At (constEnv pss S c r) q := by
  cases q <;> exact le_rfl

theorem const_hasFE {po m oc P}
    (h : SetupEx oneColloc (constOpts pss fesd pol) (constModel S c) (some UserOcp.trivial) po m oc P) :
    HasFE po 0 0 := by
  have e2 : po.nStages = 1 := h.e_nStages
  refine ⟨by omega, ?_⟩
  have := h.e_nfeList
  unfold nfe
  rw [this]
  exact Nat.one_pos

end
end Nosnoc
