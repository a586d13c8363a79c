import Verif.Props.NearCrossingChain
import Verif.Props.CrossingEx
import Verif.Props.OscillatorEx
/-
The hypotheses of C138 are met: a system with two crossings, simulated with and without polishing with any number of
steps.
-/
namespace Nosnoc
open Polynomial

/-- Two regions, told apart by the sign of `(x - 1) (3 - x)`: velocity 1 for `x < 1` and `3 < x`, velocity 2 in
between. -/
noncomputable def twiceModel : UserModel :=
  { simplestModel 1 2 0 with c := some [⟨1, fun _ x _ _ => (x.getD 0 0 - 1) * (3 - x.getD 0 0)⟩] }

theorem twice_sys {s : Nat} (h : s < twiceModel.nSys) : s = 0 := by
  simpa [twiceModel, simplestModel, UserModel.nSys] using h

theorem twice_signs {o : Opts} : SignsOk o twiceModel := by
  intro s hs
  obtain rfl := twice_sys hs
  exact (simplest_signs (a := 1) (b := 2) (xm := 0) (o := o)) 0 (by simp [simplestModel, UserModel.nSys])

section
variable {t ct sn : ℝ} {pol : Bool}

theorem twice_setup (t : ℝ) {ct : ℝ} (hct : 0 < ct) (pol : Bool) (sn : ℝ) :
    ∃ po m oc P, SetupEx demoColloc (shipOpts t 2 pol ct sn) twiceModel none po m oc P ∧ po.rbe = true := by
  obtain ⟨po, hpo⟩ : ∃ po, (shipOpts t 2 pol ct sn).preprocess demoColloc = .ok po :=
    flex_preOpts ⟨div_pos hct (by norm_num [shipOpts, simplestOpts, Opts.default]), by
      norm_num [shipOpts, simplestOpts, Opts.default]⟩ (.inl rfl)
  have h1 := preprocess_opts hpo
  have e := h1.toOpts
  have e2 : po.timeFreezing = false := by rw [e]; rfl
  obtain ⟨m, hm⟩ : ∃ m, twiceModel.preprocess po = .ok m := by
    refine switched_ok (Fs := [⟨2, fun _ i _ _ _ _ _ => if i = 0 then 1 else 2⟩])
      (cs := [⟨1, fun _ x _ _ => (x.getD 0 0 - 1) * (3 - x.getD 0 0)⟩])
      (Ss := [⟨2, 1, fun i _ => if i = 0 then -1 else 1⟩]) ⟨?_, ?_, ?_, rfl, ?_, .inr e2⟩
      ⟨rfl, rfl, rfl, rfl, ?_, rfl, le_rfl, ?_, ?_, ?_, ?_⟩ rfl
    · intro l h; cases h
    · intro l h; cases h
    · intro l h; cases h
    · intro V h; cases h
    · intro f hf
      simp only [List.mem_singleton] at hf
      rw [hf]
      simp
    · intro s hs
      obtain rfl : s = 0 := by simpa using hs
      rfl
    · intro _ s hs
      obtain rfl : s = 0 := by simpa using hs
      rfl
    · intro _ s hs i hi k hk _
      obtain rfl : s = 0 := by simpa using hs
      exact hk
    · intro _ s hs
      obtain rfl : s = 0 := by simpa using hs
      rfl
  obtain ⟨oc, hoc⟩ : ∃ oc, UserOcp.trivial.preprocess m = .ok oc := by
    obtain ⟨nC, nF, g, up, f0, acc, hp⟩ := preprocess_pre hm
    unfold UserOcp.preprocess
    rw [hp.dims]
    exact ⟨_, rfl⟩
  obtain ⟨P, hP⟩ := (C06_construct_iff (uo := some UserOcp.trivial) rfl hpo hm hoc
    (by simp [shipOpts, simplestOpts, Opts.default]) (fun _ => rfl) rfl).2 ⟨by simp [shipOpts, simplestOpts, Opts.default], rfl,
      by simp [shipOpts, simplestOpts, Opts.default], fun k hk => ⟨2, by
        show (List.replicate 1 2)[k]? = some 2
        have hk : k < 1 := hk
        simp [hk], by omega⟩, by simp [shipOpts, simplestOpts, Opts.default]⟩
  have h0 : SetupEx demoColloc (shipOpts t 2 pol ct sn) twiceModel (some UserOcp.trivial) po m oc P :=
    ⟨⟨hP, by simp [shipOpts, simplestOpts, Opts.default], fun _ => rfl⟩, rfl, by simp [UserOcp.trivial]⟩
  refine ⟨po, m, oc, _, ⟨h0.toSetup.toNone, rfl, by simp [UserOcp.trivial]⟩, ?_⟩
  obtain ⟨t, ht, hr⟩ := h1.rbe
  obtain ⟨-, -, -, htp⟩ := h1.integral rfl
  rw [htp] at ht
  have : t = 1 := by simpa [shipOpts, simplestOpts, Opts.default, demoColloc] using ht.symm
  rw [hr, this]
  norm_num

theorem twice_plain : PlainProblem (shipOpts t 2 pol ct sn) twiceModel UserOcp.trivial where
  noGz := rfl
  noComp := rfl
  stage := fun _ => rfl
  freeze := rfl
  stepEq := by simp [shipOpts, simplestOpts, Opts.default]
  mode := by simp [shipOpts, simplestOpts, Opts.default]
  slack := by simp [shipOpts, simplestOpts, Opts.default]

/-- The Runge-Kutta points of a step of length `t` from `x` within region `r`. -/
noncomputable def twiceStage (t x : ℝ) (r e j : Nat) : ℝ :=
  x + (if r = 0 then 1 else 2) * (t / 2 * ((if e = 0 then 0 else 1) + if j = 0 then 1 / 3 else 1))

noncomputable def twiceTraj (t x : ℝ) (r : Nat) : Traj where
  x0 _ := x
  u _ _ := 0
  v _ := 0
  p _ _ := 0
  speed _ := 1
  H _ _ := t / 2
  X _ e j _ := twiceStage t x r e j
  theta _ _ _ _ i := if i = r then 1 else 0

theorem twiceTraj_stageL (t x : ℝ) (r k e j : Nat) :
    (twiceTraj t x r).stageL twiceModel k e j = [twiceStage t x r e j] := rfl

/-- The closed regions. -/
def TwiceSide (r : Nat) (x : ℝ) : Prop := if r = 0 then (x - 1) * (3 - x) ≤ 0 else 0 ≤ (x - 1) * (3 - x)

theorem twice_closed {r : Nat} (hr : r < 2) {x : ℝ} (hx : TwiceSide r x) (p : List ℝ) :
    twiceModel.InClosedRegion 0 r [x] p := by
  intro n hn
  unfold TwiceSide at hx
  obtain rfl | rfl : r = 0 ∨ r = 1 := by omega
  · show 0 ≤ (-1 : ℝ) * ((x - 1) * (3 - x))
    rw [if_pos rfl] at hx
    linarith
  · show 0 ≤ (1 : ℝ) * ((x - 1) * (3 - x))
    rw [if_neg one_ne_zero] at hx
    linarith

theorem twice_slope (t x : ℝ) {r : Nat} (hr : r < 2) (k e j i : Nat) :
    (twiceTraj t x r).slope twiceModel k e j i = if r = 0 then 1 else 2 := by
  unfold Traj.slope
  have hn : twiceModel.nSys = 1 := rfl
  rw [hn, Finset.sum_range_one]
  show ∑ i' ∈ Finset.range 2, (if i' = 0 then (1 : ℝ) else 2) * (if i' = r then (1 : ℝ) else 0) = _
  simp only [mul_ite, mul_one, mul_zero]
  rw [Finset.sum_ite_eq', if_pos (Finset.mem_range.2 hr)]

variable {po : PreOpts} {m : PreModel} {oc : PreOcp} {P : Problem}

theorem twice_nfe (h : SetupEx demoColloc (shipOpts t 2 pol ct sn) twiceModel none po m oc P) {k e : Nat}
    (hk : HasFE po k e) : k = 0 ∧ e < 2 := by
  have e1 : po.nStages = 1 := h.e_nStages
  have h1 := hk.1
  obtain rfl : k = 0 := by omega
  have h2 := hk.2
  unfold nfe at h2
  rw [h.e_nfeList] at h2
  exact ⟨rfl, h2⟩

theorem twice_solves (h : SetupEx demoColloc (shipOpts t 2 pol ct sn) twiceModel none po m oc P) (ht : 0 ≤ t)
    {x : ℝ} {r : Nat} (hr : r < 2) (hs : ∀ d, 0 ≤ d → d ≤ t → TwiceSide r (x + (if r = 0 then 1 else 2) * d)) :
    (twiceTraj t x r).Solves demoColloc twiceModel UserOcp.trivial po := by
  have e1 : po.nStages = 1 := h.e_nStages
  have e2 : nfe po 0 = 2 := by
    unfold nfe
    rw [h.e_nfeList]
    rfl
  have e3 : po.terminalTime = t := h.e_terminalTime
  have e4 : po.gammaH = 1 := h.e_gammaH
  have e6 : po.sot = .none := h.e_sot
  have e7 : po.nS = 2 := h.e_nS
  have e8 : po.irkRep = .integral := h.e_irkRep
  have e9 : po.scheme = .radauIIA := h.e_scheme
  set T := twiceTraj t x r with hT
  have hth : ∀ k e j s i, T.theta k e j s i ≠ 0 → i = r := by
    intro k e j s i hne
    by_contra hc
    exact hne (if_neg hc)
  set v : ℝ := if r = 0 then 1 else 2 with hv
  have hst : ∀ e < 2, ∀ i, T.start po 0 e i = x + v * (t / 2 * if e = 0 then 0 else 1) := by
    intro e he i
    obtain rfl | rfl : e = 0 ∨ e = 1 := by omega
    · simp [Traj.start, prevFe, hT, twiceTraj]
    · simp [Traj.start, prevFe, hT, twiceTraj, e7, twiceStage, hv]
  refine ⟨?_, ?_, ?_, ?_, ?_, ?_, ?_, ?_, ?_, ?_, ?_, ?_, ?_, ?_, ?_⟩
  · intro _ k e hk i hi
    obtain ⟨rfl, he⟩ := twice_nfe h hk
    rw [e7, e9, hst e he]
    have hcol : (demoColloc .radauIIA 2).getD 0 0 = 1 / 3 ∧ (demoColloc .radauIIA 2).getD 1 0 = 1 := by
      simp [demoColloc]
    have hE : ∀ j, twiceStage t x r e j = x + v * (t / 2 * ((if e = 0 then 0 else 1) + if j = 0 then 1 / 3 else 1)) :=
      fun j => rfl
    generalize (if e = 0 then (0 : ℝ) else 1) = E at hE ⊢
    refine ⟨C (x + v * (t / 2 * E)) + C (t / 2 * v) * X, ?_, by simp, ?_⟩
    · refine (natDegree_add_le _ _).trans (max_le (by rw [natDegree_C]; norm_num) ((natDegree_C_mul_le _ _).trans ?_))
      rw [natDegree_X]
      norm_num
    · intro j hj
      show _ = twiceStage t x r e j ∧ _ = t / 2 * (1 * T.slope twiceModel 0 e j i)
      rw [twice_slope t x hr, ← hv, hE]
      obtain rfl | rfl : j = 0 ∨ j = 1 := by omega
      · rw [hcol.1, if_pos rfl]
        constructor
        · simp only [eval_add, eval_mul, eval_C, eval_X]
          ring
        · simp
      · rw [hcol.2, if_neg one_ne_zero]
        constructor
        · simp only [eval_add, eval_mul, eval_C, eval_X]
          ring
        · simp
  · intro hc; exact absurd e8 hc
  · intro k e hk j hj s hs
    constructor
    · intro i hi
      by_cases hc : i = r
      · exact zero_le_one.trans_eq (if_pos hc).symm
      · exact (if_neg hc : T.theta k e j s i = 0).ge
    · obtain rfl := twice_sys hs
      show ∑ i ∈ Finset.range 2, (if i = r then (1 : ℝ) else 0) = 1
      rw [Finset.sum_ite_eq', if_pos (Finset.mem_range.2 hr)]
  · intro k e hk j hj s hsy i hi hne j' hj'
    obtain rfl := twice_sys hsy
    obtain rfl := hth k e j 0 i hne
    rw [twiceTraj_stageL]
    refine twice_closed hr (hs _ ?_ ?_) _
    · split <;> split <;> linarith
    · split <;> split <;> linarith
  · intro k e hk j hj s hsy i hi hne
    obtain rfl := twice_sys hsy
    obtain rfl := hth k e j 0 i hne
    obtain ⟨rfl, he⟩ := twice_nfe h hk
    have : T.startL po twiceModel 0 e = [T.start po 0 e 0] := rfl
    rw [this, hst e he]
    refine twice_closed hr (hs _ ?_ ?_) _
    · split <;> linarith
    · split <;> linarith
  · intro k e hk
    obtain ⟨rfl, he⟩ := twice_nfe h hk
    unfold nominalH
    rw [e1, e2, e3, e4]
    show _ ≤ t / 2 ∧ t / 2 ≤ _
    constructor
    · linarith
    · push_cast
      linarith
  · intro _ k hk
    obtain rfl : k = 0 := by omega
    rw [e1, e2, e3, Finset.sum_range_succ, Finset.sum_range_one]
    show t / 2 + t / 2 = _
    simp
  · intro hc _; rw [e1] at hc; omega
  · intro _ k _; rfl
  · intro h0; rw [e6] at h0; cases h0
  · intro k e _ j _ _ i _; exact ⟨bot_le, le_top⟩
  · intro k _ i hi; exact absurd hi (by simp [twiceModel, simplestModel])
  · intro i hi; exact absurd hi (by simp [twiceModel, simplestModel])
  · intro k e _ _ i hi; exact absurd hi (by simp [UserOcp.trivial])
  · intro i hi; exact absurd hi (by simp [UserOcp.trivial])

theorem twice_g (x : ℝ) (p : List ℝ) : twiceModel.gVal 0 0 [x] [] p = (x - 1) * (3 - x) ∧
    twiceModel.gVal 0 1 [x] [] p = -((x - 1) * (3 - x)) := by
  constructor <;> simp [UserModel.gVal, UserModel.gStewartTruthy, twiceModel, simplestModel, UserModel.Smat,
    UserModel.cVec]

theorem twice_gmin (x : ℝ) (p : List ℝ) :
    (⨅ i : Fin (twiceModel.Fmat 0).nCols, twiceModel.gVal 0 i [x] [] p) = -|(x - 1) * (3 - x)| := by
  obtain ⟨h0, h1⟩ := twice_g x p
  set y := (x - 1) * (3 - x)
  have hc : (twiceModel.Fmat 0).nCols = 2 := rfl
  have : Nonempty (Fin (twiceModel.Fmat 0).nCols) := ⟨⟨0, by rw [hc]; norm_num⟩⟩
  apply le_antisymm
  · rcases le_total y 0 with hy | hy
    · refine (ciInf_le (Set.finite_range _).bddBelow
        (⟨0, by rw [hc]; norm_num⟩ : Fin (twiceModel.Fmat 0).nCols)).trans ?_
      rw [abs_of_nonpos hy, neg_neg]
      exact h0.le
    · refine (ciInf_le (Set.finite_range _).bddBelow
        (⟨1, by rw [hc]; norm_num⟩ : Fin (twiceModel.Fmat 0).nCols)).trans ?_
      rw [abs_of_nonneg hy]
      exact h1.le
  · refine le_ciInf fun i => ?_
    have h2 : i.1 < 2 := i.2
    obtain e | e : i.1 = 0 ∨ i.1 = 1 := by omega
    · rw [e, h0]; exact neg_abs_le y
    · rw [e, h1]; exact neg_le_neg (le_abs_self y)

theorem twice_lam (x : ℝ) (p : List ℝ) {i : Nat} (hi : i < 2) :
    twiceModel.lam00St [x] [] p 0 i = 0 ∨ twiceModel.lam00St [x] [] p 0 i = 2 * |(x - 1) * (3 - x)| := by
  obtain ⟨h0, h1⟩ := twice_g x p
  unfold UserModel.lam00St
  rw [twice_gmin x]
  set y := (x - 1) * (3 - x)
  rcases le_total y 0 with hy | hy
  · rw [abs_of_nonpos hy]
    obtain rfl | rfl : i = 0 ∨ i = 1 := by omega
    · left; rw [h0]; ring
    · right; rw [h1]; ring
  · rw [abs_of_nonneg hy]
    obtain rfl | rfl : i = 0 ∨ i = 1 := by omega
    · right; rw [h0]; ring
    · left; rw [h1]; ring

theorem twice_separated (h : SetupEx demoColloc (shipOpts t 2 pol ct sn) twiceModel none po m oc P) {x : ℝ} {r : Nat}
    (hc : ∀ e < 2, ∀ j < 2, Clean ct |(twiceStage t x r e j - 1) * (3 - twiceStage t x r e j)| ∧
      Clean ct (2 * |(twiceStage t x r e j - 1) * (3 - twiceStage t x r e j)|)) :
    (twiceTraj t x r).Separated po twiceModel ct := by
  intro k e hk j hj s hs
  obtain ⟨rfl, he⟩ := twice_nfe h hk
  obtain rfl := twice_sys hs
  have eS : po.nS = 2 := h.e_nS
  rw [eS] at hj
  obtain ⟨c1, c2⟩ := hc e he j hj
  rw [twiceTraj_stageL]
  refine ⟨fun i hi => ⟨?_, ?_⟩, ?_⟩
  · by_cases hc : i = r
    · exact .inr (.inl (if_pos hc))
    · exact .inl (if_neg hc)
  · rcases twice_lam (twiceStage t x r e j) ((twiceTraj t x r).pL twiceModel 0) hi with g | g
    · rw [g]; exact .inl rfl
    · rw [g]; exact c2
  · rw [twice_gmin, neg_neg]
    exact c1

end

/-- The region of a state. -/
noncomputable def twiceRegion (x : ℝ) : Nat := if 1 ≤ x ∧ x < 3 then 1 else 0

theorem twiceRegion_lt (x : ℝ) : twiceRegion x < 2 := by unfold twiceRegion; split <;> omega

/-- The position at time `τ`, from 0. -/
noncomputable def twicePos (τ : ℝ) : ℝ := if τ ≤ 1 then τ else if τ ≤ 2 then 2 * τ - 1 else 1 + τ

/-- One of `n` steps per unit of time. -/
theorem twicePos_step {n : Nat} (hn : 0 < n) (k : Nat) :
    (∀ d, 0 ≤ d → d ≤ 1 / (n : ℝ) → TwiceSide (twiceRegion (twicePos (k / n)))
      (twicePos (k / n) + (if twiceRegion (twicePos (k / n)) = 0 then 1 else 2) * d)) ∧
    twicePos ((k + 1 : Nat) / n) = twicePos (k / n)
      + (if twiceRegion (twicePos (k / n)) = 0 then 1 else 2) * (1 / (n : ℝ)) := by
  have hn0 : (0 : ℝ) < n := by exact_mod_cast hn
  have hk0 : (0 : ℝ) ≤ k / n := by positivity
  have hk1 : ((k + 1 : Nat) : ℝ) / n = k / n + 1 / n := by push_cast; ring
  rw [hk1]
  have ht0 : (0 : ℝ) < 1 / n := by positivity
  have cases : (k : ℝ) / n + 1 / n ≤ 1 ∨ (1 ≤ (k : ℝ) / n ∧ (k : ℝ) / n + 1 / n ≤ 2) ∨ 2 ≤ (k : ℝ) / n := by
    rw [← add_div, div_le_one hn0, one_le_div hn0, div_le_iff₀ hn0, le_div_iff₀ hn0]
    rcases Nat.lt_or_ge k n with h | h
    · left; exact_mod_cast h
    · rcases Nat.lt_or_ge k (2 * n) with h' | h'
      · right; left; exact ⟨by exact_mod_cast h, by exact_mod_cast h'⟩
      · right; right; exact_mod_cast h'
  set τ := (k : ℝ) / n
  set t := 1 / (n : ℝ)
  rcases cases with h | ⟨h, h'⟩ | h
  · have e1 : twicePos τ = τ := if_pos (by linarith)
    have e2 : twicePos (τ + t) = τ + t := if_pos h
    have e3 : twiceRegion τ = 0 := if_neg (by intro hh; linarith [hh.1])
    rw [e1, e2, e3]
    refine ⟨fun d h1 h2 => ?_, by simp⟩
    unfold TwiceSide
    simp only [if_true]
    nlinarith
  · have e1 : twicePos τ = 2 * τ - 1 := by
      unfold twicePos
      by_cases hc : τ ≤ 1
      · rw [if_pos hc]; linarith
      · rw [if_neg hc, if_pos (by linarith)]
    have e2 : twicePos (τ + t) = 2 * (τ + t) - 1 := by
      unfold twicePos
      rw [if_neg (by linarith), if_pos h']
    have e3 : twiceRegion (2 * τ - 1) = 1 := if_pos ⟨by linarith, by linarith⟩
    rw [e1, e2, e3]
    refine ⟨fun d h1 h2 => ?_, by simp; ring⟩
    unfold TwiceSide
    simp only [one_ne_zero, if_false]
    nlinarith
  · have e1 : twicePos τ = 1 + τ := by
      unfold twicePos
      rw [if_neg (by linarith)]
      by_cases hc : τ ≤ 2
      · rw [if_pos hc]; linarith
      · rw [if_neg hc]
    have e2 : twicePos (τ + t) = 1 + (τ + t) := by
      unfold twicePos
      rw [if_neg (by linarith), if_neg (by linarith)]
    have e3 : twiceRegion (1 + τ) = 0 := if_neg (by intro hh; linarith [hh.2])
    rw [e1, e2, e3]
    refine ⟨fun d h1 h2 => ?_, by simp; ring⟩
    unfold TwiceSide
    simp only [if_true]
    nlinarith

/-- Simulations of this system from 0 over three units of time: for all numbers `n` of steps per unit of time and all
small tolerances there is an exact NLP solver with which all steps are reported as SUCCESS. -/
theorem twice_run {n : Nat} (hn : 0 < n) (pol : Bool) : ∃ c0 > 0, ∀ ct, 0 < ct → ct ≤ c0 → ∀ sn : ℝ,
    ∃ po m oc P orc S R, SimRun demoColloc (shipOpts (1 / n) 2 pol ct sn) twiceModel none po m oc P orc S [0] (3 * n)
      none R ∧ po.rbe = true := by
  have hn0 : (0 : ℝ) < n := by exact_mod_cast hn
  let val : Nat → Nat → Nat → ℝ := fun e j k =>
    |(twiceStage (1 / n) (twicePos (k / n)) (twiceRegion (twicePos (k / n))) e j - 1)
      * (3 - twiceStage (1 / n) (twicePos (k / n)) (twiceRegion (twicePos (k / n))) e j)|
  have hval : ∀ e j, ∃ c0 > 0, ∀ c ≤ c0, ∀ k < 3 * n, Clean c (val e j k) ∧ Clean c (2 * val e j k) := by
    intro e j
    obtain ⟨a, ha, ga⟩ := clean_all (3 * n) (val e j) fun k => abs_nonneg _
    obtain ⟨b, hb, gb⟩ := clean_all (3 * n) (fun k => 2 * val e j k) fun k => mul_nonneg two_pos.le (abs_nonneg _)
    exact ⟨min a b, lt_min ha hb, fun c hc k hk =>
      ⟨ga c (hc.trans (min_le_left _ _)) k hk, gb c (hc.trans (min_le_right _ _)) k hk⟩⟩
  choose c0 hc0 gc using hval
  refine ⟨min (1 / 10) (min (min (c0 0 0) (c0 0 1)) (min (c0 1 0) (c0 1 1))),
    lt_min (by norm_num) (lt_min (lt_min (hc0 _ _) (hc0 _ _)) (lt_min (hc0 _ _) (hc0 _ _))), ?_⟩
  intro ct ct0 hct sn
  have ct1 : ct ≤ 1 / 10 := hct.trans (min_le_left _ _)
  have hcl : ∀ e < 2, ∀ j < 2, ct ≤ c0 e j := by
    intro e he j hj
    have : ct ≤ min (min (c0 0 0) (c0 0 1)) (min (c0 1 0) (c0 1 1)) := hct.trans (min_le_right _ _)
    obtain ⟨h1, h2⟩ := le_min_iff.1 this
    obtain ⟨h3, h4⟩ := le_min_iff.1 h1
    obtain ⟨h5, h6⟩ := le_min_iff.1 h2
    obtain rfl | rfl : e = 0 ∨ e = 1 := by omega
    · obtain rfl | rfl : j = 0 ∨ j = 1 := by omega
      · assumption
      · assumption
    · obtain rfl | rfl : j = 0 ∨ j = 1 := by omega
      · assumption
      · assumption
  obtain ⟨po, m, oc, P, h, hr⟩ := twice_setup (1 / n) ct0 pol sn
  have e2 : nfe po 0 = 2 := by
    unfold nfe
    rw [h.e_nfeList]
    rfl
  have hL : (shipOpts (1 / n) 2 pol ct sn).nfeAfter.length = (shipOpts (1 / n) 2 pol ct sn).nStages := by
    simp [shipOpts, simplestOpts, Opts.default, Opts.nfeAfter]
  let F : List ℝ → Traj := fun l => twiceTraj (1 / n) (l.getD 0 0) (twiceRegion (l.getD 0 0))
  have hx0 : [twicePos ((0 : Nat) / n)] = [0] := by simp [twicePos]
  obtain ⟨orc, S, L, L', R, hex, hcr, hSr, hc, hrun, hR, hst, -⟩ := C132_simulated (F := F)
    (x := fun k => [twicePos (k / n)]) (N := 3 * n) h rfl rfl hr
    (.inl rfl) (.inl (by simp [SignedMode, shipOpts, simplestOpts, Opts.default])) twice_signs rfl twice_plain
    (fun _ => simplest_colloc.1) (fun _ => ct1) rfl (by norm_num [shipOpts, simplestOpts, Opts.default])
    (by norm_num [shipOpts, simplestOpts, Opts.default]) rfl rfl rfl hL one_pos
    (by simp [shipOpts, simplestOpts, Opts.default]) (.inl rfl)
    (fun s hs s' hs' => by rw [twice_sys hs, twice_sys hs']) rfl
    (fun k hk => by
      obtain ⟨s1, s2⟩ := twicePos_step hn k
      refine ⟨rfl, twice_solves h (by positivity) (twiceRegion_lt _) s1, fun _ => twice_separated h fun e he j hj =>
        gc e j ct (hcl e he j hj) k hk, ?_⟩
      rw [e2]
      show [_] = [twiceStage (1 / n) (twicePos (k / n)) (twiceRegion (twicePos (k / n))) 1 1]
      rw [s2]
      unfold twiceStage
      rw [if_neg one_ne_zero, if_neg one_ne_zero]
      congr 1
      ring)
  rw [hx0] at hc
  refine ⟨po, m, oc, P, orc, S, R, ⟨h, hSr, hL, hex, ⟨none, L, L', false, _, hc, hrun, hR⟩, ?_, ?_, rfl, rfl⟩, hr⟩
  · intro i hi
    rw [hst]
    simp [hi]
  · simp [shipOpts, simplestOpts, Opts.default]

/-- A crossing of the graph of a parabola by a line. -/
theorem parabola_crossing {ψ : (Fin 1 → ℝ) → ℝ} {σ vA vB cA cB τ T : ℝ}
    (hψ : ∀ y, ψ y = σ * ((y 0 - 1) * (3 - y 0))) (hσ : |σ| = 1) (hA : vA = 1 ∨ vA = 2) (hB : vB = 1 ∨ vB = 2)
    (h0 : 0 ≤ τ) (hT : τ + 1 / 4 ≤ T) (hmeet : cA + vA * τ = cB + vB * τ) (hslope : σ * (2 - (cA + vA * τ)) = 1)
    (hlow : ∀ t, 0 ≤ t → t ≤ τ → σ * ((cA + vA * t - 1) * (3 - (cA + vA * t))) ≤ t - τ)
    (hup : ∀ t, τ ≤ t → t ≤ τ + 1 / 4 → t - τ ≤ σ * ((cA + vA * t - 1) * (3 - (cA + vA * t))))
    (haway : ∀ t, τ ≤ t → t ≤ T → t - τ ≤ σ * ((cB + vB * t - 1) * (3 - (cB + vB * t))))
    (hrA : ∀ t, 0 ≤ t → t ≤ τ + 1 / 4 → 0 ≤ cA + vA * t ∧ cA + vA * t ≤ 9 / 2)
    (hrB : ∀ t, τ ≤ t → t ≤ T → 0 ≤ cB + vB * t ∧ cB + vB * t ≤ 9 / 2) :
    Crossing 2 2 (fun _ : Fin 1 → ℝ => fun _ => vA) (fun _ _ => vB) ψ (fun t _ => cA + vA * t) (fun t _ => cB + vB * t)
      ((2 : ℝ) • (LinearMap.proj (0 : Fin 1) : (Fin 1 → ℝ) →ₗ[ℝ] ℝ)) τ (1 / 4) T 1 6 (1 / 10) 2 (1 / 5) := by
  have nrm : ∀ y : Fin 1 → ℝ, ‖y‖ = |y 0| := by
    intro y
    rw [← Real.norm_eq_abs]
    apply le_antisymm
    · rw [pi_norm_le_iff_of_nonneg (norm_nonneg _)]
      intro i
      obtain rfl : i = 0 := Subsingleton.elim _ _
      exact le_rfl
    · exact norm_le_pi_norm y 0
  have hdiff : ∀ y z, ψ y - ψ z = σ * ((4 - y 0 - z 0) * (y 0 - z 0)) := by
    intro y z
    rw [hψ, hψ]
    ring
  have lip : ∀ (y : Fin 1 → ℝ) (w : ℝ), 0 ≤ w → w ≤ 9 / 2 → ‖y - fun _ => w‖ ≤ 1 / 10 →
      |ψ y - ψ (fun _ => w)| ≤ 6 * ‖y - fun _ => w‖ := by
    intro y w h1 h2 h3
    rw [nrm] at h3 ⊢
    rw [hdiff, abs_mul, hσ, one_mul, abs_mul]
    obtain ⟨h4, h5⟩ := abs_le.1 h3
    simp only [Pi.sub_apply] at h4 h5 ⊢
    exact mul_le_mul_of_nonneg_right (abs_le.2 ⟨by linarith, by linarith⟩) (abs_nonneg _)
  have vbA : |vA| ≤ 2 := by rcases hA with h | h <;> rw [h] <;> norm_num
  have vbB : |vB| ≤ 2 := by rcases hB with h | h <;> rw [h] <;> norm_num
  have vcA : 1 ≤ vA := by rcases hA with h | h <;> rw [h] <;> norm_num
  have vcB : 1 ≤ vB := by rcases hB with h | h <;> rw [h] <;> norm_num
  refine ⟨by norm_num, one_pos, by norm_num, by norm_num, h0, hT, smooth_line vbA _ _ _, smooth_line vbB _ _ _,
    funext fun _ => hmeet, ?_, ?_, ?_, ?_, ?_, ?_, ?_, ?_, by norm_num⟩
  · intro t h1 h2
    rw [hψ, one_mul]
    exact hlow t h1 h2
  · intro t h1 h2
    rw [hψ, one_mul]
    exact hup t h1 h2
  · intro t h1 h2
    rw [hψ, one_mul]
    exact (min_le_left _ _).trans (haway t h1 h2)
  · intro t y h1 h2 h3
    exact lip y _ (hrA t h1 h2).1 (hrA t h1 h2).2 h3
  · intro t y h1 h2 h3
    exact lip y _ (hrB t h1 h2).1 (hrB t h1 h2).2 h3
  · intro y y' h1 h2
    rw [nrm] at h1 h2 ⊢
    obtain ⟨a1, a2⟩ := abs_le.1 h1
    obtain ⟨b1, b2⟩ := abs_le.1 h2
    simp only [Pi.sub_apply] at a1 a2 b1 b2 ⊢
    set w := cA + vA * τ
    have hss : σ * σ = 1 := by rw [← abs_mul_abs_self, hσ, one_mul]
    have e : ψ y' - ψ y - ((2 : ℝ) • (LinearMap.proj (0 : Fin 1) : (Fin 1 → ℝ) →ₗ[ℝ] ℝ)) (y' - y)
        = (σ * ((w - y' 0) + (w - y 0))) * (y' 0 - y 0) := by
      rw [hdiff]
      show _ - 2 * (y' 0 - y 0) = _
      linear_combination 2 * (y' 0 - y 0) * hslope
    rw [e, abs_mul, abs_mul, hσ, one_mul]
    exact mul_le_mul_of_nonneg_right (abs_le.2 ⟨by linarith, by linarith⟩) (abs_nonneg _)
  · intro y _
    rw [nrm]
    refine ⟨?_, vbA⟩
    show 1 ≤ 2 * vA
    linarith
  · intro y _
    rw [nrm]
    refine ⟨?_, vbB⟩
    show 1 ≤ 2 * vB
    linarith

theorem twice_field (i : Nat) (p : List ℝ) :
    twiceModel.regionField (fun _ => i) [] p [] = fun _ _ => if i = 0 then (1 : ℝ) else 2 := by
  funext x k
  have hn : twiceModel.nSys = 1 := rfl
  unfold UserModel.regionField
  rw [hn, Finset.sum_range_one]
  rfl

theorem twice_surface (i : Nat) (p : List ℝ) (x : Fin 1 → ℝ) :
    twiceModel.surface i p x = (if i = 0 then (-1 : ℝ) else 1) * ((x 0 - 1) * (3 - x 0)) := by
  simp [UserModel.surface, twiceModel, simplestModel, UserModel.Smat, UserModel.cVec]

/-- The parts of the exact trajectory from 0: it enters the inner region at time 1, and leaves it at time 2. -/
noncomputable def twicePart (q : Nat) (τ : ℝ) : Fin twiceModel.nX → ℝ := fun _ =>
  if q = 0 then 0 + 1 * τ else if q = 1 then -1 + 2 * τ else 1 + 1 * τ

noncomputable def twiceMid (q : Nat) : ℝ := if q = 0 then 0 else if q = 1 then 3 / 2 else 3

noncomputable def twiceTime (q : Nat) : ℝ := if q = 0 then 1 else 2

theorem twice_chain (p : List ℝ) :
    CrossingChain 2 2 (fun q => twiceModel.regionField (fun _ => alternate 0 1 q) [] p [])
      (fun q => twiceModel.surface (alternate 0 1 (q + 1)) p) 2 twicePart twiceMid twiceTime (1 / 4) 2 1 6 (1 / 10) 2
      (1 / 5) := by
  refine ⟨rfl, ?_, ?_, ?_, ?_⟩
  · intro q hq h0
    obtain rfl : q = 1 := by omega
    norm_num [twiceMid, twiceTime]
  · intro q hq
    obtain rfl | rfl : q = 0 ∨ q = 1 := by omega
    · norm_num [twiceMid, twiceTime]
    · norm_num [twiceMid, twiceTime]
  · intro q hq
    obtain rfl | rfl : q = 0 ∨ q = 1 := by omega
    · norm_num [twiceMid, twiceTime]
    · norm_num [twiceMid, twiceTime]
  · intro q hq
    refine ⟨(2 : ℝ) • (LinearMap.proj (0 : Fin 1) : (Fin 1 → ℝ) →ₗ[ℝ] ℝ), ?_⟩
    obtain rfl | rfl : q = 0 ∨ q = 1 := by omega
    · have h := parabola_crossing (ψ := twiceModel.surface 1 p) (σ := 1) (vA := 1) (vB := 2) (cA := 0) (cB := -1)
        (τ := 1) (T := 7 / 4) (twice_surface 1 p) (by norm_num) (.inl rfl) (.inr rfl) (by norm_num) (by norm_num)
        (by norm_num) (by norm_num) (by intro t h1 h2; nlinarith) (by intro t h1 h2; nlinarith)
        (by intro t h1 h2; nlinarith) (by intro t h1 h2; constructor <;> linarith)
        (by intro t h1 h2; constructor <;> linarith)
      have e1 : (fun t => twicePart 0 (twiceMid 0 + t)) = fun t _ => 0 + 1 * t := by
        funext t j
        simp [twicePart, twiceMid]
      have e2 : (fun t => twicePart (0 + 1) (twiceMid 0 + t)) = fun t _ => -1 + 2 * t := by
        funext t j
        simp [twicePart, twiceMid]
      have e3 : twiceTime 0 - twiceMid 0 = 1 := by norm_num [twiceMid, twiceTime]
      have e4 : twiceMid (0 + 1) + 1 / 4 - twiceMid 0 = 7 / 4 := by norm_num [twiceMid]
      simp only [twice_field]
      rw [e1, e2, e3, e4]
      exact h
    · have h := parabola_crossing (ψ := twiceModel.surface 0 p) (σ := -1) (vA := 2) (vB := 1) (cA := 2) (cB := 5 / 2)
        (τ := 1 / 2) (T := 7 / 4) (twice_surface 0 p) (by norm_num) (.inr rfl) (.inl rfl) (by norm_num) (by norm_num)
        (by norm_num) (by norm_num) (by intro t h1 h2; nlinarith) (by intro t h1 h2; nlinarith)
        (by intro t h1 h2; nlinarith) (by intro t h1 h2; constructor <;> linarith)
        (by intro t h1 h2; constructor <;> linarith)
      have e1 : (fun t => twicePart 1 (twiceMid 1 + t)) = fun t _ => 2 + 2 * t := by
        funext t j
        norm_num [twicePart, twiceMid]
        ring
      have e2 : (fun t => twicePart (1 + 1) (twiceMid 1 + t)) = fun t _ => 5 / 2 + 1 * t := by
        funext t j
        norm_num [twicePart, twiceMid]
        ring
      have e3 : twiceTime 1 - twiceMid 1 = 1 / 2 := by norm_num [twiceMid, twiceTime]
      have e4 : twiceMid (1 + 1) + 1 / 4 - twiceMid 1 = 7 / 4 := by norm_num [twiceMid]
      simp only [twice_field]
      rw [e1, e2, e3, e4]
      exact h

theorem twice_const (i : Nat) (p : List ℝ) (x y : Fin twiceModel.nX → ℝ) :
    ‖twiceModel.regionField (fun _ => i) [] p [] x - twiceModel.regionField (fun _ => i) [] p [] y‖ ≤ 0 * ‖x - y‖ := by
  rw [twice_field, sub_self, norm_zero, zero_mul]

/-- The hypotheses of `C138_crossings` are met with any number of steps per unit of time. -/
theorem twice_crossRun {n : Nat} (hn : 0 < n) : ∃ c0 > 0, ∀ ct, 0 < ct → ct ≤ c0 → ∃ po m oc P orc S R p,
    CrossRun demoColloc (shipOpts (1 / n) 2 true ct) twiceModel none po m oc P orc S [0] (3 * n) none R p slideW 0 1 0 := by
  obtain ⟨c0, hc0, hrun⟩ := twice_run hn true
  refine ⟨c0, hc0, fun ct h1 h2 => ?_⟩
  obtain ⟨po, m, oc, P, orc, S, R, hsim, hr⟩ := hrun ct h1 h2 _
  refine ⟨po, m, oc, P, orc, S, R, simParams twiceModel S none 0, hsim, rfl, rfl, .inl rfl, rfl, twice_signs, rfl, rfl, rfl,
    by omega, ?_, simplest_weights, .inl hr, ?_, ?_, fun k _ => rfl, twice_const 0 _, twice_const 1 _⟩
  · norm_num [twiceModel, simplestModel, UserModel.Smat]
  · norm_num [shipOpts, simplestOpts, Opts.default]
  · show (0 : ℝ) ≤ 1 / n
    positivity

/-- The hypotheses of `C138_crossings_unpolished` are met with any number of steps per unit of time and any small
tolerance. -/
theorem twice_nearCrossRun {n : Nat} (hn : 0 < n) : ∃ c0 > 0, ∀ ct, 0 < ct → ct ≤ c0 → ∃ po m oc P orc S R p,
    NearCrossRun demoColloc (shipOpts (1 / n) 2 false ct ct) twiceModel none po m oc P orc S [0] (3 * n) none R p slideW
      0 1 0 := by
  obtain ⟨c0, hc0, hrun⟩ := twice_run hn false
  refine ⟨min c0 1, lt_min hc0 one_pos, fun ct h1 h2 => ?_⟩
  obtain ⟨po, m, oc, P, orc, S, R, hsim, hr⟩ := hrun ct h1 (h2.trans (min_le_left _ _)) ct
  refine ⟨po, m, oc, P, orc, S, R, simParams twiceModel S none 0, hsim, rfl, rfl, .inl rfl, rfl, rfl, ?_, ⟨h1, ?_⟩, rfl,
    twice_signs, rfl, rfl, rfl, by omega, ?_, simplest_weights, hr, ?_, ?_, fun k _ => rfl, twice_const 0 _, twice_const 1 _⟩
  · norm_num [shipOpts, simplestOpts, Opts.default]
  · simpa [shipOpts, simplestOpts, Opts.default] using h2.trans (min_le_right _ _)
  · norm_num [twiceModel, simplestModel, UserModel.Smat]
  · norm_num [shipOpts, simplestOpts, Opts.default]
  · show (0 : ℝ) ≤ 1 / n
    positivity

/-- The exact trajectory, composed of its parts. -/
theorem twicePos_part {τ : ℝ} (P : ℝ → Prop) (h : ∀ q ≤ 2, (∀ q' < q, twiceTime q' < τ) → (q < 2 → τ ≤ twiceTime q) →
    P (twicePart q τ (0 : Fin 1))) : P (twicePos τ) := by
  by_cases h1 : τ ≤ 1
  · have := h 0 (by norm_num) (fun q' hq' => absurd hq' (by omega)) (fun _ => by simpa [twiceTime] using h1)
    have e : twicePos τ = twicePart 0 τ (0 : Fin 1) := by simp [twicePos, twicePart, h1]
    rw [e]
    exact this
  · push Not at h1
    by_cases h2 : τ ≤ 2
    · have := h 1 (by norm_num) (fun q' hq' => by
        obtain rfl : q' = 0 := by omega
        simpa [twiceTime] using h1) (fun _ => by simpa [twiceTime] using h2)
      have e : twicePos τ = twicePart 1 τ (0 : Fin 1) := by
        simp [twicePos, twicePart, h1.not_ge, h2]
        ring
      rw [e]
      exact this
    · push Not at h2
      have := h 2 (by norm_num) (fun q' hq' => by
        obtain rfl | rfl : q' = 0 ∨ q' = 1 := by omega
        · simpa [twiceTime] using h1
        · simpa [twiceTime] using h2) (fun hc => absurd hc (by omega))
      have e : twicePos τ = twicePart 2 τ (0 : Fin 1) := by
        simp [twicePos, twicePart, h1.not_ge, h2.not_ge]
      rw [e]
      exact this

/-- The example with polishing: the states up to time 3 and both switching times are found, as exactly as one
likes. -/
example {ε : ℝ} (hε : 0 < ε) : ∃ n : Nat, 0 < n ∧ ∃ ct > 0, ∃ po m oc P orc S R p,
    CrossRun demoColloc (shipOpts (1 / n) 2 true ct) twiceModel none po m oc P orc S [0] (3 * n) none R p slideW 0 1 0 ∧
    (∀ (k : Nat) (τ y : ℝ), R.tGrid[k]? = some τ → R.xSim[k]? = some [y] → τ ≤ 3 → |y - twicePos τ| ≤ ε) ∧
    ∃ N1 N2 : Nat, N1 ≤ N2 ∧ N2 < R.tGrid.length ∧
      (∀ τ, R.tGrid[N1]? = some τ → N1 + 1 < R.tGrid.length → |τ - 1| ≤ ε) ∧
      ∀ τ, R.tGrid[N2]? = some τ → N2 + 1 < R.tGrid.length → |τ - 2| ≤ ε := by
  obtain ⟨H0, hH0, C, hmain⟩ := C138_crossings (colloc := demoColloc) (sc := simplestOpts.scheme) (n := 2)
    (rep := .integral) (by norm_num) (fun _ => simplest_colloc (sn := 1) (t := 1) (ct := 1) (nf := 2) (pol := true))
    (le_refl (0 : ℝ)) (m := 2) (by norm_num) 2 2 (η := 1 / 4) (r := 1 / 10) (by norm_num) (by norm_num) 1 6 2
  have hC : 0 < |C| + 1 := by positivity
  set v := min (min 1 H0) (ε / (|C| + 1)) with hv
  have v0 : 0 < v := lt_min (lt_min one_pos hH0) (div_pos hε hC)
  obtain ⟨⟨v1, v2⟩, v3⟩ : (v ≤ 1 ∧ v ≤ H0) ∧ v ≤ ε / (|C| + 1) := by
    rw [← le_min_iff, ← le_min_iff]
  clear_value v
  obtain ⟨n, hn⟩ := exists_nat_gt (1 / v)
  have hn0 : 0 < (n : ℝ) := lt_trans (by positivity) hn
  have hnn : 0 < n := by exact_mod_cast hn0
  have ht : 1 / (n : ℝ) ≤ v := by
    rw [div_lt_iff₀ v0] at hn
    rw [div_le_iff₀ hn0]
    linarith
  have ht0 : 0 < 1 / (n : ℝ) := by positivity
  obtain ⟨c0, hc0, hrun⟩ := twice_crossRun hnn
  obtain ⟨po, m, oc, P, orc, S, R, p, hA⟩ := hrun c0 hc0 le_rfl
  have hΔ : 1 / (n : ℝ) = (1 + (shipOpts (1 / n) 2 true c0).gammaH)
      * ((shipOpts (1 / n) 2 true c0).terminalTime / (shipOpts (1 / n) 2 true c0).nfeAfter.sum) := by
    simp [shipOpts, simplestOpts, Opts.default, Opts.nfeAfter]
    ring
  have htt : (1 / (n : ℝ)) ^ 2 ≤ v := by nlinarith
  have herr : (1 / (n : ℝ)) ^ 2 = ‖toVec twiceModel.nX [0] - twicePart 0 0‖ + (1 / (n : ℝ)) ^ 2
      + (if IrkRep.integral = IrkRep.integral then 0 else 1 / 10 ^ 11) := by
    have : toVec twiceModel.nX [0] = twicePart 0 0 := by
      funext j
      obtain ⟨j, hj⟩ := j
      obtain rfl : j = 0 := by
        have : j < 1 := hj
        omega
      simp [toVec, twicePart]
    rw [this, sub_self, norm_zero]
    simp
  obtain ⟨m1, N1, n0, n1, -, n3, -⟩ := hmain (o := shipOpts (1 / n) 2 true c0) rfl rfl rfl hA
    (twice_chain p) _ hΔ (ht.trans v2) _ herr (htt.trans v2)
  have hCe : C * (1 / (n : ℝ)) ^ 2 ≤ ε := by
    rw [le_div_iff₀ hC] at v3
    have h1 : C * (1 / (n : ℝ)) ^ 2 ≤ |C| * v := mul_le_mul (le_abs_self C) htt (by positivity) (abs_nonneg C)
    nlinarith
  have m1' : ∀ (k : Nat) (τ y : ℝ), R.tGrid[k]? = some τ → R.xSim[k]? = some [y] → τ ≤ 3 → |y - twicePos τ| ≤ ε := by
    intro k τ y h1 h2 h3
    refine twicePos_part (fun w => |y - w| ≤ ε) fun q hq h4 h5 => ?_
    exact (m1 k τ [y] h1 h2 (by simpa [twiceMid] using h3) q hq h4 h5 (0 : Fin 1)).trans hCe
  exact ⟨n, hnn, c0, hc0, po, m, oc, P, orc, S, R, p, hA, m1', N1 1, N1 2, (n1 1 (by norm_num)).1, (n1 1 (by norm_num)).2,
    fun τ h1 h2 => (n3 0 (by norm_num) τ h1 h2).trans hCe, fun τ h1 h2 => (n3 1 (by norm_num) τ h1 h2).trans hCe⟩

/-- The example without polishing: the states up to time 3 and both switching times are found, as exactly as one
likes. -/
example {ε : ℝ} (hε : 0 < ε) : ∃ n : Nat, 0 < n ∧ ∃ ct > 0, ∃ po m oc P orc S R p,
    NearCrossRun demoColloc (shipOpts (1 / n) 2 false ct ct) twiceModel none po m oc P orc S [0] (3 * n) none R p slideW
      0 1 0 ∧
    (∀ (k : Nat) (τ y : ℝ), R.tGrid[k]? = some τ → R.xSim[k]? = some [y] → τ ≤ 3 → |y - twicePos τ| ≤ ε) ∧
    ∃ N1 N2 : Nat, N1 ≤ N2 ∧ N2 < R.tGrid.length ∧
      (∀ τ, R.tGrid[N1]? = some τ → N1 + 1 < R.tGrid.length → |τ - 1| ≤ ε) ∧
      ∀ τ, R.tGrid[N2]? = some τ → N2 + 1 < R.tGrid.length → |τ - 2| ≤ ε := by
  obtain ⟨H0, hH0, C, hmain⟩ := C138_crossings_unpolished (colloc := demoColloc) (sc := simplestOpts.scheme) (n := 2)
    (rep := .integral) (by norm_num) (fun _ => simplest_colloc (sn := 1) (t := 1) (ct := 1) (nf := 2) (pol := true))
    (le_refl (0 : ℝ)) (m := 2) (by norm_num) 2 2 (η := 1 / 4) (r := 1 / 10) (by norm_num) (by norm_num) 1 6 2 (1 / 5) 1
  have hC : 0 < |C| + 1 := by positivity
  set v := min (min 1 H0) (ε / (|C| + 1)) / 4 with hv
  have v0 : 0 < v := div_pos (lt_min (lt_min one_pos hH0) (div_pos hε hC)) (by norm_num)
  obtain ⟨⟨v1, v2⟩, v3⟩ : (4 * v ≤ 1 ∧ 4 * v ≤ H0) ∧ 4 * v ≤ ε / (|C| + 1) := by
    rw [← le_min_iff, ← le_min_iff, hv]
    linarith
  clear_value v
  obtain ⟨n, hn⟩ := exists_nat_gt (1 / v)
  have hn0 : 0 < (n : ℝ) := lt_trans (by positivity) hn
  have hnn : 0 < n := by exact_mod_cast hn0
  have ht : 1 / (n : ℝ) ≤ v := by
    rw [div_lt_iff₀ v0] at hn
    rw [div_le_iff₀ hn0]
    linarith
  have ht0 : 0 < 1 / (n : ℝ) := by positivity
  obtain ⟨c0, hc0, hrun⟩ := twice_nearCrossRun hnn
  set ct := min c0 (v ^ 2) with hctd
  have hct : 0 < ct := lt_min hc0 (by positivity)
  have hct2 : ct ≤ v ^ 2 := min_le_right _ _
  have hct1 : ct ≤ c0 := min_le_left _ _
  clear_value ct
  obtain ⟨po, m, oc, P, orc, S, R, p, hA⟩ := hrun ct hct hct1
  have htol : √(finalTol (shipOpts (1 / n) 2 false ct ct)) ≤ 2 * v := by
    rw [Real.sqrt_le_left (by linarith)]
    have h1 : (1 / 4 : ℝ) ≤ √(1 / 10) := by
      rw [Real.le_sqrt (by norm_num) (by norm_num)]; norm_num
    refine max_le ?_ ?_
    · show ct / √(1 / 10) ≤ _
      rw [div_le_iff₀ (by linarith)]
      nlinarith
    · show ct ≤ _
      nlinarith
  have hΔ : 1 / (n : ℝ) = (1 + (shipOpts (1 / n) 2 false ct ct).gammaH)
      * ((shipOpts (1 / n) 2 false ct ct).terminalTime / (shipOpts (1 / n) 2 false ct ct).nfeAfter.sum) := by
    simp [shipOpts, simplestOpts, Opts.default, Opts.nfeAfter]
    ring
  have gap : ∀ x, ‖twiceModel.regionField (fun _ => 0) [] p [] x - twiceModel.regionField (fun _ => 1) [] p [] x‖ ≤ 1 := by
    intro x
    rw [twice_field, twice_field, pi_norm_le_iff_of_nonneg (by norm_num)]
    intro j
    norm_num
  have h0 : toVec twiceModel.nX [0] = twicePart 0 0 := by
    funext j
    obtain ⟨j, hj⟩ := j
    obtain rfl : j = 0 := by
      have : j < 1 := hj
      omega
    simp [toVec, twicePart]
  set err := ‖toVec twiceModel.nX [0] - twicePart 0 0‖ + (1 / (n : ℝ)) ^ 2 + √(finalTol (shipOpts (1 / n) 2 false ct ct))
      + (if IrkRep.integral = IrkRep.integral then 0 else 1 / 10 ^ 11) with herr
  have hee : 0 ≤ err ∧ err ≤ 4 * v := by
    rw [herr, h0, sub_self, norm_zero, if_pos rfl]
    exact ⟨by positivity, by nlinarith⟩
  obtain ⟨m1, N1, N2, n0, n1, -, n3, -⟩ := hmain (o := shipOpts (1 / n) 2 false ct ct) rfl rfl rfl hA
    (twice_chain p) (fun q _ u _ _ => gap _) (fun q _ u _ _ => gap _) _ hΔ (by linarith) err herr (hee.2.trans v2)
  have hCe : C * err ≤ ε := by
    rw [le_div_iff₀ hC] at v3
    have h1 : C * err ≤ |C| * (4 * v) := mul_le_mul (le_abs_self C) hee.2 hee.1 (abs_nonneg C)
    nlinarith
  have a0 := n1 0 (by norm_num)
  have a1 := n1 1 (by norm_num)
  refine ⟨n, hnn, ct, hct, po, m, oc, P, orc, S, R, p, hA, ?_, N1 0, N1 1, by simp at a0 a1; omega, by simp at a0 a1; omega,
    fun τ h1 h2 => (n3 0 (by norm_num) _ τ h1 le_rfl a0.2.1 h2).trans hCe,
    fun τ h1 h2 => (n3 1 (by norm_num) _ τ h1 le_rfl a1.2.1 h2).trans hCe⟩
  intro k τ y h1 h2 h3
  refine twicePos_part (fun w => |y - w| ≤ ε) fun q hq h4 h5 => ?_
  exact (m1 k τ [y] h1 h2 (by simpa [twiceMid] using h3) q hq h4 h5 (0 : Fin 1)).trans hCe

end Nosnoc
