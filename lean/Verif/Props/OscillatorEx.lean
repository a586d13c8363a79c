import Verif.Props.Oscillator
import Verif.Props.TrajSim
/-
The hypotheses of C133 are met: for every bound on the element length there are a simulation of the oscillator and an
exact NLP solver with which all steps are reported as SUCCESS.
-/
namespace Nosnoc
open Polynomial

/-! ### One step of the Radau IIA scheme with two stages for `x' = z x` -/

noncomputable def rdet (z : ℂ) : ℂ := 1 - 2 / 3 * z + z ^ 2 / 6

/-- The factors of the two stages. -/
noncomputable def rst (z : ℂ) (j : Nat) : ℂ := if j = 0 then (1 - z / 3) / rdet z else (1 + z / 3) / rdet z

noncomputable def oscRate (h : ℝ) (r : Nat) : ℂ := ⟨h, -(h * (if r = 0 then omegaOsc else -omegaOsc))⟩

theorem radau_colloc {z : ℂ} (hz : rdet z ≠ 0) (x : ℂ) :
    (9 * (rst z 0 * x) - rst z 1 * x - 8 * x) / 2
        + 2 / 3 * (rst z 1 * x - x - (9 * (rst z 0 * x) - rst z 1 * x - 8 * x) / 2) = z * (rst z 0 * x) ∧
    (9 * (rst z 0 * x) - rst z 1 * x - 8 * x) / 2
        + 2 * (rst z 1 * x - x - (9 * (rst z 0 * x) - rst z 1 * x - 8 * x) / 2) = z * (rst z 1 * x) := by
  have e0 : rst z 0 * rdet z = 1 - z / 3 := by simp [rst, hz]
  have e1 : rst z 1 * rdet z = 1 + z / 3 := by simp [rst, hz]
  constructor
  · apply mul_right_cancel₀ hz
    have : ∀ a b d : ℂ, ((9 * (a * x) - b * x - 8 * x) / 2
        + 2 / 3 * (b * x - x - (9 * (a * x) - b * x - 8 * x) / 2)) * d
        = ((9 * (a * d) - (b * d) - 8 * d) / 2 + 2 / 3 * (b * d - d - (9 * (a * d) - b * d - 8 * d) / 2)) * x := by
      intro a b d; ring
    rw [this, e0, e1, mul_assoc, mul_assoc, mul_comm x, ← mul_assoc, ← mul_assoc, mul_assoc z, e0]
    unfold rdet
    ring
  · apply mul_right_cancel₀ hz
    have : ∀ a b d : ℂ, ((9 * (a * x) - b * x - 8 * x) / 2
        + 2 * (b * x - x - (9 * (a * x) - b * x - 8 * x) / 2)) * d
        = ((9 * (a * d) - (b * d) - 8 * d) / 2 + 2 * (b * d - d - (9 * (a * d) - b * d - 8 * d) / 2)) * x := by
      intro a b d; ring
    rw [this, e0, e1, mul_assoc, mul_assoc, mul_comm x, ← mul_assoc, ← mul_assoc, mul_assoc z, e1]
    unfold rdet
    ring

theorem omega_sq : 0 ≤ omegaOsc ^ 2 ∧ omegaOsc ^ 2 ≤ 40 := by
  refine ⟨sq_nonneg _, ?_⟩
  unfold omegaOsc
  have := Real.pi_lt_d2
  have := Real.pi_pos
  nlinarith

/-- The rate as a complex number. -/
theorem rate_eq (h : ℝ) (r : Nat) : ∃ w : ℝ, 0 ≤ w ^ 2 ∧ w ^ 2 ≤ 40 ∧ oscRate h r = ⟨h, -(h * w)⟩ := by
  obtain ⟨a, b⟩ := omega_sq
  unfold oscRate
  split
  · exact ⟨_, a, b, rfl⟩
  · exact ⟨-omegaOsc, by rwa [neg_sq], by rwa [neg_sq], rfl⟩

theorem rdet_eq (h w : ℝ) :
    rdet ⟨h, -(h * w)⟩ = ⟨1 - 2 / 3 * h + h ^ 2 * (1 - w ^ 2) / 6, 2 / 3 * (h * w) - h ^ 2 * w / 3⟩ := by
  unfold rdet
  apply Complex.ext <;> simp [pow_two, Complex.div_re, Complex.div_im] <;> norm_num [Complex.normSq] <;> ring

theorem rdet_ne {h : ℝ} (h0 : 0 ≤ h) (h1 : h ≤ 1 / 10) (r : Nat) : rdet (oscRate h r) ≠ 0 := by
  obtain ⟨w, w0, w1, e⟩ := rate_eq h r
  rw [e]
  intro hz
  have := congrArg Complex.re hz
  rw [rdet_eq] at this
  simp only [Complex.zero_re] at this
  have : h ^ 2 * w ^ 2 ≤ (1 / 10) ^ 2 * 40 := mul_le_mul (pow_le_pow_left₀ h0 h1 2) w1 w0 (by positivity)
  nlinarith

theorem num_eq (h w : ℝ) : (1 - (⟨h, -(h * w)⟩ : ℂ) / 3 = ⟨1 - h / 3, h * w / 3⟩) ∧
    (1 + (⟨h, -(h * w)⟩ : ℂ) / 3 = ⟨1 + h / 3, -(h * w / 3)⟩) := by
  constructor <;> apply Complex.ext <;> simp [Complex.div_re, Complex.div_im] <;> norm_num [Complex.normSq] <;> ring

/-- The norm grows: the first stage is not nearer to the origin than the beginning ... -/
theorem radau_first {h : ℝ} (h0 : 0 ≤ h) (h1 : h ≤ 1 / 10) (r : Nat) :
    1 ≤ Complex.normSq (rst (oscRate h r) 0) := by
  have hz := rdet_ne h0 h1 r
  obtain ⟨w, w0, w1, e⟩ := rate_eq h r
  rw [e] at hz ⊢
  have hp : 0 < Complex.normSq (rdet ⟨h, -(h * w)⟩) := Complex.normSq_pos.2 hz
  unfold rst
  rw [if_pos rfl, Complex.normSq_div, le_div_iff₀ hp, one_mul, (num_eq h w).1, rdet_eq]
  simp only [Complex.normSq_mk]
  set v := w ^ 2 with hv
  have e1 : (1 - h / 3) * (1 - h / 3) + h * w / 3 * (h * w / 3)
      - ((1 - 2 / 3 * h + h ^ 2 * (1 - v) / 6) * (1 - 2 / 3 * h + h ^ 2 * (1 - v) / 6) +
        (2 / 3 * (h * w) - h ^ 2 * w / 3) * (2 / 3 * (h * w) - h ^ 2 * w / 3))
      = 2 / 3 * (h * (1 - h)) + 2 / 9 * ((1 + v) * h ^ 3) * (1 - (1 + v) * h / 8) := by
    rw [hv]; ring
  have e2 : 0 ≤ h * (1 - h) := mul_nonneg h0 (by linarith)
  have e3 : (1 + v) * h ≤ 41 * (1 / 10) := mul_le_mul (by linarith) h1 h0 (by norm_num)
  have e4 : 0 ≤ 2 / 9 * ((1 + v) * h ^ 3) * (1 - (1 + v) * h / 8) :=
    mul_nonneg (by positivity) (by linarith)
  linarith

/-- ... and not further away than the end. -/
theorem radau_second {h : ℝ} (h0 : 0 ≤ h) (h1 : h ≤ 1 / 10) (r : Nat) :
    Complex.normSq (rst (oscRate h r) 0) ≤ Complex.normSq (rst (oscRate h r) 1) := by
  have hz := rdet_ne h0 h1 r
  obtain ⟨w, w0, w1, e⟩ := rate_eq h r
  rw [e] at hz ⊢
  have hp : 0 < Complex.normSq (rdet ⟨h, -(h * w)⟩) := Complex.normSq_pos.2 hz
  unfold rst
  rw [if_pos rfl, if_neg one_ne_zero, Complex.normSq_div, Complex.normSq_div, (num_eq h w).1, (num_eq h w).2]
  refine div_le_div_of_nonneg_right ?_ hp.le
  simp only [Complex.normSq_mk]
  nlinarith

theorem rst_zero (r j : Nat) : rst (oscRate 0 r) j = 1 := by
  have : oscRate 0 r = 0 := by
    apply Complex.ext <;> simp [oscRate]
  rw [this]
  unfold rst rdet
  split <;> simp

/-! ### Steps with at most one switch -/

/-- The side of region `r` of the circle. -/
def Side (r : Nat) (c : ℂ) : Prop := if r = 0 then 1 ≤ Complex.normSq c else Complex.normSq c ≤ 1

/-- Two elements, of lengths `H0`, `H1`, in the regions `r0`, `r1`. -/
structure OscStep (t : ℝ) (c : ℂ) (H0 H1 : ℝ) (r0 r1 : Nat) : Prop where
  r : r0 < 2 ∧ r1 < 2
  h : 0 ≤ H0 ∧ 0 ≤ H1 ∧ H0 + H1 = t
  first : Side r0 c ∧ ∀ j < 2, Side r0 (rst (oscRate H0 r0) j * c)
  second : ∀ j < 2, Side r1 (rst (oscRate H1 r1) j * (rst (oscRate H0 r0) 1 * c))
  mid : Side r1 (rst (oscRate H0 r0) 1 * c)

theorem side_out {h : ℝ} (h0 : 0 ≤ h) (h1 : h ≤ 1 / 10) {c : ℂ} (hc : 1 ≤ Complex.normSq c) :
    ∀ j < 2, Side 0 (rst (oscRate h 0) j * c) := by
  intro j hj
  unfold Side
  rw [if_pos rfl, Complex.normSq_mul]
  have a := radau_first h0 h1 0
  have b := a.trans (radau_second h0 h1 0)
  obtain rfl | rfl : j = 0 ∨ j = 1 := by omega
  · exact one_le_mul_of_one_le_of_one_le a hc
  · exact one_le_mul_of_one_le_of_one_le b hc

theorem side_in {h : ℝ} (h0 : 0 ≤ h) (h1 : h ≤ 1 / 10) {c : ℂ}
    (hc : Complex.normSq (rst (oscRate h 1) 1 * c) ≤ 1) :
    ∀ j < 2, Side 1 (rst (oscRate h 1) j * c) := by
  intro j hj
  unfold Side
  rw [if_neg one_ne_zero]
  obtain rfl | rfl : j = 0 ∨ j = 1 := by omega
  · refine le_trans ?_ hc
    rw [Complex.normSq_mul, Complex.normSq_mul]
    exact mul_le_mul_of_nonneg_right (radau_second h0 h1 1) (Complex.normSq_nonneg c)
  · exact hc

theorem rate_cont (r : Nat) : Continuous fun h : ℝ => oscRate h r := by
  have : (fun h : ℝ => oscRate h r)
      = fun h : ℝ => (h : ℂ) + (-(h * (if r = 0 then omegaOsc else -omegaOsc)) : ℝ) * Complex.I := by
    funext h
    unfold oscRate
    apply Complex.ext <;> simp
  rw [this]
  fun_prop

theorem oscStep_exists {t : ℝ} (h0 : 0 ≤ t) (h1 : t ≤ 1 / 10) (c : ℂ) :
    ∃ H0 H1 r0 r1, OscStep t c H0 H1 r0 r1 := by
  by_cases hc : 1 ≤ Complex.normSq c
  · have := side_out h0 h1 hc
    refine ⟨t, 0, 0, 0, ⟨by omega, by omega⟩, ⟨h0, le_rfl, add_zero t⟩, ⟨hc, this⟩, fun j hj => ?_,
      this 1 (by omega)⟩
    rw [rst_zero, one_mul]
    exact this 1 (by omega)
  · have hc := (not_le.1 hc).le
    by_cases hT : Complex.normSq (rst (oscRate t 1) 1 * c) ≤ 1
    · have := side_in h0 h1 hT
      refine ⟨t, 0, 1, 1, ⟨by omega, by omega⟩, ⟨h0, le_rfl, add_zero t⟩, ⟨hc, this⟩, fun j hj => ?_,
        this 1 (by omega)⟩
      rw [rst_zero, one_mul]
      exact this 1 (by omega)
    · have hcont : ContinuousOn (fun h : ℝ => Complex.normSq (rst (oscRate h 1) 1 * c)) (Set.Icc 0 t) := by
        refine Complex.continuous_normSq.comp_continuousOn (ContinuousOn.mul ?_ continuousOn_const)
        unfold rst
        simp only [one_ne_zero, if_false]
        have hr := rate_cont 1
        refine ContinuousOn.div (by fun_prop) (by unfold rdet; fun_prop) fun h hh => ?_
        exact rdet_ne hh.1 (hh.2.trans h1) 1
      have := intermediate_value_Icc h0 hcont
      obtain ⟨h, hh, he⟩ := this ⟨by simpa [rst_zero] using hc, (not_le.1 hT).le⟩
      have he : Complex.normSq (rst (oscRate h 1) 1 * c) = 1 := he
      refine ⟨h, t - h, 1, 0, ⟨by omega, by omega⟩, ⟨hh.1, by linarith [hh.2], by ring⟩,
        ⟨hc, side_in hh.1 (hh.2.trans h1) he.le⟩, ?_, he.ge⟩
      exact side_out (by linarith [hh.2]) (by linarith [hh.1]) he.ge

/-! ### The trajectories -/

noncomputable def cpt (i : Nat) (c : ℂ) : ℝ := if i = 0 then c.re else c.im

noncomputable def oscStage (c : ℂ) (H0 H1 : ℝ) (r0 r1 e j : Nat) : ℂ :=
  if e = 0 then rst (oscRate H0 r0) j * c else rst (oscRate H1 r1) j * (rst (oscRate H0 r0) 1 * c)

noncomputable def oscTraj (c : ℂ) (H0 H1 : ℝ) (r0 r1 : Nat) : Traj where
  x0 i := cpt i c
  u _ _ := 0
  v _ := 0
  p _ _ := 0
  speed _ := 1
  H _ e := if e = 0 then H0 else H1
  X _ e j i := cpt i (oscStage c H0 H1 r0 r1 e j)
  theta _ e _ _ i := if i = (if e = 0 then r0 else r1) then 1 else 0

theorem oscTraj_stageL (c : ℂ) (H0 H1 : ℝ) (r0 r1 k e j : Nat) :
    (oscTraj c H0 H1 r0 r1).stageL oscillatorModel k e j
      = [(oscStage c H0 H1 r0 r1 e j).re, (oscStage c H0 H1 r0 r1 e j).im] := rfl

theorem osc_closed {r : Nat} (hr : r < 2) {c : ℂ} (hc : Side r c) (p : List ℝ) :
    oscillatorModel.InClosedRegion 0 r [c.re, c.im] p := by
  intro n hn
  have e : Complex.normSq c = c.re ^ 2 + c.im ^ 2 := by rw [Complex.normSq_apply]; ring
  unfold Side at hc
  rw [e] at hc
  obtain rfl | rfl : r = 0 ∨ r = 1 := by omega
  · show 0 ≤ (1 : ℝ) * (c.re ^ 2 + c.im ^ 2 - 1)
    rw [if_pos rfl] at hc
    linarith
  · show 0 ≤ (-1 : ℝ) * (c.re ^ 2 + c.im ^ 2 - 1)
    rw [if_neg one_ne_zero] at hc
    linarith

/-- The velocity is the rate times the state. -/
theorem osc_slope (c : ℂ) (H0 H1 : ℝ) {r0 r1 : Nat} (h0 : r0 < 2) (h1 : r1 < 2) (k e j : Nat) {i : Nat} (hi : i < 2) :
    (if e = 0 then H0 else H1) * (1 * (oscTraj c H0 H1 r0 r1).slope oscillatorModel k e j i)
      = cpt i (oscRate (if e = 0 then H0 else H1) (if e = 0 then r0 else r1) * oscStage c H0 H1 r0 r1 e j) := by
  have key : (oscTraj c H0 H1 r0 r1).slope oscillatorModel k e j i
      = oscField i (if e = 0 then r0 else r1) [(oscStage c H0 H1 r0 r1 e j).re, (oscStage c H0 H1 r0 r1 e j).im] := by
    unfold Traj.slope
    rw [oscTraj_stageL]
    have hn : oscillatorModel.nSys = 1 := rfl
    rw [hn, Finset.sum_range_one]
    show ∑ i' ∈ Finset.range 2, oscField i i' _ * (if i' = (if e = 0 then r0 else r1) then (1 : ℝ) else 0) = _
    simp only [mul_ite, mul_one, mul_zero]
    rw [Finset.sum_ite_eq', if_pos (Finset.mem_range.2 (by split <;> assumption))]
  rw [key]
  set H := if e = 0 then H0 else H1
  set r := if e = 0 then r0 else r1
  set s := oscStage c H0 H1 r0 r1 e j
  unfold oscField oscRate cpt
  obtain rfl | rfl : i = 0 ∨ i = 1 := by omega
  · by_cases hr : r = 0 <;> simp [Complex.mul_re, hr] <;> ring
  · by_cases hr : r = 0 <;> simp [Complex.mul_im, hr] <;> ring

theorem cpt_add (i : Nat) (a b : ℂ) : cpt i (a + b) = cpt i a + cpt i b := by unfold cpt; split <;> simp
theorem cpt_sub (i : Nat) (a b : ℂ) : cpt i (a - b) = cpt i a - cpt i b := by unfold cpt; split <;> simp
theorem cpt_real (i : Nat) (a : ℝ) (b : ℂ) : cpt i (a * b) = a * cpt i b := by unfold cpt; split <;> simp

section
variable {t ct sn : ℝ} {pol : Bool}

theorem osc_setup_pss (p : PssMode) (t : ℝ) {ct : ℝ} (hct : 0 < ct) (pol : Bool := true) (sn : ℝ := 1 / 10 ^ 8) :
    ∃ po m oc P, SetupEx demoColloc { shipOpts t 2 pol ct sn with pss := p } oscillatorModel none po m oc P ∧ po.rbe = true := by
  obtain ⟨po, hpo⟩ : ∃ po, ({ shipOpts t 2 pol ct sn with pss := p } : Opts).preprocess demoColloc = .ok po :=
    flex_preOpts ⟨div_pos hct (by norm_num [shipOpts, simplestOpts, Opts.default]), by
      norm_num [shipOpts, simplestOpts, Opts.default]⟩ (.inl rfl)
  have h1 := preprocess_opts hpo
  have e := h1.toOpts
  have e2 : po.timeFreezing = false := by rw [e]; rfl
  obtain ⟨m, hm⟩ : ∃ m, oscillatorModel.preprocess po = .ok m := by
    refine switched_ok (Fs := [⟨2, fun row i x _ _ _ _ => oscField row i x⟩])
      (cs := [⟨1, fun _ x _ _ => x.getD 0 0 ^ 2 + x.getD 1 0 ^ 2 - 1⟩])
      (Ss := [⟨2, 1, fun i _ => if i = 0 then 1 else -1⟩]) ⟨?_, ?_, ?_, rfl, ?_, .inr e2⟩
      ⟨rfl, rfl, rfl, rfl, ?_, rfl, le_rfl, ?_, ?_, ?_, ?_⟩ rfl
    · intro l h; cases h
    · intro l h; cases h
    · intro l h; cases h
    · intro V h; cases h
    · intro f hf
      simp only [List.mem_singleton] at hf
      rw [hf]
      simp
    · intro s hs
      obtain rfl : s = 0 := by simpa using hs
      rfl
    · intro _ s hs
      obtain rfl : s = 0 := by simpa using hs
      rfl
    · intro _ s hs i hi k hk _
      obtain rfl : s = 0 := by simpa using hs
      exact hk
    · intro _ s hs
      obtain rfl : s = 0 := by simpa using hs
      rfl
  obtain ⟨oc, hoc⟩ : ∃ oc, UserOcp.trivial.preprocess m = .ok oc := by
    obtain ⟨nC, nF, g, up, f0, acc, hp⟩ := preprocess_pre hm
    unfold UserOcp.preprocess
    rw [hp.dims]
    exact ⟨_, rfl⟩
  obtain ⟨P, hP⟩ := (C06_construct_iff (uo := some UserOcp.trivial) rfl hpo hm hoc
    (by simp [shipOpts, simplestOpts, Opts.default]) (fun _ => rfl) rfl).2 ⟨by simp [shipOpts, simplestOpts, Opts.default], rfl,
      by simp [shipOpts, simplestOpts, Opts.default], fun k hk => ⟨2, by
        show (List.replicate 1 2)[k]? = some 2
        have hk : k < 1 := hk
        simp [hk], by omega⟩, by simp [shipOpts, simplestOpts, Opts.default]⟩
  have h0 : SetupEx demoColloc { shipOpts t 2 pol ct sn with pss := p } oscillatorModel (some UserOcp.trivial) po m oc P :=
    ⟨⟨hP, by simp [shipOpts, simplestOpts, Opts.default], fun _ => rfl⟩, rfl, by simp [UserOcp.trivial]⟩
  refine ⟨po, m, oc, _, ⟨h0.toSetup.toNone, rfl, by simp [UserOcp.trivial]⟩, ?_⟩
  obtain ⟨t, ht, hr⟩ := h1.rbe
  obtain ⟨-, -, -, htp⟩ := h1.integral rfl
  rw [htp] at ht
  have : t = 1 := by simpa [shipOpts, simplestOpts, Opts.default, demoColloc] using ht.symm
  rw [hr, this]
  norm_num

theorem osc_setup (t : ℝ) {ct : ℝ} (hct : 0 < ct) (pol : Bool := true) (sn : ℝ := 1 / 10 ^ 8) :
    ∃ po m oc P, SetupEx demoColloc (shipOpts t 2 pol ct sn) oscillatorModel none po m oc P ∧ po.rbe = true :=
  osc_setup_pss .stewart t hct pol sn

theorem osc_plain : PlainProblem (shipOpts t 2 pol ct sn) oscillatorModel UserOcp.trivial where
  noGz := rfl
  noComp := rfl
  stage := fun _ => rfl
  freeze := rfl
  stepEq := by simp [shipOpts, simplestOpts, Opts.default]
  mode := by simp [shipOpts, simplestOpts, Opts.default]
  slack := by simp [shipOpts, simplestOpts, Opts.default]

variable {po : PreOpts} {m : PreModel} {oc : PreOcp} {P : Problem}

theorem osc_nfe (h : SetupEx demoColloc (shipOpts t 2 pol ct sn) oscillatorModel none po m oc P) {k e : Nat}
    (hk : HasFE po k e) : k = 0 ∧ e < 2 := by
  have e1 : po.nStages = 1 := h.e_nStages
  have h1 := hk.1
  obtain rfl : k = 0 := by omega
  have h2 := hk.2
  unfold nfe at h2
  rw [h.e_nfeList] at h2
  exact ⟨rfl, h2⟩

theorem osc_solves (h : SetupEx demoColloc (shipOpts t 2 pol ct sn) oscillatorModel none po m oc P)
    (ht : t ≤ 1 / 10) {c : ℂ} {H0 H1 : ℝ} {r0 r1 : Nat} (hS : OscStep t c H0 H1 r0 r1) :
    (oscTraj c H0 H1 r0 r1).Solves demoColloc oscillatorModel UserOcp.trivial po := by
  have e1 : po.nStages = 1 := h.e_nStages
  have e2 : nfe po 0 = 2 := by
    unfold nfe
    rw [h.e_nfeList]
    rfl
  have e3 : po.terminalTime = t := h.e_terminalTime
  have e4 : po.gammaH = 1 := h.e_gammaH
  have e5 : po.equidistant = true := h.e_equidistant
  have e6 : po.sot = .none := h.e_sot
  have e7 : po.nS = 2 := h.e_nS
  have e8 : po.irkRep = .integral := h.e_irkRep
  have e9 : po.scheme = .radauIIA := h.e_scheme
  obtain ⟨⟨hr0, hr1⟩, ⟨p0, p1, p2⟩, ⟨a0, a1⟩, b1, b0⟩ := hS
  set T := oscTraj c H0 H1 r0 r1 with hT
  have hth : ∀ k e j s i, T.theta k e j s i ≠ 0 → i = if e = 0 then r0 else r1 := by
    intro k e j s i hne
    by_contra hc
    exact hne (if_neg hc)
  have hst : ∀ e < 2, ∀ i, T.start po 0 e i = cpt i (if e = 0 then c else rst (oscRate H0 r0) 1 * c) := by
    intro e he i
    obtain rfl | rfl : e = 0 ∨ e = 1 := by omega
    · simp [Traj.start, prevFe, hT, oscTraj]
    · simp [Traj.start, prevFe, hT, oscTraj, e7, oscStage]
  refine ⟨?_, ?_, ?_, ?_, ?_, ?_, ?_, ?_, ?_, ?_, ?_, ?_, ?_, ?_, ?_⟩
  · intro _ k e hk i hi
    obtain ⟨rfl, he⟩ := osc_nfe h hk
    have hi : i < 2 := hi
    rw [e7, e9, hst e he]
    have hcol : (demoColloc .radauIIA 2).getD 0 0 = 1 / 3 ∧ (demoColloc .radauIIA 2).getD 1 0 = 1 := by
      simp [demoColloc]
    set x := if e = 0 then c else rst (oscRate H0 r0) 1 * c with hx
    set H := if e = 0 then H0 else H1 with hH
    set r := if e = 0 then r0 else r1 with hr
    have hHb : 0 ≤ H ∧ H ≤ 1 / 10 := by rw [hH]; split <;> constructor <;> linarith
    have hstage : ∀ j, oscStage c H0 H1 r0 r1 e j = rst (oscRate H r) j * x := by
      intro j
      rw [hx, hH, hr]
      unfold oscStage
      split <;> rfl
    obtain ⟨c1, c2⟩ := radau_colloc (rdet_ne hHb.1 hHb.2 r) x
    set A : ℝ := (9 * cpt i (rst (oscRate H r) 0 * x) - cpt i (rst (oscRate H r) 1 * x) - 8 * cpt i x) / 2 with hA
    set B : ℝ := cpt i (rst (oscRate H r) 1 * x) - cpt i x - A with hB
    have d1 : A + 2 / 3 * B = cpt i (oscRate H r * (rst (oscRate H r) 0 * x)) := by
      rw [← c1, hB, hA]
      unfold cpt
      split <;> simp <;> ring
    have d2 : A + 2 * B = cpt i (oscRate H r * (rst (oscRate H r) 1 * x)) := by
      rw [← c2, hB, hA]
      unfold cpt
      split <;> simp <;> ring
    refine ⟨C (cpt i x) + C A * X + C B * X ^ 2, ?_, by simp, ?_⟩
    · compute_degree
    · intro j hj
      have hsl := osc_slope c H0 H1 hr0 hr1 0 e j hi
      rw [hstage] at hsl
      show _ = cpt i (oscStage c H0 H1 r0 r1 e j) ∧
        _ = H * (1 * T.slope oscillatorModel 0 e j i)
      rw [hsl, hstage]
      obtain rfl | rfl : j = 0 ∨ j = 1 := by omega
      · rw [hcol.1]
        constructor
        · simp only [eval_add, eval_mul, eval_C, eval_X, eval_pow]
          rw [hB, hA]; ring
        · rw [← d1]
          simp only [derivative_add, derivative_mul, derivative_C, derivative_X, derivative_X_pow, eval_add, eval_mul, eval_C, eval_X,
            eval_pow, eval_one, eval_zero]
          norm_num
          ring
      · rw [hcol.2]
        constructor
        · simp only [eval_add, eval_mul, eval_C, eval_X, eval_pow]
          rw [hB]; ring
        · rw [← d2]
          simp only [derivative_add, derivative_mul, derivative_C, derivative_X, derivative_X_pow, eval_add, eval_mul, eval_C, eval_X,
            eval_pow, eval_one, eval_zero]
          norm_num
          ring
  · intro hc; exact absurd e8 hc
  · intro k e hk j hj s hs
    constructor
    · intro i hi
      by_cases hc : i = if e = 0 then r0 else r1
      · exact zero_le_one.trans_eq (if_pos hc).symm
      · exact (if_neg hc : T.theta k e j s i = 0).ge
    · obtain rfl := osc_sys hs
      show ∑ i ∈ Finset.range 2, (if i = (if e = 0 then r0 else r1) then (1 : ℝ) else 0) = 1
      rw [Finset.sum_ite_eq', if_pos (Finset.mem_range.2 (by split <;> assumption))]
  · intro k e hk j hj s hs i hi hne j' hj'
    obtain rfl := osc_sys hs
    obtain rfl := hth k e j 0 i hne
    obtain ⟨rfl, he⟩ := osc_nfe h hk
    rw [e7] at hj'
    rw [oscTraj_stageL]
    refine osc_closed (by split <;> assumption) ?_ _
    obtain rfl | rfl : e = 0 ∨ e = 1 := by omega
    · simpa [oscStage] using a1 j' hj'
    · simpa [oscStage] using b1 j' hj'
  · intro k e hk j hj s hs i hi hne
    obtain rfl := osc_sys hs
    obtain rfl := hth k e j 0 i hne
    obtain ⟨rfl, he⟩ := osc_nfe h hk
    have : T.startL po oscillatorModel 0 e = [T.start po 0 e 0, T.start po 0 e 1] := rfl
    rw [this, hst e he, hst e he]
    refine osc_closed (c := if e = 0 then c else rst (oscRate H0 r0) 1 * c) (by split <;> assumption) ?_ _
    obtain rfl | rfl : e = 0 ∨ e = 1 := by omega
    · simpa using a0
    · simpa using b0
  · intro k e hk
    obtain ⟨rfl, he⟩ := osc_nfe h hk
    unfold nominalH
    rw [e1, e2, e3, e4]
    show _ ≤ (if e = 0 then H0 else H1) ∧ (if e = 0 then H0 else H1) ≤ _
    constructor
    · split <;> linarith
    · push_cast
      split <;> linarith
  · intro _ k hk
    obtain rfl : k = 0 := by omega
    rw [e1, e2, e3, Finset.sum_range_succ, Finset.sum_range_one]
    show H0 + H1 = _
    rw [p2]; simp
  · intro hc _; rw [e1] at hc; omega
  · intro _ k _; rfl
  · intro h0; rw [e6] at h0; cases h0
  · intro k e _ j _ _ i _; exact ⟨bot_le, le_top⟩
  · intro k _ i hi; exact absurd hi (by simp [oscillatorModel])
  · intro i hi; exact absurd hi (by simp [oscillatorModel])
  · intro k e _ _ i hi; exact absurd hi (by simp [UserOcp.trivial])
  · intro i hi; exact absurd hi (by simp [UserOcp.trivial])

/-! ### The multipliers -/

theorem osc_g (c : ℂ) (p : List ℝ) :
    oscillatorModel.gVal 0 0 [c.re, c.im] [] p = -(Complex.normSq c - 1) ∧
    oscillatorModel.gVal 0 1 [c.re, c.im] [] p = Complex.normSq c - 1 := by
  have e : Complex.normSq c = c.re ^ 2 + c.im ^ 2 := by rw [Complex.normSq_apply]; ring
  rw [e]
  constructor <;> simp [UserModel.gVal, UserModel.gStewartTruthy, oscillatorModel, UserModel.Smat, UserModel.cVec]

theorem osc_gmin (c : ℂ) (p : List ℝ) :
    (⨅ i : Fin (oscillatorModel.Fmat 0).nCols, oscillatorModel.gVal 0 i [c.re, c.im] [] p)
      = -|Complex.normSq c - 1| := by
  obtain ⟨h0, h1⟩ := osc_g c p
  set x := Complex.normSq c - 1
  have hc : (oscillatorModel.Fmat 0).nCols = 2 := rfl
  haveI : Nonempty (Fin (oscillatorModel.Fmat 0).nCols) := ⟨⟨0, by rw [hc]; norm_num⟩⟩
  apply le_antisymm
  · rcases le_total x 0 with hx | hx
    · refine (ciInf_le (Set.finite_range _).bddBelow
        (⟨1, by rw [hc]; norm_num⟩ : Fin (oscillatorModel.Fmat 0).nCols)).trans ?_
      rw [abs_of_nonpos hx, neg_neg]
      exact h1.le
    · refine (ciInf_le (Set.finite_range _).bddBelow
        (⟨0, by rw [hc]; norm_num⟩ : Fin (oscillatorModel.Fmat 0).nCols)).trans ?_
      rw [abs_of_nonneg hx]
      exact h0.le
  · refine le_ciInf fun i => ?_
    have h2 : i.1 < 2 := i.2
    obtain e | e : i.1 = 0 ∨ i.1 = 1 := by omega
    · rw [e, h0]; exact neg_le_neg (le_abs_self x)
    · rw [e, h1]; exact neg_abs_le x

theorem osc_lam (c : ℂ) (p : List ℝ) {i : Nat} (hi : i < 2) :
    oscillatorModel.lam00St [c.re, c.im] [] p 0 i = 0 ∨
    oscillatorModel.lam00St [c.re, c.im] [] p 0 i = 2 * |Complex.normSq c - 1| := by
  obtain ⟨h0, h1⟩ := osc_g c p
  unfold UserModel.lam00St
  rw [osc_gmin c]
  set x := Complex.normSq c - 1
  rcases le_total x 0 with hx | hx
  · rw [abs_of_nonpos hx]
    obtain rfl | rfl : i = 0 ∨ i = 1 := by omega
    · right; rw [h0]; ring
    · left; rw [h1]; ring
  · rw [abs_of_nonneg hx]
    obtain rfl | rfl : i = 0 ∨ i = 1 := by omega
    · left; rw [h0]; ring
    · right; rw [h1]; ring

theorem osc_separated (h : SetupEx demoColloc (shipOpts t 2 pol ct sn) oscillatorModel none po m oc P)
    {c : ℂ} {H0 H1 : ℝ} {r0 r1 : Nat}
    (hc : ∀ e < 2, ∀ j < 2, Clean ct |Complex.normSq (oscStage c H0 H1 r0 r1 e j) - 1| ∧
      Clean ct (2 * |Complex.normSq (oscStage c H0 H1 r0 r1 e j) - 1|)) :
    (oscTraj c H0 H1 r0 r1).Separated po oscillatorModel ct := by
  intro k e hk j hj s hs
  obtain ⟨rfl, he⟩ := osc_nfe h hk
  obtain rfl := osc_sys hs
  have eS : po.nS = 2 := h.e_nS
  rw [eS] at hj
  obtain ⟨c1, c2⟩ := hc e he j hj
  rw [oscTraj_stageL]
  refine ⟨fun i hi => ⟨?_, ?_⟩, ?_⟩
  · by_cases hc : i = if e = 0 then r0 else r1
    · exact .inr (.inl (if_pos hc))
    · exact .inl (if_neg hc)
  · rcases osc_lam (oscStage c H0 H1 r0 r1 e j) ((oscTraj c H0 H1 r0 r1).pL oscillatorModel 0) hi with g | g
    · rw [g]; exact .inl rfl
    · rw [g]; exact c2
  · rw [osc_gmin, neg_neg]
    exact c1

/-- Small tolerances tell a number apart. -/
theorem clean_small {y : ℝ} (hy : 0 ≤ y) : ∃ c0 > 0, ∀ c ≤ c0, Clean c y := by
  by_cases h0 : y = 0
  · exact ⟨1, one_pos, fun c _ => .inl h0⟩
  by_cases h1 : y = 1
  · exact ⟨1, one_pos, fun c _ => .inr (.inl h1)⟩
  have a : 0 < y := lt_of_le_of_ne hy (Ne.symm h0)
  have b : 0 < |y - 1| := abs_pos.2 (sub_ne_zero.2 h1)
  refine ⟨min y |y - 1| / 10, by positivity, fun c hc => .inr (.inr ?_)⟩
  have := min_le_left y |y - 1|
  have := min_le_right y |y - 1|
  constructor <;> linarith

theorem clean_all (N : Nat) (f : Nat → ℝ) (hf : ∀ k, 0 ≤ f k) : ∃ c0 > 0, ∀ c ≤ c0, ∀ k < N, Clean c (f k) := by
  induction N with
  | zero => exact ⟨1, one_pos, fun _ _ k hk => by omega⟩
  | succ N ih =>
    obtain ⟨c0, h0, g0⟩ := ih
    obtain ⟨c1, h1, g1⟩ := clean_small (hf N)
    refine ⟨min c0 c1, lt_min h0 h1, fun c hc k hk => ?_⟩
    rcases Nat.lt_succ_iff_lt_or_eq.1 hk with hk | rfl
    · exact g0 c (hc.trans (min_le_left _ _)) k hk
    · exact g1 c (hc.trans (min_le_right _ _))

/-- The hypotheses of `C133_oscillator` are met: for all numbers of simulation steps from 16 on there are a tolerance
and an exact NLP solver with which the driver returns, all steps reported as SUCCESS. -/
theorem osc_example {N : Nat} (hN : 16 ≤ N) : ∃ ct > 0, ∃ (orc : Oracle) (R : SimResults),
    (∀ q, construct demoColloc { shipOpts 1 2 true ct with terminalTime := tSimOsc / N } oscillatorModel none = .ok q →
      orc.Exact q.2.2.2) ∧
    solveOscillator demoColloc orc (shipOpts 1 2 true ct) N = .ok R ∧ ∀ s ∈ R.status, s = .success := by
  have hN' : (16 : ℝ) ≤ N := by exact_mod_cast hN
  have hN0 : (0 : ℝ) < N := by linarith
  set t := tSimOsc / N with ht
  have t0 : 0 ≤ t := by
    rw [ht]
    unfold tSimOsc
    have := Real.pi_pos
    positivity
  have t1 : t ≤ 1 / 10 := by
    rw [ht, div_le_iff₀ hN0]
    unfold tSimOsc
    have := Real.pi_lt_d2
    linarith
  choose G0 G1 s0 s1 hG using fun c : ℂ => oscStep_exists t0 t1 c
  let next : ℂ → ℂ := fun c => oscStage c (G0 c) (G1 c) (s0 c) (s1 c) 1 1
  let path : Nat → ℂ := fun k => next^[k] ⟨Real.exp (-1), 0⟩
  let val : Nat → Nat → Nat → ℝ := fun e j k =>
    |Complex.normSq (oscStage (path k) (G0 (path k)) (G1 (path k)) (s0 (path k)) (s1 (path k)) e j) - 1|
  have hval : ∀ e j, ∃ c0 > 0, ∀ c ≤ c0, ∀ k < N, Clean c (val e j k) ∧ Clean c (2 * val e j k) := by
    intro e j
    obtain ⟨a, ha, ga⟩ := clean_all N (val e j) fun k => abs_nonneg _
    obtain ⟨b, hb, gb⟩ := clean_all N (fun k => 2 * val e j k) fun k => mul_nonneg two_pos.le (abs_nonneg _)
    exact ⟨min a b, lt_min ha hb, fun c hc k hk =>
      ⟨ga c (hc.trans (min_le_left _ _)) k hk, gb c (hc.trans (min_le_right _ _)) k hk⟩⟩
  choose c0 hc0 gc using hval
  set ct := min (1 / 10) (min (min (c0 0 0) (c0 0 1)) (min (c0 1 0) (c0 1 1))) with hct
  have ct0 : 0 < ct := lt_min (by norm_num) (lt_min (lt_min (hc0 _ _) (hc0 _ _)) (lt_min (hc0 _ _) (hc0 _ _)))
  have ct1 : ct ≤ 1 / 10 := min_le_left _ _
  have hcl : ∀ e < 2, ∀ j < 2, ct ≤ c0 e j := by
    intro e he j hj
    have : ct ≤ min (min (c0 0 0) (c0 0 1)) (min (c0 1 0) (c0 1 1)) := min_le_right _ _
    obtain ⟨h1, h2⟩ := le_min_iff.1 this
    obtain ⟨h3, h4⟩ := le_min_iff.1 h1
    obtain ⟨h5, h6⟩ := le_min_iff.1 h2
    obtain rfl | rfl : e = 0 ∨ e = 1 := by omega
    · obtain rfl | rfl : j = 0 ∨ j = 1 := by omega
      · assumption
      · assumption
    · obtain rfl | rfl : j = 0 ∨ j = 1 := by omega
      · assumption
      · assumption
  obtain ⟨po, m, oc, P, h, hr⟩ := osc_setup t ct0
  have e2 : nfe po 0 = 2 := by
    unfold nfe
    rw [h.e_nfeList]
    rfl
  let st : ℂ → List ℝ := fun c => [c.re, c.im]
  let F : List ℝ → Traj := fun l =>
    let c : ℂ := ⟨l.getD 0 0, l.getD 1 0⟩
    oscTraj c (G0 c) (G1 c) (s0 c) (s1 c)
  have hF : ∀ c : ℂ, F (st c) = oscTraj c (G0 c) (G1 c) (s0 c) (s1 c) := fun c => rfl
  obtain ⟨orc, S, L, L', R, hex, hcr, hSr, hc, hrun, hR, hst, -⟩ := C132_simulated (F := F)
    (x := fun k => st (path k)) (N := N) h rfl rfl hr
    (.inl rfl) (.inl (by simp [SignedMode, shipOpts, simplestOpts, Opts.default])) osc_signs rfl osc_plain
    (fun _ => simplest_colloc.1) (fun _ => ct1) rfl (by norm_num [shipOpts, simplestOpts, Opts.default])
    (by norm_num [shipOpts, simplestOpts, Opts.default]) rfl rfl rfl simplest_exactOpts.lists two_pos
    (by simp [shipOpts, simplestOpts, Opts.default]) (.inl rfl)
    (fun s hs s' hs' => by rw [osc_sys hs, osc_sys hs']) rfl
    (fun k hk => by
      rw [hF]
      refine ⟨rfl, osc_solves h t1 (hG _), fun _ => osc_separated h fun e he j hj =>
        gc e j ct (hcl e he j hj) k hk, ?_⟩
      rw [e2]
      show st (next^[k + 1] _) = _
      rw [Function.iterate_succ_apply']
      rfl)
  refine ⟨ct, ct0, orc, R, ?_, ?_, ?_⟩
  · intro q hq
    have := h.toSetup.ok
    change construct demoColloc (shipOpts t 2 true ct) _ _ = _ at hq
    rw [this] at hq
    cases hq
    exact hex
  · unfold solveOscillator
    simp only [bind_eq_ok, check_eq_ok]
    refine ⟨(), by simp; omega, _, hcr, L, hc, ?_⟩
    rw [hrun]
    exact hR
  · rw [hst]
    intro s hs
    exact List.eq_of_mem_replicate hs

/-- The hypotheses of `C133_oscillator`, with elements as short as one likes. -/
example {H0 : ℝ} (h0 : 0 < H0) : ∃ (ct : ℝ) (N : Nat) (orc : Oracle) (R : SimResults),
    (shipOpts 1 2 true ct).scheme = .radauIIA ∧ (shipOpts 1 2 true ct).nS = 2 ∧
    (shipOpts 1 2 true ct).irkRep = .integral ∧ ExactSimOpts demoColloc (shipOpts 1 2 true ct) ∧
    (∀ q, construct demoColloc { shipOpts 1 2 true ct with terminalTime := tSimOsc / N } oscillatorModel none = .ok q →
      orc.Exact q.2.2.2) ∧
    solveOscillator demoColloc orc (shipOpts 1 2 true ct) N = .ok R ∧ (∀ s ∈ R.status, s = .success) ∧
    (1 + (shipOpts 1 2 true ct).gammaH) * (tSimOsc / N / (shipOpts 1 2 true ct).nfeAfter.sum) ≤ H0 ∧
    ((1 + (shipOpts 1 2 true ct).gammaH) * (tSimOsc / N / (shipOpts 1 2 true ct).nfeAfter.sum)) ^ 2 ≤ H0 := by
  obtain ⟨n, hn⟩ := exists_nat_gt (2 / min H0 1)
  have hm : 0 < min H0 1 := lt_min h0 one_pos
  obtain ⟨ct, -, orc, R, g1, g2, g3⟩ := osc_example (N := max 16 n) (le_max_left _ _)
  have hle : tSimOsc / (max 16 n : Nat) ≤ min H0 1 := by
    have a : (n : ℝ) ≤ ((max 16 n : Nat) : ℝ) := by exact_mod_cast le_max_right 16 n
    have b : 0 < ((max 16 n : Nat) : ℝ) := by exact_mod_cast lt_of_lt_of_le (by norm_num) (le_max_left 16 n)
    rw [div_le_iff₀ b]
    rw [div_lt_iff₀ hm] at hn
    have : tSimOsc ≤ 2 := by unfold tSimOsc; linarith [Real.pi_lt_four]
    nlinarith
  have hge : 0 ≤ tSimOsc / (max 16 n : Nat) := by
    unfold tSimOsc
    have := Real.pi_pos
    positivity
  have hΔ : (1 + (shipOpts 1 2 true ct).gammaH) * (tSimOsc / (max 16 n : Nat) / (shipOpts 1 2 true ct).nfeAfter.sum)
      = tSimOsc / (max 16 n : Nat) := by
    have e1 : (shipOpts 1 2 true ct).gammaH = 1 := rfl
    have e2 : (shipOpts 1 2 true ct).nfeAfter.sum = 2 := by
      simp [shipOpts, simplestOpts, Opts.default, Opts.nfeAfter]
    rw [e1, e2]
    push_cast
    ring
  refine ⟨ct, max 16 n, orc, R, rfl, rfl, rfl, simplest_exactOpts, g1, g2, g3, ?_, ?_⟩
  · rw [hΔ]
    exact hle.trans (min_le_left _ _)
  · rw [hΔ]
    have h1 := hle.trans (min_le_right _ _)
    have h2 := hle.trans (min_le_left _ _)
    nlinarith

end

end Nosnoc
