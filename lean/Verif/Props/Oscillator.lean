import Verif.Spec.Oscillator
import Verif.Props.Crossing
import Verif.Props.Examples
import Mathlib.Analysis.Real.Pi.Bounds
import Mathlib.Analysis.Complex.ExponentialBounds
import Mathlib.Analysis.SpecialFunctions.Trigonometric.Deriv
import Mathlib.Analysis.SpecialFunctions.ExpDeriv
import Mathlib.Analysis.Calculus.IteratedDeriv.Lemmas
/-
C133: the oscillator example converges to its analytic solution, and its switching time is found.
-/
namespace Nosnoc

/-- The two linear vector fields. -/
noncomputable def spin (w : ℝ) (x : Fin 2 → ℝ) : Fin 2 → ℝ := ![x 0 + w * x 1, -w * x 0 + x 1]

theorem osc_field (i : Nat) (p : List ℝ) (x : Fin 2 → ℝ) :
    oscillatorModel.regionField (fun _ => i) [] p [] x = spin (if i = 0 then omegaOsc else -omegaOsc) x := by
  funext row
  obtain ⟨row, hr⟩ := row
  have hr : row < 2 := hr
  obtain rfl | rfl : row = 0 ∨ row = 1 := by omega
  · simp [UserModel.regionField, UserModel.nSys, UserModel.Fmat, oscillatorModel, oscField, spin]
  · simp [UserModel.regionField, UserModel.nSys, UserModel.Fmat, oscillatorModel, oscField, spin]

theorem osc_surface (p : List ℝ) (x : Fin 2 → ℝ) : oscillatorModel.surface 0 p x = x 0 ^ 2 + x 1 ^ 2 - 1 := by
  simp [UserModel.surface, UserModel.Smat, UserModel.cVec, oscillatorModel]

theorem norm2_le {x : Fin 2 → ℝ} {b : ℝ} (h0 : |x 0| ≤ b) (h1 : |x 1| ≤ b) : ‖x‖ ≤ b := by
  have : 0 ≤ b := (abs_nonneg _).trans h0
  rw [pi_norm_le_iff_of_nonneg this]
  intro i
  fin_cases i
  · exact h0
  · exact h1

theorem le_norm2 (x : Fin 2 → ℝ) : |x 0| ≤ ‖x‖ ∧ |x 1| ≤ ‖x‖ := ⟨norm_le_pi_norm x 0, norm_le_pi_norm x 1⟩

theorem spin_bound {w : ℝ} (hw : |w| ≤ 7) (x : Fin 2 → ℝ) : ‖spin w x‖ ≤ 8 * ‖x‖ := by
  obtain ⟨h0, h1⟩ := le_norm2 x
  have hx := norm_nonneg x
  apply norm2_le
  · calc |x 0 + w * x 1| ≤ |x 0| + |w| * |x 1| := by rw [← abs_mul]; exact abs_add_le _ _
      _ ≤ ‖x‖ + 7 * ‖x‖ := add_le_add h0 (mul_le_mul hw h1 (abs_nonneg _) (by norm_num))
      _ = 8 * ‖x‖ := by ring
  · calc |-w * x 0 + x 1| ≤ |w| * |x 0| + |x 1| := by
          have := abs_add_le (-w * x 0) (x 1)
          rwa [abs_mul, abs_neg] at this
      _ ≤ 7 * ‖x‖ + ‖x‖ := add_le_add (mul_le_mul hw h0 (abs_nonneg _) (by norm_num)) h1
      _ = 8 * ‖x‖ := by ring

theorem spin_sub (w : ℝ) (x y : Fin 2 → ℝ) : spin w x - spin w y = spin w (x - y) := by
  funext i
  fin_cases i
  · simp [spin]; ring
  · simp [spin]; ring

theorem omega_le : |omegaOsc| ≤ 7 := by
  unfold omegaOsc
  have := Real.pi_lt_d2
  rw [abs_of_pos (by positivity)]
  linarith

/-- A solution given by a smooth function is smooth with some bound. -/
theorem smooth_of_contDiff {V : Type*} [NormedAddCommGroup V] [NormedSpace ℝ V] {f : V → V} {φ G : ℝ → V} (n : Nat)
    (hG : ContDiff ℝ n G) (hd : ∀ t, HasDerivAt φ (G t) t) (he : ∀ t, G t = f (φ t)) (t0 t1 : ℝ) :
    ∃ D0, ∀ D, D0 ≤ D → SmoothSolution n D f φ t0 t1 := by
  have hb : ∀ q : Nat, q ≤ n → ∃ D, ∀ t ∈ Set.Icc t0 t1, ‖iteratedDeriv q G t‖ ≤ D := by
    intro q hq
    have hc : Continuous (iteratedDeriv q G) := hG.continuous_iteratedDeriv q (by exact_mod_cast hq)
    obtain ⟨D, hD⟩ := (isCompact_Icc (a := t0) (b := t1)).exists_bound_of_continuousOn hc.continuousOn
    exact ⟨D, hD⟩
  choose! B hB using hb
  refine ⟨∑ q ∈ Finset.range (n + 1), |B q|, fun D hD => ⟨G, hG, fun q hq t ht => ?_, fun t _ => ⟨he t, ?_⟩⟩⟩
  · refine (hB q hq t ht).trans ((le_abs_self _).trans (le_trans ?_ hD))
    exact Finset.single_le_sum (f := fun q => |B q|) (fun _ _ => abs_nonneg _) (Finset.mem_range.2 (by omega))
  · rw [← he]
    exact (hd t).hasDerivWithinAt

/-- The spirals solve the differential equations. -/
theorem spiral_deriv (w c t : ℝ) : HasDerivAt
    (fun t => ![Real.exp (t - 1) * Real.cos (w * (t - c)), -Real.exp (t - 1) * Real.sin (w * (t - c))])
    (spin w ![Real.exp (t - 1) * Real.cos (w * (t - c)), -Real.exp (t - 1) * Real.sin (w * (t - c))]) t := by
  have h1 : HasDerivAt (fun t : ℝ => Real.exp (t - 1)) (Real.exp (t - 1)) t := by
    simpa using ((hasDerivAt_id t).sub_const 1).exp
  have h2 : HasDerivAt (fun t : ℝ => w * (t - c)) w t := by
    simpa using ((hasDerivAt_id t).sub_const c).const_mul w
  rw [hasDerivAt_pi]
  intro i
  fin_cases i
  · have := h1.mul h2.cos
    simp only [spin] at *
    refine this.congr_deriv ?_
    simp
    ring
  · have := h1.neg.mul h2.sin
    refine this.congr_deriv ?_
    simp [spin]
    ring

theorem spiral_smooth (w c : ℝ) (n : Nat) (t0 t1 : ℝ) : ∃ D0, ∀ D, D0 ≤ D → SmoothSolution n D (spin w)
    (fun t => ![Real.exp (t - 1) * Real.cos (w * (t - c)), -Real.exp (t - 1) * Real.sin (w * (t - c))]) t0 t1 := by
  refine smooth_of_contDiff n (G := fun t => spin w
    ![Real.exp (t - 1) * Real.cos (w * (t - c)), -Real.exp (t - 1) * Real.sin (w * (t - c))]) ?_
    (spiral_deriv w c) (fun _ => rfl) t0 t1
  rw [contDiff_pi]
  intro i
  fin_cases i
  · simp only [spin]
    show ContDiff ℝ n fun t => Real.exp (t - 1) * Real.cos (w * (t - c)) + w * (-Real.exp (t - 1) * Real.sin (w * (t - c)))
    fun_prop
  · show ContDiff ℝ n fun t => -w * (Real.exp (t - 1) * Real.cos (w * (t - c))) + -Real.exp (t - 1) * Real.sin (w * (t - c))
    fun_prop

theorem oscBefore_eq : oscBefore = fun t =>
    ![Real.exp (t - 1) * Real.cos (-omegaOsc * (t - 0)), -Real.exp (t - 1) * Real.sin (-omegaOsc * (t - 0))] := by
  funext t i
  fin_cases i
  · simp [oscBefore, omegaOsc]
  · simp [oscBefore, omegaOsc]

theorem oscAfter_eq : oscAfter = fun t =>
    ![Real.exp (t - 1) * Real.cos (omegaOsc * (t - 1)), -Real.exp (t - 1) * Real.sin (omegaOsc * (t - 1))] := rfl

theorem osc_radius (a c s : ℝ) (h : c ^ 2 + s ^ 2 = 1) : (Real.exp a * c) ^ 2 + (Real.exp a * s) ^ 2 = Real.exp (2 * a) := by
  have : Real.exp (2 * a) = Real.exp a * Real.exp a := by rw [← Real.exp_add]; ring_nf
  rw [this]
  linear_combination (Real.exp a * Real.exp a) * h

theorem oscBefore_radius (t : ℝ) : oscBefore t 0 ^ 2 + oscBefore t 1 ^ 2 = Real.exp (2 * (t - 1)) :=
  osc_radius _ _ _ (Real.cos_sq_add_sin_sq _)

theorem oscAfter_radius (t : ℝ) : oscAfter t 0 ^ 2 + oscAfter t 1 ^ 2 = Real.exp (2 * (t - 1)) := by
  rw [← osc_radius (t - 1) _ _ (Real.cos_sq_add_sin_sq (2 * Real.pi * (t - 1)))]
  simp [oscAfter]

theorem exp_le_three {a : ℝ} (h : a ≤ 1) : Real.exp a ≤ 3 :=
  (Real.exp_le_exp.2 h).trans (Real.exp_one_lt_three.le)

/-- Entries of a vector of bounded length. -/
theorem entry_le {x : Fin 2 → ℝ} {a : ℝ} (h : x 0 ^ 2 + x 1 ^ 2 = Real.exp (2 * a)) (ha : a ≤ 1) :
    |x 0| ≤ 3 ∧ |x 1| ≤ 3 := by
  have h3 : Real.exp (2 * a) ≤ 3 ^ 2 := by
    have : Real.exp (2 * a) = Real.exp a ^ 2 := by rw [sq, ← Real.exp_add]; ring_nf
    rw [this]
    exact pow_le_pow_left₀ (Real.exp_pos _).le (exp_le_three ha) 2
  exact ⟨abs_le_of_sq_le_sq (by nlinarith [sq_nonneg (x 1)]) (by norm_num),
    abs_le_of_sq_le_sq (by nlinarith [sq_nonneg (x 0)]) (by norm_num)⟩

theorem osc_lip {x y : Fin 2 → ℝ} (h : |x 0| ≤ 3 ∧ |x 1| ≤ 3) (hy : ‖y - x‖ ≤ 1 / 100) :
    |(y 0 ^ 2 + y 1 ^ 2 - 1) - (x 0 ^ 2 + x 1 ^ 2 - 1)| ≤ 13 * ‖y - x‖ := by
  obtain ⟨d0, d1⟩ := le_norm2 (y - x)
  simp only [Pi.sub_apply] at d0 d1
  have e : (y 0 ^ 2 + y 1 ^ 2 - 1) - (x 0 ^ 2 + x 1 ^ 2 - 1)
      = (y 0 - x 0) * (y 0 - x 0 + 2 * x 0) + (y 1 - x 1) * (y 1 - x 1 + 2 * x 1) := by ring
  have b : ∀ i, |x i| ≤ 3 → |y i - x i| ≤ ‖y - x‖ → |(y i - x i) * (y i - x i + 2 * x i)| ≤ ‖y - x‖ * (13 / 2) := by
    intro i h1 h2
    rw [abs_mul]
    refine mul_le_mul h2 ?_ (abs_nonneg _) (norm_nonneg _)
    have h3 := abs_add_le (y i - x i) (2 * x i)
    rw [abs_mul, abs_two] at h3
    linarith
  rw [e]
  have := abs_add_le ((y 0 - x 0) * (y 0 - x 0 + 2 * x 0)) ((y 1 - x 1) * (y 1 - x 1 + 2 * x 1))
  have h0 := b 0 h.1 d0
  have h1 := b 1 h.2 d1
  linarith

theorem oscBefore_one : oscBefore 1 = ![1, 0] := by
  simp [oscBefore]

theorem oscAfter_one : oscAfter 1 = ![1, 0] := by
  simp [oscAfter]

theorem osc_near {y : Fin 2 → ℝ} (h : ‖y - oscBefore 1‖ ≤ 1 / 100) : |y 0 - 1| ≤ 1 / 100 ∧ |y 1| ≤ 1 / 100 := by
  obtain ⟨d0, d1⟩ := le_norm2 (y - oscBefore 1)
  rw [oscBefore_one] at h
  have e0 : (y - oscBefore 1) 0 = y 0 - 1 := by simp [oscBefore_one]
  have e1 : (y - oscBefore 1) 1 = y 1 := by simp [oscBefore_one]
  rw [e0, oscBefore_one] at d0
  rw [e1, oscBefore_one] at d1
  exact ⟨d0.trans h, d1.trans h⟩

theorem osc_across {w : ℝ} (hw : |w| ≤ 7) {y : Fin 2 → ℝ} (h : ‖y - oscBefore 1‖ ≤ 1 / 100) :
    1 / 2 ≤ (2 * spin w y 0 : ℝ) ∧ ‖spin w y‖ ≤ 10 := by
  obtain ⟨h0, h1⟩ := osc_near h
  have hp : |w * y 1| ≤ 7 * (1 / 100) := by
    rw [abs_mul]
    exact mul_le_mul hw h1 (abs_nonneg _) (by norm_num)
  constructor
  · have e : spin w y 0 = y 0 + w * y 1 := rfl
    rw [e]
    have := abs_le.1 h0
    have := abs_le.1 hp
    linarith
  · refine (spin_bound hw y).trans ?_
    have : ‖y‖ ≤ 101 / 100 := norm2_le (by have := abs_le.1 h0; exact abs_le.2 ⟨by linarith, by linarith⟩) (by linarith)
    linarith

/-- The spirals cross the circle transversally at time 1. -/
theorem spiral_crossing (n : Nat) : ∃ D, Crossing (V := Fin 2 → ℝ) n D (spin (-omegaOsc)) (spin omegaOsc)
    (fun x => x 0 ^ 2 + x 1 ^ 2 - 1) oscBefore oscAfter
    ((2 : ℝ) • LinearMap.proj (0 : Fin 2) : (Fin 2 → ℝ) →ₗ[ℝ] ℝ) 1 (1 / 2) (Real.pi / 2) (1 / 2) 13 (1 / 100) 10
    (1 / 25) := by
  obtain ⟨D1, h1⟩ := spiral_smooth (-omegaOsc) 0 n 0 (1 + 1 / 2)
  obtain ⟨D2, h2⟩ := spiral_smooth omegaOsc 1 n (1 - 1 / 2) (Real.pi / 2)
  refine ⟨max D1 D2, ?_⟩
  have hpi := Real.pi_gt_three
  have hpi' := Real.pi_lt_d2
  have hw : |-omegaOsc| ≤ 7 := by rw [abs_neg]; exact omega_le
  have hψA : ∀ t, oscBefore t 0 ^ 2 + oscBefore t 1 ^ 2 - 1 = Real.exp (2 * (t - 1)) - 1 := fun t => by
    rw [oscBefore_radius]
  have hψB : ∀ t, oscAfter t 0 ^ 2 + oscAfter t 1 ^ 2 - 1 = Real.exp (2 * (t - 1)) - 1 := fun t => by
    rw [oscAfter_radius]
  refine ⟨by norm_num, by norm_num, by norm_num, by norm_num, by norm_num, by linarith, ?_, ?_,
    by rw [oscBefore_one, oscAfter_one], ?_, ?_, ?_, ?_, ?_, ?_, ?_, ?_, by norm_num⟩
  · rw [oscBefore_eq]; exact h1 _ (le_max_left _ _)
  · rw [oscAfter_eq]; exact h2 _ (le_max_right _ _)
  · intro t t0 t1
    rw [hψA]
    have g1 : 1 - 2 * (t - 1) ≤ Real.exp (-(2 * (t - 1))) := by
      have := Real.add_one_le_exp (-(2 * (t - 1)))
      linarith
    rw [Real.exp_neg] at g1
    have hp := Real.exp_pos (2 * (t - 1))
    have g2 : Real.exp (2 * (t - 1)) * (1 - 2 * (t - 1)) ≤ 1 := by
      have := mul_le_mul_of_nonneg_left g1 hp.le
      rwa [mul_inv_cancel₀ hp.ne'] at this
    by_contra hc
    push Not at hc
    nlinarith
  · intro t t0 t1
    rw [hψA]
    have := Real.add_one_le_exp (2 * (t - 1))
    linarith
  · intro t t0 t1
    rw [hψB]
    have := Real.add_one_le_exp (2 * (t - 1))
    have := min_le_left (t - 1) (1 / 2)
    linarith
  · intro t y t0 t1 hy
    exact osc_lip (entry_le (oscBefore_radius t) (by linarith)) hy
  · intro t y t0 t1 hy
    exact osc_lip (entry_le (oscAfter_radius t) (by linarith)) hy
  · intro y y' hy hy'
    obtain ⟨a0, a1⟩ := osc_near hy
    obtain ⟨b0, b1⟩ := osc_near hy'
    obtain ⟨d0, d1⟩ := le_norm2 (y' - y)
    simp only [Pi.sub_apply] at d0 d1
    have e : (y' 0 ^ 2 + y' 1 ^ 2 - 1) - (y 0 ^ 2 + y 1 ^ 2 - 1) - 2 * (y' 0 - y 0)
        = (y' 0 - y 0) * ((y' 0 - 1) + (y 0 - 1)) + (y' 1 - y 1) * (y' 1 + y 1) := by ring
    show |(y' 0 ^ 2 + y' 1 ^ 2 - 1) - (y 0 ^ 2 + y 1 ^ 2 - 1) - 2 * (y' 0 - y 0)| ≤ _
    rw [e]
    have g1 : |(y' 0 - y 0) * ((y' 0 - 1) + (y 0 - 1))| ≤ ‖y' - y‖ * (1 / 50) := by
      rw [abs_mul]
      refine mul_le_mul d0 ?_ (abs_nonneg _) (norm_nonneg _)
      have := abs_add_le (y' 0 - 1) (y 0 - 1)
      linarith
    have g2 : |(y' 1 - y 1) * (y' 1 + y 1)| ≤ ‖y' - y‖ * (1 / 50) := by
      rw [abs_mul]
      refine mul_le_mul d1 ?_ (abs_nonneg _) (norm_nonneg _)
      have := abs_add_le (y' 1) (y 1)
      linarith
    have := abs_add_le ((y' 0 - y 0) * ((y' 0 - 1) + (y 0 - 1))) ((y' 1 - y 1) * (y' 1 + y 1))
    linarith
  · intro y hy
    exact osc_across hw hy
  · intro y hy
    exact osc_across omega_le hy

/-- The trajectory of the oscillator crosses the circle transversally at time 1. -/
theorem osc_crossing (n : Nat) : ∃ D, ∀ p, Crossing n D (oscillatorModel.regionField (fun _ => 1) [] p [])
    (oscillatorModel.regionField (fun _ => 0) [] p []) (oscillatorModel.surface 0 p) oscBefore oscAfter
    ((2 : ℝ) • LinearMap.proj (0 : Fin 2) : (Fin 2 → ℝ) →ₗ[ℝ] ℝ) 1 (1 / 2) (Real.pi / 2) (1 / 2) 13 (1 / 100) 10 (1 / 25) := by
  obtain ⟨D, hD⟩ := spiral_crossing n
  refine ⟨D, fun p => ?_⟩
  have e1 : oscillatorModel.regionField (fun _ => 1) [] p [] = spin (-omegaOsc) := funext fun x => osc_field 1 p x
  have e0 : oscillatorModel.regionField (fun _ => 0) [] p [] = spin omegaOsc := funext fun x => osc_field 0 p x
  have eψ : oscillatorModel.surface 0 p = fun x : Fin 2 → ℝ => x 0 ^ 2 + x 1 ^ 2 - 1 := funext fun x => osc_surface p x
  rw [e1, e0, eψ]
  exact hD

theorem osc_lipschitz (i : Nat) (p : List ℝ) (x y : Fin 2 → ℝ) :
    ‖oscillatorModel.regionField (fun _ => i) [] p [] x - oscillatorModel.regionField (fun _ => i) [] p [] y‖
      ≤ 8 * ‖x - y‖ := by
  have hw : |(if i = 0 then omegaOsc else -omegaOsc)| ≤ 7 := by
    split
    · exact omega_le
    · rw [abs_neg]; exact omega_le
  have := spin_bound hw (x - y)
  rw [← spin_sub] at this
  have e := congrArg₂ (fun a b : Fin 2 → ℝ => ‖a - b‖) (osc_field i p x) (osc_field i p y)
  exact e.le.trans this

theorem osc_sys {s : Nat} (h : s < oscillatorModel.nSys) : s = 0 := by
  simpa [oscillatorModel, UserModel.nSys] using h

theorem osc_signs {o : Opts} : SignsOk o oscillatorModel := by
  intro s hs
  obtain rfl := osc_sys hs
  have hS : oscillatorModel.Smat 0 = ⟨2, 1, fun i _ => if i = 0 then 1 else -1⟩ := rfl
  have hd : (oscillatorModel.Smat 0).IsDense := by
    rw [hS]
    refine ⟨fun i hi k hk => ?_, fun i hi j hj hij => ?_⟩
    · obtain rfl | rfl : i = 0 ∨ i = 1 := by simp at hi; omega
      · right; rfl
      · left; rfl
    · refine ⟨0, by simp, ?_⟩
      simp only at hi hj
      obtain ⟨rfl, rfl⟩ | ⟨rfl, rfl⟩ : (i = 0 ∧ j = 1) ∨ (i = 1 ∧ j = 0) := by omega
      · simp; norm_num
      · simp; norm_num
  refine ⟨?_, fun _ => ⟨rfl, hd⟩, fun _ i hi k hk => ?_⟩
  · intro σ
    rw [hS]
    cases h : σ 0
    · refine ⟨⟨1, by simp⟩, fun k hk _ => ?_, fun i hi => ?_⟩
      · obtain rfl : k = 0 := by simpa using hk
        simp [h]
      · have := hi 0 (by simp) (by simp; split <;> norm_num)
        rw [h] at this
        apply Fin.ext
        have hi2 : i.1 < 2 := i.2
        by_contra hne
        have h0 : i.1 = 0 := by simp only at hne; omega
        rw [h0] at this
        norm_num at this
    · refine ⟨⟨0, by simp⟩, fun k hk _ => ?_, fun i hi => ?_⟩
      · obtain rfl : k = 0 := by simpa using hk
        simp [h]
      · have := hi 0 (by simp) (by simp; split <;> norm_num)
        rw [h] at this
        apply Fin.ext
        have hi2 : i.1 < 2 := i.2
        by_contra hne
        have h0 : i.1 = 1 := by simp only at hne; omega
        rw [h0] at this
        norm_num at this
  · rcases hd.1 i hi k hk with h | h
    · exact .inl h
    · exact .inr (.inr h)

section
variable {colloc : IrkScheme → Nat → List ℝ} {o : Opts} {orc : Oracle} {N : Nat} {R : SimResults}

theorem osc_crossRun (cfg : ExactSimOpts colloc o)
    (hex : ∀ q, construct colloc { o with terminalTime := tSimOsc / N } oscillatorModel none = .ok q →
      orc.Exact q.2.2.2)
    (hR : solveOscillator colloc orc o N = .ok R) (hst : ∀ s ∈ R.status, s = .success) :
    N ≠ 0 ∧ ∃ po m oc P S p bw, CrossRun colloc { o with terminalTime := tSimOsc / N } oscillatorModel none po m oc P orc S
      oscillatorModel.x0 N none R p bw 1 0 8 := by
  obtain ⟨hN, po, m, oc, P, S, hr⟩ := simplest_run cfg.nS cfg.exact cfg.lists cfg.sot hex hR hst rfl rfl rfl
  obtain ⟨w, hw⟩ := cfg.weights
  refine ⟨hN, po, m, oc, P, S, simParams oscillatorModel S none 0, w, hr, cfg.polish, cfg.fesd, cfg.mode, rfl, osc_signs, rfl,
    rfl, rfl, by omega, ?_, ⟨hw.nonneg, hw.table, hw.quad⟩, ?_, cfg.gamma, ?_, fun k _ => rfl, ?_, ?_⟩
  · norm_num [oscillatorModel, UserModel.Smat]
  · refine cfg.ends.symm.imp (fun hh => ?_) id
    have hk := hr.setup.toSetup.ok
    unfold construct at hk
    simp only [bind_eq_ok] at hk
    obtain ⟨-, -, po', hp, m', -, oc', -, P', -, e⟩ := hk
    cases e
    exact hh _ _ hp
  · show 0 ≤ tSimOsc / N
    have := Real.pi_pos
    unfold tSimOsc
    positivity
  · exact fun x y => osc_lipschitz 1 _ x y
  · exact fun x y => osc_lipschitz 0 _ x y

end

/-- C133: the oscillator example converges to its analytic solution with the order of the scheme, and its switching
time 1 is found with this order.  For every scheme, number of stages and representation there are `H0 > 0` and `C`
such that for all options of the kind `ExactSimOpts` (FESD with polishing) with these, all numbers of simulation
steps and all NLP solvers whose accepted points satisfy their constraints: if `solve_oscillator` returns, all steps
are reported as SUCCESS, and the longest possible finite element `Δ` and `err = Δ ^ n` (plus the rounding of the Butcher
tables) are at most `H0`, then the grid runs from 0 to `TSIM`, every reported state differs from the trajectory by at
most `C * err`, so does the last one from `X_SOL` (the error the example prints), and there is a grid point whose time differs from
1 by at most `C * err`, such that the elements (of positive length) before it begin and end inside the circle or on
it, and those after it outside or on it. -/
theorem C133_oscillator {colloc : IrkScheme → Nat → List ℝ} {sc : IrkScheme} {n : Nat} {rep : IrkRep} (hn : 0 < n)
    (hcol : rep = .integral → CollocOk (colloc sc n) n ∧ ∀ t ∈ colloc sc n, 0 ≤ t ∧ t ≤ 1) :
    ∃ H0 > 0, ∃ C : ℝ, ∀ {o : Opts} {orc : Oracle} {N : Nat} {R : SimResults},
      o.scheme = sc → o.nS = n → o.irkRep = rep → ExactSimOpts colloc o →
      (∀ q, construct colloc { o with terminalTime := tSimOsc / N } oscillatorModel none = .ok q →
        orc.Exact q.2.2.2) →
      solveOscillator colloc orc o N = .ok R → (∀ s ∈ R.status, s = .success) →
      ∀ Δ, Δ = (1 + o.gammaH) * (tSimOsc / N / o.nfeAfter.sum) → Δ ≤ H0 →
      ∀ err, err = Δ ^ n + (if rep = .integral then 0 else 1 / 10 ^ 11) → err ≤ H0 →
      R.tGrid[0]? = some 0 ∧ R.tGrid[N * o.nfeAfter.sum]? = some tSimOsc ∧
      R.tGrid.length = N * o.nfeAfter.sum + 1 ∧ R.xSim.length = N * o.nfeAfter.sum + 1 ∧
      (∀ (k : Nat) (t : ℝ) (x : List ℝ), R.tGrid[k]? = some t → R.xSim[k]? = some x →
        ∀ j : Fin 2, |x.getD j 0 - oscSol t j| ≤ C * err) ∧
      (∀ x, R.xSim.getLast? = some x → ∀ j < 2, |xSolOsc.getD j 0 - x.getD j 0| ≤ C * err) ∧
      ∃ N1 ≤ N * o.nfeAfter.sum,
        (∀ (k : Nat) (t t' : ℝ) (x x' : List ℝ), R.tGrid[k]? = some t →
          R.tGrid[k + 1]? = some t' → t < t' → R.xSim[k]? = some x → R.xSim[k + 1]? = some x' →
          (k < N1 → x.getD 0 0 ^ 2 + x.getD 1 0 ^ 2 ≤ 1 ∧ x'.getD 0 0 ^ 2 + x'.getD 1 0 ^ 2 ≤ 1) ∧
          (N1 ≤ k → 1 ≤ x.getD 0 0 ^ 2 + x.getD 1 0 ^ 2 ∧ 1 ≤ x'.getD 0 0 ^ 2 + x'.getD 1 0 ^ 2)) ∧
        ∀ t : ℝ, R.tGrid[N1]? = some t → |t - 1| ≤ C * err := by
  obtain ⟨D, hD⟩ := osc_crossing n
  obtain ⟨H0, hH0, C, hmain⟩ := C131_crossing (colloc := colloc) (sc := sc) (n := n) (rep := rep) hn hcol
    (L := 8) (by norm_num) D (Real.pi / 2) (η := 1 / 2) (r := 1 / 100) (by norm_num) (by norm_num) (1 / 2) 13 10
  refine ⟨H0, hH0, C, ?_⟩
  intro o orc N R e1 e2 e3 cfg hex hR hst Δ hΔ hle err herr hle'
  obtain ⟨hN, po, m, oc, P, S, p, bw, A⟩ := osc_crossRun cfg hex hR hst
  have hr := A.sim
  have hnf : ({ o with terminalTime := tSimOsc / N } : Opts).nfeAfter = o.nfeAfter := rfl
  obtain ⟨-, ⟨hx0, hlen, hlenT, hgrid⟩, -⟩ := hr.steps
  rw [hnf] at hlen hlenT hgrid
  have hpi := Real.pi_gt_three
  have hTN : 0 ≤ ({ o with terminalTime := tSimOsc / N } : Opts).terminalTime := A.time
  set M := N * o.nfeAfter.sum with hM
  have hgl : R.tGrid.length = M + 1 := by rw [hgrid]; simp
  have hlast : R.tGrid[M]? = some tSimOsc := by
    have := hr.total cfg.fesd cfg.equidistant le_rfl
    rw [hnf] at this
    rw [this]
    have : (N : ℝ) ≠ 0 := by exact_mod_cast hN
    show some ((N : ℝ) * (tSimOsc / N)) = _
    congr 1
    field_simp
  have hg : ∀ n ≤ M, R.tGrid[n]? = some ((R.timeSteps.take n).sum) := fun n hn => by
    rw [hgrid, List.getElem?_map, List.getElem?_range (by omega)]; rfl
  have hsum : R.timeSteps.sum = tSimOsc := by
    have := hg M le_rfl
    rw [hlast, List.take_of_length_le (by omega)] at this
    exact (Option.some.inj this).symm
  have hT : ∀ (k : Nat) (t : ℝ), R.tGrid[k]? = some t → t ≤ tSimOsc := by
    intro k t ht
    have hk : k ≤ M := by
      by_contra hc
      rw [List.getElem?_eq_none (by omega)] at ht
      cases ht
    rw [hg k hk] at ht
    rw [← Option.some.inj ht, ← hsum, ← List.sum_take_add_sum_drop R.timeSteps k]
    have : 0 ≤ (R.timeSteps.drop k).sum := List.sum_nonneg fun a ha =>
      (hr.small (fun _ => cfg.gamma) hTN a (List.mem_of_mem_drop ha)).1
    linarith
  have hst0 : toVec 2 oscillatorModel.x0 - oscBefore 0 = 0 := by
    funext i
    obtain ⟨i, hi⟩ := i
    obtain rfl | rfl : i = 0 ∨ i = 1 := by omega
    · simp [toVec, oscillatorModel, oscBefore]
    · simp [toVec, oscillatorModel, oscBefore]
  obtain ⟨m1, N1, n1, n2, n3, n4⟩ := hmain (o := { o with terminalTime := tSimOsc / N }) e1 e2 e3 A (hD p) Δ hΔ hle err
    (by
      show err = ‖toVec 2 oscillatorModel.x0 - oscBefore 0‖ + _ + _
      rw [hst0, norm_zero, zero_add]
      exact herr) hle'
  have states : ∀ (k : Nat) (t : ℝ) (x : List ℝ), R.tGrid[k]? = some t → R.xSim[k]? = some x →
      ∀ j : Fin 2, |x.getD j 0 - oscSol t j| ≤ C * err := by
    intro k t x ht hx j
    exact m1 k t x ht hx (hT k t ht) j
  refine ⟨by rw [hg 0 (Nat.zero_le _)]; simp, hlast, hgl, by omega, states, ?_, N1, by omega, ?_, ?_⟩
  · intro x hx j hj
    rw [List.getLast?_eq_getElem?, hlen, Nat.add_sub_cancel_left] at hx
    have := states M tSimOsc x hlast hx ⟨j, hj⟩
    rw [abs_sub_comm]
    have e : xSolOsc.getD j 0 = oscSol tSimOsc ⟨j, hj⟩ := by
      have : ¬ tSimOsc ≤ 1 := by unfold tSimOsc; linarith
      unfold oscSol
      rw [if_neg this]
      obtain rfl | rfl : j = 0 ∨ j = 1 := by omega
      · rfl
      · rfl
    rw [e]
    exact this
  · intro k t t' x x' ht ht' hlt hx hx'
    obtain ⟨c1, c2⟩ := n2 k t t' x x' ht ht' hlt hx hx'
    have es : ∀ x : List ℝ, oscillatorModel.surface 0 p (toVec oscillatorModel.nX x)
        = x.getD 0 0 ^ 2 + x.getD 1 0 ^ 2 - 1 := fun x => osc_surface p (toVec 2 x)
    rw [es, es] at c1 c2
    refine ⟨fun hk => ?_, fun hk => ?_⟩
    · obtain ⟨c3, c4⟩ := c1 hk
      exact ⟨by linarith, by linarith⟩
    · obtain ⟨c3, c4⟩ := c2 hk (hT k t ht)
      exact ⟨by linarith, by linarith⟩
  · intro t ht
    by_cases hN1 : N1 + 1 < R.tGrid.length
    · exact n3 t ht hN1
    · obtain rfl : N1 = M := by omega
      rw [hlast] at ht
      obtain rfl := Option.some.inj ht
      have := n4 M tSimOsc hlast le_rfl
      have h1 : 1 ≤ tSimOsc := by unfold tSimOsc; linarith
      rw [abs_of_nonneg (by linarith)]
      linarith

end Nosnoc
