import Verif.Props.Crossing
import Verif.Props.ExamplesEx
/-
The hypotheses of C131 are met by the shipped crossing example, with finite elements of any size.
-/
namespace Nosnoc

/-- A trajectory with a constant velocity. -/
theorem smooth_line {v : ℝ} {D : ℝ} (hD : |v| ≤ D) (c t0 t1 : ℝ) :
    SmoothSolution 2 D (fun _ : Fin 1 → ℝ => fun _ => v) (fun t _ => c + v * t) t0 t1 := by
  have hD0 : 0 ≤ D := (abs_nonneg v).trans hD
  refine ⟨fun _ _ => v, contDiff_const, ?_, ?_⟩
  · intro q _ t _
    cases q with
    | zero =>
      rw [iteratedDeriv_zero, pi_norm_le_iff_of_nonneg hD0]
      intro i
      simpa using hD
    | succ q =>
      rw [iteratedDeriv_const]
      simpa using hD0
  · intro t _
    refine ⟨rfl, hasDerivWithinAt_pi.2 fun i => ?_⟩
    simpa using (((hasDerivAt_id t).const_mul v).const_add c).hasDerivWithinAt

/-- One step of the shipped crossing example, from a state before the surface to one behind it, with polishing. -/
theorem simplest_met_small {t : ℝ} (h1 : 0 < t) (h2 : t ≤ 1 / 4) :
    TwoSegments (t / 60) 3 1 t (-(3 * t / 2)) (t / 2) (t / 2) 0 (t / 2) 1 0 := by
  have hcl : ∀ y, t / 6 ≤ y → y ≤ 1 / 2 → Clean (t / 60) y := by
    intro y h3 h4
    refine .inr (.inr ⟨by linarith, ?_⟩)
    rw [abs_of_neg (by linarith)]
    linarith
  refine ⟨⟨by linarith, by linarith, by ring⟩, by ring, by ring, by norm_num,
    ⟨fun _ => ⟨by linarith, le_rfl⟩, fun h => absurd rfl h⟩,
    ⟨fun h => absurd (by norm_num) h, fun _ => ⟨le_rfl, by linarith⟩⟩, ?_, ?_⟩
  · rintro y (rfl | rfl | rfl | rfl)
    · exact .inr (.inl rfl)
    · exact .inl (by norm_num)
    · exact .inl rfl
    · exact .inr (.inl (by norm_num))
  · rintro y (rfl | rfl | rfl | rfl)
    · rw [show |-(3 * t / 2) + 1 / 3 * (0 - -(3 * t / 2))| = t by rw [abs_of_neg (by linarith)]; ring]
      exact ⟨hcl _ (by linarith) (by linarith), hcl _ (by linarith) (by linarith)⟩
    · simp [Clean]
    · rw [abs_of_pos (by linarith)]
      exact ⟨hcl _ (by linarith) (by linarith), hcl _ (by linarith) (by linarith)⟩
    · rw [abs_of_pos (by linarith)]
      exact ⟨hcl _ (by linarith) (by linarith), hcl _ (by linarith) (by linarith)⟩

theorem simplest_field (i : Nat) (p : List ℝ) (x : Fin 1 → ℝ) :
    (simplestModel 3 1 (-1)).regionField (fun _ => i) [] p [] x = fun _ => if i = 0 then 3 else 1 := by
  funext row
  simp [UserModel.regionField, UserModel.nSys, UserModel.Fmat, simplestModel]

theorem simplest_const (i : Nat) (p : List ℝ) (x y : Fin 1 → ℝ) :
    ‖(simplestModel 3 1 (-1)).regionField (fun _ => i) [] p [] x
      - (simplestModel 3 1 (-1)).regionField (fun _ => i) [] p [] y‖ ≤ 0 * ‖x - y‖ := by
  have e : (simplestModel 3 1 (-1)).regionField (fun _ => i) [] p [] x
      = (simplestModel 3 1 (-1)).regionField (fun _ => i) [] p [] y :=
    (simplest_field i p x).trans (simplest_field i p y).symm
  rw [e, sub_self, zero_mul]
  exact norm_zero.le

theorem simplest_surface (p : List ℝ) (x : Fin 1 → ℝ) : (simplestModel 3 1 (-1)).surface 1 p x = x 0 := by
  simp [UserModel.surface, UserModel.Smat, UserModel.cVec, simplestModel]

theorem line_crossing {t : ℝ} (h1 : 0 < t) (h2 : t ≤ 1) :
    Crossing (V := Fin 1 → ℝ) 2 3 (fun _ _ => 3) (fun _ _ => 1) (fun x => x 0)
      (fun τ _ => -(3 * t / 2) + 3 * τ) (fun τ _ => -(t / 2) + 1 * τ)
      (LinearMap.proj (0 : Fin 1) : (Fin 1 → ℝ) →ₗ[ℝ] ℝ) (t / 2) 1 10 1 1 1 3 0 := by
  have hn : ∀ c : ℝ, ‖(fun _ : Fin 1 => c)‖ = |c| := fun c => by
    rw [pi_norm_const, Real.norm_eq_abs]
  refine ⟨one_pos, one_pos, one_pos, zero_le_one, by linarith, by linarith, smooth_line (by norm_num) _ _ _,
    smooth_line (by norm_num) _ _ _, ?_, ?_, ?_, ?_, ?_, ?_, ?_, ?_, ?_, by norm_num⟩
  · funext i; ring
  · intro τ _ h; dsimp only; linarith
  · intro τ h _; dsimp only; linarith
  · intro τ h _
    dsimp only
    have := min_le_left (τ - t / 2) 1
    linarith
  · intro τ y _ _ _
    rw [one_mul]
    exact norm_le_pi_norm (y - fun _ => -(3 * t / 2) + 3 * τ) 0
  · intro τ y _ _ _
    exact (norm_le_pi_norm (y - fun _ => -(t / 2) + 1 * τ) 0).trans (one_mul _).ge
  · intro y y' _ _
    simp
  · intro y _
    refine ⟨?_, by rw [hn]; norm_num⟩
    show (1 : ℝ) ≤ 3
    norm_num
  · intro y _
    refine ⟨?_, by rw [hn]; norm_num⟩
    show (1 : ℝ) ≤ 1
    norm_num

/-- The trajectory from `-3 t / 2` crosses the surface at time `t / 2`. -/
theorem simplest_crossing {t : ℝ} (h1 : 0 < t) (h2 : t ≤ 1) (p : List ℝ) :
    Crossing 2 3 ((simplestModel 3 1 (-1)).regionField (fun _ => 0) [] p [])
      ((simplestModel 3 1 (-1)).regionField (fun _ => 1) [] p []) ((simplestModel 3 1 (-1)).surface 1 p)
      (fun τ _ => -(3 * t / 2) + 3 * τ) (fun τ _ => -(t / 2) + 1 * τ)
      (LinearMap.proj (0 : Fin 1) : (Fin 1 → ℝ) →ₗ[ℝ] ℝ) (t / 2) 1 10 1 1 1 3 0 := by
  have e0 : (simplestModel 3 1 (-1)).regionField (fun _ => 0) [] p [] = fun _ _ => (3 : ℝ) :=
    funext fun x => simplest_field 0 p x
  have e1 : (simplestModel 3 1 (-1)).regionField (fun _ => 1) [] p [] = fun _ _ => (1 : ℝ) :=
    funext fun x => simplest_field 1 p x
  have e2 : (simplestModel 3 1 (-1)).surface 1 p = fun x : Fin 1 → ℝ => x 0 := funext (simplest_surface p)
  rw [e0, e1, e2]
  exact line_crossing h1 h2

/-- The hypotheses of `C131_crossing` are met with finite elements of any size: for every `H0 > 0` there is such a
simulation with `Δ ≤ H0` and `err ≤ H0`. -/
theorem simplest_crossRun {t : ℝ} (h1 : 0 < t) (h2 : t ≤ 1 / 4) : ∃ po m oc P orc S R p,
    CrossRun demoColloc (shipOpts t 2 true (t / 60)) (simplestModel 3 1 (-1)) none po m oc P orc S
      [-(3 * t / 2)] 1 none R p slideW 0 1 0 := by
  obtain ⟨po, m, oc, P, orc, S, L, L', R, b', h, hr, -, hS, hex, hc, hrun, hR, hst⟩ :=
    simplest_stepRun (simplest_met_small h1 h2) (-1) (by linarith) (by linarith)
  refine ⟨po, m, oc, P, orc, S, R, simParams (simplestModel 3 1 (-1)) S none 0,
    ⟨h, hS, simplest_exactOpts.lists, hex, ⟨none, L, L', false, b', hc, hrun, hR⟩, ?_, ?_, rfl, rfl⟩, rfl, rfl, .inl rfl, rfl,
    simplest_signs, rfl, rfl, rfl, by omega, ?_, simplest_weights, .inl hr, ?_, h1.le, ?_, ?_, ?_⟩
  · intro i hi
    obtain rfl : i = 0 := by omega
    rw [hst]
    rfl
  · simp [shipOpts, simplestOpts, Opts.default]
  · norm_num [simplestModel, UserModel.Smat]
  · norm_num [shipOpts, simplestOpts, Opts.default]
  · intro k hk
    obtain rfl : k = 0 := by omega
    rfl
  · intro x y
    exact simplest_const 0 _ x y
  · intro x y
    exact simplest_const 1 _ x y

/-- The shipped crossing example: the switching time is found, as exactly as one likes. -/
example {ε : ℝ} (hε : 0 < ε) : ∃ t > 0, t ≤ ε ∧ ∃ po m oc P orc S R p,
    CrossRun demoColloc (shipOpts t 2 true (t / 60)) (simplestModel 3 1 (-1)) none po m oc P orc S
      [-(3 * t / 2)] 1 none R p slideW 0 1 0 ∧
    ∃ N1 < R.tGrid.length, ∀ s, R.tGrid[N1]? = some s → N1 + 1 < R.tGrid.length → |s - t / 2| ≤ ε := by
  obtain ⟨H0, hH0, C, hmain⟩ := C131_crossing (colloc := demoColloc) (sc := simplestOpts.scheme) (n := 2) (rep := .integral)
    (by norm_num) (fun _ => simplest_colloc (sn := 1) (t := 1) (ct := 1) (nf := 2) (pol := true)) (le_refl (0 : ℝ)) 3 10 (η := 1) (r := 1)
    one_pos one_pos 1 1 3
  have hC : 0 < |C| + 1 := by positivity
  set t := min (min (1 / 4) H0) (min ε (ε / (|C| + 1))) with ht
  have t0 : 0 < t := by
    rw [ht]
    exact lt_min (lt_min (by norm_num) hH0) (lt_min hε (div_pos hε hC))
  obtain ⟨⟨t1, t2⟩, t3, t4⟩ : (t ≤ 1 / 4 ∧ t ≤ H0) ∧ t ≤ ε ∧ t ≤ ε / (|C| + 1) := by
    rw [← le_min_iff, ← le_min_iff, ← le_min_iff]
  clear_value t
  obtain ⟨po, m, oc, P, orc, S, R, p, hA⟩ := simplest_crossRun t0 t1
  have hΔ : t = (1 + (shipOpts t 2 true (t / 60)).gammaH)
      * ((shipOpts t 2 true (t / 60)).terminalTime / (shipOpts t 2 true (t / 60)).nfeAfter.sum) := by
    simp [shipOpts, simplestOpts, Opts.default, Opts.nfeAfter]
    ring
  have htt : t ^ 2 ≤ t := by nlinarith
  have herr : t ^ 2 = ‖toVec (simplestModel 3 1 (-1)).nX [-(3 * t / 2)] - fun _ => -(3 * t / 2) + 3 * 0‖ + t ^ 2
      + (if IrkRep.integral = .integral then 0 else 1 / 10 ^ 11) := by
    have : toVec (simplestModel 3 1 (-1)).nX [-(3 * t / 2)] - (fun _ => -(3 * t / 2) + 3 * 0) = 0 := by
      funext i
      have hi : i.1 = 0 := by have : i.1 < 1 := i.2; omega
      simp [toVec, hi]
    rw [this]
    simp
  obtain ⟨-, N1, n1, -, n3, -⟩ := hmain (o := shipOpts t 2 true (t / 60)) rfl rfl rfl hA
    (simplest_crossing t0 (by linarith) p) t hΔ t2 _ herr (by linarith)
  refine ⟨t, t0, t3, po, m, oc, P, orc, S, R, p, hA, N1, n1, fun s hs hs' => (n3 s hs hs').trans ?_⟩
  rw [le_div_iff₀ hC] at t4
  calc C * t ^ 2 ≤ |C| * t := mul_le_mul (le_abs_self C) htt (by positivity) (abs_nonneg C)
    _ ≤ ε := by nlinarith

end Nosnoc
