import Verif.Props.NearCrossing
import Verif.Props.CrossingEx
import Verif.Props.ShipAccuracyEx
/-
The hypotheses of C134 are met by the shipped crossing example, with any number of steps, finite elements of any size
and any tolerance.
-/
namespace Nosnoc

/-- `N` steps of the shipped crossing example, from any state, without polishing and with any tolerance. -/
theorem simplest_nearCrossRun {t ct : ℝ} (ht : 0 < t) (hct : 0 < ct) (hct' : ct ≤ 1) (x0 : ℝ) {N : Nat} (hN : 0 < N) :
    ∃ po m oc P orc S R p, NearCrossRun demoColloc (shipOpts t 2 false ct ct) (simplestModel 3 1 (-1)) none po m oc P
      orc S [x0] N none R p slideW 0 1 0 := by
  obtain ⟨po, m, oc, P, h0, hr⟩ := simplest_setup 3 1 (-1) t (nf := 2) (by norm_num) false ct hct ct
  obtain ⟨P', h⟩ : ∃ P', SetupEx demoColloc (shipOpts t 2 false ct ct) (simplestModel 3 1 (-1)) none po m oc P' :=
    ⟨_, h0.toSetup.toNone, rfl, by simp [UserOcp.trivial]⟩
  have h' := h.toSetup
  obtain ⟨hcr, hS, hrd⟩ := h'.create (exactOracle P') (by simp [shipOpts, simplestOpts, Opts.default])
  have hL : (shipOpts t 2 false ct ct).nfeAfter.length = (shipOpts t 2 false ct ct).nStages := by
    simp [shipOpts, simplestOpts, Opts.default, Opts.nfeAfter]
  obtain ⟨L, hc⟩ := (C64_create_iff h' hS [x0] N none none).1.2 ⟨⟨rfl, rfl, rfl⟩, .inl rfl⟩
  obtain ⟨L', R, hrun, hR⟩ := C62_run_returns h' hL hS hrd Nat.one_pos rfl (fun hp => nomatch hp) (.inl ⟨.inl rfl, rfl⟩)
    (fun _ s hs s' hs' => by rw [simplest_sys hs, simplest_sys hs']) hc false
  have hst := C100_simulation h hL hS (exactOracle_complete _) hc hrun hR rfl (fun _ => hct.le)
    (by norm_num [shipOpts, simplestOpts, Opts.default]) (by norm_num [shipOpts, simplestOpts, Opts.default]) rfl rfl
    hr (.inl rfl) rfl (simplest_oneSwitch le_rfl ht h0) simplest_plain (fun _ => simplest_colloc) simplest_weights
  refine ⟨po, m, oc, P', exactOracle P', ⟨po, m, P', none, []⟩, R,
    simParams (simplestModel 3 1 (-1)) ⟨po, m, P', none, []⟩ none 0,
    ⟨h, hS, hL, exactOracle_exact _, ⟨none, L, L', false, _, hc, hrun, hR⟩, ?_, ?_, rfl, rfl⟩, rfl, rfl, .inl rfl, rfl,
    rfl, ?_, ⟨hct, ?_⟩, rfl, simplest_signs, rfl, rfl, rfl, by omega, ?_, simplest_weights, hr, ?_, ht.le, ?_,
    fun x y => simplest_const 0 _ x y, fun x y => simplest_const 1 _ x y⟩
  · intro i hi
    rw [hst]
    simp [hi]
  · simp [shipOpts, simplestOpts, Opts.default]
  · norm_num [shipOpts, simplestOpts, Opts.default]
  · simpa [shipOpts, simplestOpts, Opts.default] using hct'
  · norm_num [simplestModel, UserModel.Smat]
  · norm_num [shipOpts, simplestOpts, Opts.default]
  · intro k hk
    rfl

/-- The shipped crossing example without polishing, from `-3 / 2` over the time 1: the states and the switching time
are found, as exactly as one likes. -/
example {ε : ℝ} (hε : 0 < ε) : ∃ t > 0, ∃ ct > 0, ∃ N : Nat, 0 < N ∧ (N : ℝ) * t = 1 ∧ ∃ po m oc P orc S R p,
    NearCrossRun demoColloc (shipOpts t 2 false ct ct) (simplestModel 3 1 (-1)) none po m oc P orc S
      [-(3 / 2)] N none R p slideW 0 1 0 ∧
    (∀ (k : Nat) (s y : ℝ), R.tGrid[k]? = some s → R.xSim[k]? = some [y] → s ≤ 10 →
      |y - (if s ≤ 1 / 2 then -(3 / 2) + 3 * s else -(1 / 2) + s)| ≤ ε) ∧
    ∃ N1 < R.tGrid.length, ∀ s, R.tGrid[N1]? = some s → N1 + 1 < R.tGrid.length → |s - 1 / 2| ≤ ε := by
  obtain ⟨H0, hH0, C, hmain⟩ := C134_crossing (colloc := demoColloc) (sc := simplestOpts.scheme) (n := 2)
    (rep := .integral) (by norm_num) (fun _ => simplest_colloc (sn := 1) (t := 1) (ct := 1) (nf := 2) (pol := true))
    (le_refl (0 : ℝ)) 3 10 (η := 1) (r := 1) one_pos one_pos 1 1 3 0 2
  have hC : 0 < |C| + 1 := by positivity
  set v := min (min 1 H0) (ε / (|C| + 1)) / 4 with hv
  have v0 : 0 < v := by
    rw [hv]
    exact div_pos (lt_min (lt_min one_pos hH0) (div_pos hε hC)) (by norm_num)
  obtain ⟨⟨v1, v2⟩, v3⟩ : (4 * v ≤ 1 ∧ 4 * v ≤ H0) ∧ 4 * v ≤ ε / (|C| + 1) := by
    rw [← le_min_iff, ← le_min_iff, hv]
    linarith
  clear_value v
  obtain ⟨N, hN⟩ := exists_nat_gt (1 / v)
  have hN0 : 0 < (N : ℝ) := lt_trans (by positivity) hN
  have hNn : 0 < N := by exact_mod_cast hN0
  have ht : 1 / (N : ℝ) ≤ v := by
    rw [div_lt_iff₀ v0] at hN
    rw [div_le_iff₀ hN0]
    linarith
  have ht0 : 0 < 1 / (N : ℝ) := by positivity
  set t := 1 / (N : ℝ) with htd
  have hNt : (N : ℝ) * t = 1 := by rw [htd]; field_simp
  clear_value t
  have hct : 0 < v ^ 2 := by positivity
  obtain ⟨po, m, oc, P, orc, S, R, p, hA⟩ := simplest_nearCrossRun (ct := v ^ 2) ht0 hct (by nlinarith) (-(3 / 2)) hNn
  have htol : √(finalTol (shipOpts t 2 false (v ^ 2) (v ^ 2))) ≤ 2 * v := by
    rw [Real.sqrt_le_left (by linarith)]
    have h1 : (1 / 4 : ℝ) ≤ √(1 / 10) := by
      rw [Real.le_sqrt (by norm_num) (by norm_num)]; norm_num
    refine max_le ?_ ?_
    · show v ^ 2 / √(1 / 10) ≤ _
      rw [div_le_iff₀ (by linarith)]
      nlinarith
    · show v ^ 2 ≤ _
      nlinarith
  have hΔ : t = (1 + (shipOpts t 2 false (v ^ 2) (v ^ 2)).gammaH) * ((shipOpts t 2 false (v ^ 2) (v ^ 2)).terminalTime
      / (shipOpts t 2 false (v ^ 2) (v ^ 2)).nfeAfter.sum) := by
    simp [shipOpts, simplestOpts, Opts.default, Opts.nfeAfter]
    ring
  have e0 : (simplestModel 3 1 (-1)).regionField (fun _ => 0) [] p [] = fun _ _ => (3 : ℝ) :=
    funext fun x => simplest_field 0 p x
  have e1 : (simplestModel 3 1 (-1)).regionField (fun _ => 1) [] p [] = fun _ _ => (1 : ℝ) :=
    funext fun x => simplest_field 1 p x
  have gap : ∀ x : Fin 1 → ℝ, ‖(simplestModel 3 1 (-1)).regionField (fun _ => 0) [] p [] x
      - (simplestModel 3 1 (-1)).regionField (fun _ => 1) [] p [] x‖ ≤ 2 := by
    intro x
    rw [e0, e1]
    rw [pi_norm_le_iff_of_nonneg (by norm_num)]
    intro j
    norm_num
  have herr : ‖toVec (simplestModel 3 1 (-1)).nX [-(3 / 2)] - fun _ => -(3 * 1 / 2) + 3 * 0‖ = 0 := by
    have : toVec (simplestModel 3 1 (-1)).nX [-(3 / 2)] - (fun _ => -(3 * 1 / 2) + 3 * 0) = 0 := by
      funext i
      have hi : i.1 = 0 := by have : i.1 < 1 := i.2; omega
      simp [toVec, hi]
    rw [this, norm_zero]
  have hee : ‖toVec (simplestModel 3 1 (-1)).nX [-(3 / 2)] - fun _ => -(3 * 1 / 2) + 3 * 0‖ + t ^ 2
      + √(finalTol (shipOpts t 2 false (v ^ 2) (v ^ 2))) + (if IrkRep.integral = .integral then 0 else 1 / 10 ^ 11)
      ≤ 4 * v := by
    rw [herr, if_pos rfl]
    nlinarith
  obtain ⟨n0, N1, N2, n1, n2, -, n3, -⟩ := hmain (o := shipOpts t 2 false (v ^ 2) (v ^ 2)) rfl rfl rfl hA
    (simplest_crossing one_pos le_rfl p) (fun s _ _ => gap _) (fun s _ _ => gap _) t hΔ (by linarith) _ rfl
    (hee.trans v2)
  have fin : C * (‖toVec (simplestModel 3 1 (-1)).nX [-(3 / 2)] - fun _ => -(3 * 1 / 2) + 3 * 0‖ + t ^ 2
      + √(finalTol (shipOpts t 2 false (v ^ 2) (v ^ 2))) + (if IrkRep.integral = .integral then 0 else 1 / 10 ^ 11))
      ≤ ε := by
    rw [le_div_iff₀ hC] at v3
    refine (mul_le_mul (le_abs_self C) hee ?_ (abs_nonneg C)).trans (by nlinarith [abs_nonneg C])
    rw [herr, if_pos rfl]
    positivity
  refine ⟨t, ht0, _, hct, N, hNn, hNt, po, m, oc, P, orc, S, R, p, hA, fun k s y hs hy h10 => ?_, N1, by omega,
    fun s hs hs' => (n3 N1 s hs le_rfl n1 hs').trans fin⟩
  have := (n0 k s [y] hs hy h10 (0 : Fin 1)).trans fin
  refine le_trans (le_of_eq ?_) this
  show _ = |y - _|
  split_ifs <;> norm_num

end Nosnoc
