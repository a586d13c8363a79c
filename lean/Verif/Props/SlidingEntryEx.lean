import Verif.Props.SlidingEntry
import Verif.Props.CrossingEx
import Verif.Props.OscillatorEx
/-
The hypotheses of C139 are met: the shipped sliding example, simulated with any number of steps.
-/
namespace Nosnoc
open Polynomial

/-- The shipped model of the simplest example with a sliding mode: velocity 3 for `x < 0` and -1 for `x > 0`. -/
noncomputable abbrev slidingModel : UserModel := simplestModel 3 (-1) (-1)

/-- A step of length `t` from `x` with velocity `v`, with the weight `q` for the region `x < 0`. -/
noncomputable def entryStage (t x v : ℝ) (e j : Nat) : ℝ :=
  x + v * (t / 2 * ((if e = 0 then 0 else 1) + if j = 0 then 1 / 3 else 1))

noncomputable def entryTraj (t x v q : ℝ) : Traj where
  x0 _ := x
  u _ _ := 0
  v _ := 0
  p _ _ := 0
  speed _ := 1
  H _ _ := t / 2
  X _ e j _ := entryStage t x v e j
  theta _ _ _ _ i := if i = 0 then q else 1 - q

theorem entryTraj_stageL (t x v q : ℝ) (k e j : Nat) :
    (entryTraj t x v q).stageL slidingModel k e j = [entryStage t x v e j] := rfl

/-- Before the surface, or on it. -/
def EntrySide (q y : ℝ) : Prop := y ≤ 0 ∧ (q ≠ 1 → y = 0)

theorem entry_closed {q : ℝ} {r : Nat} (hr : r < 2) {y : ℝ} (hy : EntrySide q y)
    (hne : (if r = 0 then q else 1 - q) ≠ 0) (p : List ℝ) : slidingModel.InClosedRegion 0 r [y] p := by
  intro n hn
  obtain rfl | rfl : r = 0 ∨ r = 1 := by omega
  · show 0 ≤ (-1 : ℝ) * y
    linarith [hy.1]
  · show 0 ≤ (1 : ℝ) * y
    rw [hy.2 (fun h => hne (by rw [h]; simp))]
    simp

section
variable {t ct : ℝ} {pol : Bool} {po : PreOpts} {m : PreModel} {oc : PreOcp} {P : Problem}

theorem entry_slope (t x q : ℝ) (k e j i : Nat) :
    (entryTraj t x (4 * q - 1) q).slope slidingModel k e j i = 4 * q - 1 := by
  unfold Traj.slope
  have hn : slidingModel.nSys = 1 := rfl
  rw [hn, Finset.sum_range_one]
  show ∑ i' ∈ Finset.range 2, (if i' = 0 then (3 : ℝ) else -1) * (if i' = 0 then q else 1 - q) = _
  rw [Finset.sum_range_succ, Finset.sum_range_one, if_pos rfl, if_pos rfl, if_neg one_ne_zero, if_neg one_ne_zero]
  ring

theorem entry_solves (h : SetupEx demoColloc (shipOpts t 2 pol ct) slidingModel none po m oc P) (ht : 0 ≤ t)
    {x q : ℝ} (hq0 : 0 ≤ q) (hq1 : q ≤ 1) (hs : ∀ d, 0 ≤ d → d ≤ t → EntrySide q (x + (4 * q - 1) * d)) :
    (entryTraj t x (4 * q - 1) q).Solves demoColloc slidingModel UserOcp.trivial po := by
  have e1 : po.nStages = 1 := h.e_nStages
  have e2 : nfe po 0 = 2 := by
    unfold nfe
    rw [h.e_nfeList]
    rfl
  have e3 : po.terminalTime = t := h.e_terminalTime
  have e4 : po.gammaH = 1 := h.e_gammaH
  have e6 : po.sot = .none := h.e_sot
  have e7 : po.nS = 2 := h.e_nS
  have e8 : po.irkRep = .integral := h.e_irkRep
  have e9 : po.scheme = .radauIIA := h.e_scheme
  have hslope := entry_slope t x q
  set v : ℝ := 4 * q - 1 with hv
  set T := entryTraj t x v q with hT
  have hst : ∀ e < 2, ∀ i, T.start po 0 e i = x + v * (t / 2 * if e = 0 then 0 else 1) := by
    intro e he i
    obtain rfl | rfl : e = 0 ∨ e = 1 := by omega
    · simp [Traj.start, prevFe, hT, entryTraj]
    · simp [Traj.start, prevFe, hT, entryTraj, e7, entryStage]
  refine ⟨?_, ?_, ?_, ?_, ?_, ?_, ?_, ?_, ?_, ?_, ?_, ?_, ?_, ?_, ?_⟩
  · intro _ k e hk i hi
    obtain ⟨rfl, he⟩ := simplest_nfe h hk
    rw [e7, e9, hst e he]
    have hcol : (demoColloc .radauIIA 2).getD 0 0 = 1 / 3 ∧ (demoColloc .radauIIA 2).getD 1 0 = 1 := by
      simp [demoColloc]
    have hE : ∀ j, entryStage t x v e j = x + v * (t / 2 * ((if e = 0 then 0 else 1) + if j = 0 then 1 / 3 else 1)) :=
      fun j => rfl
    generalize (if e = 0 then (0 : ℝ) else 1) = E at hE ⊢
    refine ⟨C (x + v * (t / 2 * E)) + C (t / 2 * v) * X, ?_, by simp, ?_⟩
    · refine (natDegree_add_le _ _).trans (max_le (by rw [natDegree_C]; norm_num) ((natDegree_C_mul_le _ _).trans ?_))
      rw [natDegree_X]
      norm_num
    · intro j hj
      show _ = entryStage t x v e j ∧ _ = t / 2 * (1 * T.slope slidingModel 0 e j i)
      rw [hslope, hE]
      obtain rfl | rfl : j = 0 ∨ j = 1 := by omega
      · rw [hcol.1, if_pos rfl]
        constructor
        · simp only [eval_add, eval_mul, eval_C, eval_X]
          ring
        · simp
      · rw [hcol.2, if_neg one_ne_zero]
        constructor
        · simp only [eval_add, eval_mul, eval_C, eval_X]
          ring
        · simp
  · intro hc; exact absurd e8 hc
  · intro k e hk j hj s hs
    constructor
    · intro i hi
      show 0 ≤ (if i = 0 then q else 1 - q)
      split <;> linarith
    · obtain rfl := simplest_sys hs
      show ∑ i ∈ Finset.range 2, (if i = 0 then q else 1 - q) = 1
      rw [Finset.sum_range_succ, Finset.sum_range_one, if_pos rfl, if_neg one_ne_zero]
      ring
  · intro k e hk j hj s hsy i hi hne j' hj'
    obtain rfl := simplest_sys hsy
    rw [entryTraj_stageL]
    refine entry_closed hi (hs _ ?_ ?_) hne _
    · split <;> split <;> linarith
    · split <;> split <;> linarith
  · intro k e hk j hj s hsy i hi hne
    obtain rfl := simplest_sys hsy
    obtain ⟨rfl, he⟩ := simplest_nfe h hk
    have : T.startL po slidingModel 0 e = [T.start po 0 e 0] := rfl
    rw [this, hst e he]
    refine entry_closed hi (hs _ ?_ ?_) hne _
    · split <;> linarith
    · split <;> linarith
  · intro k e hk
    obtain ⟨rfl, he⟩ := simplest_nfe h hk
    unfold nominalH
    rw [e1, e2, e3, e4]
    show _ ≤ t / 2 ∧ t / 2 ≤ _
    constructor
    · linarith
    · push_cast
      linarith
  · intro _ k hk
    obtain rfl : k = 0 := by omega
    rw [e1, e2, e3, Finset.sum_range_succ, Finset.sum_range_one]
    show t / 2 + t / 2 = _
    simp
  · intro hc _; rw [e1] at hc; omega
  · intro _ k _; rfl
  · intro h0; rw [e6] at h0; cases h0
  · intro k e _ j _ _ i _; exact ⟨bot_le, le_top⟩
  · intro k _ i hi; exact absurd hi (by simp [simplestModel])
  · intro i hi; exact absurd hi (by simp [simplestModel])
  · intro k e _ _ i hi; exact absurd hi (by simp [UserOcp.trivial])
  · intro i hi; exact absurd hi (by simp [UserOcp.trivial])

theorem entry_separated (h : SetupEx demoColloc (shipOpts t 2 pol ct) slidingModel none po m oc P) {x v q : ℝ}
    (hq : Clean ct q ∧ Clean ct (1 - q))
    (hc : ∀ e < 2, ∀ j < 2, Clean ct |entryStage t x v e j| ∧ Clean ct (2 * |entryStage t x v e j|)) :
    (entryTraj t x v q).Separated po slidingModel ct := by
  intro k e hk j hj s hs
  obtain ⟨rfl, he⟩ := simplest_nfe h hk
  obtain rfl := simplest_sys hs
  have eS : po.nS = 2 := h.e_nS
  rw [eS] at hj
  obtain ⟨c1, c2⟩ := hc e he j hj
  rw [entryTraj_stageL]
  refine ⟨fun i hi => ⟨?_, ?_⟩, ?_⟩
  · show Clean ct (if i = 0 then q else 1 - q)
    split
    · exact hq.1
    · exact hq.2
  · rcases simplest_lam (a := 3) (b := -1) (xm := -1) (entryStage t x v e j) ((entryTraj t x v q).pL slidingModel 0) hi
      with g | g
    · rw [g]; exact .inl rfl
    · rw [g]; exact c2
  · rw [simplest_gmin, neg_neg]
    exact c1

end

/-- The weight of the region `x < 0`. -/
noncomputable def entryWeight (x : ℝ) : ℝ := if x < 0 then 1 else 1 / 4

/-- The position at time `τ`, from -3. -/
noncomputable def entryPos (τ : ℝ) : ℝ := if τ ≤ 1 then -3 + 3 * τ else 0

/-- One of `n` steps per unit of time. -/
theorem entryPos_step {n : Nat} (hn : 0 < n) (k : Nat) :
    (∀ d, 0 ≤ d → d ≤ 1 / (n : ℝ) → EntrySide (entryWeight (entryPos (k / n)))
      (entryPos (k / n) + (4 * entryWeight (entryPos (k / n)) - 1) * d)) ∧
    entryPos ((k + 1 : Nat) / n) = entryPos (k / n) + (4 * entryWeight (entryPos (k / n)) - 1) * (1 / (n : ℝ)) := by
  have hn0 : (0 : ℝ) < n := by exact_mod_cast hn
  have hk1 : ((k + 1 : Nat) : ℝ) / n = k / n + 1 / n := by push_cast; ring
  rw [hk1]
  have ht0 : (0 : ℝ) < 1 / n := by positivity
  have cases : (k : ℝ) / n + 1 / n ≤ 1 ∨ 1 ≤ (k : ℝ) / n := by
    rw [← add_div, div_le_one hn0, one_le_div hn0]
    rcases Nat.lt_or_ge k n with h | h
    · left; exact_mod_cast h
    · right; exact_mod_cast h
  set τ := (k : ℝ) / n
  set t := 1 / (n : ℝ)
  rcases cases with h | h
  · have e1 : entryPos τ = -3 + 3 * τ := if_pos (by linarith)
    have e2 : entryPos (τ + t) = -3 + 3 * (τ + t) := if_pos h
    have e3 : entryWeight (-3 + 3 * τ) = 1 := if_pos (by linarith)
    rw [e1, e2, e3]
    exact ⟨fun d h1 h2 => ⟨by linarith, fun hc => absurd rfl hc⟩, by ring⟩
  · have e1 : entryPos τ = 0 := by
      unfold entryPos
      by_cases hc : τ ≤ 1
      · rw [if_pos hc]; linarith
      · rw [if_neg hc]
    have e2 : entryPos (τ + t) = 0 := if_neg (by linarith)
    have e3 : entryWeight 0 = 1 / 4 := if_neg (lt_irrefl _)
    rw [e1, e2, e3]
    exact ⟨fun d h1 h2 => ⟨by norm_num, fun _ => by norm_num⟩, by norm_num⟩

/-- Simulations of this system from -3 over two units of time: for all numbers `n` of steps per unit of time and all
small tolerances there is an exact NLP solver with which all steps are reported as SUCCESS. -/
theorem entry_crossRun {n : Nat} (hn : 0 < n) : ∃ ct > 0, ∃ po m oc P orc S R p,
    CrossRun demoColloc (shipOpts (1 / n) 2 true ct) slidingModel none po m oc P orc S [-3] (2 * n) none R p slideW
      0 1 0 := by
  have hn0 : (0 : ℝ) < n := by exact_mod_cast hn
  let val : Nat → Nat → Nat → ℝ := fun e j k =>
    |entryStage (1 / n) (entryPos (k / n)) (4 * entryWeight (entryPos (k / n)) - 1) e j|
  have hval : ∀ e j, ∃ c0 > 0, ∀ c ≤ c0, ∀ k < 2 * n, Clean c (val e j k) ∧ Clean c (2 * val e j k) := by
    intro e j
    obtain ⟨a, ha, ga⟩ := clean_all (2 * n) (val e j) fun k => abs_nonneg _
    obtain ⟨b, hb, gb⟩ := clean_all (2 * n) (fun k => 2 * val e j k) fun k => mul_nonneg two_pos.le (abs_nonneg _)
    exact ⟨min a b, lt_min ha hb, fun c hc k hk =>
      ⟨ga c (hc.trans (min_le_left _ _)) k hk, gb c (hc.trans (min_le_right _ _)) k hk⟩⟩
  choose c0 hc0 gc using hval
  obtain ⟨ct, ct0, hct⟩ : ∃ ct > 0, ct ≤ min (1 / 40) (min (min (c0 0 0) (c0 0 1)) (min (c0 1 0) (c0 1 1))) :=
    ⟨_, lt_min (by norm_num) (lt_min (lt_min (hc0 _ _) (hc0 _ _)) (lt_min (hc0 _ _) (hc0 _ _))), le_rfl⟩
  have ct1 : ct ≤ 1 / 40 := hct.trans (min_le_left _ _)
  have hcl : ∀ e < 2, ∀ j < 2, ct ≤ c0 e j := by
    intro e he j hj
    have : ct ≤ min (min (c0 0 0) (c0 0 1)) (min (c0 1 0) (c0 1 1)) := hct.trans (min_le_right _ _)
    obtain ⟨h1, h2⟩ := le_min_iff.1 this
    obtain ⟨h3, h4⟩ := le_min_iff.1 h1
    obtain ⟨h5, h6⟩ := le_min_iff.1 h2
    obtain rfl | rfl : e = 0 ∨ e = 1 := by omega
    · obtain rfl | rfl : j = 0 ∨ j = 1 := by omega
      · assumption
      · assumption
    · obtain rfl | rfl : j = 0 ∨ j = 1 := by omega
      · assumption
      · assumption
  have hweight : ∀ x, (0 ≤ entryWeight x ∧ entryWeight x ≤ 1) ∧ Clean ct (entryWeight x) ∧ Clean ct (1 - entryWeight x) := by
    intro x
    unfold entryWeight
    split
    · exact ⟨by norm_num, .inr (.inl rfl), .inl (by norm_num)⟩
    · refine ⟨by norm_num, .inr (.inr ⟨by linarith, ?_⟩), .inr (.inr ⟨by linarith, ?_⟩)⟩
      · norm_num [abs_of_neg]
        linarith
      · norm_num [abs_of_neg]
        linarith
  obtain ⟨po, m, oc, P0, h0, hr⟩ := simplest_setup 3 (-1) (-1) (1 / n) (nf := 2) (by norm_num) true ct ct0
  obtain ⟨P, h⟩ : ∃ P', SetupEx demoColloc (shipOpts (1 / n) 2 true ct) slidingModel none po m oc P' :=
    ⟨_, h0.toSetup.toNone, rfl, by simp [UserOcp.trivial]⟩
  have e2 : nfe po 0 = 2 := by
    unfold nfe
    rw [h.e_nfeList]
    rfl
  have hL : (shipOpts (1 / n) 2 true ct).nfeAfter.length = (shipOpts (1 / n) 2 true ct).nStages := by
    simp [shipOpts, simplestOpts, Opts.default, Opts.nfeAfter]
  let F : List ℝ → Traj := fun l =>
    entryTraj (1 / n) (l.getD 0 0) (4 * entryWeight (l.getD 0 0) - 1) (entryWeight (l.getD 0 0))
  have hx0 : [entryPos ((0 : Nat) / n)] = [-3] := by simp [entryPos]
  obtain ⟨orc, S, L, L', R, hex, hcr, hSr, hc, hrun, hR, hst, -⟩ := C132_simulated (F := F)
    (x := fun k => [entryPos (k / n)]) (N := 2 * n) h rfl rfl hr
    (.inl rfl) (.inl (by simp [SignedMode, shipOpts, simplestOpts, Opts.default])) simplest_signs rfl simplest_plain
    (fun _ => simplest_colloc.1) (fun _ => ct1.trans (by norm_num)) rfl (by norm_num [shipOpts, simplestOpts, Opts.default])
    (by norm_num [shipOpts, simplestOpts, Opts.default]) rfl rfl rfl hL one_pos
    (by simp [shipOpts, simplestOpts, Opts.default]) (.inl rfl)
    (fun s hs s' hs' => by rw [simplest_sys hs, simplest_sys hs']) rfl
    (fun k hk => by
      obtain ⟨s1, s2⟩ := entryPos_step hn k
      obtain ⟨⟨w1, w2⟩, w3⟩ := hweight (entryPos (k / n))
      refine ⟨rfl, entry_solves h (by positivity) w1 w2 s1, fun _ => entry_separated h w3 fun e he j hj =>
        gc e j ct (hcl e he j hj) k hk, ?_⟩
      rw [e2]
      show [_] = [entryStage (1 / n) (entryPos (k / n)) (4 * entryWeight (entryPos (k / n)) - 1) 1 1]
      rw [s2]
      unfold entryStage
      rw [if_neg one_ne_zero, if_neg one_ne_zero]
      congr 1
      ring)
  rw [hx0] at hc
  have hconst : ∀ (i : Nat) (p : List ℝ) (x y : Fin slidingModel.nX → ℝ),
      ‖slidingModel.regionField (fun _ => i) [] p [] x - slidingModel.regionField (fun _ => i) [] p [] y‖
        ≤ 0 * ‖x - y‖ := by
    intro i p x y
    have : slidingModel.regionField (fun _ => i) [] p [] x = slidingModel.regionField (fun _ => i) [] p [] y := rfl
    rw [this, sub_self, norm_zero, zero_mul]
  refine ⟨ct, ct0, po, m, oc, P, orc, S, R, simParams slidingModel S none 0,
    ⟨h, hSr, hL, hex, ⟨none, L, L', false, _, hc, hrun, hR⟩, ?_, ?_, rfl, rfl⟩, rfl, rfl, .inl rfl, rfl,
    simplest_signs, rfl, rfl, rfl, by omega, ?_, simplest_weights, .inl hr, ?_, ?_, fun k _ => rfl, hconst 0 _, hconst 1 _⟩
  · intro i hi
    rw [hst]
    simp [hi]
  · simp [shipOpts, simplestOpts, Opts.default]
  · norm_num [simplestModel, UserModel.Smat]
  · norm_num [shipOpts, simplestOpts, Opts.default]
  · show (0 : ℝ) ≤ 1 / n
    positivity

theorem sliding_field (i : Nat) (p : List ℝ) :
    slidingModel.regionField (fun _ => i) [] p [] = fun _ _ => if i = 0 then (3 : ℝ) else -1 := by
  funext x k
  have hn : slidingModel.nSys = 1 := rfl
  unfold UserModel.regionField
  rw [hn, Finset.sum_range_one]
  rfl

theorem sliding_surface (p : List ℝ) (x : Fin 1 → ℝ) : slidingModel.surface 1 p x = x 0 := by
  simp [UserModel.surface, simplestModel, UserModel.Smat, UserModel.cVec]
  rfl

/-- The exact trajectory of the shipped model reaches the surface at time 1 and stays there. -/
theorem sliding_entry (p : List ℝ) :
    SlidingEntry 2 3 0 (slidingModel.regionField (fun _ => 0) [] p []) (slidingModel.regionField (fun _ => 1) [] p [])
      (fun _ _ => (0 : ℝ)) (slidingModel.surface 1 p) (fun τ _ => -3 + 3 * τ) (fun τ _ => 0 + 0 * τ)
      (LinearMap.proj (0 : Fin 1) : (Fin 1 → ℝ) →ₗ[ℝ] ℝ) 1 (1 / 2) 2 1 1 1 3 := by
  rw [sliding_field, sliding_field, show slidingModel.surface 1 p = fun x : Fin 1 → ℝ => x 0 from funext (sliding_surface p)]
  refine ⟨by norm_num, one_pos, one_pos, zero_le_one, zero_le_one, by norm_num, smooth_line (by norm_num) _ _ _,
    smooth_line (by norm_num) _ _ _, ?_, ?_, ?_, fun y y' => rfl, ?_, ?_, ?_, ?_⟩
  · funext j
    norm_num
  · intro t h1 h2
    show -3 + 3 * t ≤ _
    linarith
  · intro t h1 h2
    show _ ≤ -3 + 3 * t
    linarith
  · intro v
    rw [one_mul]
    exact norm_le_pi_norm v (0 : Fin 1)
  · intro t y _ _ _
    refine ⟨?_, ?_, ?_, ?_⟩
    · show (1 : ℝ) ≤ if 0 = 0 then 3 else -1
      norm_num
    · show (if 1 = 0 then (3 : ℝ) else -1) ≤ -1
      norm_num
    · rw [pi_norm_le_iff_of_nonneg (by norm_num)]
      intro j
      norm_num
    · rw [pi_norm_le_iff_of_nonneg (by norm_num)]
      intro j
      norm_num
  · intro t y _ _ _
    funext j
    unfold slideField
    show (0 : ℝ) = ((if 0 = 0 then (3 : ℝ) else -1) - (if 1 = 0 then (3 : ℝ) else -1))⁻¹
      * ((if 0 = 0 then (3 : ℝ) else -1) * (if 1 = 0 then (3 : ℝ) else -1)
        - (if 1 = 0 then (3 : ℝ) else -1) * (if 0 = 0 then (3 : ℝ) else -1))
    norm_num
  · intro x y
    rw [sub_self, norm_zero, zero_mul]

/-- The shipped sliding example: the states up to time 2 and the time at which sliding begins are found, as exactly
as one likes, and from then on the states lie on the surface. -/
example {ε : ℝ} (hε : 0 < ε) : ∃ n : Nat, 0 < n ∧ ∃ ct > 0, ∃ po m oc P orc S R p,
    CrossRun demoColloc (shipOpts (1 / n) 2 true ct) slidingModel none po m oc P orc S [-3] (2 * n) none R p slideW 0 1 0 ∧
    (∀ (k : Nat) (τ y : ℝ), R.tGrid[k]? = some τ → R.xSim[k]? = some [y] → τ ≤ 2 → |y - entryPos τ| ≤ ε) ∧
    ∃ N1 < R.tGrid.length, (∀ τ, R.tGrid[N1]? = some τ → N1 + 1 < R.tGrid.length → |τ - 1| ≤ ε) ∧
      (N1 + 1 < R.tGrid.length → ∀ (k : Nat) (τ y : ℝ), N1 ≤ k → R.tGrid[k]? = some τ → R.xSim[k]? = some [y] →
        τ ≤ 2 → y = 0) := by
  obtain ⟨H0, hH0, C, hmain⟩ := C139_sliding (colloc := demoColloc) (sc := simplestOpts.scheme) (n := 2) (rep := .integral)
    (by norm_num) (fun _ => simplest_colloc (sn := 1) (t := 1) (ct := 1) (nf := 2) (pol := true))
    (le_refl (0 : ℝ)) 3 2 (η := 1 / 2) (r := 1) (by norm_num) (by norm_num) 1 1 3
  have hC : 0 < |C| + 1 := by positivity
  set v := min (min 1 H0) (ε / (|C| + 1)) with hv
  have v0 : 0 < v := lt_min (lt_min one_pos hH0) (div_pos hε hC)
  obtain ⟨⟨v1, v2⟩, v3⟩ : (v ≤ 1 ∧ v ≤ H0) ∧ v ≤ ε / (|C| + 1) := by
    rw [← le_min_iff, ← le_min_iff]
  clear_value v
  obtain ⟨n, hn⟩ := exists_nat_gt (1 / v)
  have hn0 : 0 < (n : ℝ) := lt_trans (by positivity) hn
  have hnn : 0 < n := by exact_mod_cast hn0
  have ht : 1 / (n : ℝ) ≤ v := by
    rw [div_lt_iff₀ v0] at hn
    rw [div_le_iff₀ hn0]
    linarith
  have ht0 : 0 < 1 / (n : ℝ) := by positivity
  obtain ⟨ct, hct, po, m, oc, P, orc, S, R, p, hA⟩ := entry_crossRun hnn
  have hΔ : 1 / (n : ℝ) = (1 + (shipOpts (1 / n) 2 true ct).gammaH)
      * ((shipOpts (1 / n) 2 true ct).terminalTime / (shipOpts (1 / n) 2 true ct).nfeAfter.sum) := by
    simp [shipOpts, simplestOpts, Opts.default, Opts.nfeAfter]
    ring
  have htt : (1 / (n : ℝ)) ^ 2 ≤ v := by nlinarith
  have hvec : toVec slidingModel.nX [-3] = fun _ => -3 + 3 * 0 := by
    funext j
    obtain ⟨j, hj⟩ := j
    obtain rfl : j = 0 := by
      have : j < 1 := hj
      omega
    simp [toVec]
  have herr : (1 / (n : ℝ)) ^ 2 = ‖toVec slidingModel.nX [-3] - fun _ => -3 + 3 * 0‖ + (1 / (n : ℝ)) ^ 2
      + (if IrkRep.integral = .integral then 0 else 1 / 10 ^ 11) := by
    rw [hvec, sub_self, norm_zero, if_pos rfl, add_zero, zero_add]
  obtain ⟨m1, N1, n1, -, n3, n4, -⟩ := hmain (o := shipOpts (1 / n) 2 true ct) rfl rfl rfl hA (sliding_entry p)
    (by rw [hvec]; exact (sliding_surface p _).le.trans (by norm_num)) _ hΔ (ht.trans v2) _ herr (htt.trans v2)
  have hCe : C * (1 / (n : ℝ)) ^ 2 ≤ ε := by
    rw [le_div_iff₀ hC] at v3
    have h1 : C * (1 / (n : ℝ)) ^ 2 ≤ |C| * v := mul_le_mul (le_abs_self C) htt (by positivity) (abs_nonneg C)
    nlinarith
  refine ⟨n, hnn, ct, hct, po, m, oc, P, orc, S, R, p, hA, ?_, N1, n1, fun τ h1 h2 => (n4 τ h1 h2).trans hCe, ?_⟩
  · intro k τ y h1 h2 h3
    have := (m1 k τ [y] h1 h2 h3 (0 : Fin 1)).trans hCe
    refine le_trans (le_of_eq ?_) this
    unfold entryPos
    show _ = |y - _|
    split_ifs <;> norm_num
  · intro h0 k τ y hk h1 h2 h3
    have := n3 h0 k τ [y] hk h1 h2 h3
    have := (sliding_surface p (toVec slidingModel.nX [y])).symm.trans this
    simpa [toVec] using this

end Nosnoc
