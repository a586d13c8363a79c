import Verif.Props.SlidingChain
import Verif.Props.CrossingEx
import Verif.Props.OscillatorEx
/-
The hypotheses of C141 are met: a system with a crossing followed by a sliding mode, simulated with any number of
steps.
-/
namespace Nosnoc
open Polynomial

/-- Two states: `y' = 1`, and `x' = 2 |y - 2|` for `x < 0`, `x' = 2 - y` for `x > 0`. -/
noncomputable def bendModel : UserModel :=
  { simplestModel 0 0 0 with
    nX := 2
    x0 := [-3, 0]
    F := some [⟨2, fun row i x _ _ _ _ =>
      if row = 0 then (if i = 0 then 2 * |x.getD 1 0 - 2| else 2 - x.getD 1 0) else 1⟩] }

theorem bend_sys {s : Nat} (h : s < bendModel.nSys) : s = 0 := by
  simpa [bendModel, simplestModel, UserModel.nSys] using h

theorem bend_signs {o : Opts} : SignsOk o bendModel := by
  intro s hs
  obtain rfl := bend_sys hs
  exact (simplest_signs (a := 0) (b := 0) (xm := 0) (o := o)) 0 (by simp [simplestModel, UserModel.nSys])

/-- The parabola `(y - 1) (3 - y)`. -/
noncomputable def bendQ (z : ℝ) : ℝ := (z - 1) * (3 - z)

section
variable {t ct sn : ℝ} {pol : Bool}

theorem bend_setup (t : ℝ) {ct : ℝ} (hct : 0 < ct) (pol : Bool) (sn : ℝ) :
    ∃ po m oc P, SetupEx demoColloc (shipOpts t 2 pol ct sn) bendModel none po m oc P ∧ po.rbe = true := by
  obtain ⟨po, hpo⟩ : ∃ po, (shipOpts t 2 pol ct sn).preprocess demoColloc = .ok po :=
    flex_preOpts ⟨div_pos hct (by norm_num [shipOpts, simplestOpts, Opts.default]), by
      norm_num [shipOpts, simplestOpts, Opts.default]⟩ (.inl rfl)
  have h1 := preprocess_opts hpo
  have e := h1.toOpts
  have e2 : po.timeFreezing = false := by rw [e]; rfl
  obtain ⟨m, hm⟩ : ∃ m, bendModel.preprocess po = .ok m := by
    refine switched_ok (Fs := [⟨2, fun row i x _ _ _ _ =>
      if row = 0 then (if i = 0 then 2 * |x.getD 1 0 - 2| else 2 - x.getD 1 0) else 1⟩])
      (cs := [⟨1, fun _ x _ _ => x.getD 0 0⟩])
      (Ss := [⟨2, 1, fun i _ => if i = 0 then -1 else 1⟩]) ⟨?_, ?_, ?_, rfl, ?_, .inr e2⟩
      ⟨rfl, rfl, rfl, rfl, ?_, rfl, le_rfl, ?_, ?_, ?_, ?_⟩ rfl
    · intro l h; cases h
    · intro l h; cases h
    · intro l h; cases h
    · intro V h; cases h
    · intro f hf
      simp only [List.mem_singleton] at hf
      rw [hf]
      simp
    · intro s hs
      obtain rfl : s = 0 := by simpa using hs
      rfl
    · intro _ s hs
      obtain rfl : s = 0 := by simpa using hs
      rfl
    · intro _ s hs i hi k hk _
      obtain rfl : s = 0 := by simpa using hs
      exact hk
    · intro _ s hs
      obtain rfl : s = 0 := by simpa using hs
      rfl
  obtain ⟨oc, hoc⟩ : ∃ oc, UserOcp.trivial.preprocess m = .ok oc := by
    obtain ⟨nC, nF, g, up, f0, acc, hp⟩ := preprocess_pre hm
    unfold UserOcp.preprocess
    rw [hp.dims]
    exact ⟨_, rfl⟩
  obtain ⟨P, hP⟩ := (C06_construct_iff (uo := some UserOcp.trivial) rfl hpo hm hoc
    (by simp [shipOpts, simplestOpts, Opts.default]) (fun _ => rfl) rfl).2 ⟨by simp [shipOpts, simplestOpts, Opts.default], rfl,
      by simp [shipOpts, simplestOpts, Opts.default], fun k hk => ⟨2, by
        show (List.replicate 1 2)[k]? = some 2
        have hk : k < 1 := hk
        simp [hk], by omega⟩, by simp [shipOpts, simplestOpts, Opts.default]⟩
  have h0 : SetupEx demoColloc (shipOpts t 2 pol ct sn) bendModel (some UserOcp.trivial) po m oc P :=
    ⟨⟨hP, by simp [shipOpts, simplestOpts, Opts.default], fun _ => rfl⟩, rfl, by simp [UserOcp.trivial]⟩
  refine ⟨po, m, oc, _, ⟨h0.toSetup.toNone, rfl, by simp [UserOcp.trivial]⟩, ?_⟩
  obtain ⟨t, ht, hr⟩ := h1.rbe
  obtain ⟨-, -, -, htp⟩ := h1.integral rfl
  rw [htp] at ht
  have : t = 1 := by simpa [shipOpts, simplestOpts, Opts.default, demoColloc] using ht.symm
  rw [hr, this]
  norm_num

theorem bend_plain : PlainProblem (shipOpts t 2 pol ct sn) bendModel UserOcp.trivial where
  noGz := rfl
  noComp := rfl
  stage := fun _ => rfl
  freeze := rfl
  stepEq := by simp [shipOpts, simplestOpts, Opts.default]
  mode := by simp [shipOpts, simplestOpts, Opts.default]
  slack := by simp [shipOpts, simplestOpts, Opts.default]

/-- The second state at the Runge-Kutta points of a step of length `t` from `y`. -/
noncomputable def bendStage (t y : ℝ) (e j : Nat) : ℝ :=
  y + t / 2 * ((if e = 0 then 0 else 1) + if j = 0 then 1 / 3 else 1)

/-- A step along `x = c * bendQ y`, with weight `w` of the region `x < 0`. -/
noncomputable def bendTraj (t y c w : ℝ) : Traj where
  x0 i := if i = 0 then c * bendQ y else y
  u _ _ := 0
  v _ := 0
  p _ _ := 0
  speed _ := 1
  H _ _ := t / 2
  X _ e j i := if i = 0 then c * bendQ (bendStage t y e j) else bendStage t y e j
  theta _ _ _ _ i := if i = 0 then w else 1 - w

theorem bendTraj_stageL (t y c w : ℝ) (k e j : Nat) :
    (bendTraj t y c w).stageL bendModel k e j = [c * bendQ (bendStage t y e j), bendStage t y e j] := rfl

/-- Where a step with these constants is possible. -/
def BendOk (c w z : ℝ) : Prop :=
  w * (2 * |z - 2|) + (1 - w) * (2 - z) = c * (4 - 2 * z) ∧ (w ≠ 0 → c * bendQ z ≤ 0) ∧ (w ≠ 1 → 0 ≤ c * bendQ z)

theorem bend_closed {c w z : ℝ} {r : Nat} (hr : r < 2) (hx : BendOk c w z)
    (hne : (if r = 0 then w else 1 - w) ≠ 0) (p : List ℝ) : bendModel.InClosedRegion 0 r [c * bendQ z, z] p := by
  intro n hn
  obtain rfl | rfl : r = 0 ∨ r = 1 := by omega
  · show 0 ≤ (-1 : ℝ) * (c * bendQ z)
    have := hx.2.1 hne
    linarith
  · show 0 ≤ (1 : ℝ) * (c * bendQ z)
    have := hx.2.2 fun h => hne (by rw [h]; simp)
    linarith

theorem bend_slope {t y c w : ℝ} {k e j : Nat} (hx : BendOk c w (bendStage t y e j)) (i : Nat) :
    (bendTraj t y c w).slope bendModel k e j i = if i = 0 then c * (4 - 2 * bendStage t y e j) else 1 := by
  unfold Traj.slope
  have hn : bendModel.nSys = 1 := rfl
  rw [hn, Finset.sum_range_one]
  show ∑ i' ∈ Finset.range 2, (if i = 0 then (if i' = 0 then 2 * |bendStage t y e j - 2| else 2 - bendStage t y e j) else (1 : ℝ))
    * (if i' = 0 then w else 1 - w) = _
  rw [Finset.sum_range_succ, Finset.sum_range_one, if_pos rfl, if_pos rfl, if_neg one_ne_zero, if_neg one_ne_zero]
  by_cases hi : i = 0
  · rw [if_pos hi, if_pos hi, if_pos hi, ← hx.1]
    ring
  · rw [if_neg hi, if_neg hi, if_neg hi]
    ring

variable {po : PreOpts} {m : PreModel} {oc : PreOcp} {P : Problem}

theorem bend_nfe (h : SetupEx demoColloc (shipOpts t 2 pol ct sn) bendModel none po m oc P) {k e : Nat}
    (hk : HasFE po k e) : k = 0 ∧ e < 2 := by
  have e1 : po.nStages = 1 := h.e_nStages
  have h1 := hk.1
  obtain rfl : k = 0 := by omega
  have h2 := hk.2
  unfold nfe at h2
  rw [h.e_nfeList] at h2
  exact ⟨rfl, h2⟩

theorem bend_solves (h : SetupEx demoColloc (shipOpts t 2 pol ct sn) bendModel none po m oc P) (ht : 0 ≤ t)
    {y c w : ℝ} (hw0 : 0 ≤ w) (hw1 : w ≤ 1) (hs : ∀ d, 0 ≤ d → d ≤ t → BendOk c w (y + d)) :
    (bendTraj t y c w).Solves demoColloc bendModel UserOcp.trivial po := by
  have e1 : po.nStages = 1 := h.e_nStages
  have e2 : nfe po 0 = 2 := by
    unfold nfe
    rw [h.e_nfeList]
    rfl
  have e3 : po.terminalTime = t := h.e_terminalTime
  have e4 : po.gammaH = 1 := h.e_gammaH
  have e6 : po.sot = .none := h.e_sot
  have e7 : po.nS = 2 := h.e_nS
  have e8 : po.irkRep = .integral := h.e_irkRep
  have e9 : po.scheme = .radauIIA := h.e_scheme
  have hok : ∀ e j, BendOk c w (bendStage t y e j) := by
    intro e j
    refine hs _ ?_ ?_
    · split <;> split <;> linarith
    · split <;> split <;> linarith
  set T := bendTraj t y c w with hT
  have hst : ∀ e < 2, ∀ i, T.start po 0 e i = if i = 0 then c * bendQ (y + t / 2 * if e = 0 then 0 else 1)
      else y + t / 2 * if e = 0 then 0 else 1 := by
    intro e he i
    obtain rfl | rfl : e = 0 ∨ e = 1 := by omega
    · simp [Traj.start, prevFe, hT, bendTraj]
    · simp [Traj.start, prevFe, hT, bendTraj, e7, bendStage]
  refine ⟨?_, ?_, ?_, ?_, ?_, ?_, ?_, ?_, ?_, ?_, ?_, ?_, ?_, ?_, ?_⟩
  · intro _ k e hk i hi
    obtain ⟨rfl, he⟩ := bend_nfe h hk
    rw [e7, e9, hst e he]
    have hcol : (demoColloc .radauIIA 2).getD 0 0 = 1 / 3 ∧ (demoColloc .radauIIA 2).getD 1 0 = 1 := by
      simp [demoColloc]
    have hE : ∀ j, bendStage t y e j = y + t / 2 * ((if e = 0 then 0 else 1) + if j = 0 then 1 / 3 else 1) :=
      fun j => rfl
    have hsl : ∀ j, T.slope bendModel 0 e j i = if i = 0 then c * (4 - 2 * bendStage t y e j) else 1 :=
      fun j => bend_slope (hok e j) i
    generalize (if e = 0 then (0 : ℝ) else 1) = E at hE ⊢
    by_cases hi0 : i = 0
    · refine ⟨C (c * bendQ (y + t / 2 * E)) + C (c * (t / 2) * (4 - 2 * (y + t / 2 * E))) * X
        + C (-c * (t / 2) ^ 2) * X ^ 2, by compute_degree, by simp [hi0], ?_⟩
      intro j hj
      show _ = (if i = 0 then c * bendQ (bendStage t y e j) else bendStage t y e j) ∧
        _ = t / 2 * (1 * T.slope bendModel 0 e j i)
      rw [hsl, if_pos hi0, if_pos hi0, hE]
      obtain rfl | rfl : j = 0 ∨ j = 1 := by omega
      · rw [hcol.1, if_pos rfl]
        constructor
        · simp only [eval_add, eval_mul, eval_C, eval_X, eval_pow, bendQ]
          ring
        · simp only [derivative_add, derivative_C, derivative_mul, derivative_X, derivative_X_pow, eval_add, eval_mul,
            eval_C, eval_X, eval_pow, eval_zero, eval_one]
          norm_num
          ring
      · rw [hcol.2, if_neg one_ne_zero]
        constructor
        · simp only [eval_add, eval_mul, eval_C, eval_X, eval_pow, bendQ]
          ring
        · simp only [derivative_add, derivative_C, derivative_mul, derivative_X, derivative_X_pow, eval_add, eval_mul,
            eval_C, eval_X, eval_pow, eval_zero, eval_one]
          norm_num
          ring
    · refine ⟨C (y + t / 2 * E) + C (t / 2) * X, ?_, by simp [hi0], ?_⟩
      · refine (natDegree_add_le _ _).trans (max_le (by rw [natDegree_C]; norm_num) ((natDegree_C_mul_le _ _).trans ?_))
        rw [natDegree_X]
        norm_num
      intro j hj
      show _ = (if i = 0 then c * bendQ (bendStage t y e j) else bendStage t y e j) ∧
        _ = t / 2 * (1 * T.slope bendModel 0 e j i)
      rw [hsl, if_neg hi0, if_neg hi0, hE]
      obtain rfl | rfl : j = 0 ∨ j = 1 := by omega
      · rw [hcol.1, if_pos rfl]
        constructor
        · simp only [eval_add, eval_mul, eval_C, eval_X]
          ring
        · simp
      · rw [hcol.2, if_neg one_ne_zero]
        constructor
        · simp only [eval_add, eval_mul, eval_C, eval_X]
          ring
        · simp
  · intro hc; exact absurd e8 hc
  · intro k e hk j hj s hs
    constructor
    · intro i hi
      show 0 ≤ (if i = 0 then w else 1 - w)
      split <;> linarith
    · obtain rfl := bend_sys hs
      show ∑ i ∈ Finset.range 2, (if i = 0 then w else 1 - w) = 1
      rw [Finset.sum_range_succ, Finset.sum_range_one, if_pos rfl, if_neg one_ne_zero]
      ring
  · intro k e hk j hj s hsy i hi hne j' hj'
    obtain rfl := bend_sys hsy
    rw [bendTraj_stageL]
    exact bend_closed hi (hok e j') hne _
  · intro k e hk j hj s hsy i hi hne
    obtain rfl := bend_sys hsy
    obtain ⟨rfl, he⟩ := bend_nfe h hk
    have : T.startL po bendModel 0 e = [T.start po 0 e 0, T.start po 0 e 1] := rfl
    rw [this, hst e he, hst e he, if_pos rfl, if_neg one_ne_zero]
    refine bend_closed hi (hs _ ?_ ?_) hne _
    · split <;> linarith
    · split <;> linarith
  · intro k e hk
    obtain ⟨rfl, he⟩ := bend_nfe h hk
    unfold nominalH
    rw [e1, e2, e3, e4]
    show _ ≤ t / 2 ∧ t / 2 ≤ _
    constructor
    · linarith
    · push_cast
      linarith
  · intro _ k hk
    obtain rfl : k = 0 := by omega
    rw [e1, e2, e3, Finset.sum_range_succ, Finset.sum_range_one]
    show t / 2 + t / 2 = _
    simp
  · intro hc _; rw [e1] at hc; omega
  · intro _ k _; rfl
  · intro h0; rw [e6] at h0; cases h0
  · intro k e _ j _ _ i _; exact ⟨bot_le, le_top⟩
  · intro k _ i hi; exact absurd hi (by simp [bendModel, simplestModel])
  · intro i hi; exact absurd hi (by simp [bendModel, simplestModel])
  · intro k e _ _ i hi; exact absurd hi (by simp [UserOcp.trivial])
  · intro i hi; exact absurd hi (by simp [UserOcp.trivial])

theorem bend_g (x z : ℝ) (p : List ℝ) : bendModel.gVal 0 0 [x, z] [] p = x ∧ bendModel.gVal 0 1 [x, z] [] p = -x := by
  constructor <;> simp [UserModel.gVal, UserModel.gStewartTruthy, bendModel, simplestModel, UserModel.Smat,
    UserModel.cVec]

theorem bend_gmin (y z : ℝ) (p : List ℝ) :
    (⨅ i : Fin (bendModel.Fmat 0).nCols, bendModel.gVal 0 i [y, z] [] p) = -|y| := by
  obtain ⟨h0, h1⟩ := bend_g y z p
  have hc : (bendModel.Fmat 0).nCols = 2 := rfl
  have : Nonempty (Fin (bendModel.Fmat 0).nCols) := ⟨⟨0, by rw [hc]; norm_num⟩⟩
  apply le_antisymm
  · rcases le_total y 0 with hy | hy
    · refine (ciInf_le (Set.finite_range _).bddBelow
        (⟨0, by rw [hc]; norm_num⟩ : Fin (bendModel.Fmat 0).nCols)).trans ?_
      rw [abs_of_nonpos hy, neg_neg]
      exact h0.le
    · refine (ciInf_le (Set.finite_range _).bddBelow
        (⟨1, by rw [hc]; norm_num⟩ : Fin (bendModel.Fmat 0).nCols)).trans ?_
      rw [abs_of_nonneg hy]
      exact h1.le
  · refine le_ciInf fun i => ?_
    have h2 : i.1 < 2 := i.2
    obtain e | e : i.1 = 0 ∨ i.1 = 1 := by omega
    · rw [e, h0]; exact neg_abs_le y
    · rw [e, h1]; exact neg_le_neg (le_abs_self y)

theorem bend_lam (y z : ℝ) (p : List ℝ) {i : Nat} (hi : i < 2) :
    bendModel.lam00St [y, z] [] p 0 i = 0 ∨ bendModel.lam00St [y, z] [] p 0 i = 2 * |y| := by
  obtain ⟨h0, h1⟩ := bend_g y z p
  unfold UserModel.lam00St
  rw [bend_gmin y]
  rcases le_total y 0 with hy | hy
  · rw [abs_of_nonpos hy]
    obtain rfl | rfl : i = 0 ∨ i = 1 := by omega
    · left; rw [h0]; ring
    · right; rw [h1]; ring
  · rw [abs_of_nonneg hy]
    obtain rfl | rfl : i = 0 ∨ i = 1 := by omega
    · right; rw [h0]; ring
    · left; rw [h1]; ring

theorem bend_separated (h : SetupEx demoColloc (shipOpts t 2 pol ct sn) bendModel none po m oc P) {y c w : ℝ}
    (hw : Clean ct w ∧ Clean ct (1 - w))
    (hc : ∀ e < 2, ∀ j < 2, Clean ct |c * bendQ (bendStage t y e j)| ∧ Clean ct (2 * |c * bendQ (bendStage t y e j)|)) :
    (bendTraj t y c w).Separated po bendModel ct := by
  intro k e hk j hj s hs
  obtain ⟨rfl, he⟩ := bend_nfe h hk
  obtain rfl := bend_sys hs
  have eS : po.nS = 2 := h.e_nS
  rw [eS] at hj
  obtain ⟨c1, c2⟩ := hc e he j hj
  rw [bendTraj_stageL]
  refine ⟨fun i hi => ⟨?_, ?_⟩, ?_⟩
  · show Clean ct (if i = 0 then w else 1 - w)
    split
    · exact hw.1
    · exact hw.2
  · rcases bend_lam (c * bendQ (bendStage t y e j)) (bendStage t y e j) ((bendTraj t y c w).pL bendModel 0) hi with g | g
    · rw [g]; exact .inl rfl
    · rw [g]; exact c2
  · rw [bend_gmin, neg_neg]
    exact c1

end

/-- The factor of the parabola and the weight of the region `x < 0`, by time. -/
noncomputable def bendC (z : ℝ) : ℝ := if z < 1 then 1 else if z < 3 then 1 / 2 else 0
noncomputable def bendW (z : ℝ) : ℝ := if z < 1 then 1 else if z < 3 then 0 else 1 / 3

/-- The first state at time `z`, from -3. -/
noncomputable def bendPos (z : ℝ) : ℝ := bendC z * bendQ z

/-- One of `n` steps per unit of time. -/
theorem bend_step {n : Nat} (hn : 0 < n) (k : Nat) :
    (∀ d, 0 ≤ d → d ≤ 1 / (n : ℝ) → BendOk (bendC (k / n)) (bendW (k / n)) (k / n + d)) ∧
    bendPos ((k + 1 : Nat) / n) = bendC (k / n) * bendQ (k / n + 1 / (n : ℝ)) := by
  have hn0 : (0 : ℝ) < n := by exact_mod_cast hn
  have hk0 : (0 : ℝ) ≤ k / n := by positivity
  have hk1 : ((k + 1 : Nat) : ℝ) / n = k / n + 1 / n := by push_cast; ring
  rw [hk1]
  have ht0 : (0 : ℝ) < 1 / n := by positivity
  have cases : (k : ℝ) / n + 1 / n ≤ 1 ∨ (1 ≤ (k : ℝ) / n ∧ (k : ℝ) / n + 1 / n ≤ 3) ∨ 3 ≤ (k : ℝ) / n := by
    rw [← add_div, div_le_one hn0, one_le_div hn0, div_le_iff₀ hn0, le_div_iff₀ hn0]
    rcases Nat.lt_or_ge k n with h | h
    · left; exact_mod_cast h
    · rcases Nat.lt_or_ge k (3 * n) with h' | h'
      · right; left; exact ⟨by exact_mod_cast h, by exact_mod_cast h'⟩
      · right; right; exact_mod_cast h'
  set τ := (k : ℝ) / n
  set t := 1 / (n : ℝ)
  unfold bendPos
  rcases cases with h | ⟨h, h'⟩ | h
  · have e1 : bendC τ = 1 := if_pos (by linarith)
    have e2 : bendW τ = 1 := if_pos (by linarith)
    rw [e1, e2]
    refine ⟨fun d h1 h2 => ⟨?_, fun _ => ?_, fun hc => absurd rfl hc⟩, ?_⟩
    · rw [abs_of_nonpos (by linarith)]; ring
    · unfold bendQ; nlinarith
    · rcases h.lt_or_eq with hl | hl
      · rw [bendC, if_pos hl]
      · rw [hl]; simp [bendQ]
  · have e1 : bendC τ = 1 / 2 := by rw [bendC, if_neg (by linarith), if_pos (by linarith)]
    have e2 : bendW τ = 0 := by rw [bendW, if_neg (by linarith), if_pos (by linarith)]
    rw [e1, e2]
    refine ⟨fun d h1 h2 => ⟨by ring, fun hc => absurd rfl hc, fun _ => ?_⟩, ?_⟩
    · unfold bendQ; nlinarith
    · rcases h'.lt_or_eq with hl | hl
      · rw [bendC, if_neg (by linarith), if_pos hl]
      · rw [hl]; simp [bendQ]
  · have e1 : bendC τ = 0 := by rw [bendC, if_neg (by linarith), if_neg (by linarith)]
    have e2 : bendW τ = 1 / 3 := by rw [bendW, if_neg (by linarith), if_neg (by linarith)]
    have e3 : bendC (τ + t) = 0 := by rw [bendC, if_neg (by linarith), if_neg (by linarith)]
    rw [e1, e2, e3]
    refine ⟨fun d h1 h2 => ⟨?_, fun _ => by simp, fun _ => by simp⟩, by simp⟩
    rw [abs_of_nonneg (by linarith)]; ring

theorem bend_field (i : Nat) (p : List ℝ) (x : Fin 2 → ℝ) :
    bendModel.regionField (fun _ => i) [] p [] x
      = fun j : Fin 2 => if j.1 = 0 then (if i = 0 then 2 * |x 1 - 2| else 2 - x 1) else 1 := by
  funext k
  have hn : bendModel.nSys = 1 := rfl
  unfold UserModel.regionField
  rw [hn, Finset.sum_range_one]
  rfl

theorem bend_surface (i : Nat) (p : List ℝ) (x : Fin 2 → ℝ) :
    bendModel.surface i p x = (if i = 0 then (-1 : ℝ) else 1) * x 0 := by
  simp [UserModel.surface, bendModel, simplestModel, UserModel.Smat, UserModel.cVec]

theorem bend_lipschitz (i : Nat) (p : List ℝ) (x y : Fin bendModel.nX → ℝ) :
    ‖bendModel.regionField (fun _ => i) [] p [] x - bendModel.regionField (fun _ => i) [] p [] y‖ ≤ 2 * ‖x - y‖ := by
  have hxy : |x (1 : Fin 2) - y (1 : Fin 2)| ≤ ‖x - y‖ := norm_le_pi_norm (x - y) (1 : Fin 2)
  have h0 := norm_nonneg (x - y)
  rw [pi_norm_le_iff_of_nonneg (by positivity)]
  intro j
  show |bendModel.regionField (fun _ => i) [] p [] x j - bendModel.regionField (fun _ => i) [] p [] y j| ≤ _
  rw [congrFun (bend_field i p x) j, congrFun (bend_field i p y) j]
  split
  · split
    · have := abs_abs_sub_abs_le (x (1 : Fin 2) - 2) (y (1 : Fin 2) - 2)
      rw [sub_sub_sub_cancel_right] at this
      rw [← mul_sub, abs_mul, abs_two]
      linarith
    · rw [show 2 - x (1 : Fin 2) - (2 - y (1 : Fin 2)) = -(x (1 : Fin 2) - y (1 : Fin 2)) by ring, abs_neg]
      linarith
  · simpa using h0

/-- Simulations of this system from (-3, 0) over four units of time: for all numbers `n` of steps per unit of time
there is an exact NLP solver with which all steps are reported as SUCCESS. -/
theorem bend_crossRun {n : Nat} (hn : 0 < n) : ∃ ct > 0, ∃ po m oc P orc S R p,
    CrossRun demoColloc (shipOpts (1 / n) 2 true ct) bendModel none po m oc P orc S [-3, 0] (4 * n) none R p slideW
      0 1 2 := by
  have hn0 : (0 : ℝ) < n := by exact_mod_cast hn
  let val : Nat → Nat → Nat → ℝ := fun e j k => |bendC (k / n) * bendQ (bendStage (1 / n) (k / n) e j)|
  have hval : ∀ e j, ∃ c0 > 0, ∀ c ≤ c0, ∀ k < 4 * n, Clean c (val e j k) ∧ Clean c (2 * val e j k) := by
    intro e j
    obtain ⟨a, ha, ga⟩ := clean_all (4 * n) (val e j) fun k => abs_nonneg _
    obtain ⟨b, hb, gb⟩ := clean_all (4 * n) (fun k => 2 * val e j k) fun k => mul_nonneg two_pos.le (abs_nonneg _)
    exact ⟨min a b, lt_min ha hb, fun c hc k hk =>
      ⟨ga c (hc.trans (min_le_left _ _)) k hk, gb c (hc.trans (min_le_right _ _)) k hk⟩⟩
  choose c0 hc0 gc using hval
  obtain ⟨ct, ct0, hct⟩ : ∃ ct > 0, ct ≤ min (1 / 40) (min (min (c0 0 0) (c0 0 1)) (min (c0 1 0) (c0 1 1))) :=
    ⟨_, lt_min (by norm_num) (lt_min (lt_min (hc0 _ _) (hc0 _ _)) (lt_min (hc0 _ _) (hc0 _ _))), le_rfl⟩
  have ct1 : ct ≤ 1 / 40 := hct.trans (min_le_left _ _)
  have hcl : ∀ e < 2, ∀ j < 2, ct ≤ c0 e j := by
    intro e he j hj
    have : ct ≤ min (min (c0 0 0) (c0 0 1)) (min (c0 1 0) (c0 1 1)) := hct.trans (min_le_right _ _)
    obtain ⟨h1, h2⟩ := le_min_iff.1 this
    obtain ⟨h3, h4⟩ := le_min_iff.1 h1
    obtain ⟨h5, h6⟩ := le_min_iff.1 h2
    obtain rfl | rfl : e = 0 ∨ e = 1 := by omega
    · obtain rfl | rfl : j = 0 ∨ j = 1 := by omega
      · assumption
      · assumption
    · obtain rfl | rfl : j = 0 ∨ j = 1 := by omega
      · assumption
      · assumption
  have hweight : ∀ x, (0 ≤ bendW x ∧ bendW x ≤ 1) ∧ Clean ct (bendW x) ∧ Clean ct (1 - bendW x) := by
    intro x
    unfold bendW
    split
    · exact ⟨by norm_num, .inr (.inl rfl), .inl (by norm_num)⟩
    · split
      · exact ⟨by norm_num, .inl rfl, .inr (.inl (by norm_num))⟩
      · refine ⟨by norm_num, .inr (.inr ⟨by linarith, ?_⟩), .inr (.inr ⟨by linarith, ?_⟩)⟩
        · norm_num [abs_of_neg]
          linarith
        · norm_num [abs_of_neg]
          linarith
  obtain ⟨po, m, oc, P, h, hr⟩ := bend_setup (1 / n) ct0 true (shipOpts (1 / n) 2 true ct).sigmaN
  have e2 : nfe po 0 = 2 := by
    unfold nfe
    rw [h.e_nfeList]
    rfl
  have hL : (shipOpts (1 / n) 2 true ct).nfeAfter.length = (shipOpts (1 / n) 2 true ct).nStages := by
    simp [shipOpts, simplestOpts, Opts.default, Opts.nfeAfter]
  let F : List ℝ → Traj := fun l => bendTraj (1 / n) (l.getD 1 0) (bendC (l.getD 1 0)) (bendW (l.getD 1 0))
  have hx0 : [bendPos ((0 : Nat) / n), ((0 : Nat) : ℝ) / n] = [-3, 0] := by norm_num [bendPos, bendC, bendQ]
  obtain ⟨orc, S, L, L', R, hex, hcr, hSr, hc, hrun, hR, hst, -⟩ := C132_simulated (F := F)
    (x := fun k => [bendPos (k / n), (k : ℝ) / n]) (N := 4 * n) h rfl rfl hr
    (.inl rfl) (.inl (by simp [SignedMode, shipOpts, simplestOpts, Opts.default])) bend_signs rfl bend_plain
    (fun _ => simplest_colloc.1) (fun _ => ct1.trans (by norm_num)) rfl (by norm_num [shipOpts, simplestOpts, Opts.default])
    (by norm_num [shipOpts, simplestOpts, Opts.default]) rfl rfl rfl hL two_pos
    (by simp [shipOpts, simplestOpts, Opts.default]) (.inl rfl)
    (fun s hs s' hs' => by rw [bend_sys hs, bend_sys hs']) rfl
    (fun k hk => by
      obtain ⟨s1, s2⟩ := bend_step hn k
      obtain ⟨⟨w1, w2⟩, w3⟩ := hweight (k / n)
      refine ⟨rfl, bend_solves h (by positivity) w1 w2 s1, fun _ => bend_separated h w3 fun e he j hj =>
        gc e j ct (hcl e he j hj) k hk, ?_⟩
      rw [e2]
      show [_, _] = [bendC (k / n) * bendQ (bendStage (1 / n) (k / n) 1 1), bendStage (1 / n) (k / n) 1 1]
      have e5 : bendStage (1 / n) (k / n) 1 1 = (k : ℝ) / n + 1 / n := by
        unfold bendStage
        rw [if_neg one_ne_zero, if_neg one_ne_zero]
        ring
      rw [s2, e5]
      congr 2
      push_cast
      ring)
  rw [hx0] at hc
  refine ⟨ct, ct0, po, m, oc, P, orc, S, R, simParams bendModel S none 0,
    ⟨h, hSr, hL, hex, ⟨none, L, L', false, _, hc, hrun, hR⟩, ?_, ?_, rfl, rfl⟩, rfl, rfl, .inl rfl, rfl,
    bend_signs, rfl, rfl, rfl, by omega, ?_, simplest_weights, .inl hr, ?_, ?_, fun k _ => rfl, bend_lipschitz 0 _,
    bend_lipschitz 1 _⟩
  · intro i hi
    rw [hst]
    simp [hi]
  · simp [shipOpts, simplestOpts, Opts.default]
  · norm_num [bendModel, simplestModel, UserModel.Smat]
  · norm_num [shipOpts, simplestOpts, Opts.default]
  · show (0 : ℝ) ≤ 1 / n
    positivity

/-- The vector fields. -/
noncomputable def bendF (i : Nat) (x : Fin 2 → ℝ) : Fin 2 → ℝ := fun j =>
  if j.1 = 0 then (if i = 0 then 2 * |x 1 - 2| else 2 - x 1) else 1

/-- The curve `x = c * bendQ y`. -/
noncomputable def bendCurve (c z : ℝ) : Fin 2 → ℝ := fun j => if j.1 = 0 then c * bendQ z else z

theorem bend_smooth {f : (Fin 2 → ℝ) → Fin 2 → ℝ} {c s t0 t1 D : ℝ}
    (hf : ∀ u, t0 ≤ u → u ≤ t1 → f (bendCurve c (s + u)) = fun j => if j.1 = 0 then c * (4 - 2 * (s + u)) else 1)
    (hD : ∀ u, t0 ≤ u → u ≤ t1 → |c * (4 - 2 * (s + u))| ≤ D) (h2 : 2 * |c| ≤ D) (h1 : 1 ≤ D) :
    SmoothSolution 2 D f (fun u => bendCurve c (s + u)) t0 t1 := by
  have hD0 : 0 ≤ D := by linarith
  set A : Fin 2 → ℝ := fun j => if j.1 = 0 then c * (4 - 2 * s) else 1 with hA
  set B : Fin 2 → ℝ := fun j => if j.1 = 0 then -2 * c else 0 with hB
  have hG : ∀ u : ℝ, A + u • B = fun j => if j.1 = 0 then c * (4 - 2 * (s + u)) else 1 := by
    intro u
    funext j
    simp only [hA, hB, Pi.add_apply, Pi.smul_apply, smul_eq_mul]
    split <;> ring
  have hd : deriv (fun u : ℝ => A + u • B) = fun _ => B := by
    funext u
    have := ((hasDerivAt_id u).smul_const B).const_add A
    rw [one_smul] at this
    exact this.deriv
  refine ⟨fun u => A + u • B, by fun_prop, ?_, ?_⟩
  · intro q _ u hu
    match q with
    | 0 =>
      rw [iteratedDeriv_zero, hG, pi_norm_le_iff_of_nonneg hD0]
      intro j
      beta_reduce
      split
      · exact hD u hu.1 hu.2
      · simpa using h1
    | 1 =>
      rw [iteratedDeriv_succ', hd, iteratedDeriv_zero, pi_norm_le_iff_of_nonneg hD0]
      intro j
      rw [hB]
      beta_reduce
      split
      · rw [Real.norm_eq_abs, abs_mul]
        simpa using h2
      · simpa using hD0
    | q + 2 =>
      rw [iteratedDeriv_succ', hd, iteratedDeriv_const]
      simpa using hD0
  · intro u hu
    rw [hf u hu.1 hu.2]
    refine ⟨hG u, hasDerivWithinAt_pi.2 fun j => ?_⟩
    by_cases hj : j.1 = 0
    · simp only [bendCurve, hj, if_true, bendQ]
      have h3 : HasDerivAt (fun u : ℝ => s + u) 1 u := (hasDerivAt_id u).const_add s
      have h4 := ((h3.sub_const 1).mul (h3.const_sub 3)).const_mul c
      refine (h4.congr_deriv ?_).hasDerivWithinAt
      ring
    · simp only [bendCurve, hj, if_false]
      exact ((hasDerivAt_id u).const_add s).hasDerivWithinAt

theorem bendF_norm {i : Nat} {x : Fin 2 → ℝ} (h1 : -1 / 2 ≤ x 1) (h2 : x 1 ≤ 9 / 2) : ‖bendF i x‖ ≤ 5 := by
  rw [pi_norm_le_iff_of_nonneg (by norm_num)]
  intro j
  unfold bendF
  rw [Real.norm_eq_abs]
  have h3 : |x 1 - 2| ≤ 5 / 2 := abs_le.2 ⟨by linarith, by linarith⟩
  split
  · split
    · rw [abs_mul, abs_abs, abs_two]
      linarith
    · exact abs_le.2 ⟨by linarith, by linarith⟩
  · norm_num

theorem bend_coord (x : Fin 2 → ℝ) (j : Fin 2) : |x j| ≤ ‖x‖ := norm_le_pi_norm x j

/-- The crossing at time 1. -/
theorem bend_crossing :
    Crossing 2 5 (bendF 0) (bendF 1) (fun x => 1 * x 0) (fun t => bendCurve 1 (0 + t)) (fun t => bendCurve (1 / 2) (0 + t))
      (LinearMap.proj (0 : Fin 2) : (Fin 2 → ℝ) →ₗ[ℝ] ℝ) 1 (1 / 4) (9 / 4) (1 / 4) 1 (1 / 4) 5 0 := by
  have near : ∀ y : Fin 2 → ℝ, ‖y - bendCurve 1 (0 + 1)‖ ≤ 1 / 4 → 3 / 4 ≤ y 1 ∧ y 1 ≤ 5 / 4 := by
    intro y hy
    have := (bend_coord _ 1).trans hy
    simp only [bendCurve, Pi.sub_apply] at this
    norm_num at this
    obtain ⟨h1, h2⟩ := abs_le.1 this
    exact ⟨by linarith, by linarith⟩
  have lip : ∀ y y' : Fin 2 → ℝ, |1 * y 0 - 1 * y' 0| ≤ 1 * ‖y - y'‖ := by
    intro y y'
    rw [one_mul, one_mul, one_mul]
    exact bend_coord (y - y') 0
  refine ⟨by norm_num, by norm_num, by norm_num, by norm_num, by norm_num, by norm_num, ?_, ?_, ?_, ?_, ?_, ?_,
    fun t y _ _ _ => lip y _, fun t y _ _ _ => lip y _, ?_, ?_, ?_, by norm_num⟩
  · refine bend_smooth (fun u h1 h2 => ?_) (fun u h1 h2 => abs_le.2 ⟨by linarith, by linarith⟩) (by norm_num) (by norm_num)
    funext j
    simp only [bendF, bendCurve]
    norm_num
    rw [abs_of_nonpos (by linarith)]
    split <;> ring
  · refine bend_smooth (fun u h1 h2 => ?_) (fun u h1 h2 => abs_le.2 ⟨by linarith, by linarith⟩) (by norm_num) (by norm_num)
    funext j
    simp only [bendF, bendCurve]
    norm_num
    split <;> ring
  · funext j
    simp [bendCurve, bendQ]
  · intro t h1 h2
    show 1 * (1 * bendQ (0 + t)) ≤ _
    unfold bendQ
    nlinarith
  · intro t h1 h2
    show _ ≤ 1 * (1 * bendQ (0 + t))
    unfold bendQ
    nlinarith
  · intro t h1 h2
    have h3 := min_le_left (t - 1) (1 / 4 : ℝ)
    show _ ≤ 1 * (1 / 2 * bendQ (0 + t))
    unfold bendQ
    nlinarith
  · intro y y' _ _
    have : (LinearMap.proj (0 : Fin 2) : (Fin 2 → ℝ) →ₗ[ℝ] ℝ) (y' - y) = y' 0 - y 0 := rfl
    rw [this]
    simp
  · intro y hy
    obtain ⟨h1, h2⟩ := near y hy
    refine ⟨?_, bendF_norm (by linarith) (by linarith)⟩
    show 1 / 4 ≤ bendF 0 y 0
    simp only [bendF]
    norm_num
    rw [abs_of_nonpos (by linarith)]
    linarith
  · intro y hy
    obtain ⟨h1, h2⟩ := near y hy
    refine ⟨?_, bendF_norm (by linarith) (by linarith)⟩
    show 1 / 4 ≤ bendF 1 y 0
    simp only [bendF]
    norm_num
    linarith

/-- The sliding mode from time 3 on, with time counted from 2. -/
theorem bend_sliding :
    SlidingEntry 2 5 2 (bendF 1) (bendF 0) (fun _ j => if j.1 = 0 then (0 : ℝ) else 1) (fun x => -1 * x 0)
      (fun t => bendCurve (1 / 2) (2 + t)) (fun t => bendCurve 0 (2 + t))
      (-(LinearMap.proj (0 : Fin 2) : (Fin 2 → ℝ) →ₗ[ℝ] ℝ)) 1 (1 / 4) 2 (1 / 4) 1 (1 / 4) 5 := by
  have near : ∀ (t : ℝ) (y : Fin 2 → ℝ), 1 - 1 / 4 ≤ t → t ≤ 2 → ‖y - bendCurve 0 (2 + t)‖ ≤ 1 / 4 →
      5 / 2 ≤ y 1 ∧ y 1 ≤ 9 / 2 := by
    intro t y h1 h2 hy
    have := (bend_coord _ 1).trans hy
    simp only [bendCurve, Pi.sub_apply] at this
    rw [if_neg (by decide)] at this
    obtain ⟨h3, h4⟩ := abs_le.1 this
    exact ⟨by linarith, by linarith⟩
  have hG : ∀ v : Fin 2 → ℝ, (-(LinearMap.proj (0 : Fin 2) : (Fin 2 → ℝ) →ₗ[ℝ] ℝ)) v = -v 0 := fun v => rfl
  have f1 : ∀ y : Fin 2 → ℝ, bendF 1 y 0 = 2 - y 1 := fun y => by simp [bendF]
  have f0 : ∀ y : Fin 2 → ℝ, 5 / 2 ≤ y 1 → bendF 0 y 0 = 2 * (y 1 - 2) := fun y hy => by
    simp [bendF, abs_of_nonneg (show 0 ≤ y 1 - 2 by linarith)]
  refine ⟨by norm_num, by norm_num, by norm_num, by norm_num, by norm_num, by norm_num, ?_, ?_, ?_, ?_, ?_, ?_,
    ?_, ?_, ?_, ?_⟩
  · refine bend_smooth (fun u h1 h2 => ?_) (fun u h1 h2 => abs_le.2 ⟨by linarith, by linarith⟩) (by norm_num) (by norm_num)
    funext j
    simp only [bendF, bendCurve]
    norm_num
    split <;> ring
  · refine bend_smooth (fun u h1 h2 => ?_) (fun u h1 h2 => by norm_num) (by norm_num) (by norm_num)
    funext j
    simp
  · funext j
    simp only [bendCurve, bendQ]
    norm_num
  · intro t h1 h2
    show -1 * (1 / 2 * bendQ (2 + t)) ≤ _
    unfold bendQ
    nlinarith
  · intro t h1 h2
    show _ ≤ -1 * (1 / 2 * bendQ (2 + t))
    unfold bendQ
    nlinarith
  · intro y y'
    rw [hG, Pi.sub_apply]
    ring
  · intro v
    rw [hG, abs_neg, one_mul]
    exact bend_coord v 0
  · intro t y h1 h2 hy
    obtain ⟨h3, h4⟩ := near t y h1 h2 hy
    rw [hG, hG, f1, f0 y h3]
    exact ⟨by linarith, by linarith, bendF_norm (by linarith) h4, bendF_norm (by linarith) h4⟩
  · intro t y h1 h2 hy
    obtain ⟨h3, h4⟩ := near t y h1 h2 hy
    unfold slideField
    rw [hG, hG, f1, f0 y h3]
    have hne : -(2 - y 1) - -(2 * (y 1 - 2)) ≠ 0 := by
      have : 0 < -(2 - y 1) - -(2 * (y 1 - 2)) := by linarith
      exact this.ne'
    funext j
    simp only [Pi.smul_apply, Pi.sub_apply, smul_eq_mul]
    by_cases hj : j.1 = 0
    · obtain rfl : j = 0 := Fin.ext hj
      rw [f1, f0 y h3, if_pos hj]
      ring
    · have g : ∀ i, bendF i y j = 1 := fun i => if_neg hj
      rw [g, g, if_neg hj, mul_one, mul_one, inv_mul_cancel₀ hne]
  · intro x y
    rw [sub_self, norm_zero]
    positivity

/-- The parts of the exact trajectory from (-3, 0): it crosses the surface at time 1, comes back at time 3 and slides
along the surface from then on. -/
noncomputable def bendPart (q : Nat) (τ : ℝ) : Fin bendModel.nX → ℝ :=
  bendCurve (if q = 0 then 1 else if q = 1 then 1 / 2 else 0) τ

noncomputable def bendMid (q : Nat) : ℝ := if q = 0 then 0 else 2

noncomputable def bendTime (q : Nat) : ℝ := if q = 0 then 1 else 3

theorem bend_fieldF (i : Nat) (p : List ℝ) : bendModel.regionField (fun _ => i) [] p [] = bendF i :=
  funext (bend_field i p)

theorem bend_chain (p : List ℝ) :
    CrossingChain 2 5 (fun q => bendModel.regionField (fun _ => alternate 0 1 q) [] p [])
      (fun q => bendModel.surface (alternate 0 1 (q + 1)) p) 1 bendPart bendMid bendTime (1 / 4) (9 / 4) (1 / 4) 1 (1 / 4) 5
      0 := by
  refine ⟨rfl, ?_, ?_, ?_, ?_⟩
  · intro q hq h0
    omega
  · intro q hq
    obtain rfl : q = 0 := by omega
    norm_num [bendMid, bendTime]
  · intro q hq
    obtain rfl : q = 0 := by omega
    norm_num [bendMid, bendTime]
  · intro q hq
    obtain rfl : q = 0 := by omega
    refine ⟨(LinearMap.proj (0 : Fin 2) : (Fin 2 → ℝ) →ₗ[ℝ] ℝ), ?_⟩
    have e1 : (fun t => bendPart 0 (bendMid 0 + t)) = fun t => bendCurve 1 (0 + t) := by
      funext t
      simp [bendPart, bendMid]
      rfl
    have e2 : (fun t => bendPart (0 + 1) (bendMid 0 + t)) = fun t => bendCurve (1 / 2) (0 + t) := by
      funext t
      simp [bendPart, bendMid]
      rfl
    have e3 : bendTime 0 - bendMid 0 = 1 := by norm_num [bendMid, bendTime]
    have e4 : bendMid (0 + 1) + 1 / 4 - bendMid 0 = 9 / 4 := by norm_num [bendMid]
    have e5 : bendModel.surface (alternate 0 1 (0 + 1)) p = fun x : Fin 2 → ℝ => 1 * x 0 := funext (bend_surface 1 p)
    simp only [bend_fieldF]
    rw [e1, e2, e3, e4, e5]
    exact bend_crossing

theorem bend_entry (p : List ℝ) :
    SlidingEntry 2 5 2 (bendModel.regionField (fun _ => alternate 0 1 1) [] p [])
      (bendModel.regionField (fun _ => alternate 0 1 (1 + 1)) [] p []) (fun _ j => if j.1 = 0 then (0 : ℝ) else 1)
      (bendModel.surface (alternate 0 1 (1 + 1)) p) (fun t => bendPart 1 (bendMid 1 + t))
      (fun t => bendPart (1 + 1) (bendMid 1 + t)) (-(LinearMap.proj (0 : Fin 2) : (Fin 2 → ℝ) →ₗ[ℝ] ℝ))
      (bendTime 1 - bendMid 1) (1 / 4) (4 - bendMid 1) (1 / 4) 1 (1 / 4) 5 := by
  have e1 : (fun t => bendPart 1 (bendMid 1 + t)) = fun t => bendCurve (1 / 2) (2 + t) := by
    funext t
    simp [bendPart, bendMid]
    rfl
  have e2 : (fun t => bendPart (1 + 1) (bendMid 1 + t)) = fun t => bendCurve 0 (2 + t) := by
    funext t
    simp [bendPart, bendMid]
    rfl
  have e3 : bendTime 1 - bendMid 1 = 1 := by norm_num [bendMid, bendTime]
  have e4 : 4 - bendMid 1 = 2 := by norm_num [bendMid]
  have e5 : bendModel.surface (alternate 0 1 (1 + 1)) p = fun x : Fin 2 → ℝ => -1 * x 0 := funext (bend_surface 0 p)
  simp only [bend_fieldF]
  rw [e1, e2, e3, e4, e5]
  exact bend_sliding

/-- The exact trajectory, composed of its parts. -/
theorem bendPos_part {τ : ℝ} (P : ℝ → Prop) (h : ∀ q ≤ 1 + 1, (∀ q' < q, bendTime q' < τ) →
    (q < 1 + 1 → τ ≤ bendTime q) → P (bendPart q τ (0 : Fin 2))) : P (bendPos τ) := by
  by_cases h1 : τ ≤ 1
  · have := h 0 (by norm_num) (fun q' hq' => absurd hq' (by omega)) (fun _ => by simpa [bendTime] using h1)
    have e : bendPos τ = bendPart 0 τ (0 : Fin 2) := by
      rcases h1.lt_or_eq with hl | rfl
      · simp [bendPos, bendPart, bendCurve, bendC, hl]
      · simp [bendPos, bendPart, bendCurve, bendQ]
    rw [e]
    exact this
  · push Not at h1
    by_cases h2 : τ ≤ 3
    · have := h 1 (by norm_num) (fun q' hq' => by
        obtain rfl : q' = 0 := by omega
        simpa [bendTime] using h1) (fun _ => by simpa [bendTime] using h2)
      have e : bendPos τ = bendPart 1 τ (0 : Fin 2) := by
        rcases h2.lt_or_eq with hl | rfl
        · simp [bendPos, bendPart, bendCurve, bendC, hl, h1.le.not_gt]
        · simp [bendPos, bendPart, bendCurve, bendQ]
      rw [e]
      exact this
    · push Not at h2
      have := h 2 (by norm_num) (fun q' hq' => by
        obtain rfl | rfl : q' = 0 ∨ q' = 1 := by omega
        · simpa [bendTime] using h1
        · simpa [bendTime] using h2) (fun hc => absurd hc (by omega))
      have e : bendPos τ = bendPart 2 τ (0 : Fin 2) := by
        simp [bendPos, bendPart, bendCurve, bendC, h1.le.not_gt, h2.le.not_gt]
      rw [e]
      exact this

/-- The example: the states up to time 4, the time of the crossing and the time at which sliding begins are found, as
exactly as one likes, and from then on the states lie on the surface. -/
example {ε : ℝ} (hε : 0 < ε) : ∃ n : Nat, 0 < n ∧ ∃ ct > 0, ∃ po m oc P orc S R p,
    CrossRun demoColloc (shipOpts (1 / n) 2 true ct) bendModel none po m oc P orc S [-3, 0] (4 * n) none R p slideW 0 1 2 ∧
    (∀ (k : Nat) (τ y z : ℝ), R.tGrid[k]? = some τ → R.xSim[k]? = some [y, z] → τ ≤ 4 → |y - bendPos τ| ≤ ε) ∧
    ∃ N1 N2 : Nat, N1 ≤ N2 ∧ N2 < R.tGrid.length ∧
      (∀ τ, R.tGrid[N1]? = some τ → N1 + 1 < R.tGrid.length → |τ - 1| ≤ ε) ∧
      (∀ τ, R.tGrid[N2]? = some τ → N2 + 1 < R.tGrid.length → |τ - 3| ≤ ε) ∧
      (N2 + 1 < R.tGrid.length → ∀ (k : Nat) (τ y z : ℝ), N2 ≤ k → R.tGrid[k]? = some τ → R.xSim[k]? = some [y, z] →
        τ ≤ 4 → y = 0) := by
  obtain ⟨H0, hH0, C, hmain⟩ := C141_crossings_sliding (colloc := demoColloc) (sc := simplestOpts.scheme) (n := 2)
    (rep := .integral) (by norm_num) (fun _ => simplest_colloc (sn := 1) (t := 1) (ct := 1) (nf := 2) (pol := true))
    (zero_le_two (α := ℝ)) (m := 1) (by norm_num) 5 (9 / 4) (η := 1 / 4) (r := 1 / 4) (by norm_num) (by norm_num) (1 / 4) 1 5
  have hC : 0 < |C| + 1 := by positivity
  set v := min (min 1 H0) (ε / (|C| + 1)) with hv
  have v0 : 0 < v := lt_min (lt_min one_pos hH0) (div_pos hε hC)
  obtain ⟨⟨v1, v2⟩, v3⟩ : (v ≤ 1 ∧ v ≤ H0) ∧ v ≤ ε / (|C| + 1) := by
    rw [← le_min_iff, ← le_min_iff]
  clear_value v
  obtain ⟨n, hn⟩ := exists_nat_gt (1 / v)
  have hn0 : 0 < (n : ℝ) := lt_trans (by positivity) hn
  have hnn : 0 < n := by exact_mod_cast hn0
  have ht : 1 / (n : ℝ) ≤ v := by
    rw [div_lt_iff₀ v0] at hn
    rw [div_le_iff₀ hn0]
    linarith
  have ht0 : 0 < 1 / (n : ℝ) := by positivity
  obtain ⟨ct, hct, po, m, oc, P, orc, S, R, p, hA⟩ := bend_crossRun hnn
  have hΔ : 1 / (n : ℝ) = (1 + (shipOpts (1 / n) 2 true ct).gammaH)
      * ((shipOpts (1 / n) 2 true ct).terminalTime / (shipOpts (1 / n) 2 true ct).nfeAfter.sum) := by
    simp [shipOpts, simplestOpts, Opts.default, Opts.nfeAfter]
    ring
  have htt : (1 / (n : ℝ)) ^ 2 ≤ v := by nlinarith
  have herr : (1 / (n : ℝ)) ^ 2 = ‖toVec bendModel.nX [-3, 0] - bendPart 0 0‖ + (1 / (n : ℝ)) ^ 2
      + (if IrkRep.integral = IrkRep.integral then 0 else 1 / 10 ^ 11) := by
    have : toVec bendModel.nX [-3, 0] = bendPart 0 0 := by
      funext j
      obtain ⟨j, hj⟩ := j
      obtain rfl | rfl : j = 0 ∨ j = 1 := by
        have : j < 2 := hj
        omega
      · simp [toVec, bendPart, bendCurve, bendQ]
      · simp [toVec, bendPart, bendCurve]
    rw [this, sub_self, norm_zero]
    simp
  obtain ⟨m1, N1, n0, n1, -, n2, n3, -⟩ := hmain (o := shipOpts (1 / n) 2 true ct) rfl rfl rfl hA
    (bend_chain p) (by norm_num [bendMid, bendTime]) (bend_entry p) (by norm_num [bendMid]) _ hΔ (ht.trans v2) _ herr
    (htt.trans v2)
  have hCe : C * (1 / (n : ℝ)) ^ 2 ≤ ε := by
    rw [le_div_iff₀ hC] at v3
    have h1 : C * (1 / (n : ℝ)) ^ 2 ≤ |C| * v := mul_le_mul (le_abs_self C) htt (by positivity) (abs_nonneg C)
    nlinarith
  refine ⟨n, hnn, ct, hct, po, m, oc, P, orc, S, R, p, hA, ?_, N1 1, N1 2, (n1 1 (by norm_num)).1, (n1 1 (by norm_num)).2,
    fun τ h1 h2 => (n3 0 (by norm_num) τ h1 h2).trans hCe, fun τ h1 h2 => (n3 1 (by norm_num) τ h1 h2).trans hCe, ?_⟩
  · intro k τ y z h1 h2 h3
    refine bendPos_part (fun w => |y - w| ≤ ε) fun q hq h4 h5 => ?_
    exact (m1 k τ [y, z] h1 h2 h3 q hq h4 h5 (0 : Fin 2)).trans hCe
  · intro h0 k τ y z hk h1 h2 h3
    have := n2 h0 k τ [y, z] hk h1 h2 h3
    have := (bend_surface 1 p (toVec bendModel.nX [y, z])).symm.trans this
    simpa [toVec] using this

end Nosnoc
