import Verif.Props.ExamplesEx
import Verif.Props.OscillatorEx
import Verif.Props.TrajSim
/-
C140: where the exact solutions are not unique, the NLP solver decides which one is returned.
-/
namespace Nosnoc
open Polynomial

/-- A step of length `t` from `x` with velocity `v`, with the weight `q` for the region `x < 0`. -/
noncomputable def leaveStage (t x v : ℝ) (e j : Nat) : ℝ :=
  x + v * (t / 2 * ((if e = 0 then 0 else 1) + if j = 0 then 1 / 3 else 1))

noncomputable def leaveTraj (t x v q : ℝ) : Traj where
  x0 _ := x
  u _ _ := 0
  v _ := 0
  p _ _ := 0
  speed _ := 1
  H _ _ := t / 2
  X _ e j _ := leaveStage t x v e j
  theta _ _ _ _ i := if i = 0 then q else 1 - q

theorem leaveTraj_stageL (a b xm t x v q : ℝ) (k e j : Nat) :
    (leaveTraj t x v q).stageL (simplestModel a b xm) k e j = [leaveStage t x v e j] := rfl

/-- On the side of all regions with positive weight. -/
def LeaveSide (q y : ℝ) : Prop := (q ≠ 0 → y ≤ 0) ∧ (q ≠ 1 → 0 ≤ y)

theorem leave_closed {a b xm q : ℝ} {r : Nat} (hr : r < 2) {y : ℝ} (hy : LeaveSide q y)
    (hne : (if r = 0 then q else 1 - q) ≠ 0) (p : List ℝ) : (simplestModel a b xm).InClosedRegion 0 r [y] p := by
  intro n hn
  obtain rfl | rfl : r = 0 ∨ r = 1 := by omega
  · show 0 ≤ (-1 : ℝ) * y
    have := hy.1 hne
    linarith
  · show 0 ≤ (1 : ℝ) * y
    rw [one_mul]
    exact hy.2 fun h => hne (by rw [h]; simp)

section
variable {a b xm t ct : ℝ} {pol : Bool} {po : PreOpts} {m : PreModel} {oc : PreOcp} {P : Problem}

theorem leave_slope (a b xm t x q : ℝ) (k e j i : Nat) :
    (leaveTraj t x (a * q + b * (1 - q)) q).slope (simplestModel a b xm) k e j i = a * q + b * (1 - q) := by
  unfold Traj.slope
  have hn : (simplestModel a b xm).nSys = 1 := rfl
  rw [hn, Finset.sum_range_one]
  show ∑ i' ∈ Finset.range 2, (if i' = 0 then a else b) * (if i' = 0 then q else 1 - q) = _
  rw [Finset.sum_range_succ, Finset.sum_range_one, if_pos rfl, if_pos rfl, if_neg one_ne_zero, if_neg one_ne_zero]

theorem leave_solves (h : SetupEx demoColloc (shipOpts t 2 pol ct) (simplestModel a b xm) none po m oc P) (ht : 0 ≤ t)
    {x q : ℝ} (hq0 : 0 ≤ q) (hq1 : q ≤ 1) (hs : ∀ d, 0 ≤ d → d ≤ t → LeaveSide q (x + (a * q + b * (1 - q)) * d)) :
    (leaveTraj t x (a * q + b * (1 - q)) q).Solves demoColloc (simplestModel a b xm) UserOcp.trivial po := by
  have e1 : po.nStages = 1 := h.e_nStages
  have e2 : nfe po 0 = 2 := by
    unfold nfe
    rw [h.e_nfeList]
    rfl
  have e3 : po.terminalTime = t := h.e_terminalTime
  have e4 : po.gammaH = 1 := h.e_gammaH
  have e6 : po.sot = .none := h.e_sot
  have e7 : po.nS = 2 := h.e_nS
  have e8 : po.irkRep = .integral := h.e_irkRep
  have e9 : po.scheme = .radauIIA := h.e_scheme
  have hslope := leave_slope a b xm t x q
  set v : ℝ := a * q + b * (1 - q) with hv
  set T := leaveTraj t x v q with hT
  have hst : ∀ e < 2, ∀ i, T.start po 0 e i = x + v * (t / 2 * if e = 0 then 0 else 1) := by
    intro e he i
    obtain rfl | rfl : e = 0 ∨ e = 1 := by omega
    · simp [Traj.start, prevFe, hT, leaveTraj]
    · simp [Traj.start, prevFe, hT, leaveTraj, e7, leaveStage]
  refine ⟨?_, ?_, ?_, ?_, ?_, ?_, ?_, ?_, ?_, ?_, ?_, ?_, ?_, ?_, ?_⟩
  · intro _ k e hk i hi
    obtain ⟨rfl, he⟩ := simplest_nfe h hk
    rw [e7, e9, hst e he]
    have hcol : (demoColloc .radauIIA 2).getD 0 0 = 1 / 3 ∧ (demoColloc .radauIIA 2).getD 1 0 = 1 := by
      simp [demoColloc]
    have hE : ∀ j, leaveStage t x v e j = x + v * (t / 2 * ((if e = 0 then 0 else 1) + if j = 0 then 1 / 3 else 1)) :=
      fun j => rfl
    generalize (if e = 0 then (0 : ℝ) else 1) = E at hE ⊢
    refine ⟨C (x + v * (t / 2 * E)) + C (t / 2 * v) * X, ?_, by simp, ?_⟩
    · refine (natDegree_add_le _ _).trans (max_le (by rw [natDegree_C]; norm_num) ((natDegree_C_mul_le _ _).trans ?_))
      rw [natDegree_X]
      norm_num
    · intro j hj
      show _ = leaveStage t x v e j ∧ _ = t / 2 * (1 * T.slope (simplestModel a b xm) 0 e j i)
      rw [hslope, hE]
      obtain rfl | rfl : j = 0 ∨ j = 1 := by omega
      · rw [hcol.1, if_pos rfl]
        constructor
        · simp only [eval_add, eval_mul, eval_C, eval_X]
          ring
        · simp
      · rw [hcol.2, if_neg one_ne_zero]
        constructor
        · simp only [eval_add, eval_mul, eval_C, eval_X]
          ring
        · simp
  · intro hc; exact absurd e8 hc
  · intro k e hk j hj s hs
    constructor
    · intro i hi
      show 0 ≤ (if i = 0 then q else 1 - q)
      split <;> linarith
    · obtain rfl := simplest_sys hs
      show ∑ i ∈ Finset.range 2, (if i = 0 then q else 1 - q) = 1
      rw [Finset.sum_range_succ, Finset.sum_range_one, if_pos rfl, if_neg one_ne_zero]
      ring
  · intro k e hk j hj s hsy i hi hne j' hj'
    obtain rfl := simplest_sys hsy
    rw [leaveTraj_stageL]
    refine leave_closed hi (hs _ ?_ ?_) hne _
    · split <;> split <;> linarith
    · split <;> split <;> linarith
  · intro k e hk j hj s hsy i hi hne
    obtain rfl := simplest_sys hsy
    obtain ⟨rfl, he⟩ := simplest_nfe h hk
    have : T.startL po (simplestModel a b xm) 0 e = [T.start po 0 e 0] := rfl
    rw [this, hst e he]
    refine leave_closed hi (hs _ ?_ ?_) hne _
    · split <;> linarith
    · split <;> linarith
  · intro k e hk
    obtain ⟨rfl, he⟩ := simplest_nfe h hk
    unfold nominalH
    rw [e1, e2, e3, e4]
    show _ ≤ t / 2 ∧ t / 2 ≤ _
    constructor
    · linarith
    · push_cast
      linarith
  · intro _ k hk
    obtain rfl : k = 0 := by omega
    rw [e1, e2, e3, Finset.sum_range_succ, Finset.sum_range_one]
    show t / 2 + t / 2 = _
    simp
  · intro hc _; rw [e1] at hc; omega
  · intro _ k _; rfl
  · intro h0; rw [e6] at h0; cases h0
  · intro k e _ j _ _ i _; exact ⟨bot_le, le_top⟩
  · intro k _ i hi; exact absurd hi (by simp [simplestModel])
  · intro i hi; exact absurd hi (by simp [simplestModel])
  · intro k e _ _ i hi; exact absurd hi (by simp [UserOcp.trivial])
  · intro i hi; exact absurd hi (by simp [UserOcp.trivial])

theorem leave_separated (h : SetupEx demoColloc (shipOpts t 2 pol ct) (simplestModel a b xm) none po m oc P) {x v q : ℝ}
    (hq : Clean ct q ∧ Clean ct (1 - q))
    (hc : ∀ e < 2, ∀ j < 2, Clean ct |leaveStage t x v e j| ∧ Clean ct (2 * |leaveStage t x v e j|)) :
    (leaveTraj t x v q).Separated po (simplestModel a b xm) ct := by
  intro k e hk j hj s hs
  obtain ⟨rfl, he⟩ := simplest_nfe h hk
  obtain rfl := simplest_sys hs
  have eS : po.nS = 2 := h.e_nS
  rw [eS] at hj
  obtain ⟨c1, c2⟩ := hc e he j hj
  rw [leaveTraj_stageL]
  refine ⟨fun i hi => ⟨?_, ?_⟩, ?_⟩
  · show Clean ct (if i = 0 then q else 1 - q)
    split
    · exact hq.1
    · exact hq.2
  · rcases simplest_lam (a := a) (b := b) (xm := xm) (leaveStage t x v e j) ((leaveTraj t x v q).pL (simplestModel a b xm) 0) hi
      with g | g
    · rw [g]; exact .inl rfl
    · rw [g]; exact c2
  · rw [simplest_gmin, neg_neg]
    exact c1

end


/-- C140: spontaneous switches (`get_spontaneous_switch_model`: `a = -1, b = 1`, from 0).  For every number of steps
and every length of time, with polishing (if `comp_tol` is small enough) or without, and for each of the three
solutions that leave the surface at once to one of the sides (`c = a`, `c = b`) or never (`c = 0`), there is an exact
NLP solver with which `solve_simplest_example` reports SUCCESS for every step and returns this solution. -/
theorem C140_all_returned {a b : ℝ} (ha : a < 0) (hb : 0 < b) (xm : ℝ) {T : ℝ} (hT : 0 ≤ T) {N : Nat} (hN : 0 < N) :
    ∃ c0 > 0, ∀ pol ct, 0 < ct → (pol = true → ct ≤ c0) → ∀ c, c = a ∨ c = 0 ∨ c = b → ∃ orc R,
      (∀ q, construct demoColloc { shipOpts 0 2 pol ct with terminalTime := T / N } (simplestModel a b xm) none = .ok q →
        orc.Exact q.2.2.2) ∧
      solveSimplest demoColloc orc (shipOpts 0 2 pol ct) (simplestModel a b xm) [0] N T = .ok R ∧
      R.status = List.replicate N .success ∧ ∀ k ≤ N, R.xSim[k * 2]? = some [c * (k * (T / N))] := by
  have hN0 : (0 : ℝ) < N := by exact_mod_cast hN
  have hab : 0 < b - a := by linarith
  set t := T / N with ht
  have ht0 : 0 ≤ t := by positivity
  -- the three weights
  let Q : Fin 3 → ℝ := fun r => if r = 0 then 1 else if r = 1 then b / (b - a) else 0
  have hval : ∃ c0 > 0, ∀ c ≤ c0, ∀ r : Fin 3, (Clean c (Q r) ∧ Clean c (1 - Q r)) ∧ ∀ e : Fin 2, ∀ j : Fin 2, ∀ k < N,
      Clean c |leaveStage t ((a * Q r + b * (1 - Q r)) * (k * t)) (a * Q r + b * (1 - Q r)) e j| ∧
      Clean c (2 * |leaveStage t ((a * Q r + b * (1 - Q r)) * (k * t)) (a * Q r + b * (1 - Q r)) e j|) := by
    have hQ : ∀ r, 0 ≤ Q r ∧ 0 ≤ 1 - Q r := by
      intro r
      have h1 : 0 ≤ b / (b - a) := by positivity
      have h2 : b / (b - a) ≤ 1 := by rw [div_le_one hab]; linarith
      simp only [Q]
      split_ifs <;> constructor <;> linarith
    have one : ∀ r : Fin 3, ∃ c0 > 0, ∀ c ≤ c0, Clean c (Q r) ∧ Clean c (1 - Q r) := by
      intro r
      obtain ⟨x, x0, hx⟩ := clean_small (hQ r).1
      obtain ⟨y, y0, hy⟩ := clean_small (hQ r).2
      exact ⟨min x y, lt_min x0 y0, fun c hc => ⟨hx c (hc.trans (min_le_left _ _)), hy c (hc.trans (min_le_right _ _))⟩⟩
    have two : ∀ (r : Fin 3) (e j : Fin 2), ∃ c0 > 0, ∀ c ≤ c0, ∀ k < N,
        Clean c |leaveStage t ((a * Q r + b * (1 - Q r)) * (k * t)) (a * Q r + b * (1 - Q r)) e j| ∧
        Clean c (2 * |leaveStage t ((a * Q r + b * (1 - Q r)) * (k * t)) (a * Q r + b * (1 - Q r)) e j|) := by
      intro r e j
      obtain ⟨x, x0, hx⟩ := clean_all N
        (fun k => |leaveStage t ((a * Q r + b * (1 - Q r)) * (k * t)) (a * Q r + b * (1 - Q r)) e j|)
        fun k => abs_nonneg _
      obtain ⟨y, y0, hy⟩ := clean_all N
        (fun k => 2 * |leaveStage t ((a * Q r + b * (1 - Q r)) * (k * t)) (a * Q r + b * (1 - Q r)) e j|)
        fun k => mul_nonneg two_pos.le (abs_nonneg _)
      exact ⟨min x y, lt_min x0 y0, fun c hc k hk =>
        ⟨hx c (hc.trans (min_le_left _ _)) k hk, hy c (hc.trans (min_le_right _ _)) k hk⟩⟩
    choose c1 p1 g1 using one
    choose c2 p2 g2 using two
    obtain ⟨m, hm, gm⟩ : ∃ m > 0, ∀ r e j, m ≤ c1 r ∧ m ≤ c2 r e j := by
      obtain ⟨z, -, hz⟩ := Finset.exists_min_image (Finset.univ : Finset (Fin 3 × Fin 2 × Fin 2))
        (fun z => min (c1 z.1) (c2 z.1 z.2.1 z.2.2)) ⟨(0, 0, 0), Finset.mem_univ _⟩
      exact ⟨min (c1 z.1) (c2 z.1 z.2.1 z.2.2), lt_min (p1 _) (p2 _ _ _), fun r e j =>
        le_min_iff.1 (hz (r, e, j) (Finset.mem_univ _))⟩
    exact ⟨m, hm, fun c hc r => ⟨g1 r c (hc.trans (gm r 0 0).1), fun e j => g2 r e j c (hc.trans (gm r e j).2)⟩⟩
  obtain ⟨c0, hc0, hcl⟩ := hval
  refine ⟨min c0 (1 / 10), lt_min hc0 (by norm_num), ?_⟩
  intro pol ct ct0 hct c hc
  obtain ⟨r, hr⟩ : ∃ r : Fin 3, c = a * Q r + b * (1 - Q r) := by
    rcases hc with rfl | rfl | rfl
    · exact ⟨0, by simp [Q]⟩
    · refine ⟨1, ?_⟩
      simp only [Q]
      norm_num
      field_simp
      ring
    · exact ⟨2, by simp [Q]⟩
  have hside : ∀ y, 0 ≤ y → LeaveSide (Q r) ((a * Q r + b * (1 - Q r)) * y) := by
    intro y hy
    fin_cases r
    · simp only [Q, LeaveSide]
      norm_num
      nlinarith
    · simp only [Q, LeaveSide]
      have : a * (b / (b - a)) + b * (1 - b / (b - a)) = 0 := by
        field_simp
        ring
      norm_num
      rw [this]
      simp
    · simp only [Q, LeaveSide]
      norm_num
      positivity
  have hQ : 0 ≤ Q r ∧ Q r ≤ 1 := by
    have h1 : 0 ≤ b / (b - a) := by positivity
    have h2 : b / (b - a) ≤ 1 := by rw [div_le_one hab]; linarith
    simp only [Q]
    split_ifs <;> constructor <;> linarith
  have hcl' := fun hp : pol = true => hcl ct ((hct hp).trans (min_le_left _ _)) r
  generalize Q r = q at *
  obtain ⟨po, m, oc, P0, h0, hrb⟩ := simplest_setup a b xm t (nf := 2) (by norm_num) pol ct ct0
  obtain ⟨P, h⟩ : ∃ P', SetupEx demoColloc (shipOpts t 2 pol ct) (simplestModel a b xm) none po m oc P' :=
    ⟨_, h0.toSetup.toNone, rfl, by simp [UserOcp.trivial]⟩
  have e2 : nfe po 0 = 2 := by
    unfold nfe
    rw [h.e_nfeList]
    rfl
  have hL : (shipOpts t 2 pol ct).nfeAfter.length = (shipOpts t 2 pol ct).nStages := by
    simp [shipOpts, simplestOpts, Opts.default, Opts.nfeAfter]
  let F : List ℝ → Traj := fun l => leaveTraj t (l.getD 0 0) (a * q + b * (1 - q)) q
  have hx0 : [(a * q + b * (1 - q)) * (((0 : Nat) : ℝ) * t)] = [0] := by simp
  obtain ⟨orc, S, L, L', R, hex, hcr, hSr, hcL, hrun, hR, hst, hxs⟩ := C132_simulated (F := F)
    (x := fun k => [(a * q + b * (1 - q)) * (k * t)]) (N := N) h rfl rfl hrb
    (.inl rfl) (.inl (by simp [SignedMode, shipOpts, simplestOpts, Opts.default])) simplest_signs rfl simplest_plain
    (fun _ => simplest_colloc.1) (fun hp => (hct hp).trans (min_le_right _ _)) rfl
    (by norm_num [shipOpts, simplestOpts, Opts.default])
    (by norm_num [shipOpts, simplestOpts, Opts.default]) rfl rfl rfl hL one_pos
    (by simp [shipOpts, simplestOpts, Opts.default]) (.inl rfl)
    (fun s hs s' hs' => by rw [simplest_sys hs, simplest_sys hs']) rfl
    (fun k hk => by
      refine ⟨rfl, leave_solves h ht0 hQ.1 hQ.2 fun d d0 _ => ?_, fun hp => leave_separated h (hcl' hp).1
        fun e he j hj => (hcl' hp).2 ⟨e, he⟩ ⟨j, hj⟩ k hk, ?_⟩
      · show LeaveSide q ((a * q + b * (1 - q)) * (k * t) + (a * q + b * (1 - q)) * d)
        rw [← mul_add]
        exact hside _ (by positivity)
      · rw [e2]
        show [_] = [leaveStage t ((a * q + b * (1 - q)) * (k * t)) (a * q + b * (1 - q)) 1 1]
        unfold leaveStage
        rw [if_neg one_ne_zero, if_neg one_ne_zero]
        congr 1
        push_cast
        ring)
  rw [hx0] at hcL
  have hsum : (shipOpts t 2 pol ct).nfeAfter.sum = 2 := by
    simp [shipOpts, simplestOpts, Opts.default, Opts.nfeAfter]
  refine ⟨orc, R, fun q' hq' => ?_, ?_, hst, fun k hk => ?_⟩
  · change construct demoColloc (shipOpts t 2 pol ct) _ _ = _ at hq'
    rw [h.toSetup.ok] at hq'
    cases hq'
    exact hex
  · unfold solveSimplest
    simp only [bind_eq_ok, check_eq_ok]
    refine ⟨(), by simpa using hN.ne', _, hcr, L, hcL, ?_⟩
    rw [hrun]
    exact hR
  · have := hxs k hk
    rw [hsum] at this
    rw [this, hr]

/-- C140: in particular the results are not determined by the problem. -/
theorem C140_determined_violated : ∃ (o : Opts) (um : UserModel) (orc orc' : Oracle) (R R' : SimResults),
    (∀ q, construct demoColloc { o with terminalTime := 2 / (3 : Nat) } um none = .ok q →
      orc.Exact q.2.2.2 ∧ orc'.Exact q.2.2.2) ∧
    solveSimplest demoColloc orc o um [0] 3 2 = .ok R ∧ solveSimplest demoColloc orc' o um [0] 3 2 = .ok R' ∧
    R.status = List.replicate 3 .success ∧ R'.status = List.replicate 3 .success ∧ R.xSim ≠ R'.xSim := by
  obtain ⟨c0, h0, h⟩ := C140_all_returned (a := -1) (b := 1) (by norm_num) one_pos 0 (T := 2) (by norm_num) (N := 3)
    (by norm_num)
  obtain ⟨orc, R, a1, a2, a3, a4⟩ := h true c0 h0 (fun _ => le_rfl) (-1) (.inl rfl)
  obtain ⟨orc', R', b1, b2, b3, b4⟩ := h true c0 h0 (fun _ => le_rfl) 1 (.inr (.inr rfl))
  refine ⟨_, _, orc, orc', R, R', fun q hq => ⟨a1 q hq, b1 q hq⟩, a2, b2, a3, b3, fun hc => ?_⟩
  have h1 := a4 3 le_rfl
  have h2 := b4 3 le_rfl
  rw [hc, h2] at h1
  norm_num at h1

end Nosnoc
