import Verif.Proofs.CompBind
import Verif.Proofs.WMem
/-
Helper lemmas: the conditions of `Proofs/Feas` in the user's terms.
-/
namespace Nosnoc
section
variable {um : UserModel} {o : PreOpts} {m : PreModel} {nC nF : List Nat} {g up : List Vec}
  {f0 : Vec} {acc : DcsAcc} {uo : UserOcp} {oc : PreOcp} {env : Env}

theorem xVal_lift (hr : o.irkRep ≠ .differential) (k e j : Nat) :
    xVal o m.dims k e j env = (List.range m.dims.nX).map fun i => env (.st1 .x k e j i) := by
  unfold xVal
  rw [stageX_var hr]
  simp [blk]

/-- Complementarity commands by pairs. -/
theorem compl_pairs {xs : List Vec} {y : Vec} {f : Pair → List ℝ} {φ : Pair → ℝ}
    (hy : y.length = nLam o m.dims)
    (h1 : ∀ i (hi : i < (pairList o m.dims).length),
      xs.map (fun x => at' x i env) = f (pairList o m.dims)[i])
    (h2 : ∀ i (hi : i < (pairList o m.dims).length), at' y i env = φ (pairList o m.dims)[i]) :
    CmdSat o env (.compl xs y) ↔ ∀ q, IsPair o m.dims q → Compl o env (f q) (φ q) := by
  rw [← forall_pairs]
  unfold Compl
  simp only [CmdSat]
  rw [hy, ← length_pairList (o := o)]
  refine forall₂_congr fun i hi => ?_
  rw [h1 i hi, h2 i hi]

theorem path_iff (ho : OcpPre uo m oc) (hd : UData um uo o m oc) {k : Nat} {X : Vec}
    (hX : X.length = m.dims.nX) :
    CmdSat o env (.con (gPathAt m oc k X) (some (oc.lbg, oc.ubg))) ↔
      PathSat uo m.dims k (evalVec X env) env := by
  unfold PathSat
  simp only [CmdSat]
  rw [gPathAt_eq ho hX, vecSat_iff (by simp [hd.lbg]) (by simp [hd.ubg]), length_vec]
  refine forall₂_congr fun i hi => ?_
  rw [at'_vec _ hi, hd.lbg, hd.ubg]
  simp [hi]

theorem evalVec_pathX (k e : Nat) : evalVec (pathX o m.dims k e) env
    = if o.rbe then xVal o m.dims k e (o.nS - 1) env else xEndVal o m.dims k e env := by
  unfold pathX
  split
  · rfl
  · exact evalVec_endState _ _ _ _ _

/-- The commands of one element in the user's terms. -/
structure FESpec (um : UserModel) (o : PreOpts) (d : Dims) (uo : UserOcp) (k e : Nat) (env : Env) :
    Prop where
  alg : ∀ j < o.nS, um.Algebraic o d k e j (xVal o d k e j env) env
  rk : ∀ j < o.nS, ∀ i < d.nX, RkEq um o d k e j i env
  lift : o.irkRep = .differentialLiftX → ∀ j < o.nS, ∀ i < d.nX, LiftEq o k e j i env
  cont : hasXEnd o = true → ∀ i < d.nX, EndEq o k e i env
  boundary : o.rbe = false → o.useFesd = true →
    um.Switching o k e (lastLam o k e) (xEndVal o d k e env) (zVal d k e (o.nS - 1) env)
      (pVal d k env) env
  pathEnd : (e + 1 = nfe o k ∨ o.gPathAtFe = true) →
    PathSat uo d k (if o.rbe then xVal o d k e (o.nS - 1) env else xEndVal o d k e env) env
  pathStage : o.gPathAtStg = true →
    ∀ j < o.nS - (if o.rbe then 1 else 0), PathSat uo d k (xVal o d k e j env) env
  stageComp : ∀ j < o.nS, ∀ r ∈ stageComps uo,
    Compl o env
      [r.a (xVal o d k e j env) (uVal d k env) (zVal d k e j env) (pVal d k env) (vVal d env)]
      (r.b (xVal o d k e j env) (uVal d k env) (zVal d k e j env) (pVal d k env) (vVal d env))
  ctrlComp : e + 1 = o.nFe → ∀ r ∈ ctrlComps uo,
    Compl o env [r.a [] (uVal d k env) [] (pVal d k env) (vVal d env)]
      (r.b [] (uVal d k env) [] (pVal d k env) (vVal d env))
  compStd : o.useFesd = false → ∀ j < o.nS, ∀ q, IsPair o d q →
    Compl o env [lamAt k e j env q] (thetaAt k e j env q)
  compAll : o.useFesd = true → o.crossComp = .complementAll →
    ∀ j < o.nS, ∀ q, IsPair o d q →
      Compl o env [thetaAt k e j env q] (lamStart o k e env q) ∧
      ∀ j' < o.nS, Compl o env [thetaAt k e j env q] (lamAt k e j' env q)
  compSum : o.useFesd = true → o.crossComp = .sumLambdas →
    ∀ j < o.nS, ∀ q, IsPair o d q →
      Compl o env ((List.range (nLamPts o k e)).map (fun j' => lamAt k e j' env q)
        ++ [lamStart o k e env q]) (thetaAt k e j env q)
  stepDirect : o.useFesd = true → o.stepEq = .direct → 0 < e →
    nuOf o d k e env * (hVal o k e env - hVal o k (e - 1) env) = 0
  stepDirectComp : o.useFesd = true → o.stepEq = .directComplementarity → 0 < e →
      Compl o env [nuOf o d k e env] (hVal o k e env - hVal o k (e - 1) env)
  stepHComp : o.useFesd = true → o.stepEq = .heuristicDeltaHComp →
    0 < e → Compl o env [0] (hVal o k e env - hVal o k (e - 1) env)

theorem forall_if {α : Type} {p : Prop} [Decidable p] {l : List α} {Q : α → Prop} :
    (∀ c ∈ (if p then l else []), Q c) ↔ (p → ∀ c ∈ l, Q c) := by
  split <;> simp [*]

theorem fe_lift (k e : Nat) : (∀ c ∈ liftC o m.dims k e, CmdSat o env c) ↔
    (o.irkRep = .differentialLiftX → ∀ j < o.nS, ∀ i < m.dims.nX, LiftEq o k e j i env) := by
  unfold liftC
  rw [forall_if]
  refine forall_congr' fun _ => ?_
  simp only [List.mem_map, List.mem_range, forall_exists_index, and_imp, forall_apply_eq_imp_iff₂]
  refine forall₂_congr fun j _ => ?_
  simp only [CmdSat]
  rw [forall_vec]
  refine forall₂_congr fun i _ => ?_
  rw [sub_eq_zero]
  rfl

theorem fe_stage (h : Pre um o m nC nF g up f0 acc) (hz : ZOk o m) (ha : AlphaOk um) (k e : Nat) :
    (∀ c ∈ (List.range o.nS).flatMap (stageC o m oc k e), CmdSat o env c) ↔
      (∀ j < o.nS, um.Algebraic o m.dims k e j (xVal o m.dims k e j env) env) ∧
      (∀ j < o.nS, ∀ i < m.dims.nX, RkEq um o m.dims k e j i env) := by
  have key : ∀ j, (∀ c ∈ stageC o m oc k e j, CmdSat o env c) ↔
      um.Algebraic o m.dims k e j (xVal o m.dims k e j env) env ∧
      ∀ i < m.dims.nX, RkEq um o m.dims k e j i env := by
    intro j
    simp only [stageC, List.forall_mem_cons, List.not_mem_nil, false_implies, implies_true,
      and_true, CmdSat]
    refine and_congr (gzAt_iff h hz) ?_
    rw [forall_vec]
    refine forall₂_congr fun i hi => ?_
    have hf := fxAt_eq h hz ha (k := k) (e := e) (j := j) (row := i)
      (by rw [← dims_nX h]; exact hi) env
    unfold rkRes RkEq
    by_cases hr : o.irkRep = .integral
    · rw [if_pos hr, if_pos hr]
      rw [sub_eq_zero, hf]
    · rw [if_neg hr, if_neg hr]
      rw [sub_eq_zero, hf, eq_comm]
  constructor
  · intro H
    have H' : ∀ j < o.nS, ∀ c ∈ stageC o m oc k e j, CmdSat o env c := fun j hj c hc =>
      H c (List.mem_flatMap.2 ⟨j, List.mem_range.2 hj, hc⟩)
    exact ⟨fun j hj => ((key j).1 (H' j hj)).1, fun j hj => ((key j).1 (H' j hj)).2⟩
  · rintro ⟨H1, H2⟩ c hc
    obtain ⟨j, hj, hc⟩ := List.mem_flatMap.1 hc
    have hj := List.mem_range.1 hj
    exact (key j).2 ⟨H1 j hj, H2 j hj⟩ c hc

theorem fe_cont (k e : Nat) : (∀ c ∈ contC o m.dims k e, CmdSat o env c) ↔
    (hasXEnd o = true → ∀ i < m.dims.nX, EndEq o k e i env) := by
  unfold contC
  rw [forall_if]
  refine forall_congr' fun _ => ?_
  simp only [List.forall_mem_singleton, CmdSat]
  rw [forall_vec]
  refine forall₂_congr fun i _ => ?_
  rw [sub_eq_zero, eq_comm]
  unfold EndEq xkEndC
  split <;> rfl

theorem fe_path (ho : OcpPre uo m oc) (hd : UData um uo o m oc) (k e : Nat) :
    (∀ c ∈ pathC o m oc k e, CmdSat o env c) ↔
    ((e + 1 = nfe o k ∨ o.gPathAtFe = true) →
      PathSat uo m.dims k
        (if o.rbe then xVal o m.dims k e (o.nS - 1) env else xEndVal o m.dims k e env) env) ∧
    (o.gPathAtStg = true →
      ∀ j < o.nS - (if o.rbe then 1 else 0), PathSat uo m.dims k (xVal o m.dims k e j env) env) := by
  unfold pathC
  rw [List.forall_mem_append, forall_if, forall_if]
  refine and_congr (forall_congr' fun _ => ?_) (forall_congr' fun _ => ?_)
  · rw [List.forall_mem_singleton, path_iff ho hd (by unfold pathX; split <;> simp), evalVec_pathX]
  · simp only [List.mem_map, List.mem_range, forall_exists_index, and_imp,
      forall_apply_eq_imp_iff₂]
    refine forall₂_congr fun j _ => ?_
    rw [path_iff ho hd (by simp)]
    rfl

theorem fe_bound (h : Pre um o m nC nF g up f0 acc) (hz : ZOk o m) (k e : Nat) :
    (∀ c ∈ boundC o m k e, CmdSat o env c) ↔ (o.rbe = false → o.useFesd = true →
      um.Switching o k e (lastLam o k e) (xEndVal o m.dims k e env)
        (zVal m.dims k e (o.nS - 1) env) (pVal m.dims k env) env) := by
  unfold boundC
  rw [forall_if, and_imp]
  refine forall₂_congr fun _ _ => ?_
  rw [List.forall_mem_singleton]
  exact swAt_iff h hz

theorem fe_pathComp (h : Pre um o m nC nF g up f0 acc) (ho : OcpPre uo m oc) (hz : ZOk o m)
    (hs : ∀ r ∈ uo.gPathComp, r.Sound m.dims) (k e : Nat) :
    (∀ c ∈ pathCompC o m oc k e, CmdSat o env c) ↔
      (∀ j < o.nS, ∀ r ∈ stageComps uo, Compl o env
        [r.a (xVal o m.dims k e j env) (uVal m.dims k env) (zVal m.dims k e j env)
          (pVal m.dims k env) (vVal m.dims env)]
        (r.b (xVal o m.dims k e j env) (uVal m.dims k env) (zVal m.dims k e j env)
          (pVal m.dims k env) (vVal m.dims env))) ∧
      (e + 1 = o.nFe → ∀ r ∈ ctrlComps uo,
        Compl o env [r.a [] (uVal m.dims k env) [] (pVal m.dims k env) (vVal m.dims env)]
          (r.b [] (uVal m.dims k env) [] (pVal m.dims k env) (vVal m.dims env))) := by
  unfold pathCompC
  rw [List.forall_mem_append, forall_if]
  refine and_congr ?_ (forall_congr' fun _ => ?_)
  · simp only [List.mem_map, List.mem_range, forall_exists_index, and_imp,
      forall_apply_eq_imp_iff₂]
    exact forall₂_congr fun j _ => rkComp_iff h ho hz
  · rw [List.forall_mem_singleton]
    exact ctrlComp_iff ho hs

theorem fe_cross (k e : Nat) : (∀ c ∈ crossC o m.dims k e, CmdSat o env c) ↔
    (o.useFesd = false → ∀ j < o.nS, ∀ q, IsPair o m.dims q →
      Compl o env [lamAt k e j env q] (thetaAt k e j env q)) ∧
    (o.useFesd = true → o.crossComp = .complementAll →
      ∀ j < o.nS, ∀ q, IsPair o m.dims q →
        Compl o env [thetaAt k e j env q] (lamStart o k e env q) ∧
        ∀ j' < o.nS, Compl o env [thetaAt k e j env q] (lamAt k e j' env q)) ∧
    (o.useFesd = true → o.crossComp = .sumLambdas →
      ∀ j < o.nS, ∀ q, IsPair o m.dims q →
        Compl o env ((List.range (nLamPts o k e)).map (fun j' => lamAt k e j' env q)
          ++ [lamStart o k e env q]) (thetaAt k e j env q)) := by
  unfold crossC
  by_cases hu : o.useFesd = false
  · rw [if_pos hu]
    simp only [hu, Bool.false_eq_true, false_implies, and_true, true_implies]
    simp only [List.mem_map, List.mem_range, forall_exists_index, and_imp,
      forall_apply_eq_imp_iff₂]
    exact forall₂_congr fun j _ => compl_pairs (length_thetaVec _ _ _ _)
      (fun i hi => by simp [lamVec_at _ _ _ _ i hi]) (fun i hi => thetaVec_at _ _ _ _ i hi _)
  · rw [if_neg hu]
    have hu' : o.useFesd = true := by simpa using hu
    simp only [hu', Bool.true_eq_false, false_implies, true_and, true_implies]
    cases hc : o.crossComp with
    | complementAll =>
      simp only [reduceCtorEq, false_implies, and_true, true_implies, if_true]
      have key : ∀ j, (∀ c ∈ Cmd.compl [thetaVec o m.dims k e j] (startLam o m.dims k e) ::
          (List.range o.nS).map fun jj => .compl [thetaVec o m.dims k e j] (lamVec o m.dims k e jj),
          CmdSat o env c) ↔ (∀ q, IsPair o m.dims q →
            Compl o env [thetaAt k e j env q] (lamStart o k e env q)) ∧
            ∀ j' < o.nS, ∀ q, IsPair o m.dims q →
              Compl o env [thetaAt k e j env q] (lamAt k e j' env q) := by
        intro j
        rw [List.forall_mem_cons]
        refine and_congr ?_ ?_
        · exact compl_pairs (length_startLam _ _ _) (fun i hi => by simp [thetaVec_at _ _ _ _ i hi])
            (fun i hi => startLam_at _ _ _ i hi _)
        · simp only [List.mem_map, List.mem_range, forall_exists_index, and_imp,
            forall_apply_eq_imp_iff₂]
          exact forall₂_congr fun j' _ => compl_pairs (length_lamVec _ _ _ _)
            (fun i hi => by simp [thetaVec_at _ _ _ _ i hi]) (fun i hi => lamVec_at _ _ _ _ i hi _)
      constructor
      · intro H j hj q hq
        have := (key j).1 fun c hc => H c (List.mem_flatMap.2 ⟨j, List.mem_range.2 hj, hc⟩)
        exact ⟨this.1 q hq, fun j' hj' => this.2 j' hj' q hq⟩
      · intro H c hc
        obtain ⟨j, hj, hc⟩ := List.mem_flatMap.1 hc
        have hj := List.mem_range.1 hj
        exact (key j).2 ⟨fun q hq => (H j hj q hq).1, fun j' hj' q hq => (H j hj q hq).2 j' hj'⟩ c hc
    | sumLambdas =>
      simp only [reduceCtorEq, false_implies, true_and, true_implies, if_false]
      simp only [List.mem_map, List.mem_range, forall_exists_index, and_imp,
        forall_apply_eq_imp_iff₂]
      exact forall₂_congr fun j _ => compl_pairs (f := fun q =>
          (List.range (nLamPts o k e)).map (fun j' => lamAt k e j' env q)
            ++ [lamStart o k e env q]) (length_thetaVec _ _ _ _)
        (fun i hi => allLam_at _ _ _ i hi _) (fun i hi => thetaVec_at _ _ _ _ i hi _)

theorem compl_one {x y : Expr} :
    CmdSat o env (.compl [[x]] [y]) ↔ Compl o env [x env] (y env) := by
  simp [CmdSat, Compl, at']

theorem fe_stepEq (k e : Nat) : (∀ c ∈ stepEqC o m.dims k e, CmdSat o env c) ↔
    (o.useFesd = true → o.stepEq = .direct → 0 < e →
      nuOf o m.dims k e env * (hVal o k e env - hVal o k (e - 1) env) = 0) ∧
    (o.useFesd = true → o.stepEq = .directComplementarity → 0 < e →
        Compl o env [nuOf o m.dims k e env] (hVal o k e env - hVal o k (e - 1) env)) ∧
    (o.useFesd = true → o.stepEq = .heuristicDeltaHComp →
      0 < e → Compl o env [0] (hVal o k e env - hVal o k (e - 1) env)) := by
  unfold stepEqC
  by_cases hu : o.useFesd = false
  · simp [hu]
  · rw [if_neg hu]
    have hu' : o.useFesd = true := by simpa using hu
    simp only [hu', true_implies]
    cases hs : o.stepEq <;> by_cases h0 : e = 0 <;>
      simp [h0, CmdSat, nuVal_eq, Compl, at', Nat.pos_iff_ne_zero, const]

theorem fe_iff (h : Pre um o m nC nF g up f0 acc) (ho : OcpPre uo m oc) (hz : ZOk o m)
    (ha : AlphaOk um) (hs : ∀ r ∈ uo.gPathComp, r.Sound m.dims) (k e : Nat) :
    (∀ c ∈ feCmds o m oc k e, CmdSat o env c) ↔ FESpec um o m.dims uo k e env := by
  unfold feCmds
  simp only [List.forall_mem_append]
  rw [fe_lift, fe_stage h hz ha, fe_cont, fe_path ho (h.udata ho), fe_bound h hz,
    fe_pathComp h ho hz hs, fe_cross, fe_stepEq]
  constructor
  · rintro ⟨⟨⟨⟨⟨⟨⟨a1, a2, a3⟩, a4⟩, a5, a6⟩, a7⟩, a8, a9⟩, a10, a11, a12⟩, a13, a14, a15⟩
    exact ⟨a2, a3, a1, a4, a7, a5, a6, a8, a9, a10, a11, a12, a13, a14, a15⟩
  · rintro ⟨a2, a3, a1, a4, a7, a5, a6, a8, a9, a10, a11, a12, a13, a14, a15⟩
    exact ⟨⟨⟨⟨⟨⟨⟨a1, a2, a3⟩, a4⟩, a5, a6⟩, a7⟩, a8, a9⟩, a10, a11, a12⟩, a13, a14, a15⟩

theorem totalTime_eq : totalTime o env
    = ∑ k ∈ Finset.range o.nStages, ∑ e ∈ Finset.range (nfe o k), hVal o k e env := by
  unfold totalTime allFE
  rw [← sum_map_range, List.map_flatMap, List.flatMap_def, List.sum_flatten, List.map_map]
  congr 1
  apply List.map_congr_left
  intro k _
  simp only [Function.comp_def, List.map_map]
  exact sum_map_range _ _

theorem tf_iff (h : Pre um o m nC nF g up f0 acc) :
    (o.timeFreezing = true → o.equidistant = true → ∀ k < o.nStages,
      -o.timeFreezingTol ≤ tAt m (endState o m.dims k (nfe o k - 1)) env
        - (o.terminalTime / o.nStages * ((k : ℝ) + 1) + tAt m (vars (blk m.dims.nX .x0)) env) ∧
      tAt m (endState o m.dims k (nfe o k - 1)) env
        - (o.terminalTime / o.nStages * ((k : ℝ) + 1) + tAt m (vars (blk m.dims.nX .x0)) env)
        ≤ o.timeFreezingTol) ↔
    ∀ t, um.tVar = some t → o.timeFreezing = true → o.equidistant = true →
      ∀ k < o.nStages,
        |t (xEndVal o m.dims k (nfe o k - 1) env)
          - (o.terminalTime / o.nStages * ((k : ℝ) + 1)
            + t ((List.range m.dims.nX).map fun i => env (.x0 i)))| ≤ o.timeFreezingTol := by
  have key : ∀ t, um.tVar = some t → ∀ k,
      tAt m (endState o m.dims k (nfe o k - 1)) env = t (xEndVal o m.dims k (nfe o k - 1) env) ∧
      tAt m (vars (blk m.dims.nX .x0)) env
        = t ((List.range m.dims.nX).map fun i => env (.x0 i)) := by
    intro t ht k
    rw [tAt_eq h ht (by simp), tAt_eq h ht (by simp), evalVec_endState]
    simp [blk, Function.comp_def]
  constructor
  · intro H t ht h1 h2 k hk
    have := H h1 h2 k hk
    rw [(key t ht k).1, (key t ht k).2] at this
    rw [abs_le]
    exact this
  · intro H h1 h2 k hk
    rcases h.tCheck with h3 | h3
    · obtain ⟨t, ht⟩ := Option.isSome_iff_exists.1 h3
      have := H t ht h1 h2 k hk
      rw [abs_le] at this
      rw [(key t ht k).1, (key t ht k).2]
      exact this
    · rw [h1] at h3; cases h3

/-- The binary variables are in `[0, 1]`. -/
def BoolBounds (o : PreOpts) (m : PreModel) (oc : PreOcp) (env : Env) : Prop :=
  ∀ s ∈ (form5 o m oc).w, IsBoolSym s → 0 ≤ env s ∧ env s ≤ 1

theorem conditions_iff (h : Pre um o m nC nF g up f0 acc) (ho : OcpPre uo m oc) (hz : ZOk o m)
    (ha : AlphaOk um) (hs : ∀ r ∈ uo.gPathComp, r.Sound m.dims) (hx : FEDataOk m oc)
    (hf : FunsOk o m oc) (hA : NoAugSum o) (hb : o.mpcc ≠ .boolean) :
    Conditions o m oc um uo env ↔ FeasibleSpec o m.dims um uo env := by
  constructor
  · rintro ⟨c1, c2, c3, c4, c5, c6, c7⟩
    have F := fun k e hk => (fe_iff h ho hz ha hs k e).1 (c2 k e hk)
    rw [tf_iff h] at c4
    rw [globComp_iff ho hs] at c5
    rw [gT_eq ho, forall_vec] at c6
    rw [totalTime_eq] at c7
    exact ⟨fun s hs => c1 s (mem_form5_of_isVar hx hf hA hs), fun k e hk => (F k e hk).alg,
      fun k e hk => (F k e hk).rk, fun q k e hk => (F k e hk).lift q,
      fun q k e hk => (F k e hk).cont q, fun q q' k e hk => (F k e hk).boundary q q',
      fun k e hk => (F k e hk).pathEnd, fun q k e hk => (F k e hk).pathStage q,
      fun k e hk => (F k e hk).stageComp, fun k e hk => (F k e hk).ctrlComp, c5,
      fun q k e hk => (F k e hk).compStd q, fun q q' k e hk => (F k e hk).compAll q q',
      fun q q' k e hk => (F k e hk).compSum q q', fun q q' k e hk => (F k e hk).stepDirect q q',
      fun q q' k e hk => (F k e hk).stepDirectComp q q',
      fun q q' k e hk => (F k e hk).stepHComp q q', c3, c7, c4, c6⟩
  · intro S
    refine ⟨fun s hs => S.bounds s ?_, fun k e hk => (fe_iff h ho hz ha hs k e).2 ?_, S.equi, ?_,
      ?_, ?_, ?_⟩
    · rcases isVar_of_form5 hx hf hA hs with h' | h'
      · exact h'
      · exact absurd h'.1 hb
    · exact ⟨S.alg k e hk, S.rk k e hk, fun q => S.lift q k e hk, fun q => S.cont q k e hk,
        fun q q' => S.boundary q q' k e hk, S.pathEnd k e hk, fun q => S.pathStage q k e hk,
        S.stageComp k e hk, S.ctrlComp k e hk, fun q => S.compStd q k e hk,
        fun q q' => S.compAll q q' k e hk, fun q q' => S.compSum q q' k e hk,
        fun q q' => S.stepDirect q q' k e hk, fun q q' => S.stepDirectComp q q' k e hk,
        fun q q' => S.stepHComp q q' k e hk⟩
    · rw [tf_iff h]; exact S.freeze
    · rw [globComp_iff ho hs]; exact S.globComp
    · rw [gT_eq ho, forall_vec]; exact S.term
    · rw [totalTime_eq]; exact S.time

theorem conditions_spec (h : Pre um o m nC nF g up f0 acc) (ho : OcpPre uo m oc) (hz : ZOk o m)
    (ha : AlphaOk um) (hs : ∀ r ∈ uo.gPathComp, r.Sound m.dims) (hx : FEDataOk m oc)
    (hf : FunsOk o m oc) (hA : NoAugSum o) (hc : Conditions o m oc um uo env) :
    FeasibleSpec o m.dims um uo env := by
  obtain ⟨c1, c2, c3, c4, c5, c6, c7⟩ := hc
  have F := fun k e hk => (fe_iff h ho hz ha hs k e).1 (c2 k e hk)
  rw [tf_iff h] at c4
  rw [globComp_iff ho hs] at c5
  rw [gT_eq ho, forall_vec] at c6
  rw [totalTime_eq] at c7
  exact ⟨fun s hs => c1 s (mem_form5_of_isVar hx hf hA hs), fun k e hk => (F k e hk).alg,
    fun k e hk => (F k e hk).rk, fun q k e hk => (F k e hk).lift q,
    fun q k e hk => (F k e hk).cont q, fun q q' k e hk => (F k e hk).boundary q q',
    fun k e hk => (F k e hk).pathEnd, fun q k e hk => (F k e hk).pathStage q,
    fun k e hk => (F k e hk).stageComp, fun k e hk => (F k e hk).ctrlComp, c5,
    fun q k e hk => (F k e hk).compStd q, fun q q' k e hk => (F k e hk).compAll q q',
    fun q q' k e hk => (F k e hk).compSum q q', fun q q' k e hk => (F k e hk).stepDirect q q',
    fun q q' k e hk => (F k e hk).stepDirectComp q q',
    fun q q' k e hk => (F k e hk).stepHComp q q', c3, c7, c4, c6⟩

end

/-! ### For a successful construction -/
section
variable {colloc : IrkScheme → Nat → List ℝ} {o : Opts} {um : UserModel} {uo : Option UserOcp}
  {po : PreOpts} {m : PreModel} {oc : PreOcp} {P : Problem} {env : Env}

theorem Built.form (h : Built colloc o um uo po m oc P)
    (he : po.constraintHandling = .exact) : P.form = form5 po m oc := by
  rw [h.eq]
  simp [problemOf, lsqForm, he]

theorem master_spec (h : Built colloc o um uo po m oc P) (he : po.constraintHandling = .exact)
    (ha : AlphaOk um) (hs : ∀ r ∈ (uo.getD UserOcp.trivial).gPathComp, r.Sound m.dims)
    (hf : P.form.Feasible env) : FeasibleSpec po m.dims um (uo.getD UserOcp.trivial) env := by
  obtain ⟨nC, nF, g, up, f0, acc, hp⟩ := h.pre
  have hx := h.data.fe h.ok.primal
  rw [h.form he] at hf
  exact conditions_spec hp h.ocp h.ok.z ha hs hx h.funs h.ok.aug
    (feasible_conditions (hp.udata h.ocp) hx h.funs h.ok.aug hf)

theorem master_iff (h : Built colloc o um uo po m oc P) (he : po.constraintHandling = .exact)
    (hb : po.mpcc ≠ .boolean)
    (ha : AlphaOk um) (hs : ∀ r ∈ (uo.getD UserOcp.trivial).gPathComp, r.Sound m.dims) :
    P.form.Feasible env ↔ FeasibleSpec po m.dims um (uo.getD UserOcp.trivial) env := by
  obtain ⟨nC, nF, g, up, f0, acc, hp⟩ := h.pre
  have hx := h.data.fe h.ok.primal
  rw [h.form he, feasible_iff hb (hp.udata h.ocp) hx h.funs h.ok.aug]
  exact conditions_iff hp h.ocp h.ok.z ha hs hx h.funs h.ok.aug hb

end
end Nosnoc
