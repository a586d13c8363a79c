import Verif.Proofs.Master
/-
Helper lemmas: every expression of the problem is determined by the optimisation variables and the
parameters.
-/
namespace Nosnoc

/-- The parameters of the problem. -/
def IsPar (o : PreOpts) (d : Dims) : Sym → Prop
  | .sigma => True
  | .tau => True
  | .pStage k i => k < o.nStages ∧ i < d.nPtv + d.nPgl
  | .x0 i => i < d.nX
  | .lam00 f s i => (f = .lam ∨ f = .lamN ∨ f = .lamP) ∧ s < d.nSys ∧ i < d.famLen o.pss f s
  | _ => False

/-- Two points agree on variables (without the binary ones) and parameters. -/
def Agree (o : PreOpts) (d : Dims) (env env' : Env) : Prop :=
  ∀ s, IsVar o d s ∨ IsPar o d s → env s = env' s

section
variable {um : UserModel} {o : PreOpts} {m : PreModel} {nC nF : List Nat} {g up : List Vec}
  {f0 : Vec} {acc : DcsAcc} {uo : UserOcp} {oc : PreOcp} {d : Dims} {env env' : Env} {k e j : Nat}

/-! ### Elementary quantities -/

theorem Agree.h (ag : Agree o d env env') (hk : HasFE o k e) : hVal o k e env = hVal o k e env' := by
  unfold hVal
  split
  · rename_i hu
    exact ag _ (.inl ⟨hu, hk⟩)
  · rfl

theorem Agree.sot (ag : Agree o d env env') (hk : k < o.nStages) :
    sotVal o k env = sotVal o k env' := by
  unfold sotVal
  split
  · rename_i hu
    exact ag _ (.inl ⟨hu, hk⟩)
  · rfl

theorem Agree.endX (hn : 0 < o.nS) (ag : Agree o d env env') (hk : HasFE o k e) {i : Nat}
    (hi : i < d.nX) : env (Nosnoc.endX o k e i) = env' (Nosnoc.endX o k e i) := by
  unfold Nosnoc.endX
  split
  · rename_i hu
    exact ag _ (.inl ⟨hu, hk, hi⟩)
  · rename_i hu
    refine ag _ (.inl ⟨?_, hk, by omega, hi⟩)
    intro hc
    exact hu (by simp [ownEnd, hc])

theorem Agree.prev (hpos : ∀ k < o.nStages, 0 < nfe o k) (hk : HasFE o k e) {k' e' : Nat}
    (hq : prevFe o k e = some (k', e')) : HasFE o k' e' := by
  unfold prevFe at hq
  split at hq
  · cases hq; exact ⟨hk.1, by have := hk.2; omega⟩
  · split at hq
    · cases hq
      have := hpos (k - 1) (by have := hk.1; omega)
      exact ⟨by have := hk.1; omega, by omega⟩
    · cases hq

theorem Agree.startX (hn : 0 < o.nS) (hpos : ∀ k < o.nStages, 0 < nfe o k)
    (ag : Agree o d env env') (hk : HasFE o k e) {i : Nat}
    (hi : i < d.nX) : env (Nosnoc.startX o k e i) = env' (Nosnoc.startX o k e i) := by
  unfold Nosnoc.startX
  cases hq : prevFe o k e with
  | none => exact ag _ (.inr hi)
  | some q => exact ag.endX hn (Agree.prev hpos hk hq) hi

theorem Agree.rkX (hn : 0 < o.nS) (hpos : ∀ k < o.nStages, 0 < nfe o k)
    (ag : Agree o d env env') (hk : HasFE o k e) (hr : o.irkRep ≠ .integral) {i : Nat}
    (hi : i < d.nX) : Nosnoc.rkX o k e j i env = Nosnoc.rkX o k e j i env' := by
  unfold Nosnoc.rkX
  rw [ag.startX hn hpos hk hi, ag.h hk]
  congr 1
  refine Finset.sum_congr rfl fun r hr' => ?_
  rw [ag (.st1 .v k e r i) (.inl ⟨hr, hk, Finset.mem_range.1 hr', hi⟩)]

theorem Agree.xVal (hn : 0 < o.nS) (hpos : ∀ k < o.nStages, 0 < nfe o k)
    (ag : Agree o d env env') (hk : HasFE o k e) (hj : j < o.nS) :
    Nosnoc.xVal o d k e j env = Nosnoc.xVal o d k e j env' := by
  unfold Nosnoc.xVal
  by_cases hr : o.irkRep = .differential
  · rw [stageX_diff hr]
    simp only [evalVec, vec, List.map_map]
    refine List.map_congr_left fun i hi => ?_
    exact ag.rkX hn hpos hk (by rw [hr]; decide) (List.mem_range.1 hi)
  · rw [stageX_var hr]
    simp only [evalVec_vars, blk, List.map_map]
    refine List.map_congr_left fun i hi => ?_
    exact ag _ (.inl ⟨hr, hk, hj, List.mem_range.1 hi⟩)

theorem Agree.xEndVal (hn : 0 < o.nS) (ag : Agree o d env env') (hk : HasFE o k e) :
    Nosnoc.xEndVal o d k e env = Nosnoc.xEndVal o d k e env' :=
  List.map_congr_left fun _ hi => ag.endX hn hk (List.mem_range.1 hi)

theorem Agree.zVal (ag : Agree o d env env') (hk : HasFE o k e) (hj : j < o.nS) :
    Nosnoc.zVal d k e j env = Nosnoc.zVal d k e j env' :=
  List.map_congr_left fun _ hi => ag _ (.inl ⟨hk, hj, List.mem_range.1 hi⟩)

theorem Agree.uVal (ag : Agree o d env env') (hk : k < o.nStages) :
    Nosnoc.uVal d k env = Nosnoc.uVal d k env' :=
  List.map_congr_left fun _ hi => ag _ (.inl ⟨hk, List.mem_range.1 hi⟩)

theorem Agree.pVal (ag : Agree o d env env') (hk : k < o.nStages) :
    Nosnoc.pVal d k env = Nosnoc.pVal d k env' :=
  List.map_congr_left fun _ hi => ag _ (.inr ⟨hk, List.mem_range.1 hi⟩)

theorem Agree.vVal (ag : Agree o d env env') : Nosnoc.vVal d env = Nosnoc.vVal d env' :=
  List.map_congr_left fun _ hi => ag _ (.inl (List.mem_range.1 hi))

theorem Agree.theta (ag : Agree o d env env') (hk : HasFE o k e) (hj : j < o.nS) {q : Pair}
    (hq : IsPair o d q) : thetaAt k e j env q = thetaAt k e j env' q := by
  cases q with
  | region s i => exact ag _ (.inl ⟨hq.1, hk, hj, hq.2.1, hq.2.2⟩)
  | neg s i => exact ag _ (.inl ⟨hq.1, hk, hj, hq.2.1, hq.2.2⟩)
  | pos s i =>
    simp only [thetaAt]
    rw [ag (.st2 .alpha k e j s i) (.inl ⟨hq.1, hk, hj, hq.2.1, hq.2.2⟩)]

theorem Agree.lam (ag : Agree o d env env') (hk : HasFE o k e) (hj : j < nLamPts o k e) {q : Pair}
    (hq : IsPair o d q) : lamAt k e j env q = lamAt k e j env' q := by
  cases q with
  | region s i => exact ag _ (.inl ⟨hq.1, hk, hj, hq.2.1, hq.2.2⟩)
  | neg s i => exact ag _ (.inl ⟨hq.1, hk, hj, hq.2.1, hq.2.2⟩)
  | pos s i => exact ag _ (.inl ⟨hq.1, hk, hj, hq.2.1, hq.2.2⟩)

theorem Agree.lamStart (hn : 0 < o.nS) (hpos : ∀ k < o.nStages, 0 < nfe o k)
    (ag : Agree o d env env') (hk : HasFE o k e) {q : Pair}
    (hq : IsPair o d q) : lamStart o k e env q = lamStart o k e env' q := by
  unfold Nosnoc.lamStart
  cases hp : prevFe o k e with
  | none =>
    cases q with
    | region s i => exact ag _ (.inr ⟨.inl rfl, hq.2.1, by
        simp only [Dims.famLen, hq.1]; exact hq.2.2⟩)
    | neg s i => exact ag _ (.inr ⟨.inr (.inl rfl), hq.2.1, by
        simp only [Dims.famLen, hq.1]; exact hq.2.2⟩)
    | pos s i => exact ag _ (.inr ⟨.inr (.inr rfl), hq.2.1, by
        simp only [Dims.famLen, hq.1]; exact hq.2.2⟩)
  | some p =>
    refine ag.lam (Agree.prev hpos hk hp) ?_ hq
    unfold lastLam nLamPts
    omega

theorem vars_same {l : List Sym} (h : ∀ s ∈ l, env s = env' s) :
    ∀ q ∈ vars l, q env = q env' := by
  intro q hq
  obtain ⟨s, hs, rfl⟩ := List.mem_map.1 hq
  exact h s hs

theorem vec_same {n : Nat} {φ : Nat → Expr} (h : ∀ i < n, φ i env = φ i env') :
    ∀ q ∈ vec n φ, q env = q env' := by
  rw [forall_vec]
  exact h

/-- Vectors whose entries are given by pairs. -/
theorem pairs_same {v : Vec} {φ : Env → Pair → ℝ} (hl : v.length = nLam o d)
    (h : ∀ i (hi : i < (pairList o d).length) env, at' v i env = φ env (pairList o d)[i])
    (hφ : ∀ q, IsPair o d q → φ env q = φ env' q) : ∀ q ∈ v, q env = q env' := by
  intro q hq
  obtain ⟨i, hi, rfl⟩ := List.mem_iff_getElem.1 hq
  have hi' : i < (pairList o d).length := by rw [length_pairList, ← hl]; exact hi
  have key : ∀ env, v[i] env = φ env (pairList o d)[i] := fun env => by
    rw [← h i hi' env]; simp [at', hi]
  rw [key, key]
  exact hφ _ (mem_pairList.1 (List.getElem_mem hi'))

theorem Agree.thetaVec (ag : Agree o d env env') (hk : HasFE o k e) (hj : j < o.nS) :
    ∀ q ∈ Nosnoc.thetaVec o d k e j, q env = q env' :=
  pairs_same (φ := fun env q => thetaAt k e j env q) (length_thetaVec _ _ _ _)
    (fun i hi _ => thetaVec_at _ _ _ _ i hi _) fun _ hq => ag.theta hk hj hq

theorem Agree.lamVec (ag : Agree o d env env') (hk : HasFE o k e) (hj : j < nLamPts o k e) :
    ∀ q ∈ Nosnoc.lamVec o d k e j, q env = q env' :=
  pairs_same (φ := fun env q => lamAt k e j env q) (length_lamVec _ _ _ _)
    (fun i hi _ => lamVec_at _ _ _ _ i hi _) fun _ hq => ag.lam hk hj hq

theorem Agree.startLam (hn : 0 < o.nS) (hpos : ∀ k < o.nStages, 0 < nfe o k)
    (ag : Agree o d env env') (hk : HasFE o k e) :
    ∀ q ∈ Nosnoc.startLam o d k e, q env = q env' :=
  pairs_same (φ := fun env q => Nosnoc.lamStart o k e env q) (length_startLam _ _ _)
    (fun i hi _ => startLam_at _ _ _ i hi _) fun _ hq => ag.lamStart hn hpos hk hq

theorem Agree.allLam (hn : 0 < o.nS) (hpos : ∀ k < o.nStages, 0 < nfe o k)
    (ag : Agree o d env env') (hk : HasFE o k e) :
    ∀ x ∈ Nosnoc.allLam o d k e, ∀ q ∈ x, q env = q env' := by
  intro x hx
  simp only [Nosnoc.allLam, List.mem_append, List.mem_map, List.mem_range, List.mem_singleton] at hx
  rcases hx with ⟨j, hj, rfl⟩ | rfl
  · exact ag.lamVec hk (by unfold nLamPts; rw [extraPt_eq]; exact hj)
  · exact ag.startLam hn hpos hk

theorem Agree.nu (hn : 0 < o.nS) (hpos : ∀ k < o.nStages, 0 < nfe o k)
    (ag : Agree o d env env') (hk : HasFE o k e) (hk' : HasFE o k (e - 1)) :
    nuOf o d k e env = nuOf o d k e env' := by
  have hl : ∀ e, HasFE o k e → ∀ q ∈ pairList o d, sumLam o k e env q = sumLam o k e env' q := by
    intro e hk q hq
    have hq := mem_pairList.1 hq
    unfold sumLam
    rw [ag.lamStart hn hpos hk hq]
    congr 2
    exact List.map_congr_left fun j hj => ag.lam hk (List.mem_range.1 hj) hq
  have ht : ∀ e, HasFE o k e → ∀ q ∈ pairList o d, sumTheta o k e env q = sumTheta o k e env' q := by
    intro e hk q hq
    have hq := mem_pairList.1 hq
    unfold sumTheta
    congr 1
    exact List.map_congr_left fun j hj => ag.theta hk (List.mem_range.1 hj) hq
  unfold nuOf
  congr 1
  refine List.map_congr_left fun q hq => ?_
  rw [hl e hk q hq, hl _ hk' q hq, ht e hk q hq, ht _ hk' q hq]

/-! ### The model functions -/

theorem Agree.rhs (hS : d.nSys = um.nSys)
    (hF : o.pss = .stewart → ∀ s < um.nSys, (um.Fmat s).nCols = d.nF s)
    (hU : o.pss = .step → um.F.isSome → ∀ s < um.nSys, ∀ i < (um.Fmat s).nCols,
      ∀ c < (um.Smat s).cols, (um.Smat s).entry i c ≠ 0 → c < d.nC s)
    (hn : 0 < o.nS) (hpos : ∀ k < o.nStages, 0 < nfe o k)
    (ag : Agree o d env env') (hk : HasFE o k e) (hj : j < o.nS) (row : Nat) :
    um.stageRhs o d k e j row env = um.stageRhs o d k e j row env' := by
  unfold UserModel.stageRhs
  rw [ag.xVal hn hpos hk hj, ag.zVal hk hj, ag.uVal hk.1, ag.pVal hk.1, ag.vVal]
  cases hp : o.pss with
  | stewart =>
    simp only
    unfold UserModel.rhsStewart
    refine Finset.sum_congr rfl fun s hs => Finset.sum_congr rfl fun i hi => ?_
    have hs := Finset.mem_range.1 hs
    have hi := Finset.mem_range.1 hi
    beta_reduce
    rw [ag (.st2 .theta k e j s i) (.inl ⟨hp, hk, hj, by omega, by rw [← hF hp s hs]; exact hi⟩)]
  | step =>
    cases hf : um.F with
    | some Fs =>
      simp only
      unfold UserModel.rhsStep UserModel.rhsStewart
      refine Finset.sum_congr rfl fun s hs => Finset.sum_congr rfl fun i hi => ?_
      have hs := Finset.mem_range.1 hs
      have hi := Finset.mem_range.1 hi
      congr 1
      refine regionWeight_congr fun c hc hne => ?_
      exact ag _ (.inl ⟨hp, hk, hj, by omega, hU hp (by rw [hf]; rfl) s hs i hi c hc hne⟩)
    | none =>
      cases hx : um.fx with
      | none => rfl
      | some f =>
        simp only
        have : alphaVal o d k e j env = alphaVal o d k e j env' := by
          unfold alphaVal rowSyms
          refine List.map_congr_left fun t ht => ?_
          simp only [List.mem_flatMap, List.mem_range, blk, List.mem_map] at ht
          obtain ⟨s, hs, i, hi, rfl⟩ := ht
          exact ag _ (.inl ⟨hp, hk, hj, hs, by simpa [Dims.famLen, hp] using hi⟩)
        rw [this]

/-- Points at which the model's symbols have the values of a stage. -/
theorem Agree.switching (h : Pre um o m nC nF g up f0 acc)
    (ag : Agree o m.dims env env') (hk : HasFE o k e) (hj : j < o.nS) {jl : Nat}
    (hjl : jl < nLamPts o k e) {x : List ℝ} {E E' : Env}
    (hb : StageBind um o m.dims k e j jl x env E) (hb' : StageBind um o m.dims k e j jl x env' E') :
    ∀ q ∈ acc.gSwitching, q E = q E' := by
  cases hp : o.pss with
  | stewart =>
    obtain ⟨hsys, hacc⟩ := h.stewartAcc hp
    simp only [hacc, Nosnoc.stewartAcc, List.mem_flatMap, List.mem_range]
    rintro q ⟨s, hs, hq⟩
    obtain ⟨i, hi, rfl⟩ := List.mem_map.1 hq
    have hi := List.mem_range.1 hi
    have hs' : s < m.dims.nSys := by rw [dims_nSys h]; exact hs
    beta_reduce
    rw [gStewart_at h hp hs (hsys s hs) hi, gStewart_at h hp hs (hsys s hs) hi, hb.x, hb'.x,
      hb.z.z, hb'.z.z, hb.p, hb'.p,
      hb.z.lam s hs' i (by rw [hp]; exact hi), hb'.z.lam s hs' i (by rw [hp]; exact hi),
      hb.z.mu s hs' 0 (by rw [hp]; exact Nat.one_pos),
      hb'.z.mu s hs' 0 (by rw [hp]; exact Nat.one_pos), ag.zVal hk hj, ag.pVal hk.1,
      ag (.st2 .lam k e jl s i) (.inl ⟨hp, hk, hjl, hs', hi⟩),
      ag (.st2 .mu k e jl s 0) (.inl ⟨hp, hk, hjl, hs', rfl⟩)]
  | step =>
    obtain ⟨hsys, hacc⟩ := h.stepAcc hp
    simp only [hacc, Nosnoc.stepAcc, List.mem_flatMap, List.mem_range]
    rintro q ⟨s, hs, hq⟩
    obtain ⟨i, hi, rfl⟩ := List.mem_map.1 hq
    have hi := List.mem_range.1 hi
    have hs' : s < m.dims.nSys := by rw [dims_nSys h]; exact hs
    unfold UVec.expr
    beta_reduce
    rw [hb.x, hb'.x, hb.z.z, hb'.z.z, hb.p, hb'.p,
      hb.z.lamP s hs' i (by rw [hp]; exact hi), hb'.z.lamP s hs' i (by rw [hp]; exact hi),
      hb.z.lamN s hs' i (by rw [hp]; exact hi), hb'.z.lamN s hs' i (by rw [hp]; exact hi),
      ag.zVal hk hj, ag.pVal hk.1,
      ag (.st2 .lamP k e jl s i) (.inl ⟨hp, hk, hjl, hs', hi⟩),
      ag (.st2 .lamN k e jl s i) (.inl ⟨hp, hk, hjl, hs', hi⟩)]

theorem Agree.convex (h : Pre um o m nC nF g up f0 acc)
    (ag : Agree o m.dims env env') (hk : HasFE o k e) (hj : j < o.nS) {jl : Nat}
    {x : List ℝ} {E E' : Env}
    (hb : StageBind um o m.dims k e j jl x env E) (hb' : StageBind um o m.dims k e j jl x env' E') :
    ∀ q ∈ acc.gConvex, q E = q E' := by
  cases hp : o.pss with
  | stewart =>
    obtain ⟨hsys, hacc⟩ := h.stewartAcc hp
    simp only [hacc, Nosnoc.stewartAcc, List.mem_map, List.mem_range]
    rintro q ⟨s, hs, rfl⟩
    have hs' : s < m.dims.nSys := by rw [dims_nSys h]; exact hs
    beta_reduce
    congr 1
    refine Finset.sum_congr rfl fun i hi => ?_
    have hi := Finset.mem_range.1 hi
    rw [hb.z.theta s hs' i (by rw [hp]; exact hi), hb'.z.theta s hs' i (by rw [hp]; exact hi)]
    exact ag _ (.inl ⟨hp, hk, hj, hs', hi⟩)
  | step =>
    obtain ⟨hsys, hacc⟩ := h.stepAcc hp
    simp [hacc, Nosnoc.stepAcc]

/-- Outputs of an applied function. -/
theorem app_same {f : CFun} {args : List Vec}
    (h : ∀ q ∈ f.outs, q (rebind f.ins.flatten args.flatten env)
      = q (rebind f.ins.flatten args.flatten env')) : ∀ q ∈ f.app args, q env = q env' := by
  intro q hq
  obtain ⟨r, hr, rfl⟩ := List.mem_map.1 hq
  exact h r hr

theorem Agree.gz (h : Pre um o m nC nF g up f0 acc) (hz : ZOk o m)
    (hn : 0 < o.nS) (hpos : ∀ k < o.nStages, 0 < nfe o k)
    (ag : Agree o m.dims env env') (hk : HasFE o k e) (hj : j < o.nS) :
    ∀ q ∈ gzAt o m k e j, q env = q env' := by
  have hb := bind4 h hz (length_stageX (o := o) m.dims k e j) k e j j env
  have hb' := bind4 h hz (length_stageX (o := o) m.dims k e j) k e j j env'
  refine app_same ?_
  rw [h.gz]
  unfold stageZ
  simp only at hb hb' ⊢
  have hx : evalVec (stageX o m.dims k e j) env = evalVec (stageX o m.dims k e j) env' :=
    ag.xVal hn hpos hk hj
  rw [hx] at hb
  rw [List.forall_mem_append, List.forall_mem_append]
  refine ⟨⟨ag.switching h hk hj (by unfold nLamPts; omega) hb hb', ag.convex h hk hj hb hb'⟩, ?_⟩
  intro q hq
  simp only [List.mem_map, List.mem_range] at hq
  obtain ⟨i, hi, rfl⟩ := hq
  beta_reduce
  rw [hb.x, hb.z.z, hb.u, hb.p, hb'.x, hb'.z.z, hb'.u, hb'.p, ag.zVal hk hj, ag.uVal hk.1,
    ag.pVal hk.1]

theorem Agree.sw (h : Pre um o m nC nF g up f0 acc) (hz : ZOk o m)
    (hn : 0 < o.nS) (ag : Agree o m.dims env env') (hk : HasFE o k e) :
    ∀ q ∈ swAt o m k e, q env = q env' := by
  have hb := bind4 h hz (length_endState (o := o) m.dims k e) k e (o.nS - 1) (lastLam o k e) env
  have hb' := bind4 h hz (length_endState (o := o) m.dims k e) k e (o.nS - 1) (lastLam o k e) env'
  refine app_same ?_
  rw [h.sw]
  simp only at hb hb' ⊢
  rw [evalVec_endState] at hb hb'
  rw [ag.xEndVal hn hk] at hb
  exact ag.switching h hk (by omega) (by unfold nLamPts lastLam; omega) hb hb'

theorem Agree.fx (h : Pre um o m nC nF g up f0 acc) (hz : ZOk o m) (ha : AlphaOk um)
    (hn : 0 < o.nS) (hpos : ∀ k < o.nStages, 0 < nfe o k)
    (ag : Agree o m.dims env env') (hk : HasFE o k e) (hj : j < o.nS) {row : Nat}
    (hr : row < m.dims.nX) : at' (fxAt o m k e j) row env = at' (fxAt o m k e j) row env' := by
  rw [dims_nX h] at hr
  rw [fxAt_eq h hz ha hr, fxAt_eq h hz ha hr]
  refine ag.rhs (dims_nSys h) (fun hp s hs => ((h.stewartAcc hp).1 s hs).cols) ?_ hn hpos hk hj row
  intro hp hF s hs i hi c hc hne
  have hup := h.hup
  rw [hp] at hup
  obtain ⟨Fs, hFs⟩ := Option.isSome_iff_exists.1 hF
  have := upsilon_cols hup hF hs (by rw [← (((h.stepAcc hp).1 s hs).F Fs hFs).2]; exact hi) hc hne
  unfold UserModel.alphaVars at this
  rw [ha hF] at this
  simpa [Dims.stageVars, dims_nSys h, hs, Dims.famLen] using this

end
end Nosnoc
