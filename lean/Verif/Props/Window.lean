import Verif.Proofs.Window
import Verif.Props.Ocp
import Verif.Props.Accept
import Verif.Props.Exactness
import Verif.Proofs.Closed3
/-
C127: the problem over a horizon is made of the problems over its parts.
-/
namespace Nosnoc

section
variable {colloc : IrkScheme → Nat → List ℝ} {o : Opts} {um : UserModel} {uo uo' : Option UserOcp}
  {po : PreOpts} {m : PreModel} {oc : PreOcp} {P : Problem} {env : Env} {a b n : Nat}

theorem window_nfeAfter (hn : 0 < n) (ha : a + n ≤ o.nStages)
    (hl : ∀ k < o.nStages, ∃ l, o.nfeAfter[k]? = some l ∧ 0 < l) :
    (o.window a n).nfeAfter = (o.nfeAfter.drop a).take n := by
  have h0 : ((o.nfeAfter.drop a).take n).length ≠ 0 := by
    obtain ⟨l, h1, -⟩ := hl a (by omega)
    have := (List.getElem?_eq_some_iff.1 h1).1
    simp only [List.length_take, List.length_drop]
    omega
  unfold Opts.nfeAfter
  show (if ((o.nfeAfter.drop a).take n).length = 0 then _ else (o.nfeAfter.drop a).take n) = _
  rw [if_neg h0]
  rfl

theorem window_optsPre (ho : o.preprocess colloc = .ok po) (hn : 0 < n) (ha : a + n ≤ o.nStages)
    (hl : ∀ k < o.nStages, ∃ l, o.nfeAfter[k]? = some l ∧ 0 < l) :
    (o.window a n).preprocess colloc = .ok (po.window a n) := by
  have e := window_nfeAfter hn ha hl
  unfold Opts.preprocess at ho ⊢
  rw [bind_eq_ok] at ho
  obtain ⟨mi, hmi, ho⟩ := ho
  rw [show (o.window a n).maxIter = o.maxIter from rfl, hmi, e]
  simp only [ok_bind]
  have er : (o.window a n).irkRep = o.irkRep := rfl
  have es : (o.window a n).scheme = o.scheme := rfl
  have en : (o.window a n).nS = o.nS := rfl
  rw [er, es, en]
  cases hr : o.irkRep
  · simp only [hr, ok_bind] at ho ⊢
    cases hl : (generateButcherIntegral (colloc o.scheme o.nS)).tau.getLast? with
    | none => rw [hl] at ho; cases ho
    | some t => rw [hl] at ho; cases ho; rfl
  all_goals
    simp only [hr, bind_eq_ok] at ho
    obtain ⟨t, ht, _, h1, ho⟩ := ho
    injection h1 with h1
    subst h1
    rw [ht]
    simp only [ok_bind] at ho ⊢
    cases hl : (t.c.map (fun q : ℚ => (q : ℝ))).getLast? with
    | none => rw [hl] at ho; cases ho
    | some c => rw [hl] at ho; cases ho; rfl

theorem window_modelPre (hi : um.initCheck = .ok ()) (hal : um.F ≠ none → um.alpha = none)
    (hm : um.preprocess po = .ok m) (ha : a + n ≤ po.nStages) :
    ∃ m', (um.window a n).preprocess (po.window a n) = .ok m' ∧ m'.dims = m.dims := by
  obtain ⟨m', hm'⟩ : ∃ m', (um.window a n).preprocess (po.window a n) = .ok m' := by
    refine (C70_preprocess_iff (um := um.window a n) hi hal).2 ?_
    obtain ⟨hc, hk⟩ := (C70_preprocess_iff hi hal).1 ⟨m, hm⟩
    refine ⟨⟨hc.z0, hc.lbz, hc.ubz, hc.pGlobal, ?_, hc.time⟩, ?_⟩
    · intro V hV
      cases hp : um.pTimeVarVal with
      | none =>
        have : (none : Option (List (List ℝ))) = some V := by simpa [UserModel.window, hp] using hV
        cases this
      | some V0 =>
        have : (V0.drop a).take n = V := by simpa [UserModel.window, hp] using hV
        subst this
        obtain ⟨h1, h2⟩ := hc.pTimeVar V0 hp
        refine ⟨?_, fun r hr => h2 r (List.mem_of_mem_drop (List.mem_of_mem_take hr))⟩
        show _ = n
        rw [List.length_take, List.length_drop, h1]
        omega
    · rcases hk with ⟨Fs, cs, Ss, H⟩ | ⟨Fs, gs, H⟩ | ⟨f, cs, al, H⟩
      · exact .inl ⟨Fs, cs, Ss, ⟨H.F, H.c, H.S, H.g, H.switching, H.lenCS, H.lenFC, H.rows, H.cols, H.used,
          H.equal⟩⟩
      · exact .inr (.inl ⟨Fs, gs, ⟨H.F, H.g, H.nonempty, H.cS, H.stewart, H.switching, H.len, H.cols⟩⟩)
      · exact .inr (.inr ⟨f, cs, al, ⟨H.F, H.fx, H.c, H.alpha, H.step, H.total, H.lenA, H.lenC, H.first,
          H.noG⟩⟩)
  refine ⟨m', hm', ?_⟩
  obtain ⟨nC, nF, _, _, _, _, H⟩ := preprocess_pre hm
  obtain ⟨nC', nF', _, _, _, _, H'⟩ := preprocess_pre hm'
  have e1 : nC' = nC := by
    have h1 : um.nCsys = .ok nC' := H'.hnC
    rw [H.hnC] at h1
    exact (Except.ok.inj h1).symm
  have e2 : nF' = nF := by
    have h1 : um.nFsys po.pss = .ok nF' := H'.hnF
    rw [H.hnF] at h1
    exact (Except.ok.inj h1).symm
  rw [H.dims, H'.dims, e1, e2]
  rfl

/-- The problem over a window of the stages is accepted as well. -/
theorem SetupEx.window (h : SetupEx colloc o um uo po m oc P) (hn : 0 < n) (ha : a + n ≤ o.nStages)
    (hu : uo' = uo ∨ uo' = uo.map UserOcp.noTerminal) :
    ∃ m' oc' P', SetupEx colloc (o.window a n) (um.window a n) uo' (po.window a n) m' oc' P' ∧
      m'.dims = m.dims := by
  have hc := h.ok
  unfold construct at hc
  simp only [bind_eq_ok] at hc
  obtain ⟨_, hi, po', ho, m0, hm, oc0, hoc, P0, hP, hh⟩ := hc
  cases hh
  have hcon := (C06_construct_iff hi ho hm hoc h.nS h.alpha h.exact).1 ⟨P, h.ok⟩
  have hN : po.nStages = o.nStages := by rw [h.toSetup.opts]
  have ho' := window_optsPre ho hn ha hcon.2.2.2.1
  obtain ⟨m', hm', hd⟩ := window_modelPre (a := a) (n := n) hi (fun hF => h.alpha (Option.isSome_iff_ne_none.2 hF)) hm (by omega)
  obtain ⟨oc', hoc'⟩ : ∃ oc', (uo'.getD UserOcp.trivial).preprocess m' = .ok oc' := by
    have := C72_accepts_iff.1 ⟨_, hoc⟩
    refine C72_accepts_iff.2 ?_
    rw [hd]
    rcases hu with rfl | rfl
    · exact this
    · cases uo <;> exact this
  obtain ⟨P', hP'⟩ := (C06_construct_iff (um := um.window a n) hi ho' hm' hoc' h.nS h.alpha h.exact).2 (by
    refine ⟨?_, hcon.2.1, hcon.2.2.1, fun k hk => ?_, hcon.2.2.2.2⟩
    · show n ≠ 0
      omega
    · have hk : k < n := hk
      rw [window_nfeAfter hn ha hcon.2.2.2.1, List.getElem?_take, if_pos hk, List.getElem?_drop]
      exact hcon.2.2.2.1 _ (by omega))
  refine ⟨m', oc', P', ⟨⟨hP', h.nS, h.alpha⟩, h.exact, fun r hr => ?_⟩, hd⟩
  rw [hd]
  rcases hu with rfl | rfl
  · exact h.sound r hr
  · refine h.sound r ?_
    cases uo <;> exact hr

/-- The values of time-varying parameters enter by the parameter vector only. -/
theorem window_um_iff {po : PreOpts} {d : Dims} {uo : UserOcp} :
    FeasibleSpec po d (um.window a n) uo env ↔ FeasibleSpec po d um uo env := by
  constructor
  · intro S
    exact ⟨fun s hs => by
        have := S.bounds s hs
        cases s with
        | st1 f k e j i => cases f <;> exact this
        | st2 f k e j s i => cases f <;> exact this
        | _ => exact this,
      S.alg, S.rk, S.lift, S.cont, S.boundary, S.pathEnd, S.pathStage, S.stageComp, S.ctrlComp, S.globComp,
      S.compStd, S.compAll, S.compSum, S.stepDirect, S.stepDirectComp, S.stepHComp, S.equi, S.time, S.freeze,
      S.term⟩
  · intro S
    exact ⟨fun s hs => by
        have := S.bounds s hs
        cases s with
        | st1 f k e j i => cases f <;> exact this
        | st2 f k e j s i => cases f <;> exact this
        | _ => exact this,
      S.alg, S.rk, S.lift, S.cont, S.boundary, S.pathEnd, S.pathStage, S.stageComp, S.ctrlComp, S.globComp,
      S.compStd, S.compAll, S.compSum, S.stepDirect, S.stepDirectComp, S.stepHComp, S.equi, S.time, S.freeze,
      S.term⟩

theorem getD_noTerminal : (uo.map UserOcp.noTerminal).getD UserOcp.trivial = (uo.getD UserOcp.trivial).noTerminal := by
  cases uo <;> rfl

theorem SetupEx.windowGlobals (h : SetupEx colloc o um uo po m oc P) (hg : SameGlobals o um env) (ha : a < o.nStages) :
    ∀ i < m.dims.nPgl, env (.pStage a (m.dims.nPtv + i)) = env (.pStage 0 (m.dims.nPtv + i)) := by
  obtain ⟨-, -, -, -, d5, d6, -⟩ := h.toSetup.dims
  rw [d5, d6]
  exact hg a ha

/-! ### C127 -/

/-- C127: the problem over `a + b` control stages of equal length is the composition of the problem over the first
`a` stages, without terminal cost and constraint, and the problem over the last `b` stages, started at the end of
stage `a - 1`: a point is feasible iff both parts are, and the objectives of the parts add up (an elastic variable is
shared, so its penalty is in both). -/
theorem C127_split (h : SetupEx colloc o um uo po m oc P) (hbm : o.mpcc ≠ .boolean) (ha : 0 < a) (hb : 0 < b)
    (hN : a + b = o.nStages) (hq : o.useFesd = true → o.equidistant = true) (ht : o.timeFreezing = false) :
    ∃ m1 oc1 P1 m2 oc2 P2,
      SetupEx colloc (o.window 0 a) (um.window 0 a) (uo.map UserOcp.noTerminal) (po.window 0 a) m1 oc1 P1 ∧
      SetupEx colloc (o.window a b) (um.window a b) uo (po.window a b) m2 oc2 P2 ∧
      ∀ env, SameGlobals o um env →
        (P.form.Feasible env ↔ P1.form.Feasible env ∧ P2.form.Feasible (windowEnv po a env)) ∧
        P.form.cost env + elasticPenalty o env = P1.form.cost env + P2.form.cost (windowEnv po a env) := by
  obtain ⟨m1, oc1, P1, h1, d1⟩ := h.window (a := 0) (n := a) (uo' := uo.map UserOcp.noTerminal) ha (by omega)
    (.inr rfl)
  obtain ⟨m2, oc2, P2, h2, d2⟩ := h.window (a := a) (n := b) (uo' := uo) hb (by omega) (.inl rfl)
  have eo := h.toSetup.opts
  have eN : po.nStages = o.nStages := by rw [eo]
  have eq' : po.useFesd = true → po.equidistant = true := by rw [eo]; exact hq
  have et : po.timeFreezing = false := by rw [eo]; exact ht
  refine ⟨m1, oc1, P1, m2, oc2, P2, h1, h2, fun env hg => ⟨?_, ?_⟩⟩
  · rw [h.iff hbm, h1.iff hbm, h2.iff hbm, d1, d2, window_um_iff, window_um_iff, getD_noTerminal]
    constructor
    · intro S
      refine ⟨?_, S.window hb (by omega) eq' et (h.windowGlobals hg (by omega)) (.inl (by omega))⟩
      have := S.dropTerminal.window (a := 0) (n := a) ha (by omega) eq' et (fun _ _ => rfl) (.inr rfl)
      rwa [windowEnv_zero] at this
    · rintro ⟨S1, S2⟩
      exact S1.join S2 ha hb (by omega) eq' et
  · rw [h.toSetup.built.cost h.exact', h1.toSetup.built.cost h1.exact', h2.toSetup.built.cost h2.exact',
      d1, d2, getD_noTerminal]
    have key := window_objective (po := po) (d := m.dims) (uo := uo.getD UserOcp.trivial) (env := env) ha hb
      (by omega)
    have em : po.mpcc = o.mpcc := by rw [eo]
    have es : po.objScalingDirect = o.objScalingDirect := by rw [eo]
    have e1 : ∀ a n, (po.window a n).mpcc = o.mpcc := fun _ _ => em
    have e2 : ∀ a n, (po.window a n).objScalingDirect = o.objScalingDirect := fun _ _ => es
    have e3 : windowEnv po a env .sigma = env .sigma := rfl
    have e4 : windowEnv po a env .sElastic = env .sElastic := rfl
    unfold objectiveSpec elasticPenalty
    rw [em, es, e1, e2, e1, e2, e3, e4, key]
    split
    · split <;> ring
    · ring

/-- C127: every part of a feasible point is feasible for the problem over that part of the horizon. -/
theorem C127_part (h : SetupEx colloc o um uo po m oc P) (hbm : o.mpcc ≠ .boolean) (hn : 0 < n)
    (ha : a + n ≤ o.nStages) (hq : o.useFesd = true → o.equidistant = true) (ht : o.timeFreezing = false) :
    ∃ m' oc' P',
      SetupEx colloc (o.window a n) (um.window a n) (uo.map UserOcp.noTerminal) (po.window a n) m' oc' P' ∧
      ∀ env, SameGlobals o um env → P.form.Feasible env → P'.form.Feasible (windowEnv po a env) := by
  obtain ⟨m1, oc1, P1, h1, d1⟩ := h.window (a := a) (n := n) (uo' := uo.map UserOcp.noTerminal) hn ha (.inr rfl)
  have eo := h.toSetup.opts
  have eN : po.nStages = o.nStages := by rw [eo]
  have eq' : po.useFesd = true → po.equidistant = true := by rw [eo]; exact hq
  have et : po.timeFreezing = false := by rw [eo]; exact ht
  refine ⟨m1, oc1, P1, h1, fun env hg hf => ?_⟩
  rw [h1.iff hbm, d1, window_um_iff, getD_noTerminal]
  exact ((h.iff hbm).1 hf).dropTerminal.window hn (by omega) eq' et (h.windowGlobals hg (by omega)) (.inr rfl)

theorem isPar_of_mem_p (h : Setup colloc o um uo po m oc P) {s : Sym} (hs : s ∈ P.p) : IsPar po m.dims s := by
  rw [p_eq h] at hs
  simp only [pHead, lam00Row, blk, List.mem_append, List.mem_flatMap, List.mem_map, List.mem_range,
    List.mem_cons, List.not_mem_nil, or_false] at hs
  rcases hs with (((⟨k, hk, i, hi, rfl⟩ | rfl | rfl)) | ((⟨s, h1, i, h2, rfl⟩ | ⟨s, h1, i, h2, rfl⟩) |
    ⟨s, h1, i, h2, rfl⟩)) | ⟨i, hi, rfl⟩
  · exact ⟨hk, hi⟩
  · exact trivial
  · exact trivial
  · exact ⟨.inl rfl, h1, h2⟩
  · exact ⟨.inr (.inl rfl), h1, h2⟩
  · exact ⟨.inr (.inr rfl), h1, h2⟩
  · exact hi

/-- Feasibility and objective depend on the values of the variables and parameters only. -/
theorem SetupEx.congr (h : SetupEx colloc o um uo po m oc P) {env' : Env}
    (hw : ∀ s ∈ P.form.w, env s = env' s) (hp : ∀ s ∈ P.p, env s = env' s) :
    (P.form.Feasible env → P.form.Feasible env') ∧ P.form.cost env = P.form.cost env' := by
  obtain ⟨hg, hc, -⟩ := h.toSetup.built.closed h.alpha h.sound hw hp
  refine ⟨fun hf => ⟨fun q hq => ?_, fun q hq => ?_⟩, hc⟩
  · rcases q with ⟨q1, q2⟩
    have := hf.1 _ hq
    rwa [hw q1 (List.of_mem_zip hq).1] at this
  · rcases q with ⟨q1, q2⟩
    have := hf.2 _ hq
    dsimp only at this ⊢
    rwa [hg q1 (List.of_mem_zip hq).1] at this

/-- C127, the principle of optimality: the tail of an optimal point is optimal for the problem over the tail of the
horizon, started where the first part ended, with the same values of the variables that belong to no control stage. -/
theorem C127_tail_optimal (h : SetupEx colloc o um uo po m oc P) (hbm : o.mpcc ≠ .boolean) (ha : 0 < a)
    (hb : 0 < b) (hN : a + b = o.nStages) (hq : o.useFesd = true → o.equidistant = true)
    (ht : o.timeFreezing = false) :
    ∃ m2 oc2 P2, SetupEx colloc (o.window a b) (um.window a b) uo (po.window a b) m2 oc2 P2 ∧
      ∀ env, SameGlobals o um env → P.Optimal Sym.IsShared env → P2.Optimal Sym.IsShared (windowEnv po a env) := by
  obtain ⟨m1, oc1, P1, m2, oc2, P2, h1, h2, key⟩ := C127_split h hbm ha hb hN hq ht
  refine ⟨m2, oc2, P2, h2, fun env hg ⟨hf, hopt⟩ => ?_⟩
  obtain ⟨hf1, hf2⟩ := (key env hg).1.1 hf
  refine ⟨hf2, fun tail hp hv hft => ?_⟩
  have eN : po.nStages = o.nStages := by rw [h.toSetup.opts]
  have dm2 : m2.dims = m.dims := by
    obtain ⟨m', oc', P', h', d'⟩ := h.window (a := a) (n := b) (uo' := uo) hb (by omega) (.inl rfl)
    have := h'.ok.symm.trans h2.ok
    simp only [Except.ok.injEq, Prod.mk.injEq, true_and] at this
    rw [← this.1]; exact d'
  have par : ∀ k i, k < b → i < m.dims.nPtv + m.dims.nPgl → tail (.pStage k i) = env (.pStage (k + a) i) := by
    intro k i hk hi
    have := hp (.pStage k i) (mem_p_of_isPar h2.toSetup.built ⟨hk, by rw [dm2]; exact hi⟩)
    exact this
  have sh : ∀ s : Sym, s.IsShared → tail s = env s := by
    intro s hs
    rw [hv s hs]
    cases s <;> first | rfl | exact absurd hs id
  -- the first part is not changed
  have stg : ∀ s ∈ P1.form.w, env s = joinEnv a env tail s := by
    intro s hs
    rcases (C04_variables h1.toSetup s).2 hs with hs | ⟨hs, -⟩
    · have hw := isVar_inWindow hs
      have hw : InWindow a s := hw
      cases s with
      | u => exact (if_pos hw).symm
      | sot => exact (if_pos hw).symm
      | h => exact (if_pos hw).symm
      | st1 => exact (if_pos hw).symm
      | st2 => exact (if_pos hw).symm
      | xEnd => exact (if_pos hw).symm
      | pStage => exact absurd hs id
      | _ => rfl
    · have : po.mpcc = .boolean := hs
      rw [h.toSetup.opts] at this
      exact absurd this hbm
  have p1 : ∀ s ∈ P1.p, env s = joinEnv a env tail s := by
    intro s hs
    have hs := isPar_of_mem_p h1.toSetup hs
    cases s with
    | pStage k i =>
      have hk : k < a := hs.1
      exact (if_pos hk).symm
    | sigma | tau | x0 | lam00 => rfl
    | _ => exact absurd hs id
  have hw2 : ∀ s ∈ P2.form.w, tail s = windowEnv po a (joinEnv a env tail) s := by
    intro s hs
    rcases (C04_variables h2.toSetup s).2 hs with hs | ⟨hs, -⟩
    · cases s with
      | u | sot | h | st1 | st2 | xEnd =>
        simp only [windowEnv, joinEnv]
        rw [if_neg (by omega), Nat.add_sub_cancel]
      | vGlob i => exact sh (.vGlob i) trivial
      | sElastic => exact sh .sElastic trivial
      | _ => exact absurd hs id
    · have : po.mpcc = .boolean := hs
      rw [h.toSetup.opts] at this
      exact absurd this hbm
  have hprev : prevFe po a 0 = some (a - 1, nfe po (a - 1) - 1) := by
    unfold prevFe
    rw [if_neg (by omega), if_pos ha]
  have hp2 : ∀ s ∈ P2.p, tail s = windowEnv po a (joinEnv a env tail) s := by
    intro s hs
    have hs' := isPar_of_mem_p h2.toSetup hs
    have hs0 := hp s hs
    cases s with
    | pStage k i =>
      simp only [windowEnv, joinEnv]
      rw [if_neg (by omega), Nat.add_sub_cancel]
    | sigma | tau => exact hs0
    | x0 i =>
      rw [hs0]
      simp only [windowEnv, startX, hprev, endX]
      split
      · exact (if_pos (by omega)).symm
      · exact (if_pos (by omega)).symm
    | lam00 f s i =>
      rw [hs0]
      simp only [windowEnv, hprev]
      exact (if_pos (by omega)).symm
    | _ => exact absurd hs' id
  obtain ⟨c1, c2⟩ := h1.congr stg p1
  obtain ⟨c3, c4⟩ := h2.congr hw2 hp2
  have hgj : SameGlobals o um (joinEnv a env tail) := by
    obtain ⟨-, -, -, -, d5, d6, -⟩ := h.toSetup.dims
    intro k hk i hi
    show (if k < a then _ else tail _) = if 0 < a then _ else _
    rw [if_pos ha]
    split
    · exact hg k hk i hi
    · rw [par (k - a) (um.nPtv + i) (by omega) (by omega), Nat.sub_add_cancel (by omega)]
      exact hg k hk i hi
  obtain ⟨k1, k2⟩ := key _ hgj
  have hpP : ∀ s ∈ P.p, joinEnv a env tail s = env s := by
    intro s hs
    have hs := isPar_of_mem_p h.toSetup hs
    cases s with
    | pStage k i =>
      show (if k < a then _ else tail _) = _
      split
      · rfl
      · have := hs.1
        rw [par (k - a) i (by omega) hs.2, Nat.sub_add_cancel (by omega)]
    | sigma | tau | x0 | lam00 => rfl
    | _ => exact absurd hs id
  have hle := hopt (joinEnv a env tail) hpP (fun s hs => by cases s <;> first | rfl | exact absurd hs id)
    (k1.2 ⟨c1 hf1, c3 hft⟩)
  have k3 := (key env hg).2
  have pe : elasticPenalty o (joinEnv a env tail) = elasticPenalty o env := rfl
  rw [pe] at k2
  rw [c2] at k3
  rw [c4]
  linarith

/-- C127: if no variable is shared by the control stages, the tail of an optimal point is optimal without
restriction. -/
theorem C127_tail_optimal_plain (h : SetupEx colloc o um uo po m oc P) (hbm : o.mpcc ≠ .boolean)
    (hel : o.mpcc ≠ .elasticIneq ∧ o.mpcc ≠ .elasticEq ∧ o.mpcc ≠ .elasticTwoSided) (hv : um.nV = 0)
    (ha : 0 < a) (hb : 0 < b) (hN : a + b = o.nStages) (hq : o.useFesd = true → o.equidistant = true)
    (ht : o.timeFreezing = false) :
    ∃ m2 oc2 P2, SetupEx colloc (o.window a b) (um.window a b) uo (po.window a b) m2 oc2 P2 ∧
      ∀ env, SameGlobals o um env → P.Optimal (fun _ => False) env →
        P2.Optimal (fun _ => False) (windowEnv po a env) := by
  obtain ⟨m2, oc2, P2, h2, key⟩ := C127_tail_optimal h hbm ha hb hN hq ht
  refine ⟨m2, oc2, P2, h2, fun env hg ⟨hf, hopt⟩ => ?_⟩
  obtain ⟨g1, g2⟩ := key env hg ⟨hf, fun env' hp _ => hopt env' hp fun _ hs => hs.elim⟩
  refine ⟨g1, fun tail hp _ hft => ?_⟩
  have hw : ∀ s ∈ P2.form.w, ¬ s.IsShared := by
    intro s hs hsh
    rcases (C04_variables h2.toSetup s).2 hs with hs | ⟨-, hs⟩
    · cases s with
      | vGlob i =>
        have : i < m2.dims.nV := hs
        obtain ⟨-, -, -, d4, -⟩ := h2.toSetup.dims
        rw [d4] at this
        have : i < um.nV := this
        omega
      | sElastic =>
        have : po.mpcc = .elasticIneq ∨ po.mpcc = .elasticEq ∨ po.mpcc = .elasticTwoSided := hs
        rw [h.toSetup.opts] at this
        rcases this with h' | h' | h'
        · exact hel.1 h'
        · exact hel.2.1 h'
        · exact hel.2.2 h'
      | _ => exact hsh
    · rcases hs with ⟨k, e, i, rfl⟩ | ⟨i, rfl⟩ <;> exact hsh
  classical
  have e1 : ∀ s ∈ P2.form.w, tail s = (fun s => if s.IsShared then windowEnv po a env s else tail s) s :=
    fun s hs => (if_neg (hw s hs)).symm
  have e2 : ∀ s ∈ P2.p, tail s = (fun s => if s.IsShared then windowEnv po a env s else tail s) s := by
    intro s hs
    have := isPar_of_mem_p h2.toSetup hs
    refine (if_neg fun hsh => ?_).symm
    cases s <;> first | exact hsh | exact this
  obtain ⟨c1, c2⟩ := h2.congr e1 e2
  rw [c2]
  refine g2 _ (fun s hs => ?_) (fun s hs => if_pos hs) (c1 hft)
  exact (e2 s hs).symm.trans (hp s hs)

/-- C127: at exact complementarity the multipliers with which the second part starts are the initial multipliers
that belong to the state where the first part ended (as for a new solver started at that state). -/
theorem C127_restart_multipliers (h : SetupEx colloc o um uo po m oc P) (D : ExactPoint o po m P env) (ha : 0 < a)
    (hN : a ≤ o.nStages) {q : Pair} (hq : IsPair po m.dims q) :
    lam00At (windowEnv po a env) q
      = um.lam00Val ((List.range um.nX).map fun i => windowEnv po a env (.x0 i))
          (zVal m.dims (a - 1) (nfe po (a - 1) - 1) (o.nS - 1) env) (pVal m.dims (a - 1) env) q := by
  have eN : po.nStages = o.nStages := by rw [h.toSetup.opts]
  have eS : po.nS = o.nS := h.e_nS
  have hn := h.nS
  obtain ⟨d1, -, -, -, -, -, d7, d8, d9⟩ := h.toSetup.dims
  have hpos : 0 < nfe po (a - 1) := h.toSetup.nfe_pos (a - 1) (by omega)
  have hk : HasFE po (a - 1) (nfe po (a - 1) - 1) := ⟨by omega, by omega⟩
  have hprev : prevFe po a 0 = some (a - 1, nfe po (a - 1) - 1) := by
    unfold prevFe
    rw [if_neg (by omega), if_pos ha]
  have hx : ((List.range um.nX).map fun i => windowEnv po a env (.x0 i))
      = xEndVal po m.dims (a - 1) (nfe po (a - 1) - 1) env := by
    unfold xEndVal
    rw [d1]
    refine List.map_congr_left fun i _ => ?_
    simp only [windowEnv, startX, hprev]
  have hlam : ∀ q, lam00At (windowEnv po a env) q
      = lamAt (a - 1) (nfe po (a - 1) - 1) (lastLam po (a - 1) (nfe po (a - 1) - 1)) env q := by
    intro q
    cases q <;> simp only [lam00At, lamAt, windowEnv, hprev]
  rw [hlam, hx]
  have hlast : nfe po (a - 1) - 1 + 1 = nfe po (a - 1) := by omega
  have sw := D.switching_end h hk
  have nn := fun q hq => D.last_nonneg (q := q) h hk hq
  have lz := fun q hq hθ => D.last (q := q) (j := o.nS - 1) h hk hq (by omega) (.inr (.inr hlast)) hθ
  generalize hjl : lastLam po (a - 1) (nfe po (a - 1) - 1) = jl at sw nn lz ⊢
  cases q with
  | region s i =>
    obtain ⟨hp, hs, hi⟩ := hq
    rw [d7] at hs
    have hF : m.dims.nF s = (um.Fmat s).nCols := d8 hp s hs
    rw [hF] at hi
    have pair : ∀ i < (um.Fmat s).nCols, IsPair po m.dims (.region s i) := fun i hi =>
      ⟨hp, by rw [d7]; exact hs, by rw [hF]; exact hi⟩
    unfold UserModel.Switching at sw
    rw [hp] at sw
    dsimp only at sw
    obtain ⟨i0, hi0, hθ⟩ : ∃ i0 < (um.Fmat s).nCols,
        env (.st2 .theta (a - 1) (nfe po (a - 1) - 1) (o.nS - 1) s i0) ≠ 0 := by
      by_contra hcon
      have := ((h.spec D.feas).alg _ _ hk (o.nS - 1) (by omega)).2.1 hp s hs
      rw [Finset.sum_eq_zero fun i hi => ?_] at this
      · exact zero_ne_one this
      · by_contra h0
        exact hcon ⟨i, Finset.mem_range.1 hi, h0⟩
    have hz : env (.st2 .lam (a - 1) (nfe po (a - 1) - 1) jl s i0) = 0 := lz _ (pair i0 hi0) hθ
    show env (.st2 .lam (a - 1) (nfe po (a - 1) - 1) jl s i) = um.gVal s i _ _ _ - ⨅ j : Fin (um.Fmat s).nCols, um.gVal s j _ _ _
    have hmin : (⨅ j : Fin (um.Fmat s).nCols, um.gVal s j (xEndVal po m.dims (a - 1) (nfe po (a - 1) - 1) env)
          (zVal m.dims (a - 1) (nfe po (a - 1) - 1) (o.nS - 1) env) (pVal m.dims (a - 1) env))
        = -env (.st2 .mu (a - 1) (nfe po (a - 1) - 1) jl s 0) := by
      have : Nonempty (Fin (um.Fmat s).nCols) := ⟨⟨i0, hi0⟩⟩
      apply le_antisymm
      · refine (ciInf_le (Set.finite_range _).bddBelow ⟨i0, hi0⟩).trans ?_
        rw [sw s hs i0 hi0, hz, zero_sub]
      · refine le_ciInf fun j => ?_
        rw [sw s hs j j.2]
        have : 0 ≤ env (.st2 .lam (a - 1) (nfe po (a - 1) - 1) jl s j) := nn _ (pair j j.2)
        linarith
    rw [hmin, sw s hs i hi]
    ring
  | neg s i =>
    obtain ⟨hp, hs, hi⟩ := hq
    have hs' := hs
    rw [d7] at hs
    have hC : m.dims.nC s = (um.cVec s).len := d9 hp s hs
    have hi' := hi
    rw [hC] at hi
    unfold UserModel.Switching at sw
    rw [hp] at sw
    dsimp only at sw
    have e := sw s hs i hi
    have n1 : 0 ≤ env (.st2 .lamN (a - 1) (nfe po (a - 1) - 1) jl s i) := nn (.neg s i) ⟨hp, hs', hi'⟩
    have n2 : 0 ≤ env (.st2 .lamP (a - 1) (nfe po (a - 1) - 1) jl s i) := nn (.pos s i) ⟨hp, hs', hi'⟩
    show env (.st2 .lamN (a - 1) (nfe po (a - 1) - 1) jl s i) = max (-(um.cVec s).entry i _ _ _) 0
    rw [e]
    by_cases hθ : env (.st2 .alpha (a - 1) (nfe po (a - 1) - 1) (o.nS - 1) s i) = 0
    · have z : env (.st2 .lamP (a - 1) (nfe po (a - 1) - 1) jl s i) = 0 :=
        lz (.pos s i) ⟨hp, hs', hi'⟩ (by simp [thetaAt, hθ])
      rw [z, zero_sub, neg_neg, max_eq_left n1]
    · have z : env (.st2 .lamN (a - 1) (nfe po (a - 1) - 1) jl s i) = 0 := lz (.neg s i) ⟨hp, hs', hi'⟩ hθ
      rw [z, sub_zero, max_eq_right (by linarith)]
  | pos s i =>
    obtain ⟨hp, hs, hi⟩ := hq
    have hs' := hs
    rw [d7] at hs
    have hC : m.dims.nC s = (um.cVec s).len := d9 hp s hs
    have hi' := hi
    rw [hC] at hi
    unfold UserModel.Switching at sw
    rw [hp] at sw
    dsimp only at sw
    have e := sw s hs i hi
    have n1 : 0 ≤ env (.st2 .lamN (a - 1) (nfe po (a - 1) - 1) jl s i) := nn (.neg s i) ⟨hp, hs', hi'⟩
    have n2 : 0 ≤ env (.st2 .lamP (a - 1) (nfe po (a - 1) - 1) jl s i) := nn (.pos s i) ⟨hp, hs', hi'⟩
    show env (.st2 .lamP (a - 1) (nfe po (a - 1) - 1) jl s i) = max ((um.cVec s).entry i _ _ _) 0
    rw [e]
    by_cases hθ : env (.st2 .alpha (a - 1) (nfe po (a - 1) - 1) (o.nS - 1) s i) = 0
    · have z : env (.st2 .lamP (a - 1) (nfe po (a - 1) - 1) jl s i) = 0 :=
        lz (.pos s i) ⟨hp, hs', hi'⟩ (by simp [thetaAt, hθ])
      rw [z, zero_sub, max_eq_right (by linarith)]
    · have z : env (.st2 .lamN (a - 1) (nfe po (a - 1) - 1) jl s i) = 0 := lz (.neg s i) ⟨hp, hs', hi'⟩ hθ
      rw [z, sub_zero, max_eq_left n2]

end
end Nosnoc
