import Verif.Props.Window
import Verif.Proofs.Chain
/-
C128: a simulation solves the problem over the whole simulated time.
-/
namespace Nosnoc

section
variable {colloc : IrkScheme → Nat → List ℝ} {o : Opts} {um : UserModel} {uo : Option UserOcp}
  {po : PreOpts} {m : PreModel} {oc : PreOcp} {P : Problem} {env : Env} {N : Nat}

theorem repeated_nfeAfter (hN : 0 < N) : (o.repeated N).nfeAfter = List.replicate N (o.nfeAfter.headD 0) := by
  conv_lhs => unfold Opts.nfeAfter
  show (if (List.replicate N (o.nfeAfter.headD 0)).length = 0 then _ else List.replicate N (o.nfeAfter.headD 0)) = _
  rw [if_neg (by rw [List.length_replicate]; omega)]

theorem repeated_optsPre (ho : o.preprocess colloc = .ok po) (hN : 0 < N) :
    (o.repeated N).preprocess colloc = .ok (po.repeated N) := by
  have e := repeated_nfeAfter (o := o) hN
  unfold Opts.preprocess at ho ⊢
  rw [bind_eq_ok] at ho
  obtain ⟨mi, hmi, ho⟩ := ho
  rw [show (o.repeated N).maxIter = o.maxIter from rfl, hmi, e]
  simp only [ok_bind]
  have er : (o.repeated N).irkRep = o.irkRep := rfl
  have es : (o.repeated N).scheme = o.scheme := rfl
  have en : (o.repeated N).nS = o.nS := rfl
  rw [er, es, en]
  cases hr : o.irkRep
  · simp only [hr, ok_bind] at ho ⊢
    cases hl : (generateButcherIntegral (colloc o.scheme o.nS)).tau.getLast? with
    | none => rw [hl] at ho; cases ho
    | some t => rw [hl] at ho; cases ho; rfl
  all_goals
    simp only [hr, bind_eq_ok] at ho
    obtain ⟨t, ht, _, h1, ho⟩ := ho
    injection h1 with h1
    subst h1
    rw [ht]
    simp only [ok_bind] at ho ⊢
    cases hl : (t.c.map (fun q : ℚ => (q : ℝ))).getLast? with
    | none => rw [hl] at ho; cases ho
    | some c => rw [hl] at ho; cases ho; rfl

theorem repeated_modelPre (hi : um.initCheck = .ok ()) (hal : um.F ≠ none → um.alpha = none)
    (hm : um.preprocess po = .ok m) (h1 : po.nStages = 1) :
    ∃ m', (um.repeated N).preprocess (po.repeated N) = .ok m' ∧ m'.dims = m.dims := by
  obtain ⟨m', hm'⟩ : ∃ m', (um.repeated N).preprocess (po.repeated N) = .ok m' := by
    refine (C70_preprocess_iff (um := um.repeated N) hi hal).2 ?_
    obtain ⟨hc, hk⟩ := (C70_preprocess_iff hi hal).1 ⟨m, hm⟩
    refine ⟨⟨hc.z0, hc.lbz, hc.ubz, hc.pGlobal, ?_, hc.time⟩, ?_⟩
    · intro V hV
      cases hp : um.pTimeVarVal with
      | none =>
        have : (none : Option (List (List ℝ))) = some V := by simpa [UserModel.repeated, hp] using hV
        cases this
      | some V0 =>
        have : (List.replicate N V0).flatten = V := by simpa [UserModel.repeated, hp] using hV
        subst this
        obtain ⟨h2, h3⟩ := hc.pTimeVar V0 hp
        refine ⟨?_, fun r hr => ?_⟩
        · show _ = N
          rw [List.length_flatten, List.map_replicate, List.sum_replicate, h2, h1]
          simp
        · obtain ⟨l, hl, hr⟩ := List.mem_flatten.1 hr
          rw [List.eq_of_mem_replicate hl] at hr
          exact h3 r hr
    · rcases hk with ⟨Fs, cs, Ss, H⟩ | ⟨Fs, gs, H⟩ | ⟨f, cs, al, H⟩
      · exact .inl ⟨Fs, cs, Ss, ⟨H.F, H.c, H.S, H.g, H.switching, H.lenCS, H.lenFC, H.rows, H.cols, H.used,
          H.equal⟩⟩
      · exact .inr (.inl ⟨Fs, gs, ⟨H.F, H.g, H.nonempty, H.cS, H.stewart, H.switching, H.len, H.cols⟩⟩)
      · exact .inr (.inr ⟨f, cs, al, ⟨H.F, H.fx, H.c, H.alpha, H.step, H.total, H.lenA, H.lenC, H.first,
          H.noG⟩⟩)
  refine ⟨m', hm', ?_⟩
  obtain ⟨nC, nF, _, _, _, _, H⟩ := preprocess_pre hm
  obtain ⟨nC', nF', _, _, _, _, H'⟩ := preprocess_pre hm'
  have e1 : nC' = nC := by
    have h1 : um.nCsys = .ok nC' := H'.hnC
    rw [H.hnC] at h1
    exact (Except.ok.inj h1).symm
  have e2 : nF' = nF := by
    have h1 : um.nFsys po.pss = .ok nF' := H'.hnF
    rw [H.hnF] at h1
    exact (Except.ok.inj h1).symm
  rw [H.dims, H'.dims, e1, e2]
  rfl

/-- The problem over `N` stages is accepted as well. -/
theorem SetupEx.repeated (h : SetupEx colloc o um uo po m oc P) (h1 : o.nStages = 1) (hN : 0 < N) :
    ∃ m' oc' P', SetupEx colloc (o.repeated N) (um.repeated N) uo (po.repeated N) m' oc' P' ∧
      m'.dims = m.dims := by
  have hc := h.ok
  unfold construct at hc
  simp only [bind_eq_ok] at hc
  obtain ⟨_, hi, po', ho, m0, hm, oc0, hoc, P0, hP, hh⟩ := hc
  cases hh
  have hcon := (C06_construct_iff hi ho hm hoc h.nS h.alpha h.exact).1 ⟨P, h.ok⟩
  have hNs : po.nStages = o.nStages := by rw [h.toSetup.opts]
  have ho' := repeated_optsPre ho hN
  obtain ⟨m', hm', hd⟩ := repeated_modelPre (N := N) hi (fun hF => h.alpha (Option.isSome_iff_ne_none.2 hF)) hm
    (by omega)
  obtain ⟨oc', hoc'⟩ : ∃ oc', (uo.getD UserOcp.trivial).preprocess m' = .ok oc' := by
    have := C72_accepts_iff.1 ⟨_, hoc⟩
    refine C72_accepts_iff.2 ?_
    rw [hd]
    exact this
  obtain ⟨P', hP'⟩ := (C06_construct_iff (um := um.repeated N) hi ho' hm' hoc' h.nS h.alpha h.exact).2 (by
    refine ⟨?_, hcon.2.1, hcon.2.2.1, fun k hk => ?_, hcon.2.2.2.2⟩
    · show N ≠ 0
      omega
    · have hk : k < N := hk
      rw [repeated_nfeAfter hN, List.getElem?_replicate, if_pos hk]
      obtain ⟨l, hl, hl0⟩ := hcon.2.2.2.1 0 (by omega)
      refine ⟨_, rfl, ?_⟩
      cases hx : o.nfeAfter with
      | nil => rw [hx] at hl; cases hl
      | cons y ys => rw [hx] at hl; cases hl; exact hl0)
  refine ⟨m', oc', P', ⟨⟨hP', h.nS, h.alpha⟩, h.exact, fun r hr => ?_⟩, hd⟩
  rw [hd]
  exact h.sound r hr

theorem repeated_um_iff {po : PreOpts} {d : Dims} {uo : UserOcp} :
    FeasibleSpec po d (um.repeated N) uo env ↔ FeasibleSpec po d um uo env := by
  constructor <;> intro S
  all_goals
    exact ⟨fun s hs => by
        have := S.bounds s hs
        cases s with
        | st1 f k e j i => cases f <;> exact this
        | st2 f k e j s i => cases f <;> exact this
        | _ => exact this,
      S.alg, S.rk, S.lift, S.cont, S.boundary, S.pathEnd, S.pathStage, S.stageComp, S.ctrlComp, S.globComp,
      S.compStd, S.compAll, S.compSum, S.stepDirect, S.stepDirectComp, S.stepHComp, S.equi, S.time, S.freeze,
      S.term⟩

/-- Without terminal constraints, nothing is dropped. -/
theorem FeasibleSpec.addTerminal {po : PreOpts} {d : Dims} {uo : UserOcp} (h0 : uo.nGTerminal = 0)
    (S : FeasibleSpec po d um uo.noTerminal env) : FeasibleSpec po d um uo env :=
  ⟨fun s hs => by
      have := S.bounds s hs
      cases s with
      | st1 f k e j i => cases f <;> exact this
      | st2 f k e j s i => cases f <;> exact this
      | _ => exact this,
    S.alg, S.rk, S.lift, S.cont, S.boundary, S.pathEnd, S.pathStage, S.stageComp, S.ctrlComp, S.globComp,
    S.compStd, S.compAll, S.compSum, S.stepDirect, S.stepDirectComp, S.stepHComp, S.equi, S.time, S.freeze,
    fun i hi => absurd hi (by omega)⟩

theorem repeated_prevFe {po : PreOpts} (hl : po.nfeList.length = 1) {k : Nat} (hk : k < N) :
    prevFe (po.repeated N) (k + 1) 0 = some (k, nfe po 0 - 1) := by
  unfold prevFe
  rw [if_neg (by omega), if_pos (by omega), Nat.add_sub_cancel, repeated_nfe hk hl]

theorem repeated_lastLam {po : PreOpts} (hl : po.nfeList.length = 1) {k e : Nat} (hk : k < N) :
    lastLam (po.repeated N) k e = lastLam po 0 e := by
  unfold lastLam extraPt
  rw [repeated_nfe hk hl]
  rfl

/-- C128: points of the problem with one control stage that follow each other make a point of the problem with `N`
such stages, and the stages of a point of the problem with `N` stages are points of the problem with one stage. -/
theorem C128_chain (h : SetupEx colloc o um uo po m oc P) (h1 : o.nStages = 1) (hL : o.nfeAfter.length = 1)
    (hbm : o.mpcc ≠ .boolean) (hq : o.useFesd = true → o.equidistant = true) (ht : o.timeFreezing = false)
    (h0 : (uo.getD UserOcp.trivial).nGTerminal = 0) (hN : 0 < N) :
    ∃ m' oc' P', SetupEx colloc (o.repeated N) (um.repeated N) uo (po.repeated N) m' oc' P' ∧ m'.dims = m.dims ∧
      (∀ E : Nat → Env, (∀ k < N, P.form.Feasible (E k)) → Linked po m.dims N E →
        LinkedMultipliers po m.dims N E → P'.form.Feasible (chainEnv E)) ∧
      ∀ env, (∀ k < N, ∀ i < um.nPtv + um.nPgl, env (.pStage k i) = env (.pStage 0 i)) → P'.form.Feasible env →
        (∀ k < N, P.form.Feasible (windowEnv (po.repeated N) k env)) ∧
        (Linked po m.dims N fun k => windowEnv (po.repeated N) k env) ∧
        LinkedMultipliers po m.dims N fun k => windowEnv (po.repeated N) k env := by
  obtain ⟨m', oc', P', h', hd⟩ := h.repeated h1 hN
  have eo := h.toSetup.opts
  have eN : po.nStages = 1 := by rw [eo]; exact h1
  have eq' : po.useFesd = true → po.equidistant = true := by rw [eo]; exact hq
  have et : po.timeFreezing = false := by rw [eo]; exact ht
  have hl : po.nfeList.length = 1 := by rw [eo]; exact hL
  have hw : ∀ k < N, (po.repeated N).window k 1 = po := fun k hk => by
    rw [repeated_window hN (by omega), repeated_one eN hl]
  have dd := h.toSetup.dims
  refine ⟨m', oc', P', h', hd, fun E hE K hM => ?_, fun env hg hf => ⟨fun k hk => ?_, ?_, ?_⟩⟩
  · rw [h'.iff hbm, hd, repeated_um_iff]
    refine FeasibleSpec.addTerminal h0 (FeasibleSpec.stages hN (by simp [PreOpts.repeated]) eq' et fun k hk => ?_)
    have hk : k < N := hk
    rw [hw k hk]
    refine ((h.iff hbm).1 ?_).dropTerminal
    refine (h.congr (env := E k) (fun s hs => ?_) (fun s hs => ?_)).1 (hE k hk)
    · rcases (C04_variables h.toSetup s).2 hs with hs | ⟨hs, -⟩
      · have hin := isVar_inWindow hs
        rw [eN] at hin
        cases s with
        | u k' | sot k' | h k' | st1 _ k' | st2 _ k' | xEnd k' =>
          obtain rfl : k' = 0 := Nat.lt_one_iff.1 hin
          simp only [windowEnv, chainEnv, Nat.zero_add]
        | vGlob i => exact K.shared k hk (.vGlob i) trivial hs
        | sElastic => exact K.shared k hk .sElastic trivial hs
        | _ => exact absurd hs id
      · have : po.mpcc = .boolean := hs
        rw [eo] at this
        exact absurd this hbm
    · have hs := isPar_of_mem_p h.toSetup hs
      cases s with
      | pStage k' i =>
        have hin := hs.1
        rw [eN] at hin
        obtain rfl : k' = 0 := Nat.lt_one_iff.1 hin
        simp only [windowEnv, chainEnv, Nat.zero_add]
      | sigma => exact K.sigma k hk
      | tau => exact K.tau k hk
      | x0 i =>
        cases k with
        | zero => simp only [windowEnv, startX, prevFe, lt_irrefl, if_false, chainEnv]
        | succ k =>
          rw [K.state k hk i hs]
          simp only [windowEnv, startX, repeated_prevFe hl (show k < N by omega)]
          unfold endX
          show E k _ = chainEnv E (if ownEnd po then _ else _)
          split <;> rfl
      | lam00 f s i =>
        cases k with
        | zero => simp only [windowEnv, prevFe, lt_irrefl, if_false, chainEnv]
        | succ k =>
          simp only [windowEnv, repeated_prevFe hl (show k < N by omega), chainEnv,
            repeated_lastLam hl (show k < N by omega)]
          obtain ⟨hf, hs1, hs2⟩ := hs
          cases hp : po.pss with
          | stewart =>
            rw [hp] at hs2
            rcases hf with rfl | rfl | rfl
            · exact hM k hk (.region s i) ⟨hp, hs1, hs2⟩
            · exact absurd hs2 (Nat.not_lt_zero _)
            · exact absurd hs2 (Nat.not_lt_zero _)
          | step =>
            rw [hp] at hs2
            rcases hf with rfl | rfl | rfl
            · exact absurd hs2 (Nat.not_lt_zero _)
            · exact hM k hk (.neg s i) ⟨hp, hs1, hs2⟩
            · exact hM k hk (.pos s i) ⟨hp, hs1, hs2⟩
      | _ => exact absurd hs id
  · rw [h.iff hbm]
    have S := (h'.iff hbm).1 hf
    rw [hd, repeated_um_iff] at S
    have hkN : k + 1 ≤ (po.repeated N).nStages := by show k + 1 ≤ N; omega
    have := S.dropTerminal.window (a := k) (n := 1) Nat.one_pos hkN eq' et
      (fun i hi => hg k hk _ (by rw [dd.2.2.2.2.1, dd.2.2.2.2.2.1] at *; omega)) (.inr rfl)
    rw [hw k hk] at this
    exact this.addTerminal h0
  · have d5 := dd.2.2.2.2.1
    have d6 := dd.2.2.2.2.2.1
    refine ⟨fun k hk i _ => ?_, fun k _ => rfl, fun k _ => rfl, fun k _ s hs _ => ?_, fun k hk i hi => ?_⟩
    · simp only [windowEnv, startX, repeated_prevFe hl (show k < N by omega)]
      unfold endX
      show env (if ownEnd po then _ else _) = _
      split <;> simp only [windowEnv, Nat.zero_add] <;> rfl
    · cases s <;> first | rfl | exact absurd hs id
    · show env (.pStage (0 + k) i) = env (.pStage (0 + 0) i)
      rw [Nat.zero_add]
      exact hg k hk i (by omega)
  · intro k hk q _
    cases q <;> simp only [lam00At, lamAt, windowEnv, repeated_prevFe hl (show k < N by omega),
      repeated_lastLam hl (show k < N by omega), Nat.zero_add]

end
end Nosnoc
