import Verif.Model.StageFuns
import Verif.Proofs.Lam00
import Verif.Props.Dcs
import Verif.Props.Cross
import Verif.Witness.Const
import Verif.Witness.Slide
/-
C112: the function `std_compl_res_fun` of a preprocessed model.  C113: the function `mu00_stewart_fun`.
-/
namespace Nosnoc

section
variable {colloc : IrkScheme → Nat → List ℝ} {o : Opts} {um : UserModel} {uo : Option UserOcp}
  {po : PreOpts} {m : PreModel} {oc : PreOcp} {P : Problem} {env : Env}

/-- Multipliers `alpha` given by the user have the sizes of the switching functions. -/
def AlphaSizes (um : UserModel) : Prop :=
  ∀ a, um.alpha = some a → a = (List.range um.nSys).map fun s => (um.cVec s).len

/-- The values of all algebraic variables at stage `j` of element `(k, e)`, in the order of the model. -/
def stageZVals (o : PreOpts) (d : Dims) (k e j : Nat) (env : Env) : List ℝ := (zSyms o d k e j j).map env

theorem innerProd_blk (n : Nat) (f g : Nat → ℝ) :
    innerProd ((List.range n).map f) ((List.range n).map g) = ∑ i ∈ Finset.range n, f i * g i := by
  unfold innerProd
  rw [List.zipWith_map_left, List.zipWith_map_right, List.zipWith_self]
  rfl

/-- The sum of the absolute complementarity products of a stage, system by system: `Σ |λᵀθ|` in Stewart
mode, `Σ (λⁿ)ᵀα + (λᵖ)ᵀ(1 - α)` in Step mode. -/
noncomputable def stdResidual (o : PreOpts) (d : Dims) (um : UserModel) (k e j : Nat) (env : Env) : ℝ :=
  ∑ s ∈ Finset.range um.nSys, match o.pss with
    | .stewart => |∑ i ∈ Finset.range (d.nF s), lamAt k e j env (.region s i) * thetaAt k e j env (.region s i)|
    | .step => ∑ i ∈ Finset.range (d.nC s), (lamAt k e j env (.neg s i) * thetaAt k e j env (.neg s i)
        + lamAt k e j env (.pos s i) * thetaAt k e j env (.pos s i))

theorem foldl_range_add (n : Nat) (f : Nat → ℝ) :
    (List.range n).foldl (fun r i => r + f i) 0 = ∑ i ∈ Finset.range n, f i := by
  induction n with
  | zero => rfl
  | succ n ih => rw [List.range_succ, List.foldl_append, ih, Finset.sum_range_succ]; rfl

theorem alphaVars_sizes (h : Setup colloc o um uo po m oc P) (hp : po.pss = .step) (ha : AlphaSizes um) :
    um.alphaVars m.dims po.pss = m.dims.stageVars po.pss .alpha := by
  unfold UserModel.alphaVars
  cases hα : um.alpha with
  | none => rfl
  | some a =>
    obtain ⟨-, -, -, -, -, -, d7, -, d9⟩ := h.dims
    rw [ha a hα]
    unfold Dims.stageVars
    rw [d7, hp]
    apply List.ext_getElem
    · simp
    · intro i h1 h2
      have hi : i < um.nSys := by simpa using h2
      simp [Dims.famLen, d9 hp i hi]

/-- C112: called with the algebraic variables of a stage, `std_compl_res_fun` returns the sum of the
complementarity products of the stage. -/
theorem C112_value (h : Setup colloc o um uo po m oc P) (ha : o.pss = .step → AlphaSizes um) (k e j : Nat)
    {p : List ℝ} (hp : p.length = um.nPtv + um.nPgl) :
    (stdComplResFun um po m).num [stageZVals po m.dims k e j env, p]
      = .ok [stdResidual po m.dims um k e j env] := by
  obtain ⟨nC, nF, g, up, f0, acc, hpre⟩ := h.built.pre
  obtain ⟨-, -, -, -, d5, d6, d7, -, -⟩ := h.dims
  have hz := h.built.ok.z
  have hzl : m.zAll.length = (zSyms po m.dims k e j j).length := by rw [length_zSyms]; exact hz
  unfold CFun.num stdComplResFun
  rw [CFun.call_ok (by simp [stageZVals, hzl, hp, d5, d6, Dims.mP])]
  show Except.ok _ = Except.ok _
  congr 1
  unfold CFun.app
  rw [evalVec_map]
  generalize hE : rebind [m.zAll, m.dims.mP].flatten
    (([stageZVals po m.dims k e j env, p].map (List.map const)).flatten) (fun _ => 0) = env'
  have hb : ZBind um po m.dims k e j j env env' := by
    have hl : [m.zAll, m.dims.mP].map List.length
        = ([stageZVals po m.dims k e j env, p].map (List.map const)).map List.length := by
      simp [stageZVals, hzl, hp, d5, d6, Dims.mP]
    have hn : [m.zAll, m.dims.mP].flatten.Nodup :=
      nodup_kinds (ks := [1, 3]) (by decide)
        (.cons ⟨by rw [hpre.zAll]; exact nodup_zAll, by rw [hpre.zAll]; exact fun _ => kind_zAll⟩
          (.cons ⟨nodup_mP, fun _ => kind_mP⟩ .nil))
    have k0 := map_rebind_flatten (env := fun _ => 0) hl hn (i := 0) (by simp) (by simp)
    refine zBind (by rw [← hpre.zAll]; exact hz) ?_
    rw [← hpre.zAll, ← hE]
    refine k0.trans ?_
    simp [evalVec, const, Function.comp_def, stageZVals]
  simp only [List.map_cons, List.map_nil, List.cons.injEq, and_true]
  rw [foldl_range_add]
  unfold stdResidual
  refine Finset.sum_congr rfl fun s hs => ?_
  have hs : s < m.dims.nSys := by rw [d7]; exact Finset.mem_range.1 hs
  have hv : ∀ f, ((m.dims.stageVars po.pss f).getD s []).map env'
      = (List.range (m.dims.famLen po.pss f s)).map fun i => env' (.mAlg f s i) := by
    intro f
    simp [Dims.stageVars, hs, blk, Function.comp_def]
  unfold stdComplTerm
  cases hps : po.pss with
  | stewart =>
    simp only
    rw [← hps, hv, hv]
    have e1 : m.dims.famLen po.pss .lam s = m.dims.nF s := by rw [hps]; rfl
    have e2 : m.dims.famLen po.pss .theta s = m.dims.nF s := by rw [hps]; rfl
    rw [e1, e2, innerProd_blk]
    congr 1
    refine Finset.sum_congr rfl fun i hi => ?_
    have hi := Finset.mem_range.1 hi
    rw [hb.lam s hs i (by rw [e1]; exact hi), hb.theta s hs i (by rw [e2]; exact hi)]
    rfl
  | step =>
    have hal := alphaVars_sizes h hps (ha (h.e_pss.symm.trans hps))
    simp only
    rw [← hps, hal, hv, hv, hv]
    have e1 : m.dims.famLen po.pss .lamN s = m.dims.nC s := by rw [hps]; rfl
    have e2 : m.dims.famLen po.pss .lamP s = m.dims.nC s := by rw [hps]; rfl
    have e3 : m.dims.famLen po.pss .alpha s = m.dims.nC s := by rw [hps]; rfl
    rw [e1, e2, e3, List.map_map, innerProd_blk]
    have e4 : ((fun a => 1 - a) ∘ fun i => env' (.mAlg .alpha s i)) = fun i => 1 - env' (.mAlg .alpha s i) := rfl
    rw [e4, innerProd_blk, ← Finset.sum_add_distrib]
    refine Finset.sum_congr rfl fun i hi => ?_
    have hi := Finset.mem_range.1 hi
    have hα := hb.alpha
    rw [hal] at hα
    rw [hb.lamN s hs i (by rw [e1]; exact hi), hb.lamP s hs i (by rw [e2]; exact hi),
      row_match hα s hs i (by rw [e3]; exact hi)]
    rfl

/-- C112: in the modes that keep the multipliers nonnegative, at every point within the bounds, the value
returned for a stage is nonnegative, bounds every complementarity product of the stage, and is zero exactly
if complementarity holds at the stage. -/
theorem C112_certificate (h : Setup colloc o um uo po m oc P) (ha : o.pss = .step → AlphaSizes um)
    (hm : SignedMode o.mpcc) (hb : P.form.InBounds (P.form.w.map env))
    {k e : Nat} (hk : HasFE po k e) {j : Nat} (hj : j < o.nS) {p : List ℝ}
    (hp : p.length = um.nPtv + um.nPgl) :
    ∃ r, (stdComplResFun um po m).num [stageZVals po m.dims k e j env, p] = .ok [r] ∧ 0 ≤ r ∧
      (∀ q, IsPair po m.dims q → 0 ≤ lamAt k e j env q * thetaAt k e j env q ∧
        lamAt k e j env q * thetaAt k e j env q ≤ r) ∧
      (r = 0 ↔ ∀ q, IsPair po m.dims q → lamAt k e j env q * thetaAt k e j env q = 0) := by
  have e1 := h.e_nS
  have hm' : SignedMode po.mpcc := by rw [h.e_mpcc]; exact hm
  have hd : ∀ s, IsVar po m.dims s → _ := fun s hs => InBounds.doc h hb hs
  have t : ∀ q, IsPair po m.dims q → 0 ≤ lamAt k e j env q * thetaAt k e j env q := fun q hq =>
    mul_nonneg (lamAt_nonneg hm' hd hk (by unfold nLamPts; omega) hq) (thetaAt_nonneg hm' hd hk (e1 ▸ hj) hq)
  have d7 : m.dims.nSys = um.nSys := h.dims.2.2.2.2.2.2.1
  have hterm : ∀ s ∈ Finset.range um.nSys, 0 ≤ (match po.pss with
    | .stewart => |∑ i ∈ Finset.range (m.dims.nF s), lamAt k e j env (.region s i) * thetaAt k e j env (.region s i)|
    | .step => ∑ i ∈ Finset.range (m.dims.nC s), (lamAt k e j env (.neg s i) * thetaAt k e j env (.neg s i)
        + lamAt k e j env (.pos s i) * thetaAt k e j env (.pos s i))) := by
    intro s hs
    have hs : s < m.dims.nSys := by rw [d7]; exact Finset.mem_range.1 hs
    cases hps : po.pss with
    | stewart => exact abs_nonneg _
    | step =>
      refine Finset.sum_nonneg fun i hi => ?_
      have hi := Finset.mem_range.1 hi
      exact add_nonneg (t (.neg s i) ⟨hps, hs, hi⟩) (t (.pos s i) ⟨hps, hs, hi⟩)
  have hle : ∀ q, IsPair po m.dims q →
      lamAt k e j env q * thetaAt k e j env q ≤ stdResidual po m.dims um k e j env := by
    intro q hq
    unfold stdResidual
    cases q with
    | region s i =>
      obtain ⟨hps, hs, hi⟩ := hq
      refine le_trans ?_ (Finset.single_le_sum hterm (Finset.mem_range.2 (by rw [← d7]; exact hs)))
      rw [hps]
      refine le_trans ?_ (le_abs_self _)
      exact Finset.single_le_sum (f := fun i => lamAt k e j env (.region s i) * thetaAt k e j env (.region s i))
        (fun i hi => t (.region s i) ⟨hps, hs, Finset.mem_range.1 hi⟩) (Finset.mem_range.2 hi)
    | neg s i =>
      obtain ⟨hps, hs, hi⟩ := hq
      refine le_trans ?_ (Finset.single_le_sum hterm (Finset.mem_range.2 (by rw [← d7]; exact hs)))
      rw [hps]
      refine le_trans ?_ (Finset.single_le_sum (f := fun i => lamAt k e j env (.neg s i) * thetaAt k e j env (.neg s i)
        + lamAt k e j env (.pos s i) * thetaAt k e j env (.pos s i))
        (fun i hi => add_nonneg (t (.neg s i) ⟨hps, hs, Finset.mem_range.1 hi⟩)
          (t (.pos s i) ⟨hps, hs, Finset.mem_range.1 hi⟩)) (Finset.mem_range.2 hi))
      exact le_add_of_nonneg_right (t (.pos s i) ⟨hps, hs, hi⟩)
    | pos s i =>
      obtain ⟨hps, hs, hi⟩ := hq
      refine le_trans ?_ (Finset.single_le_sum hterm (Finset.mem_range.2 (by rw [← d7]; exact hs)))
      rw [hps]
      refine le_trans ?_ (Finset.single_le_sum (f := fun i => lamAt k e j env (.neg s i) * thetaAt k e j env (.neg s i)
        + lamAt k e j env (.pos s i) * thetaAt k e j env (.pos s i))
        (fun i hi => add_nonneg (t (.neg s i) ⟨hps, hs, Finset.mem_range.1 hi⟩)
          (t (.pos s i) ⟨hps, hs, Finset.mem_range.1 hi⟩)) (Finset.mem_range.2 hi))
      exact le_add_of_nonneg_left (t (.neg s i) ⟨hps, hs, hi⟩)
  refine ⟨_, C112_value h ha k e j hp, Finset.sum_nonneg hterm, fun q hq => ⟨t q hq, hle q hq⟩,
    fun h0 q hq => le_antisymm (h0 ▸ hle q hq) (t q hq), fun h0 => ?_⟩
  unfold stdResidual
  refine Finset.sum_eq_zero fun s hs => ?_
  have hs : s < m.dims.nSys := by rw [d7]; exact Finset.mem_range.1 hs
  cases hps : po.pss with
  | stewart =>
    rw [abs_eq_zero]
    exact Finset.sum_eq_zero fun i hi => h0 (.region s i) ⟨hps, hs, Finset.mem_range.1 hi⟩
  | step =>
    refine Finset.sum_eq_zero fun i hi => ?_
    have hi := Finset.mem_range.1 hi
    rw [h0 (.neg s i) ⟨hps, hs, hi⟩, h0 (.pos s i) ⟨hps, hs, hi⟩, add_zero]

/-! ### C113 -/

/-- The value of `mu00_stewart_fun`: per system the smallest indicator function. -/
theorem mu00_num (h : Setup colloc o um uo po m oc P) (hps : po.pss = .stewart) {x z p : List ℝ}
    (hx : x.length = um.nX) (hz : z.length = um.nZ) (hp : p.length = um.nPtv + um.nPgl)
    (hF : ∀ s < um.nSys, (um.Fmat s).nCols ≠ 0) :
    (mu00StewartFun um m).num [x, z, p]
      = .ok ((List.range um.nSys).map fun s => ⨅ j : Fin (um.Fmat s).nCols, um.gVal s j x z p) := by
  obtain ⟨nC, nF, g, up, f0, acc, hpre⟩ := h.built.pre
  obtain ⟨d1, -, d3, -, d5, d6, d7, d8, d9⟩ := h.dims
  unfold CFun.num mu00StewartFun
  rw [CFun.call_ok (by simp [hx, hz, hp, d1, d3, d5, d6, Dims.mX, Dims.mZ, Dims.mP])]
  show Except.ok _ = Except.ok _
  congr 1
  obtain ⟨b1, b2, b3⟩ := bind3 (d := m.dims) (x := x) (z := z) (p := p) (by rw [d1]; exact hx)
    (by rw [d3]; exact hz) (by rw [d5, d6]; exact hp) (fun _ => 0)
  unfold CFun.app
  rw [evalVec_map]
  generalize henv : rebind [m.dims.mX, m.dims.mZ, m.dims.mP].flatten
    (([x, z, p].map (List.map const)).flatten) (fun _ => 0) = env at b1 b2 b3
  beta_reduce
  simp only [henv]
  obtain ⟨hsys, hacc⟩ := hpre.stewartAcc hps
  rw [hpre.gList, List.map_map]
  refine List.map_congr_left fun s hs => ?_
  have hs := List.mem_range.1 hs
  have hg := hsys s hs
  have hlen : (g.getD s []).length = (um.Fmat s).nCols := by rw [hg.gLen, d8 hps s hs]
  have hev : evalVec (g.getD s []) env
      = (List.range (um.Fmat s).nCols).map fun i => um.gVal s i x z p := by
    have key : ∀ i < (g.getD s []).length, at' (g.getD s []) i env = um.gVal s i x z p := by
      intro i hi
      have := gStewart_at hpre hps hs hg (i := i) (by rw [← hg.gLen]; exact hi) env
      rw [b1, b2, b3] at this
      exact this
    revert hlen key
    generalize g.getD s [] = gv
    intro hlen key
    unfold evalVec
    apply List.ext_getElem
    · rw [List.length_map, hlen, List.length_map, List.length_range]
    · intro i h1 h2
      have hi : i < gv.length := by simpa using h1
      rw [List.getElem_map, List.getElem_map, List.getElem_range, ← key i hi, at',
        List.getD_eq_getElem?_getD, List.getElem?_eq_getElem hi]
      rfl
  show mmin (evalVec (g.getD s []) env) = _
  rw [hev, mmin_eq_iInf _ (Nat.pos_of_ne_zero (hF s hs))]

/-- C113: the multipliers that `lambda00_fun` returns satisfy the switching equations `g = λ - μ` together
with the *negative* of what `mu00_stewart_fun` returns, and with no other value.

Partial: the property says that they satisfy them together with what `mu00_stewart_fun` returns. -/
theorem C113_negative_partial (h : Setup colloc o um uo po m oc P) (hps : o.pss = .stewart) {x z p : List ℝ}
    (hx : x.length = um.nX) (hz : z.length = um.nZ) (hp : p.length = um.nPtv + um.nPgl)
    (hF : ∀ s < um.nSys, (um.Fmat s).nCols ≠ 0) :
    ∃ lam mu : List ℝ, m.lambda00Fun.num [x, z, p] = .ok lam ∧ (mu00StewartFun um m).num [x, z, p] = .ok mu ∧
      mu.length = um.nSys ∧
      lam = (List.range um.nSys).flatMap (fun s => (List.range (um.Fmat s).nCols).map (um.lam00St x z p s)) ∧
      ∀ s < um.nSys, ∀ ν : ℝ, (∀ i < (um.Fmat s).nCols, um.gVal s i x z p = um.lam00St x z p s i - ν) ↔
        ν = - mu.getD s 0 := by
  have hps' : po.pss = .stewart := h.e_pss.trans hps
  refine ⟨_, _, lambda00_num h hx hz hp, mu00_num h hps' hx hz hp hF, by simp, by
    rw [hps']; rfl, fun s hs ν => ?_⟩
  have e : ((List.range um.nSys).map fun s => ⨅ j : Fin (um.Fmat s).nCols, um.gVal s j x z p).getD s 0
      = ⨅ j : Fin (um.Fmat s).nCols, um.gVal s j x z p := by
    rw [List.getD_eq_getElem?_getD, List.getElem?_map, List.getElem?_range hs]
    rfl
  rw [e]
  unfold UserModel.lam00St
  constructor
  · intro H
    have := H 0 (Nat.pos_of_ne_zero (hF s hs))
    linarith
  · rintro rfl i hi
    ring

/-- The property fails: `ẋ = 0` for `c > 0`, `ẋ = 1` for `c < 0` with `c = 1`.  The indicator functions are
`-1, 1`, the multipliers `0, 2`, so `μ = 1`; `mu00_stewart_fun` returns `-1`. -/
theorem C113_sign_violated : ∃ (po : PreOpts) (m : PreModel) (oc : PreOcp) (P : Problem),
    Setup oneColloc (constOpts .stewart) (constModel signMat fun _ => 1) (some UserOcp.trivial) po m oc P ∧
    m.lambda00Fun.num [[0], [], []] = .ok [0, 2] ∧
    (mu00StewartFun (constModel signMat fun _ => 1) m).num [[0], [], []] = .ok [-1] ∧
    (constModel signMat fun _ => 1).gVal 0 0 [0] [] [] = -1 ∧
    (constModel signMat fun _ => 1).gVal 0 1 [0] [] [] = 1 ∧ ¬ (-1 : ℝ) = 0 - (-1) := by
  obtain ⟨po, m, oc, P, h, -⟩ := const_setup (S := signMat) (c := fun _ => 1) (pss := .stewart) (fesd := false)
    (pol := false) (by simp [signMat])
  have hps' : po.pss = .stewart := h.e_pss
  have g0 : (constModel signMat fun _ => 1).gVal 0 0 [0] [] [] = -1 := by
    simp [UserModel.gVal, UserModel.gStewartTruthy, UserModel.Smat, UserModel.cVec, constModel, signMat]
  have g1 : (constModel signMat fun _ => 1).gVal 0 1 [0] [] [] = 1 := by
    simp [UserModel.gVal, UserModel.gStewartTruthy, UserModel.Smat, UserModel.cVec, constModel, signMat]
  have hinf : (⨅ j : Fin ((constModel signMat fun _ => 1).Fmat 0).nCols,
      (constModel signMat fun _ => 1).gVal 0 j [0] [] []) = -1 := by
    show (⨅ j : Fin 2, (constModel signMat fun _ => 1).gVal 0 j [0] [] []) = -1
    rw [← mmin_eq_iInf (n := 2) (fun j => (constModel signMat fun _ => 1).gVal 0 j [0] [] []) (by norm_num)]
    show mmin [(constModel signMat fun _ => 1).gVal 0 0 [0] [] [], (constModel signMat fun _ => 1).gVal 0 1 [0] [] []] = -1
    rw [g0, g1]
    norm_num [mmin]
  refine ⟨po, m, oc, P, h.toSetup, ?_, ?_, g0, g1, by norm_num⟩
  · rw [lambda00_num h.toSetup rfl rfl rfl, hps']
    show Except.ok [_, _] = _
    unfold UserModel.lam00St
    rw [hinf, g0, g1]
    norm_num
  · rw [mu00_num h.toSetup hps' rfl rfl rfl (by
      intro s hs
      rw [const_sys hs]
      simp [constModel, UserModel.Fmat, signMat])]
    show Except.ok [⨅ j : Fin ((constModel signMat fun _ => 1).Fmat 0).nCols,
      (constModel signMat fun _ => 1).gVal 0 j [0] [] []] = _
    rw [hinf]

/-! ### The hypotheses are met -/

/-- Both representations of the constant problem, at a feasible point. -/
example (pss : PssMode) : ∃ po m oc P env, Setup oneColloc (constOpts pss) (constModel signMat fun _ => 1)
      (some UserOcp.trivial) po m oc P ∧ SignedMode (constOpts pss).mpcc ∧
    AlphaSizes (constModel signMat fun _ => 1) ∧
    P.form.InBounds (P.form.w.map env) ∧ HasFE po 0 0 ∧
    ([] : List ℝ).length = (constModel signMat fun _ => 1).nPtv + (constModel signMat fun _ => 1).nPgl := by
  obtain ⟨po, m, oc, P, h, hrbe, hA⟩ := const_setup (S := signMat) (c := fun _ => 1) (pss := pss) (fesd := false)
    (pol := false) (by simp [signMat])
  refine ⟨po, m, oc, P, constEnv pss signMat (fun _ => 1) 0, h.toSetup, ?_, ?_, ?_, const_hasFE h, rfl⟩
  · simp [constOpts, Opts.default, SignedMode]
  · simp [AlphaSizes, constModel]
  · exact (const_feasible h hrbe hA (r := 0) (by simp [signMat]) (by
      intro i hi
      have : i = 0 ∨ i = 1 := by simp [signMat] at hi; omega
      rcases this with rfl | rfl <;> norm_num [constG, signMat])).inBounds

end
end Nosnoc
