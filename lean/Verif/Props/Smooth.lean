import Verif.Proofs.Smooth
import Verif.Proofs.Cross
import Verif.Props.Solve
import Verif.Props.Dcs
/-
C27: the smoothed multipliers that RK4_SMOOTHENED uses to initialise.
-/
namespace Nosnoc

/-- The switching functions do not depend on the algebraic variables. -/
def UserModel.SwitchNoZ (um : UserModel) : Prop :=
  ∀ s j x z z' p, (um.cVec s).entry j x z p = (um.cVec s).entry j x z' p

/-- Switching functions and right-hand sides depend on the state only. -/
def UserModel.StateOnly (um : UserModel) : Prop :=
  (∀ s j x z z' p p', (um.cVec s).entry j x z p = (um.cVec s).entry j x z' p') ∧
  ∀ s row col x z z' u u' p p' v v',
    (um.Fmat s).entry row col x z u p v = (um.Fmat s).entry row col x z' u' p' v'

/-- The smoothed step of switching function `j` of system `s`. -/
noncomputable def UserModel.smoothAlpha (um : UserModel) (sm : ℝ) (x z p : List ℝ) (s j : Nat) : ℝ :=
  (Real.tanh ((um.cVec s).entry j x z p / sm) + 1) / 2

section
variable {colloc : IrkScheme → Nat → List ℝ} {o : Opts} {um : UserModel} {uo : Option UserOcp}
  {po : PreOpts} {m : PreModel} {oc : PreOcp} {P : Problem} {S : Solver} {sf : SmoothFuns}

theorem Setup.nC_len (h : Setup colloc o um uo po m oc P) (hg : um.gStewartTruthy = false) {s : Nat}
    (hs : s < um.nSys) : m.dims.nC s = (um.cVec s).len := by
  obtain ⟨nC, nF, g, up, f0, acc, hpre⟩ := h.built.pre
  have h1 := hpre.hnC
  unfold UserModel.nCsys at h1
  rw [hg] at h1
  simp only [Bool.false_eq_true, if_false] at h1
  rw [mapM_eq_ok] at h1
  have hl := h1.length_eq
  simp only [List.length_range] at hl
  have h2 := (List.forall₂_iff_get.1 h1).2 s (by simpa using hs) (by omega)
  simp only [List.get_eq_getElem, List.getElem_range] at h2
  rw [map_eq_ok] at h2
  obtain ⟨c, hc, hlen⟩ := h2
  rw [optGet_eq_ok] at hc
  obtain ⟨cs, hcs, hc⟩ := hc
  have hcK : um.cVec s = c := by simp [UserModel.cVec, hcs, hc]
  rw [hpre.dims, hcK, hlen]
  show nC.getD s 0 = _
  rw [List.getD_eq_getElem?_getD, List.getElem?_eq_getElem (by omega)]
  rfl

/-- The smoothed functions a solver object has. -/
theorem Setup.smooth (h : Setup colloc o um uo po m oc P) (hs : o.initStrategy = .rk4Smoothened)
    (hS : Solver.create colloc o um uo = .ok S) (hsf : S.smooth = some sf) :
    addSmooth um m.dims o.smoothing = .ok sf := by
  unfold Solver.create at hS
  rw [h.ok] at hS
  simp only [ok_bind, bind_eq_ok] at hS
  obtain ⟨sm, h1, h2⟩ := hS
  injection h2 with h2
  subst h2
  dsimp only at hsf
  subst hsf
  unfold smoothFor at h1
  rw [if_pos (by rw [h.opts]; exact hs), map_eq_ok] at h1
  obtain ⟨sf', h3, h4⟩ := h1
  cases h4
  have : po.smoothing = o.smoothing := by rw [h.opts]
  rw [← this]
  exact h3

theorem gExprs_eval {d : Dims} {s : Nat} {env : Env} (hg : um.gStewartTruthy = false)
    (hc : (um.Smat s).cols = (um.cVec s).len) :
    evalVec (gExprs um d s) env = (List.range (um.Smat s).rows).map fun i =>
      um.gVal s i (d.mX.map env) (d.mZ.map env) (d.mP.map env) := by
  unfold gExprs evalVec
  rw [List.map_map]
  apply List.map_congr_left
  intro i _
  simp only [Function.comp_def]
  unfold UserModel.gVal
  rw [hg]
  simp only [Bool.false_eq_true, if_false]
  rw [sum_list_range', ← Finset.sum_neg_distrib]
  refine Finset.sum_congr rfl fun k hk => ?_
  have hk := Finset.mem_range.1 hk
  rw [hc] at hk
  simp [at', UVec.vec, hk, UVec.expr]

theorem thetaExprs_eval {d : Dims} {sm : ℝ} {s : Nat} {env : Env}
    (hsys : SmoothSys um d s) (hc : d.nC s = (um.cVec s).len) (hS : (um.Smat s).IsSign) :
    evalVec (thetaExprs um d sm s) env = (List.range (um.Fmat s).nCols).map fun i =>
      regionWeight (um.Smat s) i (um.smoothAlpha sm (d.mX.map env) (d.mZ.map env) (d.mP.map env) s) := by
  unfold thetaExprs evalVec
  rw [List.map_map, hsys.nF]
  apply List.map_congr_left
  intro i hi
  have hi := List.mem_range.1 hi
  simp only [Function.comp_def]
  rw [hc, ← hsys.cols, thetaSmooth_eq hS (by rw [hsys.rows]; exact hi)]
  congr 1
  funext j
  unfold smoothStep UserModel.smoothAlpha UVec.expr
  rw [one_div_mul_eq_div]

/-- C27: the smoothed region weights are the Step weights at the smoothed steps, the smoothed `μ` is
minus a number between the smallest and the largest indicator value of the system, and the smoothed
`λ` is `g + μ`. -/
theorem C27_smoothed_multipliers (h : Setup colloc o um uo po m oc P)
    (hs : o.initStrategy = .rk4Smoothened)
    (hS : Solver.create colloc o um uo = .ok S) (hsf : S.smooth = some sf)
    (hsign : ∀ s < um.nSys, (um.Smat s).IsSign) (hz : um.SwitchNoZ)
    (hF : ∀ s < um.nSys, 0 < (um.Fmat s).nCols)
    {x p : List ℝ} (z : List ℝ) (hx : x.length = um.nX) (hp : p.length = um.nPtv + um.nPgl) :
    0 < o.smoothing ∧
    sf.theta.num [x, p] = .ok ((List.range um.nSys).flatMap fun s =>
      (List.range (um.Fmat s).nCols).map fun i =>
        regionWeight (um.Smat s) i (um.smoothAlpha o.smoothing x z p s)) ∧
    ∃ mu : Nat → ℝ, sf.mu.num [x, p] = .ok ((List.range um.nSys).map mu) ∧
      (∀ s < um.nSys, (∃ i < (um.Fmat s).nCols, um.gVal s i x z p ≤ -mu s) ∧
        ∃ i < (um.Fmat s).nCols, -mu s ≤ um.gVal s i x z p) ∧
      sf.lambda.num [x, p] = .ok ((List.range um.nSys).flatMap fun s =>
        (List.range (um.Fmat s).nCols).map fun i => um.gVal s i x z p + mu s) := by
  obtain ⟨hg, hsm, hsys, -, h1, h2, h3⟩ := addSmooth_ok (h.smooth hs hS hsf)
  obtain ⟨d1, -, d3, -, d5, d6, d7, -, -⟩ := h.dims
  rw [d7] at hsys h1 h2 h3
  obtain ⟨b1, b2⟩ := bind2 (d := m.dims) (x := x) (p := p) (by rw [d1]; exact hx)
    (by rw [d5, d6]; exact hp) (fun _ => 0)
  have hins : [m.dims.mX, m.dims.mP].map List.length
      = ([x, p].map (List.map const)).map List.length := by
    simp [hx, hp, d1, d5, d6, Dims.mX, Dims.mP]
  generalize henv : rebind [m.dims.mX, m.dims.mP].flatten
    (([x, p].map (List.map const)).flatten) (fun _ => 0) = env at b1 b2
  have call : ∀ v : Vec, CFun.num ⟨[m.dims.mX, m.dims.mP], v⟩ [x, p] = .ok (evalVec v env) := by
    intro v
    unfold CFun.num
    rw [CFun.call_ok hins]
    show Except.ok _ = Except.ok _
    congr 1
    unfold CFun.app
    rw [evalVec_map]
    beta_reduce
    simp only [henv]
    rfl
  have halpha : ∀ s, um.smoothAlpha o.smoothing (m.dims.mX.map env) (m.dims.mZ.map env)
      (m.dims.mP.map env) s = um.smoothAlpha o.smoothing x z p s := by
    intro s
    funext j
    unfold UserModel.smoothAlpha
    rw [b1, b2, hz s j x _ z p]
  have hgv : ∀ s i, um.gVal s i (m.dims.mX.map env) (m.dims.mZ.map env) (m.dims.mP.map env)
      = um.gVal s i x z p := by
    intro s i
    unfold UserModel.gVal
    rw [hg]
    simp only [Bool.false_eq_true, if_false]
    rw [b1, b2]
    congr 1
    exact Finset.sum_congr rfl fun k _ => by rw [hz s k x _ z p]
  have hge : ∀ s < um.nSys, evalVec (gExprs um m.dims s) env
      = (List.range (um.Fmat s).nCols).map fun i => um.gVal s i x z p := by
    intro s hs'
    rw [gExprs_eval hg (hsys s hs').cols, (hsys s hs').rows, ← (hsys s hs').nF]
    simp only [hgv]
  refine ⟨hsm, ?_, fun s => -smoothMin o.smoothing (evalVec (gExprs um m.dims s) env), ?_, ?_, ?_⟩
  · rw [h1, call]
    congr 1
    unfold evalVec
    rw [List.map_flatMap]
    apply List.flatMap_congr
    intro s hs'
    have hs' := List.mem_range.1 hs'
    have := thetaExprs_eval (sm := o.smoothing) (env := env) (hsys s hs') (h.nC_len hg hs')
      (hsign s hs')
    unfold evalVec at this
    rw [this]
    simp only [halpha]
  · rw [h2, call]
    congr 1
    unfold evalVec
    rw [List.map_map]
    rfl
  · intro s hs'
    rw [neg_neg]
    have hne : evalVec (gExprs um m.dims s) env ≠ [] := by
      rw [hge s hs']
      intro hc
      have := congrArg List.length hc
      simp at this
      have := hF s hs'
      omega
    constructor
    · have hm := mmin_mem hne
      have hl := le_smoothMin o.smoothing hne (fun y hy => mmin_le y hy)
      generalize mmin (evalVec (gExprs um m.dims s) env) = M at hm hl
      rw [hge s hs'] at hm
      obtain ⟨i, hi, rfl⟩ := List.mem_map.1 hm
      exact ⟨i, List.mem_range.1 hi, hl⟩
    · have hm := mmax_mem hne
      have hl := smoothMin_le o.smoothing hne (fun y hy => le_mmax hy)
      generalize mmax (evalVec (gExprs um m.dims s) env) = M at hm hl
      rw [hge s hs'] at hm
      obtain ⟨i, hi, rfl⟩ := List.mem_map.1 hm
      exact ⟨i, List.mem_range.1 hi, hl⟩
  · rw [h3, call]
    congr 1
    rw [evalVec, List.map_flatMap]
    apply List.flatMap_congr
    intro s hs'
    have hs' := List.mem_range.1 hs'
    rw [List.map_map]
    have := hge s hs'
    have e : (gExprs um m.dims s).map ((fun e => e env) ∘ fun e env =>
        e env - smoothMin o.smoothing (evalVec (gExprs um m.dims s) env))
        = (evalVec (gExprs um m.dims s) env).map
          fun v => v - smoothMin o.smoothing (evalVec (gExprs um m.dims s) env) := by
      unfold evalVec
      rw [List.map_map]
      rfl
    rw [e]
    beta_reduce
    generalize smoothMin o.smoothing (evalVec (gExprs um m.dims s) env) = M
    rw [this, List.map_map]
    exact List.map_congr_left fun i _ => sub_eq_add_neg _ _

/-- C27: the smoothed weights lie in `(0, 1]` and sum to 1 if every sign pattern belongs to exactly one
row of `S`, in particular for the full sign matrix (`C25_full`). -/
theorem C27_weights {um : UserModel} {s : Nat} (hS : (um.Smat s).IsSign) (sm : ℝ) (x z p : List ℝ) :
    (∀ i < (um.Smat s).rows, 0 < regionWeight (um.Smat s) i (um.smoothAlpha sm x z p s) ∧
      regionWeight (um.Smat s) i (um.smoothAlpha sm x z p s) ≤ 1) ∧
    ((um.Smat s).Partition →
      ∑ i ∈ Finset.range (um.Smat s).rows, regionWeight (um.Smat s) i (um.smoothAlpha sm x z p s) = 1) := by
  have h01 : ∀ j, 0 < um.smoothAlpha sm x z p s j ∧ um.smoothAlpha sm x z p s j < 1 := by
    intro j
    have := smoothStep_mem sm ((um.cVec s).entry j x z p)
    unfold smoothStep at this
    rw [one_div_mul_eq_div] at this
    exact this
  exact ⟨fun i hi => ⟨weight_pos hS hi fun k _ => h01 k,
    (weight_mem hS hi fun k _ _ => ⟨(h01 k).1.le, (h01 k).2.le⟩).2⟩, fun hp => sum_weights hS hp _⟩

/-- C27: the smoothed right-hand side is the right-hand side of the Step representation at the smoothed
steps (the library demands that it depends on the state only). -/
theorem C27_smoothed_rhs (h : Setup colloc o um uo po m oc P)
    (hs : o.initStrategy = .rk4Smoothened)
    (hS : Solver.create colloc o um uo = .ok S) (hsf : S.smooth = some sf)
    (hsign : ∀ s < um.nSys, (um.Smat s).IsSign) (hz : um.StateOnly)
    {x : List ℝ} (z u p v : List ℝ) (hx : x.length = um.nX) :
    sf.fx.num [x] = .ok ((List.range um.nX).map fun row =>
      um.rhsStep row x z u p v (um.smoothAlpha o.smoothing x z p)) := by
  obtain ⟨hg, hsm, hsys, h0, -⟩ := addSmooth_ok (h.smooth hs hS hsf)
  obtain ⟨d1, -, d3, -, d5, d6, d7, -, -⟩ := h.dims
  rw [d7] at hsys h0
  have b1 := bind1 (d := m.dims) (x := x) (by rw [d1]; exact hx) (fun _ => 0)
  have hins : [m.dims.mX].map List.length = ([x].map (List.map const)).map List.length := by
    simp [hx, d1, Dims.mX]
  rw [h0]
  unfold CFun.num
  rw [CFun.call_ok hins]
  show Except.ok _ = Except.ok _
  congr 1
  unfold CFun.app
  rw [evalVec_map]
  generalize henv : rebind [m.dims.mX].flatten
    (([x].map (List.map const)).flatten) (fun _ => 0) = env at b1
  beta_reduce
  simp only [henv]
  have := foldl_vadd_eval (d := m.dims) (List.range um.nSys) (fun s row env =>
    ((List.range (um.Fmat s).nCols).map fun col => (um.Fmat s).expr m.dims row col env *
      at' (thetaExprs um m.dims o.smoothing s) col env).sum) (List.replicate m.dims.nX (const 0))
    (by simp) env
  unfold evalVec at this
  refine this.trans ?_
  rw [d1]
  apply List.map_congr_left
  intro row hrow
  have e0 : at' (List.replicate um.nX (const 0)) row env = 0 := by
    have hrow := List.mem_range.1 hrow
    simp [at', const, hrow]
  rw [e0, zero_add, sum_list_range']
  unfold UserModel.rhsStep UserModel.rhsStewart
  refine Finset.sum_congr rfl fun s hs' => ?_
  have hs' := Finset.mem_range.1 hs'
  rw [sum_list_range']
  refine Finset.sum_congr rfl fun i hi => ?_
  have hi := Finset.mem_range.1 hi
  have h1 : (um.Fmat s).expr m.dims row i env = (um.Fmat s).entry row i x z u p v := by
    unfold UMat.expr
    rw [b1]
    exact hz.2 _ _ _ _ _ _ _ _ _ _ _ _
  have h2 : at' (thetaExprs um m.dims o.smoothing s) i env
      = regionWeight (um.Smat s) i (um.smoothAlpha o.smoothing x z p s) := by
    have ht := thetaExprs_eval (sm := o.smoothing) (env := env) (hsys s hs') (h.nC_len hg hs')
      (hsign s hs')
    have hl : i < (thetaExprs um m.dims o.smoothing s).length := by
      unfold thetaExprs
      rw [List.length_map, List.length_range, ← (hsys s hs').nF]
      exact hi
    have hv := congrArg (fun l => l[i]?) ht
    simp only [evalVec, List.getElem?_map, List.getElem?_range hi, Option.map_some,
      List.getElem?_eq_getElem hl] at hv
    injection hv with hv
    unfold at'
    rw [List.getD_eq_getElem?_getD, List.getElem?_eq_getElem hl]
    refine hv.trans ?_
    congr 1
    funext j
    unfold UserModel.smoothAlpha
    rw [b1, hz.1 s j x _ z _ p]
  rw [h1, h2]

/-- The demo model satisfies the hypotheses of the theorems above. -/
example : ∃ po m oc P S sf,
    Setup demoColloc { Opts.default with initStrategy := .rk4Smoothened } demoModel (some demoOcp)
      po m oc P ∧
    Solver.create demoColloc { Opts.default with initStrategy := .rk4Smoothened } demoModel
      (some demoOcp) = .ok S ∧ S.smooth = some sf ∧
    (∀ s < demoModel.nSys, (demoModel.Smat s).IsSign) ∧ demoModel.SwitchNoZ ∧ demoModel.StateOnly ∧
    (∀ s < demoModel.nSys, 0 < (demoModel.Fmat s).nCols) := by
  obtain ⟨po, m, oc, P, h, -, hd, -⟩ := demo_setup
    (o := { Opts.default with initStrategy := .rk4Smoothened })
    (by constructor <;> simp [Opts.default, Opts.nfeAfter])
  have hsm : ∃ sf, addSmooth demoModel m.dims po.smoothing = .ok sf := by
    rw [hd]
    have h0 : 0 < po.smoothing := by rw [h.opts]; simp [Opts.default]
    have hg : demoModel.gStewartTruthy = false := rfl
    unfold addSmooth
    have c1 : check (demoModel.gStewartTruthy = false) .notImplemented = .ok () := by simp [check, hg]
    have c2 : check (0 < po.smoothing) .valueError = .ok () := by simp [check, h0]
    rw [c1, c2]
    exact ⟨_, rfl⟩
  obtain ⟨sf, hsm⟩ := hsm
  refine ⟨po, m, oc, P, ⟨po, m, P, some sf, []⟩, sf, h.toSetup, ?_, rfl, ?_, ?_, ?_, ?_⟩
  · unfold Solver.create
    rw [h.ok]
    simp only [ok_bind]
    unfold smoothFor
    rw [if_pos (by rw [h.opts]), hsm]
    rfl
  · intro s hs i hi k hk
    have : s = 0 := by have e : demoModel.nSys = 1 := rfl; omega
    subst this
    show (if i = 0 then (1 : ℝ) else -1) = -1 ∨ (if i = 0 then (1 : ℝ) else -1) = 0 ∨
      (if i = 0 then (1 : ℝ) else -1) = 1
    split <;> simp
  · intro s j x z z' p
    cases s <;> rfl
  · exact ⟨fun s j x z z' p p' => by cases s <;> rfl,
      fun s row col x z z' u u' p p' v v' => by cases s <;> rfl⟩
  · intro s hs
    have : s = 0 := by have e : demoModel.nSys = 1 := rfl; omega
    subst this
    exact Nat.two_pos

end
end Nosnoc
