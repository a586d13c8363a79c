import Verif.Witness.Setups
import Verif.Props.Layout
/-
A second small problem for witnesses: `ẋ = z` with a free algebraic variable `z` and two equal regions,
so that stage derivatives can be chosen at will.
-/
namespace Nosnoc

/-- Two regions with `ẋ = z`; switching function 0. -/
def freeModel : UserModel where
  nX := 1
  nU := 0
  nZ := 1
  nPtv := 0
  nPgl := 0
  nV := 0
  x0 := [0]
  F := some [⟨2, fun _ _ _ z _ _ _ => z.getD 0 0⟩]
  c := some [⟨1, fun _ _ _ _ => 0⟩]
  S := some [⟨2, 1, fun i _ => if i = 0 then 1 else -1⟩]
  gStewart := none
  alpha := none
  fx := none
  gz := ⟨0, fun _ _ _ _ _ => 0⟩
  z0 := none
  lbz := none
  ubz := none
  pTimeVarVal := none
  pGlobalVal := []
  tVar := none

theorem free_preModel {po : PreOpts} (hp : po.pss = .stewart) (ht : po.timeFreezing = false) :
    ∃ m, freeModel.preprocess po = .ok m := by
  unfold UserModel.preprocess
  have h1 : freeModel.nCsys = .ok [1] := rfl
  have h2 : freeModel.nFsys po.pss = .ok [2] := by
    simp [UserModel.nFsys, freeModel, check, UserModel.gStewartTruthy]
  have h3 : ∃ pv, freeModel.pValCtrl po.nStages = .ok pv := by
    simp [UserModel.pValCtrl, freeModel, check, UserModel.ptv]
  obtain ⟨pv, h3⟩ := h3
  have h4 : check (freeModel.tVar.isSome ∨ po.timeFreezing = false) .valueError = .ok () := by
    simp [check, freeModel, ht]
  rw [h1, h2, h3, h4, hp]
  exact ⟨_, rfl⟩

theorem free_dims {po : PreOpts} {m : PreModel} (h : freeModel.preprocess po = .ok m) :
    m.dims = dimsOf freeModel [1] [2] := by
  obtain ⟨nC, nF, g, up, f0, acc, hp⟩ := preprocess_pre h
  have h1 := hp.hnC
  have h2 := hp.hnF
  have h3 : freeModel.nFsys po.pss = .ok [2] := by
    simp [UserModel.nFsys, freeModel, check, UserModel.gStewartTruthy]
  rw [h3] at h2
  cases h2
  have h4 : freeModel.nCsys = .ok [1] := rfl
  rw [h4] at h1
  cases h1
  exact hp.dims

/-- The problem is constructed for every ocp whose preprocessing succeeds. -/
theorem free_setup {o : Opts} (h : DemoOpts o) (hp : o.pss = .stewart)
    (ht : o.timeFreezing = false) {uo : UserOcp} (hs : uo.gPathComp = [])
    (hoc : ∀ m : PreModel, m.dims = dimsOf freeModel [1] [2] → ∃ oc, uo.preprocess m = .ok oc) :
    ∃ po m oc P, SetupEx demoColloc o freeModel (some uo) po m oc P ∧
      m.dims = dimsOf freeModel [1] [2] ∧
      po.toOpts = { o with maxIterHomotopy := po.maxIterHomotopy, nfeList := o.nfeAfter } := by
  obtain ⟨po, hpo⟩ := demo_preOpts h
  have e := (preprocess_opts hpo).toOpts
  obtain ⟨m, hm⟩ := free_preModel (po := po) (by rw [e]; exact hp) (by rw [e]; exact ht)
  obtain ⟨oc, hoc⟩ := hoc m (free_dims hm)
  obtain ⟨P, hP⟩ := (C06_construct_iff (uo := some uo) rfl hpo hm hoc
    (by rw [h.nS]; decide) (fun _ => rfl) h.exact).2 ⟨h.stages, rfl, h.sot, fun k hk => by
      have hk' := lt_of_lt_of_le hk h.nfeLen
      exact ⟨_, List.getElem?_eq_getElem hk', h.nfePos _ (List.getElem_mem hk')⟩, h.aug⟩
  exact ⟨po, m, oc, P, ⟨⟨hP, by rw [h.nS]; decide, fun _ => rfl⟩, h.exact, by simp [hs]⟩,
    free_dims hm, e⟩

/-- The point with stage derivatives `V k e j`, stage states `X k e j`, end states `E k e`, all
multipliers trivial. -/
def freeEnv (σ : ℝ) (V X : Nat → Nat → Nat → ℝ) (E H : Nat → Nat → ℝ) : Env
  | .st1 .v k e j _ => V k e j
  | .st1 .z k e j _ => V k e j
  | .st1 .x k e j _ => X k e j
  | .xEnd k e _ => E k e
  | .h k e => H k e
  | .st2 .theta _ _ _ _ i => if i = 0 then 1 else 0
  | .sigma => σ
  | _ => 0

theorem free_rhs {po : PreOpts} (hp : po.pss = .stewart) {σ : ℝ} {V X : Nat → Nat → Nat → ℝ}
    {E H : Nat → Nat → ℝ} (k e j i : Nat) :
    freeModel.stageRhs po (dimsOf freeModel [1] [2]) k e j i (freeEnv σ V X E H) = V k e j := by
  unfold UserModel.stageRhs
  rw [hp]
  simp [UserModel.rhsStewart, freeModel, UserModel.nSys, UserModel.Fmat, freeEnv, zVal, dimsOf]

theorem free_algebraic {po : PreOpts} (hp : po.pss = .stewart) {σ : ℝ} {V X : Nat → Nat → Nat → ℝ}
    {E H : Nat → Nat → ℝ} (k e j : Nat) (x : List ℝ) :
    freeModel.Algebraic po (dimsOf freeModel [1] [2]) k e j x (freeEnv σ V X E H) := by
  refine ⟨?_, ?_, ?_⟩
  · unfold UserModel.Switching
    rw [hp]
    intro s hs i hi
    simp only [freeModel, UserModel.nSys] at hs
    have : s = 0 := by simpa using hs
    subst this
    simp [freeEnv, UserModel.gVal, UserModel.gStewartTruthy, UserModel.Smat, UserModel.cVec,
      freeModel]
  · intro _ s hs
    simp only [freeModel, UserModel.nSys] at hs
    have : s = 0 := by simpa using hs
    subst this
    simp [freeEnv, UserModel.Fmat, freeModel]
  · intro i hi
    simp [freeModel] at hi

end Nosnoc
