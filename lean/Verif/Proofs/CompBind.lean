import Verif.Proofs.Feas
import Verif.Proofs.Pairs
/-
Helper lemmas: the path complementarity functions applied to the discretised quantities, and the
clock function, are the user's expressions.
-/
namespace Nosnoc
section
variable {um : UserModel} {o : PreOpts} {m : PreModel} {nC nF : List Nat} {g up : List Vec}
  {f0 : Vec} {acc : DcsAcc} {uo : UserOcp} {oc : PreOcp}

theorem splitComps_eq (rows : List PathComp) :
    splitComps rows = ⟨rows.filter (fun r => !r.dependsRk && !r.dependsCtrl),
      rows.filter (fun r => !r.dependsRk && r.dependsCtrl), rows.filter fun r => r.dependsRk⟩ := by
  have key : ∀ (rows : List PathComp) (A : CompSplit), rows.foldl (fun acc r =>
      if r.dependsRk then { acc with stage := acc.stage ++ [r] }
      else if r.dependsCtrl then { acc with ctrl := acc.ctrl ++ [r] }
      else { acc with global := acc.global ++ [r] }) A
      = ⟨A.global ++ rows.filter (fun r => !r.dependsRk && !r.dependsCtrl),
        A.ctrl ++ rows.filter (fun r => !r.dependsRk && r.dependsCtrl),
        A.stage ++ rows.filter fun r => r.dependsRk⟩ := by
    intro rows
    induction rows with
    | nil => intro A; simp
    | cons r rows ih =>
      intro A
      rw [List.foldl_cons, ih]
      cases h1 : r.dependsRk <;> cases h2 : r.dependsCtrl <;> simp [h1, h2]
  simpa [splitComps] using key rows ⟨[], [], []⟩

theorem bindRk (h : Pre um o m nC nF g up f0 acc) (hz : ZOk o m) {X : Vec}
    (hX : X.length = m.dims.nX) (k e j jl : Nat) (env : Env) :
    let env' := rebind [m.dims.mX, m.dims.mU, m.zAll, m.dims.mP, m.dims.mV].flatten
      [X, ctrlU m.dims k, vars (zSyms o m.dims k e j jl), ctrlP m.dims k, globV m.dims].flatten env
    StageBind um o m.dims k e j jl (evalVec X env) env env' ∧ m.dims.mV.map env' = vVal m.dims env := by
  intro env'
  have hl : [m.dims.mX, m.dims.mU, m.zAll, m.dims.mP, m.dims.mV].map List.length
      = [X, ctrlU m.dims k, vars (zSyms o m.dims k e j jl), ctrlP m.dims k, globV m.dims].map
        List.length := by
    simp [hX, length_zSyms, show m.zAll.length = _ from hz]
  have hn : [m.dims.mX, m.dims.mU, m.zAll, m.dims.mP, m.dims.mV].flatten.Nodup :=
    nodup_kinds (ks := [0, 2, 1, 3, 4]) (by decide)
      (.cons ⟨nodup_mX, fun _ => kind_mX⟩ (.cons ⟨nodup_mU, fun _ => kind_mU⟩
        (.cons ⟨by rw [h.zAll]; exact nodup_zAll, by
        rw [h.zAll]; exact fun _ => kind_zAll⟩
        (.cons ⟨nodup_mP, fun _ => kind_mP⟩ (.cons ⟨nodup_mV, fun _ => kind_mV⟩ .nil)))))
  have key := fun i h1 h2 => map_rebind_flatten (env := env) hl hn (i := i) h1 h2
  have k0 := key 0 (by simp) (by simp)
  have k2 := key 1 (by simp) (by simp)
  have k1 := key 2 (by simp) (by simp)
  have k3 := key 3 (by simp) (by simp)
  have k4 := key 4 (by simp) (by simp)
  refine ⟨⟨k0, ?_, ?_, ?_⟩, ?_⟩
  · refine zBind (by rw [← h.zAll]; exact hz) ?_
    rw [← h.zAll]
    exact k1.trans (evalVec_vars _ _)
  · exact k2.trans (evalVec_ctrlU _ _ _)
  · exact k3.trans (evalVec_ctrlP _ _ _)
  · exact k4.trans (evalVec_globV _ _)

theorem bindUPV (k : Nat) (env : Env) :
    let env' := rebind [m.dims.mU, m.dims.mP, m.dims.mV].flatten
      [ctrlU m.dims k, ctrlP m.dims k, globV m.dims].flatten env
    m.dims.mU.map env' = uVal m.dims k env ∧
      m.dims.mP.map env' = pVal m.dims k env ∧ m.dims.mV.map env' = vVal m.dims env := by
  intro env'
  have hl : [m.dims.mU, m.dims.mP, m.dims.mV].map List.length
      = [ctrlU m.dims k, ctrlP m.dims k, globV m.dims].map List.length := by
    simp
  have hn : [m.dims.mU, m.dims.mP, m.dims.mV].flatten.Nodup :=
    nodup_kinds (ks := [2, 3, 4]) (by decide)
      (.cons ⟨nodup_mU, fun _ => kind_mU⟩
        (.cons ⟨nodup_mP, fun _ => kind_mP⟩ (.cons ⟨nodup_mV, fun _ => kind_mV⟩ .nil)))
  have key := fun i h1 h2 => map_rebind_flatten (env := env) hl hn (i := i) h1 h2
  exact ⟨(key 0 (by simp) (by simp)).trans (evalVec_ctrlU _ _ _),
    (key 1 (by simp) (by simp)).trans (evalVec_ctrlP _ _ _),
    (key 2 (by simp) (by simp)).trans (evalVec_globV _ _)⟩

theorem bindGlob (env : Env) :
    let env' := rebind [blk m.dims.nPgl .mPgl, m.dims.mV].flatten
      (globArgs m.dims).flatten env
    (blk m.dims.nPgl .mPgl).map env' = pGlobVal m.dims 0 env ∧
      m.dims.mV.map env' = vVal m.dims env := by
  intro env'
  have hl : [blk m.dims.nPgl .mPgl, m.dims.mV].map List.length
      = (globArgs m.dims).map List.length := by
    simp [globArgs]
  have hn : [blk m.dims.nPgl .mPgl, m.dims.mV].flatten.Nodup :=
    nodup_kinds (ks := [3, 4]) (by decide)
      (.cons ⟨nodup_blk fun i j h => by cases h; rfl, fun t ht => by
          simp only [blk, List.mem_map] at ht; obtain ⟨_, _, rfl⟩ := ht; rfl⟩
        (.cons ⟨nodup_mV, fun _ => kind_mV⟩ .nil))
  have key := fun i h1 h2 => map_rebind_flatten (env := env) hl hn (i := i) h1 h2
  refine ⟨(key 0 (by simp) (by simp [globArgs])).trans ?_,
    (key 1 (by simp) (by simp [globArgs])).trans (evalVec_globV _ _)⟩
  simp [globArgs, pGlobVal, blk]

/-- A vector of complementarity rows. -/
theorem compl_rows {rows : List PathComp} {A B : PathComp → Expr} {env : Env} :
    CmdSat o env (.compl [rows.map A] (rows.map B)) ↔
      ∀ r ∈ rows, Compl o env [A r env] (B r env) := by
  simp only [CmdSat, List.length_map]
  constructor
  · intro H r hr
    obtain ⟨i, hi, rfl⟩ := List.mem_iff_getElem.1 hr
    have := H i hi
    simpa [at', hi, Compl] using this
  · intro H i hi
    have := H _ (List.getElem_mem hi)
    simpa [at', hi, Compl] using this

theorem rkComp_iff (h : Pre um o m nC nF g up f0 acc) (ho : OcpPre uo m oc) (hz : ZOk o m)
    {k e j : Nat} {env : Env} :
    CmdSat o env (.compl [rkCompAt o m oc.gRkFun.1 k e j] (rkCompAt o m oc.gRkFun.2 k e j)) ↔
      ∀ r ∈ stageComps uo, Compl o env
        [r.a (xVal o m.dims k e j env) (uVal m.dims k env) (zVal m.dims k e j env)
          (pVal m.dims k env) (vVal m.dims env)]
        (r.b (xVal o m.dims k e j env) (uVal m.dims k env) (zVal m.dims k e j env)
          (pVal m.dims k env) (vVal m.dims env)) := by
  have hb := bindRk h hz (length_stageX (o := o) m.dims k e j) k e j j env
  unfold rkCompAt CFun.app
  rw [ho.gRk, splitComps_eq]
  simp only [compCol, List.map_map]
  rw [compl_rows]
  refine forall₂_congr fun r _ => ?_
  simp only [Function.comp_def]
  unfold stageZ
  simp only at hb ⊢
  rw [hb.1.x, hb.1.u, hb.1.z.z, hb.1.p, hb.2]
  rfl

theorem ctrlComp_iff (ho : OcpPre uo m oc) (hs : ∀ r ∈ uo.gPathComp, r.Sound m.dims)
    {k : Nat} {env : Env} :
    CmdSat o env (.compl [ctrlCompAt m oc.gCtrlFun.1 k] (ctrlCompAt m oc.gCtrlFun.2 k)) ↔
      ∀ r ∈ ctrlComps uo, Compl o env
        [r.a [] (uVal m.dims k env) [] (pVal m.dims k env) (vVal m.dims env)]
        (r.b [] (uVal m.dims k env) [] (pVal m.dims k env) (vVal m.dims env)) := by
  obtain ⟨h1, h2, h3⟩ := bindUPV (m := m) k env
  unfold ctrlCompAt CFun.app
  rw [ho.gCtrl, splitComps_eq]
  simp only [compCol, List.map_map]
  rw [compl_rows]
  refine forall₂_congr fun r hr => ?_
  simp only [Function.comp_def]
  rw [h1, h2, h3]
  simp only [List.mem_filter, Bool.and_eq_true, Bool.not_eq_eq_eq_not, Bool.not_true] at hr
  rw [((hs r hr.1).stage hr.2.1 _ [] _ _ [] _ _).1, ((hs r hr.1).stage hr.2.1 _ [] _ _ [] _ _).2]

theorem globComp_iff (ho : OcpPre uo m oc) (hs : ∀ r ∈ uo.gPathComp, r.Sound m.dims)
    {env : Env} :
    CmdSat o env (globC m oc) ↔
      ∀ r ∈ globComps uo, Compl o env
        [r.a [] [] [] (List.replicate m.dims.nPtv 0 ++ pGlobVal m.dims 0 env) (vVal m.dims env)]
        (r.b [] [] [] (List.replicate m.dims.nPtv 0 ++ pGlobVal m.dims 0 env)
          (vVal m.dims env)) := by
  obtain ⟨h1, h3⟩ := bindGlob (m := m) env
  unfold globC CFun.app
  rw [ho.gGlob, splitComps_eq]
  simp only [compCol, List.map_map]
  rw [compl_rows]
  refine forall₂_congr fun r hr => ?_
  simp only [Function.comp_def]
  rw [h3]
  simp only [List.mem_filter, Bool.and_eq_true, Bool.not_eq_eq_eq_not, Bool.not_true] at hr
  unfold Dims.mP
  rw [List.map_append, h1]
  have hS := hs r hr.1
  rw [(hS.stage hr.2.1 _ [] _ _ [] _ _).1, (hS.stage hr.2.1 _ [] _ _ [] _ _).2]
  have hd := hS.ctrl hr.2.1 hr.2.2 [] (m.dims.mU.map (rebind
    [blk m.dims.nPgl .mPgl, m.dims.mV].flatten (globArgs m.dims).flatten env)) [] []
    ((blk m.dims.nPtv .mPtv).map (rebind
    [blk m.dims.nPgl .mPgl, m.dims.mV].flatten (globArgs m.dims).flatten env)
      ++ pGlobVal m.dims 0 env) (List.replicate m.dims.nPtv 0 ++ pGlobVal m.dims 0 env)
    (vVal m.dims env) (by rw [List.drop_left' (by simp), List.drop_left' (by simp)]) (by simp)
  rw [hd.1, hd.2]

/-- The clock function. -/
theorem tAt_eq (h : Pre um o m nC nF g up f0 acc) {t : List ℝ → ℝ} (ht : um.tVar = some t)
    {X : Vec} (hX : X.length = m.dims.nX) (env : Env) : tAt m X env = t (evalVec X env) := by
  unfold tAt
  rw [h.t, ht]
  show t (m.dims.mX.map (rebind [m.dims.mX].flatten [X].flatten env)) = _
  have := map_rebind (l := m.dims.mX) (a := X) (env := env) (by simp [hX]) nodup_mX
  simpa using congrArg t this

end
end Nosnoc
