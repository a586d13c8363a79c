import Verif.Spec.Relabel
import Verif.Proofs.Renumber
import Verif.Proofs.Pairs
/-
Helper: feasibility and objective do not change when the subsystems and the switching functions are
listed in another order.
-/
namespace Nosnoc

theorem fix_lt {σ : Equiv.Perm Nat} {n m : Nat} (h : ∀ s, n ≤ s → σ s = s) (hm : n ≤ m) (s : Nat) :
    σ s < m ↔ s < m := by
  constructor
  · intro hs
    by_contra hc
    rw [h s (by omega)] at hs
    exact hc hs
  · intro hs
    by_contra hc
    have h1 := h (σ s) (by omega)
    have := σ.injective h1
    omega

theorem fix_symm {σ : Equiv.Perm Nat} {n : Nat} (h : ∀ s, n ≤ s → σ s = s) (s : Nat) (hs : n ≤ s) :
    σ.symm s = s := by
  rw [Equiv.symm_apply_eq, h s hs]

section
variable {α : Type} {σ : Equiv.Perm Nat} {n : Nat} {l : List α}

theorem length_reorder : (reorder σ l).length = l.length := by simp [reorder]

theorem reorder_get? (h : ∀ s, n ≤ s → σ s = s) (hl : n ≤ l.length) (s : Nat) :
    (reorder σ l)[s]? = l[σ s]? := by
  unfold reorder
  rw [List.getElem?_mapIdx]
  by_cases hs : s < l.length
  · have := (fix_lt h hl s).2 hs
    simp [hs, this]
  · have := h s (by omega)
    rw [this]
    have : l[s]? = none := by simp; omega
    rw [this]
    rfl

theorem reorder_reorder (h : ∀ s, n ≤ s → σ s = s) (hl : n ≤ l.length) :
    reorder σ.symm (reorder σ l) = l := by
  refine List.ext_getElem? fun s => ?_
  rw [reorder_get? (fix_symm h) (by rw [length_reorder]; exact hl), reorder_get? h hl,
    Equiv.apply_symm_apply]

end

section
variable {um : UserModel} {σ : Equiv.Perm Nat} {ρ : Nat → Equiv.Perm Nat} {o : PreOpts} {d d' : Dims}
  {uo : UserOcp} {env : Env}

/-- The reordering that undoes `σ`, `ρ`. -/
def undo (σ : Equiv.Perm Nat) (ρ : Nat → Equiv.Perm Nat) (s : Nat) : Equiv.Perm Nat := (ρ (σ.symm s)).symm

theorem relabel_nSys : (um.relabel σ ρ).nSys = um.nSys := by
  unfold UserModel.nSys UserModel.relabel
  cases um.F <;> simp [length_reorder]

theorem nSys_of_F {l : List UMat} (h : um.F = some l) : l.length = um.nSys := by
  unfold UserModel.nSys; rw [h]

theorem relabel_Fmat (h : um.Relabels σ ρ) (s : Nat) : (um.relabel σ ρ).Fmat s = um.Fmat (σ s) := by
  unfold UserModel.Fmat UserModel.relabel
  cases hF : um.F with
  | none => rfl
  | some l =>
    simp only [Option.map_some, Option.getD_some, List.getD_eq_getElem?_getD]
    rw [reorder_get? h.sys (nSys_of_F hF).ge]

theorem relabel_cVec (h : um.Relabels σ ρ) (s : Nat) :
    (um.relabel σ ρ).cVec s = (um.cVec (σ s)).renumber (ρ s) := by
  unfold UserModel.cVec UserModel.relabel
  cases hF : um.c with
  | none => rfl
  | some l =>
    simp only [Option.map_some, Option.getD_some, List.getD_eq_getElem?_getD, List.getElem?_mapIdx]
    rw [reorder_get? h.sys (h.lenC l hF)]
    cases l[σ s]? <;> rfl

theorem relabel_Smat (h : um.Relabels σ ρ) (s : Nat) :
    (um.relabel σ ρ).Smat s = (um.Smat (σ s)).permuteCols (ρ s) := by
  unfold UserModel.Smat UserModel.relabel
  cases hF : um.S with
  | none => rfl
  | some l =>
    simp only [Option.map_some, Option.getD_some, List.getD_eq_getElem?_getD, List.getElem?_mapIdx]
    rw [reorder_get? h.sys (h.lenS l hF)]
    cases l[σ s]? <;> rfl

theorem relabel_gSt (h : um.Relabels σ ρ) (s : Nat) : (um.relabel σ ρ).gSt s = um.gSt (σ s) := by
  unfold UserModel.gSt UserModel.relabel
  cases hF : um.gStewart with
  | none => rfl
  | some l =>
    simp only [Option.map_some, Option.getD_some, List.getD_eq_getElem?_getD]
    rw [reorder_get? h.sys (h.lenG l hF)]

theorem relabel_truthy : (um.relabel σ ρ).gStewartTruthy = um.gStewartTruthy := by
  unfold UserModel.gStewartTruthy UserModel.relabel
  rcases um.gStewart with _ | _ | ⟨a, l⟩
  · rfl
  · rfl
  · simp [reorder]

theorem UserModel.Relabels.lt (h : um.Relabels σ ρ) (s : Nat) : σ s < um.nSys ↔ s < um.nSys :=
  fix_lt h.sys le_rfl s

theorem UserModel.Relabels.ltC (h : um.Relabels σ ρ) {s : Nat} (hs : s < um.nSys) (k : Nat) :
    ρ s k < (um.cVec (σ s)).len ↔ k < (um.cVec (σ s)).len := fix_lt (h.fnsC s hs) le_rfl k

theorem UserModel.Relabels.ltS (h : um.Relabels σ ρ) {s : Nat} (hs : s < um.nSys) (k : Nat) :
    ρ s k < (um.Smat (σ s)).cols ↔ k < (um.Smat (σ s)).cols := fix_lt (h.fnsS s hs) le_rfl k

theorem UserModel.Relabels.symm (h : um.Relabels σ ρ) : (um.relabel σ ρ).Relabels σ.symm (undo σ ρ) := by
  refine ⟨?_, ?_, ?_, ?_, ?_, ?_, ?_, ?_⟩
  · have := h.systems
    unfold UserModel.relabel
    cases hF : um.F with
    | none => exact absurd hF this
    | some l => simp
  · rw [relabel_nSys]; exact fix_symm h.sys
  · intro s hs k hk
    rw [relabel_nSys] at hs
    have hs' : σ.symm s < um.nSys := by rw [← h.lt, Equiv.apply_symm_apply]; exact hs
    rw [relabel_cVec h] at hk
    exact fix_symm (h.fnsC _ hs') k hk
  · intro s hs k hk
    rw [relabel_nSys] at hs
    have hs' : σ.symm s < um.nSys := by rw [← h.lt, Equiv.apply_symm_apply]; exact hs
    rw [relabel_Smat h] at hk
    exact fix_symm (h.fnsS _ hs') k hk
  · intro s hs
    rw [relabel_nSys] at hs
    unfold undo
    rw [fix_symm h.sys s hs, h.other s hs]
    rfl
  all_goals
    intro l hl
    rw [relabel_nSys]
    unfold UserModel.relabel at hl
    simp only [Option.map_eq_some_iff] at hl
    obtain ⟨l', hl', rfl⟩ := hl
  · rw [List.length_mapIdx, length_reorder]; exact h.lenC l' hl'
  · rw [List.length_mapIdx, length_reorder]; exact h.lenS l' hl'
  · rw [length_reorder]; exact h.lenG l' hl'

theorem relabel_relabel (h : um.Relabels σ ρ) : (um.relabel σ ρ).relabel σ.symm (undo σ ρ) = um := by
  have h1 : (um.F.map (reorder σ)).map (reorder σ.symm) = um.F := by
    cases hF : um.F with
    | none => rfl
    | some l => exact congrArg some (reorder_reorder h.sys (nSys_of_F hF).ge)
  have h4 : (um.gStewart.map (reorder σ)).map (reorder σ.symm) = um.gStewart := by
    cases hF : um.gStewart with
    | none => rfl
    | some l => exact congrArg some (reorder_reorder h.sys (h.lenG l hF))
  have h2 : (um.c.map fun l => (reorder σ l).mapIdx fun s (c : UVec) => c.renumber (ρ s)).map
      (fun l => (reorder σ.symm l).mapIdx fun s (c : UVec) => c.renumber (undo σ ρ s)) = um.c := by
    cases hF : um.c with
    | none => rfl
    | some l =>
      refine congrArg some (List.ext_getElem? fun s => ?_)
      rw [List.getElem?_mapIdx, reorder_get? (fix_symm h.sys)
        (by rw [List.length_mapIdx, length_reorder]; exact h.lenC l hF), List.getElem?_mapIdx,
        reorder_get? h.sys (h.lenC l hF), Equiv.apply_symm_apply]
      cases l[s]? with
      | none => rfl
      | some a => simp [UVec.renumber, undo]
  have h3 : (um.S.map fun l => (reorder σ l).mapIdx fun s (c : SMat) => c.permuteCols (ρ s)).map
      (fun l => (reorder σ.symm l).mapIdx fun s (c : SMat) => c.permuteCols (undo σ ρ s)) = um.S := by
    cases hF : um.S with
    | none => rfl
    | some l =>
      refine congrArg some (List.ext_getElem? fun s => ?_)
      rw [List.getElem?_mapIdx, reorder_get? (fix_symm h.sys)
        (by rw [List.length_mapIdx, length_reorder]; exact h.lenS l hF), List.getElem?_mapIdx,
        reorder_get? h.sys (h.lenS l hF), Equiv.apply_symm_apply]
      cases l[s]? with
      | none => rfl
      | some a => simp [SMat.permuteCols, undo]
  unfold UserModel.relabel
  simp only [h1, h2, h3, h4]

theorem relabelEnv_relabelEnv : relabelEnv σ.symm (undo σ ρ) (relabelEnv σ ρ env) = env := by
  funext t
  cases t with
  | st2 f k e j s i => cases f <;> simp [relabelEnv, undo]
  | lam00 f s i => cases f <;> simp [relabelEnv, undo]
  | _ => rfl

theorem relabelEnv_relabelEnv' : relabelEnv σ ρ (relabelEnv σ.symm (undo σ ρ) env) = env := by
  funext t
  cases t with
  | st2 f k e j s i => cases f <;> simp [relabelEnv, undo]
  | lam00 f s i => cases f <;> simp [relabelEnv, undo]
  | _ => rfl

/-! ### The user's functions -/

theorem relabel_gVal (h : um.Relabels σ ρ) {s : Nat} (hs : s < um.nSys) (i : Nat) (x z p : List ℝ) :
    (um.relabel σ ρ).gVal s i x z p = um.gVal (σ s) i x z p := by
  unfold UserModel.gVal
  rw [relabel_truthy, relabel_gSt h, relabel_Smat h, relabel_cVec h]
  split
  · rfl
  · exact congrArg (- ·) (renumber_sum (h.ltS hs) fun k =>
      (um.Smat (σ s)).entry i k * (um.cVec (σ s)).entry k x z p)

theorem relabel_weight (h : um.Relabels σ ρ) {s : Nat} (hs : s < um.nSys) (i : Nat) (α : Nat → ℝ) :
    regionWeight ((um.relabel σ ρ).Smat s) i (fun k => α (ρ s k)) = regionWeight (um.Smat (σ s)) i α := by
  unfold regionWeight
  rw [relabel_Smat h]
  refine Finset.prod_equiv (ρ s) (fun k => ?_) fun _ _ => rfl
  simp only [Finset.mem_filter, Finset.mem_range]
  exact and_congr_left' (h.ltS hs k).symm

theorem relabel_rhsStewart (h : um.Relabels σ ρ) (row : Nat) (x z u p v : List ℝ) (θ : Nat → Nat → ℝ) :
    (um.relabel σ ρ).rhsStewart row x z u p v (fun s i => θ (σ s) i) = um.rhsStewart row x z u p v θ := by
  unfold UserModel.rhsStewart
  rw [relabel_nSys]
  simp only [relabel_Fmat h]
  exact renumber_sum h.lt fun s => ∑ i ∈ Finset.range (um.Fmat s).nCols,
    (um.Fmat s).entry row i x z u p v * θ s i

theorem relabel_rhsStep (h : um.Relabels σ ρ) (row : Nat) (x z u p v : List ℝ) (α : Nat → Nat → ℝ) :
    (um.relabel σ ρ).rhsStep row x z u p v (fun s k => α (σ s) (ρ s k)) = um.rhsStep row x z u p v α := by
  have e : um.rhsStep row x z u p v α
      = (um.relabel σ ρ).rhsStewart row x z u p v fun s i => regionWeight (um.Smat (σ s)) i (α (σ s)) :=
    (relabel_rhsStewart h row x z u p v fun s i => regionWeight (um.Smat s) i (α s)).symm
  rw [e]
  unfold UserModel.rhsStep UserModel.rhsStewart
  refine Finset.sum_congr rfl fun s hs => Finset.sum_congr rfl fun i _ => ?_
  rw [relabel_nSys] at hs
  beta_reduce
  rw [relabel_weight h (Finset.mem_range.1 hs) i (α (σ s))]

/-! ### Values at the corresponding point -/

/-- The dimensions of the two models. -/
structure RelabelDims (o : PreOpts) (d d' : Dims) (um : UserModel) (σ : Equiv.Perm Nat) : Prop where
  nX : d'.nX = d.nX
  nU : d'.nU = d.nU
  nZ : d'.nZ = d.nZ
  nV : d'.nV = d.nV
  nPtv : d'.nPtv = d.nPtv
  nPgl : d'.nPgl = d.nPgl
  sys' : d'.nSys = um.nSys
  sys : d.nSys = um.nSys
  nF : o.pss = .stewart → ∀ s < um.nSys, d.nF s = (um.Fmat s).nCols
  nF' : o.pss = .stewart → ∀ s < um.nSys, d'.nF s = (um.Fmat (σ s)).nCols
  nC : o.pss = .step → ∀ s < um.nSys, d.nC s = (um.cVec s).len
  nC' : o.pss = .step → ∀ s < um.nSys, d'.nC s = (um.cVec (σ s)).len

theorem relabelEnv_hVal (k e : Nat) : hVal o k e (relabelEnv σ ρ env) = hVal o k e env := by
  unfold hVal; split <;> rfl

theorem relabelEnv_sotVal (k : Nat) : sotVal o k (relabelEnv σ ρ env) = sotVal o k env := by
  unfold sotVal; split <;> rfl

theorem relabelEnv_endX (k e i : Nat) : relabelEnv σ ρ env (endX o k e i) = env (endX o k e i) := by
  unfold endX; split <;> rfl

theorem relabelEnv_startX (k e i : Nat) : relabelEnv σ ρ env (startX o k e i) = env (startX o k e i) := by
  unfold startX
  cases prevFe o k e with
  | none => rfl
  | some q => exact relabelEnv_endX q.1 q.2 i

theorem relabelEnv_xVal (hd : d'.nX = d.nX) (k e j : Nat) :
    xVal o d' k e j (relabelEnv σ ρ env) = xVal o d k e j env := by
  refine ext_getD (by rw [length_xVal, length_xVal, hd]) fun i hi => ?_
  rw [length_xVal] at hi
  rw [xVal_get hi, xVal_get (hd ▸ hi), relabelEnv_startX, relabelEnv_hVal]
  rfl

theorem relabelEnv_xEndVal (hd : d'.nX = d.nX) (k e : Nat) :
    xEndVal o d' k e (relabelEnv σ ρ env) = xEndVal o d k e env := by
  unfold xEndVal
  rw [hd]
  exact List.map_congr_left fun i _ => relabelEnv_endX k e i

theorem relabelEnv_zVal (hd : d'.nZ = d.nZ) (k e j : Nat) :
    zVal d' k e j (relabelEnv σ ρ env) = zVal d k e j env := by unfold zVal; rw [hd]; rfl

theorem relabelEnv_uVal (hd : d'.nU = d.nU) (k : Nat) :
    uVal d' k (relabelEnv σ ρ env) = uVal d k env := by unfold uVal; rw [hd]; rfl

theorem relabelEnv_pVal (hd : d'.nPtv = d.nPtv) (hd2 : d'.nPgl = d.nPgl) (k : Nat) :
    pVal d' k (relabelEnv σ ρ env) = pVal d k env := by unfold pVal; rw [hd, hd2]; rfl

theorem relabelEnv_pGlobVal (hd : d'.nPtv = d.nPtv) (hd2 : d'.nPgl = d.nPgl) (k : Nat) :
    pGlobVal d' k (relabelEnv σ ρ env) = pGlobVal d k env := by unfold pGlobVal; rw [hd, hd2]; rfl

theorem relabelEnv_vVal (hd : d'.nV = d.nV) : vVal d' (relabelEnv σ ρ env) = vVal d env := by
  unfold vVal; rw [hd]; rfl

/-- A pair under its new number corresponds to the old pair. -/
def relabelPair (σ : Equiv.Perm Nat) (ρ : Nat → Equiv.Perm Nat) : Pair → Pair
  | .region s i => .region (σ s) i
  | .neg s i => .neg (σ s) (ρ s i)
  | .pos s i => .pos (σ s) (ρ s i)

theorem relabelEnv_theta (k e j : Nat) (q : Pair) :
    thetaAt k e j (relabelEnv σ ρ env) q = thetaAt k e j env (relabelPair σ ρ q) := by cases q <;> rfl

theorem relabelEnv_lam (k e j : Nat) (q : Pair) :
    lamAt k e j (relabelEnv σ ρ env) q = lamAt k e j env (relabelPair σ ρ q) := by cases q <;> rfl

theorem relabelEnv_lamStart (k e : Nat) (q : Pair) :
    lamStart o k e (relabelEnv σ ρ env) q = lamStart o k e env (relabelPair σ ρ q) := by
  unfold lamStart
  cases prevFe o k e with
  | none => cases q <;> rfl
  | some r => exact relabelEnv_lam _ _ _ _

theorem relabelPair_isPair (h : um.Relabels σ ρ) (hd : RelabelDims o d d' um σ) (q : Pair) :
    IsPair o d (relabelPair σ ρ q) ↔ IsPair o d' q := by
  have key : ∀ s i, (o.pss = .step ∧ σ s < d.nSys ∧ ρ s i < d.nC (σ s)) ↔
      (o.pss = .step ∧ s < d'.nSys ∧ i < d'.nC s) := by
    intro s i
    rw [hd.sys, hd.sys', h.lt]
    refine and_congr_right fun hp => and_congr_right fun hs => ?_
    rw [hd.nC hp _ ((h.lt s).2 hs), hd.nC' hp s hs, h.ltC hs]
  cases q with
  | region s i =>
    show (o.pss = .stewart ∧ σ s < d.nSys ∧ i < d.nF (σ s)) ↔ (o.pss = .stewart ∧ s < d'.nSys ∧ i < d'.nF s)
    rw [hd.sys, hd.sys', h.lt]
    refine and_congr_right fun hp => and_congr_right fun hs => ?_
    rw [hd.nF hp _ ((h.lt s).2 hs), hd.nF' hp s hs]
  | neg s i => exact key s i
  | pos s i => exact key s i

theorem relabelPair_injective : Function.Injective (relabelPair σ ρ) := by
  intro a b hab
  cases a <;> cases b <;> simp only [relabelPair, Pair.region.injEq, Pair.neg.injEq, Pair.pos.injEq,
    EmbeddingLike.apply_eq_iff_eq, reduceCtorEq] at hab ⊢
  · exact hab
  all_goals
    obtain ⟨rfl, h2⟩ := hab
    exact ⟨rfl, (ρ _).injective h2⟩

theorem relabelPair_surjective (q : Pair) : ∃ q', relabelPair σ ρ q' = q := by
  cases q with
  | region s i => exact ⟨.region (σ.symm s) i, by simp [relabelPair]⟩
  | neg s i => exact ⟨.neg (σ.symm s) ((ρ (σ.symm s)).symm i), by simp [relabelPair]⟩
  | pos s i => exact ⟨.pos (σ.symm s) ((ρ (σ.symm s)).symm i), by simp [relabelPair]⟩

theorem nodup_pairList (d : Dims) : (pairList o d).Nodup := by
  have key : ∀ (f : Nat → Nat → Pair) (n : Nat → Nat), (∀ s i s' i', f s i = f s' i' → s = s' ∧ i = i') →
      ((List.range d.nSys).flatMap fun s => (List.range (n s)).map (f s)).Nodup := by
    intro f n hf
    rw [List.nodup_flatMap]
    refine ⟨fun s _ => List.nodup_range.map fun i i' h => (hf _ _ _ _ h).2, ?_⟩
    refine List.Pairwise.imp ?_ (List.nodup_range (n := d.nSys))
    intro s s' hne
    rw [Function.onFun, List.disjoint_left]
    intro q hq hq'
    obtain ⟨i, -, rfl⟩ := List.mem_map.1 hq
    obtain ⟨i', -, h'⟩ := List.mem_map.1 hq'
    exact hne (hf _ _ _ _ h').1.symm
  unfold pairList
  cases o.pss with
  | stewart => exact key _ _ fun s i s' i' h => by simpa using h
  | step =>
    refine List.Nodup.append (key _ _ fun s i s' i' h => by simpa using h)
      (key _ _ fun s i s' i' h => by simpa using h) ?_
    rw [List.disjoint_left]
    intro q hq hq'
    simp only [List.mem_flatMap, List.mem_map] at hq hq'
    obtain ⟨s, -, i, -, rfl⟩ := hq
    obtain ⟨s', -, i', -, h'⟩ := hq'
    cases h'

theorem relabelPair_perm (h : um.Relabels σ ρ) (hd : RelabelDims o d d' um σ) :
    ((pairList o d').map (relabelPair σ ρ)).Perm (pairList o d) := by
  rw [List.perm_ext_iff_of_nodup ((nodup_pairList d').map relabelPair_injective) (nodup_pairList d)]
  intro q
  rw [mem_pairList, List.mem_map]
  constructor
  · rintro ⟨q', hq', rfl⟩
    exact (relabelPair_isPair h hd q').2 (mem_pairList.1 hq')
  · intro hq
    obtain ⟨q', rfl⟩ := relabelPair_surjective (σ := σ) (ρ := ρ) q
    exact ⟨q', mem_pairList.2 ((relabelPair_isPair h hd q').1 hq), rfl⟩

theorem relabelEnv_nuOf (h : um.Relabels σ ρ) (hd : RelabelDims o d d' um σ) (k e : Nat) :
    nuOf o d' k e (relabelEnv σ ρ env) = nuOf o d k e env := by
  unfold nuOf
  have h1 : ∀ e q, sumLam o k e (relabelEnv σ ρ env) q = sumLam o k e env (relabelPair σ ρ q) := by
    intro e q
    unfold sumLam
    rw [relabelEnv_lamStart]
    simp only [relabelEnv_lam]
  have h2 : ∀ e q, sumTheta o k e (relabelEnv σ ρ env) q = sumTheta o k e env (relabelPair σ ρ q) := by
    intro e q
    unfold sumTheta
    simp only [relabelEnv_theta]
  simp only [h1, h2]
  have := ((relabelPair_perm h hd).map fun q => sumLam o k (e - 1) env q * sumLam o k e env q
    + sumTheta o k (e - 1) env q * sumTheta o k e env q).prod_eq
  rw [List.map_map] at this
  exact this

theorem relabel_stageRhs (h : um.Relabels σ ρ) (hd : RelabelDims o d d' um σ) (k e j row : Nat) :
    (um.relabel σ ρ).stageRhs o d' k e j row (relabelEnv σ ρ env) = um.stageRhs o d k e j row env := by
  unfold UserModel.stageRhs
  rw [relabelEnv_xVal hd.nX, relabelEnv_zVal hd.nZ, relabelEnv_uVal hd.nU, relabelEnv_pVal hd.nPtv hd.nPgl,
    relabelEnv_vVal hd.nV]
  cases o.pss with
  | stewart => exact relabel_rhsStewart h row _ _ _ _ _ fun s i => env (.st2 .theta k e j s i)
  | step =>
    cases hF : um.F with
    | some l =>
      have : (um.relabel σ ρ).F = some (reorder σ l) := by unfold UserModel.relabel; simp [hF]
      rw [this]
      exact relabel_rhsStep h row _ _ _ _ _ fun s i => env (.st2 .alpha k e j s i)
    | none => exact absurd hF h.systems

theorem relabel_switching (h : um.Relabels σ ρ) {k e j : Nat} {x z p : List ℝ}
    (hs : um.Switching o k e j x z p env) :
    (um.relabel σ ρ).Switching o k e j x z p (relabelEnv σ ρ env) := by
  unfold UserModel.Switching at hs ⊢
  cases hp : o.pss with
  | stewart =>
    rw [hp] at hs
    intro s hs' i hi
    rw [relabel_nSys] at hs'
    rw [relabel_Fmat h] at hi
    rw [relabel_gVal h hs']
    exact hs (σ s) ((h.lt s).2 hs') i hi
  | step =>
    rw [hp] at hs
    intro s hs' i hi
    rw [relabel_nSys] at hs'
    rw [relabel_cVec h] at hi ⊢
    exact hs (σ s) ((h.lt s).2 hs') (ρ s i) ((h.ltC hs' i).2 hi)

theorem relabel_objective (h : um.Relabels σ ρ) (hd : RelabelDims o d d' um σ) :
    objectiveSpec o d' uo (relabelEnv σ ρ env) = objectiveSpec o d uo env := by
  have h1 : runningCost o d' uo (relabelEnv σ ρ env) = runningCost o d uo env := by
    unfold runningCost
    simp only [relabelEnv_xVal hd.nX, relabelEnv_hVal, relabelEnv_sotVal, relabelEnv_uVal hd.nU,
      relabelEnv_pVal hd.nPtv hd.nPgl, relabelEnv_vVal hd.nV]
    try rfl
  have h2 : stepCosts o d' (relabelEnv σ ρ env) = stepCosts o d env := by
    unfold stepCosts stepCost stepDiff
    simp only [relabelEnv_hVal, relabelEnv_nuOf h hd]
  have h3 : terminalCost o d' uo (relabelEnv σ ρ env) = terminalCost o d uo env := by
    unfold terminalCost
    rw [relabelEnv_xEndVal hd.nX, relabelEnv_pVal hd.nPtv hd.nPgl, relabelEnv_vVal hd.nV]
    try rfl
  unfold objectiveSpec plainObjective
  rw [h1, h2, h3]
  rfl

theorem FeasibleSpec.relabel (hf : FeasibleSpec o d um uo env) (h : um.Relabels σ ρ)
    (hd : RelabelDims o d d' um σ) : FeasibleSpec o d' (um.relabel σ ρ) uo (relabelEnv σ ρ env) where
  bounds := by
    intro s hs
    cases s with
    | st2 f k e j s i =>
      cases f with
      | theta =>
        have := (relabelPair_isPair h hd (.region s i)).2 ⟨hs.1, hs.2.2.2⟩
        exact hf.bounds (.st2 .theta k e j (σ s) i) ⟨hs.1, hs.2.1, hs.2.2.1, this.2⟩
      | lam =>
        have := (relabelPair_isPair h hd (.region s i)).2 ⟨hs.1, hs.2.2.2⟩
        exact hf.bounds (.st2 .lam k e j (σ s) i) ⟨hs.1, hs.2.1, hs.2.2.1, this.2⟩
      | mu =>
        refine hf.bounds (.st2 .mu k e j (σ s) i) ⟨hs.1, hs.2.1, hs.2.2.1, ?_, hs.2.2.2.2⟩
        rw [hd.sys, h.lt, ← hd.sys']
        exact hs.2.2.2.1
      | alpha =>
        have := (relabelPair_isPair h hd (.neg s i)).2 ⟨hs.1, hs.2.2.2⟩
        exact hf.bounds (.st2 .alpha k e j (σ s) (ρ s i)) ⟨hs.1, hs.2.1, hs.2.2.1, this.2⟩
      | lamN =>
        have := (relabelPair_isPair h hd (.neg s i)).2 ⟨hs.1, hs.2.2.2⟩
        exact hf.bounds (.st2 .lamN k e j (σ s) (ρ s i)) ⟨hs.1, hs.2.1, hs.2.2.1, this.2⟩
      | lamP =>
        have := (relabelPair_isPair h hd (.neg s i)).2 ⟨hs.1, hs.2.2.2⟩
        exact hf.bounds (.st2 .lamP k e j (σ s) (ρ s i)) ⟨hs.1, hs.2.1, hs.2.2.1, this.2⟩
    | st1 f k e j i =>
      cases f with
      | v => exact hf.bounds (.st1 .v k e j i) ⟨hs.1, hs.2.1, hs.2.2.1, hd.nX ▸ hs.2.2.2⟩
      | x => exact hf.bounds (.st1 .x k e j i) ⟨hs.1, hs.2.1, hs.2.2.1, hd.nX ▸ hs.2.2.2⟩
      | z => exact hf.bounds (.st1 .z k e j i) ⟨hs.1, hs.2.1, hd.nZ ▸ hs.2.2⟩
    | sElastic => exact hf.bounds .sElastic hs
    | vGlob i => exact hf.bounds (.vGlob i) (show i < d.nV from hd.nV ▸ hs)
    | u k i => exact hf.bounds (.u k i) ⟨hs.1, hd.nU ▸ hs.2⟩
    | sot k => exact hf.bounds (.sot k) hs
    | h k e => exact hf.bounds (.h k e) hs
    | xEnd k e i => exact hf.bounds (.xEnd k e i) ⟨hs.1, hs.2.1, hd.nX ▸ hs.2.2⟩
    | _ => exact absurd hs (by simp [IsVar])
  alg := by
    intro k e hk j hj
    rw [relabelEnv_xVal hd.nX]
    obtain ⟨a1, a2, a3⟩ := hf.alg k e hk j hj
    refine ⟨?_, fun hp s hs => ?_, fun i hi => ?_⟩
    · rw [relabelEnv_zVal hd.nZ, relabelEnv_pVal hd.nPtv hd.nPgl]
      exact relabel_switching h a1
    · rw [relabel_nSys] at hs
      rw [relabel_Fmat h]
      exact a2 hp (σ s) ((h.lt s).2 hs)
    · rw [relabelEnv_zVal hd.nZ, relabelEnv_pVal hd.nPtv hd.nPgl, relabelEnv_uVal hd.nU]
      exact a3 i hi
  rk := by
    intro k e hk j hj i hi
    have := hf.rk k e hk j hj i (hd.nX ▸ hi)
    unfold RkEq at this ⊢
    rw [relabel_stageRhs h hd, relabelEnv_sotVal, relabelEnv_hVal, relabelEnv_startX]
    exact this
  lift := by
    intro hl k e hk j hj i hi
    have := hf.lift hl k e hk j hj i (hd.nX ▸ hi)
    unfold LiftEq at this ⊢
    rw [relabelEnv_startX, relabelEnv_hVal]
    exact this
  cont := by
    intro hl k e hk i hi
    have := hf.cont hl k e hk i (hd.nX ▸ hi)
    unfold EndEq at this ⊢
    rw [relabelEnv_startX, relabelEnv_hVal]
    exact this
  boundary := by
    intro h1 h2 k e hk
    rw [relabelEnv_xEndVal hd.nX, relabelEnv_zVal hd.nZ, relabelEnv_pVal hd.nPtv hd.nPgl]
    exact relabel_switching h (hf.boundary h1 h2 k e hk)
  pathEnd := by
    intro k e hk he
    unfold PathSat
    rw [relabelEnv_xEndVal hd.nX, relabelEnv_xVal hd.nX, relabelEnv_uVal hd.nU, relabelEnv_pVal hd.nPtv hd.nPgl,
      relabelEnv_vVal hd.nV]
    exact hf.pathEnd k e hk he
  pathStage := by
    intro hg k e hk j hj
    unfold PathSat
    rw [relabelEnv_xVal hd.nX, relabelEnv_uVal hd.nU, relabelEnv_pVal hd.nPtv hd.nPgl, relabelEnv_vVal hd.nV]
    exact hf.pathStage hg k e hk j hj
  stageComp := by
    intro k e hk j hj q hq
    rw [relabelEnv_xVal hd.nX, relabelEnv_uVal hd.nU, relabelEnv_pVal hd.nPtv hd.nPgl, relabelEnv_vVal hd.nV,
      relabelEnv_zVal hd.nZ]
    exact hf.stageComp k e hk j hj q hq
  ctrlComp := by
    intro k e hk he q hq
    rw [relabelEnv_uVal hd.nU, relabelEnv_pVal hd.nPtv hd.nPgl, relabelEnv_vVal hd.nV]
    exact hf.ctrlComp k e hk he q hq
  globComp := by
    intro q hq
    rw [relabelEnv_pGlobVal hd.nPtv hd.nPgl, relabelEnv_vVal hd.nV, hd.nPtv]
    exact hf.globComp q hq
  compStd := by
    intro hu k e hk j hj q hq
    rw [relabelEnv_lam, relabelEnv_theta]
    exact hf.compStd hu k e hk j hj _ ((relabelPair_isPair h hd q).2 hq)
  compAll := by
    intro hu hc k e hk j hj q hq
    rw [relabelEnv_lamStart, relabelEnv_theta]
    simp only [relabelEnv_lam]
    exact hf.compAll hu hc k e hk j hj _ ((relabelPair_isPair h hd q).2 hq)
  compSum := by
    intro hu hc k e hk j hj q hq
    rw [relabelEnv_lamStart, relabelEnv_theta]
    simp only [relabelEnv_lam]
    exact hf.compSum hu hc k e hk j hj _ ((relabelPair_isPair h hd q).2 hq)
  stepDirect := by
    intro hu hs k e hk he
    rw [relabelEnv_nuOf h hd, relabelEnv_hVal, relabelEnv_hVal]
    exact hf.stepDirect hu hs k e hk he
  stepDirectComp := by
    intro hu hs k e hk he
    rw [relabelEnv_nuOf h hd, relabelEnv_hVal, relabelEnv_hVal]
    exact hf.stepDirectComp hu hs k e hk he
  stepHComp := by
    intro hu hs k e hk he
    rw [relabelEnv_hVal, relabelEnv_hVal]
    exact hf.stepHComp hu hs k e hk he
  equi := by
    intro hu he k hk
    simp only [relabelEnv_hVal]
    exact hf.equi hu he k hk
  time := by
    intro h1 h2 h3
    simp only [relabelEnv_hVal]
    exact hf.time h1 h2 h3
  freeze := by
    intro t ht h1 h2 k hk
    rw [relabelEnv_xEndVal hd.nX, hd.nX]
    exact hf.freeze t ht h1 h2 k hk
  term := by
    intro i hi
    rw [relabelEnv_xEndVal hd.nX, relabelEnv_pVal hd.nPtv hd.nPgl, relabelEnv_vVal hd.nV]
    exact hf.term i hi

end
end Nosnoc
