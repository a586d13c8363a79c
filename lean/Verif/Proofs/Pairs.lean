import Verif.Proofs.Process
import Verif.Spec.Feasible
/-
Helper lemmas: the complementarity vectors by pairs.
-/
namespace Nosnoc
section
variable {o : PreOpts}

theorem pairList_eq (d : Dims) : pairList o d =
    (List.range d.nSys).flatMap (fun s => (List.range (d.famLen o.pss .lam s)).map (.region s))
    ++ (List.range d.nSys).flatMap (fun s => (List.range (d.famLen o.pss .lamN s)).map (.neg s))
    ++ (List.range d.nSys).flatMap (fun s => (List.range (d.famLen o.pss .lamP s)).map (.pos s)) := by
  unfold pairList
  cases o.pss <;> simp [Dims.famLen]

theorem mem_pairList {d : Dims} {q : Pair} : q ∈ pairList o d ↔ IsPair o d q := by
  unfold pairList
  cases hp : o.pss <;> cases q <;> simp [IsPair, hp]

def lamSymAt (k e j : Nat) : Pair → Sym
  | .region s i => .st2 .lam k e j s i
  | .neg s i => .st2 .lamN k e j s i
  | .pos s i => .st2 .lamP k e j s i

theorem lamSyms_eq (d : Dims) (k e j : Nat) :
    lamSyms o d k e j = (pairList o d).map (lamSymAt k e j) := by
  rw [pairList_eq]
  unfold lamSyms rowSyms
  simp only [List.map_append, List.map_flatMap, List.map_map]
  rfl

theorem lamVec_at (d : Dims) (k e j i : Nat) (hi : i < (pairList o d).length) (env : Env) :
    at' (lamVec o d k e j) i env = lamAt k e j env (pairList o d)[i] := by
  unfold lamVec
  rw [lamSyms_eq]
  simp only [at', vars, List.map_map]
  rw [List.getD_eq_getElem?_getD, List.getElem?_map, List.getElem?_eq_getElem hi]
  cases (pairList o d)[i] <;> rfl

def lam00SymAt : Pair → Sym
  | .region s i => .lam00 .lam s i
  | .neg s i => .lam00 .lamN s i
  | .pos s i => .lam00 .lamP s i

theorem startLam_at (d : Dims) (k e i : Nat) (hi : i < (pairList o d).length) (env : Env) :
    at' (startLam o d k e) i env = lamStart o k e env (pairList o d)[i] := by
  unfold startLam startLamSyms lamStart
  cases prevFe o k e with
  | none =>
    have : lam00Row o d .lam ++ lam00Row o d .lamN ++ lam00Row o d .lamP
        = (pairList o d).map lam00SymAt := by
      rw [pairList_eq]
      unfold lam00Row
      simp only [List.map_append, List.map_flatMap, List.map_map]
      rfl
    simp only [this]
    simp only [at', vars, List.map_map]
    rw [List.getD_eq_getElem?_getD, List.getElem?_map, List.getElem?_eq_getElem hi]
    cases (pairList o d)[i] <;> rfl
  | some q => exact lamVec_at d q.1 q.2 _ i hi env

theorem thetaVec_eq (d : Dims) (k e j : Nat) :
    thetaVec o d k e j = (pairList o d).map fun q env => thetaAt k e j env q := by
  rw [pairList_eq]
  unfold thetaVec rowSyms vars
  simp only [List.map_append, List.map_flatMap, List.map_map]
  cases hp : o.pss <;> simp [Dims.famLen, blk, Function.comp_def, var, thetaAt] <;> rfl

theorem thetaVec_at (d : Dims) (k e j i : Nat) (hi : i < (pairList o d).length) (env : Env) :
    at' (thetaVec o d k e j) i env = thetaAt k e j env (pairList o d)[i] := by
  rw [thetaVec_eq]
  simp [at', hi]

theorem length_pairList (d : Dims) : (pairList o d).length = nLam o d := by
  unfold nLam
  rw [lamSyms_eq, List.length_map]

/-- Quantifying over components of the vectors is quantifying over pairs. -/
theorem forall_pairs {d : Dims} {P : Pair → Prop} :
    (∀ i (hi : i < (pairList o d).length), P (pairList o d)[i]) ↔ ∀ q, IsPair o d q → P q := by
  constructor
  · intro H q hq
    obtain ⟨i, hi, rfl⟩ := List.mem_iff_getElem.1 (mem_pairList.2 hq)
    exact H i hi
  · intro H i hi
    exact H _ (mem_pairList.1 (List.getElem_mem hi))

theorem allLam_at (d : Dims) (k e i : Nat) (hi : i < (pairList o d).length) (env : Env) :
    (allLam o d k e).map (fun x => at' x i env)
      = (List.range (nLamPts o k e)).map (fun j => lamAt k e j env (pairList o d)[i])
        ++ [lamStart o k e env (pairList o d)[i]] := by
  unfold allLam nLamPts
  rw [extraPt_eq]
  rw [List.map_append, List.map_map]
  congr 1
  · apply List.map_congr_left
    intro j _
    exact lamVec_at d k e j i hi env
  · simp [startLam_at d k e i hi env]

theorem sumLam_eq (d : Dims) (k e i : Nat) (hi : i < (pairList o d).length) (env : Env) :
    sumAt (allLam o d k e) i env = sumLam o k e env (pairList o d)[i] := by
  unfold sumAt
  rw [allLam_at d k e i hi, List.sum_append]
  simp [sumLam]

theorem sumTheta_eq (d : Dims) (k e i : Nat) (hi : i < (pairList o d).length) (env : Env) :
    sumAt (allTheta o d k e) i env = sumTheta o k e env (pairList o d)[i] := by
  unfold sumAt allTheta sumTheta
  rw [List.map_map]
  congr 1
  apply List.map_congr_left
  intro j _
  exact thetaVec_at d k e j i hi env

theorem nuVal_eq (d : Dims) (k e : Nat) (env : Env) : nuVal o d k e env = nuOf o d k e env := by
  unfold nuVal nuOf
  rw [← length_pairList, ← prod_map_range]
  congr 1
  apply List.ext_getElem
  · simp
  · intro i h1 h2
    simp only [List.length_map, List.length_range] at h1
    simp only [List.getElem_map, List.getElem_range]
    rw [sumLam_eq d k _ i h1, sumLam_eq d k _ i h1, sumTheta_eq d k _ i h1, sumTheta_eq d k _ i h1]

end
end Nosnoc
