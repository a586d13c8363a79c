import Verif.Props.Layout
import Verif.Model.CompRes
/-
Helper lemmas for the cross complementarity properties.
-/
namespace Nosnoc

/-- The modes whose multipliers are bounded below by 0. -/
def SignedMode (mode : MpccMode) : Prop :=
  mode = .scholtesEq ∨ mode = .scholtesIneq ∨ mode = .elasticIneq ∨ mode = .elasticEq

theorem le_foldl_max (l : List ℝ) (a : ℝ) : a ≤ l.foldl max a ∧ ∀ x ∈ l, x ≤ l.foldl max a := by
  induction l generalizing a with
  | nil => simp
  | cons b l ih =>
    obtain ⟨h1, h2⟩ := ih (max a b)
    refine ⟨(le_max_left a b).trans h1, fun x hx => ?_⟩
    rcases List.mem_cons.1 hx with rfl | hx
    · exact (le_max_right a x).trans h1
    · exact h2 x hx

theorem foldl_max_mem (l : List ℝ) (a : ℝ) : l.foldl max a = a ∨ l.foldl max a ∈ l := by
  induction l generalizing a with
  | nil => simp
  | cons b l ih =>
    rcases ih (max a b) with h | h
    · simp only [List.foldl_cons]
      rw [h]
      rcases max_choice a b with h' | h' <;> rw [h'] <;> simp
    · exact .inr (List.mem_cons_of_mem _ h)

theorem le_mmax {v : List ℝ} {x : ℝ} (hx : x ∈ v) : x ≤ mmax v := by
  cases v with
  | nil => simp at hx
  | cons a l =>
    rcases List.mem_cons.1 hx with rfl | hx
    · exact (le_foldl_max l x).1
    · exact (le_foldl_max l a).2 x hx

theorem mmax_mem {v : List ℝ} (h : v ≠ []) : mmax v ∈ v := by
  cases v with
  | nil => exact absurd rfl h
  | cons a l =>
    rcases foldl_max_mem l a with h | h
    · simp only [mmax]; rw [h]; simp
    · exact List.mem_cons_of_mem _ h

section
variable {colloc : IrkScheme → Nat → List ℝ} {o : Opts} {um : UserModel} {uo : Option UserOcp}
  {po : PreOpts} {m : PreModel} {oc : PreOcp} {P : Problem} {env : Env} {d : Dims}

theorem mem_vmul {a b : Vec} {x : Expr} : x ∈ vmul a b ↔ ∃ i, i < a.length ∧ i < b.length ∧
    x = fun env => at' a i env * at' b i env := by
  unfold vmul
  constructor
  · intro hx
    obtain ⟨i, hi, rfl⟩ := List.mem_iff_getElem.1 hx
    simp at hi
    refine ⟨i, hi.1, hi.2, ?_⟩
    funext env
    simp [at', hi.1, hi.2]
  · rintro ⟨i, h1, h2, rfl⟩
    refine List.mem_iff_getElem.2 ⟨i, by simp; omega, ?_⟩
    funext env
    simp [at', h1, h2]

theorem length_lamVec' (d : Dims) (k e j : Nat) :
    (lamVec po d k e j).length = (pairList po d).length := by
  unfold lamVec
  rw [lamSyms_eq]; simp [vars]

theorem length_thetaVec' (d : Dims) (k e j : Nat) :
    (thetaVec po d k e j).length = (pairList po d).length := by rw [thetaVec_eq]; simp

theorem length_startLam' (d : Dims) (k e : Nat) :
    (startLam po d k e).length = (pairList po d).length := by
  rw [length_pairList]
  exact length_startLam ..

theorem mem_vmul_pairs {a b : Vec} {x : Expr} {φ ψ : Env → Pair → ℝ}
    (ha : a.length = (pairList po d).length) (hb : b.length = (pairList po d).length)
    (h1 : ∀ i (hi : i < (pairList po d).length) env, at' a i env = φ env (pairList po d)[i])
    (h2 : ∀ i (hi : i < (pairList po d).length) env, at' b i env = ψ env (pairList po d)[i]) :
    x ∈ vmul a b ↔ ∃ q, IsPair po d q ∧ x = fun env => φ env q * ψ env q := by
  rw [mem_vmul]
  constructor
  · rintro ⟨i, hi, _, rfl⟩
    rw [ha] at hi
    exact ⟨_, mem_pairList.1 (List.getElem_mem hi), by funext env; rw [h1 i hi, h2 i hi]⟩
  · rintro ⟨q, hq, rfl⟩
    obtain ⟨i, hi, rfl⟩ := List.mem_iff_getElem.1 (mem_pairList.2 hq)
    exact ⟨i, by omega, by omega, by funext env; rw [h1 i hi, h2 i hi]⟩

/-- The entries of the vector whose maximum is the complementarity residual. -/
theorem Setup.compVec_mem (h : Setup colloc o um uo po m oc P) {x : Expr} : x ∈ P.compVec ↔
    ∃ k e j q, HasFE po k e ∧ j < po.nS ∧ IsPair po m.dims q ∧
      if po.useFesd then
        (x = fun env => thetaAt k e j env q * lamStart po k e env q) ∨
        ∃ j' < po.nS, x = fun env => thetaAt k e j env q * lamAt k e j' env q
      else x = fun env => thetaAt k e j env q * lamAt k e j env q := by
  have hb := h.built
  have hP : P.compVec = (allFE po).flatMap fun q => compVecOf po m.dims q.1 q.2 := by
    rw [hb.eq]; rfl
  have mS : ∀ k e j, x ∈ vmul (thetaVec po m.dims k e j) (startLam po m.dims k e) ↔
      ∃ q, IsPair po m.dims q ∧ x = fun env => thetaAt k e j env q * lamStart po k e env q :=
    fun k e j => mem_vmul_pairs (length_thetaVec' ..) (length_startLam' ..)
      (fun i hi env => thetaVec_at _ k e j i hi env) (fun i hi env => startLam_at _ k e i hi env)
  have mL : ∀ k e j j', x ∈ vmul (thetaVec po m.dims k e j) (lamVec po m.dims k e j') ↔
      ∃ q, IsPair po m.dims q ∧ x = fun env => thetaAt k e j env q * lamAt k e j' env q :=
    fun k e j j' => mem_vmul_pairs (length_thetaVec' ..) (length_lamVec' ..)
      (fun i hi env => thetaVec_at _ k e j i hi env) (fun i hi env => lamVec_at _ k e j' i hi env)
  rw [hP]
  constructor
  · intro hx
    obtain ⟨⟨k, e⟩, hke, hx⟩ := List.mem_flatMap.1 hx
    have hk : HasFE po k e := mem_allFE.1 hke
    unfold compVecOf at hx
    split at hx
    · rename_i hu
      obtain ⟨j, hj, hx⟩ := List.mem_flatMap.1 hx
      rcases List.mem_append.1 hx with hx | hx
      · obtain ⟨q, hq, rfl⟩ := (mS k e j).1 hx
        exact ⟨k, e, j, q, hk, List.mem_range.1 hj, hq, by rw [if_pos hu]; exact .inl rfl⟩
      · obtain ⟨j', hj', hx⟩ := List.mem_flatMap.1 hx
        obtain ⟨q, hq, rfl⟩ := (mL k e j j').1 hx
        exact ⟨k, e, j, q, hk, List.mem_range.1 hj, hq, by
          rw [if_pos hu]; exact .inr ⟨j', List.mem_range.1 hj', rfl⟩⟩
    · rename_i hu
      obtain ⟨j, hj, hx⟩ := List.mem_flatMap.1 hx
      obtain ⟨q, hq, rfl⟩ := (mL k e j j).1 hx
      exact ⟨k, e, j, q, hk, List.mem_range.1 hj, hq, by rw [if_neg hu]⟩
  · rintro ⟨k, e, j, q, hk, hj, hq, hx⟩
    refine List.mem_flatMap.2 ⟨(k, e), mem_allFE.2 hk, ?_⟩
    unfold compVecOf
    by_cases hu : po.useFesd = true
    · rw [if_pos hu] at hx ⊢
      refine List.mem_flatMap.2 ⟨j, List.mem_range.2 hj, List.mem_append.2 ?_⟩
      rcases hx with rfl | ⟨j', hj', rfl⟩
      · exact .inl ((mS k e j).2 ⟨q, hq, rfl⟩)
      · exact .inr (List.mem_flatMap.2 ⟨j', List.mem_range.2 hj', (mL k e j j').2 ⟨q, hq, rfl⟩⟩)
    · rw [if_neg hu] at hx ⊢
      subst hx
      exact List.mem_flatMap.2 ⟨j, List.mem_range.2 hj, (mL k e j j).2 ⟨q, hq, rfl⟩⟩

/-- Signs of multipliers from the variable bounds. -/
theorem lamAt_nonneg {uo : UserOcp} (hm : SignedMode po.mpcc)
    (hb : ∀ s, IsVar po d s → (varDoc po um uo s).lb ≤ ((env s : ℝ) : EReal) ∧
      ((env s : ℝ) : EReal) ≤ (varDoc po um uo s).ub)
    {k e j : Nat} (hk : HasFE po k e) (hj : j < nLamPts po k e) {q : Pair} (hq : IsPair po d q) :
    0 ≤ lamAt k e j env q := by
  have h0 : dualLb po.mpcc = 0 := by unfold dualLb; exact if_pos hm
  cases q with
  | region s i =>
    have := (hb (.st2 .lam k e j s i) ⟨hq.1, hk, hj, hq.2.1, hq.2.2⟩).1
    simp only [varDoc, h0] at this
    exact zero_le_ecoe.1 this
  | neg s i =>
    have := (hb (.st2 .lamN k e j s i) ⟨hq.1, hk, hj, hq.2.1, hq.2.2⟩).1
    simp only [varDoc, h0] at this
    exact zero_le_ecoe.1 this
  | pos s i =>
    have := (hb (.st2 .lamP k e j s i) ⟨hq.1, hk, hj, hq.2.1, hq.2.2⟩).1
    simp only [varDoc, h0] at this
    exact zero_le_ecoe.1 this

theorem thetaAt_nonneg {uo : UserOcp} (hm : SignedMode po.mpcc)
    (hb : ∀ s, IsVar po d s → (varDoc po um uo s).lb ≤ ((env s : ℝ) : EReal) ∧
      ((env s : ℝ) : EReal) ≤ (varDoc po um uo s).ub)
    {k e j : Nat} (hk : HasFE po k e) (hj : j < po.nS) {q : Pair} (hq : IsPair po d q) :
    0 ≤ thetaAt k e j env q := by
  have h0 : dualLb po.mpcc = 0 := by unfold dualLb; exact if_pos hm
  cases q with
  | region s i =>
    have := (hb (.st2 .theta k e j s i) ⟨hq.1, hk, hj, hq.2.1, hq.2.2⟩).1
    simp only [varDoc, h0] at this
    exact zero_le_ecoe.1 this
  | neg s i =>
    have := (hb (.st2 .alpha k e j s i) ⟨hq.1, hk, hj, hq.2.1, hq.2.2⟩).1
    simp only [varDoc, h0] at this
    exact zero_le_ecoe.1 this
  | pos s i =>
    have := (hb (.st2 .alpha k e j s i) ⟨hq.1, hk, hj, hq.2.1, hq.2.2⟩).2
    simp only [varDoc, ← EReal.coe_one, EReal.coe_le_coe_iff] at this
    simp only [thetaAt]
    linarith

theorem lastLam_lt (hn : 0 < po.nS) (k e : Nat) : lastLam po k e < nLamPts po k e := by
  unfold lastLam nLamPts; omega

theorem HasFE.prev {k e k' e' : Nat} (hk : HasFE po k e) (hp : prevFe po k e = some (k', e'))
    (hpos : ∀ k < po.nStages, 0 < nfe po k) : HasFE po k' e' := by
  unfold prevFe at hp
  split at hp
  · cases hp; exact ⟨hk.1, by have := hk.2; omega⟩
  · split at hp
    · cases hp
      have h1 : k - 1 < po.nStages := by have := hk.1; omega
      have := hpos _ h1
      exact ⟨h1, by omega⟩
    · cases hp

theorem lamStart_nonneg {uo : UserOcp} (hm : SignedMode po.mpcc) (hn : 0 < po.nS)
    (hpos : ∀ k < po.nStages, 0 < nfe po k)
    (hb : ∀ s, IsVar po d s → (varDoc po um uo s).lb ≤ ((env s : ℝ) : EReal) ∧
      ((env s : ℝ) : EReal) ≤ (varDoc po um uo s).ub)
    (h0 : ∀ q, IsPair po d q → 0 ≤ lam00At env q)
    {k e : Nat} (hk : HasFE po k e) {q : Pair} (hq : IsPair po d q) :
    0 ≤ lamStart po k e env q := by
  unfold lamStart
  cases hp : prevFe po k e with
  | none => exact h0 q hq
  | some p =>
    obtain ⟨k', e'⟩ := p
    exact lamAt_nonneg hm hb (hk.prev hp hpos) (lastLam_lt hn _ _) hq

theorem Setup.nfe_pos (h : Setup colloc o um uo po m oc P) : ∀ k < po.nStages, 0 < nfe po k :=
  fun k hk => (h.built.ok.primal.nfe k hk).2

end
end Nosnoc
