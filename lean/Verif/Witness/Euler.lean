import Verif.Witness.Flex
/-
Points of `flexModel` for witnesses that move: implicit Euler (Radau, one stage), DIFFERENTIAL_LIFT_X.
-/
namespace Nosnoc

/-- State `X k e` at the end of element `(k, e)`, derivative `V k e`, on the switching surface. -/
noncomputable def eulerPt (X V h : Nat → Nat → ℝ) (u : Nat → ℝ) (v σ : ℝ) : FlexPt where
  v k e _ := V k e
  z k e _ := - X k e
  x k e _ := X k e
  xEnd k e := X k e
  h := h
  theta _ _ _ _ := 1 / 2
  lam _ _ _ _ := 0
  mu _ _ _ := 0
  lam00 _ := 0
  u := u
  vGlob := v
  sigma := σ
  slack := 0

section
variable {po : PreOpts} {X V h : Nat → Nat → ℝ} {u : Nat → ℝ} {v σ : ℝ}

theorem euler_xVal (hr : po.irkRep = .differentialLiftX) (k e j : Nat) :
    xVal po flexDims k e j (eulerPt X V h u v σ).env = [X k e] := by
  unfold xVal stageX
  rw [if_neg (by rw [hr]; decide)]
  rfl

theorem euler_xEndVal (k e : Nat) :
    xEndVal po flexDims k e (eulerPt X V h u v σ).env = [X k e] := by
  unfold xEndVal endX
  cases ownEnd po <;> rfl

theorem euler_lamAt (k e j : Nat) (q : Pair) : lamAt k e j (eulerPt X V h u v σ).env q = 0 := by
  cases q <;> rfl

theorem euler_lamStart (k e : Nat) (q : Pair) : lamStart po k e (eulerPt X V h u v σ).env q = 0 := by
  unfold lamStart
  cases prevFe po k e with
  | none => cases q <;> rfl
  | some p => exact euler_lamAt _ _ _ q

/-- Feasibility of the point: what remains to be checked are the step lengths and the user's own
constraints. -/
theorem euler_spec {uo : UserOcp} (hp : po.pss = .stewart) (hsot : po.sot = .none)
    (hr : po.irkRep = .differentialLiftX) (hS : po.nS = 1) (hrbe : po.rbe = true)
    (hA : po.aIrk 0 0 = 1)
    (ht : po.timeFreezing = false) (hm : po.mpcc = .scholtesIneq) (hσ : 0 ≤ σ)
    (hu1 : uo.lbu = none) (hu2 : uo.ubu = none) (hx1 : uo.lbx = none)
    (hx2 : uo.ubx = none) (hv1 : uo.lbv = none) (hv2 : uo.ubv = none)
    (hel : po.sElasticMin ≤ 0 ∧ 0 ≤ po.sElasticMax)
    (hstep : ∀ k e, HasFE po k e → X k e = (eulerPt X V h u v σ).env (startX po k e 0)
      + hVal po k e (eulerPt X V h u v σ).env * V k e)
    (hh : po.useFesd = true → ∀ k e, HasFE po k e →
      (1 - po.gammaH) * nominalH po k ≤ h k e ∧ h k e ≤ (1 + po.gammaH) * nominalH po k)
    (hpath : ∀ k e, HasFE po k e → (e + 1 = nfe po k ∨ po.gPathAtFe = true) →
      PathSat uo flexDims k [X k e] (eulerPt X V h u v σ).env)
    (hst : ∀ k e, HasFE po k e → ∀ r ∈ stageComps uo,
      r.a [X k e] [u k] [V k e, -X k e] [] [v] * r.b [X k e] [u k] [V k e, -X k e] [] [v] ≤ σ)
    (hct : ∀ k e, HasFE po k e → e + 1 = po.nFe → ∀ r ∈ ctrlComps uo,
      r.a [] [u k] [] [] [v] * r.b [] [u k] [] [] [v] ≤ σ)
    (hgl : ∀ r ∈ globComps uo, r.a [] [] [] [] [v] * r.b [] [] [] [] [v] ≤ σ)
    (hsd : po.useFesd = true → po.stepEq = .direct → ∀ k e, HasFE po k e → 0 < e →
      nuOf po flexDims k e (eulerPt X V h u v σ).env * (h k e - h k (e - 1)) = 0)
    (hsdc : po.useFesd = true → po.stepEq = .directComplementarity → ∀ k e, HasFE po k e → 0 < e →
      nuOf po flexDims k e (eulerPt X V h u v σ).env * (h k e - h k (e - 1)) ≤ σ)
    (heq : po.useFesd = true → po.equidistant = true → ∀ k < po.nStages,
      ∑ e ∈ Finset.range (nfe po k), h k e = po.terminalTime / po.nStages)
    (htm : 1 < po.nStages → po.useFesd = true → po.equidistant = false →
      ∑ k ∈ Finset.range po.nStages, ∑ e ∈ Finset.range (nfe po k), h k e = po.terminalTime)
    (hterm : ∀ i < uo.nGTerminal,
      uo.gTerminal i [X (po.nStages - 1) (nfe po (po.nStages - 1) - 1)] [] [v] = 0) :
    FeasibleSpec po flexDims flexModel uo (eulerPt X V h u v σ).env := by
  have hval : po.useFesd = true → ∀ k e, hVal po k e (eulerPt X V h u v σ).env = h k e := by
    intro hu k e
    unfold hVal
    rw [hu]
    rfl
  have hz : ∀ k e j, zVal flexDims k e j (eulerPt X V h u v σ).env = [V k e, -X k e] :=
    fun _ _ _ => rfl
  have hu : ∀ k, uVal flexDims k (eulerPt X V h u v σ).env = [u k] := fun _ => rfl
  have hv : vVal flexDims (eulerPt X V h u v σ).env = [v] := rfl
  have hpv : ∀ k, pVal flexDims k (eulerPt X V h u v σ).env = [] := fun _ => rfl
  have hs : (eulerPt X V h u v σ).env .sigma = σ := rfl
  have comp : ∀ xs y, xs.sum * y ≤ σ → Compl po (eulerPt X V h u v σ).env xs y := by
    intro xs y hxy
    unfold Compl CompSat
    simp only [hm, hs]
    exact hxy
  have half : ∀ k e j, (eulerPt X V h u v σ).theta k e j 0 + (eulerPt X V h u v σ).theta k e j 1 = 1 := by
    intro k e j; simp [eulerPt]; norm_num
  have hown : ownEnd po = false := by simp [ownEnd, hr, hrbe]
  constructor
  · refine flex_bounds hp hsot _ hu1 hu2 hx1 hx2 hv1 hv2 hel hh (.inr fun k e j i => ?_)
    simp [eulerPt]
  · intro k e _ j _
    rw [euler_xVal hr]
    exact flex_algebraic hp _ k e j _ (by simp [eulerPt]) (by simp [eulerPt]) (half k e j)
  · intro k e _ j _ i _
    unfold RkEq
    rw [flex_rhs hp _ _ _ _ _ (half k e j), if_neg (by rw [hr]; decide)]
    simp [eulerPt, FlexPt.env, sotVal, hsot, const]
  · intro _ k e hk j hj i hi
    have hi0 : i = 0 := by simpa [dimsOf, flexModel] using hi
    have hj0 : j = 0 := by omega
    subst hi0 hj0
    unfold LiftEq
    rw [hS, Finset.sum_range_one, hA, mul_one]
    exact hstep k e hk
  · intro hc; exact absurd (hown.symm.trans hc) (by decide)
  · intro hc; exact absurd (hrbe.symm.trans hc) (by decide)
  · intro k e hk he
    rw [euler_xVal hr, euler_xEndVal, ite_self]
    exact hpath k e hk he
  · intro _ k e _ j hj
    rw [hrbe, hS] at hj
    simp at hj
  · intro k e hk j _ r hr'
    rw [euler_xVal hr, hu, hz, hv, hpv]
    exact comp _ _ (by simpa using hst k e hk r hr')
  · intro k e hk he r hr
    rw [hu, hv, hpv]
    exact comp _ _ (by simpa using hct k e hk he r hr)
  · intro r hr
    rw [hv]
    exact comp _ _ (by simpa [dimsOf, flexModel, pGlobVal] using hgl r hr)
  · intro _ k e _ j _ q _
    rw [euler_lamAt]
    exact comp _ _ (by simpa using hσ)
  · intro _ _ k e _ j _ q _
    rw [euler_lamStart]
    refine ⟨comp _ _ (by simpa using hσ), fun j' _ => ?_⟩
    rw [euler_lamAt]
    exact comp _ _ (by simpa using hσ)
  · intro _ _ k e _ j _ q _
    simp only [euler_lamStart, euler_lamAt]
    exact comp _ _ (by simpa using hσ)
  · intro hf hs k e hk he
    rw [hval hf, hval hf]
    exact hsd hf hs k e hk he
  · intro hf hs k e hk he
    rw [hval hf, hval hf]
    exact comp _ _ (by simpa using hsdc hf hs k e hk he)
  · intro hf hs k e hk he
    exact comp _ _ (by simpa using hσ)
  · intro hf hq k hk
    simp only [hval hf]
    exact heq hf hq k hk
  · intro h1 hf h3
    simp only [hval hf]
    exact htm h1 hf h3
  · intro _ _ hc; exact absurd (ht.symm.trans hc) (by decide)
  · intro i hi
    rw [euler_xEndVal, hpv, hv]
    exact hterm i hi

end
end Nosnoc
