import Verif.Model.VectorField
import Verif.Props.Layout
import Verif.Witness.Jump
import Mathlib.Tactic.Linarith
import Mathlib.Tactic.Positivity
import Mathlib.Tactic.NormNum
/-
C107: the function that is to evaluate the vector field.
-/
namespace Nosnoc

section
variable {colloc : IrkScheme → Nat → List ℝ} {o : Opts} {um : UserModel} {uo : Option UserOcp}
  {po : PreOpts} {m : PreModel} {oc : PreOcp} {P : Problem} {rf : PartialRootFinder} {σ : ℝ} {p : List ℝ}

/-- C107 is violated: the function is created in Stewart mode, and every call of it raises, whatever the root
finder does; if evaluating the indicator functions and the root finder succeed, an `AttributeError`. -/
theorem C107_call_violated (h : Setup colloc o um uo po m oc P) (hp : o.pss = .stewart) :
    ∃ f, createVectorField rf po m σ p = .ok f ∧ (∀ x u z, ∃ e, f x u z = .error e) ∧
      ∀ x u z g, m.gStewartFun.num [x, z, p] = .ok g → (∀ r y, ∃ v, rf r y = .ok v) →
        f x u z = .error .attributeError := by
  have e : po.pss = .stewart := by rw [h.opts]; exact hp
  refine ⟨_, if_neg (by simp [e]), fun x u z => ?_, fun x u z g hg hr => ?_⟩
  · cases h1 : m.gStewartFun.num [x, z, p] with
    | error e => exact ⟨e, rfl⟩
    | ok g =>
      show ∃ e, (do
        let _ ← rf _ _
        .error .attributeError : Except PyErr (List ℝ)) = _
      cases rf (fun y => vfResidual σ g (y.take g.length) (y.getD g.length 0))
          (List.replicate (g.length + 1) 0) with
      | error e => exact ⟨e, rfl⟩
      | ok _ => exact ⟨_, rfl⟩
  · rw [hg]
    show (do
      let _ ← rf _ _
      .error .attributeError : Except PyErr (List ℝ)) = _
    obtain ⟨v, hv⟩ := hr (fun y => vfResidual σ g (y.take g.length) (y.getD g.length 0))
      (List.replicate (g.length + 1) 0)
    rw [hv]
    rfl

/-- C107: not available in Step mode. -/
theorem C107_step (h : Setup colloc o um uo po m oc P) (hp : o.pss = .step) :
    createVectorField rf po m σ p = .error .notImplemented := by
  have e : po.pss = .step := by rw [h.opts]; exact hp
  exact if_pos (by simp [e])

end

/-! The equations given to the root finder. -/

/-- A row vanishes. -/
theorem vfRow_zero {σ lam th : ℝ} : vfRow σ lam th = some 0 ↔
    0 ≤ lam + th ∧ 2 * th * (lam + th) = σ ^ 2 := by
  unfold vfRow
  split
  · rename_i h
    constructor
    · intro h'; cases h'
    · rintro ⟨h1, h2⟩
      nlinarith
  · rename_i h
    have h := not_lt.1 h
    rw [Option.some.injEq, sub_eq_zero]
    constructor
    · intro e
      have h1 : 0 ≤ lam + th := e ▸ Real.sqrt_nonneg _
      have h2 := Real.sq_sqrt h
      rw [e] at h2
      exact ⟨h1, by linarith⟩
    · rintro ⟨h1, h2⟩
      rw [show lam * lam - th * th + σ * σ = (lam + th) ^ 2 by linarith]
      exact Real.sqrt_sq h1

/-- All equations hold. -/
def VfRoot (σ : ℝ) (g th : List ℝ) (mu : ℝ) : Prop := ∀ v ∈ vfResidual σ g th mu, v = some 0

theorem vfRoot_iff {σ mu : ℝ} {g th : List ℝ} (hl : th.length = g.length) : VfRoot σ g th mu ↔
    th.sum = 1 ∧ ∀ i < g.length, 0 ≤ g.getD i 0 - mu + th.getD i 0 ∧
      2 * th.getD i 0 * (g.getD i 0 - mu + th.getD i 0) = σ ^ 2 := by
  unfold VfRoot vfResidual
  simp only [List.mem_append, List.mem_singleton]
  constructor
  · intro h
    refine ⟨by have := h _ (.inr rfl); rw [Option.some.injEq] at this; linarith, fun i hi => ?_⟩
    refine vfRow_zero.1 (h _ (.inl ?_))
    refine List.mem_of_getElem? (i := i) ?_
    have hi' : i < th.length := by omega
    rw [List.getElem?_zipWith, List.getElem?_eq_getElem hi, List.getElem?_eq_getElem hi',
      List.getD_eq_getElem?_getD, List.getD_eq_getElem?_getD, List.getElem?_eq_getElem hi,
      List.getElem?_eq_getElem hi']
    rfl
  · rintro ⟨h1, h2⟩ v (hv | rfl)
    · obtain ⟨i, hi⟩ := List.mem_iff_getElem?.1 hv
      rw [List.getElem?_zipWith] at hi
      by_cases hg : i < g.length
      · have hi' : i < th.length := by omega
        have := h2 i hg
        rw [List.getElem?_eq_getElem hg, List.getElem?_eq_getElem hi'] at hi
        rw [List.getD_eq_getElem?_getD, List.getD_eq_getElem?_getD, List.getElem?_eq_getElem hg,
          List.getElem?_eq_getElem hi'] at this
        rw [← Option.some.inj hi]
        exact vfRow_zero.2 this
      · rw [List.getElem?_eq_none (by omega)] at hi
        cases hi
    · rw [h1, sub_self]

/-- C107 is violated also by the equations: in the interior of a region (its indicator function is smaller
than all others) the convex coefficients should be 1 for this region and 0 for the others, with
`mu` the minimum; this is never a root for the smoothing parameters in use (`σ² ≠ 2`). -/
theorem C107_region_not_root_violated {σ : ℝ} (hσ : σ ^ 2 ≠ 2) {g th : List ℝ} {i : Nat} (hi : i < g.length)
    (hl : th.length = g.length) (h1 : th.getD i 0 = 1) : ¬ VfRoot σ g th (g.getD i 0) := by
  intro h
  obtain ⟨-, h2⟩ := (vfRoot_iff hl).1 h
  have := (h2 i hi).2
  rw [h1] at this
  apply hσ
  linarith

/-- … and, with `σ = 0` and any `mu`, when another indicator function is less than 1 above the
minimum. -/
theorem C107_close_regions_violated {g th : List ℝ} {mu : ℝ} {i j : Nat} (hi : i < g.length) (hj : j < g.length)
    (hij : g.getD j 0 < g.getD i 0 + 1) (hl : th.length = g.length) (h1 : th.getD i 0 = 1)
    (h0 : th.getD j 0 = 0) : ¬ VfRoot 0 g th mu := by
  intro h
  obtain ⟨-, h2⟩ := (vfRoot_iff hl).1 h
  have e1 := (h2 i hi).2
  have e2 := (h2 j hj).1
  rw [h1] at e1
  rw [h0] at e2
  linarith

/-- C107, what holds of the equations: with `σ = 0`, a region whose indicator function is smaller than
all others by at least 1 is selected (with `mu` above the minimum by 1). -/
theorem C107_far_regions_partial {g th : List ℝ} {i : Nat} (hi : i < g.length)
    (hg : ∀ j < g.length, j ≠ i → g.getD i 0 + 1 ≤ g.getD j 0) (hl : th.length = g.length)
    (h1 : th.getD i 0 = 1) (h0 : ∀ j < g.length, j ≠ i → th.getD j 0 = 0) (hs : th.sum = 1) :
    VfRoot 0 g th (g.getD i 0 + 1) := by
  refine (vfRoot_iff hl).2 ⟨hs, fun j hj => ?_⟩
  by_cases hji : j = i
  · subst hji
    rw [h1]
    constructor <;> ring_nf <;> simp
  · rw [h0 j hj hji]
    exact ⟨by linarith [hg j hj hji], by ring⟩

/-- Two regions, the first one 1/2 better: the equations with `σ = 0` give the coefficients 3/4 and 1/4
instead of 1 and 0. -/
example : VfRoot 0 [0, 1 / 2] [3 / 4, 1 / 4] (3 / 4) ∧ ∀ mu, ¬ VfRoot 0 [0, 1 / 2] [1, 0] mu := by
  refine ⟨(vfRoot_iff (g := [0, 1 / 2]) (th := [3 / 4, 1 / 4]) rfl).2 ⟨by norm_num, fun i hi => ?_⟩, fun mu => ?_⟩
  · have : i = 0 ∨ i = 1 := by simp at hi; omega
    rcases this with rfl | rfl <;> norm_num
  · exact C107_close_regions_violated (i := 0) (j := 1) (by simp) (by simp) (by norm_num) rfl rfl rfl

/-- The hypotheses of C107_far_regions_partial are met by two regions with indicator functions 0 and 3. -/
example : VfRoot 0 [0, 3] [1, 0] 1 := by
  have := C107_far_regions_partial (g := [0, 3]) (th := [1, 0]) (i := 0) (by simp)
    (fun j hj h => by
      have : j = 1 := by simp at hj; omega
      subst this; norm_num) rfl rfl
    (fun j hj h => by
      have : j = 1 := by simp at hj; omega
      subst this; rfl) (by norm_num)
  simpa using this

/-- The hypotheses of C107_call_violated are met. -/
example : ∃ po m oc P f, SetupEx oneColloc jumpOpts jumpModel (some UserOcp.trivial) po m oc P ∧
    createVectorField (fun _ y => .ok y) po m 1 [] = .ok f ∧ ∀ x u z, ∃ e, f x u z = .error e := by
  obtain ⟨po, m, oc, P, h, -⟩ := jump_setup
  obtain ⟨f, h1, h2, -⟩ := C107_call_violated (rf := fun _ y => .ok y) (σ := 1) (p := []) h.toSetup rfl
  exact ⟨po, m, oc, P, f, h, h1, h2⟩

end Nosnoc
