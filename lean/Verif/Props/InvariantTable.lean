import Verif.Props.Invariant
/-
C121: quadratic functions with the tables of the Gauss-Legendre schemes.
-/
namespace Nosnoc

set_option maxRecDepth 4000 in
/-- The Gauss-Legendre tables satisfy the condition for conserving quadratic functions up to `1e-11`. -/
theorem gauss_symplectic {n : Nat} {t : Tableau} (h : generateButcher n .gaussLegendre = .ok t) :
    ∀ i < n, ∀ j < n, |t.w i * t.w j - t.w i * t.a i j - t.w j * t.a j i| ≤ tabTol := by
  unfold generateButcher at h
  dsimp only at h
  split at h <;> cases h <;> decide +kernel

section
variable {n nX : Nat} {a : Nat → Nat → ℝ} {b : Nat → ℝ} {h : ℝ} {xs xe : List ℝ} {X : Nat → List ℝ}
  {K f : Nat → Nat → ℝ}

/-- Products of two components over a Runge-Kutta step. -/
theorem rk_product (hs : RungeKuttaStep n nX a b h xs X K f xe) {r s : Nat} (hr : r < nX) (hs' : s < nX) :
    xe.getD r 0 * xe.getD s 0 - xs.getD r 0 * xs.getD s 0
      = h * ∑ j ∈ Finset.range n, b j * ((X j).getD r 0 * K j s + K j r * (X j).getD s 0)
      + h ^ 2 * ∑ i ∈ Finset.range n, ∑ j ∈ Finset.range n,
          (b i * b j - b i * a i j - b j * a j i) * (K i r * K j s) := by
  have e1 : ∑ j ∈ Finset.range n, b j * ((X j).getD r 0 * K j s + K j r * (X j).getD s 0)
      = xs.getD r 0 * ∑ j ∈ Finset.range n, b j * K j s + xs.getD s 0 * ∑ j ∈ Finset.range n, b j * K j r
      + h * (∑ j ∈ Finset.range n, ∑ i ∈ Finset.range n, b j * a j i * (K i r * K j s)
        + ∑ i ∈ Finset.range n, ∑ j ∈ Finset.range n, b i * a i j * (K i r * K j s)) := by
    rw [Finset.mul_sum, Finset.mul_sum, ← Finset.sum_add_distrib, ← Finset.sum_add_distrib, Finset.mul_sum,
      ← Finset.sum_add_distrib]
    refine Finset.sum_congr rfl fun j hj => ?_
    have hj := Finset.mem_range.1 hj
    rw [hs.stage j hj r hr, hs.stage j hj s hs', ← Finset.sum_add_distrib]
    have e2 : ∑ i ∈ Finset.range n, (b j * a j i * (K i r * K j s) + b j * a j i * (K j r * K i s))
        = b j * K j s * ∑ i ∈ Finset.range n, a j i * K i r + b j * K j r * ∑ i ∈ Finset.range n, a j i * K i s := by
      rw [Finset.mul_sum, Finset.mul_sum, ← Finset.sum_add_distrib]
      exact Finset.sum_congr rfl fun i _ => by ring
    rw [e2]
    ring
  have e3 : ∑ i ∈ Finset.range n, ∑ j ∈ Finset.range n,
        (b i * b j - b i * a i j - b j * a j i) * (K i r * K j s)
      = (∑ i ∈ Finset.range n, b i * K i r) * (∑ j ∈ Finset.range n, b j * K j s)
        - ∑ i ∈ Finset.range n, ∑ j ∈ Finset.range n, b i * a i j * (K i r * K j s)
        - ∑ j ∈ Finset.range n, ∑ i ∈ Finset.range n, b j * a j i * (K i r * K j s) := by
    rw [Finset.sum_comm (s := Finset.range n) (t := Finset.range n)
      (f := fun j i => b j * a j i * (K i r * K j s)), Finset.sum_mul_sum, ← Finset.sum_sub_distrib,
      ← Finset.sum_sub_distrib]
    refine Finset.sum_congr rfl fun i _ => ?_
    rw [← Finset.sum_sub_distrib, ← Finset.sum_sub_distrib]
    exact Finset.sum_congr rfl fun j _ => by ring
  rw [e1, e3, hs.finish r hr, hs.finish s hs']
  ring

/-- Quadratic functions over a Runge-Kutta step. -/
theorem rk_quad (hs : RungeKuttaStep n nX a b h xs X K f xe) (M : Nat → Nat → ℝ) (c : Nat → ℝ) :
    quadFun nX M c xe - quadFun nX M c xs
      = h * ∑ j ∈ Finset.range n, b j * ∑ i ∈ Finset.range nX, quadGrad nX M c (X j) i * K j i
      + h ^ 2 * ∑ i ∈ Finset.range n, ∑ j ∈ Finset.range n, (b i * b j - b i * a i j - b j * a j i)
          * ∑ r ∈ Finset.range nX, ∑ s ∈ Finset.range nX, M r s * K i r * K j s := by
  have hlin : linFun nX c xe - linFun nX c xs
      = h * ∑ j ∈ Finset.range n, b j * ∑ i ∈ Finset.range nX, c i * K j i := by
    unfold linFun
    rw [← Finset.sum_sub_distrib, Finset.mul_sum,
      Finset.sum_congr (g := fun i => ∑ j ∈ Finset.range n, h * (b j * (c i * K j i))) rfl fun i hi => by
        rw [hs.finish i (Finset.mem_range.1 hi), mul_add, add_sub_cancel_left, Finset.mul_sum, Finset.mul_sum]
        exact Finset.sum_congr rfl fun j _ => by ring,
      Finset.sum_comm]
    refine Finset.sum_congr rfl fun j _ => ?_
    rw [Finset.mul_sum, Finset.mul_sum]
  have hquad : ∑ r ∈ Finset.range nX, ∑ s ∈ Finset.range nX, M r s * xe.getD r 0 * xe.getD s 0
      - ∑ r ∈ Finset.range nX, ∑ s ∈ Finset.range nX, M r s * xs.getD r 0 * xs.getD s 0
      = h * ∑ j ∈ Finset.range n, b j * ∑ r ∈ Finset.range nX, ∑ s ∈ Finset.range nX,
          M r s * ((X j).getD r 0 * K j s + K j r * (X j).getD s 0)
      + h ^ 2 * ∑ i ∈ Finset.range n, ∑ j ∈ Finset.range n, (b i * b j - b i * a i j - b j * a j i)
          * ∑ r ∈ Finset.range nX, ∑ s ∈ Finset.range nX, M r s * K i r * K j s := by
    have e0 : ∑ r ∈ Finset.range nX, ∑ s ∈ Finset.range nX, M r s * xe.getD r 0 * xe.getD s 0
      - ∑ r ∈ Finset.range nX, ∑ s ∈ Finset.range nX, M r s * xs.getD r 0 * xs.getD s 0
      = ∑ r ∈ Finset.range nX, ∑ s ∈ Finset.range nX,
        (h * ∑ j ∈ Finset.range n, b j * (M r s * ((X j).getD r 0 * K j s + K j r * (X j).getD s 0))
        + h ^ 2 * ∑ i ∈ Finset.range n, ∑ j ∈ Finset.range n,
          (b i * b j - b i * a i j - b j * a j i) * (M r s * K i r * K j s)) := by
      rw [← Finset.sum_sub_distrib]
      refine Finset.sum_congr rfl fun r hr => ?_
      rw [← Finset.sum_sub_distrib]
      refine Finset.sum_congr rfl fun s hs' => ?_
      have := rk_product hs (Finset.mem_range.1 hr) (Finset.mem_range.1 hs')
      have e1 : ∑ j ∈ Finset.range n, b j * (M r s * ((X j).getD r 0 * K j s + K j r * (X j).getD s 0))
          = M r s * ∑ j ∈ Finset.range n, b j * ((X j).getD r 0 * K j s + K j r * (X j).getD s 0) := by
        rw [Finset.mul_sum]
        exact Finset.sum_congr rfl fun j _ => by ring
      have e2 : ∑ i ∈ Finset.range n, ∑ j ∈ Finset.range n,
            (b i * b j - b i * a i j - b j * a j i) * (M r s * K i r * K j s)
          = M r s * ∑ i ∈ Finset.range n, ∑ j ∈ Finset.range n,
            (b i * b j - b i * a i j - b j * a j i) * (K i r * K j s) := by
        rw [Finset.mul_sum]
        refine Finset.sum_congr rfl fun i _ => ?_
        rw [Finset.mul_sum]
        exact Finset.sum_congr rfl fun j _ => by ring
      rw [e1, e2]
      linear_combination (M r s) * this
    rw [e0]
    simp only [Finset.sum_add_distrib, ← Finset.mul_sum]
    congr 2
    · rw [Finset.sum_congr rfl fun r _ => Finset.sum_comm, Finset.sum_comm]
      refine Finset.sum_congr rfl fun j _ => ?_
      rw [Finset.mul_sum]
      refine Finset.sum_congr rfl fun r _ => ?_
      rw [Finset.mul_sum]
    · rw [Finset.sum_congr rfl fun r _ => Finset.sum_comm, Finset.sum_comm]
      refine Finset.sum_congr rfl fun i _ => ?_
      rw [Finset.sum_congr rfl fun r _ => Finset.sum_comm, Finset.sum_comm]
      refine Finset.sum_congr rfl fun j _ => ?_
      rw [Finset.mul_sum]
      refine Finset.sum_congr rfl fun r _ => ?_
      rw [Finset.mul_sum]
  have hgrad : ∀ j, ∑ i ∈ Finset.range nX, quadGrad nX M c (X j) i * K j i
      = ∑ r ∈ Finset.range nX, ∑ s ∈ Finset.range nX, M r s * ((X j).getD r 0 * K j s + K j r * (X j).getD s 0)
        + ∑ i ∈ Finset.range nX, c i * K j i := by
    intro j
    unfold quadGrad
    rw [Finset.sum_congr (g := fun i => ∑ s ∈ Finset.range nX, M i s * (K j i * (X j).getD s 0)
        + ∑ s ∈ Finset.range nX, M s i * ((X j).getD s 0 * K j i) + c i * K j i) rfl fun i _ => by
        rw [add_mul, Finset.sum_mul, ← Finset.sum_add_distrib]
        congr 1
        exact Finset.sum_congr rfl fun s _ => by ring,
      Finset.sum_add_distrib, Finset.sum_add_distrib]
    congr 1
    rw [Finset.sum_comm (f := fun i s => M s i * ((X j).getD s 0 * K j i)), ← Finset.sum_add_distrib]
    refine Finset.sum_congr rfl fun r _ => ?_
    rw [← Finset.sum_add_distrib]
    exact Finset.sum_congr rfl fun s _ => by ring
  have hsum : ∑ j ∈ Finset.range n, b j * ∑ i ∈ Finset.range nX, quadGrad nX M c (X j) i * K j i
      = ∑ j ∈ Finset.range n, b j * ∑ r ∈ Finset.range nX, ∑ s ∈ Finset.range nX,
          M r s * ((X j).getD r 0 * K j s + K j r * (X j).getD s 0)
        + ∑ j ∈ Finset.range n, b j * ∑ i ∈ Finset.range nX, c i * K j i := by
    rw [← Finset.sum_add_distrib]
    exact Finset.sum_congr rfl fun j _ => by rw [hgrad]; ring
  unfold quadFun
  rw [hsum]
  linear_combination hquad + hlin

end

section
variable {colloc : IrkScheme → Nat → List ℝ} {o : Opts} {um : UserModel} {uo : Option UserOcp}
  {po : PreOpts} {m : PreModel} {oc : PreOcp} {P : Problem} {env : Env}

/-- C121, quadratic functions with the tables: with DIFFERENTIAL or DIFFERENTIAL_LIFT_X and Gauss-Legendre,
over every element of every feasible point a quadratic function `Σ M_ij x_i x_j + Σ c_i x_i` that is conserved
in every region changes by no more than the rounding of the tables, `1e-11` times the square of the step length
times the sum of `|k_iᵀ M k_j|` over the stage slopes `k_i`. -/
theorem C121_quadratic_table (h : SetupEx colloc o um uo po m oc P) (hf : P.form.Feasible env)
    (hF : o.pss = .stewart → um.F.isSome = true)
    (hS : o.pss = .step → ∀ s < um.nSys, (um.Smat s).IsSign ∧ (um.Smat s).Partition)
    (hrep : o.irkRep ≠ .integral) (hG : o.scheme = .gaussLegendre)
    {M : Nat → Nat → ℝ} {c : Nat → ℝ} (hg : um.AlongField (quadGrad um.nX M c) fun _ _ _ _ _ => 0)
    {k e : Nat} (hk : HasFE po k e) :
    |quadFun um.nX M c (xEndVal po m.dims k e env) - quadFun um.nX M c (startVal po m.dims k e env)|
      ≤ 1 / 10 ^ 11 * hVal po k e env ^ 2 * ∑ i ∈ Finset.range o.nS, ∑ j ∈ Finset.range o.nS,
        |∑ r ∈ Finset.range um.nX, ∑ s ∈ Finset.range um.nX,
          M r s * (sotVal po k env * um.stageRhs po m.dims k e i r env)
            * (sotVal po k env * um.stageRhs po m.dims k e j s env)| := by
  have hr := fun j hj => stageRhs_along h hf hF hS hg (j := j) hk hj
  beta_reduce at hr
  obtain ⟨t, ht, hst⟩ := C17_runge_kutta h hf hrep
  have hst := hst k e hk
  rw [hG] at ht
  have hsym := gauss_symplectic ht
  rw [rk_quad hst M c]
  rw [Finset.sum_eq_zero fun j hj => by
    have hj := Finset.mem_range.1 hj
    rw [Finset.sum_congr (g := fun i => sotVal po k env * (quadGrad um.nX M c (xVal po m.dims k e j env) i
        * um.stageRhs po m.dims k e j i env)) rfl fun i hi => by
        rw [hst.slope j hj i (Finset.mem_range.1 hi)]; ring, ← Finset.mul_sum, hr j hj]
    simp]
  rw [mul_zero, zero_add, abs_mul, abs_of_nonneg (sq_nonneg _), mul_assoc, mul_left_comm, Finset.mul_sum]
  refine mul_le_mul_of_nonneg_left ?_ (sq_nonneg _)
  refine (Finset.abs_sum_le_sum_abs _ _).trans (Finset.sum_le_sum fun i hi => ?_)
  rw [Finset.mul_sum]
  refine (Finset.abs_sum_le_sum_abs _ _).trans (Finset.sum_le_sum fun j hj => ?_)
  rw [abs_mul]
  have hi := Finset.mem_range.1 hi
  have hj := Finset.mem_range.1 hj
  have e1 : ∑ r ∈ Finset.range um.nX, ∑ s ∈ Finset.range um.nX, M r s * env (.st1 .v k e i r) * env (.st1 .v k e j s)
      = ∑ r ∈ Finset.range um.nX, ∑ s ∈ Finset.range um.nX,
          M r s * (sotVal po k env * um.stageRhs po m.dims k e i r env)
            * (sotVal po k env * um.stageRhs po m.dims k e j s env) := by
    refine Finset.sum_congr rfl fun r hr => Finset.sum_congr rfl fun s hs => ?_
    rw [hst.slope i hi r (Finset.mem_range.1 hr), hst.slope j hj s (Finset.mem_range.1 hs)]
  rw [e1]
  refine mul_le_mul_of_nonneg_right ?_ (abs_nonneg _)
  have := hsym i hi j hj
  have h2 : ((|t.w i * t.w j - t.w i * t.a i j - t.w j * t.a j i| : ℚ) : ℝ) ≤ ((tabTol : ℚ) : ℝ) :=
    Rat.cast_le.2 this
  rw [Rat.cast_abs] at h2
  push_cast [tabTol] at h2
  norm_num at h2 ⊢
  exact h2

end

end Nosnoc
