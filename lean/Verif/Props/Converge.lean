import Verif.Props.Clock
import Verif.Proofs.RkConv
/-
C110: for smooth dynamics the reported trajectories converge to the solution of the differential equation.
-/
namespace Nosnoc
open Polynomial

section
variable {colloc : IrkScheme → Nat → List ℝ} {o : Opts} {um : UserModel} {uo : Option UserOcp}
  {po : PreOpts} {m : PreModel} {oc : PreOcp} {P : Problem} {orc : Oracle} {S : Solver}
  {r : SolveResult} {env : Env}

/-- Collocation tableaus integrate polynomials exactly. -/
theorem colloc_stageOrder {points : List ℝ} {n : Nat} (hc : CollocOk points n)
    (hin : ∀ t ∈ points, 0 ≤ t ∧ t ≤ 1) :
    StageOrder n (collocA points) (collocB points) (fun j => points.getD j 0) 0 := by
  have hlen := hc.length
  have hnd := (List.nodup_cons.1 hc.nodup).2
  have key : ∀ q < n, ∀ s : ℝ, ∑ r ∈ Finset.range n, (∫ t in (0 : ℝ)..s, (collocBasis points r).eval t)
      * points.getD r 0 ^ q = s ^ (q + 1) / ((q : ℝ) + 1) := by
    intro q hq s
    have hp : (C ((q : ℝ) + 1)⁻¹ * X ^ (q + 1) : ℝ[X]).natDegree ≤ points.length := by
      refine (natDegree_C_mul_le _ _).trans ?_
      rw [natDegree_X_pow]
      omega
    have hq0 : (q : ℝ) + 1 ≠ 0 := by positivity
    have := poly_step hnd hp (d := fun r => points.getD r 0 ^ q) (fun r hr => by
      simp [derivative_X_pow]
      field_simp) s
    simp at this
    rw [hlen] at this
    rw [div_eq_inv_mul, this]
    refine Finset.sum_congr rfl fun r _ => ?_
    rw [List.getD_eq_getElem?_getD]
    ring
  refine ⟨fun j hj => ?_, fun j hj q hq => ?_, fun q hq => ?_⟩
  · refine hin _ ?_
    rw [List.getD_eq_getElem?_getD, List.getElem?_eq_getElem (by omega)]
    exact List.getElem_mem _
  · rw [show ∑ r ∈ Finset.range n, collocA points j r * points.getD r 0 ^ q = _ from key q hq _]
    simp
  · rw [show ∑ r ∈ Finset.range n, collocB points r * points.getD r 0 ^ q = _ from key q hq 1]
    simp

/-- The coefficients of the Runge-Kutta methods of all representations. -/
theorem rk_form_cases {sc : IrkScheme} {n : Nat} {rep : IrkRep} (hn : 0 < n)
    (hcol : rep = .integral → CollocOk (colloc sc n) n ∧ ∀ t ∈ colloc sc n, 0 ≤ t ∧ t ≤ 1)
    (hgen : rep ≠ .integral → ∃ t, generateButcher n sc = .ok t) :
    ∃ (a : Nat → Nat → ℝ) (b c : Nat → ℝ) (δ : ℝ), StageOrder n a b c δ ∧
      δ = (if rep = .integral then 0 else 1 / 10 ^ 11) ∧
      ((rep = .integral → a = collocA (colloc sc n)) ∧
        (rep ≠ .integral → ∀ t, generateButcher n sc = .ok t → a = fun i j => ((t.a i j : ℚ) : ℝ))) ∧
      ∀ {o : Opts} {um : UserModel} {uo : Option UserOcp} {po : PreOpts} {m : PreModel} {oc : PreOcp}
        {P : Problem} {env : Env}, SetupEx colloc o um uo po m oc P → o.scheme = sc → o.nS = n →
        o.irkRep = rep → P.form.Feasible env → ∀ k e, HasFE po k e →
        (∀ j < n, ∀ i < um.nX, (xVal po m.dims k e j env).getD i 0 = (startVal po m.dims k e env).getD i 0
          + hVal po k e env * ∑ r ∈ Finset.range n,
            a j r * (sotVal po k env * um.stageRhs po m.dims k e r i env)) ∧
        ∀ i < um.nX, (xEndVal po m.dims k e env).getD i 0 = (startVal po m.dims k e env).getD i 0
          + hVal po k e env * ∑ r ∈ Finset.range n,
            b r * (sotVal po k env * um.stageRhs po m.dims k e r i env) := by
  by_cases hr : rep = .integral
  · obtain ⟨hc, hin⟩ := hcol hr
    refine ⟨_, _, _, _, colloc_stageOrder hc hin, by rw [if_pos hr],
      ⟨fun _ => rfl, fun hc => absurd hr hc⟩, ?_⟩
    intro o um uo po m oc P env h e1 e2 e3 hf k e hk
    subst e1 e2 e3
    have hcs := C17_collocation h hf hr hc hk
    have hnd := (List.nodup_cons.1 hc.nodup).2
    have hlen := hc.length
    constructor
    · intro j hj i hi
      obtain ⟨p, p1, p2, p3, p4⟩ := hcs i hi
      have := poly_step hnd (by rw [hlen]; exact p1) (fun r hr => (p4 r (by omega)).2)
        ((colloc o.scheme o.nS).getD j 0)
      rw [(p4 j hj).1, p2, hlen] at this
      rw [this, Finset.mul_sum]
      congr 1
      refine Finset.sum_congr rfl fun r _ => ?_
      unfold collocA
      ring
    · intro i hi
      obtain ⟨p, p1, p2, p3, p4⟩ := hcs i hi
      have := poly_step hnd (by rw [hlen]; exact p1) (fun r hr => (p4 r (by omega)).2) 1
      rw [p3, p2, hlen] at this
      rw [this, Finset.mul_sum]
      congr 1
      refine Finset.sum_congr rfl fun r _ => ?_
      unfold collocB
      ring
  · obtain ⟨t, ht⟩ := hgen hr
    have hv := C20_valid ht
    have ho : n ≤ t.order := by
      rw [C20_order ht]
      unfold schemeOrder
      split <;> omega
    have cast : ∀ q : ℚ, |q| ≤ tabTol → |((q : ℚ) : ℝ)| ≤ 1 / 10 ^ 11 := by
      intro q hq
      have : ((|q| : ℚ) : ℝ) ≤ ((tabTol : ℚ) : ℝ) := Rat.cast_le.2 hq
      rw [Rat.cast_abs] at this
      simpa [tabTol] using this
    refine ⟨fun i j => ((t.a i j : ℚ) : ℝ), fun j => ((t.w j : ℚ) : ℝ), fun j => ((t.node j : ℚ) : ℝ), _,
      ⟨fun j hj => ?_, fun j hj q hq => ?_, fun q hq => ?_⟩, by rw [if_neg hr],
      ⟨fun hc => absurd hc hr, fun _ t' ht' => by rw [ht] at ht'; injection ht' with ht'; rw [ht']⟩, ?_⟩
    · have := hv.inside j hj
      exact ⟨by exact_mod_cast this.1.le, by exact_mod_cast this.2⟩
    · have := cast _ (hv.stageOrder j hj q hq)
      push_cast at this
      exact this
    · have := cast _ (hv.quadrature q (by omega))
      push_cast at this
      exact this
    · intro o um uo po m oc P env h e1 e2 e3 hf k e hk
      subst e1 e2 e3
      obtain ⟨t', ht', hst⟩ := C17_runge_kutta h hf hr
      obtain rfl : t' = t := by rw [ht] at ht'; injection ht' with ht'; exact ht'.symm
      have hst := hst k e hk
      constructor
      · intro j hj i hi
        rw [hst.stage j hj i hi]
        congr 2
        refine Finset.sum_congr rfl fun r hr => ?_
        rw [hst.slope r (Finset.mem_range.1 hr) i hi]
      · intro i hi
        rw [hst.finish i hi]
        congr 2
        refine Finset.sum_congr rfl fun r hr => ?_
        rw [hst.slope r (Finset.mem_range.1 hr) i hi]

/-- All representations are Runge-Kutta methods with stage order `n`, and the coefficients depend on the
scheme, the number of stages and the representation only. -/
theorem rk_form {sc : IrkScheme} {n : Nat} {rep : IrkRep} (hn : 0 < n)
    (hcol : rep = .integral → CollocOk (colloc sc n) n ∧ ∀ t ∈ colloc sc n, 0 ≤ t ∧ t ≤ 1)
    (hgen : rep ≠ .integral → ∃ t, generateButcher n sc = .ok t) :
    ∃ (a : Nat → Nat → ℝ) (b c : Nat → ℝ) (δ : ℝ), StageOrder n a b c δ ∧
      δ = (if rep = .integral then 0 else 1 / 10 ^ 11) ∧
      ∀ {o : Opts} {um : UserModel} {uo : Option UserOcp} {po : PreOpts} {m : PreModel} {oc : PreOcp}
        {P : Problem} {env : Env}, SetupEx colloc o um uo po m oc P → o.scheme = sc → o.nS = n →
        o.irkRep = rep → P.form.Feasible env → ∀ k e, HasFE po k e →
        (∀ j < n, ∀ i < um.nX, (xVal po m.dims k e j env).getD i 0 = (startVal po m.dims k e env).getD i 0
          + hVal po k e env * ∑ r ∈ Finset.range n,
            a j r * (sotVal po k env * um.stageRhs po m.dims k e r i env)) ∧
        ∀ i < um.nX, (xEndVal po m.dims k e env).getD i 0 = (startVal po m.dims k e env).getD i 0
          + hVal po k e env * ∑ r ∈ Finset.range n,
            b r * (sotVal po k env * um.stageRhs po m.dims k e r i env) := by
  obtain ⟨a, b, c, δ, h1, h2, -, h4⟩ := rk_form_cases (colloc := colloc) hn hcol hgen
  exact ⟨a, b, c, δ, h1, h2, h4⟩

/-- One element whose stages follow the vector field `f` up to `η`: errors are propagated and a local error is
added. -/
theorem element_error {n : Nat} {a : Nat → Nat → ℝ} {b c : Nat → ℝ} {δ A L D h t η : ℝ} (hη : 0 ≤ η) (hn : 0 < n)
    (ho : StageOrder n a b c δ) (hA : ∀ j < n, ∑ r ∈ Finset.range n, |a j r| ≤ A)
    (hB : ∑ r ∈ Finset.range n, |b r| ≤ A) {nX : Nat} {xs xe : List ℝ} {X : Nat → List ℝ}
    {K : Nat → Nat → ℝ}
    (hX : ∀ j < n, ∀ i < nX, (X j).getD i 0 = xs.getD i 0 + h * ∑ r ∈ Finset.range n, a j r * K r i)
    (hE : ∀ i < nX, xe.getD i 0 = xs.getD i 0 + h * ∑ r ∈ Finset.range n, b r * K r i)
    {f : (Fin nX → ℝ) → Fin nX → ℝ} (hK : ∀ j < n, ∀ i : Fin nX, |K j i - f (toVec nX (X j)) i| ≤ η)
    (hL : ∀ x y, ‖f x - f y‖ ≤ L * ‖x - y‖) (hL0 : 0 ≤ L) {φ : ℝ → Fin nX → ℝ}
    (hs : SmoothSolution n D f φ t (t + h)) (hh : 0 ≤ h) (h1 : h ≤ 1) (hAL : h * (A * L) ≤ 1 / 2) :
    ‖toVec nX xe - φ (t + h)‖
      ≤ Real.exp (2 * A * L * h)
        * (‖toVec nX xs - φ t‖ + h * (D * ((1 + A) * h ^ n + n * δ) + A * η)) := by
  refine (rk_step hn hh h1 hs ho hA hB hL hL0 hAL (X := fun j => toVec nX (X j)) (K := fun r i => K r i)
    (fun r hr => ?_) (fun j hj => ?_) ?_).2
  · rw [pi_norm_le_iff_of_nonneg hη]
    exact fun i => hK r hr i
  · funext i
    simp only [toVec, Pi.add_apply, Pi.smul_apply, Finset.sum_apply, smul_eq_mul]
    exact hX j hj i i.2
  · funext i
    simp only [toVec, Pi.add_apply, Pi.smul_apply, Finset.sum_apply, smul_eq_mul]
    exact hE i i.2

theorem coeff_bound (n : Nat) (a : Nat → Nat → ℝ) (b : Nat → ℝ) : ∃ A, 0 ≤ A ∧
    (∀ j < n, ∑ r ∈ Finset.range n, |a j r| ≤ A) ∧ ∑ r ∈ Finset.range n, |b r| ≤ A := by
  have nn : ∀ w : Nat → ℝ, 0 ≤ ∑ r ∈ Finset.range n, |w r| := fun w => Finset.sum_nonneg fun _ _ => abs_nonneg _
  refine ⟨∑ j ∈ Finset.range n, ∑ r ∈ Finset.range n, |a j r| + ∑ r ∈ Finset.range n, |b r|,
    add_nonneg (Finset.sum_nonneg fun j _ => nn _) (nn _), fun j hj => ?_, ?_⟩
  · refine le_trans ?_ (le_add_of_nonneg_right (nn _))
    exact Finset.single_le_sum (f := fun j => ∑ r ∈ Finset.range n, |a j r|) (fun j _ => nn _)
      (Finset.mem_range.2 hj)
  · exact le_add_of_nonneg_left (Finset.sum_nonneg fun j _ => nn _)

theorem toVec_ofFn {n : Nat} {l : List ℝ} (hl : l.length = n) : List.ofFn (toVec n l) = l := by
  subst hl
  refine List.ext_getElem (by simp) fun i h1 h2 => ?_
  simp [toVec, List.getD_eq_getElem?_getD, h2]

/-- The accumulated error. -/
theorem exp_accumulate {K e0 t h τ : ℝ} (hK : 0 ≤ K) (h0 : 0 ≤ h) (hτ : 0 ≤ τ) :
    Real.exp (K * h) * (Real.exp (K * t) * (e0 + t * τ) + h * τ)
      ≤ Real.exp (K * (t + h)) * (e0 + (t + h) * τ) ∨ t < 0 := by
  rcases lt_or_ge t 0 with ht | ht
  · exact .inr ht
  left
  rw [mul_add K, Real.exp_add]
  have h1 : 1 ≤ Real.exp (K * t) := Real.one_le_exp (mul_nonneg hK ht)
  have h2 : 0 < Real.exp (K * h) := Real.exp_pos _
  have h3 : h * τ ≤ Real.exp (K * t) * (h * τ) := by nlinarith [mul_nonneg h0 hτ]
  nlinarith [mul_le_mul_of_nonneg_left h3 h2.le]

/-- The reported trajectory up to position `N`, when the stages of every element before follow a vector field
`f k e` up to `η`. -/
theorem trajectory_error {n : Nat} {a : Nat → Nat → ℝ} {b c : Nat → ℝ} {δ A L D H η : ℝ} (hη : 0 ≤ η)
    (hn : 0 < n) (ho : StageOrder n a b c δ) (hδ0 : 0 ≤ δ) (hA0 : 0 ≤ A)
    (hA : ∀ j < n, ∑ r ∈ Finset.range n, |a j r| ≤ A)
    (hB : ∑ r ∈ Finset.range n, |b r| ≤ A) (hL0 : 0 ≤ L) (hH : H ≤ 1 / (2 * (A * L) + 1))
    {o : Opts} {um : UserModel} {uo : Option UserOcp} {po : PreOpts} {m : PreModel} {oc : PreOcp} {P : Problem}
    {env : Env} (h : SetupEx colloc o um uo po m oc P) (hLn : o.nfeAfter.length = o.nStages)
    (hform : ∀ k e, HasFE po k e →
        (∀ j < n, ∀ i < um.nX, (xVal po m.dims k e j env).getD i 0 = (startVal po m.dims k e env).getD i 0
          + hVal po k e env * ∑ r ∈ Finset.range n,
            a j r * (sotVal po k env * um.stageRhs po m.dims k e r i env)) ∧
        ∀ i < um.nX, (xEndVal po m.dims k e env).getD i 0 = (startVal po m.dims k e env).getD i 0
          + hVal po k e env * ∑ r ∈ Finset.range n,
            b r * (sotVal po k env * um.stageRhs po m.dims k e r i env))
    {x0 : List ℝ} {res : Results} (hR : ResultsSpec po m.dims x0 env res)
    (hx0 : x0 = (List.range m.dims.nX).map fun i => env (.x0 i))
    (hstep : ∀ h ∈ res.timeSteps, 0 ≤ h ∧ h ≤ H)
    {f : Nat → Nat → (Fin um.nX → ℝ) → Fin um.nX → ℝ} {φ : ℝ → Fin um.nX → ℝ} {N0 : Nat}
    (hf : ∀ k e, HasFE po k e → (o.nfeAfter.take k).sum + e < N0 →
      (∀ x y, ‖f k e x - f k e y‖ ≤ L * ‖x - y‖) ∧
      (∀ t t', res.tGrid[(o.nfeAfter.take k).sum + e]? = some t →
        res.tGrid[(o.nfeAfter.take k).sum + e + 1]? = some t' → SmoothSolution n D (f k e) φ t t') ∧
      ∀ j < n, ∀ i : Fin um.nX, |sotVal po k env * um.stageRhs po m.dims k e j i env
        - f k e (toVec um.nX (xVal po m.dims k e j env)) i| ≤ η) :
    ∀ (N : Nat) (t : ℝ) (x : List ℝ), N ≤ N0 → res.tGrid[N]? = some t → res.xTraj[N]? = some x →
      0 ≤ t ∧ ‖toVec um.nX x - φ t‖ ≤ Real.exp (2 * A * L * t)
        * (‖toVec um.nX x0 - φ 0‖ + t * (|D| * ((1 + A) * H ^ n + n * δ) + A * η)) := by
  have h' := h.toSetup
  have hAL0 : 0 ≤ A * L := mul_nonneg hA0 hL0
  have hH1 : ∀ h, 0 ≤ h → h ≤ H → h ≤ 1 ∧ h * (A * L) ≤ 1 / 2 := by
    intro h h0 hle
    have h2 : h ≤ 1 / (2 * (A * L) + 1) := hle.trans hH
    rw [le_div_iff₀ (by positivity)] at h2
    constructor
    · nlinarith [mul_nonneg h0 hAL0]
    · nlinarith
  have hlist : po.nfeList = o.nfeAfter := by rw [h'.opts]
  set τ := |D| * ((1 + A) * H ^ n + n * δ) + A * η with hτ
  intro N
  induction N with
  | zero =>
    intro t x _ ht hx
    rw [hR.xTraj] at hx
    rw [hR.grid] at ht
    simp at hx ht
    rw [← hx, ← ht]
    simp
  | succ N ih =>
    intro t x hN0 ht hx
    have hN : N < (elements po).length := by
      have := (List.getElem?_eq_some_iff.1 hx).1
      rw [hR.xTraj] at this
      simpa using this
    obtain ⟨q, hq⟩ : ∃ q, (elements po)[N]? = some q := ⟨_, List.getElem?_eq_getElem hN⟩
    obtain ⟨hk, x1, x2, x3⟩ := xTraj_pos h' hLn hR hx0 hq
    set hv := hVal po q.1 q.2 env with hhv
    set t0 := (res.timeSteps.take N).sum with ht0
    have hg0 : res.tGrid[N]? = some t0 := by
      rw [hR.grid, List.getElem?_map, List.getElem?_range (by omega)]
      rfl
    have hg' : t = t0 + hv := by
      have ht' := ht
      rw [hR.grid, List.getElem?_map, List.getElem?_range (by omega)] at ht'
      have ht' := Option.some.inj ht'
      rw [← ht']
      beta_reduce
      rw [List.take_add_one, x3]
      simp [ht0]
    obtain ⟨b1, b2⟩ := hstep hv (List.mem_of_getElem? x3)
    obtain ⟨b3, b4⟩ := hH1 hv b1 b2
    obtain ⟨i1, i2⟩ := ih t0 _ (by omega) hg0 x1
    rw [x2] at hx
    obtain rfl := Option.some.inj hx
    have hidx : N = (o.nfeAfter.take q.1).sum + q.2 := by
      have hg := elements_get (by rw [hlist, hLn, h'.e_nStages]) hk
      rw [hlist] at hg
      have hnd : (elements po).Nodup := by rw [elements_eq_allFE]; exact allFE_nodup
      have l2 := (List.getElem?_eq_some_iff.1 hg).1
      refine (List.Nodup.getElem_inj_iff hnd (hi := hN) (hj := l2)).1 ?_
      have a1 := (List.getElem?_eq_some_iff.1 hq).2
      have a2 := (List.getElem?_eq_some_iff.1 hg).2
      rw [a1, a2]
    obtain ⟨hLip, hsm, hK⟩ := hf q.1 q.2 hk (by omega)
    have hsm := hsm t0 t (by rw [← hidx]; exact hg0) (by rw [← hidx]; exact ht)
    rw [hg'] at hsm
    obtain ⟨fm1, fm2⟩ := hform q.1 q.2 hk
    have est := element_error hη hn ho hA hB fm1 fm2 hK hLip hL0 hsm b1 b3 b4
    refine ⟨by rw [hg']; linarith, ?_⟩
    rw [hg']
    have hD : D ≤ |D| := le_abs_self D
    have hpow : hv ^ n ≤ H ^ n := pow_le_pow_left₀ b1 b2 _
    have hτ1 : D * ((1 + A) * hv ^ n + n * δ) + A * η ≤ τ := by
      refine add_le_add (mul_le_mul hD ?_ (by positivity) (abs_nonneg _)) le_rfl
      nlinarith
    have hH0 : 0 ≤ H := b1.trans b2
    have hτ0 : 0 ≤ τ := by positivity
    refine est.trans ?_
    have hK : 0 ≤ 2 * A * L := by nlinarith
    have acc := (exp_accumulate (K := 2 * A * L) (e0 := ‖toVec um.nX x0 - φ 0‖) (t := t0) hK b1 hτ0).resolve_right
      (not_lt.2 i1)
    refine le_trans (mul_le_mul_of_nonneg_left (add_le_add i2 (mul_le_mul_of_nonneg_left hτ1 b1))
      (Real.exp_pos _).le) acc

/-- The bound with one constant. -/
theorem bound_constant {n : Nat} {A L D T t e0 H δ η : ℝ} (hA0 : 0 ≤ A) (hL0 : 0 ≤ L) (hδ0 : 0 ≤ δ)
    (hη : 0 ≤ η) (hH : 0 ≤ H) (he : 0 ≤ e0) (ht : 0 ≤ t) (htT : t ≤ T) :
    Real.exp (2 * A * L * t) * (e0 + t * (|D| * ((1 + A) * H ^ n + n * δ) + A * η))
      ≤ Real.exp (2 * A * L * T) * (1 + T * (|D| * (1 + A + n) + A)) * (e0 + H ^ n + η + δ) := by
  have hT0 : 0 ≤ T := ht.trans htT
  have hexp : Real.exp (2 * A * L * t) ≤ Real.exp (2 * A * L * T) :=
    Real.exp_le_exp.2 (mul_le_mul_of_nonneg_left htT (by nlinarith [mul_nonneg hA0 hL0]))
  rw [mul_assoc (Real.exp (2 * A * L * T))]
  have hH0 : 0 ≤ H ^ n := pow_nonneg hH _
  have n0 : (0 : ℝ) ≤ n := Nat.cast_nonneg _
  set τ := |D| * ((1 + A) * H ^ n + n * δ) + A * η with hτ
  have hτ0 : 0 ≤ τ := by positivity
  refine mul_le_mul hexp ?_ (add_nonneg he (mul_nonneg ht hτ0)) (Real.exp_pos _).le
  have e1 : t * τ ≤ T * τ := mul_le_mul_of_nonneg_right htT hτ0
  have e2 : τ ≤ (|D| * (1 + A + n) + A) * (H ^ n + η + δ) := by
    have h1 : |D| * ((1 + A) * H ^ n + n * δ) ≤ |D| * ((1 + A + n) * (H ^ n + η + δ)) := by
      refine mul_le_mul_of_nonneg_left ?_ (abs_nonneg _)
      nlinarith [mul_nonneg hA0 hδ0, mul_nonneg n0 hH0, mul_nonneg n0 hη, mul_nonneg hA0 hη]
    have h2 : A * η ≤ A * (H ^ n + η + δ) := mul_le_mul_of_nonneg_left (by linarith) hA0
    rw [hτ]
    linarith [h1, h2]
  have e3 : T * τ ≤ T * ((|D| * (1 + A + n) + A) * (H ^ n + η + δ)) := mul_le_mul_of_nonneg_left e2 hT0
  have e4 : 0 ≤ T * (|D| * (1 + A + n) + A) := by positivity
  nlinarith [mul_nonneg e4 he]

/-- The initial state at a point that carries the values stored in the solver object. -/
theorem x0_of_params {o : Opts} {um : UserModel} {uo : Option UserOcp} {po : PreOpts} {m : PreModel}
    {oc : PreOcp} {P : Problem} {S : Solver} {env : Env} {sigma tau : ℝ} (h : Setup colloc o um uo po m oc P)
    (hx : S.m.x0.length = um.nX)
    (hp : ∀ t ∈ P.p, ¬ IsLam00 t → env t = paramVal um S sigma tau t) :
    S.m.x0 = (List.range m.dims.nX).map fun i => env (.x0 i) := by
  have : ∀ i ∈ List.range m.dims.nX, env (.x0 i) = S.m.x0.getD i 0 := by
    intro i hi
    rw [hp _ (x0_mem h (List.mem_range.1 hi)) fun hc => hc]; rfl
  rw [List.map_congr_left this, h.dims.1, ← hx]
  exact (map_getD_range _).symm

/-- A successful solve of a smooth system without algebraic variables, and a solution `φ` of the differential
equation for the reported controls and the parameters of the solver. -/
structure SmoothRun (colloc : IrkScheme → Nat → List ℝ) (o : Opts) (um : UserModel) (uo : Option UserOcp)
    (po : PreOpts) (m : PreModel) (oc : PreOcp) (P : Problem) (orc : Oracle) (S : Solver) (r : SolveResult)
    (L D : ℝ) (g : Nat → (x z u p v : List ℝ) → ℝ) (φ : ℝ → Fin um.nX → ℝ) : Prop where
  setup : SetupEx colloc o um uo po m oc P
  reach : Reachable colloc o um uo orc S
  lists : o.nfeAfter.length = o.nStages
  /-- points the NLP solver accepts satisfy their constraints -/
  exact : orc.Exact P
  ok : (S.solve orc).2 = .ok r
  success : r.status = .success
  mpcc : o.mpcc ≠ .boolean
  sot : o.sot ≠ .local
  stewart : o.pss = .stewart → um.F.isSome = true
  step : o.pss = .step → ∀ s < um.nSys, (um.Smat s).IsSign ∧ (um.Smat s).Partition
  nz : um.nZ = 0
  /-- the vector field is the same in all regions -/
  rhs : um.SmoothRhs g
  lipschitz : ∀ u p v x y, ‖um.field g u p v x - um.field g u p v y‖ ≤ L * ‖x - y‖
  solution : um.Reference o g (fun k => S.m.pVal.getD k []) o.nS D r.res φ

/-- C110: convergence.  Fix the scheme, the number of stages `n` and the representation, a Lipschitz constant
`L`, a bound `D` and a time `T`.  There are a step length `H0` and a constant `C` such that the following holds
for every problem with these data, on every grid (any number of control stages and finite elements, with or
without FESD): whenever `solve` reports SUCCESS, with an NLP solver whose accepted points satisfy their
constraints, and all reported step lengths are at most `H ≤ H0`, then the reported trajectory differs from the
solution `φ` of the differential equation by at most `C * H ^ n` (plus `C` times the initial difference and
the rounding of the Butcher tables, which is zero for INTEGRAL). -/
theorem C110_convergence {sc : IrkScheme} {n : Nat} {rep : IrkRep} (hn : 0 < n)
    (hcol : rep = .integral → CollocOk (colloc sc n) n ∧ ∀ t ∈ colloc sc n, 0 ≤ t ∧ t ≤ 1)
    {L : ℝ} (hL0 : 0 ≤ L) (D T : ℝ) :
    ∃ H0 > 0, ∃ C : ℝ, ∀ {o : Opts} {um : UserModel} {uo : Option UserOcp} {po : PreOpts} {m : PreModel}
      {oc : PreOcp} {P : Problem} {orc : Oracle} {S : Solver} {r : SolveResult}
      {g : Nat → (x z u p v : List ℝ) → ℝ} {φ : ℝ → Fin um.nX → ℝ},
      o.scheme = sc → o.nS = n → o.irkRep = rep → SmoothRun colloc o um uo po m oc P orc S r L D g φ →
      ∀ H ≤ H0, 0 ≤ H → (∀ h ∈ r.res.timeSteps, 0 ≤ h ∧ h ≤ H) →
      ∀ (N : Nat) (t : ℝ) (x : List ℝ), t ≤ T → r.res.tGrid[N]? = some t → r.res.xTraj[N]? = some x →
        ∀ i : Fin um.nX, |x.getD i 0 - φ t i| ≤ C * (‖toVec um.nX S.m.x0 - φ 0‖ + H ^ n
          + if rep = .integral then 0 else 1 / 10 ^ 11) := by
  by_cases hgen : rep ≠ .integral → ∃ t, generateButcher n sc = .ok t
  swap
  · refine ⟨1, one_pos, 0, ?_⟩
    intro o um uo po m oc P orc S r g φ e1 e2 e3 ⟨h, _, _, _, _, _, _, _, _, _, _, _, _, _⟩
    subst e1 e2 e3
    exact absurd (fun hr => (h.toSetup.built.opts.diff hr).imp fun t ht => ht.1) hgen
  obtain ⟨a, b, c, δ, ho, hδ, hform⟩ := rk_form hn hcol hgen
  obtain ⟨A, hA0, hA, hB⟩ := coeff_bound n a b
  have hδ0 : 0 ≤ δ := by rw [hδ]; split <;> norm_num
  have hAL0 : 0 ≤ A * L := mul_nonneg hA0 hL0
  refine ⟨1 / (2 * (A * L) + 1), by positivity,
    Real.exp (2 * A * L * T) * (1 + T * (|D| * (1 + A + n) + A)), ?_⟩
  intro o um uo po m oc P orc S r g φ e1 e2 e3
    ⟨h, hS, hLn, hon, hok, hs, hb, hsot, hF, hsg, hz, hg, hLip, href⟩ H hH hHn hstep N t x htT ht hx i
  subst e1 e2 e3
  have h' := h.toSetup
  have hi := hS.inv h'
  obtain ⟨hrd, -⟩ := ready_of_ok h' hi hok
  obtain ⟨env, sigma, tau, f1, -, hR, f4, -⟩ := C87_success_is_feasible h hS hLn hon hok hs
  have hf : P.form.Feasible env := (h.iff hb).2 f1
  have hlist : po.nfeList = o.nfeAfter := by rw [h'.opts]
  have key := trajectory_error (η := 0) (N0 := N) le_rfl hn ho hδ0 hA0 hA hB hL0 hH h hLn
    (fun k e hk => hform h rfl rfl rfl hf k e hk) hR (x0_of_params h' hrd.x0 f4) hstep (φ := φ) (D := D)
    (f := fun k _ => um.field g (uVal m.dims k env) (S.m.pVal.getD k []) (vVal m.dims env))
    (fun k e hk _ => ⟨hLip _ _ _, fun t t' ht ht' => ?_, fun j hj i => ?_⟩) N t x le_rfl ht hx
  · have hi' := norm_le_pi_norm (toVec um.nX x - φ t) i
    rw [Real.norm_eq_abs, Pi.sub_apply] at hi'
    refine ((hi'.trans key.2).trans (bound_constant hA0 hL0 hδ0 le_rfl hHn (norm_nonneg _) key.1 htT)).trans ?_
    rw [← hδ, add_zero]
  · exact href k (h'.e_nStages ▸ hk.1) e (by
          have := hk.2
          unfold nfe at this
          rwa [hlist] at this) (uVal m.dims k env) (vVal m.dims env) t t'
        (by rw [hR.uList, List.getElem?_map, List.getElem?_range hk.1]; rfl) hR.v ht ht'
  · have hso : sotVal po k env = 1 := by
      unfold sotVal
      rw [if_neg (by rw [h'.e_sot]; exact hsot)]
      rfl
    have hpv : pVal m.dims k env = S.m.pVal.getD k [] := pVal_of_params_stage h' hi
      (fun t ht hl => f4 t ht hl) hk.1
    rw [hso, one_mul, stageRhs_unswitched h hf hF hsg (hg i i.2) hk hj, hpv,
      zVal_nil (by rw [h'.dims.2.2.1, hz])]
    unfold UserModel.field
    rw [toVec_ofFn (by rw [length_xVal, h'.dims.1]), sub_self, abs_zero]

/-- Reported step lengths are nonnegative and small when every control stage has at least `q` elements. -/
theorem steps_small {o : Opts} {um : UserModel} {uo : Option UserOcp} {po : PreOpts} {m : PreModel}
    {oc : PreOcp} {P : Problem} (h : SetupEx colloc o um uo po m oc P) {env : Env} {uo' : UserOcp}
    (hf : FeasibleSpec po m.dims um uo' env) {x0 : List ℝ} {res : Results}
    (hR : ResultsSpec po m.dims x0 env res) (hg : o.useFesd = true → 0 ≤ o.gammaH ∧ o.gammaH ≤ 1)
    (hT : 0 ≤ o.terminalTime) {q : Nat} (hq : 0 < q) (hqn : ∀ k < o.nStages, q ≤ o.nfeAfter.getD k 0) :
    ∀ s ∈ res.timeSteps, 0 ≤ s ∧
      s ≤ (if o.useFesd then 1 + o.gammaH else 1) * (o.terminalTime / (o.nStages * q)) := by
  intro s hs
  have h' := h.toSetup
  rw [hR.steps] at hs
  obtain ⟨⟨k, e⟩, hq', rfl⟩ := List.mem_map.1 hs
  have hk : HasFE po k e := by
    rw [elements_eq_allFE, mem_allFE] at hq'; exact hq'
  have hpr := h'.built.ok.primal
  have hN : 0 < (po.nStages : ℝ) := by exact_mod_cast Nat.pos_of_ne_zero hpr.stages
  have hqn' : (q : ℝ) ≤ nfe po k := by
    have := hqn k (h'.e_nStages ▸ hk.1)
    unfold nfe
    rw [h'.opts]
    exact_mod_cast this
  have hq0 : (0 : ℝ) < q := by exact_mod_cast hq
  have hnom : 0 ≤ nominalH po k ∧ nominalH po k ≤ o.terminalTime / (o.nStages * q) := by
    unfold nominalH
    have hN' : 0 < (o.nStages : ℝ) := by rw [← h'.e_nStages]; exact hN
    rw [h'.e_nStages, h'.e_terminalTime, div_div]
    refine ⟨by positivity, ?_⟩
    exact div_le_div_of_nonneg_left hT (by positivity) (mul_le_mul_of_nonneg_left hqn' hN'.le)
  show 0 ≤ hVal po k e env ∧ hVal po k e env ≤ _
  unfold hVal
  by_cases hu : o.useFesd = true
  · obtain ⟨g0, g1⟩ := hg hu
    rw [if_pos (h'.e_useFesd.trans hu), if_pos hu]
    obtain ⟨b1, b2⟩ := hf.bounds (.h k e) ⟨h'.e_useFesd.trans hu, hk⟩
    simp only [varDoc] at b1 b2
    rw [h'.e_gammaH] at b1 b2
    have b1 : (1 - o.gammaH) * nominalH po k ≤ env (.h k e) := by exact_mod_cast b1
    have b2 : env (.h k e) ≤ (1 + o.gammaH) * nominalH po k := by exact_mod_cast b2
    refine ⟨le_trans (mul_nonneg (by linarith) hnom.1) b1, b2.trans ?_⟩
    exact mul_le_mul_of_nonneg_left hnom.2 (by linarith)
  · rw [if_neg (by rw [h'.e_useFesd]; exact hu), if_neg hu, one_mul]
    exact hnom

/-- C110: refinement.  In terms of the options: when every control stage has at least `q` finite elements, the
error is at most `C * Δ ^ n` with `Δ` the terminal time over the number of control stages times `q`, times
`1 + gamma_h` with FESD, once `Δ` is small enough. -/
theorem C110_refinement {sc : IrkScheme} {n : Nat} {rep : IrkRep} (hn : 0 < n)
    (hcol : rep = .integral → CollocOk (colloc sc n) n ∧ ∀ t ∈ colloc sc n, 0 ≤ t ∧ t ≤ 1)
    {L : ℝ} (hL0 : 0 ≤ L) (D T : ℝ) :
    ∃ H0 > 0, ∃ C : ℝ, ∀ {o : Opts} {um : UserModel} {uo : Option UserOcp} {po : PreOpts} {m : PreModel}
      {oc : PreOcp} {P : Problem} {orc : Oracle} {S : Solver} {r : SolveResult}
      {g : Nat → (x z u p v : List ℝ) → ℝ} {φ : ℝ → Fin um.nX → ℝ},
      o.scheme = sc → o.nS = n → o.irkRep = rep → SmoothRun colloc o um uo po m oc P orc S r L D g φ →
      (o.useFesd = true → 0 ≤ o.gammaH ∧ o.gammaH ≤ 1) → 0 ≤ o.terminalTime →
      ∀ q > 0, (∀ k < o.nStages, q ≤ o.nfeAfter.getD k 0) →
      ∀ Δ, Δ = (if o.useFesd then 1 + o.gammaH else 1) * (o.terminalTime / (o.nStages * q)) → Δ ≤ H0 →
      ∀ (N : Nat) (t : ℝ) (x : List ℝ), t ≤ T → r.res.tGrid[N]? = some t → r.res.xTraj[N]? = some x →
        ∀ i : Fin um.nX, |x.getD i 0 - φ t i| ≤ C * (‖toVec um.nX S.m.x0 - φ 0‖ + Δ ^ n
          + if rep = .integral then 0 else 1 / 10 ^ 11) := by
  obtain ⟨H0, hH0, C, hC⟩ := C110_convergence hn hcol hL0 D T
  refine ⟨H0, hH0, C, ?_⟩
  intro o um uo po m oc P orc S r g φ e1 e2 e3 h hg hT q hq hqn Δ hΔ hle
  obtain ⟨env, sigma, tau, f1, -, hR, -⟩ := C87_success_is_feasible h.setup h.reach h.lists h.exact h.ok h.success
  have hst := steps_small h.setup f1 hR hg hT hq hqn
  rw [← hΔ] at hst
  refine hC e1 e2 e3 h Δ hle ?_ hst
  rw [hΔ]
  refine mul_nonneg ?_ (by positivity)
  split
  · have := (hg ‹_›).1
    linarith
  · norm_num

end

/-- The right-hand side of the example `ṫ = 1`, `ẇ = t`. -/
def clockG (i : Nat) (x _ _ _ _ : List ℝ) : ℝ := if i = 0 then 1 else x.getD 0 0

noncomputable def clockSol (t : ℝ) : Fin 2 → ℝ := ![t, t ^ 2 / 2]

theorem clock_field (u p v : List ℝ) (x : Fin 2 → ℝ) : clockModel.field clockG u p v x = ![1, x 0] := by
  funext i
  fin_cases i <;> simp [UserModel.field, clockG, clockModel]

theorem clock_solution' {t0 t1 B : ℝ} (h0 : 0 ≤ t0) (h1 : t1 ≤ B) :
    SmoothSolution 2 (1 + B) (fun x : Fin 2 → ℝ => ![1, x 0]) clockSol t0 t1 := by
  have e1 : deriv (fun t : ℝ => (![1, 0] : Fin 2 → ℝ) + t • ![0, 1]) = fun _ => ![0, 1] := by
    funext s
    simpa using (((hasDerivAt_id s).smul_const (![0, 1] : Fin 2 → ℝ)).const_add ![1, 0]).deriv
  refine ⟨fun t => (![1, 0] : Fin 2 → ℝ) + t • ![0, 1], by fun_prop, fun q hq t ht => ?_,
    fun t ht => ⟨?_, ?_⟩⟩
  · have ht0 : 0 ≤ t := h0.trans ht.1
    have htB : t ≤ B := ht.2.trans h1
    have hnn : (0 : ℝ) ≤ 1 + B := by linarith
    interval_cases q
    · rw [iteratedDeriv_zero, pi_norm_le_iff_of_nonneg hnn]
      intro i
      fin_cases i
      · simp; linarith
      · simp [abs_of_nonneg ht0]; linarith
    · rw [iteratedDeriv_one, e1, pi_norm_le_iff_of_nonneg hnn]
      intro i
      fin_cases i
      · simpa using hnn
      · simp; linarith
    · rw [iteratedDeriv_succ, iteratedDeriv_one, e1]
      simpa using hnn
  · funext i
    fin_cases i <;> simp [clockSol]
  · refine HasDerivAt.hasDerivWithinAt (hasDerivAt_pi.2 fun i => ?_)
    fin_cases i
    · exact hasDerivAt_id t
    · have := (hasDerivAt_pow 2 t).div_const 2
      refine this.congr_deriv ?_
      simp [clockSol]

theorem clock_solution {t0 t1 B : ℝ} (h0 : 0 ≤ t0) (h1 : t1 ≤ B) (u p v : List ℝ) :
    SmoothSolution 2 (1 + B) (clockModel.field clockG u p v) clockSol t0 t1 := by
  have e : clockModel.field clockG u p v = fun x : Fin 2 → ℝ => ![1, x 0] := funext (clock_field u p v)
  rw [e]
  exact clock_solution' h0 h1

theorem clock_lipschitz (u p v : List ℝ) (x y : Fin 2 → ℝ) :
    ‖clockModel.field clockG u p v x - clockModel.field clockG u p v y‖ ≤ 1 * ‖x - y‖ := by
  have e : clockModel.field clockG u p v = fun x : Fin 2 → ℝ => ![1, x 0] := funext (clock_field u p v)
  rw [e]
  show ‖(![1, x 0] : Fin 2 → ℝ) - ![1, y 0]‖ ≤ 1 * ‖x - y‖
  rw [one_mul, pi_norm_le_iff_of_nonneg (norm_nonneg _)]
  intro i
  have := norm_le_pi_norm (x - y) 0
  fin_cases i
  · simp
  · simpa using this

/-- A run that meets the hypotheses: `ṫ = 1`, `ẇ = t` with any number of finite elements. -/
example (nf : Nat) (hnf : 0 < nf) : ∃ po m oc P S r D g φ,
    SmoothRun demoColloc (slideOpts 1 nf) clockModel none po m oc P (exactOracle P) S r 1 D g φ ∧
    0 < (slideOpts 1 nf).nS ∧ CollocOk (demoColloc (slideOpts 1 nf).scheme (slideOpts 1 nf).nS) (slideOpts 1 nf).nS ∧
    (∀ t ∈ demoColloc (slideOpts 1 nf).scheme (slideOpts 1 nf).nS, 0 ≤ t ∧ t ≤ 1) ∧
    (∀ k < (slideOpts 1 nf).nStages, nf ≤ (slideOpts 1 nf).nfeAfter.getD k 0) ∧
    φ 0 = toVec 2 S.m.x0 := by
  obtain ⟨po, m, oc, P, h0, hr⟩ := clock_setup hnf
  have hfe : ∀ y z σ τ : ℝ, 0 ≤ σ → P.form.Feasible (clockEnv nf y z σ τ) := fun y z σ τ hσ =>
    clock_feasible h0 hr hnf hσ
  have h : SetupEx demoColloc (slideOpts 1 nf) clockModel none po m oc _ :=
    ⟨h0.toSetup.toNone, rfl, by simp [UserOcp.trivial]⟩
  have h' := h.toSetup
  obtain ⟨hcr, hS, hrd⟩ := h'.create (exactOracle _) (by simp [slideOpts, Opts.default])
  have hL : (slideOpts 1 nf).nfeAfter.length = (slideOpts 1 nf).nStages := by
    simp [slideOpts, Opts.default, Opts.nfeAfter]
  obtain ⟨w0, lam00, hini, -⟩ := C54_initialise_writes_x0 h' hS hrd Nat.two_pos (.inl rfl)
  obtain ⟨r, hok⟩ := C49_solve_succeeds _ h' hS hrd rfl hini Nat.two_pos hL
    (fun _ s hs s' hs' => by rw [clock_sys hs, clock_sys hs'])
  have hq : ∀ k < (slideOpts 1 nf).nStages, nf ≤ (slideOpts 1 nf).nfeAfter.getD k 0 := by
    intro k hk
    obtain rfl : k = 0 := by simpa [slideOpts] using hk
    simp [slideOpts, Opts.default, Opts.nfeAfter]
  have hsu := clock_success h hfe hS hok
  obtain ⟨env, sigma, tau, f1, -, hR, -⟩ := C87_success_is_feasible h hS hL (exactOracle_exact _) hok hsu
  have hst := steps_small h f1 hR (fun _ => by norm_num [slideOpts, Opts.default])
    (by norm_num [slideOpts, Opts.default]) hnf hq
  have hgrid : ∀ (N : Nat) (t : ℝ), r.res.tGrid[N]? = some t → 0 ≤ t ∧ t ≤ r.res.timeSteps.sum := by
    intro N t ht
    rw [hR.grid, List.getElem?_map] at ht
    obtain ⟨i, -, rfl⟩ := Option.map_eq_some_iff.1 ht
    refine ⟨List.sum_nonneg fun s hs => (hst s (List.mem_of_mem_take hs)).1, ?_⟩
    have := List.sum_take_add_sum_drop r.res.timeSteps i
    have h2 : 0 ≤ (r.res.timeSteps.drop i).sum :=
      List.sum_nonneg fun s hs => (hst s (List.mem_of_mem_drop hs)).1
    linarith
  refine ⟨po, m, oc, _, _, r, 1 + r.res.timeSteps.sum, clockG, clockSol,
    ⟨h, hS, hL, exactOracle_exact _, hok, hsu, by simp [slideOpts, Opts.default],
      by simp [slideOpts, Opts.default], fun _ => rfl, fun hc => absurd hc (by simp [slideOpts, Opts.default]),
      rfl, ?_, ?_, ?_⟩, Nat.two_pos, (slide_colloc 1 nf).1, (slide_colloc 1 nf).2, hq, ?_⟩
  · intro row hrow
    refine ⟨fun _ x _ _ _ _ => if row = 0 then 1 else x.getD 0 0, ?_, ?_⟩
    · intro s hs i _ x z u p v
      obtain rfl := clock_sys hs
      rfl
    · intro x z u p v
      show ∑ _s ∈ Finset.range 1, (if row = 0 then 1 else x.getD 0 0) = _
      simp [clockG]
  · exact clock_lipschitz
  · intro k _ e _ u v t t' _ _ ht ht'
    exact clock_solution (hgrid _ _ ht).1 (hgrid _ _ ht').2 _ _ _
  · show clockSol 0 = toVec 2 m.x0
    obtain ⟨_, _, _, _, _, _, hpre⟩ := h'.built.pre
    rw [hpre.x0]
    funext i
    fin_cases i <;> simp [clockSol, toVec, clockModel]

end Nosnoc
