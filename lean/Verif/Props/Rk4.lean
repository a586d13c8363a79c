import Verif.Model.Rk
import Mathlib.Tactic.Ring
import Mathlib.Tactic.FieldSimp
import Mathlib.Tactic.Positivity
import Mathlib.Algebra.BigOperators.Group.List.Basic
import Mathlib.Analysis.SpecialFunctions.Integrals.Basic
/-
C22: the explicit Runge-Kutta integrator.
-/
namespace Nosnoc

/-- Scalar product of a coefficient vector with a state. -/
def dot (a x : List ℝ) : ℝ := (List.zipWith (· * ·) a x).sum

/-- C22: one state per grid node, starting with `x0`. -/
theorem C22_length (f : List ℝ → List ℝ) (x0 : List ℝ) (ts : List ℝ) :
    (rk4OnTimegrid f x0 ts).length = ts.length + 1 ∧ (rk4OnTimegrid f x0 ts).head? = some x0 := by
  induction ts generalizing x0 with
  | nil => exact ⟨rfl, rfl⟩
  | cons t ts ih => exact ⟨by simp [rk4OnTimegrid, (ih _).1], rfl⟩

/-- C22: every state is one classical Runge-Kutta step of the given length from the one before. -/
theorem C22_steps (f : List ℝ → List ℝ) (x0 : List ℝ) (ts : List ℝ) (i : Nat) (dt : ℝ)
    (h : ts[i]? = some dt) : ∃ x, (rk4OnTimegrid f x0 ts)[i]? = some x ∧
      (rk4OnTimegrid f x0 ts)[i + 1]? = some (rk4Step f dt x) := by
  induction ts generalizing x0 i with
  | nil => simp at h
  | cons t ts ih =>
    cases i with
    | zero =>
      simp only [List.getElem?_cons_zero, Option.some.injEq] at h
      subst h
      refine ⟨x0, rfl, ?_⟩
      rw [rk4OnTimegrid, List.getElem?_cons_succ]
      have := (C22_length f (rk4Step f t x0) ts).2
      rwa [List.head?_eq_getElem?] at this
    | succ i =>
      rw [List.getElem?_cons_succ] at h
      obtain ⟨x, h1, h2⟩ := ih (rk4Step f t x0) i h
      exact ⟨x, by rwa [rk4OnTimegrid, List.getElem?_cons_succ],
        by rwa [rk4OnTimegrid, List.getElem?_cons_succ]⟩

/-- C22: `rk4` is `rk4_on_timegrid` on the constant grid, and its times are the equidistant grid from
0 to `tf`; `n_steps = 0` raises. -/
theorem C22_rk4_constant_grid (f : List ℝ → List ℝ) (x0 : List ℝ) (tf : ℝ) {n : Nat} (hn : n ≠ 0) :
    rk4 f x0 tf n = .ok (rk4OnTimegrid f x0 (List.replicate n (tf / n))) := by
  have h : ∀ (dt : ℝ) (n : Nat) x, rk4.go f dt x n = rk4OnTimegrid f x (List.replicate n dt) := by
    intro dt n
    induction n with
    | zero => intro x; rfl
    | succ n ih => intro x; rw [rk4.go, ih, List.replicate_succ, rk4OnTimegrid]
  rw [rk4, if_neg hn, h]

theorem C22_rk4_zero_steps (f : List ℝ → List ℝ) (x0 : List ℝ) (tf : ℝ) :
    rk4 f x0 tf 0 = .error .zeroDivision := rfl

theorem C22_rk4_times (tf : ℝ) {n : Nat} (hn : n ≠ 0) :
    (rk4Times tf n).length = n + 1 ∧ (rk4Times tf n).head? = some 0 ∧
    (rk4Times tf n).getLast? = some tf ∧
    ∀ i < n, (rk4Times tf n).getD (i + 1) 0 - (rk4Times tf n).getD i 0 = tf / n := by
  have h0 : (n : ℝ) ≠ 0 := by exact_mod_cast hn
  refine ⟨by simp [rk4Times], by simp [rk4Times, List.head?_range], ?_, ?_⟩
  · simp only [rk4Times, List.range_succ, List.map_append, List.map_cons, List.map_nil,
      List.getLast?_append, List.getLast?_singleton, Option.some_or]
    rw [mul_div_cancel₀ _ h0]
  · intro i hi
    have h1 : i + 1 < n + 1 := by omega
    have h2 : i < n + 1 := by omega
    simp [rk4Times, List.getD_eq_getElem?_getD, h1, h2]
    ring

/-- C22: integrating over a concatenated grid is continuing from the last state. -/
theorem C22_concatenation (f : List ℝ → List ℝ) (x0 : List ℝ) (ts us : List ℝ) :
    ∃ x, (rk4OnTimegrid f x0 ts).getLast? = some x ∧
      rk4OnTimegrid f x0 (ts ++ us) = rk4OnTimegrid f x0 ts ++ (rk4OnTimegrid f x us).tail := by
  induction ts generalizing x0 with
  | nil =>
    refine ⟨x0, rfl, ?_⟩
    cases us <;> rfl
  | cons t ts ih =>
    obtain ⟨x, h1, h2⟩ := ih (rk4Step f t x0)
    refine ⟨x, ?_, ?_⟩
    · rw [rk4OnTimegrid, List.getLast?_cons, h1]; rfl
    · rw [List.cons_append, rk4OnTimegrid, h2, rk4OnTimegrid, List.cons_append]

theorem length_sAdd {x y : List ℝ} (h : x.length = y.length) : (sAdd x y).length = x.length := by
  simp [sAdd, h]

theorem length_sSmul (c : ℝ) (x : List ℝ) : (sSmul c x).length = x.length := by simp [sSmul]

theorem length_rk4Step {f : List ℝ → List ℝ} {n : Nat}
    (hf : ∀ x, x.length = n → (f x).length = n) (dt : ℝ) {x : List ℝ} (hx : x.length = n) :
    (rk4Step f dt x).length = n := by
  have h1 := hf x hx
  have h2 := hf (sAdd x (sSmul (dt / 2) (f x))) (by simp [sAdd, sSmul, hx, h1])
  have h3 := hf (sAdd x (sSmul (dt / 2) (f (sAdd x (sSmul (dt / 2) (f x))))))
    (by simp [sAdd, sSmul, hx] at h2 ⊢; exact h2.ge)
  have h4 := hf (sAdd x (sSmul dt (f (sAdd x (sSmul (dt / 2)
    (f (sAdd x (sSmul (dt / 2) (f x)))))))))
    (by rw [length_sAdd (by rw [length_sSmul, h3, hx]), hx])
  unfold rk4Step
  simp only
  rw [length_sAdd, hx]
  rw [length_sSmul, length_sAdd, length_sAdd, length_sAdd, h1, hx] <;>
    simp only [length_sSmul, h1, h2, h3, h4, length_sAdd]

theorem dot_sAdd (a : List ℝ) {x y : List ℝ} (h : x.length = y.length) :
    dot a (sAdd x y) = dot a x + dot a y := by
  unfold dot sAdd
  induction a generalizing x y with
  | nil => simp
  | cons a as ih =>
    cases x with
    | nil => cases y with
      | nil => simp
      | cons _ _ => simp at h
    | cons b x => cases y with
      | nil => simp at h
      | cons c y =>
        simp only [List.length_cons, Nat.add_right_cancel_iff] at h
        simp only [List.zipWith_cons_cons, List.sum_cons, ih h]
        ring

theorem dot_sSmul (a : List ℝ) (c : ℝ) (x : List ℝ) : dot a (sSmul c x) = c * dot a x := by
  unfold dot sSmul
  induction a generalizing x with
  | nil => simp
  | cons a as ih =>
    cases x with
    | nil => simp
    | cons b x =>
      simp only [List.map_cons, List.zipWith_cons_cons, List.sum_cons, ih]
      ring

/-- Effect of a step on a linear functional that sees `f` as a constant `κ`. -/
theorem dot_rk4Step {f : List ℝ → List ℝ} {n : Nat}
    (hf : ∀ x, x.length = n → (f x).length = n) {a : List ℝ} {κ : ℝ}
    (ha : ∀ x, x.length = n → dot a (f x) = κ) (dt : ℝ) {x : List ℝ} (hx : x.length = n) :
    dot a (rk4Step f dt x) = dot a x + dt * κ := by
  have l1 : (sAdd x (sSmul (dt / 2) (f x))).length = n := by
    rw [length_sAdd (by rw [length_sSmul, hf x hx, hx]), hx]
  have h1 := hf x hx
  have h2 := hf _ l1
  have l2 : (sAdd x (sSmul (dt / 2) (f (sAdd x (sSmul (dt / 2) (f x)))))).length = n := by
    rw [length_sAdd (by rw [length_sSmul, h2, hx]), hx]
  have h3 := hf _ l2
  have l3 : (sAdd x (sSmul dt (f (sAdd x (sSmul (dt / 2)
      (f (sAdd x (sSmul (dt / 2) (f x))))))))).length = n := by
    rw [length_sAdd (by rw [length_sSmul, h3, hx]), hx]
  have h4 := hf _ l3
  unfold rk4Step
  simp only
  rw [dot_sAdd, dot_sSmul, dot_sAdd, dot_sAdd, dot_sAdd, dot_sSmul, dot_sSmul, ha _ hx, ha _ l1,
    ha _ l2, ha _ l3]
  · ring
  all_goals simp only [length_sSmul, h1, h2, h3, h4, length_sAdd, hx]
  rw [length_sAdd, length_sAdd, length_sAdd, h1] <;>
    simp only [length_sSmul, h1, h2, h3, h4, length_sAdd]

/-- C22: linear functionals along which `f` is constant (`a · f = κ`) evolve exactly; `κ = 0` is the
preservation of linear invariants. -/
theorem C22_linear_exact {f : List ℝ → List ℝ} {n : Nat}
    (hf : ∀ x, x.length = n → (f x).length = n) {a : List ℝ}
    {κ : ℝ} (ha : ∀ x, x.length = n → dot a (f x) = κ) (x0 : List ℝ) (h0 : x0.length = n)
    (ts : List ℝ) (i : Nat) (x : List ℝ) (hx : (rk4OnTimegrid f x0 ts)[i]? = some x) :
    dot a x = dot a x0 + (ts.take i).sum * κ := by
  induction ts generalizing x0 i with
  | nil =>
    cases i with
    | zero => simp only [rk4OnTimegrid, List.getElem?_cons_zero, Option.some.injEq] at hx
              subst hx; simp
    | succ i => simp [rk4OnTimegrid] at hx
  | cons t ts ih =>
    cases i with
    | zero => simp only [rk4OnTimegrid, List.getElem?_cons_zero, Option.some.injEq] at hx
              subst hx; simp
    | succ i =>
      rw [rk4OnTimegrid, List.getElem?_cons_succ] at hx
      rw [ih _ (length_rk4Step hf t h0) i hx, dot_rk4Step hf ha t h0, List.take_succ_cons,
        List.sum_cons]
      ring

/-- C22: linear invariants are preserved exactly. -/
theorem C22_linear_invariants {f : List ℝ → List ℝ} {n : Nat}
    (hf : ∀ x, x.length = n → (f x).length = n)
    {a : List ℝ} (ha : ∀ x, x.length = n → dot a (f x) = 0) (x0 : List ℝ) (h0 : x0.length = n)
    (ts : List ℝ) : ∀ x ∈ rk4OnTimegrid f x0 ts, dot a x = dot a x0 := by
  intro x hx
  obtain ⟨i, hi⟩ := List.mem_iff_getElem?.1 hx
  rw [C22_linear_exact hf ha x0 h0 ts i x hi, mul_zero, add_zero]

/-- C22: on a constant field `x' = v` the result is exact. -/
theorem C22_constant_field (v x0 : List ℝ) (h : v.length = x0.length) (ts : List ℝ) (i : Nat)
    (x : List ℝ) (hx : (rk4OnTimegrid (fun _ => v) x0 ts)[i]? = some x) :
    x = sAdd x0 (sSmul (ts.take i).sum v) := by
  have hstep : ∀ dt (y : List ℝ), v.length = y.length →
      rk4Step (fun _ => v) dt y = sAdd y (sSmul dt v) := by
    intro dt y hy
    have e : sAdd (sAdd (sAdd v (sSmul 2 v)) (sSmul 2 v)) v = sSmul 6 v := by
      unfold sAdd sSmul
      refine List.ext_getElem (by simp) fun n h1 h2 => ?_
      simp only [List.getElem_zipWith, List.getElem_map]
      ring
    unfold rk4Step
    simp only [e]
    congr 1
    unfold sSmul
    refine List.ext_getElem (by simp) fun n h1 h2 => ?_
    simp only [List.getElem_map]
    ring
  induction ts generalizing x0 i with
  | nil =>
    cases i with
    | zero =>
      simp only [rk4OnTimegrid, List.getElem?_cons_zero, Option.some.injEq] at hx
      subst hx
      refine List.ext_getElem (by simp [sAdd, sSmul, h]) fun n h1 h2 => ?_
      simp [sAdd, sSmul]
    | succ i => simp [rk4OnTimegrid] at hx
  | cons t ts ih =>
    cases i with
    | zero =>
      simp only [rk4OnTimegrid, List.getElem?_cons_zero, Option.some.injEq] at hx
      subst hx
      refine List.ext_getElem (by simp [sAdd, sSmul, h]) fun n h1 h2 => ?_
      simp [sAdd, sSmul]
    | succ i =>
      rw [rk4OnTimegrid, List.getElem?_cons_succ, hstep t x0 h] at hx
      rw [ih (sAdd x0 (sSmul t v)) (by simp [sAdd, sSmul, h]) i hx, List.take_succ_cons,
        List.sum_cons]
      refine List.ext_getElem (by simp [sAdd, sSmul, h]) fun n h1 h2 => ?_
      simp only [sAdd, sSmul, List.getElem_zipWith, List.getElem_map]
      ring

/-- C22: the weights are those of the classical method: on `x' = λ x` one step multiplies every
component by the fourth-order Taylor polynomial of `exp(λ dt)`. -/
theorem C22_order_four_linear (l dt : ℝ) (x : List ℝ) :
    rk4Step (sSmul l) dt x = sSmul (1 + l * dt + (l * dt) ^ 2 / 2 + (l * dt) ^ 3 / 6
      + (l * dt) ^ 4 / 24) x := by
  refine List.ext_getElem (by simp [rk4Step, sAdd, sSmul]) fun n h1 h2 => ?_
  simp only [rk4Step, sAdd, sSmul, List.getElem_zipWith, List.getElem_map]
  ring

/-- C22: on `t' = 1, y' = a t³ + b t² + c t + d` one step is exact (Simpson's rule). -/
theorem C22_cubic_quadrature (a b c d dt t y : ℝ) :
    rk4Step (fun x => [1, a * x.getD 0 0 ^ 3 + b * x.getD 0 0 ^ 2 + c * x.getD 0 0 + d]) dt [t, y]
      = [t + dt, y + ∫ τ in t..(t + dt), (a * τ ^ 3 + b * τ ^ 2 + c * τ + d)] := by
  have h : ∫ τ in t..(t + dt), (a * τ ^ 3 + b * τ ^ 2 + c * τ + d)
      = a * (((t + dt) ^ 4 - t ^ 4) / 4) + b * (((t + dt) ^ 3 - t ^ 3) / 3)
        + c * (((t + dt) ^ 2 - t ^ 2) / 2) + d * dt := by
    have hi : ∀ g : ℝ → ℝ, Continuous g →
        IntervalIntegrable g MeasureTheory.volume t (t + dt) :=
      fun g hg => hg.intervalIntegrable _ _
    rw [intervalIntegral.integral_add (hi _ (by fun_prop)) (hi _ (by fun_prop)),
      intervalIntegral.integral_add (hi _ (by fun_prop)) (hi _ (by fun_prop)),
      intervalIntegral.integral_add (hi _ (by fun_prop)) (hi _ (by fun_prop)),
      intervalIntegral.integral_const_mul, intervalIntegral.integral_const_mul,
      intervalIntegral.integral_const_mul, integral_pow, integral_pow, integral_id,
      intervalIntegral.integral_const, smul_eq_mul]
    push_cast
    ring
  rw [h]
  simp only [rk4Step, sAdd, sSmul, List.zipWith_cons_cons, List.map_cons, List.map_nil,
    List.zipWith_nil_left, List.getD_cons_zero, List.cons.injEq, and_true]
  constructor <;> ring

/-- A case of the hypotheses: the field `(x y, -x y)` has the invariant `x + y`. -/
example : ∃ f : List ℝ → List ℝ, (∀ x, x.length = 2 → (f x).length = 2) ∧
    (∀ x, x.length = 2 → dot [1, 1] (f x) = 0) ∧ f [1, 2] = [2, -2] :=
  ⟨fun x => [x.getD 0 0 * x.getD 1 0, -(x.getD 0 0 * x.getD 1 0)], fun _ _ => rfl,
    fun _ _ => by simp [dot], by norm_num⟩

end Nosnoc
