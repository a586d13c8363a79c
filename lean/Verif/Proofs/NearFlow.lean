import Verif.Spec.Examples
import Verif.Proofs.Examples
/-
Steps of a scalar system `ẋ = A` for `x < 0`, `ẋ = B` for `x > 0` up to a tolerance (for C118).
-/
namespace Nosnoc

/-- One step of length `h` from `x` to `x'`: its slope lies between `A` and `B`, and the farther the step begins or
ends from the surface the closer its slope is to that of the region. -/
structure NearFlow (A B κ h x x' : ℝ) : Prop where
  nonneg : 0 ≤ h
  tol : 0 ≤ κ
  lo : h * min A B ≤ x' - x
  hi : x' - x ≤ h * max A B
  left : x < 0 → -x * |x' - x - h * A| ≤ h * κ
  left' : x' < 0 → -x' * |x' - x - h * A| ≤ h * κ
  right : 0 < x → x * |x' - x - h * B| ≤ h * κ
  right' : 0 < x' → x' * |x' - x - h * B| ≤ h * κ

theorem NearFlow.neg {A B κ h x x' : ℝ} (f : NearFlow A B κ h x x') :
    NearFlow (-B) (-A) κ h (-x) (-x') := by
  have e1 : -x' - -x - h * -B = -(x' - x - h * B) := by ring
  have e2 : -x' - -x - h * -A = -(x' - x - h * A) := by ring
  refine ⟨f.nonneg, f.tol, ?_, ?_, fun g => ?_, fun g => ?_, fun g => ?_, fun g => ?_⟩
  · rw [min_neg_neg, max_comm]; have := f.hi; linarith
  · rw [max_neg_neg, min_comm]; have := f.lo; linarith
  · rw [e1, abs_neg, neg_neg]; exact f.right (by linarith)
  · rw [e1, abs_neg, neg_neg]; exact f.right' (by linarith)
  · rw [e2, abs_neg]; exact f.left (by linarith)
  · rw [e2, abs_neg]; exact f.left' (by linarith)

/-- The time from 0 at which the crossing solution through 0 is at `x`. -/
noncomputable def crossTime (A B x : ℝ) : ℝ := min x 0 / A + max x 0 / B

theorem div_bound {u A μ c : ℝ} (hμ : 0 < μ) (hA : μ ≤ A) (hu : μ * |u| ≤ c) : |u / A| ≤ c / μ ^ 2 := by
  have hA0 : 0 < A := hμ.trans_le hA
  rw [abs_div, abs_of_pos hA0, div_le_div_iff₀ hA0 (by positivity)]
  have h1 : 0 ≤ |u| := abs_nonneg u
  have hc : 0 ≤ c := (mul_nonneg hμ.le h1).trans hu
  calc |u| * μ ^ 2 = μ * |u| * μ := by ring
    _ ≤ c * μ := mul_le_mul_of_nonneg_right hu hμ.le
    _ ≤ c * A := mul_le_mul_of_nonneg_left hA hc

/-- Both ends on the left of the surface. -/
theorem NearFlow.below {A B κ h x x' μ : ℝ} (f : NearFlow A B κ h x x') (hμ : 0 < μ)
    (hh : h * μ ≤ x' - x) (hx : x' ≤ 0) : μ * |x' - x - h * A| ≤ κ := by
  rcases f.nonneg.eq_or_lt with h0 | h0
  · have l := f.lo
    have u := f.hi
    rw [← h0] at l u ⊢
    have : x' - x = 0 := by linarith
    rw [this]
    simpa using f.tol
  · have hp : 0 < h * μ := mul_pos h0 hμ
    have h1 := f.left (by linarith)
    have h2 : h * μ * |x' - x - h * A| ≤ h * κ :=
      (mul_le_mul_of_nonneg_right (by linarith) (abs_nonneg _)).trans h1
    rw [mul_assoc] at h2
    exact le_of_mul_le_mul_left h2 h0

/-- The left end is farther from the surface. -/
theorem NearFlow.across {A B κ h x x' μ : ℝ} (f : NearFlow A B κ h x x') (hμ : 0 < μ) (hA : μ ≤ A) (hB : μ ≤ B)
    (hx : x < 0) (hx' : 0 < x') (hd : x' ≤ -x) : |x' / B - x / A - h| ≤ 4 * κ / μ ^ 2 := by
  have hA0 : 0 < A := hμ.trans_le hA
  have hB0 : 0 < B := hμ.trans_le hB
  have hlo : h * μ ≤ x' - x := (mul_le_mul_of_nonneg_left (le_min hA hB) f.nonneg).trans f.lo
  have h0 : 0 < h := by
    refine f.nonneg.lt_of_ne fun he => ?_
    have := f.hi
    rw [← he, zero_mul] at this
    linarith
  have l := f.left hx
  have r := f.right' hx'
  have k1 : μ * |x' - x - h * A| ≤ 2 * κ := by
    have h2 : h * μ / 2 * |x' - x - h * A| ≤ h * κ :=
      (mul_le_mul_of_nonneg_right (by linarith) (abs_nonneg _)).trans l
    have h3 : h * (μ * |x' - x - h * A|) ≤ h * (2 * κ) := by linarith
    exact le_of_mul_le_mul_left h3 h0
  have k2 : x' * |A - B| ≤ 2 * κ := by
    have t : h * |A - B| ≤ |x' - x - h * A| + |x' - x - h * B| := by
      rw [← abs_of_pos h0, ← abs_mul, abs_of_pos h0]
      calc |h * (A - B)| = |-(x' - x - h * A) + (x' - x - h * B)| := by congr 1; ring
        _ ≤ _ := (abs_add_le _ _).trans (by rw [abs_neg])
    have t2 : x' * |x' - x - h * A| ≤ -x * |x' - x - h * A| := mul_le_mul_of_nonneg_right hd (abs_nonneg _)
    have t3 := mul_le_mul_of_nonneg_left t hx'.le
    have h3 : h * (x' * |A - B|) ≤ h * (2 * κ) := by linarith
    exact le_of_mul_le_mul_left h3 h0
  have e : x' / B - x / A - h = (x' - x - h * A) / A + (x' * (A - B) / B) / A := by
    field_simp
    ring
  have k3 : μ * |x' * (A - B) / B| ≤ 2 * κ := by
    rw [abs_div, abs_mul, abs_of_pos hx', abs_of_pos hB0]
    have q : 0 ≤ x' * |A - B| := mul_nonneg hx'.le (abs_nonneg _)
    calc μ * (x' * |A - B| / B) = x' * |A - B| * (μ / B) := by ring
      _ ≤ x' * |A - B| * 1 := mul_le_mul_of_nonneg_left ((div_le_one hB0).2 hB) q
      _ ≤ 2 * κ := by rw [mul_one]; exact k2
  rw [e]
  refine (abs_add_le _ _).trans ((add_le_add (div_bound hμ hA k1) (div_bound hμ hA k3)).trans (le_of_eq ?_))
  ring

/-- A step of the crossing system loses little time. -/
theorem NearFlow.crossing {A B κ h x x' μ : ℝ} (f : NearFlow A B κ h x x') (hμ : 0 < μ) (hA : μ ≤ A) (hB : μ ≤ B) :
    |crossTime A B x' - crossTime A B x - h| ≤ 4 * κ / μ ^ 2 := by
  have hA0 : 0 < A := hμ.trans_le hA
  have hB0 : 0 < B := hμ.trans_le hB
  have hlo : h * μ ≤ x' - x := (mul_le_mul_of_nonneg_left (le_min hA hB) f.nonneg).trans f.lo
  have hmono : x ≤ x' := by have := mul_nonneg f.nonneg hμ.le; linarith
  have hk : κ / μ ^ 2 ≤ 4 * κ / μ ^ 2 := by
    have : 0 ≤ κ / μ ^ 2 := div_nonneg f.tol (by positivity)
    rw [mul_div_assoc]; linarith
  have same : ∀ {C : ℝ}, μ ≤ C → μ * |x' - x - h * C| ≤ κ → |x' / C - x / C - h| ≤ 4 * κ / μ ^ 2 := by
    intro C hC hu
    have hC0 : 0 < C := hμ.trans_le hC
    have e : x' / C - x / C - h = (x' - x - h * C) / C := by field_simp
    rw [e]
    exact (div_bound hμ hC hu).trans hk
  have nf := f.neg
  unfold crossTime
  rcases le_or_gt x' 0 with hx' | hx'
  · rw [min_eq_left hx', max_eq_right hx', min_eq_left (hmono.trans hx'), max_eq_right (hmono.trans hx')]
    simpa using same hA (f.below hμ hlo hx')
  · rcases le_or_gt 0 x with hx | hx
    · rw [min_eq_right hx'.le, max_eq_left hx'.le, min_eq_right hx, max_eq_left hx]
      have : μ * |x' - x - h * B| ≤ κ := by
        rcases f.nonneg.eq_or_lt with h0 | h0
        · have l := f.lo
          have u := f.hi
          rw [← h0] at l u ⊢
          have : x' - x = 0 := by linarith
          rw [this]
          simpa using f.tol
        · have h1 := f.right' hx'
          have h2 : h * μ * |x' - x - h * B| ≤ h * κ :=
            (mul_le_mul_of_nonneg_right (by linarith) (abs_nonneg _)).trans h1
          rw [mul_assoc] at h2
          exact le_of_mul_le_mul_left h2 h0
      simpa using same hB this
    · rw [min_eq_right hx'.le, max_eq_left hx'.le, min_eq_left hx.le, max_eq_right hx.le]
      have goal : |x' / B - x / A - h| ≤ 4 * κ / μ ^ 2 := by
        rcases le_total x' (-x) with hd | hd
        · exact f.across hμ hA hB hx hx' hd
        · -- the same step backwards
          have g : NearFlow B A κ h (-x') (-x) := by
            refine ⟨f.nonneg, f.tol, ?_, ?_, fun g => ?_, fun g => ?_, fun g => ?_, fun g => ?_⟩
            · rw [min_comm]; have := f.lo; linarith
            · rw [max_comm]; have := f.hi; linarith
            · rw [neg_neg, show -x - -x' - h * B = x' - x - h * B by ring]; exact f.right' hx'
            · exact absurd g (by linarith)
            · exact absurd g (by linarith)
            · rw [show -x - -x' - h * A = x' - x - h * A by ring]; exact f.left hx
          have := g.across hμ hB hA (by linarith) (by linarith) (by linarith)
          rw [show x' / B - x / A - h = -x / A - -x' / B - h by ring]
          exact this
      simpa using goal

/-- The crossing solution is the inverse of `crossTime`. -/
theorem crossingSol_eq {A B x0 t : ℝ} (hA : 0 < A) (hB : 0 < B) (ht : 0 ≤ t) :
    crossTime A B (crossingSol A B x0 t) = crossTime A B x0 + t := by
  unfold crossTime crossingSol
  split
  · rename_i h0
    have : 0 ≤ x0 + B * t := by positivity
    rw [min_eq_right this, max_eq_left this, min_eq_right h0, max_eq_left h0]
    field_simp
    ring
  · rename_i h0
    push Not at h0
    rw [min_eq_left h0.le, max_eq_right h0.le]
    split
    · rename_i h1
      rw [le_div_iff₀ hA] at h1
      have : x0 + A * t ≤ 0 := by linarith
      rw [min_eq_left this, max_eq_right this]
      field_simp
      ring
    · rename_i h1
      push Not at h1
      have : 0 ≤ B * (t - -x0 / A) := mul_nonneg hB.le (by linarith)
      rw [min_eq_right this, max_eq_left this]
      field_simp
      ring

/-- Distances are at most the largest slope times differences of times. -/
theorem crossTime_dist {A B ν x y : ℝ} (hA : 0 < A) (hB : 0 < B) (hA' : A ≤ ν) (hB' : B ≤ ν) :
    |x - y| ≤ ν * |crossTime A B x - crossTime A B y| := by
  wlog hxy : y ≤ x generalizing x y
  · have := this (x := y) (y := x) (by linarith)
    rwa [abs_sub_comm, abs_sub_comm (crossTime A B x)]
  have hν : 0 < ν := hA.trans_le hA'
  have m1 : min y 0 ≤ min x 0 := min_le_min_right _ hxy
  have m2 : max y 0 ≤ max x 0 := max_le_max_right _ hxy
  have e : x - y = (min x 0 - min y 0) + (max x 0 - max y 0) := by
    have h1 := min_add_max x 0
    have h2 := min_add_max y 0
    linarith
  have q1 : (min x 0 - min y 0) ≤ ν * ((min x 0 - min y 0) / A) := by
    rw [mul_div_assoc', le_div_iff₀ hA, mul_comm]
    exact mul_le_mul_of_nonneg_right hA' (by linarith)
  have q2 : (max x 0 - max y 0) ≤ ν * ((max x 0 - max y 0) / B) := by
    rw [mul_div_assoc', le_div_iff₀ hB, mul_comm]
    exact mul_le_mul_of_nonneg_right hB' (by linarith)
  rw [abs_of_nonneg (by linarith)]
  refine le_trans ?_ (mul_le_mul_of_nonneg_left (le_abs_self _) hν.le)
  unfold crossTime
  calc x - y ≤ ν * ((min x 0 - min y 0) / A) + ν * ((max x 0 - max y 0) / B) := by linarith
    _ = _ := by ring

/-- Crossing: after `n` steps the error is at most `n` times a multiple of the tolerance. -/
theorem crossing_near {A B κ μ ν : ℝ} (hμ : 0 < μ) (hA : μ ≤ A) (hB : μ ≤ B) (hA' : A ≤ ν) (hB' : B ≤ ν)
    {X τ : Nat → ℝ} {M : Nat} (h0 : τ 0 = 0)
    (hf : ∀ n < M, NearFlow A B κ (τ (n + 1) - τ n) (X n) (X (n + 1))) :
    ∀ n ≤ M, |X n - crossingSol A B (X 0) (τ n)| ≤ n * (4 * κ * ν / μ ^ 2) := by
  have hA0 : 0 < A := hμ.trans_le hA
  have hB0 : 0 < B := hμ.trans_le hB
  have hpos : ∀ n ≤ M, 0 ≤ τ n := by
    intro n
    induction n with
    | zero => intro _; rw [h0]
    | succ n ih => intro hn; have := ih (by omega); have := (hf n (by omega)).nonneg; linarith
  have key : ∀ n ≤ M, |crossTime A B (X n) - (crossTime A B (X 0) + τ n)| ≤ n * (4 * κ / μ ^ 2) := by
    intro n
    induction n with
    | zero => intro _; rw [h0]; simp
    | succ n ih =>
      intro hn
      have := (hf n (by omega)).crossing hμ hA hB
      calc |crossTime A B (X (n + 1)) - (crossTime A B (X 0) + τ (n + 1))|
          = |(crossTime A B (X n) - (crossTime A B (X 0) + τ n)) + (crossTime A B (X (n + 1)) - crossTime A B (X n)
            - (τ (n + 1) - τ n))| := by congr 1; ring
        _ ≤ _ := abs_add_le _ _
        _ ≤ n * (4 * κ / μ ^ 2) + 4 * κ / μ ^ 2 := add_le_add (ih (by omega)) this
        _ = _ := by push_cast; ring
  intro n hn
  refine (crossTime_dist hA0 hB0 hA' hB').trans ?_
  rw [crossingSol_eq hA0 hB0 (hpos n hn)]
  refine (mul_le_mul_of_nonneg_left (key n hn) (hA0.le.trans hA')).trans (le_of_eq ?_)
  ring

/-! ### Sliding -/

/-- A step of the sliding system does not get far above the surface. -/
theorem NearFlow.stays {A B κ h x x' m : ℝ} (f : NearFlow A B κ h x x') (hm : 0 < m) (hB : m ≤ -B) :
    x' ≤ max x (2 * κ / m) := by
  by_contra hc
  push Not at hc
  obtain ⟨c1, c2⟩ := max_lt_iff.1 hc
  have hκ : 0 ≤ 2 * κ / m := div_nonneg (by linarith [f.tol]) hm.le
  have hx' : 0 < x' := by linarith
  have h0 : 0 < h := by
    refine f.nonneg.lt_of_ne fun he => ?_
    have := f.hi
    rw [← he, zero_mul] at this
    linarith
  have r := f.right' hx'
  have k : h * m ≤ |x' - x - h * B| := by
    refine le_trans ?_ (le_abs_self _)
    have := mul_le_mul_of_nonneg_left hB h0.le
    linarith
  rw [div_lt_iff₀ hm] at c2
  have k2 := mul_le_mul_of_nonneg_left k hx'.le
  have k3 : h * (x' * m) ≤ h * κ := by linarith
  have := le_of_mul_le_mul_left k3 h0
  linarith [f.tol]

/-- A step of the sliding system that begins below the surface, at a distance, approaches it with slope `A`. -/
theorem NearFlow.approaches {A B κ h x x' m : ℝ} (f : NearFlow A B κ h x x') (hm : 0 < m) (hA : m ≤ A)
    (hx : x ≤ -(2 * κ / m)) (hx0 : x < 0) (hx' : x' ≤ 0) : h * A - 2 * κ / m ≤ x' - x := by
  have hA0 : 0 < A := hm.trans_le hA
  rcases f.nonneg.eq_or_lt with h0 | h0
  · have l := f.lo
    rw [← h0, zero_mul] at l ⊢
    have : 0 ≤ 2 * κ / m := div_nonneg (by linarith [f.tol]) hm.le
    linarith
  · have l := f.left hx0
    have hx1 : 2 * κ ≤ -x * m := by
      rw [← div_le_iff₀ hm]; linarith
    -- the slope is at least A / 2
    have s : h * A / 2 ≤ x' - x := by
      by_contra hc
      push Not at hc
      have k : h * A / 2 < |x' - x - h * A| := by
        rw [abs_sub_comm]
        refine lt_of_lt_of_le ?_ (le_abs_self _)
        linarith
      have k1 : -x * (h * A / 2) < h * κ := lt_of_lt_of_le (mul_lt_mul_of_pos_left k (by linarith)) l
      have k2 : -x * m ≤ -x * A := mul_le_mul_of_nonneg_left hA (by linarith)
      have k3 : h * (2 * κ) ≤ h * (-x * A) := mul_le_mul_of_nonneg_left (hx1.trans k2) h0.le
      linarith
    have k : h * A / 2 * |x' - x - h * A| ≤ h * κ :=
      (mul_le_mul_of_nonneg_right (by linarith) (abs_nonneg _)).trans l
    have k1 : h * (A * |x' - x - h * A|) ≤ h * (2 * κ) := by linarith
    have k2 := le_of_mul_le_mul_left k1 h0
    have k3 : m * |x' - x - h * A| ≤ 2 * κ := (mul_le_mul_of_nonneg_right hA (abs_nonneg _)).trans k2
    have k4 : |x' - x - h * A| ≤ 2 * κ / m := by
      rw [le_div_iff₀ hm, mul_comm]; exact k3
    have := (abs_le.1 k4).1
    linarith

/-- Sliding from below: the error is at most (number of steps + 1) times a multiple of the tolerance. -/
theorem sliding_near {A B κ m : ℝ} (hκ : 0 ≤ κ) (hm : 0 < m) (hA : m ≤ A) (hB : m ≤ -B)
    {X τ : Nat → ℝ} {M : Nat} (h0 : τ 0 = 0) (hX : X 0 ≤ 0)
    (hf : ∀ n < M, NearFlow A B κ (τ (n + 1) - τ n) (X n) (X (n + 1))) :
    ∀ n ≤ M, |X n - min (X 0 + A * τ n) 0| ≤ (n + 1) * (2 * κ / m) := by
  set ρ := 2 * κ / m with hρ
  have hρ0 : 0 ≤ ρ := div_nonneg (by linarith) hm.le
  have up : ∀ n ≤ M, X n ≤ X 0 + A * τ n := by
    intro n
    induction n with
    | zero => intro _; rw [h0]; simp
    | succ n ih =>
      intro hn
      have := (hf n (by omega)).hi
      rw [max_eq_left (by linarith)] at this
      linarith [ih (by omega)]
  have key : ∀ n ≤ M, (X n ≤ 0 ∧ X 0 + A * τ n ≤ X n + n * ρ) ∨ |X n| ≤ ρ := by
    intro n
    induction n with
    | zero => intro _; left; rw [h0]; simpa using hX
    | succ n ih =>
      intro hn
      have f := hf n (by omega)
      have hst := f.stays hm hB
      have hst' := f.neg.stays hm (by simpa using hA)
      have hmem : |X n| ≤ ρ → |X (n + 1)| ≤ ρ := by
        intro h
        obtain ⟨l, u⟩ := abs_le.1 h
        rw [max_eq_right u] at hst
        rw [max_eq_right (by linarith)] at hst'
        exact abs_le.2 ⟨by linarith, hst⟩
      rcases ih (by omega) with ⟨i1, i2⟩ | i
      · rcases i1.eq_or_lt with hz | hz
        · exact .inr (hmem (by rw [hz, abs_zero]; exact hρ0))
        rcases le_or_gt (X n) (-ρ) with hd | hd
        · rcases le_or_gt (X (n + 1)) 0 with hx | hx
          · left
            refine ⟨hx, ?_⟩
            have := f.approaches hm hA hd hz hx
            push_cast
            linarith
          · right
            rw [abs_of_pos hx]
            exact hst.trans (max_le (by linarith) le_rfl)
        · exact .inr (hmem (abs_le.2 ⟨hd.le, by linarith⟩))
      · exact .inr (hmem i)
  intro n hn
  have hnρ : 0 ≤ n * ρ := by positivity
  have hup := up n hn
  rw [add_mul, one_mul]
  rcases key n hn with ⟨k1, k2⟩ | k
  · have := le_min hup k1
    have := min_le_left (X 0 + A * τ n) 0
    rw [abs_le]
    constructor <;> linarith
  · obtain ⟨l, u⟩ := abs_le.1 k
    rcases le_total (X 0 + A * τ n) 0 with h | h
    · rw [min_eq_left h, abs_le]
      constructor <;> linarith
    · rw [min_eq_right h, abs_le]
      constructor <;> linarith

end Nosnoc
