import Mathlib.Data.Real.Basic
import Mathlib.Algebra.BigOperators.Group.Finset.Basic
import Mathlib.Tactic.Linarith
import Mathlib.Tactic.FieldSimp
import Mathlib.Tactic.Ring
import Mathlib.Algebra.BigOperators.Ring.Finset
import Mathlib.Tactic.Positivity
/-
A switched system with one switching function and constant vector fields changes its mode at most once:
follow a region, then cross into the other one or slide.
-/
namespace Nosnoc

/-- The conditions on a phase: weights `α`, `1 - α` of the regions `c ≥ 0` and `c ≤ 0`, the switching
function goes from `c` to `c'`. -/
def PhaseOk (α c c' : ℝ) : Prop :=
  0 ≤ α ∧ α ≤ 1 ∧ (α ≠ 0 → 0 ≤ c ∧ 0 ≤ c') ∧ (1 - α ≠ 0 → c ≤ 0 ∧ c' ≤ 0)

theorem two_phase_pos {c0 g0 g1 L : ℝ} (hL : 0 ≤ L) (hc : 0 ≤ c0) :
    ∃ t α β, 0 ≤ t ∧ t ≤ L ∧ PhaseOk α c0 (c0 + t * (α * g0 + (1 - α) * g1)) ∧
      PhaseOk β (c0 + t * (α * g0 + (1 - α) * g1))
        (c0 + t * (α * g0 + (1 - α) * g1) + (L - t) * (β * g0 + (1 - β) * g1)) := by
  by_cases h : 0 ≤ c0 + L * g0
  · refine ⟨L, 1, 1, hL, le_rfl, ⟨zero_le_one, le_rfl, fun _ => ⟨hc, by linarith⟩, fun h => absurd (sub_self 1) h⟩,
      ⟨zero_le_one, le_rfl, fun _ => ⟨by linarith, by linarith⟩, fun h => absurd (sub_self 1) h⟩⟩
  · push Not at h
    have hg : g0 < 0 := by
      by_contra hg
      push Not at hg
      have := mul_nonneg hL hg
      linarith
    have hg' : 0 < -g0 := by linarith
    set t := c0 / -g0 with ht
    have t0 : 0 ≤ t := div_nonneg hc hg'.le
    have tg : t * g0 = -c0 := by rw [ht]; have := hg.ne; field_simp
    have tL : t ≤ L := by
      rw [ht, div_le_iff₀ hg']
      linarith
    have e1 : c0 + t * (1 * g0 + (1 - 1) * g1) = 0 := by
      have : t * (1 * g0 + (1 - 1) * g1) = t * g0 := by ring
      rw [this, tg]; ring
    have first : PhaseOk 1 c0 (c0 + t * (1 * g0 + (1 - 1) * g1)) :=
      ⟨zero_le_one, le_rfl, fun _ => ⟨hc, e1.ge⟩, fun h => absurd (sub_self 1) h⟩
    rcases le_or_gt g1 0 with h1 | h1
    · refine ⟨t, 1, 0, t0, tL, first, le_rfl, zero_le_one, fun h => absurd rfl h, fun _ => ⟨e1.le, ?_⟩⟩
      rw [e1]
      have := mul_nonneg (sub_nonneg.2 tL) (neg_nonneg.2 h1)
      linarith
    · have hd : 0 < g1 - g0 := by linarith
      have e2 : g1 / (g1 - g0) * g0 + (1 - g1 / (g1 - g0)) * g1 = 0 := by
        field_simp
        ring
      refine ⟨t, 1, g1 / (g1 - g0), t0, tL, first, div_nonneg h1.le hd.le, ?_, ?_, ?_⟩
      · rw [div_le_one hd]; linarith
      all_goals
        intro _
        rw [e1, e2]
        simp

theorem two_phase {c0 g0 g1 L : ℝ} (hL : 0 ≤ L) :
    ∃ t α β, 0 ≤ t ∧ t ≤ L ∧ PhaseOk α c0 (c0 + t * (α * g0 + (1 - α) * g1)) ∧
      PhaseOk β (c0 + t * (α * g0 + (1 - α) * g1))
        (c0 + t * (α * g0 + (1 - α) * g1) + (L - t) * (β * g0 + (1 - β) * g1)) := by
  rcases le_total 0 c0 with hc | hc
  · exact two_phase_pos hL hc
  · obtain ⟨t, α, β, t0, tL, h1, h2⟩ := two_phase_pos (c0 := -c0) (g0 := -g1) (g1 := -g0) hL (by linarith)
    have flip : ∀ {α c c' : ℝ}, PhaseOk α (-c) (-c') → PhaseOk (1 - α) c c' := by
      rintro α c c' ⟨a, b, p, q⟩
      refine ⟨by linarith, by linarith, fun h => ?_, fun h => ?_⟩
      · have := q h
        exact ⟨by linarith, by linarith⟩
      · have := p (by intro h0; apply h; rw [h0]; ring)
        exact ⟨by linarith, by linarith⟩
    refine ⟨t, 1 - α, 1 - β, t0, tL, flip ?_, flip ?_⟩
    · convert h1 using 1; ring
    · convert h2 using 1 <;> ring

/-- The point between the ends of a phase. -/
theorem PhaseOk.between {α c c' : ℝ} (h : PhaseOk α c c') {r r' : ℝ} (h0 : 0 ≤ r) (h1 : r ≤ 1)
    (h0' : 0 ≤ r') (h1' : r' ≤ 1) : PhaseOk α (c + r * (c' - c)) (c + r' * (c' - c)) := by
  obtain ⟨a, b, p, q⟩ := h
  have key : ∀ {r : ℝ}, 0 ≤ r → r ≤ 1 → (α ≠ 0 → 0 ≤ c + r * (c' - c)) ∧
      (1 - α ≠ 0 → c + r * (c' - c) ≤ 0) := by
    intro r h0 h1
    have e : c + r * (c' - c) = (1 - r) * c + r * c' := by ring
    rw [e]
    refine ⟨fun h => ?_, fun h => ?_⟩
    · have := p h
      exact add_nonneg (mul_nonneg (by linarith) this.1) (mul_nonneg h0 this.2)
    · have := q h
      exact add_nonpos (mul_nonpos_of_nonneg_of_nonpos (by linarith) this.1)
        (mul_nonpos_of_nonneg_of_nonpos h0 this.2)
  exact ⟨a, b, fun h => ⟨(key h0 h1).1 h, (key h0' h1').1 h⟩, fun h => ⟨(key h0 h1).2 h, (key h0' h1').2 h⟩⟩

/-- The number of elements to spend on the first phase. -/
theorem split_count {n : Nat} (hn : 2 ≤ n) {H t : ℝ} (hH : 0 ≤ H) (h0 : 0 ≤ t) (ht : t ≤ n * H) :
    ∃ a, 0 < a ∧ a < n ∧ t ≤ 2 * a * H ∧ n * H - t ≤ 2 * (n - a) * H := by
  have c1 : (n : ℝ) ≤ 4 * ((n / 2 : Nat) : ℝ) := by
    exact_mod_cast (by omega : n ≤ 4 * (n / 2))
  have c2 : 2 * ((n / 2 : Nat) : ℝ) ≤ n := by
    exact_mod_cast (by omega : 2 * (n / 2) ≤ n)
  rcases le_total t (n * H / 2) with h | h
  · refine ⟨n / 2, by omega, by omega, ?_, ?_⟩
    · have := mul_le_mul_of_nonneg_right c1 hH
      linarith
    · have := mul_le_mul_of_nonneg_right c2 hH
      linarith
  · refine ⟨n - n / 2, by omega, by omega, ?_, ?_⟩
    · rw [Nat.cast_sub (by omega)]
      have := mul_le_mul_of_nonneg_right c2 hH
      linarith
    · rw [Nat.cast_sub (by omega)]
      have := mul_le_mul_of_nonneg_right c1 hH
      linarith

/-- One control stage: `n ≥ 2` elements whose lengths may be between `0` and twice the nominal length. -/
theorem stage_exists {n : Nat} (hn : 2 ≤ n) {H : ℝ} (hH : 0 ≤ H) (c0 g0 g1 : ℝ) :
    ∃ (h α cs : Nat → ℝ), cs 0 = c0 ∧
      (∀ e < n, 0 ≤ h e ∧ h e ≤ 2 * H ∧ PhaseOk (α e) (cs e) (cs (e + 1)) ∧
        cs (e + 1) = cs e + h e * (α e * g0 + (1 - α e) * g1)) ∧
      ∑ e ∈ Finset.range n, h e = n * H := by
  obtain ⟨t, α, β, t0, tL, p1, p2⟩ := two_phase (c0 := c0) (g0 := g0) (g1 := g1) (L := n * H) (by positivity)
  obtain ⟨a, a0, an, b1, b2⟩ := split_count hn hH t0 tL
  have a0' : (0 : ℝ) < a := by exact_mod_cast a0
  have an' : (0 : ℝ) < (n : ℝ) - a := by
    have : (a : ℝ) < n := by exact_mod_cast an
    linarith
  set G1 := α * g0 + (1 - α) * g1 with hG1
  set G2 := β * g0 + (1 - β) * g1 with hG2
  refine ⟨fun e => if e < a then t / a else (n * H - t) / (n - a), fun e => if e < a then α else β,
    fun e => if e ≤ a then c0 + (e / a : ℝ) * ((c0 + t * G1) - c0)
      else (c0 + t * G1) + (((e : ℝ) - a) / (n - a)) * ((c0 + t * G1 + (n * H - t) * G2) - (c0 + t * G1)),
    by simp, ?_, ?_⟩
  · intro e he
    by_cases hea : e < a
    · have ea : (e : ℝ) + 1 ≤ a := by exact_mod_cast hea
      have e0 : (0 : ℝ) ≤ e := by positivity
      simp only [if_pos hea, if_pos hea.le, if_pos (show e + 1 ≤ a from hea)]
      refine ⟨div_nonneg t0 a0'.le, ?_, ?_, ?_⟩
      · rw [div_le_iff₀ a0']; linarith
      · push_cast
        exact p1.between (by positivity) (by rw [div_le_one a0']; linarith) (by positivity)
          (by rw [div_le_one a0']; linarith)
      · push_cast
        field_simp
        ring
    · have ae : (a : ℝ) ≤ e := by exact_mod_cast (not_lt.1 hea)
      have en : (e : ℝ) + 1 ≤ n := by exact_mod_cast he
      have start : (if e ≤ a then c0 + (e / a : ℝ) * ((c0 + t * G1) - c0)
          else (c0 + t * G1) + (((e : ℝ) - a) / (n - a))
            * ((c0 + t * G1 + (n * H - t) * G2) - (c0 + t * G1)))
          = (c0 + t * G1) + (((e : ℝ) - a) / (n - a))
            * ((c0 + t * G1 + (n * H - t) * G2) - (c0 + t * G1)) := by
        split
        · obtain rfl : e = a := by omega
          rw [div_self a0'.ne', sub_self]
          ring
        · rfl
      simp only [if_neg hea, if_neg (show ¬ e + 1 ≤ a by omega)]
      rw [start]
      refine ⟨div_nonneg (by linarith) an'.le, ?_, ?_, ?_⟩
      · rw [div_le_iff₀ an']; linarith
      · push_cast
        exact p2.between (div_nonneg (by linarith) an'.le) (by rw [div_le_one an']; linarith)
          (div_nonneg (by linarith) an'.le) (by rw [div_le_one an']; linarith)
      · push_cast
        field_simp
        ring
  · rw [Finset.sum_ite]
    simp only [Finset.sum_const, nsmul_eq_mul]
    have f1 : (Finset.range n).filter (fun e => e < a) = Finset.range a := by
      ext e; simp; omega
    have f2 : ((Finset.range n).filter (fun e => ¬ e < a)).card = n - a := by
      have := Finset.card_filter_add_card_filter_not (s := Finset.range n) (fun e => e < a)
      rw [f1, Finset.card_range, Finset.card_range] at this
      omega
    rw [f1, f2, Finset.card_range, Nat.cast_sub an.le]
    field_simp
    ring

end Nosnoc
