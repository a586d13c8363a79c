import Mathlib.Analysis.Calculus.Deriv.MeanValue
import Mathlib.Analysis.Calculus.Deriv.Pow
import Mathlib.Tactic.Linarith
import Mathlib.Tactic.FieldSimp
/-
A scalar trajectory that is differentiable between two grid points and follows slope `A` where it is negative
and slope `B` where it is positive.
-/
namespace Nosnoc

/-- `x` is continuous, differentiable inside `[t0, t1]`, with slope `A` where it is negative and `B` where it is
positive; where it is zero the slope is between. -/
structure ScalarFlow (A B : ℝ) (x : ℝ → ℝ) (t0 t1 : ℝ) : Prop where
  cont : Continuous x
  deriv : ∀ t, t0 < t → t < t1 → ∃ d, HasDerivAt x d t ∧ (x t < 0 → d = A) ∧ (0 < x t → d = B) ∧
    min A B ≤ d ∧ d ≤ max A B

variable {A B : ℝ} {x : ℝ → ℝ} {t0 t1 : ℝ}

theorem ScalarFlow.sub (h : ScalarFlow A B x t0 t1) {s0 s1 : ℝ} (h0 : t0 ≤ s0) (h1 : s1 ≤ t1) :
    ScalarFlow A B x s0 s1 :=
  ⟨h.cont, fun t a b => h.deriv t (h0.trans_lt a) (b.trans_le h1)⟩

theorem ScalarFlow.neg (h : ScalarFlow A B x t0 t1) : ScalarFlow (-B) (-A) (fun t => -x t) t0 t1 :=
  ⟨h.cont.neg, fun t a b => by
    obtain ⟨d, hd, e1, e2, e3, e4⟩ := h.deriv t a b
    refine ⟨-d, hd.neg, fun hh => by rw [e2 (by linarith)], fun hh => by rw [e1 (by linarith)], ?_, ?_⟩
    · rw [min_neg_neg, max_comm]; linarith
    · rw [max_neg_neg, min_comm]; linarith⟩

/-- Constant slope. -/
theorem line_of_slope (hc : Continuous x) {c : ℝ} (h01 : t0 ≤ t1)
    (hd : ∀ t, t0 < t → t < t1 → HasDerivAt x c t) : x t1 = x t0 + c * (t1 - t0) := by
  rcases h01.eq_or_lt with rfl | h
  · simp
  · obtain ⟨s, -, hs⟩ := exists_hasDerivAt_eq_slope x (fun _ => c) h hc.continuousOn
      fun t ht => hd t ht.1 ht.2
    rw [eq_div_iff (by linarith)] at hs
    linarith

theorem ScalarFlow.neg_line (h : ScalarFlow A B x t0 t1) (h01 : t0 ≤ t1)
    (hn : ∀ t, t0 < t → t < t1 → x t < 0) : x t1 = x t0 + A * (t1 - t0) :=
  line_of_slope h.cont h01 fun t a b => by
    obtain ⟨d, hd, e, -⟩ := h.deriv t a b
    rw [← e (hn t a b)]
    exact hd

theorem ScalarFlow.pos_line (h : ScalarFlow A B x t0 t1) (h01 : t0 ≤ t1)
    (hn : ∀ t, t0 < t → t < t1 → 0 < x t) : x t1 = x t0 + B * (t1 - t0) :=
  line_of_slope h.cont h01 fun t a b => by
    obtain ⟨d, hd, -, e, -⟩ := h.deriv t a b
    rw [← e (hn t a b)]
    exact hd

/-- One-sided slopes of a differentiable function. -/
theorem left_slope {c d τ : ℝ} (h : t0 < τ) (hd : HasDerivAt x d τ)
    (hl : ∀ s, t0 ≤ s → s ≤ τ → x s = x τ + c * (s - τ)) : d = c := by
  refine (uniqueDiffWithinAt_Iic τ).eq_deriv _ hd.hasDerivWithinAt ?_
  have h1 : HasDerivAt (fun s => x τ + c * (s - τ)) c τ := by
    simpa using (((hasDerivAt_id τ).sub_const τ).const_mul c).const_add (x τ)
  refine h1.hasDerivWithinAt.congr_of_eventuallyEq ?_ (by simp)
  filter_upwards [Ioc_mem_nhdsLE h] with s hs
  exact hl s hs.1.le hs.2

theorem right_slope {c d τ : ℝ} (h : τ < t1) (hd : HasDerivAt x d τ)
    (hl : ∀ s, τ ≤ s → s ≤ t1 → x s = x τ + c * (s - τ)) : d = c := by
  refine (uniqueDiffWithinAt_Ici τ).eq_deriv _ hd.hasDerivWithinAt ?_
  have h1 : HasDerivAt (fun s => x τ + c * (s - τ)) c τ := by
    simpa using (((hasDerivAt_id τ).sub_const τ).const_mul c).const_add (x τ)
  refine h1.hasDerivWithinAt.congr_of_eventuallyEq ?_ (by simp)
  filter_upwards [Ico_mem_nhdsGE h] with s hs
  exact hl s hs.1 hs.2.le

/-- A zero between two values of opposite sign. -/
theorem zero_between (hc : Continuous x) {a b : ℝ} (hab : a ≤ b) (h : x a * x b < 0) :
    ∃ τ, a < τ ∧ τ < b ∧ x τ = 0 := by
  obtain ⟨τ, hτ, h0⟩ : (0 : ℝ) ∈ x '' Set.Icc a b := by
    rcases lt_or_ge (x a) 0 with ha | ha
    · exact intermediate_value_Icc hab hc.continuousOn ⟨ha.le, by nlinarith⟩
    · exact intermediate_value_Icc' hab hc.continuousOn ⟨by nlinarith, ha⟩
  refine ⟨τ, lt_of_le_of_ne hτ.1 ?_, lt_of_le_of_ne hτ.2 ?_, h0⟩
  · rintro rfl; rw [h0] at h; simp at h
  · rintro rfl; rw [h0] at h; simp at h

theorem ScalarFlow.strictMono (hA : 0 < A) (hB : 0 < B) (h : ScalarFlow A B x t0 t1) {s s' : ℝ}
    (h0 : t0 ≤ s) (hs : s < s') (h1 : s' ≤ t1) : x s < x s' := by
  choose d hd using (h.sub h0 h1).deriv
  obtain ⟨u, hu, e⟩ := exists_hasDerivAt_eq_slope x
    (fun t => if ht : s < t ∧ t < s' then d t ht.1 ht.2 else 0) hs h.cont.continuousOn
    fun t ht => by
      rw [dif_pos ⟨ht.1, ht.2⟩]
      exact (hd t ht.1 ht.2).1
  rw [dif_pos ⟨hu.1, hu.2⟩, eq_div_iff (by linarith)] at e
  have := (hd u hu.1 hu.2).2.2.2.1
  have h2 : 0 < min A B := lt_min hA hB
  nlinarith

/-- Crossing: inside an element the sign does not change. -/
theorem ScalarFlow.crossing (hA : 0 < A) (hB : 0 < B) (hAB : A ≠ B) (h01 : t0 ≤ t1)
    (h : ScalarFlow A B x t0 t1) :
    (x t1 ≤ 0 ∧ x t1 = x t0 + A * (t1 - t0)) ∨ (0 ≤ x t0 ∧ x t1 = x t0 + B * (t1 - t0)) := by
  by_cases h1 : x t1 ≤ 0
  · exact .inl ⟨h1, h.neg_line h01 fun t a b => (h.strictMono hA hB a.le b le_rfl).trans_le h1⟩
  by_cases h2 : 0 ≤ x t0
  · exact .inr ⟨h2, h.pos_line h01 fun t a b => h2.trans_lt (h.strictMono hA hB le_rfl a b.le)⟩
  push Not at h1 h2
  exfalso
  obtain ⟨τ, a, b, h0⟩ := zero_between h.cont h01 (mul_neg_of_neg_of_pos h2 h1)
  obtain ⟨d, hd, -⟩ := h.deriv τ a b
  have e1 : d = A := left_slope a hd fun s s0 s1 => by
    have := (h.sub s0 b.le).neg_line s1 fun t ta tb => by
      rw [← h0]; exact h.strictMono hA hB (s0.trans ta.le) tb b.le
    rw [h0] at this ⊢
    linarith
  have e2 : d = B := right_slope b hd fun s s0 s1 => by
    have := (h.sub a.le s1).pos_line s0 fun t ta tb => by
      rw [← h0]; exact h.strictMono hA hB a.le ta (tb.le.trans s1)
    rw [this]
  exact hAB (e1.symm.trans e2)

theorem ScalarFlow.sq (h : ScalarFlow A B x t0 t1) :
    (0 ≤ A → B ≤ 0 → AntitoneOn (fun t => x t ^ 2) (Set.Icc t0 t1)) ∧
    (A ≤ 0 → 0 ≤ B → MonotoneOn (fun t => x t ^ 2) (Set.Icc t0 t1)) := by
  have hder : ∀ t ∈ interior (Set.Icc t0 t1), ∃ d, HasDerivAt (fun t => x t ^ 2) (2 * x t * d) t ∧
      (x t < 0 → d = A) ∧ (0 < x t → d = B) := by
    intro t ht
    rw [interior_Icc] at ht
    obtain ⟨d, hd, e1, e2, -⟩ := h.deriv t ht.1 ht.2
    refine ⟨d, ?_, e1, e2⟩
    simpa using hd.fun_pow 2
  have hdiff : DifferentiableOn ℝ (fun t => x t ^ 2) (interior (Set.Icc t0 t1)) := fun t ht => by
    obtain ⟨d, hd, -⟩ := hder t ht
    exact hd.differentiableAt.differentiableWithinAt
  have hcont : ContinuousOn (fun t => x t ^ 2) (Set.Icc t0 t1) := (h.cont.pow 2).continuousOn
  constructor
  · intro hA hB
    refine antitoneOn_of_deriv_nonpos (convex_Icc _ _) hcont hdiff fun t ht => ?_
    obtain ⟨d, hd, e1, e2⟩ := hder t ht
    rw [hd.deriv]
    rcases lt_trichotomy (x t) 0 with hx | hx | hx
    · rw [e1 hx]; nlinarith
    · rw [hx]; simp
    · rw [e2 hx]; nlinarith
  · intro hA hB
    refine monotoneOn_of_deriv_nonneg (convex_Icc _ _) hcont hdiff fun t ht => ?_
    obtain ⟨d, hd, e1, e2⟩ := hder t ht
    rw [hd.deriv]
    rcases lt_trichotomy (x t) 0 with hx | hx | hx
    · rw [e1 hx]; nlinarith
    · rw [hx]; simp
    · rw [e2 hx]; nlinarith

/-- Sliding: an element that starts below the surface follows the slope below and does not pass the surface;
one that starts on the surface stays there. -/
theorem ScalarFlow.sliding (hA : 0 < A) (hB : B ≤ 0) (h01 : t0 ≤ t1) (h : ScalarFlow A B x t0 t1)
    (hx : x t0 ≤ 0) :
    (x t1 ≤ 0 ∧ x t1 = x t0 + A * (t1 - t0)) ∨ (x t0 = 0 ∧ x t1 = 0) := by
  have hanti := h.sq.1 hA.le hB
  have stay : ∀ s s', t0 ≤ s → s ≤ s' → s' ≤ t1 → x s = 0 → x s' = 0 := by
    intro s s' a b c h0
    have := hanti ⟨a, b.trans c⟩ ⟨a.trans b, c⟩ b
    simp only [h0] at this
    nlinarith [sq_nonneg (x s')]
  rcases hx.eq_or_lt with h0 | hx
  · exact .inr ⟨h0, stay t0 t1 le_rfl h01 le_rfl h0⟩
  left
  -- no zero inside
  have hno : ∀ s, t0 < s → s < t1 → x s ≠ 0 := by
    intro s a b h0
    obtain ⟨τ, ⟨⟨τ0, τ1⟩, hτ⟩, hmin⟩ := (isCompact_Icc (a := t0) (b := s)).inter_right
      (isClosed_singleton.preimage h.cont : IsClosed (x ⁻¹' {0})) |>.exists_isLeast
        ⟨s, ⟨a.le, le_rfl⟩, h0⟩
    replace hτ : x τ = 0 := hτ
    have τ0' : t0 < τ := lt_of_le_of_ne τ0 (by rintro rfl; rw [hτ] at hx; exact lt_irrefl _ hx)
    have τ1' : τ < t1 := τ1.trans_lt b
    obtain ⟨d, hd, -⟩ := h.deriv τ τ0' τ1'
    have hneg : ∀ u, t0 ≤ u → u < τ → x u < 0 := by
      intro u u0 u1
      by_contra hge
      push Not at hge
      have hne : x u ≠ 0 := fun he => absurd (hmin ⟨⟨u0, (u1.trans_le τ1).le⟩, he⟩) (not_le.2 u1)
      obtain ⟨v, v0, v1, hv⟩ := zero_between h.cont u0
        (mul_neg_of_neg_of_pos hx (lt_of_le_of_ne hge hne.symm))
      exact absurd (hmin ⟨⟨v0.le, (v1.trans (u1.trans_le τ1)).le⟩, hv⟩) (not_le.2 (v1.trans u1))
    have e1 : d = A := left_slope τ0' hd fun u u0 u1 => by
      have := (h.sub u0 τ1'.le).neg_line u1 fun t ta tb => hneg t (u0.trans ta.le) tb
      rw [hτ] at this ⊢
      linarith
    have e2 : d = 0 := right_slope τ1' hd fun u u0 u1 => by
      rw [stay τ u τ0 u0 u1 hτ, hτ]; ring
    exact hA.ne' (e1.symm.trans e2)
  have hneg : ∀ s, t0 < s → s < t1 → x s < 0 := by
    intro s a b
    by_contra hge
    push Not at hge
    obtain ⟨v, v0, v1, hv⟩ := zero_between h.cont a.le
      (mul_neg_of_neg_of_pos hx (lt_of_le_of_ne hge (hno s a b).symm))
    exact hno v v0 (v1.trans b) hv
  refine ⟨?_, h.neg_line h01 hneg⟩
  by_contra hge
  push Not at hge
  obtain ⟨v, v0, v1, hv⟩ := zero_between h.cont h01 (mul_neg_of_neg_of_pos hx hge)
  exact hno v v0 v1 hv

/-- Leaving: an element that starts on the surface either stays there or leaves it at its beginning, with one of
the two slopes; afterwards the slope is kept. -/
theorem ScalarFlow.leaving (hA : A < 0) (hB : 0 < B) (h01 : t0 ≤ t1) (h : ScalarFlow A B x t0 t1) :
    (x t0 = 0 ∧ x t1 = 0) ∨ (x t0 ≤ 0 ∧ x t1 = x t0 + A * (t1 - t0)) ∨
      (0 ≤ x t0 ∧ x t1 = x t0 + B * (t1 - t0)) := by
  have hmono := h.sq.2 hA.le hB.le
  have back : ∀ s s', t0 ≤ s → s ≤ s' → s' ≤ t1 → x s' = 0 → x s = 0 := by
    intro s s' a b c h0
    have := hmono ⟨a, b.trans c⟩ ⟨a.trans b, c⟩ b
    simp only [h0] at this
    nlinarith [sq_nonneg (x s)]
  by_cases h1 : x t1 = 0
  · exact .inl ⟨back t0 t1 le_rfl h01 le_rfl h1, h1⟩
  right
  -- no zero inside
  have hno : ∀ s, t0 < s → s ≤ t1 → x s ≠ 0 := by
    intro s a b h0
    obtain ⟨τ, ⟨⟨τ0, τ1⟩, hτ⟩, hmax⟩ := (isCompact_Icc (a := s) (b := t1)).inter_right
      (isClosed_singleton.preimage h.cont : IsClosed (x ⁻¹' {0})) |>.exists_isGreatest
        ⟨s, ⟨le_rfl, b⟩, h0⟩
    replace hτ : x τ = 0 := hτ
    have τ0' : t0 < τ := a.trans_le τ0
    have τ1' : τ < t1 := lt_of_le_of_ne τ1 (by rintro rfl; exact h1 hτ)
    obtain ⟨d, hd, -⟩ := h.deriv τ τ0' τ1'
    have e0 : d = 0 := left_slope τ0' hd fun u u0 u1 => by
      rw [back u τ u0 u1 τ1 hτ, hτ]; ring
    have hne : ∀ u, τ < u → u ≤ t1 → x u ≠ 0 := fun u u0 u1 he =>
      absurd (hmax ⟨⟨τ0.trans u0.le, u1⟩, he⟩) (not_le.2 u0)
    rcases lt_or_gt_of_ne h1 with hn | hp
    · have hneg : ∀ u, τ < u → u ≤ t1 → x u < 0 := by
        intro u u0 u1
        by_contra hge
        push Not at hge
        obtain ⟨v, v0, v1, hv⟩ := zero_between h.cont u1
          (mul_neg_of_pos_of_neg (lt_of_le_of_ne hge (hne u u0 u1).symm) hn)
        exact hne v (u0.trans v0) v1.le hv
      have : d = A := right_slope τ1' hd fun u u0 u1 =>
        (h.sub τ0'.le u1).neg_line u0 fun t ta tb => hneg t ta (tb.le.trans u1)
      linarith
    · have hpos : ∀ u, τ < u → u ≤ t1 → 0 < x u := by
        intro u u0 u1
        by_contra hge
        push Not at hge
        obtain ⟨v, v0, v1, hv⟩ := zero_between h.cont u1
          (mul_neg_of_neg_of_pos (lt_of_le_of_ne hge (hne u u0 u1)) hp)
        exact hne v (u0.trans v0) v1.le hv
      have : d = B := right_slope τ1' hd fun u u0 u1 =>
        (h.sub τ0'.le u1).pos_line u0 fun t ta tb => hpos t ta (tb.le.trans u1)
      linarith
  rcases lt_or_gt_of_ne h1 with hn | hp
  · left
    have hneg : ∀ u, t0 < u → u ≤ t1 → x u < 0 := by
      intro u u0 u1
      by_contra hge
      push Not at hge
      obtain ⟨v, v0, v1, hv⟩ := zero_between h.cont u1
        (mul_neg_of_pos_of_neg (lt_of_le_of_ne hge (hno u u0 u1).symm) hn)
      exact hno v (u0.trans v0) v1.le hv
    refine ⟨?_, h.neg_line h01 fun t ta tb => hneg t ta tb.le⟩
    by_contra hge
    push Not at hge
    obtain ⟨v, v0, v1, hv⟩ := zero_between h.cont h01 (mul_neg_of_pos_of_neg hge hn)
    exact hno v v0 v1.le hv
  · right
    have hpos : ∀ u, t0 < u → u ≤ t1 → 0 < x u := by
      intro u u0 u1
      by_contra hge
      push Not at hge
      obtain ⟨v, v0, v1, hv⟩ := zero_between h.cont u1
        (mul_neg_of_neg_of_pos (lt_of_le_of_ne hge (hno u u0 u1)) hp)
      exact hno v (u0.trans v0) v1.le hv
    refine ⟨?_, h.pos_line h01 fun t ta tb => hpos t ta tb.le⟩
    by_contra hge
    push Not at hge
    obtain ⟨v, v0, v1, hv⟩ := zero_between h.cont h01 (mul_neg_of_neg_of_pos hge hp)
    exact hno v v0 v1.le hv

end Nosnoc
