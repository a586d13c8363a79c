import Mathlib.Algebra.BigOperators.Ring.Finset
import Mathlib.Algebra.Order.BigOperators.Ring.Finset
import Mathlib.Tactic.Linarith
import Mathlib.Tactic.FieldSimp
import Verif.Spec.Dcs
/-
Algebra of the two representations.
-/
namespace Nosnoc

section stewart
variable {n : Nat} {g θ lam : Fin n → ℝ} {mu : ℝ}

/-- Only regions with minimal indicator value are active. -/
theorem StewartStage.argmin (h : StewartStage g θ lam mu) {i : Fin n} (hi : θ i ≠ 0) (j : Fin n) :
    g i ≤ g j := by
  have h0 : lam i = 0 := (mul_eq_zero.1 (h.compl i)).resolve_left hi
  rw [h.eq i, h.eq j, h0]
  linarith [h.lam_nonneg j]

theorem StewartStage.select (h : StewartStage g θ lam mu) {i : Fin n} (hi : ∀ j, j ≠ i → g i < g j) :
    θ = fun j => if j = i then 1 else 0 := by
  have h0 : ∀ j, j ≠ i → θ j = 0 := fun j hj => by
    by_contra hn
    exact absurd (h.argmin hn i) (not_le.2 (hi j hj))
  funext j
  split
  · rename_i hj
    subst hj
    have := h.sum
    rwa [Finset.sum_eq_single j (fun k _ hk => h0 k hk) (by simp)] at this
  · exact h0 j ‹_›

theorem StewartStage.mult (h : StewartStage g θ lam mu) {i : Fin n} (hi : ∀ j, j ≠ i → g i < g j) :
    mu = -g i ∧ lam = fun j => g j - g i := by
  have h1 : θ i = 1 := by rw [h.select hi]; simp
  have h2 : lam i = 0 := (mul_eq_zero.1 (h.compl i)).resolve_left (by rw [h1]; norm_num)
  have h3 : mu = -g i := by linarith [h.eq i]
  refine ⟨h3, funext fun j => ?_⟩
  linarith [h.eq j]

theorem stewart_exists {i : Fin n} (hi : ∀ j, j ≠ i → g i ≤ g j) :
    StewartStage g (fun j => if j = i then 1 else 0) (fun j => g j - g i) (-g i) where
  eq j := by ring
  sum := by simp
  theta_nonneg j := by split <;> norm_num
  lam_nonneg j := by
    by_cases h : j = i
    · rw [h]; simp
    · linarith [hi j h]
  compl j := by
    by_cases h : j = i
    · rw [h]; simp
    · simp [h]

end stewart

section step
variable {n : Nat} {c α lamN lamP : Fin n → ℝ}

theorem StepStage.pos (h : StepStage c α lamN lamP) {i : Fin n} (hi : 0 < c i) : α i = 1 := by
  have h1 : 0 < lamP i := by linarith [h.eq i, h.lamN_nonneg i]
  have := (mul_eq_zero.1 (h.compl_pos i)).resolve_right h1.ne'
  linarith

theorem StepStage.neg (h : StepStage c α lamN lamP) {i : Fin n} (hi : c i < 0) : α i = 0 := by
  have h1 : 0 < lamN i := by linarith [h.eq i, h.lamP_nonneg i]
  exact (mul_eq_zero.1 (h.compl_neg i)).resolve_right h1.ne'

theorem step_exists (c : Fin n → ℝ) : StepStage c (fun i => if 0 < c i then 1 else 0)
    (fun i => max (-(c i)) 0) (fun i => max (c i) 0) where
  eq i := by
    rcases le_total (c i) 0 with h | h
    · rw [max_eq_right h, max_eq_left (by linarith)]; ring
    · rw [max_eq_left h, max_eq_right (by linarith)]; ring
  alpha_nonneg i := by split <;> norm_num
  alpha_le_one i := by split <;> norm_num
  lamN_nonneg i := le_max_right _ _
  lamP_nonneg i := le_max_right _ _
  compl_neg i := by
    by_cases h : 0 < c i
    · simp [h, h.le]
    · simp [h]
  compl_pos i := by
    by_cases h : 0 < c i
    · simp [h]
    · simp [h, not_lt.1 h]

end step

section regions
variable {S : SMat} {i j : Nat} {c α : Nat → ℝ}

/-- Dense sign matrices: the indicator value `-(S c)_i` is smallest for the region the point is in. -/
theorem dense_min (hS : S.IsDense) (hi : i < S.rows) (hj : j < S.rows) (hij : j ≠ i)
    (hc : InRegion S i c) :
    -∑ k ∈ Finset.range S.cols, S.entry i k * c k < -∑ k ∈ Finset.range S.cols, S.entry j k * c k := by
  rw [neg_lt_neg_iff]
  have key : ∀ k < S.cols, S.entry j k * c k ≤ S.entry i k * c k ∧
      (S.entry i k ≠ S.entry j k → S.entry j k * c k < S.entry i k * c k) := by
    intro k hk
    have h1 := hS.1 i hi k hk
    have h2 := hS.1 j hj k hk
    have h3 := hc k hk (by rcases h1 with h | h <;> rw [h] <;> norm_num)
    rcases h1 with h1 | h1 <;> rcases h2 with h2 | h2 <;> rw [h1] at h3 ⊢ <;> rw [h2] <;>
      refine ⟨by linarith, fun h => ?_⟩ <;> first | (exact absurd rfl h) | linarith
  obtain ⟨k, hk, hne⟩ := hS.2 i hi j hj (Ne.symm hij)
  exact Finset.sum_lt_sum (fun k hk => (key k (Finset.mem_range.1 hk)).1)
    ⟨k, Finset.mem_range.2 hk, (key k hk).2 hne⟩

/-- The values of the step multipliers in region `i`. -/
theorem region_alpha (hS : S.IsSign) (hi : i < S.rows) (hc : InRegion S i c)
    (hp : ∀ k < S.cols, S.entry i k ≠ 0 → 0 < c k → α k = 1)
    (hn : ∀ k < S.cols, S.entry i k ≠ 0 → c k < 0 → α k = 0) {k : Nat}
    (hk : k < S.cols) (hne : S.entry i k ≠ 0) : α k = (1 + S.entry i k) / 2 := by
  have h1 := hc k hk hne
  rcases hS i hi k hk with h | h | h
  · rw [h] at h1 ⊢
    rw [hn k hk hne (by linarith)]; norm_num
  · exact absurd h hne
  · rw [h] at h1 ⊢
    rw [hp k hk hne (by linarith)]; norm_num

theorem weight_self (hS : S.IsSign) (hi : i < S.rows)
    (h : ∀ k < S.cols, S.entry i k ≠ 0 → α k = (1 + S.entry i k) / 2) : regionWeight S i α = 1 := by
  refine Finset.prod_eq_one fun k hk => ?_
  rw [Finset.mem_filter, Finset.mem_range] at hk
  rw [h k hk.1 hk.2]
  rcases hS i hi k hk.1 with e | e | e
  · rw [e]; norm_num
  · exact absurd e hk.2
  · rw [e]; norm_num

theorem weight_other (hS : S.IsSign) (hi : i < S.rows)
    (h : ∀ k < S.cols, S.entry i k ≠ 0 → α k = (1 + S.entry i k) / 2)
    (hc : ∃ k < S.cols, S.entry i k * S.entry j k = -1) : regionWeight S j α = 0 := by
  obtain ⟨k, hk, hm⟩ := hc
  have hi0 : S.entry i k ≠ 0 := by rintro e; rw [e] at hm; norm_num at hm
  have hj0 : S.entry j k ≠ 0 := by rintro e; rw [e] at hm; norm_num at hm
  refine Finset.prod_eq_zero (Finset.mem_filter.2 ⟨Finset.mem_range.2 hk, hj0⟩) ?_
  rw [h k hk hi0]
  rcases hS i hi k hk with e | e | e
  · rw [e] at hm ⊢; linarith
  · exact absurd e hi0
  · rw [e] at hm ⊢; linarith

theorem factor_nonneg {s a : ℝ} (hs : s = -1 ∨ s = 0 ∨ s = 1) (h0 : 0 ≤ a) (h1 : a ≤ 1) :
    0 ≤ (1 - s) / 2 + s * a ∧ (1 - s) / 2 + s * a ≤ 1 := by
  rcases hs with rfl | rfl | rfl <;> constructor <;> linarith

theorem weight_mem (hS : S.IsSign) (hi : i < S.rows)
    (h01 : ∀ k < S.cols, S.entry i k ≠ 0 → 0 ≤ α k ∧ α k ≤ 1) : 0 ≤ regionWeight S i α ∧ regionWeight S i α ≤ 1 := by
  have key : ∀ k ∈ (Finset.range S.cols).filter (fun k => S.entry i k ≠ 0),
      0 ≤ (1 - S.entry i k) / 2 + S.entry i k * α k ∧
        (1 - S.entry i k) / 2 + S.entry i k * α k ≤ 1 := by
    intro k hk
    rw [Finset.mem_filter, Finset.mem_range] at hk
    exact factor_nonneg (hS i hi k hk.1) (h01 k hk.1 hk.2).1 (h01 k hk.1 hk.2).2
  exact ⟨Finset.prod_nonneg fun k hk => (key k hk).1,
    Finset.prod_le_one (fun k hk => (key k hk).1) fun k hk => (key k hk).2⟩

/-- Weight of one sign assignment. -/
noncomputable def signWeight (n : Nat) (α : Nat → ℝ) (σ : Fin n → Bool) : ℝ :=
  ∏ k : Fin n, if σ k then α k else 1 - α k

theorem sum_signWeight (n : Nat) (α : Nat → ℝ) : ∑ σ, signWeight n α σ = 1 := by
  unfold signWeight
  have h := Finset.prod_univ_sum (fun _ : Fin n => (Finset.univ : Finset Bool))
    (fun k b => if b then α k else 1 - α k)
  rw [Fintype.piFinset_univ] at h
  rw [← h]
  refine Finset.prod_eq_one fun k _ => ?_
  simp

/-- A region's weight is the sum of the weights of the sign assignments that belong to it. -/
theorem weight_eq_sum (hS : S.IsSign) (hi : i < S.rows) (α : Nat → ℝ) :
    regionWeight S i α = ∑ σ : Fin S.cols → Bool,
      if (∀ k : Fin S.cols, S.entry i k ≠ 0 → S.entry i k = if σ k then 1 else -1)
      then signWeight S.cols α σ else 0 := by
  classical
  have h1 : regionWeight S i α = ∏ k : Fin S.cols, ∑ b ∈ (Finset.univ : Finset Bool),
      if S.entry i k ≠ 0 → S.entry i k = if b then (1 : ℝ) else -1
      then (if b then α k else 1 - α k) else 0 := by
    unfold regionWeight
    rw [Finset.prod_filter, Finset.prod_range]
    refine Finset.prod_congr rfl fun k _ => ?_
    rcases hS i hi k k.2 with e | e | e
    · rw [e]; norm_num; ring
    · rw [e]; norm_num
    · rw [e]; norm_num
  rw [h1, Finset.prod_univ_sum, Fintype.piFinset_univ]
  refine Finset.sum_congr rfl fun σ _ => ?_
  by_cases hσ : ∀ k : Fin S.cols, S.entry i k ≠ 0 → S.entry i k = if σ k then 1 else -1
  · rw [if_pos hσ]
    exact Finset.prod_congr rfl fun k _ => if_pos (hσ k)
  · rw [if_neg hσ]
    push Not at hσ
    obtain ⟨k, hk, hne⟩ := hσ
    refine Finset.prod_eq_zero (Finset.mem_univ k) (if_neg fun h => hne (h hk))

theorem sum_weights (hS : S.IsSign) (hp : S.Partition) (α : Nat → ℝ) :
    ∑ i ∈ Finset.range S.rows, regionWeight S i α = 1 := by
  classical
  rw [Finset.sum_range]
  rw [Finset.sum_congr rfl fun (i : Fin S.rows) _ => weight_eq_sum hS i.2 α, Finset.sum_comm]
  refine Eq.trans ?_ (sum_signWeight S.cols α)
  refine Finset.sum_congr rfl fun σ _ => ?_
  obtain ⟨i, hi, hu⟩ := hp fun k => if h : k < S.cols then σ ⟨k, h⟩ else false
  have conv : ∀ i : Fin S.rows, (∀ k < S.cols, S.entry i k ≠ 0 → S.entry i k =
      if (if h : k < S.cols then σ ⟨k, h⟩ else false) = true then 1 else -1) ↔
      ∀ k : Fin S.cols, S.entry i k ≠ 0 → S.entry i k = if σ k then 1 else -1 := by
    intro i
    constructor
    · intro h k hk
      have := h k k.2 hk
      simpa using this
    · intro h k hk hne
      rw [dif_pos hk]
      exact h ⟨k, hk⟩ hne
  rw [Finset.sum_eq_single i]
  · rw [if_pos ((conv i).1 hi)]
  · intro j _ hj
    rw [if_neg fun h => hj (hu j ((conv j).2 h))]
  · simp

end regions
end Nosnoc
