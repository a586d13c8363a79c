import Mathlib.Data.Real.Archimedean
import Mathlib.Order.ConditionallyCompleteLattice.Finset
import Verif.Proofs.DcsAlg
import Verif.Spec.SamePath
/-
Helper: the multipliers of Stewart's and of the step representation at one point, computed from each
other, for a sign matrix without zeros.
-/
namespace Nosnoc

/-- Stewart multiplier of region `i` from step multipliers. -/
noncomputable def stOf (S : SMat) (lamN lamP : Nat → ℝ) (i : Nat) : ℝ :=
  2 * ∑ n ∈ Finset.range S.cols, if S.entry i n = 1 then lamN n else lamP n

noncomputable def muOf (S : SMat) (lamN lamP : Nat → ℝ) : ℝ :=
  ∑ n ∈ Finset.range S.cols, (lamP n + lamN n)

section
variable {S : SMat} {lamN lamP α : Nat → ℝ} {i : Nat}

theorem SMat.IsDense.isSign (hS : S.IsDense) : S.IsSign := fun i hi k hk => by
  rcases hS.1 i hi k hk with h | h
  · exact .inl h
  · exact .inr (.inr h)

theorem stOf_nonneg (hN : ∀ n < S.cols, 0 ≤ lamN n) (hP : ∀ n < S.cols, 0 ≤ lamP n) :
    0 ≤ stOf S lamN lamP i := by
  refine mul_nonneg (by norm_num) (Finset.sum_nonneg fun n hn => ?_)
  have hn := Finset.mem_range.1 hn
  split
  · exact hN n hn
  · exact hP n hn

theorem stOf_sub_mu (hS : S.IsDense) (hi : i < S.rows) :
    -∑ n ∈ Finset.range S.cols, S.entry i n * (lamP n - lamN n)
      = stOf S lamN lamP i - muOf S lamN lamP := by
  unfold stOf muOf
  rw [Finset.mul_sum, ← Finset.sum_sub_distrib, ← Finset.sum_neg_distrib]
  refine Finset.sum_congr rfl fun n hn => ?_
  rcases hS.1 i hi n (Finset.mem_range.1 hn) with h | h
  · rw [if_neg (by rw [h]; norm_num), h]; ring
  · rw [if_pos h, h]; ring

/-- The factors of a region weight. -/
theorem weight_factor (hS : S.IsDense) (hi : i < S.rows) (hw : regionWeight S i α ≠ 0) {n : Nat}
    (hn : n < S.cols) : (S.entry i n = 1 → α n ≠ 0) ∧ (S.entry i n ≠ 1 → 1 - α n ≠ 0) := by
  have hne : S.entry i n ≠ 0 := by rcases hS.1 i hi n hn with h | h <;> rw [h] <;> norm_num
  have := Finset.prod_ne_zero_iff.1 hw n (Finset.mem_filter.2 ⟨Finset.mem_range.2 hn, hne⟩)
  refine ⟨fun h h0 => this (by rw [h, h0]; norm_num), fun h h0 => this ?_⟩
  have h' := (hS.1 i hi n hn).resolve_right h
  rw [h']
  linarith

theorem stOf_compl (hS : S.IsDense) (hi : i < S.rows) (hN : ∀ n < S.cols, α n * lamN n = 0)
    (hP : ∀ n < S.cols, (1 - α n) * lamP n = 0) : regionWeight S i α * stOf S lamN lamP i = 0 := by
  by_cases hw : regionWeight S i α = 0
  · rw [hw, zero_mul]
  · have : stOf S lamN lamP i = 0 := by
      unfold stOf
      rw [Finset.sum_eq_zero, mul_zero]
      intro n hn
      have hn := Finset.mem_range.1 hn
      obtain ⟨f1, f2⟩ := weight_factor hS hi hw hn
      split
      · exact (mul_eq_zero.1 (hN n hn)).resolve_left (f1 ‹_›)
      · exact (mul_eq_zero.1 (hP n hn)).resolve_left (f2 ‹_›)
    rw [this, mul_zero]

/-- From the positive and negative parts of the switching functions one obtains the distance of Stewart's
indicator function from the smallest one. -/
theorem stOf_parts (hS : S.IsDense) (hp : S.Partition) (hi : i < S.rows) (c : Nat → ℝ) :
    stOf S (fun n => max (-c n) 0) (fun n => max (c n) 0) i
      = -(∑ n ∈ Finset.range S.cols, S.entry i n * c n)
        - ⨅ j : Fin S.rows, -∑ n ∈ Finset.range S.cols, S.entry j n * c n := by
  have hc : ∀ n, max (c n) 0 - max (-c n) 0 = c n := by
    intro n
    rcases le_total (c n) 0 with h | h
    · rw [max_eq_right h, max_eq_left (by linarith)]; ring
    · rw [max_eq_left h, max_eq_right (by linarith)]; ring
  have key : ∀ j : Fin S.rows, -∑ n ∈ Finset.range S.cols, S.entry j n * c n
      = stOf S (fun n => max (-c n) 0) (fun n => max (c n) 0) j
        - muOf S (fun n => max (-c n) 0) (fun n => max (c n) 0) := by
    intro j
    rw [← stOf_sub_mu hS j.2]
    simp only [hc]
  have nn : ∀ j : Fin S.rows, 0 ≤ stOf S (fun n => max (-c n) 0) (fun n => max (c n) 0) j := fun j =>
    stOf_nonneg (fun n _ => le_max_right _ _) fun n _ => le_max_right _ _
  obtain ⟨r, hr, -⟩ := hp fun n => decide (0 ≤ c n)
  have hr0 : stOf S (fun n => max (-c n) 0) (fun n => max (c n) 0) r = 0 := by
    unfold stOf
    rw [Finset.sum_eq_zero, mul_zero]
    intro n hn
    have hn := Finset.mem_range.1 hn
    have h1 := hr n hn (by rcases hS.1 r r.2 n hn with h | h <;> rw [h] <;> norm_num)
    by_cases h0 : 0 ≤ c n
    · rw [if_pos (by rw [h1]; simp [h0])]
      exact max_eq_right (by linarith)
    · rw [if_neg (by rw [h1]; simp [h0]; norm_num)]
      exact max_eq_right (by linarith)
  haveI : Nonempty (Fin S.rows) := ⟨r⟩
  have hinf : (⨅ j : Fin S.rows, -∑ n ∈ Finset.range S.cols, S.entry j n * c n)
      = -muOf S (fun n => max (-c n) 0) (fun n => max (c n) 0) := by
    apply le_antisymm
    · refine (ciInf_le (Set.finite_range _).bddBelow r).trans ?_
      rw [key r, hr0]; linarith
    · refine le_ciInf fun j => ?_
      rw [key j]; linarith [nn j]
  rw [hinf, key ⟨i, hi⟩]
  ring

/-! ### From Stewart to step -/

/-- Rows `i`, `i'` differ in column `n` only, with `1` and `-1` there. -/
def SMat.Flip (S : SMat) (n : Nat) (q : Nat × Nat) : Prop :=
  q.1 < S.rows ∧ q.2 < S.rows ∧ S.entry q.1 n = 1 ∧ S.entry q.2 n = -1 ∧
    ∀ m < S.cols, m ≠ n → S.entry q.1 m = S.entry q.2 m

theorem SMat.flip_of (hS : S.IsDense) (hp : S.Partition) {n : Nat} (hn : n < S.cols) {i : Nat}
    (hi : i < S.rows) : ∃ i' < S.rows, S.entry i' n = -S.entry i n ∧
      ∀ m < S.cols, m ≠ n → S.entry i' m = S.entry i m := by
  obtain ⟨r, hr, -⟩ := hp fun m => if m = n then decide (S.entry i m = -1) else decide (S.entry i m = 1)
  have ne : ∀ m < S.cols, S.entry r m ≠ 0 := fun m hm => by
    rcases hS.1 r r.2 m hm with h | h <;> rw [h] <;> norm_num
  refine ⟨r, r.2, ?_, fun m hm hmn => ?_⟩
  · have := hr n hn (ne n hn)
    rw [this]
    rcases hS.1 i hi n hn with h | h <;> rw [h] <;> norm_num
  · have := hr m hm (ne m hm)
    rw [this]
    rcases hS.1 i hi m hm with h | h <;> rw [h] <;> simp [hmn] <;> norm_num

theorem SMat.flip_exists (hS : S.IsDense) (hp : S.Partition) {n : Nat} (hn : n < S.cols) :
    ∃ q, S.Flip n q := by
  obtain ⟨r, hr, -⟩ := hp fun _ => true
  have h1 : S.entry r n = 1 := by
    have := hr n hn (by rcases hS.1 r r.2 n hn with h | h <;> rw [h] <;> norm_num)
    simpa using this
  obtain ⟨i', hi', e1, e2⟩ := SMat.flip_of hS hp hn r.2
  exact ⟨(r, i'), r.2, hi', h1, by rw [e1, h1], fun m hm hmn => (e2 m hm hmn).symm⟩

open Classical in
/-- The value of switching function `n` from Stewart's multipliers. -/
noncomputable def cOf (S : SMat) (lam : Nat → ℝ) (n : Nat) : ℝ :=
  if h : ∃ q, S.Flip n q then (lam h.choose.2 - lam h.choose.1) / 2 else 0

theorem StewartLam.flip {c lam : Nat → ℝ} {mu : ℝ} (h : StewartLam S c mu lam) {n : Nat}
    (hn : n < S.cols) {i i' : Nat} (hi : i < S.rows) (hi' : i' < S.rows)
    (ho : ∀ m < S.cols, m ≠ n → S.entry i' m = S.entry i m) :
    lam i' - lam i = (S.entry i n - S.entry i' n) * c n := by
  have h1 := h i hi
  have h2 := h i' hi'
  have : ∑ m ∈ Finset.range S.cols, S.entry i m * c m - ∑ m ∈ Finset.range S.cols, S.entry i' m * c m
      = (S.entry i n - S.entry i' n) * c n := by
    rw [← Finset.sum_sub_distrib, Finset.sum_eq_single_of_mem n (Finset.mem_range.2 hn)]
    · ring
    · intro m hm hmn
      rw [ho m (Finset.mem_range.1 hm) hmn]; ring
  linarith

theorem StewartLam.cOf_eq (hS : S.IsDense) (hp : S.Partition) {c lam : Nat → ℝ} {mu : ℝ}
    (h : StewartLam S c mu lam) {n : Nat} (hn : n < S.cols) : cOf S lam n = c n := by
  have hex := SMat.flip_exists hS hp hn
  unfold cOf
  rw [dif_pos hex]
  obtain ⟨a, b, e1, e2, e3⟩ := hex.choose_spec
  rw [h.flip hn a b (fun m hm hmn => (e3 m hm hmn).symm), e1, e2]
  ring

/-- If every region with a positive weight has multiplier zero, the step multipliers obtained from the
switching values are complementary. -/
theorem StewartLam.compl (hS : S.IsDense) (hp : S.Partition) {c lam : Nat → ℝ} {mu : ℝ}
    (h : StewartLam S c mu lam) (hl : ∀ i < S.rows, 0 ≤ lam i)
    (hz : ∀ i < S.rows, regionWeight S i α * lam i = 0) {n : Nat} (hn : n < S.cols) :
    α n * max (-c n) 0 = 0 ∧ (1 - α n) * max (c n) 0 = 0 := by
  classical
  -- a region with positive weight and prescribed sign in column `n`
  have act : ∀ b : Bool, (if b then α n else 1 - α n) ≠ 0 → ∃ i < S.rows,
      S.entry i n = (if b then 1 else -1) ∧ regionWeight S i α ≠ 0 := by
    intro b hb
    obtain ⟨r, hr, -⟩ := hp fun m => if m = n then b else decide (α m ≠ 0)
    have hr' : ∀ m < S.cols, S.entry r m = if (if m = n then b else decide (α m ≠ 0)) then 1 else -1 :=
      fun m hm => hr m hm (by rcases hS.1 r r.2 m hm with h | h <;> rw [h] <;> norm_num)
    refine ⟨r, r.2, by rw [hr' n hn]; simp, Finset.prod_ne_zero_iff.2 fun m hm => ?_⟩
    rw [Finset.mem_filter, Finset.mem_range] at hm
    rw [hr' m hm.1]
    by_cases hmn : m = n
    · subst hmn
      cases b
      · simp at hb ⊢
        intro h0; exact hb (by linarith)
      · simpa using hb
    · by_cases ha : α m = 0
      · simp [hmn, ha]
      · simp [hmn, ha]
  constructor
  · by_cases ha : α n = 0
    · rw [ha, zero_mul]
    · obtain ⟨i, hi, e, hw⟩ := act true (by simpa using ha)
      obtain ⟨i', hi', e', ho⟩ := SMat.flip_of hS hp hn hi
      have h0 := (mul_eq_zero.1 (hz i hi)).resolve_left hw
      have := h.flip hn hi hi' ho
      rw [e', e, h0] at this
      have h2 := hl i' hi'
      simp only [if_true] at this
      rw [max_eq_right (by linarith), mul_zero]
  · by_cases ha : 1 - α n = 0
    · rw [ha, zero_mul]
    · obtain ⟨i, hi, e, hw⟩ := act false (by simpa using ha)
      obtain ⟨i', hi', e', ho⟩ := SMat.flip_of hS hp hn hi
      have h0 := (mul_eq_zero.1 (hz i hi)).resolve_left hw
      have := h.flip hn hi hi' ho
      rw [e', e, h0] at this
      have h2 := hl i' hi'
      simp only [Bool.false_eq_true, if_false] at this
      rw [max_eq_right (by linarith), mul_zero]

/-- Two regions, one switching function: every convex combination has the form of the step
representation. -/
theorem weights_single (hS : S.IsDense) (hp : S.Partition) (h1 : S.cols = 1) {θ : Nat → ℝ}
    (h0 : ∀ i < S.rows, 0 ≤ θ i) (hsum : ∑ i ∈ Finset.range S.rows, θ i = 1) :
    ∃ α : Nat → ℝ, (∀ n < S.cols, 0 ≤ α n ∧ α n ≤ 1) ∧ ∀ i < S.rows, θ i = regionWeight S i α := by
  obtain ⟨a, ha, ua⟩ := hp fun _ => true
  obtain ⟨b, hb, ub⟩ := hp fun _ => false
  have hc : 0 < S.cols := by omega
  have ea : S.entry a 0 = 1 := by
    simpa using ha 0 hc (by rcases hS.1 a a.2 0 hc with h | h <;> rw [h] <;> norm_num)
  have eb : S.entry b 0 = -1 := by
    simpa using hb 0 hc (by rcases hS.1 b b.2 0 hc with h | h <;> rw [h] <;> norm_num)
  have hab : a ≠ b := by intro h; rw [h, eb] at ea; norm_num at ea
  have all : ∀ i : Fin S.rows, i = a ∨ i = b := by
    intro i
    rcases hS.1 i i.2 0 hc with h | h
    · right
      refine ub i fun k hk _ => ?_
      have : k = 0 := by omega
      subst this; simpa using h
    · left
      refine ua i fun k hk _ => ?_
      have : k = 0 := by omega
      subst this; simpa using h
  have hs : θ a + θ b = 1 := by
    rw [Finset.sum_range] at hsum
    rw [← hsum, ← Finset.sum_pair (f := fun i : Fin S.rows => θ i) hab]
    refine Finset.sum_subset (Finset.subset_univ _) fun i _ hi => absurd ?_ hi
    rcases all i with h | h <;> simp [h]
  have w : ∀ i : Fin S.rows, ∀ α : Nat → ℝ,
      regionWeight S i α = (1 - S.entry i 0) / 2 + S.entry i 0 * α 0 := by
    intro i α
    have hne : S.entry i 0 ≠ 0 := by rcases hS.1 i i.2 0 hc with h | h <;> rw [h] <;> norm_num
    unfold regionWeight
    rw [h1]
    simp [Finset.prod_filter, hne]
  refine ⟨fun _ => θ a, fun n _ => ⟨h0 a a.2, by linarith [h0 b b.2]⟩, fun i hi => ?_⟩
  rw [w ⟨i, hi⟩]
  rcases all ⟨i, hi⟩ with h | h
  · have : i = a := congrArg Fin.val h
    rw [h, ea, this]; ring
  · have : i = b := congrArg Fin.val h
    rw [h, eb, this]; linarith

end
end Nosnoc
