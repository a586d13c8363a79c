import Verif.Proofs.Sat
/-
C30, C31: what the complementarity constraints generated by `create_complementarity` impose, for
every MPCC mode, any number of vectors and any vector length.  `CompSat` (Verif/Spec/Mpcc.lean) says
for one component what each mode is documented to impose.
-/
namespace Nosnoc

/-- All constraints of the object hold at a point. -/
def Form.ConstraintsHold (f : Form) (env : Env) : Prop :=
  ∀ q ∈ f.g.zip (f.lbg.zip f.ubg), q.2.1 ≤ ((q.1 env : ℝ) : EReal) ∧ ((q.1 env : ℝ) : EReal) ≤ q.2.2

/-- Values of component `j` of several vectors. -/
def comps (xs : List Vec) (j : Nat) (env : Env) : List ℝ := xs.map fun x => at' x j env

section
variable {o : PreOpts} {f : Form} {bs : Nat → Sym} {xs : List Vec} {y : Vec}

/-- C30 (all modes but BOOLEAN): the call succeeds, adds no variables, and the new constraints hold iff
every component satisfies the relation of the mode. -/
theorem C30_modes (hb : o.mpcc ≠ .boolean) (hf : f.Aligned) (hne : xs ≠ [])
    (hlen : ∀ x ∈ xs, x.length = y.length)
    (haug : o.mpcc = .fischerBurmeisterIpAug → xs.length = 1) :
    ∃ f' ci, f.createCompl o.toOpts bs xs y = .ok (f', none, ci) ∧
      f'.w = f.w ∧ f'.lbw = f.lbw ∧ f'.ubw = f.ubw ∧ f'.w0 = f.w0 ∧ f'.cost = f.cost ∧
      ∀ env, f'.ConstraintsHold env ↔ f.ConstraintsHold env ∧
        ∀ j < y.length, CompSat o.toOpts (env .sigma) (env .tau) (env .sElastic)
          (comps xs j env) (at' y j env) := by
  have hc : CmdOk o (.compl xs y) := ⟨hne, hlen, haug⟩
  have hz : cmdVars o bs f.w.length (.compl xs y) = [] := by simp [cmdVars, hb]
  have hok := createCompl_ok (o := o) (f := f) (bs := bs) hc
  rw [if_neg hb] at hok
  refine ⟨execForm o bs f (.compl xs y), _, hok, ?_⟩
  · refine ⟨by simp [execForm, hz], by simp [execForm, hz], by simp [execForm, hz],
      by simp [execForm, hz], by simp [execForm, cmdCost], fun env => ?_⟩
    show (∀ r ∈ (execForm o bs f (.compl xs y)).rows, Row.Sat env r) ↔
      (∀ r ∈ f.rows, Row.Sat env r) ∧ _
    rw [execForm_rows hf, List.forall_mem_append, cmdRows_iff hb hc]
    rfl

/-- C30 (BOOLEAN): one fresh variable `b_j` in `[0, 1]` per component; the new constraints are the
big-M pair `|y_j| ≤ 10⁵ b_j`, `|Σ x_j| ≤ 10⁵ (1 - b_j)`. -/
theorem C30_boolean (hb : o.mpcc = .boolean) (hf : f.Aligned) (hne : xs ≠ [])
    (hlen : ∀ x ∈ xs, x.length = y.length) :
    ∃ f' ci, f.createCompl o.toOpts bs xs y
        = .ok (f', some (List.range' f.w.length y.length), ci) ∧
      f'.w = f.w ++ (List.range y.length).map (fun j => bs (f.w.length + j)) ∧
      f'.lbw = f.lbw ++ List.replicate y.length 0 ∧ f'.ubw = f.ubw ++ List.replicate y.length 1 ∧
      ∀ env, f'.ConstraintsHold env ↔ f.ConstraintsHold env ∧
        ∀ j < y.length,
          |at' y j env| ≤ 100000 * env (bs (f.w.length + j)) ∧
          |(comps xs j env).sum| ≤ 100000 * (1 - env (bs (f.w.length + j))) := by
  have hc : CmdOk o (.compl xs y) := ⟨hne, hlen, by simp [hb]⟩
  have hz : cmdVars o bs f.w.length (.compl xs y) = (List.range' f.w.length y.length).map bs := by
    simp [cmdVars, hb]
  have hok := createCompl_ok (o := o) (f := f) (bs := bs) hc
  rw [if_pos hb] at hok
  refine ⟨execForm o bs f (.compl xs y), _, hok, ?_⟩
  · refine ⟨?_, by simp [execForm, hz], by simp [execForm, hz], fun env => ?_⟩
    · simp only [execForm, hz]
      rw [List.range'_eq_map_range, List.map_map]
      rfl
    show (∀ r ∈ (execForm o bs f (.compl xs y)).rows, Row.Sat env r) ↔
      (∀ r ∈ f.rows, Row.Sat env r) ∧ _
    rw [execForm_rows hf, List.forall_mem_append]
    refine and_congr Iff.rfl ?_
    rw [hz]
    have hr : (∀ r ∈ cmdRows o ((List.range' f.w.length y.length).map bs) (.compl xs y),
        Row.Sat env r) ↔
        VecSat env (boolExpr ((List.range' f.w.length y.length).map bs) xs y)
        (List.replicate (boolExpr ((List.range' f.w.length y.length).map bs) xs y).length 0)
        (List.replicate (boolExpr ((List.range' f.w.length y.length).map bs) xs y).length ⊤) := by
      unfold cmdRows
      simp only [cmdBnd, cmdG, hb, compBounds, if_true]
      rfl
    rw [hr, vecSat_replicate rfl]
    simp only [boolExpr, List.forall_mem_append, forall_map_range]
    have hv : ∀ j < y.length, at' (vars ((List.range' f.w.length y.length).map bs)) j env
        = env (bs (f.w.length + j)) := by
      intro j hj
      unfold at' vars var
      rw [List.getD_eq_getElem?_getD, List.getElem?_map, List.getElem?_map, List.getElem?_range' hj]
      simp
    have hsum : ∀ j, (comps xs j env).sum = sumAt xs j env := fun _ => rfl
    constructor
    · rintro ⟨⟨⟨h1, h2⟩, h3⟩, h4⟩ j hj
      have a1 := (h1 j hj).1
      have a2 := (h2 j hj).1
      have a3 := (h3 j hj).1
      have a4 := (h4 j hj).1
      rw [zero_le_ecoe, hv j hj] at a1 a2 a3 a4
      unfold bigM at a1 a2 a3 a4
      rw [hsum]
      exact ⟨abs_le.2 ⟨by linarith, by linarith⟩, abs_le.2 ⟨by linarith, by linarith⟩⟩
    · intro H
      refine ⟨⟨⟨fun j hj => ?_, fun j hj => ?_⟩, fun j hj => ?_⟩, fun j hj => ?_⟩
      all_goals
        obtain ⟨a, b⟩ := H j hj
        rw [hsum] at b
        have a' := abs_le.1 a
        have b' := abs_le.1 b
        refine ⟨?_, le_top⟩
        rw [zero_le_ecoe, hv j hj]
        unfold bigM
        linarith [a'.1, a'.2, b'.1, b'.2]

/-- C30: vectors of different lengths are rejected. -/
theorem C30_lengths (x : Vec) (hx : x ∈ xs) (hlen : x.length ≠ y.length) :
    f.createCompl o.toOpts bs xs y = .error .casadi := by
  unfold Form.createCompl
  rw [if_pos (.inr ⟨x, hx, hlen⟩)]

/-- The hypotheses of C30 are met by two complementary vectors of length 2. -/
example (o : PreOpts) (hb : o.mpcc = .scholtesIneq) : ∃ f' ci,
    Form.empty.createCompl o.toOpts .boolGlob [vars [.u 0 0, .u 0 1], vars [.u 1 0, .u 1 1]]
      (vars [.sot 0, .sot 1]) = .ok (f', none, ci) ∧
    ∀ env, f'.ConstraintsHold env ↔ ∀ j < 2,
      (env (.u 0 j) + env (.u 1 j)) * env (.sot j) ≤ env .sigma := by
  obtain ⟨f', ci, h1, _, _, _, _, _, h2⟩ := C30_modes (o := o) (f := Form.empty) (bs := .boolGlob)
    (xs := [vars [.u 0 0, .u 0 1], vars [.u 1 0, .u 1 1]]) (y := vars [.sot 0, .sot 1])
    (by rw [hb]; decide) ⟨rfl, rfl, rfl, rfl, rfl⟩ (by simp) (by simp [vars]) (by simp [hb])
  refine ⟨f', ci, h1, fun env => ?_⟩
  rw [h2]
  have h0 : Form.empty.ConstraintsHold env := by simp [Form.ConstraintsHold, Form.empty]
  constructor
  · intro H j hj
    have := H.2 j hj
    simp only [CompSat, hb, comps] at this
    obtain rfl | rfl : j = 0 ∨ j = 1 := by omega
    · simpa [at', vars, var] using this
    · simpa [at', vars, var] using this
  · intro H
    refine ⟨h0, fun j hj => ?_⟩
    have hj' : j < 2 := hj
    have := H j hj'
    simp only [CompSat, hb, comps]
    obtain rfl | rfl : j = 0 ∨ j = 1 := by omega
    · simpa [at', vars, var] using this
    · simpa [at', vars, var] using this

/-! ### C31 -/

theorem mul_eq_zero_of_sum {xs : List ℝ} {y : ℝ} (hx : ∀ x ∈ xs, 0 ≤ x) (hy : 0 ≤ y)
    (h : xs.sum * y ≤ 0) : ∀ x ∈ xs, x * y = 0 := by
  intro x hm
  have h1 : x ≤ xs.sum := List.single_le_sum hx x hm
  have h2 : x * y ≤ xs.sum * y := mul_le_mul_of_nonneg_right h1 hy
  exact le_antisymm (le_trans h2 h) (mul_nonneg (hx x hm) hy)

/-- The Fischer-Burmeister function with `σ = 0` vanishes exactly at complementary pairs. -/
theorem C31_fischer_burmeister (a b : ℝ) :
    fischerBurmeister a b 0 = 0 ↔ 0 ≤ a ∧ 0 ≤ b ∧ a * b = 0 := by
  unfold fischerBurmeister
  constructor
  · intro h
    have h1 : Real.sqrt (a ^ 2 + b ^ 2 + 0 ^ 2) = a + b := by linarith
    have h2 : 0 ≤ a + b := h1 ▸ Real.sqrt_nonneg _
    have h3 := (Real.sqrt_eq_iff_mul_self_eq (by positivity) h2).1 h1
    have h4 : a * b = 0 := by nlinarith
    rcases mul_eq_zero.1 h4 with h5 | h5 <;> subst h5 <;> simp_all
  · rintro ⟨ha, hb, hab⟩
    have h1 : a ^ 2 + b ^ 2 + 0 ^ 2 = (a + b) ^ 2 := by nlinarith
    rw [h1, Real.sqrt_sq (by linarith)]
    ring

theorem fb_nonneg {a b : ℝ} (ha : 0 ≤ a) (hb : 0 ≤ b) : 0 ≤ fischerBurmeister a b 0 := by
  unfold fischerBurmeister
  have : Real.sqrt (a ^ 2 + b ^ 2 + 0 ^ 2) ≤ a + b := by
    rw [Real.sqrt_le_left (by linarith)]
    nlinarith [mul_nonneg ha hb]
  linarith

/-- C31: at `σ = 0` (and slack 0) every mode but BOOLEAN forces nonnegative values to be pairwise
complementary. -/
theorem C31_exact {o : Opts} (hb : o.mpcc ≠ .boolean) {τ : ℝ} {xs : List ℝ} {y : ℝ}
    (hx : ∀ x ∈ xs, 0 ≤ x) (hy : 0 ≤ y) (h : CompSat o 0 τ 0 xs y) : ∀ x ∈ xs, x * y = 0 := by
  have fb : (xs.map fun x => fischerBurmeister x y 0).sum = 0 → ∀ x ∈ xs, x * y = 0 := by
    intro h0 x hm
    have h1 : fischerBurmeister x y 0 ≤ (xs.map fun x => fischerBurmeister x y 0).sum := by
      refine List.single_le_sum ?_ _ (List.mem_map.2 ⟨x, hm, rfl⟩)
      intro v hv
      obtain ⟨x', hx', rfl⟩ := List.mem_map.1 hv
      exact fb_nonneg (hx x' hx') hy
    have h2 := le_antisymm (h1.trans h0.le) (fb_nonneg (hx x hm) hy)
    exact ((C31_fischer_burmeister x y).1 h2).2.2
  unfold CompSat at h
  cases hm : o.mpcc <;> simp only [hm] at h
  · exact mul_eq_zero_of_sum hx hy h
  · exact mul_eq_zero_of_sum hx hy h.le
  · exact fb h
  · exact fb h.1
  · exact mul_eq_zero_of_sum hx hy h
  · exact mul_eq_zero_of_sum hx hy h.le
  · exact mul_eq_zero_of_sum hx hy h.2
  · exact absurd hm hb

/-- C31: conversely complementary nonnegative values satisfy every mode but the augmented one at
`σ = 0` (BOOLEAN: if they are within the big-M bound). -/
theorem C31_complete {o : Opts} (ha : o.mpcc ≠ .fischerBurmeisterIpAug) {τ : ℝ} {xs : List ℝ} {y : ℝ}
    (hx : ∀ x ∈ xs, 0 ≤ x) (hy : 0 ≤ y) (h : ∀ x ∈ xs, x * y = 0)
    (hM : o.mpcc = .boolean → xs.sum ≤ 100000 ∧ y ≤ 100000) : CompSat o 0 τ 0 xs y := by
  have hs : xs.sum * y = 0 := by
    have h1 : (xs.map fun x => x * y).sum = 0 := List.sum_eq_zero (by simpa using h)
    rw [List.sum_map_mul_right] at h1
    simpa using h1
  have hf : (xs.map fun x => fischerBurmeister x y 0).sum = 0 :=
    List.sum_eq_zero (by
      intro v hv
      obtain ⟨x, hx', rfl⟩ := List.mem_map.1 hv
      exact (C31_fischer_burmeister x y).2 ⟨hx x hx', hy, h x hx'⟩)
  have hs0 : 0 ≤ xs.sum := List.sum_nonneg hx
  unfold CompSat
  cases hm : o.mpcc <;> simp only [hs, hf, le_refl, neg_zero, and_self]
  · exact absurd hm ha
  · obtain ⟨h1, h2⟩ := hM hm
    rcases mul_eq_zero.1 hs with h3 | h3
    · exact ⟨1, by norm_num, le_refl _, by linarith, by linarith, by rw [h3]; norm_num,
        by rw [h3]; norm_num⟩
    · exact ⟨0, le_refl _, by norm_num, by rw [h3]; norm_num, by rw [h3]; norm_num,
        by linarith, by linarith⟩

/-- C31 (BOOLEAN): with a binary `b` the big-M pair forces complementarity. -/
theorem C31_boolean {b X y : ℝ} (hb : b = 0 ∨ b = 1) (h1 : |y| ≤ 100000 * b)
    (h2 : |X| ≤ 100000 * (1 - b)) : X * y = 0 := by
  rcases hb with rfl | rfl
  · have : y = 0 := by simpa using h1
    simp [this]
  · have : X = 0 := by simpa using h2
    simp [this]

/-- C31 is violated in BOOLEAN mode by what the library passes to the NLP solver: the variables `b`
are continuous in `[0, 1]` (nothing marks them as discrete), and `b = 1/2` allows values that are not
complementary. -/
theorem C31_boolean_relaxed_violated {o : Opts} (hb : o.mpcc = .boolean) (τ : ℝ) :
    CompSat o 0 τ 0 [1] 1 ∧ ((1 : ℝ) * 1 ≠ 0) := by
  refine ⟨?_, by norm_num⟩
  simp only [CompSat, hb]
  exact ⟨1 / 2, by norm_num, by norm_num, by norm_num, by norm_num, by norm_num, by norm_num⟩

/-- C31: relaxations are nested. -/
theorem C31_nested {o : Opts} {σ σ' τ s s' : ℝ} (hσ : σ ≤ σ') (hs : s ≤ s') {xs : List ℝ} {y : ℝ}
    (hm : o.mpcc = .scholtesIneq ∨ o.mpcc = .elasticIneq ∨ o.mpcc = .elasticTwoSided)
    (h : CompSat o σ τ s xs y) : CompSat o σ' τ s' xs y := by
  unfold CompSat at h ⊢
  rcases hm with hm | hm | hm <;> simp only [hm] at h ⊢
  · linarith
  · linarith
  · constructor <;> linarith [h.1, h.2]

/-- C31: without the sign conditions the Fischer-Burmeister mode still enforces complementarity of a
single pair, and the signs. -/
theorem C31_fischer_burmeister_pair {o : Opts}
    (hm : o.mpcc = .fischerBurmeister ∨ o.mpcc = .fischerBurmeisterIpAug) {τ s x y : ℝ}
    (h : CompSat o 0 τ s [x] y) : 0 ≤ x ∧ 0 ≤ y ∧ x * y = 0 := by
  rw [← C31_fischer_burmeister]
  unfold CompSat at h
  rcases hm with hm | hm <;> simp only [hm] at h
  · simpa using h
  · simpa using h.1

/-- Hypotheses of C31: a nontrivial complementary pair. -/
example {o : Opts} (hm : o.mpcc = .scholtesIneq) (τ : ℝ) : CompSat o 0 τ 0 [0, 3, 0] 0 ∧
    CompSat o 0 τ 0 [0, 0] 5 := by
  simp [CompSat, hm]

end
end Nosnoc
