import Verif.Proofs.AutoNonlin
/-
C73, C74, C75: the reformulation of `sign`, `max`, `min` by step functions, and the decomposition
of expressions.
-/
namespace Nosnoc
open Spec

variable {I : Interp} {env : Leaf → ℝ}

/-- C73: the rebuilt right-hand side has the values of the original one, at every point and for
all values of the created symbols that are step values of their switching functions, provided no
(outermost) `sign` is taken at zero.  Nothing is required of `max` and `min`: on their switching
surfaces every value of the symbol will do. -/
theorem C73_field (rows : List SX)
    (hs : StepValues I env (rebuildRows rows .init).2.c (rebuildRows rows .init).2.alpha)
    (hn : ∀ e ∈ rows, SignsNonzero I env e) :
    (rebuildRows rows .init).1.map (SX.eval I env) = rows.map (SX.eval I env) := by
  rw [rebuildRows_state] at hs
  exact rebuildRows_eval rows .init (by simpa [AutoState.extend, AutoState.init] using hs) hn

/-- C73 for a single expression and an object that has been used before: only the symbols created
for this expression matter. -/
theorem C73_expression (e : SX) (s : AutoState)
    (hs : StepValues I env ((rebuildNonlin e s).2.c.drop s.c.length)
      ((rebuildNonlin e s).2.alpha.drop s.alpha.length))
    (hn : SignsNonzero I env e) :
    (rebuildNonlin e s).1.eval I env = e.eval I env := by
  rw [rebuildNonlin_state] at hs
  exact rebuildNonlin_eval e s (by simpa [AutoState.extend] using hs) hn

/-- C73: values of the created symbols as required exist for all values of the user's symbols. -/
theorem C73_values_exist (rows : List SX) (hr : ∀ e ∈ rows, UserExpr e) (env : Leaf → ℝ) :
    ∃ env', SameUser env env' ∧
      StepValues I env' (rebuildRows rows .init).2.c (rebuildRows rows .init).2.alpha := by
  rw [rebuildRows_state]
  have hu : ∀ c ∈ (rows.flatMap outer).map switchOf, UserExpr c := by
    intro c hc n hn
    simp only [List.mem_map, List.mem_flatMap] at hc
    obtain ⟨t, ⟨e, he, ht⟩, rfl⟩ := hc
    exact hr e he n (outer_leaves ht _ hn)
  obtain ⟨env', h1, h2, -⟩ := stepValues_exist (I := I) env 0 _ hu
  refine ⟨env', h1, ?_⟩
  simpa [AutoState.extend, AutoState.init] using h2

/-- C74: one symbol per switching function, and one switching function per outermost nonsmooth
node, in order: the argument of `sign`, the difference of the arguments of `max` and `min`. -/
theorem C74_pairs (rows : List SX) :
    (rebuildRows rows .init).2.c = (rows.flatMap outer).map switchOf ∧
    (rebuildRows rows .init).2.alpha.length = (rebuildRows rows .init).2.c.length := by
  rw [rebuildRows_state]
  simp [AutoState.extend, AutoState.init, alphaSyms_length]

/-- C74: the created symbols are different, and so are their names. -/
theorem C74_names (rows : List SX) :
    ∃ names : List String, (rebuildRows rows .init).2.alpha = names.map (fun n => .leaf (.alpha n)) ∧
      names.Nodup := by
  rw [rebuildRows_state]
  refine ⟨(List.range (rows.flatMap outer).length).map alphaName, ?_, ?_⟩
  · simp [AutoState.extend, AutoState.init, alphaSyms, Function.comp_def]
  · exact List.Nodup.map (fun i j h => alphaName_inj h) List.nodup_range

/-- C74: if no nonsmooth node lies inside another one, the rebuilt expressions and the switching
functions are smooth. -/
theorem C74_smooth (rows : List SX) (h : ∀ e ∈ rows, ¬ Nested e) :
    (∀ e ∈ (rebuildRows rows .init).1, Smooth e) ∧
    ∀ c ∈ (rebuildRows rows .init).2.c, Smooth c := by
  have h' : ∀ e ∈ rows, ∀ t ∈ outer e, Smooth (switchOf t) := by
    intro e he t ht
    by_contra hc
    exact h e he ((nested_iff e).2 ⟨t, ht, hc⟩)
  constructor
  · generalize AutoState.init = s
    clear h
    induction rows generalizing s with
    | nil => simp [rebuildRows]
    | cons e rows ih =>
        intro r hr
        simp only [rebuildRows, List.mem_cons] at hr
        rcases hr with rfl | hr
        · exact rebuildNonlin_smooth e s (h' e (by simp))
        · exact ih (fun e he => h' e (by simp [he])) _ r hr
  · rw [(C74_pairs rows).1]
    intro c hc
    simp only [List.mem_map, List.mem_flatMap] at hc
    obtain ⟨t, ⟨e, he, ht⟩, rfl⟩ := hc
    exact h' e he t ht

/-- C74, conversely: nesting leaves a nonsmooth switching function. -/
theorem C74_nested (rows : List SX) (h : ∃ e ∈ rows, Nested e) :
    ∃ c ∈ (rebuildRows rows .init).2.c, ¬ Smooth c := by
  obtain ⟨e, he, hn⟩ := h
  obtain ⟨t, ht, hs⟩ := (nested_iff e).1 hn
  rw [(C74_pairs rows).1]
  exact ⟨switchOf t, by simp only [List.mem_map, List.mem_flatMap]; exact ⟨t, ⟨e, he, ht⟩, rfl⟩, hs⟩

/-- C75: the components found in an expression sum up to it, at every point. -/
theorem C75_components (e : SX) :
    ((components e).map (SX.eval I env)).sum = e.eval I env := components_eval e

/-- C75: `_check_smooth` is true exactly if no `sign`, `max` or `min` occurs. -/
theorem C75_smooth (e : SX) : checkSmooth e = true ↔ Smooth e := checkSmooth_iff e

/-- C75: components are not sums, differences or negated sums themselves: every component is a
chain of negations around a node that is none of these. -/
theorem C75_atomic (e : SX) : ∀ t ∈ components e, ∃ (k : Nat) (a : SX),
    t = (SX.un .neg)^[k] a ∧ ∀ a₁ a₂, a ≠ .un .neg a₁ ∧ a ≠ .bin .add a₁ a₂ ∧ a ≠ .bin .sub a₁ a₂ := by
  induction e with
  | num q => intro t ht; simp [components] at ht; exact ⟨0, t, rfl, by subst ht; simp⟩
  | leaf l => intro t ht; simp [components] at ht; exact ⟨0, t, rfl, by subst ht; simp⟩
  | un op a ih =>
      intro t ht
      cases op with
      | neg =>
          simp only [components, List.mem_map] at ht
          obtain ⟨r, hr, rfl⟩ := ht
          obtain ⟨k, b, rfl, hb⟩ := ih r hr
          exact ⟨k + 1, b, (Function.iterate_succ_apply' _ _ _).symm, hb⟩
      | sign => simp [components] at ht; exact ⟨0, t, rfl, by subst ht; simp⟩
      | other n => simp [components] at ht; exact ⟨0, t, rfl, by subst ht; simp⟩
  | bin op a b iha ihb =>
      intro t ht
      cases op with
      | add =>
          simp only [components, List.mem_append] at ht
          exact ht.elim (iha t) (ihb t)
      | sub =>
          simp only [components, List.mem_append, List.mem_map] at ht
          rcases ht with h | ⟨r, hr, rfl⟩
          · exact iha t h
          · obtain ⟨k, c, rfl, hc⟩ := ihb r hr
            exact ⟨k + 1, c, (Function.iterate_succ_apply' _ _ _).symm, hc⟩
      | mul => simp [components] at ht; exact ⟨0, t, rfl, by subst ht; simp⟩
      | fmin => simp [components] at ht; exact ⟨0, t, rfl, by subst ht; simp⟩
      | fmax => simp [components] at ht; exact ⟨0, t, rfl, by subst ht; simp⟩
      | other n => simp [components] at ht; exact ⟨0, t, rfl, by subst ht; simp⟩

/-- A system with `sign` and `max`: `x0' = x1 - sign(x0)`, `x1' = sin(max(x0, 1))`.  Two symbols
are created; at `x0 = 2` both have the value 1 and the hypotheses of C73 hold. -/
example : ∃ rows : List SX, (∀ e ∈ rows, UserExpr e) ∧ (∀ e ∈ rows, ¬ Nested e) ∧
    (rebuildRows rows .init).2.c.length = 2 ∧
    ∃ env : Leaf → ℝ,
      StepValues I env (rebuildRows rows .init).2.c (rebuildRows rows .init).2.alpha ∧
      (∀ e ∈ rows, SignsNonzero I env e) := by
  refine ⟨[.bin .sub (.leaf (.x 1)) (.un .sign (.leaf (.x 0))),
    .un (.other "sin") (.bin .fmax (.leaf (.x 0)) (.num 1))], ?_, ?_, ?_,
    fun l => match l with | .x _ => 2 | .alpha _ => 1 | _ => 0, ?_, ?_⟩
  · intro e he n hn
    simp only [List.mem_cons, List.not_mem_nil, or_false] at he
    rcases he with rfl | rfl <;> simp [SX.leaves] at hn
  · intro e he hn
    simp only [List.mem_cons, List.not_mem_nil, or_false] at he
    obtain ⟨t, ht, hs⟩ := (nested_iff e).1 hn
    rcases he with rfl | rfl
    · simp [outer] at ht
      subst ht
      exact hs (smooth_leaf _)
    · simp [outer] at ht
      subst ht
      exact hs (smooth_bin.2 ⟨by simp, smooth_leaf _, smooth_num _⟩)
  · simp [(C74_pairs _).1, outer]
  · rw [rebuildRows_state]
    simp [AutoState.extend, AutoState.init, outer, alphaSyms, List.range_succ, StepValues, StepValue,
      SX.eval, BinOp.eval, switchOf]
  · intro e he a ha
    simp only [List.mem_cons, List.not_mem_nil, or_false] at he
    rcases he with rfl | rfl <;> simp [outer] at ha
    subst ha
    simp [SX.eval]

end Nosnoc
