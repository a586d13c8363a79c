import Verif.Spec.AutoModel
/-
Lemmas about `_rebuild_nonlin`, `_check_smooth` and `_find_nonlinear_components`.
-/
namespace Nosnoc
open Spec

/-- The symbols created when `n` of them exist already. -/
def alphaSyms (n m : Nat) : List SX :=
  (List.range m).map fun k => .leaf (.alpha (alphaName (n + k)))

theorem alphaSyms_zero (n : Nat) : alphaSyms n 0 = [] := rfl

theorem alphaSyms_one (n : Nat) : alphaSyms n 1 = [.leaf (.alpha (alphaName n))] := rfl

theorem alphaSyms_length (n m : Nat) : (alphaSyms n m).length = m := by simp [alphaSyms]

theorem alphaSyms_append (n m k : Nat) :
    alphaSyms n (m + k) = alphaSyms n m ++ alphaSyms (n + m) k := by
  simp only [alphaSyms, List.range_add, List.map_append, List.map_map]
  congr 1
  apply List.map_congr_left
  intro i _
  simp [Nat.add_assoc]

theorem alphaName_inj {i j : Nat} (h : alphaName i = alphaName j) : i = j := by
  have h1 := congrArg String.toList h
  simp only [alphaName, String.toList_append, List.append_cancel_left_eq] at h1
  have h2 : ∀ n : Nat, (toString n).toList = Nat.toDigits 10 n := fun n => Nat.toList_repr
  rw [h2, h2] at h1
  have := congrArg (fun l => Nat.ofDigitChars 10 l 0) h1
  simpa [Nat.ofDigitChars_toDigits] using this

theorem alphaSyms_nodup (n m : Nat) : (alphaSyms n m).Nodup := by
  refine List.Nodup.map ?_ List.nodup_range
  intro i j h
  simp only [SX.leaf.injEq, Leaf.alpha.injEq] at h
  have := alphaName_inj h
  omega

/-- The lists after adding the switching functions of some nodes. -/
def AutoState.extend (s : AutoState) (ns : List SX) : AutoState :=
  { s with c := s.c ++ ns.map switchOf, alpha := s.alpha ++ alphaSyms s.alpha.length ns.length }

theorem AutoState.extend_nil (s : AutoState) : s.extend [] = s := by
  simp [AutoState.extend, alphaSyms_zero]

theorem AutoState.extend_extend (s : AutoState) (a b : List SX) :
    (s.extend a).extend b = s.extend (a ++ b) := by
  simp [AutoState.extend, alphaSyms_append, alphaSyms_length]

theorem AutoState.extend_one (s : AutoState) (t : SX) : s.extend [t] = s.record (switchOf t) := by
  simp [AutoState.extend, AutoState.record, AutoState.fresh, alphaSyms_one]

theorem rebuildNonlin_state (e : SX) (s : AutoState) :
    (rebuildNonlin e s).2 = s.extend (outer e) := by
  induction e generalizing s with
  | num q => simp [rebuildNonlin, outer, AutoState.extend_nil]
  | leaf l => simp [rebuildNonlin, outer, AutoState.extend_nil]
  | un op a ih =>
      cases op <;> simp [rebuildNonlin, outer, ih, AutoState.extend_one, switchOf]
  | bin op a b iha ihb =>
      cases op <;>
        simp [rebuildNonlin, outer, iha, ihb, AutoState.extend_one, AutoState.extend_extend,
          switchOf]

theorem rebuildRows_state (rows : List SX) (s : AutoState) :
    (rebuildRows rows s).2 = s.extend (rows.flatMap outer) := by
  induction rows generalizing s with
  | nil => simp [rebuildRows, AutoState.extend_nil]
  | cons e rows ih => simp [rebuildRows, ih, rebuildNonlin_state, AutoState.extend_extend]

theorem rebuildRows_length (rows : List SX) (s : AutoState) :
    (rebuildRows rows s).1.length = rows.length := by
  induction rows generalizing s with
  | nil => rfl
  | cons e rows ih => simp [rebuildRows, ih]

theorem AutoState.extend_alpha_length (s : AutoState) (a : List SX) :
    (s.extend a).alpha.length = s.alpha.length + a.length := by
  simp [AutoState.extend, alphaSyms_length]

/-! Values -/

section
variable {I : Interp} {env : Leaf → ℝ}

theorem stepValues_append {c1 c2 a1 a2 : List SX} (h : a1.length = c1.length) :
    StepValues I env (c1 ++ c2) (a1 ++ a2) ↔ StepValues I env c1 a1 ∧ StepValues I env c2 a2 := by
  induction c1 generalizing a1 with
  | nil =>
      have : a1 = [] := List.length_eq_zero_iff.1 (by simpa using h)
      subst this
      simp [StepValues]
  | cons c c1 ih =>
      match a1, h with
      | a :: a1, h =>
          have := @ih a1 (by simpa using h)
          simp only [StepValues, List.cons_append, List.forall₂_cons] at this ⊢
          rw [this, and_assoc]

theorem rebuildNonlin_eval (e : SX) (s : AutoState)
    (hs : StepValues I env ((outer e).map switchOf) (alphaSyms s.alpha.length (outer e).length))
    (hn : SignsNonzero I env e) :
    (rebuildNonlin e s).1.eval I env = e.eval I env := by
  induction e generalizing s with
  | num q => rfl
  | leaf l => rfl
  | un op a ih =>
      cases op with
      | sign =>
          simp only [outer, if_true, List.map_cons, List.map_nil, List.length_cons, List.length_nil,
            zero_add, alphaSyms_one, StepValues, List.forall₂_cons, List.forall₂_nil_right_iff,
            and_true, switchOf] at hs
          have hz : a.eval I env ≠ 0 := hn a (by simp [outer])
          have h1 : (rebuildNonlin (.un .sign a) s).1.eval I env = 2 * s.fresh.eval I env - 1 := by
            simp [rebuildNonlin, SX.eval, BinOp.eval]
          rw [h1]
          change _ = Real.sign (a.eval I env)
          change StepValue (a.eval I env) (s.fresh.eval I env) at hs
          rcases lt_or_gt_of_ne hz with h | h
          · rw [hs.2 h, Real.sign_of_neg h]; norm_num
          · rw [hs.1 h, Real.sign_of_pos h]; norm_num
      | neg =>
          have := ih s hs (fun t ht => hn t ht)
          change -(rebuildNonlin a s).1.eval I env = -(a.eval I env)
          rw [this]
      | other n =>
          have := ih s hs (fun t ht => hn t ht)
          change I.un n ((rebuildNonlin a s).1.eval I env) = I.un n (a.eval I env)
          rw [this]
  | bin op a b iha ihb =>
      have key : ∀ op : BinOp, op ≠ .fmax → op ≠ .fmin →
          StepValues I env ((outer (.bin op a b)).map switchOf)
            (alphaSyms s.alpha.length (outer (.bin op a b)).length) →
          SignsNonzero I env (.bin op a b) →
          (rebuildNonlin a s).1.eval I env = a.eval I env ∧
          (rebuildNonlin b (rebuildNonlin a s).2).1.eval I env = b.eval I env := by
        intro op h1 h2 hs hn
        have ho : outer (.bin op a b) = outer a ++ outer b := by simp [outer, h1, h2]
        rw [ho, List.map_append, List.length_append, alphaSyms_append,
          stepValues_append (by simp [alphaSyms_length])] at hs
        refine ⟨iha s hs.1 fun t ht => hn t (by rw [ho]; simp [ht]), ihb _ ?_ fun t ht =>
          hn t (by rw [ho]; simp [ht])⟩
        rw [rebuildNonlin_state, AutoState.extend_alpha_length]
        exact hs.2
      cases op with
      | fmax =>
          simp only [outer, true_or, if_true, List.map_cons, List.map_nil, List.length_cons,
            List.length_nil, zero_add, alphaSyms_one, StepValues, List.forall₂_cons,
            List.forall₂_nil_right_iff, and_true, switchOf] at hs
          change StepValue (a.eval I env - b.eval I env) (s.fresh.eval I env) at hs
          have h1 : (rebuildNonlin (.bin .fmax a b) s).1.eval I env
              = s.fresh.eval I env * a.eval I env + (1 - s.fresh.eval I env) * b.eval I env := by
            simp [rebuildNonlin, SX.eval, BinOp.eval]
          rw [h1]
          change _ = max (a.eval I env) (b.eval I env)
          rcases lt_trichotomy (a.eval I env) (b.eval I env) with h | h | h
          · rw [hs.2 (by linarith), max_eq_right h.le]; ring
          · rw [h, max_self]; ring
          · rw [hs.1 (by linarith), max_eq_left h.le]; ring
      | fmin =>
          simp only [outer, or_true, if_true, List.map_cons, List.map_nil, List.length_cons,
            List.length_nil, zero_add, alphaSyms_one, StepValues, List.forall₂_cons,
            List.forall₂_nil_right_iff, and_true, switchOf] at hs
          change StepValue (a.eval I env - b.eval I env) (s.fresh.eval I env) at hs
          have h1 : (rebuildNonlin (.bin .fmin a b) s).1.eval I env
              = (1 - s.fresh.eval I env) * a.eval I env + s.fresh.eval I env * b.eval I env := by
            simp [rebuildNonlin, SX.eval, BinOp.eval]
          rw [h1]
          change _ = min (a.eval I env) (b.eval I env)
          rcases lt_trichotomy (a.eval I env) (b.eval I env) with h | h | h
          · rw [hs.2 (by linarith), min_eq_left h.le]; ring
          · rw [h, min_self]; ring
          · rw [hs.1 (by linarith), min_eq_right h.le]; ring
      | add =>
          obtain ⟨h1, h2⟩ := key _ (by simp) (by simp) hs hn
          change (rebuildNonlin a s).1.eval I env + (rebuildNonlin b _).1.eval I env = _
          rw [h1, h2]; rfl
      | sub =>
          obtain ⟨h1, h2⟩ := key _ (by simp) (by simp) hs hn
          change (rebuildNonlin a s).1.eval I env - (rebuildNonlin b _).1.eval I env = _
          rw [h1, h2]; rfl
      | mul =>
          obtain ⟨h1, h2⟩ := key _ (by simp) (by simp) hs hn
          change (rebuildNonlin a s).1.eval I env * (rebuildNonlin b _).1.eval I env = _
          rw [h1, h2]; rfl
      | other n =>
          obtain ⟨h1, h2⟩ := key _ (by simp) (by simp) hs hn
          change I.bin n ((rebuildNonlin a s).1.eval I env) ((rebuildNonlin b _).1.eval I env) = _
          rw [h1, h2]; rfl

theorem rebuildRows_eval (rows : List SX) (s : AutoState)
    (hs : StepValues I env ((rows.flatMap outer).map switchOf)
      (alphaSyms s.alpha.length (rows.flatMap outer).length))
    (hn : ∀ e ∈ rows, SignsNonzero I env e) :
    (rebuildRows rows s).1.map (SX.eval I env) = rows.map (SX.eval I env) := by
  induction rows generalizing s with
  | nil => rfl
  | cons e rows ih =>
      simp only [List.flatMap_cons, List.map_append, List.length_append, alphaSyms_append] at hs
      rw [stepValues_append (by simp [alphaSyms_length])] at hs
      simp only [rebuildRows, List.map_cons, List.cons.injEq]
      refine ⟨rebuildNonlin_eval e s hs.1 (hn e (by simp)), ih _ ?_ fun e he => hn e (by simp [he])⟩
      rw [rebuildNonlin_state, AutoState.extend_alpha_length]
      exact hs.2

theorem eval_congr {env' : Leaf → ℝ} {e : SX} (h : ∀ l ∈ e.leaves, env' l = env l) :
    e.eval I env' = e.eval I env := by
  induction e with
  | num q => rfl
  | leaf l => exact h l (by simp [SX.leaves])
  | un op a ih =>
      simp only [SX.eval, ih h]
  | bin op a b iha ihb =>
      simp only [SX.leaves, List.mem_append] at h
      simp only [SX.eval, iha fun l hl => h l (.inl hl), ihb fun l hl => h l (.inr hl)]

theorem Spec.UserExpr.eval {env' : Leaf → ℝ} {e : SX} (h : UserExpr e) (hs : SameUser env env') :
    e.eval I env' = e.eval I env :=
  eval_congr fun l hl => hs l fun n hn => h n (hn ▸ hl)

theorem outer_leaves {e t : SX} (h : t ∈ outer e) : ∀ l ∈ (switchOf t).leaves, l ∈ e.leaves := by
  induction e with
  | num q => simp [outer] at h
  | leaf l => simp [outer] at h
  | un op a ih =>
      by_cases ho : op = .sign
      · subst ho
        simp only [outer, if_true, List.mem_singleton] at h
        subst h
        intro l hl; exact hl
      · simp only [outer, ho, if_false] at h
        exact ih h
  | bin op a b iha ihb =>
      by_cases ho : op = .fmax ∨ op = .fmin
      · simp only [outer, ho, if_true, List.mem_singleton] at h
        subst h
        intro l hl; exact hl
      · simp only [outer, ho, if_false, List.mem_append] at h
        intro l hl
        simp only [SX.leaves, List.mem_append]
        rcases h with h | h
        · exact .inl (iha h l hl)
        · exact .inr (ihb h l hl)

/-- Values for the created symbols exist. -/
theorem stepValues_exist (env : Leaf → ℝ) (n : Nat) (cs : List SX) (hc : ∀ c ∈ cs, UserExpr c) :
    ∃ env', SameUser env env' ∧ StepValues I env' cs (alphaSyms n cs.length) ∧
      ∀ k, n + cs.length ≤ k → env' (.alpha (alphaName k)) = env (.alpha (alphaName k)) := by
  classical
  induction cs generalizing n with
  | nil => exact ⟨env, fun _ _ => rfl, by simp [StepValues, alphaSyms_zero], fun _ _ => rfl⟩
  | cons c cs ih =>
      obtain ⟨e1, h1, h2, -⟩ := ih (n + 1) fun c hc' => hc c (by simp [hc'])
      let v : ℝ := if 0 < c.eval I env then 1 else 0
      let e2 : Leaf → ℝ := fun l => if l = .alpha (alphaName n) then v
        else if ∃ k, n + 1 + cs.length ≤ k ∧ l = .alpha (alphaName k) then env l else e1 l
      have hs : SameUser env e2 := by
        intro l hl
        have : ¬ ∃ k, n + 1 + cs.length ≤ k ∧ l = .alpha (alphaName k) := by
          rintro ⟨k, -, rfl⟩; exact hl _ rfl
        simp only [e2, if_neg (hl _), if_neg this]
        exact h1 l hl
      refine ⟨e2, hs, ?_, ?_⟩
      · rw [List.length_cons, Nat.add_comm, alphaSyms_append, alphaSyms_one]
        simp only [StepValues, List.cons_append, List.nil_append, List.forall₂_cons]
        constructor
        · rw [Spec.UserExpr.eval (hc c (by simp)) hs]
          have : (SX.leaf (.alpha (alphaName n))).eval I e2 = v := by simp [SX.eval, e2]
          rw [this]
          constructor
          · intro h; simp [v, h]
          · intro h; simp [v, not_lt.2 h.le]
        · have h3 : ∀ i < cs.length, e2 (.alpha (alphaName (n + 1 + i)))
              = e1 (.alpha (alphaName (n + 1 + i))) := by
            intro i hi
            have a1 : ¬ Leaf.alpha (alphaName (n + 1 + i)) = .alpha (alphaName n) := by
              intro h; have := alphaName_inj (Leaf.alpha.inj h); omega
            have a2 : ¬ ∃ k, n + 1 + cs.length ≤ k ∧
                Leaf.alpha (alphaName (n + 1 + i)) = .alpha (alphaName k) := by
              rintro ⟨k, hk, h⟩
              have := alphaName_inj (Leaf.alpha.inj h); omega
            simp only [e2, if_neg a1, if_neg a2]
          refine List.forall₂_iff_get.2 ⟨by simp [alphaSyms_length], fun i hi hi' => ?_⟩
          have h4 := (List.forall₂_iff_get.1 h2).2 i hi hi'
          rw [Spec.UserExpr.eval (hc _ (by simp)) hs]
          rw [Spec.UserExpr.eval (hc _ (by simp)) h1] at h4
          have h5 : ∀ en : Leaf → ℝ, ((alphaSyms (n + 1) cs.length).get ⟨i, hi'⟩).eval I en
              = en (.alpha (alphaName (n + 1 + i))) := by
            intro en; simp [alphaSyms, SX.eval]
          rw [h5] at h4 ⊢
          rwa [h3 i hi]
      · intro k hk
        simp only [List.length_cons] at hk
        have a1 : ¬ Leaf.alpha (alphaName k) = .alpha (alphaName n) := by
          intro h; have := alphaName_inj (Leaf.alpha.inj h); omega
        have a2 : ∃ j, n + 1 + cs.length ≤ j ∧ Leaf.alpha (alphaName k) = .alpha (alphaName j) :=
          ⟨k, by omega, rfl⟩
        simp only [e2, if_neg a1, if_pos a2]

theorem components_eval (e : SX) :
    ((components e).map (SX.eval I env)).sum = e.eval I env := by
  have hneg : ∀ l : List SX, ((l.map (SX.un .neg)).map (SX.eval I env)).sum
      = -(l.map (SX.eval I env)).sum := by
    intro l
    induction l with
    | nil => simp
    | cons a l ih =>
        simp only [List.map_cons, List.sum_cons, ih, neg_add]
        rfl
  induction e with
  | num q => simp [components]
  | leaf l => simp [components]
  | un op a ih =>
      cases op with
      | neg => simp only [components]; rw [hneg, ih]; rfl
      | sign => simp [components]
      | other n => simp [components]
  | bin op a b iha ihb =>
      cases op with
      | add =>
          simp only [components, List.map_append, List.sum_append, iha, ihb]
          rfl
      | sub =>
          simp only [components, List.map_append, List.sum_append, iha]
          rw [hneg, ihb, ← sub_eq_add_neg]
          rfl
      | _ => simp [components]

end

/-! Smoothness -/

theorem smooth_num (q : ℚ) : Smooth (.num q) := by
  intro t h hs
  cases h; cases hs

theorem smooth_leaf (l : Leaf) : Smooth (.leaf l) := by
  intro t h hs
  cases h; cases hs

theorem smooth_un {op : UnOp} {a : SX} : Smooth (.un op a) ↔ op ≠ .sign ∧ Smooth a := by
  constructor
  · intro h
    refine ⟨?_, fun t ht => h t (.un ht)⟩
    rintro rfl
    exact h _ .here (.sign a)
  · rintro ⟨h1, h2⟩ t ht hs
    cases ht with
    | here => cases hs; exact h1 rfl
    | un h => exact h2 t h hs

theorem smooth_bin {op : BinOp} {a b : SX} :
    Smooth (.bin op a b) ↔ (op ≠ .fmax ∧ op ≠ .fmin) ∧ Smooth a ∧ Smooth b := by
  constructor
  · intro h
    refine ⟨⟨?_, ?_⟩, fun t ht => h t (.left ht), fun t ht => h t (.right ht)⟩
    · rintro rfl; exact h _ .here (.max a b)
    · rintro rfl; exact h _ .here (.min a b)
  · rintro ⟨⟨h1, h1'⟩, h2, h3⟩ t ht hs
    cases ht with
    | here => cases hs <;> simp at h1 h1'
    | left h => exact h2 t h hs
    | right h => exact h3 t h hs

theorem checkSmooth_iff (e : SX) : checkSmooth e = true ↔ Smooth e := by
  induction e with
  | num q => simp [checkSmooth, smooth_num]
  | leaf l => simp [checkSmooth, smooth_leaf]
  | un op a ih => rw [smooth_un]; cases op <;> simp [checkSmooth, ih]
  | bin op a b iha ihb => rw [smooth_bin]; cases op <;> simp [checkSmooth, iha, ihb]

theorem smooth_iff_outer (e : SX) : Smooth e ↔ outer e = [] := by
  induction e with
  | num q => simp [outer, smooth_num]
  | leaf l => simp [outer, smooth_leaf]
  | un op a ih => rw [smooth_un]; cases op <;> simp [outer, ih]
  | bin op a b iha ihb => rw [smooth_bin]; cases op <;> simp [outer, iha, ihb]

/-- Nested nodes show up in an argument of an outermost node. -/
theorem nested_iff (e : SX) : Nested e ↔ ∃ t ∈ outer e, ¬ Smooth (switchOf t) := by
  have sub_trans : ∀ {a b c : SX}, Subterm a b → Subterm b c → Subterm a c := by
    intro a b c h1 h2
    induction h2 with
    | here => exact h1
    | un _ ih => exact .un ih
    | left _ ih => exact .left ih
    | right _ ih => exact .right ih
  -- a nonsmooth argument of a switch node, as seen from `switchOf`
  have arg : ∀ t, IsSwitch t → ((∃ t', Subterm t' t ∧ t' ≠ t ∧ IsSwitch t') ↔
      ¬ Smooth (switchOf t)) := by
    intro t ht
    have size : ∀ {a b : SX}, Subterm a b → sizeOf a ≤ sizeOf b := by
      intro a b h
      induction h with
      | here => exact le_rfl
      | un _ ih => simp; omega
      | left _ ih => simp; omega
      | right _ ih => simp; omega
    cases ht with
    | sign a =>
        simp only [switchOf, Smooth, not_forall, not_not]
        constructor
        · rintro ⟨t', h1, h2, h3⟩
          cases h1 with
          | here => exact absurd rfl h2
          | un h => exact ⟨t', h, h3⟩
        · rintro ⟨t', h, h3⟩
          refine ⟨t', .un h, ?_, h3⟩
          rintro rfl
          have := size h
          simp at this
    | max a b =>
        rw [switchOf, smooth_bin]
        constructor
        · rintro ⟨t', h1, h2, h3⟩ ⟨-, ha, hb⟩
          cases h1 with
          | here => exact absurd rfl h2
          | left h => exact ha t' h h3
          | right h => exact hb t' h h3
        · intro h
          simp only [ne_eq, reduceCtorEq, not_false_eq_true, and_self, true_and, not_and_or,
            Smooth, not_forall, not_not, exists_prop] at h
          rcases h with ⟨t', h, h3⟩ | ⟨t', h, h3⟩
          · refine ⟨t', .left h, ?_, h3⟩
            rintro rfl
            have := size h
            simp at this
            omega
          · refine ⟨t', .right h, ?_, h3⟩
            rintro rfl
            have := size h
            simp at this
    | min a b =>
        rw [switchOf, smooth_bin]
        constructor
        · rintro ⟨t', h1, h2, h3⟩ ⟨-, ha, hb⟩
          cases h1 with
          | here => exact absurd rfl h2
          | left h => exact ha t' h h3
          | right h => exact hb t' h h3
        · intro h
          simp only [ne_eq, reduceCtorEq, not_false_eq_true, and_self, true_and, not_and_or,
            Smooth, not_forall, not_not, exists_prop] at h
          rcases h with ⟨t', h, h3⟩ | ⟨t', h, h3⟩
          · refine ⟨t', .left h, ?_, h3⟩
            rintro rfl
            have := size h
            simp at this
            omega
          · refine ⟨t', .right h, ?_, h3⟩
            rintro rfl
            have := size h
            simp at this
  have outer_sub : ∀ e t, t ∈ outer e → Subterm t e ∧ IsSwitch t := by
    intro e
    induction e with
    | num q => simp [outer]
    | leaf l => simp [outer]
    | un op a ih =>
        intro t ht
        cases op with
        | sign =>
            simp only [outer, if_true, List.mem_singleton] at ht
            subst ht
            exact ⟨.here, .sign a⟩
        | neg => exact ⟨.un (ih t ht).1, (ih t ht).2⟩
        | other n => exact ⟨.un (ih t ht).1, (ih t ht).2⟩
    | bin op a b iha ihb =>
        intro t ht
        cases op with
        | fmax =>
            simp only [outer, true_or, if_true, List.mem_singleton] at ht
            subst ht
            exact ⟨.here, .max a b⟩
        | fmin =>
            simp only [outer, or_true, if_true, List.mem_singleton] at ht
            subst ht
            exact ⟨.here, .min a b⟩
        | add | sub | mul =>
            simp only [outer, reduceCtorEq, or_self, if_false, List.mem_append] at ht
            rcases ht with h | h
            · exact ⟨.left (iha t h).1, (iha t h).2⟩
            · exact ⟨.right (ihb t h).1, (ihb t h).2⟩
        | other n =>
            simp only [outer, reduceCtorEq, or_self, if_false, List.mem_append] at ht
            rcases ht with h | h
            · exact ⟨.left (iha t h).1, (iha t h).2⟩
            · exact ⟨.right (ihb t h).1, (ihb t h).2⟩
  -- every switch node lies in an outermost one
  have cover : ∀ e t, Subterm t e → IsSwitch t → ∃ r ∈ outer e, Subterm t r := by
    intro e t h
    induction h with
    | here =>
        intro hs
        cases hs with
        | sign a => exact ⟨_, by simp [outer], .here⟩
        | max a b => exact ⟨_, by simp [outer], .here⟩
        | min a b => exact ⟨_, by simp [outer], .here⟩
    | @un op a h ih =>
        intro hs
        obtain ⟨r, hr, hr'⟩ := ih hs
        cases op with
        | sign => exact ⟨.un .sign a, by simp [outer], .un h⟩
        | neg => exact ⟨r, hr, hr'⟩
        | other n => exact ⟨r, hr, hr'⟩
    | @left op a b h ih =>
        intro hs
        obtain ⟨r, hr, hr'⟩ := ih hs
        by_cases ho : op = .fmax ∨ op = .fmin
        · exact ⟨.bin op a b, by simp [outer, ho], .left h⟩
        · exact ⟨r, by simp [outer, ho, hr], hr'⟩
    | @right op a b h ih =>
        intro hs
        obtain ⟨r, hr, hr'⟩ := ih hs
        by_cases ho : op = .fmax ∨ op = .fmin
        · exact ⟨.bin op a b, by simp [outer, ho], .right h⟩
        · exact ⟨r, by simp [outer, ho, hr], hr'⟩
  constructor
  · rintro ⟨t, h1, h2, t', h3, h4, h5⟩
    obtain ⟨r, hr, hr'⟩ := cover e t h1 h2
    refine ⟨r, hr, (arg r (outer_sub e r hr).2).1 ?_⟩
    by_cases htr : t = r
    · subst htr; exact ⟨t', h3, h4, h5⟩
    · exact ⟨t, hr', htr, h2⟩
  · rintro ⟨t, ht, hs⟩
    exact ⟨t, (outer_sub e t ht).1, (outer_sub e t ht).2, (arg t (outer_sub e t ht).2).2 hs⟩

theorem outer_switch {e t : SX} (h : t ∈ outer e) : IsSwitch t := by
  induction e with
  | num q => simp [outer] at h
  | leaf l => simp [outer] at h
  | un op a ih =>
      cases op with
      | sign =>
          simp only [outer, if_true, List.mem_singleton] at h
          subst h; exact .sign a
      | neg => exact ih h
      | other n => exact ih h
  | bin op a b iha ihb =>
      by_cases ho : op = .fmax ∨ op = .fmin
      · simp only [outer, ho, if_true, List.mem_singleton] at h
        subst h
        rcases ho with rfl | rfl
        · exact .max a b
        · exact .min a b
      · simp only [outer, ho, if_false, List.mem_append] at h
        exact h.elim iha ihb

/-- Without nesting the rebuilt expression is smooth. -/
theorem rebuildNonlin_smooth (e : SX) (s : AutoState)
    (h : ∀ t ∈ outer e, Smooth (switchOf t)) : Smooth (rebuildNonlin e s).1 := by
  have sub_smooth : ∀ a b : SX, Smooth (.bin .sub a b) → Smooth a ∧ Smooth b :=
    fun a b h => (smooth_bin.1 h).2
  induction e generalizing s with
  | num q => exact smooth_num q
  | leaf l => exact smooth_leaf l
  | un op a ih =>
      cases op with
      | sign =>
          simp only [rebuildNonlin, smooth_bin]
          simp [smooth_num, AutoState.fresh, smooth_leaf]
      | neg => exact smooth_un.2 ⟨by simp, ih s h⟩
      | other n => exact smooth_un.2 ⟨by simp, ih s h⟩
  | bin op a b iha ihb =>
      by_cases ho : op = .fmax ∨ op = .fmin
      · have hab := sub_smooth a b (h (.bin op a b) (by simp [outer, ho]))
        rcases ho with rfl | rfl <;> simp only [rebuildNonlin, smooth_bin] <;>
          simp [smooth_num, AutoState.fresh, smooth_leaf, hab]
      · have ho' := not_or.1 ho
        have hr : rebuildNonlin (.bin op a b) s = (.bin op (rebuildNonlin a s).1
            (rebuildNonlin b (rebuildNonlin a s).2).1, (rebuildNonlin b (rebuildNonlin a s).2).2) := by
          cases op <;> simp [rebuildNonlin] at ho' ⊢
        rw [hr]
        have houter : outer (.bin op a b) = outer a ++ outer b := by simp [outer, ho]
        exact smooth_bin.2 ⟨ho', iha s fun t ht => h t (by rw [houter]; simp [ht]),
          ihb _ fun t ht => h t (by rw [houter]; simp [ht])⟩

end Nosnoc
