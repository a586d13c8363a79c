import Mathlib.Algebra.BigOperators.Group.Finset.Basic
import Mathlib.Algebra.BigOperators.Group.List.Lemmas
import Verif.Proofs.Rows
/-
Helper lemmas: vectors of expressions and function calls.
-/
namespace Nosnoc

/-- The vector with entries `φ 0, …, φ (n-1)`. -/
def vec (n : Nat) (φ : Nat → Expr) : Vec := (List.range n).map φ

@[simp] theorem length_vec (n : Nat) (φ : Nat → Expr) : (vec n φ).length = n := by simp [vec]

theorem at'_vec {n i : Nat} (φ : Nat → Expr) (h : i < n) : at' (vec n φ) i = φ i := by
  simp [at', vec, h]

theorem vec_eta {v : Vec} {n : Nat} (h : v.length = n) : v = vec n (at' v) := by
  subst h
  apply List.ext_getElem
  · simp
  · intro i h1 h2
    simp [vec, at', h1]

theorem vec_congr {n : Nat} {φ ψ : Nat → Expr} (h : ∀ i < n, φ i = ψ i) : vec n φ = vec n ψ :=
  List.map_congr_left fun i hi => h i (List.mem_range.1 hi)

theorem vars_blk (n : Nat) (f : Nat → Sym) : vars (blk n f) = vec n fun i => var (f i) := by
  simp [vars, blk, vec]

@[simp] theorem length_vars (l : List Sym) : (vars l).length = l.length := by simp [vars]
@[simp] theorem evalVec_vars (l : List Sym) (env : Env) : evalVec (vars l) env = l.map env := by
  simp [evalVec, vars, var, Function.comp_def]
@[simp] theorem length_evalVec (v : Vec) (env : Env) : (evalVec v env).length = v.length := by
  simp [evalVec]
theorem evalVec_append (a b : Vec) (env : Env) :
    evalVec (a ++ b) env = evalVec a env ++ evalVec b env := by simp [evalVec]
theorem evalVec_vec (n : Nat) (φ : Nat → Expr) (env : Env) :
    evalVec (vec n φ) env = (List.range n).map fun i => φ i env := by
  simp [evalVec, vec]

theorem vadd_vec (n : Nat) (φ ψ : Nat → Expr) :
    vadd (vec n φ) (vec n ψ) = vec n fun i env => φ i env + ψ i env := by
  simp [vadd, vec, List.zipWith_map, List.zipWith_self]
theorem vsub_vec (n : Nat) (φ ψ : Nat → Expr) :
    vsub (vec n φ) (vec n ψ) = vec n fun i env => φ i env - ψ i env := by
  simp [vsub, vec, List.zipWith_map, List.zipWith_self]
theorem vmul_vec (n : Nat) (φ ψ : Nat → Expr) :
    vmul (vec n φ) (vec n ψ) = vec n fun i env => φ i env * ψ i env := by
  simp [vmul, vec, List.zipWith_map, List.zipWith_self]
theorem vsmul_vec (n : Nat) (c : Expr) (φ : Nat → Expr) :
    vsmul c (vec n φ) = vec n fun i env => c env * φ i env := by
  simp [vsmul, vec, Function.comp_def]

/-- A fold adding vectors. -/
theorem foldlM_vadd {ε : Type} (n N : Nat) (φ : Nat → Expr) (ψ : Nat → Nat → Expr)
    (f : Vec → Nat → Except ε Vec)
    (hf : ∀ χ : Nat → Expr, ∀ r < N, f (vec n χ) r = .ok (vadd (vec n χ) (vec n (ψ r)))) :
    (List.range N).foldlM f (vec n φ)
      = .ok (vec n fun i env => φ i env + ∑ r ∈ Finset.range N, ψ r i env) := by
  induction N with
  | zero => simp
  | succ N ih =>
    rw [List.range_succ, List.foldlM_append, ih fun χ r hr => hf χ r (by omega)]
    simp only [ok_bind, List.foldlM_cons]
    rw [hf _ N (by omega), vadd_vec]
    simp only [ok_bind, List.foldlM_nil, pure_eq]
    congr 2
    funext i env
    rw [Finset.sum_range_succ, add_assoc]

/-- The result of a function call on arguments of the right lengths. -/
def CFun.app (f : CFun) (args : List Vec) : Vec :=
  f.outs.map fun e env => e (rebind f.ins.flatten args.flatten env)

@[simp] theorem CFun.length_app (f : CFun) (args : List Vec) :
    (f.app args).length = f.outs.length := by simp [CFun.app]

theorem CFun.call_ok {f : CFun} {args : List Vec}
    (h : f.ins.map List.length = args.map List.length) : f.call args = .ok (f.app args) := by
  simp [CFun.call, h, CFun.app]

theorem CFun.call_eq_ok {f : CFun} {args : List Vec} {r : Vec} :
    f.call args = .ok r ↔ f.ins.map List.length = args.map List.length ∧ r = f.app args := by
  unfold CFun.call
  split
  · rename_i h
    constructor
    · intro h'; cases h'; exact ⟨h, rfl⟩
    · rintro ⟨_, rfl⟩; rfl
  · rename_i h
    constructor
    · intro h'; cases h'
    · rintro ⟨h', _⟩; exact absurd h' h

theorem CFun.call1_ok {f : CFun} {args : List Vec}
    (h : f.ins.map List.length = args.map List.length) (h1 : f.outs.length = 1) :
    f.call1 args = .ok (at' (f.app args) 0) := by
  unfold CFun.call1
  rw [CFun.call_ok h, ok_bind, listGet_ok (by simp [h1])]
  simp [at', h1]

/-! ### Binding of function inputs -/

theorem rebind_left {l1 l2 : List Sym} {a1 a2 : Vec} {env : Env} {s : Sym}
    (hl : l1.length = a1.length) (h : s ∈ l1) :
    rebind (l1 ++ l2) (a1 ++ a2) env s = rebind l1 a1 env s := by
  unfold rebind
  rw [List.zip_append hl, List.lookup_append]
  cases hn : (l1.zip a1).lookup s with
  | some a => rfl
  | none =>
    rw [List.lookup_eq_none_iff] at hn
    obtain ⟨i, hi, rfl⟩ := List.getElem_of_mem h
    have := hn (l1[i], a1[i]) (List.mem_iff_getElem.2 ⟨i, by simp [hi, ← hl], by simp⟩)
    simp at this

theorem rebind_right {l1 l2 : List Sym} {a1 a2 : Vec} {env : Env} {s : Sym}
    (hl : l1.length = a1.length) (h : s ∉ l1) :
    rebind (l1 ++ l2) (a1 ++ a2) env s = rebind l2 a2 env s := by
  unfold rebind
  rw [List.zip_append hl, List.lookup_append]
  have : (l1.zip a1).lookup s = none := by
    rw [List.lookup_eq_none_iff]
    rintro ⟨a, b⟩ hp
    have := (List.of_mem_zip hp).1
    simp only [bne_iff_ne, ne_eq]
    rintro rfl
    exact h this
  rw [this]; rfl

theorem map_rebind {l : List Sym} {a : Vec} {env : Env} (hl : l.length = a.length)
    (hn : l.Nodup) : l.map (rebind l a env) = evalVec a env := by
  induction l generalizing a with
  | nil => cases a <;> simp_all [evalVec]
  | cons s l ih =>
    cases a with
    | nil => simp at hl
    | cons e a =>
      rw [List.nodup_cons] at hn
      have hr : ∀ t ∈ l, rebind (s :: l) (e :: a) env t = rebind l a env t := by
        intro t ht
        exact rebind_right (l1 := [s]) (a1 := [e]) rfl (by
          simp; rintro rfl; exact hn.1 ht)
      rw [List.map_cons, List.map_congr_left hr, ih (by simpa using hl) hn.2]
      simp [rebind, evalVec]

/-- Binding of a whole list of blocks. -/
theorem map_rebind_flatten {ls : List (List Sym)} {as : List Vec} {env : Env}
    (hl : ls.map List.length = as.map List.length) (hn : ls.flatten.Nodup)
    {i : Nat} (hi : i < ls.length) (hi' : i < as.length) :
    ls[i].map (rebind ls.flatten as.flatten env) = evalVec as[i] env := by
  induction ls generalizing as i with
  | nil => simp at hi
  | cons l ls ih =>
    cases as with
    | nil => simp at hl
    | cons a as =>
      simp only [List.map_cons, List.cons.injEq] at hl
      simp only [List.flatten_cons] at hn ⊢
      rw [List.nodup_append] at hn
      cases i with
      | zero =>
        simp only [List.getElem_cons_zero]
        rw [← map_rebind (env := env) hl.1 hn.1]
        apply List.map_congr_left
        intro s hs
        exact rebind_left hl.1 hs
      | succ i =>
        simp only [List.getElem_cons_succ]
        rw [← ih hl.2 hn.2.1 (by simpa using hi) (by simpa using hi')]
        apply List.map_congr_left
        intro s hs
        refine rebind_right hl.1 fun h => ?_
        exact hn.2.2 s h s (List.mem_flatten.2 ⟨_, List.getElem_mem _, hs⟩) rfl

/-- Symbols that are not inputs keep their value. -/
theorem rebind_not_mem {l : List Sym} {a : Vec} {env : Env} {s : Sym} (h : s ∉ l) :
    rebind l a env s = env s := by
  unfold rebind
  have : (l.zip a).lookup s = none := by
    rw [List.lookup_eq_none_iff]
    rintro ⟨x, b⟩ hp
    have := (List.of_mem_zip hp).1
    simp only [bne_iff_ne, ne_eq]
    rintro rfl
    exact h this
  rw [this]

end Nosnoc
