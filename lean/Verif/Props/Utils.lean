import Verif.Model.Utils
import Verif.Proofs.ExceptLemmas
/-
C78: nested index-list utilities.
-/
namespace Nosnoc
namespace PyVal

/-- Specification: the leaves of a nested list, left to right (a relation, not a program). -/
inductive Leaves : PyVal → List PyVal → Prop
  | leafInt (n) : Leaves (.int n) [.int n]
  | leafOther : Leaves .other [.other]
  | nil : Leaves (.list []) []
  | cons {v l a b} : Leaves v a → Leaves (.list l) b → Leaves (.list (v :: l)) (a ++ b)

/-- Specification: `v'` has the nesting shape of `v` and every integer is increased by `inc`;
no leaf is a non-integer. -/
inductive Shifted (inc : Int) : PyVal → PyVal → Prop
  | int (n) : Shifted inc (.int n) (.int (n + inc))
  | nil : Shifted inc (.list []) (.list [])
  | cons {v v' l l'} : Shifted inc v v' → Shifted inc (.list l) (.list l') →
      Shifted inc (.list (v :: l)) (.list (v' :: l'))

theorem leaves_flatten : ∀ v : PyVal, Leaves v (flatten v)
  | .int n => by simpa [flatten] using Leaves.leafInt n
  | .other => by simpa [flatten] using Leaves.leafOther
  | .list l => by
      simp only [flatten]
      exact go l
where
  go : ∀ l : List PyVal, Leaves (.list l) (flatten.flattenAll l)
    | [] => by simpa [flatten.flattenAll] using Leaves.nil
    | v :: l => by
        simp only [flatten.flattenAll]
        exact Leaves.cons (leaves_flatten v) (go l)

theorem Leaves.unique {v : PyVal} {a b : List PyVal} (h : Leaves v a) (h' : Leaves v b) :
    a = b := by
  induction h generalizing b with
  | leafInt n => cases h'; rfl
  | leafOther => cases h'; rfl
  | nil => cases h'; rfl
  | cons _ _ ih1 ih2 => cases h' with | cons p q => rw [ih1 p, ih2 q]

/-- C78 (a): `flatten` returns exactly the leaves of the nested list in order. -/
theorem C78_flatten_leaves (v : PyVal) (r : List PyVal) : Leaves v r ↔ flatten v = r :=
  ⟨fun h => (leaves_flatten v).unique h, fun h => h ▸ leaves_flatten v⟩

example : flatten (.list [.list [.int 1, .list []], .int 2, .list [.list [.int 3]]])
    = [.int 1, .int 2, .int 3] := rfl

theorem shifted_of_go (inc : Int) : ∀ (l l' : List PyVal),
    incrementIndices.go l inc = .ok l' → Shifted inc (.list l) (.list l')
  | [], l', h => by
      simp only [incrementIndices.go] at h
      cases h; exact .nil
  | .int n :: es, l', h => by
      simp only [incrementIndices.go, bind_eq_ok, pure_eq_ok] at h
      obtain ⟨r, hr, rfl⟩ := h
      exact .cons (.int n) (shifted_of_go inc es r hr)
  | .list l :: es, l', h => by
      simp only [incrementIndices.go, bind_eq_ok, pure_eq_ok] at h
      obtain ⟨a, hl, r, hr, rfl⟩ := h
      exact .cons (shifted_of_go inc l a hl) (shifted_of_go inc es r hr)
  | .other :: es, l', h => by
      simp only [incrementIndices.go] at h
      cases h

theorem go_of_shifted {inc : Int} {v v' : PyVal} (h : Shifted inc v v') :
    ∀ l, v = .list l → ∃ l', v' = .list l' ∧ incrementIndices.go l inc = .ok l' := by
  induction h with
  | int n => intro l h; cases h
  | nil => intro l h; cases h; exact ⟨[], rfl, by simp [incrementIndices.go]⟩
  | @cons v v' l l' h1 h2 ih1 ih2 =>
    intro m hm
    cases hm
    obtain ⟨m', he, hgo⟩ := ih2 l rfl
    cases he
    refine ⟨v' :: l', rfl, ?_⟩
    cases h1 with
    | int n => simp only [incrementIndices.go, hgo]; rfl
    | nil =>
      obtain ⟨a, ha, hga⟩ := ih1 [] rfl
      cases ha
      simp only [incrementIndices.go, hgo]; rfl
    | cons p q =>
      obtain ⟨a, ha, hga⟩ := ih1 _ rfl
      cases ha
      simp only [incrementIndices.go, hgo, hga]; rfl

/-- C78 (b): `increment_indices(L, inc)` returns exactly the list of the same nesting shape with
every integer increased by `inc`; it succeeds iff every leaf is an integer. -/
theorem C78_increment_shape (l : List PyVal) (inc : Int) (v' : PyVal) :
    incrementIndices (.list l) inc = .ok v' ↔ Shifted inc (.list l) v' := by
  constructor
  · intro h
    simp only [incrementIndices] at h
    simp only [bind_eq_ok, pure_eq_ok] at h
    obtain ⟨r, hr, rfl⟩ := h
    exact shifted_of_go inc l r hr
  · intro h
    obtain ⟨l', rfl, hgo⟩ := go_of_shifted h l rfl
    simp only [incrementIndices, hgo]; rfl

theorem flattenAll_of_shifted {inc : Int} {v v' : PyVal} (h : Shifted inc v v') :
    ∃ ns : List Int, flatten v = ns.map .int ∧ flatten v' = (ns.map (· + inc)).map .int := by
  induction h with
  | int n => exact ⟨[n], rfl, rfl⟩
  | nil => exact ⟨[], rfl, rfl⟩
  | @cons v v' l l' h1 h2 ih1 ih2 =>
    obtain ⟨a, ha, ha'⟩ := ih1
    obtain ⟨b, hb, hb'⟩ := ih2
    refine ⟨a ++ b, ?_, ?_⟩
    · simp only [flatten] at hb ⊢
      simp only [flatten.flattenAll, ha, hb, List.map_append]
    · simp only [flatten] at hb' ⊢
      simp only [flatten.flattenAll, ha', hb', List.map_append]

/-- C78 (c): flattening commutes with incrementing: whenever `increment_indices` succeeds, the
leaves are integers and the flattened result is the flattened input shifted entrywise. -/
theorem C78_flatten_increment (l : List PyVal) (inc : Int) (v' : PyVal)
    (h : incrementIndices (.list l) inc = .ok v') :
    ∃ ns : List Int, flatten (.list l) = ns.map .int ∧
      flatten v' = (ns.map (· + inc)).map .int :=
  flattenAll_of_shifted ((C78_increment_shape l inc v').1 h)

example : ∃ v', incrementIndices (.list [.list [.int 1, .list []], .int 2]) 5 = .ok v' ∧
    flatten v' = [.int 6, .int 7] :=
  ⟨.list [.list [.int 6, .list []], .int 7], by simp [incrementIndices, incrementIndices.go], rfl⟩

/-- C78 (d): on a list of lists `flatten_layer(·, 0)` removes exactly one level (concatenation). -/
theorem C78_flatten_layer (ls : List (List PyVal)) (h : ls ≠ []) :
    flattenLayer 0 (.list (ls.map .list)) = .ok (.list ls.flatten) := by
  have hany : (ls.map PyVal.list).any isList = true := by
    cases ls with
    | nil => exact absurd rfl h
    | cons a t => simp [isList]
  have hsum : ∀ ls : List (List PyVal), sumLists (ls.map .list) = .ok ls.flatten := by
    intro ls
    induction ls with
    | nil => rfl
    | cons a t ih => simp only [List.map_cons, sumLists, ih, List.flatten_cons]; rfl
  simp only [flattenLayer, hany, if_true, hsum]; rfl

/-- C78 (e): on a list without sublists `flatten_layer(·, 0)` is the identity. -/
theorem C78_flatten_layer_flat (l : List PyVal) (h : ∀ v ∈ l, isList v = false) :
    flattenLayer 0 (.list l) = .ok (.list l) := by
  have : l.any isList = false := by simpa using h
  simp only [flattenLayer, this]; rfl

/-- C78 (f): `flatten_layer(·, n+1)` applies `flatten_layer(·, n)` below the outermost level;
the outer length is kept. -/
theorem C78_flatten_layer_deep (n : Nat) (l : List PyVal) (r : PyVal)
    (h : flattenLayer (n + 1) (.list l) = .ok r) :
    ∃ rs, r = .list rs ∧ rs.length = l.length ∧
      ∀ i (hi : i < l.length), ∃ x, rs[i]? = some x ∧ flattenLayer n l[i] = .ok x := by
  have key : ∀ (l : List PyVal) (rs : List PyVal), l.mapM (flattenLayer n) = .ok rs →
      rs.length = l.length ∧
      ∀ i (hi : i < l.length), ∃ x, rs[i]? = some x ∧ flattenLayer n l[i] = .ok x := by
    intro l
    induction l with
    | nil => intro rs h; cases h; simp
    | cons a t ih =>
      intro rs h
      rw [List.mapM_cons] at h
      simp only [bind_eq_ok, pure_eq_ok] at h
      obtain ⟨x, ha, xs, ht, rfl⟩ := h
      obtain ⟨h1, h2⟩ := ih xs ht
      refine ⟨by simp [h1], ?_⟩
      intro i hi
      cases i with
      | zero => exact ⟨x, by simp, ha⟩
      | succ i => simpa using h2 i (by simpa using hi)
  simp only [flattenLayer] at h
  simp only [bind_eq_ok, pure_eq_ok] at h
  obtain ⟨rs, hm, rfl⟩ := h
  exact ⟨rs, rfl, (key l rs hm).1, (key l rs hm).2⟩

/-- C78 (g): on a twice nested list `flatten_outer_layers(·, 2)` concatenates the two outer levels
and leaves the index lists below untouched (this is how `x_all_list` is formed), provided there is
something to concatenate at both levels. -/
theorem C78_flatten_outer_two (lss : List (List (List PyVal)))
    (h : lss ≠ []) (h' : lss.flatten ≠ []) :
    flattenOuterLayers 2 (.list (lss.map fun ls => .list (ls.map .list)))
      = .ok (.list lss.flatten.flatten) := by
  have e1 : (lss.map fun ls => PyVal.list (ls.map .list))
      = (lss.map (List.map PyVal.list)).map .list := by simp
  have e2 : (lss.map (List.map PyVal.list)).flatten = lss.flatten.map PyVal.list := by
    rw [List.map_flatten]
  have s1 := C78_flatten_layer (lss.map (List.map PyVal.list)) (by simpa using h)
  rw [e2] at s1
  have s2 := C78_flatten_layer lss.flatten h'
  simp only [flattenOuterLayers, e1]
  rw [s1]
  show (flattenLayer 0 (.list (lss.flatten.map .list)) >>= fun v => pure v) = _
  rw [s2]; rfl

example : flattenLayer 0 (.list [.list [.int 1], .list [.int 2, .int 3]])
    = .ok (.list [.int 1, .int 2, .int 3]) :=
  C78_flatten_layer [[.int 1], [.int 2, .int 3]] (by simp)

end PyVal
end Nosnoc
