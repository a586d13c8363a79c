import Verif.Model.Solver
import Verif.Spec.Naming
import Verif.Proofs.ExceptLemmas
/-
Helper lemmas: assignments to guess and bound vectors, in terms of the variables at the positions.
-/
namespace Nosnoc

theorem Names.length {w : List Sym} {ix : List Nat} {syms : List Sym} (h : Names w ix syms) :
    ix.length = syms.length := List.Forall₂.length_eq h

theorem Names.lt {w : List Sym} {ix : List Nat} {syms : List Sym} (h : Names w ix syms) :
    ∀ i ∈ ix, i < w.length := by
  induction h with
  | nil => simp
  | cons hs _ ih =>
    intro i hi
    rcases List.mem_cons.1 hi with rfl | hi
    · by_contra hc
      rw [List.getElem?_eq_none (by omega)] at hs
      cases hs
    · exact ih i hi

theorem Names.mem {w : List Sym} {ix : List Nat} {syms : List Sym} (h : Names w ix syms) :
    ∀ s ∈ syms, s ∈ w := by
  induction h with
  | nil => simp
  | cons hs _ ih =>
    intro s h'
    rcases List.mem_cons.1 h' with rfl | h'
    · exact List.mem_of_getElem? hs
    · exact ih s h'

theorem Names.append {w : List Sym} {ix ix' : List Nat} {s s' : List Sym} (h : Names w ix s)
    (h' : Names w ix' s') : Names w (ix ++ ix') (s ++ s') := List.rel_append h h'

theorem Names.flatten {w : List Sym} {ix : List (List Nat)} {s : List (List Sym)}
    (h : List.Forall₂ (Names w) ix s) : Names w ix.flatten s.flatten := by
  induction h with
  | nil => exact List.Forall₂.nil
  | cons h1 _ ih => exact h1.append ih

/-- Setting one position. -/
theorem map_set {α : Type} {w : List Sym} (hd : w.Nodup) {i : Nat} {s : Sym} (hs : w[i]? = some s)
    (g : Sym → α) (a : α) : (w.map g).set i a = w.map fun t => if t = s then a else g t := by
  apply List.ext_getElem?
  intro n
  rw [List.getElem?_set, List.getElem?_map, List.getElem?_map]
  by_cases h : i = n
  · subst h
    have : i < w.length := by
      by_contra hc
      rw [List.getElem?_eq_none (by omega)] at hs
      cases hs
    rw [hs, if_pos rfl, List.length_map, if_pos this]
    simp
  · rw [if_neg h]
    cases hn : w[n]? with
    | none => rfl
    | some t =>
      have : t ≠ s := by
        rintro rfl
        have hi : i < w.length := by
          by_contra hc
          rw [List.getElem?_eq_none (by omega)] at hs
          cases hs
        exact h ((List.getElem?_inj hi hd).1 (hs.trans hn.symm))
      simp [this]

/-- Setting all positions that hold `syms`, each to the value `f` gives its variable. -/
theorem fold_set_map {α : Type} {w : List Sym} (hd : w.Nodup) (f : Sym → α) {ix : List Nat}
    {syms : List Sym} (h : Names w ix syms) (g : Sym → α) :
    (ix.zip (syms.map f)).foldl (fun l q => l.set q.1 q.2) (w.map g)
      = w.map fun t => if t ∈ syms then f t else g t := by
  induction h generalizing g with
  | nil => simp
  | @cons i s ix syms hs _ ih =>
    rw [List.map_cons, List.zip_cons_cons, List.foldl_cons, map_set hd hs, ih]
    apply List.map_congr_left
    intro t _
    by_cases h1 : t ∈ syms
    · simp [h1]
    · by_cases h2 : t = s
      · subst h2; simp [h1]
      · simp [h1, h2]

theorem writes_map {w : List Sym} (hd : w.Nodup) (f : Sym → ℝ) {ix : List Nat}
    {syms : List Sym} (h : Names w ix syms) (g : Sym → ℝ) :
    writes (w.map g) ix (syms.map f) = w.map fun t => if t ∈ syms then f t else g t :=
  fold_set_map hd f h g

theorem setBounds_map {w : List Sym} (hd : w.Nodup) (a : EReal) {ix : List Nat}
    {syms : List Sym} (h : Names w ix syms) (g : Sym → EReal) :
    setBounds (w.map g) ix a = w.map fun t => if t ∈ syms then a else g t := by
  have := fold_set_map hd (fun _ => a) h g
  rw [← this, setBounds]
  clear this
  generalize w.map g = l
  induction h generalizing l with
  | nil => rfl
  | cons _ _ ih => rw [List.foldl_cons, List.map_cons, List.zip_cons_cons, List.foldl_cons, ih]

theorem bcast_same {n : Nat} {v : List ℝ} (h : v.length = n) : bcast n v = .ok v := by
  unfold bcast; rw [if_pos h]

theorem npAssign_map {w : List Sym} (hd : w.Nodup) (f : Sym → ℝ) {ix : List Nat}
    {syms : List Sym} (h : Names w ix syms) (g : Sym → ℝ) :
    npAssign (w.map g) ix (syms.map f)
      = .ok (w.map fun t => if t ∈ syms then f t else g t) := by
  unfold npAssign
  rw [if_pos (by intro i hi; rw [List.length_map]; exact h.lt i hi),
    bcast_same (by rw [List.length_map, h.length])]
  show Except.ok (writes _ _ _) = _
  rw [writes_map hd f h g]

theorem npAssignAll_map {w : List Sym} (hd : w.Nodup) (f : Sym → ℝ) {ixs : List (List Nat)}
    {symss : List (List Sym)} (h : List.Forall₂ (Names w) ixs symss) (g : Sym → ℝ) :
    npAssignAll (w.map g) (ixs.zip (symss.map (List.map f)))
      = (w.map (fun t => if t ∈ symss.flatten then f t else g t), none) := by
  induction h generalizing g with
  | nil => simp [npAssignAll]
  | @cons ix syms ixs symss hs _ ih =>
    rw [List.map_cons, List.zip_cons_cons, npAssignAll, npAssign_map hd f hs, ]
    dsimp only
    rw [ih, Prod.mk.injEq]
    refine ⟨List.map_congr_left fun t _ => ?_, rfl⟩
    by_cases h1 : t ∈ symss.flatten
    · rw [if_pos h1, if_pos (by rw [List.flatten_cons]; exact List.mem_append_right _ h1)]
    · rw [if_neg h1]
      by_cases h2 : t ∈ syms
      · rw [if_pos h2, if_pos (by rw [List.flatten_cons]; exact List.mem_append_left _ h2)]
      · rw [if_neg h2, if_neg (by
          rw [List.flatten_cons, List.mem_append]; exact not_or.2 ⟨h2, h1⟩)]

theorem npAssign_length {w w' : List ℝ} {ix : List Nat} {v : List ℝ}
    (h : npAssign w ix v = .ok w') : w'.length = w.length := by
  unfold npAssign at h
  split at h
  · simp only [bind_eq_ok] at h
    obtain ⟨v', -, h⟩ := h
    cases h
    unfold writes
    generalize ix.zip v' = l
    induction l generalizing w with
    | nil => rfl
    | cons q l ih => rw [List.foldl_cons, ih, List.length_set]; simpa using ‹_›
  · cases h

theorem npAssignAll_length (l : List (List Nat × List ℝ)) (w : List ℝ) :
    (npAssignAll w l).1.length = w.length := by
  induction l generalizing w with
  | nil => rfl
  | cons q l ih =>
    obtain ⟨ix, v⟩ := q
    rw [npAssignAll]
    split
    · rename_i w' h
      rw [ih, npAssign_length h]
    · rfl

/-- A vector as long as `w` gives every variable a value. -/
theorem exists_map {α : Type} [Inhabited α] {w : List Sym} (hd : w.Nodup) {v : List α}
    (hl : v.length = w.length) : ∃ g : Sym → α, v = w.map g := by
  refine ⟨fun s => v.getD (w.idxOf s) default, ?_⟩
  apply List.ext_getElem
  · simp [hl]
  · intro i h1 h2
    have h3 : i < w.length := by simpa using h2
    simp [List.Nodup.idxOf_getElem hd i h3, List.getD_eq_getElem?_getD, h1]

end Nosnoc
