import Verif.Spec.SetGuess
import Verif.Proofs.Polish
import Verif.Proofs.Results
/-
Helper lemmas: what `set` writes.
-/
namespace Nosnoc

theorem forall₂_zipIdx {α β : Type} {R : α → β → Prop} {l : List α} {l' : List β}
    (h : List.Forall₂ R l l') (n : Nat) :
    List.Forall₂ (fun a b => R a.1 b.1 ∧ a.2 = b.2) (l.zipIdx n) (l'.zipIdx n) := by
  induction h generalizing n with
  | nil => exact .nil
  | cons hr _ ih =>
    rw [List.zipIdx_cons, List.zipIdx_cons]
    exact .cons ⟨hr, rfl⟩ (ih _)

theorem forall₂_and_mem {α β : Type} {R : α → β → Prop} {l : List α} {l' : List β}
    (h : List.Forall₂ R l l') : List.Forall₂ (fun a b => R a b ∧ b ∈ l') l l' := by
  induction h with
  | nil => exact .nil
  | cons hr _ ih =>
    refine .cons ⟨hr, List.mem_cons_self⟩ ?_
    exact ih.imp fun _ _ h => ⟨h.1, List.mem_cons_of_mem _ h.2⟩

theorem forall₂_and_mem_left {α β : Type} {R : α → β → Prop} {l : List α} {l' : List β}
    (h : List.Forall₂ R l l') : List.Forall₂ (fun a b => R a b ∧ a ∈ l) l l' := by
  induction h with
  | nil => exact .nil
  | cons hr _ ih =>
    refine .cons ⟨hr, List.mem_cons_self⟩ ?_
    exact ih.imp fun _ _ h => ⟨h.1, List.mem_cons_of_mem _ h.2⟩

theorem mem_zipIdx_map_range {α : Type} (f : Nat → α) (n m : Nat) :
    ∀ q ∈ ((List.range n).map f).zipIdx m, ∃ e < n, q = (f e, m + e) := by
  intro q hq
  obtain ⟨a, i⟩ := q
  rw [List.mem_zipIdx_iff_le_and_getElem?_sub] at hq
  obtain ⟨h1, h2⟩ := hq
  have hlt : i - m < n := by
    by_contra hc
    rw [List.getElem?_eq_none (by simpa using hc)] at h2
    cases h2
  rw [List.getElem?_map, List.getElem?_range hlt] at h2
  simp only [Option.map_some, Option.some.injEq] at h2
  exact ⟨i - m, hlt, by rw [h2]; congr; omega⟩

theorem elems_zipIdx (o : PreOpts) (K : Nat) :
    (∀ q ∈ ((List.range K).flatMap fun k => (List.range (nfe o k)).map fun e => (k, e)).zipIdx,
      q.2 = elemNo o q.1.1 q.1.2) ∧
    ((List.range K).flatMap fun k => (List.range (nfe o k)).map fun e => (k, e)).length
      = ∑ k' ∈ Finset.range K, nfe o k' := by
  induction K with
  | zero => simp
  | succ K ih =>
    rw [List.range_succ, List.flatMap_append, List.zipIdx_append, List.length_append, ih.2,
      Finset.sum_range_succ]
    refine ⟨fun q hq => ?_, by simp⟩
    rcases List.mem_append.1 hq with hq | hq
    · exact ih.1 q hq
    · rw [List.flatMap_singleton] at hq
      obtain ⟨e, -, rfl⟩ := mem_zipIdx_map_range _ _ _ q hq
      simp [elemNo]

theorem withRows_eq {value : Arr} {w : List Sym} {f : Sym → ℝ} {l : List (List Nat × Nat)}
    {symss : List (List Sym)}
    (h : List.Forall₂ (fun q syms => Names w q.1 syms ∧ value.row q.2 = .ok (syms.map f)) l symss) :
    withRows value l = .ok ((l.map Prod.fst).zip (symss.map (List.map f))) := by
  unfold withRows
  induction h with
  | nil => rfl
  | cons hr _ ih =>
    rw [List.mapM_cons, hr.2]
    change (do let r ← Except.ok _; let t ← _; pure (_ :: t)) = _
    rw [ih]
    rfl

theorem rows_names {value : Arr} {w : List Sym} {f : Sym → ℝ} {l : List (List Nat × Nat)}
    {symss : List (List Sym)}
    (h : List.Forall₂ (fun q syms => Names w q.1 syms ∧ value.row q.2 = .ok (syms.map f)) l symss) :
    List.Forall₂ (Names w) (l.map Prod.fst) symss := by
  rw [List.forall₂_map_left_iff]
  exact h.imp fun _ _ h => h.1

theorem wrote_of_map {S : Solver} {g : Sym → ℝ} {syms : List Sym} {f : Sym → ℝ}
    {v : Sym → Option ℝ} (hg : S.P.form.w0 = S.P.form.w.map g)
    (hv : ∀ t ∈ S.P.form.w, v t = if t ∈ syms then some (f t) else none) :
    Wrote S (S.setW0 (S.P.form.w.map fun t => if t ∈ syms then f t else g t)) v := by
  refine ⟨_, rfl, by rw [List.length_map], fun i t ht => ?_⟩
  rw [hv t (List.mem_of_getElem? ht), List.getElem?_map, ht, hg, List.getElem?_map, ht]
  by_cases h : t ∈ syms
  · simp [h]
  · simp [h]

theorem writeRows_eq {S : Solver} (hd : S.P.form.w.Nodup) {g : Sym → ℝ}
    (hg : S.P.form.w0 = S.P.form.w.map g) {value : Arr}
    {f : Sym → ℝ} {l : List (List Nat × Nat)} {symss : List (List Sym)}
    (h : List.Forall₂ (fun q syms => Names S.P.form.w q.1 syms
      ∧ value.row q.2 = .ok (syms.map f)) l symss) :
    S.writeRows value l
      = (S.setW0 (S.P.form.w.map fun t => if t ∈ symss.flatten then f t else g t), none) := by
  unfold Solver.writeRows
  rw [withRows_eq h]
  dsimp only
  unfold Solver.write
  rw [hg, npAssignAll_map hd f (rows_names h) g]

/-- A first row of the wrong width: nothing is written. -/
theorem write_wrong {S : Solver} {ix : List Nat} {v : List ℝ} {l : List (List Nat × List ℝ)}
    (hix : ∀ i ∈ ix, i < S.P.form.w0.length) (h1 : v.length ≠ ix.length) (h2 : v.length ≠ 1) :
    S.write ((ix, v) :: l) = (S, some .valueError) := by
  unfold Solver.write
  have : npAssign S.P.form.w0 ix v = .error .valueError := by
    unfold npAssign
    rw [if_pos hix]
    have : bcast ix.length v = .error .valueError := by
      unfold bcast
      rw [if_neg h1]
      match v, h2 with
      | [], _ => rfl
      | [_], h2 => exact absurd rfl h2
      | _ :: _ :: _, _ => rfl
    rw [this]; rfl
  rw [npAssignAll, this]
  rfl

/-- Rows of a rectangular array exist. -/
theorem withRows_mat {r c : Nat} {f : Nat → Nat → ℝ} {l : List (List Nat × Nat)}
    (h : ∀ q ∈ l, q.2 < r) :
    withRows (.mat r c f) l = .ok (l.map fun q => (q.1, (List.range c).map (f q.2))) := by
  unfold withRows
  rw [mapM_eq_ok]
  induction l with
  | nil => exact .nil
  | cons q l ih =>
    rw [List.map_cons]
    refine .cons ?_ (ih fun q hq => h q (List.mem_cons_of_mem _ hq))
    simp only [Arr.row, if_pos (h q List.mem_cons_self)]
    rfl

theorem blk_map_range {n : Nat} (s : Nat → Sym) (f : Sym → ℝ) (a : Nat → ℝ)
    (h : ∀ i, f (s i) = a i) : (blk n s).map f = (List.range n).map a := by
  unfold blk
  rw [List.map_map]
  exact List.map_congr_left fun i _ => h i

end Nosnoc
