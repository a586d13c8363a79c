import Mathlib.Data.List.Perm.Basic
import Mathlib.Data.List.Nodup
import Mathlib.Data.List.Range
import Verif.Model.FiniteElement
import Verif.Proofs.ExceptLemmas
/-
Helper lemmas: the effect of a sequence of `add_variable` calls on a finite element.
-/
namespace Nosnoc

/-- Lengths of a call are consistent. -/
def VarCall.Ok (c : VarCall) : Prop :=
  c.lb.length = c.syms.length ∧ c.ub.length = c.syms.length ∧ c.init.length = c.syms.length

/-- Result of the index assignments of a sequence of calls starting at offset `off`. -/
def assign : (off : Nat) → List VarCall → (Slot → List Nat) → (Slot → List Nat)
  | _, [], ind => ind
  | off, c :: cs, ind => assign (off + c.syms.length) cs
      (fun s => if s = c.slot then List.range' off c.syms.length else ind s)

/-- The form after a sequence of calls. -/
def Form.extend (f : Form) (cs : List VarCall) : Form :=
  { f with w := f.w ++ cs.flatMap VarCall.syms, lbw := f.lbw ++ cs.flatMap VarCall.lb,
           ubw := f.ubw ++ cs.flatMap VarCall.ub, w0 := f.w0 ++ cs.flatMap VarCall.init }

theorem Form.addVariable_eq_ok {f f' : Form} {syms lb ub init idx} :
    f.addVariable syms lb ub init = .ok (f', idx) ↔
      (lb.length = syms.length ∧ ub.length = syms.length ∧ init.length = syms.length) ∧
      f' = { f with w := f.w ++ syms, lbw := f.lbw ++ lb, ubw := f.ubw ++ ub,
                    w0 := f.w0 ++ init } ∧
      idx = List.range' f.w.length syms.length := by
  unfold Form.addVariable
  split
  · rename_i h
    constructor
    · intro h'; cases h'
    · rintro ⟨⟨a, b, c⟩, _⟩; rcases h with h | h | h <;> contradiction
  · rename_i h
    push Not at h
    constructor
    · intro h'; cases h'; exact ⟨h, rfl, rfl⟩
    · rintro ⟨_, rfl, rfl⟩; rfl

theorem FE.addVar_ok {fe : FE} {c : VarCall} (hc : c.Ok) (hr : fe.inRange c.slot) :
    fe.addVar c = .ok { fe with
      form := fe.form.extend [c]
      ind := fun s => if s = c.slot then List.range' fe.form.w.length c.syms.length
                      else fe.ind s } := by
  unfold FE.addVar
  have h := (Form.addVariable_eq_ok (f := fe.form) (f' := fe.form.extend [c])
    (syms := c.syms) (lb := c.lb) (ub := c.ub) (init := c.init)
    (idx := List.range' fe.form.w.length c.syms.length)).2 ⟨hc, by simp [Form.extend], rfl⟩
  rw [h]
  simp [hr]

theorem FE.addVar_eq_ok {fe fe' : FE} {c : VarCall} (h : fe.addVar c = .ok fe') :
    c.Ok ∧ fe.inRange c.slot := by
  unfold FE.addVar at h
  simp only [bind_eq_ok] at h
  obtain ⟨⟨f, idx⟩, h1, h2⟩ := h
  rw [Form.addVariable_eq_ok] at h1
  refine ⟨h1.1, ?_⟩
  by_contra hr
  simp [hr] at h2

theorem Form.extend_extend (f : Form) (a b : List VarCall) :
    (f.extend a).extend b = f.extend (a ++ b) := by
  simp [Form.extend, List.append_assoc]

/-- Success of a sequence of calls. -/
theorem addVars_ok {fe : FE} {cs : List VarCall} (hc : ∀ c ∈ cs, c.Ok)
    (hr : ∀ c ∈ cs, fe.inRange c.slot) :
    cs.foldlM FE.addVar fe = .ok { fe with
      form := fe.form.extend cs
      ind := assign fe.form.w.length cs fe.ind } := by
  induction cs generalizing fe with
  | nil => simp [Form.extend, assign]
  | cons c cs ih =>
    rw [List.foldlM_cons, FE.addVar_ok (hc c (by simp)) (hr c (by simp)), ok_bind, ih]
    · simp only [Form.extend_extend, assign]
      simp [Form.extend]
    · intro c' h; exact hc c' (by simp [h])
    · intro c' h
      have := hr c' (by simp [h])
      cases hs : c'.slot <;> simpa [FE.inRange, hs] using this

/-- Failure: only calls with consistent data in range succeed. -/
theorem addVars_of_ok {fe fe' : FE} {cs : List VarCall} (h : cs.foldlM FE.addVar fe = .ok fe') :
    (∀ c ∈ cs, c.Ok) ∧ (∀ c ∈ cs, fe.inRange c.slot) := by
  induction cs generalizing fe with
  | nil => simp
  | cons c cs ih =>
    rw [List.foldlM_cons, bind_eq_ok] at h
    obtain ⟨f1, h1, h2⟩ := h
    have ⟨a, b⟩ := FE.addVar_eq_ok h1
    rw [FE.addVar_ok a b] at h1
    cases h1
    have ⟨i1, i2⟩ := ih h2
    constructor
    · intro c' h'; rcases List.mem_cons.1 h' with rfl | h'
      · exact a
      · exact i1 c' h'
    · intro c' h'; rcases List.mem_cons.1 h' with rfl | h'
      · exact b
      · have := i2 c' h'
        cases hs : c'.slot <;> simpa [FE.inRange, hs] using this

theorem assign_not_mem {off : Nat} {cs : List VarCall} {ind : Slot → List Nat} {s : Slot}
    (h : s ∉ cs.map VarCall.slot) : assign off cs ind s = ind s := by
  induction cs generalizing off ind with
  | nil => rfl
  | cons c cs ih =>
    simp only [List.map_cons, List.mem_cons, not_or] at h
    simp only [assign]
    rw [ih h.2]
    simp [h.1]

theorem assign_append {off : Nat} {a b : List VarCall} {ind : Slot → List Nat} :
    assign off (a ++ b) ind
      = assign (off + (a.flatMap VarCall.syms).length) b (assign off a ind) := by
  induction a generalizing off ind with
  | nil => simp [assign]
  | cons c cs ih => simp [assign, ih, Nat.add_assoc]

theorem assign_split {off : Nat} {pre post : List VarCall} {c : VarCall} {ind : Slot → List Nat}
    (h : c.slot ∉ post.map VarCall.slot) :
    assign off (pre ++ c :: post) ind c.slot
      = List.range' (off + (pre.flatMap VarCall.syms).length) c.syms.length := by
  rw [assign_append, assign, assign_not_mem h]
  simp

/-- The cells, visited in the order of the calls, list the positions in order. -/
theorem assign_flatMap {off : Nat} {cs : List VarCall} {ind : Slot → List Nat}
    (h : (cs.map VarCall.slot).Nodup) :
    (cs.map VarCall.slot).flatMap (assign off cs ind)
      = List.range' off (cs.flatMap VarCall.syms).length := by
  induction cs generalizing off ind with
  | nil => rfl
  | cons c cs ih =>
    simp only [List.map_cons, List.nodup_cons] at h
    simp only [List.map_cons, List.flatMap_cons, assign]
    rw [ih h.2, assign_not_mem h.1]
    simp

theorem gather_ok {w : List Sym} {idx : List Nat} {s : List Sym}
    (h : List.Forall₂ (fun i a => w[i]? = some a) idx s) : gather w idx = .ok s := by
  unfold gather
  rw [mapM_eq_ok]
  exact h.imp fun i a hi => by simp [hi]

theorem gather_eq_ok {w : List Sym} {idx : List Nat} {s : List Sym} :
    gather w idx = .ok s ↔ List.Forall₂ (fun i a => w[i]? = some a) idx s := by
  unfold gather
  rw [mapM_eq_ok]
  constructor
  · intro h; exact h.imp fun i a hi => by
      revert hi; cases hw : w[i]? <;> simp
  · intro h; exact h.imp fun i a hi => by simp [hi]

/-- Gathering a segment. -/
theorem gather_segment (a b c : List Sym) :
    gather (a ++ b ++ c) (List.range' a.length b.length) = .ok b := by
  apply gather_ok
  rw [List.forall₂_iff_get]
  refine ⟨by simp, ?_⟩
  intro i h1 h2
  simp only [List.get_eq_getElem, List.getElem_range', Nat.one_mul]
  rw [List.append_assoc, List.getElem?_append_right (by omega)]
  rw [List.getElem?_append_left (by simp at h1; omega)]
  simp at h1
  simp [h1]

theorem gather_append {w : List Sym} {a b : List Nat} {s t : List Sym}
    (h1 : gather w a = .ok s) (h2 : gather w b = .ok t) : gather w (a ++ b) = .ok (s ++ t) := by
  rw [gather_eq_ok] at *
  exact List.rel_append h1 h2

theorem gather_flatMap {α : Type} {w : List Sym} {l : List α} {f : α → List Nat}
    {g : α → List Sym} (h : ∀ a ∈ l, gather w (f a) = .ok (g a)) :
    gather w (l.flatMap f) = .ok (l.flatMap g) := by
  induction l with
  | nil => rfl
  | cons a t ih =>
    rw [List.flatMap_cons, List.flatMap_cons]
    exact gather_append (h a (by simp)) (ih fun b hb => h b (by simp [hb]))

/-- Reading in a prefix is reading in the whole. -/
theorem gather_mono {w r : List Sym} {idx : List Nat} {s : List Sym}
    (h : gather w idx = .ok s) : gather (w ++ r) idx = .ok s := by
  rw [gather_eq_ok] at *
  exact h.imp fun i a hi => by
    rw [List.getElem?_append_left]
    · exact hi
    · exact (List.getElem?_eq_some_iff.1 hi).1

/-- After the calls, the cell of a call holds the symbols of that call. -/
theorem gather_assign {w : List Sym} {cs : List VarCall} {ind : Slot → List Nat} {c : VarCall}
    (hn : (cs.map VarCall.slot).Nodup) (hc : c ∈ cs) :
    gather (w ++ cs.flatMap VarCall.syms) (assign w.length cs ind c.slot) = .ok c.syms := by
  obtain ⟨pre, post, rfl⟩ := List.append_of_mem hc
  have hpost : c.slot ∉ post.map VarCall.slot := by
    simp only [List.map_append, List.map_cons] at hn
    exact (List.nodup_cons.1 (List.nodup_append.1 hn).2.1).1
  rw [assign_split hpost]
  have := gather_segment (w ++ pre.flatMap VarCall.syms) c.syms (post.flatMap VarCall.syms)
  simpa [List.append_assoc] using this

/-- The cells of any complete duplicate-free enumeration list every new position exactly once. -/
theorem assign_perm {off : Nat} {cs : List VarCall} {L : List Slot}
    (hn : (cs.map VarCall.slot).Nodup) (hL : L.Nodup) (hsub : ∀ c ∈ cs, c.slot ∈ L) :
    (L.flatMap (assign off cs (fun _ => []))).Perm
      (List.range' off (cs.flatMap VarCall.syms).length) := by
  rw [← assign_flatMap hn (ind := fun _ => [])]
  set S := cs.map VarCall.slot with hS
  have h1 : L.flatMap (assign off cs (fun _ => []))
      = (L.filter (· ∈ S)).flatMap (assign off cs (fun _ => [])) := by
    clear hL hsub
    induction L with
    | nil => rfl
    | cons s L ih =>
      rw [List.flatMap_cons, ih]
      by_cases hs : s ∈ S
      · rw [List.filter_cons_of_pos (by simpa using hs), List.flatMap_cons]
      · rw [List.filter_cons_of_neg (by simpa using hs), assign_not_mem hs]
        rfl
  rw [h1]
  apply List.Perm.flatMap_right
  rw [List.perm_ext_iff_of_nodup (hL.filter _) hn]
  intro s
  simp only [List.mem_filter, decide_eq_true_eq, and_iff_right_iff_imp]
  intro hs
  obtain ⟨c, hc, rfl⟩ := List.mem_map.1 hs
  exact hsub c hc

end Nosnoc
