import Verif.Proofs.World
import Verif.Spec.Accept
import Verif.Proofs.Accept
/-
Helper lemmas about `preprocess_ocp`.
-/
namespace Nosnoc
section
variable {oc oc' : UserOcp} {m : PreModel} {d : Dims}

/-- `oc'` is `oc` with some defaults for dimensions `d` filled in. -/
structure FilledOcp (d : Dims) (oc oc' : UserOcp) : Prop where
  eq : oc' = { oc with
    lbg := oc'.lbg, ubg := oc'.ubg, lbx := oc'.lbx, ubx := oc'.ubx, lbu := oc'.lbu, ubu := oc'.ubu,
    uGuess := oc'.uGuess, lbv := oc'.lbv, ubv := oc'.ubv, vGuess := oc'.vGuess }
  lbg : orDefault oc'.lbg oc.nGPath 0 = orDefault oc.lbg oc.nGPath 0
  ubg : orDefault oc'.ubg oc.nGPath 0 = orDefault oc.ubg oc.nGPath 0
  lbx : orDefault oc'.lbx d.nX ⊥ = orDefault oc.lbx d.nX ⊥
  ubx : orDefault oc'.ubx d.nX ⊤ = orDefault oc.ubx d.nX ⊤
  lbu : orDefault oc'.lbu d.nU ⊥ = orDefault oc.lbu d.nU ⊥
  ubu : orDefault oc'.ubu d.nU ⊤ = orDefault oc.ubu d.nU ⊤
  uGuess : orDefault oc'.uGuess d.nU 0 = orDefault oc.uGuess d.nU 0
  lbv : orDefaultE oc'.lbv d.nV ⊥ = orDefaultE oc.lbv d.nV ⊥
  ubv : orDefaultE oc'.ubv d.nV ⊤ = orDefaultE oc.ubv d.nV ⊤
  vGuess : orDefaultE oc'.vGuess d.nV 0 = orDefaultE oc.vGuess d.nV 0

theorem FilledOcp.refl (d : Dims) (oc : UserOcp) : FilledOcp d oc oc := by
  constructor <;> rfl

theorem ite_both {a b : UserOcp} {c : Prop} [Decidable c] (ha : FilledOcp d oc a)
    (hb : FilledOcp d oc b) : FilledOcp d oc (if c then a else b) := by
  split
  · exact ha
  · exact hb

theorem touched_ocp (oc : UserOcp) (d : Dims) : FilledOcp d oc (oc.touched d) := by
  have f1 := orDefault_fill oc.lbg oc.nGPath 0
  have f2 := orDefault_fill oc.ubg oc.nGPath 0
  have f3 := orDefault_fill oc.lbx d.nX ⊥
  have f4 := orDefault_fill oc.ubx d.nX ⊤
  have f5 := orDefault_fill oc.lbu d.nU ⊥
  have f6 := orDefault_fill oc.ubu d.nU ⊤
  have f7 := orDefault_fill oc.uGuess d.nU 0
  have f8 := orDefaultE_fill oc.lbv d.nV ⊥
  have f9 := orDefaultE_fill oc.ubv d.nV ⊤
  have f10 := orDefaultE_fill oc.vGuess d.nV 0
  unfold UserOcp.touched
  refine ite_both (.refl _ _) ?_
  refine ite_both (.refl _ _) ?_
  refine ite_both ⟨rfl, f1, rfl, rfl, rfl, rfl, rfl, rfl, rfl, rfl, rfl⟩ ?_
  refine ite_both ⟨rfl, f1, f2, rfl, rfl, rfl, rfl, rfl, rfl, rfl, rfl⟩ ?_
  refine ite_both ⟨rfl, f1, f2, f3, rfl, rfl, rfl, rfl, rfl, rfl, rfl⟩ ?_
  refine ite_both ⟨rfl, f1, f2, f3, f4, rfl, rfl, rfl, rfl, rfl, rfl⟩ ?_
  refine ite_both ⟨rfl, f1, f2, f3, f4, f5, rfl, rfl, rfl, rfl, rfl⟩ ?_
  refine ite_both ⟨rfl, f1, f2, f3, f4, f5, f6, rfl, rfl, rfl, rfl⟩ ?_
  refine ite_both ⟨rfl, f1, f2, f3, f4, f5, f6, f7, rfl, rfl, rfl⟩ ?_
  refine ite_both ⟨rfl, f1, f2, f3, f4, f5, f6, f7, f8, rfl, rfl⟩ ?_
  refine ite_both ⟨rfl, f1, f2, f3, f4, f5, f6, f7, f8, f9, rfl⟩ ?_
  exact ⟨rfl, f1, f2, f3, f4, f5, f6, f7, f8, f9, f10⟩

theorem FilledOcp.trans {oc'' : UserOcp} (h : FilledOcp d oc oc') (h' : FilledOcp d oc' oc'') :
    FilledOcp d oc oc'' := by
  have e1 := h.eq
  have e2 := h'.eq
  have hn : oc'.nGPath = oc.nGPath := by rw [e1]
  have a1 := h'.lbg
  have a2 := h'.ubg
  rw [hn] at a1 a2
  refine ⟨?_, by rw [a1, h.lbg], by rw [a2, h.ubg], by rw [h'.lbx, h.lbx], by rw [h'.ubx, h.ubx],
    by rw [h'.lbu, h.lbu], by rw [h'.ubu, h.ubu], by rw [h'.uGuess, h.uGuess], by rw [h'.lbv, h.lbv],
    by rw [h'.ubv, h.ubv], by rw [h'.vGuess, h.vGuess]⟩
  rw [e1] at e2
  exact e2

theorem FilledOcp.preprocess (h : FilledOcp d oc oc') (hx : m.dims.nX = d.nX) (hu : m.dims.nU = d.nU)
    (hv : m.dims.nV = d.nV) : oc'.preprocess m = oc.preprocess m := by
  obtain ⟨e, h1, h2, h3, h4, h5, h6, h7, h8, h9, h10⟩ := h
  generalize oc'.lbg = a1 at e h1
  generalize oc'.ubg = a2 at e h2
  generalize oc'.lbx = a3 at e h3
  generalize oc'.ubx = a4 at e h4
  generalize oc'.lbu = a5 at e h5
  generalize oc'.ubu = a6 at e h6
  generalize oc'.uGuess = a7 at e h7
  generalize oc'.lbv = a8 at e h8
  generalize oc'.ubv = a9 at e h9
  generalize oc'.vGuess = a10 at e h10
  subst e
  unfold UserOcp.preprocess
  dsimp only
  rw [hx, hu, hv, h1, h2, h3, h4, h5, h6, h7, h8, h9, h10]

theorem orDefault_ok {α : Type} {g : Option (List α)} {n : Nat} {d : α} {l : List α} :
    orDefault g n d = .ok l ↔ LenOk g n ∧ l = g.getD (List.replicate n d) := by
  unfold orDefault LenOk
  cases g with
  | none =>
    constructor
    · intro h; cases h; exact ⟨fun l h => (by cases h), rfl⟩
    · rintro ⟨-, rfl⟩; rfl
  | some l' =>
    dsimp only
    split
    · rename_i h
      constructor
      · intro e; cases e; exact ⟨fun l e => by cases e; exact h, rfl⟩
      · rintro ⟨-, rfl⟩; rfl
    · rename_i h
      constructor
      · intro e; cases e
      · rintro ⟨h', -⟩; exact absurd (h' l' rfl) h

theorem orDefaultE_ok {α : Type} {g : Option (List α)} {n : Nat} {d : α} {l : List α} :
    orDefaultE g n d = .ok l ↔ LenOk g n ∧ l = g.getD (List.replicate n d) := by
  unfold orDefaultE LenOk
  cases g with
  | none =>
    constructor
    · intro h; cases h; exact ⟨fun l h => (by cases h), rfl⟩
    · rintro ⟨-, rfl⟩; rfl
  | some l' =>
    dsimp only
    split
    · rename_i h
      constructor
      · intro e; cases e; exact ⟨fun l e => by cases e; exact h, rfl⟩
      · rintro ⟨-, rfl⟩; rfl
    · rename_i h
      constructor
      · intro e; cases e
      · rintro ⟨h', -⟩; exact absurd (h' l' rfl) h

end
end Nosnoc
