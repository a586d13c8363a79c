import Verif.Proofs.Ocp
/-
C72: preprocessing of the optimal control problem data.
-/
namespace Nosnoc
section
variable {oc : UserOcp} {m : PreModel} {p : PreOcp}

/-- C72: `preprocess_ocp` raises exactly if a given vector has the wrong length (or `g_path_comp` does
not have two columns). -/
theorem C72_accepts_iff : (∃ p, oc.preprocess m = .ok p) ↔
    oc.gPathCompWidth = 2 ∧ LenOk oc.lbg oc.nGPath ∧ LenOk oc.ubg oc.nGPath ∧
    LenOk oc.lbx m.dims.nX ∧ LenOk oc.ubx m.dims.nX ∧ LenOk oc.lbu m.dims.nU ∧
    LenOk oc.ubu m.dims.nU ∧ LenOk oc.uGuess m.dims.nU ∧ LenOk oc.lbv m.dims.nV ∧
    LenOk oc.ubv m.dims.nV ∧ LenOk oc.vGuess m.dims.nV := by
  constructor
  · rintro ⟨p, h⟩
    unfold UserOcp.preprocess at h
    simp only [bind_eq_ok, check_eq_ok, orDefault_ok, orDefaultE_ok] at h
    obtain ⟨_, h0, _, ⟨h1, -⟩, _, ⟨h2, -⟩, _, ⟨h3, -⟩, _, ⟨h4, -⟩, _, ⟨h5, -⟩, _, ⟨h6, -⟩, _, ⟨h7, -⟩,
      _, ⟨h8, -⟩, _, ⟨h9, -⟩, _, ⟨h10, -⟩, -⟩ := h
    exact ⟨h0, h1, h2, h3, h4, h5, h6, h7, h8, h9, h10⟩
  · rintro ⟨h0, h1, h2, h3, h4, h5, h6, h7, h8, h9, h10⟩
    unfold UserOcp.preprocess
    simp only [check_pos h0, ok_bind, orDefault_ok.2 ⟨h1, rfl⟩, orDefault_ok.2 ⟨h2, rfl⟩,
      orDefault_ok.2 ⟨h3, rfl⟩, orDefault_ok.2 ⟨h4, rfl⟩, orDefault_ok.2 ⟨h5, rfl⟩,
      orDefault_ok.2 ⟨h6, rfl⟩, orDefault_ok.2 ⟨h7, rfl⟩, orDefaultE_ok.2 ⟨h8, rfl⟩,
      orDefaultE_ok.2 ⟨h9, rfl⟩, orDefaultE_ok.2 ⟨h10, rfl⟩]
    exact ⟨_, rfl⟩

/-- C72: given vectors are kept; missing bounds are `-inf`/`+inf` (for `g_path`: 0), missing guesses
0. -/
theorem C72_values (h : oc.preprocess m = .ok p) :
    p.lbg = oc.lbg.getD (List.replicate oc.nGPath 0) ∧
    p.ubg = oc.ubg.getD (List.replicate oc.nGPath 0) ∧
    p.lbx = oc.lbx.getD (List.replicate m.dims.nX ⊥) ∧
    p.ubx = oc.ubx.getD (List.replicate m.dims.nX ⊤) ∧
    p.lbu = oc.lbu.getD (List.replicate m.dims.nU ⊥) ∧
    p.ubu = oc.ubu.getD (List.replicate m.dims.nU ⊤) ∧
    p.uGuess = oc.uGuess.getD (List.replicate m.dims.nU 0) ∧
    p.lbv = oc.lbv.getD (List.replicate m.dims.nV ⊥) ∧
    p.ubv = oc.ubv.getD (List.replicate m.dims.nV ⊤) ∧
    p.vGuess = oc.vGuess.getD (List.replicate m.dims.nV 0) := by
  unfold UserOcp.preprocess at h
  simp only [bind_eq_ok, check_eq_ok, orDefault_ok, orDefaultE_ok] at h
  obtain ⟨_, h0, _, ⟨-, h1⟩, _, ⟨-, h2⟩, _, ⟨-, h3⟩, _, ⟨-, h4⟩, _, ⟨-, h5⟩, _, ⟨-, h6⟩, _, ⟨-, h7⟩,
    _, ⟨-, h8⟩, _, ⟨-, h9⟩, _, ⟨-, h10⟩, h⟩ := h
  cases h
  exact ⟨h1, h2, h3, h4, h5, h6, h7, h8, h9, h10⟩

/-- C72: preprocessing the ocp object again, after it has stored its defaults (also if that raised on
the way), gives the same result. -/
theorem C72_idempotent : (oc.touched m.dims).preprocess m = oc.preprocess m :=
  (touched_ocp oc m.dims).preprocess rfl rfl rfl

/-- C72: after a successful call all vectors are stored in the object; the expressions are unchanged. -/
theorem C72_stored (h : oc.preprocess m = .ok p) : oc.touched m.dims = { oc with
    lbg := some p.lbg, ubg := some p.ubg, lbx := some p.lbx, ubx := some p.ubx, lbu := some p.lbu,
    ubu := some p.ubu, uGuess := some p.uGuess, lbv := some p.lbv, ubv := some p.ubv,
    vGuess := some p.vGuess } := by
  obtain ⟨w, g1, g2, g3, g4, g5, g6, g7, g8, g9, g10⟩ := C72_accepts_iff.1 ⟨p, h⟩
  obtain ⟨v1, v2, v3, v4, v5, v6, v7, v8, v9, v10⟩ := C72_values h
  have key : ∀ {α : Type} {g : Option (List α)} {n : Nat}, LenOk g n → lenOk g n = true := by
    intro α g n h
    unfold lenOk
    cases g with
    | none => rfl
    | some l => simpa using h l rfl
  rw [v1, v2, v3, v4, v5, v6, v7, v8, v9, v10]
  unfold UserOcp.touched
  refine (if_neg (by rw [w]; decide)).trans ?_
  refine (if_neg (ne_false_of_eq_true (key g1))).trans ?_
  refine (if_neg (ne_false_of_eq_true (key g2))).trans ?_
  refine (if_neg (ne_false_of_eq_true (key g3))).trans ?_
  refine (if_neg (ne_false_of_eq_true (key g4))).trans ?_
  refine (if_neg (ne_false_of_eq_true (key g5))).trans ?_
  refine (if_neg (ne_false_of_eq_true (key g6))).trans ?_
  refine (if_neg (ne_false_of_eq_true (key g7))).trans ?_
  refine (if_neg (ne_false_of_eq_true (key g8))).trans ?_
  refine (if_neg (ne_false_of_eq_true (key g9))).trans ?_
  refine (if_neg (ne_false_of_eq_true (key g10))).trans ?_
  rfl

/-- A case with given and missing vectors. -/
example (hx : m.dims.nX = 2) (hu : m.dims.nU = 1) (hv : m.dims.nV = 0) :
    ∃ p, ({ UserOcp.trivial with lbx := some [0, ⊥], uGuess := some [3] } : UserOcp).preprocess m
      = .ok p := by
  refine C72_accepts_iff.2 ⟨rfl, ?_, ?_, ?_, ?_, ?_, ?_, ?_, ?_, ?_, ?_⟩ <;>
    (intro l h; simp [UserOcp.trivial] at h; try (subst h; simp [hx, hu]))

end
end Nosnoc
