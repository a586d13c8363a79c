import Verif.Proofs.WorldSteps
import Verif.Proofs.OptsEq
import Verif.Props.Ocp
import Verif.Witness.World
/-
C125: ocp objects that are used again.
-/
namespace Nosnoc
section
variable {colloc : IrkScheme → Nat → List ℝ} {orc : Nat → Oracle} {w : World}

/-- What an operation does to an ocp object. -/
theorem step_ocps (op : Action) {c : Nat} {oc : UserOcp} (h : w.ocps[c]? = some oc) :
    (w.step colloc orc op).1.ocps[c]? = some oc ∨
    (∃ oi mi o mo, op = .newSolver oi mi (some c) ∧ w.opts[oi]? = some o ∧ w.models[mi]? = some mo ∧
      (w.step colloc orc op).1.ocps[c]? = (makeProblem colloc o mo (some oc)).oc) := by
  have hlt : c < w.ocps.length := (List.getElem?_eq_some_iff.1 h).1
  cases op with
  | newOpts o' => exact .inl h
  | assign j f => exact .inl h
  | setTol j v => left; unfold World.step; dsimp only; split <;> exact h
  | setNlpMaxIter j v => left; unfold World.step; dsimp only; split <;> exact h
  | newModel um => left; unfold World.step; dsimp only; split <;> exact h
  | newOcp oc' =>
    left
    unfold World.step
    dsimp only
    rw [List.getElem?_append_left hlt, h]
  | newSolver oi mi ci =>
    unfold World.step World.newSolver
    dsimp only
    split
    · rename_i o mo ho hm
      rcases ci with _ | c'
      · left
        split <;> exact h
      · by_cases hc : c' = c
        · subst hc
          refine .inr ⟨oi, mi, o, mo, rfl, ho, hm, ?_⟩
          have ha : w.ocpArg (some c') = some oc := by unfold World.ocpArg; simp [h]
          rw [ha]
          have : ∃ oc', (makeProblem colloc o mo (some oc)).oc = some oc' := by
            unfold makeProblem
            dsimp only
            split
            · exact ⟨_, rfl⟩
            · split
              · exact ⟨_, rfl⟩
              · split <;> exact ⟨_, rfl⟩
          obtain ⟨oc', e⟩ := this
          rw [e]
          split <;> exact getElem?_set_self' h
        · left
          have : (match some c', (makeProblem colloc o mo (w.ocpArg (some c'))).oc with
              | some c, some oc => w.ocps.set c oc
              | _, _ => w.ocps)[c]? = some oc := by
            cases (makeProblem colloc o mo (w.ocpArg (some c'))).oc with
            | none => exact h
            | some x => dsimp only; rw [List.getElem?_set_ne hc]; exact h
          split <;> exact this
    · exact .inl h
  | set s f v =>
    left; unfold World.step; dsimp only; split
    · exact h
    · rw [writeBack_ocps]; exact h
  | solve s =>
    left; unfold World.step; dsimp only; split
    · exact h
    · rw [writeBack_ocps]; exact h

theorem FilledOcp.congr {d d' : Dims} {oc oc' : UserOcp} (h : FilledOcp d oc oc') (hx : d'.nX = d.nX)
    (hu : d'.nU = d.nU) (hv : d'.nV = d.nV) : FilledOcp d' oc oc' := by
  obtain ⟨h0, h1, h2, h3, h4, h5, h6, h7, h8, h9, h10⟩ := h
  exact ⟨h0, h1, h2, by rw [hx]; exact h3, by rw [hx]; exact h4, by rw [hu]; exact h5, by rw [hu]; exact h6,
    by rw [hu]; exact h7, by rw [hv]; exact h8, by rw [hv]; exact h9, by rw [hv]; exact h10⟩

/-- What a history does to an ocp object: defaults are filled in. -/
theorem ocps_kept {c : Nat} {d : Dims} {oc oc' : UserOcp} (h : w.ocps[c]? = some oc') (hf : FilledOcp d oc oc')
    {ops : List Action} (hu : Along colloc orc (OcpDims c d.nX d.nU d.nV) w ops) :
    ∃ oc'', (w.run colloc orc ops).ocps[c]? = some oc'' ∧ FilledOcp d oc oc'' := by
  induction ops generalizing w oc' with
  | nil => exact ⟨oc', h, hf⟩
  | cons op ops ih =>
    rw [run_cons]
    rcases step_ocps (colloc := colloc) (orc := orc) op h with e | ⟨oi, mi, o, mo, rfl, ho, hm, e⟩
    · exact ih e hf hu.2
    · obtain ⟨hx, hu', hv⟩ := hu.1 rfl mo hm
      have : ∃ oc2, (makeProblem colloc o mo (some oc')).oc = some oc2 ∧ FilledOcp d oc oc2 := by
        unfold makeProblem
        dsimp only
        split
        · exact ⟨_, rfl, hf⟩
        · split
          · exact ⟨_, rfl, hf⟩
          · rename_i m hpm
            obtain ⟨nC, nF, _, _, _, _, H⟩ := preprocess_pre hpm
            split
            · exact ⟨_, rfl, hf⟩
            · refine ⟨_, rfl, hf.trans ((touched_ocp oc' m.dims).congr ?_ ?_ ?_)⟩
              · rw [H.dims]; exact hx.symm
              · rw [H.dims]; exact hu'.symm
              · rw [H.dims]; exact hv.symm
      obtain ⟨oc2, e2, hf2⟩ := this
      rw [e2] at e
      exact ih e hf2 hu.2

/-- C125, part: an ocp object can be used again, with the same result as a new ocp object, if it has only
been used with models with the same numbers of states, controls and global variables. -/
theorem C125_reuse_partial {c nX nU nV : Nat} {oc : UserOcp} (h : w.ocps[c]? = some oc) {ops : List Action}
    (hu : Along colloc orc (OcpDims c nX nU nV) w ops) {w' : World} (hw' : w' = w.run colloc orc ops)
    {i j : Nat} {o : PreOpts} {mo : ModelObj} (ho : w'.opts[i]? = some o) (hm : w'.models[j]? = some mo)
    (hi : mo.user.initCheck = .ok ()) (hx : mo.user.nX = nX) (hnu : mo.user.nU = nU) (hnv : mo.user.nV = nV) :
    (∀ S, Solver.create colloc o.toOpts mo.user (some oc) = .ok S →
      (w'.step colloc orc (.newSolver i j (some c))).2 = .ok none ∧
      (w'.step colloc orc (.newSolver i j (some c))).1.solver? w'.solvers.length
        = some { S with smooth := S.smooth.or mo.smooth }) ∧
    (∀ e, Solver.create colloc o.toOpts mo.user (some oc) = .error e →
      ∃ e', (w'.step colloc orc (.newSolver i j (some c))).2 = .error e') := by
  set d : Dims := { dimsOf mo.user [] [] with nX := nX, nU := nU, nV := nV } with hd
  obtain ⟨oc', hoc', hf⟩ := ocps_kept (d := d) h (.refl d oc) hu
  rw [← hw'] at hoc'
  have ha : w'.ocpArg (some c) = some oc' := by unfold World.ocpArg; simp [hoc']
  have hc : Solver.create colloc o.toOpts mo.user (some oc)
      = Solver.create colloc o.toOpts mo.user (some oc') := by
    unfold Solver.create construct
    simp only [bind_assoc]
    refine bind_congr fun _ => bind_congr fun po => ?_
    cases hp : mo.user.preprocess po with
    | error e => rfl
    | ok m =>
      obtain ⟨nC, nF, _, _, _, _, H⟩ := preprocess_pre hp
      have e : oc'.preprocess m = oc.preprocess m := hf.preprocess (by rw [H.dims]; exact hx)
        (by rw [H.dims]; exact hnu) (by rw [H.dims]; exact hnv)
      simp only [ok_bind, Option.getD_some, e]
      rfl
  obtain ⟨a, b⟩ := newSolver_create (colloc := colloc) (ci := some c) ho hm hi
  rw [ha, ← hc] at a b
  exact ⟨fun S hS => ⟨(a S hS).1, (a S hS).2.1⟩, fun e he => (b e he).1⟩

/-- C125: a successful construction stores the completed vectors in the user's ocp object: the ones the
user gave are kept, the others are the defaults. -/
theorem C125_stored {i j c : Nat} {o : PreOpts} {mo : ModelObj} {oc : UserOcp} (ho : w.opts[i]? = some o)
    (hm : w.models[j]? = some mo) (hi : mo.user.initCheck = .ok ()) (h : w.ocps[c]? = some oc)
    (hok : (w.step colloc orc (.newSolver i j (some c))).2 = .ok none) :
    (w.step colloc orc (.newSolver i j (some c))).1.ocps[c]? = some { oc with
      lbg := some (oc.lbg.getD (List.replicate oc.nGPath 0))
      ubg := some (oc.ubg.getD (List.replicate oc.nGPath 0))
      lbx := some (oc.lbx.getD (List.replicate mo.user.nX ⊥))
      ubx := some (oc.ubx.getD (List.replicate mo.user.nX ⊤))
      lbu := some (oc.lbu.getD (List.replicate mo.user.nU ⊥))
      ubu := some (oc.ubu.getD (List.replicate mo.user.nU ⊤))
      uGuess := some (oc.uGuess.getD (List.replicate mo.user.nU 0))
      lbv := some (oc.lbv.getD (List.replicate mo.user.nV ⊥))
      ubv := some (oc.ubv.getD (List.replicate mo.user.nV ⊤))
      vGuess := some (oc.vGuess.getD (List.replicate mo.user.nV 0)) } := by
  have ha : w.ocpArg (some c) = some oc := by unfold World.ocpArg; simp [h]
  obtain ⟨a, b⟩ := newSolver_create (colloc := colloc) (ci := some c) ho hm hi
  cases hS : Solver.create colloc o.toOpts mo.user (w.ocpArg (some c)) with
  | error e =>
    obtain ⟨⟨e', he'⟩, -⟩ := b e hS
    exact absurd (hok.symm.trans he') (by simp)
  | ok S =>
    obtain ⟨e1, -⟩ := (makeProblem_create (colloc := colloc) (o := o) (uo := w.ocpArg (some c)) hi).1 S hS
    rw [ha] at e1 hS
    unfold Solver.create at hS
    simp only [bind_eq_ok] at hS
    obtain ⟨⟨po, m, poc, P⟩, hc, sm, -, hS⟩ := hS
    cases hS
    unfold construct at hc
    simp only [bind_eq_ok] at hc
    obtain ⟨-, -, po', h2, m', h3, oc', h4, P', -, he⟩ := hc
    cases he
    obtain ⟨nC, nF, _, _, _, _, H⟩ := preprocess_pre h3
    have hnew : (w.step colloc orc (.newSolver i j (some c))).1.ocps[c]? = some (oc.touched m.dims) := by
      show (w.newSolver colloc i j (some c)).1.ocps[c]? = _
      unfold World.newSolver
      rw [ho, hm]
      dsimp only
      rw [ha, e1]
      exact getElem?_set_self' h
    replace h4 : oc.preprocess m = .ok poc := h4
    rw [hnew, C72_stored h4]
    obtain ⟨v1, v2, v3, v4, v5, v6, v7, v8, v9, v10⟩ := C72_values h4
    rw [v1, v2, v3, v4, v5, v6, v7, v8, v9, v10, H.dims]
    rfl

/-- C125 fails: once a solver has been created from an ocp whose `lbx` was left at its default, every
construction with a model with another number of states raises. -/
theorem C125_other_model_violated {i j i' j' c : Nat} {o o' : PreOpts} {mo mo' : ModelObj} {oc : UserOcp}
    (ho : w.opts[i]? = some o) (hm : w.models[j]? = some mo) (hi : mo.user.initCheck = .ok ())
    (h : w.ocps[c]? = some oc) (hd : oc.lbx = none)
    (hok : (w.step colloc orc (.newSolver i j (some c))).2 = .ok none) {w' : World}
    (hw' : w' = (w.step colloc orc (.newSolver i j (some c))).1) (ho' : w'.opts[i']? = some o')
    (hm' : w'.models[j']? = some mo') (hi' : mo'.user.initCheck = .ok ()) (hx : mo'.user.nX ≠ mo.user.nX) :
    ∃ e, (w'.step colloc orc (.newSolver i' j' (some c))).2 = .error e := by
  have hs := C125_stored (orc := orc) ho hm hi h hok
  rw [← hw'] at hs
  obtain ⟨a, b⟩ := newSolver_create (colloc := colloc) (ci := some c) ho' hm' hi'
  have ha : w'.ocpArg (some c) = w'.ocps[c]? := by
    unfold World.ocpArg
    simp [hs]
  cases hS : Solver.create colloc o'.toOpts mo'.user (w'.ocpArg (some c)) with
  | error e => exact (b e hS).1
  | ok S =>
    exfalso
    rw [ha, hs] at hS
    unfold Solver.create construct at hS
    simp only [bind_eq_ok] at hS
    obtain ⟨_, ⟨-, -, po2, k2, m2, k3, oc2, k4, -⟩, -⟩ := hS
    obtain ⟨nC, nF, _, _, _, _, H⟩ := preprocess_pre k3
    have := (C72_accepts_iff.1 ⟨_, k4⟩).2.2.2.1 _ rfl
    rw [hd, H.dims] at this
    simp only [Option.getD_none, List.length_replicate] at this
    exact hx this.symm

/-- The plain model with `n` states. -/
noncomputable def wideModel (n : Nat) : UserModel := { jumpModel with nX := n, x0 := List.replicate n 0 }

theorem wide_create (colloc : IrkScheme → Nat → List ℝ) {o : Opts} (h : PlainOpts o) (n : Nat) :
    ∃ S, Solver.create colloc o (wideModel n) (some UserOcp.trivial) = .ok S ∧ S.smooth = none := by
  obtain ⟨po, hpo⟩ : ∃ po, o.preprocess colloc = .ok po := flex_preOpts h.iter (.inl h.rep)
  have h1 := preprocess_opts hpo
  have e := h1.toOpts
  have e2 : po.timeFreezing = false := by rw [e]; exact h.freezing
  obtain ⟨m, hm⟩ : ∃ m, (wideModel n).preprocess po = .ok m := by
    refine switched_ok (Fs := [⟨2, fun _ _ _ _ _ _ _ => -2⟩])
      (cs := [⟨1, fun _ x _ _ => x.getD 0 0⟩])
      (Ss := [signMat]) ⟨?_, ?_, ?_, rfl, ?_, .inr e2⟩
      ⟨rfl, rfl, rfl, rfl, ?_, rfl, le_rfl, ?_, ?_, ?_, ?_⟩ rfl
    · intro l h; cases h
    · intro l h; cases h
    · intro l h; cases h
    · intro V h; cases h
    · intro f hf
      simp only [List.mem_singleton] at hf
      rw [hf]
      simp
    · intro s hs
      obtain rfl : s = 0 := by simpa using hs
      rfl
    · intro _ s hs
      obtain rfl : s = 0 := by simpa using hs
      rfl
    · intro _ s hs i hi k hk _
      obtain rfl : s = 0 := by simpa using hs
      exact hk
    · intro _ s hs
      obtain rfl : s = 0 := by simpa using hs
      rfl
  obtain ⟨oc, hoc⟩ : ∃ oc, UserOcp.trivial.preprocess m = .ok oc := by
    obtain ⟨nC, nF, g, up, f0, acc, hp⟩ := preprocess_pre hm
    unfold UserOcp.preprocess
    rw [hp.dims]
    exact ⟨_, rfl⟩
  have hi : (wideModel n).initCheck = .ok () := by
    unfold UserModel.initCheck wideModel
    simp [jumpModel]
    rfl
  obtain ⟨P, hP⟩ := (C06_construct_iff (uo := some UserOcp.trivial) hi hpo hm hoc
    h.nS (fun _ => rfl) h.handling).2 ⟨h.stages, List.length_replicate, h.sot, h.nfe, fun hc => h.mpcc hc.1⟩
  have hs : Setup colloc o (wideModel n) (some UserOcp.trivial) po m oc P := ⟨hP, h.nS, fun _ => rfl⟩
  exact ⟨_, (hs.create (failOracle : Oracle) h.strategy).1, rfl⟩

/-- Both situations occur: an ocp object from which solvers are created, for a model with one state and,
without that, for a model with two states. -/
example : ∃ w : World, ∃ o mo mo' oc, w.opts[0]? = some o ∧ w.models[0]? = some mo ∧ w.models[1]? = some mo' ∧
    w.ocps[0]? = some oc ∧ oc.lbx = none ∧ mo.user.initCheck = .ok () ∧ mo'.user.initCheck = .ok () ∧
    (w.step colloc orc (.newSolver 0 0 (some 0))).2 = .ok none ∧
    (w.step colloc orc (.newSolver 0 1 (some 0))).2 = .ok none ∧ mo'.user.nX ≠ mo.user.nX ∧
    Along colloc orc (OcpDims 0 1 0 0) w [.newSolver 0 0 (some 0), .solve 0] := by
  set w0 : World := ⟨IpoptDict.initial, [(plainOpts 1 1 1).fresh],
    [⟨wideModel 1, none, none⟩, ⟨wideModel 2, none, none⟩], [UserOcp.trivial], []⟩ with hw0
  have hp := plainOpts_plain (tol := 1) (stages := 1) (fes := 1) one_pos one_pos one_pos
  obtain ⟨S, hS, -⟩ := wide_create colloc hp 1
  obtain ⟨S', hS', -⟩ := wide_create colloc hp 2
  refine ⟨w0, (plainOpts 1 1 1).fresh, ⟨wideModel 1, none, none⟩, ⟨wideModel 2, none, none⟩, UserOcp.trivial, rfl,
    rfl, rfl, rfl, rfl, rfl, rfl, ?_, ?_, by decide, ?_, trivial, trivial⟩
  · exact ((newSolver_create (colloc := colloc) (w := w0) (oi := 0) (mi := 0) (ci := some 0) rfl rfl rfl).1 S hS).1
  · exact ((newSolver_create (colloc := colloc) (w := w0) (oi := 0) (mi := 1) (ci := some 0) rfl rfl rfl).1 S' hS').1
  · rintro - mo ho
    cases ho
    exact ⟨rfl, rfl, rfl⟩

end
end Nosnoc
